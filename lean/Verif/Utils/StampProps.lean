import Verif.Utils.Stamp
import Mathlib.Tactic.IntervalCases
/-
C105: time stamps sort as the times do.
-/
namespace HF.Stamp

/-! ### Specification -/

/-- What `datetime` allows, from the year 1000 on. -/
structure Time.Ok (t : Time) : Prop where
  year : 1000 ≤ t.year ∧ t.year ≤ 9999
  month : t.month ≤ 12
  day : t.day ≤ 31
  hour : t.hour ≤ 23
  minute : t.minute ≤ 59
  second : t.second ≤ 59
  micro : t.micro ≤ 999999

/-- Order of dates and times of day, to the second. -/
def Time.parts (t : Time) : List Nat := [t.year, t.month, t.day, t.hour, t.minute, t.second]

/-- To the millisecond. -/
def Time.partsMs (t : Time) : List Nat := t.parts ++ [t.micro / 1000]

/-! ### Helpers -/

/-- The last `w` digits. -/
def fixed : Nat → Nat → List Char
  | 0, _ => []
  | w + 1, n => fixed w (n / 10) ++ [Nat.digitChar (n % 10)]

theorem fixed_length (w n : Nat) : (fixed w n).length = w := by
  induction w generalizing n with
  | zero => rfl
  | succ w ih => simp [fixed, ih]

theorem fixed_zero (w : Nat) : fixed w 0 = List.replicate w '0' := by
  induction w with
  | zero => rfl
  | succ w ih =>
    have : Nat.digitChar 0 = '0' := rfl
    simp only [fixed, Nat.zero_div, Nat.zero_mod, ih, this]
    exact (List.replicate_succ' ..).symm

theorem padded_fixed (w n : Nat) (hw : 0 < w) (h : n < 10 ^ w) : padded w n = fixed w n := by
  unfold padded
  have e : (toString n).toList = Nat.toDigits 10 n := Nat.toList_repr
  simp only [e]
  induction w generalizing n with
  | zero => omega
  | succ w ih =>
    by_cases hn : n < 10
    · rw [Nat.toDigits_of_lt_base hn]
      have : n / 10 = 0 := by omega
      have h2 : n % 10 = n := by omega
      simp only [fixed, this, h2, fixed_zero]
      simp
    · rw [Nat.toDigits_of_base_le (by omega) (by omega)]
      have hw0 : 0 < w := by
        rcases Nat.eq_zero_or_pos w with rfl | h'
        · simp at h; omega
        · exact h'
      have := ih (n / 10) hw0 (by rw [Nat.pow_succ] at h; omega) Nat.toList_repr
      simp only [fixed, ← this, List.length_append, List.length_singleton, List.append_assoc]
      congr 2
      omega

theorem lex_append {α : Type} [LT α] [DecidableEq α] {a b x y : List α} (hirr : ∀ c : α, ¬ c < c) (hl : a.length = b.length) :
    a ++ x < b ++ y ↔ a < b ∨ (a = b ∧ x < y) := by
  induction a generalizing b with
  | nil =>
    cases b with
    | nil => simp [hirr]
    | cons _ _ => simp at hl
  | cons c t ih =>
    cases b with
    | nil => simp at hl
    | cons d u =>
      simp only [List.cons_append, List.cons_lt_cons_iff, List.cons.injEq]
      rw [ih (by simpa using hl)]
      tauto

theorem fixed_inj {w a b : Nat} (ha : a < 10 ^ w) (hb : b < 10 ^ w) : fixed w a = fixed w b ↔ a = b := by
  refine ⟨fun h => ?_, fun h => by rw [h]⟩
  induction w generalizing a b with
  | zero => simp at ha hb; omega
  | succ w ih =>
    rw [Nat.pow_succ] at ha hb
    have h2 := List.append_inj' h rfl
    have h3 := ih (a := a / 10) (b := b / 10) (by omega) (by omega) h2.1
    have h4 := congrArg Char.toNat (List.cons.inj h2.2).1
    rw [Nat.toNat_digitChar_of_lt_ten (by omega), Nat.toNat_digitChar_of_lt_ten (by omega)] at h4
    omega

theorem digit_lt {a b : Nat} (ha : a < 10) (hb : b < 10) : Nat.digitChar a < Nat.digitChar b ↔ a < b := by
  have h : ∀ c d : Char, c < d ↔ c.toNat < d.toNat := fun c d => by
    rw [Char.lt_def, UInt32.lt_iff_toNat_lt]; rfl
  rw [h, Nat.toNat_digitChar_of_lt_ten ha, Nat.toNat_digitChar_of_lt_ten hb]
  omega

theorem char_irr (c : Char) : ¬ c < c := by rw [Char.lt_def]; exact UInt32.lt_irrefl _

theorem fixed_lt {w a b : Nat} (ha : a < 10 ^ w) (hb : b < 10 ^ w) : fixed w a < fixed w b ↔ a < b := by
  induction w generalizing a b with
  | zero => simp at ha hb; subst ha hb; simp [fixed]
  | succ w ih =>
    rw [Nat.pow_succ] at ha hb
    unfold fixed
    rw [lex_append char_irr (by rw [fixed_length, fixed_length]), ih (by omega) (by omega),
      fixed_inj (by omega) (by omega), List.cons_lt_cons_iff, digit_lt (by omega) (by omega)]
    simp
    omega

theorem chunk {w a b : Nat} {x y : List Char} (ha : a < 10 ^ w) (hb : b < 10 ^ w) :
    fixed w a ++ x < fixed w b ++ y ↔ a < b ∨ (a = b ∧ x < y) := by
  rw [lex_append char_irr (by rw [fixed_length, fixed_length]), fixed_lt ha hb, fixed_inj ha hb]

theorem chunk_eq {w a b : Nat} {x y : List Char} (ha : a < 10 ^ w) (hb : b < 10 ^ w) :
    fixed w a ++ x = fixed w b ++ y ↔ a = b ∧ x = y := by
  constructor
  · intro h
    obtain ⟨h1, h2⟩ := List.append_inj h (by rw [fixed_length, fixed_length])
    exact ⟨(fixed_inj ha hb).1 h1, h2⟩
  · rintro ⟨rfl, rfl⟩; rfl

theorem last_chunk {w a b : Nat} (ha : a < 10 ^ w) (hb : b < 10 ^ w) : fixed w a < fixed w b ↔ a < b :=
  fixed_lt ha hb

theorem char_chunk (c : Char) (x y : List Char) : c :: x < c :: y ↔ x < y := by
  rw [List.cons_lt_cons_iff]
  simp [char_irr]

theorem text_eq {t : Time} (h : t.Ok) : text t = fixed 4 t.year ++ (fixed 2 t.month ++ (fixed 2 t.day ++ ('T' ::
    (fixed 2 t.hour ++ (fixed 2 t.minute ++ fixed 2 t.second))))) := by
  have := h.year; have := h.month; have := h.day; have := h.hour; have := h.minute; have := h.second
  unfold text
  rw [padded_fixed 4 _ (by omega) (by omega), padded_fixed 2 _ (by omega) (by omega),
    padded_fixed 2 _ (by omega) (by omega), padded_fixed 2 _ (by omega) (by omega),
    padded_fixed 2 _ (by omega) (by omega), padded_fixed 2 _ (by omega) (by omega)]
  simp

theorem text_length {t : Time} (h : t.Ok) : (text t).length = 15 := by
  rw [text_eq h]
  simp [fixed_length]

theorem high_eq {t : Time} (h : t.Ok) : timestamp true t = text t ++ '.' :: fixed 3 (t.micro / 1000) := by
  have hm := h.micro
  unfold timestamp
  rw [padded_fixed 6 _ (by omega) (by omega)]
  have e : fixed 6 t.micro = fixed 3 (t.micro / 1000) ++ fixed 3 t.micro := by
    simp only [fixed, List.nil_append, List.append_assoc, List.cons_append, Nat.div_div_eq_div_mul]
  rw [e]
  simp only [if_true, List.append_assoc, List.cons_append, List.nil_append]
  rw [show text t ++ '.' :: (fixed 3 (t.micro / 1000) ++ fixed 3 t.micro) =
    (text t ++ '.' :: fixed 3 (t.micro / 1000)) ++ fixed 3 t.micro by simp]
  rw [List.take_append_of_le_length (by simp [fixed_length])]
  exact List.take_of_length_le (by simp [fixed_length])

theorem text_lt {t u : Time} (ht : t.Ok) (hu : u.Ok) : text t < text u ↔ t.parts < u.parts := by
  have := ht.year; have := ht.month; have := ht.day; have := ht.hour; have := ht.minute; have := ht.second
  have := hu.year; have := hu.month; have := hu.day; have := hu.hour; have := hu.minute; have := hu.second
  rw [text_eq ht, text_eq hu, chunk (by omega) (by omega), chunk (by omega) (by omega), chunk (by omega) (by omega),
    char_chunk, chunk (by omega) (by omega), chunk (by omega) (by omega), last_chunk (by omega) (by omega)]
  unfold Time.parts
  simp only [List.cons_lt_cons_iff, List.not_lt_nil, and_false, or_false]

theorem text_inj {t u : Time} (ht : t.Ok) (hu : u.Ok) : text t = text u ↔ t.parts = u.parts := by
  have := ht.year; have := ht.month; have := ht.day; have := ht.hour; have := ht.minute; have := ht.second
  have := hu.year; have := hu.month; have := hu.day; have := hu.hour; have := hu.minute; have := hu.second
  rw [text_eq ht, text_eq hu, chunk_eq (by omega) (by omega), chunk_eq (by omega) (by omega),
    chunk_eq (by omega) (by omega), List.cons_inj_right, chunk_eq (by omega) (by omega),
    chunk_eq (by omega) (by omega), fixed_inj (by omega) (by omega)]
  unfold Time.parts
  simp

/-! ### The property -/

/-- C105.  Time stamps, compared as text, are in the order of the times, to the second. -/
theorem C105_order (t u : Time) (ht : t.Ok) (hu : u.Ok) : timestamp false t < timestamp false u ↔ t.parts < u.parts :=
  text_lt ht hu

/-- C105.  Stamps of high resolution are in the order of the times, to the millisecond (not rounded). -/
theorem C105_order_ms (t u : Time) (ht : t.Ok) (hu : u.Ok) :
    timestamp true t < timestamp true u ↔ t.partsMs < u.partsMs := by
  have := ht.micro
  have := hu.micro
  rw [high_eq ht, high_eq hu, lex_append char_irr (by rw [text_length ht, text_length hu]), char_chunk,
    last_chunk (by omega) (by omega), text_lt ht hu, text_inj ht hu]
  unfold Time.partsMs
  rw [lex_append (fun c => Nat.lt_irrefl c) (by rfl)]
  simp only [List.cons_lt_cons_iff, List.not_lt_nil, and_false, or_false]

/-- C105.  Two stamps are the same if and only if the times are, to the second or the millisecond. -/
theorem C105_same (t u : Time) (ht : t.Ok) (hu : u.Ok) :
    (timestamp false t = timestamp false u ↔ t.parts = u.parts) ∧
    (timestamp true t = timestamp true u ↔ t.partsMs = u.partsMs) := by
  have := ht.micro
  have := hu.micro
  refine ⟨text_inj ht hu, ?_⟩
  rw [high_eq ht, high_eq hu]
  unfold Time.partsMs
  constructor
  · intro h
    obtain ⟨h1, h2⟩ := List.append_inj h (by rw [text_length ht, text_length hu])
    rw [(text_inj ht hu).1 h1, (fixed_inj (by omega) (by omega)).1 (List.cons.inj h2).2]
  · intro h
    obtain ⟨h1, h2⟩ := List.append_inj h rfl
    rw [(text_inj ht hu).2 h1, (List.cons.inj h2).1]

/-- C105.  The stamp of high resolution begins with the other one; all stamps have the same length. -/
theorem C105_length (t : Time) (ht : t.Ok) :
    (timestamp false t).length = 15 ∧ (timestamp true t).length = 19 ∧ (timestamp true t).take 15 = timestamp false t := by
  have hl := text_length ht
  refine ⟨hl, ?_, ?_⟩
  · rw [high_eq ht]; simp [hl, fixed_length]
  · rw [high_eq ht]
    exact List.take_left' hl

example : String.ofList (timestamp true ⟨2012, 12, 6, 8, 30, 12, 232999⟩) = "20121206T083012.232" := by decide +kernel
example : Time.Ok ⟨2012, 12, 6, 8, 30, 12, 232999⟩ := by constructor <;> decide

end HF.Stamp
