import Verif.Sp.Dates
import Verif.Sp.CommentProps
/-
C120: dates and times in comments.
-/
namespace HF
namespace Dates
open Utils (isDigit decValue)
open Units (isWs)

/-! ### Specification -/

/-- A day as it is written: year, month and day as digits. -/
structure DayText where
  (a b c d e f g h : Char)

def DayText.Ok (t : DayText) : Prop := ∀ x ∈ [t.a, t.b, t.c, t.d, t.e, t.f, t.g, t.h], isDigit x = true

def DayText.chars (t : DayText) : List Char := [t.a, t.b, t.c, t.d, '-', t.e, t.f, '-', t.g, t.h]

def DayText.y (t : DayText) : Nat := decValue [t.a, t.b, t.c, t.d]
def DayText.m (t : DayText) : Nat := decValue [t.e, t.f]
def DayText.n (t : DayText) : Nat := decValue [t.g, t.h]

/-- The lengths of the months. -/
def Calendar (y m d : Nat) : Prop :=
  1 ≤ d ∧ ((m ∈ [1, 3, 5, 7, 8, 10, 12] ∧ d ≤ 31) ∨ (m ∈ [4, 6, 9, 11] ∧ d ≤ 30) ∨ (m = 2 ∧ d ≤ 28) ∨
    (m = 2 ∧ d = 29 ∧ 4 ∣ y ∧ (100 ∣ y → 400 ∣ y)))

/-- A time as it is written, with seconds or without. -/
structure TimeText where
  (a b c d : Char)
  sec : Option (Char × Char)

def TimeText.Ok (t : TimeText) : Prop :=
  (∀ x ∈ [t.a, t.b, t.c, t.d], isDigit x = true) ∧ (∀ p ∈ t.sec, isDigit p.1 = true ∧ isDigit p.2 = true) ∧
  decValue [t.a, t.b] < 24 ∧ decValue [t.c, t.d] < 60 ∧ ∀ p ∈ t.sec, decValue [p.1, p.2] < 60

def TimeText.tail (t : TimeText) : List Char :=
  match t.sec with
  | none => []
  | some p => [':', p.1, p.2]

def TimeText.chars (t : TimeText) : List Char := t.a :: t.b :: ':' :: t.c :: t.d :: t.tail

/-! ### Lemmas -/

theorem calendar_iff (y m d : Nat) : Calendar y m d ↔ 1 ≤ d ∧ d ≤ daysIn y m := by
  unfold Calendar
  constructor
  · rintro ⟨h1, h⟩
    refine ⟨h1, ?_⟩
    rcases h with ⟨hm, h⟩ | ⟨hm, h⟩ | ⟨rfl, h⟩ | ⟨rfl, h, h4, h5⟩
    · simp only [List.mem_cons, List.not_mem_nil, or_false] at hm
      rcases hm with rfl | rfl | rfl | rfl | rfl | rfl | rfl <;> exact h
    · simp only [List.mem_cons, List.not_mem_nil, or_false] at hm
      rcases hm with rfl | rfl | rfl | rfl <;> exact h
    · simp only [daysIn]; split <;> omega
    · have : leap y = true := by
        simp only [leap, Bool.and_eq_true, decide_eq_true_eq, Bool.or_eq_true]
        refine ⟨Nat.mod_eq_zero_of_dvd h4, ?_⟩
        by_cases h6 : y % 100 = 0
        · exact Or.inr (Nat.mod_eq_zero_of_dvd (h5 (Nat.dvd_of_mod_eq_zero h6)))
        · exact Or.inl (by simpa using h6)
      simp only [daysIn, this, if_true]; omega
  · rintro ⟨h1, h⟩
    refine ⟨h1, ?_⟩
    unfold daysIn at h
    split at h
    all_goals first
      | (exact Or.inl ⟨by simp, h⟩)
      | (exact Or.inr (Or.inl ⟨by simp, h⟩))
      | skip
    · right; right
      split at h
      · rename_i hl
        simp only [leap, Bool.and_eq_true, decide_eq_true_eq, Bool.or_eq_true] at hl
        by_cases h28 : d ≤ 28
        · exact Or.inl ⟨rfl, h28⟩
        · refine Or.inr ⟨rfl, by omega, Nat.dvd_of_mod_eq_zero hl.1, fun h6 => ?_⟩
          rcases hl.2 with h7 | h7
          · have := Nat.mod_eq_zero_of_dvd h6
            simp [this] at h7
          · exact Nat.dvd_of_mod_eq_zero h7
      · exact Or.inl ⟨rfl, h⟩
    · omega

theorem digit_facts {c : Char} (h : isDigit c = true) :
    isWs c = false ∧ blank c = false ∧ c ≠ '-' ∧ c ≠ '+' ∧ c ≠ '.' ∧ c ≠ ':' ∧ Units.isNumChar c = true := by
  refine ⟨?_, ?_, ?_, ?_, ?_, ?_, ?_⟩
  · cases hw : isWs c with
    | false => rfl
    | true =>
      simp only [isWs, Bool.or_eq_true, decide_eq_true_eq] at hw
      rcases hw with ((((rfl | rfl) | rfl) | rfl) | rfl) | rfl <;> revert h <;> decide
  · cases hw : blank c with
    | false => rfl
    | true =>
      simp only [blank, Bool.or_eq_true, decide_eq_true_eq] at hw
      rcases hw with rfl | rfl <;> revert h <;> decide
  · rintro rfl; revert h; decide
  · rintro rfl; revert h; decide
  · rintro rfl; revert h; decide
  · rintro rfl; revert h; decide
  · simp [Units.isNumChar, h]

theorem DayText.digits {t : DayText} (h : t.Ok) : isDigit t.a = true ∧ isDigit t.b = true ∧ isDigit t.c = true ∧
    isDigit t.d = true ∧ isDigit t.e = true ∧ isDigit t.f = true ∧ isDigit t.g = true ∧ isDigit t.h = true := by
  refine ⟨?_, ?_, ?_, ?_, ?_, ?_, ?_, ?_⟩ <;> exact h _ (by simp)

theorem day_chars (t : DayText) (h : t.Ok) (r : List Char) : day (t.chars ++ r) = some (t.y, t.m, t.n, r) := by
  obtain ⟨ha, hb, hc, hd, he, hf, hg, hh⟩ := DayText.digits h
  simp only [DayText.chars, List.cons_append, List.nil_append, day, List.all_cons, List.all_nil, ha, hb, hc, hd, he, hf, hg, hh,
    Bool.and_self, if_true]
  rfl

/-- The rest of a text behind the day: nothing or a blank. -/
def Behind (r : List Char) : Prop := ∀ c ∈ r.head?, blank c = true

theorem sign_digit (a : Char) (ha : isDigit a = true) (l : List Char) : Units.sign (a :: l) = (1, a :: l) := by
  unfold Units.sign
  split
  · rename_i h1; cases h1; exact absurd ha (by decide)
  · rename_i h1; cases h1; exact absurd ha (by decide)
  · rfl

theorem parseFloat_chars (t : DayText) (h : t.Ok) (r : List Char) : Units.parseFloat (t.chars ++ r) = none := by
  obtain ⟨ha, hb, hc, hd, he, hf, hg, hh⟩ := DayText.digits h
  have hs := fun l => sign_digit t.a ha l
  have hm : isDigit '-' = false := by decide
  have he' : Units.isExpChar '-' = false := by decide
  simp [Units.parseFloat, DayText.chars, hs, List.takeWhile, List.dropWhile, ha, hb, hc, hd, hm, Units.fracPart, he']

theorem stringToValue_chars (t : DayText) (h : t.Ok) (r : List Char) (hr : Behind r) :
    Units.stringToValue (t.chars ++ r) = none := by
  obtain ⟨ha, hb, hc, hd, he, hf, hg, hh⟩ := DayText.digits h
  have hn : ∀ x, blank x = true → Units.isNumChar x = false ∧ Units.isExpChar x = false ∧ Units.isExpDigit x = false := by
    intro x hx
    simp only [blank, Bool.or_eq_true, decide_eq_true_eq] at hx
    rcases hx with rfl | rfl <;> decide
  have hm : Units.isNumChar '-' = true := by decide
  have h1 : Units.regValue (t.chars ++ r) = some (t.chars ++ [], r) := by
    cases r with
    | nil =>
      simp [Units.regValue, DayText.chars, List.takeWhile, List.dropWhile, (digit_facts ha).2.2.2.2.2.2,
        (digit_facts hb).2.2.2.2.2.2, (digit_facts hc).2.2.2.2.2.2, (digit_facts hd).2.2.2.2.2.2, (digit_facts he).2.2.2.2.2.2,
        (digit_facts hf).2.2.2.2.2.2, (digit_facts hg).2.2.2.2.2.2, (digit_facts hh).2.2.2.2.2.2, hm, Units.optChar]
    | cons x r =>
      have hx := hn x (hr x rfl)
      simp [Units.regValue, DayText.chars, List.takeWhile, List.dropWhile, (digit_facts ha).2.2.2.2.2.2,
        (digit_facts hb).2.2.2.2.2.2, (digit_facts hc).2.2.2.2.2.2, (digit_facts hd).2.2.2.2.2.2, (digit_facts he).2.2.2.2.2.2,
        (digit_facts hf).2.2.2.2.2.2, (digit_facts hg).2.2.2.2.2.2, (digit_facts hh).2.2.2.2.2.2, hm, Units.optChar, hx]
  simp only [Units.stringToValue, h1, parseFloat_chars t h []]

theorem joined_chars (t : DayText) (h : t.Ok) (r : List Char) : norm (t.chars ++ r) = t.chars ++ joined false r := by
  obtain ⟨ha, hb, hc, hd, he, hf, hg, hh⟩ := DayText.digits h
  have hm : isWs '-' = false := by decide
  simp [norm, DayText.chars, joined, (digit_facts ha).1, (digit_facts hb).1, (digit_facts hc).1,
    (digit_facts hd).1, (digit_facts he).1, (digit_facts hf).1, (digit_facts hg).1, (digit_facts hh).1, hm]

theorem blank_ws {c : Char} (h : blank c = true) : isWs c = true := by
  simp only [blank, Bool.or_eq_true, decide_eq_true_eq] at h
  rcases h with rfl | rfl <;> decide

theorem joined_blanks (ws : List Char) (hw : ∀ c ∈ ws, blank c = true) (x : Char) (hx : isWs x = false) (r : List Char) :
    joined true (ws ++ x :: r) = ' ' :: x :: joined false r := by
  induction ws with
  | nil => simp [joined, hx]
  | cons c t ih =>
    simp only [List.cons_append, joined, blank_ws (hw c (List.mem_cons_self ..)), if_true]
    exact ih fun c hc => hw c (List.mem_cons_of_mem _ hc)

theorem TimeText.tail_facts (t : TimeText) (h : t.Ok) : joined false t.tail = t.tail ∧
    seconds t.tail = some (t.sec.map fun p => decValue [p.1, p.2]) := by
  rcases t with ⟨a, b, c, d, (_ | ⟨p, q⟩)⟩
  · exact ⟨rfl, rfl⟩
  · have hp := h.2.1 (p, q) rfl
    have hc : isWs ':' = false := by decide
    constructor
    · simp [TimeText.tail, joined, hc, (digit_facts hp.1).1, (digit_facts hp.2).1]
    · simp [TimeText.tail, seconds, hp.1, hp.2]

theorem clock_chars (t : TimeText) (h : t.Ok) : clock t.chars = some (decValue [t.a, t.b], decValue [t.c, t.d], t.tail) := by
  have ha := h.1 t.a (by simp)
  have hb := h.1 t.b (by simp)
  have hc := h.1 t.c (by simp)
  have hd := h.1 t.d (by simp)
  simp [TimeText.chars, clock, ha, hb, hc, hd]

theorem joined_time (t : TimeText) (h : t.Ok) (ws : List Char) (hw : ∀ c ∈ ws, blank c = true) (hne : ws ≠ []) :
    joined false (ws ++ t.chars) = ' ' :: t.chars := by
  have ha := (digit_facts (h.1 t.a (by simp))).1
  have hb := (digit_facts (h.1 t.b (by simp))).1
  have hc := (digit_facts (h.1 t.c (by simp))).1
  have hd := (digit_facts (h.1 t.d (by simp))).1
  have h0 : isWs ':' = false := by decide
  cases ws with
  | nil => exact absurd rfl hne
  | cons c w =>
    simp only [List.cons_append, joined, blank_ws (hw c (List.mem_cons_self ..)), if_true]
    rw [TimeText.chars, joined_blanks w (fun c hc => hw c (List.mem_cons_of_mem _ hc)) t.a ha]
    simp [joined, hb, hc, hd, h0, (TimeText.tail_facts t h).1]

theorem dropWhile_blanks (ws : List Char) (hw : ∀ c ∈ ws, blank c = true) (t : TimeText) (h : t.Ok) :
    (ws ++ t.chars).dropWhile blank = t.chars := by
  induction ws with
  | nil =>
    have ha := (digit_facts (h.1 t.a (by simp))).2.1
    simp [TimeText.chars, ha]
  | cons c w ih =>
    simp only [List.cons_append, List.dropWhile, hw c (List.mem_cons_self ..)]
    exact ih fun c hc => hw c (List.mem_cons_of_mem _ hc)

/-- `datetime64` of a day, blank and time. -/
theorem datetime64_time (t : DayText) (h : t.Ok) (u : TimeText) (hu : u.Ok) :
    datetime64 (t.chars ++ ' ' :: u.chars) = if 1 ≤ t.n ∧ t.n ≤ daysIn t.y t.m then
      some ⟨t.y, t.m, t.n, some (decValue [u.a, u.b], decValue [u.c, u.d], u.sec.map fun p => decValue [p.1, p.2])⟩ else none := by
  have hs : (u.sec.map fun p => decValue [p.1, p.2]).getD 0 < 60 := by
    cases hsec : u.sec with
    | none => simp
    | some p => exact hu.2.2.2.2 p (by rw [hsec]; rfl)
  simp only [datetime64, day_chars t h, clock_chars u hu, (TimeText.tail_facts u hu).2, hu.2.2.1, hu.2.2.2.1, hs, true_or,
    and_self, if_true]

theorem daysIn_tens (y m d : Nat) (h : 1 ≤ d ∧ d ≤ daysIn y m) : tens m d = true := by
  have h1 := (calendar_iff y m d).mpr h
  simp only [tens, Bool.and_eq_true, decide_eq_true_eq]
  rcases h1.2 with ⟨hm, h⟩ | ⟨hm, h⟩ | ⟨rfl, h⟩ | ⟨rfl, h, _, _⟩
  · simp only [List.mem_cons, List.not_mem_nil, or_false] at hm
    omega
  · simp only [List.mem_cons, List.not_mem_nil, or_false] at hm
    omega
  · omega
  · omega

/-! ### Theorems -/

/-- C120: the text of a day of the calendar is that day, and that of another day stays text. -/
theorem C120_day (t : DayText) (h : t.Ok) :
    (Calendar t.y t.m t.n → value t.chars = .moment ⟨t.y, t.m, t.n, none⟩) ∧
    (¬ Calendar t.y t.m t.n → value t.chars = .text t.chars) := by
  have e0 : t.chars = t.chars ++ [] := (List.append_nil _).symm
  have e1 : norm t.chars = t.chars := by rw [e0, joined_chars t h []]; rfl
  have e2 : day t.chars = some (t.y, t.m, t.n, []) := by rw [e0]; exact day_chars t h []
  have e3 : Units.stringToValue t.chars = none := by rw [e0]; exact stringToValue_chars t h [] (by intro c hc; cases hc)
  have e4 : Units.parseFloat t.chars = none := by rw [e0]; exact parseFloat_chars t h []
  have e5 : dateregexp t.chars = false := by simp [dateregexp, e2, clock]
  have e6 : regDatetime t.chars = false := by simp [regDatetime, e2]
  rw [calendar_iff]
  constructor
  · intro hc
    simp [value, convert, e3, toNumeric, e4, e5, convDateTime, e1, e6, convDate, regDate, e2, daysIn_tens _ _ _ hc, datetime64, hc]
  · intro hc
    simp [value, convert, e3, toNumeric, e4, e5, convDateTime, e1, e6, convDate, regDate, e2, datetime64, hc]

/-- C120: the text of a day and a time, with any blanks and tabs in between, is that moment, to the minute or second; if the
day is none of the calendar it stays text. -/
theorem C120_moment (t : DayText) (h : t.Ok) (u : TimeText) (hu : u.Ok) (ws : List Char) (hw : ∀ c ∈ ws, c = ' ' ∨ c = '\t')
    (hne : ws ≠ []) :
    (Calendar t.y t.m t.n → value (t.chars ++ ws ++ u.chars) = .moment ⟨t.y, t.m, t.n,
      some (decValue [u.a, u.b], decValue [u.c, u.d], u.sec.map fun p => decValue [p.1, p.2])⟩) ∧
    (¬ Calendar t.y t.m t.n → value (t.chars ++ ws ++ u.chars) = .text (t.chars ++ ws ++ u.chars)) := by
  have hw' : ∀ c ∈ ws, blank c = true := by
    intro c hc
    rcases hw c hc with rfl | rfl <;> decide
  have hb : Behind (ws ++ u.chars) := by
    intro c hc
    cases ws with
    | nil => exact absurd rfl hne
    | cons x w => cases hc; exact hw' _ (List.mem_cons_self ..)
  rw [List.append_assoc, calendar_iff]
  have e1 : norm (t.chars ++ (ws ++ u.chars)) = t.chars ++ ' ' :: u.chars := by
    rw [joined_chars t h, joined_time u hu ws hw' hne]
  have e3 := stringToValue_chars t h _ hb
  have e4 := parseFloat_chars t h (ws ++ u.chars)
  -- the raw text: a moment only with a single blank
  have e5 : datetime64 (t.chars ++ (ws ++ u.chars)) = none ∨
      datetime64 (t.chars ++ (ws ++ u.chars)) = datetime64 (t.chars ++ ' ' :: u.chars) := by
    cases ws with
    | nil => exact absurd rfl hne
    | cons x w =>
      cases w with
      | nil =>
        rcases hw x (List.mem_cons_self ..) with rfl | rfl
        · exact Or.inr rfl
        · left
          simp [datetime64, day_chars t h]
      | cons z w =>
        left
        have hz : isDigit z = false := by
          rcases hw z (by simp) with rfl | rfl <;> decide
        have hcl : clock (z :: w ++ u.chars) = none := by
          unfold clock
          split
          · rename_i h1
            simp only [List.cons_append, List.cons.injEq] at h1
            rw [← h1.1]
            simp [hz]
          · rfl
        simp only [List.cons_append] at hcl
        simp [datetime64, day_chars t h, hcl]
  have e6 := datetime64_time t h u hu
  have e7 : clock (u.chars.dropWhile blank) = _ := (congrArg clock (dropWhile_blanks [] (by simp) u hu)).trans (clock_chars u hu)
  have hh30 : decValue [u.a, u.b] < 30 := Nat.lt_trans hu.2.2.1 (by decide)
  constructor
  · intro hc
    rw [if_pos hc] at e6
    have ht := daysIn_tens _ _ _ hc
    have e8 : regDatetime (t.chars ++ ' ' :: u.chars) = true := by
      have hbl : blank ' ' = true := by decide
      simp [regDatetime, day_chars t h, ht, List.takeWhile, List.dropWhile, hbl, e7, hh30, hu.2.2.2.1]
    rcases e5 with e5 | e5
    · simp [value, convert, e3, toNumeric, e4, e5, convDateTime, e1, e8, e6]
    · by_cases hr : dateregexp (t.chars ++ (ws ++ u.chars)) = true
      · simp [value, convert, e3, toNumeric, e4, hr, e5, e6]
      · simp [value, convert, e3, toNumeric, e4, hr, convDateTime, e1, e8, e6]
  · intro hc
    rw [if_neg hc] at e6
    have e5' : datetime64 (t.chars ++ (ws ++ u.chars)) = none := by
      rcases e5 with e5 | e5
      · exact e5
      · rw [e5, e6]
    simp [value, convert, e3, toNumeric, e4, e5', convDateTime, convDate, e1, e6]

/-- C120: a time alone, or anything else that begins with two digits and a colon, is the number of the hours. -/
theorem C120_time_refuted (a b : Char) (ha : isDigit a = true) (hb : isDigit b = true) (rest : List Char) :
    value (a :: b :: ':' :: rest) = .arr (decValue [a, b] : ℚ) none := by
  have hc : Units.isNumChar ':' = false ∧ Units.isExpChar ':' = false ∧ Units.isExpDigit ':' = false ∧ isWs ':' = false ∧
    Units.isUnitChar ':' = false := by decide
  have h1 : Units.regValue (a :: b :: ':' :: rest) = some ([a, b], ':' :: rest) := by
    simp [Units.regValue, (digit_facts ha).2.2.2.2.2.2, (digit_facts hb).2.2.2.2.2.2, hc, Units.optChar]
  have h2 : Units.parseFloat [a, b] = some (decValue [a, b] : ℚ) := by
    simp [Units.parseFloat, sign_digit a ha, ha, hb, Units.fracPart]
  have h3 : Units.regUnit (':' :: rest) = none := by
    simp [Units.regUnit, hc, Units.optChar]
  simp [value, convert, Units.stringToValue, h1, h2, h3, Units.convertWithUnit]

/-- C120: a day written with slashes is the number of its year. -/
theorem C120_slash_refuted (a b c d : Char) (h : ∀ x ∈ [a, b, c, d], isDigit x = true) (rest : List Char) :
    value (a :: b :: c :: d :: '/' :: rest) = .arr (decValue [a, b, c, d] : ℚ) none := by
  have ha := h a (by simp)
  have hb := h b (by simp)
  have hc := h c (by simp)
  have hd := h d (by simp)
  have hs : Units.isNumChar '/' = false ∧ Units.isExpChar '/' = false ∧ Units.isExpDigit '/' = false ∧ isWs '/' = false ∧
    Units.isUnitChar '/' = false := by decide
  have h1 : Units.regValue (a :: b :: c :: d :: '/' :: rest) = some ([a, b, c, d], '/' :: rest) := by
    simp [Units.regValue, (digit_facts ha).2.2.2.2.2.2, (digit_facts hb).2.2.2.2.2.2, (digit_facts hc).2.2.2.2.2.2,
      (digit_facts hd).2.2.2.2.2.2, hs, Units.optChar]
  have h2 : Units.parseFloat [a, b, c, d] = some (decValue [a, b, c, d] : ℚ) := by
    simp [Units.parseFloat, sign_digit a ha, ha, hb, hc, hd, Units.fracPart]
  have h3 : Units.regUnit ('/' :: rest) = none := by
    simp [Units.regUnit, hs, Units.optChar]
  simp [value, convert, Units.stringToValue, h1, h2, h3, Units.convertWithUnit]

/-- C120: arrays are as in the model of C53, and everything that is no array there is a number, moment or text here. -/
theorem C120_refines (s : List Char) :
    (∀ v u, Comments.value none s = .arr v u ↔ value s = .arr v u) ∧
    (∀ t, value s = .text t → t = s ∧ Comments.value none s = .other s) := by
  cases hs : Units.stringToValue s with
  | some p =>
    have h1 : value s = .arr p.1 p.2 := by simp [value, convert, hs]
    have h2 : Comments.value none s = .arr p.1 p.2 := by simp [Comments.value, hs]
    rw [h1, h2]
    exact ⟨fun v u => by simp, fun t h => by cases h⟩
  | none =>
    have h2 : Comments.value none s = .other s := by simp [Comments.value, hs]
    have hn : ∀ v u, value s ≠ .arr v u := by
      intro v u h
      simp only [value, convert, hs, Option.map_none] at h
      have k1 : ∀ w, toNumeric s = some w → w ≠ .arr v u := by
        intro w hw he
        subst he
        unfold toNumeric at hw
        split at hw
        · cases hw
        · split at hw
          · cases hd : datetime64 s <;> rw [hd] at hw <;> cases hw
          · cases hw
      have k2 : ∀ w, convDateTime s = some w → w ≠ .arr v u := by
        intro w hw he
        subst he
        unfold convDateTime at hw
        split at hw
        · cases hd : datetime64 (norm s) <;> rw [hd] at hw <;> cases hw
        · cases hw
      have k3 : ∀ w, convDate s = some w → w ≠ .arr v u := by
        intro w hw he
        subst he
        unfold convDate at hw
        split at hw
        · cases hd : datetime64 (norm s) <;> rw [hd] at hw <;> cases hw
        · cases hw
      cases h4 : toNumeric s with
      | some w => rw [h4] at h; exact k1 w h4 h
      | none =>
        cases h5 : convDateTime s with
        | some w => rw [h4, h5] at h; exact k2 w h5 h
        | none =>
          cases h6 : convDate s with
          | some w => rw [h4, h5, h6] at h; exact k3 w h6 h
          | none => rw [h4, h5, h6] at h; cases h
    refine ⟨fun v u => ⟨fun h => (by rw [h2] at h; cases h), fun h => absurd h (hn v u)⟩, fun t h => ⟨?_, h2⟩⟩
    have k : ∀ w, convert [fun s => (Units.stringToValue s).map fun p => .arr p.1 p.2, toNumeric, convDateTime, convDate] s = some w →
        ∀ t, w ≠ .text t := by
      intro w hw t he
      subst he
      simp only [convert, hs, Option.map_none] at hw
      split at hw
      · rename_i h4
        cases hw
        unfold toNumeric at h4
        split at h4
        · cases h4
        · split at h4
          · cases hd : datetime64 s <;> rw [hd] at h4 <;> cases h4
          · cases h4
      · split at hw
        · rename_i h4
          cases hw
          unfold convDateTime at h4
          split at h4
          · cases hd : datetime64 (norm s) <;> rw [hd] at h4 <;> cases h4
          · cases h4
        · split at hw
          · rename_i h4
            cases hw
            unfold convDate at h4
            split at h4
            · cases hd : datetime64 (norm s) <;> rw [hd] at h4 <;> cases h4
            · cases h4
          · cases hw
    unfold value at h
    cases hc : convert [fun s => (Units.stringToValue s).map fun p => .arr p.1 p.2, toNumeric, convDateTime, convDate] s with
    | some w => rw [hc] at h; exact absurd h (k w hc t)
    | none => rw [hc] at h; cases h; rfl

/-- C120: a whole comment, `name = day time` or `name : day`, with any white space around the separator, sets the property
of that name to that moment. -/
theorem C120_comment (n w w' : List Char) (c : Char) (hn : Comments.Name n) (hb : '[' ∉ n) (hw : Comments.Blank w)
    (hw' : Comments.Blank w') (hc : c = ':' ∨ c = '=') (t : DayText) (h : t.Ok) (hcal : Calendar t.y t.m t.n) :
    property (n ++ w ++ c :: (w' ++ t.chars)) = some (n, .moment ⟨t.y, t.m, t.n, none⟩) ∧
    ∀ (u : TimeText) (ws : List Char), u.Ok → (∀ c ∈ ws, c = ' ' ∨ c = '\t') → ws ≠ [] →
      property (n ++ w ++ c :: (w' ++ (t.chars ++ ws ++ u.chars))) = some (n, .moment ⟨t.y, t.m, t.n,
        some (decValue [u.a, u.b], decValue [u.c, u.d], u.sec.map fun p => decValue [p.1, p.2])⟩) := by
  have ha := (digit_facts (DayText.digits h).1).1
  have hh := (digit_facts (DayText.digits h).2.2.2.2.2.2.2).1
  constructor
  · have ht : Comments.Trim t.chars := by
      constructor
      · intro x hx; cases hx; exact ha
      · intro x hx; cases hx; exact hh
    have hp := Comments.C53_plain n w w' t.chars c hn hb hw hw' hc (by simp [DayText.chars]) ht
    simp only [property, hp, (C120_day t h).1 hcal]
  · intro u ws hu hws hne
    have ht : Comments.Trim (t.chars ++ ws ++ u.chars) := by
      constructor
      · intro x hx; cases hx; exact ha
      · intro x hx
        have hd := (digit_facts (hu.1 u.d (by simp))).1
        have hne' : u.chars ≠ [] := by simp [TimeText.chars]
        rw [List.getLast?_append_of_ne_nil _ hne'] at hx
        rcases u with ⟨a, b, c, d, (_ | ⟨p, q⟩)⟩
        · cases hx; exact hd
        · cases hx; exact (digit_facts (hu.2.1 (p, q) rfl).2).1
    have hp := Comments.C53_plain n w w' (t.chars ++ ws ++ u.chars) c hn hb hw hw' hc (by simp [DayText.chars]) ht
    simp only [property, hp, (C120_moment t h u hu ws hws hne).1 hcal]

/-! ### Concrete cases -/

def may8 : DayText := ⟨'2', '0', '0', '6', '0', '5', '0', '8'⟩
def feb30 : DayText := ⟨'2', '0', '0', '4', '0', '2', '3', '0'⟩
def morning : TimeText := ⟨'0', '9', '2', '6', some ('1', '1')⟩

theorem may8_ok : may8.Ok := by unfold DayText.Ok; decide
theorem feb30_ok : feb30.Ok := by unfold DayText.Ok; decide
theorem morning_ok : morning.Ok := by
  refine ⟨by decide, ?_, by decide, by decide, ?_⟩ <;>
    (intro p hp; cases hp; decide)

/-- The comment `!ClimateDateString=2006-05-08  09:26:11`. -/
example : value "2006-05-08 \t09:26:11".toList = .moment ⟨2006, 5, 8, some (9, 26, some 11)⟩ :=
  (C120_moment may8 may8_ok morning morning_ok [' ', '\t'] (by decide) (by decide)).1
    ⟨by decide, Or.inl ⟨by decide, by decide⟩⟩

/-- The same with the whole comment. -/
example : property "ClimateDate = 2006-05-08 09:26:11".toList =
    some ("ClimateDate".toList, .moment ⟨2006, 5, 8, some (9, 26, some 11)⟩) :=
  (C120_comment "ClimateDate".toList [' '] [' '] '=' ⟨⟨by decide, by decide⟩, by decide⟩ (by decide) (by unfold Comments.Blank; decide)
    (by unfold Comments.Blank; decide) (Or.inr rfl) may8 may8_ok ⟨by decide, Or.inl ⟨by decide, by decide⟩⟩).2 morning [' '] morning_ok
    (by decide) (by decide)

/-- The 30th of February stays text. -/
example : value "2004-02-30".toList = .text "2004-02-30".toList :=
  (C120_day feb30 feb30_ok).2 (by rw [calendar_iff]; decide)

/-- The comment `!Time: 09:26:11` gives the number 9. -/
example : value "09:26:11".toList = .arr 9 none := by
  have h := C120_time_refuted '0' '9' (by decide) (by decide) "26:11".toList
  have h9 : decValue ['0', '9'] = 9 := by decide
  rw [h9] at h
  exact_mod_cast h

end Dates
end HF
