import Verif.Sp.Text
import Verif.Units.Props
import Verif.DataBlock.Writes
/-
C53: properties in comments.
-/
namespace HF.Comments

open HF.DataDict.Spec
open HF.DataDict hiding rename delitem
open HF.DataBlock
open Units (isWs strip)
open Utils (isDigit decValue)
open HF.Sp (strip_pad dropWhile_head strip_strip head_dropWhile)

/-! ### Specification -/

/-- White space between the parts of a comment. -/
def Blank (w : List Char) : Prop := ∀ c ∈ w, isWs c = true

/-- Text without white space at its ends. -/
structure Trim (s : List Char) : Prop where
  head : ∀ c ∈ s.head?, isWs c = false
  last : ∀ c ∈ s.getLast?, isWs c = false

/-- Name of a property: no `:` and no `=` in it. -/
structure Name (n : List Char) : Prop extends Trim n where
  sep : ':' ∉ n ∧ '=' ∉ n

/-- Text of a unit. -/
structure UnitText (u : List Char) : Prop where
  ne : u ≠ []
  chars : ∀ c ∈ u, isUnitText c = true

/-- `[unit]` -/
def unitPart (u : List Char) : List Char := '[' :: (u ++ [']'])

/-! ### Lemmas -/

theorem dropWhile_blank {w : List Char} (hw : Blank w) (l : List Char) : (w ++ l).dropWhile isWs = l.dropWhile isWs := by
  induction w with
  | nil => rfl
  | cons c w ih =>
    rw [List.cons_append, List.dropWhile_cons, if_pos (hw c (by simp)), ih fun x hx => hw x (by simp [hx])]

theorem matchValue_ok {w w' v : List Char} {c : Char} (hw : Blank w) (hw' : Blank w') (hc : c = ':' ∨ c = '=')
    (hv : v ≠ []) (hh : ∀ x ∈ v.head?, isWs x = false) : matchValue (w ++ c :: (w' ++ v)) = some v := by
  have hcw : isWs c = false := by rcases hc with rfl | rfl <;> decide
  unfold matchValue
  rw [dropWhile_blank hw, List.dropWhile_cons, hcw]
  simp only [Bool.false_eq_true, if_false, hc, if_true]
  rw [dropWhile_blank hw', dropWhile_head hh]
  cases v with
  | nil => exact absurd rfl hv
  | cons x v => rfl

/-- What the text after white space starts with decides that there is no value. -/
theorem matchValue_none {s : List Char} (h : ∀ c ∈ (s.dropWhile isWs).head?, c ≠ ':' ∧ c ≠ '=') :
    matchValue s = none := by
  unfold matchValue
  cases e : s.dropWhile isWs with
  | nil => rfl
  | cons c r =>
    have := h c (by simp [e])
    simp [this.1, this.2]

theorem matchTail_plain {s : List Char} (h : ∀ c ∈ (s.dropWhile isWs).head?, c ≠ '[') :
    matchTail s = (matchValue s).map fun v => (none, v) := by
  unfold matchTail
  split
  · rename_i r e; exact absurd rfl (h '[' (by simp [e]))
  · rfl

theorem matchTail_bracket {s r : List Char} (h : s.dropWhile isWs = '[' :: r) :
    matchTail s = if ']' ∈ r ∧ r.takeWhile (· ≠ ']') ≠ [] ∧ (r.takeWhile (· ≠ ']')).all isUnitText then
      (matchValue (r.dropWhile (· ≠ ']')).tail).map fun v => (some (r.takeWhile (· ≠ ']')), v) else none := by
  unfold matchTail
  rw [h]
  simp only
  split
  · rename_i u c t e
    have hm : ']' ∈ r := by
      have h1 : c = ']' := by
        have := head_dropWhile (l := r) (p := fun x => decide (x ≠ ']')) (c := c) (by rw [e]; rfl)
        simpa using this
      have h2 := (List.dropWhile_suffix (l := r) (fun x => decide (x ≠ ']'))).subset (by rw [e]; exact List.mem_cons_self)
      rwa [h1] at h2
    simp only [hm, true_and, e, List.tail_cons]
  · rename_i u e
    have hm : ']' ∉ r := by
      intro hc
      rw [List.dropWhile_eq_nil_iff] at e
      simpa using e _ hc
    simp [hm]

/-- Passing characters after which nothing matches. -/
theorem matchFrom_skip (pre n s : List Char) (h : ∀ a b, n = a ++ b → b ≠ [] → matchTail (b ++ s) = none) :
    matchFrom pre (n ++ s) = matchFrom (pre ++ n) s := by
  induction n generalizing pre with
  | nil => simp
  | cons c n ih =>
    have h0 := h [] (c :: n) rfl (by simp)
    rw [List.cons_append] at h0
    rw [List.cons_append, matchFrom, h0]
    simp only
    rw [ih (pre ++ [c]) fun a b e hb => h (c :: a) b (by rw [e]; rfl) hb]
    simp

theorem matchFrom_hit {pre s : List Char} {t : Option (List Char) × List Char} (h : matchTail s = some t) :
    matchFrom pre s = some (pre, t.1, t.2) := by
  cases s with
  | nil => simp [matchFrom, h]
  | cons c s => simp [matchFrom, h]

theorem dropWhile_split (b s : List Char) :
    Blank b ∨ ∃ x y, (b ++ s).dropWhile isWs = x :: (y ++ s) ∧ x ∈ b ∧ (∀ z ∈ y, z ∈ b) ∧ isWs x = false ∧
      ∃ w, Blank w ∧ b = w ++ x :: y := by
  induction b with
  | nil => exact Or.inl (by simp [Blank])
  | cons c b ih =>
    by_cases hc : isWs c = true
    · rcases ih with h | ⟨x, y, h1, h2, h3, h4, w, h5, h6⟩
      · left; intro x hx; rcases List.mem_cons.1 hx with rfl | hx; exacts [hc, h x hx]
      · right
        refine ⟨x, y, ?_, by simp [h2], fun z hz => by simp [h3 z hz], h4, c :: w, ?_, by rw [h6]; rfl⟩
        · rw [List.cons_append, List.dropWhile_cons, if_pos hc, h1]
        · intro z hz; rcases List.mem_cons.1 hz with rfl | hz; exacts [hc, h5 z hz]
    · right
      refine ⟨c, b, ?_, by simp, fun z hz => by simp [hz], by simpa using hc, [], by simp [Blank], rfl⟩
      rw [List.cons_append, List.dropWhile_cons, if_neg hc]

/-- A suffix of a name is not blank. -/
theorem Name.not_blank {n a b : List Char} (hn : Trim n) (e : n = a ++ b) (hb : b ≠ []) : ¬ Blank b := by
  intro h
  have hl : n.getLast? = some (b.getLast hb) := by
    rw [e, List.getLast?_append, List.getLast?_eq_some_getLast hb]; rfl
  have := hn.last _ hl
  rw [h _ (List.getLast_mem hb)] at this
  simp at this

/-! ### C53 -/

/-- C53: `name = value` or `name : value`. -/
theorem C53_plain (n w w' v : List Char) (c : Char) (hn : Name n) (hb : '[' ∉ n) (hw : Blank w)
    (hw' : Blank w') (hc : c = ':' ∨ c = '=') (hv : v ≠ []) (ht : Trim v) :
    parse (n ++ w ++ c :: (w' ++ v)) = some (n, none, v) := by
  have hcw : isWs c = false := by rcases hc with rfl | rfl <;> decide
  rw [parse, List.append_assoc, matchFrom_skip [] n]
  · apply matchFrom_hit (t := (none, v))
    rw [matchTail_plain, matchValue_ok hw hw' hc hv ht.head]
    · rfl
    · rw [dropWhile_blank hw, List.dropWhile_cons, hcw]
      simp only [Bool.false_eq_true, if_false, List.head?_cons, Option.mem_def, Option.some.injEq]
      rintro x rfl
      rcases hc with rfl | rfl <;> decide
  · intro a b e hbn
    rcases dropWhile_split b (w ++ c :: (w' ++ v)) with h | ⟨x, y, h1, h2, -, -⟩
    · exact absurd h (Name.not_blank hn.toTrim e hbn)
    · have hxn : x ∈ n := by rw [e]; simp [h2]
      have h3 : x ≠ '[' := fun h => hb (h ▸ hxn)
      rw [matchTail_plain (by rw [h1]; simpa using h3), matchValue_none (by
        rw [h1]
        simp only [List.head?_cons, Option.mem_def, Option.some.injEq]
        rintro z rfl
        exact ⟨fun h => hn.sep.1 (h ▸ hxn), fun h => hn.sep.2 (h ▸ hxn)⟩)]
      rfl

theorem unit_take {u t : List Char} (hu : UnitText u) :
    (u ++ ']' :: t).takeWhile (· ≠ ']') = u ∧ (u ++ ']' :: t).dropWhile (· ≠ ']') = ']' :: t := by
  have h : ∀ c ∈ u, decide (c ≠ ']') = true := by
    intro c hc
    have := hu.chars c hc
    simp only [ne_eq, decide_eq_true_eq]
    rintro rfl
    revert this; decide
  constructor
  · rw [List.takeWhile_append_of_pos h]; simp
  · rw [List.dropWhile_append_of_pos h]; simp

/-- C53: `name [unit] = value`. -/
theorem C53_unit (n u w1 w2 w3 v : List Char) (c : Char) (hn : Name n) (hu : UnitText u) (hw1 : Blank w1)
    (hw2 : Blank w2) (hw3 : Blank w3) (hc : c = ':' ∨ c = '=') (hv : v ≠ []) (ht : Trim v) :
    parse (n ++ w1 ++ unitPart u ++ w2 ++ c :: (w3 ++ v)) = some (n, some u, v) := by
  have htail : (u ++ ']' :: (w2 ++ c :: (w3 ++ v))).takeWhile (· ≠ ']') = u ∧ _ := unit_take hu
  have e0 : n ++ w1 ++ unitPart u ++ w2 ++ c :: (w3 ++ v) =
      n ++ (w1 ++ '[' :: (u ++ ']' :: (w2 ++ c :: (w3 ++ v)))) := by simp [unitPart]
  rw [e0, parse, matchFrom_skip [] n]
  · apply matchFrom_hit (t := (some u, v))
    have hb : (w1 ++ '[' :: (u ++ ']' :: (w2 ++ c :: (w3 ++ v)))).dropWhile isWs =
        '[' :: (u ++ ']' :: (w2 ++ c :: (w3 ++ v))) := by
      rw [dropWhile_blank hw1, List.dropWhile_cons]
      simp [show isWs '[' = false by decide]
    rw [matchTail_bracket hb, htail.1, htail.2, if_pos, List.tail_cons, matchValue_ok hw2 hw3 hc hv ht.head]
    · rfl
    · exact ⟨by simp, hu.ne, List.all_eq_true.2 hu.chars⟩
  · intro a b e hbn
    rcases dropWhile_split b (w1 ++ '[' :: (u ++ ']' :: (w2 ++ c :: (w3 ++ v)))) with h |
      ⟨x, y, h1, h2, h3, -⟩
    · exact absurd h (Name.not_blank hn.toTrim e hbn)
    · have hxn : x ∈ n := by rw [e]; simp [h2]
      have hyn : ∀ z ∈ y, z ∈ n := fun z hz => by rw [e]; simp [h3 z hz]
      by_cases hx : x = '['
      · subst hx
        rw [matchTail_bracket h1]
        by_cases hyb : ']' ∈ y
        · -- the bracket closes within the name: what follows has no separator at its start
          obtain ⟨y1, y2, rfl, hy1⟩ := List.eq_append_cons_of_mem hyb
          rw [List.append_assoc, List.cons_append]
          have hd : ∀ t : List Char, (y1 ++ ']' :: t).dropWhile (· ≠ ']') = ']' :: t := by
            intro t
            rw [List.dropWhile_append_of_pos (by
              intro c hc; simp only [ne_eq, decide_eq_true_eq]; rintro rfl; exact hy1 hc)]
            simp
          rw [hd, List.tail_cons, matchValue_none]
          · split <;> rfl
          · rcases dropWhile_split y2 (w1 ++ '[' :: (u ++ ']' :: (w2 ++ c :: (w3 ++ v)))) with h |
              ⟨x, y', g1, g2, -, -⟩
            · rw [dropWhile_blank h, dropWhile_blank hw1, List.dropWhile_cons]
              simp [show isWs '[' = false by decide]
            · have hxn : x ∈ n := hyn x (by simp [g2])
              rw [g1]
              simp only [List.head?_cons, Option.mem_def, Option.some.injEq]
              rintro z rfl
              exact ⟨fun h => hn.sep.1 (h ▸ hxn), fun h => hn.sep.2 (h ▸ hxn)⟩
        · -- the bracket does not close before that of the unit opens
          have hpos : ∀ c ∈ y ++ w1 ++ ['['], decide (c ≠ ']') = true := by
            intro c hc
            simp only [ne_eq, decide_eq_true_eq]
            rintro rfl
            simp only [List.mem_append, List.mem_singleton] at hc
            rcases hc with (hc | hc) | hc
            · exact hyb hc
            · have := hw1 _ hc; revert this; decide
            · revert hc; decide
          have e1 : y ++ (w1 ++ '[' :: (u ++ ']' :: (w2 ++ c :: (w3 ++ v)))) =
              (y ++ w1 ++ ['[']) ++ (u ++ ']' :: (w2 ++ c :: (w3 ++ v))) := by simp
          rw [e1, List.takeWhile_append_of_pos hpos, if_neg]
          rintro ⟨-, -, h⟩
          rw [List.all_eq_true] at h
          have := h '[' (by simp)
          revert this; decide
      · rw [matchTail_plain (by rw [h1]; simpa using hx), matchValue_none (by
          rw [h1]
          simp only [List.head?_cons, Option.mem_def, Option.some.injEq]
          rintro z rfl
          exact ⟨fun h => hn.sep.1 (h ▸ hxn), fun h => hn.sep.2 (h ▸ hxn)⟩)]
        rfl

theorem parse_none (s : List Char) (h : ':' ∉ s ∧ '=' ∉ s) : parse s = none := by
  have hv : ∀ s : List Char, ':' ∉ s ∧ '=' ∉ s → matchValue s = none := by
    intro s h
    apply matchValue_none
    intro c hc
    have : c ∈ s := (List.dropWhile_suffix (l := s) isWs).subset (List.mem_of_mem_head? hc)
    exact ⟨fun e => h.1 (e ▸ this), fun e => h.2 (e ▸ this)⟩
  have ht : ∀ s : List Char, ':' ∉ s ∧ '=' ∉ s → matchTail s = none := by
    intro s h
    by_cases hb : ∀ c ∈ (s.dropWhile isWs).head?, c ≠ '['
    · rw [matchTail_plain hb, hv s h]; rfl
    · push Not at hb
      obtain ⟨c, h1, rfl⟩ := hb
      obtain ⟨r, hr⟩ : ∃ r, s.dropWhile isWs = '[' :: r := by
        cases e : s.dropWhile isWs with
        | nil => rw [e] at h1; simp at h1
        | cons d r => rw [e] at h1; simp at h1; exact ⟨r, by rw [h1]⟩
      rw [matchTail_bracket hr, hv]
      · split <;> rfl
      · have hsub : ∀ c ∈ (r.dropWhile (· ≠ ']')).tail, c ∈ s := by
          intro c hc
          have h2 := (List.dropWhile_suffix (l := r) (· ≠ ']')).subset (List.mem_of_mem_tail hc)
          have h3 : c ∈ s.dropWhile isWs := by rw [hr]; exact List.mem_cons_of_mem _ h2
          exact (List.dropWhile_suffix (l := s) isWs).subset h3
        exact ⟨fun hc => h.1 (hsub _ hc), fun hc => h.2 (hsub _ hc)⟩
  have hf : ∀ (s pre : List Char), ':' ∉ s ∧ '=' ∉ s → matchFrom pre s = none := by
    intro s
    induction s with
    | nil => intro pre _; rfl
    | cons c s ih =>
      intro pre h
      rw [matchFrom, ht _ h]
      exact ih _ ⟨fun hc => h.1 (by simp [hc]), fun hc => h.2 (by simp [hc])⟩
  exact hf s [] h

/-- `!`s in front and blanks around do not matter. -/
theorem clean_text (k : Nat) (w w' s : List Char) (hw : Blank w) (hw' : Blank w') (hs : s ≠ [])
    (ht : Trim s) (hb : w ≠ [] ∨ s.head? ≠ some '!') :
    clean (List.replicate k '!' ++ (w ++ s ++ w')) = s := by
  have h1 : (List.replicate k '!' ++ (w ++ s ++ w')).dropWhile (· = '!') = w ++ s ++ w' := by
    rw [List.dropWhile_append_of_pos (by simp)]
    apply dropWhile_head
    intro c hc
    simp only [decide_eq_false_iff_not]
    rintro rfl
    cases w with
    | nil =>
      cases s with
      | nil => exact hs rfl
      | cons x s =>
        simp at hc hb
        exact hb hc
    | cons x w =>
      simp at hc
      have := hw x (by simp)
      rw [hc] at this
      revert this; decide
  rw [clean, h1]
  unfold strip
  rw [List.append_assoc, dropWhile_blank hw]
  have h2 : (s ++ w').dropWhile isWs = s ++ w' := by
    apply dropWhile_head
    cases s with
    | nil => exact absurd rfl hs
    | cons x s => simpa using ht.head
  rw [h2, List.reverse_append, dropWhile_blank (by intro c hc; exact hw' c (List.mem_reverse.1 hc)),
    dropWhile_head (by rw [List.head?_reverse]; exact ht.last), List.reverse_reverse]

/-- C53: a comment that declares a property, whatever comes before it, sets this property and no
other one. -/
theorem C53_declared (cs : List (List Char)) (c n v : List Char) (u : Option (List Char))
    (hp : parse (clean c) = some (n, u, v)) (m : String) :
    lookup (properties (cs ++ [c])) m =
      if m = String.ofList n then some (value u v) else lookup (properties cs) m := by
  have hne : clean c ≠ [] := by
    intro h; rw [h] at hp; simp [parse, matchFrom, matchTail, matchValue] at hp
  have : properties (cs ++ [c]) = assign (properties cs) (String.ofList n) (value u v) := by
    rw [properties, List.foldl_append]
    simp only [List.foldl_cons, List.foldl_nil]
    unfold add
    cases e : clean c with
    | nil => exact absurd e hne
    | cons x t => rw [e] at hp; simp only [hp]; rfl
  rw [this, lookup_assign]

/-- C53: a comment without `:` and `=` sets nothing. -/
theorem C53_other (cs : List (List Char)) (c : List Char) (h : ':' ∉ c ∧ '=' ∉ c) :
    properties (cs ++ [c]) = properties cs := by
  have hsub : ∀ x ∈ clean c, x ∈ c := by
    intro x hx
    unfold clean strip at hx
    have h1 := (List.dropWhile_suffix (l := ((c.dropWhile (· = '!')).dropWhile isWs).reverse) isWs).subset
      (List.mem_reverse.1 hx)
    have h2 := (List.dropWhile_suffix (l := c.dropWhile (· = '!')) isWs).subset (List.mem_reverse.1 h1)
    exact (List.dropWhile_suffix (l := c) (· = '!')).subset h2
  rw [properties, List.foldl_append]
  simp only [List.foldl_cons, List.foldl_nil]
  have hp := parse_none (clean c) ⟨fun hc => h.1 (hsub _ hc), fun hc => h.2 (hsub _ hc)⟩
  have ha : ∀ m, add m c = m := by
    intro m
    unfold add
    cases e : clean c with
    | nil => rfl
    | cons x t => rw [e] at hp; simp only [hp]
  exact ha _

/-- Names occur once. -/
theorem properties_nodup (cs : List (List Char)) : (keys (properties cs)).Nodup := by
  induction cs using List.reverseRecOn with
  | nil => exact List.nodup_nil
  | append_singleton cs c ih =>
    rw [properties, List.foldl_append]
    simp only [List.foldl_cons, List.foldl_nil]
    unfold add
    split
    · exact ih
    · split
      · exact keys_assigns_nodup [(_, _)] _ ih
      · exact ih

/-! ### Values -/

open Units in
/-- C53: a number with a unit in brackets after the name: multiplied by the prefix, with the base
unit. -/
theorem C53_number_unit (neg : Bool) (i : List Char) (f : Option (List Char)) (u : List Char)
    (hi : i.all isDigit = true) (hf : (f.getD []).all isDigit = true) (hne : i ≠ [] ∨ f.getD [] ≠ [])
    (c : Char) (e : Int) (hc : prefixPower c = some e) (hu : BaseUnit u) :
    value (some (c :: u)) (decimalText neg i f) = .arr (decimal neg i (f.getD []) * (10 : ℚ) ^ e) (some u) := by
  have h1 := parseFloat_text neg i f [] hi hf hne (by simp)
  rw [List.append_nil] at h1
  have h2 := C17_prefixed [] [] u c e rfl rfl hc hu
  simp only [List.nil_append, List.append_nil] at h2
  have h3 : unitToMultiplier (strip (c :: u)) = unitToMultiplier (c :: u) := by
    unfold unitToMultiplier; rw [strip_strip]
  have h4 : strip (c :: u) ≠ [] := by
    intro h
    have : unitToMultiplier (c :: u) = (1, some []) := by
      rw [← h3, h]; rfl
    rw [h2] at this
    simp only [Prod.mk.injEq, Option.some.injEq] at this
    have hb := (baseUnit_iff u).2 hu
    rw [this.2] at hb
    revert hb; decide
  simp only [value, h1, expPart, convertWithUnit, h4, if_false, h3, h2]

open Units in
/-- C53: a number followed by its unit. -/
theorem C53_number_text (neg : Bool) (i : List Char) (f : Option (List Char)) (ws u : List Char)
    (hi : i.all isDigit = true) (hf : (f.getD []).all isDigit = true) (hne : i ≠ [] ∨ f.getD [] ≠ [])
    (hws : ws.all isWs = true) (hu : u ≠ []) (huc : u.all isUnitChar = true)
    (hattach : ws ≠ [] ∨ ∀ c ∈ u.head?, isExpChar c = false) :
    value none (decimalText neg i f ++ ws ++ u) =
      .arr (decimal neg i (f.getD []) * (unitToMultiplier u).1) (unitToMultiplier u).2 := by
  simp only [value, C43_value neg i f ws u hi hf hne hws hu huc hattach]

open Units in
theorem stringToValue_signed (neg : Bool) (i : List Char) (f : Option (List Char)) (s : Char) (rest : List Char)
    (hi : i.all isDigit = true) (hf : (f.getD []).all isDigit = true) (hne : i ≠ [] ∨ f.getD [] ≠ [])
    (hs : s = '-' ∨ s = '+') : stringToValue (decimalText neg i f ++ 'e' :: s :: rest) = none := by
  have hdn : ∀ c, isDigit c = true → isNumChar c = true := by intro c h; simp [isNumChar, h]
  have htext : (decimalText neg i f).all isNumChar = true := by
    unfold decimalText
    simp only [List.all_append, Bool.and_eq_true]
    refine ⟨⟨?_, ?_⟩, ?_⟩
    · cases neg <;> rfl
    · rw [List.all_eq_true] at hi ⊢; exact fun c h => hdn c (hi c h)
    · cases f with
      | none => rfl
      | some f =>
        simp only [List.all_cons, Bool.and_eq_true]
        refine ⟨rfl, ?_⟩
        simp only [Option.getD_some] at hf
        rw [List.all_eq_true] at hf ⊢; exact fun c h => hdn c (hf c h)
  have htne : decimalText neg i f ≠ [] := by
    unfold decimalText
    intro h
    simp only [List.append_eq_nil_iff] at h
    obtain ⟨⟨_, h1⟩, h2⟩ := h
    cases f with
    | none => simp [h1] at hne
    | some f => cases h2
  have hnum : isNumChar 'e' = false := by decide
  have hexp : isExpChar 'e' = true := by decide
  have hed : isExpDigit s = true := by rcases hs with rfl | rfl <;> decide
  have hreg : regValue (decimalText neg i f ++ 'e' :: s :: rest) =
      some (decimalText neg i f ++ ['e', s], rest) := by
    unfold regValue
    rw [takeWhile_all htext (by simp [hnum]), dropWhile_all htext (by simp [hnum])]
    simp only [htne, if_false, optChar, hexp, if_true, hed, List.append_assoc, List.cons_append, List.nil_append]
  have hparse : parseFloat (decimalText neg i f ++ ['e', s]) = none := by
    rw [parseFloat_text neg i f ['e', s] hi hf hne (by simp; decide)]
    rcases hs with rfl | rfl <;> rfl
  unfold stringToValue
  simp only [hreg, hparse]

open Units in
/-- C53 fails for a number with a signed exponent: it does not become an array with a unit. -/
theorem C53_signed_exponent_refuted (neg : Bool) (i : List Char) (f : Option (List Char)) (s : Char)
    (rest : List Char)
    (hi : i.all isDigit = true) (hf : (f.getD []).all isDigit = true) (hne : i ≠ [] ∨ f.getD [] ≠ [])
    (hs : s = '-' ∨ s = '+') :
    value none (decimalText neg i f ++ 'e' :: s :: rest) = .other (decimalText neg i f ++ 'e' :: s :: rest) := by
  simp only [value, stringToValue_signed neg i f s rest hi hf hne hs]

open Units in
/-- C53 fails for a number with an exponent of two digits: `2e10` is read as 20. -/
theorem C53_exponent_refuted (neg : Bool) (i : List Char) (f : Option (List Char)) (d e : Char)
    (rest : List Char)
    (hi : i.all isDigit = true) (hf : (f.getD []).all isDigit = true) (hne : i ≠ [] ∨ f.getD [] ≠ [])
    (hd : isDigit d = true) (he : isDigit e = true) :
    value none (decimalText neg i f ++ 'e' :: d :: e :: rest) =
      .arr (decimal neg i (f.getD []) * (10 : ℚ) ^ ((decValue [d] : Nat) : Int)) none := by
  simp only [value, C43_exponent_refuted neg i f d e rest hi hf hne hd he]

end HF.Comments
