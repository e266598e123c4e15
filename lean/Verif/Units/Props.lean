import Mathlib.Tactic.Ring
import Mathlib.Tactic.FieldSimp
import Mathlib.Tactic.NormNum
import Verif.Units.Model
/-
C17: units to multipliers.  C43: strings with unit.  C44: SI values in configuration files.
-/
namespace HF
namespace Units
open Utils (isDigit decValue)

/-! ### C17 -/

/-- Specification: the SI prefixes below/above which hftools does not go, with their powers of ten,
written out independently of the table of the code. -/
def prefixPower : Char → Option Int
  | 'd' => some (-1) | 'c' => some (-2) | 'm' => some (-3) | 'u' => some (-6) | 'n' => some (-9)
  | 'p' => some (-12) | 'f' => some (-15) | 'a' => some (-18) | 'k' => some 3 | 'M' => some 6
  | 'G' => some 9 | 'T' => some 12 | 'P' => some 15 | 'E' => some 18 | _ => none

/-- The base units. -/
def BaseUnit (u : List Char) : Prop :=
  u ∈ (["Hz", "s", "S", "Ohm", "m", "V", "A", "F", "W"].map String.toList)

theorem baseUnit_iff (u : List Char) : u ∈ siunitNames ↔ BaseUnit u := by
  unfold BaseUnit
  have : (["Hz", "s", "S", "Ohm", "m", "V", "A", "F", "W"].map String.toList) = siunitNames := by
    decide
  rw [this]

theorem lookup_prefix (c : Char) : siprefixes.lookup c = prefixPower c := by
  by_cases h0 : c = 'd'
  · subst h0; rfl
  by_cases h1 : c = 'c'
  · subst h1; rfl
  by_cases h2 : c = 'm'
  · subst h2; rfl
  by_cases h3 : c = 'u'
  · subst h3; rfl
  by_cases h4 : c = 'n'
  · subst h4; rfl
  by_cases h5 : c = 'p'
  · subst h5; rfl
  by_cases h6 : c = 'f'
  · subst h6; rfl
  by_cases h7 : c = 'a'
  · subst h7; rfl
  by_cases h8 : c = 'k'
  · subst h8; rfl
  by_cases h9 : c = 'M'
  · subst h9; rfl
  by_cases h10 : c = 'G'
  · subst h10; rfl
  by_cases h11 : c = 'T'
  · subst h11; rfl
  by_cases h12 : c = 'P'
  · subst h12; rfl
  by_cases h13 : c = 'E'
  · subst h13; rfl
  have e : ∀ d : Char, c ≠ d → (c == d) = false := fun d h => by simpa using h
  have hr : prefixPower c = none := by
    unfold prefixPower
    split <;> first | rfl | exact absurd rfl (by assumption)
  rw [hr]
  simp only [siprefixes, List.lookup, e _ h0, e _ h1, e _ h2, e _ h3, e _ h4, e _ h5, e _ h6, e _ h7, e _ h8, e _ h9, e _ h10, e _ h11, e _ h12, e _ h13]

/-- Text without white space at the ends. -/
def Trimmed (s : List Char) : Prop := (∀ c ∈ s.head?, isWs c = false) ∧ (∀ c ∈ s.getLast?, isWs c = false)

theorem dropWhile_all {p : Char → Bool} {l m : List Char} (h : l.all p = true)
    (hm : ∀ c ∈ m.head?, p c = false) : (l ++ m).dropWhile p = m := by
  induction l with
  | nil =>
    cases m with
    | nil => rfl
    | cons c m => simp [hm c (by simp)]
  | cons a l ih =>
    simp only [List.all_cons, Bool.and_eq_true] at h
    simp only [List.cons_append, List.dropWhile_cons, h.1, if_true]
    exact ih h.2

theorem strip_pad (l s r : List Char) (hl : l.all isWs = true) (hr : r.all isWs = true)
    (hs : Trimmed s) (hne : s ≠ []) : strip (l ++ s ++ r) = s := by
  unfold strip
  rw [List.append_assoc, dropWhile_all hl, List.reverse_append, dropWhile_all (by simpa using hr)]
  · simp
  · simpa using hs.2
  · intro c hc
    cases s with
    | nil => exact absurd rfl hne
    | cons a s => exact hs.1 c (by simpa using hc)

theorem strip_trimmed (s : List Char) (hs : Trimmed s) (hne : s ≠ []) : strip s = s := by
  simpa using strip_pad [] s [] rfl rfl hs hne

/-- C17.  A prefix before a base unit, with blanks around, is split; the multiplier is the power of
ten of the prefix. -/
theorem C17_prefixed (l r u : List Char) (c : Char) (e : Int) (hl : l.all isWs = true)
    (hr : r.all isWs = true) (hc : prefixPower c = some e) (hu : BaseUnit u) :
    unitToMultiplier (l ++ (c :: u) ++ r) = ((10 : ℚ) ^ e, some u) := by
  have hu' : u ∈ siunitNames := (baseUnit_iff u).2 hu
  have hw : isWs c = false := by
    unfold prefixPower at hc
    split at hc <;> first | decide | simp at hc
  have hall : ∀ u ∈ siunitNames, u ≠ [] ∧ ∀ d ∈ u.getLast?, isWs d = false := by decide
  obtain ⟨hne, hlast⟩ := hall u hu'
  have ht : Trimmed (c :: u) := by
    refine ⟨by simpa using hw, ?_⟩
    intro d hd
    obtain ⟨a, u', rfl⟩ := List.exists_cons_of_ne_nil hne
    exact hlast d (by simpa using hd)
  unfold unitToMultiplier
  rw [strip_pad l (c :: u) r hl hr ht (by simp)]
  obtain ⟨a, u', rfl⟩ := List.exists_cons_of_ne_nil hne
  simp only [lookup_prefix, hc, hu', if_true, pow10]

/-- C17.  Everything else is a unit of its own: if the text (without outer blanks) is neither `%`
nor `#` nor prefix + base unit, it is returned with multiplier 1. -/
theorem C17_plain (s : List Char) (h1 : strip s ≠ ['%']) (h2 : strip s ≠ ['#'])
    (h3 : ∀ c e u, prefixPower c = some e → BaseUnit u → strip s ≠ c :: u) :
    unitToMultiplier s = (1, some (strip s)) := by
  unfold unitToMultiplier
  generalize strip s = t at *
  match t with
  | [] => rfl
  | [c] =>
    have a : c ≠ '%' := fun h => h1 (by rw [h])
    have b : c ≠ '#' := fun h => h2 (by rw [h])
    simp [a, b]
  | c :: d :: r =>
    simp only [lookup_prefix]
    split
    · rename_i e he
      split
      · rename_i hu
        exact absurd rfl (h3 c e (d :: r) he ((baseUnit_iff _).1 hu))
      · rfl
    · rfl

/-- C17.  No base unit is itself read as prefix and unit. -/
theorem C17_base (u : List Char) (hu : BaseUnit u) : unitToMultiplier u = (1, some u) := by
  have h : ∀ u ∈ siunitNames, strip u = u ∧ u ≠ ['%'] ∧ u ≠ ['#'] ∧
      ∀ c ∈ u.head?, u.tail ∈ siunitNames → siprefixes.lookup c = none := by decide +kernel
  obtain ⟨hs, h1, h2, h3⟩ := h u ((baseUnit_iff u).2 hu)
  have := C17_plain u (by rwa [hs]) (by rwa [hs]) (by
    intro c e v hc hv heq
    rw [hs] at heq
    subst heq
    have := h3 c (by simp) ((baseUnit_iff v).2 hv)
    rw [lookup_prefix, hc] at this; cases this)
  rwa [hs] at this

/-- C17.  Percent and number sign. -/
theorem C17_percent : unitToMultiplier ['%'] = (1 / 100, none) ∧ unitToMultiplier ['#'] = (1, none) := by
  constructor <;> rfl

/-! ### C43 -/

/-- Specification of the value of decimal text: sign, digits `i`, and digits `f` after the point. -/
def decimal (neg : Bool) (i f : List Char) : ℚ :=
  (if neg then -1 else 1) * (decValue i + decValue f / 10 ^ f.length)

/-- The text itself. -/
def decimalText (neg : Bool) (i : List Char) (f : Option (List Char)) : List Char :=
  (if neg then ['-'] else []) ++ i ++ (match f with | some f => '.' :: f | none => [])

theorem decValue_append (a b : List Char) :
    decValue (a ++ b) = decValue a * 10 ^ b.length + decValue b := by
  unfold decValue
  have key : ∀ (b : List Char) (n : Nat), b.foldl (fun v c => 10 * v + (c.toNat - '0'.toNat)) n =
      n * 10 ^ b.length + b.foldl (fun v c => 10 * v + (c.toNat - '0'.toNat)) 0 := by
    intro b
    induction b with
    | nil => intro n; simp
    | cons c b ih =>
      intro n
      simp only [List.foldl_cons, List.length_cons]
      rw [ih, ih (10 * 0 + _)]
      ring
  rw [List.foldl_append, key]

theorem takeWhile_all {p : Char → Bool} {l m : List Char} (h : l.all p = true)
    (hm : ∀ c ∈ m.head?, p c = false) : (l ++ m).takeWhile p = l := by
  induction l with
  | nil =>
    cases m with
    | nil => rfl
    | cons c m => simp [hm c (by simp)]
  | cons a l ih =>
    simp only [List.all_cons, Bool.and_eq_true] at h
    simp only [List.cons_append, List.takeWhile_cons, h.1, if_true]
    rw [ih h.2]

theorem digit_ne {c d : Char} (h : isDigit c = true) (hd : isDigit d = false) : c ≠ d := by
  rintro rfl; rw [h] at hd; cases hd

theorem sign_text (neg : Bool) (r : List Char) (hr : ∀ c ∈ r.head?, c ≠ '-' ∧ c ≠ '+') :
    sign ((if neg then ['-'] else []) ++ r) = ((if neg then -1 else 1), r) := by
  cases neg with
  | true => rfl
  | false =>
    simp only [Bool.false_eq_true, if_false, List.nil_append]
    unfold sign
    split
    · exact absurd rfl (hr _ (by simp)).1
    · exact absurd rfl (hr _ (by simp)).2
    · rfl

/-- What follows the mantissa in `float`. -/
def expPart (m : ℚ) : List Char → Option ℚ
  | [] => some m
  | c :: r =>
      if isExpChar c then
        let (es, r) := sign r
        let x := r.takeWhile isDigit
        if x ≠ [] ∧ r.dropWhile isDigit = [] then some (m * pow10 (es * decValue x)) else none
      else none

theorem parseFloat_text (neg : Bool) (i : List Char) (f : Option (List Char)) (t : List Char)
    (hi : i.all isDigit = true) (hf : (f.getD []).all isDigit = true) (hne : i ≠ [] ∨ f.getD [] ≠ [])
    (ht : ∀ c ∈ t.head?, isDigit c = false ∧ c ≠ '.') :
    parseFloat (decimalText neg i f ++ t) = expPart (decimal neg i (f.getD [])) t := by
  have hpoint : isDigit '.' = false := by decide
  have hhead : ∀ (r : List Char), (∀ c ∈ r.head?, c ≠ '-' ∧ c ≠ '+') →
      ∀ c ∈ (i ++ r).head?, c ≠ '-' ∧ c ≠ '+' := by
    intro r hr c hc
    cases i with
    | nil => exact hr c hc
    | cons a i =>
      simp at hc; subst hc
      simp only [List.all_cons, Bool.and_eq_true] at hi
      exact ⟨digit_ne hi.1 (by decide), digit_ne hi.1 (by decide)⟩
  unfold parseFloat decimalText
  cases f with
  | none =>
    have hin : i ≠ [] := by simpa using hne
    simp only [List.append_nil, List.append_assoc]
    rw [sign_text neg (i ++ t)]
    · have h1 : (i ++ t).takeWhile isDigit = i := takeWhile_all hi fun c hc => (ht c hc).1
      have h2 : (i ++ t).dropWhile isDigit = t := dropWhile_all hi fun c hc => (ht c hc).1
      simp only [h1, h2]
      have h3 : fracPart t = ([], t) := by
        unfold fracPart
        split
        · exact absurd rfl (ht _ (by simp)).2
        · rfl
      rw [h3]
      have h4 : ((if neg = true then -1 else 1 : Int) : ℚ) * ((decValue (i ++ []) : Nat) : ℚ) / 10 ^ ([] : List Char).length =
          decimal neg i ((none : Option (List Char)).getD []) := by
        unfold decimal; cases neg <;> simp [decValue]
      simp only [h4, hin, false_and, if_false]
      cases t <;> rfl
    · obtain ⟨a, i', rfl⟩ := List.exists_cons_of_ne_nil hin
      intro c hc
      simp at hc; subst hc
      simp only [List.all_cons, Bool.and_eq_true] at hi
      exact ⟨digit_ne hi.1 (by decide), digit_ne hi.1 (by decide)⟩
  | some f =>
    simp only [Option.getD_some] at hf hne ⊢
    simp only [List.append_assoc, List.cons_append]
    rw [sign_text neg (i ++ '.' :: (f ++ t))]
    · have h1 : (i ++ '.' :: (f ++ t)).takeWhile isDigit = i := takeWhile_all hi (by simp [hpoint])
      have h2 : (i ++ '.' :: (f ++ t)).dropWhile isDigit = '.' :: (f ++ t) :=
        dropWhile_all hi (by simp [hpoint])
      have h3 : (f ++ t).takeWhile isDigit = f := takeWhile_all hf fun c hc => (ht c hc).1
      have h4 : (f ++ t).dropWhile isDigit = t := dropWhile_all hf fun c hc => (ht c hc).1
      simp only [h1, h2, fracPart, h3, h4]
      have h5 : ((if neg = true then -1 else 1 : Int) : ℚ) * ((decValue (i ++ f) : Nat) : ℚ) / 10 ^ f.length =
          decimal neg i f := by
        unfold decimal
        rw [decValue_append]
        have : (10 : ℚ) ^ f.length ≠ 0 := by positivity
        cases neg <;> push_cast <;> field_simp <;> simp
      have h6 : ¬ (i = [] ∧ f = []) := by
        rintro ⟨rfl, rfl⟩; simp at hne
      simp only [h5, h6, if_false]
      cases t <;> rfl
    · exact hhead _ (by simp)

/-- C43.  Number without exponent, blanks (at least one, or a unit that does not begin with e),
unit: the value is the number times the multiplier of the unit. -/
theorem C43_value (neg : Bool) (i : List Char) (f : Option (List Char)) (ws u : List Char)
    (hi : i.all isDigit = true) (hf : (f.getD []).all isDigit = true) (hne : i ≠ [] ∨ f.getD [] ≠ [])
    (hws : ws.all isWs = true) (hu : u ≠ []) (huc : u.all isUnitChar = true)
    (hattach : ws ≠ [] ∨ ∀ c ∈ u.head?, isExpChar c = false) :
    stringToValue (decimalText neg i f ++ ws ++ u) =
      some (decimal neg i (f.getD []) * (unitToMultiplier u).1, (unitToMultiplier u).2) := by
  have hdn : ∀ c, isDigit c = true → isNumChar c = true := by intro c h; simp [isNumChar, h]
  have htext : (decimalText neg i f).all isNumChar = true := by
    unfold decimalText
    simp only [List.all_append, Bool.and_eq_true]
    refine ⟨⟨?_, ?_⟩, ?_⟩
    · cases neg <;> rfl
    · rw [List.all_eq_true] at hi ⊢; exact fun c h => hdn c (hi c h)
    · cases f with
      | none => rfl
      | some f =>
        simp only [List.all_cons, Bool.and_eq_true]
        refine ⟨rfl, ?_⟩
        simp only [Option.getD_some] at hf
        rw [List.all_eq_true] at hf ⊢; exact fun c h => hdn c (hf c h)
  have htne : decimalText neg i f ≠ [] := by
    unfold decimalText
    intro h
    simp only [List.append_eq_nil_iff] at h
    obtain ⟨⟨_, h1⟩, h2⟩ := h
    cases f with
    | none => simp [h1] at hne
    | some f => cases h2
  -- white space, letters and number characters are disjoint
  have wsnum : ∀ c, isWs c = true → isNumChar c = false ∧ isExpChar c = false ∧ isExpDigit c = false ∧
      c ≠ '[' ∧ isUnitChar c = false := by
    intro c h
    simp only [isWs, Bool.or_eq_true, decide_eq_true_eq] at h
    rcases h with ((((h | h) | h) | h) | h) | h <;> subst h <;> decide
  have unum : ∀ c, isUnitChar c = true → isNumChar c = false ∧ isExpDigit c = false ∧ c ≠ '[' ∧
      isWs c = false := by
    intro c h
    have hle : ∀ a b : Char, (a ≤ b) ↔ a.toNat ≤ b.toNat := fun a b => Iff.rfl
    have heq : ∀ b : Char, c = b → c.toNat = b.toNat := fun b h => by rw [h]
    simp only [isUnitChar, Bool.or_eq_true, Bool.and_eq_true, decide_eq_true_eq, hle] at h
    have e1 : 'a'.toNat = 97 := rfl
    have e2 : 'z'.toNat = 122 := rfl
    have e3 : 'A'.toNat = 65 := rfl
    have e4 : 'Z'.toNat = 90 := rfl
    have hpc : c = '%' → c.toNat = 37 := fun h => by rw [h]; rfl
    have hd : isDigit c = false := by
      cases hh : isDigit c with
      | false => rfl
      | true =>
        simp only [isDigit, Bool.and_eq_true, decide_eq_true_eq, hle] at hh
        have z0 : '0'.toNat = 48 := rfl
        have z9 : '9'.toNat = 57 := rfl
        rcases h with (h | h) | h
        · omega
        · omega
        · have := hpc h; omega
    have ne : ∀ d : Char, (d.toNat ≠ 37 ∧ (d.toNat < 65 ∨ 90 < d.toNat) ∧ (d.toNat < 97 ∨ 122 < d.toNat)) → c ≠ d := by
      intro d hd' e
      subst e
      rcases h with (h | h) | h
      · omega
      · omega
      · have := hpc h; omega
    refine ⟨?_, ?_, ne '[' (by decide), ?_⟩
    · simp [isNumChar, hd, ne '-' (by decide), ne '+' (by decide), ne '.' (by decide)]
    · simp [isExpDigit, hd, ne '-' (by decide), ne '+' (by decide)]
    · simp [isWs, ne ' ' (by decide), ne '\t' (by decide), ne '\n' (by decide), ne '\r' (by decide),
        ne '\x0b' (by decide), ne '\x0c' (by decide)]
  obtain ⟨a, u', hau⟩ := List.exists_cons_of_ne_nil hu
  have ha : isUnitChar a = true := by subst hau; simp only [List.all_cons, Bool.and_eq_true] at huc; exact huc.1
  -- first character after the number
  have hhead : ∀ c ∈ (ws ++ u).head?, isNumChar c = false ∧ isExpChar c = false ∧ isExpDigit c = false := by
    intro c hc
    cases ws with
    | nil =>
      subst hau
      simp at hc; subst hc
      rcases hattach with h | h
      · exact absurd rfl h
      · exact ⟨(unum _ ha).1, h _ (by simp), (unum _ ha).2.1⟩
    | cons b ws =>
      simp at hc; subst hc
      simp only [List.all_cons, Bool.and_eq_true] at hws
      exact ⟨(wsnum _ hws.1).1, (wsnum _ hws.1).2.1, (wsnum _ hws.1).2.2.1⟩
  have hopt : ∀ p : Char → Bool, (∀ c ∈ (ws ++ u).head?, p c = false) → optChar p (ws ++ u) = ([], ws ++ u) := by
    intro p hp
    cases h : ws ++ u with
    | nil => rfl
    | cons c r => simp [optChar, hp c (by rw [h]; simp)]
  have hreg : regValue (decimalText neg i f ++ ws ++ u) = some (decimalText neg i f, ws ++ u) := by
    unfold regValue
    rw [List.append_assoc, takeWhile_all htext fun c hc => (hhead c hc).1,
      dropWhile_all htext fun c hc => (hhead c hc).1]
    simp only [htne, if_false, hopt isExpChar fun c hc => (hhead c hc).2.1,
      hopt isExpDigit fun c hc => (hhead c hc).2.2, List.append_nil]
  have hparse : parseFloat (decimalText neg i f) = some (decimal neg i (f.getD [])) := by
    have := parseFloat_text neg i f [] hi hf hne (by simp)
    simpa [expPart] using this
  have hunit : regUnit (ws ++ u) = some (ws ++ u) := by
    have hw : ∀ c ∈ u.head?, isWs c = false := by
      subst hau; intro c hc; simp at hc; subst hc; exact (unum _ ha).2.2.2
    unfold regUnit
    rw [takeWhile_all hws hw, dropWhile_all hws hw]
    have ho : optChar (fun c => decide (c = '[')) u = ([], u) := by
      subst hau; simp [optChar, (unum _ ha).2.2.1]
    have ht : u.takeWhile isUnitChar = u := by simpa using takeWhile_all (m := []) huc (by simp)
    have hd : u.dropWhile isUnitChar = [] := by simpa using dropWhile_all (m := []) huc (by simp)
    have h0 : ∀ p, optChar p [] = ([], []) := fun p => rfl
    simp only [ho, ht, hd, hu, if_false, h0, List.append_nil]
  have htrim : Trimmed u := by
    have hall := huc
    rw [List.all_eq_true] at hall
    exact ⟨fun c hc => (unum c (hall c (List.mem_of_mem_head? hc))).2.2.2,
      fun c hc => (unum c (hall c (List.mem_of_mem_getLast? hc))).2.2.2⟩
  have hstrip : strip (ws ++ u) = u := by
    simpa using strip_pad ws u [] hws rfl htrim hu
  unfold stringToValue
  simp only [hreg, hparse, hunit, convertWithUnit, hstrip, hu, if_false]

/-- C43 fails for exponents of two or more digits: only the first digit of the exponent is used, and
the unit is lost. -/
theorem C43_exponent_refuted (neg : Bool) (i : List Char) (f : Option (List Char)) (d e : Char)
    (rest : List Char)
    (hi : i.all isDigit = true) (hf : (f.getD []).all isDigit = true) (hne : i ≠ [] ∨ f.getD [] ≠ [])
    (hd : isDigit d = true) (he : isDigit e = true) :
    stringToValue (decimalText neg i f ++ 'e' :: d :: e :: rest) =
      some (decimal neg i (f.getD []) * (10 : ℚ) ^ ((decValue [d] : Nat) : Int), none) := by
  have hdn : ∀ c, isDigit c = true → isNumChar c = true := by intro c h; simp [isNumChar, h]
  have htext : (decimalText neg i f).all isNumChar = true := by
    unfold decimalText
    simp only [List.all_append, Bool.and_eq_true]
    refine ⟨⟨?_, ?_⟩, ?_⟩
    · cases neg <;> rfl
    · rw [List.all_eq_true] at hi ⊢; exact fun c h => hdn c (hi c h)
    · cases f with
      | none => rfl
      | some f =>
        simp only [List.all_cons, Bool.and_eq_true]
        refine ⟨rfl, ?_⟩
        simp only [Option.getD_some] at hf
        rw [List.all_eq_true] at hf ⊢; exact fun c h => hdn c (hf c h)
  have htne : decimalText neg i f ≠ [] := by
    unfold decimalText
    intro h
    simp only [List.append_eq_nil_iff] at h
    obtain ⟨⟨_, h1⟩, h2⟩ := h
    cases f with
    | none => simp [h1] at hne
    | some f => cases h2
  have hnum : isNumChar 'e' = false := by decide
  have hexp : isExpChar 'e' = true := by decide
  have hed : isExpDigit d = true := by simp [isExpDigit, hd]
  have hreg : regValue (decimalText neg i f ++ 'e' :: d :: e :: rest) =
      some (decimalText neg i f ++ ['e', d], e :: rest) := by
    unfold regValue
    rw [takeWhile_all htext (by simp [hnum]), dropWhile_all htext (by simp [hnum])]
    simp only [htne, if_false, optChar, hexp, if_true, hed, List.append_assoc, List.cons_append, List.nil_append]
  have hparse : parseFloat (decimalText neg i f ++ ['e', d]) =
      some (decimal neg i (f.getD []) * (10 : ℚ) ^ ((decValue [d] : Nat) : Int)) := by
    rw [parseFloat_text neg i f ['e', d] hi hf hne (by simp; decide)]
    have hs : sign [d] = (1, [d]) := by
      have h1 := digit_ne hd (by decide : isDigit '-' = false)
      have h2 := digit_ne hd (by decide : isDigit '+' = false)
      unfold sign
      split
      · rename_i h; simp only [List.cons.injEq] at h; exact absurd h.1 h1
      · rename_i h; simp only [List.cons.injEq] at h; exact absurd h.1 h2
      · rfl
    simp [expPart, hexp, hs, hd, pow10]
  have hunit : regUnit (e :: rest) = none := by
    have hw : isWs e = false := by
      simp [isWs, digit_ne he (by decide : isDigit ' ' = false), digit_ne he (by decide : isDigit '\t' = false),
        digit_ne he (by decide : isDigit '\n' = false), digit_ne he (by decide : isDigit '\r' = false),
        digit_ne he (by decide : isDigit '\x0b' = false), digit_ne he (by decide : isDigit '\x0c' = false)]
    have hb : e ≠ '[' := digit_ne he (by decide)
    have hu : isUnitChar e = false := by
      have hle : ∀ a b : Char, (a ≤ b) ↔ a.toNat ≤ b.toNat := fun a b => Iff.rfl
      have hh := he
      simp only [isDigit, Bool.and_eq_true, decide_eq_true_eq, hle] at hh
      have z0 : '0'.toNat = 48 := rfl
      have z9 : '9'.toNat = 57 := rfl
      have e1 : 'a'.toNat = 97 := rfl
      have e3 : 'A'.toNat = 65 := rfl
      have h1 : ¬ 'a' ≤ e := by rw [hle]; omega
      have h2 : ¬ 'A' ≤ e := by rw [hle]; omega
      simp [isUnitChar, h1, h2, digit_ne he (by decide : isDigit '%' = false)]
    unfold regUnit
    simp [hw, optChar, hb, hu]
  unfold stringToValue
  simp only [hreg, hparse, hunit, convertWithUnit]

/-- C43 fails for a signed exponent: the text is rejected. -/
theorem C43_signed_exponent_refuted (i : List Char) (hi : i.all isDigit = true) (hne : i ≠ [])
    (rest : List Char) : stringToValue (i ++ 'e' :: '-' :: rest) = none := by
  have htext : i.all isNumChar = true := by
    rw [List.all_eq_true] at hi ⊢; exact fun c h => by simp [isNumChar, hi c h]
  have hnum : isNumChar 'e' = false := by decide
  have hreg : regValue (i ++ 'e' :: '-' :: rest) = some (i ++ ['e', '-'], rest) := by
    unfold regValue
    rw [takeWhile_all htext (by simp [hnum]), dropWhile_all htext (by simp [hnum])]
    simp [hne, optChar, (by decide : isExpChar 'e' = true), (by decide : isExpDigit '-' = true)]
  have hparse : parseFloat (i ++ ['e', '-']) = none := by
    have := parseFloat_text false i none ['e', '-'] hi rfl (Or.inl hne) (by simp; decide)
    simp only [decimalText, Bool.false_eq_true, if_false, List.nil_append, List.append_nil] at this
    rw [this]
    rfl
  unfold stringToValue
  simp only [hreg, hparse]

/-- C43 fails for bracketed units: the brackets stay and the prefix is not applied. -/
theorem C43_bracket_refuted (i : List Char) (hi : i.all isDigit = true) (hne : i ≠ []) :
    stringToValue (i ++ " [GHz]".toList) = some ((decValue i : ℚ), some "[GHz]".toList) := by
  have htext : i.all isNumChar = true := by
    rw [List.all_eq_true] at hi ⊢; exact fun c h => by simp [isNumChar, hi c h]
  have hreg : regValue (i ++ " [GHz]".toList) = some (i, " [GHz]".toList) := by
    unfold regValue
    rw [takeWhile_all htext (by decide), dropWhile_all htext (by decide)]
    simp only [hne, if_false]
    have : optChar isExpChar " [GHz]".toList = ([], " [GHz]".toList) := by decide
    have h2 : optChar isExpDigit " [GHz]".toList = ([], " [GHz]".toList) := by decide
    simp only [this, h2, List.append_nil]
  have hparse : parseFloat i = some (decValue i : ℚ) := by
    have := parseFloat_text false i none [] hi rfl (Or.inl hne) (by simp)
    simp only [decimalText, Bool.false_eq_true, if_false, List.nil_append, List.append_nil] at this
    rw [this]
    simp [expPart, decimal, decValue]
  have h1 : regUnit " [GHz]".toList = some " [GHz]".toList := by decide
  have h2 : strip " [GHz]".toList = "[GHz]".toList := by decide
  have h3 : unitToMultiplier "[GHz]".toList = (1, some "[GHz]".toList) := C17_plain _ (by decide) (by decide) (by
    intro c e u hc _ h
    have hs : strip "[GHz]".toList = "[GHz]".toList := by decide
    rw [hs] at h
    have : c = '[' := by
      have : "[GHz]".toList = '[' :: "GHz]".toList := by decide
      rw [this] at h; simp at h; exact h.1.symm
    subst this
    cases hc)
  have h4 : ("[GHz]".toList : List Char) ≠ [] := by decide
  unfold stringToValue
  simp only [hreg, hparse, h1, convertWithUnit, h2, h3, h4, if_false, mul_one]

/-! ### C44 -/

/-- C44.  In configuration files, prefix and unit are read as such, and so is a prefix alone. -/
theorem C44_prefixed (num : ℚ) (c : Char) (e : Int) (u : List Char) (hc : prefixPower c = some e)
    (hu : u ∈ cfgUnits ∨ u = []) :
    siValue num (c :: u) = some (num * (10 : ℚ) ^ e, if u = [] then none else some u) := by
  have hmem : c ∈ cfgPrefixes := by
    unfold prefixPower at hc
    split at hc <;> first | decide | simp at hc
  have hnil : ([] : List Char) ∉ cfgUnits := by decide
  have hm : matchTail (c :: u) = some (some c, if u = [] then none else some u) := by
    unfold matchTail unitEnd
    simp only [hmem, if_true]
    rcases hu with hu | rfl
    · have hne : u ≠ [] := fun h => hnil (h ▸ hu)
      simp [hu, hne]
    · simp [hnil]
  unfold siValue
  rw [hm]
  simp only [Option.map_some, lookup_prefix, hc, pow10, Option.getD_some]

/-- C44.  Units without prefix, except metre. -/
theorem C44_plain (num : ℚ) (u : List Char) (hu : u ∈ cfgUnits) (hm : u ≠ ['m']) :
    siValue num u = some (num, some u) := by
  have h : ∀ u ∈ cfgUnits, u ≠ ['m'] → matchTail u = some (none, some u) := by decide +kernel
  unfold siValue
  rw [h u hu hm]
  simp [pow10]

/-- C44 fails for metre: it is read as the prefix milli. -/
theorem C44_metre_refuted (num : ℚ) : siValue num ['m'] = some (num / 1000, none) := by
  have h : matchTail ['m'] = some (some 'm', none) := by decide +kernel
  have h2 : siprefixes.lookup 'm' = some (-3) := by decide
  unfold siValue
  rw [h]
  simp only [Option.map_some, h2, Option.getD_some, pow10]
  norm_num
  ring

/-- C44.  Nothing else is accepted. -/
theorem C44_only (num : ℚ) (t : List Char) (h : (siValue num t).isSome) :
    t = [] ∨ t ∈ cfgUnits ∨ ∃ c u, t = c :: u ∧ c ∈ cfgPrefixes ∧ (u ∈ cfgUnits ∨ u = []) := by
  unfold siValue matchTail unitEnd at h
  simp only [Option.isSome_map] at h
  split at h
  · rename_i c r
    split at h
    · rename_i hc
      by_cases h1 : r ∈ cfgUnits
      · exact Or.inr (Or.inr ⟨c, r, rfl, hc, Or.inl h1⟩)
      · by_cases h2 : r = []
        · exact Or.inr (Or.inr ⟨c, r, rfl, hc, Or.inr h2⟩)
        · simp only [h1, h2, if_false] at h
          by_cases h3 : (c :: r) ∈ cfgUnits
          · exact Or.inr (Or.inl h3)
          · simp [h3] at h
    · by_cases h3 : (c :: r) ∈ cfgUnits
      · exact Or.inr (Or.inl h3)
      · simp [h3] at h
  · exact Or.inl rfl

/-! Non-vacuity -/

example : prefixPower 'G' = some 9 ∧ BaseUnit "Hz".toList := ⟨rfl, by unfold BaseUnit; decide⟩
example : ∀ c e u, prefixPower c = some e → BaseUnit u → strip "min".toList ≠ c :: u := by
  intro c e u hc hu h
  have hs : strip "min".toList = 'm' :: "in".toList := by decide
  rw [hs] at h
  simp only [List.cons.injEq] at h
  rw [← h.2] at hu
  exact absurd hu (by unfold BaseUnit; decide)
example : decimalText true "1".toList (some "5".toList) = "-1.5".toList := by decide
example : decimal true "1".toList "5".toList = -3 / 2 := by
  have h1 : decValue "1".toList = 1 := by decide
  have h2 : decValue "5".toList = 5 := by decide
  have h3 : "5".toList.length = 1 := by decide
  unfold decimal; rw [h1, h2, h3]; norm_num

end Units
end HF
