import Verif.Citi.ReadSpec
import Verif.Citi.Lemmas
import Mathlib.Tactic.Ring
import Mathlib.Tactic.FieldSimp
import Mathlib.Tactic.Linarith
/-
C65: lemmas on tokens, numbers and arrays.
-/
namespace HF.Citi

open Units (isWs strip)
open Text DataBlock
open HF.DataDict.Spec

/-! ### Lines -/

/-- The token for a line. -/
def Item.Tok : Item → Tok → Prop
  | .blank, _ => False
  | .comment c, t => t = ⟨.comment, [c]⟩
  | .version, t => t.tag = .citifile
  | .name n, t => t = ⟨.name, [n]⟩
  | .var ws, t => t = ⟨.vardef, ws⟩
  | .data ws, t => t = ⟨.datadef, ws⟩
  | .varBegin, t => ∃ r, t = ⟨.varBegin, [kwVAR_LIST_BEGIN ++ r]⟩
  | .varEnd, t => t.tag = .varEnd
  | .seg ws, t => ∃ r, t = ⟨.seg, [kwSEG ++ r]⟩ ∧ Spaced r ws
  | .segBegin, t => ∃ r, t = ⟨.segBegin, [kwSEG_LIST_BEGIN ++ r]⟩
  | .segEnd, t => t.tag = .segEnd
  | .begin_, t => t.tag = .dataBegin
  | .end_, t => t.tag = .dataEnd
  | .number x, t => t = ⟨.data, [x]⟩

theorem dig_mem (c : Char) (h : isDig c = true) : c ∈ "-.0123456789eE".toList := by
  unfold isDig at h
  simp only [Bool.and_eq_true, decide_eq_true_eq, Char.le_def, UInt32.le_iff_toNat_le] at h
  have e0 : '0'.val.toNat = 48 := rfl
  have e9 : '9'.val.toNat = 57 := rfl
  rw [e0, e9] at h
  have : ∀ n, 48 ≤ n → n ≤ 57 → Char.ofNat n ∈ "-.0123456789eE".toList := by
    intro n h1 h2
    have : n = 48 ∨ n = 49 ∨ n = 50 ∨ n = 51 ∨ n = 52 ∨ n = 53 ∨ n = 54 ∨ n = 55 ∨ n = 56 ∨ n = 57 := by omega
    rcases this with rfl | rfl | rfl | rfl | rfl | rfl | rfl | rfl | rfl | rfl <;> decide +kernel
  have := this c.toNat h.1 h.2
  rwa [Char.ofNat_toNat] at this

theorem dataChar_iff (c : Char) : isDataChar c = true ↔ c ∈ "-.0123456789eE".toList := by
  constructor
  · intro h
    unfold isDataChar at h
    simp only [Bool.or_eq_true, decide_eq_true_eq] at h
    rcases h with (((rfl | rfl) | rfl) | rfl) | h
    · decide +kernel
    · decide +kernel
    · decide +kernel
    · decide +kernel
    · exact dig_mem c h
  · have : ∀ c ∈ "-.0123456789eE".toList, isDataChar c = true := by decide +kernel
    exact this c

theorem trim_strip {r n : List Char} (h : Trim r n) : strip r = n := (strip_iff r n).2 h

theorem strip_trim (r : List Char) : Trim r (strip r) := (strip_iff r (strip r)).1 rfl

theorem words_strip' (r : List Char) (ws : List (List Char)) (h : Spaced r ws) : words (strip r) = ws := by
  rw [words_strip]
  exact spaced_words h

theorem data_chars : ∀ c ∈ "-.0123456789eE".toList, isWs c = false ∧ c ≠ 'N' ∧ c ≠ 'V' ∧ c ≠ 'D' ∧ c ≠ 'S' ∧ c ≠ 'B' := by
  decide +kernel

theorem tokenLine_of {l rad : List Char} (h : l.dropWhile isWs = rad) {t : Option Tok}
    (h' : ∀ l, l.dropWhile isWs = rad → tokenLine l = .ok t) : tokenLine l = .ok t := h' l h

theorem says'_tok {rad : List Char} {it : Item} (h : Says' rad it) : (∀ c ∈ rad.head?, isWs c = false) ∧
    ∃ t, it.Tok t ∧ ∀ l, l.dropWhile isWs = rad → tokenLine l = .ok (some t) := by
  cases h with
  | name r n h =>
    refine ⟨by simp [kwNAME]; decide, ⟨.name, [n]⟩, rfl, fun l hl => ?_⟩
    unfold tokenLine
    rw [hl]
    show Except.ok (some (⟨.name, [strip r]⟩ : Tok)) = _
    rw [trim_strip h]
  | var r ws h =>
    refine ⟨by simp [kwVAR]; decide, ⟨.vardef, ws⟩, rfl, fun l hl => ?_⟩
    unfold tokenLine
    rw [hl]
    show Except.ok (some (⟨.vardef, words (strip (' ' :: r))⟩ : Tok)) = _
    rw [strip_sp, words_strip' r ws h]
  | data r ws h =>
    refine ⟨by simp [kwDATA]; decide, ⟨.datadef, ws⟩, rfl, fun l hl => ?_⟩
    unfold tokenLine
    rw [hl]
    show Except.ok (some (⟨.datadef, words (strip r)⟩ : Tok)) = _
    rw [words_strip' r ws h]
  | varBegin r =>
    refine ⟨by simp [kwVAR_LIST_BEGIN]; decide, ⟨.varBegin, [kwVAR_LIST_BEGIN ++ r]⟩, ⟨r, rfl⟩, fun l hl => ?_⟩
    unfold tokenLine
    rw [hl]; rfl
  | varEnd r =>
    refine ⟨by simp [kwVAR_LIST_END]; decide, ⟨.varEnd, [kwVAR_LIST_END ++ r]⟩, rfl, fun l hl => ?_⟩
    unfold tokenLine
    rw [hl]; rfl
  | seg r ws h =>
    refine ⟨by simp [kwSEG]; decide, ⟨.seg, [kwSEG ++ r]⟩, ⟨r, rfl, h⟩, fun l hl => ?_⟩
    unfold tokenLine
    rw [hl]; rfl
  | segBegin r =>
    refine ⟨by simp [kwSEG_LIST_BEGIN]; decide, ⟨.segBegin, [kwSEG_LIST_BEGIN ++ r]⟩, ⟨r, rfl⟩, fun l hl => ?_⟩
    unfold tokenLine
    rw [hl]; rfl
  | segEnd r =>
    refine ⟨by simp [kwSEG_LIST_END]; decide, ⟨.segEnd, [kwSEG_LIST_END ++ r]⟩, rfl, fun l hl => ?_⟩
    unfold tokenLine
    rw [hl]; rfl
  | begin_ r =>
    refine ⟨by simp [kwBEGIN]; decide, ⟨.dataBegin, [kwBEGIN ++ r]⟩, rfl, fun l hl => ?_⟩
    unfold tokenLine
    rw [hl]; rfl
  | end_ r =>
    refine ⟨by simp [kwEND]; decide, ⟨.dataEnd, [kwEND ++ r]⟩, rfl, fun l hl => ?_⟩
    unfold tokenLine
    rw [hl]; rfl
  | number c r hc h =>
    obtain ⟨h0, h1, h2, h3, h4, h5⟩ := data_chars c hc
    refine ⟨by simpa using h0, ⟨.data, [c :: r]⟩, rfl, fun l hl => ?_⟩
    have he : begins ['E', 'N', 'D'] (c :: r) = false := by
      rw [Bool.eq_false_iff]
      exact fun h' => h (List.isPrefixOf_iff_prefix.1 h')
    unfold tokenLine
    rw [hl]
    simp only [reduceCtorEq, if_false, begins_ne (Ne.symm h1), begins_ne (Ne.symm h2), begins_ne (Ne.symm h3),
      begins_ne (Ne.symm h4), begins_ne (Ne.symm h5), he, Bool.false_eq_true, List.head?_cons, Option.any_some,
      (dataChar_iff c).2 hc, if_true]
  | exclam r c h =>
    refine ⟨by simp; decide, ⟨.comment, [c]⟩, rfl, fun l hl => ?_⟩
    unfold tokenLine
    rw [hl]
    show Except.ok (some (⟨.comment, [strip r]⟩ : Tok)) = _
    rw [trim_strip h]
  | hash r c h =>
    refine ⟨by simp; decide, ⟨.comment, [c]⟩, rfl, fun l hl => ?_⟩
    unfold tokenLine
    rw [hl]
    show Except.ok (some (⟨.comment, [strip r]⟩ : Tok)) = _
    rw [trim_strip h]
  | empty =>
    refine ⟨by simp [kwCOMMENT]; decide, ⟨.comment, [[]]⟩, rfl, fun l hl => ?_⟩
    unfold tokenLine
    rw [hl]; rfl
  | comment x r c h =>
    refine ⟨by simp [kwCOMMENT]; decide, ⟨.comment, [c]⟩, rfl, fun l hl => ?_⟩
    unfold tokenLine
    rw [hl]
    show Except.ok (some (⟨.comment, [strip r]⟩ : Tok)) = _
    rw [trim_strip h]
  | constant r c h =>
    refine ⟨by simp [kwCONSTANT]; decide, ⟨.comment, [c]⟩, rfl, fun l hl => ?_⟩
    unfold tokenLine
    rw [hl]
    show Except.ok (some (⟨.comment, [strip (kwCONSTANT ++ r)]⟩ : Tok)) = _
    rw [trim_strip h]
  | version r =>
    refine ⟨by simp [kwCITIFILE]; decide, ⟨.citifile, [strip r]⟩, rfl, fun l hl => ?_⟩
    unfold tokenLine
    rw [hl]; rfl

theorem dropWhile_blank {w : List Char} (h : Blank w) : w.dropWhile isWs = [] := by
  have := drop_blank w [] h (by simp)
  simpa using this

theorem says_tok {l : List Char} {it : Item} (h : Says l it) :
    (it = .blank ∧ tokenLine l = .ok none) ∨ ∃ t, it.Tok t ∧ tokenLine l = .ok (some t) := by
  cases h with
  | blank w h =>
    left
    refine ⟨rfl, ?_⟩
    unfold tokenLine
    rw [dropWhile_blank h]
    rfl
  | text w r it hw h =>
    right
    obtain ⟨h1, t, h2, h3⟩ := says'_tok h
    exact ⟨t, h2, h3 _ (drop_blank w r hw h1)⟩

def Item.shown : Item → Bool
  | .blank => false
  | _ => true

theorem tokenize_says {ls : List (List Char)} {its : List Item} (h : List.Forall₂ Says ls its) :
    ∃ ts, tokenize ls = .ok ts ∧ List.Forall₂ Item.Tok (its.filter Item.shown) ts := by
  induction h with
  | nil => exact ⟨[], rfl, .nil⟩
  | cons hs _ ih =>
    rename_i l it ls its _
    obtain ⟨ts, h1, h2⟩ := ih
    rcases says_tok hs with ⟨rfl, h⟩ | ⟨t, ht, h⟩
    · refine ⟨ts, ?_, ?_⟩
      · unfold tokenize
        simp only [h, h1, Option.toList_none, List.nil_append]
      · rw [List.filter_cons_of_neg (by simp [Item.shown])]
        exact h2
    · refine ⟨t :: ts, ?_, ?_⟩
      · unfold tokenize
        simp only [h, h1, Option.toList_some, List.singleton_append]
      · rw [List.filter_cons_of_pos (by cases it <;> first | exact ht.elim | rfl)]
        exact .cons ht h2

/-- Every line the program accepts says something. -/
theorem tok_says (l : List Char) (t : Option Tok) (h : tokenLine l = .ok t) : ∃ it, Says l it := by
  have hl : l = l.takeWhile isWs ++ l.dropWhile isWs := (List.takeWhile_append_dropWhile).symm
  have hb := takeWhile_blank l
  obtain ⟨rad, hr⟩ : ∃ rad, l.dropWhile isWs = rad := ⟨_, rfl⟩
  rw [hr] at hl
  have key : ∀ p : List Char, begins p rad = true → ∃ r, rad = p ++ r := by
    intro p hp
    obtain ⟨r, hr⟩ := List.isPrefixOf_iff_prefix.1 hp
    exact ⟨r, hr.symm⟩
  have fin : (∃ it, Says' rad it) → ∃ it, Says l it := by
    rintro ⟨it, h⟩
    exact ⟨it, hl ▸ .text _ _ _ hb h⟩
  by_cases hN : rad = []
  · rw [hN, List.append_nil] at hl
    exact ⟨.blank, .blank _ (hl ▸ hb)⟩
  by_cases g0 : begins ['N', 'A', 'M', 'E'] rad = true
  · obtain ⟨r, rfl⟩ := key _ g0; exact fin ⟨_, .name r _ (strip_trim r)⟩
  by_cases g1 : begins ['V', 'A', 'R', ' '] rad = true
  · obtain ⟨r, rfl⟩ := key _ g1; exact fin ⟨_, .var r _ ((words_iff r _).1 rfl)⟩
  by_cases g2 : begins ['D', 'A', 'T', 'A'] rad = true
  · obtain ⟨r, rfl⟩ := key _ g2; exact fin ⟨_, .data r _ ((words_iff r _).1 rfl)⟩
  by_cases g3 : begins ['V', 'A', 'R', '_', 'L', 'I', 'S', 'T', '_', 'B', 'E', 'G', 'I', 'N'] rad = true
  · obtain ⟨r, rfl⟩ := key _ g3; exact fin ⟨_, .varBegin r⟩
  by_cases g4 : begins ['V', 'A', 'R', '_', 'L', 'I', 'S', 'T', '_', 'E', 'N', 'D'] rad = true
  · obtain ⟨r, rfl⟩ := key _ g4; exact fin ⟨_, .varEnd r⟩
  by_cases g5 : begins ['S', 'E', 'G', ' '] rad = true
  · obtain ⟨r, rfl⟩ := key _ g5; exact fin ⟨_, .seg r _ ((words_iff r _).1 rfl)⟩
  by_cases g6 : begins ['S', 'E', 'G', '_', 'L', 'I', 'S', 'T', '_', 'B', 'E', 'G', 'I', 'N'] rad = true
  · obtain ⟨r, rfl⟩ := key _ g6; exact fin ⟨_, .segBegin r⟩
  by_cases g7 : begins ['S', 'E', 'G', '_', 'L', 'I', 'S', 'T', '_', 'E', 'N', 'D'] rad = true
  · obtain ⟨r, rfl⟩ := key _ g7; exact fin ⟨_, .segEnd r⟩
  by_cases g8 : begins ['B', 'E', 'G', 'I', 'N'] rad = true
  · obtain ⟨r, rfl⟩ := key _ g8; exact fin ⟨_, .begin_ r⟩
  by_cases g9 : begins ['E', 'N', 'D'] rad = true
  · obtain ⟨r, rfl⟩ := key _ g9; exact fin ⟨_, .end_ r⟩
  by_cases g10 : rad.head?.any isDataChar = true
  · cases rad with
    | nil => simp at g10
    | cons c r =>
      refine fin ⟨_, .number c r ((dataChar_iff c).1 (by simpa using g10)) fun h' => g9 ?_⟩
      exact List.isPrefixOf_iff_prefix.2 h'
  by_cases g11 : begins ['!'] rad = true
  · obtain ⟨r, rfl⟩ := key _ g11; exact fin ⟨_, .exclam r _ (strip_trim r)⟩
  by_cases g12 : begins ['#'] rad = true
  · obtain ⟨r, rfl⟩ := key _ g12; exact fin ⟨_, .hash r _ (strip_trim r)⟩
  by_cases g13 : begins ['C', 'O', 'M', 'M', 'E', 'N', 'T'] rad = true
  · obtain ⟨r, rfl⟩ := key _ g13
    cases r with
    | nil => exact fin ⟨_, .empty⟩
    | cons x r => exact fin ⟨_, .comment x r _ (strip_trim r)⟩
  by_cases g14 : begins ['C', 'O', 'N', 'S', 'T', 'A', 'N', 'T'] rad = true
  · obtain ⟨r, rfl⟩ := key _ g14; exact fin ⟨_, .constant r _ (strip_trim _)⟩
  by_cases g15 : begins ['C', 'I', 'T', 'I', 'F', 'I', 'L', 'E'] rad = true
  · obtain ⟨r, rfl⟩ := key _ g15; exact fin ⟨_, .version r⟩
  exfalso
  unfold tokenLine at h
  rw [hr, if_neg hN, if_neg g0, if_neg g1, if_neg g2, if_neg g3, if_neg g4, if_neg g5, if_neg g6, if_neg g7, if_neg g8, if_neg g9, if_neg g10, if_neg g11, if_neg g12, if_neg g13, if_neg g14, if_neg g15] at h
  cases h

/-! ### Numbers -/

theorem pairOf_ok (env : Env) (t a b : List Char) (x y : ℚ) (ht : Trim t (a ++ ',' :: b)) (ha : ',' ∉ a) (hb : ',' ∉ b)
    (hx : env.parse a = some x) (hy : env.parse b = some y) : pairOf env t = .ok (x, y) := by
  have h1 : (a ++ ',' :: b).takeWhile (· ≠ ',') = a := by
    rw [List.takeWhile_append_of_pos (by
      intro c hc
      simp only [decide_eq_true_eq]
      rintro rfl
      exact ha hc)]
    simp
  have h2 : (a ++ ',' :: b).dropWhile (· ≠ ',') = ',' :: b := by
    rw [List.dropWhile_append_of_pos (by
      intro c hc
      simp only [decide_eq_true_eq]
      rintro rfl
      exact ha hc)]
    simp
  unfold pairOf
  rw [trim_strip ht]
  simp only [h1, h2, if_neg hb, hx, hy]

theorem number_ok (env : Env) (typ t : List Char) (z : Cplx) (h : Number env typ t z) : datum env typ t = .ok z := by
  cases h with
  | mag t x h => simp [datum, h]
  | ri t a b x y ht ha hb hx hy =>
    unfold datum
    rw [if_neg (by decide), if_pos rfl]
    exact pairOf_ok env t a b x y ht ha hb hx hy
  | magangle t a b x y ht ha hb hx hy =>
    unfold datum
    rw [if_neg (by decide), if_neg (by decide), pairOf_ok env t a b x y ht ha hb hx hy]

theorem handle_ok (env : Env) (typ : List Char) (ht : IsType typ) (ts : List (List Char)) (zs : List Cplx)
    (h : List.Forall₂ (Number env typ) ts zs) : handleData env typ (ts.map fun t => [t]) = .ok zs := by
  unfold handleData
  unfold IsType at ht
  rw [if_pos ht]
  induction h with
  | nil => rfl
  | cons h _ ih =>
    rw [List.map_cons, List.mapM_cons, List.headD_cons, number_ok env typ _ _ h, ih]
    rfl

theorem evenly_eq {a b : ℚ} {n : Nat} {l : List Cplx} (h : Evenly a b n l) : l = linspace a b n := by
  obtain ⟨h1, h2, h3, step, h4⟩ := h
  have hk : ∀ (k : Nat), k < n → l[k]? = some (a + k * step, 0) := by
    intro k
    induction k with
    | zero =>
      intro hk
      have : l[0]? = some (l[0]'(by omega)) := List.getElem?_eq_getElem (by omega)
      rw [this, h2 (l[0]'(by omega)) (by rw [List.head?_eq_getElem?, this]; rfl)]
      simp
    | succ k ih =>
      intro hk
      have e : l[k + 1]? = some (l[k + 1]'(by omega)) := List.getElem?_eq_getElem (by omega)
      rw [e, h4 k _ _ (ih (by omega)) e]
      push_cast
      congr 2
      ring
  unfold linspace
  refine List.ext_getElem? fun k => ?_
  by_cases hkn : k < n
  · rw [hk k hkn, List.getElem?_map, List.getElem?_range hkn]
    simp only [Option.map_some]
    by_cases h1' : n = 1
    · have : k = 0 := by omega
      subst this
      simp [h1']
    · rw [if_neg h1']
      have hl := h3 (by omega)
      have hn := hk (n - 1) (by omega)
      rw [List.getLast?_eq_getElem?, h1, hn] at hl
      have hb : a + ((n - 1 : Nat) : ℚ) * step = b := congrArg Prod.fst (Option.some.inj hl)
      have hc : ((n - 1 : Nat) : ℚ) = (n : ℚ) - 1 := by rw [Nat.cast_sub (by omega)]; simp
      have hne : (n : ℚ) - 1 ≠ 0 := by
        rw [← hc]
        exact_mod_cast (by omega : n - 1 ≠ 0)
      rw [hc] at hb
      congr 2
      rw [← hb]
      field_simp
      ring
  · rw [List.getElem?_eq_none (by omega), List.getElem?_eq_none (by simp; omega)]

theorem linspace_evenly (a b : ℚ) (n : Nat) : Evenly a b n (linspace a b n) := by
  refine ⟨by simp [linspace], ?_, ?_, if n = 1 then 0 else (b - a) / (n - 1), ?_⟩
  · intro z hz
    rw [List.head?_eq_getElem?] at hz
    unfold linspace at hz
    by_cases hn : 0 < n
    · rw [List.getElem?_map, List.getElem?_range hn] at hz
      simp at hz
      exact hz.symm
    · have : n = 0 := by omega
      subst this
      simp at hz
  · intro hn
    unfold linspace
    rw [List.getLast?_eq_getElem?, List.getElem?_map]
    rw [List.length_map, List.length_range, List.getElem?_range (by omega), Option.map_some, if_neg (by omega)]
    have hc : ((n - 1 : Nat) : ℚ) = (n : ℚ) - 1 := by rw [Nat.cast_sub (by omega)]; simp
    have hne : (n : ℚ) - 1 ≠ 0 := by
      rw [← hc]
      exact_mod_cast (by omega : n - 1 ≠ 0)
    rw [hc]
    congr 2
    field_simp
    ring
  · intro k x y hx hy
    unfold linspace at hx hy
    rw [List.getElem?_map] at hx hy
    have hkn : k + 1 < n := by
      by_contra hc
      rw [List.getElem?_eq_none (by simp; omega)] at hy
      simp at hy
    rw [List.getElem?_range (by omega)] at hx
    rw [List.getElem?_range (by omega)] at hy
    simp only [Option.map_some, Option.some.injEq] at hx hy
    rw [if_neg (by omega)] at hx hy ⊢
    subst hx
    subst hy
    have hne : (n : ℚ) - 1 ≠ 0 := by
      have hc : ((n - 1 : Nat) : ℚ) = (n : ℚ) - 1 := by rw [Nat.cast_sub (by omega)]; simp
      rw [← hc]
      exact_mod_cast (by omega : n - 1 ≠ 0)
    simp only [Prod.mk.injEq, and_true]
    push_cast
    field_simp
    ring

/-! ### Positions -/

theorem range_mul (n m : Nat) : List.range (n * m) = (List.range n).flatMap fun i => (List.range m).map fun j => i * m + j := by
  induction n with
  | zero => simp
  | succ n ih =>
    rw [Nat.succ_mul, List.range_add, ih, List.range_succ, List.flatMap_append]
    simp

theorem positions_eq : ∀ sh : List Nat, positions sh = (List.range (Nd.size sh)).map (Nd.unravel sh)
  | [] => rfl
  | n :: ns => by
    rw [positions, positions_eq ns, Nd.size, range_mul, List.map_flatMap]
    refine List.flatMap_congr fun i hi => ?_
    rw [List.map_map, List.map_map]
    refine List.map_congr_left fun j hj => ?_
    have hj' := List.mem_range.1 hj
    have hs : 0 < Nd.size ns := by omega
    simp only [Function.comp, Nd.unravel]
    rw [Nat.mul_comm i, Nat.mul_add_div hs, Nat.div_eq_of_lt hj', Nat.mul_add_mod, Nat.mod_eq_of_lt hj', Nat.add_zero]

theorem size_prod : ∀ sh : List Nat, Nd.size sh = sh.prod
  | [] => rfl
  | n :: ns => by rw [Nd.size, size_prod ns, List.prod_cons]

/-- The array made of the numbers read. -/
def arrOf (dims : List (Dim Cplx)) (l : List Cplx) : Arr Cplx Cplx :=
  ⟨dims, ⟨dims.map fun d => d.data.length, fun idx => l.getD
    ((Nd.unravel [l.length] (Nd.ravel (dims.map fun d => d.data.length) idx)).headD 0) (0, 0)⟩⟩

theorem toArr_of (dims : List (Dim Cplx)) (l : List Cplx) (h : l.length = Nd.size (dims.map fun d => d.data.length)) :
    toArr dims l = .ok (arrOf dims l) := by
  unfold toArr Nd.reshape
  rw [if_pos (by simp [Nd.size, h])]
  simp only
  unfold Arr.mk?
  rw [if_pos (by simp [Nd.ndim])]
  rfl

theorem arrOf_get (dims : List (Dim Cplx)) (l : List Cplx) (h : l.length = Nd.size (dims.map fun d => d.data.length)) :
    (positions (dims.map fun d => d.data.length)).map (arrOf dims l).nd.get = l := by
  rw [positions_eq, List.map_map, ← h]
  refine List.ext_getElem? fun k => ?_
  by_cases hk : k < l.length
  · rw [List.getElem?_map, List.getElem?_range hk, List.getElem?_eq_getElem hk]
    simp only [Option.map_some, Function.comp]
    unfold arrOf
    simp only
    rw [Nd.ravel_unravel (by rw [← h]; exact hk)]
    simp [Nd.unravel, Nd.size, hk]
  · rw [List.getElem?_eq_none (by simp; omega), List.getElem?_eq_none (by omega)]

end HF.Citi
