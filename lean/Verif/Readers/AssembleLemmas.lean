import Verif.Readers.Assemble
import Verif.DataBlock.ElemProps
import Mathlib.Data.List.Perm.Subperm
import Mathlib.Data.List.Nodup
import Mathlib.Data.List.Lattice
import Mathlib.Data.List.Flatten
/-
Lemmas on the recognition of element names.
-/
namespace HF.Readers.Assemble

open HF.DataDict.Spec HF.DataBlock
open HF.DataDict hiding rename

/-- The digit of a number below ten. -/
def digit (n : Nat) : Char := Char.ofNat (48 + n)

/-- The name of an element. -/
def elemNmF (f : Form) (v : String) (i j : Nat) : String :=
  match f with
  | .digits => String.ofList (v.toList ++ [digit i, digit j])
  | .brackets => String.ofList (v.toList ++ ['[', digit i, ',', digit j, ']'])

abbrev elemNm : String → Nat → Nat → String := elemNmF .digits

/-- The name of a variable that may be a matrix: letters and underscores only. -/
def IsBase (v : String) : Prop := v.toList ≠ [] ∧ ∀ c ∈ v.toList, isLetter c = true

theorem digit_lt : ∀ n < 10, isDig (digit n) = true ∧ digVal (digit n) = n := by decide

theorem digVal_lt {c : Char} (h : isDig c = true) : digVal c < 10 := by
  simp only [isDig, Bool.and_eq_true, decide_eq_true_eq, Char.le_def, UInt32.le_iff_toNat_le] at h
  have e0 : ('0' : Char).val.toNat = 48 := rfl
  have e9 : ('9' : Char).val.toNat = 57 := rfl
  have : c.toNat = c.val.toNat := rfl
  rw [e0, e9] at h
  simp only [digVal, this]
  omega

theorem digit_digVal {c : Char} (h : isDig c = true) : digit (digVal c) = c := by
  simp only [isDig, Bool.and_eq_true, decide_eq_true_eq, Char.le_def, UInt32.le_iff_toNat_le] at h
  have e0 : ('0' : Char).val.toNat = 48 := rfl
  rw [e0] at h
  have hn : c.toNat = c.val.toNat := rfl
  have : 48 + digVal c = c.toNat := by simp only [digVal, hn]; omega
  rw [digit, this, Char.ofNat_toNat]

theorem takeWhile_dropWhile_letters {v : List Char} {c : Char} {t : List Char}
    (hv : ∀ x ∈ v, isLetter x = true) (hc : isLetter c = false) :
    (v ++ c :: t).takeWhile isLetter = v ∧ (v ++ c :: t).dropWhile isLetter = c :: t := by
  induction v with
  | nil => simp [hc]
  | cons a v ih =>
    have := ih fun x hx => hv x (by simp [hx])
    simp [hv a (by simp), this.1, this.2]

theorem parseName_iff (f : Form) (s v : String) (i j : Nat) (t : String) :
    parseName f s = some (v, i, j, t) ↔
      IsBase v ∧ i < 10 ∧ j < 10 ∧ s = elemNmF f v i j ∧ t = s := by
  constructor
  · intro h
    unfold parseName at h
    split at h
    · rename_i v' i' j' e
      simp only [Option.some.injEq, Prod.mk.injEq] at h
      obtain ⟨rfl, rfl, rfl, rfl⟩ := h
      unfold parseElem at e
      split at e
      · rename_i c w a b e1 e2
        split at e
        · rename_i hd
          simp only [Bool.and_eq_true] at hd
          simp only [Option.some.injEq, Prod.mk.injEq] at e
          obtain ⟨rfl, rfl, rfl⟩ := e
          have hs := List.takeWhile_append_dropWhile (p := isLetter) (l := s.toList)
          rw [e1, e2] at hs
          refine ⟨⟨by simp [String.toList_ofList], ?_⟩, digVal_lt hd.1, digVal_lt hd.2, ?_, rfl⟩
          · rw [String.toList_ofList, ← e1]
            have := List.all_takeWhile (p := isLetter) (l := s.toList)
            exact List.all_eq_true.1 this
          · simp only [elemNmF]
            rw [String.toList_ofList, digit_digVal hd.1, digit_digVal hd.2, hs, String.ofList_toList]
        · simp at e
      · rename_i c w a b e1 e2
        split at e
        · rename_i hd
          simp only [Bool.and_eq_true] at hd
          simp only [Option.some.injEq, Prod.mk.injEq] at e
          obtain ⟨rfl, rfl, rfl⟩ := e
          have hs := List.takeWhile_append_dropWhile (p := isLetter) (l := s.toList)
          rw [e1, e2] at hs
          refine ⟨⟨by simp [String.toList_ofList], ?_⟩, digVal_lt hd.1, digVal_lt hd.2, ?_, rfl⟩
          · rw [String.toList_ofList, ← e1]
            have := List.all_takeWhile (p := isLetter) (l := s.toList)
            exact List.all_eq_true.1 this
          · simp only [elemNmF]
            rw [String.toList_ofList, digit_digVal hd.1, digit_digVal hd.2, hs, String.ofList_toList]
        · simp at e
      · simp at e
    · simp at h
  · rintro ⟨⟨hne, hl⟩, hi, hj, rfl, rfl⟩
    obtain ⟨d1, d2⟩ := digit_lt i hi
    obtain ⟨d3, d4⟩ := digit_lt j hj
    have e : parseElem f (elemNmF f v i j).toList = some (v.toList, i, j) := by
      cases f with
      | digits =>
        have hc : isLetter (digit i) = false := letter_not_digit d1
        have := takeWhile_dropWhile_letters (t := [digit j]) hl hc
        simp only [elemNmF]
        rw [String.toList_ofList]
        unfold parseElem
        rw [this.1, this.2]
        cases hv : v.toList with
        | nil => exact absurd hv hne
        | cons c w => simp [d1, d3, d2, d4]
      | brackets =>
        have := takeWhile_dropWhile_letters (t := [digit i, ',', digit j, ']']) hl (show isLetter '[' = false by decide)
        simp only [elemNmF]
        rw [String.toList_ofList]
        unfold parseElem
        rw [this.1, this.2]
        cases hv : v.toList with
        | nil => exact absurd hv hne
        | cons c w => simp [d1, d3, d2, d4]
    simp [parseName, e, String.ofList_toList]

theorem elemNmF_inj {f : Form} {v w : String} {i j k l : Nat} (hv : IsBase v) (hi : i < 10) (hj : j < 10)
    (hw : IsBase w) (hk : k < 10) (hl : l < 10) (h : elemNmF f v i j = elemNmF f w k l) :
    v = w ∧ i = k ∧ j = l := by
  have h1 := (parseName_iff f (elemNmF f v i j) v i j _).2 ⟨hv, hi, hj, rfl, rfl⟩
  have h2 := (parseName_iff f (elemNmF f w k l) w k l _).2 ⟨hw, hk, hl, rfl, rfl⟩
  rw [h, h2] at h1
  simp only [Option.some.injEq, Prod.mk.injEq] at h1
  exact ⟨h1.1.symm, h1.2.1.symm, h1.2.2.1.symm⟩

theorem elemNm_inj {v w : String} {i j k l : Nat} (hv : IsBase v) (hi : i < 10) (hj : j < 10)
    (hw : IsBase w) (hk : k < 10) (hl : l < 10) (h : elemNm v i j = elemNm w k l) :
    v = w ∧ i = k ∧ j = l := elemNmF_inj hv hi hj hw hk hl h

/-- Names of the two forms are different. -/
theorem elemNmF_form {f g : Form} {v w : String} {i j k l : Nat} (hv : IsBase v) (hi : i < 10) (hj : j < 10)
    (hw : IsBase w) (hk : k < 10) (hl : l < 10) (h : elemNmF f v i j = elemNmF g w k l) : f = g := by
  have key : ∀ {v w : String} {i j k l : Nat}, IsBase w → k < 10 → l < 10 → elemNmF .brackets v i j ≠ elemNmF .digits w k l := by
    intro v w i j k l hw hk hl h
    have : '[' ∈ (elemNmF .digits w k l).toList := by rw [← h]; simp [elemNmF]
    simp only [elemNmF, String.toList_ofList, List.mem_append, List.mem_cons, List.not_mem_nil, or_false] at this
    rcases this with h | h | h
    · exact absurd (hw.2 _ h) (by decide)
    · have := (digit_lt k hk).1; rw [← h] at this; exact absurd this (by decide)
    · have := (digit_lt l hl).1; rw [← h] at this; exact absurd this (by decide)
  cases f <;> cases g
  · rfl
  · exact absurd h.symm (key hv hi hj)
  · exact absurd h (key hw hk hl)
  · rfl

theorem base_ne_elemF {f : Form} {v w : String} {i j : Nat} (hw : IsBase w) (hi : i < 10) : w ≠ elemNmF f v i j := by
  rintro rfl
  have := hw.2 (digit i) (by cases f <;> simp [elemNmF, String.toList_ofList])
  rw [letter_not_digit (digit_lt i hi).1] at this
  simp at this

theorem base_ne_elem {v w : String} {i j : Nat} (hw : IsBase w) (hi : i < 10) : w ≠ elemNm v i j := base_ne_elemF hw hi

/-- The base name of a matrix is not itself the name of an element. -/
theorem isMatrixName_base {v : String} (hv : IsBase v) : isMatrixName v = none := by
  have : matrixName v.toList = none := by
    have hn : (List.range v.toList.length).reverse.find? (matAt v.toList) = none := by
      rw [List.find?_eq_none]
      intro k hk
      simp only [List.mem_reverse, List.mem_range] at hk
      have : (v.toList[k]?).any isDig = false := by
        rw [List.getElem?_eq_getElem hk, Option.any_some]
        cases e : isDig v.toList[k] with
        | false => rfl
        | true =>
          have h1 := letter_not_digit e
          rw [hv.2 _ (List.getElem_mem hk)] at h1
          simp at h1
      simp [matAt, this]
    simp [matrixName, hn]
  simp [isMatrixName, this]

/-! ### Grouping -/

/-- The tuple of a name with base `v`. -/
def hit (f : Form) (v s : String) : Option Tup :=
  match parseName f s with
  | some (w, t) => if w = v then some t else none
  | none => none

/-- The elements of `v` among the names. -/
def hits (f : Form) (v : String) (names : List String) : List Tup := names.filterMap (hit f v)

theorem keys_nodup_addPossible (m : OMap String (List Tup)) (v : String) (t : Tup)
    (h : (m.map Prod.fst).Nodup) : ((addPossible m v t).map Prod.fst).Nodup := by
  unfold addPossible
  split
  · rename_i hl
    rw [List.map_append, List.nodup_append]
    refine ⟨h, by simp, ?_⟩
    intro a ha b hb e
    simp only [List.map_cons, List.map_nil, List.mem_singleton] at hb
    subst hb; subst e
    exact (lookup_none_iff' _ _).1 hl ha
  · rw [keys_modify]; exact h

theorem keys_nodup_possibles (f : Form) (names : List String) : ∀ m : OMap String (List Tup),
    (m.map Prod.fst).Nodup → ((possibles f names m).map Prod.fst).Nodup := by
  induction names with
  | nil => intro m h; exact h
  | cons s t ih =>
    intro m h
    simp only [possibles]
    split
    · exact ih _ (keys_nodup_addPossible _ _ _ h)
    · exact ih _ h

theorem lookup_addPossible (m : OMap String (List Tup)) (v w : String) (t : Tup) :
    lookup (addPossible m v t) w =
      if w = v then some ((lookup m v).getD [] ++ [t]) else lookup m w := by
  unfold addPossible
  cases hl : lookup m v with
  | none =>
    simp only
    rw [lookup_append, lookup_singleton]
    by_cases e : w = v
    · subst e; simp [hl]
    · simp [e, Ne.symm e]
  | some l =>
    simp only
    rw [lookup_modify]
    by_cases e : w = v
    · subst e; simp [(member_iff _ _).2 (lookup_key hl)]
    · simp [e, Ne.symm e]

theorem hits_cons (f : Form) (v s : String) (t : List String) :
    hits f v (s :: t) = match hit f v s with | some x => x :: hits f v t | none => hits f v t := by
  simp only [hits, List.filterMap_cons]
  cases hit f v s <;> rfl

theorem lookup_possibles (f : Form) (names : List String) (v : String) : ∀ m : OMap String (List Tup),
    lookup (possibles f names m) v =
      if hits f v names = [] then lookup m v else some ((lookup m v).getD [] ++ hits f v names) := by
  induction names with
  | nil => intro m; simp [possibles, hits]
  | cons s t ih =>
    intro m
    rw [hits_cons]
    cases hp : parseName f s with
    | none =>
      have hh : hit f v s = none := by simp [hit, hp]
      simp only [possibles, hp, hh]
      exact ih m
    | some p =>
      obtain ⟨w, x⟩ := p
      simp only [possibles, hp]
      rw [ih, lookup_addPossible]
      by_cases e : v = w
      · subst e
        have hh : hit f v s = some x := by simp [hit, hp]
        simp only [hh, if_true]
        by_cases e2 : hits f v t = []
        · simp [e2]
        · simp [e2]
      · have hh : hit f v s = none := by
          have : ¬ w = v := fun h => e h.symm
          simp [hit, hp, this]
        simp only [hh, e, if_false]

theorem mem_iff_lookup {V : Type} {m : OMap String V} (h : (m.map Prod.fst).Nodup) (p : String × V) :
    p ∈ m ↔ lookup m p.1 = some p.2 := by
  constructor
  · intro hp
    induction m with
    | nil => simp at hp
    | cons q t ih =>
      rw [List.map_cons, List.nodup_cons] at h
      rw [lookup_cons]
      rcases List.mem_cons.1 hp with rfl | hp
      · simp
      · have : q.1 ≠ p.1 := fun e => h.1 (e ▸ List.mem_map.2 ⟨p, hp, rfl⟩)
        rw [if_neg this]
        exact ih h.2 hp
  · intro hp; exact lookup_mem hp

theorem mem_possibles (f : Form) (names : List String) (v : String) (ts : List Tup) :
    (v, ts) ∈ possibles f names [] ↔ ts = hits f v names ∧ ts ≠ [] := by
  rw [mem_iff_lookup (keys_nodup_possibles f names [] (by simp)), lookup_possibles]
  by_cases e : hits f v names = []
  · simp [e, lookup]
  · simp only [e, if_false, lookup, List.find?_nil, Option.map_none, Option.getD_none,
      List.nil_append, Option.some.injEq]
    constructor
    · intro h; subst h; exact ⟨rfl, e⟩
    · intro h; exact h.1.symm

theorem mem_hits (f : Form) (v : String) (names : List String) (i j : Nat) (s : String) :
    (i, j, s) ∈ hits f v names ↔
      IsBase v ∧ i < 10 ∧ j < 10 ∧ s = elemNmF f v i j ∧ s ∈ names := by
  simp only [hits, List.mem_filterMap, hit]
  constructor
  · rintro ⟨n, hn, h⟩
    split at h
    · rename_i w t hp
      split at h
      · rename_i e
        subst e
        simp only [Option.some.injEq] at h
        subst h
        obtain ⟨h1, h2, h3, h4, h5⟩ := (parseName_iff _ _ _ _ _ _).1 hp
        subst h5
        exact ⟨h1, h2, h3, h4, hn⟩
      · simp at h
    · simp at h
  · rintro ⟨h1, h2, h3, h4, h5⟩
    refine ⟨s, h5, ?_⟩
    have := (parseName_iff f s v i j s).2 ⟨h1, h2, h3, h4, rfl⟩
    simp [this]

theorem nodup_hits (f : Form) (v : String) (names : List String) (h : names.Nodup) : (hits f v names).Nodup := by
  refine List.Nodup.filterMap ?_ h
  intro a b t ha hb
  simp only [hit, Option.mem_def] at ha hb
  split at ha <;> simp at ha
  split at hb <;> simp at hb
  rename_i w x hp _ w' x' hp'
  obtain ⟨i, j, n⟩ := t
  obtain ⟨rfl, rfl⟩ := ha
  obtain ⟨rfl, rfl⟩ := hb
  have h1 := (parseName_iff _ _ _ _ _ _).1 hp
  have h2 := (parseName_iff _ _ _ _ _ _).1 hp'
  rw [← h1.2.2.2.2, ← h2.2.2.2.2]

/-! ### Complete collections -/

theorem natLt_total : Py.StrictTotal (fun _ : Nat => True) (fun a b => decide (a < b)) where
  irrefl := by simp
  trans := by simp only [decide_eq_true_eq]; omega
  tri := by simp only [decide_eq_true_eq]; omega

theorem mem_sortedSet (l : List Nat) (a : Nat) : a ∈ sortedSet l ↔ a ∈ l := by
  rw [sortedSet, (Py.sortBy_perm _ _).mem_iff, List.mem_dedup]

theorem sortedSet_lt (l : List Nat) : (sortedSet l).Pairwise (· < ·) := by
  have h1 := Py.sortBy_sorted_total natLt_total (l := l.dedup) (fun _ _ => trivial)
  have h2 : (sortedSet l).Nodup := (Py.sortBy_perm _ _).nodup_iff.2 (List.nodup_dedup l)
  refine (List.Pairwise.and h1 h2).imp ?_
  intro a b h
  simp at h
  omega

theorem sortedLt_unique {l m : List Nat} (hl : l.Pairwise (· < ·)) (hm : m.Pairwise (· < ·))
    (h : ∀ a, a ∈ l ↔ a ∈ m) : l = m := by
  have nl : l.Nodup := hl.imp (by intro a b; omega)
  have nm : m.Nodup := hm.imp (by intro a b; omega)
  refine Py.sorted_unique natLt_total (fun _ _ => trivial) (fun _ _ => trivial)
    ((List.perm_ext_iff_of_nodup nl nm).2 h) (hl.imp ?_) (hm.imp ?_) <;>
  · intro a b h; simp; omega

/-- All positions, row by row. -/
def grid (f : Form) (v : String) (I J : List Nat) : List Tup :=
  I.flatMap fun i => J.map fun j => (i, j, elemNmF f v i j)

theorem mem_grid (f : Form) (v : String) (I J : List Nat) (i j : Nat) (s : String) :
    (i, j, s) ∈ grid f v I J ↔ i ∈ I ∧ j ∈ J ∧ s = elemNmF f v i j := by
  simp only [grid, List.mem_flatMap, List.mem_map, Prod.mk.injEq]
  constructor
  · rintro ⟨a, ha, b, hb, rfl, rfl, rfl⟩; exact ⟨ha, hb, rfl⟩
  · rintro ⟨h1, h2, rfl⟩; exact ⟨i, h1, j, h2, rfl, rfl, rfl⟩

theorem length_grid (f : Form) (v : String) (I J : List Nat) : (grid f v I J).length = I.length * J.length := by
  induction I with
  | nil => simp [grid]
  | cons i t ih =>
    simp only [grid, List.flatMap_cons, List.length_append, List.length_map] at ih ⊢
    rw [ih, List.length_cons, Nat.add_mul]; omega

/-- The tuples belong to `v`. -/
def Of (f : Form) (v : String) (t : Tup) : Prop := t.2.2 = elemNmF f v t.1 t.2.1

theorem tupLt_total (f : Form) (v : String) : Py.StrictTotal (Of f v) tupLt where
  irrefl := by intro a _; simp [tupLt]
  trans := by
    rintro ⟨a1, a2, a3⟩ ⟨b1, b2, b3⟩ ⟨c1, c2, c3⟩ ha hb hc
    simp only [Of] at ha hb hc
    subst ha; subst hb; subst hc
    simp only [tupLt]
    intro h1 h2
    by_cases e1 : a1 = b1
    · subst e1
      by_cases e2 : a2 = b2
      · subst e2; simp at h1
      · by_cases e3 : a1 = c1
        · subst e3
          by_cases e4 : b2 = c2
          · subst e4; simp at h2
          · simp [e2, e4] at h1 h2
            have : a2 ≠ c2 := by omega
            simp [this]; omega
        · simpa [e3] using h2
    · by_cases e3 : b1 = c1
      · subst e3; simpa [e1] using h1
      · simp [e1, e3] at h1 h2
        have : a1 ≠ c1 := by omega
        simp [this]; omega
  tri := by
    rintro ⟨a1, a2, a3⟩ ⟨b1, b2, b3⟩ ha hb hne
    simp only [Of] at ha hb
    subst ha; subst hb
    simp only [tupLt]
    by_cases e1 : a1 = b1
    · subst e1
      by_cases e2 : a2 = b2
      · subst e2; exact absurd rfl hne
      · have := Ne.symm e2; simp [e2, this]; try omega
    · have := Ne.symm e1; simp [e1, this]; try omega

theorem grid_sorted (f : Form) (v : String) {I J : List Nat} (hI : I.Pairwise (· < ·))
    (hJ : J.Pairwise (· < ·)) : (grid f v I J).Pairwise fun x y => tupLt y x = false ∧ x ≠ y := by
  rw [grid, List.pairwise_flatMap]
  refine ⟨?_, hI.imp ?_⟩
  · intro i _
    rw [List.pairwise_map]
    refine hJ.imp ?_
    intro a b h
    have : b ≠ a := by omega
    simp [tupLt, this, Ne.symm this]; omega
  · intro a b h x hx y hy
    rw [List.mem_map] at hx hy
    obtain ⟨_, _, rfl⟩ := hx
    obtain ⟨_, _, rfl⟩ := hy
    have : b ≠ a := by omega
    simp [tupLt, this, Ne.symm this]; omega

theorem matrixElements_some (f : Form) (v : String) (ts : List Tup) (hn : ts.Nodup) (hv : ∀ t ∈ ts, Of f v t)
    {e : List String} {I J : List Nat} (h : matrixElements ts = some (e, I, J)) :
    I.Pairwise (· < ·) ∧ J.Pairwise (· < ·) ∧ (∀ i j s, (i, j, s) ∈ ts ↔ (i, j, s) ∈ grid f v I J) ∧
      e = (grid f v I J).map fun t => t.2.2 := by
  simp only [matrixElements] at h
  split at h
  · simp at h
  · rename_i hlen
    rw [Decidable.not_not] at hlen
    simp only [Option.some.injEq, Prod.mk.injEq] at h
    obtain ⟨rfl, rfl, rfl⟩ := h
    generalize hs : Py.sortBy tupLt ts = s at hlen ⊢
    have hperm : s.Perm ts := hs ▸ Py.sortBy_perm _ _
    have hI := sortedSet_lt (s.map fun t => t.1)
    have hJ := sortedSet_lt (s.map fun t => t.2.1)
    have hsub : s ⊆ grid f v (sortedSet (s.map fun t => t.1)) (sortedSet (s.map fun t => t.2.1)) := by
      rintro ⟨i, j, n⟩ ht
      rw [mem_grid, mem_sortedSet, mem_sortedSet]
      exact ⟨List.mem_map.2 ⟨_, ht, rfl⟩, List.mem_map.2 ⟨_, ht, rfl⟩, hv _ (hperm.mem_iff.1 ht)⟩
    have hp : s.Perm (grid f v (sortedSet (s.map fun t => t.1)) (sortedSet (s.map fun t => t.2.1))) := by
      refine (List.subperm_of_subset (hperm.nodup_iff.2 hn) hsub).perm_of_length_le ?_
      rw [length_grid]
      rw [List.length_map] at hlen
      omega
    refine ⟨hI, hJ, ?_, ?_⟩
    · intro i j n
      rw [← hperm.mem_iff, hp.mem_iff]
    · have : s = grid f v (sortedSet (s.map fun t => t.1)) (sortedSet (s.map fun t => t.2.1)) := by
        refine Py.sorted_unique (tupLt_total f v) ?_ ?_ hp ?_ ?_
        · intro t ht; exact hv t (hperm.mem_iff.1 ht)
        · intro t ht; exact hv t (hperm.mem_iff.1 (hp.mem_iff.2 ht))
        · rw [← hs]; exact Py.sortBy_sorted_total (tupLt_total f v) hv
        · exact (grid_sorted f v hI hJ).imp fun h => h.1
      exact congrArg _ this

theorem matrixElements_of_grid (f : Form) (v : String) (ts : List Tup) (hn : ts.Nodup) {I J : List Nat}
    (hI : I.Pairwise (· < ·)) (hJ : J.Pairwise (· < ·)) (hI0 : I ≠ []) (hJ0 : J ≠ [])
    (h : ∀ t, t ∈ ts ↔ t ∈ grid f v I J) :
    matrixElements ts = some ((grid f v I J).map fun t => t.2.2, I, J) := by
  have hgn : (grid f v I J).Nodup := (grid_sorted f v hI hJ).imp fun h => h.2
  have hp : ts.Perm (grid f v I J) := (List.perm_ext_iff_of_nodup hn hgn).2 h
  have hof : ∀ t ∈ ts, Of f v t := by
    rintro ⟨i, j, s⟩ ht
    exact ((mem_grid f v I J i j s).1 ((h _).1 ht)).2.2
  have hs : Py.sortBy tupLt ts = grid f v I J := by
    refine Py.sorted_unique (tupLt_total f v) ?_ ?_ ((Py.sortBy_perm _ _).trans hp) ?_ ?_
    · intro t ht; exact hof t ((Py.sortBy_perm _ _).mem_iff.1 ht)
    · intro t ht; exact hof t (hp.mem_iff.2 ht)
    · exact Py.sortBy_sorted_total (tupLt_total f v) hof
    · exact (grid_sorted f v hI hJ).imp fun h => h.1
  have h1 : sortedSet ((grid f v I J).map fun t => t.1) = I := by
    refine sortedLt_unique (sortedSet_lt _) hI ?_
    intro a
    rw [mem_sortedSet, List.mem_map]
    constructor
    · rintro ⟨⟨i, j, s⟩, ht, rfl⟩; exact ((mem_grid _ _ _ _ _ _ _).1 ht).1
    · intro ha
      obtain ⟨b, hb⟩ := List.exists_mem_of_ne_nil J hJ0
      exact ⟨(a, b, elemNmF f v a b), (mem_grid _ _ _ _ _ _ _).2 ⟨ha, hb, rfl⟩, rfl⟩
  have h2 : sortedSet ((grid f v I J).map fun t => t.2.1) = J := by
    refine sortedLt_unique (sortedSet_lt _) hJ ?_
    intro a
    rw [mem_sortedSet, List.mem_map]
    constructor
    · rintro ⟨⟨i, j, s⟩, ht, rfl⟩; exact ((mem_grid _ _ _ _ _ _ _).1 ht).2.1
    · intro ha
      obtain ⟨b, hb⟩ := List.exists_mem_of_ne_nil I hI0
      exact ⟨(b, a, elemNmF f v b a), (mem_grid _ _ _ _ _ _ _).2 ⟨hb, ha, rfl⟩, rfl⟩
  simp only [matrixElements, hs, h1, h2]
  simp [length_grid]

theorem grid_getElem (f : Form) (v : String) (I J : List Nat) (a c : Nat) (ha : a < I.length)
    (hc : c < J.length) :
    (grid f v I J)[a * J.length + c]? = some (I[a], J[c], elemNmF f v I[a] J[c]) := by
  induction I generalizing a with
  | nil => simp at ha
  | cons i t ih =>
    simp only [grid, List.flatMap_cons]
    cases a with
    | zero =>
      rw [List.getElem?_append_left (by simpa using hc)]
      simp [hc]
    | succ a =>
      rw [List.getElem?_append_right (by rw [List.length_map, Nat.succ_mul]; omega)]
      have : (a + 1) * J.length + c - (J.map fun j => (i, j, elemNmF f v i j)).length =
          a * J.length + c := by
        rw [List.length_map, Nat.succ_mul]; omega
      rw [this]
      exact ih a (by simpa using ha)

end HF.Readers.Assemble
