import Verif.Mdif.Names
import Verif.Readers.AssembleLemmas
/-
C23: names of columns in MDIF files: which are recognised as matrices and vectors.
-/

namespace HF.Mdif

open HF.DataDict.Spec
open DataBlock (isDig digVal dec)

/-! ### Single names -/

theorem takeWhile_app {p : Char → Bool} {a b : List Char} {c : Char} (ha : ∀ x ∈ a, p x = true) (hc : p c = false) :
    (a ++ c :: b).takeWhile p = a ∧ (a ++ c :: b).dropWhile p = c :: b := by
  induction a with
  | nil => simp [hc]
  | cons x a ih =>
    obtain ⟨h1, h2⟩ := ih fun y hy => ha y (by simp [hy])
    have := ha x (by simp)
    rw [List.cons_append, List.takeWhile_cons, List.dropWhile_cons]
    simp [this, h1, h2]

theorem takeWhile_all {p : Char → Bool} {a : List Char} (ha : ∀ x ∈ a, p x = true) :
    a.takeWhile p = a ∧ a.dropWhile p = [] := by
  induction a with
  | nil => simp
  | cons x a ih =>
    obtain ⟨h1, h2⟩ := ih fun y hy => ha y (by simp [hy])
    have := ha x (by simp)
    rw [List.takeWhile_cons, List.dropWhile_cons]
    simp [this, h1, h2]

theorem takeWhile_true {p : Char → Bool} (s : List Char) : ∀ x ∈ s.takeWhile p, p x = true := by
  induction s with
  | nil => simp
  | cons c s ih =>
    rw [List.takeWhile_cons]
    split
    · rename_i h
      intro x hx
      rcases List.mem_cons.mp hx with rfl | hx
      · exact h
      · exact ih x hx
    · simp

/-- A proper type name. -/
def IsType (t : List Char) : Prop := t ≠ [] ∧ ∀ c ∈ t, isAlnum c = true

/-- A proper name. -/
def IsName (n : List Char) : Prop := n ≠ [] ∧ '[' ∉ n

theorem parseType_iff (s r t : List Char) :
    parseType s = some (r, t) ↔ IsType t ∧ s = r ++ '(' :: t ++ [')'] := by
  constructor
  · intro h
    unfold parseType at h
    split at h
    · rename_i x hx
      split at h
      · rename_i b hb
        split at h
        · cases h
        · rename_i hne
          simp only [Option.some.injEq, Prod.mk.injEq] at h
          obtain ⟨rfl, rfl⟩ := h
          refine ⟨⟨by simpa using hne, fun c hc => ?_⟩, ?_⟩
          · exact takeWhile_true x c (by simpa using hc)
          · have e1 : s = (')' :: x).reverse := by rw [← hx]; simp
            have e2 : x = x.takeWhile isAlnum ++ '(' :: b := by rw [← hb, List.takeWhile_append_dropWhile]
            rw [e1]
            conv_lhs => rw [e2]
            simp
      · cases h
    · cases h
  · rintro ⟨⟨h1, h2⟩, rfl⟩
    unfold parseType
    have e : (r ++ '(' :: t ++ [')']).reverse = ')' :: (t.reverse ++ '(' :: r.reverse) := by simp
    rw [e]
    obtain ⟨e1, e2⟩ := takeWhile_app (p := isAlnum) (a := t.reverse) (b := r.reverse) (c := '(')
      (by simpa using h2) (by decide)
    simp only [e1, e2]
    rw [if_neg (by simpa using h1)]
    simp

theorem dec_facts (n : Nat) : dec n ≠ [] ∧ (∀ c ∈ dec n, isDig c = true) ∧ natOf (dec n) = n := by
  have dig : ∀ n < 10, isDig (DataBlock.digitChar n) = true ∧ digVal (DataBlock.digitChar n) = n := by decide
  induction n using Nat.strongRecOn with
  | ind n ih =>
    rw [dec]
    split
    · rename_i h
      obtain ⟨h1, h2⟩ := dig n h
      refine ⟨by simp, ?_, by simp [natOf, h2]⟩
      intro c hc
      simp at hc
      subst hc
      exact h1
    · rename_i h
      obtain ⟨h1, h2⟩ := dig (n % 10) (by omega)
      obtain ⟨i1, i2, i3⟩ := ih (n / 10) (by omega)
      refine ⟨by simp, ?_, ?_⟩
      · intro c hc
        rcases List.mem_append.mp hc with hc | hc
        · exact i2 c hc
        · simp at hc
          subst hc
          exact h1
      · unfold natOf at i3 ⊢
        rw [List.foldl_append, i3]
        simp only [List.foldl_cons, List.foldl_nil, h2]
        omega

/-- Digits, of the number `n`. -/
def Digits (w : List Char) (n : Nat) : Prop := w ≠ [] ∧ (∀ c ∈ w, isDig c = true) ∧ natOf w = n

/-- How a name looks. -/
def Looks (r n : List Char) : Idx → Prop
  | .scalar => r = n
  | .vec i => ∃ a, Digits a i ∧ r = n ++ '[' :: a ++ [']']
  | .mat i j => ∃ a b, Digits a i ∧ Digits b j ∧ r = n ++ '[' :: a ++ ',' :: b ++ [']']

theorem parseIdx_iff (r n : List Char) (i : Idx) : parseIdx r = some (n, i) ↔ IsName n ∧ Looks r n i := by
  constructor
  · intro h
    unfold parseIdx at h
    simp only at h
    have hname : ∀ x ∈ r.takeWhile (fun x => decide (x ≠ '[')), x ≠ '[' := by
      intro x hx
      simpa using takeWhile_true (p := fun x => decide (x ≠ '[')) r x hx
    have hsplit := List.takeWhile_append_dropWhile (p := fun x => decide (x ≠ '[')) (l := r)
    have hhead : ∀ d b, r.dropWhile (fun x => decide (x ≠ '[')) = d :: b → d = '[' := by
      intro d b e
      have := List.head?_dropWhile_not (fun x => decide (x ≠ '[')) r
      rw [e] at this
      simpa using this
    split at h
    · cases h
    · rename_i hne
      split at h
      · rename_i he
        simp only [Option.some.injEq, Prod.mk.injEq] at h
        obtain ⟨rfl, rfl⟩ := h
        refine ⟨⟨hne, fun hm => hname _ hm rfl⟩, ?_⟩
        rw [he, List.append_nil] at hsplit
        exact hsplit.symm
      · rename_i d b he
        obtain rfl := hhead d b he
        rw [he] at hsplit
        split at h
        · cases h
        · rename_i hd
          have hb := List.takeWhile_append_dropWhile (p := isDig) (l := b)
          split at h
          · rename_i e
            simp only [Option.some.injEq, Prod.mk.injEq] at h
            obtain ⟨rfl, rfl⟩ := h
            refine ⟨⟨hne, fun hm => hname _ hm rfl⟩, b.takeWhile isDig, ⟨hd, takeWhile_true b, rfl⟩, ?_⟩
            rw [e] at hb
            conv_lhs => rw [← hsplit, ← hb]
            simp
          · rename_i c e
            split at h
            · cases h
            · rename_i hd2
              split at h
              · rename_i e2
                simp only [Option.some.injEq, Prod.mk.injEq] at h
                obtain ⟨rfl, rfl⟩ := h
                refine ⟨⟨hne, fun hm => hname _ hm rfl⟩, b.takeWhile isDig, c.takeWhile isDig,
                  ⟨hd, takeWhile_true b, rfl⟩, ⟨hd2, takeWhile_true c, rfl⟩, ?_⟩
                have hc := List.takeWhile_append_dropWhile (p := isDig) (l := c)
                rw [e2] at hc
                rw [e] at hb
                conv_lhs => rw [← hsplit, ← hb, ← hc]
                simp
              · cases h
          · cases h
  · rintro ⟨⟨h1, h2⟩, h3⟩
    have hn : ∀ x ∈ n, decide (x ≠ '[') = true := by
      intro x hx
      simp only [decide_eq_true_eq]
      rintro rfl
      exact h2 hx
    cases i with
    | scalar =>
      simp only [Looks] at h3
      subst h3
      obtain ⟨e1, e2⟩ := takeWhile_all hn
      unfold parseIdx
      simp only [e1, e2]
      rw [if_neg h1]
    | vec i =>
      obtain ⟨a, ⟨a1, a2, rfl⟩, rfl⟩ := h3
      have e0 : n ++ '[' :: a ++ [']'] = n ++ '[' :: (a ++ [']']) := by simp
      obtain ⟨e1, e2⟩ := takeWhile_app (b := a ++ [']']) (c := '[') hn (by decide)
      obtain ⟨e3, e4⟩ := takeWhile_app (p := isDig) (a := a) (b := []) (c := ']') a2 (by decide)
      unfold parseIdx
      rw [e0]
      simp only [e1, e2, e3, e4]
      rw [if_neg h1, if_neg a1]
    | mat i j =>
      obtain ⟨a, b, ⟨a1, a2, rfl⟩, ⟨b1, b2, rfl⟩, rfl⟩ := h3
      have e0 : n ++ '[' :: a ++ ',' :: b ++ [']'] = n ++ '[' :: (a ++ ',' :: (b ++ [']'])) := by simp
      obtain ⟨e1, e2⟩ := takeWhile_app (b := a ++ ',' :: (b ++ [']'])) (c := '[') hn (by decide)
      obtain ⟨e3, e4⟩ := takeWhile_app (p := isDig) (a := a) (b := b ++ [']']) (c := ',') a2 (by decide)
      obtain ⟨e5, e6⟩ := takeWhile_app (p := isDig) (a := b) (b := []) (c := ']') b2 (by decide)
      unfold parseIdx
      rw [e0]
      simp only [e1, e2, e3, e4, e5, e6]
      rw [if_neg h1, if_neg a1, if_neg b1, if_pos trivial]

/-- C23: which entries of a header are elements of matrices or vectors. -/
theorem C23_head (s n t : List Char) (i : Idx) : parseHead s = some (n, i, t) ↔
    IsName n ∧ IsType t ∧ ∃ r, Looks r n i ∧ s = r ++ '(' :: t ++ [')'] := by
  unfold parseHead
  constructor
  · intro h
    split at h
    · rename_i r t' h1
      split at h
      · rename_i n' i' h2
        simp only [Option.some.injEq, Prod.mk.injEq] at h
        obtain ⟨rfl, rfl, rfl⟩ := h
        obtain ⟨a1, a2⟩ := (parseType_iff _ _ _).1 h1
        obtain ⟨b1, b2⟩ := (parseIdx_iff _ _ _).1 h2
        exact ⟨b1, a1, r, b2, a2⟩
      · cases h
    · cases h
  · rintro ⟨h1, h2, r, h3, h4⟩
    rw [(parseType_iff s r t).2 ⟨h2, h4⟩]
    simp only
    rw [(parseIdx_iff r n i).2 ⟨h1, h3⟩]

theorem digits_dec (n : Nat) : Digits (dec n) n := dec_facts n

/-! ### Collections -/

variable {K X : Type} [DecidableEq K]

theorem lookup_append (m : OMap K X) (k : K) (x : X) (a : K) :
    lookup (m ++ [(k, x)]) a = (lookup m a).or (if k = a then some x else none) := by
  unfold lookup
  rw [List.find?_append]
  cases h : m.find? fun p => decide (p.1 = a) with
  | some p => simp
  | none =>
    simp only [Option.none_or, Option.map_none, List.find?_cons, List.find?_nil]
    by_cases e : k = a <;> simp [e]

theorem lookup_modify (m : OMap K X) (k : K) (x : X) (a : K) :
    lookup (DataDict.Spec.modify m k x) a = if a = k then (lookup m k).map fun _ => x else lookup m a := by
  unfold lookup DataDict.Spec.modify
  induction m with
  | nil => simp
  | cons p m ih =>
    rw [List.map_cons, List.find?_cons, List.find?_cons, List.find?_cons]
    by_cases h1 : p.1 = k
    · by_cases h2 : a = k
      · subst h2
        simp [h1]
      · have h3 : k ≠ a := fun e => h2 e.symm
        have h4 : p.1 ≠ a := by rw [h1]; exact h3
        simp only [h1, if_true, h3, h4, h2, decide_false, if_false] at ih ⊢
        exact ih
    · by_cases h2 : a = k
      · subst h2
        simp only [h1, if_false, decide_false, if_true] at ih ⊢
        exact ih
      · by_cases h3 : p.1 = a
        · simp [h1, h2, h3]
        · simp only [h1, if_false, h3, decide_false, h2] at ih ⊢
          exact ih

theorem lookup_push (m : OMap K (List X)) (k : K) (x : X) (a : K) :
    lookup (push m k x) a = if a = k then some ((lookup m k).getD [] ++ [x]) else lookup m a := by
  unfold push
  cases h : lookup m k with
  | none =>
    simp only
    rw [lookup_append]
    by_cases e : a = k
    · subst e
      simp [h]
    · rw [if_neg e, if_neg fun e' : k = a => e e'.symm]
      simp
  | some l =>
    simp only
    rw [lookup_modify]
    by_cases e : a = k
    · simp [e, h]
    · simp [e]

/-- The entries collected under a key. -/
def under (l : List (K × X)) (k : K) : List X := (l.filter fun p => p.1 = k).map Prod.snd

theorem lookup_foldl_push (l : List (K × X)) (k : K) : ∀ m : OMap K (List X),
    lookup (l.foldl (fun m p => push m p.1 p.2) m) k =
      if under l k = [] then lookup m k else some ((lookup m k).getD [] ++ under l k) := by
  induction l with
  | nil => intro m; simp [under]
  | cons p l ih =>
    intro m
    rw [List.foldl_cons, ih, lookup_push]
    by_cases e : k = p.1
    · subst e
      have : under (p :: l) p.1 = p.2 :: under l p.1 := by simp [under]
      rw [this]
      simp
    · have : under (p :: l) k = under l k := by
        unfold under
        rw [List.filter_cons_of_neg]
        simpa using fun e' : p.1 = k => e e'.symm
      rw [this]
      simp [e]

theorem lookup_collect (l : List (K × X)) (k : K) :
    lookup (collect l) k = if under l k = [] then none else some (under l k) := by
  unfold collect
  rw [lookup_foldl_push]
  simp [lookup]

theorem modify_fst (m : OMap K X) (k : K) (x : X) : (DataDict.Spec.modify m k x).map Prod.fst = m.map Prod.fst := by
  unfold DataDict.Spec.modify
  rw [List.map_map]
  apply List.map_congr_left
  intro p _
  simp only [Function.comp]
  split
  · rename_i h; exact h.symm
  · rfl

theorem lookup_none {m : OMap K X} {k : K} : lookup m k = none ↔ k ∉ m.map Prod.fst := by
  unfold lookup
  simp only [Option.map_eq_none_iff, List.find?_eq_none, decide_eq_true_eq, List.mem_map, not_exists, not_and]

theorem nodup_push (m : OMap K (List X)) (k : K) (x : X) (h : (m.map Prod.fst).Nodup) :
    ((push m k x).map Prod.fst).Nodup := by
  unfold push
  cases e : lookup m k with
  | none =>
    rw [List.map_append, List.nodup_append]
    refine ⟨h, by simp, ?_⟩
    intro a ha b hb
    simp at hb
    subst hb
    rintro rfl
    exact lookup_none.1 e ha
  | some l =>
    simp only
    rw [modify_fst]
    exact h

theorem nodup_collect (l : List (K × X)) : ((collect l).map Prod.fst).Nodup := by
  unfold collect
  have : ∀ m : OMap K (List X), (m.map Prod.fst).Nodup → ((l.foldl (fun m p => push m p.1 p.2) m).map Prod.fst).Nodup := by
    induction l with
    | nil => intro m h; exact h
    | cons p l ih => intro m h; exact ih _ (nodup_push m p.1 p.2 h)
  exact this [] (by simp)

theorem mem_iff_lookup {m : OMap K X} (h : (m.map Prod.fst).Nodup) (k : K) (x : X) :
    (k, x) ∈ m ↔ lookup m k = some x := by
  unfold lookup
  induction m with
  | nil => simp
  | cons p m ih =>
    rw [List.map_cons, List.nodup_cons] at h
    rw [List.find?_cons, List.mem_cons]
    by_cases e : p.1 = k
    · simp only [e, decide_true, Option.map_some, Option.some.injEq]
      constructor
      · rintro (rfl | hm)
        · rfl
        · exact absurd (List.mem_map_of_mem (f := Prod.fst) hm) (by rw [← e] at *; exact h.1)
      · rintro rfl
        left
        rw [← e]
    · simp only [e, decide_false]
      rw [← ih h.2]
      constructor
      · rintro (rfl | hm)
        · exact absurd rfl e
        · exact hm
      · exact Or.inr

theorem mem_collect (l : List (K × X)) (k : K) (L : List X) : (k, L) ∈ collect l ↔ L = under l k ∧ L ≠ [] := by
  rw [mem_iff_lookup (nodup_collect l), lookup_collect]
  split
  · rename_i h
    constructor
    · intro h'; cases h'
    · rintro ⟨rfl, h'⟩; exact absurd h h'
  · rename_i h
    simp only [Option.some.injEq]
    constructor
    · rintro rfl; exact ⟨rfl, h⟩
    · rintro ⟨rfl, _⟩; rfl

/-! ### Specification -/

/-- The positions that a header has for the matrix `n`. -/
def pairsOf (header : List (List Char)) (n : List Char) : List (Nat × Nat) :=
  header.filterMap fun s => match parseHead s with
    | some (m, .mat i j, _) => if m = n then some (i, j) else none
    | _ => none

/-- The positions that a header has for the vector `n`. -/
def indsOf (header : List (List Char)) (n : List Char) : List Nat :=
  header.filterMap fun s => match parseHead s with
    | some (m, .vec i, _) => if m = n then some i else none
    | _ => none

theorem under_mat (header : List (List Char)) (n : List Char) : ∀ off,
    (under ((columnsFrom off header).filterMap matEntry) n).map (fun e => (e.2.1, e.2.2.1)) = pairsOf header n := by
  induction header with
  | nil => intro off; rfl
  | cons s t ih =>
    intro off
    unfold pairsOf at ih ⊢
    rw [List.filterMap_cons]
    simp only [columnsFrom]
    cases h : parseHead s with
    | none => simp only; exact ih off
    | some r =>
      obtain ⟨m, i, ty⟩ := r
      simp only
      rw [List.filterMap_cons]
      cases i with
      | scalar => simp only [matEntry]; exact ih _
      | vec i => simp only [matEntry]; exact ih _
      | mat i j =>
        simp only [matEntry]
        by_cases e : m = n
        · simp only [e, if_true]
          rw [← ih (off + width ty)]
          simp [under, e]
        · simp only [e, if_false]
          rw [← ih (off + width ty)]
          simp [under, e]

theorem under_vec (header : List (List Char)) (n : List Char) : ∀ off,
    (under ((columnsFrom off header).filterMap vecEntry) n).map (fun e => e.2.1) = indsOf header n := by
  induction header with
  | nil => intro off; rfl
  | cons s t ih =>
    intro off
    unfold indsOf at ih ⊢
    rw [List.filterMap_cons]
    simp only [columnsFrom]
    cases h : parseHead s with
    | none => simp only; exact ih off
    | some r =>
      obtain ⟨m, i, ty⟩ := r
      simp only
      rw [List.filterMap_cons]
      cases i with
      | scalar => simp only [vecEntry]; exact ih _
      | mat i j => simp only [vecEntry]; exact ih _
      | vec i =>
        simp only [vecEntry]
        by_cases e : m = n
        · simp only [e, if_true]
          rw [← ih (off + width ty)]
          simp [under, e]
        · simp only [e, if_false]
          rw [← ih (off + width ty)]
          simp [under, e]

/-- The positions `(1,1)` to `(p,q)`. -/
def grid (p q : Nat) : List (Nat × Nat) := (List.range' 1 p).flatMap fun i => (List.range' 1 q).map fun j => (i, j)

theorem mem_grid (p q i j : Nat) : (i, j) ∈ grid p q ↔ (1 ≤ i ∧ i ≤ p) ∧ (1 ≤ j ∧ j ≤ q) := by
  unfold grid
  simp only [List.mem_flatMap, List.mem_map, Prod.mk.injEq, List.mem_range'_1]
  constructor
  · rintro ⟨a, ha, b, hb, rfl, rfl⟩; omega
  · rintro ⟨h1, h2⟩; exact ⟨i, by omega, j, by omega, rfl, rfl⟩

theorem length_grid (p q : Nat) : (grid p q).length = p * q := by
  unfold grid
  rw [List.length_flatMap]
  simp

theorem grid_sorted (p q : Nat) : (grid p q).Pairwise fun x y => pairLt y x = false ∧ x ≠ y := by
  rw [grid, List.pairwise_flatMap]
  refine ⟨?_, (List.pairwise_lt_range' (s := 1) (n := p)).imp ?_⟩
  · intro i _
    rw [List.pairwise_map]
    refine (List.pairwise_lt_range' (s := 1) (n := q)).imp ?_
    intro a b h
    have : b ≠ a := by omega
    simp [pairLt, this, Ne.symm this]; omega
  · intro a b h x hx y hy
    rw [List.mem_map] at hx hy
    obtain ⟨_, _, rfl⟩ := hx
    obtain ⟨_, _, rfl⟩ := hy
    have : b ≠ a := by omega
    simp [pairLt, this, Ne.symm this]; omega

theorem grid_nodup (p q : Nat) : (grid p q).Nodup := (grid_sorted p q).imp fun h => h.2

theorem isRange_iff (l : List Nat) (n : Nat) : isRange l n = true ↔ ∀ i, i ∈ l ↔ 1 ≤ i ∧ i ≤ n := by
  unfold isRange
  simp only [Bool.and_eq_true, List.all_eq_true, List.contains_iff_mem, List.mem_range'_1]
  constructor
  · rintro ⟨h1, h2⟩ i
    constructor
    · intro h; have := h1 i h; omega
    · intro h; exact h2 i (by omega)
  · intro h
    exact ⟨fun i hi => by have := (h i).1 hi; omega, fun i hi => (h i).2 (by omega)⟩

theorem dedup_range_length (l : List Nat) (n : Nat) (h : ∀ i, i ∈ l ↔ 1 ≤ i ∧ i ≤ n) : l.dedup.length = n := by
  have : l.dedup.Perm (List.range' 1 n) := by
    rw [List.perm_ext_iff_of_nodup (List.nodup_dedup l) (List.nodup_range')]
    intro a
    rw [List.mem_dedup, h, List.mem_range'_1]
    omega
  rw [this.length_eq, List.length_range']

theorem isMatrix_iff (l : List MatEntry) (hne : l ≠ []) (hnd : (l.map fun e => (e.2.1, e.2.2.1)).Nodup) :
    isMatrix l = true ↔ ∃ p q, 0 < p ∧ 0 < q ∧
      ∀ i j, (i, j) ∈ (l.map fun e => (e.2.1, e.2.2.1)) ↔ (1 ≤ i ∧ i ≤ p) ∧ (1 ≤ j ∧ j ≤ q) := by
  obtain ⟨a, ha⟩ : ∃ a, a = l.map fun e => (e.2.1, e.2.2.1) := ⟨_, rfl⟩
  have hI : (l.map fun e => e.2.1) = a.map Prod.fst := by rw [ha, List.map_map]; rfl
  have hJ : (l.map fun e => e.2.2.1) = a.map Prod.snd := by rw [ha, List.map_map]; rfl
  have hlen : l.length = a.length := by rw [ha]; simp
  have hne' : a ≠ [] := by rw [ha]; simpa using hne
  unfold isMatrix
  simp only [hI, hJ, hlen]
  rw [← ha] at hnd ⊢
  simp only [Bool.and_eq_true, beq_iff_eq, isRange_iff, List.mem_dedup]
  constructor
  · rintro ⟨⟨h1, h2⟩, h3⟩
    obtain ⟨p, hp⟩ : ∃ p, p = (a.map Prod.fst).dedup.length := ⟨_, rfl⟩
    obtain ⟨q, hq⟩ : ∃ q, q = (a.map Prod.snd).dedup.length := ⟨_, rfl⟩
    rw [← hp] at h1 h2
    rw [← hq] at h1 h3
    have hpos : 0 < a.length := List.length_pos_iff.2 hne'
    have hsub : a ⊆ grid p q := by
      rintro ⟨i, j⟩ hij
      rw [mem_grid]
      exact ⟨(h2 i).1 (List.mem_map.2 ⟨_, hij, rfl⟩), (h3 j).1 (List.mem_map.2 ⟨_, hij, rfl⟩)⟩
    have hperm : a.Perm (grid p q) := by
      refine (List.subperm_of_subset hnd hsub).perm_of_length_le ?_
      rw [length_grid]
      omega
    refine ⟨p, q, ?_, ?_, ?_⟩
    · by_contra h
      have : p = 0 := by omega
      rw [this] at h1
      simp at h1
      omega
    · by_contra h
      have : q = 0 := by omega
      rw [this] at h1
      simp at h1
      omega
    · intro i j
      rw [hperm.mem_iff, mem_grid]
  · rintro ⟨p, q, hp, hq, h⟩
    have hI' : ∀ i, i ∈ a.map Prod.fst ↔ 1 ≤ i ∧ i ≤ p := by
      intro i
      rw [List.mem_map]
      constructor
      · rintro ⟨⟨i', j⟩, hm, rfl⟩; exact ((h _ _).1 hm).1
      · intro hi; exact ⟨(i, 1), (h i 1).2 ⟨hi, by omega⟩, rfl⟩
    have hJ' : ∀ j, j ∈ a.map Prod.snd ↔ 1 ≤ j ∧ j ≤ q := by
      intro j
      rw [List.mem_map]
      constructor
      · rintro ⟨⟨i, j'⟩, hm, rfl⟩; exact ((h _ _).1 hm).2
      · intro hj; exact ⟨(1, j), (h 1 j).2 ⟨by omega, hj⟩, rfl⟩
    have hperm : a.Perm (grid p q) := by
      rw [List.perm_ext_iff_of_nodup hnd (grid_nodup p q)]
      rintro ⟨i, j⟩
      rw [h, mem_grid]
    rw [dedup_range_length _ _ hI', dedup_range_length _ _ hJ', hperm.length_eq, length_grid]
    exact ⟨⟨rfl, hI'⟩, hJ'⟩

/-- C23: provided that no element is given twice, columns are taken for a matrix exactly if they are all
the elements from `(1,1)` to some `(p,q)`. -/
theorem C23_matrix (header : List (List Char)) (n : List Char) (hnd : (pairsOf header n).Nodup) :
    n ∈ (matchNames header).matrix.map Prod.fst ↔ ∃ p q, 0 < p ∧ 0 < q ∧
      ∀ i j, (i, j) ∈ pairsOf header n ↔ (1 ≤ i ∧ i ≤ p) ∧ (1 ≤ j ∧ j ≤ q) := by
  have hu := under_mat header n 0
  unfold matchNames
  simp only [List.mem_map, List.mem_filter, Prod.exists, exists_and_right, exists_eq_right]
  constructor
  · rintro ⟨L, h1, h2⟩
    obtain ⟨rfl, hne⟩ := (mem_collect _ _ _).1 h1
    rw [← hu] at hnd ⊢
    exact (isMatrix_iff _ hne hnd).1 h2
  · intro h
    obtain ⟨L, hL⟩ : ∃ L, L = under ((columnsFrom 0 header).filterMap matEntry) n := ⟨_, rfl⟩
    have hne : L ≠ [] := by
      obtain ⟨p, q, hp, hq, h⟩ := h
      have : (1, 1) ∈ pairsOf header n := (h 1 1).2 (by omega)
      rw [← hu, ← hL] at this
      intro e
      rw [e] at this
      simp at this
    refine ⟨L, (mem_collect _ _ _).2 ⟨hL, hne⟩, ?_⟩
    rw [← hu, ← hL] at hnd h
    exact (isMatrix_iff _ hne hnd).2 h

/-- C23: columns are taken for a vector exactly if they are the elements from 1 to some `k`, each once. -/
theorem C23_vector (header : List (List Char)) (n : List Char) :
    n ∈ (matchNames header).vector.map Prod.fst ↔ ∃ k, 0 < k ∧ (indsOf header n).Perm (List.range' 1 k) := by
  have hu := under_vec header n 0
  unfold matchNames
  simp only [List.mem_map, List.mem_filter, Prod.exists, exists_and_right, exists_eq_right]
  constructor
  · rintro ⟨L, h1, h2⟩
    obtain ⟨rfl, hne⟩ := (mem_collect _ _ _).1 h1
    obtain ⟨L, hL⟩ : ∃ L, L = under ((columnsFrom 0 header).filterMap vecEntry) n := ⟨_, rfl⟩
    rw [← hL] at hne h2 hu
    unfold isVector at h2
    rw [isRange_iff] at h2
    rw [hu] at h2
    have hlen : L.length = (indsOf header n).length := by rw [← hu]; simp
    rw [hlen] at h2
    refine ⟨(indsOf header n).length, ?_, ?_⟩
    · rw [← hlen]; exact List.length_pos_iff.2 hne
    · refine ((List.subperm_of_subset (List.nodup_range' (s := 1)) ?_).perm_of_length_le ?_).symm
      · intro i hi
        rw [List.mem_range'_1] at hi
        have := (h2 i).2 (by omega)
        simpa using this
      · simp
  · rintro ⟨k, hk, hp⟩
    obtain ⟨L, hL⟩ : ∃ L, L = under ((columnsFrom 0 header).filterMap vecEntry) n := ⟨_, rfl⟩
    rw [← hL] at hu
    have hlen : L.length = k := by
      have := congrArg List.length hu
      rw [List.length_map, hp.length_eq, List.length_range'] at this
      exact this
    refine ⟨L, (mem_collect _ _ _).2 ⟨hL, fun e => by rw [e] at hlen; simp at hlen; omega⟩, ?_⟩
    unfold isVector
    rw [isRange_iff, hu, hlen]
    intro i
    rw [List.mem_dedup, hp.mem_iff, List.mem_range'_1]
    omega

end HF.Mdif
