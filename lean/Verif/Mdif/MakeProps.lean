import Verif.Mdif.NamesProps
/-
C23: what becomes of the columns of matrices and vectors.
-/

namespace HF.Mdif

open HF.DataDict.Spec
open DataBlock (isDig digVal dec)

variable {α : Type}

/-! ### Removing and placing -/

theorem member_iff {K X : Type} [DecidableEq K] (m : OMap K X) (k : K) : member m k = true ↔ k ∈ m.map Prod.fst := by
  unfold member
  simp only [List.any_eq_true, decide_eq_true_eq, List.mem_map]

theorem delAll_ok (elems : List (List Char)) : ∀ (vars : OMap (List Char) (Val α)), elems.Nodup →
    (∀ e ∈ elems, e ∈ vars.map Prod.fst) → delAll vars elems = .ok (vars.filter fun p => p.1 ∉ elems) := by
  induction elems with
  | nil => intro vars _ _; simp [delAll]
  | cons e t ih =>
    intro vars hnd hin
    rw [List.nodup_cons] at hnd
    unfold delAll
    rw [if_pos ((member_iff vars e).2 (hin e (by simp))), ih _ hnd.2]
    · unfold remove
      rw [List.filter_filter]
      congr 1
      apply List.filter_congr
      intro p _
      simp [Bool.and_comm]
    · intro x hx
      obtain ⟨p, hp, rfl⟩ := List.mem_map.1 (hin x (by simp [hx]))
      refine List.mem_map.2 ⟨p, List.mem_filter.2 ⟨hp, ?_⟩, rfl⟩
      simp only [ne_eq, decide_eq_true_eq]
      rintro e'
      rw [e'] at hx
      exact hnd.1 hx

theorem keys_assign {X : Type} (m : OMap (List Char) X) (n : List Char) (v : X) (k : List Char) :
    k ∈ (assign m n v).map Prod.fst ↔ k ∈ m.map Prod.fst ∨ k = n := by
  unfold assign
  split
  · rename_i h
    rw [modify_fst]
    constructor
    · exact Or.inl
    · rintro (h' | rfl)
      · exact h'
      · exact (member_iff _ _).1 h
  · simp

theorem filter_modify {X : Type} (m : OMap (List Char) X) (n : List Char) (v : X) (P : List Char → Prop)
    [DecidablePred P] (hP : ¬P n) :
    (DataDict.Spec.modify m n v).filter (fun p => P p.1) = m.filter fun p => P p.1 := by
  unfold DataDict.Spec.modify
  induction m with
  | nil => rfl
  | cons p m ih =>
    rw [List.map_cons]
    by_cases h : p.1 = n
    · rw [if_pos h, List.filter_cons_of_neg (by simpa using hP), List.filter_cons_of_neg (by rw [h]; simpa using hP), ih]
    · rw [if_neg h]
      by_cases h2 : P p.1
      · rw [List.filter_cons_of_pos (by simpa using h2), List.filter_cons_of_pos (by simpa using h2), ih]
      · rw [List.filter_cons_of_neg (by simpa using h2), List.filter_cons_of_neg (by simpa using h2), ih]

theorem filter_assign {X : Type} (m : OMap (List Char) X) (n : List Char) (v : X) (P : List Char → Prop)
    [DecidablePred P] (hP : ¬P n) :
    (assign m n v).filter (fun p => P p.1) = m.filter fun p => P p.1 := by
  unfold assign
  split
  · exact filter_modify m n v P hP
  · rw [List.filter_append]
    simp [hP]

/-- The variables that are neither `n` nor among `elems`. -/
def others {X : Type} (vars : OMap (List Char) X) (n : List Char) (elems : List (List Char)) : OMap (List Char) X :=
  vars.filter fun p => p.1 ∉ n :: elems

theorem place_ok (vars : OMap (List Char) (Val α)) (n : List Char) (v : Val α) (elems : List (List Char))
    (hnd : elems.Nodup) (hin : ∀ e ∈ elems, e ∈ vars.map Prod.fst) :
    ∃ i, place vars n v elems = .ok ((others vars n elems).take i ++ (n, v) :: (others vars n elems).drop i) := by
  unfold place
  simp only
  rw [delAll_ok elems (assign vars n v) hnd fun e he => (keys_assign _ _ _ _).2 (Or.inl (hin e he))]
  simp only
  have e : remove ((assign vars n v).filter fun p => p.1 ∉ elems) n = others vars n elems := by
    unfold remove others
    rw [List.filter_filter, ← filter_assign vars n v (fun k => k ∉ n :: elems) (by simp)]
    apply List.filter_congr
    intro p _
    simp
  rw [e]
  exact ⟨_, rfl⟩

theorem lookup_filter {X : Type} (m : OMap (List Char) X) (P : List Char → Prop) [DecidablePred P] (k : List Char) :
    lookup (m.filter fun p => P p.1) k = if P k then lookup m k else none := by
  unfold lookup
  induction m with
  | nil => simp
  | cons p m ih =>
    by_cases h : P p.1
    · rw [List.filter_cons_of_pos (by simpa using h), List.find?_cons, List.find?_cons]
      by_cases h2 : p.1 = k
      · rw [h2] at h
        simp [h2, h]
      · simp only [h2, decide_false]
        exact ih
    · rw [List.filter_cons_of_neg (by simpa using h), List.find?_cons]
      by_cases h2 : p.1 = k
      · rw [h2] at h
        rw [ih]
        simp [h]
      · simp only [h2, decide_false]
        exact ih

theorem lookup_insert {X : Type} (m : OMap (List Char) X) (n : List Char) (v : X) (i : Nat)
    (h : n ∉ m.map Prod.fst) (k : List Char) :
    lookup (m.take i ++ (n, v) :: m.drop i) k = if k = n then some v else lookup m k := by
  have h1 : n ∉ (m.take i).map Prod.fst := fun h' => h (by
    obtain ⟨p, hp, e⟩ := List.mem_map.1 h'
    exact List.mem_map.2 ⟨p, List.mem_of_mem_take hp, e⟩)
  have h2 : ∀ a b : OMap (List Char) X, ∀ k, lookup (a ++ b) k = (lookup a k).or (lookup b k) := by
    intro a b k
    unfold lookup
    rw [List.find?_append]
    cases a.find? fun p => decide (p.1 = k) <;> simp
  have h3 : lookup ((n, v) :: m.drop i) k = if k = n then some v else lookup (m.drop i) k := by
    unfold lookup
    rw [List.find?_cons]
    by_cases e : k = n
    · simp [e]
    · rw [if_neg e]
      simp only [show ¬n = k from fun e' => e e'.symm, decide_false]
  rw [h2, h3]
  by_cases e : k = n
  · subst e
    rw [lookup_none.2 h1]
    simp
  · rw [if_neg e, if_neg e, ← h2, List.take_append_drop]

/-- What the code makes of the variables when `v` is put together from `elems` under the name `n`. -/
structure Placed (vars vars' : OMap (List Char) (Val α)) (n : List Char) (v : Val α) (elems : List (List Char)) :
    Prop where
  new : lookup vars' n = some v
  gone : ∀ e ∈ elems, e ≠ n → lookup vars' e = none
  kept : ∀ k, k ≠ n → k ∉ elems → lookup vars' k = lookup vars k
  order : vars'.filter (fun p => p.1 ≠ n) = vars.filter fun p => p.1 ∉ n :: elems
  nodup : (vars.map Prod.fst).Nodup → (vars'.map Prod.fst).Nodup

theorem place_placed (vars : OMap (List Char) (Val α)) (n : List Char) (v : Val α) (elems : List (List Char))
    (hnd : elems.Nodup) (hin : ∀ e ∈ elems, e ∈ vars.map Prod.fst) :
    ∃ vars', place vars n v elems = .ok vars' ∧ Placed vars vars' n v elems := by
  obtain ⟨i, hi⟩ := place_ok vars n v elems hnd hin
  have hn : n ∉ (others vars n elems).map Prod.fst := by
    intro h
    obtain ⟨p, hp, e⟩ := List.mem_map.1 h
    unfold others at hp
    have := (List.mem_filter.1 hp).2
    simp [e] at this
  have hl := lookup_insert (others vars n elems) n v i hn
  have ho : ∀ k, lookup (others vars n elems) k = if k ∉ n :: elems then lookup vars k else none :=
    lookup_filter vars fun k => k ∉ n :: elems
  refine ⟨_, hi, ?_, ?_, ?_, ?_, ?_⟩
  · rw [hl, if_pos rfl]
  · intro e he hne
    rw [hl, if_neg hne, ho]
    simp [he]
  · intro k h1 h2
    rw [hl, if_neg h1, ho]
    simp [h1, h2]
  · rw [List.filter_append, List.filter_cons_of_neg (by simp), ← List.filter_append, List.take_append_drop]
    show _ = others vars n elems
    rw [List.filter_eq_self]
    · intro p hp
      simp only [ne_eq, decide_eq_true_eq]
      intro e
      exact hn (List.mem_map.2 ⟨p, hp, e⟩)
  · intro h
    have h1 : ((others vars n elems).map Prod.fst).Nodup := h.sublist (List.Sublist.map _ List.filter_sublist)
    have h2 : (n :: (others vars n elems).map Prod.fst).Nodup := List.nodup_cons.2 ⟨hn, h1⟩
    refine List.Perm.nodup ?_ h2
    rw [List.map_append, List.map_cons]
    refine List.Perm.trans ?_ List.perm_middle.symm
    rw [← List.map_append, List.take_append_drop]

theorem foldl_min (l : List Nat) : ∀ (a b : Nat), a ≤ b → a ∈ l → (∀ x ∈ l, a ≤ x) → l.foldl min b = a := by
  induction l with
  | nil => intro a b _ h; simp at h
  | cons y l ih =>
    intro a b hab hm hle
    rw [List.foldl_cons]
    have hy := hle y (by simp)
    by_cases h : a ∈ l
    · exact ih a _ (by omega) h fun x hx => hle x (by simp [hx])
    · have : a = y := by
        rcases List.mem_cons.1 hm with e | e
        · exact e
        · exact absurd e h
      subst this
      have e : min b a = a := by omega
      rw [e]
      have key : ∀ l : List Nat, (∀ x ∈ l, a ≤ x) → l.foldl min a = a := by
        intro l
        induction l with
        | nil => intro _; rfl
        | cons z l ih2 =>
          intro hz
          rw [List.foldl_cons]
          have := hz z (by simp)
          have e : min a z = a := by omega
          rw [e]
          exact ih2 fun x hx => hz x (by simp [hx])
      exact key l fun x hx => hle x (by simp [hx])

theorem idxOf_after {K : Type} [DecidableEq K] (l r : List K) (e : K) (h : e ∉ l) : l.length ≤ (l ++ r).idxOf e := by
  rw [List.idxOf_append, if_neg h]
  simp

theorem idxOf_here {K : Type} [DecidableEq K] (l r : List K) (e : K) (h : e ∉ l) : (l ++ e :: r).idxOf e = l.length := by
  rw [List.idxOf_append, if_neg h]
  simp

/-- C23: the new variable takes the place of the first of its elements. -/
theorem C23_position (n : List Char) (v : Val α) (elems : List (List Char)) (A B : OMap (List Char) (Val α))
    (e : List Char) (x : Val α) (hnd : elems.Nodup) (hn : n ∉ elems)
    (hin : ∀ e' ∈ elems, e' ∈ (A ++ (e, x) :: B).map Prod.fst) (he : e ∈ elems)
    (hA : ∀ k ∈ A.map Prod.fst, k ∉ n :: elems) :
    place (A ++ (e, x) :: B) n v elems = .ok (A ++ (n, v) :: B.filter fun p => p.1 ∉ n :: elems) := by
  obtain ⟨vars, hv⟩ : ∃ vars, vars = A ++ (e, x) :: B := ⟨_, rfl⟩
  rw [← hv] at hin ⊢
  unfold place
  simp only
  rw [delAll_ok elems (assign vars n v) hnd fun e he => (keys_assign _ _ _ _).2 (Or.inl (hin e he))]
  simp only
  have e0 : remove ((assign vars n v).filter fun p => p.1 ∉ elems) n = others vars n elems := by
    unfold remove others
    rw [List.filter_filter, ← filter_assign vars n v (fun k => k ∉ n :: elems) (by simp)]
    apply List.filter_congr
    intro p _
    simp
  have hAf : A.filter (fun p => p.1 ∉ n :: elems) = A := by
    rw [List.filter_eq_self]
    intro p hp
    simpa using hA p.1 (List.mem_map.2 ⟨p, hp, rfl⟩)
  have e1 : others vars n elems = A ++ B.filter fun p => p.1 ∉ n :: elems := by
    unfold others
    rw [hv, List.filter_append, hAf, List.filter_cons_of_neg (by simp [he])]
  -- the keys after the assignment begin as before
  have e2 : ∃ r, (assign vars n v).map Prod.fst = A.map Prod.fst ++ e :: r := by
    unfold assign
    split
    · rw [modify_fst, hv]
      exact ⟨B.map Prod.fst, by simp⟩
    · rw [hv]
      exact ⟨B.map Prod.fst ++ [n], by simp⟩
  obtain ⟨r, hr⟩ := e2
  have hlen : A.length ≤ (assign vars n v).length := by
    have := congrArg List.length hr
    simp at this
    omega
  have hidx : ∀ e' ∈ elems, A.length ≤ @List.idxOf _ instBEqOfDecidableEq e' ((assign vars n v).map Prod.fst) := by
    intro e' he'
    rw [hr]
    refine Nat.le_trans (by simp) (idxOf_after (A.map Prod.fst) (e :: r) e' ?_)
    exact fun h => hA e' h (by simp [he'])
  have hidx0 : @List.idxOf _ instBEqOfDecidableEq e ((assign vars n v).map Prod.fst) = A.length := by
    rw [hr, idxOf_here _ _ _ fun h => hA e h (by simp [he]), List.length_map]
  have e3 : (elems.map fun e => @List.idxOf _ instBEqOfDecidableEq e ((assign vars n v).map Prod.fst)).foldl min (assign vars n v).length = A.length := by
    apply foldl_min
    · exact hlen
    · exact List.mem_map.2 ⟨e, he, hidx0⟩
    · intro y hy
      obtain ⟨e', he', rfl⟩ := List.mem_map.1 hy
      exact hidx e' he'
  rw [e0, e3, e1]
  simp

/-! ### One matrix, one vector -/

theorem dec_inj {i j : Nat} (h : dec i = dec j) : i = j := by
  have := congrArg natOf h
  rwa [(dec_facts i).2.2, (dec_facts j).2.2] at this

theorem looks_mat (n : List Char) (i j : Nat) : Looks (matName n i j) n (.mat i j) :=
  ⟨dec i, dec j, digits_dec i, digits_dec j, rfl⟩

theorem looks_vec (n : List Char) (i : Nat) : Looks (vecName n i) n (.vec i) := ⟨dec i, digits_dec i, rfl⟩

theorem looks_inj {r n n' : List Char} {i i' : Idx} (h1 : IsName n) (h2 : IsName n') (h : Looks r n i)
    (h' : Looks r n' i') : n = n' ∧ i = i' := by
  have e1 := (parseIdx_iff r n i).2 ⟨h1, h⟩
  have e2 := (parseIdx_iff r n' i').2 ⟨h2, h'⟩
  rw [e1] at e2
  simpa using e2

theorem pairLt_total : Py.StrictTotal (fun _ : Nat × Nat => True) pairLt where
  irrefl := by rintro ⟨a, b⟩ _; simp [pairLt]
  trans := by
    rintro ⟨a, b⟩ ⟨c, d⟩ ⟨e, f⟩ _ _ _ h1 h2
    simp only [pairLt] at h1 h2 ⊢
    split at h1 <;> split at h2 <;> split <;> simp_all <;> omega
  tri := by
    rintro ⟨a, b⟩ ⟨c, d⟩ _ _ h
    simp only [pairLt]
    by_cases e : a = c
    · subst e
      simp only [ne_eq, not_true, if_false, decide_eq_true_eq]
      have : b ≠ d := fun e => h (by rw [e])
      omega
    · rw [if_pos e, if_pos (Ne.symm e), decide_eq_true_eq, decide_eq_true_eq]
      omega

theorem sort_grid {a : List (Nat × Nat)} {p q : Nat} (h : a.Perm (grid p q)) : Py.sortBy pairLt a = grid p q :=
  Py.sorted_unique pairLt_total (fun _ _ => trivial) (fun _ _ => trivial)
    ((Py.sortBy_perm pairLt a).trans h) (Py.sortBy_sorted_total pairLt_total fun _ _ => trivial)
    ((grid_sorted p q).imp fun h => h.1)

theorem sort_range {a : List Nat} {k : Nat} (h : a.Perm (List.range' 1 k)) :
    Py.sortBy (fun a b => decide (a < b)) a = List.range' 1 k :=
  Py.sorted_unique Readers.Assemble.natLt_total (fun _ _ => trivial) (fun _ _ => trivial)
    ((Py.sortBy_perm _ a).trans h) (Py.sortBy_sorted_total Readers.Assemble.natLt_total fun _ _ => trivial)
    ((List.pairwise_lt_range' (s := 1) (n := k)).imp fun h => by simp; omega)

theorem grid_getElem (p q a b : Nat) (ha : a < p) (hb : b < q) : (grid p q)[a * q + b]? = some (a + 1, b + 1) := by
  unfold grid
  have key : ∀ s p a, a < p → ((List.range' s p).flatMap fun i => (List.range' 1 q).map fun j => (i, j))[a * q + b]?
      = some (s + a, b + 1) := by
    intro s p
    induction p generalizing s with
    | zero => intro a h; omega
    | succ p ih =>
      intro a h
      rw [List.range'_succ, List.flatMap_cons]
      cases a with
      | zero =>
        rw [List.getElem?_append_left (by simpa using hb)]
        simp [hb, Nat.add_comm]
      | succ a =>
        rw [List.getElem?_append_right (by simp; nlinarith)]
        have : (a + 1) * q + b - ((List.range' 1 q).map fun j => (s, j)).length = a * q + b := by
          simp
          rw [Nat.succ_mul]
          omega
        rw [this, ih (s + 1) a (by omega)]
        simp
        omega
  rw [key 1 p a ha]
  simp
  omega

theorem mapM_columns (vars : OMap (List Char) (Val α)) {ι : Type} (nm : ι → List Char) (c : ι → List α) (l : List ι)
    (h : ∀ x ∈ l, lookup vars (nm x) = some (.column (c x))) :
    (l.map nm).mapM (column? vars) = .ok (l.map c) := by
  induction l with
  | nil => rfl
  | cons x l ih =>
    rw [List.map_cons, List.mapM_cons, ih fun y hy => h y (by simp [hy])]
    unfold column?
    rw [h x (by simp)]
    rfl

theorem sameLength_map {ι : Type} (c : ι → List α) (l : List ι) (m : Nat) (h : ∀ x ∈ l, (c x).length = m) :
    sameLength (l.map c) = true := by
  unfold sameLength
  cases l with
  | nil => rfl
  | cons y l =>
    simp only [List.map_cons, List.headD_cons, List.all_eq_true, beq_iff_eq]
    intro z hz
    rw [← List.map_cons] at hz
    obtain ⟨x, hx, rfl⟩ := List.mem_map.1 hz
    rw [h x hx, h y (by simp)]

/-- The columns of the matrix `n` with `p` rows and `q` columns; all have length `m`. -/
def MatCols (vars : OMap (List Char) (Val α)) (n : List Char) (p q m : Nat) (c : Nat → Nat → List α) : Prop :=
  ∀ i j, 1 ≤ i → i ≤ p → 1 ≤ j → j ≤ q → lookup vars (matName n i j) = some (.column (c i j)) ∧ (c i j).length = m

/-- The columns of the vector `n` with `k` elements. -/
def VecCols (vars : OMap (List Char) (Val α)) (n : List Char) (k m : Nat) (c : Nat → List α) : Prop :=
  ∀ i, 1 ≤ i → i ≤ k → lookup vars (vecName n i) = some (.column (c i)) ∧ (c i).length = m

/-- The names of the elements of a matrix. -/
def matElems (n : List Char) (p q : Nat) : List (List Char) := (grid p q).map fun e => matName n e.1 e.2

/-- The names of the elements of a vector. -/
def vecElems (n : List Char) (k : Nat) : List (List Char) := (List.range' 1 k).map (vecName n)

theorem mem_matElems (n : List Char) (p q : Nat) (s : List Char) :
    s ∈ matElems n p q ↔ ∃ i j, ((1 ≤ i ∧ i ≤ p) ∧ (1 ≤ j ∧ j ≤ q)) ∧ s = matName n i j := by
  unfold matElems
  simp only [List.mem_map, Prod.exists, mem_grid]
  constructor
  · rintro ⟨i, j, h, rfl⟩; exact ⟨i, j, h, rfl⟩
  · rintro ⟨i, j, h, rfl⟩; exact ⟨i, j, h, rfl⟩

theorem mem_vecElems (n : List Char) (k : Nat) (s : List Char) :
    s ∈ vecElems n k ↔ ∃ i, (1 ≤ i ∧ i ≤ k) ∧ s = vecName n i := by
  unfold vecElems
  simp only [List.mem_map, List.mem_range'_1]
  constructor
  · rintro ⟨i, h, rfl⟩; exact ⟨i, by omega, rfl⟩
  · rintro ⟨i, h, rfl⟩; exact ⟨i, by omega, rfl⟩

theorem nodup_matElems {n : List Char} (hn : IsName n) (p q : Nat) : (matElems n p q).Nodup := by
  unfold matElems
  refine (List.nodup_map_iff_inj_on (grid_nodup p q)).2 ?_
  rintro ⟨a, b⟩ _ ⟨c, d⟩ _ h
  have := (looks_inj hn hn (looks_mat n a b) (by rw [h]; exact looks_mat n c d)).2
  simpa using this

theorem nodup_vecElems {n : List Char} (hn : IsName n) (k : Nat) : (vecElems n k).Nodup := by
  unfold vecElems
  refine (List.nodup_map_iff_inj_on List.nodup_range').2 ?_
  intro a _ b _ h
  have := (looks_inj hn hn (looks_vec n a) (by rw [h]; exact looks_vec n b)).2
  simpa using this

theorem mem_of_lookup {X : Type} {m : OMap (List Char) X} {k : List Char} {x : X} (h : lookup m k = some x) :
    k ∈ m.map Prod.fst := by
  by_contra h'
  rw [lookup_none.2 h'] at h
  cases h

theorem makeMatrix_ok (vars : OMap (List Char) (Val α)) {n : List Char} (hn : IsName n) {l : List MatEntry} {p q m : Nat}
    {c : Nat → Nat → List α} (hp : 0 < p) (hq : 0 < q) (hl : (l.map fun e => (e.2.1, e.2.2.1)).Perm (grid p q))
    (hc : MatCols vars n p q m c) :
    ∃ vars', makeMatrix vars n l = .ok vars' ∧
      Placed vars vars' n (.matrix p q ((grid p q).map fun e => c e.1 e.2)) (matElems n p q) := by
  have hin : ∀ e ∈ grid p q, lookup vars (matName n e.1 e.2) = some (.column (c e.1 e.2)) ∧ (c e.1 e.2).length = m := by
    rintro ⟨i, j⟩ he
    rw [mem_grid] at he
    exact hc i j he.1.1 he.1.2 he.2.1 he.2.2
  have hI : ((grid p q).map Prod.fst).dedup.length = p := by
    apply dedup_range_length
    intro i
    rw [List.mem_map]
    constructor
    · rintro ⟨⟨a, b⟩, h, rfl⟩; exact ((mem_grid _ _ _ _).1 h).1
    · intro h; exact ⟨(i, 1), (mem_grid _ _ _ _).2 ⟨h, by omega⟩, rfl⟩
  have hJ : ((grid p q).map Prod.snd).dedup.length = q := by
    apply dedup_range_length
    intro j
    rw [List.mem_map]
    constructor
    · rintro ⟨⟨a, b⟩, h, rfl⟩; exact ((mem_grid _ _ _ _).1 h).2
    · intro h; exact ⟨(1, j), (mem_grid _ _ _ _).2 ⟨by omega, h⟩, rfl⟩
  unfold makeMatrix
  simp only
  rw [sort_grid hl, mapM_columns vars (fun e : Nat × Nat => matName n e.1 e.2) (fun e => c e.1 e.2) _ fun e he => (hin e he).1]
  simp only
  rw [if_pos (sameLength_map _ _ m fun e he => (hin e he).2), hI, hJ]
  refine place_placed vars n _ _ (nodup_matElems hn p q) ?_
  intro e he
  obtain ⟨x, hx, rfl⟩ := List.mem_map.1 he
  exact mem_of_lookup (hin x hx).1

theorem makeVector_ok (vars : OMap (List Char) (Val α)) {n : List Char} (hn : IsName n) {l : List VecEntry} {k m : Nat}
    {c : Nat → List α} (hl : (l.map fun e => e.2.1).Perm (List.range' 1 k)) (hc : VecCols vars n k m c) :
    ∃ vars', makeVector vars n l = .ok vars' ∧
      Placed vars vars' n (.vector ((List.range' 1 k).map c)) (vecElems n k) := by
  have hin : ∀ i ∈ List.range' 1 k, lookup vars (vecName n i) = some (.column (c i)) ∧ (c i).length = m := by
    intro i he
    rw [List.mem_range'_1] at he
    exact hc i (by omega) (by omega)
  unfold makeVector
  simp only
  rw [sort_range hl, mapM_columns vars (vecName n) c _ fun e he => (hin e he).1]
  simp only
  rw [if_pos (sameLength_map _ _ m fun e he => (hin e he).2)]
  refine place_placed vars n _ _ (nodup_vecElems hn k) ?_
  intro e he
  obtain ⟨x, hx, rfl⟩ := List.mem_map.1 he
  exact mem_of_lookup (hin x hx).1

/-! ### The whole block -/

theorem makeAll_ok {E : Type} {f : OMap (List Char) (Val α) → List Char → List E → Except Err (OMap (List Char) (Val α))}
    {col : List Char → List α} {elems : List Char → List (List Char)} {val : List Char → Val α} :
    ∀ (L : List (List Char × List E)),
    (∀ vars, ∀ x ∈ L, (∀ e ∈ elems x.1, lookup vars e = some (.column (col e))) →
      ∃ vars', f vars x.1 x.2 = .ok vars' ∧ Placed vars vars' x.1 (val x.1) (elems x.1)) →
    (L.map Prod.fst).Nodup →
    (∀ x ∈ L, ∀ y ∈ L, x.1 ≠ y.1 → ∀ e ∈ elems x.1, e ∉ elems y.1) →
    (∀ x ∈ L, ∀ y ∈ L, x.1 ∉ elems y.1) →
    ∀ vars, (∀ x ∈ L, ∀ e ∈ elems x.1, lookup vars e = some (.column (col e))) →
    ∃ vars', makeAll f L vars = .ok vars' ∧
      (∀ x ∈ L, lookup vars' x.1 = some (val x.1) ∧ ∀ e ∈ elems x.1, lookup vars' e = none) ∧
      (∀ k, (∀ x ∈ L, k ≠ x.1 ∧ k ∉ elems x.1) → lookup vars' k = lookup vars k) ∧
      (∀ (P : List Char → Prop) [DecidablePred P], (∀ x ∈ L, ¬P x.1 ∧ ∀ e ∈ elems x.1, ¬P e) →
        vars'.filter (fun p => P p.1) = vars.filter fun p => P p.1) ∧
      ((vars.map Prod.fst).Nodup → (vars'.map Prod.fst).Nodup) := by
  intro L
  induction L with
  | nil => intro _ _ _ _ vars _; exact ⟨vars, rfl, by simp, by simp, by intros; rfl, id⟩
  | cons x L ih =>
    intro hf hnd hdis hbase vars hr
    rw [List.map_cons, List.nodup_cons] at hnd
    have hne : ∀ y ∈ L, y.1 ≠ x.1 := fun y hy e => hnd.1 (e ▸ List.mem_map_of_mem (f := Prod.fst) hy)
    obtain ⟨v1, e1, h1⟩ := hf vars x (by simp) (hr x (by simp))
    obtain ⟨v2, e2, g1, g2, g3, g4⟩ := ih (fun vars y hy => hf vars y (by simp [hy])) hnd.2
      (fun y hy z hz => hdis y (by simp [hy]) z (by simp [hz]))
      (fun y hy z hz => hbase y (by simp [hy]) z (by simp [hz])) v1 (by
        intro y hy e he
        rw [h1.kept e, hr y (by simp [hy]) e he]
        · rintro rfl
          exact hbase x (by simp) y (by simp [hy]) he
        · exact hdis y (by simp [hy]) x (by simp) (hne y hy) e he)
    refine ⟨v2, ?_, ?_, ?_, ?_, fun h => g4 (h1.nodup h)⟩
    · obtain ⟨n, l⟩ := x
      unfold makeAll
      rw [e1]
      exact e2
    · intro y hy
      rcases List.mem_cons.1 hy with rfl | hy
      · refine ⟨?_, ?_⟩
        · rw [g2, h1.new]
          intro z hz
          exact ⟨(hne z hz).symm, hbase y (by simp) z (by simp [hz])⟩
        · intro e he
          rw [g2, h1.gone e he]
          · rintro rfl
            exact hbase y (by simp) y (by simp) he
          · intro z hz
            refine ⟨?_, hdis y (by simp) z (by simp [hz]) (hne z hz).symm e he⟩
            rintro rfl
            exact hbase z (by simp [hz]) y (by simp) he
      · exact g1 y hy
    · intro k hk
      rw [g2 k fun y hy => hk y (by simp [hy]), h1.kept k (hk x (by simp)).1 (hk x (by simp)).2]
    · intro P _ hP
      rw [g3 P fun y hy => hP y (by simp [hy])]
      have a1 : v1.filter (fun p => P p.1) = (v1.filter fun p => p.1 ≠ x.1).filter fun p => P p.1 := by
        rw [List.filter_filter]
        apply List.filter_congr
        intro p _
        by_cases h : P p.1
        · have : p.1 ≠ x.1 := fun e => (hP x (by simp)).1 (e ▸ h)
          simp [h, this]
        · simp [h]
      have a2 : vars.filter (fun p => P p.1) = (vars.filter fun p => p.1 ∉ x.1 :: elems x.1).filter fun p => P p.1 := by
        rw [List.filter_filter]
        apply List.filter_congr
        intro p _
        by_cases h : P p.1
        · have : p.1 ∉ x.1 :: elems x.1 := by
            intro hm
            rcases List.mem_cons.1 hm with e | hm
            · exact (hP x (by simp)).1 (e ▸ h)
            · exact (hP x (by simp)).2 _ hm h
          simp only [h, this, decide_true, not_false_eq_true, Bool.and_self]
        · simp [h]
      rw [a1, a2, h1.order]

/-- The header has all elements of a matrix `n` with `p` rows and `q` columns. -/
def IsMat (header : List (List Char)) (n : List Char) (p q : Nat) : Prop :=
  0 < p ∧ 0 < q ∧ ∀ i j, (i, j) ∈ pairsOf header n ↔ (1 ≤ i ∧ i ≤ p) ∧ (1 ≤ j ∧ j ≤ q)

/-- The header has all elements of a vector `n` with `k` elements, each once. -/
def IsVec (header : List (List Char)) (n : List Char) (k : Nat) : Prop :=
  0 < k ∧ (indsOf header n).Perm (List.range' 1 k)

/-- A variable of the file that is affected by the assembly. -/
def Touched (header : List (List Char)) (s : List Char) : Prop :=
  (∃ n p q, IsMat header n p q ∧ (s = n ∨ ∃ i j, (i, j) ∈ pairsOf header n ∧ s = matName n i j)) ∨
  (∃ n k, IsVec header n k ∧ (s = n ∨ ∃ i, i ∈ indsOf header n ∧ s = vecName n i))

/-- The variables of a file with this header, before the assembly. -/
structure Ready (vars : OMap (List Char) (Val α)) (header : List (List Char)) (m : Nat) : Prop where
  /-- no element is given twice -/
  once : ∀ n, (pairsOf header n).Nodup
  /-- there is a column for every element of a matrix -/
  mats : ∀ n i j, (i, j) ∈ pairsOf header n → ∃ l, lookup vars (matName n i j) = some (.column l) ∧ l.length = m
  /-- there is a column for every element of a vector -/
  vecs : ∀ n i, i ∈ indsOf header n → ∃ l, lookup vars (vecName n i) = some (.column l) ∧ l.length = m
  /-- no name is used both for a matrix and for a vector -/
  apart : ∀ n p q k, IsMat header n p q → ¬IsVec header n k

/-- The variables of a file with this header, after the assembly. -/
structure Assembled (vars vars' : OMap (List Char) (Val α)) (header : List (List Char)) : Prop where
  mats : ∀ n p q, IsMat header n p q → ∃ cols, lookup vars' n = some (.matrix p q cols) ∧ cols.length = p * q ∧
    ∀ i j, i < p → j < q → ∃ l, lookup vars (matName n (i + 1) (j + 1)) = some (.column l) ∧ cols[i * q + j]? = some l
  vecs : ∀ n k, IsVec header n k → ∃ cols, lookup vars' n = some (.vector cols) ∧ cols.length = k ∧
    ∀ i, i < k → ∃ l, lookup vars (vecName n (i + 1)) = some (.column l) ∧ cols[i]? = some l
  matGone : ∀ n p q, IsMat header n p q → ∀ i j, (i, j) ∈ pairsOf header n → lookup vars' (matName n i j) = none
  vecGone : ∀ n k, IsVec header n k → ∀ i, i ∈ indsOf header n → lookup vars' (vecName n i) = none
  kept : ∀ s, ¬Touched header s → lookup vars' s = lookup vars s
  order : ∀ (P : List Char → Prop) [DecidablePred P], (∀ s, P s → ¬Touched header s) →
    vars'.filter (fun p => P p.1) = vars.filter fun p => P p.1
  nodup : (vars.map Prod.fst).Nodup → (vars'.map Prod.fst).Nodup

theorem name_of_pair {header : List (List Char)} {n : List Char} {i j : Nat} (h : (i, j) ∈ pairsOf header n) : IsName n := by
  unfold pairsOf at h
  obtain ⟨s, _, hs⟩ := List.mem_filterMap.1 h
  split at hs
  · rename_i m i' j' t e
    split at hs
    · rename_i e'
      subst e'
      exact ((C23_head _ _ _ _).1 e).1
    · cases hs
  · cases hs

theorem name_of_ind {header : List (List Char)} {n : List Char} {i : Nat} (h : i ∈ indsOf header n) : IsName n := by
  unfold indsOf at h
  obtain ⟨s, _, hs⟩ := List.mem_filterMap.1 h
  split at hs
  · rename_i m i' t e
    split at hs
    · rename_i e'
      subst e'
      exact ((C23_head _ _ _ _).1 e).1
    · cases hs
  · cases hs

theorem IsMat.name {header : List (List Char)} {n : List Char} {p q : Nat} (h : IsMat header n p q) : IsName n :=
  name_of_pair ((h.2.2 1 1).2 ⟨⟨Nat.le_refl 1, h.1⟩, Nat.le_refl 1, h.2.1⟩)

theorem IsVec.name {header : List (List Char)} {n : List Char} {k : Nat} (h : IsVec header n k) : IsName n :=
  name_of_ind (i := 1) (h.2.mem_iff.2 (by rw [List.mem_range'_1]; have := h.1; omega))

theorem IsMat.unique {header : List (List Char)} {n : List Char} {p q p' q' : Nat} (h : IsMat header n p q)
    (h' : IsMat header n p' q') : p' = p ∧ q' = q := by
  obtain ⟨a, b, c⟩ := h
  obtain ⟨a', b', c'⟩ := h'
  have := (c p 1).2 (by omega)
  have h1 := (c' p 1).1 this
  have := (c 1 q).2 (by omega)
  have h2 := (c' 1 q).1 this
  have := (c' p' 1).2 (by omega)
  have h3 := (c p' 1).1 this
  have := (c' 1 q').2 (by omega)
  have h4 := (c 1 q').1 this
  omega

theorem IsVec.unique {header : List (List Char)} {n : List Char} {k k' : Nat} (h : IsVec header n k)
    (h' : IsVec header n k') : k' = k := by
  have := h.2.length_eq
  rw [h'.2.length_eq] at this
  simpa using this

theorem not_elem_mat {n : List Char} (hn : IsName n) (n' : List Char) (i j : Nat) : n ≠ matName n' i j := by
  intro e
  apply hn.2
  rw [e]
  simp [matName]

theorem not_elem_vec {n : List Char} (hn : IsName n) (n' : List Char) (i : Nat) : n ≠ vecName n' i := by
  intro e
  apply hn.2
  rw [e]
  simp [vecName]

/-- C23: a complete matrix or vector is assembled from its columns; everything else stays as it is and in
its order. -/
theorem C23_assembled (vars : OMap (List Char) (Val α)) (header : List (List Char)) (m : Nat)
    (h : Ready vars header m) : ∃ vars', makeMatrices vars header = .ok vars' ∧ Assembled vars vars' header := by
  obtain ⟨F, hF⟩ : ∃ F, F = matchNames header := ⟨_, rfl⟩
  -- dimensions
  have hM : ∀ n ∈ F.matrix.map Prod.fst, ∃ p q, IsMat header n p q := by
    intro n hn
    rw [hF, C23_matrix header n (h.once n)] at hn
    exact hn
  have hV : ∀ n ∈ F.vector.map Prod.fst, ∃ k, IsVec header n k := by
    intro n hn
    rw [hF, C23_vector header n] at hn
    exact hn
  choose! p q hpq using hM
  choose! k hk using hV
  obtain ⟨col, hcol⟩ : ∃ col : List Char → List α, ∀ s l, lookup vars s = some (.column l) → col s = l := by
    refine ⟨fun s => match lookup vars s with | some (.column l) => l | _ => [], ?_⟩
    intro s l e
    simp only [e]
  have hMl : ∀ x ∈ F.matrix, (x.2.map fun e => (e.2.1, e.2.2.1)).Perm (grid (p x.1) (q x.1)) := by
    rintro ⟨n, l⟩ hx
    have hI := hpq n (List.mem_map.2 ⟨_, hx, rfl⟩)
    rw [hF] at hx
    unfold matchNames at hx
    simp only at hx
    obtain ⟨rfl, _⟩ := (mem_collect _ _ _).1 (List.mem_filter.1 hx).1
    rw [under_mat header n 0, List.perm_ext_iff_of_nodup (h.once n) (grid_nodup _ _)]
    rintro ⟨i, j⟩
    rw [hI.2.2, mem_grid]
  have hVl : ∀ x ∈ F.vector, (x.2.map fun e => e.2.1).Perm (List.range' 1 (k x.1)) := by
    rintro ⟨n, l⟩ hx
    have hI := hk n (List.mem_map.2 ⟨_, hx, rfl⟩)
    rw [hF] at hx
    unfold matchNames at hx
    simp only at hx
    obtain ⟨rfl, _⟩ := (mem_collect _ _ _).1 (List.mem_filter.1 hx).1
    rw [under_vec header n 0]
    exact hI.2
  have hMn : (F.matrix.map Prod.fst).Nodup := by
    rw [hF]
    exact (nodup_collect _).sublist (List.Sublist.map _ List.filter_sublist)
  have hVn : (F.vector.map Prod.fst).Nodup := by
    rw [hF]
    exact (nodup_collect _).sublist (List.Sublist.map _ List.filter_sublist)
  have hMx : ∀ x ∈ F.matrix, IsMat header x.1 (p x.1) (q x.1) := fun x hx => hpq _ (List.mem_map.2 ⟨x, hx, rfl⟩)
  have hVx : ∀ x ∈ F.vector, IsVec header x.1 (k x.1) := fun x hx => hk _ (List.mem_map.2 ⟨x, hx, rfl⟩)
  have hMc : ∀ x ∈ F.matrix, ∀ e ∈ matElems x.1 (p x.1) (q x.1),
      lookup vars e = some (.column (col e)) ∧ (col e).length = m := by
    intro x hx e he
    obtain ⟨i, j, hij, rfl⟩ := (mem_matElems _ _ _ _).1 he
    obtain ⟨l, h1, h2⟩ := h.mats x.1 i j (((hMx x hx).2.2 i j).2 hij)
    rw [hcol _ _ h1]
    exact ⟨h1, h2⟩
  have hVc : ∀ x ∈ F.vector, ∀ e ∈ vecElems x.1 (k x.1),
      lookup vars e = some (.column (col e)) ∧ (col e).length = m := by
    intro x hx e he
    obtain ⟨i, hi, rfl⟩ := (mem_vecElems _ _ _).1 he
    obtain ⟨l, h1, h2⟩ := h.vecs x.1 i ((hVx x hx).2.mem_iff.2 (by rw [List.mem_range'_1]; omega))
    rw [hcol _ _ h1]
    exact ⟨h1, h2⟩
  obtain ⟨v1, e1, a1, a2, a3, a4⟩ := makeAll_ok (f := makeMatrix) (col := col)
    (elems := fun n => matElems n (p n) (q n))
    (val := fun n => .matrix (p n) (q n) ((grid (p n) (q n)).map fun e => col (matName n e.1 e.2))) F.matrix
    (by
      intro vs x hx hr
      refine makeMatrix_ok vs (hMx x hx).name (m := m) (c := fun i j => col (matName x.1 i j)) (hMx x hx).1 (hMx x hx).2.1
        (hMl x hx) ?_
      intro i j h1 h2 h3 h4
      have hm : matName x.1 i j ∈ matElems x.1 (p x.1) (q x.1) :=
        (mem_matElems _ _ _ _).2 ⟨i, j, ⟨⟨h1, h2⟩, h3, h4⟩, rfl⟩
      exact ⟨hr _ hm, (hMc x hx _ hm).2⟩)
    hMn
    (by
      intro x hx y hy hne e he he'
      obtain ⟨i, j, _, rfl⟩ := (mem_matElems _ _ _ _).1 he
      obtain ⟨i', j', _, e'⟩ := (mem_matElems _ _ _ _).1 he'
      exact hne (looks_inj (hMx x hx).name (hMx y hy).name (looks_mat _ i j) (e' ▸ looks_mat _ i' j')).1)
    (by
      intro x hx y hy he
      obtain ⟨i, j, _, e⟩ := (mem_matElems _ _ _ _).1 he
      exact not_elem_mat (hMx x hx).name _ _ _ e)
    vars (fun x hx e he => (hMc x hx e he).1)
  have hMV : ∀ x ∈ F.matrix, ∀ y ∈ F.vector, x.1 ≠ y.1 := by
    intro x hx y hy e
    exact h.apart _ _ _ _ (hMx x hx) (e ▸ hVx y hy)
  obtain ⟨v2, e2, b1, b2, b3, b4⟩ := makeAll_ok (f := makeVector) (col := col)
    (elems := fun n => vecElems n (k n))
    (val := fun n => .vector ((List.range' 1 (k n)).map fun i => col (vecName n i))) F.vector
    (by
      intro vs x hx hr
      refine makeVector_ok vs (hVx x hx).name (m := m) (c := fun i => col (vecName x.1 i)) (hVl x hx) ?_
      intro i h1 h2
      have hm : vecName x.1 i ∈ vecElems x.1 (k x.1) := (mem_vecElems _ _ _).2 ⟨i, ⟨h1, h2⟩, rfl⟩
      exact ⟨hr _ hm, (hVc x hx _ hm).2⟩)
    hVn
    (by
      intro x hx y hy hne e he he'
      obtain ⟨i, _, rfl⟩ := (mem_vecElems _ _ _).1 he
      obtain ⟨i', _, e'⟩ := (mem_vecElems _ _ _).1 he'
      exact hne (looks_inj (hVx x hx).name (hVx y hy).name (looks_vec _ i) (e' ▸ looks_vec _ i')).1)
    (by
      intro x hx y hy he
      obtain ⟨i, _, e⟩ := (mem_vecElems _ _ _).1 he
      exact not_elem_vec (hVx x hx).name _ _ e)
    v1 (by
      intro x hx e he
      rw [a2 e, (hVc x hx e he).1]
      intro y hy
      obtain ⟨i, _, rfl⟩ := (mem_vecElems _ _ _).1 he
      refine ⟨fun e => not_elem_vec (hMx y hy).name _ _ e.symm, ?_⟩
      intro he'
      obtain ⟨i', j', _, e'⟩ := (mem_matElems _ _ _ _).1 he'
      have := (looks_inj (hVx x hx).name (hMx y hy).name (looks_vec _ i) (e' ▸ looks_mat _ i' j')).2
      cases this)
  have memM : ∀ n p' q', IsMat header n p' q' → ∃ x ∈ F.matrix, x.1 = n ∧ p x.1 = p' ∧ q x.1 = q' := by
    intro n p' q' hI
    have : n ∈ F.matrix.map Prod.fst := by rw [hF, C23_matrix header n (h.once n)]; exact ⟨p', q', hI⟩
    obtain ⟨x, hx, rfl⟩ := List.mem_map.1 this
    exact ⟨x, hx, rfl, hI.unique (hMx x hx)⟩
  have memV : ∀ n k', IsVec header n k' → ∃ x ∈ F.vector, x.1 = n ∧ k x.1 = k' := by
    intro n k' hI
    have : n ∈ F.vector.map Prod.fst := by rw [hF, C23_vector header n]; exact ⟨k', hI⟩
    obtain ⟨x, hx, rfl⟩ := List.mem_map.1 this
    exact ⟨x, hx, rfl, hI.unique (hVx x hx)⟩
  refine ⟨v2, ?_, ?_, ?_, ?_, ?_, ?_, ?_, fun hn => b4 (a4 hn)⟩
  · unfold makeMatrices
    rw [← hF, e1]
    exact e2
  · intro n p' q' hI
    obtain ⟨x, hx, rfl, rfl, rfl⟩ := memM n p' q' hI
    refine ⟨(grid (p x.1) (q x.1)).map fun e => col (matName x.1 e.1 e.2), ?_, ?_, ?_⟩
    · rw [b2, (a1 x hx).1]
      intro y hy
      refine ⟨hMV x hx y hy, ?_⟩
      intro he
      obtain ⟨i, _, e⟩ := (mem_vecElems _ _ _).1 he
      exact not_elem_vec (hMx x hx).name _ _ e
    · rw [List.length_map, length_grid]
    · intro i j hi hj
      refine ⟨col (matName x.1 (i + 1) (j + 1)), ?_, ?_⟩
      · exact (hMc x hx _ ((mem_matElems _ _ _ _).2 ⟨i + 1, j + 1, by omega, rfl⟩)).1
      · rw [List.getElem?_map, grid_getElem _ _ i j hi hj]
        rfl
  · intro n k' hI
    obtain ⟨x, hx, rfl, rfl⟩ := memV n k' hI
    refine ⟨_, (b1 x hx).1, by simp, ?_⟩
    intro i hi
    refine ⟨col (vecName x.1 (i + 1)), (hVc x hx _ ((mem_vecElems _ _ _).2 ⟨i + 1, by omega, rfl⟩)).1, ?_⟩
    rw [List.getElem?_map, List.getElem?_range' hi]
    simp [Nat.add_comm]
  · intro n p' q' hI i j hij
    obtain ⟨x, hx, rfl, rfl, rfl⟩ := memM n p' q' hI
    have hm : matName x.1 i j ∈ matElems x.1 (p x.1) (q x.1) :=
      (mem_matElems _ _ _ _).2 ⟨i, j, (hI.2.2 i j).1 hij, rfl⟩
    rw [b2, (a1 x hx).2 _ hm]
    intro y hy
    refine ⟨fun e => not_elem_mat (hVx y hy).name _ _ _ e.symm, ?_⟩
    intro he'
    obtain ⟨i', _, e'⟩ := (mem_vecElems _ _ _).1 he'
    have := (looks_inj (hMx x hx).name (hVx y hy).name (looks_mat _ i j) (e' ▸ looks_vec _ i')).2
    cases this
  · intro n k' hI i hi
    obtain ⟨x, hx, rfl, rfl⟩ := memV n k' hI
    refine (b1 x hx).2 _ ((mem_vecElems _ _ _).2 ⟨i, ?_, rfl⟩)
    have := hI.2.mem_iff.1 hi
    rw [List.mem_range'_1] at this
    omega
  · intro s hs
    rw [b2 s, a2 s]
    · intro x hx
      refine ⟨fun e => hs (Or.inl ⟨x.1, _, _, hMx x hx, Or.inl e⟩), ?_⟩
      intro he
      obtain ⟨i, j, hij, e⟩ := (mem_matElems _ _ _ _).1 he
      exact hs (Or.inl ⟨x.1, _, _, hMx x hx, Or.inr ⟨i, j, ((hMx x hx).2.2 i j).2 hij, e⟩⟩)
    · intro x hx
      refine ⟨fun e => hs (Or.inr ⟨x.1, _, hVx x hx, Or.inl e⟩), ?_⟩
      intro he
      obtain ⟨i, hi, e⟩ := (mem_vecElems _ _ _).1 he
      exact hs (Or.inr ⟨x.1, _, hVx x hx, Or.inr ⟨i, (hVx x hx).2.mem_iff.2 (by rw [List.mem_range'_1]; omega), e⟩⟩)
  · intro P _ hP
    rw [b3 P, a3 P]
    · intro x hx
      refine ⟨fun e => hP _ e (Or.inl ⟨x.1, _, _, hMx x hx, Or.inl rfl⟩), ?_⟩
      intro s he hs
      obtain ⟨i, j, hij, e⟩ := (mem_matElems _ _ _ _).1 he
      exact hP _ hs (Or.inl ⟨x.1, _, _, hMx x hx, Or.inr ⟨i, j, ((hMx x hx).2.2 i j).2 hij, e⟩⟩)
    · intro x hx
      refine ⟨fun e => hP _ e (Or.inr ⟨x.1, _, hVx x hx, Or.inl rfl⟩), ?_⟩
      intro s he hs
      obtain ⟨i, hi, e⟩ := (mem_vecElems _ _ _).1 he
      exact hP _ hs (Or.inr ⟨x.1, _, hVx x hx, Or.inr ⟨i, (hVx x hx).2.mem_iff.2 (by rw [List.mem_range'_1]; omega), e⟩⟩)

end HF.Mdif
