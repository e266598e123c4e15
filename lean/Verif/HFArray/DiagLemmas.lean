import Verif.HFArray.Diag
import Verif.HFArray.NdLemmas
import Verif.Dim.Props
import Mathlib.Data.List.Induction
/-
Lemmas on strides, views and the expansion of one axis.
-/
namespace HF.Arr

variable {β α : Type}

theorem position_strides (sh idx : List Nat) : position (strides sh) idx = Nd.ravel sh idx := by
  induction sh generalizing idx with
  | nil => cases idx <;> simp [strides, position, Nd.ravel]
  | cons s ss ih =>
    cases idx with
    | nil => simp [strides, position, Nd.ravel]
    | cons i is => simp [strides, position, Nd.ravel, ih]

theorem strides_length (sh : List Nat) : (strides sh).length = sh.length := by
  induction sh with
  | nil => rfl
  | cons s ss ih => simp [strides, ih]

theorem position_append {S T a b : List Nat} (h : S.length = a.length) :
    position (S ++ T) (a ++ b) = position S a + position T b := by
  induction S generalizing a with
  | nil =>
    cases a with
    | nil => simp [position]
    | cons x t => simp at h
  | cons s S ih =>
    cases a with
    | nil => simp at h
    | cons x t => simp only [List.cons_append, position]; rw [ih (by simpa using h)]; omega

/-- Memory after a series of stores to other cells. -/
theorem foldl_poke_other {ι : Type} (addr : ι → Nat) (val : ι → α) (l : List ι) (mem : Nat → α)
    (p : Nat) (h : ∀ n ∈ l, addr n ≠ p) :
    (l.foldl (fun m n => poke m (addr n) (val n)) mem) p = mem p := by
  induction l generalizing mem with
  | nil => rfl
  | cons n t ih =>
    rw [List.foldl_cons, ih _ fun k hk => h k (List.mem_cons_of_mem _ hk)]
    simp [poke, Ne.symm (h n (by simp))]

/-- Memory after a series of stores, where all stores to a cell store the same value. -/
theorem foldl_poke_same {ι : Type} (addr : ι → Nat) (val : ι → α) (l : List ι) (mem : Nat → α)
    (n : ι) (hn : n ∈ l) (h : ∀ m ∈ l, addr m = addr n → val m = val n) :
    (l.foldl (fun m n => poke m (addr n) (val n)) mem) (addr n) = val n := by
  induction l using List.reverseRecOn with
  | nil => simp at hn
  | append_singleton t k ih =>
    rw [List.foldl_append]
    simp only [List.foldl_cons, List.foldl_nil, poke]
    split
    · next e => exact h k (by simp) e.symm
    · next e =>
      rw [List.mem_append] at hn
      rcases hn with hn | hn
      · exact ih hn fun m hm => h m (by simp [hm])
      · simp only [List.mem_singleton] at hn; subst hn; exact absurd rfl e

theorem ravel_inj {sh i j : List Nat} (hi : Nd.Valid sh i) (hj : Nd.Valid sh j)
    (h : Nd.ravel sh i = Nd.ravel sh j) : i = j := by
  rw [← Nd.unravel_ravel hi, h, Nd.unravel_ravel hj]

theorem bidx_id {sh idx : List Nat} (h : Nd.Valid sh idx) : Nd.bidx sh idx = idx := by
  induction sh generalizing idx with
  | nil => cases idx with
    | nil => rfl
    | cons _ _ => exact h.elim
  | cons s ss ih =>
    cases idx with
    | nil => exact h.elim
    | cons i is =>
      have h' : i < s ∧ Nd.Valid ss is := h
      have := ih h'.2
      simp only [Nd.bidx, List.zipWith_cons_cons] at this ⊢
      rw [this]
      split
      · rw [show i = 0 by omega]
      · rfl

/-- The index of the first dimension that equals `e`. -/
theorem indexOf_split [DecidableEq β] (A : List (Dim β)) (d : Dim β) (B : List (Dim β)) (e : Dim β)
    (hA : ∀ z ∈ A, z.eqDim e = false) (hd : d.eqDim e = true) :
    indexOf (A ++ d :: B) e = some A.length := by
  induction A with
  | nil => simp [indexOf, hd]
  | cons a A ih =>
    rw [List.cons_append, indexOf, if_neg (by simp [hA a (by simp)]),
      ih fun z hz => hA z (by simp [hz])]
    rfl

theorem indexOf_none [DecidableEq β] (l : List (Dim β)) (e : Dim β)
    (h : ∀ z ∈ l, z.eqDim e = false) : indexOf l e = none := by
  induction l with
  | nil => rfl
  | cons a A ih =>
    rw [indexOf, if_neg (by simp [h a (by simp)]), ih fun z hz => h z (by simp [hz])]
    rfl

/-- The view of the diagonal of two neighbouring axes. -/
theorem diagonalView_pair [DecidableEq β] (A B : List (Dim β)) (d e : Dim β) (sa sb : List Nat)
    (n : Nat) (hl : A.length = sa.length)
    (hd : ∀ z ∈ A, z.eqDim d = false) (he : ∀ z ∈ A, z.eqDim e = false)
    (hde : d.eqDim e = false) :
    ∃ S T : List Nat, ∃ s t : Nat, S.length = sa.length ∧
      strides (sa ++ n :: n :: sb) = S ++ s :: t :: T ∧
      diagonalView (A ++ d :: e :: B) (sa ++ n :: n :: sb) [d, e] =
        some ⟨sa ++ n :: sb, S ++ (t + s) :: T⟩ := by
  have hlen := strides_length (sa ++ n :: n :: sb)
  simp only [List.length_append, List.length_cons] at hlen
  obtain ⟨S, U, hSU, hS⟩ : ∃ S U, strides (sa ++ n :: n :: sb) = S ++ U ∧ S.length = sa.length :=
    ⟨_, _, (List.take_append_drop sa.length _).symm, by
      rw [List.length_take, hlen]; omega⟩
  rw [hSU, List.length_append, hS] at hlen
  obtain ⟨s, t, T, rfl⟩ : ∃ s t T, U = s :: t :: T := by
    match U, hlen with
    | [], h => simp at h
    | [_], h => simp at h
    | s :: t :: T, _ => exact ⟨s, t, T, rfl⟩
  refine ⟨S, T, s, t, hS, hSU, ?_⟩
  have i1 : indexOf (A ++ d :: e :: B) d = some A.length :=
    indexOf_split A d (e :: B) d hd ((Dim.eqDim_iff d d).2 ⟨rfl, rfl, rfl, rfl⟩)
  have i2 : indexOf (A ++ d :: e :: B) e = some (A.length + 1) := by
    have := indexOf_split (A ++ [d]) e B e (by
      intro z hz
      rcases List.mem_append.1 hz with hz | hz
      · exact he z hz
      · simp only [List.mem_singleton] at hz; rw [hz]; exact hde)
      ((Dim.eqDim_iff e e).2 ⟨rfl, rfl, rfl, rfl⟩)
    simpa using this
  have hm : List.mapM (indexOf (A ++ d :: e :: B)) [d, e] = some [A.length, A.length + 1] := by
    simp [i1, i2]
  have hsort : sortDesc [A.length, A.length + 1] = [A.length + 1, A.length] := by
    simp [sortDesc, insertDesc]
  unfold diagonalView
  rw [hm]
  simp only [hsort, List.foldl_cons, List.foldl_nil, diagStep, hSU]
  have e1 : ∀ (X Y : List Nat) (p q : Nat), X.length = A.length →
      (X ++ p :: q :: Y).getD (A.length + 1) 0 = q ∧
      (X ++ p :: q :: Y).eraseIdx (A.length + 1) = X ++ p :: Y ∧
      (X ++ p :: Y).getD A.length 0 = p ∧
      (X ++ p :: Y).eraseIdx A.length = X ++ Y ∧
      ∀ m, insertAt (X ++ Y) A.length m = X ++ m :: Y := by
    intro X Y p q hX
    refine ⟨?_, ?_, ?_, ?_, ?_⟩
    · rw [← hX]; simp [List.getD, List.getElem?_append]
    · rw [← hX, List.eraseIdx_append_of_length_le (by omega)]; simp
    · rw [← hX]; simp [List.getD]
    · rw [← hX, List.eraseIdx_append_of_length_le (by omega)]; simp
    · intro m
      unfold insertAt
      rw [← hX, show min X.length (X ++ Y).length = X.length by simp]
      clear hX
      induction X with
      | nil => simp
      | cons a X ih => simpa using ih
  obtain ⟨a1, a2, a3, a4, a5⟩ := e1 S T s t (by omega)
  obtain ⟨b1, b2, b3, b4, b5⟩ := e1 sa sb n n hl.symm
  simp only [a1, a2, a3, a4, a5, b1, b2, b3, b4, b5, minimum, List.nil_append, List.cons_append,
    List.foldl_cons, List.foldl_nil, Nat.min_self, Nat.zero_add]

/-- Assignment to the diagonal view of zeros: the array with the values on the diagonal. -/
theorem assign_diagonal (zero : α) (x : Nd α) (sa sb S T : List Nat) (n s t : Nat)
    (hx : x.shape = sa ++ n :: sb) (hS : S.length = sa.length)
    (hst : strides (sa ++ n :: n :: sb) = S ++ s :: t :: T) :
    ∃ mem, assignView (fun _ => zero) ⟨sa ++ n :: sb, S ++ (t + s) :: T⟩ x = some mem ∧
      ∀ (a b : List Nat) (i j : Nat), a.length = sa.length →
        Nd.Valid (sa ++ n :: n :: sb) (a ++ i :: j :: b) →
        mem (position (strides (sa ++ n :: n :: sb)) (a ++ i :: j :: b)) =
          if i = j then x.get (a ++ i :: b) else zero := by
  have hall : ∀ l : List Nat, (List.zip l l).all (fun p => p.1 = p.2 || p.1 = 1) = true := by
    intro l; induction l with
    | nil => rfl
    | cons a l ih => simp [ih]
  unfold assignView
  rw [if_pos ⟨by rw [hx], by rw [hx]; exact hall _⟩]
  refine ⟨_, rfl, ?_⟩
  intro a b i j ha hv
  have vparts : ∀ (a b : List Nat) (i j : Nat), a.length = sa.length →
      (Nd.Valid (sa ++ n :: n :: sb) (a ++ i :: j :: b) ↔
        Nd.Valid sa a ∧ i < n ∧ j < n ∧ Nd.Valid sb b) := by
    intro a b i j ha
    rw [Nd.valid_append ha]; rfl
  have vparts' : ∀ (a b : List Nat) (i : Nat), a.length = sa.length →
      (Nd.Valid (sa ++ n :: sb) (a ++ i :: b) ↔ Nd.Valid sa a ∧ i < n ∧ Nd.Valid sb b) := by
    intro a b i ha
    rw [Nd.valid_append ha]; rfl
  have hpos : ∀ (a b : List Nat) (i : Nat), a.length = sa.length →
      position (S ++ (t + s) :: T) (a ++ i :: b) =
        Nd.ravel (sa ++ n :: n :: sb) (a ++ i :: i :: b) := by
    intro a b i ha
    rw [← position_strides, hst, position_append (by omega), position_append (by omega)]
    simp only [position]
    rw [Nat.mul_add]; omega
  have split : ∀ idx, Nd.Valid (sa ++ n :: sb) idx →
      ∃ a i b, a.length = sa.length ∧ idx = a ++ i :: b := by
    intro idx h
    have hl := Nd.Valid.length h
    simp only [List.length_append, List.length_cons] at hl
    refine ⟨idx.take sa.length, ?_⟩
    have : sa.length < idx.length := by omega
    refine ⟨idx[sa.length], idx.drop (sa.length + 1), by rw [List.length_take]; omega, ?_⟩
    rw [List.getElem_cons_drop, List.take_append_drop]
  rw [position_strides]
  have hfold := vparts a b i j ha |>.1 hv
  by_cases hij : i = j
  · subst hij
    rw [if_pos rfl]
    have hv' : Nd.Valid (sa ++ n :: sb) (a ++ i :: b) :=
      (vparts' a b i ha).2 ⟨hfold.1, hfold.2.1, hfold.2.2.2⟩
    have key := foldl_poke_same
      (fun k => position (S ++ (t + s) :: T) (Nd.unravel (sa ++ n :: sb) k))
      (fun k => x.get (Nd.bidx x.shape (Nd.unravel (sa ++ n :: sb) k)))
      (List.range (Nd.size (sa ++ n :: sb))) (fun _ => zero)
      (Nd.ravel (sa ++ n :: sb) (a ++ i :: b))
      (List.mem_range.2 (Nd.ravel_lt hv')) (by
        intro m hm e
        have hm := List.mem_range.1 hm
        have hvm := Nd.valid_unravel hm
        obtain ⟨a', i', b', ha', he⟩ := split _ hvm
        simp only [he, Nd.unravel_ravel hv'] at e ⊢
        rw [he] at hvm
        have hvm' := (vparts' a' b' i' ha').1 hvm
        rw [hpos _ _ _ ha', hpos _ _ _ ha] at e
        have := ravel_inj ((vparts a' b' i' i' ha').2
          ⟨hvm'.1, hvm'.2.1, hvm'.2.1, hvm'.2.2⟩) hv e
        have h1 := List.append_inj this (by omega)
        simp only [List.cons.injEq] at h1
        rw [h1.1, h1.2.1, h1.2.2.2])
    simp only [Nd.unravel_ravel hv', hpos _ _ _ ha] at key
    rw [hx, bidx_id hv'] at key
    rw [hx]
    exact key
  · rw [if_neg hij]
    refine foldl_poke_other
      (fun k => position (S ++ (t + s) :: T) (Nd.unravel (sa ++ n :: sb) k))
      (fun k => x.get (Nd.bidx x.shape (Nd.unravel (sa ++ n :: sb) k)))
      (List.range (Nd.size (sa ++ n :: sb))) (fun _ => zero) _ ?_
    intro m hm e
    have hm := List.mem_range.1 hm
    have hvm := Nd.valid_unravel hm
    obtain ⟨a', i', b', ha', he⟩ := split _ hvm
    simp only [he] at e
    rw [he] at hvm
    have hvm' := (vparts' a' b' i' ha').1 hvm
    rw [hpos _ _ _ ha'] at e
    have := ravel_inj ((vparts a' b' i' i' ha').2
      ⟨hvm'.1, hvm'.2.1, hvm'.2.1, hvm'.2.2⟩) hv e
    have h1 := List.append_inj this (by omega)
    simp only [List.cons.injEq] at h1
    exact hij (h1.2.1.symm.trans h1.2.2.1)

end HF.Arr
