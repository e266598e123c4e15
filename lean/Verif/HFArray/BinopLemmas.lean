import Verif.HFArray.Spec
import Verif.HFArray.NdLemmas
import Verif.Dim.Props

namespace HF.Arr

variable {β α γ : Type}

theorem isSub_refl (c : Cls) : c.isSub c = true := by unfold Cls.isSub; simp

theorem matches_iff {l : List (Dim β)} (hl : NoSub l) {d e : Dim β} (hd : d ∈ l) (he : e ∈ l) :
    matches_ d e = true ↔ d.key = e.key := by
  simp only [matches_, Bool.and_eq_true, beq_iff_eq, Dim.isa, Dim.key, Prod.mk.injEq]
  constructor
  · rintro ⟨h1, h2⟩; exact ⟨h1, hl d hd e he h1 h2⟩
  · rintro ⟨h1, h2⟩; exact ⟨h1, h2 ▸ isSub_refl _⟩

theorem containsDim_iff {l dims : List (Dim β)} (hl : NoSub l) (hd : dims ⊆ l) {e : Dim β}
    (he : e ∈ l) : containsDim dims e = true ↔ e.key ∈ dims.map Dim.key := by
  simp only [containsDim, List.any_eq_true, List.mem_map]
  constructor
  · rintro ⟨x, hx, hm⟩; exact ⟨x, hx, (matches_iff hl (hd hx) he).1 hm⟩
  · rintro ⟨x, hx, hm⟩; exact ⟨x, hx, (matches_iff hl (hd hx) he).2 hm⟩

theorem unionFold {l : List (Dim β)} (hl : NoSub l) (b acc : List (Dim β)) (hb : b ⊆ l)
    (ha : acc ⊆ l) (hd : Distinct acc) :
    (b.foldl unionStep acc) ⊆ l ∧ Distinct (b.foldl unionStep acc) ∧
    (∀ k, k ∈ (b.foldl unionStep acc).map Dim.key ↔ k ∈ acc.map Dim.key ∨ k ∈ b.map Dim.key) ∧
    (∀ d ∈ b.foldl unionStep acc, d ∈ acc ∨ (d ∈ b ∧ d.key ∉ acc.map Dim.key)) ∧
    acc ⊆ b.foldl unionStep acc := by
  induction b generalizing acc with
  | nil => exact ⟨ha, hd, by simp, by intro d h; exact Or.inl h, fun _ h => h⟩
  | cons e t ih =>
    simp only [List.foldl_cons]
    have het : e ∈ l := hb (by simp)
    have htl : t ⊆ l := fun x hx => hb (by simp [hx])
    by_cases hc : containsDim acc e = true
    · have hs : unionStep acc e = acc := by simp [unionStep, hc]
      rw [hs]
      obtain ⟨h1, h2, h3, h4, h5⟩ := ih acc htl ha hd
      have hk := (containsDim_iff hl ha het).1 hc
      refine ⟨h1, h2, ?_, ?_, h5⟩
      · intro k
        rw [h3 k, List.map_cons, List.mem_cons]
        constructor
        · rintro (h | h)
          · exact Or.inl h
          · exact Or.inr (Or.inr h)
        · rintro (h | h | h)
          · exact Or.inl h
          · subst h; exact Or.inl hk
          · exact Or.inr h
      · intro d hd'
        rcases h4 d hd' with h | h
        · exact Or.inl h
        · exact Or.inr ⟨by simp [h.1], h.2⟩
    · have hs : unionStep acc e = acc ++ [e] := by simp [unionStep, hc]
      rw [hs]
      have hk : e.key ∉ acc.map Dim.key := fun h => hc ((containsDim_iff hl ha het).2 h)
      have hd' : Distinct (acc ++ [e]) := by
        simp only [Distinct, List.map_append, List.map_cons, List.map_nil]
        refine List.nodup_append.2 ⟨hd, by simp, ?_⟩
        intro a ha b hb
        simp only [List.mem_singleton] at hb
        subst hb; intro e'; subst e'; exact hk ha
      have ha' : acc ++ [e] ⊆ l := by
        intro x hx
        rcases List.mem_append.1 hx with h | h
        · exact ha h
        · simp only [List.mem_singleton] at h; subst h; exact het
      obtain ⟨h1, h2, h3, h4, h5⟩ := ih (acc ++ [e]) htl ha' hd'
      refine ⟨h1, h2, ?_, ?_, ?_⟩
      · intro k
        rw [h3 k]
        simp only [List.map_append, List.map_cons, List.map_nil, List.mem_append,
          List.mem_cons, List.not_mem_nil, or_false, or_assoc]
      · intro d hd2
        rcases h4 d hd2 with h | h
        · rcases List.mem_append.1 h with h | h
          · exact Or.inl h
          · simp only [List.mem_singleton] at h; subst h
            exact Or.inr ⟨by simp, hk⟩
        · refine Or.inr ⟨by simp [h.1], ?_⟩
          intro h'; apply h.2; simp only [List.map_append, List.mem_append]; exact Or.inl h'
      · intro x hx; exact h5 (by simp [hx])

theorem insertByPrio_perm (d : Dim β) (l : List (Dim β)) : (insertByPrio d l).Perm (d :: l) := by
  induction l with
  | nil => exact List.Perm.refl _
  | cons x t ih =>
    simp only [insertByPrio]
    split
    · exact (List.Perm.cons x ih).trans (List.Perm.swap d x t)
    · exact List.Perm.refl _

theorem foldl_insert_perm (l acc : List (Dim β)) :
    (l.foldl (fun acc d => insertByPrio d acc) acc).Perm (acc ++ l) := by
  induction l generalizing acc with
  | nil => simp
  | cons d t ih =>
    simp only [List.foldl_cons]
    refine (ih _).trans ?_
    refine ((insertByPrio_perm d acc).append_right t).trans ?_
    simpa using (List.perm_middle (a := d) (l₁ := acc) (l₂ := t)).symm

theorem sortByPrio_perm (l : List (Dim β)) : (sortByPrio l).Perm l := by
  simpa [sortByPrio] using foldl_insert_perm l []

theorem insertByPrio_sorted (d : Dim β) (l : List (Dim β))
    (h : l.Pairwise fun x y => x.sortprio ≤ y.sortprio) :
    (insertByPrio d l).Pairwise fun x y => x.sortprio ≤ y.sortprio := by
  induction l with
  | nil => simp [insertByPrio]
  | cons x t ih =>
    simp only [List.pairwise_cons] at h
    simp only [insertByPrio]
    split
    · rename_i hx
      rw [List.pairwise_cons]
      refine ⟨?_, ih h.2⟩
      intro y hy
      rcases List.mem_cons.1 ((insertByPrio_perm d t).mem_iff.1 hy) with e | e
      · subst e; exact hx
      · exact h.1 y e
    · rename_i hx
      rw [List.pairwise_cons]
      refine ⟨?_, List.pairwise_cons.2 h⟩
      intro y hy
      rcases List.mem_cons.1 hy with e | e
      · subst e; omega
      · have := h.1 y e; omega

theorem sortByPrio_sorted (l : List (Dim β)) :
    (sortByPrio l).Pairwise fun x y => x.sortprio ≤ y.sortprio := by
  unfold sortByPrio
  have : ∀ (l acc : List (Dim β)), (acc.Pairwise fun x y => x.sortprio ≤ y.sortprio) →
      (l.foldl (fun acc d => insertByPrio d acc) acc).Pairwise fun x y => x.sortprio ≤ y.sortprio := by
    intro l
    induction l with
    | nil => intro acc h; exact h
    | cons d t ih => intro acc h; exact ih _ (insertByPrio_sorted d acc h)
  exact this l [] List.Pairwise.nil

/-- The sort is stable: dims of one priority keep their relative order. -/
theorem insertByPrio_filter (d : Dim β) (l : List (Dim β)) (p : Nat)
    (h : l.Pairwise fun x y => x.sortprio ≤ y.sortprio) :
    (insertByPrio d l).filter (fun x => x.sortprio = p) =
      l.filter (fun x => x.sortprio = p) ++ [d].filter (fun x => x.sortprio = p) := by
  induction l with
  | nil => simp [insertByPrio]
  | cons x t ih =>
    simp only [List.pairwise_cons] at h
    simp only [insertByPrio]
    split
    · rw [List.filter_cons, List.filter_cons, ih h.2]
      split <;> simp
    · rename_i hx
      by_cases hd : d.sortprio = p
      · have h1 : (x :: t).filter (fun x => decide (x.sortprio = p)) = [] := by
          rw [List.filter_eq_nil_iff]
          intro y hy
          rcases List.mem_cons.1 hy with e | e
          · subst e; simp; omega
          · have := h.1 y e; simp; omega
        rw [List.filter_cons, h1]; simp [hd]
      · rw [List.filter_cons]; simp [hd]

theorem sortByPrio_stable (l : List (Dim β)) (p : Nat) :
    (sortByPrio l).filter (fun x => x.sortprio = p) = l.filter (fun x => x.sortprio = p) := by
  unfold sortByPrio
  have : ∀ (l acc : List (Dim β)), (acc.Pairwise fun x y => x.sortprio ≤ y.sortprio) →
      (l.foldl (fun acc d => insertByPrio d acc) acc).filter (fun x => x.sortprio = p) =
        acc.filter (fun x => x.sortprio = p) ++ l.filter (fun x => x.sortprio = p) := by
    intro l
    induction l with
    | nil => intro acc _; simp
    | cons d t ih =>
      intro acc h
      simp only [List.foldl_cons]
      rw [ih _ (insertByPrio_sorted d acc h), insertByPrio_filter d acc p h]
      rw [List.append_assoc, List.filter_cons (x := d) (xs := t)]
      congr 1
      by_cases hd : d.sortprio = p <;> simp [hd]
  simpa using this l [] List.Pairwise.nil

/-- Everything about `dims_union`. -/
theorem dimsUnion_spec {a b : List (Dim β)} (hl : NoSub (a ++ b)) (ha : Distinct a) :
    dimsUnion a b ⊆ a ++ b ∧ Distinct (dimsUnion a b) ∧
    (∀ k, k ∈ (dimsUnion a b).map Dim.key ↔ k ∈ a.map Dim.key ∨ k ∈ b.map Dim.key) ∧
    (∀ d ∈ dimsUnion a b, d ∈ a ∨ (d ∈ b ∧ d.key ∉ a.map Dim.key)) ∧ a ⊆ dimsUnion a b := by
  obtain ⟨h1, h2, h3, h4, h5⟩ := unionFold hl b a (by intro x hx; simp [hx])
    (by intro x hx; simp [hx]) ha
  have hp := sortByPrio_perm (b.foldl unionStep a)
  have hm : ∀ d, d ∈ dimsUnion a b ↔ d ∈ b.foldl unionStep a := fun d => hp.mem_iff
  refine ⟨fun x hx => h1 ((hm x).1 hx), ?_, ?_, fun d hd => h4 d ((hm d).1 hd),
    fun x hx => (hm x).2 (h5 hx)⟩
  · exact ((hp.map Dim.key).nodup_iff).2 h2
  · intro k; rw [← h3 k]; exact (hp.map Dim.key).mem_iff

theorem matchingIndex_some {l dims : List (Dim β)} (hl : NoSub l) (hd : dims ⊆ l) {e : Dim β}
    (he : e ∈ l) {i : Nat} (h : matchingIndex dims e = some i) :
    ∃ hi : i < dims.length, (dims[i]).key = e.key := by
  induction dims generalizing i with
  | nil => simp [matchingIndex] at h
  | cons x t ih =>
    simp only [matchingIndex] at h
    split at h
    · rename_i hm; cases h
      exact ⟨by simp, (matches_iff hl (hd (by simp)) he).1 hm⟩
    · cases hr : matchingIndex t e with
      | none => simp [hr] at h
      | some j =>
        simp only [hr, Option.map_some, Option.some.injEq] at h
        subst h
        obtain ⟨hj, hk⟩ := ih (fun y hy => hd (by simp [hy])) hr
        exact ⟨by simpa using hj, by simpa using hk⟩

theorem matchingIndex_of_key {l dims : List (Dim β)} (hl : NoSub l) (hd : dims ⊆ l)
    (hn : Distinct dims) {e : Dim β} (he : e ∈ l) {i : Nat} (hi : i < dims.length)
    (hk : (dims[i]).key = e.key) : matchingIndex dims e = some i := by
  induction dims generalizing i with
  | nil => simp at hi
  | cons x t ih =>
    simp only [Distinct, List.map_cons, List.nodup_cons] at hn
    simp only [matchingIndex]
    cases i with
    | zero =>
      have : matches_ x e = true := (matches_iff hl (hd (by simp)) he).2 (by simpa using hk)
      simp [this]
    | succ i =>
      have hi' : i < t.length := by simpa using hi
      have hk' : (t[i]).key = e.key := by simpa using hk
      have : ¬ matches_ x e = true := by
        intro hm
        have hx := (matches_iff hl (hd (by simp)) he).1 hm
        apply hn.1
        rw [hx, ← hk']
        exact List.mem_map_of_mem (List.getElem_mem hi')
      rw [if_neg this, ih (fun y hy => hd (by simp [hy])) hn.2 hi' hk']
      rfl

theorem matchingIndex_none {l dims : List (Dim β)} (hl : NoSub l) (hd : dims ⊆ l) {e : Dim β}
    (he : e ∈ l) : matchingIndex dims e = none ↔ e.key ∉ dims.map Dim.key := by
  induction dims with
  | nil => simp [matchingIndex]
  | cons x t ih =>
    have hm := matches_iff hl (hd (by simp : x ∈ x :: t)) he
    simp only [matchingIndex, List.map_cons, List.mem_cons, not_or]
    split
    · rename_i h; simp [hm.1 h]
    · rename_i h
      have h' : ¬ e.key = x.key := fun q => h (hm.2 q.symm)
      simp only [Option.map_eq_none_iff, ih (fun y hy => hd (by simp [hy])), h', not_false_eq_true,
        true_and]

theorem changeShapeLoop_fst (x : Arr β α) (U : List (Dim β)) :
    (changeShapeLoop x U).1 = (U.map fun u => (matchingIndex x.dims u).map fun i =>
      x.nd.shape.getD i 0).map fun o => o.getD 1 := by
  induction U with
  | nil => rfl
  | cons u t ih =>
    simp only [changeShapeLoop]
    cases h : matchingIndex x.dims u <;> simp [ih, h]

theorem changeShapeLoop_snd (x : Arr β α) (U : List (Dim β)) :
    (changeShapeLoop x U).2 = U.filterMap (matchingIndex x.dims) := by
  induction U with
  | nil => rfl
  | cons u t ih =>
    simp only [changeShapeLoop]
    cases h : matchingIndex x.dims u <;> simp [ih, h]

theorem order_isPerm {x : Arr β α} {l U : List (Dim β)} (hl : NoSub l) (hx : x.dims ⊆ l)
    (hU : U ⊆ l) (hwf : x.WF) (hn : Distinct x.dims) (hUn : Distinct U)
    (hsub : ∀ k ∈ x.dims.map Dim.key, k ∈ U.map Dim.key) :
    Nd.isPerm (U.filterMap (matchingIndex x.dims)) x.nd.ndim = true := by
  apply Nd.isPerm_of_nodup
  · -- nodup
    have : ∀ V : List (Dim β), V ⊆ l → Distinct V → (V.filterMap (matchingIndex x.dims)).Nodup := by
      intro V
      induction V with
      | nil => intros; simp
      | cons u t ih =>
        intro hV hVn
        simp only [Distinct, List.map_cons, List.nodup_cons] at hVn
        have iht := ih (fun y hy => hV (by simp [hy])) hVn.2
        cases hm : matchingIndex x.dims u with
        | none => simp [List.filterMap_cons, hm, iht]
        | some i =>
          simp only [List.filterMap_cons, hm, List.nodup_cons]
          refine ⟨?_, iht⟩
          intro hi
          obtain ⟨v, hv, hvi⟩ := List.mem_filterMap.1 hi
          obtain ⟨h1, h2⟩ := matchingIndex_some hl hx (hV (by simp)) hm
          obtain ⟨_, h4⟩ := matchingIndex_some hl hx (hV (by simp [hv])) hvi
          apply hVn.1
          rw [← h2, h4]
          exact List.mem_map_of_mem hv
    exact this U hU hUn
  · intro k
    rw [List.mem_filterMap]
    show _ ↔ k < x.nd.shape.length
    rw [← hwf]
    constructor
    · rintro ⟨u, hu, hm⟩
      exact (matchingIndex_some hl hx (hU hu) hm).1
    · intro hk
      have := hsub (x.dims[k]).key (List.mem_map_of_mem (List.getElem_mem hk))
      obtain ⟨u, hu, hku⟩ := List.mem_map.1 this
      exact ⟨u, hu, matchingIndex_of_key hl hx hn (hU hu) hk hku.symm⟩

theorem mapM_getElem?_of_lt (dims : List (Dim β)) (order : List Nat)
    (h : ∀ k ∈ order, k < dims.length) :
    ∃ r, (order.mapM fun i => dims[i]?) = some r ∧ r.length = order.length ∧
      ∀ j (hj : j < order.length), r[j]? = dims[order[j]]? := by
  induction order with
  | nil => exact ⟨[], rfl, rfl, by simp⟩
  | cons o t ih =>
    obtain ⟨r, h1, h2, h3⟩ := ih fun k hk => h k (by simp [hk])
    have ho : o < dims.length := h o (by simp)
    refine ⟨dims[o] :: r, ?_, by simp [h2], ?_⟩
    · rw [List.mapM_cons]; simp [h1, List.getElem?_eq_getElem ho]
    · intro j hj
      cases j with
      | zero => simp [List.getElem?_eq_getElem ho]
      | succ j => simpa using h3 j (by simpa using hj)

/-- `transpose` with a permutation of the axes. -/
theorem transpose_ok {x : Arr β α} (hwf : x.WF) {order : List Nat}
    (hp : Nd.isPerm order x.nd.ndim = true) :
    ∃ y, transpose x order = .ok y ∧ y.WF ∧
      y.nd.shape = order.map (fun k => x.nd.shape.getD k 0) ∧
      y.dims.length = order.length ∧
      (∀ j (hj : j < order.length), y.dims[j]? = x.dims[order[j]]?) ∧
      ∀ idx, y.nd.get idx =
        x.nd.get ((List.range x.nd.ndim).map fun k => idx.getD (order.idxOf k) 0) := by
  have hlen := (Nd.isPerm_iff.1 hp)
  have hperm := Nd.perm_of_isPerm hp
  -- the empty list of arguments means reversal, which is the same for rank zero
  have horder : (if order.isEmpty then (List.range x.nd.ndim).reverse else order) = order := by
    cases order with
    | nil =>
      have : x.nd.ndim = 0 := by simpa using hlen.1.symm
      simp [this]
    | cons o t => simp
  have hlt : ∀ k ∈ order, k < x.dims.length := by
    intro k hk
    have := hperm.mem_iff.1 hk
    rw [hwf]; simpa [Nd.ndim] using this
  obtain ⟨r, h1, h2, h3⟩ := mapM_getElem?_of_lt x.dims order hlt
  have hr : r.length = (Nd.mk (order.map fun k => x.nd.shape.getD k 0)
      (fun idx => x.nd.get ((List.range x.nd.ndim).map fun k => idx.getD (order.idxOf k) 0))).ndim := by
    simp [Nd.ndim, h2]
  refine ⟨⟨r, ⟨order.map fun k => x.nd.shape.getD k 0,
    fun idx => x.nd.get ((List.range x.nd.ndim).map fun k => idx.getD (order.idxOf k) 0)⟩⟩,
    ?_, ?_, rfl, h2, h3, fun _ => rfl⟩
  · simp only [transpose, horder, Nd.transpose, hp, if_true, ofNd, h1, mk?, hr]
  · show r.length = _; simp [h2]

theorem presentIdx {x : Arr β α} {l U : List (Dim β)} (hl : NoSub l) (hx : x.dims ⊆ l)
    (hU : U ⊆ l) (c : Coord) :
    ((U.map fun u => (matchingIndex x.dims u).map fun i => x.nd.shape.getD i 0).zip
      (Nd.bidx ((U.map fun u => (matchingIndex x.dims u).map fun i =>
        x.nd.shape.getD i 0).map fun o => o.getD 1) (U.map fun u => c u.key))).filterMap
        (fun p => p.1.map fun _ => p.2) =
        (U.filterMap (matchingIndex x.dims)).map fun k => if x.nd.shape.getD k 0 = 1 then 0 else
          (x.dims[k]?.map fun d => c d.key).getD 0 := by
  induction U with
  | nil => simp [Nd.bidx]
  | cons u t ih =>
    have ih := ih (fun y hy => hU (by simp [hy]))
    simp only [Nd.bidx] at ih
    simp only [List.map_cons, Nd.bidx, List.zipWith_cons_cons, List.zip_cons_cons]
    cases hm : matchingIndex x.dims u with
    | none =>
      simp only [Option.map_none, List.filterMap_cons, hm]
      exact ih
    | some i =>
      obtain ⟨hi, hk⟩ := matchingIndex_some hl hx (hU (by simp)) hm
      simp only [Option.map_some, List.filterMap_cons, hm, List.map_cons, Option.getD_some,
        List.getElem?_eq_getElem hi, hk]
      rw [ih]

/-- The element seen through `change_shape` at a broadcast coordinate. -/
theorem changeShape_spec {full : Arr β α → Arr β α} {x : Arr β α} {l U : List (Dim β)}
    (hfull : Dim.hasComplex U = true → full x = x) (hl : NoSub l) (hx : x.dims ⊆ l)
    (hU : U ⊆ l) (hwf : x.WF) (hn : Distinct x.dims) (hUn : Distinct U)
    (hsub : ∀ k ∈ x.dims.map Dim.key, k ∈ U.map Dim.key) :
    ∃ y, changeShape full x U = .ok y ∧ y.dims = U ∧
      y.nd.shape = (U.map fun u => (matchingIndex x.dims u).map fun i =>
        x.nd.shape.getD i 0).map (fun o => o.getD 1) ∧
      ∀ c : Coord, Nd.Valid y.nd.shape (Nd.bidx y.nd.shape (U.map fun u => c u.key)) →
        y.nd.get (Nd.bidx y.nd.shape (U.map fun u => c u.key)) = x.atB c := by
  have hp := order_isPerm hl hx hU hwf hn hUn hsub
  obtain ⟨y, hy, _, hysh, _, _, hyget⟩ := transpose_ok hwf hp
  set order := U.filterMap (matchingIndex x.dims) with horder
  set L : List (Option Nat) := U.map fun u => (matchingIndex x.dims u).map fun i =>
      x.nd.shape.getD i 0 with hL
  have hLf : L.filterMap id = y.nd.shape := by
    rw [hysh, hL, horder, List.filterMap_map, List.map_filterMap]
    rfl
  have hsize : Nd.size (L.map fun o => o.getD 1) = Nd.size y.nd.shape := by
    rw [← hLf]; exact Nd.size_insertOnes L
  refine ⟨⟨U, ⟨L.map fun o => o.getD 1, fun idx => y.nd.get
    (Nd.unravel y.nd.shape (Nd.ravel (L.map fun o => o.getD 1) idx))⟩⟩, ?_, rfl, rfl, ?_⟩
  · have e : changeShapeLoop x U = (L.map fun o => o.getD 1, order) := by
      rw [Prod.ext_iff]; exact ⟨changeShapeLoop_fst x U, changeShapeLoop_snd x U⟩
    have hx' : (if Dim.hasComplex U = true then full x else x) = x := by
      split
      · rename_i h; exact hfull h
      · rfl
    simp only [changeShape, hx', e, hy, Nd.reshape, hsize, if_true, ofNd]
  · intro c hv
    show y.nd.get (Nd.unravel y.nd.shape (Nd.ravel (L.map fun o => o.getD 1)
      (Nd.bidx (L.map fun o => o.getD 1) (U.map fun u => c u.key)))) = _
    have hins := Nd.ravel_insertOnes L _ hv
    rw [hins.1, hLf]
    rw [hLf] at hins
    rw [Nd.unravel_ravel hins.2.1]
    -- the index of the present axes
    have hidx : ((L.zip (Nd.bidx (L.map fun o => o.getD 1) (U.map fun u => c u.key))).filterMap
        fun p => p.1.map fun _ => p.2) =
        order.map fun k => if x.nd.shape.getD k 0 = 1 then 0 else
          (x.dims[k]?.map fun d => c d.key).getD 0 := by
      exact presentIdx hl hx hU c
    rw [hidx, hyget]
    unfold atB
    congr 1
    apply List.ext_getElem
    · rw [List.length_map, List.length_range, List.length_zipWith, hwf, Nat.min_self]; rfl
    · intro k h1 h2
      rw [List.getElem_map, List.getElem_range]
      have hk : k < x.nd.shape.length := by
        simpa [Nd.ndim] using h1
      have hkd : k < x.dims.length := by rw [hwf]; exact hk
      have hmem : k ∈ order := (Nd.isPerm_iff.1 hp).2 k (by simpa [Nd.ndim] using hk)
      have hio : order.idxOf k < order.length := List.idxOf_lt_length_iff.2 hmem
      rw [List.getD_eq_getElem?_getD, List.getElem?_map, List.getElem?_eq_getElem hio,
        List.getElem_idxOf hio]
      simp only [Option.map_some, Option.getD_some, List.getElem?_eq_getElem hkd,
        List.getElem_zipWith, List.getD_eq_getElem?_getD, List.getElem?_eq_getElem hk]

theorem axisLen_eq {x : Arr β α} {l : List (Dim β)} (hl : NoSub l) (hx : x.dims ⊆ l)
    (hwf : x.WF) {u : Dim β} (hu : u ∈ l) :
    ((matchingIndex x.dims u).map fun i => x.nd.shape.getD i 0) = x.axisLen u.key := by
  unfold axisLen WF at *
  revert hwf
  generalize x.nd.shape = sh
  generalize x.dims = ds at hx
  intro hwf
  induction ds generalizing sh with
  | nil => simp [matchingIndex]
  | cons d t ih =>
    cases sh with
    | nil => simp at hwf
    | cons s ss =>
      have hm := matches_iff hl (hx (by simp : d ∈ d :: t)) hu
      simp only [matchingIndex, List.zip_cons_cons, List.find?_cons]
      by_cases h : d.key = u.key
      · simp [hm.2 h, h]
      · have h' : ¬ matches_ d u = true := fun q => h (hm.1 q)
        have := ih ss (fun y hy => hx (List.mem_cons_of_mem _ hy)) (by simpa using hwf)
        simp only [h', h, if_false, decide_false, Option.map_map]
        rw [← this]
        cases matchingIndex t u <;> simp

theorem axisLen_none {x : Arr β α} (hwf : x.WF) {k : Key} (hk : k ∉ x.dims.map Dim.key) :
    x.axisLen k = none := by
  unfold axisLen
  rw [Option.map_eq_none_iff, List.find?_eq_none]
  intro p hp
  simp only [decide_eq_true_eq]
  intro h
  exact hk (h ▸ List.mem_map_of_mem (List.of_mem_zip hp).1)

theorem atB_eq_at {x : Arr β α} (hwf : x.WF) {c : Coord} (h : x.InRange c) : x.atB c = x.at_ c := by
  unfold atB at_
  congr 1
  unfold InRange WF at *
  revert h hwf
  generalize x.nd.shape = sh
  generalize x.dims = ds
  intro hwf h
  induction ds generalizing sh with
  | nil => cases sh <;> simp at hwf ⊢
  | cons d t ih =>
    cases sh with
    | nil => simp at hwf
    | cons s ss =>
      simp only [List.map_cons, Nd.Valid] at h
      simp only [List.zipWith_cons_cons, List.map_cons]
      rw [ih ss (by simpa using hwf) h.2]
      congr 1
      split <;> omega

theorem bidx_of_valid {sh idx : List Nat} (h : Nd.Valid sh idx) : Nd.bidx sh idx = idx := by
  induction sh generalizing idx with
  | nil => cases idx <;> simp [Nd.Valid, Nd.bidx] at h ⊢
  | cons s ss ih =>
    cases idx with
    | nil => simp [Nd.Valid] at h
    | cons i is =>
      simp only [Nd.Valid] at h
      simp only [Nd.bidx, List.zipWith_cons_cons]
      have := ih h.2
      simp only [Nd.bidx] at this
      rw [this]
      congr 1
      split <;> omega

theorem hasComplex_mono {U l : List (Dim β)} (h : U ⊆ l) (hc : Dim.hasComplex U = true) :
    Dim.hasComplex l = true := by
  simp only [Dim.hasComplex, List.any_eq_true, List.mem_reverse] at *
  obtain ⟨x, hx, h'⟩ := hc
  exact ⟨x, h hx, h'⟩

end HF.Arr
