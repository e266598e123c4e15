import Verif.HFArray.ReduceLemmas
/-
C49: `squeeze` drops the axes of length one and nothing else.
-/
namespace HF.Arr

variable {β α : Type}

theorem dropFrom_ones {δ : Type} (ks : List Nat) (l : List δ) (sh : List Nat) (j : Nat)
    (hl : l.length = sh.length) (hk : ∀ i < sh.length, j + i ∈ ks ↔ sh[i]? = some 1) :
    Nd.dropFrom ks j l = ((l.zip sh).filter fun p => p.2 ≠ 1).map Prod.fst := by
  induction l generalizing sh j with
  | nil => rfl
  | cons d t ih =>
    cases sh with
    | nil => simp at hl
    | cons s u =>
      have h0 := hk 0 (by simp)
      simp only [Nat.add_zero, List.getElem?_cons_zero, Option.some.injEq] at h0
      rw [Nd.dropFrom_cons, ih u (j + 1) (by simpa using hl) fun i hi => by
        have := hk (i + 1) (by simpa using hi)
        rw [List.getElem?_cons_succ] at this
        rw [← this, Nat.add_assoc, Nat.add_comm 1 i]]
      rw [List.zip_cons_cons]
      by_cases hs : s = 1
      · rw [if_pos (h0.2 hs), List.filter_cons_of_neg (by simpa using hs)]
      · rw [if_neg (fun h => hs (h0.1 h)), List.filter_cons_of_pos (by simpa using hs)]
        rfl

theorem insertZeros_ones (ks : List Nat) (ds : List (Dim β)) (sh : List Nat) (j : Nat) (c : Coord)
    (hl : ds.length = sh.length) (hk : ∀ i < sh.length, j + i ∈ ks ↔ sh[i]? = some 1)
    (hc : ∀ e, (e, 1) ∈ ds.zip sh → c e.key = 0) :
    Nd.insertZeros ks j ds.length ((Nd.dropFrom ks j ds).map fun d => c d.key) =
      ds.map fun d => c d.key := by
  induction ds generalizing sh j with
  | nil => rfl
  | cons d t ih =>
    cases sh with
    | nil => simp at hl
    | cons s u =>
      have h0 := hk 0 (by simp)
      simp only [Nat.add_zero, List.getElem?_cons_zero, Option.some.injEq] at h0
      have ih' := ih u (j + 1) (by simpa using hl) (fun i hi => by
        have := hk (i + 1) (by simpa using hi)
        rw [List.getElem?_cons_succ] at this
        rw [← this, Nat.add_assoc, Nat.add_comm 1 i]) (fun e he => hc e (by simp [he]))
      simp only [List.length_cons, Nd.insertZeros, Nd.dropFrom_cons]
      by_cases hj : j ∈ ks
      · have hs := h0.1 hj
        subst hs
        simp only [hj, if_true, ih', List.map_cons, hc d (by simp)]
      · simp only [hj, if_false, List.map_cons, List.headD_cons, List.tail_cons, ih']

/-- C49: `x.squeeze()` keeps exactly the dims whose axes are not of length one, in order and
with their axes; the elements stay at their named coordinates. -/
theorem C49_squeeze (x : Arr β α) (hwf : x.WF) :
    ∃ y, x.squeezeIdx none = .ok y ∧ y.WF ∧
      y.dims = ((x.dims.zip x.nd.shape).filter fun p => p.2 ≠ 1).map Prod.fst ∧
      y.nd.shape = x.nd.shape.filter (· ≠ 1) ∧
      ∀ c, (∀ e, (e, 1) ∈ x.dims.zip x.nd.shape → c e.key = 0) → y.at_ c = x.at_ c := by
  obtain ⟨ks, hks⟩ : ∃ ks, ks = (List.range x.nd.ndim).filter fun k => x.nd.shape.getD k 0 = 1 := ⟨_, rfl⟩
  have hk : ∀ i < x.nd.shape.length, 0 + i ∈ ks ↔ x.nd.shape[i]? = some 1 := by
    intro i hi
    rw [hks, List.mem_filter, List.mem_range, Nat.zero_add, List.getD_eq_getElem?_getD,
      List.getElem?_eq_getElem hi]
    simp [Nd.ndim, hi]
  have hd : (x.dims.zipIdx.filter fun p => x.nd.shape.getD p.2 0 ≠ 1).map Prod.fst =
      Nd.dropFrom ks 0 x.dims := by
    unfold Nd.dropFrom
    congr 1
    apply List.filter_congr
    intro p hp
    have hlt : p.2 < x.nd.shape.length := by
      have := List.snd_lt_of_mem_zipIdx hp
      rw [Nat.add_zero, hwf] at this
      exact this
    have := hk p.2 hlt
    rw [Nat.zero_add, List.getElem?_eq_getElem hlt, Option.some.injEq] at this
    rw [decide_eq_decide, not_iff_not, this, List.getD_eq_getElem?_getD, List.getElem?_eq_getElem hlt]
    rfl
  have hlen := Nd.dropFrom_length ks x.dims x.nd.shape 0 hwf
  refine ⟨⟨Nd.dropFrom ks 0 x.dims, ⟨Nd.dropFrom ks 0 x.nd.shape,
    fun idx => x.nd.get (Nd.insertZeros ks 0 x.nd.ndim idx)⟩⟩, ?_, hlen,
    dropFrom_ones ks _ _ 0 hwf hk, ?_, ?_⟩
  · simp only [squeezeIdx, hd, Nd.squeeze, ofNd, mk?, Nd.ndim, Nd.dropAt_eq]
    simp only [Nd.ndim] at hks
    rw [← hks, if_pos hlen]
  · show Nd.dropFrom ks 0 x.nd.shape = _
    rw [dropFrom_ones ks _ _ 0 rfl hk]
    generalize x.nd.shape = l
    induction l with
    | nil => rfl
    | cons a t ih =>
      rw [List.zip_cons_cons]
      by_cases ha : a = 1
      · rw [List.filter_cons_of_neg (by simpa using ha), List.filter_cons_of_neg (by simpa using ha)]
        exact ih
      · rw [List.filter_cons_of_pos (by simpa using ha), List.filter_cons_of_pos (by simpa using ha),
          List.map_cons, ih]
  · intro c hc
    show x.nd.get (Nd.insertZeros ks 0 x.nd.ndim ((Nd.dropFrom ks 0 x.dims).map fun d => c d.key)) = _
    rw [Nd.ndim, ← hwf, insertZeros_ones ks x.dims x.nd.shape 0 c hwf hk hc]
    rfl

end HF.Arr
