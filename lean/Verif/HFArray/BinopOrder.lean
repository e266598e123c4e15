import Verif.HFArray.BinopProps
/-
C06: where the axes of a result stand.
-/
namespace HF.Arr

variable {β α γ : Type}

/-- In a list sorted by priority without repeated axes, an axis of strictly greatest priority
comes last. -/
theorem last_of_sorted {l : List (Dim β)} (hs : l.Pairwise fun x y => x.sortprio ≤ y.sortprio)
    (hn : Distinct l) {j : Dim β} (hj : j ∈ l) (hg : ∀ d ∈ l, d.key ≠ j.key → d.sortprio < j.sortprio) :
    ∃ pre, l = pre ++ [j] := by
  obtain ⟨s, t, rfl⟩ := List.append_of_mem hj
  refine ⟨s, ?_⟩
  cases t with
  | nil => rfl
  | cons y t =>
    exfalso
    have h1 := (List.pairwise_append.1 hs).2.1
    have h2 := (List.pairwise_cons.1 h1).1 y (by simp)
    have h3 : y.key ≠ j.key := by
      unfold Distinct at hn
      rw [List.map_append, List.nodup_append] at hn
      have := hn.2.1
      simp only [List.map_cons, List.nodup_cons, List.mem_cons, not_or] at this
      exact fun h => this.1.1 h.symm
    have := hg y (by simp) h3
    omega

/-- C06.  Whatever the order of the axes in the operands, of two axes of the result the first
one is never a matrix or complex axis if the second one is a sweep or a repetition, never a
repetition if the second one is a sweep, never a column axis if the second one is a row axis,
and never complex if the second one is not. -/
theorem C06_axes_order (a b : List (Dim β)) :
    (dimsUnion a b).Pairwise fun x y =>
      (y.isa .dimSweep = true → x.isa .dimRep = false ∧ x.isa .dimMatrix_ = false ∧
        Dim.hasComplex [x] = false) ∧
      (y.isa .dimRep = true → x.isa .dimMatrix_ = false ∧ Dim.hasComplex [x] = false) ∧
      (y.isa .matI = true → x.isa .matJ = false ∧ Dim.hasComplex [x] = false) ∧
      (y.isa .matJ = true → Dim.hasComplex [x] = false) := by
  refine (sortByPrio_sorted _).imp ?_
  intro x y h
  have key : ∀ c d : Cls, c.sortprio ≤ d.sortprio →
      (d.isSub .dimSweep = true → c.isSub .dimRep = false ∧ c.isSub .dimMatrix_ = false ∧
        (c.isSub .complexDeriv || c.isSub .complexIndep || c.isSub .complexDiag) = false) ∧
      (d.isSub .dimRep = true → c.isSub .dimMatrix_ = false ∧
        (c.isSub .complexDeriv || c.isSub .complexIndep || c.isSub .complexDiag) = false) ∧
      (d.isSub .matI = true → c.isSub .matJ = false ∧
        (c.isSub .complexDeriv || c.isSub .complexIndep || c.isSub .complexDiag) = false) ∧
      (d.isSub .matJ = true →
        (c.isSub .complexDeriv || c.isSub .complexIndep || c.isSub .complexDiag) = false) := by
    intro c d
    cases c <;> cases d <;> decide +kernel
  have := key x.cls y.cls h
  simpa [Dim.isa, Dim.hasComplex] using this

/-- The union of the axes of two operands with one row axis `i`, one column axis `j` and
otherwise only sweeps and repetitions ends with these two, and has no complex axis. -/
theorem union_matrix_last {a b : List (Dim β)} (hna : Distinct a) (hl : NoSub (a ++ b)) {ki kj : Key}
    (hi : ki ∈ (a ++ b).map Dim.key) (hj : kj ∈ (a ++ b).map Dim.key)
    (ci : ki.2 = .matI) (cj : kj.2 = .matJ)
    (ho : ∀ d ∈ a ++ b, d.key ≠ ki → d.key ≠ kj →
      d.isa .dimSweep = true ∨ d.isa .dimRep = true) :
    Dim.hasComplex (a ++ b) = false ∧
    ∃ pre i j, dimsUnion a b = pre ++ [i, j] ∧ i.key = ki ∧ j.key = kj ∧
      ∀ d ∈ pre, d.isa .dimSweep = true ∨ d.isa .dimRep = true := by
  have prio : ∀ c : Cls, (c.isSub .dimSweep = true ∨ c.isSub .dimRep = true) →
      c.sortprio < Cls.sortprio .matI ∧ c.sortprio < Cls.sortprio .matJ ∧
      (c.isSub .complexDeriv || c.isSub .complexIndep || c.isSub .complexDiag) = false := by
    intro c; cases c <;> decide +kernel
  have pij : Cls.sortprio .matI < Cls.sortprio .matJ := by decide +kernel
  have hcx : Dim.hasComplex (a ++ b) = false := by
    have hcls : ∀ d ∈ a ++ b, (d.cls.isSub .complexDeriv || d.cls.isSub .complexIndep ||
        d.cls.isSub .complexDiag) = false := by
      intro d hd
      by_cases h1 : d.key = ki
      · have : d.cls = .matI := by rw [← ci, ← h1]; rfl
        rw [this]; decide +kernel
      · by_cases h2 : d.key = kj
        · have : d.cls = .matJ := by rw [← cj, ← h2]; rfl
          rw [this]; decide +kernel
        · exact (prio d.cls (ho d hd h1 h2)).2.2
    simp only [Dim.hasComplex, List.any_eq_false, Dim.isa]
    intro d hd
    simpa using hcls d (List.mem_reverse.1 hd)
  refine ⟨hcx, ?_⟩
  obtain ⟨h1, h2, h3, h4, h5⟩ := dimsUnion_spec hl hna
  have hs := sortByPrio_sorted (b.foldl unionStep a)
  change (dimsUnion a b).Pairwise _ at hs
  have hki : ki ∈ (dimsUnion a b).map Dim.key := (h3 ki).2 (by simpa [List.map_append] using hi)
  have hkj : kj ∈ (dimsUnion a b).map Dim.key := (h3 kj).2 (by simpa [List.map_append] using hj)
  obtain ⟨i, hi', rfl⟩ := List.mem_map.1 hki
  obtain ⟨j, hj', rfl⟩ := List.mem_map.1 hkj
  have hij : i.key ≠ j.key := by
    intro h
    have h' := congrArg Prod.snd h
    rw [ci, cj] at h'
    cases h'
  have si : i.sortprio = Cls.sortprio .matI := congrArg Cls.sortprio ci
  have sj : j.sortprio = Cls.sortprio .matJ := congrArg Cls.sortprio cj
  obtain ⟨p1, e1⟩ := last_of_sorted hs h2 hj' (by
    intro d hd hne
    rw [sj]
    by_cases h : d.key = i.key
    · have : d.sortprio = i.sortprio := congrArg Cls.sortprio (congrArg Prod.snd h)
      rw [this, si]; exact pij
    · exact (prio d.cls (ho d (h1 hd) h hne)).2.1)
  have hd1 : Distinct p1 := by
    unfold Distinct at h2 ⊢
    rw [e1, List.map_append, List.nodup_append] at h2
    exact h2.1
  have hnj : ∀ d ∈ p1, d.key ≠ j.key := by
    unfold Distinct at h2
    rw [e1, List.map_append, List.nodup_append] at h2
    intro d hd
    exact h2.2.2 d.key (List.mem_map_of_mem hd) j.key (by simp)
  have hs1 : p1.Pairwise fun x y => x.sortprio ≤ y.sortprio := by
    rw [e1] at hs
    exact (List.pairwise_append.1 hs).1
  have hi1 : i ∈ p1 := by
    rw [e1] at hi'
    rcases List.mem_append.1 hi' with h | h
    · exact h
    · exact absurd (congrArg Dim.key (List.mem_singleton.1 h)) hij
  have hsub : ∀ d ∈ p1, d ∈ dimsUnion a b := fun d hd => by rw [e1]; exact List.mem_append_left _ hd
  obtain ⟨p2, e2⟩ := last_of_sorted hs1 hd1 hi1 (by
    intro d hd hne
    rw [si]
    exact (prio d.cls (ho d (h1 (hsub d hd)) hne (hnj d hd))).1)
  refine ⟨p2, i, j, by rw [e1, e2]; simp, rfl, rfl, ?_⟩
  intro d hd
  have hd1' : d ∈ p1 := by rw [e2]; exact List.mem_append_left _ hd
  refine ho d (h1 (hsub d hd1')) ?_ (hnj d hd1')
  unfold Distinct at hd1
  rw [e2, List.map_append, List.nodup_append] at hd1
  exact hd1.2.2 d.key (List.mem_map_of_mem hd) i.key (by simp)

/-- C06.  An operation whose operands have one row axis `i`, one column axis `j` and otherwise
only sweeps and repetitions gives an array of matrices: its last two axes are `i` and `j`, in
this order, although operands may have them anywhere, or only one of them each. -/
theorem C06_matrix_last (full : Arr β α → Arr β α) (f : α → α → γ) (a b : Arr β α)
    (ha : a.WF) (hb : b.WF) (hna : Distinct a.dims) (hnb : Distinct b.dims)
    (hl : NoSub (a.dims ++ b.dims)) (hc : Compatible a b) {ki kj : Key}
    (hi : ki ∈ (a.dims ++ b.dims).map Dim.key) (hj : kj ∈ (a.dims ++ b.dims).map Dim.key)
    (ci : ki.2 = .matI) (cj : kj.2 = .matJ)
    (ho : ∀ d ∈ a.dims ++ b.dims, d.key ≠ ki → d.key ≠ kj →
      d.isa .dimSweep = true ∨ d.isa .dimRep = true) :
    ∃ r pre i j, binop full f a b = .ok r ∧ r.dims = pre ++ [i, j] ∧ i.key = ki ∧ j.key = kj ∧
      ∀ d ∈ pre, d.isa .dimSweep = true ∨ d.isa .dimRep = true := by
  obtain ⟨hcx, pre, i, j, hU, ei, ej, hp⟩ := union_matrix_last hna hl hi hj ci cj ho
  obtain ⟨r, hr, -, -, hd, -, -, -⟩ := C06_binop_aligns_by_name full f a b ha hb hna hnb hl hc
    (fun h => by rw [hcx] at h; cases h)
  exact ⟨r, pre, i, j, hr, hd.trans hU, ei, ej, hp⟩

/-- A column axis first, the row axis in the other operand. -/
def exC : Arr Nat Nat := ⟨[⟨.matJ, "j", [0, 1], none, none⟩, ⟨.dimSweep, "freq", [1, 2], none, none⟩],
  ⟨[2, 2], fun l => 10 * l.getD 0 0 + l.getD 1 0⟩⟩
def exD : Arr Nat Nat := ⟨[⟨.matI, "i", [0, 1, 2], none, none⟩, ⟨.dimRep, "rep", [1, 2], none, none⟩],
  ⟨[3, 2], fun l => 100 * l.getD 0 0 + 1000 * l.getD 1 0⟩⟩

example : exC.WF ∧ exD.WF ∧ Distinct exC.dims ∧ Distinct exD.dims ∧ NoSub (exC.dims ++ exD.dims) ∧
    (∀ d ∈ exC.dims ++ exD.dims, d.key ≠ ("i", .matI) → d.key ≠ ("j", .matJ) →
      d.isa .dimSweep = true ∨ d.isa .dimRep = true) := by
  refine ⟨rfl, rfl, ?_, ?_, ?_, by decide +kernel⟩ <;> (try unfold Distinct) <;> (try unfold NoSub) <;>
    decide +kernel

example : (match binop id (· + ·) exC exD with
    | .ok r => (r.dims.map Dim.name, r.nd.shape)
    | .error _ => ([], [])) = (["freq", "rep", "i", "j"], [2, 2, 3, 2]) := by decide +kernel

end HF.Arr
