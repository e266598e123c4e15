import Verif.HFArray.Lstsq
import Verif.HFArray.LstsqLemmas
import Verif.HFArray.LinAlgProps
/-
C87: least squares for arrays of matrices.
-/
namespace HF.Arr

open Matrix HF.Lstsq

variable {β : Type}

/-- `np.linalg.lstsq` does what it says: every column is a best solution for the column of the right hand sides. -/
def Trusted {𝕜 : Type} [RCLike 𝕜] (sol : Solver 𝕜) : Prop :=
  ∀ (p q t : Nat) (A : Matrix (Fin p) (Fin q) 𝕜) (B : Matrix (Fin p) (Fin t) 𝕜) (k : Fin t),
    IsBest A (fun i => B i k) (fun j => sol A B j k)

/-- Every matrix of the stack is solved for by itself. -/
theorem lstsq_each {α : Type} [Zero α] (sol : Solver α) (full : Arr β α → Arr β α) (A b : Arr β α) {ki kj : Key} (h : Stacks A b ki kj)
    (ho : OuterOk A b ki kj) {m n : Nat} (h1 : A.axisLen ki = some m) (h2 : A.axisLen kj = some n)
    (h3 : b.axisLen ki = some m) (sq : Bool) :
    ∃ x pre i j, lstsq sol full A b sq = .ok x ∧ x.WF ∧ Distinct x.dims ∧ x.dims = pre ++ [i, j] ∧
      i.key = ki ∧ j.key = kj ∧ x.dims = dimsUnion A.dims b.dims ∧
      (∀ k, k ∈ x.dims.map Dim.key ↔ k ∈ A.dims.map Dim.key ∨ k ∈ b.dims.map Dim.key) ∧
      x.axisLen ki = some n ∧ x.axisLen kj = some ((b.axisLen kj).getD 1) ∧
      (∀ k, k ≠ ki → k ≠ kj → x.axisLen k = bLen (A.axisLen k) (b.axisLen k)) ∧
      ∀ c, x.InStack ki kj c →
        x.mat ki kj c n ((b.axisLen kj).getD 1) =
          sol (A.mat ki kj c m n) (b.mat ki kj c m ((b.axisLen kj).getD 1)) := by
  obtain ⟨t, ht⟩ : ∃ t, t = (b.axisLen kj).getD 1 := ⟨_, rfl⟩
  rw [← ht]
  obtain ⟨pre, i, j, a', b', ea, eb, hs⟩ := same_dims full h
  have hoc := outer_cond hs.pre_ne ho
  have sa := hs.shapeA
  have sb := hs.shapeB
  have ht' : len1 b kj = t := by rw [ht]; rfl
  rw [len1_of h1, len1_of h2] at sa
  rw [len1_of h3, ht'] at sb
  have hsol := Nd.lstsq.eq_1 sol a'.nd b'.nd
  rw [sa, sb, split2_append, split2_append] at hsol
  simp only [bshape_map pre (len1 A) (len1 b) hoc, if_true] at hsol
  obtain ⟨g, hg, hget⟩ : ∃ g, Nd.lstsq sol a'.nd b'.nd =
      .ok ⟨(pre.map fun u => lenB (len1 A u.key) (len1 b u.key)) ++ [n, t], g⟩ ∧
      ∀ (o : List Nat) (x y : Nat), o.length = pre.length →
        g (o ++ [x, y]) = Nd.elemOf (sol (Nd.matOf a'.nd (Nd.bidx (pre.map fun u => len1 A u.key) o) m n)
          (Nd.matOf b'.nd (Nd.bidx (pre.map fun u => len1 b u.key) o) m t)) x y := by
    refine ⟨_, hsol, ?_⟩
    intro o x y ho'
    have hl : (pre.map fun u => lenB (len1 A u.key) (len1 b u.key)).length = o.length := by simp [ho']
    simp only [hl, (take_getD o x y).1, (take_getD o x y).2.1, (take_getD o x y).2.2]
  obtain ⟨hwf, hd, l1, l2, l3, hv⟩ := res_view hs h.wfa h.wfb n t g
  refine ⟨_, pre, i, j, ?_, hwf, hd, rfl, hs.ikey, hs.jkey, hs.dims.symm, hs.mem, l1, l2, l3, ?_⟩
  · simp only [lstsq, withSame, ea, eb, hg]
    rw [mkL_ok (by rw [hs.dims]; simp), hs.dims]
    rfl
  · intro c hc
    obtain ⟨hc1, hc2⟩ := hv c hc
    obtain ⟨hca, hcb⟩ := len_of hoc hc1
    have e1 : Nd.matOf a'.nd (pre.map fun u => if len1 A u.key = 1 then 0 else c u.key) m n =
        A.mat ki kj c m n := by
      ext x y
      exact hs.getA c x.1 y.1 hca (by rw [len1_of h1]; exact x.2) (by rw [len1_of h2]; exact y.2)
    have e2 : Nd.matOf b'.nd (pre.map fun u => if len1 b u.key = 1 then 0 else c u.key) m t =
        b.mat ki kj c m t := by
      ext x y
      exact hs.getB c x.1 y.1 hcb (by rw [len1_of h3]; exact x.2) (by rw [ht']; exact y.2)
    ext x y
    refine (hc2 x.1 y.1 x.2 y.2).trans ?_
    rw [hget _ _ _ (by simp), Nd.elemOf, dif_pos ⟨x.2, y.2⟩, (absorb pre (len1 A) (len1 b) c hoc).1,
      (absorb pre (len1 A) (len1 b) c hoc).2, e1, e2]

variable {𝕜 : Type} [RCLike 𝕜]

/-- C87.  `lstsq(A, b)` for a stack of `m` by `n` matrices and right hand sides with `m` rows: the result has the axes
of both (also those of length one, whatever `squeeze` is), and at *every* coordinate each of its columns has the smallest sum of squares of errors among all vectors; the
errors are orthogonal to the columns of the matrix; if the equations can be fulfilled they are; and if the columns of
the matrix are independent no other matrix is as good in every column. -/
theorem C87_least (sol : Solver 𝕜) (hsol : Trusted sol) (full : Arr β 𝕜 → Arr β 𝕜) (A b : Arr β 𝕜) {ki kj : Key}
    (h : Stacks A b ki kj) (ho : OuterOk A b ki kj) {m n t : Nat} (h1 : A.axisLen ki = some m) (h2 : A.axisLen kj = some n)
    (h3 : b.axisLen ki = some m) (ht : (b.axisLen kj).getD 1 = t) (sq : Bool) :
    ∃ x, lstsq sol full A b sq = .ok x ∧ x.WF ∧ Distinct x.dims ∧
      (∀ k, k ∈ x.dims.map Dim.key ↔ k ∈ A.dims.map Dim.key ∨ k ∈ b.dims.map Dim.key) ∧
      x.axisLen ki = some n ∧ x.axisLen kj = some t ∧
      (∀ k, k ≠ ki → k ≠ kj → x.axisLen k = bLen (A.axisLen k) (b.axisLen k)) ∧
      ∀ c, x.InStack ki kj c →
        let X := x.mat ki kj c n t
        let M := A.mat ki kj c m n
        let B := b.mat ki kj c m t
        (∀ k (y : Fin n → 𝕜), ∑ i, ‖(M * X) i k - B i k‖ ^ 2 ≤ ∑ i, ‖(M *ᵥ y) i - B i k‖ ^ 2) ∧
        Mᴴ * (M * X - B) = 0 ∧
        ((∃ Y, M * Y = B) → M * X = B) ∧
        ((∀ z, M *ᵥ z = 0 → z = 0) →
          ∀ Y : Matrix (Fin n) (Fin t) 𝕜, (∀ k (y : Fin n → 𝕜), ∑ i, ‖(M * Y) i k - B i k‖ ^ 2 ≤ ∑ i, ‖(M *ᵥ y) i - B i k‖ ^ 2) →
            Y = X) := by
  obtain ⟨x, pre, i, j, e, hwf, hd, -, -, -, -, hmem, l1, l2, l3, hx⟩ := lstsq_each sol full A b h ho h1 h2 h3 sq
  rw [ht] at l2
  refine ⟨x, e, hwf, hd, hmem, l1, l2, l3, fun c hc => ?_⟩
  have hX := hx c hc
  rw [ht] at hX
  have hcol : ∀ (Y : Matrix (Fin n) (Fin t) 𝕜) k, (fun i => (A.mat ki kj c m n * Y) i k) = A.mat ki kj c m n *ᵥ fun j => Y j k := by
    intro Y k
    funext i
    rw [Matrix.mul_apply]
    rfl
  have hbest : ∀ k, IsBest (A.mat ki kj c m n) (fun i => b.mat ki kj c m t i k) (fun j => x.mat ki kj c n t j k) := by
    intro k
    rw [hX]
    exact hsol m n t _ _ k
  intro X M B
  have hone : ∀ (Y : Matrix (Fin n) (Fin t) 𝕜) k, (∀ (y : Fin n → 𝕜), ∑ i, ‖(M * Y) i k - B i k‖ ^ 2 ≤ ∑ i, ‖(M *ᵥ y) i - B i k‖ ^ 2) ↔
      IsBest M (fun i => B i k) (fun j => Y j k) := by
    intro Y k
    have e : ∀ i, (M * Y) i k = (M *ᵥ fun j => Y j k) i := fun i => congrFun (hcol Y k) i
    simp only [e, IsBest]
  refine ⟨fun k => (hone X k).2 (hbest k), ?_, ?_, ?_⟩
  · ext i k
    have := congrFun ((isBest_iff _ _ _).1 (hbest k)) i
    rw [Matrix.mul_apply]
    refine Eq.trans ?_ this
    show _ = ∑ j, Mᴴ i j * _
    refine Finset.sum_congr rfl fun j _ => ?_
    congr 1
  · rintro ⟨Y, hY⟩
    ext i k
    have hy : M *ᵥ (fun j => Y j k) = fun i => B i k := by rw [← hcol Y k, hY]
    have := congrFun (best_exact _ _ _ _ (hbest k) hy) i
    rw [show (M * X) i k = (M *ᵥ fun j => X j k) i from congrFun (hcol X k) i]
    exact this
  · intro hM Y hY
    ext j k
    exact congrFun (best_unique M _ _ _ hM ((hone Y k).1 (hY k)) (hbest k)) j

/-- C87.  For stacks of square matrices without singular ones `lstsq` gives the elements `solve_Ab` gives. -/
theorem C87_solve (sol : Solver 𝕜) (hsol : Trusted sol) (full : Arr β 𝕜 → Arr β 𝕜) [DecidableEq 𝕜] (A b : Arr β 𝕜) {ki kj : Key}
    (h : Stacks A b ki kj) (ho : OuterOk A b ki kj) {n : Nat} (h1 : A.axisLen ki = some n) (h2 : A.axisLen kj = some n)
    (h3 : b.axisLen ki = some n) (hreg : ∀ c, InBoth A b ki kj c → (A.mat ki kj c n n).det ≠ 0) (sq : Bool) :
    ∃ x y, lstsq sol full A b sq = .ok x ∧ solveAb full A b false = .ok y ∧ (∀ k, x.axisLen k = y.axisLen k) ∧
      ∀ c, x.InStack ki kj c → x.mat ki kj c n ((b.axisLen kj).getD 1) = y.mat ki kj c n ((b.axisLen kj).getD 1) := by
  obtain ⟨x, e, -, -, -, l1, l2, l3, hx⟩ := C87_least sol hsol full A b h ho h1 h2 h3 rfl sq
  obtain ⟨y, -, -, -, e', -, -, -, -, -, -, k1, k2, k3, hy⟩ := C59_solve full A b h ho h1 h2 h3 hreg
  have hlen : ∀ k, x.axisLen k = y.axisLen k := by
    intro k
    by_cases hi : k = ki
    · rw [hi, l1, k1]
    · by_cases hj : k = kj
      · rw [hj, l2, k2]
      · rw [l3 k hi hj, k3 k hi hj]
  refine ⟨x, y, e, e', hlen, fun c hc => ?_⟩
  obtain ⟨hy1, hy2⟩ := hy c fun k s x1 x2 x3 => hc k s x1 x2 ((hlen k).trans x3)
  exact hy2 _ ((hx c hc).2.2.1 ⟨_, hy1⟩)

/-- C87.  If the numbers of rows differ there is no result. -/
theorem C87_rows {α : Type} [Zero α] (sol : Solver α) (full : Arr β α → Arr β α) (A b : Arr β α) {ki kj : Key} (h : Stacks A b ki kj)
    (ho : OuterOk A b ki kj) {m n m' : Nat} (h1 : A.axisLen ki = some m) (h2 : A.axisLen kj = some n)
    (h3 : b.axisLen ki = some m') (hm : m' ≠ m) (sq : Bool) : lstsq sol full A b sq = .error .linAlgError := by
  obtain ⟨pre, i, j, a', b', ea, eb, hs⟩ := same_dims full h
  have hoc := outer_cond hs.pre_ne ho
  have sa := hs.shapeA
  have sb := hs.shapeB
  rw [len1_of h1, len1_of h2] at sa
  rw [len1_of h3] at sb
  have hsol := Nd.lstsq.eq_1 sol a'.nd b'.nd
  rw [sa, sb, split2_append, split2_append] at hsol
  simp only [bshape_map pre (len1 A) (len1 b) hoc, if_neg hm] at hsol
  simp only [lstsq, withSame, ea, eb, hsol]

/-- C87, violated: the axis of the rows of the result keeps the dim of the rows of `A`, so that for more equations
than unknowns it has more coordinates than elements. -/
theorem C87_labels_refuted {α : Type} [Zero α] (sol : Solver α) (full : Arr β α → Arr β α) (A b : Arr β α) {ki kj : Key} (h : Stacks A b ki kj)
    (ho : OuterOk A b ki kj) {m n : Nat} (h1 : A.axisLen ki = some m) (h2 : A.axisLen kj = some n)
    (h3 : b.axisLen ki = some m) (hl : ∀ d ∈ dimsUnion A.dims b.dims, d.key = ki → d.data.length = m) (hmn : n < m) (sq : Bool) :
    ∃ x i, lstsq sol full A b sq = .ok x ∧ i ∈ x.dims ∧ i.key = ki ∧ i.data.length = m ∧ x.axisLen ki = some n ∧
      x.axisLen ki ≠ some i.data.length := by
  obtain ⟨x, pre, i, j, e, -, -, hd, hik, -, hdu, -, l1, -, -, -⟩ := lstsq_each sol full A b h ho h1 h2 h3 sq
  have hi : i ∈ x.dims := by rw [hd]; simp
  have hlen := hl i (hdu ▸ hi) hik
  exact ⟨x, i, e, hi, hik, hlen, l1, by rw [l1, hlen]; simp; omega⟩

/-! ### Not vacuous -/

/-- There is a solver that does what it says. -/
noncomputable def bestSolver : Solver 𝕜 := fun A B => fun j k => (exists_best A (fun i => B i k)).choose j

theorem bestSolver_trusted : Trusted (bestSolver (𝕜 := 𝕜)) :=
  fun _ _ _ A B k => (exists_best A (fun i => B i k)).choose_spec

end HF.Arr

namespace HF.Arr.LstsqEx

def kI : Key := ("i", .matI)
def kJ : Key := ("j", .matJ)

/-- Two matrices with three rows and two columns: lines through three points. -/
noncomputable def exT : Arr Nat ℝ := ⟨[⟨.dimSweep, "freq", [0, 1], none, none⟩, ⟨.matI, "i", [0, 1, 2], none, none⟩, ⟨.matJ, "j", [0, 1], none, none⟩],
  ⟨[2, 3, 2], fun idx => if idx.getD 2 0 = 0 then 1 else idx.getD 1 0 + idx.getD 0 0⟩⟩

/-- Three values without column axis. -/
noncomputable def exV : Arr Nat ℝ := ⟨[⟨.matI, "i", [0, 1, 2], none, none⟩], ⟨[3], fun idx => (idx.getD 0 0 : ℝ) ^ 2⟩⟩

theorem exStacks : Stacks exT exV kI kJ := by
  refine ⟨rfl, rfl, ?_, ?_, ?_, ?_, ?_, rfl, rfl, ?_⟩ <;> (try unfold Distinct) <;> (try unfold NoSub) <;>
    simp only [exT, exV] <;> decide +kernel

theorem exOuter : OuterOk exT exV kI kJ := by
  intro k s t h1 h2 h3 h4
  exfalso
  have := axisLen_isSome (x := exV) rfl h4
  simp only [exV, List.map_cons, List.map_nil, List.mem_cons, List.not_mem_nil, or_false] at this
  exact h1 this

/-- The hypotheses of `C87_least` and `C87_labels_refuted` are met: the fit has two elements under three coordinates. -/
example : ∃ x i, lstsq bestSolver id exT exV true = .ok x ∧ i ∈ x.dims ∧ i.key = kI ∧ i.data.length = 3 ∧ x.axisLen kI = some 2 ∧
    x.axisLen kI ≠ some i.data.length :=
  C87_labels_refuted bestSolver id exT exV exStacks exOuter (m := 3) (n := 2) rfl rfl rfl
    (by simp only [exT, exV]; decide +kernel) (by decide) true

example : ∃ x, lstsq bestSolver id exT exV true = .ok x ∧ x.axisLen kI = some 2 ∧ x.axisLen kJ = some 1 := by
  obtain ⟨x, h, -, -, -, l1, l2, -⟩ := C87_least bestSolver bestSolver_trusted id exT exV exStacks exOuter (m := 3) (n := 2) (t := 1)
    rfl rfl rfl rfl true
  exact ⟨x, h, l1, l2⟩

end HF.Arr.LstsqEx
