import Mathlib.LinearAlgebra.Matrix.Notation
import Mathlib.Data.Matrix.Mul
import Mathlib.Tactic.FinCases
import Mathlib.Tactic.Ring
import Mathlib.Tactic.Linarith
import Mathlib.Tactic.NormNum
import Verif.HFArray.FullComplex
/-
C11: complex numbers as real 2x2 matrices.
-/
namespace HF
namespace Arr

variable {β : Type}

/-- Key of the first (`i`) and second (`j`) complex axis. -/
def keyI : Key := ("cplx", .complexIndep)
def keyJ : Key := ("cplx", .complexDeriv)

/-- The real 2x2 matrix found in an array at the coordinate `c` of the other axes. -/
noncomputable def block (x : Arr β ℝ) (c : Coord) : Matrix (Fin 2) (Fin 2) ℝ :=
  fun i j => x.at_ fun k => if k = keyI then i.val else if k = keyJ then j.val else c k

/-- `m` stands for the complex number `z`: it acts on `(re, im)` as multiplication by `z`. -/
def Represents (m : Matrix (Fin 2) (Fin 2) ℝ) (z : ℂ) : Prop :=
  ∀ w : ℂ, m.mulVec ![w.re, w.im] = ![(z * w).re, (z * w).im]

/-- The array has neither of the two complex axes. -/
def NoCplx (dims : List (Dim β)) : Prop := ∀ d ∈ dims, d.key ≠ keyI ∧ d.key ≠ keyJ

theorem full_index (bit : Nat → β) (dims : List (Dim β)) (h : NoCplx dims) (c : Coord) (i j n : Nat)
    (hn : n = dims.length) :
    let idx := (dims ++ cplx bit).map fun d =>
      if d.key = keyI then i else if d.key = keyJ then j else c d.key
    idx.take n = dims.map (fun d => c d.key) ∧ idx.getD n 0 = i ∧ idx.getD (n + 1) 0 = j := by
  have h1 : (dims.map fun d => if d.key = keyI then i else if d.key = keyJ then j else c d.key) =
      dims.map fun d => c d.key :=
    List.map_congr_left fun d hd => by simp [(h d hd).1, (h d hd).2]
  have h2 : ((cplx bit).map fun d =>
      if d.key = keyI then i else if d.key = keyJ then j else c d.key) = [i, j] := by
    simp [cplx, Dim.key, keyI, keyJ]
  simp only [List.map_append, h1, h2]
  subst hn
  refine ⟨by simp, by simp [List.getD_eq_getElem?_getD], ?_⟩
  rw [List.getD_eq_getElem?_getD, List.getElem?_append_right (by simp)]
  simp

theorem block_ofComplex (bit : Nat → β) (x : Arr β ℂ) (hwf : x.WF) (h : NoCplx x.dims) (c : Coord)
    (i j : Fin 2) : (fullOfComplex bit x).block c i j = cEntry (x.at_ c) i j := by
  obtain ⟨h1, h2, h3⟩ := full_index bit x.dims h c i j x.nd.ndim hwf.symm
  simp only [block, at_, fullOfComplex]
  rw [h1, h2, h3]

theorem block_ofReal (bit : Nat → β) (x : Arr β ℝ) (hwf : x.WF) (h : NoCplx x.dims) (c : Coord)
    (i j : Fin 2) : (fullOfReal bit x).block c i j = rEntry (x.at_ c) i j := by
  obtain ⟨h1, h2, h3⟩ := full_index bit x.dims h c i j x.nd.ndim hwf.symm
  simp only [block, at_, fullOfReal]
  rw [h1, h2, h3]

theorem represents_iff (m : Matrix (Fin 2) (Fin 2) ℝ) (z : ℂ) :
    Represents m z ↔ m 0 0 = z.re ∧ m 1 1 = z.re ∧ m 0 1 = -z.im ∧ m 1 0 = z.im := by
  constructor
  · intro h
    have h1 := h 1
    have hI := h Complex.I
    have a0 := congrFun h1 0
    have a1 := congrFun h1 1
    have b0 := congrFun hI 0
    have b1 := congrFun hI 1
    simp [Matrix.mulVec, dotProduct] at a0 a1 b0 b1
    exact ⟨a0, b1, b0, a1⟩
  · rintro ⟨h1, h2, h3, h4⟩ w
    ext i
    fin_cases i
    · simp [Matrix.mulVec, dotProduct, h1, h3]; ring
    · simp [Matrix.mulVec, dotProduct, h2, h4]; ring

/-- C11.  The representation of a complex array stands, at every coordinate, for the number
stored there. -/
theorem C11_represents (bit : Nat → β) (x : Arr β ℂ) (hwf : x.WF) (h : NoCplx x.dims) (c : Coord) :
    Represents ((fullOfComplex bit x).block c) (x.at_ c) := by
  rw [represents_iff]
  simp [block_ofComplex bit x hwf h c, cEntry]

/-- C11.  A matrix stands for at most one number. -/
theorem C11_injective (m : Matrix (Fin 2) (Fin 2) ℝ) (z w : ℂ) (hz : Represents m z)
    (hw : Represents m w) : z = w := by
  rw [represents_iff] at hz hw
  exact Complex.ext (hz.1.symm.trans hw.1) (hz.2.2.2.symm.trans hw.2.2.2)

/-- C11.  Sums, negatives and matrix products of representations stand for the sums, negatives
and products of the numbers. -/
theorem C11_ring_hom (m n : Matrix (Fin 2) (Fin 2) ℝ) (z w : ℂ) (hm : Represents m z)
    (hn : Represents n w) :
    Represents (m + n) (z + w) ∧ Represents (-m) (-z) ∧ Represents (m * n) (z * w) ∧
      Represents 1 1 := by
  refine ⟨?_, ?_, ?_, ?_⟩
  · rw [represents_iff] at *
    simp [hm, hn]; ring
  · rw [represents_iff] at *
    simp [hm]
  · intro v
    rw [← Matrix.mulVec_mulVec, hn v, hm (w * v), mul_assoc]
  · intro v; simp

/-- C11 is false for real data: only one of the two diagonal entries is filled, so a real array
is represented by matrices which stand for no number at all (unless the entry is zero). -/
theorem C11_real_refuted (bit : Nat → β) (x : Arr β ℝ) (hwf : x.WF) (h : NoCplx x.dims) (c : Coord)
    (hne : x.at_ c ≠ 0) : ¬ ∃ z, Represents ((fullOfReal bit x).block c) z := by
  rintro ⟨z, hz⟩
  rw [represents_iff] at hz
  simp [block_ofReal bit x hwf h c, rEntry] at hz
  exact hne (hz.1.trans hz.2.1.symm)

/-- C11 is false for the operator `*` of arrays, which multiplies the entries one by one: if
neither number is real, the result stands for no number at all. -/
theorem C11_elementwise_product_refuted (m n : Matrix (Fin 2) (Fin 2) ℝ) (z w : ℂ)
    (hm : Represents m z) (hn : Represents n w) (hz : z.im ≠ 0) (hw : w.im ≠ 0) :
    ¬ ∃ v, Represents (Matrix.of fun i j => m i j * n i j) v := by
  rintro ⟨v, hv⟩
  rw [represents_iff] at hm hn hv
  simp only [Matrix.of_apply, hm, hn] at hv
  obtain ⟨_, _, h3, h4⟩ := hv
  have : z.im * w.im = 0 := by linarith
  rcases mul_eq_zero.1 this with h | h
  · exact hz h
  · exact hw h

/-- An array which already has complex axes is left alone. -/
theorem C11_idempotent (bit : Nat → β) (x : Arr β ℝ) :
    makeFullOfReal bit (makeFullOfReal bit x) = makeFullOfReal bit x := by
  by_cases h : Dim.hasComplex x.dims
  · simp [makeFullOfReal, h]
  · have h2 : Dim.hasComplex (fullOfReal bit x).dims = true := by
      have h3 : Cls.isSub .complexDeriv .complexDeriv = true := by unfold Cls.isSub; simp
      simp only [Dim.hasComplex, fullOfReal, cplx, List.any_reverse, List.any_append, List.any_cons,
        Dim.isa, h3]
      simp
    simp [makeFullOfReal, h, h2]

/-- Non-vacuity: a complex array over a sweep. -/
example : ∃ x : Arr Nat ℂ, x.WF ∧ NoCplx x.dims ∧ x.at_ (fun _ => 1) = Complex.I :=
  ⟨⟨[⟨.dimSweep, "f", [1, 2], none, none⟩], ⟨[2], fun idx => if idx = [1] then Complex.I else 0⟩⟩,
   rfl, by simp [NoCplx, Dim.key, keyI, keyJ], by simp [at_]⟩

end Arr
end HF
