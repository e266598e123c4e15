import Verif.Networks.Passive
import Mathlib.Tactic.LinearCombination
import Mathlib.Tactic.FinCases
import Mathlib.Analysis.Real.Pi.Bounds
/-
C31: reciprocity and passivity.
-/
noncomputable section

namespace HF.Networks

open Matrix

theorem csqrt_mul_self (x : ℂ) : csqrt x * csqrt x = x := by
  unfold csqrt
  rcases eq_or_ne x 0 with rfl | h
  · simp
  · rw [← Complex.cpow_add _ _ h]
    norm_num

theorem recip_sq (a b : ℂ) : recipElem a b * recipElem a b = a * b := by
  unfold recipElem
  simp only
  split
  · exact csqrt_mul_self _
  · rw [neg_mul_neg]; exact csqrt_mul_self _

theorem recip_same (a : ℂ) : recipElem a a = a := by
  rcases eq_or_ne a 0 with rfl | h
  · have := recip_sq 0 0
    simpa using this
  · have hs := csqrt_mul_self (a * a)
    have : (csqrt (a * a) - a) * (csqrt (a * a) + a) = 0 := by linear_combination hs
    unfold recipElem
    simp only
    rcases mul_eq_zero.1 this with h1 | h1
    · have h1 : csqrt (a * a) = a := by linear_combination h1
      rw [h1, div_self h, Complex.arg_one, if_pos ⟨h, one_pos⟩]
    · have h1 : csqrt (a * a) = -a := by linear_combination h1
      rw [h1, neg_div, div_self h, Complex.arg_neg_one, if_neg, neg_neg]
      rintro ⟨-, h2⟩
      linarith [Real.pi_gt_three]

/-- C31: the result of `make_reciprocal` is reciprocal, the transmission is a geometric mean of those
of the argument, and the reflections are kept. -/
theorem C31_reciprocal (S : M2 ℂ) :
    (makeReciprocal S)ᵀ = makeReciprocal S ∧ (makeReciprocal S) 0 1 ^ 2 = S 0 1 * S 1 0 ∧
    (makeReciprocal S) 0 0 = S 0 0 ∧ (makeReciprocal S) 1 1 = S 1 1 := by
  refine ⟨?_, ?_, rfl, rfl⟩
  · ext i j
    fin_cases i <;> fin_cases j <;> simp [makeReciprocal]
  · rw [sq]
    exact recip_sq _ _

/-- C31: reciprocal networks are not changed. -/
theorem C31_reciprocal_fixed (S : M2 ℂ) (h : S 0 1 = S 1 0) : makeReciprocal S = S := by
  ext i j
  fin_cases i <;> fin_cases j
  · rfl
  · show recipElem (S 0 1) (S 1 0) = S 0 1
    rw [← h, recip_same]
  · show recipElem (S 0 1) (S 1 0) = S 1 0
    rw [h, recip_same]
  · rfl

/-- C31: doing it twice is the same as doing it once. -/
theorem C31_reciprocal_idem (S : M2 ℂ) : makeReciprocal (makeReciprocal S) = makeReciprocal S :=
  C31_reciprocal_fixed _ rfl

/-- C31: of the two square roots the one closer to the transmission 12 is taken exactly in these
cases. -/
theorem C31_sign (a b : ℂ) (ha : a ≠ 0) :
    0 ≤ (recipElem a b * star a).re ↔
      (-(Real.pi / 2) ≤ Complex.arg (csqrt (a * b) / a) ∧ Complex.arg (csqrt (a * b) / a) < 1) ∨
      Real.pi / 2 ≤ Complex.arg (csqrt (a * b) / a) ∨ b = 0 := by
  obtain ⟨q, hq⟩ : ∃ q, q = csqrt (a * b) / a := ⟨_, rfl⟩
  have hqa : csqrt (a * b) = q * a := by rw [hq]; field_simp
  have hn : 0 < Complex.normSq a := Complex.normSq_pos.2 ha
  have hre : ∀ x : ℂ, (x * a * star a).re = x.re * Complex.normSq a := fun x => by
    have : a * star a = (Complex.normSq a : ℂ) := Complex.mul_conj a
    rw [mul_assoc, this, Complex.re_mul_ofReal]
  have hb : b = 0 ↔ q = 0 := by
    have h2 : q * a * (q * a) = a * b := by rw [← hqa]; exact csqrt_mul_self _
    constructor
    · rintro rfl
      have : (q * a) * (q * a) = 0 := by rw [h2, mul_zero]
      rcases mul_eq_zero.1 (mul_self_eq_zero.1 this) with h | h
      · exact h
      · exact absurd h ha
    · rintro rfl
      have : a * b = 0 := by rw [← h2]; ring
      exact (mul_eq_zero.1 this).resolve_left ha
  rw [← hq, hb]
  unfold recipElem
  simp only [← hq]
  rw [hqa]
  have habs := Complex.abs_arg_le_pi_div_two_iff (z := q)
  rw [abs_le] at habs
  split
  · rename_i h
    rw [hre]
    have e : 0 ≤ q.re * Complex.normSq a ↔ 0 ≤ q.re := by
      constructor
      · intro h; by_contra h'; nlinarith
      · intro h; positivity
    rw [e, ← habs]
    have h1 := h.2
    have hp := Real.pi_gt_three
    constructor
    · rintro ⟨h3, -⟩; exact Or.inl ⟨h3, h1⟩
    · rintro (⟨h3, h4⟩ | h3 | h3)
      · exact ⟨h3, by linarith⟩
      · linarith
      · rw [h3, Complex.arg_zero]; constructor <;> linarith
  · rename_i h
    have h1 : 1 ≤ Complex.arg q := by
      by_contra h'
      exact h ⟨ha, not_le.1 h'⟩
    rw [← neg_mul, hre]
    have hp := Real.pi_gt_three
    have e : 0 ≤ (-q).re * Complex.normSq a ↔ q.re ≤ 0 := by
      rw [Complex.neg_re]
      constructor
      · intro h; by_contra h'; nlinarith
      · intro h; nlinarith
    rw [e]
    have hlt := Complex.abs_arg_lt_pi_div_two_iff (z := q)
    rw [abs_lt] at hlt
    constructor
    · intro h3
      right
      by_cases h0 : q = 0
      · exact Or.inr h0
      · left
        by_contra h4
        have := hlt.1 ⟨by linarith, not_le.1 h4⟩
        rcases this with h5 | h5
        · linarith
        · exact h0 h5
    · rintro (⟨-, h3⟩ | h3 | h3)
      · linarith
      · by_contra h4
        have := hlt.2 (Or.inl (not_le.1 h4))
        linarith [this.2]
      · rw [h3]; simp

/-- C31: otherwise the wrong root is taken, and the result is further from the transmission 12 than its
negative is (here `-1 + j` and `(-1 - j)/2` give `1`). -/
theorem C31_sign_refuted : ∃ a b : ℂ, (recipElem a b * star a).re < 0 := by
  refine ⟨-1 + Complex.I, (-1 - Complex.I) / 2, ?_⟩
  have hab : (-1 + Complex.I) * ((-1 - Complex.I) / 2) = 1 := by
    have := Complex.I_mul_I
    linear_combination (-1 / 2 : ℂ) * this
  have hc : csqrt 1 = 1 := by simp [csqrt]
  have ha : (-1 + Complex.I : ℂ) ≠ 0 := fun h => by
    have := congrArg Complex.im h
    simp at this
  have harg : Complex.arg (1 / (-1 + Complex.I)) < 1 := by
    have e : (1 : ℂ) / (-1 + Complex.I) = (-1 - Complex.I) / 2 := by
      rw [eq_comm, eq_div_iff ha, mul_comm]
      exact hab
    rw [e]
    have : Complex.arg ((-1 - Complex.I) / 2) < 0 := by
      rw [Complex.arg_neg_iff]
      simp
      norm_num
    linarith
  unfold recipElem
  simp only [hab, hc]
  rw [if_pos ⟨ha, harg⟩]
  simp

/-! ### Passivity -/

/-- No excitation is amplified. -/
def Contraction {n : Nat} (M : Matrix (Fin n) (Fin n) ℂ) : Prop :=
  ∀ x : Fin n → ℂ, ∑ i, Complex.normSq ((M *ᵥ x) i) ≤ ∑ i, Complex.normSq (x i)

/-- What `numpy.linalg.svd` returns for `M`. -/
structure IsSvd {n : Nat} (M u v : Matrix (Fin n) (Fin n) ℂ) (s : Fin n → ℝ) : Prop where
  u_unitary : uᴴ * u = 1
  v_unitary : v * vᴴ = 1
  nonneg : ∀ k, 0 ≤ s k
  eq : M = u * Matrix.diagonal (fun k => ((s k : ℝ) : ℂ)) * v

theorem normSq_sum {n : Nat} (x : Fin n → ℂ) : ((∑ i, Complex.normSq (x i) : ℝ) : ℂ) = star x ⬝ᵥ x := by
  simp only [dotProduct, Complex.ofReal_sum, Pi.star_apply]
  refine Finset.sum_congr rfl fun i _ => ?_
  rw [mul_comm]
  exact (Complex.mul_conj _).symm

theorem unitary_norm {n : Nat} {u : Matrix (Fin n) (Fin n) ℂ} (h : uᴴ * u = 1) (x : Fin n → ℂ) :
    ∑ i, Complex.normSq ((u *ᵥ x) i) = ∑ i, Complex.normSq (x i) := by
  have : ((∑ i, Complex.normSq ((u *ᵥ x) i) : ℝ) : ℂ) = ((∑ i, Complex.normSq (x i) : ℝ) : ℂ) := by
    rw [normSq_sum, normSq_sum, Matrix.star_mulVec, Matrix.dotProduct_mulVec, Matrix.vecMul_vecMul, h,
      Matrix.vecMul_one]
  exact_mod_cast this

theorem svd_contraction {n : Nat} {u v : Matrix (Fin n) (Fin n) ℂ} (hu : uᴴ * u = 1) (hv : v * vᴴ = 1)
    (t : Fin n → ℝ) : Contraction (u * Matrix.diagonal (fun k => ((t k : ℝ) : ℂ)) * v) ↔ ∀ k, |t k| ≤ 1 := by
  have hv' : vᴴ * v = 1 := mul_eq_one_comm.1 hv
  constructor
  · intro h k
    have := h (vᴴ *ᵥ Pi.single k 1)
    rw [Matrix.mulVec_mulVec, Matrix.mul_assoc, hv, Matrix.mul_one, ← Matrix.mulVec_mulVec, unitary_norm hu,
      unitary_norm (u := vᴴ) (by rw [Matrix.conjTranspose_conjTranspose]; exact hv)] at this
    have e1 : ∑ i, Complex.normSq ((Matrix.diagonal (fun k => ((t k : ℝ) : ℂ)) *ᵥ Pi.single k 1) i) = t k * t k := by
      rw [Finset.sum_eq_single k]
      · simp [Matrix.mulVec_diagonal]
      · intro b _ hb
        simp [Matrix.mulVec_diagonal, hb]
      · simp
    have e2 : ∑ i, Complex.normSq ((Pi.single k 1 : Fin n → ℂ) i) = 1 := by
      rw [Finset.sum_eq_single k]
      · simp
      · intro b _ hb
        simp [hb]
      · simp
    rw [e1, e2] at this
    exact abs_le_one_iff_mul_self_le_one.2 this
  · intro h x
    rw [← Matrix.mulVec_mulVec, ← Matrix.mulVec_mulVec, unitary_norm hu, ← unitary_norm hv' x]
    refine Finset.sum_le_sum fun i _ => ?_
    rw [Matrix.mulVec_diagonal, Complex.normSq_mul, Complex.normSq_ofReal]
    have := abs_le_one_iff_mul_self_le_one.1 (h i)
    have h2 := Complex.normSq_nonneg ((v *ᵥ x) i)
    nlinarith

theorem passive_svd_eq {n : Nat} {M u v : Matrix (Fin n) (Fin n) ℂ} {s : Fin n → ℝ} (h : IsSvd M u v s) :
    makePassiveSvd M u v s = u * Matrix.diagonal (fun k => ((min (s k) 1 : ℝ) : ℂ)) * v := by
  unfold makePassiveSvd
  rw [h.eq, ← Matrix.sub_mul, ← Matrix.mul_sub, Matrix.diagonal_sub]
  congr 3
  funext k
  rw [← Complex.ofReal_sub]
  congr 1
  rw [abs_of_nonneg (h.nonneg k)]
  split
  · rw [min_eq_left (by linarith)]; ring
  · rw [min_eq_right (by linarith)]; ring

/-- C31: the result of `make_passive_svd` is passive. -/
theorem C31_svd_passive {n : Nat} (M u v : Matrix (Fin n) (Fin n) ℂ) (s : Fin n → ℝ) (h : IsSvd M u v s) :
    Contraction (makePassiveSvd M u v s) := by
  rw [passive_svd_eq h, svd_contraction h.u_unitary h.v_unitary]
  intro k
  rw [abs_of_nonneg (le_min (h.nonneg k) zero_le_one)]
  exact min_le_right _ _

/-- C31: `make_passive_svd` changes exactly the networks that are not passive. -/
theorem C31_svd_fixed {n : Nat} (M u v : Matrix (Fin n) (Fin n) ℂ) (s : Fin n → ℝ) (h : IsSvd M u v s) :
    makePassiveSvd M u v s = M ↔ Contraction M := by
  constructor
  · intro h'
    rw [← h']
    exact C31_svd_passive M u v s h
  · intro hc
    rw [h.eq, svd_contraction h.u_unitary h.v_unitary] at hc
    rw [passive_svd_eq h]
    conv_rhs => rw [h.eq]
    congr 3
    funext k
    rw [min_eq_left (le_trans (le_abs_self _) (hc k))]

/-- C31: the documented margin `delta` is not kept: twice the identity becomes the identity, with
eigenvalues of modulus 1. -/
theorem C31_svd_delta_refuted : ∃ (M u v : Matrix (Fin 2) (Fin 2) ℂ) (s : Fin 2 → ℝ), IsSvd M u v s ∧
    makePassiveSvd M u v s = 1 := by
  refine ⟨Matrix.diagonal fun _ => 2, 1, 1, fun _ => 2, ⟨by simp, by simp, by simp, by simp⟩, ?_⟩
  have h : IsSvd (Matrix.diagonal fun _ => 2 : Matrix (Fin 2) (Fin 2) ℂ) 1 1 fun _ => 2 :=
    ⟨by simp, by simp, by simp, by simp⟩
  rw [passive_svd_eq h]
  ext i j
  fin_cases i <;> fin_cases j <;> simp

/-! ### Eigenvalues -/

def IsEig {n : Nat} (M : Matrix (Fin n) (Fin n) ℂ) (l : ℂ) : Prop := ∃ x : Fin n → ℂ, x ≠ 0 ∧ M *ᵥ x = l • x

/-- `max(abs(eig(s)))` -/
structure IsMaxEig {n : Nat} (M : Matrix (Fin n) (Fin n) ℂ) (lam : ℝ) : Prop where
  attained : ∃ l, IsEig M l ∧ ‖l‖ = lam
  bound : ∀ l, IsEig M l → ‖l‖ ≤ lam

/-- C31: the eigenvalues of the result of `make_passive_eig` are at most 1 in modulus; matrices for
which this is so before are not changed. -/
theorem C31_eig {n : Nat} (M : Matrix (Fin n) (Fin n) ℂ) (lam delta : ℝ) (h : IsMaxEig M lam)
    (hd : 0 ≤ delta) (hd1 : delta < 1) :
    (∀ l, IsEig (makePassiveEig lam delta M) l → ‖l‖ ≤ 1) ∧
    ((∀ l, IsEig M l → ‖l‖ ≤ 1) → makePassiveEig lam delta M = M) := by
  constructor
  · intro l hl
    unfold makePassiveEig at hl
    split at hl
    · rename_i hlam
      obtain ⟨x, hx, he⟩ := hl
      obtain ⟨c, hc⟩ : ∃ c, c = 1 / lam * (1 - delta) := ⟨_, rfl⟩
      have hc0 : 0 < c := by
        rw [hc]
        have : 0 < 1 / lam := by positivity
        have : 0 < 1 - delta := by linarith
        positivity
      rw [← hc] at he
      have hc' : (c : ℂ) ≠ 0 := by simpa using hc0.ne'
      have : IsEig M (l / c) := by
        refine ⟨x, hx, ?_⟩
        rw [Matrix.smul_mulVec] at he
        have := congrArg (fun y => (c : ℂ)⁻¹ • y) he
        simp only [smul_smul, inv_mul_cancel₀ hc', one_smul] at this
        rw [this, div_eq_inv_mul]
      have hb := h.bound _ this
      rw [norm_div, Complex.norm_real, Real.norm_of_nonneg hc0.le, div_le_iff₀ hc0] at hb
      have : lam * c = 1 - delta := by rw [hc]; field_simp
      linarith
    · exact (h.bound l hl).trans (by rename_i hh; exact not_lt.1 hh)
  · intro hall
    unfold makePassiveEig
    rw [if_neg]
    obtain ⟨l, hl, hn⟩ := h.attained
    have := hall l hl
    linarith

/-- C31: but that is not passivity: `make_passive_eig` leaves an amplifier as it is (and
`check_passive` gives 0 for it). -/
theorem C31_eig_refuted : ∃ M : Matrix (Fin 2) (Fin 2) ℂ, IsMaxEig M 0 ∧
    (∀ delta, makePassiveEig 0 delta M = M) ∧ ¬ Contraction M := by
  refine ⟨!![0, 2; 0, 0], ⟨⟨0, ⟨![1, 0], ?_, ?_⟩, by simp⟩, ?_⟩, ?_, ?_⟩
  · intro h
    have := congrFun h 0
    simp at this
  · ext i
    fin_cases i <;> simp [Matrix.mulVec, dotProduct]
  · rintro l ⟨x, hx, he⟩
    have e0 := congrFun he 0
    have e1 := congrFun he 1
    simp [Matrix.mulVec, dotProduct, Fin.sum_univ_two] at e0 e1
    rcases e1 with h | h
    · simp [h]
    · rw [h] at e0
      simp at e0
      rcases e0 with h0 | h0
      · simp [h0]
      · exfalso
        apply hx
        funext i
        fin_cases i
        · exact h0
        · exact h
  · intro delta
    unfold makePassiveEig
    rw [if_neg (by norm_num)]
  · intro h
    have := h ![0, 1]
    simp [Matrix.mulVec, dotProduct, Fin.sum_univ_two, Complex.normSq_apply] at this
    norm_num at this

/-! ### Non-vacuity -/

example : IsSvd (Matrix.diagonal ![3, 1 / 2] : Matrix (Fin 2) (Fin 2) ℂ) 1 1 ![3, 1 / 2] := by
  refine ⟨by simp, by simp, ?_, ?_⟩
  · intro k; fin_cases k <;> norm_num
  · rw [Matrix.one_mul, Matrix.mul_one]
    congr 1
    funext k; fin_cases k <;> simp

end HF.Networks
