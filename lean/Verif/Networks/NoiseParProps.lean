import Verif.Networks.NoiseProps
import Verif.Networks.CascadeProps
/-
C30: noise parameters there and back.
-/
noncomputable section

namespace HF.Networks

open Matrix ComplexOrder

theorem csqrt_sq {x : ℝ} (hx : 0 ≤ x) : csqrt ((x ^ 2 : ℝ) : ℂ) = x := by
  unfold csqrt
  have := Complex.ofReal_cpow (sq_nonneg x) (1 / 2)
  rw [← Real.sqrt_eq_rpow, Real.sqrt_sq hx] at this
  rw [this]
  norm_num

theorem yopt_gopt (G Y : ℂ) (hG : 1 + G ≠ 0) (hY : Y = 1 / 50 * (1 - G) / (1 + G)) :
    1 / 50 + Y ≠ 0 ∧ (1 / 50 - Y) / (1 / 50 + Y) = G := by
  have h1 : 1 / 50 + Y = 1 / 25 / (1 + G) := by rw [hY]; field_simp; ring
  have h2 : 1 / 50 - Y = G / 25 / (1 + G) := by rw [hY]; field_simp; ring
  refine ⟨?_, ?_⟩
  · rw [h1]
    exact div_ne_zero (by norm_num) hG
  · rw [h1, h2]
    field_simp

theorem yopt_re (G Y : ℂ) (hG : 1 + G ≠ 0) (hG1 : Complex.normSq G ≤ 1) (hY : Y = 1 / 50 * (1 - G) / (1 + G)) :
    0 ≤ Y.re := by
  have : Y = (1 / 50 * ((1 - G) * star (1 + G))) / (Complex.normSq (1 + G) : ℂ) := by
    rw [hY, ← Complex.mul_conj]
    have : star (1 + G) ≠ 0 := star_ne_zero.2 hG
    have e : (starRingEnd ℂ) (1 + G) = star (1 + G) := rfl
    rw [e]
    field_simp
  rw [this, Complex.div_ofReal_re]
  apply div_nonneg _ (Complex.normSq_nonneg _)
  have e : (1 / 50 * ((1 - G) * star (1 + G)) : ℂ).re = 1 / 50 * (1 - Complex.normSq G) := by
    have : (1 / 50 * ((1 - G) * star (1 + G)) : ℂ) = ((1 / 50 : ℝ) : ℂ) * ((1 - G) * star (1 + G)) := by
      norm_num
    rw [this, Complex.re_ofReal_mul]
    simp [Complex.normSq_apply]
    ring
  rw [e]
  nlinarith

/-- The ABCD branch on the matrix of `fromNoisepar`. -/
theorem noiseABCD_eq (kT : ℝ) (hk : kT ≠ 0) (Fmin Rn : ℝ) (hR : Rn ≠ 0) (G Y : ℂ) (hG : 1 + G ≠ 0)
    (hG1 : Complex.normSq G ≤ 1) (hY : Y = 1 / 50 * (1 - G) / (1 + G)) (c : ℂ)
    (hc : c = 1 / 2 * ((Fmin : ℂ) - 1) - Rn * Y) :
    noiseABCD kT ((4 * kT : ℂ) • !![(Rn : ℂ), star c; c, (Rn * Complex.normSq Y : ℂ)]) =
      some ⟨2 * Rn, Y, Fmin, G⟩ := by
  have hk' : (kT : ℂ) ≠ 0 := by simpa using hk
  have hR' : (Rn : ℂ) ≠ 0 := by simpa using hR
  have s4 : ∀ x : ℂ, (4 * kT : ℂ) * x / (2 * kT) = 2 * x := fun x => by field_simp; ring
  have him : (2 * star c).im = 2 * (Rn * Y.im) := by
    rw [hc]; simp
  have hre : (2 * star c).re = (Fmin - 1) - 2 * (Rn * Y.re) := by
    rw [hc]; simp; ring
  obtain ⟨y1, y2⟩ := yopt_gopt G Y hG hY
  have hy := yopt_re G Y hG hG1 hY
  unfold noiseABCD
  simp only [Matrix.smul_apply, Matrix.of_apply, Matrix.cons_val', Matrix.cons_val_zero, Matrix.cons_val_one,
    Matrix.cons_val_fin_one, smul_eq_mul, s4]
  rw [if_neg (mul_ne_zero two_ne_zero hR'), him]
  have e1 : (2 * (Rn * Complex.normSq Y : ℂ)) / (2 * Rn) - (((2 * (Rn * Y.im) : ℝ) : ℂ) / (2 * Rn)) ^ 2 =
      ((Y.re ^ 2 : ℝ) : ℂ) := by
    have : (Complex.normSq Y : ℂ) = ((Y.re * Y.re + Y.im * Y.im : ℝ) : ℂ) := by rw [Complex.normSq_apply]
    rw [this]
    push_cast
    field_simp
    ring
  have e2 : ((2 * (Rn * Y.im) : ℝ) : ℂ) / (2 * Rn) = Y.im := by
    push_cast; field_simp
  rw [e1, e2, csqrt_sq hy]
  have e3 : (Y.re : ℂ) + Complex.I * Y.im = Y := by
    rw [mul_comm]; exact Complex.re_add_im Y
  rw [e3, if_neg y1, y2]
  congr 2
  · simp
  · rw [Complex.add_re, hre]
    have : (2 * (Rn : ℂ) * star Y).re = 2 * (Rn * Y.re) := by simp; ring
    rw [this]
    ring

/-- The Y branch. -/
theorem noiseY_eq (kT : ℝ) (hk : kT ≠ 0) (Fmin Rn : ℝ) (hR : Rn ≠ 0) (G Y : ℂ) (hG : 1 + G ≠ 0)
    (hG1 : Complex.normSq G ≤ 1) (hY : Y = 1 / 50 * (1 - G) / (1 + G)) (c : ℂ)
    (hc : c = 1 / 2 * ((Fmin : ℂ) - 1) - Rn * Y) (A Ym : M2 ℂ) (hA : A = !![-Ym 0 0, 1; -Ym 1 0, 0])
    (hb : Ym 1 0 ≠ 0) :
    noiseY kT Ym (A * ((4 * kT : ℂ) • !![(Rn : ℂ), star c; c, (Rn * Complex.normSq Y : ℂ)]) * Aᴴ) =
      some ⟨Rn, Y, Fmin, G⟩ := by
  have hk' : (kT : ℂ) ≠ 0 := by simpa using hk
  have hR' : (Rn : ℂ) ≠ 0 := by simpa using hR
  obtain ⟨y1, y2⟩ := yopt_gopt G Y hG hY
  have hy := yopt_re G Y hG hG1 hY
  generalize haa : Ym 0 0 = a at *
  generalize hbb : Ym 1 0 = b at *
  obtain ⟨C, hC⟩ : ∃ C, C = A * ((4 * kT : ℂ) • !![(Rn : ℂ), star c; c, (Rn * Complex.normSq Y : ℂ)]) * Aᴴ := ⟨_, rfl⟩
  rw [← hC]
  have h00 : C 0 0 / (4 * kT) = (-a * Rn + c) * -star a + (-a * star c + Rn * Complex.normSq Y) := by
    rw [hC, hA]
    simp [Matrix.mul_apply, Fin.sum_univ_two, Matrix.conjTranspose_apply]
    field_simp
  have h01 : C 0 1 / (4 * kT) = (-a * Rn + c) * -star b := by
    rw [hC, hA]
    simp [Matrix.mul_apply, Fin.sum_univ_two, Matrix.conjTranspose_apply]
    field_simp
  have h11 : C 1 1 / (4 * kT) = Rn * (Complex.normSq b : ℂ) := by
    rw [hC, hA]
    simp [Matrix.mul_apply, Fin.sum_univ_two, Matrix.conjTranspose_apply]
    field_simp
    exact Complex.mul_conj b
  have hn : (Complex.normSq b : ℂ) ≠ 0 := by simpa using hb
  unfold noiseY
  simp only [h00, h01, h11, hbb, haa]
  rw [if_neg (by rintro (h | h); exact hb h; exact (mul_ne_zero hR' hn) h)]
  have f1 : ((Rn : ℂ) * (Complex.normSq b : ℂ) / (Complex.normSq b : ℂ)).re = Rn := by
    rw [mul_div_assoc, div_self hn, mul_one, Complex.ofReal_re]
  have f2 : a - (-a * Rn + c) * -star b / (Rn * (Complex.normSq b : ℂ)) * b = c / Rn := by
    rw [← Complex.mul_conj] at hn ⊢
    have hb2 : (starRingEnd ℂ) b ≠ 0 := right_ne_zero_of_mul hn
    have e : star b = (starRingEnd ℂ) b := rfl
    rw [e]
    field_simp
    ring
  rw [f1, f2]
  have f3 : ((-a * Rn + c) * -star a + (-a * star c + Rn * Complex.normSq Y) -
      (Complex.normSq (a - c / Rn) : ℂ) * Rn).re = Rn * Complex.normSq Y - Complex.normSq c / Rn := by
    have e : (-a * Rn + c) * -star a + (-a * star c + Rn * Complex.normSq Y) -
        (Complex.normSq (a - c / Rn) : ℂ) * Rn = Rn * Complex.normSq Y - Complex.normSq c / Rn := by
      rw [← Complex.mul_conj (a - c / Rn), ← Complex.mul_conj c, map_sub, map_div₀, Complex.conj_ofReal]
      have e1 : star a = (starRingEnd ℂ) a := rfl
      have e2 : star c = (starRingEnd ℂ) c := rfl
      rw [e1, e2]
      field_simp
      ring
    rw [e, ← Complex.ofReal_mul, ← Complex.ofReal_div, ← Complex.ofReal_sub, Complex.ofReal_re]
  rw [f3]
  have cim : c.im = -(Rn * Y.im) := by rw [hc]; simp
  have cre : c.re = (Fmin - 1) / 2 - Rn * Y.re := by rw [hc]; simp; ring
  have f4 : (Rn * Complex.normSq Y - Complex.normSq c / Rn) / Rn + (c / (Rn : ℂ)).re ^ 2 = Y.re ^ 2 := by
    rw [Complex.div_ofReal_re, Complex.normSq_apply, Complex.normSq_apply c, cim]
    field_simp
    ring
  rw [f4, if_neg (by rintro (h | h); exact hR h; exact absurd (sq_nonneg Y.re) (not_le.2 h)), Real.sqrt_sq hy]
  have f5 : (Y.re : ℂ) - Complex.I * ((c / (Rn : ℂ)).im : ℂ) = Y := by
    have : (c / (Rn : ℂ)).im = -Y.im := by
      rw [Complex.div_ofReal_im, cim]; field_simp
    rw [this]
    push_cast
    rw [mul_neg, sub_neg_eq_add, mul_comm]
    exact Complex.re_add_im Y
  rw [f5, if_neg y1, y2]
  congr 2
  rw [Complex.div_ofReal_re, cre]
  field_simp
  ring

/-- The factor from ABCD to Y. -/
theorem abcd_y_factor {z z' : Imp ℂ} {M Y A : M2 ℂ}
    (h : convert (Pmat z .ABCD) (Pmat z' .Y) M = some (Y, A)) : A = !![-Y 0 0, 1; -Y 1 0, 0] := by
  have hr := convert_rows h
  have e : ∀ i j, (rowm Y * Pmat z' .Y) i j =
      A i 0 * (rowm M * Pmat z .ABCD) 0 j + A i 1 * (rowm M * Pmat z .ABCD) 1 j := fun i j => by
    rw [hr, Matrix.mul_apply, Fin.sum_univ_two]
  simp only [rowm_apply] at e
  have e00 := e 0 0
  have e02 := e 0 2
  have e10 := e 1 0
  have e12 := e 1 2
  simp [Pmat] at e00 e02 e10 e12
  ext i j
  fin_cases i <;> fin_cases j
  · simpa using e00.symm
  · simpa using e02.symm
  · simpa using e10.symm
  · simpa using e12.symm

/-- Factors are invertible. -/
theorem factor_det {P Q : M4 ℂ} {m r A : M2 ℂ} (h : convert P Q m = some (r, A)) : A.det ≠ 0 := by
  unfold convert at h
  cases hq : inv? Q with
  | none => rw [hq] at h; simp at h
  | some Qi =>
    rw [hq] at h
    simp only at h
    cases ha : inv? (tl (P * Qi) - m * bl (P * Qi)) with
    | none => rw [ha] at h; simp at h
    | some A' =>
      rw [ha] at h
      simp only [Option.some.injEq, Prod.mk.injEq] at h
      obtain ⟨-, rfl⟩ := h
      intro h0
      have := congrArg Matrix.det (inv?_some ha).1
      rw [Matrix.det_mul, h0, mul_zero, Matrix.det_one] at this
      exact zero_ne_one this

theorem fromNoisepar_spec {kT : ℝ} {dflt : Imp ℂ} {S : M2 ℂ} {Fmin Rn : ℝ} {G : ℂ} {s : Noisy}
    (h : fromNoisepar kT dflt S Fmin Rn G = some s) :
    1 + G ≠ 0 ∧ construct dflt .ABCD none ⟨.S, dflt, S⟩ = some s.N ∧ s.N.rep = .ABCD ∧ s.N.z = dflt ∧
    ∃ Y c : ℂ, Y = 1 / 50 * (1 - G) / (1 + G) ∧ c = 1 / 2 * ((Fmin : ℂ) - 1) - Rn * Y ∧
      s.C = (4 * kT : ℂ) • !![(Rn : ℂ), star c; c, (Rn * Complex.normSq Y : ℂ)] := by
  simp only [fromNoisepar, Option.bind_eq_some_iff] at h
  obtain ⟨N, hN, h⟩ := h
  split at h
  · simp at h
  · rename_i hG
    simp only [Option.some.injEq] at h
    subst h
    have := C27_impedance _ _ _ _ _ hN
    refine ⟨hG, hN, this.1, ?_, _, _, rfl, rfl, rfl⟩
    rw [this.2]
    simp

/-- C30: noise parameters, ABCD: `noise_parameters` gives back what was put in, except that `Rn` is
doubled. -/
theorem C30_parameters_abcd (kT : ℝ) (hk : kT ≠ 0) (dflt : Imp ℂ) (hd : dflt.Ok) (S : M2 ℂ) (Fmin Rn : ℝ)
    (hR : Rn ≠ 0) (G : ℂ) (hG1 : Complex.normSq G ≤ 1) (s : Noisy)
    (h : fromNoisepar kT dflt S Fmin Rn G = some s) :
    ∃ Y, s.noiseParameters kT dflt = some ⟨2 * Rn, Y, Fmin, G⟩ ∧ (1 / 50 - Y) = G * (1 / 50 + Y) := by
  obtain ⟨hG, hN, hrep, hz, Y, c, hY, hc, hC⟩ := fromNoisepar_spec h
  have same := C27_same_network _ _ _ _ _ hN
  obtain ⟨N, hN'⟩ := C27_exists two_ne_zero dflt hd .S none (by simp) s.N (by rw [hz]; exact hd) S
    (fun w => by simpa using (same w).symm)
  refine ⟨Y, ?_, ?_⟩
  · unfold Noisy.noiseParameters
    rw [hN', Option.bind_some, if_pos hrep, hC]
    exact noiseABCD_eq kT hk Fmin Rn hR G Y hG hG1 hY c hc
  · obtain ⟨y1, y2⟩ := yopt_gopt G Y hG hY
    rw [div_eq_iff y1] at y2
    exact y2

theorem fromNoisepar_hermitian {kT : ℝ} {dflt : Imp ℂ} {S : M2 ℂ} {Fmin Rn : ℝ} {G : ℂ} {s : Noisy}
    (h : fromNoisepar kT dflt S Fmin Rn G = some s) : s.C.IsHermitian := by
  obtain ⟨-, -, -, -, Y, c, -, -, hC⟩ := fromNoisepar_spec h
  rw [hC]
  ext i j
  fin_cases i <;> fin_cases j <;> simp [Matrix.conjTranspose_apply]

/-- C30: a network with noise given by S-parameters and their correlation matrix, whose noise in
ABCD-parameters is the one made from noise parameters: `noise_parameters` gives exactly these. -/
theorem C30_parameters_other (kT : ℝ) (hk : kT ≠ 0) (dflt : Imp ℂ) (hd : dflt.Ok) (S : M2 ℂ) (Fmin Rn : ℝ)
    (hR : Rn ≠ 0) (G : ℂ) (hG1 : Complex.normSq G ≤ 1) (s s' t : Noisy) (hz : s'.N.z = dflt)
    (hCh : s'.C.IsHermitian) (h : fromNoisepar kT dflt S Fmin Rn G = some s)
    (hs : s'.convert dflt .ABCD = some s) (ht : s'.convert dflt .Y = some t) :
    ∃ Y, s'.noiseParameters kT dflt = some ⟨Rn, Y, Fmin, G⟩ ∧ (1 / 50 - Y) = G * (1 / 50 + Y) := by
  obtain ⟨hG, hN, hrep, hzs, Y, c, hY, hc, hC⟩ := fromNoisepar_spec h
  have hS := noisy_convert_S hs
  obtain ⟨hN1, -, -, A1, hA1, hrel1, hC1⟩ := noisy_convert_spec hd hz hs
  obtain ⟨hN2, hrep2, hz2, A2, hA2, hrel2, hC2⟩ := noisy_convert_spec hd hz ht
  have same1 := C27_same_network _ _ _ _ _ hN1
  have same2 := C27_same_network _ _ _ _ _ hN2
  rw [realDiag_of_hermitian (Matrix.isHermitian_mul_mul_conjTranspose A1 hCh)] at hC1
  rw [realDiag_of_hermitian (Matrix.isHermitian_mul_mul_conjTranspose A2 hCh)] at hC2
  -- from ABCD to Y
  have hzt : t.N.z.Ok := by rw [hz2]; exact hd
  obtain ⟨r, A, hA⟩ := convert_exists (Pmat_Pinv two_ne_zero _ hzt t.N.rep)
    (P := Pmat s.N.z s.N.rep) (m := s.N.m) (r := t.N.m) fun x hx => by
      rw [← sat_ofVec] at hx ⊢
      rw [← same2, same1]
      exact hx
  have hr : r = t.N.m := by
    refine rel_unique (Pmat_Pinv two_ne_zero _ hzt t.N.rep) fun x hx => ?_
    rw [← Matrix.mulVec_zero A, ← convert_rel hA, ← sat_ofVec, ← same1, same2, sat_ofVec] at hx
    exact hx
  subst hr
  have hAA1 : A * A1 = A2 := by
    refine convert_factor_unique (P := Pmat s'.N.z s'.N.rep) (m := s'.N.m) (r := t.N.m)
      (Pmat_Pinv two_ne_zero _ hzt t.N.rep) (fun n x => ?_) (fun n x => ?_)
    · rw [convert_rel hA1, convert_rel hA, Matrix.mulVec_mulVec]
    · rw [convert_rel hA2]
  have hCt : t.C = A * s.C * Aᴴ := by
    rw [hC2, hC1, ← hAA1, Matrix.conjTranspose_mul]
    simp only [Matrix.mul_assoc]
  have hAA : A = !![-t.N.m 0 0, 1; -t.N.m 1 0, 0] := by
    rw [hrep, hrep2] at hA
    exact abcd_y_factor hA
  have hb : t.N.m 1 0 ≠ 0 := by
    intro h0
    have := factor_det hA
    rw [hAA, Matrix.det_fin_two, h0] at this
    simp at this
  refine ⟨Y, ?_, ?_⟩
  · have hself : construct dflt .S none s'.N = some s'.N := by
      obtain ⟨⟨rep, z, m⟩, C⟩ := s'
      simp only at hS hz
      subst hS hz
      exact construct_self _ _ _
    have hne : ¬ s'.N.rep = .ABCD := by rw [hS]; simp
    unfold Noisy.noiseParameters
    rw [hself, Option.bind_some, if_neg hne, ht, Option.bind_some, hCt, hC]
    exact noiseY_eq kT hk Fmin Rn hR G Y hG hG1 hY c hc A t.N.m hAA hb
  · obtain ⟨y1, y2⟩ := yopt_gopt G Y hG hY
    rw [div_eq_iff y1] at y2
    exact y2

/-- C30: so the parameters reported depend on the representation the noisy network is in. -/
theorem C30_parameters_refuted (kT : ℝ) (hk : kT ≠ 0) (dflt : Imp ℂ) (hd : dflt.Ok) (S : M2 ℂ) (Fmin Rn : ℝ)
    (hR : Rn ≠ 0) (G : ℂ) (hG1 : Complex.normSq G ≤ 1) (s s' t : Noisy) (hz : s'.N.z = dflt)
    (hCh : s'.C.IsHermitian) (h : fromNoisepar kT dflt S Fmin Rn G = some s)
    (hs : s'.convert dflt .ABCD = some s) (ht : s'.convert dflt .Y = some t) :
    s.noiseParameters kT dflt ≠ s'.noiseParameters kT dflt := by
  obtain ⟨Y, h1, -⟩ := C30_parameters_abcd kT hk dflt hd S Fmin Rn hR G hG1 s h
  obtain ⟨Y', h2, -⟩ := C30_parameters_other kT hk dflt hd S Fmin Rn hR G hG1 s s' t hz hCh h hs ht
  rw [h1, h2]
  intro h
  simp only [Option.some.injEq, NoisePar.mk.injEq] at h
  apply hR
  linarith [h.1]

/-- Every Hermitian correlation matrix in another representation comes from one for S-parameters. -/
theorem noisy_source {dflt : Imp ℂ} (hd : dflt.Ok) {dst : Rep} {S : M2 ℂ} {s : Noisy} (hC : s.C.IsHermitian)
    (hN : construct dflt dst none ⟨.S, dflt, S⟩ = some s.N) :
    ∃ s' : Noisy, s'.N = ⟨.S, dflt, S⟩ ∧ s'.C.IsHermitian ∧ s'.convert dflt dst = some s := by
  obtain ⟨u, hu, huN⟩ := noisy_convert_isSome (s := ⟨⟨.S, dflt, S⟩, 0⟩) hd rfl rfl hN
  obtain ⟨-, -, -, A, hA, -⟩ := noisy_convert_spec (s := ⟨⟨.S, dflt, S⟩, 0⟩) hd rfl hu
  have hdet := factor_det hA
  have hu' : IsUnit A.det := isUnit_iff_ne_zero.2 hdet
  have e1 : A * A⁻¹ = 1 := Matrix.mul_nonsing_inv A hu'
  refine ⟨⟨⟨.S, dflt, S⟩, A⁻¹ * s.C * (A⁻¹)ᴴ⟩, rfl, Matrix.isHermitian_mul_mul_conjTranspose _ hC, ?_⟩
  have hN' : construct dflt dst none ⟨.S, dflt, S⟩ = some u.N := by rw [huN]; exact hN
  rw [noisy_convert_dflt (s := ⟨⟨.S, dflt, S⟩, A⁻¹ * s.C * (A⁻¹)ᴴ⟩) dst rfl rfl]
  simp only [hN', Option.bind_some]
  simp only at hA
  rw [hA, Option.map_some]
  have e2 : A * (A⁻¹ * s.C * (A⁻¹)ᴴ) * Aᴴ = s.C := by
    rw [show A * (A⁻¹ * s.C * (A⁻¹)ᴴ) * Aᴴ = (A * A⁻¹) * s.C * (A * A⁻¹)ᴴ by
      rw [Matrix.conjTranspose_mul]; simp only [Matrix.mul_assoc]]
    rw [e1]; simp
  simp only [e2, realDiag_of_hermitian hC, huN]

/-! ### Non-vacuity -/

/-- 1 Ohm. -/
def unitImp : Imp ℂ := ⟨1 / 2, 1 / 2⟩

theorem unitImp_phys : unitImp.Phys := ⟨1, one_pos, by simp [unitImp]⟩

/-- An amplifier with noise parameters: it has ABCD-, S- and Y-parameters. -/
example : ∃ s s' t : Noisy, fromNoisepar 1 unitImp !![0, 0; 2, 0] 2 (1 / 3) (Complex.I / 2) = some s ∧
    s'.N.z = unitImp ∧ s'.C.IsHermitian ∧
    s'.convert unitImp .ABCD = some s ∧ s'.convert unitImp .Y = some t ∧ s.C ≠ 0 := by
  have ok := unitImp_phys.ok
  have e1 : construct unitImp .ABCD none ⟨.S, unitImp, !![0, 0; 2, 0]⟩ =
      some ⟨.ABCD, unitImp, !![1 / 4, 1 / 4; 1 / 4, 1 / 4]⟩ := by
    apply construct_eq two_ne_zero _ ok
    intro w
    simp only [Sat, Lin, Port.a1, Port.a2, Port.b1, Port.b2, Matrix.of_apply, Matrix.cons_val',
      Matrix.cons_val_zero, Matrix.cons_val_one, Matrix.cons_val_fin_one, unitImp]
    constructor <;> rintro ⟨h1, h2⟩ <;> constructor
    · linear_combination h1 - 1 / 2 * h2
    · linear_combination -1 * h1 - 1 / 2 * h2
    · linear_combination 1 / 2 * h1 - 1 / 2 * h2
    · linear_combination -1 * h1 - 1 * h2
  have e3 : construct unitImp .Y none ⟨.S, unitImp, !![0, 0; 2, 0]⟩ =
      some ⟨.Y, unitImp, !![1, 0; -4, 1]⟩ := by
    apply construct_eq two_ne_zero _ ok
    intro w
    simp only [Sat, Lin, Port.a1, Port.a2, Port.b1, Port.b2, Matrix.of_apply, Matrix.cons_val',
      Matrix.cons_val_zero, Matrix.cons_val_one, Matrix.cons_val_fin_one, unitImp]
    constructor <;> rintro ⟨h1, h2⟩ <;> constructor
    · linear_combination -2 * h1
    · linear_combination -2 * h2 + 4 * h1
    · linear_combination -1 / 2 * h1
    · linear_combination -1 / 2 * h2 - 1 * h1
  have hG : (1 : ℂ) + Complex.I / 2 ≠ 0 := fun h => by
    have := congrArg Complex.re h
    simp at this
  obtain ⟨s, hs⟩ : ∃ s, fromNoisepar 1 unitImp !![0, 0; 2, 0] 2 (1 / 3) (Complex.I / 2) = some s := by
    unfold fromNoisepar
    rw [e1, Option.bind_some, if_neg hG]
    exact ⟨_, rfl⟩
  obtain ⟨-, hN, -, hz, Y, c, -, -, hC⟩ := fromNoisepar_spec hs
  obtain ⟨s', hsN, hsC, hs'⟩ := noisy_source ok (fromNoisepar_hermitian hs) hN
  obtain ⟨t, ht, -⟩ := noisy_convert_isSome (s := s') ok (by rw [hsN]) (by rw [hsN]) (by rw [hsN]; exact e3)
  refine ⟨s, s', t, hs, by rw [hsN], hsC, hs', ht, fun h0 => ?_⟩
  rw [hC] at h0
  have := congrFun (congrFun h0 0) 0
  simp at this

/-- An attenuator: passive, with noise in S- and Y-parameters. -/
example : ∃ s s' : Noisy, Passive ⟨.S, unitImp, !![0, 1 / 2; 1 / 2, 0]⟩ ∧
    passiveNoise 1 unitImp ⟨.S, unitImp, !![0, 1 / 2; 1 / 2, 0]⟩ = some s ∧
    s.convert unitImp .Y = some s' ∧ s.C ≠ 0 := by
  have e1 : construct unitImp .Y none ⟨.S, unitImp, !![0, 1 / 2; 1 / 2, 0]⟩ =
      some ⟨.Y, unitImp, !![5 / 3, -4 / 3; -4 / 3, 5 / 3]⟩ := by
    apply construct_eq two_ne_zero _ unitImp_phys.ok
    intro w
    simp only [Sat, Lin, Port.a1, Port.a2, Port.b1, Port.b2, Matrix.of_apply, Matrix.cons_val',
      Matrix.cons_val_zero, Matrix.cons_val_one, Matrix.cons_val_fin_one, unitImp]
    constructor <;> rintro ⟨h1, h2⟩ <;> constructor
    · linear_combination -8 / 3 * h1 + 4 / 3 * h2
    · linear_combination 4 / 3 * h1 - 8 / 3 * h2
    · linear_combination -1 / 2 * h1 - 1 / 4 * h2
    · linear_combination -1 / 4 * h1 - 1 / 2 * h2
  obtain ⟨s', hs', -⟩ := noisy_convert_isSome
    (s := ⟨⟨.S, unitImp, !![0, 1 / 2; 1 / 2, 0]⟩,
      ((1 : ℝ) : ℂ) • (1 - !![0, 1 / 2; 1 / 2, 0] * !![0, 1 / 2; 1 / 2, 0]ᴴ)⟩)
    unitImp_phys.ok rfl rfl e1
  refine ⟨_, s', ?_, by simp [passiveNoise], hs', ?_⟩
  · intro w hw
    have hw' := (C27_same_network _ _ _ _ _ e1 w).1 hw
    obtain ⟨h1, h2⟩ := hw'
    simp at h1 h2
    rw [h1, h2]
    simp
    nlinarith [sq_nonneg (w.v1.re - w.v2.re), sq_nonneg (w.v1.im - w.v2.im), sq_nonneg w.v1.re,
      sq_nonneg w.v1.im, sq_nonneg w.v2.re, sq_nonneg w.v2.im]
  · intro h0
    have := congrFun (congrFun h0 0) 0
    simp only [Matrix.smul_apply, Matrix.sub_apply, Matrix.mul_apply, Fin.sum_univ_two,
      Matrix.conjTranspose_apply, Matrix.one_apply] at this
    norm_num at this

/-! ### Other impedances -/

/-- 4 Ohm. -/
def fourImp : Imp ℂ := ⟨1 / 4, 1⟩

/-- C30 fails for S-parameters of another impedance than the default: the correlation matrix computed
is not that of any sources which make the converted network equivalent. -/
theorem C30_impedance_refuted : ∃ (s s' : Noisy) (e : List (ℝ × (Fin 2 → ℂ))), s.N.z.Ok ∧ s.C = corr e ∧
    s.convert unitImp .S = some s' ∧
    ¬ ∃ f : (Fin 2 → ℂ) → Fin 2 → ℂ, (∀ n w, SatN s.N n w ↔ SatN s'.N (f n) w) ∧
      s'.C = corr (e.map fun p => (p.1, f p.2)) := by
  have ok1 := unitImp_phys.ok
  have ok4 : fourImp.Ok := by simp [fourImp, Imp.Ok]
  have hne : fourImp ≠ unitImp := by
    intro h
    have := congrArg Imp.i h
    norm_num [fourImp, unitImp] at this
  have hs : ∀ w : Port ℂ, Sat ⟨.S, fourImp, !![0, 0; 0, 0]⟩ w ↔ Sat ⟨.S, unitImp, !![3 / 5, 0; 0, 3 / 5]⟩ w := by
    intro w
    simp only [Sat, Lin, Port.a1, Port.a2, Port.b1, Port.b2, fourImp, unitImp, Matrix.of_apply, Matrix.cons_val',
      Matrix.cons_val_zero, Matrix.cons_val_one, Matrix.cons_val_fin_one]
    constructor <;> rintro ⟨h1, h2⟩ <;> constructor
    · linear_combination 4 / 5 * h1
    · linear_combination 4 / 5 * h2
    · linear_combination 5 / 4 * h1
    · linear_combination 5 / 4 * h2
  have hs2 : ∀ w : Port ℂ, Sat ⟨.S, fourImp, !![3 / 5, 0; 0, 3 / 5]⟩ w ↔
      Sat ⟨.S, unitImp, !![15 / 17, 0; 0, 15 / 17]⟩ w := by
    intro w
    simp only [Sat, Lin, Port.a1, Port.a2, Port.b1, Port.b2, fourImp, unitImp, Matrix.of_apply, Matrix.cons_val',
      Matrix.cons_val_zero, Matrix.cons_val_one, Matrix.cons_val_fin_one]
    constructor <;> rintro ⟨h1, h2⟩ <;> constructor
    · linear_combination 10 / 17 * h1
    · linear_combination 10 / 17 * h2
    · linear_combination 17 / 10 * h1
    · linear_combination 17 / 10 * h2
  have hcon : construct unitImp .S none ⟨.S, fourImp, !![0, 0; 0, 0]⟩ =
      some ⟨.S, unitImp, !![3 / 5, 0; 0, 3 / 5]⟩ := by
    obtain ⟨n, hn⟩ := C27_exists two_ne_zero unitImp ok1 .S none (by simp) ⟨.S, fourImp, !![0, 0; 0, 0]⟩ ok4 _
      (by simpa using hs)
    rw [hn]
    have hi := C27_impedance _ _ _ _ _ hn
    have hnz : n.z = unitImp := by rw [hi.2]; simp
    refine congrArg some (net_ext_of_same two_ne_zero _ _ hi.1 hnz (by rw [hnz]; exact ok1) fun w => ?_)
    rw [← C27_same_network _ _ _ _ _ hn w, hs w]
  have h1 := sameShape_other two_ne_zero unitImp ok1 fourImp ok4 hne [!![0, 0; 0, 0]] 0 !![0, 0; 0, 0]
    !![3 / 5, 0; 0, 3 / 5] rfl hs
  have h2 := sameShape_other two_ne_zero unitImp ok1 fourImp ok4 hne [!![3 / 5, 0; 0, 3 / 5]] 0
    !![3 / 5, 0; 0, 3 / 5] !![15 / 17, 0; 0, 15 / 17] rfl hs2
  obtain ⟨r, A, hA⟩ := convert_exists (Pmat_Pinv two_ne_zero _ ok1 .S)
    (P := Pmat fourImp .S) (m := !![3 / 5, 0; 0, 3 / 5]) (r := !![15 / 17, 0; 0, 15 / 17]) fun x hx => by
      have := (hs2 (ofVec x)).1
      rw [sat_ofVec, sat_ofVec] at this
      exact this hx
  have hr := convert_rows hA
  have e : ∀ i j, (rowm r * Pmat unitImp .S) i j =
      A i 0 * (rowm !![3 / 5, 0; 0, 3 / 5] * Pmat fourImp .S) 0 j +
        A i 1 * (rowm !![3 / 5, 0; 0, 3 / 5] * Pmat fourImp .S) 1 j := fun i j => by
    rw [hr, Matrix.mul_apply, Fin.sum_univ_two]
  simp only [rowm_apply] at e
  have e00 := e 0 0
  have e02 := e 0 2
  simp [Pmat, unitImp, fourImp] at e00 e02
  have hA00 : A 0 0 = 10 / 17 := by linear_combination -10 / 17 * e00 + 10 / 17 * e02
  let s : Noisy := ⟨⟨.S, fourImp, !![0, 0; 0, 0]⟩, corr [(1, ![1, 0])]⟩
  refine ⟨s, ⟨⟨.S, unitImp, !![3 / 5, 0; 0, 3 / 5]⟩, realDiag (A * corr [(1, ![1, 0])] * Aᴴ)⟩,
    [(1, ![1, 0])], ok4, rfl, ?_, ?_⟩
  · simp only [Noisy.convert, s, hcon, Option.bind_some, h1, List.set_cons_zero, h2, List.getElem?_cons_zero,
      hA, Option.map_some]
  · rintro ⟨f, hf, hC⟩
    have hw : SatN s.N ![1, 0] ⟨2, 0, -1 / 2, 0⟩ := by
      simp [s, SatN, LinN, Port.a1, Port.a2, Port.b1, Port.b2, fourImp]
      norm_num
    have hw' := (hf _ _).1 hw
    simp [SatN, LinN, Port.a1, Port.a2, Port.b1, Port.b2, unitImp] at hw'
    have hf0 : f ![1, 0] 0 = 4 / 5 := by linear_combination -1 * hw'.1
    have hC00 := congrFun (congrFun hC 0) 0
    rw [corr_map, realDiag_of_hermitian (corr_hermitian _)] at hC00
    simp [corr, Matrix.mulVec, dotProduct, Fin.sum_univ_two, hA00, hf0] at hC00
    rw [show (10 : ℂ) = ((10 : ℝ) : ℂ) by simp, show (17 : ℂ) = ((17 : ℝ) : ℂ) by simp,
      show (4 : ℂ) = ((4 : ℝ) : ℂ) by simp, show (5 : ℂ) = ((5 : ℝ) : ℂ) by simp] at hC00
    simp only [Complex.conj_ofReal, ← Complex.ofReal_div, ← Complex.ofReal_mul, Complex.ofReal_inj] at hC00
    norm_num at hC00

end HF.Networks
