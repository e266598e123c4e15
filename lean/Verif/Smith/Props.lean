import Verif.Smith.Model
import Verif.MathFns.AngleProps
/-
C37: the circles of the Smith chart.
-/
noncomputable section

namespace HF.Smith

open HF.MathFns (IsAngle isAngle_arg isAngle_rot isAngle_unique isAngle_add norm_exp_I)

/-! ### Angles -/

theorem isAngle_pos {ρ θ : ℝ} (h : 0 < ρ) : IsAngle (ρ * Complex.exp (Complex.I * θ)) θ := by
  unfold IsAngle
  rw [norm_mul, norm_exp_I, mul_one, Complex.norm_real, Real.norm_of_nonneg h.le]

/-- The angle is the one in `[branch, branch + 360)`. -/
theorem angleDeg_spec (x : ℂ) (br : ℝ) : IsAngle x (angleDeg x br / 180 * Real.pi) ∧ br ≤ angleDeg x br ∧
    angleDeg x br < br + 360 := by
  have hp := Real.pi_pos
  have h0 := isAngle_rot (isAngle_arg (x / Complex.exp (Complex.I * ((br / 180 * Real.pi : ℝ) : ℂ))))
  have h1 := Complex.neg_pi_lt_arg (x / Complex.exp (Complex.I * ((br / 180 * Real.pi : ℝ) : ℂ)))
  have h2 := Complex.arg_le_pi (x / Complex.exp (Complex.I * ((br / 180 * Real.pi : ℝ) : ℂ)))
  unfold angleDeg
  simp only
  generalize Complex.arg (x / Complex.exp (Complex.I * ((br / 180 * Real.pi : ℝ) : ℂ))) = a at *
  have hc : 0 < 180 / Real.pi := by positivity
  have e1 : Real.pi * (180 / Real.pi) = 180 := by field_simp
  have l1 : -180 < a * (180 / Real.pi) := by
    have := mul_lt_mul_of_pos_right h1 hc
    rw [neg_mul, e1] at this
    exact this
  have l2 : a * (180 / Real.pi) ≤ 180 := by
    have := mul_le_mul_of_nonneg_right h2 hc.le
    rwa [e1] at this
  split
  · refine ⟨?_, by linarith, by linarith⟩
    have := isAngle_add h0 1
    convert this using 1
    push_cast
    field_simp
    ring
  · refine ⟨?_, by linarith, by linarith⟩
    convert h0 using 1
    field_simp

theorem angleDeg_eq {ρ θ br : ℝ} (h : 0 < ρ) (h1 : br ≤ θ * (180 / Real.pi)) (h2 : θ * (180 / Real.pi) < br + 360) :
    angleDeg (ρ * Complex.exp (Complex.I * θ)) br = θ * (180 / Real.pi) := by
  have hp := Real.pi_pos
  obtain ⟨a1, a2, a3⟩ := angleDeg_spec (ρ * Complex.exp (Complex.I * θ)) br
  have hne : (ρ * Complex.exp (Complex.I * θ) : ℂ) ≠ 0 :=
    mul_ne_zero (by simpa using h.ne') (Complex.exp_ne_zero _)
  obtain ⟨k, hk⟩ := isAngle_unique hne a1 (isAngle_pos h)
  generalize angleDeg (ρ * Complex.exp (Complex.I * θ)) br = A at *
  have hA : A = θ * (180 / Real.pi) + 360 * k := by
    field_simp at hk ⊢
    linarith
  have : k = 0 := by
    by_contra hne
    rcases lt_or_gt_of_ne hne with h | h
    · have : (k : ℝ) ≤ -1 := by exact_mod_cast Int.le_sub_one_of_lt h
      linarith
    · have : (1 : ℝ) ≤ k := by exact_mod_cast h
      linarith
  rw [hA, this]
  simp

/-! ### The circles -/

/-- On the unit circle: `(s - jx)/(s + jx)`. -/
theorem unit_norm (s x : ℝ) (h : s ≠ 0 ∨ x ≠ 0) :
    ‖((s : ℂ) - x * Complex.I) / (s + x * Complex.I)‖ = 1 := by
  have e : (s : ℂ) - x * Complex.I = (starRingEnd ℂ) (s + x * Complex.I) := by
    simp [sub_eq_add_neg]
  have hne : (s : ℂ) + x * Complex.I ≠ 0 := fun h0 => by
    have h1 := congrArg Complex.re h0
    have h2 := congrArg Complex.im h0
    simp at h1 h2
    rcases h with h | h
    · exact h h1
    · exact h h2
  rw [e, norm_div, Complex.norm_conj, div_self (norm_ne_zero_iff.2 hne)]

theorem denom_ne {s x : ℝ} (h : s ≠ 0 ∨ x ≠ 0) : (s : ℂ) + x * Complex.I ≠ 0 := fun h0 => by
  have h1 := congrArg Complex.re h0
  have h2 := congrArg Complex.im h0
  simp at h1 h2
  rcases h with h | h
  · exact h h1
  · exact h h2

theorem r_diff (r x : ℝ) (h : r + 1 ≠ 0) : z2gamma (r + x * Complex.I) - ((r / (r + 1) : ℝ) : ℂ) =
    ((1 / (r + 1) : ℝ) : ℂ) * -((((r + 1 : ℝ) : ℂ) - x * Complex.I) / ((r + 1 : ℝ) + x * Complex.I)) := by
  have hd := denom_ne (s := r + 1) (x := x) (Or.inl h)
  have h' : (r : ℂ) + 1 ≠ 0 := by exact_mod_cast h
  unfold z2gamma
  push_cast at *
  have hd' : (r : ℂ) + x * Complex.I + 1 ≠ 0 := by
    intro h0; apply hd; rw [← h0]; ring
  field_simp
  ring

theorem x_diff (r x : ℝ) (h : x ≠ 0) : z2gamma (r + x * Complex.I) - (1 + ((1 / x : ℝ) : ℂ) * Complex.I) =
    ((1 / x : ℝ) : ℂ) * (-Complex.I * ((((r + 1 : ℝ) : ℂ) - x * Complex.I) / ((r + 1 : ℝ) + x * Complex.I))) := by
  have hd := denom_ne (s := r + 1) (x := x) (Or.inr h)
  have h' : (x : ℂ) ≠ 0 := by exact_mod_cast h
  unfold z2gamma
  push_cast at *
  have hd' : (r : ℂ) + x * Complex.I + 1 ≠ 0 := by
    intro h0; apply hd; rw [← h0]; ring
  field_simp
  linear_combination (-2 * (x : ℂ) - 2 * x * r - 2 * x ^ 2 * Complex.I) * Complex.I_mul_I

theorem y2gamma_neg (y : ℂ) : y2gamma y = -z2gamma y := by
  unfold y2gamma z2gamma
  rw [add_comm 1 y, ← neg_div, neg_sub]

/-- C37: an admittance and the impedance it belongs to have the same reflection. -/
theorem C37_admittance (z : ℂ) (h : z ≠ 0) : y2gamma (1 / z) = z2gamma z := by
  unfold y2gamma z2gamma
  by_cases h1 : z + 1 = 0
  · have : 1 + 1 / z = 0 := by field_simp; rw [h1]; simp
    rw [h1, this]
    simp
  · have : 1 + 1 / z ≠ 0 := fun h0 => h1 (by field_simp at h0; simpa using h0)
    field_simp

/-- Points of a circle. -/
def On (c : ℂ) (r : ℝ) (p : ℂ) : Prop := ‖p - c‖ = r

theorem gamma_inv {p : ℂ} (hp : p ≠ 1) : z2gamma ((1 + p) / (1 - p)) = p := by
  have h : 1 - p ≠ 0 := fun h0 => hp (sub_eq_zero.1 h0).symm
  have h2 : (1 + p) / (1 - p) + 1 ≠ 0 := by
    have : (1 + p) / (1 - p) + 1 = 2 / (1 - p) := by field_simp; ring
    rw [this]
    exact div_ne_zero two_ne_zero h
  unfold z2gamma
  rw [div_eq_iff h2]
  field_simp
  ring

/-- C37: `RCircle(r)` consists of the reflections of the impedances `r + jx` (and 1, the open). -/
theorem C37_R (r : ℝ) (h : r ≠ -1) : ∃ c ρ, RCircle r none = .circle c ρ none ∧
    (∀ x : ℝ, On c ρ (z2gamma (r + x * Complex.I))) ∧
    (∀ p, On c ρ p → p ≠ 1 → ∃ x : ℝ, z2gamma (r + x * Complex.I) = p) := by
  have hs : r + 1 ≠ 0 := fun h0 => h (by linarith)
  refine ⟨_, _, rfl, fun x => ?_, fun p hp hne => ?_⟩
  · unfold On
    rw [r_diff r x hs, norm_mul, norm_neg, unit_norm _ _ (Or.inl hs), mul_one, Complex.norm_real, Real.norm_eq_abs]
  · refine ⟨((1 + p) / (1 - p)).im, ?_⟩
    have hre : ((1 + p) / (1 - p)).re = r := by
      have h1 : 1 - p ≠ 0 := fun h0 => hne (sub_eq_zero.1 h0).symm
      have hn : Complex.normSq (1 - p) ≠ 0 := by rwa [Ne, Complex.normSq_eq_zero]
      have h2 := congrArg (· ^ 2) hp
      simp only [← Complex.normSq_eq_norm_sq, sq_abs] at h2
      rw [Complex.div_re, ← add_div, div_eq_iff hn]
      obtain ⟨c, hc⟩ : ∃ c, c = r / (r + 1) := ⟨_, rfl⟩
      rw [← hc] at h2
      have hc' : c * (r + 1) = r := by rw [hc]; field_simp
      rw [Complex.normSq_apply] at *
      simp at h2 ⊢
      field_simp at h2
      have h3 : (r + 1) * ((r + 1) * (p.re ^ 2 + p.im ^ 2) - 2 * p.re * r + r - 1) = 0 := by
        linear_combination h2 + (2 * p.re * (r + 1) - c * (r + 1) - r) * hc'
      have h4 := (mul_eq_zero.1 h3).resolve_left hs
      linear_combination -h4
    rw [← hre, Complex.re_add_im, gamma_inv hne]

/-- C37: `XCircle(x)` consists of the reflections of the impedances `r + jx` (and 1). -/
theorem C37_X (x : ℝ) (h : x ≠ 0) : ∃ c ρ, XCircle x none = .circle c ρ none ∧
    (∀ r : ℝ, On c ρ (z2gamma (r + x * Complex.I))) ∧
    (∀ p, On c ρ p → p ≠ 1 → ∃ r : ℝ, z2gamma (r + x * Complex.I) = p) := by
  refine ⟨_, _, by unfold XCircle; rw [if_neg h]; rfl, fun r => ?_, fun p hp hne => ?_⟩
  · unfold On
    rw [x_diff r x h, norm_mul, norm_mul, norm_neg, Complex.norm_I, one_mul, unit_norm _ _ (Or.inr h), mul_one,
      Complex.norm_real, Real.norm_eq_abs]
  · refine ⟨((1 + p) / (1 - p)).re, ?_⟩
    have him : ((1 + p) / (1 - p)).im = x := by
      have h1 : 1 - p ≠ 0 := fun h0 => hne (sub_eq_zero.1 h0).symm
      have hn : Complex.normSq (1 - p) ≠ 0 := by rwa [Ne, Complex.normSq_eq_zero]
      have h2 := congrArg (· ^ 2) hp
      simp only [← Complex.normSq_eq_norm_sq, sq_abs] at h2
      rw [Complex.div_im, ← sub_div, div_eq_iff hn]
      obtain ⟨c, hc⟩ : ∃ c, c = 1 / x := ⟨_, rfl⟩
      have hc' : c * x = 1 := by rw [hc]; field_simp
      rw [← hc] at h2
      rw [Complex.normSq_apply] at *
      simp at h2 ⊢
      field_simp at h2
      have h3 : x * (x * ((p.re - 1) ^ 2 + p.im ^ 2) - 2 * p.im) = 0 := by
        linear_combination x ^ 2 * h2 + 2 * p.im * x * hc'
      have h4 := (mul_eq_zero.1 h3).resolve_left h
      linear_combination -h4
    rw [← him, Complex.re_add_im, gamma_inv hne]

theorem on_neg {c : ℂ} {r : ℝ} {p : ℂ} : On (-c) r p ↔ On c r (-p) := by
  unfold On
  rw [← norm_neg (-p - c)]
  have : -(-p - c) = p - -c := by ring
  rw [this]

/-- C37: `GCircle(g)` consists of the reflections of the admittances `g + jb` (and -1, the short). -/
theorem C37_G (g : ℝ) (h : g ≠ -1) : ∃ c ρ, GCircle g none = .circle c ρ none ∧
    (∀ b : ℝ, On c ρ (y2gamma (g + b * Complex.I))) ∧
    (∀ p, On c ρ p → p ≠ -1 → ∃ b : ℝ, y2gamma (g + b * Complex.I) = p) := by
  obtain ⟨c, ρ, he, h1, h2⟩ := C37_R g h
  simp only [RCircle, Option.map_none, Shape.circle.injEq] at he
  refine ⟨_, _, rfl, fun b => ?_, fun p hp hne => ?_⟩
  · have : ((-g / (g + 1) : ℝ) : ℂ) = -c := by rw [← he.1]; push_cast; ring
    rw [this, he.2.1, on_neg, y2gamma_neg, neg_neg]
    exact h1 b
  · have : ((-g / (g + 1) : ℝ) : ℂ) = -c := by rw [← he.1]; push_cast; ring
    rw [this, he.2.1, on_neg] at hp
    obtain ⟨b, hb⟩ := h2 (-p) hp (fun h0 => hne (by linear_combination -h0))
    exact ⟨b, by rw [y2gamma_neg, hb, neg_neg]⟩

/-- C37: `BCircle(b)` consists of the reflections of the admittances `g + jb` (and -1). -/
theorem C37_B (b : ℝ) (h : b ≠ 0) : ∃ c ρ, BCircle b none = .circle c ρ none ∧
    (∀ g : ℝ, On c ρ (y2gamma (g + b * Complex.I))) ∧
    (∀ p, On c ρ p → p ≠ -1 → ∃ g : ℝ, y2gamma (g + b * Complex.I) = p) := by
  obtain ⟨c, ρ, he, h1, h2⟩ := C37_X b h
  simp only [XCircle, if_neg h, Option.map_none, Shape.circle.injEq] at he
  have hB : BCircle b none = .circle (-1 + ((-1 / b : ℝ) : ℂ) * Complex.I) |1 / b| none := by
    unfold BCircle
    rw [if_neg h]
    by_cases h0 : 0 ≤ b <;> simp [h0]
  refine ⟨_, _, hB, fun g => ?_, fun p hp hne => ?_⟩
  · have : -1 + ((-1 / b : ℝ) : ℂ) * Complex.I = -c := by rw [← he.1]; push_cast; ring
    rw [this, he.2.1, on_neg, y2gamma_neg, neg_neg]
    exact h1 g
  · have : -1 + ((-1 / b : ℝ) : ℂ) * Complex.I = -c := by rw [← he.1]; push_cast; ring
    rw [this, he.2.1, on_neg] at hp
    obtain ⟨g, hg⟩ := h2 (-p) hp (fun h0 => hne (by linear_combination -h0))
    exact ⟨g, by rw [y2gamma_neg, hg, neg_neg]⟩

/-- C37: for `x = 0` the line has the reflections of its end points as ends. -/
theorem C37_X_zero (r1 r2 : ℝ) : XCircle 0 (some (.fin r1, .fin r2)) =
    .line (z2gamma r1).re (z2gamma r2).re := by simp [XCircle, realEnd]

/-- C37: for `b = 0` those of impedances are used for admittances: the line is mirrored. -/
theorem C37_B_zero_refuted (g1 g2 : ℝ) : BCircle 0 (some (.fin g1, .fin g2)) =
    .line (-(y2gamma g1).re) (-(y2gamma g2).re) := by simp [BCircle, realEnd, y2gamma_neg]

end HF.Smith
