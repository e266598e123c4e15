import Verif.Smith.ArcProps
/-
C37: arcs with infinite end points, as `smith_grid` draws them.
-/
noncomputable section

namespace HF.Smith

open HF.MathFns (IsAngle isAngle_unique)

theorem arc_ends {D : Set ℝ} {f : ℝ → ℝ} {p : ℝ → ℂ} {c : ℂ} {ρ br : ℝ} (hρ : 0 < ρ)
    (hr : ∀ x ∈ D, br / 180 * Real.pi < f x ∧ f x < (br + 360) / 180 * Real.pi)
    (hp : ∀ x ∈ D, p x - c = ρ * Complex.exp (Complex.I * f x)) {θ1 θ2 : ℝ}
    (h1 : br / 180 * Real.pi ≤ θ1) (h2 : θ2 ≤ (br + 360) / 180 * Real.pi) (x : ℝ) (hx : x ∈ D) :
    OnArc c (θ1 * (180 / Real.pi)) (θ2 * (180 / Real.pi)) (p x) ↔ θ1 ≤ f x ∧ f x ≤ θ2 := by
  have hpi := Real.pi_pos
  have hc : 0 < 180 / Real.pi := by positivity
  obtain ⟨r1, r2⟩ := hr x hx
  constructor
  · rintro ⟨A, g1, g2, g3⟩
    have hne : p x - c ≠ 0 := by
      rw [hp x hx]
      exact mul_ne_zero (by simpa using hρ.ne') (Complex.exp_ne_zero _)
    have hang := isAngle_pos (θ := f x) hρ
    rw [← hp x hx] at hang
    obtain ⟨k, hk⟩ := isAngle_unique hne g1 hang
    have b1 : θ1 ≤ A / 180 * Real.pi := by
      have := mul_le_mul_of_nonneg_right g2 (le_of_lt (by positivity : 0 < Real.pi / 180))
      have e : θ1 * (180 / Real.pi) * (Real.pi / 180) = θ1 := by field_simp
      rw [e] at this
      calc θ1 ≤ _ := this
        _ = A / 180 * Real.pi := by ring
    have b2 : A / 180 * Real.pi ≤ θ2 := by
      have := mul_le_mul_of_nonneg_right g3 (le_of_lt (by positivity : 0 < Real.pi / 180))
      have e : θ2 * (180 / Real.pi) * (Real.pi / 180) = θ2 := by field_simp
      rw [e] at this
      calc A / 180 * Real.pi = _ := by ring
        _ ≤ θ2 := this
    have hk0 : k = 0 := by
      by_contra h0
      rcases lt_or_gt_of_ne h0 with h | h
      · have : (k : ℝ) ≤ -1 := by exact_mod_cast Int.le_sub_one_of_lt h
        nlinarith
      · have : (1 : ℝ) ≤ k := by exact_mod_cast h
        nlinarith
    rw [hk0] at hk
    simp only [Int.cast_zero, zero_mul, mul_zero, add_zero, sub_eq_zero] at hk
    constructor <;> linarith
  · rintro ⟨g1, g2⟩
    refine ⟨f x * (180 / Real.pi), ?_, mul_le_mul_of_nonneg_right g1 hc.le, mul_le_mul_of_nonneg_right g2 hc.le⟩
    have : f x * (180 / Real.pi) / 180 * Real.pi = f x := by field_simp
    rw [this, hp x hx]
    exact isAngle_pos hρ

theorem angle_at {z : ℂ} {ρ θ br : ℝ} (h : 0 < ρ) (hz : z = ρ * Complex.exp (Complex.I * θ)) (h1 : br / 180 * Real.pi ≤ θ)
    (h2 : θ < (br + 360) / 180 * Real.pi) : angleDeg z br = θ * (180 / Real.pi) := by
  have hd := deg_range h1 h2
  rw [hz, angleDeg_eq h hd.1 hd.2]

theorem deg_turn {a b : ℝ} (h : a < b + 2 * Real.pi) : a * (180 / Real.pi) < b * (180 / Real.pi) + 360 := by
  have hpi := Real.pi_pos
  have hc : 0 < 180 / Real.pi := by positivity
  have e360 : 2 * Real.pi * (180 / Real.pi) = 360 := by field_simp; norm_num
  rw [← e360, ← add_mul]
  exact mul_lt_mul_of_pos_right h hc

/-! ### Constant resistance -/

/-- The angle of a reflection on the circle of a resistance. -/
theorem r_angle (r x : ℝ) (h : -1 < r) : z2gamma (r + x * Complex.I) - ((r / (r + 1) : ℝ) : ℂ) =
    ((1 / (r + 1) : ℝ) : ℂ) * Complex.exp (Complex.I * ((Real.pi + -2 * Real.arctan (x / (r + 1)) : ℝ) : ℂ)) := by
  have hs : 0 < r + 1 := by linarith
  rw [r_diff r x hs.ne', unit_exp _ _ hs, ← exp_shift, exp_pi]
  ring

theorem r_range (s x : ℝ) : 0 / 180 * Real.pi < Real.pi + -2 * Real.arctan (x / s) ∧
    Real.pi + -2 * Real.arctan (x / s) < (0 + 360) / 180 * Real.pi := by
  have h1 := Real.arctan_lt_pi_div_two (x / s)
  have h2 := Real.neg_pi_div_two_lt_arctan (x / s)
  constructor <;> linarith

theorem r_pinf (r : ℝ) (h : -1 < r) : angleDeg (z2gammaX r .pinf - ((r / (r + 1) : ℝ) : ℂ)) 0 = 0 * (180 / Real.pi) := by
  have hs : 0 < r + 1 := by linarith
  have hs' : (r : ℂ) + 1 ≠ 0 := by exact_mod_cast hs.ne'
  have hpi := Real.pi_pos
  refine angle_at (ρ := 1 / (r + 1)) (by positivity) ?_ (by linarith) (by linarith)
  unfold z2gammaX
  push_cast
  rw [mul_zero, Complex.exp_zero]
  field_simp
  ring

theorem r_ninf (r : ℝ) (h : -1 < r) : angleDeg (z2gammaX r .ninf - ((r / (r + 1) : ℝ) : ℂ)) 0 =
    (2 * Real.pi + -Real.arctan (1e-15 * (r + 1))) * (180 / Real.pi) := by
  have hs : 0 < r + 1 := by linarith
  have hs' : (r : ℂ) + 1 ≠ 0 := by exact_mod_cast hs.ne'
  have hpi := Real.pi_pos
  obtain ⟨ρ, hρ, he⟩ := polar (1e-15 * (r + 1))
  have hat := Real.arctan_lt_pi_div_two (1e-15 * (r + 1))
  have hat0 : 0 < Real.arctan (1e-15 * (r + 1)) := by rw [Real.arctan_pos]; positivity
  refine angle_at (ρ := 1 / (r + 1) * ρ) (by positivity) ?_ (by linarith) (by linarith)
  rw [← exp_shift, exp_two_pi, one_mul]
  have : ((1 / (r + 1) * ρ : ℝ) : ℂ) * Complex.exp (Complex.I * ((-Real.arctan (1e-15 * (r + 1)) : ℝ) : ℂ)) =
      ((1 / (r + 1) : ℝ) : ℂ) * (1 - ((1e-15 * (r + 1) : ℝ) : ℂ) * Complex.I) := by
    rw [he]
    push_cast
    ring
  rw [this]
  unfold z2gammaX
  push_cast
  field_simp
  ring

/-- Beyond `1e15` the difference to an infinite reactance is not seen. -/
theorem far (s x : ℝ) (hs : 0 < s) (hx : -1e15 ≤ x) :
    -2 * Real.arctan (x / s) ≤ Real.pi + -Real.arctan (1e-15 * s) := by
  have hat0 : 0 < Real.arctan (1e-15 * s) := by rw [Real.arctan_pos]; positivity
  have hle : -(Real.pi / 2 - Real.arctan (1e-15 * s)) ≤ Real.arctan (x / s) := by
    rw [← Real.arctan_inv_of_pos (by positivity), ← Real.arctan_neg, Real.arctan_strictMono.le_iff_le, le_div_iff₀ hs]
    have : -(1e-15 * s)⁻¹ * s = -1e15 := by
      field_simp
      norm_num
    rw [this]
    exact hx
  linarith

/-- C37: the arc of `RCircle(r, x1, inf)` has exactly the reflections with reactances from `x1`. -/
theorem C37_R_upper (r : ℝ) (h : -1 < r) (x1 : ℝ) : ∃ c ρ t1 t2,
    RCircle r (some (.fin x1, .pinf)) = .circle c ρ (some (t1, t2)) ∧ t2 < t1 + 360 ∧
    ∀ x : ℝ, OnArc c t1 t2 (z2gamma (r + x * Complex.I)) ↔ x1 ≤ x := by
  have hs : 0 < r + 1 := by linarith
  have hpi := Real.pi_pos
  have hshape : RCircle r (some (.fin x1, .pinf)) = .circle ((r / (r + 1) : ℝ) : ℂ) |1 / (r + 1)|
      (some (0 * (180 / Real.pi), (Real.pi + -2 * Real.arctan (x1 / (r + 1))) * (180 / Real.pi))) := by
    have : sortEnds (.fin x1) .pinf = (.fin x1, .pinf) := by
      unfold sortEnds; rw [if_pos (show End.le (.fin x1) .pinf from trivial)]
    simp only [RCircle, Option.map_some, this, r_pinf r h]
    rw [show z2gammaX r (.fin x1) = z2gamma (r + x1 * Complex.I) from rfl,
      angle_at (ρ := 1 / (r + 1)) (by positivity) (r_angle r x1 h) (r_range _ _).1.le (r_range _ _).2]
  refine ⟨_, _, _, _, hshape, by have := r_range (r + 1) x1; exact deg_turn (by linarith [this.2]),
    fun x => ?_⟩
  rw [arc_ends (D := Set.univ) (f := fun x => Real.pi + -2 * Real.arctan (x / (r + 1)))
    (p := fun x => z2gamma (r + x * Complex.I)) (ρ := 1 / (r + 1)) (br := 0) (by positivity)
    (fun x _ => r_range _ _) (fun x _ => r_angle r x h) (by linarith) (r_range _ _).2.le x trivial]
  rw [← arctan_le_iff (a := x1) hs]
  have := (r_range (r + 1) x).1
  constructor
  · rintro ⟨-, h2⟩; linarith
  · intro h; constructor <;> linarith

/-- C37: the arc of `RCircle(r, -inf, x2)` has exactly the reflections with reactances up to `x2`, of those from
`-1e15`. -/
theorem C37_R_lower (r : ℝ) (h : -1 < r) (x2 : ℝ) : ∃ c ρ t1 t2,
    RCircle r (some (.ninf, .fin x2)) = .circle c ρ (some (t1, t2)) ∧ t2 < t1 + 360 ∧
    ∀ x : ℝ, -1e15 ≤ x → (OnArc c t1 t2 (z2gamma (r + x * Complex.I)) ↔ x ≤ x2) := by
  have hs : 0 < r + 1 := by linarith
  have hpi := Real.pi_pos
  have hat0 : 0 < Real.arctan (1e-15 * (r + 1)) := by rw [Real.arctan_pos]; positivity
  have hshape : RCircle r (some (.ninf, .fin x2)) = .circle ((r / (r + 1) : ℝ) : ℂ) |1 / (r + 1)|
      (some ((Real.pi + -2 * Real.arctan (x2 / (r + 1))) * (180 / Real.pi),
        (2 * Real.pi + -Real.arctan (1e-15 * (r + 1))) * (180 / Real.pi))) := by
    have : sortEnds .ninf (.fin x2) = (.ninf, .fin x2) := by
      unfold sortEnds; rw [if_pos (show End.le .ninf (.fin x2) from trivial)]
    simp only [RCircle, Option.map_some, this, r_ninf r h]
    rw [show z2gammaX r (.fin x2) = z2gamma (r + x2 * Complex.I) from rfl,
      angle_at (ρ := 1 / (r + 1)) (by positivity) (r_angle r x2 h) (r_range _ _).1.le (r_range _ _).2]
  refine ⟨_, _, _, _, hshape, by have := r_range (r + 1) x2; exact deg_turn (by linarith [this.1]),
    fun x hx => ?_⟩
  rw [arc_ends (D := Set.univ) (f := fun x => Real.pi + -2 * Real.arctan (x / (r + 1)))
    (p := fun x => z2gamma (r + x * Complex.I)) (ρ := 1 / (r + 1)) (br := 0) (by positivity)
    (fun x _ => r_range _ _) (fun x _ => r_angle r x h) (r_range _ _).1.le (by linarith) x trivial]
  rw [← arctan_le_iff (b := x2) hs]
  have := far (r + 1) x hs hx
  constructor
  · rintro ⟨h1, -⟩; linarith
  · intro h; constructor <;> linarith

/-! ### Constant conductance -/

theorem g_angle (g b : ℝ) (h : -1 < g) : y2gamma (g + b * Complex.I) - ((-g / (g + 1) : ℝ) : ℂ) =
    ((1 / (g + 1) : ℝ) : ℂ) * Complex.exp (Complex.I * ((2 * Real.pi + -2 * Real.arctan (b / (g + 1)) : ℝ) : ℂ)) := by
  have hs : 0 < g + 1 := by linarith
  have e : y2gamma (g + b * Complex.I) - ((-g / (g + 1) : ℝ) : ℂ) =
      -(z2gamma (g + b * Complex.I) - ((g / (g + 1) : ℝ) : ℂ)) := by
    rw [y2gamma_neg]
    push_cast
    ring
  rw [e, r_diff g b hs.ne', unit_exp _ _ hs, ← exp_shift, exp_two_pi]
  ring

theorem g_range (s x : ℝ) : 180 / 180 * Real.pi < 2 * Real.pi + -2 * Real.arctan (x / s) ∧
    2 * Real.pi + -2 * Real.arctan (x / s) < (180 + 360) / 180 * Real.pi := by
  have h1 := Real.arctan_lt_pi_div_two (x / s)
  have h2 := Real.neg_pi_div_two_lt_arctan (x / s)
  constructor <;> linarith

theorem exp_three_pi : Complex.exp (Complex.I * ((3 * Real.pi : ℝ) : ℂ)) = -1 := by
  have := exp_shift (2 * Real.pi) Real.pi
  rw [exp_two_pi, exp_pi] at this
  rw [show 3 * Real.pi = 2 * Real.pi + Real.pi by ring, ← this]
  ring

theorem g_ninf (g : ℝ) (h : -1 < g) : angleDeg (y2gammaB g .ninf - ((-g / (g + 1) : ℝ) : ℂ)) 180 =
    (3 * Real.pi + -Real.arctan (1e-15 * (g + 1))) * (180 / Real.pi) := by
  have hs : 0 < g + 1 := by linarith
  have hs' : (g : ℂ) + 1 ≠ 0 := by exact_mod_cast hs.ne'
  have hpi := Real.pi_pos
  obtain ⟨ρ, hρ, he⟩ := polar (1e-15 * (g + 1))
  have hat := Real.arctan_lt_pi_div_two (1e-15 * (g + 1))
  have hat0 : 0 < Real.arctan (1e-15 * (g + 1)) := by rw [Real.arctan_pos]; positivity
  refine angle_at (ρ := 1 / (g + 1) * ρ) (by positivity) ?_ (by linarith) (by linarith)
  rw [← exp_shift, exp_three_pi]
  have : ((1 / (g + 1) * ρ : ℝ) : ℂ) * (-1 * Complex.exp (Complex.I * ((-Real.arctan (1e-15 * (g + 1)) : ℝ) : ℂ))) =
      ((1 / (g + 1) : ℝ) : ℂ) * -(1 - ((1e-15 * (g + 1) : ℝ) : ℂ) * Complex.I) := by
    rw [he]
    push_cast
    ring
  rw [this]
  unfold y2gammaB
  push_cast
  field_simp
  ring

theorem g_pinf (g : ℝ) (h : -1 < g) : angleDeg (y2gammaB g .pinf - ((-g / (g + 1) : ℝ) : ℂ)) 180 =
    (Real.pi + Real.arctan (1e-15 * (g + 1))) * (180 / Real.pi) := by
  have hs : 0 < g + 1 := by linarith
  have hs' : (g : ℂ) + 1 ≠ 0 := by exact_mod_cast hs.ne'
  have hpi := Real.pi_pos
  obtain ⟨ρ, hρ, he⟩ := polar (-(1e-15 * (g + 1)))
  rw [Real.arctan_neg, neg_neg] at he
  have hat := Real.arctan_lt_pi_div_two (1e-15 * (g + 1))
  have hat0 : 0 < Real.arctan (1e-15 * (g + 1)) := by rw [Real.arctan_pos]; positivity
  refine angle_at (ρ := 1 / (g + 1) * ρ) (by positivity) ?_ (by linarith) (by linarith)
  rw [← exp_shift, exp_pi]
  have : ((1 / (g + 1) * ρ : ℝ) : ℂ) * (-1 * Complex.exp (Complex.I * ((Real.arctan (1e-15 * (g + 1)) : ℝ) : ℂ))) =
      ((1 / (g + 1) : ℝ) : ℂ) * -(1 - ((-(1e-15 * (g + 1)) : ℝ) : ℂ) * Complex.I) := by
    rw [he]
    push_cast
    ring
  rw [this]
  unfold y2gammaB
  push_cast
  field_simp
  ring

/-- C37: with infinite end points the arc of `GCircle` has the reflections of all susceptances between `-1e15` and
`1e15`; it goes from just after the short once round the circle to just before it. -/
theorem C37_G_full (g : ℝ) (h : -1 < g) : ∃ c ρ t1 t2,
    GCircle g (some (.ninf, .pinf)) = .circle c ρ (some (t1, t2)) ∧ 180 < t1 ∧ t1 < t2 ∧ t2 < 540 ∧
    ∀ b : ℝ, -1e15 ≤ b → b ≤ 1e15 → OnArc c t1 t2 (y2gamma (g + b * Complex.I)) := by
  have hs : 0 < g + 1 := by linarith
  have hpi := Real.pi_pos
  have hat := Real.arctan_lt_pi_div_two (1e-15 * (g + 1))
  have hat0 : 0 < Real.arctan (1e-15 * (g + 1)) := by rw [Real.arctan_pos]; positivity
  have hc : 0 < 180 / Real.pi := by positivity
  have hshape : GCircle g (some (.ninf, .pinf)) = .circle ((-g / (g + 1) : ℝ) : ℂ) |1 / (g + 1)|
      (some ((Real.pi + Real.arctan (1e-15 * (g + 1))) * (180 / Real.pi),
        (3 * Real.pi + -Real.arctan (1e-15 * (g + 1))) * (180 / Real.pi))) := by
    simp only [GCircle, Option.map_some, g_pinf g h, g_ninf g h]
  have e180 : Real.pi * (180 / Real.pi) = 180 := by field_simp
  refine ⟨_, _, _, _, hshape, ?_, ?_, ?_, fun b hb1 hb2 => ?_⟩
  · rw [add_mul, e180]
    have := mul_pos hat0 hc
    linarith
  · exact mul_lt_mul_of_pos_right (by linarith) hc
  · rw [add_mul, mul_assoc, e180, neg_mul]
    have := mul_pos hat0 hc
    linarith
  · have h1 := far (g + 1) b hs hb1
    have h2 := far (g + 1) (-b) hs (by linarith)
    rw [neg_div, Real.arctan_neg] at h2
    rw [arc_ends (D := Set.univ) (f := fun b => 2 * Real.pi + -2 * Real.arctan (b / (g + 1)))
      (p := fun b => y2gamma (g + b * Complex.I)) (ρ := 1 / (g + 1)) (br := 180) (by positivity)
      (fun b _ => g_range _ _) (fun b _ => g_angle g b h) (by linarith) (by linarith) b trivial]
    constructor <;> linarith

/-- C37: the arc of `GCircle(g, b1, inf)` has exactly the reflections with susceptances from `b1`, of those up to
`1e15`. -/
theorem C37_G_upper (g : ℝ) (h : -1 < g) (b1 : ℝ) : ∃ c ρ t1 t2,
    GCircle g (some (.fin b1, .pinf)) = .circle c ρ (some (t1, t2)) ∧ t2 < t1 + 360 ∧
    ∀ b : ℝ, b ≤ 1e15 → (OnArc c t1 t2 (y2gamma (g + b * Complex.I)) ↔ b1 ≤ b) := by
  have hs : 0 < g + 1 := by linarith
  have hpi := Real.pi_pos
  have hat0 : 0 < Real.arctan (1e-15 * (g + 1)) := by rw [Real.arctan_pos]; positivity
  have hshape : GCircle g (some (.fin b1, .pinf)) = .circle ((-g / (g + 1) : ℝ) : ℂ) |1 / (g + 1)|
      (some ((Real.pi + Real.arctan (1e-15 * (g + 1))) * (180 / Real.pi),
        (2 * Real.pi + -2 * Real.arctan (b1 / (g + 1))) * (180 / Real.pi))) := by
    simp only [GCircle, Option.map_some, g_pinf g h]
    rw [show y2gammaB g (.fin b1) = y2gamma (g + b1 * Complex.I) from rfl,
      angle_at (ρ := 1 / (g + 1)) (by positivity) (g_angle g b1 h) (g_range _ _).1.le (g_range _ _).2]
  refine ⟨_, _, _, _, hshape, by have := g_range (g + 1) b1; exact deg_turn (by linarith [this.2]),
    fun b hb => ?_⟩
  have h2 := far (g + 1) (-b) hs (by linarith)
  rw [neg_div, Real.arctan_neg] at h2
  rw [arc_ends (D := Set.univ) (f := fun b => 2 * Real.pi + -2 * Real.arctan (b / (g + 1)))
    (p := fun b => y2gamma (g + b * Complex.I)) (ρ := 1 / (g + 1)) (br := 180) (by positivity)
    (fun b _ => g_range _ _) (fun b _ => g_angle g b h) (by linarith) (g_range _ _).2.le b trivial]
  rw [← arctan_le_iff (a := b1) hs]
  constructor
  · rintro ⟨-, h2⟩; linarith
  · intro h; constructor <;> linarith

/-- C37: the arc of `GCircle(g, -inf, b2)` has exactly the reflections with susceptances up to `b2`, of those from
`-1e15`. -/
theorem C37_G_lower (g : ℝ) (h : -1 < g) (b2 : ℝ) : ∃ c ρ t1 t2,
    GCircle g (some (.ninf, .fin b2)) = .circle c ρ (some (t1, t2)) ∧ t2 < t1 + 360 ∧
    ∀ b : ℝ, -1e15 ≤ b → (OnArc c t1 t2 (y2gamma (g + b * Complex.I)) ↔ b ≤ b2) := by
  have hs : 0 < g + 1 := by linarith
  have hpi := Real.pi_pos
  have hat0 : 0 < Real.arctan (1e-15 * (g + 1)) := by rw [Real.arctan_pos]; positivity
  have hshape : GCircle g (some (.ninf, .fin b2)) = .circle ((-g / (g + 1) : ℝ) : ℂ) |1 / (g + 1)|
      (some ((2 * Real.pi + -2 * Real.arctan (b2 / (g + 1))) * (180 / Real.pi),
        (3 * Real.pi + -Real.arctan (1e-15 * (g + 1))) * (180 / Real.pi))) := by
    simp only [GCircle, Option.map_some, g_ninf g h]
    rw [show y2gammaB g (.fin b2) = y2gamma (g + b2 * Complex.I) from rfl,
      angle_at (ρ := 1 / (g + 1)) (by positivity) (g_angle g b2 h) (g_range _ _).1.le (g_range _ _).2]
  refine ⟨_, _, _, _, hshape, by have := g_range (g + 1) b2; exact deg_turn (by linarith [this.1]),
    fun b hb => ?_⟩
  have h1 := far (g + 1) b hs hb
  rw [arc_ends (D := Set.univ) (f := fun b => 2 * Real.pi + -2 * Real.arctan (b / (g + 1)))
    (p := fun b => y2gamma (g + b * Complex.I)) (ρ := 1 / (g + 1)) (br := 180) (by positivity)
    (fun b _ => g_range _ _) (fun b _ => g_angle g b h) (g_range _ _).1.le (by linarith) b trivial]
  rw [← arctan_le_iff (b := b2) hs]
  constructor
  · rintro ⟨h1, -⟩; linarith
  · intro h; constructor <;> linarith

/-! ### Constant reactance and susceptance -/

theorem x_angle_pos (x r : ℝ) (hx : 0 < x) (hr : -1 < r) :
    z2gamma (r + x * Complex.I) - (1 + ((1 / x : ℝ) : ℂ) * Complex.I) =
      ((1 / x : ℝ) : ℂ) * Complex.exp (Complex.I * ((3 * Real.pi / 2 + -2 * Real.arctan (x / (r + 1)) : ℝ) : ℂ)) := by
  rw [x_diff r x hx.ne', unit_exp _ _ (by linarith), ← exp_shift, exp_three_half_pi]

theorem x_angle_neg (x r : ℝ) (hx : x < 0) (hr : -1 < r) :
    z2gamma (r + x * Complex.I) - (1 + ((1 / x : ℝ) : ℂ) * Complex.I) =
      ((-(1 / x) : ℝ) : ℂ) * Complex.exp (Complex.I * ((Real.pi / 2 + -2 * Real.arctan (x / (r + 1)) : ℝ) : ℂ)) := by
  rw [x_diff r x hx.ne, unit_exp _ _ (by linarith), ← exp_shift, exp_half_pi]
  push_cast
  ring

theorem arctan_pos_range (x r : ℝ) (hx : 0 < x) (hr : -1 < r) : 0 < Real.arctan (x / (r + 1)) ∧
    Real.arctan (x / (r + 1)) < Real.pi / 2 :=
  ⟨by rw [Real.arctan_pos]; exact div_pos hx (by linarith), Real.arctan_lt_pi_div_two _⟩

theorem arctan_neg_range (x r : ℝ) (hx : x < 0) (hr : -1 < r) : Real.arctan (x / (r + 1)) < 0 ∧
    -(Real.pi / 2) < Real.arctan (x / (r + 1)) :=
  ⟨by rw [Real.arctan_lt_zero]; exact div_neg_of_neg_of_pos hx (by linarith), Real.neg_pi_div_two_lt_arctan _⟩

theorem anti_pos (x a b : ℝ) (hx : 0 < x) (ha : -1 < a) (hb : -1 < b) :
    Real.arctan (x / (b + 1)) ≤ Real.arctan (x / (a + 1)) ↔ a ≤ b := by
  rw [Real.arctan_strictMono.le_iff_le, div_le_div_iff₀ (by linarith) (by linarith)]
  constructor
  · intro h; by_contra h'; nlinarith
  · intro h; nlinarith

theorem mono_neg (x a b : ℝ) (hx : x < 0) (ha : -1 < a) (hb : -1 < b) :
    Real.arctan (x / (a + 1)) ≤ Real.arctan (x / (b + 1)) ↔ a ≤ b := by
  rw [Real.arctan_strictMono.le_iff_le, div_le_div_iff₀ (by linarith) (by linarith)]
  constructor
  · intro h; by_contra h'; nlinarith
  · intro h; nlinarith

/-- C37: the arc of `XCircle(x, r1, inf)` has exactly the reflections with resistances from `r1`. -/
theorem C37_X_inf (x : ℝ) (hx : x ≠ 0) (hb : -1e15 < x) (r1 : ℝ) (h1 : -1 < r1) : ∃ c ρ t1 t2,
    XCircle x (some (.fin r1, .pinf)) = .circle c ρ (some (t1, t2)) ∧ t1 ≤ t2 ∧ t2 < t1 + 360 ∧
    ∀ r : ℝ, -1 < r → (OnArc c t1 t2 (z2gamma (r + x * Complex.I)) ↔ r1 ≤ r) := by
  have hpi := Real.pi_pos
  have hc : 0 < 180 / Real.pi := by positivity
  have hso : sortEnds (.fin r1) .pinf = (.fin r1, .pinf) := by
    unfold sortEnds; rw [if_pos (show End.le (.fin r1) .pinf from trivial)]
  have e360 : 2 * Real.pi * (180 / Real.pi) = 360 := by field_simp; norm_num
  rcases lt_or_gt_of_ne hx with hneg | hpos
  · obtain ⟨q1, q2⟩ := arctan_neg_range x r1 hneg h1
    have hinv : 0 < -(1 / x) - 1e-15 := by
      have : -(1 / x) = 1 / -x := by rw [one_div, one_div, inv_neg]
      rw [this, sub_pos, lt_div_iff₀ (by linarith)]
      norm_num at hb ⊢
      linarith
    have a2 : angleDeg (z2gammaR x .pinf - (1 + ((1 / x : ℝ) : ℂ) * Complex.I)) 0 = Real.pi / 2 * (180 / Real.pi) := by
      refine angle_at (ρ := -(1 / x) - 1e-15) hinv ?_ (by linarith) (by linarith)
      rw [exp_half_pi]
      simp only [z2gammaR, if_neg (not_le.2 hneg)]
      push_cast
      ring
    have a1 : angleDeg (z2gamma (r1 + x * Complex.I) - (1 + ((1 / x : ℝ) : ℂ) * Complex.I)) 0 =
        (Real.pi / 2 + -2 * Real.arctan (x / (r1 + 1))) * (180 / Real.pi) :=
      angle_at (ρ := -(1 / x)) (by linarith) (x_angle_neg x r1 hneg h1) (by linarith) (by linarith)
    have hle : Real.pi / 2 * (180 / Real.pi) ≤ (Real.pi / 2 + -2 * Real.arctan (x / (r1 + 1))) * (180 / Real.pi) :=
      mul_le_mul_of_nonneg_right (by linarith) hc.le
    have hshape : XCircle x (some (.fin r1, .pinf)) = .circle (1 + ((1 / x : ℝ) : ℂ) * Complex.I) |1 / x|
        (some (Real.pi / 2 * (180 / Real.pi), (Real.pi / 2 + -2 * Real.arctan (x / (r1 + 1))) * (180 / Real.pi))) := by
      simp only [XCircle, if_neg hx, Option.map_some, hso, a2]
      rw [show z2gammaR x (.fin r1) = z2gamma (r1 + x * Complex.I) from rfl, a1, min_eq_left hle, max_eq_right hle]
    refine ⟨_, _, _, _, hshape, hle, ?_, fun r hr => ?_⟩
    · rw [← e360, ← add_mul]
      exact mul_lt_mul_of_pos_right (by linarith) hc
    · rw [arc_ends (D := Set.Ioi (-1)) (f := fun r => Real.pi / 2 + -2 * Real.arctan (x / (r + 1)))
        (p := fun r => z2gamma (r + x * Complex.I)) (ρ := -(1 / x)) (br := 0) (by linarith)
        (fun r hr => by
          obtain ⟨p1, p2⟩ := arctan_neg_range x r hneg hr
          constructor <;> linarith)
        (fun r hr => x_angle_neg x r hneg hr) (by linarith) (by linarith) r hr]
      rw [← mono_neg x r1 r hneg h1 hr]
      obtain ⟨p1, p2⟩ := arctan_neg_range x r hneg hr
      constructor
      · rintro ⟨-, h⟩; linarith
      · intro h; constructor <;> linarith
  · obtain ⟨q1, q2⟩ := arctan_pos_range x r1 hpos h1
    have a2 : angleDeg (z2gammaR x .pinf - (1 + ((1 / x : ℝ) : ℂ) * Complex.I)) 0 = 3 * Real.pi / 2 * (180 / Real.pi) := by
      refine angle_at (ρ := 1 / x) (by positivity) ?_ (by linarith) (by linarith)
      rw [exp_three_half_pi]
      simp only [z2gammaR, if_pos hpos.le]
      push_cast
      ring
    have a1 : angleDeg (z2gamma (r1 + x * Complex.I) - (1 + ((1 / x : ℝ) : ℂ) * Complex.I)) 0 =
        (3 * Real.pi / 2 + -2 * Real.arctan (x / (r1 + 1))) * (180 / Real.pi) :=
      angle_at (ρ := 1 / x) (by positivity) (x_angle_pos x r1 hpos h1) (by linarith) (by linarith)
    have hle : (3 * Real.pi / 2 + -2 * Real.arctan (x / (r1 + 1))) * (180 / Real.pi) ≤ 3 * Real.pi / 2 * (180 / Real.pi) :=
      mul_le_mul_of_nonneg_right (by linarith) hc.le
    have hshape : XCircle x (some (.fin r1, .pinf)) = .circle (1 + ((1 / x : ℝ) : ℂ) * Complex.I) |1 / x|
        (some ((3 * Real.pi / 2 + -2 * Real.arctan (x / (r1 + 1))) * (180 / Real.pi), 3 * Real.pi / 2 * (180 / Real.pi))) := by
      simp only [XCircle, if_neg hx, Option.map_some, hso, a2]
      rw [show z2gammaR x (.fin r1) = z2gamma (r1 + x * Complex.I) from rfl, a1, min_eq_right hle, max_eq_left hle]
    refine ⟨_, _, _, _, hshape, hle, ?_, fun r hr => ?_⟩
    · rw [← e360, ← add_mul]
      exact mul_lt_mul_of_pos_right (by linarith) hc
    · rw [arc_ends (D := Set.Ioi (-1)) (f := fun r => 3 * Real.pi / 2 + -2 * Real.arctan (x / (r + 1)))
        (p := fun r => z2gamma (r + x * Complex.I)) (ρ := 1 / x) (br := 0) (by positivity)
        (fun r hr => by
          obtain ⟨p1, p2⟩ := arctan_pos_range x r hpos hr
          constructor <;> linarith)
        (fun r hr => x_angle_pos x r hpos hr) (by linarith) (by linarith) r hr]
      rw [← anti_pos x r1 r hpos h1 hr]
      obtain ⟨p1, p2⟩ := arctan_pos_range x r hpos hr
      constructor
      · rintro ⟨h, -⟩; linarith
      · intro h; constructor <;> linarith

theorem b_diff (b g : ℝ) : y2gamma (g + b * Complex.I) - (-1 + ((-1 / b : ℝ) : ℂ) * Complex.I) =
    -(z2gamma (g + b * Complex.I) - (1 + ((1 / b : ℝ) : ℂ) * Complex.I)) := by
  rw [y2gamma_neg]
  push_cast
  ring

/-- C37: the arc of `BCircle(b, g1, inf)` has exactly the reflections with conductances from `g1`.  The arc is drawn
from the first angle counterclockwise to the second one, which is given in another turn if `b` is positive. -/
theorem C37_B_inf (b : ℝ) (hb : b ≠ 0) (hb' : |b| < 1e15) (g1 : ℝ) (h1 : -1 < g1) : ∃ c ρ t1 t2, ∃ k : ℤ,
    BCircle b (some (.fin g1, .pinf)) = .circle c ρ (some (t1, t2)) ∧ t1 < t2 + 360 * k ∧ t2 + 360 * k < t1 + 360 ∧
    ∀ g : ℝ, -1 < g → (OnArc c t1 (t2 + 360 * k) (y2gamma (g + b * Complex.I)) ↔ g1 ≤ g) := by
  have hpi := Real.pi_pos
  have hc : 0 < 180 / Real.pi := by positivity
  have e360 : 2 * Real.pi * (180 / Real.pi) = 360 := by field_simp; norm_num
  rcases lt_or_gt_of_ne hb with hneg | hpos
  · obtain ⟨q1, q2⟩ := arctan_neg_range b g1 hneg h1
    rw [abs_of_neg hneg] at hb'
    have hinv : 0 < -(1 / b) - 1e-15 := by
      have : -(1 / b) = 1 / -b := by rw [one_div, one_div, inv_neg]
      rw [this, sub_pos, lt_div_iff₀ (by linarith)]
      norm_num at hb' ⊢
      linarith
    have bang : ∀ g : ℝ, -1 < g → y2gamma (g + b * Complex.I) - (-1 + ((-1 / b : ℝ) : ℂ) * Complex.I) =
        ((-(1 / b) : ℝ) : ℂ) * Complex.exp (Complex.I * ((-(Real.pi / 2) + -2 * Real.arctan (b / (g + 1)) : ℝ) : ℂ)) := by
      intro g hg
      rw [b_diff, x_diff g b hb, unit_exp _ _ (by linarith), ← exp_shift, exp_neg_half_pi]
      push_cast
      ring
    have a2 : angleDeg (y2gammaG b .pinf - (-1 + ((-1 / b : ℝ) : ℂ) * Complex.I)) (-90) =
        -(Real.pi / 2) * (180 / Real.pi) := by
      refine angle_at (ρ := -(1 / b) - 1e-15) hinv ?_ (by linarith) (by linarith)
      rw [exp_neg_half_pi]
      simp only [y2gammaG, if_pos hneg.le]
      push_cast
      ring
    have a1 : angleDeg (y2gamma (g1 + b * Complex.I) - (-1 + ((-1 / b : ℝ) : ℂ) * Complex.I)) (-90) =
        (-(Real.pi / 2) + -2 * Real.arctan (b / (g1 + 1))) * (180 / Real.pi) :=
      angle_at (ρ := -(1 / b)) (by linarith) (bang g1 h1) (by linarith) (by linarith)
    have hshape : BCircle b (some (.fin g1, .pinf)) = .circle (-1 + ((-1 / b : ℝ) : ℂ) * Complex.I) |1 / b|
        (some (-(Real.pi / 2) * (180 / Real.pi), (-(Real.pi / 2) + -2 * Real.arctan (b / (g1 + 1))) * (180 / Real.pi))) := by
      simp only [BCircle, if_neg hb, if_neg (not_le.2 hneg), Option.map_some, a2]
      rw [show y2gammaG b (.fin g1) = y2gamma (g1 + b * Complex.I) from rfl, a1]
    refine ⟨_, _, _, _, 0, hshape, ?_, ?_, fun g hg => ?_⟩
    · rw [Int.cast_zero, mul_zero, add_zero]
      exact mul_lt_mul_of_pos_right (by linarith) hc
    · rw [Int.cast_zero, mul_zero, add_zero, ← e360, ← add_mul]
      exact mul_lt_mul_of_pos_right (by linarith) hc
    · rw [Int.cast_zero, mul_zero, add_zero,
        arc_ends (D := Set.Ioi (-1)) (f := fun r => -(Real.pi / 2) + -2 * Real.arctan (b / (r + 1)))
        (p := fun g => y2gamma (g + b * Complex.I)) (ρ := -(1 / b)) (br := -90) (by linarith)
        (fun r hr => by
          obtain ⟨p1, p2⟩ := arctan_neg_range b r hneg hr
          constructor <;> linarith)
        (fun r hr => bang r hr) (by linarith) (by linarith) g hg]
      rw [← mono_neg b g1 g hneg h1 hg]
      obtain ⟨p1, p2⟩ := arctan_neg_range b g hneg hg
      constructor
      · rintro ⟨-, h⟩; linarith
      · intro h; constructor <;> linarith
  · obtain ⟨q1, q2⟩ := arctan_pos_range b g1 hpos h1
    rw [abs_of_pos hpos] at hb'
    have hinv : 0 < 1 / b - 1e-15 := by
      rw [sub_pos, lt_div_iff₀ hpos]
      norm_num at hb' ⊢
      linarith
    have bang : ∀ g : ℝ, -1 < g → y2gamma (g + b * Complex.I) - (-1 + ((-1 / b : ℝ) : ℂ) * Complex.I) =
        ((1 / b : ℝ) : ℂ) * Complex.exp (Complex.I * ((5 * Real.pi / 2 + -2 * Real.arctan (b / (g + 1)) : ℝ) : ℂ)) := by
      intro g hg
      rw [b_diff, x_diff g b hb, unit_exp _ _ (by linarith), ← exp_shift, exp_five_half_pi]
      ring
    have a2 : angleDeg (y2gammaG b .pinf - (-1 + ((-1 / b : ℝ) : ℂ) * Complex.I)) 90 = Real.pi / 2 * (180 / Real.pi) := by
      refine angle_at (ρ := 1 / b - 1e-15) hinv ?_ (by linarith) (by linarith)
      rw [exp_half_pi]
      simp only [y2gammaG, if_neg (not_le.2 hpos)]
      push_cast
      ring
    have a1 : angleDeg (y2gamma (g1 + b * Complex.I) - (-1 + ((-1 / b : ℝ) : ℂ) * Complex.I)) 90 =
        (5 * Real.pi / 2 + -2 * Real.arctan (b / (g1 + 1))) * (180 / Real.pi) :=
      angle_at (ρ := 1 / b) (by positivity) (bang g1 h1) (by linarith) (by linarith)
    have hshape : BCircle b (some (.fin g1, .pinf)) = .circle (-1 + ((-1 / b : ℝ) : ℂ) * Complex.I) |1 / b|
        (some ((5 * Real.pi / 2 + -2 * Real.arctan (b / (g1 + 1))) * (180 / Real.pi), Real.pi / 2 * (180 / Real.pi))) := by
      simp only [BCircle, if_neg hb, if_pos hpos.le, Option.map_some, Prod.swap, a2]
      rw [show y2gammaG b (.fin g1) = y2gamma (g1 + b * Complex.I) from rfl, a1]
    have eT : Real.pi / 2 * (180 / Real.pi) + 360 * ((1 : ℤ) : ℝ) = 5 * Real.pi / 2 * (180 / Real.pi) := by
      push_cast
      rw [mul_one, ← e360]
      ring
    refine ⟨_, _, _, _, 1, hshape, ?_, ?_, fun g hg => ?_⟩
    · rw [eT]
      exact mul_lt_mul_of_pos_right (by linarith) hc
    · rw [eT, ← e360, ← add_mul]
      exact mul_lt_mul_of_pos_right (by linarith) hc
    · rw [eT, arc_ends (D := Set.Ioi (-1)) (f := fun r => 5 * Real.pi / 2 + -2 * Real.arctan (b / (r + 1)))
        (p := fun g => y2gamma (g + b * Complex.I)) (ρ := 1 / b) (br := 90) (by positivity)
        (fun r hr => by
          obtain ⟨p1, p2⟩ := arctan_pos_range b r hpos hr
          constructor <;> linarith)
        (fun r hr => bang r hr) (by linarith) (by linarith) g hg]
      rw [← anti_pos b g1 g hpos h1 hg]
      obtain ⟨p1, p2⟩ := arctan_pos_range b g hpos hg
      constructor
      · rintro ⟨h, -⟩; linarith
      · intro h; constructor <;> linarith

/-- As in `smith_grid`. -/
example : ∃ c ρ t1 t2, RCircle (1 / 3) (some (.fin 0, .pinf)) = .circle c ρ (some (t1, t2)) ∧
    OnArc c t1 t2 (z2gamma ((1 / 3 : ℝ) + (5 : ℝ) * Complex.I)) ∧ ¬ OnArc c t1 t2 (z2gamma ((1 / 3 : ℝ) + (-5 : ℝ) * Complex.I)) := by
  obtain ⟨c, ρ, t1, t2, h, -, h2⟩ := C37_R_upper (1 / 3) (by norm_num) 0
  exact ⟨c, ρ, t1, t2, h, (h2 5).2 (by norm_num), fun hc => absurd ((h2 (-5)).1 hc) (by norm_num)⟩

end HF.Smith
