import Verif.Smith.Props
/-
C37: the arcs of the Smith chart between given end points.
-/
noncomputable section

namespace HF.Smith

open HF.MathFns (IsAngle isAngle_arg isAngle_rot isAngle_unique isAngle_add norm_exp_I)

/-- Points seen from `c` under an angle between `t1` and `t2` degrees. -/
def OnArc (c : ℂ) (t1 t2 : ℝ) (p : ℂ) : Prop := ∃ A : ℝ, IsAngle (p - c) (A / 180 * Real.pi) ∧ t1 ≤ A ∧ A ≤ t2

theorem arc_iff {D : Set ℝ} {f : ℝ → ℝ} {p : ℝ → ℂ} {c : ℂ} {ρ br : ℝ} (hρ : 0 < ρ)
    (hr : ∀ x ∈ D, br ≤ f x * (180 / Real.pi) ∧ f x * (180 / Real.pi) < br + 360)
    (hp : ∀ x ∈ D, p x - c = ρ * Complex.exp (Complex.I * f x)) {a b : ℝ} (ha : a ∈ D) (hb : b ∈ D)
    (hab : f a ≤ f b) :
    angleDeg (p a - c) br ≤ angleDeg (p b - c) br ∧ angleDeg (p b - c) br < angleDeg (p a - c) br + 360 ∧
    ∀ x ∈ D, OnArc c (angleDeg (p a - c) br) (angleDeg (p b - c) br) (p x) ↔ f a ≤ f x ∧ f x ≤ f b := by
  have hpi := Real.pi_pos
  have hc : 0 < 180 / Real.pi := by positivity
  have hA : ∀ x ∈ D, angleDeg (p x - c) br = f x * (180 / Real.pi) := fun x hx => by
    rw [hp x hx, angleDeg_eq hρ (hr x hx).1 (hr x hx).2]
  rw [hA a ha, hA b hb]
  refine ⟨mul_le_mul_of_nonneg_right hab hc.le, by linarith [(hr a ha).1, (hr b hb).2], fun x hx => ?_⟩
  constructor
  · rintro ⟨A, h1, h2, h3⟩
    have hne : p x - c ≠ 0 := by
      rw [hp x hx]
      exact mul_ne_zero (by simpa using hρ.ne') (Complex.exp_ne_zero _)
    have hang := isAngle_pos (θ := f x) hρ
    rw [← hp x hx] at hang
    obtain ⟨k, hk⟩ := isAngle_unique hne h1 hang
    have hA' : A = f x * (180 / Real.pi) + 360 * k := by
      field_simp at hk ⊢
      linarith
    have : k = 0 := by
      by_contra hne
      rcases lt_or_gt_of_ne hne with h | h
      · have : (k : ℝ) ≤ -1 := by exact_mod_cast Int.le_sub_one_of_lt h
        linarith [(hr a ha).1, (hr x hx).2]
      · have : (1 : ℝ) ≤ k := by exact_mod_cast h
        linarith [(hr b hb).2, (hr x hx).1]
    rw [this] at hA'
    simp at hA'
    rw [hA'] at h2 h3
    exact ⟨le_of_mul_le_mul_right h2 hc, le_of_mul_le_mul_right h3 hc⟩
  · rintro ⟨h1, h2⟩
    refine ⟨f x * (180 / Real.pi), ?_, mul_le_mul_of_nonneg_right h1 hc.le, mul_le_mul_of_nonneg_right h2 hc.le⟩
    have : f x * (180 / Real.pi) / 180 * Real.pi = f x := by field_simp
    rw [this, hp x hx]
    exact isAngle_pos hρ

/-- `(s - jx)/(s + jx)` has the angle `-2 arctan(x/s)`. -/
theorem unit_exp (s x : ℝ) (hs : 0 < s) : ((s : ℂ) - x * Complex.I) / (s + x * Complex.I) =
    Complex.exp (Complex.I * ((-2 * Real.arctan (x / s) : ℝ) : ℂ)) := by
  obtain ⟨θ, hθ⟩ : ∃ θ, θ = Real.arctan (x / s) := ⟨_, rfl⟩
  rw [← hθ]
  have hcos : 0 < Real.cos θ := by rw [hθ]; exact Real.cos_arctan_pos _
  have htan : Real.sin θ * s = x * Real.cos θ := by
    have : Real.tan θ = x / s := by rw [hθ, Real.tan_arctan]
    rw [Real.tan_eq_sin_div_cos] at this
    field_simp at this
    linarith
  have e1 : Complex.exp (Complex.I * θ) = Real.cos θ + Real.sin θ * Complex.I := by
    rw [mul_comm, Complex.exp_mul_I, ← Complex.ofReal_cos, ← Complex.ofReal_sin]
  have e2 : Complex.exp (Complex.I * ((-θ : ℝ) : ℂ)) = Real.cos θ - Real.sin θ * Complex.I := by
    rw [mul_comm, Complex.exp_mul_I, ← Complex.ofReal_cos, ← Complex.ofReal_sin, Real.cos_neg, Real.sin_neg]
    push_cast
    ring
  have htan' : (Real.sin θ : ℂ) * s = x * Real.cos θ := by exact_mod_cast htan
  have hc' : (Real.cos θ : ℂ) ≠ 0 := by exact_mod_cast hcos.ne'
  have e3 : ((s : ℂ) + x * Complex.I) * Real.cos θ = s * Complex.exp (Complex.I * θ) := by
    rw [e1]
    linear_combination -Complex.I * htan'
  have e4 : ((s : ℂ) - x * Complex.I) * Real.cos θ = s * Complex.exp (Complex.I * ((-θ : ℝ) : ℂ)) := by
    rw [e2]
    linear_combination Complex.I * htan'
  have e5 : Complex.exp (Complex.I * ((-2 * θ : ℝ) : ℂ)) * Complex.exp (Complex.I * θ) =
      Complex.exp (Complex.I * ((-θ : ℝ) : ℂ)) := by
    rw [← Complex.exp_add]
    congr 1
    push_cast
    ring
  rw [div_eq_iff (denom_ne (Or.inl hs.ne'))]
  apply mul_right_cancel₀ hc'
  rw [e4, mul_assoc, e3, ← e5]
  ring

theorem exp_shift (a b : ℝ) : Complex.exp (Complex.I * a) * Complex.exp (Complex.I * b) =
    Complex.exp (Complex.I * ((a + b : ℝ) : ℂ)) := by
  rw [← Complex.exp_add]
  congr 1
  push_cast
  ring

theorem exp_pi : Complex.exp (Complex.I * (Real.pi : ℝ)) = -1 := by
  rw [mul_comm, Complex.exp_pi_mul_I]

theorem exp_two_pi : Complex.exp (Complex.I * ((2 * Real.pi : ℝ) : ℂ)) = 1 := by
  have := exp_shift Real.pi Real.pi
  rw [exp_pi] at this
  rw [show 2 * Real.pi = Real.pi + Real.pi by ring, ← this]
  ring

theorem exp_half_pi : Complex.exp (Complex.I * ((Real.pi / 2 : ℝ) : ℂ)) = Complex.I := by
  rw [mul_comm]
  push_cast
  exact Complex.exp_pi_div_two_mul_I

theorem exp_neg_half_pi : Complex.exp (Complex.I * ((-(Real.pi / 2) : ℝ) : ℂ)) = -Complex.I := by
  have := exp_shift (-(Real.pi / 2)) (Real.pi / 2)
  rw [exp_half_pi] at this
  simp only [neg_add_cancel, Complex.ofReal_zero, mul_zero, Complex.exp_zero] at this
  linear_combination (-Complex.I) * this + Complex.exp (Complex.I * ((-(Real.pi / 2) : ℝ) : ℂ)) * Complex.I_mul_I

theorem exp_three_half_pi : Complex.exp (Complex.I * ((3 * Real.pi / 2 : ℝ) : ℂ)) = -Complex.I := by
  have := exp_shift (2 * Real.pi) (-(Real.pi / 2))
  rw [exp_two_pi, exp_neg_half_pi] at this
  rw [show 3 * Real.pi / 2 = 2 * Real.pi + -(Real.pi / 2) by ring, ← this]
  ring

theorem exp_five_half_pi : Complex.exp (Complex.I * ((5 * Real.pi / 2 : ℝ) : ℂ)) = Complex.I := by
  have := exp_shift (2 * Real.pi) (Real.pi / 2)
  rw [exp_two_pi, exp_half_pi] at this
  rw [show 5 * Real.pi / 2 = 2 * Real.pi + Real.pi / 2 by ring, ← this]
  ring

theorem deg_range {a lo hi : ℝ} (h1 : lo / 180 * Real.pi ≤ a) (h2 : a < hi / 180 * Real.pi) :
    lo ≤ a * (180 / Real.pi) ∧ a * (180 / Real.pi) < hi := by
  have hpi := Real.pi_pos
  have hc : 0 < 180 / Real.pi := by positivity
  constructor
  · have := mul_le_mul_of_nonneg_right h1 hc.le
    have e : lo / 180 * Real.pi * (180 / Real.pi) = lo := by field_simp
    rwa [e] at this
  · have := mul_lt_mul_of_pos_right h2 hc
    have e : hi / 180 * Real.pi * (180 / Real.pi) = hi := by field_simp
    rwa [e] at this

theorem sortEnds_fin (a b : ℝ) : sortEnds (.fin a) (.fin b) = (.fin (min a b), .fin (max a b)) := by
  unfold sortEnds
  by_cases h : a ≤ b
  · rw [if_pos (show End.le (.fin a) (.fin b) from h), min_eq_left h, max_eq_right h]
  · rw [if_neg (show ¬ End.le (.fin a) (.fin b) from h), min_eq_right (le_of_not_ge h), max_eq_left (le_of_not_ge h)]

theorem arctan_le_iff {s a b : ℝ} (hs : 0 < s) : Real.arctan (a / s) ≤ Real.arctan (b / s) ↔ a ≤ b := by
  rw [Real.arctan_strictMono.le_iff_le, div_le_div_iff_of_pos_right hs]

/-- C37: the arc of `RCircle(r, x1, x2)` has exactly the reflections with reactances between `x1` and
`x2`, given in either order. -/
theorem C37_R_arc (r : ℝ) (h : -1 < r) (x1 x2 : ℝ) : ∃ c ρ t1 t2,
    RCircle r (some (.fin x1, .fin x2)) = .circle c ρ (some (t1, t2)) ∧ t1 ≤ t2 ∧ t2 < t1 + 360 ∧
    ∀ x : ℝ, OnArc c t1 t2 (z2gamma (r + x * Complex.I)) ↔ min x1 x2 ≤ x ∧ x ≤ max x1 x2 := by
  have hs : 0 < r + 1 := by linarith
  have hpi := Real.pi_pos
  have key := arc_iff (D := Set.univ) (f := fun x => Real.pi - 2 * Real.arctan (x / (r + 1)))
    (p := fun x => z2gamma (r + x * Complex.I)) (c := ((r / (r + 1) : ℝ) : ℂ)) (ρ := 1 / (r + 1)) (br := 0)
    (by positivity)
    (fun x _ => by
      have h1 := Real.arctan_lt_pi_div_two (x / (r + 1))
      have h2 := Real.neg_pi_div_two_lt_arctan (x / (r + 1))
      exact deg_range (hi := 0 + 360) (by linarith) (by linarith))
    (fun x _ => by
      rw [r_diff r x hs.ne', unit_exp _ _ hs]
      rw [show Real.pi - 2 * Real.arctan (x / (r + 1)) = Real.pi + -2 * Real.arctan (x / (r + 1)) by ring,
        ← exp_shift, exp_pi]
      ring)
    (a := max x1 x2) (b := min x1 x2) trivial trivial
    (by have := (arctan_le_iff hs).2 (min_le_max (a := x1) (b := x2)); linarith)
  obtain ⟨k1, k2, k3⟩ := key
  have hshape : RCircle r (some (.fin x1, .fin x2)) = .circle ((r / (r + 1) : ℝ) : ℂ) |1 / (r + 1)|
      (some (angleDeg (z2gamma (r + ((max x1 x2 : ℝ) : ℂ) * Complex.I) - ((r / (r + 1) : ℝ) : ℂ)) 0,
        angleDeg (z2gamma (r + ((min x1 x2 : ℝ) : ℂ) * Complex.I) - ((r / (r + 1) : ℝ) : ℂ)) 0)) := by
    simp only [RCircle, Option.map_some, sortEnds_fin, z2gammaX]
  refine ⟨_, _, _, _, hshape, k1, k2, fun x => ?_⟩
  · rw [k3 x trivial, ← arctan_le_iff (a := min x1 x2) hs, ← arctan_le_iff (b := max x1 x2) hs]
    constructor <;> rintro ⟨h1, h2⟩ <;> constructor <;> linarith

/-- C37: the arc of `XCircle(x, r1, r2)` has exactly the reflections with resistances between `r1` and
`r2`, given in either order. -/
theorem C37_X_arc (x : ℝ) (hx : x ≠ 0) (r1 r2 : ℝ) (h1 : -1 < r1) (h2 : -1 < r2) : ∃ c ρ t1 t2,
    XCircle x (some (.fin r1, .fin r2)) = .circle c ρ (some (t1, t2)) ∧ t1 ≤ t2 ∧ t2 < t1 + 360 ∧
    ∀ r : ℝ, -1 < r → (OnArc c t1 t2 (z2gamma (r + x * Complex.I)) ↔ min r1 r2 ≤ r ∧ r ≤ max r1 r2) := by
  have hpi := Real.pi_pos
  have hshape : XCircle x (some (.fin r1, .fin r2)) = .circle (1 + ((1 / x : ℝ) : ℂ) * Complex.I) |1 / x|
      (some (min (angleDeg (z2gamma (((max r1 r2 : ℝ) : ℂ) + x * Complex.I) - (1 + ((1 / x : ℝ) : ℂ) * Complex.I)) 0)
        (angleDeg (z2gamma (((min r1 r2 : ℝ) : ℂ) + x * Complex.I) - (1 + ((1 / x : ℝ) : ℂ) * Complex.I)) 0),
        max (angleDeg (z2gamma (((max r1 r2 : ℝ) : ℂ) + x * Complex.I) - (1 + ((1 / x : ℝ) : ℂ) * Complex.I)) 0)
        (angleDeg (z2gamma (((min r1 r2 : ℝ) : ℂ) + x * Complex.I) - (1 + ((1 / x : ℝ) : ℂ) * Complex.I)) 0))) := by
    simp only [XCircle, if_neg hx, Option.map_some, sortEnds_fin, z2gammaR]
  have hmax : -1 < max r1 r2 := lt_of_lt_of_le h1 (le_max_left _ _)
  have hmin : -1 < min r1 r2 := lt_min h1 h2
  rcases lt_or_gt_of_ne hx with hneg | hpos
  · have key := arc_iff (D := Set.Ioi (-1)) (f := fun r => Real.pi / 2 + -2 * Real.arctan (x / (r + 1)))
      (p := fun r => z2gamma (r + x * Complex.I)) (c := 1 + ((1 / x : ℝ) : ℂ) * Complex.I) (ρ := -(1 / x)) (br := 0)
      (by have : 1 / x < 0 := div_neg_of_pos_of_neg one_pos hneg
          linarith)
      (fun r hr => by
        have h1 := Real.arctan_lt_pi_div_two (x / (r + 1))
        have h2 := Real.neg_pi_div_two_lt_arctan (x / (r + 1))
        have h3 : Real.arctan (x / (r + 1)) < 0 := by
          rw [Real.arctan_lt_zero]
          exact div_neg_of_neg_of_pos hneg (by have := Set.mem_Ioi.1 hr; linarith)
        exact deg_range (hi := 0 + 360) (by linarith) (by linarith))
      (fun r hr => by
        rw [x_diff r x hx, unit_exp _ _ (by have := Set.mem_Ioi.1 hr; linarith), ← exp_shift, exp_half_pi]
        push_cast
        ring)
      (a := max r1 r2) (b := min r1 r2) hmax hmin
      (by
        have : Real.arctan (x / (min r1 r2 + 1)) ≤ Real.arctan (x / (max r1 r2 + 1)) := by
          rw [Real.arctan_strictMono.le_iff_le, div_le_div_iff₀ (by linarith) (by linarith)]
          have := min_le_max (a := r1) (b := r2)
          nlinarith
        linarith)
    obtain ⟨k1, k2, k3⟩ := key
    rw [min_eq_left k1, max_eq_right k1] at hshape
    refine ⟨_, _, _, _, hshape, k1, k2, fun r hr => ?_⟩
    rw [k3 r hr]
    have e : ∀ a b : ℝ, -1 < a → -1 < b →
        (Real.pi / 2 + -2 * Real.arctan (x / (a + 1)) ≤ Real.pi / 2 + -2 * Real.arctan (x / (b + 1)) ↔ b ≤ a) := by
      intro a b ha hb
      have : Real.arctan (x / (b + 1)) ≤ Real.arctan (x / (a + 1)) ↔ b ≤ a := by
        rw [Real.arctan_strictMono.le_iff_le, div_le_div_iff₀ (by linarith) (by linarith)]
        constructor
        · intro h; by_contra h'; nlinarith
        · intro h; nlinarith
      rw [← this]
      constructor <;> intro h <;> linarith
    rw [e _ _ hmax hr, e _ _ hr hmin, and_comm]
  · have key := arc_iff (D := Set.Ioi (-1)) (f := fun r => 3 * Real.pi / 2 + -2 * Real.arctan (x / (r + 1)))
      (p := fun r => z2gamma (r + x * Complex.I)) (c := 1 + ((1 / x : ℝ) : ℂ) * Complex.I) (ρ := 1 / x) (br := 0)
      (by positivity)
      (fun r hr => by
        have h1 := Real.arctan_lt_pi_div_two (x / (r + 1))
        have h2 := Real.neg_pi_div_two_lt_arctan (x / (r + 1))
        have h3 : 0 < Real.arctan (x / (r + 1)) := by
          rw [Real.arctan_pos]
          exact div_pos hpos (by have := Set.mem_Ioi.1 hr; linarith)
        exact deg_range (hi := 0 + 360) (by linarith) (by linarith))
      (fun r hr => by
        rw [x_diff r x hx, unit_exp _ _ (by have := Set.mem_Ioi.1 hr; linarith), ← exp_shift, exp_three_half_pi])
      (a := min r1 r2) (b := max r1 r2) hmin hmax
      (by
        have : Real.arctan (x / (max r1 r2 + 1)) ≤ Real.arctan (x / (min r1 r2 + 1)) := by
          rw [Real.arctan_strictMono.le_iff_le, div_le_div_iff₀ (by linarith) (by linarith)]
          have := min_le_max (a := r1) (b := r2)
          nlinarith
        linarith)
    obtain ⟨k1, k2, k3⟩ := key
    rw [min_eq_right k1, max_eq_left k1] at hshape
    refine ⟨_, _, _, _, hshape, k1, k2, fun r hr => ?_⟩
    rw [k3 r hr]
    have e : ∀ a b : ℝ, -1 < a → -1 < b →
        (3 * Real.pi / 2 + -2 * Real.arctan (x / (a + 1)) ≤ 3 * Real.pi / 2 + -2 * Real.arctan (x / (b + 1)) ↔ a ≤ b) := by
      intro a b ha hb
      have : Real.arctan (x / (b + 1)) ≤ Real.arctan (x / (a + 1)) ↔ a ≤ b := by
        rw [Real.arctan_strictMono.le_iff_le, div_le_div_iff₀ (by linarith) (by linarith)]
        constructor
        · intro h; by_contra h'; nlinarith
        · intro h; nlinarith
      rw [← this]
      constructor <;> intro h <;> linarith
    rw [e _ _ hmin hr, e _ _ hr hmax]

/-- C37: the arc of `GCircle(g, b1, b2)` has exactly the reflections with susceptances between `b1` and
`b2`, if `b1` is the lower one. -/
theorem C37_G_arc (g : ℝ) (h : -1 < g) (b1 b2 : ℝ) (hb : b1 ≤ b2) : ∃ c ρ t1 t2,
    GCircle g (some (.fin b1, .fin b2)) = .circle c ρ (some (t1, t2)) ∧ t1 ≤ t2 ∧ t2 < t1 + 360 ∧
    ∀ b : ℝ, OnArc c t1 t2 (y2gamma (g + b * Complex.I)) ↔ b1 ≤ b ∧ b ≤ b2 := by
  have hs : 0 < g + 1 := by linarith
  have hpi := Real.pi_pos
  have key := arc_iff (D := Set.univ) (f := fun x => 2 * Real.pi + -2 * Real.arctan (x / (g + 1)))
    (p := fun b => y2gamma (g + b * Complex.I)) (c := ((-g / (g + 1) : ℝ) : ℂ)) (ρ := 1 / (g + 1)) (br := 180)
    (by positivity)
    (fun x _ => by
      have h1 := Real.arctan_lt_pi_div_two (x / (g + 1))
      have h2 := Real.neg_pi_div_two_lt_arctan (x / (g + 1))
      exact deg_range (hi := 180 + 360) (by linarith) (by linarith))
    (fun x _ => by
      have e : y2gamma (g + x * Complex.I) - ((-g / (g + 1) : ℝ) : ℂ) =
          -(z2gamma (g + x * Complex.I) - ((g / (g + 1) : ℝ) : ℂ)) := by
        rw [y2gamma_neg]
        push_cast
        ring
      rw [e, r_diff g x hs.ne', unit_exp _ _ hs, ← exp_shift, exp_two_pi]
      ring)
    (a := b2) (b := b1) trivial trivial
    (by have := (arctan_le_iff hs).2 hb; linarith)
  obtain ⟨k1, k2, k3⟩ := key
  refine ⟨_, _, _, _, rfl, k1, k2, fun x => ?_⟩
  have := k3 x trivial
  refine Iff.trans this ?_
  rw [← arctan_le_iff (a := b1) hs, ← arctan_le_iff (b := b2) hs]
  constructor <;> rintro ⟨h1, h2⟩ <;> constructor <;> linarith

/-- C37: unlike `RCircle` and `XCircle` it does not order the end points; in the other order the arc
begins where it should end, so the rest of the circle is drawn. -/
theorem C37_G_order_refuted (g : ℝ) (b1 b2 : ℝ) : ∃ c ρ t1 t2,
    GCircle g (some (.fin b1, .fin b2)) = .circle c ρ (some (t1, t2)) ∧
    GCircle g (some (.fin b2, .fin b1)) = .circle c ρ (some (t2, t1)) := ⟨_, _, _, _, rfl, rfl⟩

/-- C37: the arc of `BCircle(b, g1, g2)` has exactly the reflections with conductances between `g1` and
`g2`, if `g1` is the lower one. -/
theorem C37_B_arc (b : ℝ) (hb : b ≠ 0) (g1 g2 : ℝ) (h1 : -1 < g1) (hg : g1 ≤ g2) : ∃ c ρ t1 t2,
    BCircle b (some (.fin g1, .fin g2)) = .circle c ρ (some (t1, t2)) ∧ t1 ≤ t2 ∧ t2 < t1 + 360 ∧
    ∀ g : ℝ, -1 < g → (OnArc c t1 t2 (y2gamma (g + b * Complex.I)) ↔ g1 ≤ g ∧ g ≤ g2) := by
  have hpi := Real.pi_pos
  have h2 : -1 < g2 := lt_of_lt_of_le h1 hg
  have hdiff : ∀ g : ℝ, y2gamma (g + b * Complex.I) - (-1 + ((-1 / b : ℝ) : ℂ) * Complex.I) =
      -(z2gamma (g + b * Complex.I) - (1 + ((1 / b : ℝ) : ℂ) * Complex.I)) := fun g => by
    rw [y2gamma_neg]
    push_cast
    ring
  rcases lt_or_gt_of_ne hb with hneg | hpos
  · have hshape : BCircle b (some (.fin g1, .fin g2)) = .circle (-1 + ((-1 / b : ℝ) : ℂ) * Complex.I) |1 / b|
        (some (angleDeg (y2gamma (g2 + b * Complex.I) - (-1 + ((-1 / b : ℝ) : ℂ) * Complex.I)) (-90),
          angleDeg (y2gamma (g1 + b * Complex.I) - (-1 + ((-1 / b : ℝ) : ℂ) * Complex.I)) (-90))) := by
      simp only [BCircle, if_neg hb, if_neg (not_le.2 hneg), Option.map_some, y2gammaG]
    have key := arc_iff (D := Set.Ioi (-1)) (f := fun r => -(Real.pi / 2) + -2 * Real.arctan (b / (r + 1)))
      (p := fun g => y2gamma (g + b * Complex.I)) (c := -1 + ((-1 / b : ℝ) : ℂ) * Complex.I) (ρ := -(1 / b))
      (br := -90)
      (by have : 1 / b < 0 := div_neg_of_pos_of_neg one_pos hneg
          linarith)
      (fun r hr => by
        have h1 := Real.arctan_lt_pi_div_two (b / (r + 1))
        have h2 := Real.neg_pi_div_two_lt_arctan (b / (r + 1))
        have h3 : Real.arctan (b / (r + 1)) < 0 := by
          rw [Real.arctan_lt_zero]
          exact div_neg_of_neg_of_pos hneg (by have := Set.mem_Ioi.1 hr; linarith)
        exact deg_range (hi := -90 + 360) (by linarith) (by linarith))
      (fun r hr => by
        rw [hdiff, x_diff r b hb, unit_exp _ _ (by have := Set.mem_Ioi.1 hr; linarith), ← exp_shift, exp_neg_half_pi]
        push_cast
        ring)
      (a := g2) (b := g1) h2 h1
      (by
        have : Real.arctan (b / (g1 + 1)) ≤ Real.arctan (b / (g2 + 1)) := by
          rw [Real.arctan_strictMono.le_iff_le, div_le_div_iff₀ (by linarith) (by linarith)]
          nlinarith
        linarith)
    obtain ⟨k1, k2, k3⟩ := key
    refine ⟨_, _, _, _, hshape, k1, k2, fun r hr => ?_⟩
    refine (k3 r hr).trans ?_
    have e : ∀ x y : ℝ, -1 < x → -1 < y →
        (-(Real.pi / 2) + -2 * Real.arctan (b / (x + 1)) ≤ -(Real.pi / 2) + -2 * Real.arctan (b / (y + 1)) ↔ y ≤ x) := by
      intro x y hx hy
      have : Real.arctan (b / (y + 1)) ≤ Real.arctan (b / (x + 1)) ↔ y ≤ x := by
        rw [Real.arctan_strictMono.le_iff_le, div_le_div_iff₀ (by linarith) (by linarith)]
        constructor
        · intro h; by_contra h'; nlinarith
        · intro h; nlinarith
      rw [← this]
      constructor <;> intro h <;> linarith
    rw [e _ _ h2 hr, e _ _ hr h1, and_comm]
  · have hshape : BCircle b (some (.fin g1, .fin g2)) = .circle (-1 + ((-1 / b : ℝ) : ℂ) * Complex.I) |1 / b|
        (some (angleDeg (y2gamma (g1 + b * Complex.I) - (-1 + ((-1 / b : ℝ) : ℂ) * Complex.I)) 90,
          angleDeg (y2gamma (g2 + b * Complex.I) - (-1 + ((-1 / b : ℝ) : ℂ) * Complex.I)) 90)) := by
      simp only [BCircle, if_neg hb, if_pos hpos.le, Option.map_some, Prod.swap, y2gammaG]
    have key := arc_iff (D := Set.Ioi (-1)) (f := fun r => 5 * Real.pi / 2 + -2 * Real.arctan (b / (r + 1)))
      (p := fun g => y2gamma (g + b * Complex.I)) (c := -1 + ((-1 / b : ℝ) : ℂ) * Complex.I) (ρ := 1 / b)
      (br := 90) (by positivity)
      (fun r hr => by
        have h1 := Real.arctan_lt_pi_div_two (b / (r + 1))
        have h2 := Real.neg_pi_div_two_lt_arctan (b / (r + 1))
        have h3 : 0 < Real.arctan (b / (r + 1)) := by
          rw [Real.arctan_pos]
          exact div_pos hpos (by have := Set.mem_Ioi.1 hr; linarith)
        exact deg_range (hi := 90 + 360) (by linarith) (by linarith))
      (fun r hr => by
        rw [hdiff, x_diff r b hb, unit_exp _ _ (by have := Set.mem_Ioi.1 hr; linarith), ← exp_shift, exp_five_half_pi]
        ring)
      (a := g1) (b := g2) h1 h2
      (by
        have : Real.arctan (b / (g2 + 1)) ≤ Real.arctan (b / (g1 + 1)) := by
          rw [Real.arctan_strictMono.le_iff_le, div_le_div_iff₀ (by linarith) (by linarith)]
          nlinarith
        linarith)
    obtain ⟨k1, k2, k3⟩ := key
    refine ⟨_, _, _, _, hshape, k1, k2, fun r hr => ?_⟩
    refine (k3 r hr).trans ?_
    have e : ∀ x y : ℝ, -1 < x → -1 < y →
        (5 * Real.pi / 2 + -2 * Real.arctan (b / (x + 1)) ≤ 5 * Real.pi / 2 + -2 * Real.arctan (b / (y + 1)) ↔ x ≤ y) := by
      intro x y hx hy
      have : Real.arctan (b / (y + 1)) ≤ Real.arctan (b / (x + 1)) ↔ x ≤ y := by
        rw [Real.arctan_strictMono.le_iff_le, div_le_div_iff₀ (by linarith) (by linarith)]
        constructor
        · intro h; by_contra h'; nlinarith
        · intro h; nlinarith
      rw [← this]
      constructor <;> intro h <;> linarith
    rw [e _ _ h1 hr, e _ _ hr h2]

theorem polar (x : ℝ) : ∃ ρ : ℝ, 0 < ρ ∧
    (1 : ℂ) - x * Complex.I = ρ * Complex.exp (Complex.I * ((-Real.arctan x : ℝ) : ℂ)) := by
  obtain ⟨θ, hθ⟩ : ∃ θ, θ = Real.arctan x := ⟨_, rfl⟩
  rw [← hθ]
  have hcos : 0 < Real.cos θ := by rw [hθ]; exact Real.cos_arctan_pos _
  have htan : Real.sin θ = x * Real.cos θ := by
    have : Real.tan θ = x := by rw [hθ, Real.tan_arctan]
    rw [Real.tan_eq_sin_div_cos] at this
    field_simp at this
    linarith
  refine ⟨1 / Real.cos θ, by positivity, ?_⟩
  have hc' : (Real.cos θ : ℂ) ≠ 0 := by exact_mod_cast hcos.ne'
  have e2 : Complex.exp (Complex.I * ((-θ : ℝ) : ℂ)) = Real.cos θ - Real.sin θ * Complex.I := by
    rw [mul_comm, Complex.exp_mul_I, ← Complex.ofReal_cos, ← Complex.ofReal_sin, Real.cos_neg, Real.sin_neg]
    push_cast
    ring
  rw [e2, htan]
  push_cast at hc' ⊢
  field_simp

/-- C37: with infinite end points, as in `smith_grid`, the arc of `RCircle` begins at 1 (the open); it
ends just before it and has the reflections of all reactances from `-1e15`. -/
theorem C37_R_full (r : ℝ) (h : -1 < r) : ∃ c ρ t1 t2,
    RCircle r (some (.ninf, .pinf)) = .circle c ρ (some (t1, t2)) ∧ t1 = 0 ∧ t2 < 360 ∧
    ∀ x : ℝ, -1e15 ≤ x → OnArc c t1 t2 (z2gamma (r + x * Complex.I)) := by
  have hs : 0 < r + 1 := by linarith
  have hpi := Real.pi_pos
  have hs' : (r : ℂ) + 1 ≠ 0 := by exact_mod_cast hs.ne'
  obtain ⟨ρ, hρ, he⟩ := polar (1e-15 * (r + 1))
  have hat := Real.arctan_lt_pi_div_two (1e-15 * (r + 1))
  have hat0 : 0 < Real.arctan (1e-15 * (r + 1)) := by rw [Real.arctan_pos]; positivity
  have ht2 : angleDeg (z2gammaX r .ninf - ((r / (r + 1) : ℝ) : ℂ)) 0 =
      (2 * Real.pi + -Real.arctan (1e-15 * (r + 1))) * (180 / Real.pi) := by
    have e : z2gammaX r .ninf - ((r / (r + 1) : ℝ) : ℂ) = ((1 / (r + 1) * ρ : ℝ) : ℂ) *
        Complex.exp (Complex.I * ((2 * Real.pi + -Real.arctan (1e-15 * (r + 1)) : ℝ) : ℂ)) := by
      rw [← exp_shift, exp_two_pi, one_mul]
      have : ((1 / (r + 1) * ρ : ℝ) : ℂ) * Complex.exp (Complex.I * ((-Real.arctan (1e-15 * (r + 1)) : ℝ) : ℂ)) =
          ((1 / (r + 1) : ℝ) : ℂ) * (1 - ((1e-15 * (r + 1) : ℝ) : ℂ) * Complex.I) := by
        rw [he]
        push_cast
        ring
      rw [this]
      unfold z2gammaX
      push_cast
      field_simp
      ring
    rw [e]
    have hd := deg_range (a := 2 * Real.pi + -Real.arctan (1e-15 * (r + 1))) (lo := 0) (hi := 0 + 360)
      (by linarith) (by linarith)
    exact angleDeg_eq (by positivity) hd.1 hd.2
  have ht1 : angleDeg (z2gammaX r .pinf - ((r / (r + 1) : ℝ) : ℂ)) 0 = 0 := by
    have e : z2gammaX r .pinf - ((r / (r + 1) : ℝ) : ℂ) = ((1 / (r + 1) : ℝ) : ℂ) *
        Complex.exp (Complex.I * ((0 : ℝ) : ℂ)) := by
      unfold z2gammaX
      push_cast
      rw [mul_zero, Complex.exp_zero]
      field_simp
      ring
    rw [e, angleDeg_eq (by positivity) (by simp) (by simp)]
    simp
  have hshape : RCircle r (some (.ninf, .pinf)) = .circle ((r / (r + 1) : ℝ) : ℂ) |1 / (r + 1)|
      (some (angleDeg (z2gammaX r .pinf - ((r / (r + 1) : ℝ) : ℂ)) 0,
        angleDeg (z2gammaX r .ninf - ((r / (r + 1) : ℝ) : ℂ)) 0)) := by
    have : sortEnds .ninf .pinf = (.ninf, .pinf) := by unfold sortEnds; rw [if_pos (show End.le .ninf .pinf from trivial)]
    simp only [RCircle, Option.map_some, this]
  rw [ht1, ht2] at hshape
  have hd := deg_range (a := 2 * Real.pi + -Real.arctan (1e-15 * (r + 1))) (lo := 0) (hi := 360)
    (by linarith) (by linarith)
  refine ⟨_, _, _, _, hshape, rfl, hd.2, fun x hx => ?_⟩
  have h1 := Real.arctan_lt_pi_div_two (x / (r + 1))
  have hle : -(Real.pi / 2 - Real.arctan (1e-15 * (r + 1))) ≤ Real.arctan (x / (r + 1)) := by
    rw [← Real.arctan_inv_of_pos (by positivity), ← Real.arctan_neg, Real.arctan_strictMono.le_iff_le]
    rw [le_div_iff₀ hs]
    have : -(1e-15 * (r + 1))⁻¹ * (r + 1) = -1e15 := by
      field_simp
      norm_num
    rw [this]
    exact hx
  refine ⟨(Real.pi + -2 * Real.arctan (x / (r + 1))) * (180 / Real.pi), ?_, ?_, ?_⟩
  · have : (Real.pi + -2 * Real.arctan (x / (r + 1))) * (180 / Real.pi) / 180 * Real.pi =
        Real.pi + -2 * Real.arctan (x / (r + 1)) := by field_simp
    rw [this, r_diff r x hs.ne', unit_exp _ _ hs]
    have : ((1 / (r + 1) : ℝ) : ℂ) * -Complex.exp (Complex.I * ((-2 * Real.arctan (x / (r + 1)) : ℝ) : ℂ)) =
        ((1 / (r + 1) : ℝ) : ℂ) *
          Complex.exp (Complex.I * ((Real.pi + -2 * Real.arctan (x / (r + 1)) : ℝ) : ℂ)) := by
      rw [← exp_shift, exp_pi]
      ring
    rw [this]
    exact isAngle_pos (by positivity)
  · exact mul_nonneg (by linarith) (by positivity)
  · exact mul_le_mul_of_nonneg_right (by linarith) (by positivity)

/-! ### Non-vacuity -/

example : RCircle 1 none = .circle ((1 / (1 + 1) : ℝ) : ℂ) |1 / (1 + 1)| none ∧ z2gamma 1 = 0 ∧ y2gamma 1 = 0 ∧
    (z2gamma 3).re = 1 / 2 := by
  refine ⟨rfl, by simp [z2gamma], by simp [y2gamma], ?_⟩
  have : z2gamma 3 = ((1 / 2 : ℝ) : ℂ) := by unfold z2gamma; push_cast; norm_num
  rw [this, Complex.ofReal_re]

end HF.Smith
