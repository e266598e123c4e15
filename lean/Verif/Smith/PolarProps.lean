import Verif.Smith.GridProps
/-
C92: polar grids and whole charts.
-/
noncomputable section

namespace HF.Smith

open HF.MathFns (IsAngle isAngle_arg isAngle_rot isAngle_unique isAngle_add norm_exp_I)

theorem white_append {p : ℂ} {l k : List Patch} : Black p (l ++ k) ↔ (Black p l ∧ ∀ b ∈ k, ¬ White p b) ∨ Black p k := by
  induction l with
  | nil => simp [Black]
  | cons a t ih =>
    simp only [List.cons_append, Black, ih, List.mem_append]
    constructor
    · rintro (⟨h1, h2⟩ | ⟨h1, h2⟩ | h)
      · exact .inl ⟨.inl ⟨h1, fun b hb => h2 b (.inl hb)⟩, fun b hb => h2 b (.inr hb)⟩
      · exact .inl ⟨.inr h1, h2⟩
      · exact .inr h
    · rintro (⟨⟨h1, h2⟩ | h1, h3⟩ | h)
      · exact .inl ⟨h1, fun b hb => hb.elim (h2 b) (h3 b)⟩
      · exact .inr (.inl ⟨h1, h3⟩)
      · exact .inr (.inr h)

/-- C92: the Smith chart shows exactly the resistances 0, 1/3, 1, 3 and the reactances 0, ±1/3, ±1, ±3. -/
theorem C92_smith (r x : ℝ) (hr : 0 ≤ r) (hx : -1e15 ≤ x) :
    Black (z2gamma (r + x * Complex.I)) smith ↔ GridR r ∨ GridX x := by
  have hi := C92_impedances .full r x hr hx
  rw [smith, Black, hi]
  constructor
  · rintro (⟨h1, -⟩ | h)
    · have : ‖z2gamma (r + x * Complex.I)‖ = 1 := by simpa [Line, On] using h1
      exact .inl (.inl ((gamma_outer (by linarith)).1 this))
    · exact h.2
  · intro h
    exact .inr ⟨trivial, h⟩

/-- C92: the inverse Smith chart shows exactly the conductances 0, 1/3, 1, 3 and the susceptances 0, ±1/3, ±1, ±3. -/
theorem C92_inv_smith (g b : ℝ) (hg : 0 ≤ g) (hb : |b| ≤ 1e15) :
    Black (y2gamma (g + b * Complex.I)) invSmith ↔ GridR g ∨ GridX b := by
  have hi := C92_admittances .full g b hg hb
  have ho : ‖y2gamma (g + b * Complex.I)‖ = 1 → GridR g := fun h => by
    rw [y2gamma_neg, norm_neg] at h
    exact .inl ((gamma_outer (by linarith)).1 h)
  rw [invSmith, Black, hi]
  constructor
  · rintro (⟨h1, -⟩ | h | h)
    · exact .inl (ho (by simpa [Line, On] using h1))
    · exact h.2
    · exact .inl (ho h.2)
  · intro h
    exact .inr (.inl ⟨trivial, h⟩)

theorem ray_line (p : ℂ) (φ : ℝ) : Line p (.seg 0 (Complex.exp (Complex.I * φ))) ↔ ‖p‖ ≤ 1 ∧ IsAngle p φ := by
  simp only [Line, sub_zero, zero_add]
  constructor
  · rintro ⟨t, h0, h1, rfl⟩
    have hn : ‖(t : ℂ) * Complex.exp (Complex.I * φ)‖ = t := by
      rw [norm_mul, norm_exp_I, mul_one, Complex.norm_real, Real.norm_of_nonneg h0]
    refine ⟨by rw [hn]; exact h1, ?_⟩
    unfold IsAngle
    rw [hn]
  · rintro ⟨h1, h2⟩
    exact ⟨‖p‖, norm_nonneg _, h1, h2⟩

theorem mem_arange {a b s x : ℝ} (n : ℕ) (h : ⌈(b - a) / s⌉ = n) : x ∈ arange a b s ↔ ∃ k : ℕ, k < n ∧ x = a + k * s := by
  simp only [arange, h, Int.toNat_natCast, List.mem_map, List.mem_range]
  constructor
  · rintro ⟨k, h1, rfl⟩
    exact ⟨k, h1, rfl⟩
  · rintro ⟨k, h1, rfl⟩
    exact ⟨k, h1, rfl⟩

theorem radii (ρ : ℝ) : ρ ∈ arange 0 1.001 0.2 ↔ ∃ k : ℕ, k ≤ 5 ∧ ρ = k / 5 := by
  rw [mem_arange 6 (by rw [Int.ceil_eq_iff]; constructor <;> norm_num)]
  constructor
  · rintro ⟨k, h, rfl⟩
    exact ⟨k, by omega, by norm_num; ring⟩
  · rintro ⟨k, h, rfl⟩
    exact ⟨k, by omega, by norm_num; ring⟩

/-- The number of the first ray and that of rays. -/
def rays : Mode → ℕ × ℕ
  | .full => (0, 8)
  | .lower => (4, 5)
  | .upper => (0, 5)

theorem mem_rays (mode : Mode) (φ : ℝ) :
    φ ∈ arange ((polarAngles mode).1 / 180 * Real.pi) ((polarAngles mode).2 / 180 * Real.pi) (Real.pi / 4) ↔
      ∃ j : ℕ, j < (rays mode).2 ∧ φ = (((rays mode).1 + j : ℕ) : ℝ) * (Real.pi / 4) := by
  have hpi := Real.pi_pos
  have hn : ∀ a b : ℝ, (b / 180 * Real.pi - a / 180 * Real.pi) / (Real.pi / 4) = (b - a) / 45 := by
    intro a b
    field_simp
    ring
  have hc : ⌈((polarAngles mode).2 / 180 * Real.pi - (polarAngles mode).1 / 180 * Real.pi) / (Real.pi / 4)⌉ =
      (((rays mode).2 : ℕ) : ℤ) := by
    rw [hn, Int.ceil_eq_iff]
    cases mode <;> simp [polarAngles, rays] <;> constructor <;> norm_num
  rw [mem_arange _ hc]
  refine exists_congr fun j => and_congr_right fun _ => ?_
  have : (polarAngles mode).1 / 180 * Real.pi = ((rays mode).1 : ℝ) * (Real.pi / 4) := by
    cases mode <;> simp [polarAngles, rays]
    ring
  rw [this]
  push_cast
  rw [add_mul]

theorem polar_white (p : ℂ) (mode : Mode) : ∀ a ∈ (polarGrid mode).tail, ¬ White p a := by
  intro a ha
  rcases List.mem_append.1 ha with ha | ha
  · obtain ⟨r, -, rfl⟩ := List.mem_map.1 ha
    exact fun h => h
  · obtain ⟨r, -, rfl⟩ := List.mem_map.1 ha
    exact fun h => h

theorem polar_spec (mode : Mode) (p : ℂ) : Black p (polarGrid mode) ↔ ‖p‖ = 1 ∨
    ((∃ k : ℕ, k ≤ 5 ∧ ‖p‖ = k / 5) ∧ OnArc 0 (polarAngles mode).1 (arcEnd (polarAngles mode).1 (polarAngles mode).2) p) ∨
    ∃ j : ℕ, j < (rays mode).2 ∧ ‖p‖ ≤ 1 ∧ IsAngle p ((((rays mode).1 + j : ℕ) : ℝ) * (Real.pi / 4)) := by
  have hw := polar_white p mode
  have hb := black_lines p _ hw
  have e : polarGrid mode = .disk 0 1 :: (polarGrid mode).tail := rfl
  rw [e, Black, hb]
  have h1 : ∀ P : Prop, (Line p (.disk 0 1) ∧ ∀ b ∈ (polarGrid mode).tail, ¬ White p b) ↔ ‖p‖ = 1 := fun _ =>
    ⟨fun h => by simpa [Line, On] using h.1, fun h => ⟨by simpa [Line, On] using h, hw⟩⟩
  rw [h1 True]
  refine or_congr Iff.rfl ?_
  constructor
  · rintro ⟨b, hb, h⟩
    rcases List.mem_append.1 hb with hb | hb
    · obtain ⟨ρ, hr, rfl⟩ := List.mem_map.1 hb
      obtain ⟨k, hk, rfl⟩ := (radii ρ).1 hr
      obtain ⟨h2, h3⟩ := h
      exact .inl ⟨⟨k, hk, by simpa [On] using h2⟩, h3⟩
    · obtain ⟨φ, hr, rfl⟩ := List.mem_map.1 hb
      obtain ⟨j, hj, rfl⟩ := (mem_rays mode φ).1 hr
      rw [ray_line] at h
      exact .inr ⟨j, hj, h⟩
  · rintro (⟨⟨k, hk, h2⟩, h3⟩ | ⟨j, hj, h⟩)
    · exact ⟨_, List.mem_append.2 (.inl (List.mem_map_of_mem ((radii _).2 ⟨k, hk, rfl⟩))),
        ⟨by simpa [On] using h2, h3⟩⟩
    · exact ⟨_, List.mem_append.2 (.inr (List.mem_map_of_mem ((mem_rays mode _).2 ⟨j, hj, rfl⟩))), (ray_line _ _).2 h⟩

theorem arcEnd_polar_lower : arcEnd 180 360.00001 = 360.00001 := by
  rw [arcEnd_eq 0 (.inr ⟨rfl, by norm_num⟩) (by norm_num)]; norm_num

theorem arcEnd_polar_upper : arcEnd 0 180.000001 = 180.000001 := by
  rw [arcEnd_eq 0 (.inr ⟨rfl, by norm_num⟩) (by norm_num)]; norm_num

/-- The half which a grid is for is within its arcs. -/
theorem polar_arc {mode : Mode} {p : ℂ} (h : mode.Has p.im) :
    OnArc 0 (polarAngles mode).1 (arcEnd (polarAngles mode).1 (polarAngles mode).2) p := by
  cases mode with
  | full =>
    simp only [polarAngles, arcEnd_full]
    exact full_arc p
  | lower =>
    simp only [polarAngles, arcEnd_polar_lower]
    obtain ⟨A, h0, h1, h2⟩ := (lower_arc p).2 h
    exact ⟨A, h0, h1, h2.trans (by norm_num)⟩
  | upper =>
    simp only [polarAngles, arcEnd_polar_upper]
    obtain ⟨A, h0, h1, h2⟩ := (upper_arc p).2 h
    exact ⟨A, h0, h1, h2.trans (by norm_num)⟩

/-- An angle up to whole turns. -/
theorem angle_mod {p : ℂ} {j : ℕ} (h : IsAngle p ((j : ℝ) * (Real.pi / 4))) :
    IsAngle p (((j % 8 : ℕ) : ℝ) * (Real.pi / 4)) := by
  obtain ⟨q, hq⟩ : ∃ q : ℕ, j = 8 * q + j % 8 := ⟨j / 8, (Nat.div_add_mod j 8).symm⟩
  generalize j % 8 = m at hq
  have hj : (j : ℝ) = 8 * (q : ℝ) + m := by exact_mod_cast hq
  have := isAngle_add h (-(q : ℤ))
  have e : (j : ℝ) * (Real.pi / 4) + 2 * Real.pi * ((-(q : ℤ) : ℤ) : ℝ) = (m : ℝ) * (Real.pi / 4) := by
    rw [hj]
    push_cast
    ring
  rwa [e] at this

/-- Rays in a half of the plane. -/
theorem ray_half {mode : Mode} {p : ℂ} (h : mode.Has p.im) {j : ℕ} (hj : IsAngle p ((j : ℝ) * (Real.pi / 4))) :
    ∃ i : ℕ, i < (rays mode).2 ∧ IsAngle p ((((rays mode).1 + i : ℕ) : ℝ) * (Real.pi / 4)) := by
  have hpi := Real.pi_pos
  by_cases h0 : p = 0
  · subst h0
    exact ⟨0, by cases mode <;> simp [rays], by simp [IsAngle]⟩
  have hp : 0 < ‖p‖ := norm_pos_iff.2 h0
  have hm := angle_mod hj
  have hlt : j % 8 < 8 := Nat.mod_lt _ (by norm_num)
  generalize j % 8 = m at hm hlt
  have him := isAngle_im hm
  cases mode with
  | full => exact ⟨m, hlt, by simpa [rays] using hm⟩
  | upper =>
    simp only [Mode.Has] at h
    by_cases h4 : m ≤ 4
    · exact ⟨m, by simp [rays]; omega, by simpa [rays] using hm⟩
    · exfalso
      have h5 : (5 : ℝ) ≤ m := by exact_mod_cast (by omega : 5 ≤ m)
      have h7 : (m : ℝ) ≤ 7 := by exact_mod_cast (by omega : m ≤ 7)
      have : 0 < Real.sin ((m : ℝ) * (Real.pi / 4) - Real.pi) :=
        Real.sin_pos_of_pos_of_lt_pi (by nlinarith) (by nlinarith)
      rw [Real.sin_sub_pi] at this
      nlinarith
  | lower =>
    simp only [Mode.Has] at h
    by_cases h4 : 4 ≤ m
    · exact ⟨m - 4, by simp [rays]; omega, by
        have : (rays .lower).1 + (m - 4) = m := by simp [rays]; omega
        rw [this]; exact hm⟩
    · by_cases hz : m = 0
      · subst hz
        refine ⟨4, by simp [rays], ?_⟩
        have := isAngle_add hm 1
        have e : ((0 : ℕ) : ℝ) * (Real.pi / 4) + 2 * Real.pi * ((1 : ℤ) : ℝ) =
            (((rays .lower).1 + 4 : ℕ) : ℝ) * (Real.pi / 4) := by
          simp [rays]; ring
        rwa [e] at this
      · exfalso
        have h5 : (1 : ℝ) ≤ m := by exact_mod_cast (by omega : 1 ≤ m)
        have h7 : (m : ℝ) ≤ 3 := by exact_mod_cast (by omega : m ≤ 3)
        have : 0 < Real.sin ((m : ℝ) * (Real.pi / 4)) :=
          Real.sin_pos_of_pos_of_lt_pi (by nlinarith) (by nlinarith)
        nlinarith

/-- C92: in the half of the plane which it is for, a polar grid shows exactly the magnitudes 0, 0.2, ..., 1 and the
angles which are multiples of 45 degrees. -/
theorem C92_polar (mode : Mode) (p : ℂ) (h : mode.Has p.im) : Black p (polarGrid mode) ↔
    (∃ k : ℕ, k ≤ 5 ∧ ‖p‖ = k / 5) ∨ (‖p‖ ≤ 1 ∧ ∃ j : ℕ, IsAngle p ((j : ℝ) * (Real.pi / 4))) := by
  rw [polar_spec]
  constructor
  · rintro (h1 | ⟨h1, -⟩ | ⟨j, -, h1, h2⟩)
    · exact .inl ⟨5, le_rfl, by rw [h1]; norm_num⟩
    · exact .inl h1
    · exact .inr ⟨h1, _, h2⟩
  · rintro (h1 | ⟨h1, j, h2⟩)
    · exact .inr (.inl ⟨h1, polar_arc h⟩)
    · obtain ⟨i, h3, h4⟩ := ray_half h h2
      exact .inr (.inr ⟨i, h3, h1, h4⟩)

/-- C92: the other half of the plane has nothing but the outline, up to `2e-7` at the border. -/
theorem C92_polar_outside (mode : Mode) (p : ℂ) (h : ¬ mode.Has p.im) (hb : Black p (polarGrid mode)) :
    ‖p‖ = 1 ∨ |p.im| ≤ 2e-7 := by
  have hpi := Real.pi_pos
  have hpi2 := Real.pi_lt_d2
  rw [polar_spec] at hb
  have ray : ∀ (a : ℝ), IsAngle p a → Real.sin a ≤ 0 → p.im ≤ 0 := fun a h1 h2 => by
    rw [isAngle_im h1]; exact mul_nonpos_of_nonneg_of_nonpos (norm_nonneg _) h2
  have ray' : ∀ (a : ℝ), IsAngle p a → 0 ≤ Real.sin a → 0 ≤ p.im := fun a h1 h2 => by
    rw [isAngle_im h1]; exact mul_nonneg (norm_nonneg _) h2
  have small : ∀ (a e : ℝ), IsAngle p a → ‖p‖ ≤ 1 → |Real.sin a| ≤ e → |p.im| ≤ e := fun a e h1 h2 h3 => by
    rw [isAngle_im h1, abs_mul, abs_of_nonneg (norm_nonneg p)]
    nlinarith [norm_nonneg p, abs_nonneg (Real.sin a)]
  cases mode with
  | full => exact absurd trivial h
  | lower =>
    simp only [Mode.Has, not_le] at h
    rcases hb with h1 | ⟨⟨k, hk, hn⟩, A, h1, h2, h3⟩ | ⟨j, hj, h1, h2⟩
    · exact .inl h1
    · right
      simp only [polarAngles, arcEnd_polar_lower, sub_zero] at h1 h2 h3
      have hp1 : ‖p‖ ≤ 1 := by
        rw [hn, div_le_one (by norm_num)]; exact_mod_cast hk
      by_cases hA : A ≤ 360
      · have := (lower_arc p).1 ⟨A, by simpa using h1, h2, hA⟩
        linarith
      · push_neg at hA
        refine small _ _ h1 hp1 ?_
        have e : Real.sin (A / 180 * Real.pi) = Real.sin (A / 180 * Real.pi - 2 * Real.pi) := by
          rw [Real.sin_sub_two_pi]
        rw [e]
        refine (Real.abs_sin_le_abs).trans ?_
        rw [abs_of_nonneg (by nlinarith)]
        have : A / 180 * Real.pi - 2 * Real.pi = (A - 360) / 180 * Real.pi := by ring
        rw [this]
        have hd : (A - 360) / 180 ≤ 0.00001 / 180 := by
          apply div_le_div_of_nonneg_right _ (by norm_num); linarith
        nlinarith
    · have := ray _ h2 (by
        simp only [rays] at hj ⊢
        have e : (((4 + j : ℕ) : ℝ)) * (Real.pi / 4) = (j : ℝ) * (Real.pi / 4) + Real.pi := by push_cast; ring
        rw [e, Real.sin_add_pi, neg_nonpos]
        have h4 : (j : ℝ) ≤ 4 := by exact_mod_cast (by omega : j ≤ 4)
        exact Real.sin_nonneg_of_nonneg_of_le_pi (by positivity) (by nlinarith))
      linarith
  | upper =>
    simp only [Mode.Has, not_le] at h
    rcases hb with h1 | ⟨⟨k, hk, hn⟩, A, h1, h2, h3⟩ | ⟨j, hj, h1, h2⟩
    · exact .inl h1
    · right
      simp only [polarAngles, arcEnd_polar_upper, sub_zero] at h1 h2 h3
      have hp1 : ‖p‖ ≤ 1 := by
        rw [hn, div_le_one (by norm_num)]; exact_mod_cast hk
      by_cases hA : A ≤ 180
      · have := (upper_arc p).1 ⟨A, by simpa using h1, h2, hA⟩
        linarith
      · push_neg at hA
        refine small _ _ h1 hp1 ?_
        have e : Real.sin (A / 180 * Real.pi) = -Real.sin (A / 180 * Real.pi - Real.pi) := by
          rw [Real.sin_sub_pi, neg_neg]
        rw [e, abs_neg]
        refine (Real.abs_sin_le_abs).trans ?_
        rw [abs_of_nonneg (by nlinarith)]
        have : A / 180 * Real.pi - Real.pi = (A - 180) / 180 * Real.pi := by ring
        rw [this]
        have hd : (A - 180) / 180 ≤ 0.000001 / 180 := by
          apply div_le_div_of_nonneg_right _ (by norm_num); linarith
        nlinarith
    · have := ray' _ h2 (by
        simp only [rays, zero_add] at hj ⊢
        have h4 : (j : ℝ) ≤ 4 := by exact_mod_cast (by omega : j ≤ 4)
        exact Real.sin_nonneg_of_nonneg_of_le_pi (by positivity) (by nlinarith))
      linarith

/-- C92: `smith_polar` shows the polar grid only: the white disk of the polar grid hides the lower half of the Smith
chart. -/
theorem C92_smith_polar_refuted (p : ℂ) (h : ‖p‖ ≤ 1) : Black p smithPolar ↔ Black p (polarGrid .upper) := by
  have hmem : Patch.disk 0 1 ∈ polarGrid .upper := List.mem_cons_self
  have e : smithPolar = (.disk 0 1 :: smithLower) ++ polarGrid .upper := rfl
  rw [e, white_append]
  constructor
  · rintro (⟨-, h2⟩ | h1)
    · have : ¬ ‖p - 0‖ < 1 := h2 _ hmem
      rw [sub_zero] at this
      exact (polar_spec _ _).2 (.inl (le_antisymm h (not_lt.1 this)))
    · exact h1
  · exact .inr

/-- C92: the upper half of the admittance chart has the outline of the lower half. -/
theorem C92_outline_refuted (b : ℝ) (h : 0 < b) (hb : b ≤ 1e15) :
    (y2gamma ((0 : ℝ) + b * Complex.I)).im < 0 ∧ Black (y2gamma ((0 : ℝ) + b * Complex.I)) (smithGrid .upper false) := by
  have him : (y2gamma ((0 : ℝ) + b * Complex.I)).im < 0 := by
    rw [y2gamma_neg, Complex.neg_im, gamma_im, neg_lt_zero]
    positivity
  refine ⟨him, (C92_admittances .upper 0 b le_rfl (by rw [abs_of_pos h]; exact hb)).2 (.inr ⟨him.le, ?_⟩)⟩
  rw [y2gamma_neg, norm_neg]
  exact (gamma_outer (by norm_num)).2 rfl

/-- The impedance `1/3 + 5j` is on a line of the chart, `1/2 + 5j` is not. -/
example : Black (z2gamma ((1 / 3 : ℝ) + (5 : ℝ) * Complex.I)) smith ∧
    ¬ Black (z2gamma ((1 / 2 : ℝ) + (5 : ℝ) * Complex.I)) smith := by
  constructor
  · exact (C92_smith _ _ (by norm_num) (by norm_num)).2 (.inl (by norm_num [GridR]))
  · intro h
    have := (C92_smith _ _ (by norm_num) (by norm_num)).1 h
    norm_num [GridR, GridX] at this

/-- The same for admittances. -/
example : Black (y2gamma ((2 : ℝ) + (-1 : ℝ) * Complex.I)) invSmith ∧
    ¬ Black (y2gamma ((2 : ℝ) + (-2 : ℝ) * Complex.I)) invSmith := by
  constructor
  · exact (C92_inv_smith _ _ (by norm_num) (by norm_num)).2 (.inr (by norm_num [GridX]))
  · intro h
    have := (C92_inv_smith _ _ (by norm_num) (by norm_num)).1 h
    norm_num [GridR, GridX] at this

/-- 0.6j is on the upper polar grid. -/
example : Black (((3 / 5 : ℝ) : ℂ) * Complex.I) (polarGrid .upper) :=
  (C92_polar .upper _ (by norm_num [Mode.Has])).2 (.inl ⟨3, by norm_num, by
    rw [norm_mul, Complex.norm_I, mul_one, Complex.norm_real, Real.norm_eq_abs]; norm_num⟩)

/-- The line through the impedance `3 - 2j` is not to be seen. -/
example : Black (z2gamma ((3 : ℝ) + (-2 : ℝ) * Complex.I)) smithLower ∧
    ¬ Black (z2gamma ((3 : ℝ) + (-2 : ℝ) * Complex.I)) smithPolar := by
  refine ⟨(C92_impedances .lower 3 (-2) (by norm_num) (by norm_num)).2 ⟨by norm_num [Mode.Has], .inl (by norm_num [GridR])⟩,
    fun h => ?_⟩
  have hn : ‖z2gamma ((3 : ℝ) + (-2 : ℝ) * Complex.I)‖ < 1 := by
    rw [z2gamma, norm_div, div_lt_one (norm_pos_iff.2 (right_ne (by norm_num)))]
    rw [← sq_lt_sq₀ (norm_nonneg _) (norm_nonneg _), ← Complex.normSq_eq_norm_sq, ← Complex.normSq_eq_norm_sq,
      Complex.normSq_apply, Complex.normSq_apply]
    norm_num
  have him := gamma_im 3 (-2)
  rcases C92_polar_outside .upper _ (by rw [Mode.Has, him]; norm_num) ((C92_smith_polar_refuted _ hn.le).1 h) with h1 | h1
  · exact hn.ne h1
  · rw [him] at h1
    norm_num at h1

end HF.Smith
