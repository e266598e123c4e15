import Verif.Smith.GridSpec
import Verif.Smith.InfProps
/-
C92: what the grids of the Smith chart show.
-/
noncomputable section

namespace HF.Smith

open HF.MathFns (IsAngle isAngle_arg isAngle_rot isAngle_unique isAngle_add norm_exp_I)

theorem black_lines (p : ℂ) : ∀ l : List Patch, (∀ a ∈ l, ¬ White p a) → (Black p l ↔ ∃ a ∈ l, Line p a)
  | [], _ => by simp [Black]
  | a :: t, h => by
    rw [Black, black_lines p t fun b hb => h b (List.mem_cons_of_mem _ hb), List.exists_mem_cons_iff]
    constructor
    · rintro (⟨h1, -⟩ | h1)
      · exact .inl h1
      · exact .inr h1
    · rintro (h1 | h1)
      · exact .inl ⟨h1, fun b hb => h b (List.mem_cons_of_mem _ hb)⟩
      · exact .inr h1

theorem arcEnd_eq {t1 t2 : ℝ} (k : ℤ) (h1 : t1 < t2 + 360 * k ∨ k = 0 ∧ t1 ≤ t2) (h2 : t2 + 360 * k < t1 + 360) :
    arcEnd t1 t2 = t2 + 360 * k := by
  have hle : t1 ≤ t2 + 360 * k := by
    rcases h1 with h | ⟨rfl, h⟩
    · exact h.le
    · simpa using h
  have hf : ⌊(t2 - t1) / 360⌋ = -k := by
    rw [Int.floor_eq_iff]
    push_cast
    constructor
    · rw [le_div_iff₀ (by norm_num)]; linarith
    · rw [div_lt_iff₀ (by norm_num)]; linarith
  unfold arcEnd
  simp only [hf]
  push_cast
  rw [if_neg]
  · ring
  · rintro ⟨hne, he⟩
    rcases h1 with h | ⟨rfl, h⟩
    · linarith
    · apply hne
      push_cast at he
      linarith

theorem gamma_ne_one {z : ℂ} (h : z + 1 ≠ 0) : z2gamma z ≠ 1 := by
  intro h1
  unfold z2gamma at h1
  rw [div_eq_one_iff_eq h] at h1
  have := congrArg Complex.re h1
  simp at this
  linarith

theorem gamma_inj {z w : ℂ} (hz : z + 1 ≠ 0) (hw : w + 1 ≠ 0) (h : z2gamma z = z2gamma w) : z = w := by
  unfold z2gamma at h
  rw [div_eq_div_iff hz hw] at h
  linear_combination h / 2

theorem right_ne {r x : ℝ} (h : -1 < r) : ((r : ℂ) + x * Complex.I) + 1 ≠ 0 := by
  intro h0
  have := congrArg Complex.re h0
  simp at this
  linarith

theorem parts {r x r' x' : ℝ} (h : (r : ℂ) + x * Complex.I = r' + x' * Complex.I) : r = r' ∧ x = x' := by
  have h1 := congrArg Complex.re h
  have h2 := congrArg Complex.im h
  simp at h1 h2
  exact ⟨h1, h2⟩

/-- Real and imaginary part of a reflection. -/
theorem gamma_im (r x : ℝ) : (z2gamma (r + x * Complex.I)).im = 2 * x / ((r + 1) ^ 2 + x ^ 2) := by
  unfold z2gamma
  rw [Complex.div_im, Complex.normSq_apply]
  simp
  rw [← sub_div]
  congr 1 <;> ring

theorem im_nonneg_iff {r x : ℝ} (h : -1 < r) : 0 ≤ (z2gamma (r + x * Complex.I)).im ↔ 0 ≤ x := by
  have hd : 0 < (r + 1) ^ 2 + x ^ 2 := by nlinarith [sq_nonneg x]
  rw [gamma_im, le_div_iff₀ hd]
  constructor <;> intro h <;> linarith

theorem im_nonpos_iff {r x : ℝ} (h : -1 < r) : (z2gamma (r + x * Complex.I)).im ≤ 0 ↔ x ≤ 0 := by
  have hd : 0 < (r + 1) ^ 2 + x ^ 2 := by nlinarith [sq_nonneg x]
  rw [gamma_im, div_le_iff₀ hd]
  constructor <;> intro h <;> linarith

/-! ### Resistances and reactances -/

theorem on_r {r' : ℝ} (h' : -1 < r') {r x : ℝ} (h : -1 < r) :
    On ((r' / (r' + 1) : ℝ) : ℂ) |1 / (r' + 1)| (z2gamma (r + x * Complex.I)) ↔ r = r' := by
  obtain ⟨c, ρ, hs, h1, h2⟩ := C37_R r' (by linarith)
  simp only [RCircle, Option.map_none, Shape.circle.injEq] at hs
  obtain ⟨rfl, rfl, -⟩ := hs
  constructor
  · intro ho
    obtain ⟨y, hy⟩ := h2 _ ho (gamma_ne_one (right_ne h))
    exact (parts (gamma_inj (right_ne h') (right_ne h) hy)).1.symm
  · rintro rfl
    exact h1 x

theorem on_x {x' : ℝ} (h' : x' ≠ 0) {r x : ℝ} (h : -1 < r) :
    On (1 + ((1 / x' : ℝ) : ℂ) * Complex.I) |1 / x'| (z2gamma (r + x * Complex.I)) ↔ x = x' := by
  obtain ⟨c, ρ, hs, h1, h2⟩ := C37_X x' h'
  simp only [XCircle, if_neg h', Option.map_none, Shape.circle.injEq] at hs
  obtain ⟨rfl, rfl, -⟩ := hs
  constructor
  · intro ho
    obtain ⟨y, hy⟩ := h2 _ ho (gamma_ne_one (right_ne h))
    have hne : ((y : ℂ) + x' * Complex.I) + 1 ≠ 0 := by
      intro h0
      have := congrArg Complex.im h0
      simp at this
      exact h' this
    exact (parts (gamma_inj hne (right_ne h) hy)).2.symm
  · rintro rfl
    exact h1 r

theorem circle_inj {c c' : ℂ} {r r' : ℝ} {a a' : Option (ℝ × ℝ)} (h : Shape.circle c r a = .circle c' r' a') :
    c = c' ∧ r = r' ∧ a = a' := by
  simpa using h

theorem line_arc {c : ℂ} {ρ t1 t2 : ℝ} {p : ℂ} (k : ℤ) (h1 : t1 < t2 + 360 * k ∨ k = 0 ∧ t1 ≤ t2)
    (h2 : t2 + 360 * k < t1 + 360) :
    Line p (Shape.circle c ρ (some (t1, t2))).artist ↔ On c ρ p ∧ OnArc c t1 (t2 + 360 * k) p := by
  simp only [Shape.artist, Line, arcEnd_eq k h1 h2]

theorem line_arc0 {c : ℂ} {ρ t1 t2 : ℝ} {p q : ℂ} (h1 : OnArc c t1 t2 q) (h2 : t2 < t1 + 360) :
    Line p (Shape.circle c ρ (some (t1, t2))).artist ↔ On c ρ p ∧ OnArc c t1 t2 p := by
  obtain ⟨A, -, a1, a2⟩ := h1
  rw [line_arc 0 (.inr ⟨rfl, a1.trans a2⟩) (by simpa using h2)]
  simp

/-- The line of a resistance. -/
theorem r_line (mode : Mode) {r' : ℝ} (h' : -1 < r') {r x : ℝ} (h : -1 < r) (hx : -1e15 ≤ x) :
    Line (z2gamma (r + x * Complex.I)) (RCircle r' (some (gridLims true mode))).artist ↔ r = r' ∧ mode.Has x := by
  cases mode with
  | full =>
    obtain ⟨c, ρ, t1, t2, hs, h0, h1, h2⟩ := C37_R_full r' h'
    have hc := hs
    simp only [RCircle, Option.map_some] at hc
    obtain ⟨e1, e2, -⟩ := circle_inj hc
    rw [gridLims, hs, line_arc0 (h2 0 (by norm_num)) (by rw [h0]; linarith), ← e1, ← e2, on_r h' h]
    refine ⟨fun w => ⟨w.1, trivial⟩, ?_⟩
    rintro ⟨rfl, -⟩
    rw [e1]
    exact ⟨rfl, h2 x hx⟩
  | lower =>
    obtain ⟨c, ρ, t1, t2, hs, h1, h2⟩ := C37_R_lower r' h' 0
    have hc := hs
    simp only [RCircle, Option.map_some] at hc
    obtain ⟨e1, e2, -⟩ := circle_inj hc
    rw [gridLims, hs, line_arc0 ((h2 0 (by norm_num)).2 le_rfl) h1, ← e1, ← e2, on_r h' h, e1]
    refine and_congr_right fun hr => ?_
    subst hr
    exact h2 x hx
  | upper =>
    obtain ⟨c, ρ, t1, t2, hs, h1, h2⟩ := C37_R_upper r' h' 0
    have hc := hs
    simp only [RCircle, Option.map_some] at hc
    obtain ⟨e1, e2, -⟩ := circle_inj hc
    rw [gridLims, hs, line_arc0 ((h2 0).2 le_rfl) h1, ← e1, ← e2, on_r h' h, e1]
    refine and_congr_right fun hr => ?_
    subst hr
    exact h2 x

/-- The line of a reactance. -/
theorem x_line {x' : ℝ} (h' : -1e15 < x') {r x : ℝ} (h : 0 ≤ r) :
    Line (z2gamma (r + x * Complex.I)) (XCircle x' (some (.fin 0, .pinf))).artist ↔ x = x' := by
  have hr : -1 < r := by linarith
  by_cases h0 : x' = 0
  · subst h0
    have hs : (XCircle 0 (some (.fin 0, .pinf))).artist = .seg (-1) 1 := by
      simp [XCircle, realEnd, Shape.artist, z2gamma]
    rw [hs]
    have h1 : (0 : ℝ) < r + 1 := by linarith
    constructor
    · rintro ⟨t, -, -, ht⟩
      have := congrArg Complex.im ht
      rw [gamma_im] at this
      simp at this
      rcases this with h2 | h2
      · exact h2
      · nlinarith [sq_nonneg x]
    · rintro rfl
      refine ⟨r / (r + 1), by positivity, by rw [div_le_one h1]; linarith, ?_⟩
      have h1' : (r : ℂ) + 1 ≠ 0 := by exact_mod_cast h1.ne'
      unfold z2gamma
      push_cast
      simp
      field_simp
      ring
  · obtain ⟨c, ρ, t1, t2, hs, a1, a2, h2⟩ := C37_X_inf x' h0 h' 0 (by norm_num)
    have hc := hs
    simp only [XCircle, if_neg h0, Option.map_some] at hc
    obtain ⟨e1, e2, -⟩ := circle_inj hc
    rw [hs, line_arc0 ((h2 0 (by norm_num)).2 le_rfl) a2, ← e1, ← e2, on_x h0 hr, e1]
    constructor
    · exact fun w => w.1
    · rintro rfl
      exact ⟨rfl, (h2 r hr).2 h⟩

/-! ### The outline -/

theorem isAngle_neg {z : ℂ} {a : ℝ} (h : IsAngle (-z) a) : IsAngle z (a + Real.pi) := by
  unfold IsAngle at *
  rw [norm_neg] at h
  have e : Complex.exp (Complex.I * ((a + Real.pi : ℝ) : ℂ)) = -Complex.exp (Complex.I * a) := by
    rw [← exp_shift, exp_pi]; ring
  rw [e, mul_neg, ← h, neg_neg]

theorem isAngle_im {z : ℂ} {a : ℝ} (h : IsAngle z a) : z.im = ‖z‖ * Real.sin a := by
  have := congrArg Complex.im h
  rwa [mul_comm Complex.I, Complex.im_ofReal_mul, Complex.exp_ofReal_mul_I_im] at this

theorem deg_rad (a : ℝ) : a * (180 / Real.pi) / 180 * Real.pi = a := by
  have := Real.pi_pos.ne'
  field_simp

theorem upper_arc (q : ℂ) : OnArc 0 0 180 q ↔ 0 ≤ q.im := by
  have hpi := Real.pi_pos
  unfold OnArc
  rw [sub_zero]
  constructor
  · rintro ⟨A, h, h1, h2⟩
    rw [isAngle_im h]
    refine mul_nonneg (norm_nonneg _) (Real.sin_nonneg_of_nonneg_of_le_pi (by positivity) ?_)
    rw [div_mul_eq_mul_div, div_le_iff₀ (by norm_num)]
    nlinarith
  · intro h
    refine ⟨Complex.arg q * (180 / Real.pi), by rw [deg_rad]; exact isAngle_arg q, ?_, ?_⟩
    · have := Complex.arg_nonneg_iff.2 h
      positivity
    · have := Complex.arg_le_pi q
      rw [mul_div_assoc', div_le_iff₀ hpi]
      nlinarith

theorem lower_arc (q : ℂ) : OnArc 0 180 360 q ↔ q.im ≤ 0 := by
  have hpi := Real.pi_pos
  constructor
  · rintro ⟨A, h, h1, h2⟩
    rw [sub_zero] at h
    rw [isAngle_im h]
    have e : Real.sin (A / 180 * Real.pi) = -Real.sin (A / 180 * Real.pi - Real.pi) := by
      rw [Real.sin_sub_pi, neg_neg]
    rw [e, mul_neg, neg_nonpos]
    refine mul_nonneg (norm_nonneg _) (Real.sin_nonneg_of_nonneg_of_le_pi ?_ ?_)
    · have : (1 : ℝ) ≤ A / 180 := by rw [le_div_iff₀ (by norm_num)]; linarith
      nlinarith
    · have : A / 180 ≤ 2 := by rw [div_le_iff₀ (by norm_num)]; linarith
      nlinarith
  · intro h
    obtain ⟨A, h0, h1, h2⟩ := (upper_arc (-q)).2 (by simpa using h)
    rw [sub_zero] at h0
    refine ⟨A + 180, ?_, by linarith, by linarith⟩
    have := isAngle_neg h0
    rw [sub_zero]
    have e : (A + 180) / 180 * Real.pi = A / 180 * Real.pi + Real.pi := by ring
    rwa [e]

theorem full_arc (q : ℂ) : OnArc 0 0 360 q := by
  rcases le_total 0 q.im with h | h
  · obtain ⟨A, h0, h1, h2⟩ := (upper_arc q).2 h
    exact ⟨A, h0, h1, by linarith⟩
  · obtain ⟨A, h0, h1, h2⟩ := (lower_arc q).2 h
    exact ⟨A, h0, by linarith, h2⟩

theorem arcEnd_upper : arcEnd 0 180 = 180 := by
  rw [arcEnd_eq 0 (.inr ⟨rfl, by norm_num⟩) (by norm_num)]; norm_num

theorem arcEnd_lower : arcEnd 180 360 = 360 := by
  rw [arcEnd_eq 0 (.inr ⟨rfl, by norm_num⟩) (by norm_num)]; norm_num

theorem arcEnd_full : arcEnd 0 360 = 360 := by
  norm_num [arcEnd]

/-- The arc around a half of the chart. -/
theorem half_line (mode : Mode) (q : ℂ) (ρ : ℝ) :
    Line q (.arc 0 ρ (gridAngles true mode).1 (gridAngles true mode).2) ↔ ‖q‖ = ρ ∧ mode.Has q.im := by
  cases mode with
  | full =>
    simp only [Line, gridAngles, arcEnd_full, On, sub_zero, Mode.Has, full_arc, and_true]
  | lower =>
    simp only [Line, gridAngles, arcEnd_lower, On, sub_zero, Mode.Has, lower_arc]
  | upper =>
    simp only [Line, gridAngles, arcEnd_upper, On, sub_zero, Mode.Has, upper_arc]

theorem gamma_has (mode : Mode) {r x : ℝ} (h : -1 < r) :
    mode.Has (z2gamma (r + x * Complex.I)).im ↔ mode.Has x := by
  cases mode with
  | full => exact Iff.rfl
  | lower => exact im_nonpos_iff h
  | upper => exact im_nonneg_iff h

theorem gamma_outer {r x : ℝ} (h : -1 < r) : ‖z2gamma (r + x * Complex.I)‖ = 1 ↔ r = 0 := by
  have := on_r (r' := 0) (by norm_num) (x := x) h
  simpa [On] using this

theorem grid_x (mode : Mode) (x : ℝ) : x ∈ gridLevels true mode ↔ GridX x ∧ mode.Has x := by
  have habs : ∀ a : ℝ, 0 < a → (|x| = a ↔ x = a ∨ x = -a) := fun a ha => abs_eq ha.le
  rw [GridX, habs _ (by norm_num), habs _ (by norm_num), habs _ (by norm_num)]
  cases mode <;> simp [gridLevels, Mode.Has]
  · grind
  · grind
  · grind

theorem split_lines (p : ℂ) (a : Patch) (l k : List ℝ) (f g : ℝ → Patch) :
    (∃ b ∈ a :: (l.map f ++ k.map g), Line p b) ↔
      Line p a ∨ (∃ r ∈ l, Line p (f r)) ∨ ∃ x ∈ k, Line p (g x) := by
  constructor
  · rintro ⟨b, hb, h⟩
    rcases List.mem_cons.1 hb with rfl | hb
    · exact .inl h
    · rcases List.mem_append.1 hb with hb | hb
      · obtain ⟨r, hr, rfl⟩ := List.mem_map.1 hb
        exact .inr (.inl ⟨r, hr, h⟩)
      · obtain ⟨r, hr, rfl⟩ := List.mem_map.1 hb
        exact .inr (.inr ⟨r, hr, h⟩)
  · rintro (h | ⟨r, hr, h⟩ | ⟨r, hr, h⟩)
    · exact ⟨a, List.mem_cons_self, h⟩
    · exact ⟨_, List.mem_cons_of_mem _ (List.mem_append.2 (.inl (List.mem_map_of_mem hr))), h⟩
    · exact ⟨_, List.mem_cons_of_mem _ (List.mem_append.2 (.inr (List.mem_map_of_mem hr))), h⟩

theorem artist_white (p : ℂ) (s : Shape) : ¬ White p s.artist := by
  rcases s with ⟨c, r, _ | t⟩ | ⟨x1, x2⟩ <;> exact fun h => h

theorem grid_white (p : ℂ) (mode : Mode) (st : Bool) : ∀ a ∈ smithGrid mode st, ¬ White p a := by
  intro a ha
  rcases List.mem_cons.1 ha with rfl | ha
  · exact fun h => h
  · rcases List.mem_append.1 ha with ha | ha
    · obtain ⟨r, -, rfl⟩ := List.mem_map.1 ha
      exact artist_white _ _
    · obtain ⟨r, -, rfl⟩ := List.mem_map.1 ha
      exact artist_white _ _

theorem grid_r (r : ℝ) : r ∈ [0, 1 / 3, 1, 3] ↔ GridR r := by
  simp [GridR]

theorem level_far {mode : Mode} {st : Bool} {x : ℝ} (h : x ∈ gridLevels st mode) : |x| < 1e15 := by
  have : x = 0 ∨ x = 1 / 3 ∨ x = 1 ∨ x = 3 ∨ x = -1 / 3 ∨ x = -1 ∨ x = -3 := by
    cases mode <;> cases st <;> simp [gridLevels] at h ⊢ <;> grind
  rcases this with rfl | rfl | rfl | rfl | rfl | rfl | rfl <;> rw [abs_lt] <;> constructor <;> norm_num

/-- C92: a half or the whole of the grid of impedances shows exactly the resistances 0, 1/3, 1, 3
and the reactances 0, ±1/3, ±1, ±3 in this half (reactances from `-1e15`). -/
theorem C92_impedances (mode : Mode) (r x : ℝ) (hr : 0 ≤ r) (hx : -1e15 ≤ x) :
    Black (z2gamma (r + x * Complex.I)) (smithGrid mode true) ↔ mode.Has x ∧ (GridR r ∨ GridX x) := by
  have hr' : -1 < r := by linarith
  rw [black_lines _ _ (grid_white _ _ _)]
  simp only [smithGrid, if_true]
  rw [split_lines, half_line, gamma_has mode hr', gamma_outer hr']
  constructor
  · rintro (⟨h1, h2⟩ | ⟨r', h1, h2⟩ | ⟨x', h1, h2⟩)
    · exact ⟨h2, .inl (.inl h1)⟩
    · rw [grid_r] at h1
      obtain ⟨rfl, h3⟩ := (r_line mode (by rcases h1 with rfl | rfl | rfl | rfl <;> norm_num) hr' hx).1 h2
      exact ⟨h3, .inl h1⟩
    · have := (x_line (abs_lt.1 (level_far h1)).1 hr).1 h2
      subst this
      obtain ⟨h3, h4⟩ := (grid_x mode x).1 h1
      exact ⟨h4, .inr h3⟩
  · rintro ⟨h1, h2 | h2⟩
    · exact .inr (.inl ⟨r, (grid_r r).2 h2, (r_line mode hr' hr' hx).2 ⟨rfl, h1⟩⟩)
    · have hm := (grid_x mode x).2 ⟨h2, h1⟩
      exact .inr (.inr ⟨x, hm, (x_line (abs_lt.1 (level_far hm)).1 hr).2 rfl⟩)

/-! ### Conductances and susceptances -/

theorem on_g {g' : ℝ} (h' : -1 < g') {g b : ℝ} (h : -1 < g) :
    On ((-g' / (g' + 1) : ℝ) : ℂ) |1 / (g' + 1)| (y2gamma (g + b * Complex.I)) ↔ g = g' := by
  have : ((-g' / (g' + 1) : ℝ) : ℂ) = -((g' / (g' + 1) : ℝ) : ℂ) := by push_cast; ring
  rw [this, on_neg, y2gamma_neg, neg_neg, on_r h' h]

theorem on_b {b' : ℝ} (h' : b' ≠ 0) {g b : ℝ} (h : -1 < g) :
    On (-1 + ((-1 / b' : ℝ) : ℂ) * Complex.I) |1 / b'| (y2gamma (g + b * Complex.I)) ↔ b = b' := by
  have : -1 + ((-1 / b' : ℝ) : ℂ) * Complex.I = -(1 + ((1 / b' : ℝ) : ℂ) * Complex.I) := by push_cast; ring
  rw [this, on_neg, y2gamma_neg, neg_neg, on_x h' h]

/-- The line of a conductance. -/
theorem g_line (mode : Mode) {g' : ℝ} (h' : -1 < g') {g b : ℝ} (h : -1 < g) (hb : |b| ≤ 1e15) :
    Line (y2gamma (g + b * Complex.I)) (GCircle g' (some (gridLims false mode))).artist ↔ g = g' ∧ mode.Has (-b) := by
  rw [abs_le] at hb
  cases mode with
  | full =>
    obtain ⟨c, ρ, t1, t2, hs, h0, h1, h3, h2⟩ := C37_G_full g' h'
    have hc := hs
    simp only [GCircle, Option.map_some] at hc
    obtain ⟨e1, e2, -⟩ := circle_inj hc
    rw [gridLims, hs, line_arc0 (h2 0 (by norm_num) (by norm_num)) (by linarith), ← e1, ← e2, on_g h' h]
    refine ⟨fun w => ⟨w.1, trivial⟩, ?_⟩
    rintro ⟨rfl, -⟩
    rw [e1]
    exact ⟨rfl, h2 b hb.1 hb.2⟩
  | lower =>
    obtain ⟨c, ρ, t1, t2, hs, h1, h2⟩ := C37_G_upper g' h' 0
    have hc := hs
    simp only [GCircle, Option.map_some] at hc
    obtain ⟨e1, e2, -⟩ := circle_inj hc
    rw [gridLims, hs, line_arc0 ((h2 0 (by norm_num)).2 le_rfl) h1, ← e1, ← e2, on_g h' h, e1]
    refine and_congr_right fun hr => ?_
    subst hr
    rw [h2 b hb.2]
    exact neg_nonpos.symm
  | upper =>
    obtain ⟨c, ρ, t1, t2, hs, h1, h2⟩ := C37_G_lower g' h' 0
    have hc := hs
    simp only [GCircle, Option.map_some] at hc
    obtain ⟨e1, e2, -⟩ := circle_inj hc
    rw [gridLims, hs, line_arc0 ((h2 0 (by norm_num)).2 le_rfl) h1, ← e1, ← e2, on_g h' h, e1]
    refine and_congr_right fun hr => ?_
    subst hr
    rw [h2 b hb.1]
    exact neg_nonneg.symm

/-- The line of a susceptance. -/
theorem b_line {b' : ℝ} (h' : |b'| < 1e15) {g b : ℝ} (h : 0 ≤ g) :
    Line (y2gamma (g + b * Complex.I)) (BCircle b' (some (.fin 0, .pinf))).artist ↔ b = b' := by
  have hg : -1 < g := by linarith
  by_cases h0 : b' = 0
  · subst h0
    have hs : (BCircle 0 (some (.fin 0, .pinf))).artist = .seg (-1) 1 := by
      simp [BCircle, realEnd, Shape.artist, z2gamma]
    have hs' : (XCircle 0 (some (.fin 0, .pinf))).artist = .seg (-1) 1 := by
      simp [XCircle, realEnd, Shape.artist, z2gamma]
    rw [hs, ← x_line (x' := 0) (by norm_num) h, hs', y2gamma_neg]
    constructor
    · rintro ⟨t, t1, t2, ht⟩
      refine ⟨1 - t, by linarith, by linarith, ?_⟩
      push_cast
      linear_combination -ht
    · rintro ⟨t, t1, t2, ht⟩
      refine ⟨1 - t, by linarith, by linarith, ?_⟩
      push_cast
      linear_combination -ht
  · obtain ⟨c, ρ, t1, t2, k, hs, a1, a2, h2⟩ := C37_B_inf b' h0 h' 0 (by norm_num)
    have hc := hs
    simp only [BCircle, if_neg h0] at hc
    obtain ⟨e1, e2, -⟩ := circle_inj hc
    rw [hs, line_arc k (.inl a1) a2, ← e1, ← e2, on_b h0 hg, e1]
    constructor
    · exact fun w => w.1
    · rintro rfl
      exact ⟨rfl, (h2 g hg).2 h⟩

/-- The other half. -/
def Mode.other : Mode → Mode
  | .full => .full
  | .lower => .upper
  | .upper => .lower

theorem angles_other (mode : Mode) : gridAngles false mode = gridAngles true mode.other := by
  cases mode <;> rfl

theorem has_neg (mode : Mode) (x : ℝ) : mode.Has (-x) ↔ mode.other.Has x := by
  cases mode <;> simp [Mode.Has, Mode.other]

theorem grid_b (mode : Mode) (b : ℝ) : b ∈ gridLevels false mode ↔ GridX b ∧ mode.Has (-b) := by
  rw [has_neg, ← grid_x]
  cases mode <;> simp [gridLevels, Mode.other]
  grind

/-- C92: a half or the whole of the grid of admittances shows exactly the conductances 0, 1/3, 1, 3
and the susceptances 0, ±1/3, ±1, ±3 in this half (susceptances up to `1e15`), but in addition the outline of the
other half. -/
theorem C92_admittances (mode : Mode) (g b : ℝ) (hg : 0 ≤ g) (hb : |b| ≤ 1e15) :
    Black (y2gamma (g + b * Complex.I)) (smithGrid mode false) ↔
      (mode.Has (y2gamma (g + b * Complex.I)).im ∧ (GridR g ∨ GridX b)) ∨
      (mode.other.Has (y2gamma (g + b * Complex.I)).im ∧ ‖y2gamma (g + b * Complex.I)‖ = 1) := by
  have hg' : -1 < g := by linarith
  have him : mode.Has (y2gamma (g + b * Complex.I)).im ↔ mode.Has (-b) := by
    rw [y2gamma_neg, Complex.neg_im, has_neg, gamma_has _ hg', has_neg]
  rw [black_lines _ _ (grid_white _ _ _), him]
  simp only [smithGrid, Bool.false_eq_true, if_false]
  rw [split_lines, angles_other, half_line]
  constructor
  · rintro (⟨h1, h2⟩ | ⟨r', h1, h2⟩ | ⟨x', h1, h2⟩)
    · exact .inr ⟨h2, h1⟩
    · rw [grid_r] at h1
      obtain ⟨rfl, h3⟩ := (g_line mode (by rcases h1 with rfl | rfl | rfl | rfl <;> norm_num) hg' hb).1 h2
      exact .inl ⟨h3, .inl h1⟩
    · have := (b_line (level_far h1) hg).1 h2
      subst this
      obtain ⟨h3, h4⟩ := (grid_b mode b).1 h1
      exact .inl ⟨h4, .inr h3⟩
  · rintro (⟨h1, h2 | h2⟩ | ⟨h1, h2⟩)
    · exact .inr (.inl ⟨g, (grid_r g).2 h2, (g_line mode hg' hg' hb).2 ⟨rfl, h1⟩⟩)
    · have hm := (grid_b mode b).2 ⟨h2, h1⟩
      exact .inr (.inr ⟨b, hm, (b_line (level_far hm) hg).2 rfl⟩)
    · exact .inl ⟨h2, h1⟩

end HF.Smith
