import Verif.MathFns.Model
import Mathlib.Tactic.LinearCombination
import Mathlib.Tactic.FieldSimp
import Mathlib.Analysis.Real.Pi.Bounds
/-
C32 and C33: angles, unwrapping, decibels.
-/
noncomputable section

namespace HF.MathFns

/-- `θ` (radians) is an angle of `z`. -/
def IsAngle (z : ℂ) (θ : ℝ) : Prop := z = ‖z‖ * Complex.exp (Complex.I * θ)

theorem isAngle_unique {z : ℂ} (hz : z ≠ 0) {a b : ℝ} (ha : IsAngle z a) (hb : IsAngle z b) :
    ∃ k : ℤ, a = b + 2 * Real.pi * k := by
  have hn : (‖z‖ : ℂ) ≠ 0 := by simpa using hz
  have : Complex.exp (Complex.I * a) = Complex.exp (Complex.I * b) :=
    mul_left_cancel₀ hn (ha.symm.trans hb)
  obtain ⟨k, hk⟩ := Complex.exp_eq_exp_iff_exists_int.1 this
  refine ⟨k, ?_⟩
  have h2 := congrArg Complex.im hk
  simp at h2
  linarith

theorem isAngle_add {z : ℂ} {a : ℝ} (ha : IsAngle z a) (k : ℤ) : IsAngle z (a + 2 * Real.pi * k) := by
  unfold IsAngle at *
  rw [ha]
  have : Complex.exp (Complex.I * ((a + 2 * Real.pi * k : ℝ) : ℂ)) = Complex.exp (Complex.I * a) := by
    apply Complex.exp_eq_exp_iff_exists_int.2
    refine ⟨k, ?_⟩
    push_cast
    ring
  rw [this, ← ha, ← ha]

theorem isAngle_arg (z : ℂ) : IsAngle z (Complex.arg z) := by
  unfold IsAngle
  rw [mul_comm Complex.I]
  exact (Complex.norm_mul_exp_arg_mul_I z).symm

theorem norm_exp_I (θ : ℝ) : ‖Complex.exp (Complex.I * θ)‖ = 1 := by
  rw [mul_comm]
  exact Complex.norm_exp_ofReal_mul_I θ

theorem isAngle_rot {z : ℂ} {B : ℝ} {θ : ℝ} (h : IsAngle (z / Complex.exp (Complex.I * B)) θ) :
    IsAngle z (θ + B) := by
  unfold IsAngle at *
  rw [norm_div, norm_exp_I, div_one, div_eq_iff (Complex.exp_ne_zero _)] at h
  conv_lhs => rw [h]
  rw [mul_assoc, ← Complex.exp_add]
  congr 2
  push_cast
  ring

theorem angleRad_eq (z : ℂ) (b : ℝ) :
    angleRad z (some b) = Complex.arg (z / Complex.exp (Complex.I * ((b + Real.pi : ℝ) : ℂ))) + (b + Real.pi) := by
  simp [angleRad, npAngle]

theorem angleRad_none (z : ℂ) : angleRad z none = Complex.arg z := by
  simp [angleRad, npAngle]

/-- C32: `angle(z, branch=b)` is an angle of `z` in the interval of length `2 pi` that begins after
`b`. -/
theorem C32_angle (z : ℂ) (b : ℝ) :
    IsAngle z (angleRad z (some b)) ∧ b < angleRad z (some b) ∧ angleRad z (some b) ≤ b + 2 * Real.pi := by
  rw [angleRad_eq]
  refine ⟨isAngle_rot (isAngle_arg _), ?_, ?_⟩
  · linarith [Complex.neg_pi_lt_arg (z / Complex.exp (Complex.I * ((b + Real.pi : ℝ) : ℂ)))]
  · linarith [Complex.arg_le_pi (z / Complex.exp (Complex.I * ((b + Real.pi : ℝ) : ℂ)))]

/-- C32: and it is the only one there. -/
theorem C32_angle_unique (z : ℂ) (hz : z ≠ 0) (b θ : ℝ) (h : IsAngle z θ) (h1 : b < θ)
    (h2 : θ ≤ b + 2 * Real.pi) : angleRad z (some b) = θ := by
  obtain ⟨h3, h4, h5⟩ := C32_angle z b
  obtain ⟨k, hk⟩ := isAngle_unique hz h3 h
  have hp := Real.pi_pos
  have : k = 0 := by
    by_contra hne
    rcases lt_or_gt_of_ne hne with h | h
    · have : (k : ℝ) ≤ -1 := by exact_mod_cast Int.le_sub_one_of_lt h
      nlinarith
    · have : (1 : ℝ) ≤ k := by exact_mod_cast h
      nlinarith
  rw [hk, this]
  simp

/-- C32: without a branch the interval begins after `-pi`. -/
theorem C32_angle_default (z : ℂ) : angleRad z none = angleRad z (some (-Real.pi)) ∧
    angleDeg z none = angleDeg z (some (-180)) := ⟨rfl, rfl⟩

theorem angleDeg_eq (z : ℂ) (b : ℝ) :
    angleDeg z (some b) = angleRad z (some (b / 180 * Real.pi)) * (180 / Real.pi) := by
  have hp := Real.pi_ne_zero
  have e : (b - -180) / 180 * Real.pi = b / 180 * Real.pi - -Real.pi := by ring
  simp only [angleDeg, angleRad, e]
  rw [add_mul]
  congr 1
  field_simp

/-- C32: in degrees. -/
theorem C32_angle_deg (z : ℂ) (b : ℝ) :
    IsAngle z (angleDeg z (some b) / 180 * Real.pi) ∧ b < angleDeg z (some b) ∧
    angleDeg z (some b) ≤ b + 360 := by
  have hp := Real.pi_pos
  obtain ⟨h1, h2, h3⟩ := C32_angle z (b / 180 * Real.pi)
  rw [angleDeg_eq]
  refine ⟨?_, ?_, ?_⟩
  · have : angleRad z (some (b / 180 * Real.pi)) * (180 / Real.pi) / 180 * Real.pi =
        angleRad z (some (b / 180 * Real.pi)) := by field_simp
    rwa [this]
  · have : b / 180 * Real.pi * (180 / Real.pi) = b := by field_simp
    have h4 := mul_lt_mul_of_pos_right h2 (show 0 < 180 / Real.pi by positivity)
    rwa [this] at h4
  · have : b + 360 = (b / 180 * Real.pi + 2 * Real.pi) * (180 / Real.pi) := by field_simp; ring
    rw [this]
    exact mul_le_mul_of_nonneg_right h3 (by positivity)

/-- C32: the documented interval is `[branch, branch + 360[`; the direction of the branch itself is
given the other end. -/
theorem C32_endpoint_refuted (b : ℝ) :
    angleRad (Complex.exp (Complex.I * b)) (some b) = b + 2 * Real.pi := by
  apply C32_angle_unique _ (Complex.exp_ne_zero _)
  · have := isAngle_add (z := Complex.exp (Complex.I * b)) (a := b)
      (by unfold IsAngle; rw [norm_exp_I]; simp) 1
    simpa using this
  · linarith [Real.pi_pos]
  · exact le_refl _

/-! ### Unwrapping -/

/-- Neighbours differ by at most `pi`. -/
def Continuous : List ℝ → Prop
  | a :: b :: l => (-Real.pi < b - a ∧ b - a ≤ Real.pi) ∧ Continuous (b :: l)
  | _ => True

theorem isAngle_mul {d e : ℂ} (hd : d ≠ 0) {a b : ℝ} (ha : IsAngle d a) (hb : IsAngle (e / d) b) :
    IsAngle e (a + b) := by
  unfold IsAngle at *
  have hd' : (‖d‖ : ℂ) ≠ 0 := by simpa using hd
  have hb : e = ‖e‖ / ‖d‖ * Complex.exp (Complex.I * b) * d := by
    rw [norm_div, div_eq_iff hd] at hb
    push_cast at hb
    exact hb
  have e1 : Complex.exp (Complex.I * ((a + b : ℝ) : ℂ)) =
      Complex.exp (Complex.I * a) * Complex.exp (Complex.I * b) := by
    rw [← Complex.exp_add]
    congr 1
    push_cast
    ring
  rw [e1]
  generalize Complex.exp (Complex.I * a) = A at *
  generalize Complex.exp (Complex.I * b) = B at *
  generalize (‖d‖ : ℂ) = nd at *
  generalize (‖e‖ : ℂ) = ne at *
  rw [ha] at hb
  rw [hb]
  field_simp

theorem accumulate_angle : ∀ (data : List ℂ) (d : ℂ) (s : ℝ), d ≠ 0 → (∀ x ∈ data, x ≠ 0) → IsAngle d s →
    List.Forall₂ IsAngle data (accumulate s ((ratios (d :: data)).map (angleRad · none))) ∧
    Continuous (s :: accumulate s ((ratios (d :: data)).map (angleRad · none)))
  | [], d, s, _, _, _ => by simp [ratios, accumulate, Continuous]
  | e :: data, d, s, hd, hall, hs => by
    have he : e ≠ 0 := hall e (by simp)
    have hang : IsAngle e (s + Complex.arg (e / d)) := isAngle_mul hd hs (isAngle_arg _)
    obtain ⟨h1, h2⟩ := accumulate_angle data e _ he (fun x hx => hall x (by simp [hx])) hang
    simp only [ratios, List.map_cons, accumulate, angleRad_none]
    simp only [angleRad_none] at h1 h2
    refine ⟨List.Forall₂.cons hang h1, ?_, h2⟩
    rw [add_sub_cancel_left]
    exact ⟨Complex.neg_pi_lt_arg _, Complex.arg_le_pi _⟩

theorem continuous_shift (c : ℝ) : ∀ l : List ℝ, Continuous l → Continuous (l.map (· + c))
  | [], _ => trivial
  | [_], _ => trivial
  | a :: b :: l, h => by
    refine ⟨?_, continuous_shift c (b :: l) h.2⟩
    have := h.1
    constructor <;> simp only [add_sub_add_right_eq_sub] <;> linarith [this.1, this.2]

theorem forall₂_shift (k : ℤ) : ∀ (data : List ℂ) (l : List ℝ), List.Forall₂ IsAngle data l →
    List.Forall₂ IsAngle data (l.map (· + 2 * Real.pi * k)) := fun data l h => by
  induction h with
  | nil => exact List.Forall₂.nil
  | cons h _ ih => exact List.Forall₂.cons (isAngle_add h k) ih

/-- What one column becomes: a shift of the accumulated angles. -/
theorem unwrapCol_shift (a0 : ℝ) (d : ℂ) (data : List ℂ) : ∃ k : ℤ, unwrapCol a0 (d :: data) =
    some ((angleRad d none :: accumulate (angleRad d none) ((ratios (d :: data)).map (angleRad · none))).map
      (· + 2 * Real.pi * k)) ∧
    ((|angleRad d none - a0 + 2 * Real.pi| < 2 ∧ k = 1) ∨ (|angleRad d none - a0 - 2 * Real.pi| < 2 ∧ k = -1) ∨
      (2 ≤ |angleRad d none - a0 + 2 * Real.pi| ∧ 2 ≤ |angleRad d none - a0 - 2 * Real.pi| ∧ k = 0)) := by
  have hp := Real.pi_gt_three
  unfold unwrapCol
  simp only
  by_cases h1 : |angleRad d none - a0 + 2 * Real.pi| < 2
  · have h2 : ¬ |angleRad d none - a0 - 2 * Real.pi| < 2 := by
      rw [abs_lt] at *
      rintro ⟨h3, h4⟩
      linarith [h1.1, h1.2]
    refine ⟨1, ?_, Or.inl ⟨h1, rfl⟩⟩
    rw [if_pos h1, if_neg h2]
    simp
  · by_cases h2 : |angleRad d none - a0 - 2 * Real.pi| < 2
    · refine ⟨-1, ?_, Or.inr (Or.inl ⟨h2, rfl⟩)⟩
      rw [if_neg h1, if_pos h2]
      simp [sub_eq_add_neg]
    · refine ⟨0, ?_, Or.inr (Or.inr ⟨not_lt.1 h1, not_lt.1 h2, rfl⟩)⟩
      rw [if_neg h1, if_neg h2]
      simp

/-- C32: the unwrapped phase of any column without zeros consists of angles of its elements, and
neighbouring values differ by at most `pi`. -/
theorem C32_unwrap (a0 : ℝ) (data : List ℂ) (hne : data ≠ []) (h0 : ∀ x ∈ data, x ≠ 0) :
    ∃ r, unwrapCol a0 data = some r ∧ List.Forall₂ IsAngle data r ∧ Continuous r := by
  obtain ⟨d, data, rfl⟩ := List.exists_cons_of_ne_nil hne
  obtain ⟨k, hk, -⟩ := unwrapCol_shift a0 d data
  have hd : IsAngle d (angleRad d none) := by rw [angleRad_none]; exact isAngle_arg d
  obtain ⟨h1, h2⟩ := accumulate_angle data d (angleRad d none) (h0 d (by simp))
    (fun x hx => h0 x (by simp [hx])) hd
  exact ⟨_, hk, forall₂_shift k _ _ (List.Forall₂.cons hd h1), continuous_shift _ _ h2⟩

/-- C32: unwrapping in degrees: all values are angles, neighbours differ by at most 180, and they are
the unwrapped phases in degrees. -/
theorem C32_unwrap_deg (data : List ℂ) (hne : data ≠ []) (h0 : ∀ x ∈ data, x ≠ 0) :
    ∃ r, unwrapPhaseDeg data = some r ∧ List.Forall₂ (fun z d => IsAngle z (d / 180 * Real.pi)) data r ∧
      List.IsChain (fun a b => |b - a| ≤ 180) r ∧
      ∃ p, unwrapPhase data = some p ∧ p = r.map fun d => d / 180 * Real.pi := by
  obtain ⟨p, hp, ha, hc⟩ := C32_unwrap (angleRad (data.headD 0) none) data hne h0
  have hpi := Real.pi_pos
  have hne' := Real.pi_ne_zero
  have e : ∀ t : ℝ, t / Real.pi * 180 / 180 * Real.pi = t := fun t => by field_simp
  refine ⟨p.map fun t => t / Real.pi * 180, by rw [unwrapPhaseDeg, unwrapPhase, hp]; rfl, ?_, ?_, p, hp, ?_⟩
  · rw [List.forall₂_map_right_iff]
    refine ha.imp fun z t h => ?_
    rw [e]; exact h
  · clear hp ha
    induction p with
    | nil => exact List.IsChain.nil
    | cons a p ih =>
      cases p with
      | nil => exact List.IsChain.singleton _
      | cons b p =>
        rw [List.map_cons, List.map_cons]
        refine List.IsChain.cons_cons ?_ (by simpa using ih hc.2)
        have h1 : |b - a| ≤ Real.pi := abs_le.2 ⟨hc.1.1.le, hc.1.2⟩
        have : b / Real.pi * 180 - a / Real.pi * 180 = (b - a) * (180 / Real.pi) := by ring
        rw [this, abs_mul, abs_of_pos (show 0 < 180 / Real.pi by positivity)]
        calc |b - a| * (180 / Real.pi) ≤ Real.pi * (180 / Real.pi) := by gcongr
          _ = 180 := by field_simp
  · rw [List.map_map]
    conv_lhs => rw [← List.map_id p]
    refine List.map_congr_left fun t _ => ?_
    simp only [Function.comp, e, id]

/-- C32: a continuous sequence of angles is determined by its first value: if the phase turns by less
than half a turn per step, unwrapping finds it (up to whole turns of all values together). -/
theorem C32_unwrap_recovers (a0 : ℝ) (data : List ℂ) (p : List ℝ) (hne : data ≠ []) (h0 : ∀ x ∈ data, x ≠ 0)
    (hp : List.Forall₂ IsAngle data p) (hc : Continuous p) :
    ∃ k : ℤ, unwrapCol a0 data = some (p.map (· + 2 * Real.pi * k)) := by
  obtain ⟨r, hr, ha, hcr⟩ := C32_unwrap a0 data hne h0
  rw [hr]
  have key : ∀ (data : List ℂ) (p r : List ℝ), (∀ x ∈ data, x ≠ 0) → List.Forall₂ IsAngle data p →
      List.Forall₂ IsAngle data r → ∀ (a b : ℝ) (k : ℤ), b = a + 2 * Real.pi * k → Continuous (a :: p) →
      Continuous (b :: r) → r = p.map (· + 2 * Real.pi * k) := by
    intro data
    induction data with
    | nil =>
      intro p r _ hp hr a b k _ _ _
      cases hp; cases hr
      rfl
    | cons d data ih =>
      intro p r h0 hp hr a b k hab hca hcb
      cases hp with
      | cons hp1 hp2 =>
        rename_i p1 p
        cases hr with
        | cons hr1 hr2 =>
          rename_i r1 r
          obtain ⟨m, hm⟩ := isAngle_unique (h0 d (by simp)) hr1 hp1
          have hpi := Real.pi_pos
          have hmk : m = k := by
            have h1 := hca.1
            have h2 := hcb.1
            by_contra hne
            rcases lt_or_gt_of_ne hne with h | h
            · have : (m : ℝ) + 1 ≤ k := by exact_mod_cast h
              nlinarith [h1.1, h1.2, h2.1, h2.2]
            · have : (k : ℝ) + 1 ≤ m := by exact_mod_cast h
              nlinarith [h1.1, h1.2, h2.1, h2.2]
          subst hmk
          rw [List.map_cons, ← hm, ← ih p r (fun x hx => h0 x (by simp [hx])) hp2 hr2 p1 r1 m hm hca.2 hcb.2]
  obtain ⟨d, data, rfl⟩ := List.exists_cons_of_ne_nil hne
  cases hp with
  | cons hp1 hp2 =>
    rename_i p1 p
    cases ha with
    | cons ha1 ha2 =>
      rename_i r1 r
      obtain ⟨k, hk⟩ := isAngle_unique (h0 d (by simp)) ha1 hp1
      refine ⟨k, ?_⟩
      rw [List.map_cons, ← hk, ← key data p r (fun x hx => h0 x (by simp [hx])) hp2 ha2 p1 r1 k hk hc hcr]

/-- C32: the first phases of all columns lie within `2 pi - 2` of that of the first column. -/
theorem C32_unwrap_start (d0 d : ℂ) (data : List ℂ) : ∃ r rs, unwrapCol (angleRad d0 none) (d :: data) =
    some (r :: rs) ∧ |r - angleRad d0 none| ≤ 2 * Real.pi - 2 := by
  obtain ⟨k, hk, hcases⟩ := unwrapCol_shift (angleRad d0 none) d data
  refine ⟨_, _, hk, ?_⟩
  have h1 := Complex.neg_pi_lt_arg d
  have h2 := Complex.arg_le_pi d
  have h3 := Complex.neg_pi_lt_arg d0
  have h4 := Complex.arg_le_pi d0
  have hp := Real.pi_gt_three
  simp only [angleRad_none] at *
  rcases hcases with ⟨h, rfl⟩ | ⟨h, rfl⟩ | ⟨h, h', rfl⟩
  · rw [abs_lt] at h
    rw [abs_le]
    push_cast
    constructor <;> linarith [h.1, h.2]
  · rw [abs_lt] at h
    rw [abs_le]
    push_cast
    constructor <;> linarith [h.1, h.2]
  · rw [abs_of_nonneg (by linarith)] at h
    rw [abs_of_nonpos (by linarith)] at h'
    rw [abs_le]
    push_cast
    constructor <;> linarith

/-- C32: the result of `continous_phase_sqrt` is a square root of each element. -/
theorem C32_sqrt (q : List ℂ) (hne : q ≠ []) (h0 : ∀ x ∈ q, x ≠ 0) :
    ∃ r, continuousSqrt q = some r ∧ List.Forall₂ (fun x y => y * y = x) q r := by
  obtain ⟨p, hp, ha, -⟩ := C32_unwrap (angleRad (q.headD 0) none) q hne h0
  refine ⟨_, by rw [continuousSqrt, unwrapPhase, hp]; rfl, ?_⟩
  clear hp h0 hne
  induction ha with
  | nil => exact List.Forall₂.nil
  | cons h _ ih =>
    rename_i x y _ _ _
    refine List.Forall₂.cons ?_ ih
    simp only
    have h1 : (Real.sqrt ‖x‖ : ℂ) * (Real.sqrt ‖x‖ : ℂ) = (‖x‖ : ℂ) := by
      rw [← Complex.ofReal_mul, Real.mul_self_sqrt (norm_nonneg _)]
    have h2 : Complex.exp (Complex.I * y / 2) * Complex.exp (Complex.I * y / 2) = Complex.exp (Complex.I * y) := by
      rw [← Complex.exp_add]
      congr 1
      ring
    calc _ = ((Real.sqrt ‖x‖ : ℂ) * (Real.sqrt ‖x‖ : ℂ)) *
          (Complex.exp (Complex.I * y / 2) * Complex.exp (Complex.I * y / 2)) := by ring
      _ = x := by rw [h1, h2]; exact h.symm

/-! ### Decibels -/

theorem dBinv_pos (x : ℝ) : 0 < dBinv x := Real.rpow_pos_of_pos (by norm_num) _

/-- C33: `dBinv` and `dB` are inverse to each other. -/
theorem C33_dB (x : ℂ) (hx : x ≠ 0) (y : ℝ) : dBinv (dB x) = ‖x‖ ∧ dB (dBinv y : ℂ) = y := by
  constructor
  · unfold dBinv dB
    rw [mul_div_cancel_left₀ _ (by norm_num : (20 : ℝ) ≠ 0), Real.rpow_logb (by norm_num) (by norm_num)]
    exact norm_pos_iff.2 hx
  · unfold dB
    rw [Complex.norm_real, Real.norm_of_nonneg (dBinv_pos y).le]
    unfold dBinv
    rw [Real.logb_rpow (by norm_num) (by norm_num)]
    ring

/-- C33: products become sums, quotients differences. -/
theorem C33_product (x y : ℂ) (hx : x ≠ 0) (hy : y ≠ 0) : dB (x * y) = dB x + dB y ∧ dB (x / y) = dB x - dB y := by
  have hx' : ‖x‖ ≠ 0 := by simpa using hx
  have hy' : ‖y‖ ≠ 0 := by simpa using hy
  unfold dB
  rw [norm_mul, norm_div, Real.logb_mul hx' hy', Real.logb_div hx' hy']
  constructor <;> ring

/-- C33: `dB` grows with the magnitude. -/
theorem C33_monotone (x y : ℂ) (hx : x ≠ 0) (hy : y ≠ 0) : dB x ≤ dB y ↔ ‖x‖ ≤ ‖y‖ := by
  unfold dB
  rw [mul_le_mul_iff_right₀ (by norm_num), Real.logb_le_logb (by norm_num) (norm_pos_iff.2 hx) (norm_pos_iff.2 hy)]

theorem norm_mag (mag ang : ℝ) : ‖magAngleToComplex mag ang‖ = |mag| := by
  unfold magAngleToComplex
  have : Complex.I * Real.pi * ang / 180 = Complex.I * ((Real.pi * ang / 180 : ℝ) : ℂ) := by push_cast; ring
  rw [this, norm_mul, norm_exp_I, mul_one, Complex.norm_real, Real.norm_eq_abs]

theorem mag_angle (mag ang : ℝ) (h : 0 ≤ mag) : IsAngle (magAngleToComplex mag ang) (ang / 180 * Real.pi) := by
  unfold IsAngle
  rw [norm_mag, abs_of_nonneg h]
  unfold magAngleToComplex
  congr 2
  push_cast
  ring

theorem dBAngle_eq (mag ang : ℝ) : dBAngleToComplex mag ang = magAngleToComplex (dBinv mag) ang := rfl

/-- C33: the number made of a magnitude and an angle has these (the angle within the branch asked
for). -/
theorem C33_mag_angle (mag ang b : ℝ) (h : 0 < mag) (h1 : b < ang) (h2 : ang ≤ b + 360) :
    ‖magAngleToComplex mag ang‖ = mag ∧ angleDeg (magAngleToComplex mag ang) (some b) = ang := by
  have hp := Real.pi_pos
  refine ⟨by rw [norm_mag, abs_of_pos h], ?_⟩
  have hz : magAngleToComplex mag ang ≠ 0 := by
    rw [← norm_pos_iff, norm_mag, abs_of_pos h]; exact h
  rw [angleDeg_eq, C32_angle_unique _ hz _ _ (mag_angle mag ang h.le)]
  · field_simp
  · rw [div_mul_eq_mul_div, div_mul_eq_mul_div]
    have := mul_lt_mul_of_pos_right h1 hp
    linarith
  · have := mul_le_mul_of_nonneg_right h2 hp.le
    linarith

/-- C33: the same with decibels. -/
theorem C33_dB_angle (mag ang b : ℝ) (h1 : b < ang) (h2 : ang ≤ b + 360) :
    dB (dBAngleToComplex mag ang) = mag ∧ angleDeg (dBAngleToComplex mag ang) (some b) = ang := by
  rw [dBAngle_eq]
  obtain ⟨h3, h4⟩ := C33_mag_angle (dBinv mag) ang b (dBinv_pos mag) h1 h2
  refine ⟨?_, h4⟩
  unfold dB
  rw [h3]
  have := (C33_dB 1 one_ne_zero mag).2
  unfold dB at this
  rwa [Complex.norm_real, Real.norm_of_nonneg (dBinv_pos mag).le] at this

/-- C33: and a number is made again from its magnitude (in decibels or not) and its angle, or its real
and imaginary parts. -/
theorem C33_rebuild (z : ℂ) (hz : z ≠ 0) (b : ℝ) :
    dBAngleToComplex (dB z) (angleDeg z (some b)) = z ∧ magAngleToComplex ‖z‖ (angleDeg z (some b)) = z ∧
    reImToComplex z.re z.im = z := by
  have h2 : magAngleToComplex ‖z‖ (angleDeg z (some b)) = z := by
    have := (C32_angle_deg z b).1
    unfold IsAngle at this
    conv_rhs => rw [this]
    unfold magAngleToComplex
    congr 2
    push_cast
    ring
  refine ⟨?_, h2, ?_⟩
  · rw [dBAngle_eq, (C33_dB z hz 0).1, h2]
  · unfold reImToComplex
    rw [mul_comm]
    exact Complex.re_add_im z

/-! ### Non-vacuity -/

example : angleRad (-1) (some 0) = Real.pi := by
  apply C32_angle_unique _ (by norm_num)
  · unfold IsAngle
    rw [mul_comm Complex.I, Complex.exp_pi_mul_I]
    simp
  · exact Real.pi_pos
  · linarith [Real.pi_pos]

example : IsAngle Complex.I (Real.pi / 2) ∧ Continuous [0, Real.pi / 2, Real.pi] := by
  have hp := Real.pi_pos
  refine ⟨?_, ⟨?_, ?_⟩, ⟨?_, ?_⟩, trivial⟩
  · unfold IsAngle
    have := isAngle_arg Complex.I
    unfold IsAngle at this
    rw [Complex.arg_I] at this
    exact_mod_cast this
  all_goals linarith

end HF.MathFns
