import Verif.MathFns.AngleProps
/-
C36: group delay.
-/
noncomputable section

namespace HF.MathFns

/-- A linear phase with delay `tau`, any starting phase and any positive magnitudes. -/
def wave (tau phi : ℝ) (fg : ℝ × ℝ) : ℂ := fg.2 * Complex.exp (Complex.I * ((phi - 2 * Real.pi * fg.1 * tau : ℝ) : ℂ))

theorem arg_exp (θ r : ℝ) (hr : 0 < r) (h1 : -Real.pi < θ) (h2 : θ ≤ Real.pi) :
    Complex.arg (r * Complex.exp (Complex.I * θ)) = θ := by
  rw [Complex.arg_real_mul _ hr, mul_comm, Complex.arg_exp_mul_I]
  exact toIocMod_eq_self (by simpa using Real.pi_pos) |>.2 ⟨h1, by linarith⟩

theorem wave_ratio (tau phi : ℝ) (p q : ℝ × ℝ) (hp : 0 < p.2) (hq : 0 < q.2)
    (h : -(1 / 2) ≤ tau * (q.1 - p.1) ∧ tau * (q.1 - p.1) < 1 / 2) :
    angleRad (wave tau phi q / wave tau phi p) none = 2 * Real.pi * (p.1 - q.1) * tau := by
  have hpi := Real.pi_pos
  have e : wave tau phi q / wave tau phi p =
      ((q.2 / p.2 : ℝ) : ℂ) * Complex.exp (Complex.I * ((2 * Real.pi * (p.1 - q.1) * tau : ℝ) : ℂ)) := by
    unfold wave
    have hp' : (p.2 : ℂ) ≠ 0 := by simpa using hp.ne'
    rw [div_eq_iff (mul_ne_zero hp' (Complex.exp_ne_zero _))]
    have : Complex.exp (Complex.I * ((phi - 2 * Real.pi * q.1 * tau : ℝ) : ℂ)) =
        Complex.exp (Complex.I * ((2 * Real.pi * (p.1 - q.1) * tau : ℝ) : ℂ)) *
        Complex.exp (Complex.I * ((phi - 2 * Real.pi * p.1 * tau : ℝ) : ℂ)) := by
      rw [← Complex.exp_add]
      congr 1
      push_cast
      ring
    rw [this]
    push_cast
    field_simp
  rw [angleRad_none, e]
  apply arg_exp _ _ (div_pos hq hp)
  · have := mul_lt_mul_of_pos_left h.2 (show 0 < 2 * Real.pi by positivity)
    nlinarith
  · have := mul_le_mul_of_nonneg_left h.1 (show 0 ≤ 2 * Real.pi by positivity)
    nlinarith

/-- Neighbouring frequencies are different and not so far apart that the phase turns by half a turn. -/
def NoAlias (tau : ℝ) : List (ℝ × ℝ) → Prop
  | p :: q :: l => (q.1 ≠ p.1 ∧ -(1 / 2) ≤ tau * (q.1 - p.1) ∧ tau * (q.1 - p.1) < 1 / 2) ∧ NoAlias tau (q :: l)
  | _ => True

/-- C36: the delay of a linear phase is the same everywhere: whatever the spacing of the frequencies,
the starting phase and the magnitudes.  There is one value less than there are frequencies. -/
theorem C36_linear (tau phi : ℝ) (fg : List (ℝ × ℝ)) (hpos : ∀ p ∈ fg, 0 < p.2) (h : NoAlias tau fg) :
    delay (fg.map Prod.fst) (fg.map (wave tau phi)) =
      (mids (fg.map Prod.fst), List.replicate (fg.length - 1) tau) := by
  unfold delay
  congr 1
  induction fg with
  | nil => rfl
  | cons p l ih =>
    cases l with
    | nil => rfl
    | cons q l =>
      have ih := ih (fun x hx => hpos x (by simp [hx])) h.2
      simp only [List.map_cons, ratios, steps, List.zip_cons_cons, List.length_cons, Nat.add_sub_cancel] at ih ⊢
      rw [List.replicate_succ, ← ih]
      congr 1
      rw [wave_ratio tau phi p q (hpos p (by simp)) (hpos q (by simp)) h.1.2]
      have h1 : p.1 - q.1 ≠ 0 := fun h0 => h.1.1 (by linarith)
      have h2 := Real.pi_pos.ne'
      field_simp

/-- C36: the frequencies given with the delays are the midpoints. -/
theorem C36_mids (freq : List ℝ) (var : List ℂ) (i : Nat) (a b : ℝ) (ha : freq[i]? = some a)
    (hb : freq[i + 1]? = some b) : (delay freq var).1[i]? = some ((a + b) / 2) := by
  unfold delay
  simp only
  induction freq generalizing i with
  | nil => simp at ha
  | cons p l ih =>
    cases l with
    | nil => simp at hb
    | cons q l =>
      cases i with
      | zero =>
        simp at ha hb
        simp [mids, ha, hb]
      | succ i =>
        simp only [mids, List.getElem?_cons_succ] at *
        exact ih i ha hb

/-- `∑ -2π (f[k+1] - f[k]) tau[k]` -/
def turned : List ℝ → List ℝ → ℝ
  | a :: b :: l, t :: ts => 2 * Real.pi * (a - b) * t + turned (b :: l) ts
  | _, _ => 0

/-- C36: integrated over the frequencies the delays give the change of the (unwrapped) phase. -/
theorem C36_integral (f : ℝ) (freq : List ℝ) (d : ℂ) (var : List ℂ) (a0 : ℝ) (hl : freq.length = var.length)
    (hf : (f :: freq).IsChain (· ≠ ·)) : ∃ r rs, unwrapCol a0 (d :: var) = some (r :: rs) ∧
      turned (f :: freq) (delay (f :: freq) (d :: var)).2 = (r :: rs).getLast (by simp) - r := by
  obtain ⟨k, hk, -⟩ := unwrapCol_shift a0 d var
  refine ⟨_, _, hk, ?_⟩
  have key : ∀ (freq : List ℝ) (var : List ℂ) (f : ℝ) (d : ℂ) (s : ℝ), freq.length = var.length →
      (f :: freq).IsChain (· ≠ ·) →
      turned (f :: freq) (delay (f :: freq) (d :: var)).2 =
        (s :: accumulate s ((ratios (d :: var)).map (angleRad · none))).getLast (by simp) - s := by
    intro freq
    induction freq with
    | nil =>
      intro var f d s hl _
      have : var = [] := List.length_eq_zero_iff.1 hl.symm
      subst this
      simp [delay, ratios, steps, turned, accumulate]
    | cons f1 freq ih =>
      intro var f d s hl hp
      cases var with
      | nil => simp at hl
      | cons d1 var =>
        obtain ⟨hne, hp'⟩ := List.isChain_cons_cons.1 hp
        have ih := ih var f1 d1 (s + angleRad (d1 / d) none) (by simpa using hl) hp'
        simp only [delay, ratios, steps, List.map_cons, List.zip_cons_cons, turned, accumulate] at ih ⊢
        rw [List.getLast_cons_cons, ih]
        have h1 : 2 * Real.pi * (f - f1) ≠ 0 :=
          mul_ne_zero (mul_ne_zero two_ne_zero Real.pi_pos.ne') (sub_ne_zero.2 hne)
        rw [mul_div_cancel₀ _ h1]
        ring
  rw [key freq var f d (angleRad d none) hl hf]
  have hlast : ∀ (l : List ℝ) (hne : l ≠ []) (c : ℝ) (hne' : l.map (· + c) ≠ []),
      (l.map (· + c)).getLast hne' = l.getLast hne + c := fun l hne c hne' => by
    rw [List.getLast_map]
  rw [show ∀ (a : ℝ) (l : List ℝ) (h : (a + 2 * Real.pi * k) :: l.map (· + 2 * Real.pi * k) ≠ []),
      ((a + 2 * Real.pi * k) :: l.map (· + 2 * Real.pi * k)).getLast h = (a :: l).getLast (by simp) + 2 * Real.pi * k
      from fun a l h => hlast (a :: l) (by simp) _ h]
  ring

/-- C36: with a wider spacing the delay found is another one: here 0 instead of 1. -/
theorem C36_alias_refuted : (delay [0, 1] [wave 1 0 (0, 1), wave 1 0 (1, 1)]).2 = [0] := by
  have e0 : wave 1 0 (0, 1) = 1 := by simp [wave]
  have e1 : wave 1 0 (1, 1) = 1 := by
    unfold wave
    have : Complex.I * ((0 - 2 * Real.pi * 1 * 1 : ℝ) : ℂ) = -(2 * Real.pi * Complex.I) := by
      push_cast
      ring
    rw [this, Complex.exp_neg, Complex.exp_two_pi_mul_I]
    simp
  rw [e0, e1]
  simp [delay, ratios, steps, angleRad_none]

/-! ### Non-vacuity -/

example : NoAlias (1 / 4) [(0, 1), (1, 2), (5 / 2, 1 / 2)] := by
  refine ⟨⟨?_, ?_, ?_⟩, ⟨?_, ?_, ?_⟩, trivial⟩ <;> norm_num

end HF.MathFns
