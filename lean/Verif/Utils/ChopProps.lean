import Verif.Utils.Chop
import Verif.HFArray.LinAlgProps
import Mathlib.Analysis.Normed.Field.Basic
import Mathlib.Tactic.Linarith
import Mathlib.Tactic.NormNum
/-
C76: setting small numbers to zero.
-/
namespace HF.Chop

variable {α : Type} [NormedAddCommGroup α]

theorem foldl_max (l : List ℝ) (a : ℝ) :
    (∀ x ∈ a :: l, x ≤ l.foldl max a) ∧ l.foldl max a ∈ a :: l := by
  induction l generalizing a with
  | nil => simp
  | cons b t ih =>
    obtain ⟨h1, h2⟩ := ih (max a b)
    rw [List.foldl_cons]
    constructor
    · intro x hx
      have hm := h1 (max a b) (by simp)
      rcases List.mem_cons.1 hx with rfl | hx
      · exact (le_max_left _ _).trans hm
      · rcases List.mem_cons.1 hx with rfl | hx
        · exact (le_max_right _ _).trans hm
        · exact h1 x (by simp [hx])
    · rcases List.mem_cons.1 h2 with h | h
      · rw [h]
        rcases max_choice a b with e | e <;> rw [e] <;> simp
      · simp [h]

theorem maxOf_spec {l : List ℝ} {m : ℝ} (h : maxOf l = some m) : (∀ x ∈ l, x ≤ m) ∧ m ∈ l := by
  cases l with
  | nil => cases h
  | cons a t =>
    have h : t.foldl max a = m := Option.some.inj h
    rw [← h]
    exact foldl_max t a

theorem maxOf_eq {l : List ℝ} {m : ℝ} (h1 : ∀ x ∈ l, x ≤ m) (h2 : m ∈ l) : maxOf l = some m := by
  cases l with
  | nil => simp at h2
  | cons a t =>
    obtain ⟨q1, q2⟩ := foldl_max t a
    exact congrArg some (le_antisymm (h1 _ q2) (q1 m h2))

/-- C76.  `hftools.math.chop`: no element changes by as much as the threshold, what is left is
the original number and not smaller than the threshold, and chopping again changes nothing. -/
theorem C76_math (t : ℝ) (ht : 0 < t) (x : Nd α) :
    (chopMath t x).shape = x.shape ∧
    ∀ idx, ‖x.get idx - (chopMath t x).get idx‖ < t ∧
      ((chopMath t x).get idx ≠ 0 → (chopMath t x).get idx = x.get idx ∧ t ≤ ‖x.get idx‖) ∧
      (t ≤ ‖x.get idx‖ → (chopMath t x).get idx = x.get idx) ∧
      (chopMath t (chopMath t x)).get idx = (chopMath t x).get idx := by
  refine ⟨rfl, fun idx => ?_⟩
  simp only [chopMath, chopNum]
  by_cases h : ‖x.get idx‖ < t
  · simp [h, ht]
  · simp [h, ht, not_lt.1 h]

/-- C76.  `hftools.utils.chop` with any tolerances, on any array with elements: the largest
magnitude `m` decides about the relative tolerance; no element changes by as much as the larger
tolerance; what is left is the original number and reaches both tolerances, and such numbers are
left.  Nothing else about the array matters. -/
theorem C76_utils (rtol atol : ℝ) (x : Nd α) {i0 : List Nat} (hi : Nd.Valid x.shape i0) :
    ∃ m y, (∀ idx, Nd.Valid x.shape idx → ‖x.get idx‖ ≤ m) ∧ (∃ idx, Nd.Valid x.shape idx ∧ ‖x.get idx‖ = m) ∧
      chopUtils rtol atol x = .ok y ∧ y.shape = x.shape ∧
      ∀ idx, Nd.Valid x.shape idx →
        (x.get idx ≠ y.get idx → ‖x.get idx - y.get idx‖ < max atol (rtol * m)) ∧
        (y.get idx ≠ 0 → y.get idx = x.get idx ∧ max atol (rtol * m) ≤ ‖x.get idx‖) ∧
        (max atol (rtol * m) ≤ ‖x.get idx‖ → y.get idx = x.get idx) := by
  have hm : ∀ idx, Nd.Valid x.shape idx → ‖x.get idx‖ ∈ (elems x).map fun z => ‖z‖ := fun idx h =>
    List.mem_map_of_mem (f := fun z => ‖z‖) (List.mem_map_of_mem (Arr.mem_allIdx.2 h))
  cases hM : maxOf ((elems x).map fun z => ‖z‖) with
  | none =>
    have := hm i0 hi
    cases hl : (elems x).map fun z => ‖z‖ with
    | nil => rw [hl] at this; simp at this
    | cons a t => rw [hl] at hM; cases hM
  | some m =>
    obtain ⟨h1, h2⟩ := maxOf_spec hM
    refine ⟨m, ⟨x.shape, fun idx => if ‖x.get idx‖ < atol ∨ ‖x.get idx‖ < rtol * m then 0 else x.get idx⟩,
      fun idx h => h1 _ (hm idx h), ?_, by simp only [chopUtils, hM], rfl, ?_⟩
    · obtain ⟨z, hz, e⟩ := List.mem_map.1 h2
      obtain ⟨idx, hidx, rfl⟩ := List.mem_map.1 hz
      exact ⟨idx, Arr.mem_allIdx.1 hidx, e⟩
    · intro idx _
      by_cases h : ‖x.get idx‖ < atol ∨ ‖x.get idx‖ < rtol * m
      · simp only [h, if_true, ne_eq, not_true, false_implies, true_and, sub_zero]
        exact ⟨fun _ => lt_max_iff.2 h, fun h' => absurd (lt_max_iff.2 h) (not_lt.2 h')⟩
      · simp only [h, if_false, ne_eq, not_true, false_implies, true_and, implies_true, and_true]
        rintro -
        rw [not_or, not_lt, not_lt] at h
        exact max_le h.1 h.2

/-- C76.  Chopping twice is chopping once, for relative tolerances up to one: the largest number
is kept, or all numbers are below the absolute tolerance. -/
theorem C76_idempotent (rtol atol : ℝ) (hr : rtol ≤ 1) (x y : Nd α) (h : chopUtils rtol atol x = .ok y) :
    ∃ z, chopUtils rtol atol y = .ok z ∧ z.shape = y.shape ∧ ∀ idx, Nd.Valid y.shape idx → z.get idx = y.get idx := by
  unfold chopUtils at h
  cases hM : maxOf ((elems x).map fun z => ‖z‖) with
  | none => rw [hM] at h; cases h
  | some m =>
    rw [hM] at h
    obtain rfl := Except.ok.inj h
    obtain ⟨h1, h2⟩ := maxOf_spec hM
    obtain ⟨w, hw, e⟩ := List.mem_map.1 h2
    obtain ⟨i0, hi0, rfl⟩ := List.mem_map.1 hw
    have hi0' := Arr.mem_allIdx.1 hi0
    have hm0 : 0 ≤ m := e ▸ norm_nonneg _
    have hle : ∀ idx, Nd.Valid x.shape idx → ‖x.get idx‖ ≤ m := fun idx h => h1 _
      (List.mem_map_of_mem (f := fun z => ‖z‖) (List.mem_map_of_mem (Arr.mem_allIdx.2 h)))
    obtain ⟨y, hy⟩ : ∃ y : Nd α, y = ⟨x.shape, fun idx => if ‖x.get idx‖ < atol ∨ ‖x.get idx‖ < rtol * m then 0 else x.get idx⟩ :=
      ⟨_, rfl⟩
    rw [← hy]
    have yshape : y.shape = x.shape := by rw [hy]
    have yget : ∀ idx, y.get idx = if ‖x.get idx‖ < atol ∨ ‖x.get idx‖ < rtol * m then 0 else x.get idx := fun idx => by rw [hy]
    obtain ⟨m', y', hb, hex, hz, hzs, -⟩ := C76_utils rtol atol y (i0 := i0) (by rw [yshape]; exact hi0')
    refine ⟨y', hz, hzs, ?_⟩
    intro idx hidx
    rw [yshape] at hidx
    have hM' : maxOf ((elems y).map fun z => ‖z‖) = some m' := by
      obtain ⟨i1, hi1, e1⟩ := hex
      refine maxOf_eq ?_ ?_
      · intro v hv
        obtain ⟨z, hz, rfl⟩ := List.mem_map.1 hv
        obtain ⟨i, hi, rfl⟩ := List.mem_map.1 hz
        exact hb i (Arr.mem_allIdx.1 hi)
      · rw [← e1]
        exact List.mem_map_of_mem (f := fun z => ‖z‖) (List.mem_map_of_mem (Arr.mem_allIdx.2 hi1))
    have y'get : y'.get idx = if ‖y.get idx‖ < atol ∨ ‖y.get idx‖ < rtol * m' then 0 else y.get idx := by
      unfold chopUtils at hz
      rw [hM'] at hz
      rw [← Except.ok.inj hz]
    rw [y'get]
    by_cases hk : ‖x.get idx‖ < atol ∨ ‖x.get idx‖ < rtol * m
    · rw [yget idx, if_pos hk, ite_self]
    · have hy1 : y.get idx = x.get idx := by rw [yget idx, if_neg hk]
      rw [hy1]
      rw [not_or, not_lt, not_lt] at hk
      -- the largest number is kept
      have hmm : m' = m := by
        have hk0 : y.get i0 = x.get i0 := by
          rw [yget i0, if_neg]
          rw [not_or, not_lt, not_lt]
          constructor
          · exact hk.1.trans ((hle idx hidx).trans e.ge)
          · have e : ‖x.get i0‖ = m := e
            rw [e]; nlinarith
        have q1 := hb i0 (by rw [yshape]; exact hi0')
        rw [hk0] at q1
        have q1 : m ≤ m' := by have e : ‖x.get i0‖ = m := e; rw [e] at q1; exact q1
        obtain ⟨i1, hi1, e1⟩ := hex
        have q2 : ‖y.get i1‖ ≤ m := by
          rw [yget i1]
          split
          · rw [norm_zero]; exact hm0
          · exact hle i1 (by rw [yshape] at hi1; exact hi1)
        rw [e1] at q2
        exact le_antisymm q2 q1
      rw [hmm, if_neg]
      rw [not_or, not_lt, not_lt]
      exact hk

/-- The hypotheses hold: an array of two numbers. -/
example : Nd.Valid (⟨[2], fun l => (l.getD 0 0 : ℝ)⟩ : Nd ℝ).shape [1] ∧
    ∃ y, chopUtils (1/2) 0 (⟨[2], fun l => (l.getD 0 0 : ℝ)⟩ : Nd ℝ) = .ok y := by
  refine ⟨⟨by decide, trivial⟩, ?_⟩
  obtain ⟨m, y, -, -, h, -⟩ := C76_utils (1/2) 0 (⟨[2], fun l => (l.getD 0 0 : ℝ)⟩ : Nd ℝ) (i0 := [1]) ⟨by decide, trivial⟩
  exact ⟨y, h⟩

/-- C76: the bound on the relative tolerance is needed to keep the largest number: with a
tolerance above one even that is removed. -/
theorem C76_rtol_refuted : ∃ y, chopUtils 2 0 (⟨[], fun _ => 1⟩ : Nd ℝ) = .ok y ∧ y.get [] = 0 := by
  have h : maxOf ((elems (⟨[], fun _ => 1⟩ : Nd ℝ)).map fun z => ‖z‖) = some 1 := by
    simp [elems, Nd.allIdx, Nd.size, Nd.unravel, maxOf]
  refine ⟨⟨[], fun _ => if ‖(1 : ℝ)‖ < 0 ∨ ‖(1 : ℝ)‖ < 2 * 1 then 0 else 1⟩, by simp only [chopUtils, h], ?_⟩
  show (if ‖(1 : ℝ)‖ < 0 ∨ ‖(1 : ℝ)‖ < 2 * 1 then (0 : ℝ) else 1) = 0
  rw [if_pos]
  right
  rw [norm_one]; norm_num

/-- C76: an array without elements is an error for `hftools.utils.chop`, not for
`hftools.math.chop`. -/
theorem C76_empty_refuted (rtol atol t : ℝ) : chopUtils rtol atol (⟨[0], fun _ => 1⟩ : Nd ℝ) = .error .valueError ∧
    (chopMath t (⟨[0], fun _ => 1⟩ : Nd ℝ)).shape = [0] := by
  refine ⟨?_, rfl⟩
  simp [chopUtils, elems, Nd.allIdx, Nd.size, maxOf]

end HF.Chop
