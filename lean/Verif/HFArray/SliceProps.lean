import Mathlib.Tactic.Linarith
import Verif.HFArray.IndexProps
/-
C09, what one component of an index selects.  `C09_index` says that the selection made on the data and
on the dims is the same; here the selection itself is fixed, in the words of the python language
reference and without the functions of the model.
-/
namespace HF

/-- A position counted from the start, or from the end when negative. -/
def fromEnds (n : Nat) (v : Int) : Int := if v < 0 then v + n else v

/-- The positions taken by `x[a:b:t]`, `t > 0`, on an axis of length `n`: from the first position that
is not before `a`, each `t`-th one before `b`. -/
def TakenUp (a b : Option Int) (t : Int) (n k : Nat) : Prop :=
  k < n ∧ (∀ v, b = some v → (k : Int) < fromEnds n v) ∧
  ∃ m : Nat, (k : Int) = max 0 (fromEnds n (a.getD 0)) + m * t

/-- The positions taken by `x[a:b:t]`, `t < 0`, on an axis of length `n`: from the last position that
is not after `a` downwards, each `-t`-th one after `b`. -/
def TakenDown (a b : Option Int) (t : Int) (n k : Nat) : Prop :=
  k < n ∧ (∀ v, b = some v → fromEnds n v < (k : Int)) ∧
  ∃ m : Nat, (k : Int) = min ((n : Int) - 1) (a.elim ((n : Int) - 1) (fromEnds n)) + m * t

namespace Slice

theorem lt_countOf_up {a b t : Int} (ht : 0 < t) (i : Nat) :
    i < countOf a b t ↔ a + i * t < b := by
  have h0 : 0 ≤ (i : Int) * t := Int.mul_nonneg (by omega) ht.le
  unfold countOf
  rw [if_neg (by omega)]
  split
  · have := Int.ediv_nonneg (a := b - a - 1) (b := t) (by omega) ht.le
    have h := Int.le_ediv_iff_mul_le (c := t) (a := (i : Int)) (b := b - a - 1) ht
    constructor
    · intro hi
      have := h.1 (by omega)
      omega
    · intro hi
      have := h.2 (by omega)
      omega
  · constructor
    · intro h; omega
    · intro h; omega

theorem lt_countOf_down {a b t : Int} (ht : t < 0) (i : Nat) :
    i < countOf a b t ↔ b < a + i * t := by
  have e : (i : Int) * t = -((i : Int) * -t) := by simp
  have h0 : 0 ≤ (i : Int) * -t := Int.mul_nonneg (by omega) (by omega)
  unfold countOf
  rw [if_pos ht]
  split
  · have := Int.ediv_nonneg (a := a - b - 1) (b := -t) (by omega) (by omega)
    have h := Int.le_ediv_iff_mul_le (c := -t) (a := (i : Int)) (b := a - b - 1) (by omega)
    constructor
    · intro hi
      have := h.1 (by omega)
      omega
    · intro hi
      have := h.2 (by omega)
      omega
  · constructor
    · intro h; omega
    · intro h; omega

end Slice

open Slice

/-- C09: an upward slice takes exactly the positions described, each once, in increasing order. -/
theorem C09_slice_up (s : Slice) (n : Nat) (ht : 0 < s.step.getD 1) :
    ∃ l, s.indices n = some l ∧ l.Pairwise (· < ·) ∧
      ∀ k, k ∈ l ↔ TakenUp s.start s.stop (s.step.getD 1) n k := by
  have hd : decide (s.step.getD 1 < 0) = false := by simpa using ht.le
  have a1 := (startOf_bounds s n).1
  have b1 := (stopOf_bounds s n).1
  refine ⟨(List.range (countOf (s.startOf n false) (s.stopOf n false) (s.step.getD 1))).map
    fun i : Nat => (s.startOf n false + (i : Int) * s.step.getD 1).toNat, ?_, ?_, ?_⟩
  · simp only [indices]
    rw [if_neg (by omega), hd]
  · rw [List.pairwise_map]
    apply List.pairwise_lt_range.imp
    intro i j hij
    have h1 : 0 ≤ (i : Int) * s.step.getD 1 := Int.mul_nonneg (by omega) ht.le
    have h2 : (i : Int) * s.step.getD 1 < (j : Int) * s.step.getD 1 :=
      Int.mul_lt_mul_of_pos_right (by omega) ht
    omega
  · intro k
    have hstop : (k : Int) < s.stopOf n false ↔
        k < n ∧ ∀ v, s.stop = some v → (k : Int) < fromEnds n v := by
      unfold stopOf
      cases s.stop with
      | none => simp
      | some v =>
        simp only [Option.some.injEq, forall_eq', clip, fromEnds, Bool.false_eq_true, if_false]
        split <;> omega
    have hstart : s.startOf n false = min (n : Int) (max 0 (fromEnds n (s.start.getD 0))) := by
      unfold startOf
      cases s.start with
      | none => simp [fromEnds]
      | some v =>
        simp only [clip, fromEnds, Bool.false_eq_true, if_false, Option.getD_some]
        split <;> omega
    simp only [List.mem_map, List.mem_range, lt_countOf_up ht]
    unfold TakenUp
    constructor
    · rintro ⟨i, hi, rfl⟩
      have h1 : 0 ≤ (i : Int) * s.step.getD 1 := Int.mul_nonneg (by omega) ht.le
      have e : (((s.startOf n false + (i : Int) * s.step.getD 1).toNat : Nat) : Int)
          = s.startOf n false + (i : Int) * s.step.getD 1 := by omega
      obtain ⟨h2, h3⟩ := hstop.1 (by omega)
      refine ⟨h2, h3, i, ?_⟩
      rw [e]
      omega
    · rintro ⟨h2, h3, m, hm⟩
      have h1 : 0 ≤ (m : Int) * s.step.getD 1 := Int.mul_nonneg (by omega) ht.le
      have h4 := hstop.2 ⟨h2, h3⟩
      exact ⟨m, by omega, by omega⟩

/-- C09: a downward slice takes exactly the positions described, each once, in decreasing order. -/
theorem C09_slice_down (s : Slice) (n : Nat) (ht : s.step.getD 1 < 0) :
    ∃ l, s.indices n = some l ∧ l.Pairwise (· > ·) ∧
      ∀ k, k ∈ l ↔ TakenDown s.start s.stop (s.step.getD 1) n k := by
  have hd : decide (s.step.getD 1 < 0) = true := by simpa using ht
  have a1 := (startOf_bounds s n).2
  have b1 := (stopOf_bounds s n).2
  have hneg : ∀ i : Nat, (i : Int) * s.step.getD 1 ≤ 0 := fun i =>
    Int.mul_nonpos_of_nonneg_of_nonpos (by omega) ht.le
  have hcount := fun i : Nat => lt_countOf_down (a := s.startOf n true) (b := s.stopOf n true) ht i
  refine ⟨(List.range (countOf (s.startOf n true) (s.stopOf n true) (s.step.getD 1))).map
    fun i : Nat => (s.startOf n true + (i : Int) * s.step.getD 1).toNat, ?_, ?_, ?_⟩
  · simp only [indices]
    rw [if_neg (by omega), hd]
  · rw [List.pairwise_map]
    apply List.Pairwise.imp_of_mem _ List.pairwise_lt_range
    intro i j hi hj hij
    have h1 := (hcount j).1 (List.mem_range.1 hj)
    have h2 : (j : Int) * s.step.getD 1 < (i : Int) * s.step.getD 1 :=
      Int.mul_lt_mul_of_neg_right (by omega) ht
    omega
  · intro k
    have hstop : s.stopOf n true < (k : Int) ∧ k < n ↔
        k < n ∧ ∀ v, s.stop = some v → fromEnds n v < (k : Int) := by
      unfold stopOf
      cases s.stop with
      | none => simp; omega
      | some v =>
        simp only [Option.some.injEq, forall_eq', clip, fromEnds, if_true]
        split <;> omega
    have hstart : s.startOf n true
        = max (-1) (min ((n : Int) - 1) (s.start.elim ((n : Int) - 1) (fromEnds n))) := by
      unfold startOf
      cases s.start with
      | none => simp
      | some v =>
        simp only [clip, fromEnds, if_true, Option.elim_some]
        split <;> omega
    simp only [List.mem_map, List.mem_range, hcount]
    unfold TakenDown
    constructor
    · rintro ⟨i, hi, rfl⟩
      have h1 := hneg i
      have e : (((s.startOf n true + (i : Int) * s.step.getD 1).toNat : Nat) : Int)
          = s.startOf n true + (i : Int) * s.step.getD 1 := by omega
      obtain ⟨h2, h3⟩ := hstop.1 (by omega)
      refine ⟨h2, h3, i, ?_⟩
      rw [e]
      omega
    · rintro ⟨h2, h3, m, hm⟩
      have h1 := hneg m
      have h4 := hstop.2 ⟨h2, h3⟩
      exact ⟨m, by omega, by omega⟩

/-- C09: a slice of step zero is refused. -/
theorem C09_slice_zero (s : Slice) (n : Nat) : s.indices n = none ↔ s.step = some 0 := by
  unfold indices
  cases h : s.step with
  | none => simp
  | some v => by_cases hv : v = 0 <;> simp [hv]

/-- C09: a number selects the position it names from either end, and is refused when there is none. -/
theorem C09_number (i : Int) (n k : Nat) :
    Arr.selOf (.int i) n = some (.one k) ↔ k < n ∧ (i = k ∨ i = (k : Int) - n) := by
  simp only [Arr.selOf, Option.map_eq_some_iff, Sel.one.injEq, exists_eq_right, Nd.normAxis]
  split
  · simp; omega
  · split
    · simp; omega
    · simp; omega

/- `x[-3:]`, `x[5:0:-2]` and `x[-9:9]` on an axis of five elements. -/
example : (⟨some (-3), none, none⟩ : Slice).indices 5 = some [2, 3, 4] := by decide
example : (⟨some 5, some 0, some (-2)⟩ : Slice).indices 5 = some [4, 2] := by decide
example : (⟨some (-9), some 9, none⟩ : Slice).indices 5 = some [0, 1, 2, 3, 4] := by decide
example : TakenUp (some (-3)) none 1 5 2 ∧ ¬ TakenUp (some (-3)) none 1 5 1 := by
  refine ⟨⟨by omega, by simp, 0, by decide⟩, ?_⟩
  rintro ⟨_, _, m, hm⟩
  simp [fromEnds] at hm
  omega
example : Arr.selOf (.int (-1)) 5 = some (.one 4) := by decide

end HF
