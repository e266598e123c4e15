import Verif.HFArray.LinAlgProps
import Mathlib.Algebra.Field.Rat
import Mathlib.Tactic.NormNum
/-
C58, C59: concrete stacks of matrices, and what the functions accept although they should not.
-/
namespace HF.Arr.MatEx

def kI : Key := ("i", .matI)
def kJ : Key := ("j", .matJ)

def dI (n : Nat) : Dim Nat := ⟨.matI, "i", List.range n, none, none⟩
def dJ (n : Nat) : Dim Nat := ⟨.matJ, "j", List.range n, none, none⟩
def dF (n : Nat) : Dim Nat := ⟨.dimSweep, "freq", List.range n, none, none⟩

/-- Two matrices, `[[1, 2], [3, 5]]` and `[[2, 2], [3, 6]]`. -/
def exA : Arr Nat ℚ := ⟨[dF 2, dI 2, dJ 2], ⟨[2, 2, 2], fun
  | [0, 0, 0] => 1 | [0, 0, 1] => 2 | [0, 1, 0] => 3 | [0, 1, 1] => 5
  | [1, 0, 0] => 2 | [1, 0, 1] => 2 | [1, 1, 0] => 3 | [1, 1, 1] => 6
  | _ => 0⟩⟩

/-- One matrix, `[[0, 1], [1, 0]]`, with the column axis first. -/
def exB : Arr Nat ℚ := ⟨[dJ 2, dI 2], ⟨[2, 2], fun
  | [0, 1] => 1 | [1, 0] => 1 | _ => 0⟩⟩

/-- A vector `[1, 2]`. -/
def exV : Arr Nat ℚ := ⟨[dI 2], ⟨[2], fun | [0] => 1 | [1] => 2 | _ => 0⟩⟩

theorem exA_stack : exA.IsStack kI kJ 2 :=
  ⟨rfl, by unfold Distinct; decide +kernel, by decide +kernel, by decide +kernel, rfl, rfl, by decide +kernel⟩

theorem exB_stack : exB.IsStack kI kJ 2 :=
  ⟨rfl, by unfold Distinct; decide +kernel, by decide +kernel, by decide +kernel, rfl, rfl, by decide +kernel⟩

theorem exAB_nosub : NoSub (exA.dims ++ exB.dims) := by unfold NoSub; decide +kernel

theorem exAB_outer : OuterOk exA exB kI kJ := by
  intro k s t h1 h2 h3 h4
  exfalso
  have := axisLen_isSome exB_stack.wf h4
  simp only [exB, dJ, dI, List.map_cons, List.map_nil, List.mem_cons, List.not_mem_nil, or_false] at this
  rcases this with rfl | rfl
  · exact h2 rfl
  · exact h1 rfl

/-- The hypotheses of C58 hold for a stack of two matrices and a single one. -/
example : Stacks exA exB kI kJ ∧ OuterOk exA exB kI kJ ∧ exA.axisLen kI = some 2 ∧
    exB.axisLen kJ = some 2 ∧ exA.Labelled ∧ exB.Labelled := by
  refine ⟨exA_stack.stacks exB_stack exAB_nosub, exAB_outer, ?_, ?_, rfl, rfl⟩ <;> decide +kernel

structure Seen where
  names : List String
  labels : List Nat
  shape : List Nat
  elems : List ℚ
  deriving DecidableEq

def seen : Except Nd.LErr (Arr Nat ℚ) → Option Seen
  | .ok r => some ⟨r.dims.map Dim.name, r.dims.map (fun d => d.data.length), r.nd.shape, (Nd.allIdx r.nd.shape).map r.nd.get⟩
  | .error _ => none

/-- Columns exchanged by the product, at both frequencies. -/
example : seen (matMul id exA exB) = some ⟨["freq", "i", "j"], [2, 2, 2], [2, 2, 2], [2, 1, 5, 3, 2, 2, 6, 3]⟩ := by
  decide +kernel

example : NoSub (exA.dims ++ exB.dims ++ exA.dims) := by unfold NoSub; decide +kernel

theorem exA_last : exA.Last kI kJ 2 [dF 2] (dI 2) (dJ 2) := ⟨exA_stack, rfl, rfl, rfl⟩

theorem exA_regular : exA.Regular kI kJ 2 := by
  intro c hc
  have h := hc ("freq", .dimSweep) 2 (by decide) (by decide) (by decide +kernel)
  have e0 : (exA.mat kI kJ c 2 2).det = exA.nd.get [c ("freq", .dimSweep), 0, 0] *
      exA.nd.get [c ("freq", .dimSweep), 1, 1] - exA.nd.get [c ("freq", .dimSweep), 0, 1] *
      exA.nd.get [c ("freq", .dimSweep), 1, 0] := Matrix.det_fin_two _
  rw [e0]
  have h2 : c ("freq", .dimSweep) = 0 ∨ c ("freq", .dimSweep) = 1 := by omega
  rcases h2 with e | e <;> rw [e] <;> decide +kernel

/-- The hypotheses of C59 hold for this stack, and for a vector as right hand side. -/
example : (∃ B, inv exA = .ok B) ∧ ∃ x, solveAb id exA exV false = .ok x ∧
    x.axisLen kJ = some 1 := by
  refine ⟨?_, ?_⟩
  · obtain ⟨B, h, -⟩ := C59_inverse exA exA_last exA_regular
    exact ⟨B, h⟩
  · have hst : Stacks exA exV kI kJ := by
      refine ⟨rfl, rfl, ?_, ?_, ?_, ?_, ?_, rfl, rfl, ?_⟩ <;> (try unfold Distinct) <;> (try unfold NoSub) <;>
        decide +kernel
    have ho : OuterOk exA exV kI kJ := by
      intro k s t h1 h2 h3 h4
      exfalso
      have := axisLen_isSome (x := exV) rfl h4
      simp only [exV, dI, List.map_cons, List.map_nil, List.mem_cons, List.not_mem_nil, or_false] at this
      exact h1 this
    obtain ⟨x, -, -, -, hx, -, -, -, -, -, -, -, hl, -⟩ := C59_solve id exA exV hst ho (n := 2)
      (by decide +kernel) (by decide +kernel) (by decide +kernel) (by
        intro c hc
        apply exA_regular c
        intro k s h1 h2 h3
        apply hc k s h1 h2
        rw [h3]
        have : exV.axisLen k = none := axisLen_none (x := exV) rfl (by
          simp only [exV, dI, List.map_cons, List.map_nil, List.mem_cons, List.not_mem_nil, or_false]
          exact h1)
        rw [this]; rfl)
    refine ⟨x, hx, ?_⟩
    rw [hl]
    decide +kernel

/-- Determinants of the stack: `-1` and `6`. -/
example : seen (det exA) = some ⟨["freq"], [2], [2], [-1, 6]⟩ := by
  have h : ∀ o, (Nd.matOf exA.nd o 2 2).det = exA.nd.get (o ++ [0, 0]) * exA.nd.get (o ++ [1, 1]) -
      exA.nd.get (o ++ [0, 1]) * exA.nd.get (o ++ [1, 0]) := fun o => Matrix.det_fin_two _
  have e : det exA = .ok ⟨[dF 2], ⟨[2], fun o => exA.nd.get (o ++ [0, 0]) * exA.nd.get (o ++ [1, 1]) -
      exA.nd.get (o ++ [0, 1]) * exA.nd.get (o ++ [1, 0])⟩⟩ := by
    simp only [← h]
    rfl
  rw [e]
  decide +kernel

/-- C58, violated: the product of a 2 by 3 and a 3 by 4 matrix has four columns, but its column
axis carries the three labels of the first operand. -/
theorem C58_nonsquare_labels_refuted :
    ∃ a b : Arr Nat ℚ, a.Labelled ∧ b.Labelled ∧ Stacks a b kI kJ ∧ a.axisLen kJ = b.axisLen kI ∧
      (seen (matMul id a b)).map Seen.shape = some [2, 4] ∧
      (seen (matMul id a b)).map Seen.labels = some [2, 3] := by
  refine ⟨⟨[dI 2, dJ 3], ⟨[2, 3], fun _ => 1⟩⟩, ⟨[dI 3, dJ 4], ⟨[3, 4], fun _ => 1⟩⟩, rfl, rfl, ?_,
    by decide +kernel, by decide +kernel, by decide +kernel⟩
  refine ⟨rfl, rfl, ?_, ?_, ?_, ?_, ?_, rfl, rfl, ?_⟩ <;> (try unfold Distinct) <;> (try unfold NoSub) <;>
    decide +kernel

/-- C58, violated: an operand without rows (or with one row) is not refused, although a matrix
with two columns cannot be multiplied by it: the sums over the rows are multiplied instead. -/
theorem C58_one_row_refuted :
    ∃ a b : Arr Nat ℚ, a.Labelled ∧ b.Labelled ∧ Stacks a b kI kJ ∧ a.axisLen kJ = some 2 ∧
      b.axisLen kI = some 1 ∧
      (seen (matMul id a b)).map Seen.elems = some [3 * 5, 3 * 7, 7 * 5, 7 * 7] := by
  refine ⟨⟨[dI 2, dJ 2], ⟨[2, 2], fun | [0, 0] => 1 | [0, 1] => 2 | [1, 0] => 3 | _ => 4⟩⟩,
    ⟨[dI 1, dJ 2], ⟨[1, 2], fun | [0, 0] => 5 | _ => 7⟩⟩, rfl, rfl, ?_, by decide +kernel,
    by decide +kernel, by decide +kernel⟩
  refine ⟨rfl, rfl, ?_, ?_, ?_, ?_, ?_, rfl, rfl, ?_⟩ <;> (try unfold Distinct) <;> (try unfold NoSub) <;>
    decide +kernel

/-- C59, violated: `det` takes the last two axes even if they are not rows and columns.  For two
matrices stored with the sweep last the result has rows left and no determinant at all. -/
theorem C59_det_position_refuted :
    ∃ a d : Arr Nat ℚ, a.Labelled ∧ a.IsStack kI kJ 2 ∧ det a = .ok d ∧ d.dims.map Dim.name = ["i"] := by
  refine ⟨⟨[dI 2, dJ 2, dF 2], ⟨[2, 2, 2], fun _ => 1⟩⟩, _, rfl, ?_, rfl, rfl⟩
  exact ⟨rfl, by unfold Distinct; decide +kernel, by decide +kernel, by decide +kernel, rfl, rfl,
    by decide +kernel⟩

end HF.Arr.MatEx
