import Verif.HFArray.MatMul
import Mathlib.Analysis.Normed.Group.Basic
/-
Model of the two functions that set small numbers to zero.

repo: hftools/math.py:57-68, hftools/utils.py:127-137

Numbers are elements of a normed group (real or complex numbers), `abs` is the norm; NaN and
infinity are not modelled.
-/
namespace HF.Chop

variable {α : Type} [NormedAddCommGroup α]

/-- `abs(x) < threshold`: the number becomes zero.  For numbers `0 * x` is zero.
repo: hftools/math.py:60-68 -/
noncomputable def chopNum (t : ℝ) (x : α) : α := if ‖x‖ < t then 0 else x

/-- `hftools.math.chop(x, threshold)` for arrays, a copy is changed.  repo: hftools/math.py:60-63 -/
noncomputable def chopMath (t : ℝ) (x : Nd α) : Nd α := ⟨x.shape, fun idx => chopNum t (x.get idx)⟩

/-- `x.max()` of a list of numbers; `none` is `ValueError` for arrays without elements.  Numpy. -/
noncomputable def maxOf : List ℝ → Option ℝ
  | [] => none
  | a :: t => some (t.foldl max a)

/-- All elements of an array. -/
def elems (x : Nd α) : List α := (Nd.allIdx x.shape).map x.get

/-- `hftools.utils.chop(x, rtol, atol)`.  repo: hftools/utils.py:127-137 -/
noncomputable def chopUtils (rtol atol : ℝ) (x : Nd α) : Except Nd.Err (Nd α) :=
  match maxOf ((elems x).map fun z => ‖z‖) with
  | none => .error .valueError
  | some m => .ok ⟨x.shape, fun idx => if ‖x.get idx‖ < atol ∨ ‖x.get idx‖ < rtol * m then 0 else x.get idx⟩

end HF.Chop
