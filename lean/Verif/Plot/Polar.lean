import Verif.Plot.Draw
import Mathlib.Analysis.SpecialFunctions.Complex.Arg
/-
Model of what polar axes draw.

repo: hftools/plotting/helper.py:568-627
-/
namespace HF.Plot.Polar

open HF.DataBlock (ismatrix)
open HF.Plot.Draw (Num Data Arg PErr mapNd mapArr tail axesPlot axesPlot1 dimData)

variable {β : Type}

/-- `cplx_polar_projection(x, y)` for an x: the angles and the magnitudes.  A real y is the imaginary part of a sum that
is made from the arrays by their dims.  `full` is `make_fullcomplex_array`.
repo: hftools/plotting/helper.py:620-627 -/
noncomputable def projection (full : Arr β ℂ → Arr β ℂ) (x y : Arr β ℂ) (cplx : Bool) :
    Except PErr (Arr β ℝ × Arr β ℝ) :=
  if cplx then .ok (mapArr Complex.arg y, mapArr (fun z => ‖z‖) y)
  else
    match Arr.binop full (· + ·) x (Arr.scalarOp (fun v s => s * v) y Complex.I) with
    | .ok z => .ok (mapArr Complex.arg z, mapArr (fun z => ‖z‖) z)
    | .error e => .error (.data e)

/-- `cplx_polar_projection(None, y)`.  repo: hftools/plotting/helper.py:617-619, 627 -/
noncomputable def projection1 (y : Nd ℂ) : Nd ℝ × Nd ℝ := (mapNd Complex.arg y, mapNd (fun z => ‖z‖) y)

/-- `plot(x, y)`: only y loses its tail.  repo: hftools/plotting/helper.py:595-601, 610 -/
noncomputable def plotXY (full : Arr β ℂ → Arr β ℂ) (ofIdx : Nat → β) (x y : Data β ℂ) :
    Except PErr (List (List (ℝ × ℝ))) :=
  match tail ofIdx y.arr with
  | .error e => .error e
  | .ok y' =>
    match projection full x.arr y' y.cplx with
    | .error e => .error e
    | .ok (x, y) => axesPlot x.nd y.nd

/-- `plot(y)` for an array of numpy or an `hfarray` without dims.
repo: hftools/plotting/helper.py:586-590 -/
noncomputable def plotY (index : Nat → ℝ) (y : Nd ℂ) : Except PErr (List (List (ℝ × ℝ))) :=
  axesPlot1 index (projection1 y).2

/-- `plot(*args)`; the name of the axes is in `_projfun`, so that lines 591-594 and 602-605 are never executed.  Byte
strings have no shape (`remove_tail`).  A text as first argument is not modelled.
repo: hftools/plotting/helper.py:571-612 -/
noncomputable def plot (N : Num β ℂ ℝ) (full : Arr β ℂ → Arr β ℂ) (ofIdx : Nat → β) (args : List (Arg β ℂ)) :
    Except PErr (List (List (ℝ × ℝ))) :=
  let vars := args.take 2
  let vars := match vars with
    | [a, .text _] => [a]
    | _ => vars
  match vars with
  | [.data y] =>
    match y.arr.dims with
    | d :: _ => plotXY full ofIdx (dimData N d) y
    | [] => plotY N.index y.arr.nd
  | [.data x, .data y] => plotXY full ofIdx x y
  | [] => .error .missing
  | _ => .error .type

end HF.Plot.Polar
