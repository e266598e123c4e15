import Verif.DataBlock.Model
import Verif.HFArray.Rep
import Verif.MathFns.Model
/-
Model of what the axes of hftools draw.

repo: hftools/plotting/helper.py:242-366, 616-645
-/
namespace HF.Plot.Draw

open HF.DataBlock (ismatrix)

variable {β α ρ : Type}

/-- Parts of numbers, coordinates as numbers, and the positions that matplotlib takes as x values if there
are none. -/
structure Num (β α ρ : Type) where
  re : α → ρ
  im : α → ρ
  coord : β → α
  index : Nat → ρ
  /-- real numbers as values -/
  real : ρ → α

/-- An `hfarray` of numbers; `cplx` tells whether the element type is complex.  Arrays without dims and
lists are not modelled. -/
structure Data (β α : Type) where
  arr : Arr β α
  cplx : Bool
  unit : Option String

/-- Arguments of `plot`: data, and texts, which matplotlib takes as formats of lines. -/
inductive Arg (β α : Type) where
  | data (d : Data β α)
  | text (s : String)
  | bytes (s : String)

/-- Exceptions.  `data`: of `remove_tail`; `value` and `type`: of matplotlib and of numpy. -/
inductive PErr where
  | missing
  | value
  | type
  | data (e : Arr.Err)
  deriving DecidableEq

/-- A projection: unknown ones leave it to the element type what is drawn, `x-si` and `None` draw what they
get, others apply a function to every element or to the arrays as a whole (unwrapped phases, group delays and
polar coordinates). -/
inductive Kind (β α ρ : Type) where
  | none
  | keep
  | point (f : α → ρ)
  | whole (g : Arr β α → Arr β α → Arr β α × Arr β α) (g1 : Arr β α → Except PErr (Arr β α))

/-- What the axes remember: the name that is the default label of the x axis, and the units of the labels. -/
structure St where
  xname : Option String := none
  xunit : Option String := none
  yunit : Option String := none
  deriving DecidableEq

/-- An array as rows and columns for matplotlib, which refuses more than two axes. -/
def asColumns (a : Nd α) : Option (Nat × Nat × (Nat → Nat → α)) :=
  match a.shape with
  | [] => some (1, 1, fun _ _ => a.get [])
  | [n] => some (n, 1, fun k _ => a.get [k])
  | [n, m] => some (n, m, fun k j => a.get [k, j])
  | _ => none

/-- `Axes.plot(x, y)` of matplotlib: columns against columns, starting again with the first column of the
one that has fewer (newer versions refuse that).  Arrays without columns are refused here; newer versions
draw nothing. -/
def axesPlot (x y : Nd ρ) : Except PErr (List (List (ρ × ρ))) :=
  match asColumns x, asColumns y with
  | some (n, mx, fx), some (n', my, fy) =>
    if n = n' ∧ 0 < mx ∧ 0 < my then
      .ok ((List.range (max mx my)).map fun j => (List.range n).map fun k => (fx k (j % mx), fy k (j % my)))
    else .error .value
  | _, _ => .error .value

/-- `Axes.plot(y)` of matplotlib. -/
def axesPlot1 (index : Nat → ρ) (y : Nd ρ) : Except PErr (List (List (ρ × ρ))) :=
  match asColumns y with
  | some (n, m, f) => .ok ((List.range m).map fun j => (List.range n).map fun k => (index k, f k j))
  | none => .error .value

def mapNd {γ : Type} (f : α → γ) (a : Nd α) : Nd γ := ⟨a.shape, fun idx => f (a.get idx)⟩

/-- `remove_tail(x)`; a matrix keeps its last two axes, and then has more axes than matplotlib accepts or
cannot be reshaped at all.  repo: hftools/dataset/arrayobj.py:249-266 -/
def tail (ofIdx : Nat → β) (x : Arr β ρ) : Except PErr (Arr β ρ) :=
  if ismatrix x then .error .value
  else match Arr.removeTail ofIdx x with
    | .ok r => .ok r
    | .error e => .error (.data e)

/-- `_plot_helper(x, y)`; what follows the `return` in line 264 is never executed.
repo: hftools/plotting/helper.py:258-264 -/
def plotHelper (ofIdx : Nat → β) (x y : Arr β ρ) : Except PErr (List (List (ρ × ρ))) :=
  if x.nd.shape.length = 1 ∧ y.nd.shape.length = 1 then axesPlot x.nd y.nd
  else
    match tail ofIdx x, tail ofIdx y with
    | .ok x', .ok y' => axesPlot x'.nd y'.nd
    | .error e, _ => .error e
    | .ok _, .error e => .error e

def mapArr {γ : Type} (f : α → γ) (a : Arr β α) : Arr β γ := ⟨a.dims, mapNd f a.nd⟩

/-- `hfarray(dim)` -/
def dimData (N : Num β α ρ) (d : Dim β) : Data β α :=
  ⟨⟨[d], ⟨[d.data.length], fun idx => ((d.data[idx.headD 0]?).map N.coord).getD (N.real (N.index 0))⟩⟩, false, d.unit⟩

/-- Units go to the labels unless they are empty.  repo: hftools/plotting/helper.py:359-362 -/
def setUnits (s : St) (xu yu : Option String) : St :=
  { s with
    xunit := if xu.getD "" = "" then s.xunit else xu
    yunit := if yu.getD "" = "" then s.yunit else yu }

/-- `plot` with x and y.  A byte string as second argument is handed to matplotlib, which takes it as format
of the lines, unless there is a projection that needs numbers.  Real numbers are drawn where matplotlib gets
complex ones.  repo: hftools/plotting/helper.py:346-364 -/
def plotXY (N : Num β α ρ) (ofIdx : Nat → β) (kind : Kind β α ρ) (s : St) (x : Data β α) (y : Arg β α) :
    St × Except PErr (List (List (ρ × ρ))) :=
  match y with
  | .text _ | .bytes _ =>
    match kind with
    | .none | .keep =>
      match axesPlot1 N.index (mapNd N.re x.arr.nd) with
      | .ok c => (setUnits s x.unit none, .ok c)
      | .error e => (s, .error e)
    | _ => (s, .error .type)
  | .data y =>
    match kind with
    | .keep =>
      match plotHelper ofIdx (mapArr N.re x.arr) (mapArr N.re y.arr) with
      | .ok c => (setUnits s x.unit y.unit, .ok c)
      | .error e => (s, .error e)
    | .point f =>
      match plotHelper ofIdx (mapArr N.re x.arr) (mapArr f y.arr) with
      | .ok c => (setUnits s x.unit y.unit, .ok c)
      | .error e => (s, .error e)
    | .whole g _ =>
      match plotHelper ofIdx (mapArr N.re (g x.arr y.arr).1) (mapArr N.re (g x.arr y.arr).2) with
      | .ok c => (setUnits s x.unit y.unit, .ok c)
      | .error e => (s, .error e)
    | .none =>
      if y.cplx then
        match plotHelper ofIdx (mapArr N.re y.arr) (mapArr N.im y.arr) with
        | .ok c => (setUnits s y.unit y.unit, .ok c)
        | .error e => (s, .error e)
      else
        match plotHelper ofIdx (mapArr N.re x.arr) (mapArr N.re y.arr) with
        | .ok c => (setUnits s x.unit y.unit, .ok c)
        | .error e => (s, .error e)

/-- `plot` with y only, which has no axes.  repo: hftools/plotting/helper.py:338-345 -/
def plotY (N : Num β α ρ) (kind : Kind β α ρ) (y : Data β α) : Except PErr (List (List (ρ × ρ))) :=
  match kind with
  | .keep => axesPlot1 N.index (mapNd N.re y.arr.nd)
  | .point f => axesPlot1 N.index (mapNd f y.arr.nd)
  | .whole _ g1 =>
    match g1 y.arr with
    | .ok r => axesPlot1 N.index (mapNd N.re r.nd)
    | .error e => .error e
  | .none =>
    if y.cplx then axesPlot (mapNd N.re y.arr.nd) (mapNd N.im y.arr.nd)
    else axesPlot1 N.index (mapNd N.re y.arr.nd)

/-- `plot(*args)` with the projection `kind`.  `isinstance(vars[1], text_type)` holds for texts, not for byte
strings.  A text as first argument is not modelled.
repo: hftools/plotting/helper.py:312-366 -/
def plot (N : Num β α ρ) (ofIdx : Nat → β) (kind : Kind β α ρ) (s : St) (args : List (Arg β α)) :
    St × Except PErr (List (List (ρ × ρ))) :=
  let vars := args.take 2
  let vars := match vars with
    | [a, .text _] => [a]
    | _ => vars
  match vars with
  | [.data y] =>
    match y.arr.dims with
    | d :: _ =>
      plotXY N ofIdx kind { s with xname := some (s.xname.getD d.name) } (dimData N d) (.data y)
    | [] => (s, plotY N kind y)
  | [.data x, y] => plotXY N ofIdx kind s x y
  | [] => (s, .error .missing)
  | _ => (s, .error .type)

open HF.MathFns in
/-- `_projfun`.  The names `rectilinear`, `cplx`, `unity` and `wrapunwrapeddeg` are those of axes, but not in
the table; polar axes have another `plot`, see `Polar.lean`.
repo: hftools/plotting/helper.py:629-645 -/
noncomputable def projfun (whole : String → (Arr β ℂ → Arr β ℂ → Arr β ℂ × Arr β ℂ) × (Arr β ℂ → Except PErr (Arr β ℂ))) :
    Option String → Kind β ℂ ℝ
  | none => .keep
  | some "x-si" => .keep
  | some "db" => .point dB
  | some "db10" => .point fun y => 10 * Real.logb 10 ‖y‖
  | some "mag" => .point fun y => ‖y‖
  | some "mag_square" => .point fun y => ‖y‖ ^ 2
  | some "rad" => .point Complex.arg
  | some "deg" => .point fun y => Complex.arg y * (180 / Real.pi)
  | some "imag" => .point Complex.im
  | some "real" => .point Complex.re
  | some "unwraprad" => .whole (whole "unwraprad").1 (whole "unwraprad").2
  | some "unwrapdeg" => .whole (whole "unwrapdeg").1 (whole "unwrapdeg").2
  | some "groupdelay" => .whole (whole "groupdelay").1 (whole "groupdelay").2
  | some "cplxpolar" => .whole (whole "cplxpolar").1 (whole "cplxpolar").2
  | some _ => .none

end HF.Plot.Draw
