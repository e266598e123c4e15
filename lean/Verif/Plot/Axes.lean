import Verif.Plot.Label
/-
Labels of the axes of all projections.

repo: hftools/plotting/helper.py:50-65, 76-138, 246-255, 324-335, 349-364, 368-565

The label texts are modelled, not the drawing.  What is known of the data that are plotted is whether they could be
drawn, whether they are complex, the name of the dimension that gave the x values, and the units.
-/
namespace HF.Plot.Ax

abbrev Txt := List Char

/-! ### `SimpleUnitFormatter` -/

/-- `%(unit)s` -/
def tPcUnit : Txt := ['%', '(', 'u', 'n', 'i', 't', ')', 's']

structure SF where
  defaultUnit : Option Txt := none
  labelUnit : Option Txt := none
  labelFmt : Txt := []
  template : Option Txt := none

/-- `get_label_unit`.  repo: hftools/plotting/helper.py:114-121 -/
def SF.unit (s : SF) : Txt :=
  match s.labelUnit with
  | none =>
    match s.defaultUnit with
    | none => []
    | some u => u
  | some u => u

def unitEnv (unit : Txt) (k : Txt) : Option Txt := if k = kUnit then some unit else none

/-- `update_template`; `"[%%(prefix)s%s]" % unit` is the text with the unit at its place.
repo: hftools/plotting/helper.py:128-138 -/
def makeSimple (fmt unit : Txt) : Except Err Txt :=
  if hasSub tBox fmt then
    if unit ≠ [] then .ok (replace tBox (['[', '%', '(', 'p', 'r', 'e', 'f', 'i', 'x', ')', 's'] ++ unit ++ [']']) fmt)
    else .ok (replace tBox tBoxU fmt)
  else if hasSub tPcUnit fmt then pcFormat (unitEnv unit) .text fmt
  else .ok fmt

def SF.update (s : SF) : SF × Except Err Unit :=
  match makeSimple s.labelFmt s.unit with
  | .error e => (s, .error e)
  | .ok t => ({ s with template := some t }, .ok ())

/-- repo: hftools/plotting/helper.py:107-112 -/
def SF.setFmt (s : SF) (fmt : Option Txt) : SF × Except Err Unit := SF.update { s with labelFmt := fmt.getD [] }

/-- repo: hftools/plotting/helper.py:123-126 -/
def SF.setUnit (s : SF) (unit : Option Txt) : SF × Except Err Unit := SF.update { s with labelUnit := unit.or s.labelUnit }

/-- `SimpleUnitFormatter(fmt, label_fmt=..., unit=...)`: the template is made and forgotten.
repo: hftools/plotting/helper.py:79-86 -/
def SF.init (labelFmt unit : Option Txt) : Except Err SF :=
  match SF.setFmt { defaultUnit := unit } labelFmt with
  | (_, .error e) => .error e
  | (s, .ok _) => .ok { s with template := none }

def simpleEnv (k : Txt) : Option Txt := if k = kPrefix then some [] else none

/-- `__call__`: the tick, and the label if one is set; `max` of nothing raises.
repo: hftools/plotting/helper.py:88-102 -/
noncomputable def SF.call (s : SF) (hasFun : Bool) (locs : List ℝ) (x : ℝ) : Except Err (Tick × Option Txt) :=
  if locs = [] then .error .valueError
  else
    let dig := digits locs 1 3
    match hasFun, s.template with
    | true, some (c :: t) => (pcFormat simpleEnv .text (c :: t)).map fun l => (⟨x / 1, .fixed dig⟩, some l)
    | _, _ => .ok (⟨x / 1, .fixed dig⟩, none)

/-! ### The two axes -/

/-- The formatter of an axis; `other` is one of matplotlib, which has no label. -/
inductive Fm where
  | other
  | simple (s : SF)
  | unit (s : UF)

inductive Side where
  | x
  | y
  deriving DecidableEq

/-- An axis, and the label that its formatter sets: `set_label_fun`. -/
structure Axis where
  fm : Fm := .other
  link : Option Side := none

/-- `set_xlabel_unit`, `set_ylabel_unit`.  repo: hftools/plotting/helper.py:368-371, 380-383 -/
def Axis.setUnit (a : Axis) (unit : Option Txt) : Axis × Except Err Unit :=
  match a.fm with
  | .other => (a, .ok ())
  | .simple s => ({ a with fm := .simple (s.setUnit unit).1 }, (s.setUnit unit).2)
  | .unit s => ({ a with fm := .unit (s.step (.setUnit unit)).1 }, (s.step (.setUnit unit)).2)

/-- `set_label_fmt` of the formatter, if it has one. -/
def Axis.setFmtOnly (a : Axis) (fmt : Option Txt) : Axis × Except Err Unit :=
  match a.fm with
  | .other => (a, .ok ())
  | .simple s => ({ a with fm := .simple (s.setFmt fmt).1 }, (s.setFmt fmt).2)
  | .unit s => ({ a with fm := .unit (s.step (.setFmt fmt)).1 }, (s.step (.setFmt fmt)).2)

/-- `set_xlabel_fmt`, `set_ylabel_fmt`: the unit first, then the format.
repo: hftools/plotting/helper.py:392-404 -/
def Axis.setFmt (a : Axis) (side : Side) (fmt unit : Option Txt) : Axis × Except Err Unit :=
  match Axis.setUnit { a with link := some side } unit with
  | (a, .error e) => (a, .error e)
  | (a, .ok _) => a.setFmtOnly fmt

/-- `fmt.default_label = ...; fmt.update_template()`; the simple formatter makes its template again.
repo: hftools/plotting/helper.py:332-335 -/
def Axis.setName (a : Axis) (name : Txt) : Axis × Except Err Unit :=
  match a.fm with
  | .other => (a, .ok ())
  | .simple s => ({ a with fm := .simple s.update.1 }, s.update.2)
  | .unit s => ({ a with fm := .unit (s.step (.setName name)).1 }, (s.step (.setName name)).2)

/-- `get_xlabel_unit`, `get_ylabel_unit`.  repo: hftools/plotting/helper.py:373-378, 385-390 -/
def Axis.getUnit (a : Axis) : Option Txt :=
  match a.fm with
  | .other => none
  | .simple s => some s.unit
  | .unit s => some s.unit

/-- `get_xlabel_fmt`, `get_ylabel_fmt`.  repo: hftools/plotting/helper.py:406-418 -/
def Axis.getFmt (a : Axis) : Option Txt :=
  match a.fm with
  | .other => none
  | .simple s => some s.labelFmt
  | .unit s => some s.labelFmt

/-- A tick is formatted: nothing is known of matplotlib's own formatters. -/
noncomputable def Axis.call (a : Axis) (locs : List ℝ) (x : ℝ) : Except Err (Option Tick × Option Txt) :=
  match a.fm with
  | .other => .ok (none, none)
  | .simple s => (s.call a.link.isSome locs x).map fun r => (some r.1, r.2)
  | .unit s => (s.call a.link.isSome 3 locs x).map fun r => (some r.1, r.2)

/-! ### The projections -/

/-- The axes classes with labels.  repo: hftools/plotting/helper.py:246-565 -/
inductive Proj where
  | rectilinear | db | db10 | mag | magSquare | unity | xSi | cplx | groupDelay | real | imag
  | deg | unwrapDeg | wrapUnwrapDeg | rad | unwrapRad
  deriving DecidableEq

def Proj.name : Proj → String
  | .rectilinear => "rectilinear"
  | .db => "db"
  | .db10 => "db10"
  | .mag => "mag"
  | .magSquare => "mag_square"
  | .unity => "unity"
  | .xSi => "x-si"
  | .cplx => "cplx"
  | .groupDelay => "groupdelay"
  | .real => "real"
  | .imag => "imag"
  | .deg => "deg"
  | .unwrapDeg => "unwrapdeg"
  | .wrapUnwrapDeg => "wrapunwrapeddeg"
  | .rad => "rad"
  | .unwrapRad => "unwraprad"

/-- `projection in _projfun`; `none` is python's `None`.  repo: hftools/plotting/helper.py:629-645 -/
def inTable : Option String → Bool
  | none => true
  | some s => s ∈ ["db", "db10", "mag", "mag_square", "rad", "deg", "unwraprad", "unwrapdeg", "imag", "real", "groupdelay",
      "cplxpolar", "x-si"]

structure Axes where
  proj : Proj
  x : Axis := {}
  y : Axis := {}
  /-- `HFTOOLS_default_x_name` -/
  xname : Option Txt := none
  /-- the labels that are shown -/
  xlabel : Txt := []
  ylabel : Txt := []

/-- The unit that `set_ylabel_fmt` takes if it is called without one.
repo: hftools/plotting/helper.py:536, 558 -/
def Proj.defaultUnit : Proj → Option Txt
  | .deg | .unwrapDeg | .wrapUnwrapDeg => some ['°']
  | .rad | .unwrapRad => some ['r', 'a', 'd']
  | _ => none

/-- `ax.set_xlabel_fmt(fmt, unit)` -/
def Axes.setXFmt (a : Axes) (fmt unit : Option Txt) : Axes × Except Err Unit :=
  ({ a with x := (a.x.setFmt .x fmt unit).1 }, (a.x.setFmt .x fmt unit).2)

/-- `ax.set_ylabel_fmt(fmt)` and `ax.set_ylabel_fmt(fmt, unit)`; `unit` is `none` if there is no second argument, and
`some none` if it is `None`.  repo: hftools/plotting/helper.py:399-404, 536-537, 558-559 -/
def Axes.setYFmt (a : Axes) (fmt : Option Txt) (unit : Option (Option Txt)) : Axes × Except Err Unit :=
  let unit := unit.getD a.proj.defaultUnit
  ({ a with y := (a.y.setFmt .y fmt unit).1 }, (a.y.setFmt .y fmt unit).2)

/-- `xlabel_fmt(fmt, unit)`.  repo: hftools/plotting/helper.py:50-56 -/
def Axes.xlabelFmt (a : Axes) (fmt unit : Option Txt) : Axes × Except Err Unit :=
  match unit with
  | none => a.setXFmt fmt none
  | some u => a.setXFmt fmt (some u)

/-- `ylabel_fmt(fmt, unit)`.  repo: hftools/plotting/helper.py:59-65 -/
def Axes.ylabelFmt (a : Axes) (fmt unit : Option Txt) : Axes × Except Err Unit :=
  match unit with
  | none => a.setYFmt fmt none
  | some u => a.setYFmt fmt (some (some u))

/-- The first dimension plotted names the x axis.  repo: hftools/plotting/helper.py:324-335 -/
def Axes.naming (a : Axes) (name : Option Txt) : Axes × Except Err Unit :=
  match a.xname, name with
  | none, some n => ({ a with xname := some n, x := (a.x.setName n).1 }, (a.x.setName n).2)
  | _, _ => (a, .ok ())

/-- A unit goes to an axis unless it is empty.  repo: hftools/plotting/helper.py:360-363 -/
def Axis.take (a : Axis) (u : Option Txt) : Axis × Except Err Unit :=
  if u.getD [] ≠ [] then a.setUnit u else (a, .ok ())

/-- The label part of `plot`: `name` is the name of the dimension that gave the x values, if there were none; `drawn`
tells whether the data could be drawn, `as_` is the argument `projection`.
repo: hftools/plotting/helper.py:313-335, 346-364 -/
def Axes.plot (a : Axes) (name : Option Txt) (as_ : Option (Option String)) (drawn cplx : Bool) (xu yu : Option Txt) :
    Axes × Except Err Unit :=
  match a.naming name with
  | (a, .error e) => (a, .error e)
  | (a, .ok _) =>
    if drawn then
      match a.x.take (if !inTable (as_.getD (some a.proj.name)) && cplx then yu else xu) with
      | (x, .error e) => ({ a with x := x }, .error e)
      | (x, .ok _) => ({ a with x := x, y := (a.y.take yu).1 }, (a.y.take yu).2)
    else (a, .ok ())

/-- A label is set. -/
def Axes.setLabel (a : Axes) (side : Side) (text : Txt) : Axes :=
  match side with
  | .x => { a with xlabel := text }
  | .y => { a with ylabel := text }

/-- The ticks `rest` of an axis with the ticks `locs` are formatted one after the other. -/
noncomputable def Axes.drawAxis (ax : Axis) (locs : List ℝ) : Axes → List ℝ → Axes × Except Err Unit
  | a, [] => (a, .ok ())
  | a, x :: rest =>
    match ax.call locs x with
    | .error e => (a, .error e)
    | .ok (_, none) => Axes.drawAxis ax locs a rest
    | .ok (_, some l) =>
      match ax.link with
      | some side => Axes.drawAxis ax locs (a.setLabel side l) rest
      | none => Axes.drawAxis ax locs a rest

/-- The axes are drawn. -/
noncomputable def Axes.draw (a : Axes) (xlocs ylocs : List ℝ) : Axes × Except Err Unit :=
  match Axes.drawAxis a.x xlocs a xlocs with
  | (a, .error e) => (a, .error e)
  | (a, .ok _) => Axes.drawAxis a.y ylocs a ylocs

/-- One step after the other; the rest is not done after an error. -/
def Axes.andThen (r : Axes × Except Err Unit) (f : Axes → Axes × Except Err Unit) : Axes × Except Err Unit :=
  match r with
  | (a, .error e) => (a, .error e)
  | (a, .ok _) => f a

/-- `UnitFormatter("%.1f")` -/
def newUnit : Fm := .unit {}

/-- `SimpleUnitFormatter("%.3f")` -/
def newSimple : Fm := .simple {}

/-- `{default} []` -/
def fDefault : Txt := ['{', 'd', 'e', 'f', 'a', 'u', 'l', 't', '}', ' ', '[', ']']

/-- `Real []` -/
def fReal : Txt := ['R', 'e', 'a', 'l', ' ', '[', ']']

/-- `Imaginary []` -/
def fImag : Txt := ['I', 'm', 'a', 'g', 'i', 'n', 'a', 'r', 'y', ' ', '[', ']']

/-- `$\tau$ []` -/
def fTau : Txt := ['$', '\\', 't', 'a', 'u', '$', ' ', '[', ']']

/-- `MagAxes.__init__`.  repo: hftools/plotting/helper.py:455-460, 470-475 -/
def initMag (p : Proj) : Axes × Except Err Unit :=
  Axes.andThen (Axes.setXFmt { proj := p, x := { fm := newUnit }, y := { fm := newUnit } } (some fDefault) none)
    fun a => a.setYFmt (some tBox) none

/-- The axes as they are made.  repo: hftools/plotting/helper.py:253-255, 425-430, 440-445, 455-460, 470-475, 490-493,
500-505, 512-515, 532-534, 554-556 -/
def Axes.init (p : Proj) : Axes × Except Err Unit :=
  match p with
  | .rectilinear => ({ proj := p }, .ok ())
  | .db | .db10 =>
    Axes.andThen (Axes.setYFmt { proj := p, x := { fm := newUnit }, y := { fm := newSimple } } (some tBox) (some (some ['d', 'B'])))
      fun a => a.setXFmt (some fDefault) none
  | .mag | .magSquare | .unity | .real | .imag => initMag p
  | .xSi => Axes.setXFmt { proj := p, x := { fm := newUnit } } (some fDefault) none
  | .cplx =>
    Axes.andThen (Axes.setXFmt { proj := p, x := { fm := newUnit }, y := { fm := newUnit } } (some fReal) none)
      fun a => a.setYFmt (some fImag) none
  | .groupDelay =>
    Axes.andThen (initMag p) fun a => Axes.setYFmt { a with y := { fm := newUnit } } (some fTau) none
  | .deg | .unwrapDeg | .wrapUnwrapDeg | .rad | .unwrapRad =>
    Axes.andThen (initMag p) fun a => a.setYFmt (some tBox) none

/-- What is done with axes. -/
inductive AOp where
  | xfmt (fmt unit : Option Txt)
  | yfmt (fmt : Option Txt) (unit : Option (Option Txt))
  | xunit (unit : Option Txt)
  | yunit (unit : Option Txt)
  | plot (name : Option Txt) (as_ : Option (Option String)) (drawn cplx : Bool) (xu yu : Option Txt)
  | draw (xlocs ylocs : List ℝ)

noncomputable def Axes.step (a : Axes) : AOp → Axes × Except Err Unit
  | .xfmt fmt unit => a.setXFmt fmt unit
  | .yfmt fmt unit => a.setYFmt fmt unit
  | .xunit unit => ({ a with x := (a.x.setUnit unit).1 }, (a.x.setUnit unit).2)
  | .yunit unit => ({ a with y := (a.y.setUnit unit).1 }, (a.y.setUnit unit).2)
  | .plot name as_ drawn cplx xu yu => a.plot name as_ drawn cplx xu yu
  | .draw xlocs ylocs => a.draw xlocs ylocs

/-- A program: it ends with the first error. -/
noncomputable def Axes.run : Axes × Except Err Unit → List AOp → Axes × Except Err Unit
  | r, [] => r
  | r, o :: ops => Axes.run (Axes.andThen r fun a => a.step o) ops

end HF.Plot.Ax
