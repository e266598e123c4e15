import Verif.Utils.Sort
/-
Legends, saving of figures, width and ticks of axes.
repo: hftools/plotting/helper.py:40-47, 655-762
-/
namespace HF.Plot.Figures

/-- A line of a plot, by its identity, with its label. -/
structure Line where
  id : Nat
  label : String
  deriving DecidableEq

/-- `s.startswith("_")` -/
def underscored (s : String) : Bool := match s.toList with
  | '_' :: _ => true
  | _ => false

/-- The inner loop of `build_figlegend`.  repo: hftools/plotting/helper.py:704-707 -/
def legendAxes : List Line → List Line × List String → List Line × List String
  | [], acc => acc
  | l :: t, (lines, labels) =>
    if underscored l.label then legendAxes t (lines, labels)
    else legendAxes t (lines ++ [l], labels ++ [l.label])

/-- `build_figlegend(axes)`: lines and labels, for the lines of each of the axes.
repo: hftools/plotting/helper.py:699-708 -/
def buildFiglegend (axes : List (List Line)) : List Line × List String :=
  axes.foldl (fun acc ax => legendAxes ax acc) ([], [])

/-- What happens on `savefig`: the transparency of the figure afterwards, and the transparency with
which the file was written or the error. -/
structure Saved (α ε : Type) where
  after : α
  written : Except ε α

/-- `savefig(filename, facetransparent=...)`.  `zero` is the transparency set, `fails` tells which error
`pylab.savefig` raises, if any.  The figure is the current one before and after.
repo: hftools/plotting/helper.py:40-47 -/
def savefig {α ε : Type} (zero : α) (transparent : Bool) (fails : Option ε) (alpha : α) : Saved α ε :=
  let during := if transparent then zero else alpha
  match fails with
  | some e => ⟨during, .error e⟩
  | none => ⟨if transparent then alpha else during, .ok during⟩

/-- A figure with its number. -/
structure Fig where
  num : Int
  id : Nat
  deriving DecidableEq

/-- `all_figures()`: `sorted(Gcf.figs.items())`, the numbers are distinct.
repo: hftools/plotting/helper.py:655-658 -/
def allFigures (figs : List Fig) : List Fig := Py.sortBy (fun a b => decide (a.num < b.num)) figs

/-- `filename.splitext()[1]` (POSIX): what begins with the last dot of the last component, unless only
dots come before it. -/
def extension (name : List Char) : List Char :=
  let base := (name.reverse.takeWhile (· ≠ '/')).reverse
  let tail := (base.reverse.takeWhile (· ≠ '.')).reverse
  if '.' ∈ base then
    if (base.take (base.length - tail.length - 1)).any (· ≠ '.') then '.' :: tail else []
  else []

/-- `str.lower` of the letters of ASCII.  No other character becomes one of `.pdf`. -/
def lowered (c : Char) : Char := if 'A' ≤ c ∧ c ≤ 'Z' then Char.ofNat (c.toNat + 32) else c

/-- A file of pages: which figures were written, and whether it was finished. -/
structure Pdf where
  pages : List Fig
  closed : Bool
  deriving DecidableEq

/-- The loop of `save_all_figures_to_pdf`; `fails` tells which figures can not be drawn.
repo: hftools/plotting/helper.py:682-684 -/
def writePages (fails : Fig → Bool) : List Fig → List Fig → Pdf × Bool
  | [], done => (⟨done, true⟩, true)
  | f :: t, done => if fails f then (⟨done, false⟩, false) else writePages fails t (done ++ [f])

/-- `save_all_figures_to_pdf(filename)`: the file, if there is one, and whether there was no error.
repo: hftools/plotting/helper.py:677-684 -/
def savePdf (fails : Fig → Bool) (name : List Char) (figs : List Fig) : Option Pdf × Bool :=
  if (extension name).map lowered ≠ ['.', 'p', 'd', 'f'] then (none, false)
  else
    let r := writePages fails (allFigures figs) []
    (some r.1, r.2)

/-- Position of axes in the figure. -/
structure Box (R : Type) where
  x0 : R
  y0 : R
  x1 : R
  y1 : R

/-- `adjust_axwidth(dw, axes)` for a list of axes: `pos` is the position of all axes.
repo: hftools/plotting/helper.py:661-674 -/
def adjustAxwidth {R : Type} [Add R] (dw : R) (axes : List Nat) (pos : Nat → Box R) : Nat → Box R :=
  axes.foldl (fun p ax => fun k => if k = ax then { p ax with x1 := (p ax).x1 + dw } else p k) pos

/-- Distances of the ticks of axes: major and minor, for x and y. -/
structure Ticks (R : Type) where
  xmajor : R
  xminor : R
  ymajor : R
  yminor : R

/-- `set_xtick(major, minor, axes)`.  repo: hftools/plotting/helper.py:739-748 -/
def setXtick {R : Type} (major minor : R) (axes : List Nat) (t : Nat → Ticks R) : Nat → Ticks R :=
  axes.foldl (fun p ax => fun k => if k = ax then { p ax with xmajor := major, xminor := minor } else p k) t

/-- `set_ytick(major, minor, axes)`.  repo: hftools/plotting/helper.py:727-736 -/
def setYtick {R : Type} (major minor : R) (axes : List Nat) (t : Nat → Ticks R) : Nat → Ticks R :=
  axes.foldl (fun p ax => fun k => if k = ax then { p ax with ymajor := major, yminor := minor } else p k) t

end HF.Plot.Figures
