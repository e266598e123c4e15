import Verif.Smith.Model
import Mathlib.Algebra.Order.Floor.Ring
/-
The grids of the Smith chart and of polar plots.

repo: hftools/plotting/smith.py:19-42, 78-128, 243-370

Of an axes object only the list of patches is modelled, in the order in which they are added.
Numbers are real, not floats.
-/
noncomputable section

namespace HF.Smith

/-- A patch: `plt.Circle` filled with white, `plt.Circle` without filling, `Arc` from an angle
counterclockwise to another one (degrees), and a line between two points (`plt.Polygon`). -/
inductive Patch where
  | disk (c : ℂ) (r : ℝ)
  | ring (c : ℂ) (r : ℝ)
  | arc (c : ℂ) (r t1 t2 : ℝ)
  | seg (p q : ℂ)

/-- `get_artist(color="k")`.  repo: hftools/plotting/smith.py:87-100, 123-128 -/
def Shape.artist : Shape → Patch
  | .circle c r none => .ring c r
  | .circle c r (some t) => .arc c r t.1 t.2
  | .line x1 x2 => .seg x1 x2

inductive Mode where
  | full
  | lower
  | upper
  deriving DecidableEq

/-- `angles` of `smith_grid`.  repo: hftools/plotting/smith.py:269, 279 -/
def gridAngles : Bool → Mode → ℝ × ℝ
  | _, .full => (0, 360)
  | true, .lower => (180, 360)
  | true, .upper => (0, 180)
  | false, .lower => (0, 180)
  | false, .upper => (180, 360)

/-- `xlims`.  repo: hftools/plotting/smith.py:270-272, 280-282 -/
def gridLims : Bool → Mode → End × End
  | _, .full => (.ninf, .pinf)
  | true, .lower => (.ninf, .fin 0)
  | true, .upper => (.fin 0, .pinf)
  | false, .upper => (.ninf, .fin 0)
  | false, .lower => (.fin 0, .pinf)

/-- `xcircles`.  repo: hftools/plotting/smith.py:275-276, 283-284, 295-299 -/
def gridLevels (standard : Bool) (mode : Mode) : List ℝ :=
  let upper := if standard then [1 / 3, 1, 3] else [-1 / 3, -1, -3]
  let lower := if standard then [-1 / 3, -1, -3] else [1 / 3, 1, 3]
  0 :: ((if mode = .full ∨ mode = .lower then lower else []) ++
    (if mode = .full ∨ mode = .upper then upper else []))

/-- `smith_grid(ax, mode, standard)`; a filling of an `Arc` is ignored.
repo: hftools/plotting/smith.py:264-303 -/
def smithGrid (mode : Mode) (standard : Bool) : List Patch :=
  let a := gridAngles standard mode
  let lims := gridLims standard mode
  let RC := if standard then RCircle else GCircle
  let XC := if standard then XCircle else BCircle
  .arc 0 1 a.1 a.2 ::
    ([0, 1 / 3, 1, 3].map (fun r => (RC r (some lims)).artist) ++
      (gridLevels standard mode).map fun x => (XC x (some (.fin 0, .pinf))).artist)

/-- `angles` of `polar_grid`.  repo: hftools/plotting/smith.py:251 -/
def polarAngles : Mode → ℝ × ℝ
  | .full => (0, 360)
  | .lower => (180, 360.00001)
  | .upper => (0, 180.000001)

/-- `np.arange(start, stop, step)` -/
def arange (start stop step : ℝ) : List ℝ :=
  (List.range ⌈(stop - start) / step⌉.toNat).map fun k : ℕ => start + k * step

/-- `polar_grid(ax, mode)`.  repo: hftools/plotting/smith.py:243-261 -/
def polarGrid (mode : Mode) : List Patch :=
  let t := polarAngles mode
  .disk 0 1 ::
    ((arange 0 1.001 0.2).map (fun r => .arc 0 r t.1 t.2) ++
      (arange (t.1 / 180 * Real.pi) (t.2 / 180 * Real.pi) (Real.pi / 4)).map fun fi =>
        .seg 0 (Complex.exp (Complex.I * fi)))

/-- `smith(ax)`.  repo: hftools/plotting/smith.py:306-315 -/
def smith : List Patch := .disk 0 1 :: smithGrid .full true

/-- `inv_smith(ax)`.  repo: hftools/plotting/smith.py:318-322 -/
def invSmith : List Patch := .disk 0 1 :: smithGrid .full false

/-- `smith_lower(ax)`.  repo: hftools/plotting/smith.py:325-334 -/
def smithLower : List Patch := smithGrid .lower true

/-- `smith_upper(ax)`.  repo: hftools/plotting/smith.py:337-345 -/
def smithUpper : List Patch := smithGrid .upper true

/-- `smith_polar(ax)`.  repo: hftools/plotting/smith.py:348-359 -/
def smithPolar : List Patch := .disk 0 1 :: (smithLower ++ polarGrid .upper)

end HF.Smith
