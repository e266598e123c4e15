import Mathlib.Analysis.SpecialFunctions.Complex.Arg
import Mathlib.Analysis.SpecialFunctions.Complex.Arctan
/-
Geometry of the Smith chart.

repo: hftools/plotting/smith.py:48-240

Numbers are real or complex numbers, not floats.  Drawing is not modelled.
-/
noncomputable section

namespace HF.Smith

/-- `angle(x, deg=True, branch)`.  repo: hftools/plotting/smith.py:48-63 -/
def angleDeg (x : ℂ) (branch : ℝ) : ℝ :=
  let a := Complex.arg (x / Complex.exp (Complex.I * ((branch / 180 * Real.pi : ℝ) : ℂ))) * (180 / Real.pi)
  (if a < 0 then a + 360 else a) + branch

/-- An end point of an arc; infinite ones are used by `smith_grid`. -/
inductive End where
  | fin (x : ℝ)
  | pinf
  | ninf

/-- `z2gamma(z)` of a finite number.  Division by zero (`z = -1`) is an exception or `inf` there.
repo: hftools/plotting/smith.py:138 -/
def z2gamma (z : ℂ) : ℂ := (z - 1) / (z + 1)

/-- repo: hftools/plotting/smith.py:148 -/
def y2gamma (y : ℂ) : ℂ := (1 - y) / (1 + y)

/-- `z2gamma(complex(r, x))` for an end point.  repo: hftools/plotting/smith.py:131-138 -/
def z2gammaX (r : ℝ) : End → ℂ
  | .fin x => z2gamma (r + x * Complex.I)
  | .pinf => 1
  | .ninf => 1 - 1e-15 * Complex.I

/-- `z2gamma(complex(r, x))` for an end point `r`.  repo: hftools/plotting/smith.py:131-138 -/
def z2gammaR (x : ℝ) : End → ℂ
  | .fin r => z2gamma (r + x * Complex.I)
  | _ => if 0 ≤ x then 1 else 1 - 1e-15 * Complex.I

/-- `y2gamma(complex(g, b))` for an end point `b`.  repo: hftools/plotting/smith.py:141-148 -/
def y2gammaB (g : ℝ) : End → ℂ
  | .fin b => y2gamma (g + b * Complex.I)
  | .pinf => -1 - 1e-15 * Complex.I
  | .ninf => -1 + 1e-15 * Complex.I

/-- `y2gamma(complex(g, b))` for an end point `g`.  repo: hftools/plotting/smith.py:141-148 -/
def y2gammaG (b : ℝ) : End → ℂ
  | .fin g => y2gamma (g + b * Complex.I)
  | _ => if b ≤ 0 then -1 + 1e-15 * Complex.I else -1 - 1e-15 * Complex.I

/-- `MyCircle` (center, radius, arc) and `MyLine` (both ends on the real axis). -/
inductive Shape where
  | circle (c : ℂ) (r : ℝ) (arc : Option (ℝ × ℝ))
  | line (x1 x2 : ℝ)

def End.le : End → End → Prop
  | .ninf, _ => True
  | _, .pinf => True
  | .fin a, .fin b => a ≤ b
  | _, _ => False

open Classical in
/-- `min(x1, x2), max(x1, x2)` and `sorted((x1, x2))` -/
def sortEnds (a b : End) : End × End := if a.le b then (a, b) else (b, a)

/-- `RCircle(r, x1, x2)`.  repo: hftools/plotting/smith.py:151-166 -/
def RCircle (r : ℝ) (xs : Option (End × End)) : Shape :=
  let c0 : ℂ := ((r / (r + 1) : ℝ) : ℂ)
  .circle c0 |1 / (r + 1)| (xs.map fun e =>
    let e := sortEnds e.1 e.2
    let c1 := z2gammaX r e.1
    let c2 := z2gammaX r e.2
    (angleDeg (c2 - c0) 0, angleDeg (c1 - c0) 0))

/-- The end points of the line of `XCircle(0, r1, r2)`.  `z2gamma(inf)` is 1. -/
def realEnd : End → ℝ
  | .fin r => (z2gamma r).re
  | .pinf => 1
  | .ninf => 1

/-- `XCircle(x, r1, r2)`.  repo: hftools/plotting/smith.py:169-192 -/
def XCircle (x : ℝ) (rs : Option (End × End)) : Shape :=
  if x = 0 then
    match rs with
    | none => .line (-1) 1
    | some e => .line (realEnd e.1) (realEnd e.2)
  else
    let c0 : ℂ := 1 + ((1 / x : ℝ) : ℂ) * Complex.I
    .circle c0 |1 / x| (rs.map fun e =>
      let e := sortEnds e.1 e.2
      let a2 := angleDeg (z2gammaR x e.2 - c0) 0
      let a1 := angleDeg (z2gammaR x e.1 - c0) 0
      (min a2 a1, max a2 a1))

/-- `GCircle(g, b1, b2)`.  repo: hftools/plotting/smith.py:195-209 -/
def GCircle (g : ℝ) (bs : Option (End × End)) : Shape :=
  let c0 : ℂ := ((-g / (g + 1) : ℝ) : ℂ)
  .circle c0 |1 / (g + 1)| (bs.map fun e =>
    (angleDeg (y2gammaB g e.2 - c0) 180, angleDeg (y2gammaB g e.1 - c0) 180))

/-- `BCircle(b, g1, g2)`.  repo: hftools/plotting/smith.py:212-240 -/
def BCircle (b : ℝ) (gs : Option (End × End)) : Shape :=
  if b = 0 then
    match gs with
    | none => .line (-1) 1
    | some e => .line (realEnd e.1) (realEnd e.2)
  else
    let branch : ℝ := if 0 ≤ b then 90 else -90
    let gs := if 0 ≤ b then gs.map Prod.swap else gs
    let c0 : ℂ := -1 + ((-1 / b : ℝ) : ℂ) * Complex.I
    .circle c0 |1 / b| (gs.map fun e =>
      (angleDeg (y2gammaG b e.2 - c0) branch, angleDeg (y2gammaG b e.1 - c0) branch))

end HF.Smith
