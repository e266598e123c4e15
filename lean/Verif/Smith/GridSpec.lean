import Verif.Smith.Grid
import Verif.Smith.ArcProps
/-
Specification of the grids: which points are black.
-/
noncomputable section

namespace HF.Smith

/-- Where an arc from `t1` counterclockwise to `t2` ends, counted on from `t1`: matplotlib draws
less than a turn, or a whole one if the angles differ by whole turns (`Path.arc`). -/
def arcEnd (t1 t2 : ℝ) : ℝ :=
  let e := t2 - 360 * ⌊(t2 - t1) / 360⌋
  if t2 ≠ t1 ∧ e ≤ t1 then e + 360 else e

/-- The line of a patch goes through a point. -/
def Line (p : ℂ) : Patch → Prop
  | .disk c r => On c r p
  | .ring c r => On c r p
  | .arc c r t1 t2 => On c r p ∧ OnArc c t1 (arcEnd t1 t2) p
  | .seg a b => ∃ t : ℝ, 0 ≤ t ∧ t ≤ 1 ∧ p = a + t * (b - a)

/-- A patch paints a point white. -/
def White (p : ℂ) : Patch → Prop
  | .disk c r => ‖p - c‖ < r
  | _ => False

/-- Patches are painted one after the other: a point is black if a line goes through it and is
not painted over later. -/
def Black (p : ℂ) : List Patch → Prop
  | [] => False
  | a :: t => (Line p a ∧ ∀ b ∈ t, ¬ White p b) ∨ Black p t

/-- Reactances of a half of the chart. -/
def Mode.Has : Mode → ℝ → Prop
  | .full, _ => True
  | .lower, x => x ≤ 0
  | .upper, x => 0 ≤ x

/-- The resistances of the lines. -/
def GridR (r : ℝ) : Prop := r = 0 ∨ r = 1 / 3 ∨ r = 1 ∨ r = 3

/-- The reactances of the lines. -/
def GridX (x : ℝ) : Prop := x = 0 ∨ |x| = 1 / 3 ∨ |x| = 1 ∨ |x| = 3

end HF.Smith
