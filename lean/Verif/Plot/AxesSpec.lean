import Verif.Plot.LabelSpec
import Mathlib.Analysis.SpecialFunctions.Pow.Real
/-
What the labels of axes should read.
-/
namespace HF.Plot.Ax.Spec

/-- The axis of a plot: without label of its own, with a unit, or with a unit with prefix. -/
inductive Kind where
  | none
  | plain
  | prefixed
  deriving DecidableEq

/-- How a part of a format is written: the unit is asked for in two ways. -/
def writtenPiece : Kind → Piece → List Char
  | .plain, .unit => ['%', '(', 'u', 'n', 'i', 't', ')', 's']
  | _, q => q.written

def written (k : Kind) (ps : List Piece) : List Char := ps.flatMap (writtenPiece k)

/-- Formats that can be used: an axis without prefixes has no name, and its unit is either at `[]` or asked for. -/
def Usable (k : Kind) (ps : List Piece) : Prop :=
  (∀ q ∈ ps, q.Plain) ∧ (k = .plain → Piece.name ∉ ps ∧ ¬ (Piece.box ∈ ps ∧ Piece.unit ∈ ps))

/-- What one knows of an axis. -/
structure Look where
  kind : Kind
  fmt : List Piece := []
  unit : Option (List Char) := .none
  name : List Char := ['X']

/-- The unit as it is shown. -/
def Look.shownUnit (l : Look) : List Char :=
  match l.kind with
  | .prefixed => if l.unit = some ['d', 'e', 'g'] then ['°'] else l.unit.getD []
  | _ => l.unit.getD []

/-- The label with a prefix; nothing is known of axes without label. -/
def Look.label (l : Look) (pre : List Char) : List Char :=
  l.fmt.flatMap (Piece.reads (if l.kind = .prefixed then pre else []) l.shownUnit (axisName l.shownUnit l.name))

/-- A new unit, if there is one. -/
def Look.newUnit (l : Look) (u : Option (List Char)) : Look := { l with unit := u.or l.unit }

end HF.Plot.Ax.Spec
