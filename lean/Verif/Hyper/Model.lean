import Mathlib.Order.Defs.LinearOrder
import Mathlib.Algebra.BigOperators.Group.List.Basic
import Verif.Utils.Model
import Verif.Utils.Sort
/-
`DataBlock.hyper`: from a table to a hypercube.

repo: hftools/dataset/dataset.py:664-710

One variable at a time, and of it the elements along the dimension that is replaced: for a variable with
further dimensions this is what happens at each of their indices.
-/

namespace HF.Hyper

variable {K α : Type} [LinearOrder K]

/-- `zip(*sortdata)` without the row numbers: as many rows as the shortest column has.
repo: hftools/dataset/dataset.py:683-685 -/
def rows : List (List K) → List (List K)
  | [] => []
  | [c] => c.map fun a => [a]
  | c :: cs => List.zipWith (fun a r => a :: r) c (rows cs)

/-- Comparison of the tuples, of which the last entry is the row number. -/
def rowLt (a b : List K × Nat) : Bool :=
  if a.1 = b.1 then decide (a.2 < b.2) else Py.lexLt (fun x y => decide (x < y)) a.1 b.1

/-- `sortorderidx`.  repo: hftools/dataset/dataset.py:683-686 -/
def sortOrder (cols : List (List K)) : List Nat :=
  (Py.sortBy rowLt ((rows cols).zip (List.range (rows cols).length))).map Prod.snd

inductive Err where
  | index | value
  deriving DecidableEq, Repr

/-- The values of the new dimensions.  repo: hftools/dataset/dataset.py:671-680 -/
def newDims (cols : List (List K)) : List (List K) := cols.map Utils.stableUniq

/-- What becomes of a variable: the values of the new dimensions and the data in C order.
repo: hftools/dataset/dataset.py:671-686, 699-703 -/
def hyper (cols : List (List K)) (v : List α) : Except Err (List (List K) × List α) :=
  match cols with
  | [] => .error .index
  | _ =>
    match (sortOrder cols).mapM (v[·]?) with
    | none => .error .index
    | some v' =>
      if v'.length = ((newDims cols).map List.length).prod then .ok (newDims cols, v') else .error .value

end HF.Hyper
