import Verif.Merge.Model
import Verif.Hyper.Block
/-
`merge_blocks(blocks, hyper=True)`.

repo: hftools/file_formats/merge.py:158-221
-/
namespace HF.Merge

open HF.DataDict.Spec
open HF.DataBlock

variable {β α : Type}

/-- The loop over the groups of partial sweeps.  repo: hftools/file_formats/merge.py:215-219 -/
def hyperGroups [LinearOrder α] (env : Env β α) : Block β α → List (List String) → Except Err (Block β α)
  | db, [] => .ok db
  | db, [] :: t => hyperGroups env db t
  | db, (k :: ks) :: t =>
    match getitem env db k with
    | .error e => .error e
    | .ok a =>
      match a.dims with
      | [] => .error .indexError
      | d :: _ =>
        match Hyper.hyperBlock env db (k :: ks) d false true with
        | .error e => .error e
        | .ok db' => hyperGroups env db' t

/-- `merge_blocks(blocks, hyper=True, indexed=...)`; `indexed` is not used by the code.
repo: hftools/file_formats/merge.py:158-221 -/
def mergeHyper [DecidableEq β] [LinearOrder α] (env : Env β α) (ofIdx : Nat → β) (en : Enum String)
    (blocks : List (Block β α)) : Except Err (Block β α) :=
  match mergeUnsqueezed env ofIdx en blocks with
  | .error e => .error e
  | .ok db =>
    match hyperGroups env db ((groups blocks).map Prod.fst) with
    | .error e => .error e
    | .ok db' => squeezeBlock env db'

end HF.Merge
