import Verif.DataBlock.Model
/-
Names offered for completion.

repo: hftools/dataset/dataset.py:385-391, 608-617
-/
namespace HF.DataBlock

open HF.DataDict.Spec

variable {β α : Type}

/-- `block.allvarnames`.  repo: hftools/dataset/dataset.py:385-391 -/
def allVarNames (b : Block β α) : List String :=
  b.vars.foldl (fun out kv => if out.contains kv.1 then out else out ++ [kv.1]) (b.ivars.map Prod.fst)

/-- The names of elements of one variable: rows and columns are `shape[-2]` and `shape[-1]`.
repo: hftools/dataset/dataset.py:611-615.  A matrix has two dims, so `shape` has two lengths. -/
def elemNamesOf (k : String) (v : Arr β α) : List String :=
  if ismatrix v then
    match v.nd.shape.reverse with
    | q :: p :: _ =>
      if p ≤ 10 ∧ q ≤ 10 then
        (List.range p).flatMap fun i => (List.range q).map fun j => k ++ toString (i + 1) ++ toString (j + 1)
      else []
    | _ => []
  else []

/-- `dir(block)`; `attrs` are the attributes of the class and of the object.  Python sorts the result.
repo: hftools/dataset/dataset.py:608-617 -/
def dirNames (attrs : List String) (b : Block β α) : List String :=
  allVarNames b ++ (b.vars.flatMap fun kv => elemNamesOf kv.1 kv.2) ++ attrs

end HF.DataBlock
