import Verif.Hyper.Model
import Verif.DataBlock.Model
/-
`DataBlock.hyper` for whole blocks.

repo: hftools/dataset/dataset.py:664-710
-/
namespace HF.Hyper

open HF.DataDict.Spec HF.DataBlock

variable {β α : Type}

/-- The values of an array that is iterated over.  Simplification: an array without axes cannot be iterated over;
rows of arrays with more axes cannot be compared (`x not in out`), here both are `valueError`.
repo: hftools/utils.py:108-115 -/
def column (a : Arr β α) : Except DataBlock.Err (List α) :=
  match a.nd.shape with
  | [n] => .ok ((List.range n).map fun i => a.nd.get [i])
  | _ => .error .valueError

/-- `self[x]` for the names.  repo: hftools/dataset/dataset.py:671-679 -/
def columns (env : Env β α) (b : Block β α) : List String → Except DataBlock.Err (List (List α))
  | [] => .ok []
  | x :: xs =>
    match getitem env b x with
    | .error e => .error e
    | .ok a =>
      match column a with
      | .error e => .error e
      | .ok c =>
        match columns env b xs with
        | .error e => .error e
        | .ok cs => .ok (c :: cs)

/-- The new dimensions.  The values must be such that they can be compared; units are not modelled.
repo: hftools/dataset/dataset.py:672-680 -/
def cubeDims [LinearOrder α] (env : Env β α) (indexed : Bool) (names : List String) (cols : List (List α)) : List (Dim β) :=
  List.zipWith (fun x c => ⟨.dimSweep, if indexed then x ++ "_index" else x, (Utils.stableUniq c).map env.toCoord, none, none⟩)
    names cols

/-- The axis of `rd` is sorted and becomes the axes `dims`.
repo: hftools/dataset/dataset.py:699-703 -/
def spread (order : List Nat) (dims : List (Dim β)) (rd : Dim β) (v : Arr β α) : Except DataBlock.Err (Arr β α) :=
  match Arr.dimsIndex v.dims rd.name with
  | none => .error .indexError
  | some i =>
    match ofArr (Arr.ofNd (v.nd.take (order.map Int.ofNat) i)) with
    | .error e => .error e
    | .ok nd =>
      match ofArr (Arr.ofNd (nd.reshape (nd.shape.take i ++ dims.map (fun d => d.data.length) ++ nd.shape.drop (i + 1)))) with
      | .error e => .error e
      | .ok nd => .ok ⟨v.dims.take i ++ dims ++ v.dims.drop (i + 1), nd⟩

/-- The loop over the variables.  repo: hftools/dataset/dataset.py:691-704 -/
def cubeLoop (env : Env β α) (order : List Nat) (dims : List (Dim β)) (rd : Dim β) (all : Bool) :
    Block β α → List (String × Arr β α) → Except DataBlock.Err (Block β α)
  | out, [] => .ok out
  | out, (k, v) :: t =>
    if Arr.containsDim v.dims rd then
      if member out.ivars k then cubeLoop env order dims rd all out t
      else
        match spread order dims rd v with
        | .error e => .error e
        | .ok a =>
          match setArr env out k a with
          | (_, .error e) => .error e
          | (out', .ok _) => cubeLoop env order dims rd all out' t
    else if all then
      match setArr env out k v with
      | (_, .error e) => .error e
      | (out', .ok _) => cubeLoop env order dims rd all out' t
    else cubeLoop env order dims rd all out t

/-- `hyper(dimnames, replacedim, indexed, all)` where `replacedim` is a dim.
repo: hftools/dataset/dataset.py:664-710 -/
def hyperBlock [LinearOrder α] (env : Env β α) (b : Block β α) (names : List String) (rd : Dim β) (indexed all : Bool) :
    Except DataBlock.Err (Block β α) :=
  match columns env b names with
  | .error e => .error e
  | .ok [] => .error .indexError
  | .ok (c :: cs) =>
    let dims := cubeDims env indexed names (c :: cs)
    let out : Block β α := { ivars := dims.foldl (fun m d => assign m d.name d) [] }
    match cubeLoop env (sortOrder (c :: cs)) dims rd all out b.vars with
    | .error e => .error e
    | .ok out =>
      .ok (b.ivars.foldl (fun out p => if contains out p.1 || p.1 == rd.name then out else setDim out p.1 p.2) out)

/-- `hyper(dimnames, name, indexed, all)`: the dim is looked up.  repo: hftools/dataset/dataset.py:665-666 -/
def hyperName [LinearOrder α] (env : Env β α) (b : Block β α) (names : List String) (rd : String) (indexed all : Bool) :
    Except DataBlock.Err (Block β α) :=
  match lookup b.ivars rd with
  | none => .error .keyError
  | some d => hyperBlock env b names d indexed all

end HF.Hyper
