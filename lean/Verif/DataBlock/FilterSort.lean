import Verif.DataBlock.Model
/-
Model of `DataBlock.filter` and `DataBlock.sort`.

repo: hftools/dataset/dataset.py:410-495
-/
namespace HF.DataBlock

open HF.DataDict.Spec
open HF.Arr (maskIdx dimsIndex)

variable {β α : Type}

/-- Does a boolean array index an axis of length `n`?  numpy >= 1.13 wants equal lengths and
raises `IndexError` otherwise; before, only true entries out of range were errors
(`lenient`).  numpy builtin. -/
def maskFits (lenient : Bool) (mask : List Bool) (n : Nat) : Bool :=
  decide (mask.length = n) || (lenient && (maskIdx mask).all fun k => decide (k < n))

/-- The index into the array for an index into the masked array. -/
def pickIdx (pos : List Nat) : List Nat → List Nat
  | [] => []
  | i :: is => pos.getD i 0 :: is

/-- `array(data)[mask]` for a one-dimensional boolean array: the first axis is masked.
numpy builtin. -/
def maskFirst (lenient : Bool) (a : Nd α) (mask : List Bool) : Except Nd.Err (Nd α) :=
  match a.shape with
  | [] => .error .indexError
  | s :: ss =>
    if maskFits lenient mask s then
      .ok ⟨(maskIdx mask).length :: ss, fun idx => a.get (pickIdx (maskIdx mask) idx)⟩
    else .error .indexError

/-- One variable in the loop of `filter`: if it has a dim with the name of the mask's dim,
this axis is moved to the front, masked, and moved back.
repo: hftools/dataset/dataset.py:436-455 -/
def filterArr [DecidableEq β] (lenient : Bool) (d new : Dim β) (mask : List Bool) (x : Arr β α) :
    Except Arr.Err (Arr β α) :=
  match dimsIndex x.dims d.name with
  | none => .ok x
  | some i =>
    match x.transpose (i :: (List.range x.nd.ndim).eraseIdx i) with
    | .error e => .error e
    | .ok y =>
      match Arr.ofNd (maskFirst lenient y.nd mask) with
      | .error e => .error e
      | .ok nd =>
        match Arr.mk? nd (new :: x.dims.eraseIdx i) with
        | .error e => .error e
        | .ok u => u.reorderDimensions (x.dims.map fun e => .str e.name)

/-- The loop of `filter`, with the output block.  repo: hftools/dataset/dataset.py:436-455 -/
def filterLoop [DecidableEq β] (env : Env β α) (lenient : Bool) (d new : Dim β)
    (mask : List Bool) :
    Block β α → List (String × Arr β α) → Except Err (Block β α)
  | out, [] => .ok out
  | out, p :: ps =>
    match ofArr (filterArr lenient d new mask p.2) with
    | .error e => .error e
    | .ok u =>
      match setArr env out p.1 u with
      | (_, .error e) => .error e
      | (out', .ok _) => filterLoop env lenient d new mask out' ps

/-- `olddim.__class__(olddim, data=data)`; reading the output format of a dim without values
fails (`self._data[0]`).  repo: hftools/dataset/dim.py:50-112 -/
def withData (env : Env β α) (d : Dim β) (data : List β) : Except Err (Dim β) :=
  if d.data = [] ∧ d.outputformat = none then .error .indexError
  else .ok (Dim.copyFrom env.dfltDim d.cls d (data := some data))

/-- `block.filter(boolarray)` for a boolean array with the single dim `d`.  Arrays with
additional dims of length one are not modelled.  repo: hftools/dataset/dataset.py:428-457 -/
def filterMask [DecidableEq β] (env : Env β α) (lenient : Bool) (b : Block β α) (d : Dim β)
    (mask : List Bool) : Except Err (Block β α) :=
  -- `olddim.data[boolarray]`
  if !maskFits lenient mask d.data.length then .error .indexError
  else
    match withData env d ((maskIdx mask).filterMap fun i => d.data[i]?) with
    | .error e => .error e
    | .ok new =>
      match filterLoop env lenient d new mask { xname := b.xname } b.vars with
      | .error e => .error e
      | .ok out => .ok { out with xname := b.xname }

/-- `block.filter(array)` for an array of values with the single dim `d`: the mask marks the
positions of the *array* whose value is a coordinate value of the block's dim with this name.
Without such a dim the block is copied (with a warning).
repo: hftools/dataset/dataset.py:413-426 -/
def filterValues [DecidableEq β] [DecidableEq α] (env : Env β α) (lenient : Bool)
    (b : Block β α) (d : Dim β) (vals : List α) : Except Err (Block β α) :=
  match lookup b.ivars d.name with
  | none => .ok b
  | some loc => filterMask env lenient b d (vals.map fun v => decide (v ∈ loc.data.map env.toVal))

/-- The loop of `sort`.  The `try` also covers `take` and the assignment: whatever raises
`IndexError` there, the variable is then stored as it is.
repo: hftools/dataset/dataset.py:481-488 -/
def sortLoop (env : Env β α) (ofIdx : Int → β) (name : String) (order : List Nat) :
    Block β α → List (String × Arr β α) → Except Err (Block β α)
  | out, [] => .ok out
  | out, p :: ps =>
    let res : Block β α × Except Err Unit :=
      match ofArr (p.2.take ofIdx (order.map Int.ofNat) name) with
      | .error e => (out, .error e)
      | .ok u => setArr env out p.1 u
    match res with
    | (out', .ok _) => sortLoop env ofIdx name order out' ps
    | (out', .error .indexError) =>
      match setArr env out' p.1 p.2 with
      | (out'', .ok _) => sortLoop env ofIdx name order out'' ps
      | (_, .error e) => .error e
    | (_, .error e) => .error e

/-- `self[dimname][sortorder]`: coordinate values at the given positions; out of range raises
`IndexError`. -/
def gather (l : List β) (order : List Nat) : Option (List β) := order.mapM fun i => l[i]?

/-- `block.sort(array)` for a one-dimensional array with a dim called `name`, where `order` is
`array.argsort()` (`ofIdx` embeds integers into the coordinate values).  Without such a dim in
the block it is copied (with a warning).  repo: hftools/dataset/dataset.py:459-495 -/
def sortBlock (env : Env β α) (ofIdx : Int → β) (b : Block β α) (name : String)
    (order : List Nat) : Except Err (Block β α) :=
  match lookup b.ivars name with
  | none => .ok b
  | some old =>
    match sortLoop env ofIdx name order { xname := b.xname } b.vars with
    | .error e => .error e
    | .ok out =>
      match gather old.data order with
      | none => .error .indexError
      | some data =>
        match withData env old data with
        | .error e => .error e
        | .ok new =>
          match replaceDim { out with xname := b.xname } old new with
          | none => .error .keyError
          | some r => .ok r

end HF.DataBlock
