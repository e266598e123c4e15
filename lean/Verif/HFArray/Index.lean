import Verif.HFArray.Model
/-
Model of indexing of `hfarray`.

repo: hftools/dataset/arrayobj.py:563-574, 605-676, hftools/dataset/dim.py:151-163
-/
namespace HF

/-- A python `slice` object. -/
structure Slice where
  start : Option Int := none
  stop : Option Int := none
  step : Option Int := none
  deriving DecidableEq, Repr

namespace Slice

/-- `slice(None)` -/
def full : Slice := {}

/-- Clip a bound of a slice to the sequence.  Python builtin, `PySlice_AdjustIndices`. -/
def clip (n : Nat) (neg : Bool) (v : Int) : Int :=
  if v < 0 then max (v + n) (if neg then -1 else 0) else min v (if neg then (n : Int) - 1 else n)

/-- First position, for a given sign of the step. -/
def startOf (s : Slice) (n : Nat) (neg : Bool) : Int :=
  match s.start with
  | none => if neg then (n : Int) - 1 else 0
  | some v => clip n neg v

/-- Position before which to stop. -/
def stopOf (s : Slice) (n : Nat) (neg : Bool) : Int :=
  match s.stop with
  | none => if neg then -1 else n
  | some v => clip n neg v

/-- Number of selected positions. -/
def countOf (start stop step : Int) : Nat :=
  if step < 0 then (if stop < start then ((start - stop - 1) / (-step) + 1).toNat else 0)
  else (if start < stop then ((stop - start - 1) / step + 1).toNat else 0)

/-- The positions a slice selects from a sequence of length `n`; `none` is `ValueError` (step
zero).  Python builtin: `slice.indices`. -/
def indices (s : Slice) (n : Nat) : Option (List Nat) :=
  let step := s.step.getD 1
  if step = 0 then none
  else
    let start := s.startOf n (decide (step < 0))
    let count := countOf start (s.stopOf n (decide (step < 0))) step
    some ((List.range count).map fun i : Nat => (start + (i : Int) * step).toNat)

end Slice

/-- One component of an index tuple.  Arrays of integers or booleans are treated separately
(`Arr.getList`, `Arr.getMask`). -/
inductive Ix where
  | int (i : Int)
  | slice (s : Slice)
  | ellipsis
  | newaxis
  deriving DecidableEq, Repr

/-- What one index component selects of an axis. -/
inductive Sel where
  | one (k : Nat)
  | many (l : List Nat)
  deriving DecidableEq, Repr

namespace Nd

variable {α : Type}

/-- Resolve an index tuple without `Ellipsis` and `None` against the shape.  numpy. -/
def resolve : List Ix → List Nat → Except Err (List Sel)
  | [], [] => .ok []
  | [], _ :: _ => .error .indexError -- not used: tuples are padded
  | _ :: _, [] => .error .indexError
  | ix :: ixs, n :: ns =>
    match ix with
    | .int i => match normAxis n i, resolve ixs ns with
      | some k, .ok r => .ok (.one k :: r)
      | none, _ => .error .indexError
      | _, .error e => .error e
    | .slice s => match s.indices n, resolve ixs ns with
      | some l, .ok r => .ok (.many l :: r)
      | none, _ => .error .valueError
      | _, .error e => .error e
    | _ => .error .indexError

def selShape : List Sel → List Nat
  | [] => []
  | .one _ :: t => selShape t
  | .many l :: t => l.length :: selShape t

def selIdx : List Sel → List Nat → List Nat
  | [], _ => []
  | .one k :: t, idx => k :: selIdx t idx
  | .many l :: t, idx => l.getD (idx.headD 0) 0 :: selIdx t idx.tail

/-- Basic indexing.  numpy. -/
def getBasic (a : Nd α) (ixs : List Ix) : Except Err (Nd α) :=
  match resolve ixs a.shape with
  | .error e => .error e
  | .ok sels => .ok ⟨selShape sels, fun idx => a.get (selIdx sels idx)⟩

end Nd

namespace Arr

variable {β α : Type}

/-- Property `outputformat`: the default depends on the type of the first value (`dflt`); for
an empty dimension without own format `self._data[0]` raises `IndexError`.
repo: hftools/dataset/dim.py:103-112 -/
def outputformatOf (dflt : β → String) (d : Dim β) : Except Err String :=
  match d.outputformat, d.data with
  | some o, _ => .ok o
  | none, v :: _ => .ok (dflt v)
  | none, [] => .error .indexError

/-- `dim[index]` for a slice.  repo: hftools/dataset/dim.py:151-157 -/
def dimSlice (dflt : β → String) (d : Dim β) (s : Slice) : Except Err (Dim β) :=
  if s = Slice.full then .ok d
  else match s.indices d.data.length with
    | none => .error .valueError
    | some l => match outputformatOf dflt d with
      | .ok o => .ok { d with data := l.filterMap fun i => d.data[i]?, outputformat := some o }
      | .error e => .error e

/-- Replace one `Ellipsis` by full slices.  `len(x) - 1` of line 628 is the number of other
components, `(slice(None),) * k` is empty for negative `k`.
repo: hftools/dataset/arrayobj.py:623-631 -/
def expandEllipsis (ndim : Nat) (ixs : List Ix) : Except Err (List Ix) :=
  if ixs.count .ellipsis = 0 then .ok ixs
  else if ixs.count .ellipsis = 1 then
    let i := ixs.idxOf .ellipsis
    .ok (ixs.take i ++ List.replicate (ndim - (ixs.length - 1)) (.slice Slice.full) ++
      ixs.drop (i + 1))
  else .error .indexError

/-- The loop over `zip(indices, self.dims)`.
repo: hftools/dataset/arrayobj.py:663-669 -/
def indexDims (dflt : β → String) : List Ix → List (Dim β) → Except Err (List (Dim β))
  | ix :: ixs, d :: ds =>
    match ix with
    | .int _ => indexDims dflt ixs ds
    | .slice s =>
      match dimSlice dflt d s, indexDims dflt ixs ds with
      | .ok e, .ok r => .ok (e :: r)
      | .error e, _ => .error e
      | _, .error e => .error e
    | _ => match indexDims dflt ixs ds with
      | .ok r => .ok (d :: r)
      | .error e => .error e
  | _, _ => .ok []

/-- Result of indexing: an array with dims, a scalar, or a plain `ndarray` without dims. -/
inductive Out (β α : Type) where
  | arr (a : Arr β α)
  | scalar (v : α)
  | plain

/-- `__getitem__` for tuples of integers, slices, `Ellipsis` and `None`.  The plain `ndarray`
for `None` is not described further.
repo: hftools/dataset/arrayobj.py:605-676.  The indices given to numpy (with or without the
`Ellipsis`, line 670-672) select the same elements; the only difference is that numpy
returns a scalar if all indices are integers and there is no `Ellipsis`. -/
def getitem (dflt : β → String) (x : Arr β α) (ixs : List Ix) : Except Err (Out β α) :=
  if .newaxis ∈ ixs then .ok .plain
  else if ixs = [.ellipsis] then .ok (.arr x)
  else
    match expandEllipsis x.nd.ndim ixs with
    | .error e => .error e
    | .ok ixs' =>
      let padded := ixs' ++ List.replicate (x.nd.ndim - ixs'.length) (.slice Slice.full)
      match indexDims dflt padded x.dims with
      | .error e => .error e
      | .ok dims =>
        match ofNd (x.nd.getBasic padded) with
        | .error e => .error e
        | .ok nd =>
          if nd.shape = [] ∧ .ellipsis ∉ ixs then .ok (.scalar (nd.get []))
          else match mk? nd dims with
            | .ok r => .ok (.arr r)
            | .error e => .error e

/-- `a[l]` for a list (or `ndarray`) of integers: the dims are those of `a` (line 669), numpy
takes the rows.  repo: hftools/dataset/arrayobj.py:659-674 -/
def getList (x : Arr β α) (l : List Int) : Except Err (Arr β α) :=
  match ofNd (x.nd.take l 0) with
  | .error e => .error e
  | .ok nd => mk? nd x.dims

/-- `a.take(indices, axis)` along one axis: the new coordinate values are the *indices*.
`ofIdx` embeds integers into the coordinate values.
repo: hftools/dataset/arrayobj.py:563-574 -/
def take (ofIdx : Int → β) (x : Arr β α) (indices : List Int) (name : String) :
    Except Err (Arr β α) :=
  match dimsIndex x.dims name with
  | none => .error .indexError
  | some ax =>
    match ofNd (x.nd.take indices ax) with
    | .error e => .error e
    | .ok nd =>
      match x.dims[ax]? with
      | none => .error .indexError
      | some d => .ok ⟨x.dims.set ax ⟨d.cls, d.name, indices.map ofIdx, none, none⟩, nd⟩

/-- Positions of the true entries of a mask. -/
def maskIdx (mask : List Bool) : List Nat :=
  (mask.zipIdx.filter fun p => p.1).map Prod.snd

/-- The first loop of the branch for boolean arrays: dims before the first one contained in
the mask's dims.  repo: hftools/dataset/arrayobj.py:637-642 -/
def dimsBefore (d : Dim β) : List (Dim β) → List (Dim β)
  | [] => []
  | x :: t => if matches_ d x then [] else x :: dimsBefore d t

/-- `a[mask]` for a one-dimensional boolean `hfarray` with dim `d`.
repo: hftools/dataset/arrayobj.py:633-657.  numpy raises `IndexError` if the length of the
mask is not the length of the axis. -/
def getMask [DecidableEq β] (x : Arr β α) (d : Dim β) (mask : List Bool) : Except Err (Arr β α) :=
  let before := dimsBefore d x.dims
  match reorderDimensions x ((before ++ [d]).map .dim) with
  | .error e => .error e
  | .ok y =>
    let n := before.length
    -- `np.array(dim.data)[mask]`
    if mask.length ≠ d.data.length then .error .indexError
    else
      let newdim : Dim β := ⟨d.cls, d.name, (maskIdx mask).filterMap fun i => d.data[i]?, d.unit, none⟩
      if mask.length ≠ y.nd.shape.getD n 0 then .error .indexError
      else mk? ⟨y.nd.shape.set n (maskIdx mask).length,
          fun idx => y.nd.get (idx.set n ((maskIdx mask).getD (idx.getD n 0) 0))⟩
        (y.dims.take n ++ newdim :: y.dims.drop (n + 1))

end Arr
end HF
