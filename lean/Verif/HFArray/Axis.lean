import Verif.HFArray.Model
/-
Cumulative sums and products, and new axes.

repo: hftools/dataset/arrayobj.py:887-901, 918-960
-/
namespace HF

namespace Nd

variable {α : Type}

/-- Left to right accumulation of `f 0, f 1, ...`. -/
def cumAt (op : α → α → α) (f : Nat → α) : Nat → α
  | 0 => f 0
  | n + 1 => op (cumAt op f n) (f (n + 1))

/-- `ndarray.cumsum(axis)`, `ndarray.cumprod(axis)`.  numpy. -/
def cumulate (op : α → α → α) (a : Nd α) (ax : Nat) : Nd α :=
  ⟨a.shape, fun idx => cumAt op (fun k => a.get (idx.set ax k)) (idx.getD ax 0)⟩

/-- `a[(slice(None),) * k + (None,)]`: a new axis of length one.  numpy. -/
def newaxis (a : Nd α) (k : Nat) : Nd α :=
  ⟨a.shape.insertIdx k 1, fun idx => a.get (idx.eraseIdx k)⟩

/-- `ndarray.repeat(n, axis)`: every element `n` times along the axis.  numpy. -/
def repeat_ (a : Nd α) (n k : Nat) : Nd α :=
  ⟨a.shape.set k (a.shape.getD k 0 * n), fun idx => a.get (idx.set k (idx.getD k 0 / n))⟩

end Nd

namespace Arr

variable {β α : Type}

/-- `axis_handler(a, axis)` for an axis that is not `None`.
repo: hftools/dataset/arrayobj.py:932-960 -/
def axisHandler (dims : List (Dim β)) : Axis β → Except Err (Dim β)
  | .int i => match Nd.normAxis dims.length i with
    | some k => match dims[k]? with
      | some d => .ok d
      | none => .error .indexError
    | none => .error .indexError
  | .name s => match dimsIndex dims s with
    | some k => match dims[k]? with
      -- the dim is now looked up in the dims itself, which succeeds
      | some d => if containsDim dims d then .ok d else .error .indexError
      | none => .error .indexError
    | none => .error .indexError
  | .cls c => match dims.filter fun d => d.isa c with
    | [d] => .ok d
    | _ => .error .indexError
  | .dim d => if containsDim dims d then .ok d else .error .indexError

/-- `cumsum(axis)` and `cumprod(axis)`; `none` for the axis is an `HFArrayError`, here
`valueError`.  `dims_index(axis)` compares a name with a dim object, which python turns into
a comparison of names (dim.py:131-140), so the *first* axis with that name is used.
repo: hftools/dataset/arrayobj.py:887-901, 468-478 -/
def cumulate (op : α → α → α) (x : Arr β α) (axis : Option (Axis β)) : Except Err (Arr β α) :=
  match axis with
  | none => .error .valueError
  | some axis =>
    match axisHandler x.dims axis with
    | .error e => .error e
    | .ok d =>
      match dimsIndex x.dims d.name with
      | none => .error .indexError
      | some k => mk? (x.nd.cumulate op k) x.dims

/-- python's `list.insert(i, x)` with any number. -/
def pyInsert {δ : Type} (l : List δ) (i : Int) (x : δ) : List δ :=
  if i < 0 then l.insertIdx (i + l.length).toNat x else l.insertIdx (min i.toNat l.length) x

/-- `add_dim(dim, axis)`.  A negative `axis` gives `(slice(None),) * axis = ()`, i.e. a new
first axis, whereas `repeat` and `insert` count from the end.
repo: hftools/dataset/arrayobj.py:918-929 -/
def addDim (x : Arr β α) (dim : Option (Dim β)) (axis : Int := 0) : Except Err (Arr β α) :=
  match dim with
  | none => .ok x
  | some dim =>
    if containsDim x.dims dim then .ok x
    else
      let axis := min axis x.nd.ndim
      let out := x.nd.newaxis axis.toNat
      let dims := pyInsert x.dims axis dim
      if dim.data.length > 1 then
        match Nd.normAxis out.ndim axis with
        | none => .error .indexError
        | some k => mk? (out.repeat_ dim.data.length k) dims
      else mk? out dims

end Arr
end HF
