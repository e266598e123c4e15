import Verif.Dim.Model
import Verif.HFArray.Nd
/-
Model of `hfarray`, arrays with named dimensions.

repo: hftools/dataset/arrayobj.py
-/
namespace HF

/-- `hfarray`: an `ndarray` with a tuple of dimensions.  Units and output formats are not
part of the model.  repo: hftools/dataset/arrayobj.py:366-434 -/
structure Arr (β α : Type) where
  dims : List (Dim β)
  nd : Nd α

namespace Arr

variable {β α γ : Type}

inductive Err where
  | keyError
  | valueError
  | indexError
  | shapeDimsMismatch
  deriving DecidableEq, Repr

def ofNd {δ : Type} : Except Nd.Err δ → Except Err δ
  | .ok a => .ok a
  | .error .valueError => .error .valueError
  | .error .indexError => .error .indexError

/-- `hfarray(nd, dims=dims)`: only the number of dims is checked.
repo: hftools/dataset/arrayobj.py:404-406, 461-466 -/
def mk? (nd : Nd α) (dims : List (Dim β)) : Except Err (Arr β α) :=
  if dims.length = nd.ndim then .ok ⟨dims, nd⟩ else .error .shapeDimsMismatch

/-- "`x` matches `value`": same name and `isinstance(x, value.__class__)`.
repo: hftools/dataset/arrayobj.py:49, 63, 73 -/
def matches_ (x value : Dim β) : Bool := x.name == value.name && x.isa value.cls

/-- `value in dims`.  repo: hftools/dataset/arrayobj.py:43-51, 69-75 -/
def containsDim (dims : List (Dim β)) (value : Dim β) : Bool := dims.any fun x => matches_ x value

/-- `dims.matching_index(value)`; `none` is `KeyError`.
repo: hftools/dataset/arrayobj.py:60-65 -/
def matchingIndex : List (Dim β) → Dim β → Option Nat
  | [], _ => none
  | x :: t, v => if matches_ x v then some 0 else (matchingIndex t v).map (· + 1)

/-- One pass of the inner loop of `dims_union`: append what is not contained.
repo: hftools/dataset/arrayobj.py:197-199 -/
def unionStep (acc : List (Dim β)) (d : Dim β) : List (Dim β) :=
  if containsDim acc d then acc else acc ++ [d]

/-- Stable insertion sort by `sortprio`, python's `list.sort(key=...)`. -/
def insertByPrio (d : Dim β) : List (Dim β) → List (Dim β)
  | [] => [d]
  | x :: t => if x.sortprio ≤ d.sortprio then x :: insertByPrio d t else d :: x :: t

/-- `l.sort(key=lambda x: x.sortprio)`.  Python builtin (stable). -/
def sortByPrio (l : List (Dim β)) : List (Dim β) := l.foldl (fun acc d => insertByPrio d acc) []

/-- `dims_union(A, B)`.  repo: hftools/dataset/arrayobj.py:194-201 -/
def dimsUnion (a b : List (Dim β)) : List (Dim β) := sortByPrio (b.foldl unionStep a)

/-- `hfarray.transpose(*order)`: without arguments the axes are reversed.
repo: hftools/dataset/arrayobj.py:517-526 -/
def transpose (x : Arr β α) (order : List Nat) : Except Err (Arr β α) :=
  let order := if order.isEmpty then (List.range x.nd.ndim).reverse else order
  match ofNd (x.nd.transpose order) with
  | .error e => .error e
  | .ok nd =>
    match order.mapM fun i => x.dims[i]? with
    | none => .error .indexError
    | some dims => mk? nd dims

/-- The loop of `change_shape`: new shape and axes order.
repo: hftools/dataset/arrayobj.py:218-226 -/
def changeShapeLoop (x : Arr β α) : List (Dim β) → List Nat × List Nat
  | [] => ([], [])
  | dim :: rest =>
    let (shape, order) := changeShapeLoop x rest
    match matchingIndex x.dims dim with
    | some i => (x.nd.shape.getD i 0 :: shape, i :: order)
    | none => (1 :: shape, order)

/-- `change_shape(x, newdims)`; `full` is `make_fullcomplex_array`.
repo: hftools/dataset/arrayobj.py:204-230 -/
def changeShape (full : Arr β α → Arr β α) (x : Arr β α) (newdims : List (Dim β)) :
    Except Err (Arr β α) :=
  let x := if Dim.hasComplex newdims then full x else x
  let (newshape, neworder) := changeShapeLoop x newdims
  match transpose x neworder with
  | .error e => .error e
  | .ok y =>
    match ofNd (y.nd.reshape newshape) with
    | .error e => .error e
    | .ok nd => .ok ⟨newdims, nd⟩

/-- A binary operator between two arrays: same dims, then the numpy operator.
repo: hftools/dataset/arrayobj.py:233-246, 341-353, 678-758.  The result's dims are those of
the changed operands (`__array_finalize__`, line 456-457). -/
def binop (full : Arr β α → Arr β α) (f : α → α → γ) (a b : Arr β α) : Except Err (Arr β γ) :=
  let newdims := dimsUnion a.dims b.dims
  match changeShape full a newdims, changeShape full b newdims with
  | .ok a', .ok b' =>
    match ofNd (Nd.binop f a'.nd b'.nd) with
    | .ok nd => .ok ⟨newdims, nd⟩
    | .error e => .error e
  | .error e, _ => .error e
  | _, .error e => .error e

/-- A binary operator with a python number.
repo: hftools/dataset/arrayobj.py:348-349 -/
def scalarOp (f : α → α → γ) (a : Arr β α) (s : α) : Arr β γ :=
  ⟨a.dims, ⟨a.nd.shape, fun idx => f (a.nd.get idx) s⟩⟩

/-- `tuple.index(dim)` where `dim` is a dimension or its name; `none` is `ValueError`.
Python builtin, using `DimBase.__eq__`. -/
def pyIndex [DecidableEq β] : List (Dim β) → Dim.Obj β → Option Nat
  | [], _ => none
  | x :: t, o => if Dim.pyEq (.dim x) o then some 0 else (pyIndex t o).map (· + 1)

/-- First loop of `reorder_dimensions`: axes for the requested dims, and what is left.
repo: hftools/dataset/arrayobj.py:508-512 -/
def reorderLoop [DecidableEq β] (dims : List (Dim β)) :
    List (Dim β) → List (Dim.Obj β) → Option (List Nat × List (Dim β))
  | infos, [] => some ([], infos)
  | infos, o :: os =>
    match pyIndex dims o, pyIndex infos o with
    | some i, some j =>
      match reorderLoop dims (infos.eraseIdx j) os with
      | some (r, left) => some (i :: r, left)
      | none => none
    | _, _ => none

/-- `reorder_dimensions(*order)`.  repo: hftools/dataset/arrayobj.py:503-515 -/
def reorderDimensions [DecidableEq β] (x : Arr β α) (order : List (Dim.Obj β)) :
    Except Err (Arr β α) :=
  match reorderLoop x.dims x.dims order with
  | none => .error .valueError
  | some (r, left) =>
    match left.mapM fun d => pyIndex x.dims (.dim d) with
    | none => .error .valueError
    | some r' => transpose x (r ++ r')

/-- `dims_index(name)`: first dim with this name.
repo: hftools/dataset/arrayobj.py:468-478 -/
def dimsIndex : List (Dim β) → String → Option Nat
  | [], _ => none
  | x :: t, n => if x.name = n then some 0 else (dimsIndex t n).map (· + 1)

/-- An axis argument: number, name, dimension or dimension class. -/
inductive Axis (β : Type) where
  | int (i : Int)
  | name (s : String)
  | dim (d : Dim β)
  | cls (c : Cls)

/-- `multiple_axis_handler(a, axis)` for a list of axes, the indices part.
repo: hftools/dataset/arrayobj.py:963-990 -/
def multipleAxis [DecidableEq β] (dims : List (Dim β)) : List (Axis β) → Except Err (List Int)
  | [] => .ok []
  | ax :: axs =>
    let here : Except Err (List Int) := match ax with
      | .int i => match Nd.normAxis dims.length i with   -- `a.dims[ax]` may raise
        | some _ => .ok [i]
        | none => .error .indexError
      | .name s => match dimsIndex dims s with
        -- line 977: the axis is now the dim itself, looked up again with `index`
        | some i => match dims[i]? with
          | some d => match pyIndex dims (.dim d) with
            | some k => .ok [(k : Int)]
            | none => .error .valueError
          | none => .error .indexError
        | none => .error .indexError
      | .dim d => if containsDim dims d then
          match pyIndex dims (.dim d) with
          | some k => .ok [(k : Int)]
          | none => .error .valueError
        else .error .indexError
      | .cls c => .ok ((dims.zipIdx.filter fun p => p.1.isa c).map fun p => (p.2 : Int))
    match here, multipleAxis dims axs with
    | .ok l, .ok r => .ok (l ++ r)
    | .error e, _ => .error e
    | _, .error e => .error e

/-- `squeeze(axis)` with resolved axes (`none` is `axis=None`).  The list of dims is filtered
with the indices as given, numpy is called with the same indices.
repo: hftools/dataset/arrayobj.py:576-589 -/
def squeezeIdx (x : Arr β α) (idxs : Option (List Int)) : Except Err (Arr β α) :=
  let newdims := match idxs with
    | none => (x.dims.zipIdx.filter fun p => x.nd.shape.getD p.2 0 ≠ 1).map Prod.fst
    | some l => (x.dims.zipIdx.filter fun p => (p.2 : Int) ∉ l).map Prod.fst
  match ofNd (x.nd.squeeze idxs) with
  | .error e => .error e
  | .ok nd => mk? nd newdims

/-- `sum`, `mean`, `min`, `max`, `std`, `var` with `keepdims=False`, `dimerror=True`; `red`
is what numpy does with the elements.  `axes = none` is `axis=None`.
repo: hftools/dataset/arrayobj.py:779-885 (the six methods have the same structure) -/
def reduce [DecidableEq β] (red : List α → γ) (x : Arr β α) (axes : Option (List (Axis β))) :
    Except Err (Arr β γ) :=
  let idxs : Except Err (Option (List Int)) := match axes with
    | none => .ok none
    | some l => match multipleAxis x.dims l with
      | .ok r => .ok (some r)
      | .error e => .error e
  match idxs with
  | .error e => .error e
  | .ok idxs =>
    match ofNd (x.nd.reduce red idxs) with
    | .error e => .error e
    | .ok nd =>
      match mk? nd x.dims with
      | .error e => .error e
      | .ok res => squeezeIdx res idxs

/-- `t`: transposed matrices, the dims keep their place and class and swap their values.
The loop keeps the *last* `DimMatrix_i` and `DimMatrix_j`.
repo: hftools/dataset/arrayobj.py:532-561 -/
def matT [DecidableEq β] (x : Arr β α) : Except Err (Arr β α) :=
  let di := x.dims.foldl (fun acc d => if d.isa .matI then some d else acc) none
  let dj := x.dims.foldl (fun acc d => if d.isa .matI then acc
    else if d.isa .matJ then some d else acc) none
  match di, dj with
  | some di, some dj =>
    -- `dims_index(di)` compares `ax.name == di`, i.e. the names
    match dimsIndex x.dims di.name, dimsIndex x.dims dj.name with
    | some i, some j =>
      let order := ((List.range x.nd.ndim).set i j).set j i
      match transpose x order with
      | .error e => .error e
      | .ok out => .ok ⟨(out.dims.set i ⟨.matI, di.name, dj.data, none, none⟩).set j
          ⟨.matJ, dj.name, di.data, none, none⟩, out.nd⟩
    | _, _ => .error .indexError
  | _, _ => .ok x

end Arr
end HF
