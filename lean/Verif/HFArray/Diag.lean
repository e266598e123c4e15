import Verif.HFArray.Model
import Verif.HFArray.Spec
/-
Expansion of diagonal axes into pairs of an independent and a derivative axis.

repo: hftools/dataset/arrayobj.py:92-191

This is the one place where hftools works on the memory of an array.  Memory is a function
from positions (in elements) to values; a view is a shape with one stride per axis.
-/
namespace HF.Arr

variable {β α : Type}

/-- Strides, in elements, of a new array in row-major order (`numpy.zeros`). -/
def strides : List Nat → List Nat
  | [] => []
  | _ :: ss => Nd.size ss :: strides ss

/-- Position in memory of the element with index `idx` of a view. -/
def position : List Nat → List Nat → Nat
  | s :: ss, i :: is => i * s + position ss is
  | _, _ => 0

/-- A view: shape and strides. -/
structure View where
  shape : List Nat
  strides : List Nat
  deriving DecidableEq, Repr

/-- `dims.index(d)` of python's tuples, by `==`; `none` is `ValueError`. -/
def indexOf [DecidableEq β] : List (Dim β) → Dim β → Option Nat
  | [], _ => none
  | x :: t, d => if x.eqDim d then some 0 else (indexOf t d).map (· + 1)

/-- Stable insertion sort, `list.sort(reverse=True)` on numbers.  Python builtin. -/
def insertDesc (i : Nat) : List Nat → List Nat
  | [] => [i]
  | x :: t => if i ≤ x then x :: insertDesc i t else i :: x :: t

def sortDesc (l : List Nat) : List Nat := l.foldl (fun acc i => insertDesc i acc) []

/-- State of the loop of `diagonal_view`. -/
structure DiagState where
  stride : Nat
  lens : List Nat
  strides : List Nat
  shape : List Nat

/-- One pass of the loop.  repo: hftools/dataset/arrayobj.py:149-154.  The indices are in
range, so that the default of `getD` is not used. -/
def diagStep (st : DiagState) (idx : Nat) : DiagState :=
  ⟨st.stride + st.strides.getD idx 0, st.lens ++ [st.shape.getD idx 0],
    st.strides.eraseIdx idx, st.shape.eraseIdx idx⟩

/-- python's `l.insert(k, x)`: a `k` beyond the end appends. -/
def insertAt {δ : Type} (l : List δ) (k : Nat) (x : δ) : List δ := l.insertIdx (min k l.length) x

/-- The minimum of a list, `min(l)`; `none` is `ValueError` of an empty one. -/
def minimum : List Nat → Option Nat
  | [] => none
  | x :: t => some (t.foldl min x)

/-- `diagonal_view(x, diagonal)` for an array in row-major order; `none` is `ValueError`
(an axis that `x` does not have) or `IndexError` (no axis given).
repo: hftools/dataset/arrayobj.py:123-157 -/
def diagonalView [DecidableEq β] (dims : List (Dim β)) (shape : List Nat)
    (diagonal : List (Dim β)) : Option View :=
  match diagonal.mapM (indexOf dims) with
  | none => none
  | some [] => none
  | some (first :: rest) =>
    let st := (sortDesc (first :: rest)).foldl diagStep ⟨0, [], strides shape, shape⟩
    match minimum st.lens with
    | none => none
    | some m => some ⟨insertAt st.shape first m, insertAt st.strides first st.stride⟩

/-- Assign a value to a memory cell. -/
def poke (mem : Nat → α) (pos : Nat) (v : α) : Nat → α := fun p => if p = pos then v else mem p

/-- `view[...] = x`: broadcast the shape of `x` and store element by element in row-major
order; `none` is `ValueError`.  Only arrays with the rank of the view are assigned here. -/
def assignView (mem : Nat → α) (v : View) (x : Nd α) : Option (Nat → α) :=
  if x.shape.length = v.shape.length ∧
      (List.zip x.shape v.shape).all (fun p => p.1 = p.2 || p.1 = 1) then
    some ((List.range (Nd.size v.shape)).foldl (fun mem n =>
      let idx := Nd.unravel v.shape n
      poke mem (position v.strides idx) (x.get (Nd.bidx x.shape idx))) mem)
  else none

inductive DiagErr where
  | notDiagonal
  | noSuchAxis
  | valueError
  | attributeError
  deriving DecidableEq, Repr

/-- `dim.indep_axis` as an object.  repo: hftools/dataset/dim.py:184-186 -/
def indepDim (dflt : List β → String) (d : Dim β) : Option (Dim β) :=
  d.cls.indepAxisOf.map fun c => Dim.copyFrom dflt c d

/-- `dim.deriv_axis` as an object.  repo: hftools/dataset/dim.py:188-190 -/
def derivDim (dflt : List β → String) (d : Dim β) : Option (Dim β) :=
  d.cls.derivAxisOf.map fun c => Dim.copyFrom dflt c d

/-- `_expand_diagonal(x, diagaxis)`; `zero` is the element of `numpy.zeros`.
repo: hftools/dataset/arrayobj.py:160-178 -/
def expandDiagonal [DecidableEq β] (dflt : List β → String) (zero : α) (x : Arr β α)
    (diagaxis : Dim β) : Except DiagErr (Arr β α) :=
  if ! diagaxis.isa .diagAxis_ then .error .notDiagonal
  else if ! containsDim x.dims diagaxis then .error .noSuchAxis
  else match indexOf x.dims diagaxis with
    | none => .error .valueError
    | some idx =>
      match x.dims[idx]? with
      | none => .error .valueError
      | some d =>
        match indepDim dflt d, derivDim dflt d with
        | some ind, some der =>
          let dims := x.dims.take idx ++ [ind, der] ++ x.dims.drop (idx + 1)
          let n := ind.data.length
          let shape := x.nd.shape.take idx ++ [n, n] ++ x.nd.shape.drop (idx + 1)
          if dims.length = shape.length then
            match diagonalView dims shape [ind, der] with
            | none => .error .valueError
            | some v =>
              match assignView (fun _ => zero) v x.nd with
              | none => .error .valueError
              | some mem => .ok ⟨dims, ⟨shape, fun i => mem (position (strides shape) i)⟩⟩
          else .error .valueError
        | _, _ => .error .attributeError

/-- The loop of `expand_diagonals`.  repo: hftools/dataset/arrayobj.py:189-191 -/
def expandLoop [DecidableEq β] (dflt : List β → String) (zero : α) (x : Arr β α) :
    List (Dim β) → Except DiagErr (Arr β α)
  | [] => .ok x
  | ax :: t =>
    match expandDiagonal dflt zero x ax with
    | .error e => .error e
    | .ok y => expandLoop dflt zero y t

/-- `expand_diagonals(x, diags)`.  repo: hftools/dataset/arrayobj.py:181-191 -/
def expandDiagonals [DecidableEq β] (dflt : List β → String) (zero : α) (x : Arr β α)
    (diags : Option (List (Dim β)) := none) : Except DiagErr (Arr β α) :=
  expandLoop dflt zero x (diags.getD (x.dims.filter fun d => d.isa .diagAxis_))

end HF.Arr
