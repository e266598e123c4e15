import Verif.Networks.Convert
/-
Arrays of port parameters as objects in memory: views, and arithmetic with them.

repo: hftools/networks/multiports.py:79-160, hftools/dataset/arrayobj.py:204-246, 341-353, 517-526,
694-712

Arrays of matrices are treated one matrix at a time, two ports.  Both operands have the same
dimensions, the last two of which are those of the matrices, so that the order of the axes does
not change.
-/
noncomputable section

namespace HF.Networks

open Matrix

variable {K : Type} [Field K] [DecidableEq K]

/-- Memory: one matrix in every cell. -/
abbrev Mem (K : Type) := List (M2 K)

/-- An object: class, reference impedance and the cell with its matrix.  Several objects may have
the same cell. -/
structure Obj (K : Type) where
  rep : Rep
  z : Imp K
  ref : Nat

inductive PErr where
  | typeError
  | valueError
  | linAlgError
  deriving DecidableEq, Repr

/-- `Class(x, copy=False)` or `SArray(x, copy=False, Z0=z)` of an object: the new object has the
memory of `x`, and if the parameters need to be converted the result is written there.
repo: hftools/networks/multiports.py:88-116 (see `construct`), hftools/dataset/arrayobj.py:382-387 -/
def share (dflt : Imp K) (dst : Rep) (z : Option (Imp K)) (mem : Mem K) (x : Obj K) :
    Except PErr (Mem K × Obj K) :=
  match mem[x.ref]? with
  | none => .error .valueError
  | some m =>
    match construct dflt dst z ⟨x.rep, x.z, m⟩ with
    | none => .error .linAlgError
    | some n => .ok (mem.set x.ref n.m, ⟨n.rep, n.z, x.ref⟩)

/-- `Class(x)`: a copy.  repo: hftools/networks/multiports.py:88-116 (see `construct`) -/
def fresh (dflt : Imp K) (dst : Rep) (mem : Mem K) (x : Obj K) : Except PErr (Mem K × Obj K) :=
  match mem[x.ref]? with
  | none => .error .valueError
  | some m =>
    match construct dflt dst none ⟨x.rep, x.z, m⟩ with
    | none => .error .linAlgError
    | some n => .ok (mem ++ [n.m], ⟨n.rep, n.z, mem.length⟩)

/-- `x.view()` is `x.__class__(x, dims=x.dims, copy=False, Z0=x.Z0)`.  Only `SArray.__init__` has an
argument `Z0`, all other classes raise `TypeError`.
repo: hftools/networks/multiports.py:155-158, 258, 294, 332, 373, 407, 440, 474, 514 -/
def view (dflt : Imp K) (mem : Mem K) (x : Obj K) : Except PErr (Mem K × Obj K) :=
  if x.rep = .S then share dflt .S (some x.z) mem x else .error .typeError

/-- `x.transpose(*order)` with the order kept: `x.__class__(ndarray.transpose(x, *order), dims=...,
copy=False)`.  repo: hftools/dataset/arrayobj.py:517-526 -/
def transposeKeep (dflt : Imp K) (mem : Mem K) (x : Obj K) : Except PErr (Mem K × Obj K) :=
  share dflt x.rep none mem x

/-- `change_shape(x, x.dims)`.  repo: hftools/dataset/arrayobj.py:204-230 -/
def sameShape (dflt : Imp K) (mem : Mem K) (x : Obj K) : Except PErr (Mem K × Obj K) :=
  match view dflt mem x with
  | .error e => .error e
  | .ok (mem, v) => transposeKeep dflt mem v

/-- An operator, `a + b` for example, where `f` is what it does with elements: the right operand is
copied into the class of the left one, both are brought to the same dimensions, and the result is
a new array, which has the class and impedance of the left operand.
repo: hftools/dataset/arrayobj.py:238-246, 341-353, 694-712 -/
def binop (dflt : Imp K) (f : K → K → K) (mem : Mem K) (a b : Obj K) : Except PErr (Mem K × Obj K) :=
  match fresh dflt a.rep mem b with
  | .error e => .error e
  | .ok (mem, b) =>
    match sameShape dflt mem a with
    | .error e => .error e
    | .ok (mem, a) =>
      match sameShape dflt mem b with
      | .error e => .error e
      | .ok (mem, b) =>
        match mem[a.ref]?, mem[b.ref]? with
        | some x, some y => .ok (mem ++ [Matrix.of fun i j => f (x i j) (y i j)], ⟨a.rep, a.z, mem.length⟩)
        | _, _ => .error .valueError

end HF.Networks
