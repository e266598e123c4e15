import Verif.HFArray.Model
import Mathlib.LinearAlgebra.Matrix.NonsingularInverse
/-
Model of the functions on arrays of matrices: product, determinant, inverse, solution of
linear systems.

repo: hftools/math.py:374-378, 393-426

Elements are those of a ring or field, rounding is not modelled.  What numpy does with the last
two axes is stated here with sums of products (`einsum`), `Matrix.det` and `Matrix.inv`.
-/
namespace HF

namespace Nd

variable {α : Type}

/-- Errors of the linear algebra functions. -/
inductive LErr where
  | valueError
  | indexError
  | linAlgError
  | keyError
  | shapeDimsMismatch
  deriving DecidableEq, Repr

/-- The shape of the stack, number of rows and number of columns: `shape[:-2]`, `shape[-2]`,
`shape[-1]`.  Numpy indexing. -/
def split2 (sh : List Nat) : Option (List Nat × Nat × Nat) :=
  match sh.reverse with
  | q :: p :: t => some (t.reverse, p, q)
  | _ => none

/-- Length of an axis which two operands share in `einsum`, equal or one.  Numpy. -/
def blen (s t : Nat) : Option Nat :=
  if s = t then some s else if s = 1 then some t else if t = 1 then some s else none

/-- `np.einsum("...ij,...jk->...ik", A, B)` for arrays of equal rank.  Numpy: the axes of the
stack and the summed axis are broadcast. -/
def dot [Semiring α] (A B : Nd α) : Except LErr (Nd α) :=
  match split2 A.shape, split2 B.shape with
  | some (sa, p, q), some (sb, q', t) =>
    match bshape sa sb, blen q q' with
    | .ok so, some n =>
      .ok ⟨so ++ [p, t], fun idx =>
        let o := idx.take so.length
        let i := idx.getD so.length 0
        let k := idx.getD (so.length + 1) 0
        ((List.range n).map fun m =>
          A.get (bidx sa o ++ [i, if q = 1 then 0 else m]) *
          B.get (bidx sb o ++ [if q' = 1 then 0 else m, k])).sum⟩
    | _, _ => .error .valueError
  | _, _ => .error .valueError

/-- One matrix of the stack. -/
def matOf (A : Nd α) (o : List Nat) (p q : Nat) : Matrix (Fin p) (Fin q) α :=
  fun i j => A.get (o ++ [i.1, j.1])

/-- All indices of a shape, in row-major order. -/
def allIdx (sh : List Nat) : List (List Nat) := (List.range (size sh)).map (unravel sh)

/-- An element of a matrix. -/
def elemOf [Zero α] {p q : Nat} (M : Matrix (Fin p) (Fin q) α) (i j : Nat) : α :=
  if h : i < p ∧ j < q then M ⟨i, h.1⟩ ⟨j, h.2⟩ else 0

/-- `np.linalg.det`.  Numpy: `LinAlgError` unless the last two axes exist and have equal
length. -/
def det [CommRing α] (A : Nd α) : Except LErr (Nd α) :=
  match split2 A.shape with
  | some (so, p, q) =>
    if p = q then .ok ⟨so, fun o => (matOf A o p p).det⟩ else .error .linAlgError
  | none => .error .linAlgError

/-- `np.linalg.inv`.  Numpy: `LinAlgError` if a matrix of the stack is singular. -/
noncomputable def inv [Field α] [DecidableEq α] (A : Nd α) : Except LErr (Nd α) :=
  match split2 A.shape with
  | some (so, p, q) =>
    if p = q then
      if (allIdx so).all fun o => (matOf A o p p).det ≠ 0 then
        .ok ⟨so ++ [p, p], fun idx =>
          elemOf (matOf A (idx.take so.length) p p)⁻¹ (idx.getD so.length 0)
            (idx.getD (so.length + 1) 0)⟩
      else .error .linAlgError
    else .error .linAlgError
  | none => .error .linAlgError

/-- `np.linalg.solve(A, B)` for arrays of equal rank.  Numpy: the axes of the stacks are
broadcast, the number of rows must agree, `LinAlgError` if a matrix is singular or `A` is not
square. -/
noncomputable def solve [Field α] [DecidableEq α] (A B : Nd α) : Except LErr (Nd α) :=
  match split2 A.shape, split2 B.shape with
  | some (sa, p, q), some (sb, n, t) =>
    if p = q then
      if n = q then
        match bshape sa sb with
        | .error _ => .error .valueError
        | .ok so =>
          if (allIdx so).all fun o => (matOf A (bidx sa o) q q).det ≠ 0 then
            .ok ⟨so ++ [q, t], fun idx =>
              elemOf ((matOf A (bidx sa (idx.take so.length)) q q)⁻¹ *
                matOf B (bidx sb (idx.take so.length)) q t) (idx.getD so.length 0)
                (idx.getD (so.length + 1) 0)⟩
          else .error .linAlgError
      else .error .valueError
    else .error .linAlgError
  | _, _ => .error .linAlgError

end Nd

namespace Arr

variable {β α : Type}

/-- The errors of the other functions among those of the linear algebra functions. -/
def Err.toL : Err → Nd.LErr
  | .keyError => .keyError
  | .valueError => .valueError
  | .indexError => .indexError
  | .shapeDimsMismatch => .shapeDimsMismatch

/-- `hfarray(nd, dims=dims)` -/
def mkL (nd : Nd α) (dims : List (Dim β)) : Except Nd.LErr (Arr β α) :=
  match mk? nd dims with
  | .ok r => .ok r
  | .error e => .error e.toL

/-- `make_same_dims(a, b)`, followed by a function of the two arrays and `hfarray` with the dims
of the operands.  repo: hftools/dataset/arrayobj.py:233-246 -/
def withSame (full : Arr β α → Arr β α) (f : Nd α → Nd α → Except Nd.LErr (Nd α)) (a b : Arr β α) :
    Except Nd.LErr (Arr β α) :=
  let newdims := dimsUnion a.dims b.dims
  match changeShape full a newdims, changeShape full b newdims with
  | .ok a', .ok b' =>
    match f a'.nd b'.nd with
    | .ok nd => mkL nd newdims
    | .error e => .error e
  | .error e, _ => .error e.toL
  | _, .error e => .error e.toL

/-- `matrix_multiply(a, b)`.  repo: hftools/math.py:393-402 -/
def matMul [Semiring α] (full : Arr β α → Arr β α) (a b : Arr β α) : Except Nd.LErr (Arr β α) :=
  withSame full Nd.dot a b

/-- `det(A)`.  repo: hftools/math.py:411-415 -/
def det [CommRing α] (A : Arr β α) : Except Nd.LErr (Arr β α) :=
  match A.nd.det with
  | .ok nd => mkL nd (A.dims.take (A.dims.length - 2))
  | .error e => .error e

/-- `inv(A)`.  repo: hftools/math.py:374-378 -/
noncomputable def inv [Field α] [DecidableEq α] (A : Arr β α) : Except Nd.LErr (Arr β α) :=
  match A.nd.inv with
  | .ok nd => mkL nd A.dims
  | .error e => .error e

/-- `solve_Ab(A, b, squeeze)`.  repo: hftools/math.py:418-424 -/
noncomputable def solveAb [Field α] [DecidableEq α] (full : Arr β α → Arr β α) (A b : Arr β α) (squeeze : Bool) :
    Except Nd.LErr (Arr β α) :=
  match withSame full Nd.solve A b with
  | .error e => .error e
  | .ok r =>
    if squeeze then
      match r.squeezeIdx none with
      | .ok y => .ok y
      | .error e => .error e.toL
    else .ok r

end Arr
end HF
