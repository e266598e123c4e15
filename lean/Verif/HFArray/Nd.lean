/-
Model of the numpy `ndarray` operations used by hftools.

Nothing in this file is hftools code; it states what numpy does.  An array is a
shape and an element function; only indices inside of the shape are meaningful.
Memory layout, views and dtypes are not modelled.
-/
namespace HF

/-- `ndarray`: shape and elements. -/
structure Nd (α : Type) where
  shape : List Nat
  get : List Nat → α

namespace Nd

variable {α γ : Type}

/-- Errors raised by numpy. -/
inductive Err where
  | valueError
  | indexError
  deriving DecidableEq, Repr

/-- `ndarray.ndim` -/
def ndim (a : Nd α) : Nat := a.shape.length

/-- An index tuple inside of a shape. -/
def Valid : List Nat → List Nat → Prop
  | [], [] => True
  | s :: ss, i :: is => i < s ∧ Valid ss is
  | _, _ => False

/-- Number of elements, `numpy.multiply.reduce(shape)`. -/
def size : List Nat → Nat
  | [] => 1
  | s :: ss => s * size ss

/-- Row-major ("C" order) position of an index. -/
def ravel : List Nat → List Nat → Nat
  | _ :: ss, i :: is => i * size ss + ravel ss is
  | _, _ => 0

/-- Row-major index of a position. -/
def unravel : List Nat → Nat → List Nat
  | [], _ => []
  | _ :: ss, n => (n / size ss) :: unravel ss (n % size ss)

/-- `ndarray.reshape` / assignment to `.shape` in row-major order; the sizes must agree. -/
def reshape (a : Nd α) (sh : List Nat) : Except Err (Nd α) :=
  if size sh = size a.shape then
    .ok ⟨sh, fun idx => a.get (unravel a.shape (ravel sh idx))⟩
  else .error .valueError

/-- `order` is a permutation of the axes. -/
def isPerm (order : List Nat) (n : Nat) : Bool :=
  order.length == n && (List.range n).all fun k => order.contains k

/-- `ndarray.transpose(*order)`. -/
def transpose (a : Nd α) (order : List Nat) : Except Err (Nd α) :=
  if isPerm order a.ndim then
    .ok ⟨order.map fun k => a.shape.getD k 0,
         fun idx => a.get ((List.range a.ndim).map fun k => idx.getD (order.idxOf k) 0)⟩
  else .error .valueError

/-- Broadcasting of two shapes of equal length. -/
def bshape : List Nat → List Nat → Except Err (List Nat)
  | [], [] => .ok []
  | s :: ss, t :: ts =>
    match bshape ss ts with
    | .error e => .error e
    | .ok r =>
      if s = t then .ok (s :: r)
      else if s = 1 then .ok (t :: r)
      else if t = 1 then .ok (s :: r)
      else .error .valueError
  | _, _ => .error .valueError

/-- The index into an operand of shape `shape` that belongs to index `idx` of the
broadcast result. -/
def bidx (shape idx : List Nat) : List Nat :=
  List.zipWith (fun s i => if s = 1 then 0 else i) shape idx

/-- An elementwise binary operation on arrays of equal rank. -/
def binop (f : α → α → γ) (a b : Nd α) : Except Err (Nd γ) :=
  match bshape a.shape b.shape with
  | .error e => .error e
  | .ok sh => .ok ⟨sh, fun idx => f (a.get (bidx a.shape idx)) (b.get (bidx b.shape idx))⟩

/-- All index tuples of `shape` that agree with `idx` in the axes not in `axes`,
in row-major order.  `k` is the number of the first axis. -/
def fiber (axes : List Nat) : Nat → List Nat → List Nat → List (List Nat)
  | _, [], _ => [[]]
  | k, s :: ss, idx =>
    let rest := fiber axes (k + 1) ss idx.tail
    if k ∈ axes then (List.range s).flatMap fun i => rest.map (i :: ·)
    else rest.map (idx.headD 0 :: ·)

/-- Normalisation of an axis number: negative numbers count from the end;
out of range is an error. -/
def normAxis (n : Nat) (ax : Int) : Option Nat :=
  if 0 ≤ ax ∧ ax < n then some ax.toNat
  else if ax < 0 ∧ -(n : Int) ≤ ax then some (ax + n).toNat
  else none

/-- Normalise a tuple of axes; repeated axes are an error. -/
def normAxes (n : Nat) : List Int → Except Err (List Nat)
  | [] => .ok []
  | ax :: axs =>
    match normAxis n ax, normAxes n axs with
    | some k, .ok ks => if k ∈ ks then .error .valueError else .ok (k :: ks)
    | _, _ => .error .valueError

/-- Set the length of the given axes to one. -/
def keepShape (axes : List Nat) (shape : List Nat) : List Nat :=
  shape.mapIdx fun k s => if k ∈ axes then 1 else s

/-- A reduction (`sum`, `mean`, `min`, ...) over `axes` with `keepdims=True`; `red` combines
the elements, presented in row-major order.  `axes = none` is `axis=None`. -/
def reduce (red : List α → γ) (a : Nd α) (axes : Option (List Int)) : Except Err (Nd γ) :=
  match axes with
  | none => .ok ⟨a.shape.map fun _ => 1,
      fun idx => red ((fiber (List.range a.ndim) 0 a.shape idx).map a.get)⟩
  | some axs =>
    match normAxes a.ndim axs with
    | .error e => .error e
    | .ok ks => .ok ⟨keepShape ks a.shape, fun idx => red ((fiber ks 0 a.shape idx).map a.get)⟩

/-- Remove the entries at the given positions. -/
def dropAt {δ : Type} (ks : List Nat) (l : List δ) : List δ :=
  (l.zipIdx.filter fun p => p.2 ∉ ks).map Prod.fst

/-- Put zeros in at the given positions of an index of rank `n`. -/
def insertZeros (ks : List Nat) : Nat → Nat → List Nat → List Nat
  | _, 0, _ => []
  | k, n + 1, idx =>
    if k ∈ ks then 0 :: insertZeros ks (k + 1) n idx
    else idx.headD 0 :: insertZeros ks (k + 1) n idx.tail

/-- `ndarray.squeeze(axis=...)`; selected axes must have length one. -/
def squeeze (a : Nd α) (axes : Option (List Int)) : Except Err (Nd α) :=
  match axes with
  | none =>
    let ks := (List.range a.ndim).filter fun k => a.shape.getD k 0 = 1
    .ok ⟨dropAt ks a.shape, fun idx => a.get (insertZeros ks 0 a.ndim idx)⟩
  | some axs =>
    match normAxes a.ndim axs with
    | .error e => .error e
    | .ok ks =>
      if ks.all fun k => a.shape.getD k 0 = 1 then
        .ok ⟨dropAt ks a.shape, fun idx => a.get (insertZeros ks 0 a.ndim idx)⟩
      else .error .valueError

/-- `ndarray.take(indices, axis)`; the indices have to be in range (`mode="raise"`). -/
def take (a : Nd α) (indices : List Int) (axis : Nat) : Except Err (Nd α) :=
  let n := a.shape.getD axis 0
  match indices.mapM (normAxis n) with
  | none => .error .indexError
  | some ks => .ok ⟨a.shape.set axis ks.length,
      fun idx => a.get (idx.set axis (ks.getD (idx.getD axis 0) 0))⟩

end Nd
end HF
