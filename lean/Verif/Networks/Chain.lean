import Verif.Networks.Stack
import Verif.Networks.Cascade
/-
Cascading and de-embedding of arrays of two-ports, as the code does it: equal axes for both arrays,
elements by position, arithmetic aligned by name, assignments by position.  `Networks/Cascade` has the
same for a single matrix.

repo: hftools/networks/spar_functions.py:15-105, hftools/networks/multiports.py:167-193

Numbers are elements of a field; the type of the elements (which may lose imaginary parts, see C28 and
C29) and rounding are not modelled.  `div` is the division of the elements, whatever it gives for a
zero denominator (numpy: `inf` or `nan` with a warning).  Arrays of S-parameters have the default
impedance.
-/
noncomputable section

namespace HF.Networks

variable {β K : Type} [Field K] [DecidableEq K] [DecidableEq β]

/-- `make_same_dims(a, b)`.  repo: hftools/dataset/arrayobj.py:233-246 -/
def makeSame (full : Arr β K → Arr β K) (a b : Arr β K) : Except Nd.LErr (Arr β K × Arr β K) :=
  let newdims := Arr.dimsUnion a.dims b.dims
  match Arr.changeShape full a newdims, Arr.changeShape full b newdims with
  | .ok a', .ok b' => .ok (a', b')
  | .error e, _ => .error (Arr.Err.toL e)
  | _, .error e => .error (Arr.Err.toL e)

/-- `[x for x in S1.dims if not isinstance(x, _DimMatrix)]`
repo: hftools/networks/spar_functions.py:19, 43, 74 -/
def noMatrix (dims : List (Dim β)) : List (Dim.Obj β) :=
  (dims.filter fun d => !d.isa .dimMatrix_).map .dim

/-- `x.reorder_dimensions(*neworder)`.  repo: hftools/networks/spar_functions.py:20-21 -/
def reorder (x : Arr β K) (order : List (Dim.Obj β)) : Except Nd.LErr (Arr β K) :=
  match Arr.reorderDimensions x order with
  | .ok y => .ok y
  | .error e => .error (Arr.Err.toL e)

/-- `x[..., r, c]` for integers. -/
def elem (fmt : β → String) (x : Arr β K) (r c : Int) : Except Nd.LErr (Arr β K) :=
  match x.getitem fmt [.ellipsis, .int r, .int c] with
  | .ok (.arr y) => .ok y
  | .ok _ => .error .valueError
  | .error e => .error (Arr.Err.toL e)

/-- `Class(np.zeros(maxshape), dims=x.dims)` with the larger of the lengths of every axis.
repo: hftools/networks/spar_functions.py:25-26, 50-51, 81-82 -/
def zeros (x y : Arr β K) : Except Nd.LErr (Arr β K) :=
  Arr.mkL ⟨List.zipWith max x.nd.shape y.nd.shape, fun _ => 0⟩ x.dims

/-- `x[..., r, c] = y`: numpy assigns by position, `ValueError` if the shapes do not fit.  The last two
axes are long enough in all places. -/
def setElem (x : Arr β K) (r c : Nat) (y : Arr β K) : Except Nd.LErr (Arr β K) :=
  let n := x.nd.shape.length - 2
  match Nd.bshape y.nd.shape (x.nd.shape.take n) with
  | .ok sh =>
    if sh = x.nd.shape.take n then
      .ok ⟨x.dims, ⟨x.nd.shape, fun idx =>
        if idx.drop n = [r, c] then y.nd.get (Nd.bidx y.nd.shape (idx.take n)) else x.nd.get idx⟩⟩
    else .error .valueError
  | .error _ => .error .valueError

/-- The common beginning of the three functions.
repo: hftools/networks/spar_functions.py:18-21, 42-45, 73-76 -/
def aligned (full : Arr β K → Arr β K) (a b : Arr β K) : Except Nd.LErr (Arr β K × Arr β K) := do
  let (a', b') ← makeSame full a b
  let order := noMatrix a'.dims
  let a'' ← reorder a' order
  let b'' ← reorder b' order
  pure (a'', b'')

/-- `cascadeS(S1, S2)`.  repo: hftools/networks/spar_functions.py:15-33 -/
def cascadeArr (full : Arr β K → Arr β K) (fmt : β → String) (div : K → K → K) (a b : Arr β K) :
    Except Nd.LErr (Arr β K) := do
  let (S1, S2) ← aligned full a b
  let p ← arith full (· * ·) (← elem fmt S1 1 1) (← elem fmt S2 0 0)
  let denom := Arr.scalarOp (fun x s => s - x) p 1
  let s1det ← Arr.det S1
  let s2det ← Arr.det S2
  let res ← zeros S1 S2
  let res ← setElem res 0 0 (← arith full (· - ·) (← elem fmt S1 0 0) (← arith full (· * ·) (← elem fmt S2 0 0) s1det))
  let res ← setElem res 0 1 (← arith full (· * ·) (← elem fmt S1 0 1) (← elem fmt S2 0 1))
  let res ← setElem res 1 0 (← arith full (· * ·) (← elem fmt S1 1 0) (← elem fmt S2 1 0))
  let res ← setElem res 1 1 (← arith full (· - ·) (← elem fmt S2 1 1) (← arith full (· * ·) (← elem fmt S1 1 1) s2det))
  let res ← arith full div res denom
  Arr.mkL res.nd S1.dims

/-- `deembedleft(e, X)`.  repo: hftools/networks/spar_functions.py:36-64 -/
def deembedleftArr (full : Arr β K → Arr β K) (fmt : β → String) (div : K → K → K) (e X : Arr β K) :
    Except Nd.LErr (Arr β K) := do
  let (X, e) ← aligned full X e
  let t1 ← arith full (· * ·) (← elem fmt e 0 1) (← elem fmt e 1 0)
  let t2 ← arith full (· * ·) (← elem fmt e 0 0) (← elem fmt e 1 1)
  let t3 ← arith full (· * ·) (← elem fmt e 1 1) (← elem fmt X 0 0)
  let denom ← arith full (· + ·) (← arith full (· - ·) t1 t2) t3
  let res ← zeros X e
  let e11 ← arith full (· - ·) (← elem fmt X 0 0) (← elem fmt e 0 0)
  let e12 ← arith full (· * ·) (← elem fmt X 0 1) (← elem fmt e 1 0)
  let e21 ← arith full (· * ·) (← elem fmt X 1 0) (← elem fmt e 0 1)
  let u ← arith full (· * ·) (negArr (← elem fmt X 0 1)) (← elem fmt X 1 0)
  let e22 ← arith full (· * ·) u (← elem fmt e 1 1)
  let res ← setElem res 0 0 e11
  let res ← setElem res 0 1 e12
  let res ← setElem res 1 0 e21
  let res ← setElem res 1 1 e22
  let res ← arith full div res denom
  let res ← setElem res 1 1 (← arith full (· + ·) (← elem fmt res 1 1) (← elem fmt X 1 1))
  Arr.mkL res.nd X.dims

/-- `deembedright(X, e)`.  repo: hftools/networks/spar_functions.py:67-91 -/
def deembedrightArr (full : Arr β K → Arr β K) (fmt : β → String) (div : K → K → K) (X e : Arr β K) :
    Except Nd.LErr (Arr β K) := do
  let (X, e) ← aligned full X e
  let t1 ← arith full (· * ·) (← elem fmt e 0 1) (← elem fmt e 1 0)
  let t2 ← arith full (· * ·) (← elem fmt e 0 0) (← elem fmt e 1 1)
  let t3 ← arith full (· * ·) (← elem fmt e 0 0) (← elem fmt X 1 1)
  let denom ← arith full (· + ·) (← arith full (· - ·) t1 t2) t3
  let res ← zeros X e
  let u ← arith full (· * ·) (negArr (← elem fmt X 0 1)) (← elem fmt X 1 0)
  let res ← setElem res 0 0 (← arith full (· * ·) u (← elem fmt e 0 0))
  let res ← setElem res 0 1 (← arith full (· * ·) (← elem fmt X 0 1) (← elem fmt e 1 0))
  let res ← setElem res 1 0 (← arith full (· * ·) (← elem fmt X 1 0) (← elem fmt e 0 1))
  let res ← setElem res 1 1 (← arith full (· - ·) (← elem fmt X 1 1) (← elem fmt e 1 1))
  let res ← arith full div res denom
  let res ← setElem res 0 0 (← arith full (· + ·) (← elem fmt res 0 0) (← elem fmt X 0 0))
  Arr.mkL res.nd X.dims

/-- `deembed(e1, S, e2)`.  repo: hftools/networks/spar_functions.py:94-100 -/
def deembedArr (full : Arr β K → Arr β K) (fmt : β → String) (div : K → K → K) (e1 S e2 : Arr β K) :
    Except Nd.LErr (Arr β K) := do
  let X ← deembedleftArr full fmt div e1 S
  deembedrightArr full fmt div X e2

/-- `switch_correct(b, a)`.  repo: hftools/networks/spar_functions.py:103-105 -/
def switchCorrect (full : Arr β K → Arr β K) (b a : Arr β K) : Except Nd.LErr (Arr β K) := do
  let m ← Arr.inv a
  Arr.matMul full b m

/-- `self.cascade(other)`.  repo: hftools/networks/multiports.py:167-174 -/
def cascadeNetArr (full : Arr β K → Arr β K) (fmt : β → String) (ofIdx : Nat → β) (div : K → K → K)
    (dflt : Imp K) (self other : NetArr β K) : Except Nd.LErr (NetArr β K) := do
  let a ← constructArr full fmt ofIdx dflt .S none self
  let b ← constructArr full fmt ofIdx dflt .S none other
  let r ← cascadeArr full fmt div a.a b.a
  constructArr full fmt ofIdx dflt self.rep none ⟨.S, dflt, r⟩

/-- `self.deembed(left, right)`.  repo: hftools/networks/multiports.py:176-193 -/
def deembedNetArr (full : Arr β K → Arr β K) (fmt : β → String) (ofIdx : Nat → β) (div : K → K → K)
    (dflt : Imp K) (self : NetArr β K) (left right : Option (NetArr β K)) : Except Nd.LErr (NetArr β K) :=
  let S := constructArr full fmt ofIdx dflt .S none
  let back := fun r => constructArr full fmt ofIdx dflt self.rep none ⟨.S, dflt, r⟩
  match left, right with
  | none, none => .ok self
  | none, some right => do
    let X ← S self
    let e ← S right
    back (← deembedrightArr full fmt div X.a e.a)
  | some left, none => do
    let e ← S left
    let X ← S self
    back (← deembedleftArr full fmt div e.a X.a)
  | some left, some right => do
    let e1 ← S left
    let X ← S self
    let e2 ← S right
    back (← deembedArr full fmt div e1.a X.a e2.a)

end HF.Networks
