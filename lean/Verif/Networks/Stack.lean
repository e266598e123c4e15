import Verif.HFArray.MatMul
import Verif.HFArray.Index
import Verif.Networks.Convert
/-
Conversion between representations for arrays of two-ports, as the code does it: with functions of
arrays (products, inverses, slices, differences aligned by name), followed by an assignment by
position.  `Networks/Convert` has the same for a single matrix.

repo: hftools/networks/multiports.py:60-116, 229-233, 258-265, 294-301

Numbers are elements of a field, rounding and the type of the elements are not modelled.
-/
noncomputable section

namespace HF.Networks

variable {β K : Type} [Field K] [DecidableEq K]

/-- `slice(None, 2)` and `slice(2, None)`. -/
def low : Slice := { stop := some 2 }
def high : Slice := { start := some 2 }

/-- `P[..., r, c]` for slices.  repo: hftools/networks/multiports.py:70-73 -/
def corner (fmt : β → String) (P : Arr β K) (r c : Slice) : Except Nd.LErr (Arr β K) :=
  match P.getitem fmt [.ellipsis, .slice r, .slice c] with
  | .ok (.arr x) => .ok x
  | .ok _ => .error .valueError
  | .error e => .error (Arr.Err.toL e)

/-- `-x` -/
def negArr (x : Arr β K) : Arr β K := ⟨x.dims, ⟨x.nd.shape, fun i => -x.nd.get i⟩⟩

/-- `x - y` or `x + y`, with the errors of the linear algebra functions. -/
def arith (full : Arr β K → Arr β K) (f : K → K → K) (x y : Arr β K) : Except Nd.LErr (Arr β K) :=
  match Arr.binop full f x y with
  | .ok r => .ok r
  | .error e => .error (Arr.Err.toL e)

/-- `convert(fromP, toP, a)`, the result only.  repo: hftools/networks/multiports.py:60-77 -/
def convertArr (full : Arr β K → Arr β K) (fmt : β → String) (fromP toP a : Arr β K) :
    Except Nd.LErr (Arr β K) := do
  let PB ← Arr.inv toP
  let P ← Arr.matMul full fromP PB
  let tau1 ← corner fmt P low low
  let sigma1 ← corner fmt P low high
  let tau2 ← corner fmt P high low
  let sigma2 ← corner fmt P high high
  let at2 ← Arr.matMul full a tau2
  let d ← arith full (· - ·) tau1 at2
  let A ← Arr.inv d
  let as2 ← Arr.matMul full a sigma2
  let B ← arith full (· + ·) (negArr sigma1) as2
  Arr.matMul full A B

/-- `make_matrix(A)` for a four by four matrix; `ofIdx` embeds integers into the coordinate values.
repo: hftools/networks/multiports.py:229-233 -/
def ofMat (ofIdx : Nat → β) (M : M4 K) : Arr β K :=
  ⟨[⟨.matI, "i", (List.range 4).map ofIdx, none, none⟩, ⟨.matJ, "j", (List.range 4).map ofIdx, none, none⟩],
    ⟨[4, 4], fun idx => Nd.elemOf M (idx.getD 0 0) (idx.getD 1 0)⟩⟩

/-- `x[:] = y`: numpy assigns by position, the dims play no part.  `ValueError` if the shapes do not
fit.  Arrays of equal rank only.  repo: hftools/networks/multiports.py:111, 264, 300 -/
def assignAll (x y : Arr β K) : Except Nd.LErr (Arr β K) :=
  match Nd.bshape y.nd.shape x.nd.shape with
  | .ok sh =>
    if sh = x.nd.shape then .ok ⟨x.dims, ⟨x.nd.shape, fun idx => y.nd.get (Nd.bidx y.nd.shape idx)⟩⟩
    else .error .valueError
  | .error _ => .error .valueError

/-- An array of one of the classes. -/
structure NetArr (β K : Type) where
  rep : Rep
  z : Imp K
  a : Arr β K

/-- `ismatrix()` with equal lengths of the last two axes.
repo: hftools/networks/multiports.py:108, 162-165 -/
def squareMatrix (a : Arr β K) : Bool :=
  match a.dims.reverse, a.nd.shape.reverse with
  | dj :: di :: _, n :: m :: _ => di.isa .matI && dj.isa .matJ && m == n
  | _, _ => false

/-- `Class(net)` or `SArray(net, Z0=z)` for two-ports.  `dflt` is as in `construct`.  `ZArray(net)`
and `YArray(net)` invert directly, for matrices which are not square with an error (`YArray` without
asking whether the axes are matrix axes).
repo: hftools/networks/multiports.py:88-116, 118-153, 258-265, 294-301, 332-333, 474-476, 514-516.
The class of the elements is that of a field, so that the copy into the new object is exact. -/
def constructArr (full : Arr β K → Arr β K) (fmt : β → String) (ofIdx : Nat → β) (dflt : Imp K) (dst : Rep)
    (z : Option (Imp K)) (net : NetArr β K) : Except Nd.LErr (NetArr β K) :=
  match dst, net.rep with
  | .Z, .Y =>
    if squareMatrix net.a then do
      let m ← Arr.inv net.a
      let r ← assignAll net.a m
      pure ⟨.Z, dflt, r⟩
    else .error .valueError
  | .Y, .Z =>
    match net.a.nd.shape.reverse with
    | n :: m :: _ =>
      if n = m then do
        let m ← Arr.inv net.a
        let r ← assignAll net.a m
        pure ⟨.Y, dflt, r⟩
      else .error .valueError
    | _ => .error .indexError
  | dst, rep =>
    if rep = dst ∧ dflt = net.z then .ok net
    else if squareMatrix net.a then do
      let z' := if dst = .S then z.getD dflt else net.z
      let res ← convertArr full fmt (ofMat ofIdx (Pmat net.z rep)) (ofMat ofIdx (Pmat z' dst)) net.a
      let r ← assignAll net.a res
      pure ⟨dst, z', r⟩
    else .error .valueError

end HF.Networks
