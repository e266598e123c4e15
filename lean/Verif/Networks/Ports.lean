import Verif.Networks.Stack
import Mathlib.Data.Matrix.Block
/-
Conversion between Z-, Y- and S-parameters for arrays of networks with any number of ports ("This
model may be of any dimension").  The other classes have two ports only, see `Networks/Stack`.

repo: hftools/networks/multiports.py:60-116, 229-233, 258-269, 294-308, 332-349

Numbers are elements of a field, rounding and the type of the elements are not modelled.
-/
noncomputable section

namespace HF.Networks

variable {β K : Type} [Field K] [DecidableEq K]

/-- The classes for any number of ports. -/
inductive Kind where
  | Z
  | Y
  | S
  deriving DecidableEq

/-- The class among all classes. -/
def Kind.rep : Kind → Rep
  | .Z => .Z
  | .Y => .Y
  | .S => .S

/-- The matrices `P` for `n` ports, of four `n` by `n` blocks.
repo: hftools/networks/multiports.py:267-269 (Z), 303-308 (Y), 343-349 (S) -/
def portP (n : Nat) (z : Imp K) : Kind → Matrix (Fin n ⊕ Fin n) (Fin n ⊕ Fin n) K
  | .Z => 1
  | .Y => Matrix.fromBlocks 0 1 1 0
  | .S => Matrix.fromBlocks (z.v • 1) (-(z.i • 1)) (z.v • 1) (z.i • 1)

/-- `make_matrix(A)` for these matrices; `ofIdx` embeds integers into the coordinate values.
repo: hftools/networks/multiports.py:229-233 -/
def ofBlocks (ofIdx : Nat → β) {n : Nat} (M : Matrix (Fin n ⊕ Fin n) (Fin n ⊕ Fin n) K) : Arr β K :=
  ⟨[⟨.matI, "i", (List.range (n + n)).map ofIdx, none, none⟩, ⟨.matJ, "j", (List.range (n + n)).map ofIdx, none, none⟩],
    ⟨[n + n, n + n], fun idx =>
      Nd.elemOf (Matrix.reindex finSumFinEquiv finSumFinEquiv M) (idx.getD 0 0) (idx.getD 1 0)⟩⟩

/-- An array of one of the three classes. -/
structure PortArr (β K : Type) where
  kind : Kind
  z : Imp K
  a : Arr β K

/-- `ZArray(net)`, `YArray(net)`, `SArray(net, Z0=z)`, with `P` for the number of ports that the last
axis has.
repo: hftools/networks/multiports.py:88-116, 258-265, 294-301, 332-333 -/
def constructPorts (full : Arr β K → Arr β K) (fmt : β → String) (ofIdx : Nat → β) (dflt : Imp K) (dst : Kind)
    (z : Option (Imp K)) (net : PortArr β K) : Except Nd.LErr (PortArr β K) :=
  match dst, net.kind with
  | .Z, .Y =>
    if squareMatrix net.a then do
      let m ← Arr.inv net.a
      let r ← assignAll net.a m
      pure ⟨.Z, dflt, r⟩
    else .error .valueError
  | .Y, .Z =>
    match net.a.nd.shape.reverse with
    | n :: m :: _ =>
      if n = m then do
        let m ← Arr.inv net.a
        let r ← assignAll net.a m
        pure ⟨.Y, dflt, r⟩
      else .error .valueError
    | _ => .error .indexError
  | dst, kind =>
    if kind = dst ∧ dflt = net.z then .ok net
    else if squareMatrix net.a then do
      let n := net.a.nd.shape.getLastD 0
      let z' := if dst = .S then z.getD dflt else net.z
      let res ← convertArr full fmt (ofBlocks ofIdx (portP n net.z kind)) (ofBlocks ofIdx (portP n z' dst)) net.a
      let r ← assignAll net.a res
      pure ⟨dst, z', r⟩
    else .error .valueError

end HF.Networks
