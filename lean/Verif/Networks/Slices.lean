import Verif.Networks.Stack
/-
Indexing of arrays of network parameters.
-/
noncomputable section

namespace HF.Networks

open HF.Arr

variable {β K : Type} [Field K] [DecidableEq K]

/-- Result of indexing an array of network parameters: an array of the same class, an array, a number,
or an array without dims. -/
inductive NetOut (β K : Type) where
  | net (n : NetArr β K)
  | arr (a : Arr β K)
  | scalar (v : K)
  | plain

/-- `ismatrix(a)`.  repo: hftools/dataset/arrayobj.py:325-338 -/
def hasMatrix (a : Arr β K) : Bool :=
  a.dims.any (fun d => d.isa .matI) && a.dims.any fun d => d.isa .matJ

/-- The classes which accept nothing but two columns.
repo: hftools/networks/multiports.py:218-226, 352, 386, 420, 453, 493 -/
def twoColumns : Rep → Bool
  | .Z | .Y | .S => false
  | .G | .H | .ABCD | .T | .Tp => true

/-- `net[idx]`.  The array is viewed as a plain array and indexed; a result with matrix axes is made an
array of the class of `net` again, from the plain array.  A plain array has no reference impedance:
`__array_finalize__` sets the default `dflt` (line 151-153), and `__init__` does not look at its argument
`Z0` unless the data belong to one of the classes (line 101-107).  `_hfarray.__new__` keeps dims and
elements of an array.
repo: hftools/networks/multiports.py:210-215, 89-114, 151-153, 222-226 -/
def netGet (fmt : β → String) (dflt : Imp K) (net : NetArr β K) (ixs : List Ix) :
    Except Arr.Err (NetOut β K) :=
  match net.a.getitem fmt ixs with
  | .error e => .error e
  | .ok (.scalar v) => .ok (.scalar v)
  | .ok .plain => .ok .plain
  | .ok (.arr r) =>
    if hasMatrix r then
      if twoColumns net.rep && r.nd.shape.getLast? != some 2 then .error .valueError
      else .ok (.net ⟨net.rep, dflt, r⟩)
    else .ok (.arr r)

end HF.Networks
