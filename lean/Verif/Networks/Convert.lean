import Mathlib.LinearAlgebra.Matrix.NonsingularInverse
import Mathlib.LinearAlgebra.Matrix.ToLinearEquiv
import Mathlib.Data.Matrix.Reflection
/-
Representations of multiports and conversion between them.

repo: hftools/networks/multiports.py

Arrays of matrices are treated one matrix at a time.  Numbers are elements of an arbitrary field.
-/
noncomputable section

namespace HF.Networks

open Matrix

variable {K : Type} [Field K] [DecidableEq K]

abbrev M2 (K : Type) := Matrix (Fin 2) (Fin 2) K
abbrev M4 (K : Type) := Matrix (Fin 4) (Fin 4) K

/-- `linalg.inv`; `none` is `LinAlgError`.  repo: hftools/math.py:374-378 -/
def inv? {n : Nat} (A : Matrix (Fin n) (Fin n) K) : Option (Matrix (Fin n) (Fin n) K) :=
  if A.det = 0 then none else some A⁻¹

/-- `P[..., :2, :2]` and so on. -/
def tl (P : M4 K) : M2 K := !![P 0 0, P 0 1; P 1 0, P 1 1]
def tr (P : M4 K) : M2 K := !![P 0 2, P 0 3; P 1 2, P 1 3]
def bl (P : M4 K) : M2 K := !![P 2 0, P 2 1; P 3 0, P 3 1]
def br (P : M4 K) : M2 K := !![P 2 2, P 2 3; P 3 2, P 3 3]

/-- `convert(fromP, toP, a)`: result and the first factor `A`, for two-ports.
repo: hftools/networks/multiports.py:60-77 -/
def convert (fromP toP : M4 K) (a : M2 K) : Option (M2 K × M2 K) :=
  match inv? toP with
  | none => none
  | some PB =>
    let P := fromP * PB
    match inv? (tl P - a * bl P) with
    | none => none
    | some A => some (A * (-tr P + a * br P), A)

/-- The classes of two-port parameters. -/
inductive Rep where
  | Z | Y | S | G | H | ABCD | T | Tp
  deriving DecidableEq, Repr

/-- A reference impedance, given by `v = sqrt(1/Z0)/2` and `i = sqrt(Z0)/2`. -/
structure Imp (K : Type) where
  v : K
  i : K
  deriving DecidableEq

/-- The matrices `P`.
repo: hftools/networks/multiports.py:267-269 (Z), 303-308 (Y), 343-349 (S), 376-383 (G), 410-417 (H),
443-450 (ABCD), 478-490 (T), 518-530 (Tp) -/
def Pmat (z : Imp K) : Rep → M4 K
  | .Z => !![1, 0, 0, 0; 0, 1, 0, 0; 0, 0, 1, 0; 0, 0, 0, 1]
  | .Y => !![0, 0, 1, 0; 0, 0, 0, 1; 1, 0, 0, 0; 0, 1, 0, 0]
  | .S => !![z.v, 0, -z.i, 0; 0, z.v, 0, -z.i; z.v, 0, z.i, 0; 0, z.v, 0, z.i]
  | .G => !![0, 0, 1, 0; 0, 1, 0, 0; 1, 0, 0, 0; 0, 0, 0, 1]
  | .H => !![1, 0, 0, 0; 0, 0, 0, 1; 0, 0, 1, 0; 0, 1, 0, 0]
  | .ABCD => !![1, 0, 0, 0; 0, 0, 1, 0; 0, 1, 0, 0; 0, 0, 0, -1]
  | .T => !![z.v, 0, -z.i, 0; z.v, 0, z.i, 0; 0, z.v, 0, z.i; 0, z.v, 0, -z.i]
  | .Tp => !![z.v, 0, z.i, 0; z.v, 0, -z.i, 0; 0, z.v, 0, -z.i; 0, z.v, 0, z.i]

/-- An object of one of the classes: parameters with their reference impedance (which all objects
have, also where it is not used). -/
structure Net (K : Type) where
  rep : Rep
  z : Imp K
  m : M2 K

/-- `Class(net)` or `SArray(net, Z0=z)`.  `dflt` are the 50 Ohm that every new object has at first
(`__array_finalize__`; `np.array` with `subok=False` drops what `net` had).  `SArray` has the default
50 Ohm for its argument, the other classes pass on `None` and take over the impedance of `net`.
Between Z and Y the matrix is inverted directly; then the data are a plain array and the impedance
stays as it is in a new object.
repo: hftools/networks/multiports.py:88-116, 118-153, 258-265, 294-301, 332-333, 474-476, 514-516 -/
def construct (dflt : Imp K) (dst : Rep) (z : Option (Imp K)) (net : Net K) : Option (Net K) :=
  match dst, net.rep with
  | .Z, .Y => (inv? net.m).map fun m => ⟨.Z, dflt, m⟩
  | .Y, .Z => (inv? net.m).map fun m => ⟨.Y, dflt, m⟩
  | dst, rep =>
    if rep = dst ∧ dflt = net.z then some net
    else
      let z' := if dst = .S then z.getD dflt else net.z
      (convert (Pmat net.z rep) (Pmat z' dst) net.m).map fun r => ⟨dst, z', r.1⟩

/-- `Class(array)` for an array without port parameters: the impedance given is ignored.
repo: hftools/networks/multiports.py:102-116, 151-153 -/
def ofRaw (dflt : Imp K) (rep : Rep) (_z : Option (Imp K)) (m : M2 K) : Net K := ⟨rep, dflt, m⟩

end HF.Networks
