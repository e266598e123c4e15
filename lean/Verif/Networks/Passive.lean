import Verif.Networks.Noise
import Mathlib.Analysis.SpecialFunctions.Complex.Arg
import Mathlib.LinearAlgebra.UnitaryGroup
/-
Making networks reciprocal and passive.

repo: hftools/networks/spar_functions.py:108-165

Arrays of matrices are treated one matrix at a time.  What `numpy.linalg` returns (a singular value
decomposition, the eigenvalues) is an argument; the theorems assume of it what its documentation says.
-/
noncomputable section

namespace HF.Networks

open Matrix

/-- `make_reciprocal(S)`: the common value of the elements 12 and 21.  `S12 / s12` is `nan` for
`s12 = 0`, and a comparison with `nan` is false.  Elements are complex (for real ones the root of a negative product is
`nan`).  The argument is changed in place and returned.
repo: hftools/networks/spar_functions.py:149-156 -/
def recipElem (s12 s21 : ℂ) : ℂ :=
  let S12 := csqrt (s12 * s21)
  if s12 ≠ 0 ∧ Complex.arg (S12 / s12) < 1 then S12 else -S12

def makeReciprocal (S : M2 ℂ) : M2 ℂ :=
  !![S 0 0, recipElem (S 0 1) (S 1 0); recipElem (S 0 1) (S 1 0), S 1 1]

/-- `make_passive_svd(S)` where `svd(ss)` is `u, s, v`.  repo: hftools/networks/spar_functions.py:119-128 -/
def makePassiveSvd {n : Nat} (ss u v : Matrix (Fin n) (Fin n) ℂ) (s : Fin n → ℝ) :
    Matrix (Fin n) (Fin n) ℂ :=
  ss - u * Matrix.diagonal (fun k => (((if |s k| - 1 < 0 then 0 else |s k| - 1) : ℝ) : ℂ)) * v

/-- `make_passive_eig(S, delta)` where `lam` is the largest modulus of an eigenvalue.
repo: hftools/networks/spar_functions.py:138-146 -/
def makePassiveEig {n : Nat} (lam delta : ℝ) (s : Matrix (Fin n) (Fin n) ℂ) : Matrix (Fin n) (Fin n) ℂ :=
  if lam > 1 then ((1 / lam * (1 - delta) : ℝ) : ℂ) • s else s

end HF.Networks
