import Verif.Networks.Ports
/-
The unit matrices.
-/
noncomputable section

namespace HF.Networks

open HF.Arr

variable {β K : Type} [Field K] [DecidableEq K]

/-- The axes of a matrix of a size. -/
def unitDims (ofIdx : Nat → β) (n : Nat) : List (Dim β) :=
  [⟨.matI, "i", (List.range n).map ofIdx, none, none⟩, ⟨.matJ, "j", (List.range n).map ofIdx, none, none⟩]

/-- `unit_matrix(size, cls)`: the argument `cls` is not looked at, the result is always an `SArray`, with
the default impedance.  repo: hftools/networks/multiports.py:533-537 -/
def unitMatrix (ofIdx : Nat → β) (dflt : Imp K) (n : Nat) (_cls : Rep) : PortArr β K :=
  ⟨.S, dflt, ⟨unitDims ofIdx n, ⟨[n, n], fun idx => if idx.getD 0 0 = idx.getD 1 0 then 1 else 0⟩⟩⟩

/-- `m[p, q] = 1`.  `IndexError` outside of the matrix. -/
def setOne (n : Nat) (g : List Nat → K) (p q : Nat) : Option (List Nat → K) :=
  if p < n ∧ q < n then some fun idx => if idx = [p, q] then 1 else g idx else none

/-- `unit_smatrix(size, cls)`; `none` is an `IndexError`.  repo: hftools/networks/multiports.py:540-545 -/
def unitSmatrix (ofIdx : Nat → β) (dflt : Imp K) (n : Nat) (_cls : Rep) : Option (PortArr β K) := do
  let g ← setOne n (fun _ => (0 : K)) 0 1
  let g ← setOne n g 1 0
  pure ⟨.S, dflt, ⟨unitDims ofIdx n, ⟨[n, n], g⟩⟩⟩

end HF.Networks
