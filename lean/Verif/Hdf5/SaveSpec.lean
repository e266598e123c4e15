import Verif.Hdf5.Save
import Verif.DataBlock.SqueezeProps
/-
Which blocks can be saved to HDF5 files and read again, and what is kept.
-/
namespace HF.H5

open HF.DataDict.Spec HF.DataBlock

variable {β α : Type}

/-- What both versions need: dims are known to the block, under their own name. -/
structure Known (b : Block β α) : Prop where
  orderly : Orderly b
  named : ∀ p ∈ b.ivars, p.2.name = p.1
  known : ∀ p ∈ b.vars, ∀ d ∈ p.2.dims, lookup b.ivars d.name = some d

/-- Blocks for version 0.2. -/
structure Storable2 (b : Block β α) : Prop extends Known b where
  plain : ∀ n ∈ b.ivars.map Prod.fst ++ b.vars.map Prod.fst, '/' ∉ n.toList ∧ '\\' ∉ n.toList
  classes : ∀ p ∈ b.vars, ∀ d ∈ p.2.dims, d.cls ∈ [.dimRep, .dimSweep, .matI, .matJ, .dimPartial]

/-- A unit or an output format; the empty one is not kept. -/
def nonempty (s : Option String) : Option String :=
  match s with
  | some u => if u = "" then none else some u
  | none => none

/-- A dim without its output format. -/
def bare (d : Dim β) : Dim β := ⟨d.cls, d.name, d.data, nonempty d.unit, none⟩

/-- `r` is what is read if `b` was saved with version 0.2. -/
structure Same2 (b r : Full β α) : Prop where
  orderly : Orderly r.block
  names : (r.block.vars.map Prod.fst).Perm (b.block.vars.map Prod.fst)
  vars : ∀ k v, lookup b.block.vars k = some v → ∃ a, lookup r.block.vars k = some a ∧ a.dims = v.dims.map bare ∧ a.nd = v.nd
  used : ∀ p ∈ b.block.vars, ∀ d ∈ p.2.dims, lookup r.block.ivars d.name = some (bare d)
  unused : ∀ n, (∀ p ∈ b.block.vars, ∀ d ∈ p.2.dims, d.name ≠ n) → lookup r.block.ivars n = none
  info : ∀ k v, lookup b.block.vars k = some v → ∀ m, lookup b.info k = some m →
    lookup r.info k = some ⟨nonempty m.unit, nonempty m.fmt⟩

/-- Blocks for version 0.1. -/
structure Storable1 (b : Full β α) : Prop extends Known b.block where
  plain : ∀ n ∈ b.block.ivars.map Prod.fst ++ b.block.vars.map Prod.fst, '/' ∉ n.toList
  classes : ∀ p ∈ b.block.ivars, p.2.cls ∈ [.dimSweep, .dimRep, .matI, .matJ, .dimMatrix_, .derivAxis, .indepAxis, .diagAxis,
    .complexDeriv, .complexIndep, .complexDiag, .dimPartial, .dimBase]
  units : (∀ p ∈ b.block.ivars, ∀ u, p.2.unit = some u → u.toLower ≠ "none") ∧
    ∀ p ∈ b.info, ∀ u, p.2.unit = some u → u.toLower ≠ "none"

/-- A dim without its output format. -/
def bare1 (d : Dim β) : Dim β := ⟨d.cls, d.name, d.data, d.unit, none⟩

/-- `r` is what is read if `b` was saved with version 0.1. -/
structure Same1 (b r : Full β α) : Prop where
  orderly : Orderly r.block
  names : (r.block.vars.map Prod.fst).Perm (b.block.vars.map Prod.fst)
  vars : ∀ k v, lookup b.block.vars k = some v → ∃ a, lookup r.block.vars k = some a ∧ a.dims = v.dims.map bare1 ∧ a.nd = v.nd
  ivars : ∀ n, lookup r.block.ivars n = (lookup b.block.ivars n).map bare1
  info : ∀ k v, lookup b.block.vars k = some v → ∀ m, lookup b.info k = some m → lookup r.info k = some ⟨m.unit, none⟩

end HF.H5
