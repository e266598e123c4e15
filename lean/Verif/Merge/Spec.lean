import Verif.DataBlock.Model
import Verif.HFArray.Spec
/-
Specification of merging.
-/
namespace HF.Merge

open HF.DataDict.Spec
open HF.DataBlock

variable {β α : Type}

/-- The sweep over the merged blocks. -/
def blockIndex (ofIdx : Nat → β) (n : Nat) : Dim β :=
  ⟨.dimSweep, "INDEX1", (List.range n).map ofIdx, none, none⟩

/-- Blocks which fit together: they all have the partial sweeps `ks` and the variables `vs`,
every variable has the same shape in all blocks, and no names get into conflict. -/
structure Uniform (ks vs : List String) (blocks : List (Block β α)) : Prop where
  parts : ∀ b ∈ blocks, (b.ivars.filter fun p => p.2.isa .dimPartial).map Prod.fst = ks
  vals : ∀ b ∈ blocks, ∀ p ∈ b.ivars, p.2.isa .dimPartial = true → p.2.data ≠ []
  vars : ∀ b ∈ blocks, ∀ n, n ∈ b.vars.map Prod.fst ↔ n ∈ vs
  apart : ∀ b ∈ blocks, ∀ n ∈ vs, n ∉ b.ivars.map Prod.fst
  wf : ∀ b ∈ blocks, ∀ p ∈ b.vars, p.2.WF ∧ (p.2.dims.map Dim.name).Nodup
  shape : ∀ b ∈ blocks, ∀ b' ∈ blocks, ∀ n x x', lookup b.vars n = some x → lookup b'.vars n = some x' →
    x.nd.shape = x'.nd.shape
  nodup : (ks ++ vs).Nodup
  dims : ∀ b ∈ blocks, ∀ p ∈ b.vars, ∀ d ∈ p.2.dims, d.name ∉ ks ++ vs ∧ d.name ≠ "INDEX1"
  index : "INDEX1" ∉ ks ++ vs
  elems : ∀ n ∈ ks ++ vs, ∀ m i j, isMatrixName n = some (m, i, j) → m ∉ ks ++ vs

/-- Where the new sweep goes: first, but behind a leading sweep. -/
def withIndex (idx : Dim β) : List (Dim β) → List (Dim β)
  | [] => [idx]
  | d :: t => if d.isa .dimSweep then d :: idx :: t else idx :: d :: t

/-- The same for axes, dims with their lengths. -/
def placed (idx : Dim β × Nat) : List (Dim β × Nat) → List (Dim β × Nat)
  | [] => [idx]
  | p :: t => if p.1.isa .dimSweep then p :: idx :: t else idx :: p :: t

end HF.Merge
