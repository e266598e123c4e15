import Verif.Merge.Spec
/-
Specification of merging blocks which do not all have the same partial sweeps.
-/
namespace HF.Merge

open HF.DataDict.Spec
open HF.DataBlock

variable {β α : Type}

/-- The names of the partial sweeps of a block. -/
def partNames (b : Block β α) : List String :=
  (b.ivars.filter fun p => p.2.isa .dimPartial).map Prod.fst

/-- The blocks with the partial sweeps `ks`. -/
def family (ks : List String) (blocks : List (Block β α)) : List (Block β α) :=
  blocks.filter fun b => partNames b = ks

/-- The name of the sweep over family number `i`, counted from zero. -/
def familyName (i : Nat) : String := "INDEX" ++ toString (i + 1)

/-- The sweep over family number `i`. -/
def familyIndex (ofIdx : Nat → β) (i n : Nat) : Dim β :=
  ⟨.dimSweep, familyName i, (List.range n).map ofIdx, none, none⟩

/-- Blocks in families, each of which is given by the names of its partial sweeps and of its
variables, in the order in which they appear.  No two families share a name, every variable has the
same shape in all blocks of its family, and no names get into conflict. -/
structure Families (gs : List (List String × List String)) (blocks : List (Block β α)) : Prop where
  order : gs.map Prod.fst = (blocks.map partNames).eraseDups
  nonempty : ∀ g ∈ gs, g.1 ≠ []
  vals : ∀ b ∈ blocks, ∀ p ∈ b.ivars, p.2.isa .dimPartial = true → p.2.data ≠ []
  vars : ∀ g ∈ gs, ∀ b ∈ blocks, partNames b = g.1 → ∀ n, n ∈ b.vars.map Prod.fst ↔ n ∈ g.2
  apart : ∀ b ∈ blocks, ∀ n ∈ gs.flatMap Prod.snd, n ∉ b.ivars.map Prod.fst
  wf : ∀ b ∈ blocks, ∀ p ∈ b.vars, p.2.WF ∧ (p.2.dims.map Dim.name).Nodup
  shape : ∀ b ∈ blocks, ∀ b' ∈ blocks, ∀ n x x', lookup b.vars n = some x → lookup b'.vars n = some x' →
    x.nd.shape = x'.nd.shape
  nodup : (gs.flatMap Prod.fst ++ gs.flatMap Prod.snd).Nodup
  dims : ∀ b ∈ blocks, ∀ p ∈ b.vars, ∀ d ∈ p.2.dims,
    d.name ∉ gs.flatMap Prod.fst ++ gs.flatMap Prod.snd ∧ ∀ i < gs.length, d.name ≠ familyName i
  index : ∀ i < gs.length, familyName i ∉ gs.flatMap Prod.fst ++ gs.flatMap Prod.snd
  elems : ∀ n ∈ gs.flatMap Prod.fst ++ gs.flatMap Prod.snd, ∀ m i j, isMatrixName n = some (m, i, j) →
    m ∉ gs.flatMap Prod.fst ++ gs.flatMap Prod.snd

end HF.Merge
