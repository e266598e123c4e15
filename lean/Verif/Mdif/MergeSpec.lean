import Verif.Mdif.Merge
import Verif.HFArray.Spec
/-
MDIF files: which blocks can be put together.
-/
namespace HF.Mdif

open HF.DataDict.Spec HF.DataBlock

variable {β α : Type}

/-- The names of the settings (`VAR`) of a block. -/
def settingNames (b : Block β α) : List String := (b.ivars.filter fun p => p.2.isa .dimPartial).map Prod.fst

/-- All variables and settings of the first block are in the other ones, with the same shape, and no names get into
conflict.  The coordinates may differ, and the other blocks may have more. -/
structure Stackable (b0 : Block β α) (bs : List (Block β α)) : Prop where
  vars : ∀ b ∈ bs, ∀ n x0, lookup b0.vars n = some x0 → ∃ x, lookup b.vars n = some x ∧ x.nd.shape = x0.nd.shape
  apart : ∀ b ∈ b0 :: bs, ∀ n ∈ b0.vars.map Prod.fst, n ∉ b.ivars.map Prod.fst
  parts : ∀ b ∈ b0 :: bs, ∀ k ∈ settingNames b0, ∃ d, lookup b.ivars k = some d ∧ d.data ≠ []
  wf : ∀ p ∈ b0.vars, p.2.WF ∧ (p.2.dims.map Dim.name).Nodup
  nodup : (b0.vars.map Prod.fst ++ settingNames b0).Nodup
  dims : ∀ p ∈ b0.vars, ∀ d ∈ p.2.dims, d.name ∉ b0.vars.map Prod.fst ++ settingNames b0 ∧ d.name ≠ "INDEX"
  index : "INDEX" ∉ b0.vars.map Prod.fst ++ settingNames b0
  elems : ∀ n ∈ b0.vars.map Prod.fst ++ settingNames b0, ∀ m i j, isMatrixName n = some (m, i, j) →
    m ∉ b0.vars.map Prod.fst ++ settingNames b0

/-- The number of the block. -/
def blockNumber (ofIdx : Nat → β) (n : Nat) : Dim β := ⟨.dimRep, "INDEX", (List.range n).map ofIdx, none, none⟩

/-- The blocks put together: variables are those of the first block and the settings, in this order; the number of the
block becomes the second index, or the only one for numbers. -/
structure Stacked (env : Env β α) (ofIdx : Nat → β) (b0 : Block β α) (bs : List (Block β α)) (r : Block β α) : Prop where
  names : r.vars.map Prod.fst = b0.vars.map Prod.fst ++ settingNames b0
  numbers : ∀ n x0, lookup b0.vars n = some x0 → x0.dims = [] → ∃ a, lookup r.vars n = some a ∧
    a.dims = [blockNumber ofIdx (bs.length + 1)] ∧ a.nd.shape = [bs.length + 1] ∧
    ∀ (m : Nat) b x, (b0 :: bs)[m]? = some b → lookup b.vars n = some x → a.nd.get [m] = x.nd.get []
  columns : ∀ n x0 d ds, lookup b0.vars n = some x0 → x0.dims = d :: ds → ∃ a, lookup r.vars n = some a ∧
    a.dims = d :: blockNumber ofIdx (bs.length + 1) :: ds ∧
    (∀ l ls, x0.nd.shape = l :: ls → a.nd.shape = l :: (bs.length + 1) :: ls) ∧
    ∀ (m : Nat) b x, (b0 :: bs)[m]? = some b → lookup b.vars n = some x →
      ∀ i idx, idx.length = ds.length → a.nd.get (i :: m :: idx) = x.nd.get (i :: idx)
  settings : ∀ k ∈ settingNames b0, ∃ a, lookup r.vars k = some a ∧
    a.dims = [blockNumber ofIdx (bs.length + 1)] ∧ a.nd.shape = [bs.length + 1] ∧
    ∀ (m : Nat) b d x, (b0 :: bs)[m]? = some b → lookup b.ivars k = some d → d.data.head? = some x →
      a.nd.get [m] = env.toVal x
  index : r.vars ≠ [] → lookup r.ivars "INDEX" = some (blockNumber ofIdx (bs.length + 1))
  ivars : ∀ n, n ≠ "INDEX" → lookup r.ivars n = (b0.vars.flatMap fun p => p.2.dims).find? fun d => d.name == n

end HF.Mdif
