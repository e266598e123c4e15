import Verif.Mdif.MergeSpec
/-
MDIF files: what is read from several files.
-/
namespace HF.Mdif

open HF.DataDict.Spec HF.DataBlock

variable {β α : Type}

/-- A block, the file where it is found, and the number of this file. -/
structure Located (β α : Type) where
  number : Nat
  file : String
  name : List Char
  block : Block β α
  comments : List (List Char)

/-- All blocks of all files. -/
def located : Nat → List (String × List (Parsed β α)) → List (Located β α)
  | _, [] => []
  | k, (f, ps) :: t => (ps.map fun p => ⟨k, f, p.name, p.block, p.comments⟩) ++ located (k + 1) t

/-- The block does not use the names of the variables that tell where it is found. -/
structure Fresh (b : Block β α) : Prop where
  vars : "FILENAME" ∉ b.vars.map Prod.fst ∧ "FILEINDEX" ∉ b.vars.map Prod.fst
  ivars : "FILENAME" ∉ b.ivars.map Prod.fst ∧ "FILEINDEX" ∉ b.ivars.map Prod.fst
  dims : ∀ p ∈ b.vars, ∀ d ∈ p.2.dims, d.name ≠ "FILENAME" ∧ d.name ≠ "FILEINDEX"
  elems : ∀ n ∈ b.vars.map Prod.fst ++ settingNames b, ∀ m i j, isMatrixName n = some (m, i, j) →
    m ≠ "FILENAME" ∧ m ≠ "FILEINDEX"

/-- A block that is the only one of its name: it is as it was, and tells where it is found. -/
structure Alone (ofIdx : Nat → β) (ofName : String → α) (q : Located β α) (b : Block β α) : Prop where
  vars : ∀ n, n ≠ "FILENAME" → lookup b.vars n = lookup q.block.vars n
  ivars : ∀ n, n ≠ "FILEINDEX" → lookup b.ivars n = lookup q.block.ivars n
  file : ∃ a, lookup b.vars "FILENAME" = some a ∧ a.dims = [] ∧ a.nd.shape = [] ∧ a.nd.get [] = ofName q.file
  number : lookup b.ivars "FILEINDEX" = some ⟨.dimPartial, "FILEINDEX", [ofIdx q.number], none, none⟩

/-- Several blocks of the same name: put together, and there are the files and their numbers for every block. -/
structure Together (env : Env β α) (ofIdx : Nat → β) (ofName : String → α) (q0 : Located β α) (qs : List (Located β α))
    (b : Block β α) : Prop where
  names : ∀ n, n ∈ b.vars.map Prod.fst ↔
    n ∈ q0.block.vars.map Prod.fst ++ settingNames q0.block ∨ n = "FILENAME" ∨ n = "FILEINDEX"
  numbers : ∀ n x0, lookup q0.block.vars n = some x0 → x0.dims = [] → ∃ a, lookup b.vars n = some a ∧
    a.dims = [blockNumber ofIdx (qs.length + 1)] ∧ a.nd.shape = [qs.length + 1] ∧
    ∀ (m : Nat) q x, (q0 :: qs)[m]? = some q → lookup q.block.vars n = some x → a.nd.get [m] = x.nd.get []
  columns : ∀ n x0 d ds, lookup q0.block.vars n = some x0 → x0.dims = d :: ds → ∃ a, lookup b.vars n = some a ∧
    a.dims = d :: blockNumber ofIdx (qs.length + 1) :: ds ∧
    (∀ l ls, x0.nd.shape = l :: ls → a.nd.shape = l :: (qs.length + 1) :: ls) ∧
    ∀ (m : Nat) q x, (q0 :: qs)[m]? = some q → lookup q.block.vars n = some x →
      ∀ i idx, idx.length = ds.length → a.nd.get (i :: m :: idx) = x.nd.get (i :: idx)
  settings : ∀ k ∈ settingNames q0.block, ∃ a, lookup b.vars k = some a ∧
    a.dims = [blockNumber ofIdx (qs.length + 1)] ∧ a.nd.shape = [qs.length + 1] ∧
    ∀ (m : Nat) q d x, (q0 :: qs)[m]? = some q → lookup q.block.ivars k = some d → d.data.head? = some x →
      a.nd.get [m] = env.toVal x
  files : ∃ a, lookup b.vars "FILENAME" = some a ∧ a.dims = [blockNumber ofIdx (qs.length + 1)] ∧
    a.nd.shape = [qs.length + 1] ∧ ∀ (m : Nat) q, (q0 :: qs)[m]? = some q → a.nd.get [m] = ofName q.file
  indices : ∃ a, lookup b.vars "FILEINDEX" = some a ∧ a.dims = [blockNumber ofIdx (qs.length + 1)] ∧
    a.nd.shape = [qs.length + 1] ∧ ∀ (m : Nat) q, (q0 :: qs)[m]? = some q → a.nd.get [m] = env.toVal (ofIdx q.number)

end HF.Mdif
