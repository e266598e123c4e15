import Verif.Sp.Lemmas
/-
SP data files: specification of what a table of a file says.
-/
namespace HF.Sp

open HF.DataDict.Spec HF.DataBlock
open HF.DataDict hiding rename delitem

variable {β α : Type}

/-- The names of the columns. -/
def Table.cols (b : Table) : List String := b.names.map fun p => String.ofList p.1

/-- The values in the table. -/
def Table.values (conv : List Char → α) (b : Table) : List (List α) := b.rows.map fun r => r.map conv

/-- The positions of a name among the first `m` columns. -/
def Table.positions (b : Table) (m : Nat) (n : String) : List Nat :=
  (List.range m).filter fun j => b.cols[j]? = some n

/-- The first column as a sweep. -/
def Table.sweep (env : Env β α) (conv : List Char → α) (b : Table) (first : String) : Dim β :=
  ⟨.dimSweep, first, (b.values conv).map fun r => env.toCoord (r.headD env.junk), none, none⟩

/-- The columns at the positions `js` make up the variable `a`: one column a function of the sweep,
several columns one of the sweep and of a repetition. -/
structure Columns (num : Nat → β) (freq : Dim β) (rows : List (List α)) (js : List Nat) (a : Arr β α) :
    Prop where
  one : ∀ j, js = [j] → a.dims = [freq] ∧ a.nd.shape = [rows.length] ∧
    ∀ (i : Nat) r x, rows[i]? = some r → r[j]? = some x → a.nd.get [i] = x
  many : 2 ≤ js.length → a.dims = [freq, repDim num js.length] ∧ a.nd.shape = [rows.length, js.length] ∧
    ∀ (i k : Nat) r x j, rows[i]? = some r → js[k]? = some j → r[j]? = some x → a.nd.get [i, k] = x

/-- The properties in the comments of the table. -/
def Table.props (b : Table) : OMap String Comments.PVal := Comments.properties b.comments

/-- Names of the columns do not interfere. -/
structure Plain (b : Table) : Prop where
  first : ∀ n ∈ b.cols.head?, n ∉ b.cols.tail
  elem : ∀ n ∈ b.cols.tail, ∀ m i j, isMatrixName n = some (m, i, j) → m ∉ b.cols.tail
  rep : "rep" ∉ b.cols

/-- The block read from the first `m` columns of the table. -/
structure IsBlock (env : Env β α) (num : Nat → β) (ofRat : ℚ → β) (conv : List Char → α) (b : Table) (m : Nat)
    (p : Parsed β α) : Prop where
  /-- the variables, in the order of the columns -/
  vars : keys p.block.vars = (b.cols.take m).tail.eraseDups
  /-- their values -/
  var : ∀ first n, b.cols.head? = some first → n ∈ (b.cols.take m).tail →
    (b.rows.length = 1 → (b.positions m n).length = 1) →
    ∃ a, lookup p.block.vars n = some a ∧
      Columns num (b.sweep env conv first) (b.values conv) (b.positions m n) a
  /-- the sweep -/
  sweep : ∀ first, b.cols.head? = some first → lookup b.props (String.ofList ('@' :: first.toList)) = none →
    lookup p.block.ivars first = some (b.sweep env conv first)
  /-- properties with names beginning with `@` are partial sweeps -/
  partials : ∀ n x u, lookup b.props (String.ofList ('@' :: n.toList)) = some (.arr x u) →
    lookup p.block.ivars n = some ⟨.dimPartial, n, [ofRat x], u.map String.ofList, none⟩
  /-- nothing else -/
  dims : ∀ n ∈ keys p.block.ivars, b.cols.head? = some n ∨
    (n = "rep" ∧ ∃ v ∈ (b.cols.take m).tail, 2 ≤ (b.positions m v).length) ∨
    (lookup b.props (String.ofList ('@' :: n.toList))).isSome
  comments : p.comments = b.comments.filter fun c => c.head? ≠ some '@'
  nodup : (keys p.block.ivars).Nodup
  property : ∀ n, lookup p.property n = if n.toList.head? = some '@' then none else lookup b.props n
  properties : (keys p.property).Nodup

end HF.Sp
