import Verif.Sp.Write
import Verif.Sp.Props
/-
SP data files: specification of what a saved block is read as.
-/
namespace HF.Sp

open HF.DataDict.Spec HF.DataBlock
open HF.DataDict hiding rename delitem
open Units (isWs)

variable {β α : Type}

/-- The axes of an array, without those of a matrix. -/
def axesOf (a : Arr β α) : List (Dim β) := if ismatrix a then a.dims.dropLast.dropLast else a.dims

/-- `name [unit]`, or just the name. -/
def titled (n : List Char) (u : Option (List Char)) : List Char :=
  if u.getD [] = [] then n else n ++ " [".toList ++ u.getD [] ++ "]".toList

/-- The name of the sweep in the file. -/
def sweepTitle (d : Dim β) : List Char := titled d.name.toList (d.unit.map String.toList)

/-- The elements of a matrix with their names, in the order of rows, or the variable itself. -/
def elements (w : String × Arr β α) : List (List Char × (List Nat → α)) :=
  if ismatrix w.2 then
    let ports := w.2.dims.reverse.map fun d => d.data.length
    (List.range (ports.getD 1 0)).flatMap fun i => (List.range (ports.getD 0 0)).map fun j =>
      (w.1.toList ++ Nat.toDigits 10 (i + 1) ++ Nat.toDigits 10 (j + 1), fun p => w.2.nd.get (p ++ [i, j]))
  else [(w.1.toList, w.2.nd.get)]

/-- The columns of a variable: titles and values as a function of the position; complex values are
in two columns.  `re` and `im` are the parts of a complex number. -/
def entries (st : Style β α) (re im : α → α) (w : String × Arr β α) : List (List Char × (List Nat → α)) :=
  (elements w).flatMap fun e =>
    if st.cplx w.1 then
      [(titled ("Re(".toList ++ e.1 ++ ")".toList) (st.unit w.1), fun p => re (e.2 p)),
        (titled ("Im(".toList ++ e.1 ++ ")".toList) (st.unit w.1), fun p => im (e.2 p))]
    else [(titled e.1 (st.unit w.1), e.2)]

/-- The variables with given axes. -/
def varsOver (b : Block β α) (D : List (Dim β)) : List (String × Arr β α) :=
  b.vars.filter fun w => (axesOf w.2).map Dim.name = D.map Dim.name

/-- Their titles. -/
def titles (st : Style β α) (re im : α → α) (b : Block β α) (D : List (Dim β)) : List String :=
  (varsOver b D).flatMap fun w => (entries st re im w).map fun e => String.ofList e.1

/-- The block read from one part of the file: the variables with the axes `D` at the position `idx` of
all axes but the first. -/
structure Restored (st : Style β α) (re im : α → α) (b : Block β α) (D : List (Dim β)) (idx : List Nat)
    (p : Parsed β α) : Prop where
  /-- the names, in order -/
  vars : keys p.block.vars = titles st re im b D
  /-- the values of the first axis -/
  sweep : ∀ d outer, D = d :: outer → lookup p.block.ivars (String.ofList (sweepTitle d)) =
    some ⟨.dimSweep, String.ofList (sweepTitle d), d.data, none, none⟩
  /-- the values of the variables -/
  var : ∀ d outer, D = d :: outer → ∀ w ∈ varsOver b D, ∀ e ∈ entries st re im w,
    ∃ a, lookup p.block.vars (String.ofList e.1) = some a ∧
      a.dims = [⟨.dimSweep, String.ofList (sweepTitle d), d.data, none, none⟩] ∧ a.nd.shape = [d.data.length] ∧
      ∀ k < d.data.length, a.nd.get [k] = e.2 (k :: idx)
  /-- the position in the other axes -/
  outer : ∀ (k : Nat) (e : Dim β) i x, D.tail[k]? = some e → idx[k]? = some i → e.data[i]? = some x →
    lookup p.block.ivars e.name = some ⟨.dimPartial, e.name, [x], none, none⟩
  /-- nothing else -/
  nodup : (keys p.block.ivars).Nodup
  dims : ∀ n ∈ keys p.block.ivars, (∃ d ∈ D.head?, n = String.ofList (sweepTitle d)) ∨ ∃ e ∈ D.tail, n = e.name

/-- A block that can be written and read again. -/
structure Writable (env : Env β α) (ofRat : ℚ → β) (conv : List Char → α) (st : Style β α) (re im : α → α)
    (comments : List (List Char)) (b : Block β α) : Prop where
  /-- no name is that of an axis or of an element of another variable -/
  quiet : Quiet b.vars
  ne : b.vars ≠ []
  /-- arrays and the block agree about the axes, and those have points -/
  sized : ∀ w ∈ b.vars, w.2.nd.shape = w.2.dims.map fun d => d.data.length
  known : ∀ w ∈ b.vars, ∀ d ∈ w.2.dims, lookup b.ivars d.name = some d
  used : ∀ p ∈ b.ivars, ∃ w ∈ b.vars, ∃ d ∈ w.2.dims, d.name = p.1
  axes : ∀ w ∈ b.vars, axesOf w.2 ≠ []
  distinct : ∀ w ∈ b.vars, (w.2.dims.map Dim.name).Nodup
  points : ∀ w ∈ b.vars, ∀ d ∈ w.2.dims, d.data ≠ []
  /-- titles of columns are different from each other, and the reader does not take one for an
  element of another one -/
  titled : ∀ w ∈ b.vars, ∀ d ∈ (axesOf w.2).head?, Field (sweepTitle d) ∧
    (∀ c ∈ (sweepTitle d).head?, isLetter c = true) ∧ String.ofList (sweepTitle d) ≠ "rep" ∧
    String.ofList (sweepTitle d) ∉ titles st re im b (axesOf w.2) ∧
    ∀ e ∈ (axesOf w.2).tail, String.ofList (sweepTitle d) ≠ e.name
  title : ∀ w ∈ b.vars, ∀ e ∈ entries st re im w, Field e.1
  differ : ∀ w ∈ b.vars, (titles st re im b (axesOf w.2)).Nodup
  elem : ∀ w ∈ b.vars, ∀ t ∈ titles st re im b (axesOf w.2), t ≠ "rep" ∧
    ∀ m i j, isMatrixName t = some (m, i, j) → m ∉ titles st re im b (axesOf w.2)
  /-- numbers are read as they were -/
  cell : ∀ w ∈ b.vars, ∀ v, (∀ i, Field (st.text w.1 i v)) ∧
    if st.cplx w.1 then conv (st.text w.1 false v) = re v ∧ conv (st.text w.1 true v) = im v
    else conv (st.text w.1 false v) = v
  coord : ∀ w ∈ b.vars, ∀ d ∈ (axesOf w.2).head?, ∀ x ∈ d.data, Field (st.coordText d x) ∧
    (∀ c ∈ (st.coordText d x).head?, isLetter c = false ∧ c ≠ '!') ∧ env.toCoord (conv (st.coordText d x)) = x
  outerName : ∀ w ∈ b.vars, ∀ e ∈ (axesOf w.2).tail, Comments.Name e.name.toList ∧ '[' ∉ e.name.toList
  outer : ∀ w ∈ b.vars, ∀ e ∈ (axesOf w.2).tail, ∀ x ∈ e.data, st.coordText e x ≠ [] ∧
    Comments.Trim (st.coordText e x) ∧ ∃ r, Comments.value none (st.coordText e x) = .arr r none ∧ ofRat r = x
  /-- comments are no properties of the file format -/
  comment : ∀ c ∈ comments, (∀ x ∈ c.getLast?, isWs x = false) ∧ ¬ marker <+: c ∧ c.head? ≠ some '@' ∧
    c.head? ≠ some '!'
  property : ∀ n ∈ keys (Comments.properties comments), n.toList.head? ≠ some '@'

end HF.Sp
