import Verif.DataBlock.Model
import Verif.Utils.Sort
import Mathlib.Data.List.Dedup
/-
Assembling matrices from columns: hftools/file_formats/readbase.py 211-242, 371-391, 424-426.
-/
namespace HF.Readers.Assemble

open HF.DataDict.Spec HF.DataBlock

/-- The ways to write the name of an element: `S21`, or `S[2,1]` in CITI files. -/
inductive Form where
  | digits
  | brackets
  deriving DecidableEq

/-- `([A-Za-z_]+)([0-9])([0-9])$` or `([A-Za-z_]+)[[]([0-9]),([0-9])[]]$` matched at the beginning: base name
and the two digits.  Simplification: python's `$` also accepts a final newline, which is left out.
repo: file_formats/readbase.py 424, file_formats/citi.py 44-47 -/
def parseElem (f : Form) (s : List Char) : Option (List Char × Nat × Nat) :=
  match f, s.takeWhile isLetter, s.dropWhile isLetter with
  | .digits, c :: v, [a, b] => if isDig a && isDig b then some (c :: v, digVal a, digVal b) else none
  | .brackets, c :: v, ['[', a, ',', b, ']'] =>
    if isDig a && isDig b then some (c :: v, digVal a, digVal b) else none
  | _, _, _ => none

abbrev Tup := Nat × Nat × String

/-- The element name parsed, as string. -/
def parseName (f : Form) (s : String) : Option (String × Tup) :=
  match parseElem f s.toList with
  | some (v, i, j) => some (String.ofList v, i, j, s)
  | none => none

/-- `possibles.setdefault(vname, []).append(t)` -/
def addPossible (m : OMap String (List Tup)) (v : String) (t : Tup) : OMap String (List Tup) :=
  match lookup m v with
  | none => m ++ [(v, [t])]
  | some l => modify m v (l ++ [t])

/-- repo: file_formats/readbase.py 214-221 -/
def possibles (f : Form) : List String → OMap String (List Tup) → OMap String (List Tup)
  | [], m => m
  | s :: t, m =>
    match parseName f s with
    | some (v, x) => possibles f t (addPossible m v x)
    | none => possibles f t m

/-- python's comparison of the tuples `(i, j, name)` -/
def tupLt (a b : Tup) : Bool :=
  if a.1 ≠ b.1 then decide (a.1 < b.1)
  else if a.2.1 ≠ b.2.1 then decide (a.2.1 < b.2.1)
  else decide (a.2.2 < b.2.2)

/-- `sorted(set(l))` for numbers -/
def sortedSet (l : List Nat) : List Nat := Py.sortBy (fun a b => decide (a < b)) l.dedup

/-- A matrix to be built: name, elements, row and column numbers, and the form of the names of the elements. -/
structure Group where
  name : String
  elems : List String
  rows : List Nat
  cols : List Nat
  form : Form

/-- repo: file_formats/readbase.py 230-242 -/
def matrixElements (ts : List Tup) : Option (List String × List Nat × List Nat) :=
  let s := Py.sortBy tupLt ts
  let i := sortedSet (s.map fun t => t.1)
  let j := sortedSet (s.map fun t => t.2.1)
  let elems := s.map fun t => t.2.2
  if i.length * j.length ≠ elems.length then none else some (elems, i, j)

def toGroup (f : Form) (p : String × List Tup) : Option Group :=
  match matrixElements p.2 with
  | some (e, i, j) => if e.length > 1 then some ⟨p.1, e, i, j, f⟩ else none
  | none => none

/-- repo: file_formats/readbase.py 213-227 -/
def matchElements (f : Form) (names : List String) : List Group :=
  (possibles f names []).filterMap (toGroup f)

/-- For all formats but CITI. -/
abbrev matchMatrixElements (names : List String) : List Group := matchElements .digits names

/-- `matrices[name] = ...`: an entry of the same name is replaced. -/
def putGroup (gs : List Group) (g : Group) : List Group :=
  if g.name ∈ gs.map Group.name then gs.map fun x => if x.name = g.name then g else x else gs ++ [g]

/-- The matrices to be built, with one matcher after the other: what a later one finds replaces what an
earlier one has found under the same name.  repo: file_formats/readbase.py 379-382 -/
def matrices (names : List String) : List Form → List Group → List Group
  | [], gs => gs
  | f :: fs, gs => matrices names fs ((matchElements f names).foldl putGroup gs)

variable {β α : Type}

/-- repo: file_formats/readbase.py 383-388: fetch the columns one by one, removing them from the
block; each must fit into an array of shape `sh`. -/
def takeCols (env : Env β α) (sh : List Nat) :
    Block β α → List String → Except DataBlock.Err (Block β α × List (Arr β α))
  | b, [] => .ok (b, [])
  | b, e :: es =>
    match getitem env b e with
    | .error x => .error x
    | .ok v =>
      if bcastOk v.nd.shape.reverse sh.reverse then
        match takeCols env sh (delitem b e) es with
        | .error x => .error x
        | .ok (b', vs) => .ok (b', v :: vs)
      else .error .valueError

/-- The array `x`: the columns along the last axis. `cast` is the conversion to the element type of
the first column (`dtype=ex.dtype`). -/
def stack (env : Env β α) (cast : α → α) (sh : List Nat) (n : Nat) (vs : List (Arr β α)) : Nd α :=
  ⟨sh ++ [n], fun idx =>
    match vs[idx.getLastD 0]? with
    | some v => cast (v.nd.get (bcastIdx v.nd.shape.reverse idx.dropLast.reverse).reverse)
    | none => env.junk⟩

/-- repo: dataset/arrayobj.py 1014-1017; `num` is the coordinate value of a number -/
def matDims (num : Nat → β) (p q : Nat) : List (Dim β) :=
  [⟨.matI, "i", (List.range p).map num, none, none⟩, ⟨.matJ, "j", (List.range q).map num, none, none⟩]

/-- repo: file_formats/readbase.py 379-391 -/
def assemble (env : Env β α) (num : Nat → β) (cast : Arr β α → α → α) (b : Block β α) (g : Group) :
    Except DataBlock.Err (Block β α) :=
  match g.elems with
  | [] => .error .indexError
  | e :: _ =>
    match getitem env b e with
    | .error x => .error x
    | .ok ex =>
      let p := g.rows.length
      let q := g.cols.length
      match takeCols env ex.nd.shape b g.elems with
      | .error x => .error x
      | .ok (b', vs) =>
        match (stack env (cast ex) ex.nd.shape (p * q) vs).reshape (ex.nd.shape ++ [p, q]) with
        | .error _ => .error .valueError
        | .ok nd =>
          match Arr.mk? nd (ex.dims ++ matDims num p q) with
          | .error _ => .error .valueError
          | .ok m =>
            match setArr env b' g.name m with
            | (b'', .ok _) => .ok b''
            | (_, .error x) => .error x

def assembleAll (env : Env β α) (num : Nat → β) (cast : Arr β α → α → α) :
    Block β α → List Group → Except DataBlock.Err (Block β α)
  | b, [] => .ok b
  | b, g :: gs =>
    match assemble env num cast b g with
    | .error x => .error x
    | .ok b' => assembleAll env num cast b' gs

/-- The matrices of a block, with given matchers.  repo: file_formats/readbase.py 378-391 -/
def makeMatricesBy (forms : List Form) (env : Env β α) (num : Nat → β) (cast : Arr β α → α → α) (b : Block β α) :
    Except DataBlock.Err (Block β α) :=
  assembleAll env num cast b (matrices (b.vars.map Prod.fst) forms [])

/-- For all formats but CITI there is one matcher.  repo: file_formats/readbase.py 378-391, 425 -/
def makeMatrices (env : Env β α) (num : Nat → β) (cast : Arr β α → α → α) (b : Block β α) :
    Except DataBlock.Err (Block β α) :=
  makeMatricesBy [.digits] env num cast b

end HF.Readers.Assemble
