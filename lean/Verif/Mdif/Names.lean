import Verif.DataDict.Spec
import Verif.DataBlock.Model
import Verif.DataBlock.Convert
import Verif.Utils.Sort
import Mathlib.Data.List.Dedup
/-
Names of columns in MDIF files.

repo: hftools/file_formats/mdif.py:274-309, 376-461
-/

namespace HF.Mdif

open HF.DataDict.Spec
open DataBlock (isDig digVal dec)

/-! ### Recognition -/

/-- The index of a column. -/
inductive Idx where
  | scalar
  | vec (i : Nat)
  | mat (i j : Nat)
  deriving DecidableEq, Repr

def isAlnum (c : Char) : Bool := isDig c || ('a' ≤ c && c ≤ 'z') || ('A' ≤ c && c ≤ 'Z')

/-- `int(digits)` -/
def natOf (w : List Char) : Nat := w.foldl (fun n c => 10 * n + digVal c) 0

/-- The end `\(([a-zA-Z0-9]+)\)$`: what is before it, and the type. -/
def parseType (s : List Char) : Option (List Char × List Char) :=
  match s.reverse with
  | ')' :: r =>
    match r.dropWhile isAlnum with
    | '(' :: b => if r.takeWhile isAlnum = [] then none else some (b.reverse, (r.takeWhile isAlnum).reverse)
    | _ => none
  | _ => none

/-- The beginning `^([^[]+)(\[(\d+)(,(\d+))?\])?`: name and index. -/
def parseIdx (r : List Char) : Option (List Char × Idx) :=
  let n := r.takeWhile (· ≠ '[')
  if n = [] then none
  else
    match r.dropWhile (· ≠ '[') with
    | [] => some (n, .scalar)
    | _ :: b =>
      if b.takeWhile isDig = [] then none
      else
        match b.dropWhile isDig with
        | [']'] => some (n, .vec (natOf (b.takeWhile isDig)))
        | ',' :: c =>
          if c.takeWhile isDig = [] then none
          else if c.dropWhile isDig = [']'] then
            some (n, .mat (natOf (b.takeWhile isDig)) (natOf (c.takeWhile isDig)))
          else none
        | _ => none

/-- `reg_matrix.match(v)`.  Names have no white space (they come from `split()`); only ASCII digits are
considered.  repo: hftools/file_formats/mdif.py:377-378 -/
def parseHead (s : List Char) : Option (List Char × Idx × List Char) :=
  match parseType s with
  | some (r, t) =>
    match parseIdx r with
    | some (n, i) => some (n, i, t)
    | none => none
  | none => none

/-- A column: name, index, offset, type. -/
structure Column where
  name : List Char
  idx : Idx
  offset : Nat
  type : List Char
  deriving DecidableEq, Repr

/-- `dict(complex=2).get(vtype.lower(), 1)` -/
def width (t : List Char) : Nat := if t.map Char.toLower = ['c', 'o', 'm', 'p', 'l', 'e', 'x'] then 2 else 1

/-- The loop over the header.  A name that cannot be parsed is only reported.
repo: hftools/file_formats/mdif.py:382-397 -/
def columnsFrom : Nat → List (List Char) → List Column
  | _, [] => []
  | off, s :: t =>
    match parseHead s with
    | none => columnsFrom off t
    | some (n, i, ty) => ⟨n, i, off, ty⟩ :: columnsFrom (off + width ty) t

variable {K X : Type} [DecidableEq K]

/-- `d.setdefault(k, []).append(x)` -/
def push (m : OMap K (List X)) (k : K) (x : X) : OMap K (List X) :=
  match lookup m k with
  | none => m ++ [(k, [x])]
  | some l => modify m k (l ++ [x])

def collect (l : List (K × X)) : OMap K (List X) := l.foldl (fun m p => push m p.1 p.2) []

abbrev MatEntry := Nat × Nat × Nat × List Char
abbrev VecEntry := Nat × Nat × List Char

def matEntry (c : Column) : Option (List Char × MatEntry) :=
  match c.idx with
  | .mat i j => some (c.name, c.offset, i, j, c.type)
  | _ => none

def vecEntry (c : Column) : Option (List Char × VecEntry) :=
  match c.idx with
  | .vec i => some (c.name, c.offset, i, c.type)
  | _ => none

def scalarEntry (c : Column) : Option (List Char × Nat × List Char) :=
  match c.idx with
  | .scalar => some (c.name, c.offset, c.type)
  | _ => none

/-- `I == set(range(1, n + 1))` -/
def isRange (l : List Nat) (n : Nat) : Bool :=
  l.all (fun i => (List.range' 1 n).contains i) && (List.range' 1 n).all (fun i => l.contains i)

/-- repo: hftools/file_formats/mdif.py:419-429 -/
def isMatrix (l : List MatEntry) : Bool :=
  let I := (l.map fun e => e.2.1).dedup
  let J := (l.map fun e => e.2.2.1).dedup
  I.length * J.length == l.length && isRange I I.length && isRange J J.length

/-- repo: hftools/file_formats/mdif.py:432-436 -/
def isVector (l : List VecEntry) : Bool := isRange (l.map fun e => e.2.1).dedup l.length

structure Found where
  matrix : OMap (List Char) (List MatEntry)
  vector : OMap (List Char) (List VecEntry)
  scalar : List (List Char × Nat × List Char)

/-- `match_matrix_names`.  The columns are sorted out after the loop instead of in it.
repo: hftools/file_formats/mdif.py:376-416 -/
def matchNames (header : List (List Char)) : Found :=
  let cols := columnsFrom 0 header
  let m := collect (cols.filterMap matEntry)
  let v := collect (cols.filterMap vecEntry)
  { matrix := m.filter fun p => isMatrix p.2
    vector := v.filter fun p => isVector p.2
    scalar := cols.filterMap scalarEntry ++
      ((m.filter fun p => !isMatrix p.2).flatMap fun p => p.2.map fun e => (p.1, e.1, e.2.2.2)) ++
      ((v.filter fun p => !isVector p.2).flatMap fun p => p.2.map fun e => (p.1, e.1, e.2.2)) }

/-! ### Building matrices and vectors -/

/-- A variable: a column of the file, an attribute, or columns put together (`X[k, i, j]` is
`cols[i * q + j][k]`). -/
inductive Val (α : Type) where
  | column (l : List α)
  | scalar (x : α)
  | matrix (p q : Nat) (cols : List (List α))
  | vector (cols : List (List α))
  deriving DecidableEq, Repr

inductive Err where
  | key | value
  deriving DecidableEq, Repr

variable {α : Type}

/-- `"%s[%s,%s]" % (name, i, j)` -/
def matName (n : List Char) (i j : Nat) : List Char := n ++ '[' :: dec i ++ ',' :: dec j ++ [']']

/-- `"%s[%s]" % (name, i)` -/
def vecName (n : List Char) (i : Nat) : List Char := n ++ '[' :: dec i ++ [']']

def column? (vars : OMap (List Char) (Val α)) (n : List Char) : Except Err (List α) :=
  match lookup vars n with
  | some (.column l) => .ok l
  | some _ => .error .value
  | none => .error .key

/-- `np.concatenate` along axis 1 wants columns of the same length. -/
def sameLength (cols : List (List α)) : Bool := cols.all fun c => c.length == (cols.headD []).length

/-- `del d[k]` for all `k`. -/
def delAll (vars : OMap K X) : List K → Except Err (OMap K X)
  | [] => .ok vars
  | k :: ks => if member vars k then delAll (remove vars k) ks else .error .key

/-- The new variable takes the place of the first of its elements.
repo: hftools/file_formats/mdif.py:285-291, 302-308 -/
def place (vars : OMap K X) (n : K) (v : X) (elems : List K) : Except Err (OMap K X) :=
  let vars := assign vars n v
  let idx := (elems.map fun e => (vars.map Prod.fst).idxOf e).foldl min (vars.length)
  match delAll vars elems with
  | .error e => .error e
  | .ok vars' => .ok ((remove vars' n).take idx ++ (n, v) :: (remove vars' n).drop idx)

/-- Comparison of pairs. -/
def pairLt (a b : Nat × Nat) : Bool := if a.1 ≠ b.1 then decide (a.1 < b.1) else decide (a.2 < b.2)

/-- repo: hftools/file_formats/mdif.py:276-291 -/
def makeMatrix (vars : OMap (List Char) (Val α)) (n : List Char) (l : List MatEntry) :
    Except Err (OMap (List Char) (Val α)) :=
  let a := Py.sortBy pairLt (l.map fun e => (e.2.1, e.2.2.1))
  match (a.map fun e => matName n e.1 e.2).mapM (column? vars) with
  | .error e => .error e
  | .ok cols =>
    if sameLength cols then
      place vars n (.matrix (a.map Prod.fst).dedup.length (a.map Prod.snd).dedup.length cols)
        (a.map fun e => matName n e.1 e.2)
    else .error .value

/-- repo: hftools/file_formats/mdif.py:293-308 -/
def makeVector (vars : OMap (List Char) (Val α)) (n : List Char) (l : List VecEntry) :
    Except Err (OMap (List Char) (Val α)) :=
  let a := Py.sortBy (fun a b => decide (a < b)) (l.map fun e => e.2.1)
  match (a.map (vecName n)).mapM (column? vars) with
  | .error e => .error e
  | .ok cols => if sameLength cols then place vars n (.vector cols) (a.map (vecName n)) else .error .value

def makeAll {M E : Type} (f : M → List Char → List E → Except Err M) : List (List Char × List E) → M → Except Err M
  | [], vars => .ok vars
  | (n, l) :: t, vars =>
    match f vars n l with
    | .error e => .error e
    | .ok vars' => makeAll f t vars'

/-- `make_matrices`; the dims are not modelled.  repo: hftools/file_formats/mdif.py:274-308 -/
def makeMatrices (vars : OMap (List Char) (Val α)) (header : List (List Char)) :
    Except Err (OMap (List Char) (Val α)) :=
  match makeAll makeMatrix (matchNames header).matrix vars with
  | .error e => .error e
  | .ok vars' => makeAll makeVector (matchNames header).vector vars'

/-! ### Shortening -/

/-- `name.split(".")` -/
def splitDot : List Char → List (List Char)
  | [] => [[]]
  | c :: s =>
    if c = '.' then [] :: splitDot s
    else
      match splitDot s with
      | [] => [[c]]
      | w :: ws => (c :: w) :: ws

/-- `".".join(names)` -/
def joinDot : List (List Char) → List Char
  | [] => []
  | [w] => w
  | w :: ws => w ++ '.' :: joinDot ws

/-- `".".join(names[-(i + 1):])` for all `i`. -/
def candidates (name : List Char) : List (List Char) :=
  (List.range (splitDot name).length).map fun i =>
    joinDot ((splitDot name).drop ((splitDot name).length - (i + 1)))

/-- `shorten_name`.  repo: hftools/file_formats/mdif.py:439-448 -/
def shorten (m : OMap (List Char) X) (name : List Char) : OMap (List Char) X × List Char :=
  if (splitDot name).length ≤ 1 then (m, name)
  else
    match (candidates name).find? fun n => !member m n with
    | some n =>
      match lookup m name with
      | some v => (rename m name n v, n)
      | none => (m, n)
    | none => (m, name)

/-- `v.endswith(".s")`, `v.endswith(".m")` -/
def ends (c : Char) (v : List Char) : Bool := ['.', c].isSuffixOf v

/-- `v[:-2]` -/
def cut2 (v : List Char) : List Char := v.take (v.length - 2)

/-- One variable.  repo: hftools/file_formats/mdif.py:453-460 -/
def fixOne (m : OMap (List Char) X) (v : List Char) : OMap (List Char) X :=
  if ends 's' v then remove m v
  else if ends 'm' v then
    match lookup m v with
    | some x => (shorten (rename m v (cut2 v) x) (cut2 v)).1
    | none => m
  else (shorten m v).1

/-- `fixnames` for one block.  repo: hftools/file_formats/mdif.py:451-460 -/
def fixnames (m : OMap (List Char) X) : OMap (List Char) X := (m.map Prod.fst).foldl fixOne m

end HF.Mdif
