import Verif.Mdif.Read
import Verif.DataBlock.Convert
import Verif.DataBlock.Split
/-
MDIF files: writing.

repo: hftools/file_formats/mdif.py:463-521
-/
namespace HF.Mdif

open HF.DataBlock

variable {β α : Type}

/-- What is needed to print a block. -/
structure Printer (α β : Type) where
  /-- `np.iscomplexobj` of the variable or the dimension with this name -/
  cplx : String → Bool
  /-- `fmt % x` with the output format of the variable or the dimension; `none` is `TypeError` -/
  num : String → α → Option (List Char)
  re : α → α
  im : α → α
  /-- a coordinate as an index; `none` for what is not an integer (`IndexError`) -/
  index : β → Option Int

inductive SaveErr where
  | valueError
  | typeError
  | indexError
  | block (e : DataBlock.Err)
  deriving DecidableEq, Repr

/-- The lines written, and the exception that ended the writing.  Lines written before stay in the
file. -/
abbrev Out := List (List Char) × Option SaveErr

/-- One generator after the other. -/
def Out.andThen (a b : Out) : Out :=
  match a.2 with
  | none => (a.1 ++ b.1, b.2)
  | some e => (a.1, some e)

def Out.all (l : List Out) : Out := l.foldr Out.andThen ([], none)

/-- `yield [...]` of a formatted line. -/
def yieldLine (l : Except SaveErr (List Char)) : Out :=
  match l with
  | .ok l => ([l], none)
  | .error e => ([], some e)

def typeErr {γ : Type} : Option γ → Except SaveErr γ
  | some x => .ok x
  | none => .error .typeError

/-- `format_complex_header` with the formats used here and without units.
repo: hftools/file_formats/common.py:345-375 -/
def title (pr : Printer α β) (n : String) : List Char :=
  n.toList ++ (if pr.cplx n then ['(', 'c', 'o', 'm', 'p', 'l', 'e', 'x', ')'] else ['(', 'r', 'e', 'a', 'l', ')'])

/-- `yield [("VAR SWEEP.%s(real) = " + fmt) % (iname, value)]`.  Simplification: names without `%`.
repo: hftools/file_formats/mdif.py:467-469 -/
def varLine (env : Env β α) (pr : Printer α β) (p : Dim β × β) : Except SaveErr (List Char) :=
  (typeErr (pr.num p.1.name (env.toVal p.2))).map fun w =>
    ['V', 'A', 'R', ' ', 'S', 'W', 'E', 'E', 'P', '.'] ++ p.1.name.toList ++ ['(', 'r', 'e', 'a', 'l', ')', ' ', '=', ' '] ++ w

/-- The coordinates taken as indices, for an array of this shape.
repo: hftools/file_formats/mdif.py:480, 488-489 -/
def indexOf (pr : Printer α β) : List Nat → List β → Except SaveErr (List Nat)
  | [], [] => .ok []
  | n :: ns, c :: cs =>
    match pr.index c with
    | none => .error .indexError
    | some i =>
      match Nd.normAxis n i with
      | none => .error .indexError
      | some k => (indexOf pr ns cs).map (k :: ·)
  | _, _ => .error .indexError

/-- `yield [("# %s = %s" % (name, data.outputformat)) % data[coord]]`; a complex number cannot be
formatted.  repo: hftools/file_formats/mdif.py:476-480 -/
def attribLine (pr : Printer α β) (cs : List β) (v : String × Arr β α) : Except SaveErr (List Char) :=
  match indexOf pr v.2.nd.shape cs with
  | .error e => .error e
  | .ok idx =>
    if pr.cplx v.1 then .error .typeError
    else (typeErr (pr.num v.1 (v.2.nd.get idx))).map fun w => ['#', ' '] ++ title pr v.1 ++ [' ', '=', ' '] ++ w

/-- `col[(Ellipsis,) + coord]` as a list.  repo: hftools/file_formats/mdif.py:488-489 -/
def column (pr : Printer α β) (cs : List β) (v : String × Arr β α) : Except SaveErr (String × List α) :=
  (indexOf pr v.2.nd.shape.tail cs).map fun idx =>
    (v.1, (List.range (v.2.nd.shape.headD 0)).map fun r => v.2.nd.get (r :: idx))

/-- `format_elem`.  repo: hftools/file_formats/common.py:335-339 -/
def cell (pr : Printer α β) (n : String) (x : α) : Except SaveErr (List (List Char)) :=
  if pr.cplx n then
    match pr.num n (pr.re x), pr.num n (pr.im x) with
    | some u, some v => .ok [u, v]
    | _, _ => .error .typeError
  else (typeErr (pr.num n x)).map fun w => [w]

/-- The line of a row, its words with tabulators between them.
repo: hftools/file_formats/mdif.py:498-502, 519 -/
def rowLine (env : Env β α) (pr : Printer α β) (cols : List (String × List α)) (r : Nat) : Except SaveErr (List Char) :=
  (cols.mapM fun c => cell pr c.1 (c.2.getD r env.junk)).map fun ws => Text.join '\t' ws.flatten

/-- The number of rows of `zip(*columns)`: that of the shortest column. -/
def nRows (n : Nat) (cols : List (String × List α)) : Nat := cols.foldl (fun n c => min n c.2.length) n

/-- `"BEGIN "`, `"DATABLOCK"`, `"END"` -/
def beginLine (name : Option (List Char)) : List Char :=
  ['B', 'E', 'G', 'I', 'N', ' '] ++ name.getD ['D', 'A', 'T', 'A', 'B', 'L', 'O', 'C', 'K']

/-- The table of a block.  `zip(*[])` cannot be unpacked.
repo: hftools/file_formats/mdif.py:482-503 -/
def fmtTable (env : Env β α) (pr : Printer α β) (d : Dim β) (cols : List (String × Arr β α)) (cs : List β) : Out :=
  if cols = [] then ([], some .valueError)
  else
    match cols.mapM (column pr cs) with
    | .error e => ([], some e)
    | .ok cols =>
      let all := (d.name, d.data.map env.toVal) :: cols
      Out.all ([([['%', ' '] ++ Text.join ' ' (all.map fun c => title pr c.1)], none)] ++
        (List.range (nRows d.data.length cols)).map (fun r => yieldLine (rowLine env pr all r)) ++
        [([['E', 'N', 'D']], none)])

variable [DecidableEq β]

/-- The lines of one combination of coordinates.  repo: hftools/file_formats/mdif.py:466-503 -/
def fmtCoord (env : Env β α) (pr : Printer α β) (name : Option (List Char)) (d : Dim β) (ds : List (Dim β)) (b : Block β α)
    (cs : List β) : Out :=
  let attribs := b.vars.filter fun v => v.2.dims = ds
  Out.all ((ds.zip cs).map (fun p => yieldLine (varLine env pr p)) ++ [([beginLine name], none)] ++
    [if attribs = [] then ([], some .valueError) else Out.all (attribs.map fun v => yieldLine (attribLine pr cs v))] ++
    [fmtTable env pr d (b.vars.filter fun v => v.2.dims = d :: ds) cs])

/-- `itertools.product` -/
def product {γ : Type} : List (List γ) → List (List γ)
  | [] => [[]]
  | l :: ls => l.flatMap fun x => (product ls).map (x :: ·)

/-- repo: hftools/file_formats/mdif.py:463-503 -/
def fmtBlock (env : Env β α) (pr : Printer α β) (name : Option (List Char)) (d : Dim β) (ds : List (Dim β)) (b : Block β α) :
    Out :=
  Out.all ((product (ds.map fun d => d.data)).map (fmtCoord env pr name d ds b))

/-- `loop_db`.  The blocks that come from `yield_dim_consistent_datablocks` are new ones without
name.  repo: hftools/file_formats/mdif.py:506-511, hftools/dataset/dataset.py:44-56 -/
def loopDb (env : Env β α) (pr : Printer α β) (en : Enum (List (Dim β))) (b : Block β α) : Out :=
  Out.all ((splitBlock env en b).map fun p =>
    match p with
    | (_, .error e) => ([], some (.block e))
    | ([], .ok _) => ([], none)
    | (d :: ds, .ok sub) => fmtBlock env pr none d ds sub)

/-- `save_mdif`; `time` is `time.asctime()`.  repo: hftools/file_formats/mdif.py:514-521 -/
def save (env : Env β α) (pr : Printer α β) (en : Enum (List (Dim β))) (time : List Char) (b : Block β α) : Out :=
  Out.andThen ([['!', 'C', 'r', 'e', 'a', 't', 'e', 'd', ':', ' '] ++ time], none)
    (match convert env b with
    | .error e => ([], some (.block e))
    | .ok b => loopDb env pr en b)

end HF.Mdif
