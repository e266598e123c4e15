import Verif.DataBlock.Model
import Verif.Readers.Stream
import Verif.Readers.Text
/-
CITI files.

repo: hftools/file_formats/citi.py:40-239

Numbers are rational (as floating point numbers are), complex numbers are pairs; results of arithmetic
are not rounded.  Only numerical variables are considered.
-/

namespace HF.Citi

open Units (isWs strip)
open Text DataBlock
open HF.DataDict.Spec

abbrev Cplx := ℚ × ℚ

/-- What is not modelled in detail: formatting and reading of numbers, conversion of magnitude and angle. -/
structure Env where
  fmt : ℚ → List Char
  parse : List Char → Option ℚ
  fmtNat : Nat → List Char
  parseNat : List Char → Option Nat
  magAngle : ℚ → ℚ → Cplx

/-- Coordinates and elements are of the same kind. -/
def benv : DataBlock.Env Cplx Cplx := ⟨id, id, (0, 0), fun _ => "", fun _ => ""⟩

inductive Tag where
  | name | vardef | datadef | varBegin | varEnd | seg | segBegin | segEnd | dataBegin | dataEnd | data
  | comment | citifile
  deriving DecidableEq, Repr

inductive Err where
  | citi | value | type | key | parser (e : Readers.Err) | block (e : DataBlock.Err)
  deriving DecidableEq, Repr

/-- `Token(tag, lineno, rad)`; a string is a list with one element. -/
abbrev Tok := Readers.Token Tag (List (List Char))
abbrev Strm := Readers.Stream Tag (List (List Char))

/-- `[-0-9eE.]` -/
def isDataChar (c : Char) : Bool := c = '-' || c = '.' || c = 'e' || c = 'E' || isDig c

def begins (p s : List Char) : Bool := p.isPrefixOf s

/-- One line; `none` if it is empty.  repo: hftools/file_formats/citi.py:59-100 -/
def tokenLine (line : List Char) : Except Err (Option Tok) :=
  let rad := line.dropWhile isWs
  if rad = [] then .ok none
  else if begins ['N', 'A', 'M', 'E'] rad then .ok (some ⟨.name, [strip (rad.drop 4)]⟩)
  else if begins ['V', 'A', 'R', ' '] rad then .ok (some ⟨.vardef, words (strip (rad.drop 3))⟩)
  else if begins ['D', 'A', 'T', 'A'] rad then .ok (some ⟨.datadef, words (strip (rad.drop 4))⟩)
  else if begins ['V', 'A', 'R', '_', 'L', 'I', 'S', 'T', '_', 'B', 'E', 'G', 'I', 'N'] rad then
    .ok (some ⟨.varBegin, [rad]⟩)
  else if begins ['V', 'A', 'R', '_', 'L', 'I', 'S', 'T', '_', 'E', 'N', 'D'] rad then .ok (some ⟨.varEnd, [rad]⟩)
  else if begins ['S', 'E', 'G', ' '] rad then .ok (some ⟨.seg, [rad]⟩)
  else if begins ['S', 'E', 'G', '_', 'L', 'I', 'S', 'T', '_', 'B', 'E', 'G', 'I', 'N'] rad then
    .ok (some ⟨.segBegin, [rad]⟩)
  else if begins ['S', 'E', 'G', '_', 'L', 'I', 'S', 'T', '_', 'E', 'N', 'D'] rad then .ok (some ⟨.segEnd, [rad]⟩)
  else if begins ['B', 'E', 'G', 'I', 'N'] rad then .ok (some ⟨.dataBegin, [rad]⟩)
  else if begins ['E', 'N', 'D'] rad then .ok (some ⟨.dataEnd, [rad]⟩)
  else if rad.head?.any isDataChar then .ok (some ⟨.data, [rad]⟩)
  else if begins ['!'] rad then .ok (some ⟨.comment, [strip (rad.drop 1)]⟩)
  else if begins ['#'] rad then .ok (some ⟨.comment, [strip (rad.drop 1)]⟩)
  else if begins ['C', 'O', 'M', 'M', 'E', 'N', 'T'] rad then .ok (some ⟨.comment, [strip (rad.drop 8)]⟩)
  else if begins ['C', 'O', 'N', 'S', 'T', 'A', 'N', 'T'] rad then .ok (some ⟨.comment, [strip rad]⟩)
  else if begins ['C', 'I', 'T', 'I', 'F', 'I', 'L', 'E'] rad then .ok (some ⟨.citifile, [strip (rad.drop 8)]⟩)
  else .error .citi

/-- The whole file.  Simplification: in python the lines are looked at only when they are needed; an
error in a line comes later there, but every line is reached unless there is an error before. -/
def tokenize : List (List Char) → Except Err Strm
  | [] => .ok []
  | l :: ls =>
    match tokenLine l with
    | .error e => .error e
    | .ok t =>
      match tokenize ls with
      | .error e => .error e
      | .ok ts => .ok (t.toList ++ ts)

/-- `float(r)` and `float(i)` of `r,i` = `rad.strip().split(",")`. -/
def pairOf (env : Env) (rad : List Char) : Except Err (ℚ × ℚ) :=
  let s := strip rad
  let a := s.takeWhile (· ≠ ',')
  match s.dropWhile (· ≠ ',') with
  | ',' :: b =>
    if ',' ∈ b then .error .value
    else
      match env.parse a, env.parse b with
      | some x, some y => .ok (x, y)
      | _, _ => .error .value
  | _ => .error .value

/-- One line of data.  repo: hftools/file_formats/citi.py:159-175 -/
def datum (env : Env) (typ rad : List Char) : Except Err Cplx :=
  if typ = ['M', 'A', 'G'] then
    match env.parse rad with
    | some x => .ok (x, 0)
    | none => .error .value
  else if typ = ['R', 'I'] then pairOf env rad
  else
    match pairOf env rad with
    | .ok p => .ok (env.magAngle p.1 p.2)
    | .error e => .error e

/-- `handle_data(data, typ)`.  repo: hftools/file_formats/citi.py:159-175 -/
def handleData (env : Env) (typ : List Char) (data : List (List (List Char))) : Except Err (List Cplx) :=
  if typ = ['M', 'A', 'G'] ∨ typ = ['R', 'I'] ∨ typ = ['M', 'A', 'G', 'A', 'N', 'G', 'L', 'E'] then
    data.mapM fun rad => datum env typ (rad.headD [])
  else .error .citi

/-- A combinator applied to the stream. -/
def run {γ : Type} (r : Except Readers.Err γ × Strm) : Except Err (γ × Strm) :=
  match r.1 with
  | .ok x => .ok (x, r.2)
  | .error e => .error (.parser e)

def many (t : Tag) (s : Strm) : Except Err (List (List (List Char)) × Strm) := run (Readers.manyOptional t id s)
def opt (t : Tag) (s : Strm) : Except Err (Option (List (List Char)) × Strm) := run (Readers.optional t id s)
def one (t : Tag) (s : Strm) : Except Err (List (List (List Char)) × Strm) := run (Readers.one t s)
def oneOf (ts : List Tag) (s : Strm) : Except Err (List (List (List Char)) × Strm) := run (Readers.oneOf ts s)

/-- `np.linspace(start, stop, n)` -/
def linspace (start stop : ℚ) (n : Nat) : List Cplx :=
  (List.range n).map fun (k : Nat) => (if n = 1 then start else start + k * (stop - start) / (n - 1), 0)

/-- `SEG start stop step`.  repo: hftools/file_formats/citi.py:127-133 -/
def segment (env : Env) (rad : List Char) : Except Err (List Cplx) :=
  match words (strip rad) with
  | [_, a, b, n] =>
    match env.parse a, env.parse b, env.parseNat n with
    | some a, some b, some n => .ok (linspace a b n)
    | _, _, _ => .error .value
  | _ => .error .value

/-- The coordinates of one variable.  repo: hftools/file_formats/citi.py:118-136 -/
def readVar (env : Env) (typ : List Char) (s : Strm) : Except Err (List Cplx × Strm) :=
  match oneOf [.varBegin, .segBegin] s with
  | .error e => .error e
  | .ok (tag, s) =>
    if begins ['V', 'A', 'R', '_', 'L', 'I', 'S', 'T'] ((tag.headD []).headD []) then
      match many .data s with
      | .error e => .error e
      | .ok (d, s) =>
        match handleData env typ d with
        | .error e => .error e
        | .ok l =>
          match one .varEnd s with
          | .error e => .error e
          | .ok (_, s) => .ok (l, s)
    else
      match one .seg s with
      | .error e => .error e
      | .ok (d, s) =>
        match segment env ((d.headD []).headD []) with
        | .error e => .error e
        | .ok l =>
          match one .segEnd s with
          | .error e => .error e
          | .ok (_, s) => .ok (l, s)

/-- `for name, typ, N in varnames: ...`.  repo: hftools/file_formats/citi.py:116-136 -/
def readVars (env : Env) : List (List (List Char)) → Block Cplx Cplx → Strm → Except Err (Block Cplx Cplx × Strm)
  | [], b, s => .ok (b, s)
  | [name, typ, n] :: vs, b, s =>
    match env.parseNat n with
    | none => .error .value
    | some _ =>
      match readVar env typ s with
      | .error e => .error e
      | .ok (l, s) => readVars env vs (setDim b (String.ofList name) ⟨.dimSweep, String.ofList name, l, none, none⟩) s
  | _ :: _, _, _ => .error .value

/-- `tuple(block.ivardata[i[0]] for i in varnames)`.  repo: hftools/file_formats/citi.py:144-145 -/
def dimsOf (b : Block Cplx Cplx) (vs : List (List (List Char))) : Except Err (List (Dim Cplx)) :=
  vs.mapM fun v =>
    match lookup b.ivars (String.ofList (v.headD [])) with
    | some d => .ok d
    | none => .error .key

/-- The array read: `array(list)` with `.shape = shape`, and the dims.
repo: hftools/file_formats/citi.py:148-150 -/
def toArr (dims : List (Dim Cplx)) (l : List Cplx) : Except Err (Arr Cplx Cplx) :=
  match (Nd.mk [l.length] fun idx => l.getD (idx.headD 0) (0, 0)).reshape (dims.map fun d => d.data.length) with
  | .error _ => .error .value
  | .ok nd =>
    match Arr.mk? nd dims with
    | .error _ => .error .value
    | .ok a => .ok a

/-- `for name, typ in datanames: ...`.  repo: hftools/file_formats/citi.py:146-151 -/
def readData (env : Env) (dims : List (Dim Cplx)) :
    List (List (List Char)) → Block Cplx Cplx → Strm → Except Err (Block Cplx Cplx × Strm)
  | [], b, s => .ok (b, s)
  | [name, typ] :: ds, b, s =>
    match one .dataBegin s with
    | .error e => .error e
    | .ok (_, s) =>
      match many .data s with
      | .error e => .error e
      | .ok (d, s) =>
        match handleData env typ d with
        | .error e => .error e
        | .ok l =>
          match toArr dims l with
          | .error e => .error e
          | .ok a =>
            match setArr benv b (String.ofList name) a with
            | (_, .error e) => .error (.block e)
            | (b, .ok _) =>
              match one .dataEnd s with
              | .error e => .error e
              | .ok (_, s) => readData env dims ds b s
  | _ :: _, _, _ => .error .value

/-- The date of a measurement is made readable.  repo: hftools/file_formats/citi.py:139-142 -/
def timeComment (com : List Char) : Except Err (List Char) :=
  if begins "CONSTANT TIME".toList com then
    match (words (strip com)).drop 2 with
    | [y, m, d, h, mi, sec] =>
      .ok ("Measurement time: ".toList ++ y ++ '-' :: m ++ '-' :: d ++ ' ' :: h ++ ':' :: mi ++ ':' :: sec)
    | _ => .error .type
  else .ok com

/-- The text of comment lines. -/
def texts (c : List (List (List Char))) : List (List Char) := c.map fun rad => rad.headD []

/-- `parse_blocks`: the name, the comments and the block.  What follows the last `END` is not looked at.
repo: hftools/file_formats/citi.py:105-152 -/
def parse (env : Env) (s : Strm) : Except Err (List Char × List (List Char) × Block Cplx Cplx) := do
  let (c1, s) ← many .comment s
  let (_, s) ← opt .citifile s
  let (c2, s) ← many .comment s
  let (name, s) ← one .name s
  let (c3, s) ← many .comment s
  let (vs, s) ← many .vardef s
  let (c4, s) ← many .comment s
  let (ds, s) ← many .datadef s
  let (c5, s) ← many .comment s
  let (b, s) ← readVars env vs {} s
  let (c6, s) ← many .comment s
  let com ← (texts (c1 ++ c2 ++ c3 ++ c4 ++ c5 ++ c6)).mapM timeComment
  let dims ← dimsOf b vs
  let (b, _) ← readData env dims ds b s
  return ((name.headD []).headD [], com, b)

/-- Reading the lines of a file. -/
def read (env : Env) (lines : List (List Char)) : Except Err (List Char × List (List Char) × Block Cplx Cplx) :=
  match tokenize lines with
  | .error e => .error e
  | .ok s => parse env s

/-! ### Saving -/

/-- `val.flat` -/
def flat (a : Arr Cplx Cplx) : List Cplx :=
  (List.range (Nd.size a.nd.shape)).map fun k => a.nd.get (Nd.unravel a.nd.shape k)

/-- A column of data: name, whether it is complex, array. -/
structure Col where
  name : List Char
  cplx : Bool
  arr : Arr Cplx Cplx

/-- The column for `value[..., i, j]`.  repo: hftools/file_formats/citi.py:202-204, 225-227 -/
def elemColumn (env : Env) (name : String) (cplx : Bool) (a : Arr Cplx Cplx) (ij : Nat × Nat) : Except Err Col :=
  match getElem benv a ij.1 ij.2 with
  | .ok e => .ok ⟨name.toList ++ env.fmtNat (ij.1 + 1) ++ env.fmtNat (ij.2 + 1), cplx, e⟩
  | .error e => .error (.block e)

/-- The elements of a matrix, or the variable itself.  The coordinates of the dimensions of a matrix are
taken to be the numbers from 0.  repo: hftools/file_formats/citi.py:200-207, 222-227 -/
def columns (env : Env) (name : String) (cplx : Bool) (a : Arr Cplx Cplx) : Except Err (List Col) :=
  if ismatrix a then
    let p := (a.nd.shape.reverse.getD 1 0)
    let q := (a.nd.shape.reverse.getD 0 0)
    ((List.range p).flatMap fun i => (List.range q).map fun j => (i, j)).mapM
      (elemColumn env name cplx a)
  else .ok [⟨name.toList, cplx, a⟩]

/-- `block[k] = v` for all variables.  repo: hftools/file_formats/citi.py:179-181 -/
def copyVars : List (String × Arr Cplx Cplx) → Block Cplx Cplx → Except Err (Block Cplx Cplx)
  | [], b => .ok b
  | (k, v) :: t, b =>
    match setArr benv b k v with
    | (_, .error e) => .error (.block e)
    | (b, .ok _) => copyVars t b

def typeOf (c : Bool) : List Char := if c then ['R', 'I'] else ['M', 'A', 'G']

/-- The line for one number. -/
def fmtDatum (env : Env) (c : Bool) (z : Cplx) : List Char :=
  if c then env.fmt z.1 ++ ',' :: env.fmt z.2 else env.fmt z.1

/-- The sweeps that are written. -/
def sweeps (b : Block Cplx Cplx) : List (String × Dim Cplx) :=
  b.ivars.filter fun p => !(p.2.isa .matI || p.2.isa .matJ)

/-- The lines of a file with given sweeps (real, `VAR`) and columns (`DATA`).
repo: hftools/file_formats/citi.py:184-239 -/
def format (env : Env) (blockname : List Char) (comments : List (List Char)) (sw : List (String × Dim Cplx))
    (cols : List Col) : List (List Char) :=
  ['C', 'I', 'T', 'I', 'F', 'I', 'L', 'E', ' ', 'A', '.', '0', '1', '.', '0', '1'] ::
  (comments.map fun c => '!' :: c.dropWhile (· = '!')) ++
  (['N', 'A', 'M', 'E', ' '] ++ blockname) ::
  (sw.map fun p => ['V', 'A', 'R', ' '] ++ p.1.toList ++ [' ', 'M', 'A', 'G', ' '] ++ env.fmtNat p.2.data.length) ++
  (cols.map fun c => ['D', 'A', 'T', 'A', ' '] ++ c.name ++ ' ' :: typeOf c.cplx) ++
  (sw.flatMap fun p => ['V', 'A', 'R', '_', 'L', 'I', 'S', 'T', '_', 'B', 'E', 'G', 'I', 'N'] ::
    (p.2.data.map fun z => env.fmt z.1) ++ [['V', 'A', 'R', '_', 'L', 'I', 'S', 'T', '_', 'E', 'N', 'D']]) ++
  (cols.flatMap fun c => ['B', 'E', 'G', 'I', 'N'] :: ((flat c.arr).map (fmtDatum env c.cplx)) ++ [['E', 'N', 'D']])

/-- `format_citi_block`; `cplx` tells which variables are complex.
repo: hftools/file_formats/citi.py:178-239 -/
def save (env : Env) (blockname : List Char) (comments : List (List Char)) (cplx : String → Bool)
    (b : Block Cplx Cplx) : Except Err (List (List Char)) :=
  match copyVars b.vars {} with
  | .error e => .error e
  | .ok b' =>
    match b'.vars.mapM fun p => columns env p.1 (cplx p.1) p.2 with
    | .error e => .error e
    | .ok cols => .ok (format env blockname comments (sweeps b') cols.flatten)

end HF.Citi
