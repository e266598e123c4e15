import Verif.Sp.Text
/-
SP data files: saving.

repo: hftools/file_formats/spdata.py:160-194, hftools/file_formats/common.py:312-475
-/
namespace HF.Sp

open HF.DataDict.Spec HF.DataBlock
open Text (join)

variable {β α : Type}

/-- What is printed besides the values: unit, format and type of the variables, and the format of the
coordinates of dimensions.  `text n false` is `fmt % elem` (`fmt % elem.real` for a complex
variable), `text n true` is `fmt % elem.imag`.  `width` is the number at the start of the format, zero
if there is none.  Coordinates are real.  repo: hftools/file_formats/common.py:335-352 -/
structure Style (β α : Type) where
  unit : String → Option (List Char)
  cplx : String → Bool
  width : String → Nat
  text : String → Bool → α → List Char
  coordWidth : Dim β → Nat
  coordText : Dim β → β → List Char

/-- A column: name, unit, width, type and the texts of its elements (two for a complex element). -/
structure Col where
  name : List Char
  unit : Option (List Char)
  width : Nat
  cplx : Bool
  cells : List (List (List Char))

/-- `"%d" % n` -/
def natText (n : Nat) : List Char := Nat.toDigits 10 n

/-- `format_elem(fmt, elem)`.  repo: hftools/file_formats/common.py:335-339 -/
def formatElem (st : Style β α) (n : String) (v : α) : List (List Char) :=
  if st.cplx n then [st.text n false v, st.text n true v] else [st.text n false v]

/-- The column `hfarray(dim)`.  repo: hftools/file_formats/common.py:397, 412 -/
def dimCol (st : Style β α) (d : Dim β) : Col :=
  ⟨d.name.toList, d.unit.map String.toList, st.coordWidth d, false, d.data.map fun x => [st.coordText d x]⟩

/-- The columns of one variable at the position `idx` of all but the first axis: `col[(slice(None),) +
idx]`, for a matrix all its elements, row by row.  The array has at least one axis besides those of
the matrix, the last two axes are those of the matrix, and its shape is that of its dims.
repo: hftools/file_formats/common.py:316-332, 411-414 -/
def varCols (st : Style β α) (w : String × Arr β α) (idx : List Nat) : List Col :=
  let len := w.2.nd.shape.headD 0
  if ismatrix w.2 then
    (List.range (w.2.nd.shape.reverse.getD 1 0)).flatMap fun i =>
      (List.range (w.2.nd.shape.reverse.getD 0 0)).map fun j =>
        ⟨w.1.toList ++ natText (i + 1) ++ natText (j + 1), st.unit w.1, st.width w.1, st.cplx w.1,
          (List.range len).map fun k => formatElem st w.1 (w.2.nd.get (k :: (idx ++ [i, j])))⟩
  else
    [⟨w.1.toList, st.unit w.1, st.width w.1, st.cplx w.1,
      (List.range len).map fun k => formatElem st w.1 (w.2.nd.get (k :: idx))⟩]

/-- `format_unit_header(colname, col)`.  repo: hftools/file_formats/common.py:368-374 -/
def unitHeader (n : List Char) (u : Option (List Char)) : List Char :=
  match u with
  | none => n
  | some [] => n
  | some u => n ++ ' ' :: '[' :: (u ++ [']'])

/-- `padhead(head, width)`.  repo: hftools/file_formats/common.py:342-343 -/
def padhead (h : List Char) (w : Nat) : List Char := h ++ List.replicate (max h.length w - h.length) ' '

/-- `"Re(%s)"`, `"Im(%s)"` -/
def reName (n : List Char) : List Char := 'R' :: 'e' :: '(' :: (n ++ [')'])
def imName (n : List Char) : List Char := 'I' :: 'm' :: '(' :: (n ++ [')'])

/-- `format_complex_header`, one column.  repo: hftools/file_formats/common.py:345-366 -/
def header (c : Col) : List (List Char) :=
  if c.cplx then
    [padhead (unitHeader (reName c.name) c.unit) c.width, padhead (unitHeader (imName c.name) c.unit) c.width]
  else [padhead (unitHeader c.name c.unit) c.width]

/-- `format_sp_block`: the lines, without their ends.
repo: hftools/file_formats/spdata.py:160-176, 189-190 -/
def formatBlock (comments : List (List Char)) (sweeps : List (String × List Char)) (cols : List Col) :
    List (List Char) :=
  (comments.map fun c => '!' :: c.dropWhile (· = '!')) ++
  (sweeps.map fun s => '!' :: '@' :: (s.1.toList ++ '=' :: s.2)) ++
  join '\t' (cols.flatMap header) :: (zipStar [] (cols.map Col.cells)).map fun r => join '\t' r.flatten

/-- The axes a variable is grouped by: without the two of a matrix.
repo: hftools/file_formats/common.py:391-394, 434-439 -/
def axisNames (a : Arr β α) : List String :=
  let ns := a.dims.map Dim.name
  if ismatrix a then ns.take (ns.length - 2) else ns

/-- `itertools.product(range(n1), range(n2), ...)` -/
def combos : List Nat → List (List Nat)
  | [] => [[]]
  | n :: ns => (List.range n).flatMap fun i => (combos ns).map (i :: ·)

/-- `[data.ivardata[iname] for iname in dimsnames]`.  repo: hftools/file_formats/common.py:395 -/
def axes (q : Block β α) : List String → Except DataBlock.Err (List (Dim β))
  | [] => .ok []
  | n :: ns =>
    match lookup q.ivars n with
    | none => .error .keyError
    | some d =>
      match axes q ns with
      | .error e => .error e
      | .ok ds => .ok (d :: ds)

/-- One of the parts `make_block_iterator` yields, formatted; `ds` are the axes.
repo: hftools/file_formats/common.py:405-426 -/
def subBlock (st : Style β α) (comments : List (List Char)) (vars : List (String × Arr β α)) (ds : List (Dim β))
    (idx : List Nat) : List (List Char) :=
  match ds with
  | [] => formatBlock comments [] []
  | d :: outer =>
    formatBlock comments
      (outer.zipWith (fun e i => (e.name, (e.data[i]?.map (st.coordText e)).getD [])) idx)
      (dimCol st d :: vars.flatMap fun w => varCols st w idx)

/-- `make_block_iterator(data)` for a block with variables, formatted part by part.  Comments are only given to
the first part.  repo: hftools/file_formats/common.py:390-427 -/
def subBlocks (st : Style β α) (comments : List (List Char)) (q : Block β α) :
    Except DataBlock.Err (List (List (List Char))) :=
  match q.vars with
  | [] => .ok []
  | w :: _ =>
    match axes q (axisNames w.2) with
    | .error e => .error e
    | .ok ds =>
      .ok ((combos (ds.tail.map fun d => d.data.length)).mapIdx fun k idx =>
        subBlock st (if k = 0 then comments else []) q.vars ds idx)

/-- `datablock.setdefault(dimsnames, DataBlock())[vname] = indb[vname]` for all variables.
repo: hftools/file_formats/common.py:431-445 -/
def groupVars (env : Env β α) :
    List (String × Arr β α) → OMap (List String) (Block β α) → Except DataBlock.Err (OMap (List String) (Block β α))
  | [], m => .ok m
  | w :: ws, m =>
    match setArr env ((lookup m (axisNames w.2)).getD {}) w.1 w.2 with
    | (_, .error e) => .error e
    | (q, .ok _) => groupVars env ws (assign m (axisNames w.2) q)

/-- The dims no variable has.  The code has them in the order of a set, here they are in the order
of the block.  A matrix counts for all its axes, the other arrays too.
repo: hftools/file_formats/common.py:437, 450-453 -/
def dangling (b : Block β α) : List (Dim β) :=
  (b.ivars.filter fun p => !(b.vars.any fun w => w.2.dims.any fun d => d.name = p.1)).map Prod.snd

/-- The blocks that are written: groups of variables with the same axes, those without axes first.
repo: hftools/file_formats/common.py:462-467 -/
def inOrder {V : Type} (m : OMap (List String) V) : List V :=
  (m.filter fun p => p.1 = []).map Prod.snd ++ (m.filter fun p => p.1 ≠ []).map Prod.snd

/-- The parts of a file with blank lines between them; `first` says that there was none yet.
repo: hftools/file_formats/common.py:469-475 -/
def spaced : Bool → List (List (List Char)) → List (List Char)
  | _, [] => []
  | first, p :: ps => (if first then [] else [[]]) ++ p ++ spaced false ps

/-- Groups of variables, one after the other: lines written and exception, if any.
repo: hftools/file_formats/common.py:459-475 -/
def writeGroups (st : Style β α) (comments : List (List Char)) :
    Bool → List (Block β α) → List (List Char) × Bool × Option DataBlock.Err
  | first, [] => ([], first, none)
  | first, q :: qs =>
    match subBlocks st (if first then comments else []) q with
    | .error e => ([], first, some e)
    | .ok ps =>
      let r := writeGroups st comments (first && ps.isEmpty) qs
      (spaced first ps ++ r.1, r.2)

/-- `save_spdata(db, filename)`: the lines of the file, and the exception that ends the writing, if any.
`comments` are the `fullcomments` of the block, its names, units and comments have no line breaks.  The part for a
dim no variable has is written, after it `raise StopIteration` inside of a generator becomes a
`RuntimeError`.  repo: hftools/file_formats/spdata.py:179-194, hftools/file_formats/common.py:377-390, 430-475 -/
def save (env : Env β α) (st : Style β α) (comments : List (List Char)) (b : Block β α) :
    List (List Char) × Option Err :=
  match groupVars env b.vars [] with
  | .error e => ([], some (.block e))
  | .ok m =>
    match writeGroups st comments true (inOrder m) with
    | (ls, _, some e) => (ls, some (.block e))
    | (ls, first, none) =>
      match dangling b with
      | [] => (ls, none)
      | d :: _ => (ls ++ spaced first [formatBlock [] [] [dimCol st d]], some .runtimeError)

end HF.Sp
