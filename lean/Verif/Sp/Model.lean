import Verif.Sp.Comments
import Verif.Readers.Text
/-
SP data files: reading.

repo: hftools/file_formats/spdata.py:51-157
-/
namespace HF.Sp

open HF.DataDict.Spec HF.DataBlock
open Units (isWs strip)

inductive Err where
  | io            -- `SPDataIOError`
  | runtimeError  -- `StopIteration` inside a generator
  | indexError
  | attributeError
  | block (e : DataBlock.Err)
  deriving DecidableEq

inductive Tag where
  | comment | header | data
  deriving DecidableEq

structure Tok where
  tag : Tag
  rad : List Char
  deriving DecidableEq

/-- `"!Fullcomments"` -/
def fullcomments : List Char := ['!', 'F', 'u', 'l', 'l', 'c', 'o', 'm', 'm', 'e', 'n', 't', 's']

/-- One line.  Line numbers are not modelled.  repo: hftools/file_formats/spdata.py:51, 67-79 -/
def tokenLine (line : List Char) : Option Tok :=
  match strip line with
  | [] => none
  | c :: r =>
    if fullcomments.isPrefixOf (c :: r) then none
    else if c = '!' then some ⟨.comment, r⟩
    else if isLetter c then some ⟨.header, c :: r⟩
    else some ⟨.data, c :: r⟩

/-- `tokenize(stream)`.  repo: hftools/file_formats/spdata.py:54-79 -/
def tokenize (lines : List (List Char)) : List Tok := lines.filterMap tokenLine

/-- `s.split(sep)` for a single character. -/
def splitOn (sep : Char) : List Char → List (List Char)
  | [] => [[]]
  | c :: t =>
    if c = sep then [] :: splitOn sep t
    else match splitOn sep t with
      | f :: fs => (c :: f) :: fs
      | [] => [[c]]

/-- The text of a block of data.  The fields of the data rows still are text. -/
structure Raw where
  comments : List (List Char)
  header : List Char
  data : List (List (List Char))
  deriving DecidableEq

/-- `group_blocks(stream)` for a stream that is not at its end: the blocks yielded, and the
exception that ends it, if any.  repo: hftools/file_formats/spdata.py:86-112 -/
def groups (ts : List Tok) : List Raw × Option Err :=
  let cs := ts.takeWhile fun t => t.tag = .comment
  match h : ts.dropWhile fun t => t.tag = .comment with
  | [] => ([], some .io)
  | t :: rest =>
    if t.tag = .header then
      match rest with
      | [] => ([], some .io)
      | r :: rest' =>
        let ds := (r :: rest').takeWhile fun t => t.tag = .data
        let raw : Raw := ⟨cs.map Tok.rad, t.rad, ds.map fun d => splitOn '\t' d.rad⟩
        match h' : (r :: rest').dropWhile fun t => t.tag = .data with
        | [] => ([raw], none)
        | u :: rest'' =>
          let g := groups (u :: rest'')
          (raw :: g.1, g.2)
    else ([], some .io)
termination_by ts.length
decreasing_by
  have h1 := (List.dropWhile_suffix (l := ts) (fun t : Tok => decide (t.tag = .comment))).length_le
  have h2 := (List.dropWhile_suffix (l := r :: rest') (fun t : Tok => decide (t.tag = .data))).length_le
  rw [h'] at h2
  rw [h] at h1
  simp at h1 h2 ⊢
  omega

/-- `group_blocks(stream)`; the first `next(stream)` is not guarded.
repo: hftools/file_formats/spdata.py:81-112 -/
def groupBlocks : List Tok → List Raw × Option Err
  | [] => ([], some .runtimeError)
  | t :: ts => groups (t :: ts)

/-- `zip(*data)`: the columns, as many as the shortest row has. -/
def zipStar {X : Type} (d : X) (rows : List (List X)) : List (List X) :=
  (List.range (((rows.map List.length).min?).getD 0)).map fun j => rows.map fun r => r.getD j d

variable {β α : Type}

/-- `output.setdefault(varname, []).append(column)`.
repo: hftools/file_formats/spdata.py:126-127 -/
def collect {X : Type} (cols : List (String × X)) : OMap String (List X) :=
  cols.foldl (fun m c => assign m c.1 ((lookup m c.1).getD [] ++ [c.2])) []

/-- The coordinates of `DimSweep(header[0], output[header[0]])`: the elements of the array of
columns in order of rows.  repo: hftools/file_formats/spdata.py:128-136, hftools/dataset/dim.py:74-80 -/
def coords (env : Env β α) (cs : List (List α)) : List β :=
  (List.range ((cs.headD []).length)).flatMap fun i => cs.map fun c => env.toCoord (c.getD i env.junk)

/-- The variable made of the columns of one name.  `num` embeds natural numbers into coordinates.
repo: hftools/file_formats/spdata.py:128-134, 138-144 -/
def toVar (env : Env β α) (num : Nat → β) (freq : Dim β) (cs : List (List α)) : Except Arr.Err (Arr β α) :=
  match cs with
  | [c] => .ok ⟨[freq], ⟨[c.length], fun idx => c.getD (idx.headD 0) env.junk⟩⟩
  | _ =>
    Arr.squeezeIdx ⟨[freq, ⟨.dimRep, "rep", (List.range cs.length).map num, none, none⟩],
      ⟨[(cs.headD []).length, cs.length],
        fun idx => (cs.getD (idx.getD 1 0) []).getD (idx.getD 0 0) env.junk⟩⟩ none

/-- `for x in output.keys()[1:]: db[x] = ...`.  repo: hftools/file_formats/spdata.py:138-144 -/
def putVars (env : Env β α) (num : Nat → β) (freq : Dim β) :
    Block β α → List (String × List (List α)) → Except Err (Block β α)
  | b, [] => .ok b
  | b, (n, cs) :: t =>
    match ofArr (toVar env num freq cs) with
    | .error e => .error (.block e)
    | .ok a =>
      match setArr env b n a with
      | (_, .error e) => .error (.block e)
      | (b', .ok _) => putVars env num freq b' t

/-- Properties whose names begin with `@` become partial sweeps.
repo: hftools/file_formats/spdata.py:146-152 -/
def putPartials (ofRat : ℚ → β) : Block β α → List (String × Comments.PVal) → Except Err (Block β α)
  | b, [] => .ok b
  | b, (n, v) :: t =>
    match n.toList with
    | '@' :: r =>
      match v with
      | .other _ => .error .attributeError
      | .arr x u =>
        putPartials ofRat (setDim b (String.ofList r)
          ⟨.dimPartial, String.ofList r, [ofRat x], u.map String.ofList, none⟩) t
    | _ => putPartials ofRat b t

/-- A block with its comments and properties. -/
structure Parsed (β α : Type) where
  block : Block β α
  comments : List (List Char)
  property : OMap String Comments.PVal

/-- `parse_blocks` for one block.  `conv` is `to_numeric(x, False)`.
repo: hftools/file_formats/spdata.py:104, 114-157.  In the code the numbers of a column become an
array of one type; here each field is converted for itself. -/
def parseBlock (env : Env β α) (num : Nat → β) (ofRat : ℚ → β) (conv : List Char → α) (r : Raw) :
    Except Err (Parsed β α) :=
  let header := (splitOn '\t' (strip r.header)).map strip
  match r.data, header with
  | [], _ => .error .indexError
  | _, [] => .error .indexError
  | row :: _, h0 :: _ =>
    if header.length ≠ row.length then .error .io
    else
      let output := collect ((header.map String.ofList).zip (zipStar env.junk (r.data.map fun f => f.map conv)))
      let first := String.ofList h0
      let freq : Dim β := ⟨.dimSweep, first, coords env ((lookup output first).getD []), none, none⟩
      match putVars env num freq (setDim {} first freq) output.tail with
      | .error e => .error e
      | .ok b =>
        let props := Comments.properties r.comments
        match putPartials ofRat b props with
        | .error e => .error e
        | .ok b' => .ok ⟨b', r.comments.filter fun c => !(['@'].isPrefixOf c),
            props.filter fun p => !(['@'].isPrefixOf p.1.toList)⟩

/-- All blocks of a file, before complex columns are combined.  The generators are run in turn,
so an exception in a block comes before one in the grouping of the following ones.
repo: hftools/file_formats/spdata.py:54-157, hftools/file_formats/readbase.py:307-310 -/
def read (env : Env β α) (num : Nat → β) (ofRat : ℚ → β) (conv : List Char → α) (lines : List (List Char)) :
    Except Err (List (Parsed β α)) :=
  let g := groupBlocks (tokenize lines)
  match g.1.mapM (parseBlock env num ofRat conv) with
  | .error e => .error e
  | .ok bs =>
    match g.2 with
    | some e => .error e
    | none => .ok bs

end HF.Sp
