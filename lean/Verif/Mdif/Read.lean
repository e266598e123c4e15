import Verif.Mdif.Names
import Verif.Readers.Stream
import Verif.Readers.Text
import Verif.Sp.Model
/-
MDIF files: reading of the text.

repo: hftools/file_formats/mdif.py:49-105, 162-272
-/
namespace HF.Mdif

open HF.DataDict.Spec HF.DataBlock
open Units (isWs strip)
open Readers (Token manyOptional one)

/-! ### Lines -/

inductive Tag where
  | comment | header | attrib | start | stop | var | data
  deriving DecidableEq, Repr

abbrev Tok := Token Tag (List Char)

/-- The stream of tokens, see `Readers.Stream`. -/
abbrev Toks := Readers.Stream Tag (List Char)

/-- `"BEGIN"`, `"END"`, `"VAR"` -/
def kwBegin : List Char := ['B', 'E', 'G', 'I', 'N']
def kwEnd : List Char := ['E', 'N', 'D']
def kwVar : List Char := ['V', 'A', 'R']

/-- One line.  Line numbers are not modelled.  repo: hftools/file_formats/mdif.py:174-193 -/
def tokenLine (line : List Char) : Option Tok :=
  match line.dropWhile isWs with
  | [] => none
  | c :: r =>
    if c = '!' then some ⟨.comment, strip r⟩
    else if c = '%' then some ⟨.header, strip r⟩
    else if c = '#' then some ⟨.attrib, strip r⟩
    else if kwBegin.isPrefixOf (c :: r) then some ⟨.start, strip ((c :: r).drop 6)⟩
    else if kwEnd.isPrefixOf (c :: r) then some ⟨.stop, (c :: r).drop 4⟩
    else if kwVar.isPrefixOf (c :: r) then some ⟨.var, (c :: r).drop 4⟩
    else some ⟨.data, c :: r⟩

/-- `tokenize(stream)`.  repo: hftools/file_formats/mdif.py:162-193 -/
def tokenize (lines : List (List Char)) : List Tok := lines.filterMap tokenLine

/-! ### Blocks -/

inductive ReadErr where
  | runtimeError  -- `StopIteration` that leaves a generator, python 3.7 and later
  | exception     -- a plain `Exception`
  | indexError
  | valueError
  | parseError
  | hangs         -- a loop that does not end
  | block (e : DataBlock.Err)
  deriving DecidableEq, Repr

/-- The text of a block. -/
structure Raw where
  comments : List (List Char)
  vars : List (List (List Char))
  name : List (List Char)
  attribs : List (List (List Char))
  header : List (List (List Char))
  data : List (List Char)
  deriving DecidableEq, Repr

/-- `[x.strip() for x in rad.split("=")]`.  repo: hftools/file_formats/mdif.py:203-204 -/
def splitEq (s : List Char) : List (List Char) := (Sp.splitOn '=' s).map strip

/-- One pass of the loop of `group_blocks`.  repo: hftools/file_formats/mdif.py:201-212 -/
def group (s : Toks) : Except Readers.Err Raw × Toks :=
  match manyOptional .comment id s with
  | (.error e, s) => (.error e, s)
  | (.ok comments, s) =>
  match manyOptional .var splitEq s with
  | (.error e, s) => (.error e, s)
  | (.ok vars, s) =>
  match one .start s with
  | (.error e, s) => (.error e, s)
  | (.ok name, s) =>
  match manyOptional .attrib splitEq s with
  | (.error e, s) => (.error e, s)
  | (.ok attribs, s) =>
  match manyOptional .header Text.words s with
  | (.error e, s) => (.error e, s)
  | (.ok header, s) =>
  match manyOptional .data id s with
  | (.error e, s) => (.error e, s)
  | (.ok data, s) =>
  match one .stop s with
  | (.error e, s) => (.error e, s)
  | (.ok _, s) => (.ok ⟨comments, vars, name, attribs, header, data⟩, s)

theorem many_le {γ : Type} (n : Tag) (f : List Char → γ) (s s' : Toks) (r : Except Readers.Err (List γ))
    (h : manyOptional n f s = (r, s')) : s'.length ≤ s.length := by
  have loop : ∀ (s : Toks) (t : Tok) (acc : List γ),
      (Readers.manyLoop n f s t acc).2.length ≤ s.length + 1 := by
    intro s
    induction s with
    | nil => intro t acc; unfold Readers.manyLoop; split <;> simp [Readers.push]
    | cons u s ih =>
      intro t acc
      unfold Readers.manyLoop
      split
      · exact Nat.le_trans (ih _ _) (by simp)
      · simp [Readers.push]
  cases s with
  | nil => simp only [manyOptional, Readers.next, Prod.mk.injEq] at h; simp [← h.2]
  | cons t s =>
    simp only [manyOptional, Readers.next, Prod.mk.injEq] at h
    rw [← h.2]
    exact loop s t []

theorem one_lt (n : Tag) (s s' : Toks) (r : List (List Char))
    (h : one n s = (.ok r, s')) : s'.length < s.length := by
  cases s with
  | nil => simp [one, Readers.oneOf, Readers.next] at h
  | cons t s =>
    simp only [one, Readers.oneOf, Readers.next] at h
    split at h
    · simp only [Prod.mk.injEq] at h; simp [← h.2]
    · simp at h

theorem group_lt (s s' : Toks) (r : Raw) (h : group s = (.ok r, s')) :
    s'.length < s.length := by
  unfold group at h
  split at h
  · simp at h
  rename_i h1; have h1 := many_le _ _ _ _ _ h1
  split at h
  · simp at h
  rename_i h2; have h2 := many_le _ _ _ _ _ h2
  split at h
  · simp at h
  rename_i h3; have h3 := one_lt _ _ _ _ h3
  split at h
  · simp at h
  rename_i h4; have h4 := many_le _ _ _ _ _ h4
  split at h
  · simp at h
  rename_i h5; have h5 := many_le _ _ _ _ _ h5
  split at h
  · simp at h
  rename_i h6; have h6 := many_le _ _ _ _ _ h6
  split at h
  · simp at h
  rename_i h7; have h7 := one_lt _ _ _ _ h7
  simp only [Prod.mk.injEq] at h
  rw [← h.2]
  omega

/-- `group_blocks(stream)`: the blocks yielded, and the exception that ends it, if any.  The loop is
left only by exceptions.  A `StopIteration` that leaves the body of a generator ends it quietly in
older versions of python and becomes a `RuntimeError` in python 3.7 and later (PEP 479, `pep479`).
repo: hftools/file_formats/mdif.py:196-212 -/
def groupBlocks (pep479 : Bool) (s : Toks) : List Raw × Option ReadErr :=
  match h : group s with
  | (.ok r, s') =>
    let g := groupBlocks pep479 s'
    (r :: g.1, g.2)
  | (.error .stopIteration, _) => ([], if pep479 then some .runtimeError else none)
  | (.error _, _) => ([], some .exception)
termination_by s.length
decreasing_by exact group_lt _ _ _ h

/-! ### Tables -/

inductive Ty where
  | integer | real | string | complex
  deriving DecidableEq, Repr

def Ty.text : Ty → List Char
  | .integer => ['i', 'n', 't', 'e', 'g', 'e', 'r']
  | .real => ['r', 'e', 'a', 'l']
  | .string => ['s', 't', 'r', 'i', 'n', 'g']
  | .complex => ['c', 'o', 'm', 'p', 'l', 'e', 'x']

/-- `[(](integer|real|string|complex)[)]` at the beginning. -/
def typeAt (s : List Char) : Option Ty :=
  [Ty.integer, .real, .string, .complex].find? fun t => ('(' :: t.text ++ [')']).isPrefixOf s

/-- `reg.match(head)` with `(.+)[(](integer|real|string|complex)[)]`: as much as possible is taken for
the name, the end is not anchored; `none` is the exception.  Names have no white space (they come from
`split()`).  repo: hftools/file_formats/mdif.py:46, 72-82 -/
def parseHeader (s : List Char) : Option (List Char × Ty) :=
  match (List.range s.length).reverse.find? fun k => decide (1 ≤ k) && (typeAt (s.drop k)).isSome with
  | some k => (typeAt (s.drop k)).map fun t => (s.take k, t)
  | none => none

/-- Conversion of the words of a file: `float`, `int` (`none` is `ValueError`), texts, and
`dr + 1j * di`. -/
structure Num (α : Type) where
  real : List Char → Option α
  int : List Char → Option α
  str : List Char → α
  cplx : α → α → α

/-- `d.strip('"')` -/
def stripQ (s : List Char) : List Char := ((s.dropWhile (· = '"')).reverse.dropWhile (· = '"')).reverse

variable {β α : Type}

/-- `get_real`; the line is what is left of it.  repo: hftools/file_formats/mdif.py:89-93 -/
def takeReal (num : Num α) : List (List Char) → Except ReadErr (α × List (List Char))
  | [] => .error .indexError
  | w :: ws =>
    match num.real (stripQ w) with
    | some x => .ok (x, ws)
    | none => .error .valueError

/-- `get_string`, `get_real`, `get_integer`, `get_complex`.
repo: hftools/file_formats/mdif.py:84-105 -/
def takeVal (num : Num α) : Ty → List (List Char) → Except ReadErr (α × List (List Char))
  | .real, ws => takeReal num ws
  | .complex, ws =>
    match takeReal num ws with
    | .error e => .error e
    | .ok (x, ws) =>
      match takeReal num ws with
      | .error e => .error e
      | .ok (y, ws) => .ok (num.cplx x y, ws)
  | .string, [] => .error .indexError
  | .string, w :: ws => .ok (num.str (stripQ w), ws)
  | .integer, [] => .error .indexError
  | .integer, w :: ws =>
    match num.int (stripQ w) with
    | some x => .ok (x, ws)
    | none => .error .valueError

/-- A line; words that are left over are not looked at.
repo: hftools/file_formats/mdif.py:66-67 -/
def parseLine (num : Num α) : List (List Char × Ty) → List (List Char) → OMap (List Char) (List α) →
    Except ReadErr (OMap (List Char) (List α))
  | [], _, m => .ok m
  | (n, t) :: ps, ws, m =>
    match takeVal num t ws with
    | .error e => .error e
    | .ok (x, ws) => parseLine num ps ws (push m n x)

/-- One pass of the `while` loop: a line for each line of the header.
repo: hftools/file_formats/mdif.py:64-67 -/
def parseRound (num : Num α) : List (List (List Char × Ty)) → List (List Char) →
    OMap (List Char) (List α) → Except ReadErr (OMap (List Char) (List α) × List (List Char))
  | [], data, m => .ok (m, data)
  | _ :: _, [], _ => .error .indexError
  | ps :: pss, l :: data, m =>
    match parseLine num ps (Text.words l) m with
    | .error e => .error e
    | .ok m => parseRound num pss data m

theorem parseRound_le (num : Num α) (pss : List (List (List Char × Ty))) :
    ∀ data (m m' : OMap (List Char) (List α)) data', parseRound num pss data m = .ok (m', data') →
      data'.length + pss.length = data.length := by
  induction pss with
  | nil => intro data m m' data' h; simp only [parseRound, Except.ok.injEq, Prod.mk.injEq] at h; simp [h.2]
  | cons ps pss ih =>
    intro data m m' data' h
    cases data with
    | nil => simp [parseRound] at h
    | cons l data =>
      simp only [parseRound] at h
      split at h
      · cases h
      · have := ih _ _ _ _ h
        simp; omega

/-- The `while` loop, for a header that is not empty. -/
def parseLoop (num : Num α) (ps : List (List Char × Ty)) (pss : List (List (List Char × Ty)))
    (data : List (List Char)) (m : OMap (List Char) (List α)) : Except ReadErr (OMap (List Char) (List α)) :=
  match h : parseRound num (ps :: pss) data m with
  | .error e => .error e
  | .ok (m', data') => if data' = [] then .ok m' else parseLoop num ps pss data' m'
termination_by data.length
decreasing_by
  have := parseRound_le num (ps :: pss) data m m' data' h
  simp at this
  omega

/-- `parse_data`.  Without a header no line is ever taken from the data: if there are any, the loop does
not end.  repo: hftools/file_formats/mdif.py:61-70 -/
def parseData (num : Num α) (pss : List (List (List Char × Ty))) (data : List (List Char)) :
    Except ReadErr (OMap (List Char) (List α)) :=
  match pss with
  | [] => if data = [] then .ok [] else .error .hangs
  | ps :: pss => parseLoop num ps pss data []

/-- `"sweep."` -/
def kwSweep : List Char := ['s', 'w', 'e', 'e', 'p', '.']

/-- `if sweepname.lower().startswith("sweep."): sweepname = sweepname[len("sweep."):]`.  Lower case is
that of ASCII.  repo: hftools/file_formats/mdif.py:266-267 -/
def cutSweep (n : List Char) : List Char := if kwSweep.isPrefixOf (n.map Char.toLower) then n.drop 6 else n

/-- `hfarray(values, (fi,))`; the length of the dimension is not checked.
repo: hftools/dataset/arrayobj.py:371-427, 453-458 -/
def colArr (env : Env β α) (fi : Dim β) (l : List α) : Arr β α :=
  ⟨[fi], ⟨[l.length], fun idx => l.getD (idx.headD 0) env.junk⟩⟩

/-- `proc_data`.  In the code the numbers of a column become an array of one type; here each word is
converted for itself.  repo: hftools/file_formats/mdif.py:260-272 -/
def procData (env : Env β α) (num : Num α) (header : List (List (List Char))) (data : List (List Char)) :
    Except ReadErr (List (String × Arr β α)) :=
  match header.mapM fun hs => hs.mapM parseHeader with
  | none => .error .exception
  | some pss =>
    match parseData num pss data with
    | .error e => .error e
    | .ok m =>
      match pss with
      | ((old, _) :: _) :: _ =>
        let fi : Dim β := ⟨.dimSweep, String.ofList (cutSweep old), ((lookup m old).getD []).map env.toCoord, none, none⟩
        .ok ((remove m old).map fun p => (String.ofList p.1, colArr env fi p.2))
      | _ => .error .indexError

/-! ### Variables and attributes -/

/-- `"SWEEP."` -/
def kwSWEEP : List Char := ['S', 'W', 'E', 'E', 'P', '.']

/-- `vartype.strip(")")` -/
def stripP (s : List Char) : List Char := ((s.dropWhile (· = ')')).reverse.dropWhile (· = ')')).reverse

/-- Name and value of `VAR name(real) = value` and of `# name(real) = value`.
repo: hftools/file_formats/mdif.py:234-244, 246-256 -/
def procPair (num : Num α) (var : List (List Char)) : Except ReadErr (List Char × α) :=
  match var with
  | [n, v] =>
    match Sp.splitOn '(' n with
    | [n, t] =>
      if stripP t = Ty.real.text then
        match num.real v with
        | some x => .ok (if kwSWEEP.isPrefixOf n then n.drop 6 else n, x)
        | none => .error .valueError
      else .error .exception
    | _ => .error .valueError
  | _ => .error .valueError

/-- `db[vi.name] = vi`.  repo: hftools/file_formats/mdif.py:224-226, 257-258 -/
def putVar (env : Env β α) (num : Num α) (b : Block β α) (var : List (List Char)) : Except ReadErr (Block β α) :=
  match procPair num var with
  | .error e => .error e
  | .ok (n, x) => .ok (setDim b (String.ofList n) ⟨.dimPartial, String.ofList n, [env.toCoord x], none, none⟩)

/-- `db[name] = hfarray(value)`.  repo: hftools/file_formats/mdif.py:227-229, 244 -/
def putAttrib (env : Env β α) (num : Num α) (b : Block β α) (var : List (List Char)) : Except ReadErr (Block β α) :=
  match procPair num var with
  | .error e => .error e
  | .ok (n, x) =>
    match setArr env b (String.ofList n) ⟨[], ⟨[], fun _ => x⟩⟩ with
    | (_, .error e) => .error (.block e)
    | (b', .ok _) => .ok b'

/-- A block with its name and comments. -/
structure Parsed (β α : Type) where
  name : List Char
  block : Block β α
  comments : List (List Char)

/-- `parse_blocks` for one block, before `make_matrices` (for that see `Verif/Mdif/Names.lean`).
repo: hftools/file_formats/mdif.py:214-229 -/
def parseBlock (env : Env β α) (num : Num α) (r : Raw) : Except ReadErr (Parsed β α) :=
  match procData env num r.header r.data with
  | .error e => .error e
  | .ok ws =>
    match writes env {} ws with
    | .error e => .error (.block e)
    | .ok b =>
      match r.vars.foldlM (putVar env num) b with
      | .error e => .error e
      | .ok b =>
        match r.attribs.foldlM (putAttrib env num) b with
        | .error e => .error e
        | .ok b => .ok ⟨r.name.headD [], b, r.comments⟩

/-- All blocks of a file, before matrices are made and complex columns are combined.  The generators are
run in turn, so an exception in a block comes before one in the grouping of the following ones.
repo: hftools/file_formats/mdif.py:162-229, hftools/file_formats/readbase.py:307-315 -/
def read (env : Env β α) (num : Num α) (pep479 : Bool) (lines : List (List Char)) :
    Except ReadErr (List (Parsed β α)) :=
  let g := groupBlocks pep479 (tokenize lines)
  match g.1.mapM (parseBlock env num) with
  | .error e => .error e
  | .ok bs =>
    match g.2 with
    | some e => .error e
    | none => if bs.isEmpty then .error .parseError else .ok bs

end HF.Mdif
