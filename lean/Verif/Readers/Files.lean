import Verif.Merge.Model
/-
Model of reading several files into one block.

repo: hftools/file_formats/readbase.py:265-341, 394-401
-/
namespace HF.Readers.Files

open HF.DataDict.Spec
open HF.DataBlock

variable {β α σ : Type}

/-- Exceptions of reading. -/
inductive RErr where
  | ioError
  | parseError
  | attributeError
  | data (e : DataBlock.Err)
  deriving DecidableEq

/-- `DimPartial("FILEINDEX", [k])`.  repo: hftools/file_formats/readbase.py:326-327 -/
def fileIndex (ofIdx : Nat → β) (k : Nat) : Dim β := ⟨.dimPartial, "FILEINDEX", [ofIdx k], none, none⟩

/-- `if "FILEINDEX" not in block: block["FILEINDEX"] = DimPartial("FILEINDEX", [k])`.
repo: hftools/file_formats/readbase.py:325-327 -/
def addIndex (ofIdx : Nat → β) (k : Nat) (b : Block β α) : Block β α :=
  if contains b "FILEINDEX" then b else setDim b "FILEINDEX" (fileIndex ofIdx k)

/-- `_merge`, for `hyper=False`: a single block is not touched; `none` is a list, the result for
`merge=False`.  repo: hftools/file_formats/readbase.py:394-401 -/
def mergeOf [DecidableEq β] (env : Env β α) (ofIdx : Nat → β) (en : Enum String) (merge : Bool)
    (blocks : List (Block β α)) : Except RErr (Option (Block β α)) :=
  if merge then
    match blocks with
    | [b] => .ok (some b)
    | bs =>
      match Merge.merge env ofIdx en bs with
      | .ok b => .ok (some b)
      | .error e => .error (.data e)
  else .ok none

/-- `do_file`.  `blocksOf` stands for reading the text and for the steps that treat every block
for itself (complex columns, properties, units, names, matrices), which are modelled elsewhere.
With `merge=False` the code calls `values` of a list, which has no such attribute.
`file_index` counts the files.  repo: hftools/file_formats/readbase.py:307-341 -/
def doFile [DecidableEq β] (env : Env β α) (ofIdx : Nat → β) (en : Enum String) (merge : Bool)
    (blocksOf : σ → Except DataBlock.Err (List (Block β α))) (k : Nat) (text : σ) :
    Except RErr (Block β α) :=
  match blocksOf text with
  | .error e => .error (.data e)
  | .ok [] => .error .parseError
  | .ok (b :: bs) =>
    match mergeOf env ofIdx en merge (b :: bs) with
    | .error e => .error e
    | .ok none => .error .attributeError
    | .ok (some r) => .ok (addIndex ofIdx k r)

/-- `if "FILENAME" not in res: res["FILENAME"] = hfarray(fname)`; `ofName` embeds names into the
values.  repo: hftools/file_formats/readbase.py:296-297 -/
def addName (env : Env β α) (ofName : String → α) (name : String) (b : Block β α) :
    Except RErr (Block β α) :=
  if contains b "FILENAME" then .ok b
  else
    match setArr env b "FILENAME" ⟨[], ⟨[], fun _ => ofName name⟩⟩ with
    | (b', .ok _) => .ok b'
    | (_, .error e) => .error (.data e)

/-- The loop over the files.  repo: hftools/file_formats/readbase.py:288-298 -/
def readEach [DecidableEq β] (env : Env β α) (ofIdx : Nat → β) (en : Enum String)
    (ofName : String → α) (merge : Bool) (blocksOf : σ → Except DataBlock.Err (List (Block β α))) :
    Nat → List (String × σ) → Except RErr (List (Block β α))
  | _, [] => .ok []
  | k, (name, text) :: t =>
    match doFile env ofIdx en merge blocksOf k text with
    | .error e => .error e
    | .ok b =>
      match addName env ofName name b with
      | .error e => .error e
      | .ok b' =>
        match readEach env ofIdx en ofName merge blocksOf (k + 1) t with
        | .error e => .error e
        | .ok bs => .ok (b' :: bs)

/-- `read_file(pattern)` with `multiple_files=True`, where `files` are the names that match and
the texts.  repo: hftools/file_formats/readbase.py:265-305 -/
def readFiles [DecidableEq β] (env : Env β α) (ofIdx : Nat → β) (en : Enum String)
    (ofName : String → α) (merge : Bool) (blocksOf : σ → Except DataBlock.Err (List (Block β α)))
    (files : List (String × σ)) : Except RErr (Block β α) :=
  if files.isEmpty then .error .ioError
  else
    match readEach env ofIdx en ofName merge blocksOf 0 files with
    | .error e => .error e
    | .ok bs =>
      match mergeOf env ofIdx en merge bs with
      | .error e => .error e
      | .ok none => .error .attributeError
      | .ok (some r) => .ok r

end HF.Readers.Files
