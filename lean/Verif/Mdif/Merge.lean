import Verif.Mdif.Read
import Verif.Merge.Model
/-
MDIF files: blocks of the same name are put together, and several files are read into one result.

repo: hftools/file_formats/mdif.py:113-160, 311-348, hftools/file_formats/readbase.py:307-341
-/
namespace HF.Mdif

open HF.DataDict.Spec HF.DataBlock

variable {β α σ : Type}

/-- `DimRep("INDEX", n)`; `ofIdx` embeds natural numbers into coordinate values.
repo: hftools/file_formats/mdif.py:330 -/
def repDim (ofIdx : Nat → β) (n : Nat) : Dim β := ⟨.dimRep, "INDEX", (List.range n).map ofIdx, none, none⟩

/-- `[b[k] for b in blocks]` -/
def blocksAt (env : Env β α) (k : String) : List (Block β α) → Except DataBlock.Err (List (Arr β α))
  | [] => .ok []
  | b :: bs =>
    match getitem env b k with
    | .error e => .error e
    | .ok v =>
      match blocksAt env k bs with
      | .error e => .error e
      | .ok vs => .ok (v :: vs)

/-- One variable: first put into the block with the new dimension in front, then taken out, turned and put
into the block again.  Simplification: numpy wants equal shapes, see `Merge.stack`.
repo: hftools/file_formats/mdif.py:333-337 -/
def stackVar [DecidableEq β] (env : Env β α) (ri : Dim β) (blocks : List (Block β α)) (out : Block β α) (k : String) :
    Except DataBlock.Err (Block β α) :=
  match blocksAt env k blocks with
  | .error e => .error e
  | .ok [] => .error .indexError
  | .ok (v0 :: vs) =>
    match ofArr (Merge.stack (ri :: v0.dims) v0 vs) with
    | .error e => .error e
    | .ok a =>
      match setArr env out k a with
      | (_, .error e) => .error e
      | (out, .ok _) =>
        match v0.dims with
        | [] => .ok out
        | d :: _ =>
          match getitem env out k with
          | .error e => .error e
          | .ok a =>
            match ofArr (a.reorderDimensions [.dim d]) with
            | .error e => .error e
            | .ok a =>
              match setArr env out k a with
              | (_, .error e) => .error e
              | (out, .ok _) => .ok out

/-- `[b.ivardata[k].data[0] for b in blocks]`.  repo: hftools/file_formats/mdif.py:340 -/
def firsts (env : Env β α) (k : String) : List (Block β α) → Except DataBlock.Err (List α)
  | [] => .ok []
  | b :: bs =>
    match lookup b.ivars k with
    | none => .error .keyError
    | some d =>
      match d.data with
      | [] => .error .indexError
      | x :: _ =>
        match firsts env k bs with
        | .error e => .error e
        | .ok xs => .ok (env.toVal x :: xs)

/-- `hfarray([...], dims=(ri,))` -/
def repArr (env : Env β α) (ri : Dim β) (l : List α) : Arr β α :=
  ⟨[ri], ⟨[l.length], fun idx => l.getD (idx.headD 0) env.junk⟩⟩

/-- repo: hftools/file_formats/mdif.py:338-341 -/
def stackPartial (env : Env β α) (ri : Dim β) (blocks : List (Block β α)) (out : Block β α) (p : String × Dim β) :
    Except DataBlock.Err (Block β α) :=
  if p.2.isa .dimPartial then
    match firsts env p.1 blocks with
    | .error e => .error e
    | .ok l =>
      match setArr env out p.1 (repArr env ri l) with
      | (_, .error e) => .error e
      | (out, .ok _) => .ok out
  else .ok out

/-- A block with its comments. -/
structure Commented (β α : Type) where
  block : Block β α
  comments : List (List Char)

/-- `simple_merge_blocks`.  repo: hftools/file_formats/mdif.py:327-348 -/
def simpleMerge [DecidableEq β] (env : Env β α) (ofIdx : Nat → β) (bs : List (Commented β α)) :
    Except DataBlock.Err (Commented β α) :=
  match bs with
  | [] => .error .indexError
  | [b] => .ok b
  | b0 :: bs =>
    let blocks := (b0 :: bs).map Commented.block
    let ri := repDim ofIdx blocks.length
    match (keys b0.block.vars).foldlM (stackVar env ri blocks) {} with
    | .error e => .error e
    | .ok out =>
      match b0.block.ivars.foldlM (stackPartial env ri blocks) out with
      | .error e => .error e
      | .ok out => .ok ⟨out, (b0 :: bs).flatMap Commented.comments⟩

/-- `out.setdefault(name, []).append(block)` for all blocks.
repo: hftools/file_formats/mdif.py:313-315, 321-323 -/
def addGroup {γ : Type} (m : OMap (List Char) (List γ)) (name : List Char) (x : List γ) : OMap (List Char) (List γ) :=
  assign m name ((lookup m name).getD [] ++ x)

def byName (ps : List (Parsed β α)) : OMap (List Char) (List (Commented β α)) :=
  ps.foldl (fun m p => addGroup m p.name [⟨p.block, p.comments⟩]) []

/-- `if "FILEINDEX" not in x: x["FILEINDEX"] = DimPartial("FILEINDEX", [k])`.
repo: hftools/file_formats/readbase.py:325-339 -/
def withFileIndex (ofIdx : Nat → β) (k : Nat) (c : Commented β α) : Commented β α :=
  { c with block :=
      if contains c.block "FILEINDEX" then c.block
      else setDim c.block "FILEINDEX" ⟨.dimPartial, "FILEINDEX", [ofIdx k], none, none⟩ }

/-- `a["FILENAME"] = hfarray(fname)`; `ofName` embeds names into the values.
repo: hftools/file_formats/mdif.py:137, 140 -/
def withFileName (env : Env β α) (ofName : String → α) (name : String) (c : Commented β α) : Except DataBlock.Err (Commented β α) :=
  match setArr env c.block "FILENAME" ⟨[], ⟨[], fun _ => ofName name⟩⟩ with
  | (_, .error e) => .error e
  | (b, .ok _) => .ok { c with block := b }

inductive FileErr where
  | ioError
  | parseError
  | data (e : DataBlock.Err)
  deriving DecidableEq, Repr

/-- `do_file` with `merge=False`: a dictionary from names to lists of blocks.  `blocksOf` stands for reading the
text (`Mdif.read`) and for the steps that treat every block for itself.
repo: hftools/file_formats/readbase.py:307-341, hftools/file_formats/mdif.py:320-324 -/
def doFile (ofIdx : Nat → β) (blocksOf : σ → Except FileErr (List (Parsed β α))) (k : Nat) (text : σ) :
    Except FileErr (OMap (List Char) (List (Commented β α))) :=
  match blocksOf text with
  | .error e => .error e
  | .ok [] => .error .parseError
  | .ok (p :: ps) => .ok ((byName (p :: ps)).map fun g => (g.1, g.2.map (withFileIndex ofIdx k)))

/-- `for k, v in res.items(): ... objs.setdefault(k, []).extend(v)`.
repo: hftools/file_formats/mdif.py:133-138 -/
def extendObjs (env : Env β α) (ofName : String → α) (name : String) (objs : OMap (List Char) (List (Commented β α)))
    (g : List Char × List (Commented β α)) : Except FileErr (OMap (List Char) (List (Commented β α))) :=
  match g.2.mapM (withFileName env ofName name) with
  | .error e => .error (.data e)
  | .ok l => .ok (addGroup objs g.1 l)

/-- The loop over the files; `file_index` counts them.  repo: hftools/file_formats/mdif.py:129-141 -/
def loopFiles (env : Env β α) (ofIdx : Nat → β) (ofName : String → α) (blocksOf : σ → Except FileErr (List (Parsed β α))) :
    Nat → OMap (List Char) (List (Commented β α)) → List (String × σ) → Except FileErr (OMap (List Char) (List (Commented β α)))
  | _, objs, [] => .ok objs
  | k, objs, (name, text) :: t =>
    match doFile ofIdx blocksOf k text with
    | .error e => .error e
    | .ok res =>
      match res.foldlM (extendObjs env ofName name) objs with
      | .error e => .error e
      | .ok objs => loopFiles env ofIdx ofName blocksOf (k + 1) objs t

/-- `res[k] = simple_merge_blocks(v)` for all groups.  The units (`guess_units`) are not modelled here.
repo: hftools/file_formats/mdif.py:144-147 -/
def mergeGroups [DecidableEq β] (env : Env β α) (ofIdx : Nat → β) :
    OMap (List Char) (List (Commented β α)) → Except FileErr (OMap (List Char) (Commented β α))
  | [] => .ok []
  | g :: gs =>
    match simpleMerge env ofIdx g.2 with
    | .error e => .error (.data e)
    | .ok c =>
      match mergeGroups env ofIdx gs with
      | .error e => .error e
      | .ok cs => .ok ((g.1, c) :: cs)

/-- What is returned: all blocks, one of them, or `None`. -/
inductive Result (β α : Type) where
  | all (m : OMap (List Char) (Commented β α))
  | one (c : Commented β α)
  | none

/-- `read_file(pattern, blockname=...)` with `multiple_files=True`, where `files` are the names that match and
the texts; `merge` has no effect then.  If there is no block of this name the exception is made but not
raised.  repo: hftools/file_formats/mdif.py:113-160 -/
def readFiles [DecidableEq β] (env : Env β α) (ofIdx : Nat → β) (ofName : String → α)
    (blocksOf : σ → Except FileErr (List (Parsed β α))) (blockname : Option (List Char)) (files : List (String × σ)) :
    Except FileErr (Result β α) :=
  match loopFiles env ofIdx ofName blocksOf 0 [] files with
  | .error e => .error e
  | .ok objs =>
    match mergeGroups env ofIdx objs with
    | .error e => .error e
    | .ok res =>
      match blockname with
      | none => .ok (.all res)
      | some [] => .ok (.all res)
      | some n =>
        match lookup res n with
        | some c => .ok (.one c)
        | none => .ok .none

end HF.Mdif
