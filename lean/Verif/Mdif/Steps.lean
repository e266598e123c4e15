import Verif.Mdif.Merge
import Verif.Mdif.Names
import Verif.Readers.Treat
/-
MDIF files: matrices from the columns of a block, and all steps of the reader.

repo: hftools/file_formats/mdif.py:113-160, 214-231, 274-308, hftools/file_formats/readbase.py:307-391
-/
namespace HF.Mdif

open HF.DataDict.Spec HF.DataBlock
open HF.Readers.FixUnit (UBlock)
open HF.Readers.Treat (Steps)

variable {β α : Type}

/-- `np.array(db.vardata[name])[:, np.newaxis]`.  A number has no axis for this; an array of more axes cannot
be put together with others by the sizes of the index sets.  These exceptions are not told apart.
repo: hftools/file_formats/mdif.py:281-282, 297 -/
def axisOf (vars : OMap String (Arr β α)) (n : List Char) : Except Err (Arr β α) :=
  match lookup vars (String.ofList n) with
  | none => .error .key
  | some a => if a.nd.shape.length = 1 then .ok a else .error .value

/-- `np.concatenate` along axis 1 wants columns of the same length. -/
def sameRows (cols : List (Arr β α)) : Bool :=
  cols.all fun a => decide (a.nd.shape = cols.head?.elim [] fun b => b.nd.shape)

/-- `make_matrix(X, dims)` with the columns side by side and the dimensions of the last of them.
repo: hftools/file_formats/mdif.py:283-286, hftools/dataset/arrayobj.py:1014-1017 -/
def matrixOf (env : Env β α) (num : Nat → β) (p q : Nat) (cols : List (Arr β α)) : Arr β α :=
  ⟨(cols.getLast?.elim [] Arr.dims) ++ Readers.Assemble.matDims num p q,
    ⟨(cols.head?.elim [] fun a => a.nd.shape) ++ [p, q], fun idx =>
      match idx with
      | [r, i, j] => (cols[i * q + j]?).elim env.junk fun a => a.nd.get [r]
      | _ => env.junk⟩⟩

/-- `make_vector(X, dims)`.  repo: hftools/file_formats/mdif.py:298-301, hftools/dataset/arrayobj.py:1020-1022 -/
def vectorOf (env : Env β α) (num : Nat → β) (cols : List (Arr β α)) : Arr β α :=
  ⟨(cols.getLast?.elim [] Arr.dims) ++ [⟨.matJ, "j", (List.range cols.length).map num, none, none⟩],
    ⟨(cols.head?.elim [] fun a => a.nd.shape) ++ [cols.length], fun idx =>
      match idx with
      | [r, i] => (cols[i]?).elim env.junk fun a => a.nd.get [r]
      | _ => env.junk⟩⟩

/-- The matrix `n` from its elements.  The axes of the matrix are not added to the dimensions of the block.
repo: hftools/file_formats/mdif.py:276-291 -/
def makeMatrixB (env : Env β α) (num : Nat → β) (vars : OMap String (Arr β α)) (n : List Char) (l : List MatEntry) :
    Except Err (OMap String (Arr β α)) :=
  let a := Py.sortBy pairLt (l.map fun e => (e.2.1, e.2.2.1))
  match (a.map fun e => matName n e.1 e.2).mapM (axisOf vars) with
  | .error e => .error e
  | .ok cols =>
    if sameRows cols then
      place vars (String.ofList n) (matrixOf env num (a.map Prod.fst).dedup.length (a.map Prod.snd).dedup.length cols)
        ((a.map fun e => matName n e.1 e.2).map String.ofList)
    else .error .value

/-- repo: hftools/file_formats/mdif.py:293-308 -/
def makeVectorB (env : Env β α) (num : Nat → β) (vars : OMap String (Arr β α)) (n : List Char) (l : List VecEntry) :
    Except Err (OMap String (Arr β α)) :=
  let a := Py.sortBy (fun a b => decide (a < b)) (l.map fun e => e.2.1)
  match (a.map (vecName n)).mapM (axisOf vars) with
  | .error e => .error e
  | .ok cols =>
    if sameRows cols then place vars (String.ofList n) (vectorOf env num cols) ((a.map (vecName n)).map String.ofList)
    else .error .value

/-- `make_matrices(db, header)`.  repo: hftools/file_formats/mdif.py:274-308 -/
def assemble (env : Env β α) (num : Nat → β) (header : List (List Char)) (b : Block β α) : Except Err (Block β α) :=
  match makeAll (makeMatrixB env num) (matchNames header).matrix b.vars with
  | .error e => .error e
  | .ok vars =>
    match makeAll (makeVectorB env num) (matchNames header).vector vars with
    | .error e => .error e
    | .ok vars => .ok { b with vars := vars }

/-- One block of the file with all steps.  repo: hftools/file_formats/mdif.py:230, hftools/file_formats/readbase.py:307-391 -/
def treatBlock (env : Env β α) (S : Steps β α) (header : List (List Char)) (p : Parsed β α) :
    Except DataBlock.Err (UBlock β α) :=
  match assemble env S.num header p.block with
  | .error .key => .error .keyError
  | .error .value => .error .valueError
  | .ok b => Readers.Treat.treat env S (Comments.properties p.comments) b

/-- A block that is read: its name, the block with the units of its variables, and its comments. -/
structure Treated (β α : Type) where
  name : List Char
  blk : UBlock β α
  comments : List (List Char)

def Treated.parsed (t : Treated β α) : Parsed β α := ⟨t.name, t.blk.blk, t.comments⟩

/-- A block with its name and comments; `sum(header, [])` are the titles of all lines of the header.
repo: hftools/file_formats/mdif.py:230 -/
def treatOne (env : Env β α) (S : Steps β α) (x : Raw × Parsed β α) : Except FileErr (Treated β α) :=
  match treatBlock env S x.1.header.flatten x.2 with
  | .error e => .error (.data e)
  | .ok u => .ok ⟨x.2.name, u, x.2.comments⟩

/-- All blocks of a file.  The exceptions of the parser are not told apart, and the code does each step for all
blocks before the next one, which makes a difference for the exception that is seen only.
repo: hftools/file_formats/readbase.py:307-321, hftools/file_formats/mdif.py:162-231 -/
def treatAll (env : Env β α) (num : Num α) (S : Steps β α) (pep479 : Bool) (lines : List (List Char)) :
    Except FileErr (List (Treated β α)) :=
  match read env num pep479 lines with
  | .error _ => .error .parseError
  | .ok ps =>
    ((groupBlocks pep479 (tokenize lines)).1.zip ps).mapM (treatOne env S)

/-- `read_mdif(pattern, blockname=...)` with its default arguments, for the texts of the files.  The units of the variables
are not followed through the merging.  repo: hftools/file_formats/mdif.py:113-160, 524-535 -/
def readMdif [DecidableEq β] (env : Env β α) (num : Num α) (S : Steps β α) (ofIdx : Nat → β) (ofName : String → α)
    (blockname : Option (List Char)) (files : List (String × List (List Char))) : Except FileErr (Result β α) :=
  readFiles env ofIdx ofName (fun ls => (treatAll env num S false ls).map (List.map Treated.parsed)) blockname files

end HF.Mdif
