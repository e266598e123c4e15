import Verif.Readers.Complex
import Verif.Readers.FixUnit
import Verif.Readers.Normalize
import Verif.Readers.Assemble
import Verif.Readers.Files
import Verif.Sp.Model
/-
The steps between the columns of a file and the block that is handed out.

repo: hftools/file_formats/readbase.py:307-391, hftools/dataset/dataset.py:252-259
-/
namespace HF.Readers.Treat

open HF.DataBlock
open HF.DataDict.Spec
open HF.Readers.FixUnit (UBlock setUnit)
open HF.Comments (PVal)

variable {β α : Type}

/-- The unit of `hfarray(v)` for a property: that of the array. -/
def unitOfProp : PVal → Option String
  | .arr _ u => u.map String.ofList
  | .other _ => none

/-- `values_from_property()` with the properties in the order of the dictionary, which is arbitrary;
`ofProp` gives the value as element of an array, `none` for what is neither an array nor a number nor
text.  repo: hftools/dataset/dataset.py:252-259 -/
def valuesFromProperty (env : Env β α) (ofProp : PVal → Option α) :
    UBlock β α → List (String × PVal) → Except Err (UBlock β α)
  | b, [] => .ok b
  | b, (k, v) :: t =>
    match ofProp v with
    | none => valuesFromProperty env ofProp b t
    | some x =>
      if contains b.blk k then valuesFromProperty env ofProp b t
      else
        match setArr env b.blk k ⟨[], ⟨[], fun _ => x⟩⟩ with
        | (_, .error e) => .error e
        | (b', .ok _) => valuesFromProperty env ofProp (setUnit ⟨b', b.units⟩ k (unitOfProp v)) t

/-- What the steps need to know: conversions of numbers, the table of names in the order of the
dictionary, and the table of units by name. -/
structure Steps (β α : Type) where
  /-- `x` with full covariance dimensions, not used for plain columns -/
  full : Arr β α → Arr β α
  /-- `x + 1j*y` and `x * exp(1j*y)` -/
  rect : α → α → α
  polar : α → α → α
  mul : ℚ → α → α
  cmul : ℚ → β → β
  guess : String → Option String
  table : List (String × String)
  num : Nat → β
  cast : Arr β α → α → α
  ofProp : PVal → Option α

/-- The unit of the variable `k` after variables got new names: the names are paired by their
positions. -/
def carry (u : String → Option String) (old new : List String) (k : String) : Option String :=
  match (new.zip old).find? (fun p => p.1 = k) with
  | some p => u p.2
  | none => none

/-- The steps for one block after the complex numbers, with the default arguments of the readers and the
given forms of names of elements, for a block whose variables may have units.  A new array for a matrix has no unit.
repo: hftools/file_formats/readbase.py:318-321, 349-391 -/
def laterOn (forms : List Assemble.Form) (env : Env β α) (S : Steps β α) (props : List (String × PVal)) (b : UBlock β α) :
    Except Err (UBlock β α) :=
  match valuesFromProperty env S.ofProp b props with
  | .error e => .error e
  | .ok b2 =>
    match FixUnit.guessUnit env S.mul S.cmul S.guess b2 with
    | .error e => .error e
    | .ok b3 =>
      match Normalize.normalize env S.table b3.blk with
      | .error e => .error e
      | .ok b4 =>
        match Assemble.makeMatricesBy forms env S.num S.cast b4 with
        | .error e => .error e
        | .ok b5 =>
          .ok ⟨b5, fun k =>
            if k ∈ (Assemble.matrices (b4.vars.map Prod.fst) forms []).map Assemble.Group.name then none
            else carry b3.units (b3.blk.vars.map Prod.fst) (b4.vars.map Prod.fst) k⟩

/-- The same for a block whose variables have no units. -/
def later (forms : List Assemble.Form) (env : Env β α) (S : Steps β α) (props : List (String × PVal)) (b : Block β α) :
    Except Err (UBlock β α) := laterOn forms env S props ⟨b, fun _ => none⟩

/-- All steps for one block, with the default arguments of the readers.  The code does each step for all
blocks before the next one, which makes a difference for the exception that is seen only.
repo: hftools/file_formats/readbase.py:317-321, 343-391 -/
def treat (env : Env β α) (S : Steps β α) (props : List (String × PVal)) (b : Block β α) :
    Except Err (UBlock β α) :=
  match Complex.makeCplx env S.full S.rect S.polar b with
  | .error e => .error e
  | .ok b1 => later [.digits] env S props b1

/-- The blocks of an SP file after these steps.  An exception of the parser is not told apart from
others here.  repo: hftools/file_formats/readbase.py:307-321, hftools/file_formats/spdata.py:54-157 -/
def spBlocks (env : Env β α) (S : Steps β α) (ofRat : ℚ → β) (conv : List Char → α)
    (lines : List (List Char)) : Except Err (List (UBlock β α)) :=
  match Sp.read env S.num ofRat conv lines with
  | .error _ => .error .valueError
  | .ok ps => ps.mapM fun p => treat env S p.property p.block

/-- `read_spdata(name)` for one file with its default arguments.
repo: hftools/file_formats/spdata.py:194-205, hftools/file_formats/readbase.py:265-341 -/
def readSp [DecidableEq β] (env : Env β α) (S : Steps β α) (ofRat : ℚ → β) (conv : List Char → α)
    (ofIdx : Nat → β) (en : Enum String) (ofName : String → α) (name : String) (lines : List (List Char)) :
    Except Files.RErr (Block β α) :=
  Files.readFiles env ofIdx en ofName true
    (fun ls => match spBlocks env S ofRat conv ls with
      | .error e => .error e
      | .ok us => .ok (us.map UBlock.blk)) [(name, lines)]

end HF.Readers.Treat
