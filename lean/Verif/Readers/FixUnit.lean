import Verif.DataBlock.Model
import Verif.Units.Model
import Verif.Readers.Complex
/-
Units of the columns of a file: guessed from the name, or taken from a title like `Vgs [mV]`.

repo: hftools/file_formats/readbase.py:160-178, 354-360; hftools/dataset/dataset.py:619-643
-/
namespace HF.Readers.FixUnit

open HF.DataBlock
open HF.DataDict.Spec
open HF.Units (unitToMultiplier)

/-- `[ \t]` -/
def isBlank (c : Char) : Bool := c = ' ' || c = '\t'

/-- `[a-zA-Z]` -/
def isAlpha (c : Char) : Bool :=
  (decide ('A' ≤ c) && decide (c ≤ 'Z')) || (decide ('a' ≤ c) && decide (c ≤ 'z'))

/-- `([a-zA-Z]+)[]]*$` at the beginning of `s`; `$` also matches before a final line break.
repo: hftools/file_formats/readbase.py:160 -/
def unitTail (s : List Char) : Option (List Char) :=
  let u := s.takeWhile isAlpha
  let r := (s.dropWhile isAlpha).dropWhile (· = ']')
  if u ≠ [] ∧ (r = [] ∨ r = ['\n']) then some u else none

/-- `[ \t]*[[]([a-zA-Z]+)[]]*$` at the beginning of `s`. -/
def unitPart (s : List Char) : Option (List Char) :=
  match s.dropWhile isBlank with
  | '[' :: t => unitTail t
  | _ => none

/-- `reg_varunit.match(s).groups()`, `(.*?)[ \t]*[[]([a-zA-Z]+)[]]*$`: the first group is as short as
possible and has no line break.  repo: hftools/file_formats/readbase.py:160 -/
def varunit : List Char → Option (List Char × List Char)
  | [] => none
  | c :: t =>
    match unitPart (c :: t) with
    | some u => some ([], u)
    | none => if c = '\n' then none else (varunit t).map fun p => (c :: p.1, p.2)

/-- New name, multiplier and unit for a title with a unit.
repo: hftools/file_formats/readbase.py:164-167 -/
def title (t : String) : Option (String × ℚ × Option String) :=
  match varunit t.toList with
  | none => none
  | some (n, u) => some (String.ofList n, (unitToMultiplier u).1, (unitToMultiplier u).2.map String.ofList)

variable {β α : Type}

/-- A block with the attributes `unit` of its variables, by their names. -/
structure UBlock (β α : Type) where
  blk : Block β α
  units : String → Option String

/-- `x * mul` for a number; dims stay (`C06_scalar`). -/
def times (mul : ℚ → α → α) (m : ℚ) (x : Arr β α) : Arr β α :=
  ⟨x.dims, ⟨x.nd.shape, fun i => mul m (x.nd.get i)⟩⟩

/-- `db[n].unit = u`: an independent variable or an element of a matrix is handed out as a new
array, so this has an effect for a dependent variable only. -/
def setUnit (b : UBlock β α) (n : String) (u : Option String) : UBlock β α :=
  if member b.blk.ivars n then b
  else if member b.blk.vars n then ⟨b.blk, fun k => if k = n then u else b.units k⟩
  else b

/-- `fix_unit(db, varname)`.  `mul m` and `cmul m` multiply an element or a coordinate by the number
`m`; variables and dimensions are taken to hold numbers.
repo: hftools/file_formats/readbase.py:163-178 -/
def fixUnit (env : Env β α) (mul : ℚ → α → α) (cmul : ℚ → β → β) (b : UBlock β α) (v : String) :
    Except Err (UBlock β α) :=
  match title v with
  | none => .ok b
  | some (n, m, u) =>
    match lookup b.blk.ivars v with
    | some d =>
      match replaceDim b.blk d (Dim.copyFrom env.dfltDim d.cls d (data := some (d.data.map (cmul m)))
          (unit := u) (name := some n)) with
      | none => .error .keyError
      | some blk => .ok ⟨blk, b.units⟩
    | none =>
      match renameVar env b.blk v n with
      | (_, .error e) => .error e
      | (b1, .ok _) =>
        let units := fun k => if k = n ∧ member b.blk.vars v then b.units v else b.units k
        match getitem env b1 n with
        | .error e => .error e
        | .ok x =>
          match setArr env b1 n (times mul m x) with
          | (_, .error e) => .error e
          | (b2, .ok _) => .ok (setUnit ⟨b2, units⟩ n u)

/-- One name of `guess_units`; `guess` is the table of units by name, which can be extended
(`add_var_guess`).  The properties in comments are not modelled here.
repo: hftools/dataset/dataset.py:629-637, hftools/dataset/helper.py:10-39 -/
def guessOne (env : Env β α) (guess : String → Option String) (b : UBlock β α) (v : String) :
    Except Err (UBlock β α) :=
  match lookup b.blk.ivars v with
  | some d =>
    if d.unit = none then
      match replaceDim b.blk d (Dim.copyFrom env.dfltDim d.cls d (unit := guess v)) with
      | none => .error .keyError
      | some blk => .ok ⟨blk, b.units⟩
    else .ok b
  | none =>
    if member b.blk.vars v && b.units v = none then
      .ok ⟨b.blk, fun k => if k = v then guess v else b.units k⟩
    else .ok b

/-- A loop over names. -/
def each (f : UBlock β α → String → Except Err (UBlock β α)) :
    UBlock β α → List String → Except Err (UBlock β α)
  | b, [] => .ok b
  | b, v :: t =>
    match f b v with
    | .error e => .error e
    | .ok b' => each f b' t

/-- `ReadFileFormat._guess_unit` for one block.
repo: hftools/file_formats/readbase.py:354-360 -/
def guessUnit (env : Env β α) (mul : ℚ → α → α) (cmul : ℚ → β → β) (guess : String → Option String)
    (b : UBlock β α) : Except Err (UBlock β α) :=
  match each (guessOne env guess) b (Complex.allNames b.blk) with
  | .error e => .error e
  | .ok b1 => each (fixUnit env mul cmul) b1 (Complex.allNames b1.blk)

end HF.Readers.FixUnit
