import Verif.Units.Model
import Verif.DataBlock.Model
/-
Comments of files and the properties in them.

repo: hftools/file_formats/common.py:107-121, 151-204
-/
namespace HF.Comments

open HF.DataDict.Spec
open HF.DataBlock (isLetter isDig)
open Units (isWs strip)

/-- `[%\w\d:=_#\s/]`; of the letters and digits only the ASCII ones are modelled.
repo: hftools/file_formats/common.py:109 -/
def isUnitText (c : Char) : Bool :=
  c = '%' || isLetter c || isDig c || c = ':' || c = '=' || c = '#' || isWs c || c = '/'

/-- `\s*[:=]\s*(.+)`: the value.  The texts matched have no white space at the end and no line
breaks, so what is left after the blanks is either empty (no match) or the value. -/
def matchValue (s : List Char) : Option (List Char) :=
  match s.dropWhile isWs with
  | c :: r =>
    if c = ':' ∨ c = '=' then
      match r.dropWhile isWs with
      | [] => none
      | v => some v
    else none
  | [] => none

/-- `\s*([[]([%\w\d:=_#\s/]+)[]])?\s*[:=]\s*(.+)`: unit and value.  A text that begins with a
bracket can only be matched with the unit, one that does not only without it.
repo: hftools/file_formats/common.py:109-110 -/
def matchTail (s : List Char) : Option (Option (List Char) × List Char) :=
  match s.dropWhile isWs with
  | '[' :: r =>
    match r.takeWhile (· ≠ ']'), r.dropWhile (· ≠ ']') with
    | u, _ :: t => if u ≠ [] ∧ u.all isUnitText then (matchValue t).map fun v => (some u, v) else none
    | _, [] => none
  | _ => (matchValue s).map fun v => (none, v)

/-- `(.*?)` is the shortest text after which the rest matches; `pre` is what has been passed. -/
def matchFrom : List Char → List Char → Option (List Char × Option (List Char) × List Char)
  | pre, [] => (matchTail []).map fun t => (pre, t.1, t.2)
  | pre, c :: s =>
    match matchTail (c :: s) with
    | some t => some (pre, t.1, t.2)
    | none => matchFrom (pre ++ [c]) s

/-- `reg_comment_all.match(comment)` for a comment without white space at both ends and without
line breaks: name, unit and value.  repo: hftools/file_formats/common.py:109-110, 152-155 -/
def parse (s : List Char) : Option (List Char × Option (List Char) × List Char) := matchFrom [] s

/-- The value of a property: an array with a unit, or something else (a python number, a date or
text), which has no unit. -/
inductive PVal where
  | arr (v : ℚ) (unit : Option (List Char))
  | other (s : List Char)
  deriving DecidableEq

/-- `convert([convert_with_unit], unit, value)` or `convert([string_number_with_unit_to_value,
to_numeric, conv_date_time, conv_date], value)`; numbers in decimal notation only.
repo: hftools/file_formats/common.py:112-118, 156-169 -/
def value (unit : Option (List Char)) (v : List Char) : PVal :=
  match unit with
  | none =>
    match Units.stringToValue v with
    | some (x, u) => .arr x u
    | none => .other v
  | some u =>
    match Units.parseFloat v with
    | some x => .arr (Units.convertWithUnit (some u) x).1 (Units.convertWithUnit (some u) x).2
    | none => .other v

/-- `comment.lstrip("!").strip()`.  repo: hftools/file_formats/common.py:189 -/
def clean (c : List Char) : List Char := strip (c.dropWhile (· = '!'))

/-- `add_from_comment(comment)`.  repo: hftools/file_formats/common.py:188-192 -/
def add (m : OMap String PVal) (c : List Char) : OMap String PVal :=
  match clean c with
  | [] => m
  | s =>
    match parse s with
    | some (n, u, v) => assign m (String.ofList n) (value u v)
    | none => m

/-- The properties of `Comments(fullcomments)`.  repo: hftools/file_formats/common.py:179-196 -/
def properties (cs : List (List Char)) : OMap String PVal := cs.foldl add []

end HF.Comments
