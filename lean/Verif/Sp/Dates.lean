import Verif.Sp.Comments
/-
Model of the values of properties in comments, with dates and times: refines the values that are something else than an
array in `Verif.Sp.Comments`.

repo: hftools/file_formats/common.py:112-140, 151-171, hftools/utils.py:80-105
-/
namespace HF
namespace Dates
open Utils (isDigit decValue)
open Units (isWs)

/-- A `datetime64` of numpy: a day, a minute or a second. -/
structure Moment where
  year : Nat
  month : Nat
  day : Nat
  time : Option (Nat × Nat × Option Nat)
  deriving DecidableEq

inductive Val where
  | arr (v : ℚ) (unit : Option (List Char))
  | number (v : ℚ)
  | moment (m : Moment)
  | text (s : List Char)
  deriving DecidableEq

def leap (y : Nat) : Bool := y % 4 = 0 && (y % 100 ≠ 0 || y % 400 = 0)

def daysIn (y : Nat) : Nat → Nat
  | 1 => 31 | 2 => if leap y then 29 else 28 | 3 => 31 | 4 => 30 | 5 => 31 | 6 => 30
  | 7 => 31 | 8 => 31 | 9 => 30 | 10 => 31 | 11 => 30 | 12 => 31 | _ => 0

/-- `[0-9]{4}-[0-9]{2}-[0-9]{2}` at the beginning: the numbers and the rest. -/
def day : List Char → Option (Nat × Nat × Nat × List Char)
  | a :: b :: c :: d :: '-' :: e :: f :: '-' :: g :: h :: r =>
    if [a, b, c, d, e, f, g, h].all isDigit then some (decValue [a, b, c, d], decValue [e, f], decValue [g, h], r) else none
  | _ => none

/-- `[0-9]{2}:[0-9]{2}` at the beginning: the numbers and the rest. -/
def clock : List Char → Option (Nat × Nat × List Char)
  | a :: b :: ':' :: c :: d :: r =>
    if [a, b, c, d].all isDigit then some (decValue [a, b], decValue [c, d], r) else none
  | _ => none

/-- Seconds at the end of a text, `:[0-9]{2}`, or the end. -/
def seconds : List Char → Option (Option Nat)
  | [] => some none
  | [':', a, b] => if [a, b].all isDigit then some (some (decValue [a, b])) else none
  | _ => none

/-- `np.datetime64(s)`, `none` is `ValueError`: a day of the calendar, and a time after one blank or a `T`.  Not modelled:
fractions of seconds, hours alone and time zones, which numpy knows too, and days without the two `-`. -/
def datetime64 (s : List Char) : Option Moment :=
  match day s with
  | none => none
  | some (y, m, d, r) =>
    if 1 ≤ d ∧ d ≤ daysIn y m then
      match r with
      | [] => some ⟨y, m, d, none⟩
      | c :: r =>
        if c = ' ' ∨ c = 'T' then
          match clock r with
          | none => none
          | some (hh, mm, r) =>
            match seconds r with
            | none => none
            | some sec => if hh < 24 ∧ mm < 60 ∧ sec.getD 0 < 60 then some ⟨y, m, d, some (hh, mm, sec)⟩ else none
        else none
    else none

/-- `" ".join(value.strip().split())` behind white space at the beginning; `pending` if there was white space. -/
def joined (pending : Bool) : List Char → List Char
  | [] => []
  | c :: t => if isWs c then joined true t else if pending then ' ' :: c :: joined false t else c :: joined false t

/-- repo: hftools/file_formats/common.py:129, 136 -/
def norm (s : List Char) : List Char := joined false (s.dropWhile isWs)

/-- `[0-1][0-9]-[0-3][0-9]` in place of any digits: the tens of month and day. -/
def tens (m d : Nat) : Bool := m < 20 && d < 40

def blank (c : Char) : Bool := c = ' ' || c = '\t'

/-- `dateregexp.match(value)`.  repo: hftools/utils.py:80-81 -/
def dateregexp (s : List Char) : Bool :=
  match day s with
  | none => false
  | some (_, m, d, r) =>
    tens m d && match clock (r.dropWhile blank) with
      | none => false
      | some (_, _, r) => (seconds r).isSome

/-- `reg_date.match(value)`, a beginning.  repo: hftools/file_formats/common.py:121 -/
def regDate (s : List Char) : Bool :=
  match day s with
  | none => false
  | some (_, m, d, _) => tens m d

/-- `reg_datetime.match(value)`, a beginning.  repo: hftools/file_formats/common.py:122-123 -/
def regDatetime (s : List Char) : Bool :=
  match day s with
  | none => false
  | some (_, m, d, r) =>
    tens m d && (r.takeWhile blank != []) && match clock (r.dropWhile blank) with
      | none => false
      | some (hh, mm, _) => hh < 30 && mm < 60

/-- `to_numeric(value)` of a text, `none` is `ValueError`; numbers in decimal notation only.
repo: hftools/utils.py:84-105 -/
def toNumeric (s : List Char) : Option Val :=
  match Units.parseFloat s with
  | some x => some (.number x)
  | none => if dateregexp s then (datetime64 s).map .moment else none

/-- repo: hftools/file_formats/common.py:135-140 -/
def convDateTime (s : List Char) : Option Val :=
  if regDatetime (norm s) then (datetime64 (norm s)).map .moment else none

/-- repo: hftools/file_formats/common.py:128-133 -/
def convDate (s : List Char) : Option Val :=
  if regDate (norm s) then (datetime64 (norm s)).map .moment else none

/-- `convert(convertors, value)`: the first that raises no `ValueError`.  repo: hftools/file_formats/common.py:112-118 -/
def convert (fs : List (List Char → Option Val)) (s : List Char) : Option Val :=
  match fs with
  | [] => none
  | f :: t => match f s with
    | some v => some v
    | none => convert t s

/-- The value of a property without unit.  repo: hftools/file_formats/common.py:156-164 -/
def value (s : List Char) : Val :=
  (convert [fun s => (Units.stringToValue s).map fun p => .arr p.1 p.2, toNumeric, convDateTime, convDate] s).getD (.text s)

/-- `process_comment(comment)`: name and value of the property; values with a unit in brackets as in `Comments.value`.
repo: hftools/file_formats/common.py:151-171 -/
def property (s : List Char) : Option (List Char × Val) :=
  match Comments.parse s with
  | none => none
  | some (n, none, v) => some (n, value v)
  | some (n, some u, v) => match Comments.value (some u) v with
    | .arr x u => some (n, .arr x u)
    | .other v => some (n, .text v)

end Dates
end HF
