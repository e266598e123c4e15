/-
Clock times in settings.

repo: hftools/file_formats/config.py:272, 325-345
-/
namespace HF
namespace Config
namespace Clock

/-- A digit (`[0-9]`). -/
def digit (c : Char) : Option Nat := if c.isDigit then some (c.toNat - 48) else none

/-- Two digits as a number. -/
def two (a b : Char) : Option Nat :=
  match digit a, digit b with
  | some x, some y => some (10 * x + y)
  | _, _ => none

/-- The group `(:([0-9][0-9]))?` at the start of a text. -/
def seconds : List Char → Option Nat
  | ':' :: a :: b :: _ => two a b
  | _ => none

/-- `regtime.match(value)`: hours, minutes, and seconds if they are there.  Nothing is asked of the rest of the text.
repo: hftools/file_formats/config.py:272 -/
def matchTime : List Char → Option (Nat × Nat × Option Nat)
  | a :: b :: ':' :: c :: d :: rest =>
    match two a b, two c d with
    | some h, some m => some (h, m, seconds rest)
    | _, _ => none
  | _ => none

/-- Microseconds of a day. -/
def day : Nat := 86400000000

inductive Err
  | attributeError
  | valueError
  deriving DecidableEq

/-- `time_constructor` at the moment `now`, moments being microseconds of the local calendar.
repo: hftools/file_formats/config.py:325-336 -/
def timeConstructor (now : Nat) (text : List Char) : Except Err Nat :=
  match matchTime text with
  | none => .error .attributeError
  | some (h, m, s) =>
    let s := s.getD 0
    if h < 24 && m < 60 && s < 60 then
      let d2 := now / day * day + (h * 3600 + m * 60 + s) * 1000000
      .ok (if d2 < now then d2 + day else d2)
    else .error .valueError

/-- What `overrideint` gives: a moment, or what PyYAML makes of the number.
repo: hftools/file_formats/config.py:339-345 -/
def overrideInt {V : Type} (now : Nat) (moment : Nat → V) (yamlInt : List Char → Except Err V) (text : List Char) :
    Except Err V :=
  match matchTime text with
  | some _ => (timeConstructor now text).map moment
  | none => yamlInt text

end Clock
end Config
end HF
