import Verif.Config.Re
import Verif.Config.Write
import Verif.Config.Clock
import Verif.Units.Model
/-
Scalars of a configuration file without quotes: how they are recognised and what they become.

repo: hftools/file_formats/config.py:23-34, 212-218, 266-322, 418-427
-/
namespace HF
namespace Config
namespace Scalars

open Re
open Utils (isDigit)
open Units (parseFloat pow10 siprefixes cfgPrefixes cfgUnits)

/-- `[ \t]` -/
def isBlank (c : Char) : Bool := c = ' ' || c = '\t'
/-- `[-+]` -/
def isSign (c : Char) : Bool := c = '-' || c = '+'
/-- `[eE]` -/
def isE (c : Char) : Bool := c = 'e' || c = 'E'

/-- `([-+]?[0-9]*\.?[0-9]+([eE][-+]?[0-9]+)?)`, the groups 1 and 2.
repo: hftools/file_formats/config.py:266, 269 -/
def number : Re :=
  .group 1 (seqs [.opt (.cls isSign), .star isDigit, .opt (chr '.'), plus isDigit,
    .opt (.group 2 (seqs [.cls isE, .opt (.cls isSign), plus isDigit]))])

/-- `(([dcmunpfakMGTPE])?(Hz|V|A|m|s|W|Ohm)?)?$`, the groups 3 to 5.
repo: hftools/file_formats/config.py:267 -/
def siTail : Re :=
  .seq (.opt (.group 3 (.seq (.opt (.group 4 (.cls fun c => cfgPrefixes.contains c)))
    (.opt (.group 5 (words cfgUnits)))))) .eos

/-- `reg_si_value`.  repo: hftools/file_formats/config.py:266-267 -/
def regSI : Re := .seq (.seq number (.star isBlank)) siTail

/-- `reg_percent_value`.  repo: hftools/file_formats/config.py:269-270 -/
def regPercent : Re :=
  .seq (.seq number (.star isBlank)) (.seq (.group 3 (words [['%'], ['p', 'p', 'm'], ['p', 'p', 'b']])) .eos)

/-- One part of `timeintervallpattern`: `(([0-9]+([.][0-9]*)?)[ ]*(?:days|day))?`, the groups from `n` on.
repo: hftools/file_formats/config.py:280-283 -/
def part (n : Nat) (ws : List (List Char)) : Re :=
  .opt (.group n (seqs [.group (n + 1) (.seq (plus isDigit) (.opt (.group (n + 2) (.seq (chr '.') (.star isDigit))))),
    .star (· = ' '), words ws]))

/-- `timeintervallpattern`.  repo: hftools/file_formats/config.py:280-283 -/
def regInterval : Re :=
  seqs [part 1 ["days".toList, "day".toList], .star (· = ' '), part 4 ["hour".toList, "hours".toList], .star (· = ' '),
    part 7 ["minutes".toList, "minute".toList], .star (· = ' '), part 10 ["second".toList, "seconds".toList], .eos]

/-- Some digits. -/
def digits : Nat → Re
  | 0 => .eps
  | n + 1 => .seq (.cls isDigit) (digits n)

/-- `regdatetimeshort`.  repo: hftools/file_formats/config.py:274-275 -/
def regDateTime : Re :=
  seqs [digits 4, chr '-', digits 2, chr '-', digits 2, chr ' ', digits 2, chr ':', digits 2]

/-- `regtime`, the groups 1 to 4.  repo: hftools/file_formats/config.py:272 -/
def regTime : Re :=
  seqs [.group 1 (digits 2), chr ':', .group 2 (digits 2), .opt (.group 3 (.seq (chr ':') (.group 4 (digits 2))))]

/-- The expressions hftools adds, in the order in which they are tried.
repo: hftools/file_formats/config.py:428-436 -/
def resolvers : List (Tag × Re) :=
  [(.sivalue, regSI), (.percent, regPercent), (.interval, regInterval), (.shortdatetime, regDateTime), (.time, regTime)]

/-- The tag of a text without quotes: `yaml` are the resolvers of PyYAML, which are tried first.
repo: hftools/file_formats/config.py:428-436 -/
def detect (yaml : List Char → Option Tag) (t : List Char) : Tag :=
  match yaml t with
  | some g => g
  | none =>
    match resolvers.find? fun p => (p.2.match t).isSome with
    | some p => p.1
    | none => .str

inductive Err
  | attributeError
  | valueError
  | keyError
  deriving DecidableEq

/-- `siprefixes[exp]` with `exp = ""` for `None`. -/
def prefixOf : Option (List Char) → Option Int
  | none => some 0
  | some [] => some 0
  | some [c] => siprefixes.lookup c
  | some _ => none

/-- `SIValue(text)`: the number and the unit, exact.  A text that is not matched is left to `float`.
repo: hftools/file_formats/config.py:23-34, 212-218, 286-288 -/
def siConstructor (t : List Char) : Except Err (ℚ × Option (List Char)) :=
  match regSI.match t with
  | none =>
    match parseFloat t with
    | some x => .ok (x, none)
    | none => .error .valueError
  | some g =>
    match g.get 1 with
    | none => .error .valueError
    | some v =>
      match parseFloat v with
      | none => .error .valueError
      | some x =>
        match prefixOf (g.get 4) with
        | none => .error .keyError
        | some e => .ok (x * pow10 e, g.get 5)

/-- `percentvalue_constructor`, exact.  repo: hftools/file_formats/config.py:291-302 -/
def percentConstructor (t : List Char) : Except Err ℚ :=
  match regPercent.match t with
  | none => .error .attributeError
  | some g =>
    match (g.get 1).bind parseFloat with
    | none => .error .valueError
    | some x =>
      if g.get 3 = some ['%'] then .ok (x * (1 / 100))
      else if g.get 3 = some ['p', 'p', 'm'] then .ok (x * pow10 (-6))
      else if g.get 3 = some ['p', 'p', 'b'] then .ok (x * pow10 (-9))
      else .error .valueError

/-- `0 if x is None else float(x)` -/
def amount : Option (List Char) → Except Err ℚ
  | none => .ok 0
  | some v =>
    match parseFloat v with
    | some x => .ok x
    | none => .error .valueError

/-- `timeintervall_constructor`: seconds, exact (`timedelta` rounds to microseconds and has a greatest value).
repo: hftools/file_formats/config.py:305-317 -/
def intervalConstructor (t : List Char) : Except Err ℚ :=
  match regInterval.match t with
  | none => .error .attributeError
  | some g =>
    match amount (g.get 2), amount (g.get 5), amount (g.get 8), amount (g.get 11) with
    | .ok d, .ok h, .ok m, .ok s => .ok (d * 86400 + h * 3600 + m * 60 + s)
    | _, _, _, _ => .error .valueError

/-- Days of a month. -/
def monthDays (y m : Nat) : Nat :=
  if m = 2 then if y % 4 = 0 ∧ (y % 100 ≠ 0 ∨ y % 400 = 0) then 29 else 28
  else if m = 4 ∨ m = 6 ∨ m = 9 ∨ m = 11 then 30 else 31

/-- A date with hours and minutes. -/
structure Date where
  year : Nat
  month : Nat
  day : Nat
  hour : Nat
  minute : Nat
  deriving DecidableEq

/-- `strptime(value, "%Y-%m-%d %H:%M")` for texts of the form `dddd-dd-dd dd:dd...` (others are not looked at by this
model): the date must exist and nothing may follow.  repo: hftools/file_formats/config.py:320-322 -/
def dateConstructor (t : List Char) : Except Err Date :=
  match (regDateTime.run t).head? with
  | some (_, []) =>
    let n := fun i k => Utils.decValue ((t.drop i).take k)
    let d : Date := ⟨n 0 4, n 5 2, n 8 2, n 11 2, n 14 2⟩
    if 1 ≤ d.year ∧ 1 ≤ d.month ∧ d.month ≤ 12 ∧ 1 ≤ d.day ∧ d.day ≤ monthDays d.year d.month ∧ d.hour < 24 ∧
        d.minute < 60 then .ok d
    else .error .valueError
  | _ => .error .valueError

end Scalars
end Config
end HF
