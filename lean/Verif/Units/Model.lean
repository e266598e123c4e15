import Mathlib.Data.Rat.Defs
import Mathlib.Algebra.Order.Field.Rat
import Verif.Utils.Model
/-
Model of hftools/constants/si_units.py (strings to values) and of the SI values in
hftools/file_formats/config.py.
-/
namespace HF
namespace Units
open Utils (isDigit decValue)

/-- `siprefixes`, the multiplier as power of ten.
repo: hftools/constants/si_units.py:22-27 -/
def siprefixes : List (Char × Int) :=
  [('d', -1), ('c', -2), ('m', -3), ('u', -6), ('n', -9), ('p', -12), ('f', -15), ('a', -18),
   ('k', 3), ('M', 6), ('G', 9), ('T', 12), ('P', 15), ('E', 18)]

/-- repo: hftools/constants/si_units.py:39 -/
def siunitNames : List (List Char) :=
  [['H', 'z'], ['s'], ['S'], ['O', 'h', 'm'], ['m'], ['V'], ['A'], ['F'], ['W']]

/-- python's white space, the ASCII part. -/
def isWs (c : Char) : Bool :=
  c = ' ' || c = '\t' || c = '\n' || c = '\r' || c = '\x0b' || c = '\x0c'

/-- python `str.strip`. -/
def strip (s : List Char) : List Char :=
  ((s.dropWhile isWs).reverse.dropWhile isWs).reverse

/-- A multiplier, exact. -/
def pow10 (e : Int) : ℚ := (10 : ℚ) ^ e

/-- `unit_to_multiplier`.  `none` is python's `None`.
repo: hftools/constants/si_units.py:48-65 -/
def unitToMultiplier (unit : List Char) : ℚ × Option (List Char) :=
  let unit := strip unit
  match unit with
  | [] => (1, some unit)
  | [c] => if c = '%' then (1 / 100, none) else if c = '#' then (1, none) else (1, some unit)
  | c :: rest =>
    match siprefixes.lookup c with
    | some e => if rest ∈ siunitNames then (pow10 e, some rest) else (1, some unit)
    | none => (1, some unit)

/-- `[-+0-9.]` -/
def isNumChar (c : Char) : Bool := c = '-' || c = '+' || c = '.' || isDigit c
/-- `[eE]` -/
def isExpChar (c : Char) : Bool := c = 'e' || c = 'E'
/-- `[-+0-9]` -/
def isExpDigit (c : Char) : Bool := c = '-' || c = '+' || isDigit c
/-- `[a-zA-Z%]` -/
def isUnitChar (c : Char) : Bool :=
  (decide ('a' ≤ c) && decide (c ≤ 'z')) || (decide ('A' ≤ c) && decide (c ≤ 'Z')) || c = '%'

/-- An optional character of a regular expression (greedy): what it matched and the rest. -/
def optChar (p : Char → Bool) : List Char → List Char × List Char
  | c :: r => if p c then ([c], r) else ([], c :: r)
  | [] => ([], [])

/-- `reg_value.match`: matched text and the remaining text.
repo: hftools/constants/si_units.py:67 -/
def regValue (s : List Char) : Option (List Char × List Char) :=
  let a := s.takeWhile isNumChar
  if a = [] then none
  else
    let (e, r) := optChar isExpChar (s.dropWhile isNumChar)
    let (d, r) := optChar isExpDigit r
    some (a ++ e ++ d, r)

/-- `reg_unit.match(...).group()`: the whole match, with blanks and brackets.
repo: hftools/constants/si_units.py:68, 78 -/
def regUnit (s : List Char) : Option (List Char) :=
  let ws := s.takeWhile isWs
  let (b, r) := optChar (fun c => c = '[') (s.dropWhile isWs)
  let u := r.takeWhile isUnitChar
  if u = [] then none
  else
    let (c, _) := optChar (fun c => c = ']') (r.dropWhile isUnitChar)
    some (ws ++ b ++ u ++ c)

/-- Optional sign. -/
def sign : List Char → Int × List Char
  | '-' :: r => (-1, r)
  | '+' :: r => (1, r)
  | r => (1, r)

/-- Digits after a point, if there is one, and the rest. -/
def fracPart : List Char → List Char × List Char
  | '.' :: r => (r.takeWhile isDigit, r.dropWhile isDigit)
  | r => ([], r)

/-- python `float` of a string without blanks (decimal notation only), exact; `none` is
`ValueError`. -/
def parseFloat (s : List Char) : Option ℚ :=
  let (sg, r) := sign s
  let i := r.takeWhile isDigit
  let r := r.dropWhile isDigit
  let (f, r) := fracPart r
  if i = [] ∧ f = [] then none
  else
    let m : ℚ := sg * (decValue (i ++ f) : ℚ) / 10 ^ f.length
    match r with
    | [] => some m
    | c :: r =>
      if isExpChar c then
        let (es, r) := sign r
        let x := r.takeWhile isDigit
        if x ≠ [] ∧ r.dropWhile isDigit = [] then some (m * pow10 (es * decValue x)) else none
      else none

/-- `convert_with_unit`; the array is its value and unit.
repo: hftools/constants/si_units.py:90-100 -/
def convertWithUnit (unit : Option (List Char)) (v : ℚ) : ℚ × Option (List Char) :=
  match unit with
  | none => (v, none)
  | some u =>
    let u := strip u
    if u = [] then (v * 1, none)
    else
      let (mul, unit) := unitToMultiplier u
      (v * mul, unit)

/-- `string_number_with_unit_to_value` of a string; `none` is `ValueError`.
repo: hftools/constants/si_units.py:71-87 -/
def stringToValue (s : List Char) : Option (ℚ × Option (List Char)) :=
  match regValue s with
  | none => none
  | some (num, rest) =>
    match parseFloat num with
    | none => none
    | some v => some (convertWithUnit (regUnit rest) v)

/-! ### SI values in configuration files -/

/-- Prefix letters of `reg_si_value`.
repo: hftools/file_formats/config.py:266-267 -/
def cfgPrefixes : List Char := "dcmunpfakMGTPE".toList
/-- Units of `reg_si_value`. -/
def cfgUnits : List (List Char) := [['H', 'z'], ['V'], ['A'], ['m'], ['s'], ['W'], ['O', 'h', 'm']]

/-- `(Hz|V|A|m|s|W|Ohm)?` up to `$`. -/
def unitEnd (t : List Char) : Option (Option (List Char)) :=
  if t ∈ cfgUnits then some (some t) else if t = [] then some none else none

/-- The part of `reg_si_value` after number and blanks, up to `$`: the groups `exp` and `unit`.
Alternatives are tried in the order of the expression: with prefix before without prefix, with
unit before without unit.  `none`: no match.
repo: hftools/file_formats/config.py:266-267 -/
def matchTail (t : List Char) : Option (Option Char × Option (List Char)) :=
  let noPrefix := (unitEnd t).map fun u => (none, u)
  match t with
  | c :: r =>
    if c ∈ cfgPrefixes then
      match unitEnd r with
      | some u => some (some c, u)
      | none => noPrefix
    else noPrefix
  | [] => noPrefix

/-- Value and unit that `convert_si_value` computes from the number read and the tail.
repo: hftools/file_formats/config.py:23-34 -/
def siValue (num : ℚ) (tail : List Char) : Option (ℚ × Option (List Char)) :=
  (matchTail tail).map fun (e, u) =>
    (num * pow10 (match e with | some c => (siprefixes.lookup c).getD 0 | none => 0), u)

end Units
end HF
