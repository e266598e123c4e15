import Verif.Sp.Text
import Mathlib.Order.Defs.LinearOrder
import Mathlib.Data.Rat.Defs
/-
Model of the report of a block, which `str` and `repr` give.

repo: hftools/dataset/dataset.py:497-606

A block is represented by what the report looks at: names, units, shapes and the values of the dimensions.
-/
namespace HF
namespace DataBlock
namespace Report

open Sp (splitOn)
open HF.Text (join)

abbrev Text := List Char

/-- How values are printed.  `num x` is the number and the prefix of `format_number` with `digs=None` (C16); it is `none`
when there is no prefix (`KeyError`).  `date` is `"%s"` of a point in time.
repo: hftools/constants/si_units.py:122-142 -/
structure Printer (α : Type) where
  num : α → Option (Text × Text)
  date : Int → Text

/-- Values of a dimension: signed integers, points in time, other numbers, and what is not a number, of which only the
name of its type is shown. -/
inductive Values (α : Type)
  | ints (xs : List Int)
  | dates (xs : List Int)
  | nums (xs : List α)
  | other (dtype : Text)

structure Sweep (α : Type) where
  unit : Option Text
  values : Values α

structure Var where
  unit : Option Text
  shape : List Nat

/-- A block and its settings `report_maxwidth`, `report_units` and `report_minmax`.
repo: hftools/dataset/dataset.py:203-206 -/
structure View (α : Type) where
  name : Text
  dims : List (Text × Sweep α)
  vars : List (Text × Var)
  maxwidth : Nat
  units : Bool
  minmax : Bool

inductive Err
  | valueError
  | keyError
  deriving DecidableEq

/-- The columns of the tables. -/
inductive Head
  | name | unit | shape | minvalue | minunit | maxvalue | maxunit | dtype
  deriving DecidableEq

/-- The dict of a row. -/
abbrev Row := List (Head × Text)

/-- `tofmt.get(head, "")` -/
def Row.get (r : Row) (h : Head) : Text := (r.lookup h).getD []

/-- `"%d" % n` -/
def intText : Int → Text
  | .ofNat n => Nat.toDigits 10 n
  | .negSucc n => '-' :: Nat.toDigits 10 (n + 1)

/-- `"<%s>" % t` -/
def angle (t : Text) : Text := '<' :: (t ++ ['>'])

/-- `"[%s]" % (unit if unit is not None else "")` -/
def bracket (u : Option Text) : Text := '[' :: (u.getD [] ++ [']'])

/-- `"%-5s"` and the like: blanks up to the width. -/
def ljust (w : Nat) (t : Text) : Text := t ++ List.replicate (w - t.length) ' '

def rjust (w : Nat) (t : Text) : Text := List.replicate (w - t.length) ' ' ++ t

/-- `value, unit = text.split(" ")` -/
def split2 (t : Text) : Except Err (Text × Text) :=
  match splitOn ' ' t with
  | [a, b] => .ok (a, b)
  | _ => .error .valueError

/-- `fmt % x` for numbers: `SIFormat(unit=unit, digs=None) % x`.
repo: hftools/dataset/dataset.py:513, hftools/constants/si_units.py:139-162 -/
def numText {α : Type} (p : Printer α) (unit : Option Text) (x : α) : Except Err Text :=
  match p.num x with
  | none => .error .keyError
  | some (n, pre) => .ok (n ++ ' ' :: (pre ++ unit.getD []))

/-- The rows of the values shown: `max` and `min` of no values raise a `ValueError`.
repo: hftools/dataset/dataset.py:515-521 -/
def extremes {β : Type} [LinearOrder β] (text : β → Except Err Text) (xs : List β) : Except Err Row :=
  match xs.max?, xs.min? with
  | some hi, some lo =>
    match text hi with
    | .error e => .error e
    | .ok t =>
      match split2 t with
      | .error e => .error e
      | .ok (a, b) =>
        match text lo with
        | .error e => .error e
        | .ok t' =>
          match split2 t' with
          | .error e => .error e
          | .ok (a', b') => .ok [(.maxvalue, a), (.maxunit, b), (.minvalue, a'), (.minunit, b')]
  | _, _ => .error .valueError

/-- A row for a dimension with numbers.  repo: hftools/dataset/dataset.py:506-525 -/
def numberRow {α β : Type} [LinearOrder β] (v : View α) (name : Text) (unit : Option Text) (text : β → Except Err Text)
    (xs : List β) : Except Err Row :=
  let row := [(Head.name, name), (Head.shape, angle (Nat.toDigits 10 xs.length))]
  if v.minmax then
    match extremes text xs with
    | .ok r => .ok (row ++ r)
    | .error e => .error e
  else if v.units then .ok (row ++ [(.unit, bracket unit)])
  else .ok row

/-- `ivar_report` (without the entry `N`, which is not shown).  repo: hftools/dataset/dataset.py:497-528 -/
def ivarReport {α : Type} [LinearOrder α] (p : Printer α) (v : View α) (d : Text × Sweep α) : Except Err Row :=
  match d.2.values with
  | .ints xs => numberRow v d.1 d.2.unit (fun n => .ok (intText n ++ [' '])) xs
  | .dates xs => numberRow v d.1 d.2.unit (fun n => .ok (p.date n ++ [' '])) xs
  | .nums xs => numberRow v d.1 d.2.unit (numText p d.2.unit) xs
  | .other dtype => .ok [(.name, d.1), (.dtype, '{' :: (ljust 5 dtype ++ ['}']))]

/-- `depvar_report`.  repo: hftools/dataset/dataset.py:549-557 -/
def depvarReport {α : Type} (v : View α) (d : Text × Var) : Row :=
  let row := [(Head.name, d.1), (Head.shape, angle (join 'x' (d.2.shape.map (Nat.toDigits 10))))]
  if v.units then row ++ [(.unit, bracket d.2.unit)] else row

/-- `alignment.get(head, "-")`: at the left or at the right.  repo: hftools/dataset/dataset.py:565-567 -/
def left : Head → Bool
  | .name | .minunit | .maxunit | .dtype => true
  | .unit | .shape | .minvalue | .maxvalue => false

/-- `colwidths[head]`.  repo: hftools/dataset/dataset.py:531-537 -/
def colwidth (rows : List Row) (h : Head) : Nat := rows.foldl (fun w r => max (r.get h).length w) 0

/-- `format_table` (the output headers have the number of the headers, and are not shown).
repo: hftools/dataset/dataset.py:530-547 -/
def formatTable (rows : List Row) (heads : List Head) : List Text :=
  rows.map fun r => join ' ' (heads.map fun h =>
    if left h then ljust (colwidth rows h) (r.get h) else rjust (colwidth rows h) (r.get h))

/-- `zip_longest(a, b, fillvalue="")` -/
def zipLongest : List Text → List Text → List (Text × Text)
  | [], bs => bs.map fun b => ([], b)
  | a :: as, bs => (a, bs.headD []) :: zipLongest as bs.tail

/-- `max(len(x) for x in rows) if rows else 0` -/
def width (rows : List Text) : Nat := rows.foldl (fun w r => max r.length w) 0

/-- The columns of the dimensions and of the variables. -/
def dimHeads : List Head := [.name, .unit, .shape, .minvalue, .minunit, .maxvalue, .maxunit, .dtype]

def varHeads : List Head := [.name, .unit, .shape]

/-- All rows, or the first error. -/
def rowsOf {β : Type} (f : β → Except Err Row) : List β → Except Err (List Row)
  | [] => .ok []
  | b :: bs =>
    match f b with
    | .error e => .error e
    | .ok r =>
      match rowsOf f bs with
      | .error e => .error e
      | .ok rs => .ok (r :: rs)

/-- `report`, as lines.  repo: hftools/dataset/dataset.py:559-600 -/
def reportLines {α : Type} [LinearOrder α] (p : Printer α) (v : View α) : Except Err (List Text) :=
  match rowsOf (ivarReport p v) v.dims with
  | .error e => .error e
  | .ok rows =>
    let ivarrows := if v.dims = [] then [] else "Dimensions:".toList :: formatTable rows dimHeads
    let varrows := if v.vars = [] then [] else "Variables:".toList :: formatTable (v.vars.map (depvarReport v)) varHeads
    let head := "Blockname: ".toList ++ v.name
    if v.maxwidth < width ivarrows + width varrows then .ok (head :: (ivarrows ++ [] :: varrows))
    else .ok (head :: (zipLongest varrows ivarrows).map fun q =>
      ljust (width varrows) q.1 ++ " - ".toList ++ ljust (width ivarrows) q.2)

/-- `report`, `str` and `repr`.  repo: hftools/dataset/dataset.py:600-606 -/
def report {α : Type} [LinearOrder α] (p : Printer α) (v : View α) : Except Err Text :=
  match reportLines p v with
  | .error e => .error e
  | .ok ls => .ok (join '\n' ls)

end Report
end DataBlock
end HF
