import Verif.Units.Model
import Verif.Utils.Model
/-
The table of the properties found in comments, which is what printing the comments of a block shows.

repo: hftools/file_formats/common.py:174-228
-/
namespace HF.Readers.Table

open HF.Units (strip)

/-- A value of a property: a text, which has a method `strip`, or anything else, given by its text.  Tuples, which the
operator `%` takes apart, are not modelled: reading makes none. -/
inductive Val where
  | text (s : List Char)
  | other (s : List Char)
  deriving DecidableEq

/-- `"%-5s" % s`; for a negative width python takes `%--5s` for `%-5s`. -/
def ljust (w : Int) (s : List Char) : List Char := s ++ List.replicate (w.natAbs - s.length) ' '

/-- `s.center(w, fill)`: the odd character goes to the left if the width is odd too. -/
def center (w : Int) (fill : Char) (s : List Char) : List Char :=
  let pad := w.toNat - s.length
  let left := pad / 2 + (if pad % 2 = 1 ∧ w.toNat % 2 = 1 then 1 else 0)
  List.replicate left fill ++ s ++ List.replicate (pad - left) fill

/-- `"-" * w` -/
def rule (w : Int) : List Char := List.replicate w.toNat '-'

/-- repo: hftools/file_formats/common.py:211 -/
def keyWidth (prop : List (List Char × Val)) : Nat := (prop.map fun p => p.1.length).foldl max 0

/-- repo: hftools/file_formats/common.py:221-222 -/
def shown : Val → List Char
  | .text s => strip s
  | .other s => s

/-- `Comments.table`: the lines; the keys of a dict are distinct, so that sorting the items compares keys only.
repo: hftools/file_formats/common.py:208-225 -/
def table (width : Nat) (prop : List (List Char × Val)) : List (List Char) :=
  if prop.isEmpty then []
  else
    let kw : Int := keyWidth prop
    let vw : Int := width - kw
    let line (a b : List Char) : List Char := a ++ [' '] ++ b
    center (width + 1) '-' " Comments ".toList ::
      line (ljust kw (center kw ' ' "Key".toList)) (ljust vw (center vw ' ' "Value".toList)) ::
      line (rule kw) (rule vw) ::
      (Py.sortBy (fun a b => Utils.strLt a.1 b.1) prop).map fun p => line (ljust kw p.1) (ljust vw (shown p.2))

/-- `repr(comments)`.  repo: hftools/file_formats/common.py:227-228 -/
def repr (width : Nat) (prop : List (List Char × Val)) : List Char := ['\n'].intercalate (table width prop)

/-- `Comments.width`.  repo: hftools/file_formats/common.py:177 -/
def stdWidth : Nat := 76

end HF.Readers.Table
