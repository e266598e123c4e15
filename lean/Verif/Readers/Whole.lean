import Verif.Readers.Saved
/-
Reading the text of a file: the choice of the reader, and the lines it gets.

repo: hftools/file_formats/__init__.py:53-82, hftools/file_formats/readbase.py:291-292
-/
namespace HF.Readers.Dispatch

/-- The functions that read a file of a format, given its lines. -/
structure Readers (δ : Type) where
  mdif : List (List Char) → δ
  hdf5 : List (List Char) → δ
  citi : List (List Char) → δ
  touchstone : List (List Char) → δ
  muwave : List (List Char) → δ
  sp : List (List Char) → δ

/-- The line without its end.  No reader makes use of the ends of lines: they strip the lines or split them at white space.
repo: hftools/file_formats/touchstone.py:42, citi.py:65-100, mdif.py:180-196, spdata.py:68 -/
def chomp (l : List Char) : List Char := if l.getLast? = some '\n' then l.dropLast else l

/-- `read_data(filename)` for one file that is a text.  The encodings are the subject of `Codec.lean`.  repo: hftools/file_formats/__init__.py:71-82 -/
def readText {δ : Type} (R : Readers δ) (text : List Char) : δ :=
  let lines := fileLines text
  match guess isfile ⟨lines, false⟩ lines with
  | .mdif => R.mdif (lines.map chomp)
  | .hdf5 => R.hdf5 (lines.map chomp)
  | .citi => R.citi (lines.map chomp)
  | .touchstone => R.touchstone (lines.map chomp)
  | .muwave => R.muwave (lines.map chomp)
  | .sp => R.sp (lines.map chomp)

end HF.Readers.Dispatch
