import Verif.Readers.Dispatch
/-
From the text of a file to the lines the recognisers see.

repo: hftools/file_formats/__init__.py:72-79, and the end of each of the functions that save a file
(touchstone.py:233-254, citi.py:246-252, mdif.py:514-521, spdata.py:179-194)
-/
namespace HF.Readers.Dispatch

/-- `for rad in fil` for a file opened for reading text: the lines with their ends; `"\r"` and `"\r\n"` end a line too
and are read as `"\n"`.  repo: hftools/file_formats/__init__.py:72-73 -/
def fileLines : List Char → List (List Char)
  | [] => []
  | '\n' :: t => ['\n'] :: fileLines t
  | '\r' :: '\n' :: t => ['\n'] :: fileLines t
  | '\r' :: t => ['\n'] :: fileLines t
  | c :: t =>
    match fileLines t with
    | [] => [[c]]
    | l :: ls => (c :: l) :: ls

/-- The text of a file: each line is followed by `"\n"`.
repo: hftools/file_formats/touchstone.py:235-254, citi.py:250-252, mdif.py:518-520, spdata.py:189-191 -/
def textOf (ls : List (List Char)) : List Char := ls.flatMap (· ++ ['\n'])

/-- What `read_data` takes a saved file for.  The HDF5 library does not take a text file for an HDF5 file.
repo: hftools/file_formats/__init__.py:72-82 -/
def takenFor (ls : List (List Char)) : Format := guess isfile ⟨fileLines (textOf ls), false⟩ (fileLines (textOf ls))

end HF.Readers.Dispatch
