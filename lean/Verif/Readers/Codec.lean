import Verif.Readers.Whole
/-
The bytes of the files: encodings of text used for saving, for guessing the format, and for reading.

repo: hftools/file_formats/readbase.py:269, 291; hftools/file_formats/__init__.py:73; hftools/file_formats/mdif.py:134, 515;
hftools/file_formats/touchstone.py:230; hftools/file_formats/citi.py:249; hftools/file_formats/spdata.py:179-194;
hftools/file_formats/config.py:176, 184; hftools/py3compat.py:14-45
-/
namespace HF.Readers.Codec

open HF.Readers.Dispatch (fileLines textOf guess isfile Readers chomp Format)

/-- An encoding of python, with `errors="strict"`: the bytes of a character, and the text of bytes. -/
structure Codec where
  enc : Char → Option (List Nat)
  dec : List Nat → Option (List Char)

/-- `text.encode(...)`; `none` is `UnicodeEncodeError`. -/
def Codec.encode (K : Codec) : List Char → Option (List Nat)
  | [] => some []
  | c :: t =>
    match K.enc c, K.encode t with
    | some b, some bs => some (b ++ bs)
    | _, _ => none

/-! ### Windows-1252 -/

/-- The code points of the bytes 0x80 to 0x9f; five bytes have none. -/
def cpTable : List (Option Nat) :=
  [some 0x20ac, none, some 0x201a, some 0x0192, some 0x201e, some 0x2026, some 0x2020, some 0x2021,
    some 0x02c6, some 0x2030, some 0x0160, some 0x2039, some 0x0152, none, some 0x017d, none,
    none, some 0x2018, some 0x2019, some 0x201c, some 0x201d, some 0x2022, some 0x2013, some 0x2014,
    some 0x02dc, some 0x2122, some 0x0161, some 0x203a, some 0x0153, none, some 0x017e, some 0x0178]

/-- The character of a byte. -/
def cpChar (b : Nat) : Option Char :=
  if b < 0x80 ∨ 0xa0 ≤ b ∧ b < 0x100 then some (Char.ofNat b)
  else if b < 0xa0 then (cpTable.getD (b - 0x80) none).map Char.ofNat
  else none

/-- The byte of a character. -/
def cpByte (c : Char) : Option Nat :=
  if c.toNat < 0x80 ∨ 0xa0 ≤ c.toNat ∧ c.toNat < 0x100 then some c.toNat
  else if some c.toNat ∈ cpTable then some (0x80 + cpTable.idxOf (some c.toNat))
  else none

/-- `"cp1252"` -/
def cp1252 : Codec := ⟨fun c => (cpByte c).map fun b => [b], fun bs => bs.mapM cpChar⟩

/-! ### UTF-8 -/

/-- The bytes of a character. -/
def utf8Char (c : Char) : List Nat :=
  let n := c.toNat
  if n < 0x80 then [n]
  else if n < 0x800 then [0xc0 + n / 64, 0x80 + n % 64]
  else if n < 0x10000 then [0xe0 + n / 4096, 0x80 + n / 64 % 64, 0x80 + n % 64]
  else [0xf0 + n / 262144, 0x80 + n / 4096 % 64, 0x80 + n / 64 % 64, 0x80 + n % 64]

/-- `10xxxxxx` -/
def isCont (b : Nat) : Bool := 0x80 ≤ b && b < 0xc0

/-- The text of bytes; forms that are longer than needed and surrogates are refused. -/
def utf8Dec : List Nat → Option (List Char)
  | [] => some []
  | a :: t =>
    if a < 0x80 then (utf8Dec t).map (Char.ofNat a :: ·)
    else
      match t with
      | [] => none
      | b :: t =>
        if !isCont b then none
        else if 0xc0 ≤ a ∧ a < 0xe0 then
          let n := (a - 0xc0) * 64 + (b - 0x80)
          if 0x80 ≤ n then (utf8Dec t).map (Char.ofNat n :: ·) else none
        else
          match t with
          | [] => none
          | c :: t =>
            if !isCont c then none
            else if 0xe0 ≤ a ∧ a < 0xf0 then
              let n := (a - 0xe0) * 4096 + (b - 0x80) * 64 + (c - 0x80)
              if 0x800 ≤ n ∧ ¬(0xd800 ≤ n ∧ n < 0xe000) then (utf8Dec t).map (Char.ofNat n :: ·) else none
            else
              match t with
              | [] => none
              | d :: t =>
                if !isCont d then none
                else if 0xf0 ≤ a then
                  let n := (a - 0xf0) * 262144 + (b - 0x80) * 4096 + (c - 0x80) * 64 + (d - 0x80)
                  if 0x10000 ≤ n ∧ n < 0x110000 then (utf8Dec t).map (Char.ofNat n :: ·) else none
                else none

/-- `"utf-8"` -/
def utf8 : Codec := ⟨fun c => some (utf8Char c), utf8Dec⟩

/-! ### Files -/

/-- The formats with a function that saves them as text. -/
inductive Kind where
  | touchstone | citi | mdif | sp
  deriving DecidableEq

/-- The encoding a file is written with; `loc` is the encoding of the locale, which `open` takes.
repo: touchstone.py:230, citi.py:249, mdif.py:515, spdata.py:179-183 -/
def writes (loc : Codec) : Kind → Codec
  | .touchstone => loc
  | .citi => loc
  | .mdif => loc
  | .sp => cp1252

/-- The encoding a file is read with.  repo: readbase.py:269 and 291, mdif.py:134, spdata.py:196 -/
def reads (loc : Codec) : Kind → Codec
  | .touchstone => cp1252
  | .citi => cp1252
  | .mdif => loc
  | .sp => cp1252

/-- What a file holds after saving the lines, and whether they have been written without exception: every line is encoded
when it is written, and what has been written before an exception stays in the file, which is closed by `with` or when it is
deleted.  `open(filename, "w")` has removed what was in the file before.  The ends of lines are those of Unix.
repo: touchstone.py:230-254, citi.py:249-252, mdif.py:515-521, spdata.py:183-194 -/
def writeLines (K : Codec) : List (List Char) → List Nat × Bool
  | [] => ([], true)
  | l :: ls =>
    match K.encode (l ++ ['\n']) with
    | none => ([], false)
    | some b => (b ++ (writeLines K ls).1, (writeLines K ls).2)

/-- Saving with the function of a format. -/
def save (loc : Codec) (k : Kind) (ls : List (List Char)) : List Nat × Bool := writeLines (writes loc k) ls

/-- The lines that the reader of a format gets; `none` is `UnicodeDecodeError`. -/
def read (loc : Codec) (k : Kind) (bytes : List Nat) : Option (List (List Char)) :=
  ((reads loc k).dec bytes).map fileLines

/-- The kind of a format that is text. -/
def kindOf : Format → Option Kind
  | .touchstone => some .touchstone
  | .citi => some .citi
  | .mdif => some .mdif
  | .sp => some .sp
  | _ => none

/-- `read_data(filename)` for a file that is text: the format that is guessed, and the lines its reader gets.  The file is
opened with the encoding of the locale for guessing.  Simplification: all of the file is decoded for guessing; python decodes
it in pieces until a line decides (if the format is SP data, all pieces).  HDF5 and MATLAB files are not text.
repo: hftools/file_formats/__init__.py:71-82 -/
def readData (loc : Codec) (bytes : List Nat) : Option (Format × List (List Char)) :=
  match loc.dec bytes with
  | none => none
  | some text =>
    let fmt := guess isfile ⟨fileLines text, false⟩ (fileLines text)
    match kindOf fmt with
    | none => none
    | some k => (read loc k bytes).map fun ls => (fmt, ls)

/-- Files of settings.  repo: hftools/file_formats/config.py:176, 184 -/
def configSave (text : List Char) : Option (List Nat) := utf8.encode text

def configRead (bytes : List Nat) : Option (List Char) := utf8.dec bytes

/-! ### Conversion with replacement -/

/-- Texts of python: `str` and `bytes`. -/
inductive PyText where
  | str (s : List Char)
  | bytes (b : List Nat)
  deriving DecidableEq

/-- `encode(u)`.  repo: hftools/py3compat.py:31-33 -/
def encodeR (u : List Char) : List Nat := u.map fun c => (cpByte c).getD 0x3f

/-- `decode(s)`.  repo: hftools/py3compat.py:26-28 -/
def decodeR (s : List Nat) : List Char := s.map fun b => (cpChar b).getD (Char.ofNat 0xfffd)

/-- `cast_unicode`.  repo: hftools/py3compat.py:36-39 -/
def castUnicode : PyText → PyText
  | .bytes b => .str (decodeR b)
  | .str s => .str s

/-- `cast_bytes`.  repo: hftools/py3compat.py:42-45 -/
def castBytes : PyText → PyText
  | .str s => .bytes (encodeR s)
  | .bytes b => .bytes b

end HF.Readers.Codec
