/-
Choice of the reader for a file: hftools/file_formats/__init__.py 45-82 and the recognisers in
mdif.py 39-43, citi.py 242-243, touchstone.py 137-142, muwave_mat.py 41-43, hdf5/hdf5.py 38-41.
-/
namespace HF.Readers.Dispatch

inductive Format where
  | mdif | hdf5 | citi | touchstone | muwave | sp
  deriving DecidableEq, Repr

/-- `[\t ]` -/
def isTab (c : Char) : Bool := c = ' ' || c = '\t'

/-- `\s` for ASCII characters.  Simplification: non-ASCII blanks are left out. -/
def isSpace (c : Char) : Bool :=
  c = ' ' || c = '\t' || c = '\n' || c = '\r' || c = '\x0b' || c = '\x0c'

def isAlpha (c : Char) : Bool := ('a' ≤ c && c ≤ 'z') || ('A' ≤ c && c ≤ 'Z')

def isNum (c : Char) : Bool := '0' ≤ c && c ≤ '9'

/-- `[A-Za-z_0-9.]` -/
def isVarChar (c : Char) : Bool := isAlpha c || isNum c || c = '_' || c = '.'

/-- `p+` where what follows cannot begin with a `p`: the rest after the run of `p`, if it is not
empty. -/
def plus (p : Char → Bool) : List Char → Option (List Char)
  | [] => none
  | c :: t => if p c then some (t.dropWhile p) else none

/-- repo: file_formats/mdif.py 39-43: `[\t ]*VAR[\t ]*[A-Za-z_0-9.]+[(][a-zA-Z]+[)]` matched at the
beginning.  The character sets that follow each other are disjoint so that no backtracking is
needed. -/
def isMdif (l : List Char) : Bool :=
  match l.dropWhile isTab with
  | 'V' :: 'A' :: 'R' :: t =>
    match plus isVarChar (t.dropWhile isTab) with
    | some ('(' :: t) =>
      match plus isAlpha t with
      | some (')' :: _) => true
      | _ => false
    | _ => false
  | _ => false

def isPrefix : List Char → List Char → Bool
  | [], _ => true
  | _ :: _, [] => false
  | a :: p, c :: t => a = c && isPrefix p t

def citiSign : List Char := ['C', 'I', 'T', 'I', 'F', 'I', 'L', 'E']

/-- repo: file_formats/citi.py 242-243 -/
def isCiti (l : List Char) : Bool := isPrefix citiSign l

def matSign : List Char :=
  ['M', 'A', 'T', 'L', 'A', 'B', ' ', '5', '.', '0', ' ', 'M', 'A', 'T', '-', 'f', 'i', 'l', 'e']

/-- repo: file_formats/muwave_mat.py 41-43 -/
def isMuwave (l : List Char) : Bool := isPrefix matSign l

/-- ASCII case folding (`re.I`).  Simplification: the non-ASCII characters U+017F and U+212A, which
fold to s and k, are left out. -/
def lower (c : Char) : Char :=
  if 'A' ≤ c && c ≤ 'Z' then Char.ofNat (c.toNat + 32) else c

def oneIn (s : List Char) (c : Char) : Bool := s.contains (lower c)

/-- `hz\s+[szygh]\s+[a-z][a-z]` -/
def touchTail : List Char → Bool
  | h :: z :: t =>
    lower h = 'h' && lower z = 'z' &&
    match plus isSpace t with
    | some (p :: t) => oneIn ['s', 'z', 'y', 'g', 'h'] p &&
      match plus isSpace t with
      | some (a :: b :: _) => isAlpha a && isAlpha b
      | _ => false
    | _ => false
  | _ => false

/-- `[kmgtp]?` followed by the tail. -/
def touchMult : List Char → Bool
  | c :: t => if oneIn ['k', 'm', 'g', 't', 'p'] c then touchTail t else touchTail (c :: t)
  | [] => false

/-- repo: file_formats/touchstone.py 137-142:
`\s*#\s*[kmgtp]?hz\s+[szygh]\s+([a-z][a-z])(\s+r\s+[0-9]+)?` without case, at the beginning.  The last
group is optional and does not influence acceptance. -/
def isTouchstone (l : List Char) : Bool :=
  match l.dropWhile isSpace with
  | '#' :: t => touchMult (t.dropWhile isSpace)
  | _ => false

/-- A file: its lines and whether the HDF5 library takes it for an HDF5 file.  Simplification:
text decoding errors are not modelled. -/
structure File where
  lines : List (List Char)
  hdf5 : Bool

abbrev Recogniser := File → List Char → Bool

/-- repo: file_formats/__init__.py 45-50 -/
def isfile : List (Recogniser × Format) :=
  [(fun _ l => isMdif l, .mdif), (fun f _ => f.hdf5, .hdf5), (fun _ l => isCiti l, .citi),
    (fun _ l => isTouchstone l, .touchstone), (fun _ l => isMuwave l, .muwave)]

/-- The inner loop, `for fun, readfun in isfile`. -/
def lineFormat (table : List (Recogniser × Format)) (f : File) (l : List Char) : Option Format :=
  (table.find? fun r => r.1 f l).map Prod.snd

/-- repo: file_formats/__init__.py 72-82: the loop over the lines. -/
def guess (table : List (Recogniser × Format)) (f : File) : List (List Char) → Format
  | [] => .sp
  | l :: t => match lineFormat table f l with
    | some r => r
    | none => guess table f t

inductive Out (ν : Type) where
  /-- reader called with all the patterns -/
  | reads (fmt : Format) (patterns : List ν)
  | ioError
  deriving DecidableEq

/-- repo: file_formats/__init__.py 55-82: `glob` gives the files of a pattern. -/
def readData {ν : Type} (glob : ν → List File) (patterns : List ν) : Out ν :=
  match patterns.findSome? fun p => (glob p).head? with
  | none => .ioError
  | some f => .reads (guess isfile f f.lines) patterns

end HF.Readers.Dispatch
