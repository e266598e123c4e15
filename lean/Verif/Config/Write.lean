import Verif.Config.Load
/-
Writing settings to a file and reading them back.

repo: hftools/file_formats/config.py:42-49, 96-103, 181-187, 204-209, 228-264, 285-345, 390-440
-/
namespace HF
namespace Config

/-- The scalars of a configuration: python's own, and those hftools makes.  `F` are the floating point numbers, `D` the
dates with time, `T` the texts. -/
inductive Scalar (F D T : Type)
  | null
  | bool (b : Bool)
  | int (n : Int)
  | float (x : F)
  | str (t : T)
  | si (x : F) (unit : Option T)
  | interval (us : Int)
  | date (d : D)
  | path (t : T)
  deriving DecidableEq

/-- The tags of scalar nodes: those of YAML, those of hftools, others. -/
inductive Tag
  | null
  | bool
  | int
  | float
  | str
  | timestamp
  | sivalue
  | percent
  | interval
  | shortdatetime
  | time
  | other
  deriving DecidableEq

/-- How numbers and dates are written as text and read from it (python and PyYAML). -/
structure Codec (F D T : Type) where
  nullText : T
  boolText : Bool → T
  intText : Int → T
  floatText : F → T
  /-- `'%s' % x` for a `SIValue` -/
  strText : F → T
  cat : T → T → T
  intervalText : Int → T
  dateText : D → T
  parseBool : T → Option Bool
  parseInt : T → Option Int
  parseFloat : T → Option F
  parseSI : T → Option (F × Option T)
  parsePercent : T → Option F
  parseInterval : T → Option Int
  parseDate : T → Option D
  /-- `regtime.match` -/
  timeLike : T → Bool
  parseTime : T → Option D

variable {F D T : Type}

/-- The representers: a tag and a text.
repo: hftools/file_formats/config.py:228-264, 409-416 -/
def represent (c : Codec F D T) : Scalar F D T → Tag × T
  | .null => (.null, c.nullText)
  | .bool b => (.bool, c.boolText b)
  | .int n => (.int, c.intText n)
  | .float x => (.float, c.floatText x)
  | .str t => (.str, t)
  | .si x (some u) => (.str, c.cat (c.strText x) u)
  | .si x none => (.float, c.strText x)
  | .interval us => (.str, c.intervalText us)
  | .date d => (.str, c.dateText d)
  | .path t => (.other, t)

/-- A scalar in a file: without quotes, in quotes, or with its tag and in quotes. -/
inductive Written (T : Type)
  | plain (t : T)
  | quoted (t : T)
  | tagged (g : Tag) (t : T)

/-- `serialize_node`, `choose_scalar_style` and `process_tag` of PyYAML.  `detect` is the tag the text would have when
it is read without quotes (the implicit resolvers, to which hftools adds its own for the dumper as well), `allowed` says
that the text can be written without quotes.  repo: hftools/file_formats/config.py:418-427 -/
def emit (detect : T → Tag) (allowed : T → Bool) : Tag × T → Written T
  | (g, t) => if detect t = g && allowed t then .plain t else if g = .str then .quoted t else .tagged g t

/-- The constructors of hftools and PyYAML; `none` is an exception.
repo: hftools/file_formats/config.py:285-345, 398-404 -/
def constructScalar (c : Codec F D T) : Tag → T → Option (Scalar F D T)
  | .null, _ => some .null
  | .bool, t => (c.parseBool t).map .bool
  | .int, t => if c.timeLike t then (c.parseTime t).map .date else (c.parseInt t).map .int
  | .float, t => (c.parseFloat t).map .float
  | .str, t => some (.str t)
  | .timestamp, t => (c.parseDate t).map .date
  | .sivalue, t => (c.parseSI t).map fun p => .si p.1 p.2
  | .percent, t => (c.parsePercent t).map .float
  | .interval, t => (c.parseInterval t).map .interval
  | .shortdatetime, t => (c.parseDate t).map .date
  | .time, t => (c.parseTime t).map .date
  | .other, _ => none

/-- Reading a scalar of a file: its tag is given, `str` for text in quotes, or detected. -/
def readScalar (c : Codec F D T) (detect : T → Tag) : Written T → Option (Scalar F D T)
  | .plain t => constructScalar c (detect t) t
  | .quoted t => constructScalar c .str t
  | .tagged g t => constructScalar c g t

variable {K A B : Type}

/-- `convert_to_standard`: the containers as plain dictionaries and lists, as a tree.  The first argument limits the
depth (a container inside itself has no end).
repo: hftools/file_formats/config.py:42-49, 96-103 -/
def standard (h : List (Obj K A)) : Nat → Val A → Option (Yaml K A)
  | _, .atom a => some (.atom a)
  | 0, .ref _ => none
  | n + 1, .ref i =>
    match h[i]? with
    | none => none
    | some ⟨.dict es, _⟩ => (es.mapM fun p => (standard h n p.2).map fun z => (p.1, z)).map .map
    | some ⟨.list l, _⟩ => (l.mapM (standard h n)).map .seq

mutual
/-- `yaml.dump` of a tree of plain dictionaries and lists: `arr` is the order in which the keys are written (PyYAML
sorts them).  `none` is an exception while a scalar is converted. -/
def dump (arr : {Z : Type} → List (K × Z) → List (K × Z)) (f : A → Option B) : Yaml K A → Option (Yaml K B)
  | .atom a => (f a).map .atom
  | .map es => (dumpMap arr f es).map fun r => .map (arr r)
  | .seq l => (dumpSeq arr f l).map .seq
  | .anchor n y => (dump arr f y).map (.anchor n)
  | .aliased n => some (.aliased n)

def dumpMap (arr : {Z : Type} → List (K × Z) → List (K × Z)) (f : A → Option B) :
    List (K × Yaml K A) → Option (List (K × Yaml K B))
  | [] => some []
  | (k, y) :: es =>
    match dump arr f y, dumpMap arr f es with
    | some z, some r => some ((k, z) :: r)
    | _, _ => none

def dumpSeq (arr : {Z : Type} → List (K × Z) → List (K × Z)) (f : A → Option B) :
    List (Yaml K A) → Option (List (Yaml K B))
  | [] => some []
  | y :: l =>
    match dump arr f y, dumpSeq arr f l with
    | some z, some r => some (z :: r)
    | _, _ => none
end

/-- `cfg.write(filename)`: the document in the file.  The keys are written and read as they are.
repo: hftools/file_formats/config.py:181-187 -/
def write (c : Codec F D T) (detect : T → Tag) (allowed : T → Bool)
    (arr : {Z : Type} → List (K × Z) → List (K × Z)) (h : List (Obj K (Scalar F D T))) : Option (Yaml K (Written T)) :=
  (standard h (h.length + 1) (.ref 0)).bind fun y =>
    dump arr (fun a => some (emit detect allowed (represent c a))) y

/-- `LexicalConfig(filename)` for a file with this document.  The scalars are read while the containers are made; here
they are read first.  repo: hftools/file_formats/config.py:167-179 -/
def loadFile [DecidableEq K] (c : Codec F D T) (detect : T → Tag) (y : Yaml K (Written T)) :
    Except LoadErr (List (Obj K (Scalar F D T))) :=
  match dump (fun l => l) (readScalar c detect) y with
  | none => .error .yaml
  | some y => load y

end Config
end HF
