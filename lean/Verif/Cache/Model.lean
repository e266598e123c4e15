/-
Reading through the cache: hftools/file_formats/__init__.py 85-112 (`read_to_cache`,
`read_from_cache`) and hftools/_external/path.py 131-133 (`namebase`).
-/
namespace HF.Cache

/-- Last component of a path (`os.path.basename`). -/
def basename (p : List Char) : List Char := (p.reverse.takeWhile (· ≠ '/')).reverse

/-- `os.path.splitext(name)[0]` for a name without slash: cut at the last dot unless there are
only dots before it. -/
def stem (n : List Char) : List Char :=
  let pre := (n.reverse.dropWhile (· ≠ '.')).drop 1
  if n.contains '.' ∧ pre.any (· ≠ '.') then pre.reverse else n

/-- repo: _external/path.py 131-133 -/
def namebase (p : List Char) : List Char := stem (basename p)

/-- Contents of a cache file: saved completely, or a save of `d` that was interrupted. -/
inductive CFile (δ : Type) where
  | full (d : δ)
  | part (d : δ)
  deriving DecidableEq

/-- The data saved can be read again if the save was completed (`HF.Hdf5`, C26).  What can be read
from an incomplete file is left open.  `storable`: `save_hdf5` does not fail on the data. -/
structure Env (δ : Type) where
  storable : δ → Bool
  readPart : δ → Option δ

/-- File name of the cache: directory and name. -/
abbrev Key := List Char × List Char

structure State (δ : Type) where
  /-- what `read_data` gives for a file name, if it succeeds -/
  source : List Char → Option δ
  cache : Key → Option (CFile δ)

/-- How the process goes on once the body of the `with` statement is entered. -/
inductive Body (δ : Type) where
  /-- the body changes the data object in place and ends; if `killed` the process dies within the
  following save -/
  | done (f : δ → δ) (killed : Bool)
  /-- the body raises, or the process dies in it -/
  | raises

inductive Op (δ : Type) where
  | editSource (p : List Char) (d : Option δ)
  | enter (filename : List Char) (cachename : Option (List Char)) (dir : List Char) (reread : Bool)
      (body : Body δ)
  | readFrom (cachename dir : List Char)

inductive Out (δ : Type) where
  | unit
  /-- data given to the body, whether it was read from the source, and whether the whole
  statement ended normally -/
  | yielded (d : δ) (fresh : Bool) (ok : Bool)
  /-- data returned -/
  | data (d : δ)
  | failed
  deriving DecidableEq

variable {δ : Type}

/-- repo: file_formats/__init__.py 94-98 -/
def keyOf (filename : List Char) (cachename : Option (List Char)) (dir : List Char) : Key :=
  (dir, match cachename with | none => namebase filename | some n => n)

/-- `read_hdf5` of a cache file. -/
def load (env : Env δ) : CFile δ → Option δ
  | .full d => some d
  | .part d => env.readPart d

def put (s : State δ) (k : Key) (f : CFile δ) : State δ :=
  { s with cache := fun k' => if k' = k then some f else s.cache k' }

/-- repo: file_formats/__init__.py 85-112.  The file is opened with mode "w" before anything is
written, so a save that fails or is interrupted leaves an incomplete file. -/
def step (env : Env δ) (s : State δ) : Op δ → State δ × Out δ
  | .editSource p d => ({ s with source := fun q => if q = p then d else s.source q }, .unit)
  | .enter filename cachename dir reread body =>
    let k := keyOf filename cachename dir
    if (s.cache k).isNone || reread then
      match s.source filename with
      | none => (s, .failed)
      | some d =>
        match body with
        | .raises => (s, .yielded d true false)
        | .done f killed =>
          if killed || !env.storable (f d) then (put s k (.part (f d)), .yielded d true false)
          else (put s k (.full (f d)), .yielded d true true)
    else
      match (s.cache k).bind (load env) with
      | none => (s, .failed)
      | some d =>
        match body with
        | .raises => (s, .yielded d false false)
        | .done _ _ => (s, .yielded d false true)
  | .readFrom cachename dir =>
    match (s.cache (dir, cachename)).bind (load env) with
    | none => (s, .failed)
    | some d => (s, .data d)

def run (env : Env δ) (s : State δ) : List (Op δ) → State δ
  | [] => s
  | op :: ops => run env (step env s op).1 ops

/-- The outputs of a history. -/
def outs (env : Env δ) (s : State δ) : List (Op δ) → List (Out δ)
  | [] => []
  | op :: ops => (step env s op).2 :: outs env (step env s op).1 ops

end HF.Cache
