/-
Model of `make_dirs` with the calls of the file system one by one, so that other programs may act in between.

repo: hftools/utils.py:140-149
-/
namespace HF
namespace Dirs

/-- A path, the innermost name first; `[]` is the root (or the working directory for relative paths).  There are no links,
no `.` and `..`, and everything may be written. -/
abbrev Path := List String

inductive Kind where
  | dir
  | file
  deriving DecidableEq

/-- What is at each path. -/
abbrev FS := Path → Option Kind

def FS.set (fs : FS) (p : Path) (k : Kind) : FS := fun x => if x = p then some k else fs x

inductive Err where
  | fileExists
  | notADirectory
  | notFound
  deriving DecidableEq

/-- `os.mkdir`, Python library. -/
def mkdir (fs : FS) : Path → Except Err FS
  | [] => .error .fileExists
  | c :: par =>
    if (fs (c :: par)).isSome then .error .fileExists
    else
      match fs par with
      | some .dir => .ok (fs.set (c :: par) .dir)
      | some .file => .error .notADirectory
      | none => .error .notFound

/-- A segment of a path: whether it begins with the separator, and its names, the outermost first. -/
structure Seg where
  absolute : Bool
  names : List String

/-- `os.path.join(*pathsegments)`, Python library: an absolute segment discards all before.
repo: hftools/utils.py:147 -/
def join : List Seg → Path
  | segs => segs.foldl (fun acc s => if s.absolute then s.names.reverse else s.names.reverse ++ acc) []

/-- Where a call of `make_dirs` is.  `todo`: the calls of `os.makedirs` that wait for the inner one. -/
inductive Pc where
  | check
  | descend (q : Path) (todo : List Path)
  | mk (q : Path) (todo : List Path)
  | done
  | failed (e : Err)
  deriving DecidableEq

/-- After the inner call of `os.makedirs` the next one makes its directory. -/
def next : List Path → Pc
  | [] => .done
  | r :: rest => .mk r rest

/-- One call of the file system: `os.path.isdir(x)` (repo: hftools/utils.py:148), and in `os.makedirs(x)` (149; Python
library) `os.path.exists(head)`, with a call of itself if it does not exist, and `os.mkdir`; that a directory exists
is an error in the outermost call only. -/
def step (target : Path) (fs : FS) : Pc → FS × Pc
  | .check => if fs target = some .dir then (fs, .done) else (fs, .descend target [])
  | .descend q todo =>
    if (fs q.tail).isSome then (fs, .mk q todo) else (fs, .descend q.tail (q :: todo))
  | .mk q todo =>
    match mkdir fs q with
    | .ok fs' => (fs', next todo)
    | .error .fileExists => (fs, if todo = [] then .failed .fileExists else next todo)
    | .error e => (fs, .failed e)
  | .done => (fs, .done)
  | .failed e => (fs, .failed e)

/-- The call alone, `n` steps. -/
def alone (target : Path) : Nat → FS × Pc → FS × Pc
  | 0, s => s
  | n + 1, s => alone target n (step target s.1 s.2)

/-- Many callers, each with its path. -/
structure World where
  fs : FS
  pcs : List (Path × Pc)

/-- A step of caller `i`, or another program that makes a file. -/
inductive Op where
  | call (i : Nat)
  | file (p : Path)

def World.step (w : World) : Op → World
  | .call i =>
    match w.pcs[i]? with
    | some (t, pc) => ⟨(Dirs.step t w.fs pc).1, w.pcs.set i (t, (Dirs.step t w.fs pc).2)⟩
    | none => w
  | .file p => if (w.fs p).isNone ∧ w.fs p.tail = some .dir then ⟨w.fs.set p .file, w.pcs⟩ else w

/-- All callers at the beginning. -/
def World.start (fs : FS) (targets : List Path) : World := ⟨fs, targets.map fun t => (t, .check)⟩

def World.run (w : World) (ops : List Op) : World := ops.foldl World.step w

end Dirs
end HF
