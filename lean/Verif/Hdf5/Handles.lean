/-
Model of who opens and closes HDF5 files: the functions take the name of a file or a file that is open.

repo: hftools/file_formats/hdf5/helper.py:18-24, hdf5/hdf5.py:43-60, hdf5/v_01.py:28-33, 77-78, 84-88, 121-122,
hdf5/v_02.py:114-117, 171-177

What is in a file are the names of its groups and data sets (numbers here); what is read and written is in other models
(C26, C71, C72), here it is the exception, if any, that reading or making the next data set raises.  HDF5 library: a file
that is open can not be emptied, one that is open for reading only can not be opened for writing as well, and a data set
can not be made a second time.
-/
namespace HF
namespace Handles

inductive Err where
  | missing
  | busy
  | closed
  | readOnly
  | nameExists
  | other (n : Nat)
  deriving DecidableEq

inductive Mode where
  | r | w | a
  deriving DecidableEq

/-- An `h5py.File`. -/
structure Handle where
  id : Nat
  name : Nat
  write : Bool
  deriving DecidableEq

structure State where
  opens : List Handle
  next : Nat
  cont : Nat → Option (List Nat)

/-- What is given as file: a name (`str` or `path`) or an `h5py.File`. -/
inductive Arg where
  | name (n : Nat)
  | handle (h : Handle)
  deriving DecidableEq

def setCont (c : Nat → Option (List Nat)) (n : Nat) (l : List Nat) : Nat → Option (List Nat) :=
  fun k => if k = n then some l else c k

def add (s : State) (n : Nat) (w : Bool) : State × Except Err Handle :=
  ({ s with opens := ⟨s.next, n, w⟩ :: s.opens, next := s.next + 1 }, .ok ⟨s.next, n, w⟩)

/-- `h5py.File(name, mode)`; HDF5 library. -/
def openFile (s : State) (n : Nat) : Mode → State × Except Err Handle
  | .r => match s.cont n with
    | none => (s, .error .missing)
    | some _ => add s n false
  | .w => if s.opens.any (fun h => h.name == n) then (s, .error .busy) else add { s with cont := setCont s.cont n [] } n true
  | .a => if s.opens.any (fun h => h.name == n && !h.write) then (s, .error .busy)
    else add { s with cont := setCont s.cont n ((s.cont n).getD []) } n true

/-- `fil.close()` -/
def closeFile (s : State) (h : Handle) : State := { s with opens := s.opens.filter fun k => k.id != h.id }

/-- `with hdf5context(arg, mode) as fil: body`.  repo: hftools/file_formats/hdf5/helper.py:18-24 -/
def context (s : State) (arg : Arg) (m : Mode) (body : State → Handle → State × Except Err Unit) : State × Except Err Unit :=
  match arg with
  | .handle h => body s h
  | .name n => match openFile s n m with
    | (s', .error e) => (s', .error e)
    | (s', .ok h) => (closeFile (body s' h).1 h, (body s' h).2)

/-- Reading from an open file; `r` is the exception it raises, if any. -/
def reading (r : Option Nat) (s : State) (h : Handle) : State × Except Err Unit :=
  if h ∈ s.opens then
    match r with
    | none => (s, .ok ())
    | some e => (s, .error (.other e))
  else (s, .error .closed)

/-- Making the data sets one after another; making the next one ready may raise an exception. -/
def writeAll : List (Except Nat Nat) → State → Handle → State × Except Err Unit
  | [], s, _ => (s, .ok ())
  | .error e :: _, s, _ => (s, .error (.other e))
  | .ok k :: t, s, h =>
    if k ∈ (s.cont h.name).getD [] then (s, .error .nameExists)
    else writeAll t { s with cont := setCont s.cont h.name ((s.cont h.name).getD [] ++ [k]) } h

def writing (items : List (Except Nat Nat)) (s : State) (h : Handle) : State × Except Err Unit :=
  if h ∈ s.opens then
    if h.write then writeAll items s h else (s, .error .readOnly)
  else (s, .error .closed)

/-- `v_02.read_hdf5`.  repo: hftools/file_formats/hdf5/v_02.py:114-117 -/
def read02 (s : State) (arg : Arg) (r : Option Nat) : State × Except Err Unit := context s arg .r (reading r)

/-- `v_02.save_hdf5`.  repo: hftools/file_formats/hdf5/v_02.py:171-177 -/
def save02 (s : State) (arg : Arg) (items : List (Except Nat Nat)) : State × Except Err Unit :=
  context s arg .w (writing items)

/-- A file opened with a name and closed at the end, without `with`. -/
def plain (s : State) (arg : Arg) (m : Mode) (body : State → Handle → State × Except Err Unit) : State × Except Err Unit :=
  match arg with
  | .handle h => body s h
  | .name n => match openFile s n m with
    | (s', .error e) => (s', .error e)
    | (s', .ok h) => match body s' h with
      | (s'', .ok ()) => (closeFile s'' h, .ok ())
      | (s'', .error e) => (s'', .error e)

/-- `v_01.read_hdf5`; without `property_to_vars`, which comes after the file is closed.  repo: hftools/file_formats/hdf5/v_01.py:84-88, 121-122 -/
def read01 (s : State) (arg : Arg) (r : Option Nat) : State × Except Err Unit := plain s arg .r (reading r)

/-- `v_01.save_hdf5(..., mode)`.  repo: hftools/file_formats/hdf5/v_01.py:28-33, 77-78 -/
def save01 (s : State) (arg : Arg) (m : Mode) (items : List (Except Nat Nat)) : State × Except Err Unit :=
  plain s arg m (writing items)

inductive Version where
  | v01 | v02
  deriving DecidableEq

/-- `read_hdf5`; the version is that in the file.  repo: hftools/file_formats/hdf5/hdf5.py:43-49 -/
def read (s : State) (arg : Arg) (v : Version) (r : Option Nat) : State × Except Err Unit :=
  context s arg .r fun s h => match v with
    | .v02 => read02 s (.handle h) r
    | .v01 => read01 s (.handle h) r

/-- `save_hdf5`.  repo: hftools/file_formats/hdf5/hdf5.py:51-60 -/
def save (s : State) (arg : Arg) (v : Version) (items : List (Except Nat Nat)) : State × Except Err Unit :=
  context s arg .w fun s h => match v with
    | .v02 => save02 s (.handle h) items
    | .v01 => save01 s (.handle h) .w items

/-- What a program does with HDF5 files; `openUser` and `closeUser` are its own `h5py.File(name, mode)` and `close()`. -/
inductive Op where
  | openUser (n : Nat) (m : Mode)
  | closeUser (h : Handle)
  | read (arg : Arg) (v : Version) (r : Option Nat)
  | save (arg : Arg) (v : Version) (items : List (Except Nat Nat))
  | read02 (arg : Arg) (r : Option Nat)
  | save02 (arg : Arg) (items : List (Except Nat Nat))
  | read01 (arg : Arg) (r : Option Nat)
  | save01 (arg : Arg) (m : Mode) (items : List (Except Nat Nat))

inductive Out where
  | handle (h : Handle)
  | done
  | raised (e : Err)
  deriving DecidableEq

def out : State × Except Err Unit → State × Out
  | (s, .ok ()) => (s, .done)
  | (s, .error e) => (s, .raised e)

def step (s : State) : Op → State × Out
  | .openUser n m => match openFile s n m with
    | (s', .ok h) => (s', .handle h)
    | (s', .error e) => (s', .raised e)
  | .closeUser h => (closeFile s h, .done)
  | .read arg v r => out (read s arg v r)
  | .save arg v items => out (save s arg v items)
  | .read02 arg r => out (read02 s arg r)
  | .save02 arg items => out (save02 s arg items)
  | .read01 arg r => out (read01 s arg r)
  | .save01 arg m items => out (save01 s arg m items)

/-- A program: the state at the end and what every operation gave. -/
def run : State → List Op → State × List (Op × Out)
  | s, [] => (s, [])
  | s, op :: t => ((run (step s op).1 t).1, (op, (step s op).2) :: (run (step s op).1 t).2)

/-- Before the program: nothing open. -/
def start (c : Nat → Option (List Nat)) : State := ⟨[], 0, c⟩

end Handles
end HF
