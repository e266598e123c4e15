/-
Model of hftools/logger.py.
-/
namespace HF
namespace Logger

/-- Handlers attached to the logger `hftools`: the silent one added at import, those of the
application and those made by `start_log`.  The latter remember the stream that was `sys.stderr`
when they were made; handler objects are identified by a serial number. -/
inductive Handler
  | null
  | app (id : Nat)
  | stream (id : Nat) (target : Nat)
deriving DecidableEq

/-- Module state: handlers of the logger, `_stream_handler`, `sys.stderr`, and the serial number
of the next handler object. -/
structure State where
  handlers : List Handler
  current : Option Handler
  stderr : Nat
  next : Nat

/-- State after import in a program which already attached the handlers `apps`.
repo: hftools/logger.py:12-20 -/
def State.init (apps : List Nat) (stderr : Nat) : State :=
  ⟨apps.map .app ++ [.null], none, stderr, 0⟩

/-- python `Logger.addHandler`: append unless present. -/
def addHandler (l : List Handler) (h : Handler) : List Handler := if h ∈ l then l else l ++ [h]

/-- python `Logger.removeHandler`: remove if present. -/
def removeHandler (l : List Handler) (h : Handler) : List Handler := l.erase h

/-- repo: hftools/logger.py:23-29 -/
def startLog (s : State) : State :=
  match s.current with
  | some _ => s
  | none =>
    let h := Handler.stream s.next s.stderr
    { s with handlers := addHandler s.handlers h, current := some h, next := s.next + 1 }

/-- repo: hftools/logger.py:32-38 -/
def stopLog (s : State) : State :=
  match s.current with
  | some h => { s with handlers := removeHandler s.handlers h, current := none }
  | none => s

/-- What a program can do: call the two functions, attach and detach handlers of its own,
redirect `sys.stderr`. -/
inductive Op
  | start | stop
  | add (id : Nat) | remove (id : Nat)
  | redirect (target : Nat)
deriving DecidableEq

def step (s : State) : Op → State
  | .start => startLog s
  | .stop => stopLog s
  | .add i => { s with handlers := addHandler s.handlers (.app i) }
  | .remove i => { s with handlers := removeHandler s.handlers (.app i) }
  | .redirect t => { s with stderr := t }

def run (s : State) (ops : List Op) : State := ops.foldl step s

/-- Stream of a handler made by `start_log`. -/
def streamOf : Handler → Option Nat
  | .stream _ t => some t
  | _ => none

/-- Identity of a handler of the application. -/
def appOf : Handler → Option Nat
  | .app i => some i
  | _ => none

/-- Streams that the emission of one message writes to through handlers made by `start_log`. -/
def printed (s : State) : List Nat :=
  s.handlers.filterMap streamOf

/-- Handlers of the application, in order. -/
def appHandlers (s : State) : List Nat :=
  s.handlers.filterMap appOf

end Logger
end HF
