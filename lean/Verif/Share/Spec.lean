import Verif.Share.StepLemmas
/-
What can be seen of arrays and blocks, and which programs use only one of two parts of the
memory.
-/
namespace HF.Share

open HF.DataDict.Spec
open HF.DataBlock

variable {β α : Type}

/-- Every reference refers to something. -/
structure Wf (m : Mem β α) : Prop where
  obj : ∀ (r : Nat) (o : Obj β), m.objs[r]? = some o → o.buf < m.bufs.length
  vars : ∀ (b : Nat) (blk : Blk β), m.blks[b]? = some blk → ∀ q ∈ blk.vars, q.2 < m.objs.length
  comm : ∀ (b : Nat) (blk : Blk β), m.blks[b]? = some blk → ∀ c, blk.comm = some c → c < m.comms.length

/-- What can be seen of an array object. -/
structure SeenObj (β α : Type) where
  dims : List (Dim β)
  shape : List Nat
  /-- The elements in row-major order, `a.flat`. -/
  flat : List α
  unit : Option String
  fmt : String
  deriving DecidableEq

/-- The elements in row-major order. -/
def flatOf (a : Nd α) : List α := (indices a.shape).map a.get

def seeObj (junk : α) (m : Mem β α) (r : Nat) : Option (SeenObj β α) :=
  (m.objs[r]?).map fun o =>
    ⟨o.pos.dims, o.pos.nd.shape, flatOf (o.val m.bufs junk).nd, o.unit, o.fmt⟩

/-- What can be seen of a block. -/
structure Seen (β α : Type) where
  vars : List (String × Option (SeenObj β α))
  ivars : OMap String (Dim β)
  xname : Option String
  comments : Option (List String)
  deriving DecidableEq

def see (junk : α) (m : Mem β α) (b : Nat) : Option (Seen β α) :=
  (m.blks[b]?).map fun blk =>
    ⟨blk.vars.map fun p => (p.1, seeObj junk m p.2), blk.ivars, blk.xname,
      blk.comm.bind fun c => m.comms[c]?⟩

/-- What can be seen of an array object besides its elements: dims, shape, unit, format. -/
def formObj (m : Mem β α) (r : Nat) : Option (List (Dim β) × List Nat × Option String × String) :=
  (m.objs[r]?).map fun o => (o.pos.dims, o.pos.nd.shape, o.unit, o.fmt)

/-- What can be seen of a block besides elements and comments. -/
def form (m : Mem β α) (b : Nat) : Option
    (List (String × Option (List (Dim β) × List Nat × Option String × String)) ×
      OMap String (Dim β) × Option String) :=
  (m.blks[b]?).map fun blk => (blk.vars.map fun p => (p.1, formObj m p.2), blk.ivars, blk.xname)

/-- The elements of an array object. -/
def elems (junk : α) (m : Mem β α) (r : Nat) : Option (Nd α) :=
  (m.objs[r]?).map fun o => (o.val m.bufs junk).nd

/-- The other part. -/
def Part.compl (P : Part) : Part := ⟨(¬ P.buf ·), (¬ P.obj ·), (¬ P.blk ·), (¬ P.comm ·)⟩

/-- One of the two parts. -/
def Part.side (P : Part) : Bool → Part
  | true => P
  | false => P.compl

/-- What has been made between `m` and `m'`. -/
def made (m m' : Mem β α) : Part :=
  (⟨fun _ => False, fun _ => False, fun _ => False, fun _ => False⟩ : Part).grow m m'

/-- The part with all memory and all comments: only array objects and blocks are divided. -/
def Part.loose (P : Part) : Part := ⟨fun _ => True, P.obj, P.blk, fun _ => True⟩

/-- Everything that exists. -/
def everything (m : Mem β α) : Part :=
  ⟨(· < m.bufs.length), (· < m.objs.length), (· < m.blks.length), (· < m.comms.length)⟩

/-- A program made of two: each step is marked with the part it belongs to and is given only
arrays and blocks of this part; what it makes belongs to its part. -/
def Sided [DecidableEq β] (env : Env β α) : Mem β α → Part → List (Bool × Op β α) → Prop
  | _, _, [] => True
  | m, P, (s, op) :: t => op.on m (P.side s) ∧
      Sided env (step env m op).1 (if s then P.grow m (step env m op).1 else P) t

/-- The part after a program. -/
def partAfter [DecidableEq β] (env : Env β α) : Mem β α → Part → List (Bool × Op β α) → Part
  | _, P, [] => P
  | m, P, (s, op) :: t =>
    partAfter env (step env m op).1 (if s then P.grow m (step env m op).1 else P) t

/-- The two parts do not share anything. -/
structure Apart (m : Mem β α) (P : Part) : Prop where
  wf : Wf m
  one : Closed m P
  other : Closed m P.compl
  exist : (∀ i, P.buf i → i < m.bufs.length) ∧ (∀ i, P.obj i → i < m.objs.length) ∧
    (∀ i, P.blk i → i < m.blks.length) ∧ (∀ i, P.comm i → i < m.comms.length)

/-- A program that is given only arrays and blocks of a part, or made by itself. -/
def Uses [DecidableEq β] (env : Env β α) : Mem β α → Part → List (Op β α) → Prop
  | _, _, [] => True
  | m, P, op :: t => op.on m P ∧ Uses env (step env m op).1 (P.grow m (step env m op).1) t

end HF.Share
