import Verif.DataBlock.Model
/-
Several `DataBlock`s whose variables are references to array objects.  Assigning an array to a
block stores a reference; `replace_dim` and the assignment of a matrix element change the array
object in place, so blocks which share an array influence each other.

repo: hftools/dataset/dataset.py:199-399
-/
namespace HF.DataBlock

open HF.DataDict.Spec

variable {β α : Type}

/-- A block with references (positions in the heap) to array objects.
repo: hftools/dataset/dataset.py:201-213 -/
structure RBlock (β : Type) where
  vars : OMap String Nat := []
  ivars : OMap String (Dim β) := []
  xname : Option String := none

/-- All array objects and all blocks of a program.  Memory shared by two array objects (numpy
views) is not modelled. -/
structure World (β α : Type) where
  heap : List (Arr β α) := []
  blocks : List (RBlock β) := []

/-- What a program can do.  Blocks and arrays are numbered in the order of creation. -/
inductive Op (β α : Type) where
  /-- `DataBlock()` -/
  | new
  /-- `block[key] = v` with a new array -/
  | set (b : Nat) (key : String) (v : Arr β α)
  /-- `block[key] = v` with an array object that exists already -/
  | share (b : Nat) (key : String) (r : Nat)
  /-- `block[key] = dim` -/
  | setDim (b : Nat) (key : String) (d : Dim β)
  /-- `del block[key]` -/
  | del (b : Nat) (key : String)
  /-- `block.rename(old, new)` -/
  | rename (b : Nat) (old new : String)
  /-- `block.replace_dim(old, new)` -/
  | replaceDim (b : Nat) (old new : Dim β)
  /-- `block.copy()` -/
  | copy (b : Nat)
  /-- `block.keep_variables(names)` -/
  | keep (b : Nat) (names : List String)

/-- Change one block. -/
def putBlock (w : World β α) (b : Nat) (blk : RBlock β) : World β α :=
  { w with blocks := w.blocks.set b blk }

/-- Change one array object. -/
def putArr (w : World β α) (r : Nat) (x : Arr β α) : World β α :=
  { w with heap := w.heap.set r x }

/-- `for v in self.vardata.values(): v.replace_dim(olddim, newdim)`.
repo: hftools/dataset/dataset.py:239-240 -/
def relabel (old new : Dim β) (refs : List Nat) (heap : List (Arr β α)) : List (Arr β α) :=
  refs.foldl (fun h r => match h[r]? with
    | some x => h.set r (replaceDimArr old new x)
    | none => h) heap

/-- `block.replace_dim(olddim, newdim)`; `none` is `KeyError`.
repo: hftools/dataset/dataset.py:223-240 -/
def wReplaceDim (w : World β α) (b : Nat) (blk : RBlock β) (old new : Dim β) :
    Option (World β α) :=
  match renameIvar blk.ivars old new with
  | none => none
  | some iv => some ⟨relabel old new (blk.vars.map Prod.snd) w.heap,
      w.blocks.set b { blk with ivars := iv }⟩

/-- `block[key] = value`, where the array object is number `r`.
repo: hftools/dataset/dataset.py:318-344 -/
def wSetArr (env : Env β α) (w : World β α) (b : Nat) (key : String) (r : Nat) :
    World β α × Except Err Unit :=
  match w.blocks[b]?, w.heap[r]? with
  | some blk, some v =>
    let blk := { blk with xname := nextXname blk.xname v.dims }
    let w := putBlock w b blk
    match elemTarget (member blk.vars) key v with
    | some (m, i, j) =>
      match lookup blk.vars m with
      | none => (w, .error .keyError)
      | some rx =>
        match w.heap[rx]? with
        | none => (w, .error .keyError)
        | some x =>
          match setElem x i j v with
          | .ok x' => (putArr w rx x', .ok ())
          | .error e => (w, .error e)
    | none =>
      match lookup blk.ivars key with
      | some old =>
        if v.dims.length = 1 then
          match renameIvar blk.ivars old
              (Dim.copyFrom env.dfltDim old.cls old (data := some (toCoords env v))) with
          | some iv =>
            -- `value.dims` is read after `replace_dim`, which may have changed this very array
            let heap := relabel old
              (Dim.copyFrom env.dfltDim old.cls old (data := some (toCoords env v)))
              (blk.vars.map Prod.snd) w.heap
            let dims := match heap[r]? with
              | some v' => v'.dims
              | none => []
            (⟨heap, w.blocks.set b { blk with ivars := addDims iv dims }⟩, .ok ())
          | none => (w, .error .keyError)
        else (w, .error .attributeError)
      | none =>
        (putBlock w b { blk with vars := assign blk.vars key r, ivars := addDims blk.ivars v.dims },
          .ok ())
  | _, _ => (w, .error .keyError)

/-- `block[key] = v` with a new array: create the object, then assign. -/
def wSetNew (env : Env β α) (w : World β α) (b : Nat) (key : String) (v : Arr β α) :
    World β α × Except Err Unit :=
  wSetArr env { w with heap := w.heap ++ [v] } b key w.heap.length

/-- The loop of `keep_variables`: `src` is the block read, `b` the new one.  A dimension is read
as a new array, a variable as the same array object.  (Names in the block are never matrix
elements: line 219 tests `v in self`.)
repo: hftools/dataset/dataset.py:218-220 -/
def wKeep (env : Env β α) (src : RBlock β) (b : Nat) : World β α → List String →
    World β α × Except Err Unit
  | w, [] => (w, .ok ())
  | w, n :: ns =>
    match lookup src.ivars n with
    | some d =>
      match wSetNew env w b n (ofDim env d) with
      | (w', .ok _) => wKeep env src b w' ns
      | (w', .error e) => (w', .error e)
    | none =>
      match lookup src.vars n with
      | some r =>
        match wSetArr env w b n r with
        | (w', .ok _) => wKeep env src b w' ns
        | (w', .error e) => (w', .error e)
      | none => wKeep env src b w ns

/-- `DataDict.copy` for the variables: a new array object for each.
repo: hftools/dataset/dataset.py:152-155, hftools/dataset/arrayobj.py:766-769 -/
def copyVars : List (Arr β α) → OMap String Nat → List (Arr β α) × OMap String Nat
  | heap, [] => (heap, [])
  | heap, (k, r) :: t =>
    match heap[r]? with
    | some x =>
      let (heap', t') := copyVars (heap ++ [x]) t
      (heap', (k, heap.length) :: t')
    | none => copyVars heap t

/-- One step of a program; an operation on a block that does not exist does nothing. -/
def wstep (env : Env β α) (w : World β α) : Op β α → World β α × Except Err Unit
  | .new => ({ w with blocks := w.blocks ++ [{}] }, .ok ())
  | .set b key v => wSetNew env w b key v
  | .share b key r => wSetArr env w b key r
  | .setDim b key d =>
    match w.blocks[b]? with
    | some blk =>
      (putBlock w b
        { blk with ivars := assign blk.ivars key d, xname := some (blk.xname.getD d.name) }, .ok ())
    | none => (w, .ok ())
  | .del b key =>
    match w.blocks[b]? with
    | some blk =>
      (if member blk.vars key then putBlock w b { blk with vars := remove blk.vars key } else w, .ok ())
    | none => (w, .ok ())
  | .rename b old new =>
    match w.blocks[b]? with
    | some blk =>
      match lookup blk.ivars old with
      | some d =>
        match wReplaceDim w b blk d (Dim.copyFrom env.dfltDim d.cls d (name := some new)) with
        | some w' => (w', .ok ())
        | none => (w, .error .keyError)
      | none =>
        match lookup blk.vars old with
        | some r => (putBlock w b { blk with vars := DataDict.Spec.rename blk.vars old new r }, .ok ())
        | none => (w, .ok ())
    | none => (w, .ok ())
  | .replaceDim b old new =>
    match w.blocks[b]? with
    | some blk =>
      match wReplaceDim w b blk old new with
      | some w' => (w', .ok ())
      | none => (w, .error .keyError)
    | none => (w, .ok ())
  | .copy b =>
    match w.blocks[b]? with
    | some blk =>
      (⟨(copyVars w.heap blk.vars).1, w.blocks ++ [{ blk with vars := (copyVars w.heap blk.vars).2 }]⟩,
        .ok ())
    | none => (w, .ok ())
  | .keep b names =>
    match w.blocks[b]? with
    | some blk => wKeep env blk w.blocks.length { w with blocks := w.blocks ++ [{}] } names
    | none => (w, .ok ())

/-- A program: the world after all operations (errors are caught by the caller). -/
def wrun (env : Env β α) : World β α → List (Op β α) → World β α
  | w, [] => w
  | w, op :: ops => wrun env (wstep env w op).1 ops

/-- `block[key]` for block number `b`.  repo: hftools/dataset/dataset.py:284-303 -/
def wGetitem (env : Env β α) (w : World β α) (b : Nat) (key : String) : Except Err (Arr β α) :=
  match w.blocks[b]? with
  | none => .error .keyError
  | some blk =>
    getitem env { vars := blk.vars.filterMap fun p => (w.heap[p.2]?).map fun x => (p.1, x),
                  ivars := blk.ivars, xname := blk.xname } key

end HF.DataBlock
