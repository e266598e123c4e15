import Verif.DataBlock.FilterSort
/-
Memory: which arrays and blocks of a program share their elements.

An array object refers to a buffer and says for each of its elements at which position of the
buffer it is.  Views, transposed arrays and basic indexing give new objects which refer to the
buffer of the array they were made from; `copy()` gives an object with a buffer of its own.  A
block holds references to array objects and to its comments.

repo: hftools/dataset/dataset.py:201-457, hftools/dataset/arrayobj.py:371-531, 576-676, 766-769

Not modelled: dtypes (an array viewed with another dtype), classes of arrays, arrays which numpy
is told to build on foreign memory, the name of a block and its report settings.
-/
namespace HF.Share

open HF.DataDict.Spec
open HF.DataBlock

variable {β α : Type}

/-- An `hfarray` object: its buffer, the positions of its elements (with the dims of the object),
unit and output format.  repo: hftools/dataset/arrayobj.py:371-459 -/
structure Obj (β : Type) where
  buf : Nat
  pos : Arr β Nat
  unit : Option String := none
  fmt : String := "%.16e"

/-- A `DataBlock` object: references to array objects, dims (which are never changed), the name
of the x axis and a reference to the comments.  repo: hftools/dataset/dataset.py:201-213 -/
structure Blk (β : Type) where
  vars : OMap String Nat := []
  ivars : OMap String (Dim β) := []
  xname : Option String := none
  comm : Option Nat := none

/-- All of a program: buffers, array objects, blocks and comments, each numbered in the order of
creation. -/
structure Mem (β α : Type) where
  bufs : List (Nat → α) := []
  objs : List (Obj β) := []
  blks : List (Blk β) := []
  comms : List (List String) := []

/-- The dims and elements of an array object. -/
def Obj.val (bufs : List (Nat → α)) (o : Obj β) (junk : α) : Arr β α :=
  ⟨o.pos.dims, ⟨o.pos.nd.shape, fun idx =>
    match bufs[o.buf]? with
    | some f => f (o.pos.nd.get idx)
    | none => junk⟩⟩

/-- What has been returned: the number of an array object or of a block. -/
inductive Out where
  | nothing
  | obj (r : Nat)
  | blk (b : Nat)
  deriving DecidableEq, Repr

/-! ### Array objects -/

/-- A new array object with its own buffer, `np.array(data, copy=True)`.
repo: hftools/dataset/arrayobj.py:382-425 -/
def addArr (m : Mem β α) (v : Arr β α) (unit : Option String) (fmt : String) : Mem β α :=
  { m with
    bufs := m.bufs ++ [fun p => v.nd.get (Nd.unravel v.nd.shape p)]
    objs := m.objs ++ [⟨m.bufs.length, ⟨v.dims, ⟨v.nd.shape, Nd.ravel v.nd.shape⟩⟩, unit, fmt⟩] }

/-- A new array object on an existing buffer. -/
def addObj (m : Mem β α) (o : Obj β) : Mem β α := { m with objs := m.objs ++ [o] }

/-- Change one array object (not its elements). -/
def putObj (m : Mem β α) (r : Nat) (o : Obj β) : Mem β α := { m with objs := m.objs.set r o }

/-- Change one block. -/
def putBlk (m : Mem β α) (b : Nat) (blk : Blk β) : Mem β α := { m with blks := m.blks.set b blk }

/-- What gives another array object on the same buffer: `a.view()`, `a.transpose(*order)`,
`a.squeeze()`, `a[ixs]` with integers, slices and `Ellipsis`. -/
inductive Move where
  | view
  | transpose (order : List Nat)
  | squeeze (axes : Option (List Int))
  | item (ixs : List Ix)

/-- The positions of the elements of the new object; `none` if the result is not an array object
(a number, or a plain `ndarray` for an index with `None`).
repo: hftools/dataset/arrayobj.py:493-531, 576-589, 605-676 -/
def Move.on (dflt : β → String) (x : Arr β α) : Move → Except Arr.Err (Option (Arr β α))
  | .view => .ok (some x)
  | .transpose order => match x.transpose order with
    | .ok y => .ok (some y)
    | .error e => .error e
  | .squeeze axes => match x.squeezeIdx axes with
    | .ok y => .ok (some y)
    | .error e => .error e
  | .item ixs => match x.getitem dflt ixs with
    | .ok (.arr y) => .ok (some y)
    | .ok _ => .ok none
    | .error e => .error e

/-- The new object has unit and output format of the old one.
repo: hftools/dataset/arrayobj.py:407-425, 456-459, 591-599 -/
def viewOf (env : Env β α) (m : Mem β α) (r : Nat) (mv : Move) : Mem β α × Except Err Out :=
  match m.objs[r]? with
  | none => (m, .error .keyError)
  | some o =>
    match ofArr (mv.on env.dflt o.pos) with
    | .error e => (m, .error e)
    | .ok none => (m, .ok .nothing)
    | .ok (some p) => (addObj m ⟨o.buf, p, o.unit, o.fmt⟩, .ok (.obj m.objs.length))

/-- Write to the buffer at the positions of the elements in the list which get a value. -/
def poke (pos : List Nat → Nat) (upd : List Nat → Option α) : List (List Nat) → (Nat → α) → (Nat → α)
  | [], f => f
  | i :: is, f => poke pos upd is (match upd i with
    | some v => fun p => if p = pos i then v else f p
    | none => f)

/-- All indices of a shape, in the order of the elements. -/
def indices (sh : List Nat) : List (List Nat) := (List.range (Nd.size sh)).map (Nd.unravel sh)

/-- Assignment to elements of an array object: `upd idx` is the new value of element `idx`, if
it gets one.  numpy's `__setitem__`; the new values are computed before the first is written. -/
def write (m : Mem β α) (r : Nat) (upd : List Nat → Option α) : Mem β α :=
  match m.objs[r]? with
  | none => m
  | some o =>
    match m.bufs[o.buf]? with
    | none => m
    | some f => { m with bufs := m.bufs.set o.buf (poke o.pos.nd.get upd (indices o.pos.nd.shape) f) }

/-- An index tuple inside of a shape. -/
def inside : List Nat → List Nat → Bool
  | [], [] => true
  | s :: ss, i :: is => decide (i < s) && inside ss is
  | _, _ => false

/-- The new values in `x[...] = v` for an `x` of shape `sh`; numpy broadcasts by position. -/
def fillUpd (sh : List Nat) (v : Nd α) : Except Err (List Nat → Option α) :=
  if bcastOk v.shape.reverse sh.reverse then
    .ok fun idx => some (v.get (bcastIdx v.shape.reverse idx.reverse).reverse)
  else .error .valueError

/-- The new values in `x[..., i, j] = v` for an `x` of shape `shape`, see `DataBlock.setElem`.
repo: hftools/dataset/dataset.py:330-331 -/
def elemUpd (shape : List Nat) (i j : Int) (v : Nd α) : Except Err (List Nat → Option α) :=
  match shape.reverse with
  | q :: p :: sh =>
    match Nd.normAxis p i, Nd.normAxis q j with
    | some a, some b =>
      if bcastOk v.shape.reverse sh then
        .ok fun idx =>
          if idx.drop sh.length = [a, b] then
            some (v.get (bcastIdx v.shape.reverse (idx.take sh.length).reverse).reverse)
          else none
      else .error .valueError
    | _, _ => .error .indexError
  | _ => .error .indexError

/-! ### Blocks -/

/-- `for v in self.vardata.values(): v.replace_dim(olddim, newdim)`: the array objects are
changed in place.  repo: hftools/dataset/dataset.py:239-240, arrayobj.py:484-491 -/
def relabel (old new : Dim β) (refs : List Nat) (objs : List (Obj β)) : List (Obj β) :=
  refs.foldl (fun h r => match h[r]? with
    | some o => h.set r { o with pos := replaceDimArr old new o.pos }
    | none => h) objs

/-- `block.replace_dim(olddim, newdim)`; `none` is `KeyError`.
repo: hftools/dataset/dataset.py:223-240 -/
def replaceDimB (m : Mem β α) (b : Nat) (blk : Blk β) (old new : Dim β) : Option (Mem β α) :=
  match renameIvar blk.ivars old new with
  | none => none
  | some iv => some { m with
      objs := relabel old new (blk.vars.map Prod.snd) m.objs
      blks := m.blks.set b { blk with ivars := iv } }

/-- `block[key] = value`, where `value` is the array object `r`: an element of a matrix is written
in place, any other array is stored as it is (the object, not a copy).
repo: hftools/dataset/dataset.py:318-344 -/
def setVar (env : Env β α) (m : Mem β α) (b : Nat) (key : String) (r : Nat) :
    Mem β α × Except Err Out :=
  match m.blks[b]?, m.objs[r]? with
  | some blk, some o =>
    let v := o.val m.bufs env.junk
    let blk := { blk with xname := nextXname blk.xname v.dims }
    let m := putBlk m b blk
    match elemTarget (member blk.vars) key v with
    | some (name, i, j) =>
      match lookup blk.vars name with
      | none => (m, .error .keyError)
      | some rx =>
        match m.objs[rx]? with
        | none => (m, .error .keyError)
        | some x =>
          match elemUpd x.pos.nd.shape i j v.nd with
          | .ok upd => (write m rx upd, .ok .nothing)
          | .error e => (m, .error e)
    | none =>
      match lookup blk.ivars key with
      | some old =>
        if v.dims.length = 1 then
          let new := Dim.copyFrom env.dfltDim old.cls old (data := some (toCoords env v))
          match replaceDimB m b blk old new with
          | some m' =>
            -- `value.dims` is read after `replace_dim`, which may have changed this very array
            let dims := match m'.objs[r]? with
              | some o' => o'.pos.dims
              | none => []
            match m'.blks[b]? with
            | some blk' => (putBlk m' b { blk' with ivars := addDims blk'.ivars dims }, .ok .nothing)
            | none => (m', .ok .nothing)
          | none => (m, .error .keyError)
        else (m, .error .attributeError)
      | none =>
        (putBlk m b { blk with vars := assign blk.vars key r, ivars := addDims blk.ivars v.dims },
          .ok .nothing)
  | _, _ => (m, .error .keyError)

/-- `hfarray(dim)`: a new array with unit and format of the dim.  For a dim without values and
without own format `dim.outputformat` raises; that is left out here.
repo: hftools/dataset/arrayobj.py:382-425, hftools/dataset/dim.py:88-115 -/
def addDimArr (env : Env β α) (m : Mem β α) (d : Dim β) : Mem β α :=
  addArr m (ofDim env d) d.unit (d.outputformat.getD (env.dfltDim d.data))

/-- `block[key]`: a dimension is a new array, a variable the stored object, an element of a
matrix a view of the stored matrix.  repo: hftools/dataset/dataset.py:284-303 -/
def getVar (env : Env β α) (m : Mem β α) (b : Nat) (key : String) : Mem β α × Except Err Out :=
  match m.blks[b]? with
  | none => (m, .error .keyError)
  | some blk =>
    match lookup blk.ivars key with
    | some d => (addDimArr env m d, .ok (.obj m.objs.length))
    | none =>
      match lookup blk.vars key with
      | some r => (m, .ok (.obj r))
      | none =>
        match isMatrixName key with
        | none => (m, .error .keyError)
        | some (name, i, j) =>
          match lookup blk.vars name with
          | none => (m, .error .keyError)
          | some r =>
            match m.objs[r]? with
            | none => (m, .error .keyError)
            | some o =>
              if ismatrix o.pos then viewOf env m r (.item [.ellipsis, .int i, .int j])
              else (m, .error .keyError)

/-- `DataDict.copy` for the variables: a new array object with a buffer of its own for each.
repo: hftools/dataset/dataset.py:152-155, hftools/dataset/arrayobj.py:766-769 -/
def copyVars (junk : α) : Mem β α → OMap String Nat → Mem β α × OMap String Nat
  | m, [] => (m, [])
  | m, (k, r) :: t =>
    match m.objs[r]? with
    | some o =>
      let res := copyVars junk (addArr m (o.val m.bufs junk) o.unit o.fmt) t
      (res.1, (k, m.objs.length) :: res.2)
    | none => copyVars junk m t

/-- `DataDict.view` for the variables: a new array object on the same buffer for each.
repo: hftools/dataset/dataset.py:147-150, hftools/dataset/arrayobj.py:493-499 -/
def viewVars : Mem β α → OMap String Nat → Mem β α × OMap String Nat
  | m, [] => (m, [])
  | m, (k, r) :: t =>
    match m.objs[r]? with
    | some o =>
      let res := viewVars (addObj m o) t
      (res.1, (k, m.objs.length) :: res.2)
    | none => viewVars m t

/-- `if self.comments: out.comments = self.comments.copy()`.
repo: hftools/dataset/dataset.py:394-395, hftools/file_formats/common.py:202-206 -/
def copyComm (m : Mem β α) (c : Option Nat) : Mem β α × Option Nat :=
  match c with
  | none => (m, none)
  | some k =>
    match m.comms[k]? with
    | none => (m, none)
    | some l => ({ m with comms := m.comms ++ [l] }, some m.comms.length)

/-- `block.copy()`.  repo: hftools/dataset/dataset.py:391-399 -/
def copyBlk (env : Env β α) (m : Mem β α) (b : Nat) : Mem β α × Except Err Out :=
  match m.blks[b]? with
  | none => (m, .error .keyError)
  | some blk =>
    let mc := copyComm m blk.comm
    let mv := copyVars env.junk mc.1 blk.vars
    ({ mv.1 with blks := mv.1.blks ++ [⟨mv.2, blk.ivars, blk.xname, mc.2⟩] },
      .ok (.blk mv.1.blks.length))

/-- `block.view()`: the comments are those of the block itself.
repo: hftools/dataset/dataset.py:401-408 -/
def viewBlk (m : Mem β α) (b : Nat) : Mem β α × Except Err Out :=
  match m.blks[b]? with
  | none => (m, .error .keyError)
  | some blk =>
    let mv := viewVars m blk.vars
    ({ mv.1 with blks := mv.1.blks ++ [⟨mv.2, blk.ivars, blk.xname, blk.comm⟩] },
      .ok (.blk mv.1.blks.length))

/-- `if v in self: db[v] = self[v]` of `keep_variables`: `src` is the block read, `b` the new one.
(Names in the block are never matrix elements: line 219 tests `v in self`.)
repo: hftools/dataset/dataset.py:219-220 -/
def keepOne (env : Env β α) (src : Blk β) (b : Nat) (m : Mem β α) (n : String) :
    Mem β α × Except Err Out :=
  match lookup src.ivars n with
  | some d => setVar env (addDimArr env m d) b n m.objs.length
  | none => match lookup src.vars n with
    | some r => setVar env m b n r
    | none => (m, .ok .nothing)

/-- The loop of `keep_variables`.  repo: hftools/dataset/dataset.py:218-221 -/
def keepLoop (env : Env β α) (src : Blk β) (b : Nat) : Mem β α → List String →
    Mem β α × Except Err Out
  | m, [] => (m, .ok (.blk b))
  | m, n :: ns =>
    match keepOne env src b m n with
    | (m', .ok _) => keepLoop env src b m' ns
    | (m', .error e) => (m', .error e)

/-- The loop of `filter`: a variable without the dim is stored as a view, of any other a new
array is made.  repo: hftools/dataset/dataset.py:436-455 -/
def filterLoop [DecidableEq β] (env : Env β α) (lenient : Bool) (d new : Dim β) (mask : List Bool)
    (b : Nat) : Mem β α → OMap String Nat → Mem β α × Except Err Out
  | m, [] => (m, .ok (.blk b))
  | m, (k, r) :: t =>
    match m.objs[r]? with
    | none => (m, .error .keyError)
    | some o =>
      match Arr.dimsIndex o.pos.dims d.name with
      | none =>
        match setVar env (addObj m o) b k m.objs.length with
        | (m', .ok _) => filterLoop env lenient d new mask b m' t
        | (m', .error e) => (m', .error e)
      | some _ =>
        match ofArr (filterArr lenient d new mask (o.val m.bufs env.junk)) with
        | .error e => (m, .error e)
        | .ok u =>
          match setVar env (addArr m u o.unit o.fmt) b k m.objs.length with
          | (m', .ok _) => filterLoop env lenient d new mask b m' t
          | (m', .error e) => (m', .error e)

/-- Set the name of the x axis, `out.xname = self.xname`. -/
def putXname (m : Mem β α) (b : Nat) (x : Option String) : Mem β α :=
  match m.blks[b]? with
  | some blk => putBlk m b { blk with xname := x }
  | none => m

/-- `block.filter(boolarray)` for a boolean array with the single dim `d`; the comments of the
new block are those of the old one.  repo: hftools/dataset/dataset.py:428-457 -/
def filterBlk [DecidableEq β] (env : Env β α) (m : Mem β α) (b : Nat) (lenient : Bool) (d : Dim β)
    (mask : List Bool) : Mem β α × Except Err Out :=
  match m.blks[b]? with
  | none => (m, .error .keyError)
  | some blk =>
    if !maskFits lenient mask d.data.length then (m, .error .indexError)
    else
      match withData env d ((Arr.maskIdx mask).filterMap fun i => d.data[i]?) with
      | .error e => (m, .error e)
      | .ok new =>
        match filterLoop env lenient d new mask m.blks.length
            { m with blks := m.blks ++ [⟨[], [], blk.xname, blk.comm⟩] } blk.vars with
        | (m', .ok out) => (putXname m' m.blks.length blk.xname, .ok out)
        | (m', .error e) => (m', .error e)

/-! ### Programs -/

/-- What a program can do. -/
inductive Op (β α : Type) where
  /-- `hfarray(v, unit=..., outputformat=...)` -/
  | arr (v : Arr β α) (unit : Option String) (fmt : String)
  /-- `a.copy()` -/
  | copyArr (r : Nat)
  /-- `a.view()`, `a.transpose()`, `a.squeeze()`, `a[...]` -/
  | move (r : Nat) (mv : Move)
  /-- `a[idx] = x` for one element -/
  | put (r : Nat) (idx : List Nat) (x : α)
  /-- `a[...] = c` for an array `c` -/
  | fill (r : Nat) (c : Nat)
  /-- `a.unit = u` -/
  | unit (r : Nat) (u : Option String)
  /-- `a.outputformat = f` -/
  | fmt (r : Nat) (f : String)
  /-- `a.replace_dim(old, new)` -/
  | relabel (r : Nat) (old new : Dim β)
  /-- `DataBlock()` -/
  | new
  /-- `block[key] = a` -/
  | set (b : Nat) (key : String) (r : Nat)
  /-- `block[key] = dim` -/
  | setDim (b : Nat) (key : String) (d : Dim β)
  /-- `block[key]` -/
  | get (b : Nat) (key : String)
  /-- `del block[key]` -/
  | del (b : Nat) (key : String)
  /-- `block.rename(old, new)` -/
  | rename (b : Nat) (old new : String)
  /-- `block.replace_dim(old, new)` -/
  | replaceDim (b : Nat) (old new : Dim β)
  /-- `block.copy()` -/
  | copy (b : Nat)
  /-- `block.view()` -/
  | view (b : Nat)
  /-- `block.keep_variables(names)` -/
  | keep (b : Nat) (names : List String)
  /-- `block.filter(boolarray)` -/
  | filter (b : Nat) (lenient : Bool) (d : Dim β) (mask : List Bool)
  /-- `block.comments = Comments(lines)` -/
  | comments (b : Nat) (lines : List String)
  /-- `block.comments.fullcomments.append(line)` -/
  | comment (b : Nat) (line : String)

/-- One step of a program. -/
def step [DecidableEq β] (env : Env β α) (m : Mem β α) : Op β α → Mem β α × Except Err Out
  | .arr v u f => (addArr m v u f, .ok (.obj m.objs.length))
  | .copyArr r =>
    match m.objs[r]? with
    | some o => (addArr m (o.val m.bufs env.junk) o.unit o.fmt, .ok (.obj m.objs.length))
    | none => (m, .error .keyError)
  | .move r mv => viewOf env m r mv
  | .put r idx x =>
    match m.objs[r]? with
    | none => (m, .error .keyError)
    | some o =>
      if inside o.pos.nd.shape idx then
        (write m r fun i => if i = idx then some x else none, .ok .nothing)
      else (m, .error .indexError)
  | .fill r c =>
    match m.objs[r]?, m.objs[c]? with
    | some o, some oc =>
      match fillUpd o.pos.nd.shape (oc.val m.bufs env.junk).nd with
      | .ok upd => (write m r upd, .ok .nothing)
      | .error e => (m, .error e)
    | _, _ => (m, .error .keyError)
  | .unit r u =>
    match m.objs[r]? with
    | some o => (putObj m r { o with unit := u }, .ok .nothing)
    | none => (m, .error .keyError)
  | .fmt r f =>
    match m.objs[r]? with
    | some o => (putObj m r { o with fmt := f }, .ok .nothing)
    | none => (m, .error .keyError)
  | .relabel r old new =>
    match m.objs[r]? with
    | some o => (putObj m r { o with pos := replaceDimArr old new o.pos }, .ok .nothing)
    | none => (m, .error .keyError)
  | .new => ({ m with blks := m.blks ++ [{}] }, .ok (.blk m.blks.length))
  | .set b key r => setVar env m b key r
  | .setDim b key d =>
    match m.blks[b]? with
    | some blk => (putBlk m b { blk with ivars := assign blk.ivars key d,
                                         xname := some (blk.xname.getD d.name) }, .ok .nothing)
    | none => (m, .error .keyError)
  | .get b key => getVar env m b key
  | .del b key =>
    match m.blks[b]? with
    | some blk =>
      (if member blk.vars key then putBlk m b { blk with vars := remove blk.vars key } else m,
        .ok .nothing)
    | none => (m, .error .keyError)
  | .rename b old new =>
    match m.blks[b]? with
    | some blk =>
      match lookup blk.ivars old with
      | some d =>
        match replaceDimB m b blk d (Dim.copyFrom env.dfltDim d.cls d (name := some new)) with
        | some m' => (m', .ok .nothing)
        | none => (m, .error .keyError)
      | none =>
        match lookup blk.vars old with
        | some r =>
          (putBlk m b { blk with vars := DataDict.Spec.rename blk.vars old new r }, .ok .nothing)
        | none => (m, .ok .nothing)
    | none => (m, .error .keyError)
  | .replaceDim b old new =>
    match m.blks[b]? with
    | some blk =>
      match replaceDimB m b blk old new with
      | some m' => (m', .ok .nothing)
      | none => (m, .error .keyError)
    | none => (m, .error .keyError)
  | .copy b => copyBlk env m b
  | .view b => viewBlk m b
  | .keep b names =>
    match m.blks[b]? with
    | some blk => keepLoop env blk m.blks.length { m with blks := m.blks ++ [{}] } names
    | none => (m, .error .keyError)
  | .filter b lenient d mask => filterBlk env m b lenient d mask
  | .comments b lines =>
    match m.blks[b]? with
    | some blk => ({ m with blks := m.blks.set b { blk with comm := some m.comms.length },
                            comms := m.comms ++ [lines] }, .ok .nothing)
    | none => (m, .error .keyError)
  | .comment b line =>
    match m.blks[b]? with
    | some blk =>
      match blk.comm with
      | none => (m, .error .attributeError)
      | some c =>
        match m.comms[c]? with
        | some l => ({ m with comms := m.comms.set c (l ++ [line]) }, .ok .nothing)
        | none => (m, .error .attributeError)
    | none => (m, .error .keyError)

/-- A program (errors are caught by the caller). -/
def run [DecidableEq β] (env : Env β α) : Mem β α → List (Op β α) → Mem β α
  | m, [] => m
  | m, op :: ops => run env (step env m op).1 ops

end HF.Share
