import Verif.DataBlock.Split
import Verif.Hdf5.Model
import Verif.Units.Model
/-
HDF5 files: saving and reading of blocks, both versions of the format.

repo: hftools/file_formats/hdf5/v_01.py:25-126, hftools/file_formats/hdf5/v_02.py:24-177, hftools/file_formats/hdf5/hdf5.py:43-57

The library h5py is not modelled: a file is a collection of datasets with attributes, and what was written is
read.  Conversions between types of elements (dates and strings) are left out.
-/
namespace HF.H5

open HF.DataDict.Spec HF.DataBlock

variable {β α : Type}

/-- `__class__.__name__`.  repo: hftools/dataset/dim.py:47, 181-288 -/
def className : Cls → String
  | .dimBase => "DimBase" | .diagAxis_ => "_DiagAxis" | .indepAxis_ => "_IndepAxis" | .derivAxis_ => "_DerivAxis"
  | .indepAxis => "IndepAxis" | .derivAxis => "DerivAxis" | .diagAxis => "DiagAxis" | .dimAnonymous => "DimAnonymous"
  | .dimSweep => "DimSweep" | .dimRep => "DimRep" | .complexIndep => "ComplexIndepAxis"
  | .complexDeriv => "ComplexDerivAxis" | .complexDiag => "ComplexDiagAxis" | .dimMatrix_ => "_DimMatrix"
  | .matIndepI => "DimMatrix_Indep_i" | .matDerivI => "DimMatrix_Deriv_i" | .matI => "DimMatrix_i"
  | .matIndepJ => "DimMatrix_Indep_j" | .matDerivJ => "DimMatrix_Deriv_j" | .matJ => "DimMatrix_j"
  | .dimPartial => "DimPartial"

/-- Unit and output format of a variable. -/
structure Meta where
  unit : Option String := none
  fmt : Option String := none
  deriving DecidableEq

/-- A block together with the units and output formats of its variables. -/
structure Full (β α : Type) where
  block : Block β α
  info : OMap String Meta := []

inductive Err where
  | exists_           -- the name is taken
  | keyError
  | shape             -- number of dims does not match the array
  | data (e : DataBlock.Err)
  deriving DecidableEq, Repr

/-! ### Version 0.2 -/

/-- A dataset: a dimension scale, or a variable with the scales attached to its axes. -/
inductive DSet (β α : Type) where
  | dim (dimtype : String) (data : List β) (unit : Option String)
  | var (nd : Nd α) (scales : List (Option String)) (info : Meta)

abbrev File2 (β α : Type) := OMap String (DSet β α)

/-- `x.replace("/", "\\")`.  repo: hftools/file_formats/hdf5/v_02.py:32-33 -/
def escapeS (x : String) : String := String.ofList (Hdf5.escape x.toList)

/-- repo: hftools/file_formats/hdf5/v_02.py:36-37 -/
def unescapeS (x : String) : String := String.ofList (Hdf5.unescape x.toList)

/-- `if v.unit: attrs["unit"] = v.unit`, and `attrs.get("unit", None)` -/
def attr (s : Option String) : Option String := s.filter fun u => u ≠ ""

/-- `create_dataset`: the name must be free.  repo: hftools/file_formats/hdf5/v_02.py:83-98 -/
def create {γ : Type} (f : OMap String γ) (k : String) (d : γ) : Except Err (OMap String γ) :=
  if member f k then .error .exists_ else .ok (f ++ [(k, d)])

/-- repo: hftools/file_formats/hdf5/v_02.py:130-137 -/
def saveDims2 : File2 β α → List (String × Dim β) → Except Err (File2 β α)
  | f, [] => .ok f
  | f, (k, v) :: t =>
    match create f (escapeS k) (.dim (className v.cls) v.data (attr v.unit)) with
    | .error e => .error e
    | .ok f => saveDims2 f t

/-- `filehandle[dv.name]` for all dims; a name with a slash is a path to something that is not there (names with a
slash at the beginning or end are not considered).  repo: hftools/file_formats/hdf5/v_02.py:160-162 -/
def scalesOk (f : File2 β α) (ds : List (Dim β)) : Bool := ds.all fun d => member f d.name && !d.name.toList.contains '/'

/-- repo: hftools/file_formats/hdf5/v_02.py:151-168 with `expandable=False` -/
def saveVars2 (info : OMap String Meta) : File2 β α → List (String × Arr β α) → Except Err (File2 β α)
  | f, [] => .ok f
  | f, (k, v) :: t =>
    let m := (lookup info k).getD {}
    match create f (escapeS k) (.var v.nd (v.dims.map fun d => some d.name) ⟨attr m.unit, attr m.fmt⟩) with
    | .error e => .error e
    | .ok f => if scalesOk f v.dims then saveVars2 info f t else .error .keyError

/-- `save_hdf5_handle`.  repo: hftools/file_formats/hdf5/v_02.py:126-168 -/
def save2 (b : Full β α) : Except Err (File2 β α) :=
  match saveDims2 [] b.block.ivars with
  | .error e => .error e
  | .ok f => saveVars2 b.info f b.block.vars

/-- `dimrep[...]`.  repo: hftools/file_formats/hdf5/v_02.py:24-29 -/
def dimrep (s : String) : Option Cls :=
  if s = "DimRep" then some .dimRep
  else if s = "DimSweep" then some .dimSweep
  else if s = "DimMatrix_i" then some .matI
  else if s = "DimMatrix_j" then some .matJ
  else if s = "DimPartial" then some .dimPartial
  else none

/-- The dimension made from a scale.  A variable used as scale is a sweep with its values (flattened).
repo: hftools/file_formats/hdf5/v_02.py:48-54 -/
def scaleDim (env : Env β α) (f : File2 β α) (n : String) : Except Err (Dim β) :=
  match lookup f n with
  | none => .error .keyError
  | some (.dim c data u) =>
    match dimrep c with
    | none => .error .keyError
    | some c => .ok ⟨c, n, data, u, none⟩
  | some (.var nd _ m) =>
    .ok ⟨.dimSweep, n, (List.range (Nd.size nd.shape)).map (fun i => env.toCoord (nd.get (Nd.unravel nd.shape i))), m.unit, none⟩

/-- The dims of all axes that have a scale.  repo: hftools/file_formats/hdf5/v_02.py:47-54 -/
def scaleDims (env : Env β α) (f : File2 β α) : List (Option String) → Except Err (List (Dim β))
  | [] => .ok []
  | none :: t => scaleDims env f t
  | some n :: t =>
    match scaleDim env f n with
    | .error e => .error e
    | .ok d =>
      match scaleDims env f t with
      | .error e => .error e
      | .ok ds => .ok (d :: ds)

/-- `hfarray(X.value, dims=dims)`. -/
def mkArr (nd : Nd α) (dims : List (Dim β)) : Except Err (Arr β α) :=
  if dims.length = nd.shape.length then .ok ⟨dims, nd⟩ else .error .shape

/-- `getvar`.  repo: hftools/file_formats/hdf5/v_02.py:44-66 -/
def getvar (env : Env β α) (f : File2 β α) (k : String) (nd : Nd α) (scales : List (Option String)) (m : Meta) :
    Except Err (Arr β α) :=
  match scaleDims env f scales with
  | .error e => .error e
  | .ok dims =>
    if dims.length = scales.length then mkArr nd dims
    else mkArr nd [⟨.dimSweep, k, (List.range (Nd.size nd.shape)).map (fun i => env.toCoord (nd.get (Nd.unravel nd.shape i))), m.unit, none⟩]

/-- The loop over the datasets.  repo: hftools/file_formats/hdf5/v_02.py:104-107 -/
def readLoop2 (env : Env β α) (f : File2 β α) : Full β α → List (String × DSet β α) → Except Err (Full β α)
  | db, [] => .ok db
  | db, (_, .dim ..) :: t => readLoop2 env f db t
  | db, (k, .var nd scales m) :: t =>
    match getvar env f k nd scales m with
    | .error e => .error e
    | .ok a =>
      match setArr env db.block (unescapeS k) a with
      | (_, .error e) => .error (.data e)
      | (b, .ok _) => readLoop2 env f ⟨b, db.info ++ [(unescapeS k, m)]⟩ t

/-- `read_hdf5_handle`; `en` is the order in which the datasets are enumerated.
repo: hftools/file_formats/hdf5/v_02.py:101-111 -/
def read2 (env : Env β α) (en : Enum (String × DSet β α)) (f : File2 β α) : Except Err (Full β α) :=
  readLoop2 env f ⟨{}, []⟩ (en.f f)

/-! ### Version 0.1 -/

/-- repo: hftools/file_formats/hdf5/v_01.py:62-73 -/
structure DimRec (β : Type) where
  cls : String
  data : List β
  unit : String

/-- repo: hftools/file_formats/hdf5/v_01.py:43-60 -/
structure VarRec (α : Type) where
  nd : Nd α
  dims : List String
  unit : String

structure File1 (β α : Type) where
  name : String
  comments : List (List Char)
  ivars : List (String × DimRec β)
  vars : List (String × VarRec α)

/-- `x if x is not None else "None"` -/
def orNone (s : Option String) : String := s.getD "None"

/-- `if s.lower() == "none": s = None` -/
def fromNone (s : String) : Option String := if s.toLower = "none" then none else some s

/-- `create_dataset(k)` for all names.  A name with a slash makes groups within groups, see `read1`.
repo: hftools/file_formats/hdf5/v_01.py:28-78 -/
def save1 (name : Option String) (comments : List (List Char)) (b : Full β α) : Except Err (File1 β α) :=
  .ok ⟨orNone name, comments,
    b.block.ivars.map fun p => (p.1, ⟨className p.2.cls, p.2.data, orNone p.2.unit⟩),
    b.block.vars.map fun p => (p.1, ⟨p.2.nd, p.2.dims.map Dim.name, orNone ((lookup b.info p.1).getD {}).unit⟩)⟩

/-- `dims_dict.get(name, DimRep)`: the classes which `hftools.dataset` imports.
repo: hftools/file_formats/hdf5/v_01.py:81, 105, hftools/dataset/__init__.py:9-12 -/
def dimsDict (s : String) : Cls :=
  if s = "DimSweep" then .dimSweep
  else if s = "DimRep" then .dimRep
  else if s = "DimMatrix_i" then .matI
  else if s = "DimMatrix_j" then .matJ
  else if s = "_DimMatrix" then .dimMatrix_
  else if s = "DerivAxis" then .derivAxis
  else if s = "IndepAxis" then .indepAxis
  else if s = "DiagAxis" then .diagAxis
  else if s = "ComplexDerivAxis" then .complexDeriv
  else if s = "ComplexIndepAxis" then .complexIndep
  else if s = "ComplexDiagAxis" then .complexDiag
  else if s = "DimPartial" then .dimPartial
  else if s = "DimBase" then .dimBase
  else .dimRep

/-- repo: hftools/file_formats/hdf5/v_01.py:102-111.  For a name with a slash a group is found, which has not the
attributes. -/
def readDims1 : Block β α → List (String × DimRec β) → Except Err (Block β α)
  | db, [] => .ok db
  | db, (k, v) :: t =>
    if k.toList.contains '/' then .error .keyError
    else readDims1 (setDim db k ⟨dimsDict v.cls, k, v.data, fromNone v.unit, none⟩) t

/-- `tuple(db.ivardata[dimname] for dimname in ...)` -/
def dimsOf1 (db : Block β α) : List String → Except Err (List (Dim β))
  | [] => .ok []
  | n :: t =>
    match lookup db.ivars n with
    | none => .error .keyError
    | some d =>
      match dimsOf1 db t with
      | .error e => .error e
      | .ok ds => .ok (d :: ds)

/-- repo: hftools/file_formats/hdf5/v_01.py:112-119 -/
def readVars1 (env : Env β α) : Full β α → List (String × VarRec α) → Except Err (Full β α)
  | db, [] => .ok db
  | db, (k, v) :: t =>
    if k.toList.contains '/' then .error .keyError
    else
      match dimsOf1 db.block v.dims with
      | .error e => .error e
      | .ok ds =>
        match mkArr v.nd ds with
        | .error e => .error e
        | .ok a =>
          match setArr env db.block k a with
          | (_, .error e) => .error (.data e)
          | (b, .ok _) => readVars1 env ⟨b, db.info ++ [(k, ⟨fromNone v.unit, none⟩)]⟩ t

/-- `read_hdf5`: name, comments and block; the two groups are enumerated in any order.
repo: hftools/file_formats/hdf5/v_01.py:84-126 without `property_to_vars` -/
def read1 (env : Env β α) (enD : Enum (String × DimRec β)) (enV : Enum (String × VarRec α)) (f : File1 β α) :
    Except Err (Option String × List (List Char) × Full β α) :=
  match readDims1 {} (enD.f f.ivars) with
  | .error e => .error e
  | .ok db =>
    match readVars1 env ⟨db, []⟩ (enV.f f.vars) with
    | .error e => .error e
    | .ok db => .ok (fromNone f.name, f.comments.map Units.strip, db)

/-! ### Choice of the version -/

/-- A file with or without the attribute `hftools file version`. -/
inductive AnyFile (β α : Type) where
  | with2 (f : File2 β α)
  | without (f : File1 β α)

/-- repo: hftools/file_formats/hdf5/hdf5.py:51-57 -/
def save (version : String) (name : Option String) (comments : List (List Char)) (b : Full β α) : Except Err (AnyFile β α) :=
  if version = "0.2" then (save2 b).map .with2 else (save1 name comments b).map .without

/-- repo: hftools/file_formats/hdf5/hdf5.py:43-49.  Version 0.2 keeps neither name nor comments. -/
def read (env : Env β α) (en : Enum (String × DSet β α)) (enD : Enum (String × DimRec β)) (enV : Enum (String × VarRec α))
    (f : AnyFile β α) : Except Err (Option String × List (List Char) × Full β α) :=
  match f with
  | .with2 f => (read2 env en f).map fun r => (none, [], r)
  | .without f => read1 env enD enV f

end HF.H5
