import Verif.Merge.Model
/-
Model of the reader for files of the muwave toolbox, MATLAB files with the measurements of a
sweep.

repo: hftools/file_formats/muwave_mat.py:41-174

`scipy.io.loadmat` is not modelled: a file is given by the contents of the cells which the
code looks at.  Units and the encoding of strings (lines 62-63, 79-80, 111-112, 128-138) are
not modelled.
-/
namespace HF.Muwave

open HF.DataDict.Spec
open HF.DataBlock

variable {β α : Type}

/-- The contents of a cell: a text, or a matrix of numbers by rows. -/
inductive Cell (α : Type) where
  | text (s : α)
  | matrix (rows : List (List α))

/-- One measurement of a sweep, an element of `data["swp"][0, 0]["data"][0, :]`: the names and
values of `measstate`, those of `measmnt` (none if that is missing), and of `data` the type of
parameters, the reference impedance, the frequencies, the matrices (`mtrx`, frequency last) and
their covariances, if there are any. -/
structure Point (β α : Type) where
  state : List (String × Cell α)
  measmnt : List (String × Cell α)
  type : String
  ref : α
  freq : List β
  mtrx : Nd α
  cov : Option (Nd α)

/-- What is used of python and numpy: `np.array(x, np.float64)` or `x` itself if that fails
(`make_real`, lines 84-88), truth of a value, the empty string, the test for it, `strptime`
with the format of line 121 (`none` is `ValueError`), and natural numbers as coordinates. -/
structure Conv (β α : Type) where
  real : α → α
  truth : α → Bool
  blank : α
  isBlank : α → Bool
  date : α → Option α
  ofIdx : Nat → β

inductive Fail where
  | nameError
  | indexError
  | attributeError
  | data (e : DataBlock.Err)
  deriving DecidableEq, Repr

def scalar (x : α) : Arr β α := ⟨[], ⟨[], fun _ => x⟩⟩

/-- `v[0]`, a row or a text.  repo: hftools/file_formats/muwave_mat.py:73 -/
def Cell.row : Cell α → Option (List α)
  | .text s => some [s]
  | .matrix rows => rows.head?

/-- `v[0][0]` of a matrix, `v[0]` of a text.
repo: hftools/file_formats/muwave_mat.py:75-78 -/
def Cell.first : Cell α → Option α
  | .text s => some s
  | .matrix rows => rows.head?.bind List.head?

/-- `if v:` of an array: `none` is the `ValueError` for more than one element.
repo: hftools/file_formats/muwave_mat.py:58 -/
def Cell.truth (cv : Conv β α) : Cell α → Option Bool
  | .text s => some (cv.truth s)
  | .matrix rows =>
    match rows.flatten with
    | [] => some false
    | [x] => some (cv.truth x)
    | _ => none

/-- `hfarray(make_real(v[0]))` or `hfarray("")`.  A row of a matrix has one axis, which gets the
default dimension of `hfarray`, a sweep "freq".
repo: hftools/file_formats/muwave_mat.py:58-61, hftools/dataset/arrayobj.py:368, 395-398 -/
def measOne (cv : Conv β α) (c : Cell α) : Except Err (Arr β α) :=
  match c.truth cv with
  | none => .error .valueError
  | some false => .ok (scalar cv.blank)
  | some true =>
    match c with
    | .text s => .ok (scalar (cv.real s))
    | .matrix rows =>
      let r := (rows.headD []).map cv.real
      .ok ⟨[⟨.dimSweep, "freq", (List.range r.length).map cv.ofIdx, none, none⟩],
        ⟨[r.length], fun i => r.getD (i.headD 0) cv.blank⟩⟩

/-- `build_measmnt(data)`: a dictionary.  repo: hftools/file_formats/muwave_mat.py:46-64 -/
def buildMeasmnt (cv : Conv β α) : OMap String (Arr β α) → List (String × Cell α) →
    Except Err (OMap String (Arr β α))
  | out, [] => .ok out
  | out, (k, c) :: t =>
    match measOne cv c with
    | .error e => .error e
    | .ok a => buildMeasmnt cv (assign out k a) t

/-- `DimPartial("Index", v[0])`.  repo: hftools/file_formats/muwave_mat.py:73 -/
def indexPart (env : Env β α) (row : List α) : Dim β :=
  ⟨.dimPartial, "Index", row.map env.toCoord, none, none⟩

/-- `build_meas_state(data)`.  repo: hftools/file_formats/muwave_mat.py:67-81 -/
def buildState (env : Env β α) (cv : Conv β α) : Block β α → List (String × Cell α) →
    Except Err (Block β α)
  | b, [] => .ok b
  | b, (k, c) :: t =>
    if k = "Index" then
      match c.row with
      | none => .error .indexError
      | some row => buildState env cv (setDim b "Index" (indexPart env row)) t
    else
      match c.first with
      | none => .error .indexError
      | some x =>
        match setArr env b k (scalar (cv.real x)) with
        | (_, .error e) => .error e
        | (b', .ok _) => buildState env cv b' t

/-- `for k, v in build_measmnt(data).items(): out[k] = hfarray(v)`; the dictionary has no
order of its own.  repo: hftools/file_formats/muwave_mat.py:103-104 -/
def putMeas (env : Env β α) (m : OMap String (Arr β α)) : Block β α → List String →
    Except Err (Block β α)
  | b, [] => .ok b
  | b, k :: t =>
    match lookup m k with
    | none => putMeas env m b t
    | some a =>
      match setArr env b k a with
      | (_, .error e) => .error e
      | (b', .ok _) => putMeas env m b' t

def freqDim (fs : List β) : Dim β := ⟨.dimSweep, "freq", fs, some "Hz", none⟩

/-- `make_matrix(mtrx.transpose((2, 0, 1)), (freq,))`.
repo: hftools/file_formats/muwave_mat.py:110, 115, 125, hftools/dataset/arrayobj.py:1014-1017 -/
def matrixOf (cv : Conv β α) (fs : List β) (m : Nd α) : Except Err (Arr β α) :=
  match m.transpose [2, 0, 1] with
  | .error _ => .error .valueError
  | .ok t => ofArr (Arr.mk? t [freqDim fs,
      ⟨.matI, "i", (List.range (t.shape.getD 1 0)).map cv.ofIdx, none, none⟩,
      ⟨.matJ, "j", (List.range (t.shape.getD 2 0)).map cv.ofIdx, none, none⟩])

/-- The `Date`, if there is one and if it can be read: `out["Date"].flatten()[0]`.
repo: hftools/file_formats/muwave_mat.py:119-123 -/
def readDate (env : Env β α) (cv : Conv β α) (b : Block β α) : Except Err (Block β α) :=
  if contains b "Date" then
    match getitem env b "Date" with
    | .error e => .error e
    | .ok a =>
      if Nd.size a.nd.shape = 0 then .error .indexError
      else
        match cv.date (a.nd.get (Nd.unravel a.nd.shape 0)) with
        | none => .ok b
        | some d =>
          match setArr env b "Date" (scalar d) with
          | (_, .error e) => .error e
          | (b', .ok _) => .ok b'
  else .ok b

/-- `build_data(data)`.  repo: hftools/file_formats/muwave_mat.py:101-139 -/
def buildData (env : Env β α) (cv : Conv β α) (en : Enum String) (p : Point β α) :
    Except Err (Block β α) :=
  match buildState env cv {} p.state with
  | .error e => .error e
  | .ok b1 =>
    match buildMeasmnt cv [] p.measmnt with
    | .error e => .error e
    | .ok m =>
      match putMeas env m b1 (en.f (keys m)) with
      | .error e => .error e
      | .ok b2 =>
        match matrixOf cv p.freq p.mtrx with
        | .error e => .error e
        | .ok s =>
          match setArr env b2 p.type s with
          | (_, .error e) => .error e
          | (b3, .ok _) =>
            match setArr env b3 "Z0" (scalar p.ref) with
            | (_, .error e) => .error e
            | (b4, .ok _) =>
              match readDate env cv b4 with
              | .error e => .error e
              | .ok b5 =>
                match p.cov with
                | none => .ok b5
                | some c =>
                  match matrixOf cv p.freq c with
                  | .error e => .error e
                  | .ok sc =>
                    match setArr env b5 (p.type ++ "cov") sc with
                    | (_, .error e) => .error e
                    | (b6, .ok _) => .ok b6

/-- `for d in swpdata: out.append(build_data(d))`.
repo: hftools/file_formats/muwave_mat.py:147-149 -/
def buildAll (env : Env β α) (cv : Conv β α) (en : Enum String) : List (Point β α) →
    Except Err (List (Block β α))
  | [] => .ok []
  | p :: t =>
    match buildData env cv en p with
    | .error e => .error e
    | .ok b =>
      match buildAll env cv en t with
      | .error e => .error e
      | .ok bs => .ok (b :: bs)

/-- The contents of a file: without `swp` it is none of this toolbox. -/
abbrev File (β α : Type) := Option (List (Point β α))

/-- `read_single_muwave_matlabdata(filename)`.  `MuwaveIOError` (line 145) is not defined.  In
`merge_blocks` an empty list fails at `blocks[0]`.
repo: hftools/file_formats/muwave_mat.py:142-152, hftools/file_formats/merge.py:213 -/
def readSingle [DecidableEq β] (env : Env β α) (cv : Conv β α) (en : Enum String)
    (f : File β α) : Except Fail (Block β α) :=
  match f with
  | none => .error .nameError
  | some [] => .error .indexError
  | some ps =>
    match buildAll env cv en ps with
    | .error e => .error (.data e)
    | .ok bs =>
      match Merge.merge env cv.ofIdx en bs with
      | .error e => .error (.data e)
      | .ok r =>
        match lookup r.ivars "INDEX1" with
        | none => .error (.data .keyError)
        | some d =>
          match replaceDim r d (Dim.copyFrom env.dfltDim .dimSweep d) with
          | none => .error (.data .keyError)
          | some r' => .ok r'

/-- The files in the order of their names, each with its number as a partial sweep `Index2`.
repo: hftools/file_formats/muwave_mat.py:159-162 -/
def readEach [DecidableEq β] (env : Env β α) (cv : Conv β α) (en : Enum String) :
    Nat → List (File β α) → Except Fail (List (Block β α))
  | _, [] => .ok []
  | k, f :: t =>
    match readSingle env cv en f with
    | .error e => .error e
    | .ok d =>
      match readEach env cv en (k + 1) t with
      | .error e => .error e
      | .ok ds => .ok (setDim d "Index2" ⟨.dimPartial, "Index2", [cv.ofIdx k], none, none⟩ :: ds)

/-- `order`: `d.ivardata[dim]` for the names which are in `dims`; a missing key raises
`KeyError`.  repo: hftools/file_formats/muwave_mat.py:167 -/
def orderOf (b : Block β α) (dims : List (Dim β)) : List String → Except Fail (List (Dim.Obj β))
  | [] => .ok []
  | n :: t =>
    if dims.any fun d => d.name == n then
      match lookup b.ivars n, orderOf b dims t with
      | none, _ => .error (.data .keyError)
      | _, .error e => .error e
      | some d, .ok l => .ok (.dim d :: l)
    else orderOf b dims t

/-- `np.all("" == d[k])`, for arrays with at least one element.
repo: hftools/file_formats/muwave_mat.py:172 -/
def allBlank (cv : Conv β α) (a : Arr β α) : Bool :=
  (List.range (Nd.size a.nd.shape)).all fun k => cv.isBlank (a.nd.get (Nd.unravel a.nd.shape k))

/-- `for k in d.vardata.keys(): if np.all("" == d[k]): del d[k]`.
repo: hftools/file_formats/muwave_mat.py:171-173 -/
def dropLoop (env : Env β α) (cv : Conv β α) : Block β α → List String → Except Fail (Block β α)
  | b, [] => .ok b
  | b, k :: t =>
    match getitem env b k with
    | .error e => .error (.data e)
    | .ok a => dropLoop env cv (if allBlank cv a then delitem b k else b) t

/-- Lines 167-174.  `d.S` is an attribute: a `KeyError` becomes an `AttributeError`.
repo: hftools/file_formats/muwave_mat.py:167-174, hftools/dataset/dataset.py:305-309 -/
def finish [DecidableEq β] (env : Env β α) (cv : Conv β α) (drop : Bool) (d : Block β α) :
    Except Fail (Block β α) :=
  match getitem env d "S" with
  | .error .keyError => .error .attributeError
  | .error e => .error (.data e)
  | .ok s =>
    match orderOf d s.dims ["freq", "Index", "Index2"] with
    | .error e => .error e
    | .ok order =>
      match ofArr (s.reorderDimensions order) with
      | .error e => .error (.data e)
      | .ok s' =>
        match setArr env d "S" s' with
        | (_, .error e) => .error (.data e)
        | (d', .ok _) => if drop then dropLoop env cv d' (keys d'.vars) else .ok d'

/-- `read_muwave_matlabdata(filename, drop_empty)` for the files which the pattern matches.
repo: hftools/file_formats/muwave_mat.py:155-174 -/
def read [DecidableEq β] (env : Env β α) (cv : Conv β α) (en : Enum String) (drop : Bool)
    (files : List (File β α)) : Except Fail (Block β α) :=
  match files with
  | [] => .error .indexError
  | [f] =>
    match readSingle env cv en f with
    | .error e => .error e
    | .ok d => finish env cv drop d
  | fs =>
    match readEach env cv en 0 fs with
    | .error e => .error e
    | .ok ds =>
      match Merge.merge env cv.ofIdx en ds with
      | .error e => .error (.data e)
      | .ok d => finish env cv drop d

end HF.Muwave
