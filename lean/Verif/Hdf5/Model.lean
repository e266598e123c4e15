/-
Model of parts of hftools/file_formats/hdf5/v_02.py: variable names and appending.
-/
namespace HF
namespace Hdf5

abbrev Name := List Char

/-- repo: hftools/file_formats/hdf5/v_02.py:32-33 -/
def escape (x : Name) : Name := x.map fun c => if c = '/' then '\\' else c

/-- repo: hftools/file_formats/hdf5/v_02.py:36-37 -/
def unescape (x : Name) : Name := x.map fun c => if c = '\\' then '/' else c

/-- A dataset in the file: a dimension scale, or a variable with one slice for each append
(`maxshape` is `None` along the axis of `expanddim`). -/
inductive Entry (α : Type)
  | dim
  | var (slices : List (List α))

/-- The file: the dataset of the expanding dimension (if present) and the other datasets, in the
order in which h5py enumerates them. -/
structure File (α : Type) where
  index : Option (List Int)
  items : List (Name × Entry α)

/-- The data block given to `append_hdf5`: dependent variables (values flattened) and names of
independent ones. -/
structure Block (α : Type) where
  vardata : Name → Option (List α)
  isIvar : Name → Bool

inductive Err
  | noIndex       -- KeyError: no such dataset
  | missing (n : Name)  -- ValueError "Variable missing in db"
  | fixed (n : Name)    -- dataset can not be resized
  | shape (n : Name)    -- data do not fit
deriving DecidableEq

/-- Loop over the datasets of the file.  Returns the datasets as left behind and the exception.
When the data do not fit, the dataset has already been enlarged (filled with `fill`).
repo: hftools/file_formats/hdf5/v_02.py:190-200 -/
def appendLoop {α : Type} (fill : α) (db : Block α) (ename : Name) :
    List (Name × Entry α) → List (Name × Entry α) × Option Err
  | [] => ([], none)
  | (k, e) :: rest =>
    let uk := unescape k
    if db.isIvar uk || decide (uk = ename) then
      let (r, err) := appendLoop fill db ename rest
      ((k, e) :: r, err)
    else match db.vardata uk with
      | none => ((k, e) :: rest, some (.missing uk))
      | some data => match e with
        | .dim => ((k, e) :: rest, some (.fixed uk))
        | .var slices =>
          let n := (slices.headD []).length
          if data.length = n then
            let (r, err) := appendLoop fill db ename rest
            ((k, .var (slices ++ [data])) :: r, err)
          else ((k, .var (slices ++ [List.replicate n fill])) :: rest, some (.shape uk))

/-- `append_hdf5`.  The expanding dimension's dataset is enlarged first; its new last entry keeps
the fill value 0, since the assignment `.value[-1] = idx` goes to a copy in memory.
repo: hftools/file_formats/hdf5/v_02.py:180-200 -/
def append {α : Type} (fill : α) (ename : Name) (f : File α) (db : Block α) : File α × Option Err :=
  match f.index with
  | none => (f, some .noIndex)
  | some ix =>
    let (items, err) := appendLoop fill db ename f.items
    (⟨some (ix ++ [0]), items⟩, err)

/-- Several appends, stopping at the first exception. -/
def appendAll {α : Type} (fill : α) (ename : Name) (f : File α) : List (Block α) → File α × Option Err
  | [] => (f, none)
  | b :: bs =>
    match append fill ename f b with
    | (f', none) => appendAll fill ename f' bs
    | (f', some e) => (f', some e)

/-- The datasets made by `save_hdf5_handle`: names only.  `create_dataset` fails if the name exists;
attaching the scales looks the dimension up by its unescaped name.  `vars` gives each variable with
its dimension names.  (Names with a leading or trailing slash are not considered.)
repo: hftools/file_formats/hdf5/v_02.py:126-168 -/
def saveNames (ivars : List Name) (vars : List (Name × List Name)) : Option (List Name) :=
  let ds := ivars.map escape
  let all := ds ++ vars.map fun v => escape v.1
  if all.Nodup && vars.all (fun v => v.2.all fun d => decide (d ∈ ds)) then some all else none

end Hdf5
end HF
