import Verif.HFArray.Make
/-
Model of making arrays of network parameters from numbers: `SArray(data, dims=, unit=, info=)` and the other classes, up
to the conversion from another class (C27, C101).

repo: hftools/networks/multiports.py:126-149, 162-165
-/
namespace HF
namespace New
open Make

variable {β α : Type}

/-- The dims for the axes before the last two: as many of `freq` and `rep` as there are axes.
repo: hftools/networks/multiports.py:140-143, hftools/dataset/arrayobj.py:369 -/
def outerDims (env : Env β α) (shape : List Nat) : List (Dim β) :=
  List.zipWith (fun (x : Cls × String) n => ⟨x.1, x.2, (List.range n).map env.ofIdx, none, none⟩)
    [(.dimSweep, "freq"), (.dimRep, "rep")] shape

/-- `_MultiPortArray.__new__` of an array with dims, unit and format `own`, or of an `ndarray`.  An `ndarray` with less than
two axes has no `shape[-2]`; `Z0`, `dtype`, `copy` and `ndmin` are left out, `a.fmt` is not a parameter here; for more than four axes no dims are made and `_hfarray.__new__` raises.
repo: hftools/networks/multiports.py:126-149 -/
def new (env : Env β α) (nd : Nd α) (own : Option (List (Dim β) × Option String × String)) (a : Args β) : Except Err (Made β α) :=
  if a.info.isSome ∧ a.dims.isSome then .error .valueError
  else
    match (if a.info.isSome then a.info else a.dims), own with
    | some ds, _ => core env nd own { a with dims := some ds, info := none }
    | none, some (ds, _) => core env nd own { a with dims := some ds, info := none }
    | none, none =>
      if nd.shape.length ≤ 4 then
        match nd.shape.reverse with
        | q :: p :: r => core env nd own { a with
            dims := some (outerDims env r.reverse ++
              [⟨.matI, "i", (List.range p).map env.ofIdx, none, none⟩, ⟨.matJ, "j", (List.range q).map env.ofIdx, none, none⟩]),
            info := none }
        | _ => .error .indexError
      else core env nd own { a with dims := none, info := none }

/-- `ismatrix()`.  repo: hftools/networks/multiports.py:162-165 -/
def isMatrix (m : Made β α) : Bool :=
  match m.dims.reverse with
  | dj :: di :: _ => di.isa .matI && dj.isa .matJ
  | _ => false

end New
end HF
