import Verif.HFArray.Index
/-
Model of the functions which collapse axes.

repo: hftools/dataset/arrayobj.py:249-293
-/
namespace HF
namespace Arr

variable {β α : Type}

/-- Positions and dims of the repetition axes.  repo: hftools/dataset/arrayobj.py:272-273 -/
def repAxes (dims : List (Dim β)) : List (Dim β × Nat) :=
  dims.zipIdx.filter fun p => p.1.isa .dimRep

/-- `remove_rep(data, newdimname)`.  `ofIdx` embeds integers into the coordinate values; the
new dim is `DimRep(newdimname, repsize)`, with `range(repsize)` as values
(hftools/dataset/dim.py:69-70).  The data is reshaped in its original axis order; the
reordered array of lines 279-282 is not used, but computing it may raise.
repo: hftools/dataset/arrayobj.py:269-293 -/
def removeRep [DecidableEq β] (ofIdx : Nat → β) (x : Arr β α) (newname : String := "AllReps") :
    Except Err (Arr β α) :=
  match repAxes x.dims with
  | [] => .ok x
  | (d0, first) :: rest =>
    let last := (((d0, first) :: rest).getLast?.map Prod.snd).getD 0
    match reorderDimensions x ((x.dims.take first ++ ((d0, first) :: rest).map Prod.fst).map .dim) with
    | .error e => .error e
    | .ok _ =>
      let shapes := ((d0, first) :: rest).map fun p => x.nd.shape.getD p.2 0
      let repsize := Nd.size shapes
      match ofNd (x.nd.reshape (x.nd.shape.take first ++ repsize :: x.nd.shape.drop (last + 1))) with
      | .error e => .error e
      | .ok nd =>
        mk? nd (x.dims.take first ++
          ⟨.dimRep, newname, (List.range repsize).map ofIdx, none, none⟩ :: x.dims.drop (last + 1))

/-- `remove_tail(x)` for an array which is not a matrix: all axes but the first are collapsed.
A zero-dimensional array raises (`shape[0]`).
repo: hftools/dataset/arrayobj.py:249-266 -/
def removeTail (ofIdx : Nat → β) (x : Arr β α) : Except Err (Arr β α) :=
  match x.nd.shape, x.dims with
  | n :: ns, d :: _ =>
    match ofNd (x.nd.reshape [n, Nd.size ns]) with
    | .error e => .error e
    | .ok nd => mk? nd [d, ⟨.dimRep, "Tail", (List.range (Nd.size ns)).map ofIdx, none, none⟩]
  | _, _ => .error .indexError

end Arr
end HF
