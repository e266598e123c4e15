import Verif.HFArray.Index
/-
Model of boolean masks over any number of axes.

repo: hftools/dataset/arrayobj.py:31-39, 633-657
-/
namespace HF
namespace Arr

variable {β α : Type}

/-- `int(text)` for digits; everything else is a `ValueError` here (python also takes signs, blanks and underscores). -/
def intOf (t : List Char) : Option Nat :=
  if t ≠ [] ∧ t.all Char.isDigit then some (Nat.ofDigitChars 10 t 0) else none

/-- The numbers of the anonymous dims.  repo: hftools/dataset/arrayobj.py:34-36 -/
def anonNumbers : List (Dim β) → Except Err (List Nat)
  | [] => .ok []
  | d :: ds =>
    if d.isa .dimAnonymous ∧ "ANON".toList.isPrefixOf d.name.toList then
      match intOf (d.name.toList.drop 4), anonNumbers ds with
      | some n, .ok ns => .ok (n :: ns)
      | none, _ => .error .valueError
      | _, .error e => .error e
    else anonNumbers ds

/-- `get_new_anonymous_dim(dims, n)`; `ofIdx` embeds integers into the coordinate values.
repo: hftools/dataset/arrayobj.py:31-39 -/
def newAnonymous (ofIdx : Int → β) (dims : List (Dim β)) (n : Nat) : Except Err (Dim β) :=
  match anonNumbers dims with
  | .error e => .error e
  | .ok ns => .ok ⟨.dimAnonymous, String.ofList ("ANON".toList ++ Nat.toDigits 10 ((ns.foldl max 0) + 1)),
      (List.range n).map fun i : Nat => ofIdx (i : Int), none, none⟩

/-- The positions where a mask is true, in the order of numpy. -/
def maskPos (m : Nd Bool) : List (List Nat) := ((List.range (Nd.size m.shape)).map (Nd.unravel m.shape)).filter m.get

/-- The dims before the first one contained in the dims of the mask.  repo: hftools/dataset/arrayobj.py:637-642 -/
def dimsBeforeAny (ms : List (Dim β)) : List (Dim β) → List (Dim β)
  | [] => []
  | x :: t => if containsDim ms x then [] else x :: dimsBeforeAny ms t

/-- `a[mask]` for boolean arrays.  numpy raises `IndexError` if the shape of the mask is not that of the axes.
repo: hftools/dataset/arrayobj.py:633-657 -/
def getMaskMany [DecidableEq β] (ofIdx : Int → β) (x : Arr β α) (mask : Arr β Bool) : Except Err (Arr β α) :=
  match mask.dims with
  | [d] => x.getMask d ((List.range (mask.nd.shape.getD 0 0)).map fun i => mask.nd.get [i])
  | ms =>
    let before := dimsBeforeAny ms x.dims
    match reorderDimensions x ((before ++ ms).map .dim) with
    | .error e => .error e
    | .ok y =>
      match newAnonymous ofIdx x.dims (maskPos mask.nd).length with
      | .error e => .error e
      | .ok newdim =>
        let n := before.length
        let k := ms.length
        if mask.nd.shape ≠ (y.nd.shape.drop n).take k then .error .indexError
        else mk? ⟨y.nd.shape.take n ++ (maskPos mask.nd).length :: y.nd.shape.drop (n + k),
            fun idx => y.nd.get (idx.take n ++ (maskPos mask.nd).getD (idx.getD n 0) [] ++ idx.drop (n + 1))⟩
          (y.dims.take n ++ newdim :: y.dims.drop (n + k))

/-- `a[mask] = v` with a number `v`: `ndarray.__setitem__`, which knows nothing of dims. -/
def setMask (x : Arr β α) (mask : Arr β Bool) (v : α) : Except Err (Arr β α) :=
  let k := mask.nd.shape.length
  if mask.nd.shape ≠ x.nd.shape.take k then .error .indexError
  else .ok ⟨x.dims, ⟨x.nd.shape, fun idx => if mask.nd.get (idx.take k) then v else x.nd.get idx⟩⟩

end Arr
end HF
