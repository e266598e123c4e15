import Verif.HFArray.MatMul
/-
Model of the functions that put four arrays together to an array of matrices, and of the
correction of measured waves for imperfect switches.

repo: hftools/math.py:43-54, hftools/networks/spar_functions.py:103-105
-/
namespace HF.Arr

variable {β α : Type}

/-- `dims_union(*a)` for any number of arrays.  repo: hftools/dataset/arrayobj.py:194-201.  It is
not called without arrays, where the code raises `IndexError`. -/
def dimsUnionL : List (List (Dim β)) → List (Dim β)
  | [] => []
  | a :: t => sortByPrio (t.foldl (fun acc b => b.foldl unionStep acc) a)

/-- `res[..., p, q] = x` is possible: `x` can be broadcast to the shape of the place.  Numpy; the
ranks are equal here. -/
def fits : List Nat → List Nat → Bool
  | [], [] => true
  | s :: ss, t :: ts => (s == t || s == 1) && fits ss ts
  | _, _ => false

/-- `tuple(max(x) for x in zip(a.shape, b.shape, c.shape, d.shape))`.
repo: hftools/math.py:45-46 -/
def maxShape (a b c d : List Nat) : List Nat :=
  List.zipWith max (List.zipWith max (List.zipWith max a b) c) d

/-- `make_matrix(a, b, c, d)`.  repo: hftools/math.py:43-54

`cast` is what numpy makes of a number stored in an array with the dtype of `a` (line 47); `ofIdx`
makes the labels 0 and 1 of the new dims. -/
def makeMatrix (full : Arr β α → Arr β α) (cast : α → α) (ofIdx : Nat → β) (a b c d : Arr β α) :
    Except Err (Arr β α) :=
  let newdims := dimsUnionL [a.dims, b.dims, c.dims, d.dims]
  match changeShape full a newdims, changeShape full b newdims, changeShape full c newdims,
      changeShape full d newdims with
  | .ok a', .ok b', .ok c', .ok d' =>
    let sh := maxShape a'.nd.shape b'.nd.shape c'.nd.shape d'.nd.shape
    if fits a'.nd.shape sh && fits b'.nd.shape sh && fits c'.nd.shape sh && fits d'.nd.shape sh then
      mk? ⟨sh ++ [2, 2], fun idx =>
        let o := idx.take sh.length
        match idx.getD sh.length 0, idx.getD (sh.length + 1) 0 with
        | 0, 0 => cast (a'.nd.get (Nd.bidx a'.nd.shape o))
        | 0, _ => cast (b'.nd.get (Nd.bidx b'.nd.shape o))
        | _, 0 => cast (c'.nd.get (Nd.bidx c'.nd.shape o))
        | _, _ => cast (d'.nd.get (Nd.bidx d'.nd.shape o))⟩
        (newdims ++ [⟨.matI, "i", [ofIdx 0, ofIdx 1], none, none⟩, ⟨.matJ, "j", [ofIdx 0, ofIdx 1], none, none⟩])
    else .error .valueError
  | .error e, _, _, _ => .error e
  | _, .error e, _, _ => .error e
  | _, _, .error e, _ => .error e
  | _, _, _, .error e => .error e

/-- `switch_correct(b, a)`.  repo: hftools/networks/spar_functions.py:103-105 -/
noncomputable def switchCorrect [Field α] [DecidableEq α] (full : Arr β α → Arr β α) (b a : Arr β α) :
    Except Nd.LErr (Arr β α) :=
  match inv a with
  | .ok x => matMul full b x
  | .error e => .error e

end HF.Arr
