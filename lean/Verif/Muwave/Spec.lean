import Verif.Muwave.Model
import Verif.HFArray.Spec
/-
Specification of the reader for files of the muwave toolbox.
-/
namespace HF.Muwave

open HF.DataDict.Spec
open HF.DataBlock

variable {β α : Type}

/-- `x` is the first value of a cell. -/
def Starts (x : α) : Cell α → Prop
  | .text s => s = x
  | .matrix rows => ∃ r t, rows = (x :: r) :: t

/-- A sweep whose measurements fit together.  They have the same quantities `sn` of the state
besides the index, the same properties `mn`, which are all texts, S-parameters of the same shape
`f`, `p`, `q`, and either all of them or none have covariances.  Names do not get into conflict. -/
structure Sweep (sn mn : List String) (f p q : Nat) (csh : Option (Nat × Nat × Nat))
    (ps : List (Point β α)) : Prop where
  state : ∀ m ∈ ps, (m.state.map Prod.fst).Perm ("Index" :: sn)
  meas : ∀ m ∈ ps, (m.measmnt.map Prod.fst).Perm mn
  cells : ∀ m ∈ ps, ∀ e ∈ m.state, ∃ x, Starts x e.2
  texts : ∀ m ∈ ps, ∀ e ∈ m.measmnt, ∃ s, e.2 = .text s
  type : ∀ m ∈ ps, m.type = "S"
  shape : ∀ m ∈ ps, m.mtrx.shape = [p, q, f]
  cov : ∀ m ∈ ps, m.cov.map Nd.shape = csh.map fun s => [s.2.1, s.2.2, s.1]
  nodup : ("Index" :: (sn ++ (mn ++ ["S", "Z0", "Scov"]))).Nodup
  free : ∀ n ∈ sn ++ mn, n ≠ "freq" ∧ n ≠ "i" ∧ n ≠ "j" ∧ n ≠ "INDEX1"
  elems : ∀ n ∈ sn ++ mn, ∀ m i j, isMatrixName n = some (m, i, j) →
    m ∉ "Index" :: (sn ++ (mn ++ ["S", "Z0", "Scov"]))

/-- What becomes of a value of the state. -/
def valueOf (cv : Conv β α) (n : String) (x : α) : α :=
  if n = "Date" then (cv.date x).getD x else x

/-- What becomes of a text among the properties: an empty one is kept empty. -/
def textOf (cv : Conv β α) (s : α) : α := if cv.truth s then cv.real s else cv.blank

/-- The sweep over the measurements. -/
def pointDim (env : Env β α) (cv : Conv β α) (n : Nat) : Dim β :=
  ⟨.dimSweep, "INDEX1", (List.range n).map cv.ofIdx, none, some (env.dfltDim ((List.range n).map cv.ofIdx))⟩

def iDim (cv : Conv β α) (n : Nat) : Dim β := ⟨.matI, "i", (List.range n).map cv.ofIdx, none, none⟩
def jDim (cv : Conv β α) (n : Nat) : Dim β := ⟨.matJ, "j", (List.range n).map cv.ofIdx, none, none⟩

end HF.Muwave
