import Verif.DataBlock.Model
import Verif.HFArray.Rep
/-
`DataBlock.remove_rep`.

repo: hftools/dataset/dataset.py:645-662
-/
namespace HF.DataBlock

open HF.DataDict.Spec

variable {β α : Type}

/-- `DimRep(newdimname, np.arange(n))`; `ofIdx` embeds natural numbers into coordinate values.
repo: hftools/dataset/dataset.py:650 -/
def newRep (ofIdx : Nat → β) (newname : String) (n : Nat) : Dim β := ⟨.dimRep, newname, (List.range n).map ofIdx, none, none⟩

/-- The coordinate of `dim`, the one with number `k`, for all combinations of repetitions, written one after the other.
repo: hftools/dataset/dataset.py:651-659 -/
def repColumn (env : Env β α) (ofIdx : Nat → β) (newname : String) (full : List Nat) (k : Nat) (dim : Dim β) :
    Except Err (Arr β α) :=
  let a : Nd α := ⟨full, fun idx => (dim.data.map env.toVal).getD (idx.getD k 0) env.junk⟩
  match ofArr (Arr.ofNd (a.reshape [Nd.size full])) with
  | .error e => .error e
  | .ok nd => .ok ⟨[newRep ofIdx newname (Nd.size full)], nd⟩

/-- repo: hftools/dataset/dataset.py:651-659 -/
def repColumns (env : Env β α) (ofIdx : Nat → β) (newname : String) (full : List Nat) :
    Block β α → List (Dim β × Nat) → Except Err (Block β α)
  | out, [] => .ok out
  | out, (dim, k) :: t =>
    match repColumn env ofIdx newname full k dim with
    | .error e => .error e
    | .ok a =>
      match setArr env out dim.name a with
      | (_, .error e) => .error e
      | (out, .ok _) => repColumns env ofIdx newname full out t

/-- repo: hftools/dataset/dataset.py:660-661 -/
def repVars [DecidableEq β] (env : Env β α) (ofIdx : Nat → β) (newname : String) (b : Block β α) :
    Block β α → List String → Except Err (Block β α)
  | out, [] => .ok out
  | out, x :: t =>
    match getitem env b x with
    | .error e => .error e
    | .ok v =>
      match ofArr (v.removeRep ofIdx newname) with
      | .error e => .error e
      | .ok a =>
        match setArr env out x a with
        | (_, .error e) => .error e
        | (out, .ok _) => repVars env ofIdx newname b out t

/-- `block.remove_rep(newdimname)`.  repo: hftools/dataset/dataset.py:645-662 -/
def removeRepBlock [DecidableEq β] (env : Env β α) (ofIdx : Nat → β) (b : Block β α) (newname : String := "AllReps") :
    Except Err (Block β α) :=
  let dims := (b.ivars.map Prod.snd).filter fun d => d.isa .dimRep
  match repColumns env ofIdx newname (dims.map fun d => d.data.length) {} dims.zipIdx with
  | .error e => .error e
  | .ok out => repVars env ofIdx newname b out (b.vars.map Prod.fst)

end HF.DataBlock
