import Verif.Merge.Spec
import Verif.Hyper.BlockSpec
/-
Merging to hypercubes: specification.
-/
namespace HF.Merge

open HF.DataDict.Spec
open HF.DataBlock

variable {β α : Type}

/-- The value of the setting `k` of a block: the first one of its partial sweep of this name. -/
def setting (env : Env β α) (b : Block β α) (k : String) : α :=
  match (lookup (b.ivars.filter fun p => p.2.isa .dimPartial) k).bind fun d => d.data.head? with
  | some x => env.toVal x
  | none => env.junk

/-- The values of the settings of all blocks. -/
def settings (env : Env β α) (ks : List String) (blocks : List (Block β α)) : List (List α) :=
  ks.map fun k => blocks.map fun b => setting env b k

/-- The different values of a setting, in the order in which they first appear. -/
def choices [LinearOrder α] (env : Env β α) (blocks : List (Block β α)) (k : String) : List α :=
  Utils.stableUniq (blocks.map fun b => setting env b k)

/-- The dimension that a setting becomes. -/
def settingDim [LinearOrder α] (env : Env β α) (blocks : List (Block β α)) (k : String) : Dim β :=
  ⟨.dimSweep, k, (choices env blocks k).map env.toCoord, none, none⟩

/-- Where the settings go, with their numbers of values: first, but behind a leading sweep. -/
def placedAll (axes : List (Dim β × Nat)) : List (Dim β × Nat) → List (Dim β × Nat)
  | [] => axes
  | p :: t => if p.1.isa .dimSweep then p :: (axes ++ t) else axes ++ p :: t

end HF.Merge
