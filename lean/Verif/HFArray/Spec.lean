import Verif.HFArray.Model
/-
Named coordinates: the vocabulary in which the properties of arrays are stated.
-/
namespace HF

variable {β α : Type}

/-- What identifies an axis for the user: name and class of the dimension. -/
abbrev Key := String × Cls

def Dim.key (d : Dim β) : Key := (d.name, d.cls)

/-- A named coordinate: an index for every axis. -/
abbrev Coord := Key → Nat

namespace Arr

/-- The element at a named coordinate. -/
def at_ (x : Arr β α) (c : Coord) : α := x.nd.get (x.dims.map fun d => c d.key)

/-- The element at a named coordinate, where axes of length one are repeated. -/
def atB (x : Arr β α) (c : Coord) : α :=
  x.nd.get (List.zipWith (fun s d => if s = 1 then 0 else c d.key) x.nd.shape x.dims)

/-- The coordinate lies inside of the array. -/
def InRange (x : Arr β α) (c : Coord) : Prop := Nd.Valid x.nd.shape (x.dims.map fun d => c d.key)

/-- One dim per axis. -/
def WF (x : Arr β α) : Prop := x.dims.length = x.nd.shape.length

/-- No two axes are identified by the same name and class. -/
def Distinct (dims : List (Dim β)) : Prop := (dims.map Dim.key).Nodup

/-- Dimensions of the same name have unrelated or identical classes (no sweep meets a
partial sweep of the same name). -/
def NoSub (l : List (Dim β)) : Prop :=
  ∀ d ∈ l, ∀ e ∈ l, d.name = e.name → d.cls.isSub e.cls = true → d.cls = e.cls

/-- Length of the axis with a given key, if there is one. -/
def axisLen (x : Arr β α) (k : Key) : Option Nat :=
  ((x.dims.zip x.nd.shape).find? fun p => p.1.key = k).map Prod.snd

/-- Operands can be broadcast: shared axes have equal length or length one. -/
def Compatible (a b : Arr β α) : Prop :=
  ∀ k s t, a.axisLen k = some s → b.axisLen k = some t → s = t ∨ s = 1 ∨ t = 1

/-- Length of an axis of the result, from the lengths of that axis in the operands. -/
def bLen : Option Nat → Option Nat → Option Nat
  | none, t => t
  | s, none => s
  | some s, some t => if s = 1 then some t else some s

end Arr
end HF
