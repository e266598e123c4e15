import Verif.DataDict.Model
/-
Specification of an ordered map, independent of the `dict`/`order` pair of the
implementation: one list of entries with distinct keys.
-/
namespace HF.DataDict.Spec

variable {K V : Type} [DecidableEq K]

/-- An ordered map: its entries in iteration order. -/
abbrev OMap (K V : Type) := List (K × V)

def lookup (m : OMap K V) (k : K) : Option V := (m.find? (fun p => p.1 = k)).map Prod.snd

def member (m : OMap K V) (k : K) : Bool := m.any (fun p => p.1 = k)

/-- Change the value of `k`, keeping the place of the entry. -/
def modify (m : OMap K V) (k : K) (v : V) : OMap K V :=
  m.map fun p => if p.1 = k then (k, v) else p

/-- Remove the entry of `k`. -/
def remove (m : OMap K V) (k : K) : OMap K V := m.filter fun p => p.1 ≠ k

/-- Assignment: keep the place of a known key, put a new key last. -/
def assign (m : OMap K V) (k : K) (v : V) : OMap K V :=
  if member m k then modify m k v else m ++ [(k, v)]

/-- Renaming: a fresh name takes over the place; an existing other name takes
over the value; renaming a key to itself moves it to the end. -/
def rename (m : OMap K V) (a b : K) (v : V) : OMap K V :=
  if a = b then remove m a ++ [(a, v)]
  else if member m b then modify (remove m a) b v
  else m.map fun p => if p.1 = a then (b, v) else p

/-- Specification of one call. -/
def step (m : OMap K V) : Op K V → OMap K V × Out K V
  | .set k v => (assign m k v, .unit)
  | .del k => (remove m k, .unit)
  | .setdefault k v =>
    match lookup m k with
    | some w => (m, .val w)
    | none => (assign m k v, .val v)
  | .rename a b =>
    match lookup m a with
    | some v => (rename m a b v, .unit)
    | none => (m, .err .keyError)
  | .copy => (m, .unit)
  | .get k =>
    match lookup m k with
    | some v => (m, .val v)
    | none => (m, .err .keyError)
  | .contains k => (m, .bool (member m k))
  | .len => (m, .nat m.length)
  | .keys => (m, .keys (m.map Prod.fst))
  | .values => (m, .vals (m.map Prod.snd))
  | .items => (m, .items m)

/-- Specification of a history of calls. -/
def run (m : OMap K V) : List (Op K V) → OMap K V × List (Out K V)
  | [] => (m, [])
  | op :: ops => ((run (step m op).1 ops).1, (step m op).2 :: (run (step m op).1 ops).2)

end HF.DataDict.Spec
