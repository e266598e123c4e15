/-
Model of `DataDict`, the ordered dictionary of hftools.

repo: hftools/dataset/dataset.py:88-179
-/
namespace HF.DataDict

variable {K V : Type} [DecidableEq K]

/-- Exceptions which the modelled methods can raise. -/
inductive Err where
  | keyError
  | valueError
  deriving DecidableEq, Repr

/-! ### The builtin `dict` (python >= 3.7, insertion ordered) -/

/-- `dict.__getitem__`; `none` is `KeyError`.  Python builtin. -/
def dget : List (K × V) → K → Option V
  | [], _ => none
  | (k', v) :: t, k => if k' = k then some v else dget t k

/-- `dict.__contains__`.  Python builtin. -/
def dhas (l : List (K × V)) (k : K) : Bool := (dget l k).isSome

/-- `dict.__setitem__`: an existing key keeps its slot, a new key goes last.
Python builtin. -/
def dset : List (K × V) → K → V → List (K × V)
  | [], k, v => [(k, v)]
  | (k', v') :: t, k, v => if k' = k then (k', v) :: t else (k', v') :: dset t k v

/-- `dict.__delitem__` on a present key.  Python builtin. -/
def ddel : List (K × V) → K → List (K × V)
  | [], _ => []
  | (k', v') :: t, k => if k' = k then t else (k', v') :: ddel t k

/-- `DataDict`: the builtin dictionary plus the attribute `order`.
repo: hftools/dataset/dataset.py:88-91 -/
structure DD (K V : Type) where
  dict : List (K × V)
  order : List K

/-- `DataDict()`.  repo: hftools/dataset/dataset.py:89-91 -/
def empty : DD K V := ⟨[], []⟩

/-- `DataDict(pairs)` / `DataDict(**pairs)`: fills the builtin dictionary,
`order` stays empty.  repo: hftools/dataset/dataset.py:89-91 -/
def ofPairs (l : List (K × V)) : DD K V :=
  ⟨l.foldl (fun d p => dset d p.1 p.2) [], []⟩

/-- `__setitem__`.  repo: hftools/dataset/dataset.py:129-132 -/
def setitem (d : DD K V) (k : K) (v : V) : DD K V :=
  ⟨dset d.dict k v, if k ∈ d.order then d.order else d.order ++ [k]⟩

/-- `__delitem__`: silently ignores a missing key; removes the first occurrence
of the key from `order`.  repo: hftools/dataset/dataset.py:114-118 -/
def delitem (d : DD K V) (k : K) : DD K V :=
  ⟨if dhas d.dict k then ddel d.dict k else d.dict,
   if k ∈ d.order then d.order.erase k else d.order⟩

/-- `setdefault`; returns the value now stored.
repo: hftools/dataset/dataset.py:134-138 -/
def setdefault (d : DD K V) (k : K) (v : V) : DD K V × V :=
  let (dict', r) := match dget d.dict k with
    | some old => (d.dict, old)
    | none => (dset d.dict k v, v)
  (⟨dict', if k ∈ d.order then d.order else d.order ++ [k]⟩, r)

/-- `l[l.index(a)] = b`; `none` is the `ValueError` of `list.index`.
Python builtin. -/
def replaceFirst : List K → K → K → Option (List K)
  | [], _, _ => none
  | x :: t, a, b => if x = a then some (b :: t) else (replaceFirst t a b).map (x :: ·)

/-- `rename`.  The exceptions are raised before anything is modified.
repo: hftools/dataset/dataset.py:140-145 -/
def rename (d : DD K V) (old new : K) : Except Err (DD K V) :=
  match dget d.dict old with
  | none => .error .keyError
  | some vdata =>
    let order' := if new ∈ d.order then some d.order else replaceFirst d.order old new
    match order' with
    | none => .error .valueError
    | some o => .ok (setitem (delitem ⟨d.dict, o⟩ old) new vdata)

/-- `__iter__` and `keys`: `order`, then the dictionary keys not in it.
repo: hftools/dataset/dataset.py:157-158, 170-176 -/
def iter (d : DD K V) : List K :=
  d.dict.foldl (fun out p => if p.1 ∈ out then out else out ++ [p.1]) d.order

/-- List comprehension `[(v, self[v]) for v in ks]`; `self[v]` may raise.
Python builtin. -/
def lookupAll (dict : List (K × V)) : List K → Except Err (List (K × V))
  | [] => .ok []
  | k :: ks =>
    match dget dict k with
    | none => .error .keyError
    | some v =>
      match lookupAll dict ks with
      | .error e => .error e
      | .ok r => .ok ((k, v) :: r)

/-- `items` (and `iteritems` run to its end).
repo: hftools/dataset/dataset.py:160-162, 167-168 -/
def items (d : DD K V) : Except Err (List (K × V)) := lookupAll d.dict (iter d)

/-- `values`.  repo: hftools/dataset/dataset.py:164-165 -/
def values (d : DD K V) : Except Err (List V) :=
  match items d with
  | .error e => .error e
  | .ok l => .ok (l.map Prod.snd)

/-- `copy` and `view`: the builtin dictionary is refilled from `items()`, `order`
is copied.  The copy of the values themselves (`v.copy()`, `v.view()`) is the
function `f`.  repo: hftools/dataset/dataset.py:147-155 -/
def copyWith (f : V → V) (d : DD K V) : Except Err (DD K V) :=
  match items d with
  | .error e => .error e
  | .ok l => .ok ⟨(ofPairs (l.map fun p => (p.1, f p.2))).dict, d.order⟩

/-- `pop(k)`, inherited from `dict`: does not know about `order`.
repo: hftools/dataset/dataset.py:88 (not overridden) -/
def pop (d : DD K V) (k : K) : Except Err (DD K V × V) :=
  match dget d.dict k with
  | none => .error .keyError
  | some v => .ok (⟨ddel d.dict k, d.order⟩, v)

/-- `popitem()`, inherited from `dict`: takes away any entry (`pick`, the choice of the interpreter).
repo: hftools/dataset/dataset.py:88 (not overridden) -/
def popitem (pick : List (K × V) → Nat) (d : DD K V) : Except Err (DD K V × (K × V)) :=
  match d.dict with
  | [] => .error .keyError
  | p :: l =>
    let q := (p :: l).getD (pick (p :: l)) p
    .ok (⟨ddel (p :: l) q.1, d.order⟩, q)

/-- `clear()`, inherited from `dict`.
repo: hftools/dataset/dataset.py:88 (not overridden) -/
def clear (d : DD K V) : DD K V := ⟨[], d.order⟩

/-- `update(pairs)`, inherited from `dict`: does not call `__setitem__`.
repo: hftools/dataset/dataset.py:88 (not overridden) -/
def update (d : DD K V) (l : List (K × V)) : DD K V :=
  ⟨l.foldl (fun d p => dset d p.1 p.2) d.dict, d.order⟩

/-! ### Operations and histories -/

/-- The methods of the class, mutating ones and observers. -/
inductive Op (K V : Type) where
  | set (k : K) (v : V)
  | del (k : K)
  | setdefault (k : K) (v : V)
  | rename (a b : K)
  | copy
  | get (k : K)
  | contains (k : K)
  | len
  | keys
  | values
  | items

/-- What the caller sees. -/
inductive Out (K V : Type) where
  | unit
  | err (e : Err)
  | val (v : V)
  | bool (b : Bool)
  | nat (n : Nat)
  | keys (l : List K)
  | vals (l : List V)
  | items (l : List (K × V))

/-- One call on a `DataDict`; the values are immutable (`copy` continues with the
copied dictionary).  repo: hftools/dataset/dataset.py:88-179 -/
def step (d : DD K V) : Op K V → DD K V × Out K V
  | .set k v => (setitem d k v, .unit)
  | .del k => (delitem d k, .unit)
  | .setdefault k v => ((setdefault d k v).1, .val (setdefault d k v).2)
  | .rename a b =>
    match rename d a b with
    | .ok d' => (d', .unit)
    | .error e => (d, .err e)
  | .copy =>
    match copyWith id d with
    | .ok d' => (d', .unit)
    | .error e => (d, .err e)
  | .get k =>
    match dget d.dict k with
    | some v => (d, .val v)
    | none => (d, .err .keyError)
  | .contains k => (d, .bool (dhas d.dict k))
  | .len => (d, .nat d.dict.length)
  | .keys => (d, .keys (iter d))
  | .values =>
    match values d with
    | .ok l => (d, .vals l)
    | .error e => (d, .err e)
  | .items =>
    match items d with
    | .ok l => (d, .items l)
    | .error e => (d, .err e)

/-- A history of calls: final state and everything the caller saw. -/
def run (d : DD K V) : List (Op K V) → DD K V × List (Out K V)
  | [] => (d, [])
  | op :: ops =>
    let (d', o) := step d op
    let (d'', os) := run d' ops
    (d'', o :: os)

end HF.DataDict
