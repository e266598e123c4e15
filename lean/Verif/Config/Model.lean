/-
Model of the scoped dictionaries in hftools/file_formats/config.py.
-/
namespace HF
namespace Config

variable {K V : Type} [DecidableEq K]

/-- A container of the configuration tree: `LexicalScopeDict` or `LexicalScopeList`.
repo: hftools/file_formats/config.py:37-49, 63-66 -/
inductive Node (K V : Type)
  | dict (entries : List (K × V))
  | list (elems : List V)

/-- A container with its `parent`, the parent's `parent` and so on.  The empty list is `None`.
Parents are set by the loader (repo: hftools/file_formats/config.py:348-381) or by the user. -/
abbrev Scope (K V : Type) := List (Node K V)

/-- `find_next_dict(dct)` given the chain of parents of `dct`.
repo: hftools/file_formats/config.py:52-60 -/
def findNextDict : Scope K V → Scope K V
  | [] => []
  | .dict es :: r => .dict es :: r
  | .list _ :: r => findNextDict r

omit [DecidableEq K] in
theorem findNextDict_length (s : Scope K V) : (findNextDict s).length ≤ s.length := by
  induction s with
  | nil => simp [findNextDict]
  | cons n r ih =>
    cases n with
    | dict => simp [findNextDict]
    | list => simp only [findNextDict, List.length_cons]; omega

/-- `LexicalScopeDict.__getitem__`; `none` is `KeyError`.  (Called on dictionaries only.)
repo: hftools/file_formats/config.py:83-94 -/
def getitem (s : Scope K V) (k : K) : Option V :=
  match s with
  | [] => none
  | .list _ :: _ => none
  | .dict es :: parent =>
    match es.lookup k with
    | some v => some v
    | none =>
      match h : findNextDict parent with
      | [] => none
      | d :: r => getitem (d :: r) k
termination_by s.length
decreasing_by
  have := findNextDict_length parent
  rw [h] at this
  simp only [List.length_cons] at this ⊢
  omega

/-- `LexicalScopeDict.get`.
repo: hftools/file_formats/config.py:68-72 -/
def get (s : Scope K V) (k : K) (default : V) : V := (getitem s k).getD default

/-- Truth value of a container: false when empty or `None`. -/
def truthy : Scope K V → Bool
  | [] => false
  | .dict es :: _ => !es.isEmpty
  | .list el :: _ => !el.isEmpty

/-- `key in container`.  For a list it is python's list membership: comparing the key with each
element (`asKey v = some k` says that the element `v` equals the key `k`).
repo: hftools/file_formats/config.py:74-77 -/
def contains (asKey : V → Option K) : Scope K V → K → Bool
  | [], _ => false
  | .list el :: _, k => el.any fun v => asKey v = some k
  | .dict es :: parent, k =>
    (es.lookup k).isSome || (truthy parent && contains asKey parent k)

/-- `LexicalScopeDict.copy`: the entries, without the parent.
repo: hftools/file_formats/config.py:105-106 -/
def copy : Scope K V → Scope K V
  | .dict es :: _ => [.dict es]
  | s => s

/-- What `MergedDicts` uses of the dictionaries it is given. -/
structure Mapping (K V : Type) where
  get : K → Option V
  has : K → Bool
  keys : List K

/-- `MergedDicts`: the dictionaries are kept in reverse order.
repo: hftools/file_formats/config.py:112-115 -/
structure Merged (K V : Type) where
  dicts : List (Mapping K V)
  parent : Option (Mapping K V)

/-- `MergedDicts(*dicts)`, with `parent` assigned afterwards. -/
def Merged.mk' (args : List (Mapping K V)) (parent : Option (Mapping K V)) : Merged K V :=
  ⟨args.reverse, parent⟩

/-- `MergedDicts.__getitem__`.  The parent is taken to be truthy.
repo: hftools/file_formats/config.py:135-144 -/
def Merged.getitem (m : Merged K V) (k : K) : Option V :=
  let rec loop : List (Mapping K V) → Option V
    | [] => match m.parent with
      | some p => p.get k
      | none => none
    | d :: r => match d.get k with
      | some v => some v
      | none => loop r
  loop m.dicts

/-- `MergedDicts.__contains__`.
repo: hftools/file_formats/config.py:122-128 -/
def Merged.contains (m : Merged K V) (k : K) : Bool :=
  if m.dicts.any fun d => d.has k then true
  else match m.parent with
    | some p => p.has k
    | none => false

/-- `MergedDicts.keys` (a set, here without order).
repo: hftools/file_formats/config.py:129-133 -/
def Merged.isKey (m : Merged K V) (k : K) : Prop := ∃ d ∈ m.dicts, k ∈ d.keys

/-! ### Time intervals -/

/-- `timeintervall_representer`: split a number of microseconds (`total_seconds`, exact) into
days, hours, minutes and the remaining microseconds.
repo: hftools/file_formats/config.py:236-245 -/
def splitInterval (us : Int) : Int × Int × Int × Int :=
  let days := us / (3600 * 24 * 1000000)
  let r := us - days * (3600 * 24 * 1000000)
  let hours := r / (3600 * 1000000)
  let r := r - hours * (3600 * 1000000)
  let minutes := r / (60 * 1000000)
  let r := r - minutes * (60 * 1000000)
  (days, hours, minutes, r)

/-- The words written, as (number, unit) with the unit in microseconds; zero parts are omitted.
repo: hftools/file_formats/config.py:246-254 -/
def intervalWords (us : Int) : List (Int × Int) :=
  let (d, h, m, s) := splitInterval us
  (if d = 0 then [] else [(d, 86400000000)]) ++ (if h = 0 then [] else [(h, 3600000000)]) ++
    (if m = 0 then [] else [(m, 60000000)]) ++ (if s = 0 then [] else [(s, 1)])

/-- `timeintervall_constructor` on such words: `none` if the pattern does not match, which is the
case when a number is negative (the pattern has no sign), when the number of seconds is below
0.0001 (python writes it like 5e-05 and the pattern has no exponent) or when the units are not in
the order days, hours, minutes, seconds.  Missing parts count 0.
repo: hftools/file_formats/config.py:278-282, 305-317 -/
def readWords (w : List (Int × Int)) : Option Int :=
  if w.all (fun p => decide (0 ≤ p.1)) && w.all (fun p => decide (p.2 = 1 → 100 ≤ p.1)) && 
      decide (w.Pairwise fun a b => b.2 < a.2) && w.all (fun p => p.2 ∈ ([86400000000, 3600000000, 60000000, 1] : List Int)) then
    some (w.foldr (fun p acc => p.1 * p.2 + acc) 0)
  else none

end Config
end HF
