import Verif.Config.Model
/-
Loading a configuration file: the containers made from the nodes of a YAML document and their parents.

repo: hftools/file_formats/config.py:52-60, 63-106, 167-179, 348-387
-/
namespace HF
namespace Config

variable {K A : Type} [DecidableEq K]

/-- The nodes of a YAML document.  Keys are scalars (a key that is a mapping or a sequence is an error in PyYAML).
An alias stands for the node with this anchor, which is one and the same node for PyYAML. -/
inductive Yaml (K A : Type)
  | atom (a : A)
  | map (es : List (K × Yaml K A))
  | seq (l : List (Yaml K A))
  | anchor (n : Nat) (y : Yaml K A)
  | aliased (n : Nat)

/-- A value: a scalar, or a container given by its place in memory. -/
inductive Val (A : Type)
  | atom (a : A)
  | ref (i : Nat)
  deriving DecidableEq

/-- A `LexicalScopeDict` or `LexicalScopeList` with its `parent`.
repo: hftools/file_formats/config.py:37-40, 63-66 -/
structure Obj (K A : Type) where
  body : Node K (Val A)
  parent : Option Nat

/-- Memory, and the objects made so far for nodes with an anchor (`constructed_objects` of PyYAML). -/
structure Mem (K A : Type) where
  heap : List (Obj K A)
  names : List (Nat × Val A) := []

/-- `value.parent = container` for values that are containers.
repo: hftools/file_formats/config.py:364-365, 376-377 -/
def setParent (h : List (Obj K A)) (v : Val A) (i : Nat) : List (Obj K A) :=
  match v with
  | .atom _ => h
  | .ref j => h.modify j fun o => { o with parent := some i }

/-- `OrderedDict.__setitem__`: a key which is there keeps its place. -/
def setKey (es : List (K × Val A)) (k : K) (v : Val A) : List (K × Val A) :=
  if (es.lookup k).isSome then es.map fun p => if p.1 = k then (k, v) else p else es ++ [(k, v)]

/-- `mapping[key] = value`.  repo: hftools/file_formats/config.py:366, 79-81 -/
def setEntry (h : List (Obj K A)) (i : Nat) (k : K) (v : Val A) : List (Obj K A) :=
  h.modify i fun o =>
    match o.body with
    | .dict es => { o with body := .dict (setKey es k v) }
    | .list _ => o

/-- `out.append(value)`.  repo: hftools/file_formats/config.py:378 -/
def append (h : List (Obj K A)) (i : Nat) (v : Val A) : List (Obj K A) :=
  h.modify i fun o =>
    match o.body with
    | .dict _ => o
    | .list l => { o with body := .list (l ++ [v]) }

mutual
/-- `construct_mapping`, `construct_sequence` and `construct_object` of PyYAML, which gives the same object for an
alias as for the node it stands for.  `none` is the exception for an alias to a node that does not exist or is not
complete.  repo: hftools/file_formats/config.py:348-387 -/
def construct (m : Mem K A) : Yaml K A → Option (Mem K A × Val A)
  | .atom a => some (m, .atom a)
  | .aliased n => (m.names.lookup n).map fun v => (m, v)
  | .anchor n y =>
    match construct m y with
    | none => none
    | some (m', v) => some ({ m' with names := (n, v) :: m'.names }, v)
  | .map es =>
    match fillMap { m with heap := m.heap ++ [⟨.dict [], none⟩] } m.heap.length es with
    | none => none
    | some m' => some (m', .ref m.heap.length)
  | .seq l =>
    match fillSeq { m with heap := m.heap ++ [⟨.list [], none⟩] } m.heap.length l with
    | none => none
    | some m' => some (m', .ref m.heap.length)

/-- The loop over the entries of a mapping.  repo: hftools/file_formats/config.py:355-366 -/
def fillMap (m : Mem K A) (i : Nat) : List (K × Yaml K A) → Option (Mem K A)
  | [] => some m
  | (k, y) :: es =>
    match construct m y with
    | none => none
    | some (m', v) => fillMap { m' with heap := setEntry (setParent m'.heap v i) i k v } i es

/-- The loop over the elements of a sequence.  repo: hftools/file_formats/config.py:374-378 -/
def fillSeq (m : Mem K A) (i : Nat) : List (Yaml K A) → Option (Mem K A)
  | [] => some m
  | y :: l =>
    match construct m y with
    | none => none
    | some (m', v) => fillSeq { m' with heap := append (setParent m'.heap v i) i v } i l
end

/-- What can go wrong with `LexicalConfig(filename)`, given the document in the file. -/
inductive LoadErr
  | yaml
  | attributeError
  deriving DecidableEq

/-- `LexicalConfig(filename)` for a file with one document.  The configuration itself is the object 0; it takes over
the entries of the mapping that was loaded (`update`), whose values keep this mapping as parent.  Documents which are
not a mapping have no `items`.  repo: hftools/file_formats/config.py:79-81, 167-179 -/
def load (y : Yaml K A) : Except LoadErr (List (Obj K A)) :=
  match construct ⟨[⟨.dict [], none⟩], []⟩ y with
  | none => .error .yaml
  | some (_, .atom _) => .error .attributeError
  | some (m, .ref r) =>
    match m.heap[r]? with
    | some ⟨.dict es, _⟩ => .ok (es.foldl (fun h p => setEntry h 0 p.1 p.2) m.heap)
    | _ => .error .attributeError

/-- The container at a place with its parents, as far as `n` of them. -/
def scopeN (h : List (Obj K A)) : Nat → Nat → Scope K (Val A)
  | 0, _ => []
  | n + 1, i =>
    match h[i]? with
    | none => []
    | some o => o.body :: (match o.parent with | none => [] | some p => scopeN h n p)

/-- The container at a place with all its parents.  (There are not more of them than containers, if no container is
its own ancestor; otherwise the search for a key does not end.) -/
def scope (h : List (Obj K A)) (i : Nat) : Scope K (Val A) := scopeN h h.length i

/-- `container[key]` for a dictionary.  repo: hftools/file_formats/config.py:83-94 -/
def lookupAt (h : List (Obj K A)) (i : Nat) (k : K) : Option (Val A) := getitem (scope h i) k

end Config
end HF
