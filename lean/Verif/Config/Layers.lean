/-
Model of `MergedDicts` together with the scoped dictionaries, which may stand in each other.

repo: hftools/file_formats/config.py:37-144
-/
namespace HF
namespace Config
namespace Layers

/-- Containers of settings, with their `parent`; `none` is `None`.  In `merged` the dictionaries are in the order of the
arguments.  repo: hftools/file_formats/config.py:37-40, 63-66, 112-115 -/
inductive Conf (K V : Type) where
  | none
  | dict (entries : List (K × V)) (parent : Conf K V)
  | list (elems : List V) (parent : Conf K V)
  | merged (args : List (Conf K V)) (parent : Conf K V)

inductive Err where
  | keyError
  | typeError
  deriving DecidableEq

variable {K V : Type} [DecidableEq K]

/-- Truth values: `None` and what is empty is false; a `MergedDicts` has no length and is true. -/
def Conf.truthy : Conf K V → Bool
  | .none => false
  | .dict es _ => !es.isEmpty
  | .list el _ => !el.isEmpty
  | .merged _ _ => true

/-- `LexicalScopeDict.__getitem__` of the next dictionary: `find_next_dict` goes on at everything that is not a `dict`,
and a `MergedDicts` is none.  repo: hftools/file_formats/config.py:52-60, 83-94 -/
def Conf.inDicts : Conf K V → K → Except Err V
  | .none, _ => .error .keyError
  | .dict es p, k =>
    match es.lookup k with
    | some v => .ok v
    | .none => p.inDicts k
  | .list _ p, k => p.inDicts k
  | .merged _ p, k => p.inDicts k

mutual
/-- `container[key]`; for lists and `None` a TypeError.
repo: hftools/file_formats/config.py:83-94 (dictionaries), 135-144 (`MergedDicts`) -/
def Conf.getitem : Conf K V → K → Except Err V
  | .none, _ => .error .typeError
  | .dict es p, k => (Conf.dict es p).inDicts k
  | .list _ _, _ => .error .typeError
  | .merged args p, k =>
    match Conf.fromLast args k with
    | some r => r
    | .none => if p.truthy then p.getitem k else .error .keyError

/-- The loop over the arguments, the last one first; `none`: a KeyError each time. -/
def Conf.fromLast : List (Conf K V) → K → Option (Except Err V)
  | [], _ => .none
  | c :: cs, k =>
    match Conf.fromLast cs k with
    | some r => some r
    | .none =>
      match c.getitem k with
      | .ok v => some (.ok v)
      | .error .keyError => .none
      | .error .typeError => some (.error .typeError)
end

mutual
/-- `key in container`; `asKey v = some k` says that the element `v` of a list equals the key.  `key in None` is not
reached.  repo: hftools/file_formats/config.py:74-77, 122-128 -/
def Conf.contains (asKey : V → Option K) : Conf K V → K → Bool
  | .none, _ => false
  | .dict es p, k => (es.lookup k).isSome || (p.truthy && p.contains asKey k)
  | .list el _, k => el.any fun v => asKey v = some k
  | .merged args p, k => Conf.anyContains asKey args k || (p.truthy && p.contains asKey k)

/-- One of the arguments has the key. -/
def Conf.anyContains (asKey : V → Option K) : List (Conf K V) → K → Bool
  | [], _ => false
  | c :: cs, k => c.contains asKey k || Conf.anyContains asKey cs k
end

mutual
/-- `container.keys()` of dictionaries and `MergedDicts`, as a list.  (Lists have no `keys`.)
repo: hftools/file_formats/config.py:130-134 -/
def Conf.keys : Conf K V → List K
  | .none => []
  | .dict es _ => es.map Prod.fst
  | .list _ _ => []
  | .merged args _ => Conf.allKeys args

def Conf.allKeys : List (Conf K V) → List K
  | [] => []
  | c :: cs => c.keys ++ Conf.allKeys cs
end

/-- `MergedDicts.copy` and `LexicalScopeDict.copy`: without the parent.
repo: hftools/file_formats/config.py:105-106, 117-120 -/
def Conf.copy : Conf K V → Conf K V
  | .dict es _ => .dict es .none
  | .merged args _ => .merged args .none
  | c => c

end Layers
end Config
end HF
