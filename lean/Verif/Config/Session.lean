/-
Objects with settings and the files they belong to, over a session: reading, changing, writing and reading again.

repo: hftools/file_formats/config.py:167-209
-/
namespace HF
namespace Config
namespace Session

variable {K V F : Type} [DecidableEq K] [DecidableEq F]

/-- `Config` or `LexicalConfig`.  repo: hftools/file_formats/config.py:167, 190 -/
inductive Cls
  | plain
  | lexical
  deriving DecidableEq

/-- What `yaml.load` gives for a file: `None` for an empty one, a dictionary, a list, a text of so many characters or
another scalar (number, date, truth value). -/
inductive Doc (K V : Type)
  | nothing
  | map (es : List (K × V))
  | seq (l : List V)
  | text (n : Nat)
  | scalar

/-- What is in a file: something that cannot be decoded or that YAML does not accept, or a document. -/
inductive Content (K V : Type)
  | bad
  | doc (d : Doc K V)

/-- What becomes of a value that is written with `StandardDumper`: it is refused (`RepresenterError`), it is written
such that the file cannot be loaded (`path`, see C81), or it is read as this value. -/
inductive Fate (V : Type)
  | refused
  | unreadable
  | readAs (v : V)

/-- A value as element of a list of pairs: not iterable, of another length than two, two elements of which the first
cannot be a key, or a key and a value. -/
inductive Pair (K V : Type)
  | notIterable
  | otherLength
  | unhashable
  | two (k : K) (v : V)

/-- The values, as far as files of settings are concerned.  `order` is the order in which the keys are written
(PyYAML sorts them). -/
structure World (K V F : Type) where
  fate : V → Fate V
  pair : V → Pair K V
  order : {Z : Type} → List (K × Z) → List (K × Z)
  writable : F → Bool

/-- An object with settings.  repo: hftools/file_formats/config.py:168-171, 191-194 -/
structure Obj (K V F : Type) where
  cls : Cls
  filename : F
  entries : List (K × V)
  deriving DecidableEq

structure State (K V F : Type) where
  files : F → Option (Content K V)
  objs : List (Obj K V F)

inductive Out
  | done
  | missing
  | yamlError
  | typeError
  | valueError
  | attributeError
  | keyError
  | representerError
  | ioError
  deriving DecidableEq

/-- `dict.__setitem__`: a key which is there keeps its place. -/
def setKey (es : List (K × V)) (k : K) (v : V) : List (K × V) :=
  if (es.lookup k).isSome then es.map fun p => if p.1 = k then (k, v) else p else es ++ [(k, v)]

/-- `dict.__delitem__`; `none` is `KeyError`. -/
def delKey (es : List (K × V)) (k : K) : Option (List (K × V)) :=
  if (es.lookup k).isSome then some (es.filter fun p => p.1 ≠ k) else none

/-- `dict.update(list)`: pair after pair, those before an exception have been taken. -/
def updatePairs (w : World K V F) (es : List (K × V)) : List V → List (K × V) × Out
  | [] => (es, .done)
  | v :: l =>
    match w.pair v with
    | .notIterable => (es, .typeError)
    | .otherLength => (es, .valueError)
    | .unhashable => (es, .typeError)
    | .two k x => updatePairs w (setKey es k x) l

/-- `self.update(document)`.  `dict.update` of python takes a dictionary or a list of pairs (the characters of a text
are no pairs); `LexicalScopeDict.update` takes what has `items`.
repo: hftools/file_formats/config.py:79-81, 177, 200 -/
def update (w : World K V F) (cls : Cls) (es : List (K × V)) : Doc K V → List (K × V) × Out
  | .map new => (new.foldl (fun a p => setKey a p.1 p.2) es, .done)
  | .nothing => (es, match cls with | .plain => .typeError | .lexical => .attributeError)
  | .scalar => (es, match cls with | .plain => .typeError | .lexical => .attributeError)
  | .text n =>
    match cls with
    | .plain => if n = 0 then (es, .done) else (es, .valueError)
    | .lexical => (es, .attributeError)
  | .seq l =>
    match cls with
    | .plain => updatePairs w es l
    | .lexical => (es, .attributeError)

/-- `reload_settings`: the settings after it and what happens.  `missing` is the message about the missing file.
repo: hftools/file_formats/config.py:173-179, 196-202 -/
def reload (w : World K V F) (files : F → Option (Content K V)) (o : Obj K V F) : List (K × V) × Out :=
  let cleared : List (K × V) := []
  match files o.filename with
  | none => (cleared, .missing)
  | some .bad => (cleared, .yamlError)
  | some (.doc d) => update w o.cls cleared d

/-- The values as they are read from the file that is written: `none` if one of them is refused, `some none` if the
file cannot be loaded. -/
def dumped (w : World K V F) : List (K × V) → Option (Option (List (K × V)))
  | [] => some (some [])
  | (k, v) :: es =>
    match w.fate v, dumped w es with
    | .refused, _ => none
    | _, none => none
    | .unreadable, some _ => some none
    | .readAs _, some none => some none
    | .readAs x, some (some r) => some (some ((k, x) :: r))

/-- A file after `open(name, "w")`. -/
def emptied : Content K V := .doc .nothing

/-- `write(filename)`: the file is opened (and thereby emptied) before the values are represented.  PyYAML represents
all of them before it writes anything.  repo: hftools/file_formats/config.py:181-187, 204-209 -/
def write (w : World K V F) (files : F → Option (Content K V)) (o : Obj K V F) (name : Option F) :
    (F → Option (Content K V)) × Out :=
  let f := name.getD o.filename
  if w.writable f then
    match dumped w o.entries with
    | none => (fun g => if g = f then some emptied else files g, .representerError)
    | some none => (fun g => if g = f then some .bad else files g, .done)
    | some (some r) => (fun g => if g = f then some (.doc (.map (w.order r))) else files g, .done)
  else (files, .ioError)

inductive Op (K V F : Type)
  /-- `Config(filename)` or `LexicalConfig(filename)` -/
  | new (cls : Cls) (f : F)
  /-- `cfg[key] = value` -/
  | set (i : Nat) (k : K) (v : V)
  /-- `del cfg[key]` -/
  | del (i : Nat) (k : K)
  /-- `cfg.filename = f` -/
  | rename (i : Nat) (f : F)
  | reload (i : Nat)
  | write (i : Nat) (f : Option F)
  /-- another program writes or removes a file -/
  | other (f : F) (c : Option (Content K V))

/-- One step of a session.  An object whose construction fails does not come to be known; an object that does not
exist is a `NameError` of the caller, here `keyError`.
repo: hftools/file_formats/config.py:167-209 -/
def step (w : World K V F) (s : State K V F) : Op K V F → State K V F × Out
  | .new cls f =>
    let o : Obj K V F := ⟨cls, f, []⟩
    match reload w s.files o with
    | (es, .done) => ({ s with objs := s.objs ++ [{ o with entries := es }] }, .done)
    | (es, .missing) => ({ s with objs := s.objs ++ [{ o with entries := es }] }, .missing)
    | (_, out) => (s, out)
  | .set i k v =>
    match s.objs[i]? with
    | none => (s, .keyError)
    | some o => ({ s with objs := s.objs.set i { o with entries := setKey o.entries k v } }, .done)
  | .del i k =>
    match s.objs[i]? with
    | none => (s, .keyError)
    | some o =>
      match delKey o.entries k with
      | none => (s, .keyError)
      | some es => ({ s with objs := s.objs.set i { o with entries := es } }, .done)
  | .rename i f =>
    match s.objs[i]? with
    | none => (s, .keyError)
    | some o => ({ s with objs := s.objs.set i { o with filename := f } }, .done)
  | .reload i =>
    match s.objs[i]? with
    | none => (s, .keyError)
    | some o =>
      let r := reload w s.files o
      ({ s with objs := s.objs.set i { o with entries := r.1 } }, r.2)
  | .write i name =>
    match s.objs[i]? with
    | none => (s, .keyError)
    | some o =>
      let r := write w s.files o name
      ({ s with files := r.1 }, r.2)
  | .other f c => ({ s with files := fun g => if g = f then c else s.files g }, .done)

def run (w : World K V F) (s : State K V F) (ops : List (Op K V F)) : State K V F :=
  ops.foldl (fun s op => (step w s op).1) s

end Session
end Config
end HF
