import Verif.Units.Format
/-
Axis labels and tick texts of plots.

repo: hftools/plotting/helper.py:66-71, 141-239 (`UnitFormatter`; `SimpleUnitFormatter` is in Plot/Axes.lean)

Texts are lists of characters.  Of python's formatting only what the labels use is modelled; everything else is an error.
Numbers are real numbers: rounding of the floating point arithmetic is left out, and the text of a tick is represented
by the number that is formatted and the number of digits.
-/
namespace HF.Plot

inductive Err where
  | valueError
  | keyError
  | attributeError
  deriving DecidableEq, Repr

/-! ### The texts -/

/-- `[]` -/
def tBox : List Char := ['[', ']']

/-- `[^]` -/
def tPow : List Char := ['[', '^', ']']

/-- `[%(prefix)s{unit}]` -/
def tBoxUnit : List Char := ['[', '%', '(', 'p', 'r', 'e', 'f', 'i', 'x', ')', 's', '{', 'u', 'n', 'i', 't', '}', ']']

/-- `[%(prefix)sU]` -/
def tBoxU : List Char := ['[', '%', '(', 'p', 'r', 'e', 'f', 'i', 'x', ')', 's', 'U', ']']

/-- `$[10^{{%%(powerprefix).0f\rm{{{unit}}}}]$` -/
def tPowUnit : List Char := ['$', '[', '1', '0', '^', '{', '{', '%', '%', '(', 'p', 'o', 'w', 'e', 'r', 'p', 'r', 'e', 'f', 'i', 'x', ')', '.', '0', 'f', '\\', 'r', 'm', '{', '{', '{', 'u', 'n', 'i', 't', '}', '}', '}', '}', ']', '$']

/-- `$[10^{{%(powerprefix).0f}}]$` -/
def tPowU : List Char := ['$', '[', '1', '0', '^', '{', '{', '%', '(', 'p', 'o', 'w', 'e', 'r', 'p', 'r', 'e', 'f', 'i', 'x', ')', '.', '0', 'f', '}', '}', ']', '$']

/-- `{unit}` -/
def tUnit : List Char := ['{', 'u', 'n', 'i', 't', '}']

/-- `{default}` -/
def tName : List Char := ['{', 'd', 'e', 'f', 'a', 'u', 'l', 't', '}']

/-- `unit` -/
def kUnit : List Char := ['u', 'n', 'i', 't']

/-- `default` -/
def kName : List Char := ['d', 'e', 'f', 'a', 'u', 'l', 't']

/-- `prefix` -/
def kPrefix : List Char := ['p', 'r', 'e', 'f', 'i', 'x']

/-- `powerprefix` -/
def kPower : List Char := ['p', 'o', 'w', 'e', 'r', 'p', 'r', 'e', 'f', 'i', 'x']

/-! ### Strings -/

/-- `p in s` -/
def hasSub (p : List Char) : List Char → Bool
  | [] => p.isEmpty
  | c :: t => p.isPrefixOf (c :: t) || hasSub p t

/-- `s.replace(p, r)`; `k` characters are still to be skipped. -/
def replaceAux (p r : List Char) : Nat → List Char → List Char
  | _, [] => []
  | k + 1, _ :: t => replaceAux p r k t
  | 0, c :: t => if p.isPrefixOf (c :: t) then r ++ replaceAux p r (p.length - 1) t else c :: replaceAux p r 0 t

def replace (p r s : List Char) : List Char := replaceAux p r 0 s

inductive BrState where
  | text
  | opened
  | closed
  | field (acc : List Char)

/-- `s.format(**env)`: double braces and names in braces. -/
def brFormat (env : List Char → Option (List Char)) : BrState → List Char → Except Err (List Char)
  | .text, [] => .ok []
  | _, [] => .error .valueError
  | .text, c :: t =>
    if c = '{' then brFormat env .opened t
    else if c = '}' then brFormat env .closed t
    else (brFormat env .text t).map (c :: ·)
  | .opened, c :: t =>
    if c = '{' then (brFormat env .text t).map (c :: ·)
    else if c = '}' then .error .keyError
    else brFormat env (.field [c]) t
  | .closed, c :: t => if c = '}' then (brFormat env .text t).map (c :: ·) else .error .valueError
  | .field acc, c :: t =>
    if c = '}' then
      match env acc with
      | none => .error .keyError
      | some v => (brFormat env .text t).map (v ++ ·)
    else if c = '{' then .error .valueError
    else brFormat env (.field (acc ++ [c])) t

inductive PcState where
  | text
  | percent
  | key (acc : List Char)
  | conv (value : List Char) (acc : List Char)

/-- `s % env`: `%%`, `%(name)s` and `%(name).0f`. -/
def pcFormat (env : List Char → Option (List Char)) : PcState → List Char → Except Err (List Char)
  | .text, [] => .ok []
  | _, [] => .error .valueError
  | .text, c :: t => if c = '%' then pcFormat env .percent t else (pcFormat env .text t).map (c :: ·)
  | .percent, c :: t =>
    if c = '%' then (pcFormat env .text t).map (c :: ·)
    else if c = '(' then pcFormat env (.key []) t
    else .error .valueError
  | .key acc, c :: t =>
    if c = ')' then
      match env acc with
      | none => .error .keyError
      | some v => pcFormat env (.conv v []) t
    else pcFormat env (.key (acc ++ [c])) t
  | .conv v acc, c :: t =>
    if (c = 's' ∧ acc = []) ∨ (c = 'f' ∧ acc = ['.', '0']) then (pcFormat env .text t).map (v ++ ·)
    else if c = '.' ∨ c = '0' then pcFormat env (.conv v (acc ++ [c])) t
    else .error .valueError

/-! ### `UnitFormatter` -/

structure UF where
  defaultUnit : Option (List Char) := none
  labelUnit : Option (List Char) := none
  labelFmt : List Char := []
  defaultLabel : List Char := ['X']
  template : Option (List Char) := none

/-- repo: hftools/plotting/helper.py:196-205 -/
def degree (u : List Char) : List Char := if u = ['d', 'e', 'g'] then ['°'] else u

/-- `get_label_unit`.  repo: hftools/plotting/helper.py:192-205 -/
def UF.unit (s : UF) : List Char :=
  match s.labelUnit with
  | none =>
    match s.defaultUnit with
    | none => []
    | some u => degree u
  | some u => degree u

/-- `get_label_name_and_unit()["default"]`.  repo: hftools/plotting/helper.py:66-71, 212-221 -/
def labelName (unit dflt : List Char) : List Char :=
  let dflt := if unit = ['H', 'z'] then ['F', 'r', 'e', 'q', 'u', 'e', 'n', 'c', 'y']
    else if unit ∈ [['s'], ['h'], ['m', 'i', 'n']] then ['T', 'i', 'm', 'e'] else dflt
  if unit = ['s'] then ['T', 'i', 'm', 'e']
  else if unit = ['H', 'z'] then ['F', 'r', 'e', 'q', 'u', 'e', 'n', 'c', 'y']
  else if unit = ['m'] then ['L', 'e', 'n', 'g', 't', 'h']
  else dflt

def nameEnv (unit name : List Char) (k : List Char) : Option (List Char) :=
  if k = kUnit then some unit else if k = kName then some name else none

/-- `update_template`.  repo: hftools/plotting/helper.py:223-239 -/
def makeTemplate (fmt unit dflt : List Char) : Except Err (List Char) :=
  let fmt :=
    if hasSub tBox fmt then
      if unit ≠ [] then replace tBox tBoxUnit fmt
      else replace tBox tBoxU fmt
    else if hasSub tPow fmt then
      if unit ≠ [] then replace tPow tPowUnit fmt
      else replace tPow tPowU fmt
    else fmt
  if hasSub tUnit fmt || hasSub tName fmt then
    brFormat (nameEnv unit (labelName unit dflt)) .text fmt
  else .ok fmt

/-- Storing the template, if it can be made. -/
def UF.update (s : UF) : UF × Except Err Unit :=
  match makeTemplate s.labelFmt s.unit s.defaultLabel with
  | .error e => (s, .error e)
  | .ok t => ({ s with template := some t }, .ok ())

/-- What a formatter is told later on. -/
inductive Op where
  | setFmt (fmt : Option (List Char))     -- `set_label_fmt`
  | setUnit (unit : Option (List Char))   -- `set_label_unit`
  | setName (name : List Char)            -- `default_label` and `update_template`, by `plot`

/-- repo: hftools/plotting/helper.py:185-190, 207-210, 325-330 -/
def UF.step (s : UF) : Op → UF × Except Err Unit
  | .setFmt fmt => UF.update { s with labelFmt := fmt.getD [] }
  | .setUnit unit => UF.update { s with labelUnit := unit.or s.labelUnit }
  | .setName name => UF.update { s with defaultLabel := name }

/-- `UnitFormatter(fmt, label_fmt=..., unit=...)`: the template is made before `default_label` is there, and forgotten.
repo: hftools/plotting/helper.py:142-153 -/
def UF.init (labelFmt unit : Option (List Char)) : Except Err UF :=
  let s : UF := { defaultUnit := unit, labelFmt := labelFmt.getD [] }
  let fmt := s.labelFmt
  -- the text after the replacements asks for a name
  if (hasSub tBox fmt && s.unit ≠ []) || (!hasSub tBox fmt && hasSub tPow fmt && s.unit ≠ [])
      || hasSub tUnit fmt || hasSub tName fmt then .error .attributeError
  else .ok s

/-! ### Ticks -/

/-- The text of a tick. -/
inductive Style where
  | fixed (digs : Nat)
  | sci (digs : Nat)
  | eng                    -- by matplotlib's `EngFormatter`, with its own prefix
  deriving DecidableEq

structure Tick where
  value : ℝ
  style : Style

/-- `int(x)` -/
noncomputable def trunc (x : ℝ) : ℤ := if 0 ≤ x then ⌊x⌋ else ⌈x⌉

/-- `max(digs) < 0.001` for `10 ** dig`.  repo: hftools/plotting/helper.py:161-163 -/
def Fits (locs : List ℝ) (div : ℝ) (dig : Nat) : Prop :=
  ∀ l ∈ locs, |(trunc (l / div * 10 ^ dig) : ℝ) - l / div * 10 ^ dig| < 0.001

open Classical in
/-- repo: hftools/plotting/helper.py:160-167 -/
noncomputable def digits (locs : List ℝ) (div : ℝ) (digs : Nat) : Nat :=
  ((List.range 3).find? fun d => decide (Fits locs div d)).getD digs

def tickEnv (pre : List Char) (e : Int) (k : List Char) : Option (List Char) :=
  if k = kPrefix then some pre else if k = kPower then some (toString e).toList else none

open Classical in
/-- `__call__`: the tick, and the label if one is set.  repo: hftools/plotting/helper.py:155-180 -/
noncomputable def UF.call (s : UF) (hasFun : Bool) (digs : Nat) (locs : List ℝ) (x : ℝ) : Except Err (Tick × Option (List Char)) :=
  let nz := (locs.filter (· ≠ 0)).map abs
  match nz.max?, nz.min? with
  | some hi, some lo =>
    if hi / lo ≤ 10000 then
      let e := (Units.helpFormatSci hi).2
      let div : ℝ := 10 ^ e
      let dig := digits locs div digs
      match hasFun, s.template with
      | true, some (c :: t) =>
        match Units.dictDisplay Units.siExpEntries e with
        | some p => (pcFormat (tickEnv p.toList e) .text (c :: t)).map fun l => (⟨x / div, .fixed dig⟩, some l)
        | none => (pcFormat (tickEnv [] e) .text (c :: t)).map fun l => (⟨x, .sci digs⟩, some l)
      | _, _ => .ok (⟨x / div, .fixed dig⟩, none)
    else .ok (⟨x, .eng⟩, none)
  | _, _ => .ok (⟨x, .eng⟩, none)

end HF.Plot
