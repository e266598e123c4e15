import Verif.Plot.Label
import Verif.Plot.LabelSpec
import Verif.Units.FormatProps
/-
C73: axis labels and ticks together tell the coordinates.
-/
namespace HF.Plot

/-! ### Strings -/

/-- `%(prefix)s` -/
def tPrefix : List Char := ['%', '(', 'p', 'r', 'e', 'f', 'i', 'x', ')', 's']

/-- `[%(prefix)s` -/
def tBoxPre : List Char := ['[', '%', '(', 'p', 'r', 'e', 'f', 'i', 'x', ')', 's']

theorem hasSub_iff (p : List Char) (hp : p ≠ []) : ∀ s, hasSub p s = true ↔ p <:+: s
  | [] => by
    cases p with
    | nil => exact absurd rfl hp
    | cons c t => simp [hasSub]
  | c :: t => by
    rw [hasSub, Bool.or_eq_true, hasSub_iff p hp t, List.isPrefixOf_iff_prefix, List.infix_cons_iff]

theorem replaceAux_skip (p r : List Char) : ∀ s t, replaceAux p r s.length (s ++ t) = replaceAux p r 0 t
  | [], t => rfl
  | c :: s, t => by
    show replaceAux p r (s.length + 1) (c :: (s ++ t)) = _
    rw [replaceAux, replaceAux_skip p r s t]

/-- Text without the first character of the pattern stays. -/
theorem replace_text (c : Char) (p r : List Char) : ∀ s t, c ∉ s → replace (c :: p) r (s ++ t) = s ++ replace (c :: p) r t
  | [], t, _ => rfl
  | d :: s, t, h => by
    have hd : (c == d) = false := by simpa using fun e : c = d => h (by simp [e])
    have ih := replace_text c p r s t fun hc => h (by simp [hc])
    unfold replace at ih ⊢
    rw [List.cons_append, replaceAux, if_neg (by simp [List.isPrefixOf, hd]), ih]
    rfl

theorem replace_hit (c : Char) (p r t : List Char) : replace (c :: p) r (c :: p ++ t) = r ++ replace (c :: p) r t := by
  unfold replace
  rw [List.cons_append, replaceAux, if_pos (by rw [List.isPrefixOf_iff_prefix]; exact ⟨t, by simp⟩)]
  show r ++ replaceAux (c :: p) r p.length (p ++ t) = _
  rw [replaceAux_skip]

theorem br_text (env : List Char → Option (List Char)) : ∀ s t, '{' ∉ s → '}' ∉ s →
    brFormat env .text (s ++ t) = (brFormat env .text t).map (s ++ ·)
  | [], t, _, _ => by rw [List.nil_append]; cases brFormat env .text t <;> rfl
  | c :: s, t, h1, h2 => by
    simp only [List.mem_cons, not_or] at h1 h2
    rw [List.cons_append, brFormat, if_neg (Ne.symm h1.1), if_neg (Ne.symm h2.1), br_text env s t h1.2 h2.2]
    cases brFormat env .text t <;> rfl

theorem br_name (env : List Char → Option (List Char)) (t v k : List Char) (hk : k = kUnit ∨ k = kName) (hv : env k = some v) :
    brFormat env .text ('{' :: k ++ '}' :: t) = (brFormat env .text t).map (v ++ ·) := by
  rcases hk with rfl | rfl
  · have : env ['u', 'n', 'i', 't'] = some v := hv
    simp [brFormat, kUnit, this]
  · have : env ['d', 'e', 'f', 'a', 'u', 'l', 't'] = some v := hv
    simp [brFormat, kName, this]

theorem pc_text (env : List Char → Option (List Char)) : ∀ s t, '%' ∉ s →
    pcFormat env .text (s ++ t) = (pcFormat env .text t).map (s ++ ·)
  | [], t, _ => by rw [List.nil_append]; cases pcFormat env .text t <;> rfl
  | c :: s, t, h => by
    simp only [List.mem_cons, not_or] at h
    rw [List.cons_append, pcFormat, if_neg (Ne.symm h.1), pc_text env s t h.2]
    cases pcFormat env .text t <;> rfl

theorem pc_prefix (pre : List Char) (e : Int) (t : List Char) :
    pcFormat (tickEnv pre e) .text (tPrefix ++ t) = (pcFormat (tickEnv pre e) .text t).map (pre ++ ·) := by
  have : tickEnv pre e ['p', 'r', 'e', 'f', 'i', 'x'] = some pre := by simp [tickEnv, kPrefix]
  simp [pcFormat, tPrefix, this]

/-! ### The label -/

theorem labelName_eq (unit dim : List Char) : labelName unit dim = axisName unit dim := by
  unfold labelName axisName
  have h1 : ['H', 'z'] ≠ ['s'] := by decide
  have h2 : ['m'] ≠ ['s'] := by decide
  have h3 : ['m'] ≠ ['H', 'z'] := by decide
  by_cases a : unit = ['H', 'z']
  · simp only [a, if_true, if_neg h1]
  · by_cases b : unit = ['m']
    · simp only [b, if_true, if_neg h2, if_neg h3]
    · simp only [if_neg a, if_neg b]
      by_cases c : unit = ['s']
      · simp [c]
      · simp only [if_neg c, List.mem_cons, List.not_mem_nil, or_false, c, false_or]
        simp only [if_false, or_comm]

/-- The parts after the first step. -/
def boxed (unit : List Char) : Piece → List Char
  | .box => if unit ≠ [] then tBoxUnit else tBoxU
  | q => q.written

/-- The parts of the template. -/
def templ (unit name : List Char) : Piece → List Char
  | .text s => s
  | .box => tBoxPre ++ (if unit = [] then ['U'] else unit) ++ [']']
  | .unit => unit
  | .name => name

theorem box_replace (r : List Char) : ∀ ps : List Piece, (∀ q ∈ ps, q.Plain) →
    replace tBox r (ps.flatMap Piece.written) =
      ps.flatMap fun q => match q with | .box => r | q => q.written
  | [], _ => rfl
  | q :: ps, h => by
    have ih := box_replace r ps fun q hq => h q (by simp [hq])
    rw [List.flatMap_cons, List.flatMap_cons, ← ih]
    cases q with
    | text s =>
      exact replace_text '[' [']'] r s _ fun hc => (h (.text s) (by simp) '[' hc).2.2.2.1 rfl
    | box => exact replace_hit '[' [']'] r _
    | unit => exact replace_text '[' [']'] r _ _ (by decide)
    | name => exact replace_text '[' [']'] r _ _ (by decide)

theorem no_box_no_bracket : ∀ ps : List Piece, (∀ q ∈ ps, q.Plain) → (∀ q ∈ ps, q ≠ .box) → '[' ∉ ps.flatMap Piece.written
  | [], _, _ => by simp
  | q :: ps, h, hb => by
    rw [List.flatMap_cons, List.mem_append, not_or]
    refine ⟨?_, no_box_no_bracket ps (fun q hq => h q (by simp [hq])) fun q hq => hb q (by simp [hq])⟩
    cases q with
    | text s => exact fun hc => (h (.text s) (by simp) '[' hc).2.2.2.1 rfl
    | box => exact absurd rfl (hb .box (by simp))
    | unit => decide
    | name => decide

theorem boxed_eq (ps : List Piece) (h : ∀ q ∈ ps, q.Plain) (unit : List Char) :
    (if hasSub tBox (ps.flatMap Piece.written) then
      if unit ≠ [] then replace tBox tBoxUnit (ps.flatMap Piece.written)
      else replace tBox tBoxU (ps.flatMap Piece.written)
    else if hasSub tPow (ps.flatMap Piece.written) then
      if unit ≠ [] then replace tPow tPowUnit (ps.flatMap Piece.written)
      else replace tPow tPowU (ps.flatMap Piece.written)
    else ps.flatMap Piece.written) = ps.flatMap (boxed unit) := by
  split
  · split
    · rename_i hu
      rw [box_replace _ ps h]
      congr 1; funext q; cases q <;> simp [boxed, hu]
    · rename_i hu
      rw [box_replace _ ps h]
      congr 1; funext q; cases q <;> simp [boxed, hu]
  · rename_i hb
    have hnb : ∀ q ∈ ps, q ≠ .box := by
      rintro q hq rfl
      apply hb
      rw [hasSub_iff tBox (by decide)]
      obtain ⟨a, b, rfl⟩ := List.append_of_mem hq
      exact ⟨a.flatMap Piece.written, b.flatMap Piece.written, by simp [Piece.written, tBox]⟩
    have hno := no_box_no_bracket ps h hnb
    have h2 : ¬ hasSub tPow (ps.flatMap Piece.written) = true := by
      rw [hasSub_iff tPow (by decide)]
      intro hc
      exact hno (hc.subset (by decide))
    rw [if_neg h2]
    refine List.flatMap_congr fun q hq => ?_
    cases q with
    | box => exact absurd rfl (hnb _ hq)
    | text s => rfl
    | unit => rfl
    | name => rfl

theorem br_boxed (unit name : List Char) : ∀ ps : List Piece, (∀ q ∈ ps, q.Plain) →
    brFormat (nameEnv unit name) .text (ps.flatMap (boxed unit)) = .ok (ps.flatMap (templ unit name))
  | [], _ => rfl
  | q :: ps, h => by
    have ih := br_boxed unit name ps fun q hq => h q (by simp [hq])
    have hu : nameEnv unit name kUnit = some unit := rfl
    have hn : nameEnv unit name kName = some name := rfl
    rw [List.flatMap_cons, List.flatMap_cons]
    cases q with
    | text s =>
      have hp : (Piece.text s).Plain := h _ (by simp)
      show brFormat _ _ (s ++ _) = _
      rw [br_text _ _ _ (fun hc => (hp '{' hc).2.1 rfl) (fun hc => (hp '}' hc).2.2.1 rfl), ih]
      rfl
    | unit =>
      show brFormat _ _ ('{' :: kUnit ++ '}' :: ps.flatMap (boxed unit)) = _
      rw [br_name _ _ unit kUnit (Or.inl rfl) hu, ih]
      rfl
    | name =>
      show brFormat _ _ ('{' :: kName ++ '}' :: ps.flatMap (boxed unit)) = _
      rw [br_name _ _ name kName (Or.inr rfl) hn, ih]
      rfl
    | box =>
      by_cases he : unit = []
      · rw [show boxed unit .box = tBoxU by simp [boxed, he, tBoxUnit, tBoxU, tBoxPre, kUnit], br_text _ _ _ (by decide) (by decide), ih]
        simp [templ, he, Except.map, tBoxU, tBoxPre]
      · rw [show boxed unit .box ++ ps.flatMap (boxed unit) = tBoxPre ++ ('{' :: kUnit ++ '}' ::
          (']' :: ps.flatMap (boxed unit))) by simp [boxed, he, tBoxUnit, tBoxU, tBoxPre, kUnit], br_text _ _ _ (by decide) (by decide),
          br_name _ _ unit kUnit (Or.inl rfl) hu]
        have := br_text (nameEnv unit name) [']'] (ps.flatMap (boxed unit)) (by decide) (by decide)
        rw [show ']' :: ps.flatMap (boxed unit) = [']'] ++ ps.flatMap (boxed unit) from rfl, this, ih]
        simp [templ, he, Except.map, tBoxU, tBoxPre]

theorem template_eq (ps : List Piece) (h : ∀ q ∈ ps, q.Plain) (unit dim : List Char) :
    makeTemplate (ps.flatMap Piece.written) unit dim = .ok (ps.flatMap (templ unit (axisName unit dim))) := by
  unfold makeTemplate
  simp only
  rw [boxed_eq ps h unit, labelName_eq]
  have hbr := br_boxed unit (axisName unit dim) ps h
  split
  · exact hbr
  · rename_i hc
    rw [Bool.or_eq_true, not_or, hasSub_iff tUnit (by decide), hasSub_iff tName (by decide)] at hc
    congr 1
    refine List.flatMap_congr fun q hq => ?_
    obtain ⟨a, b, rfl⟩ := List.append_of_mem hq
    cases q with
    | text s => rfl
    | unit => exact absurd ⟨a.flatMap (boxed unit), b.flatMap (boxed unit), by simp [boxed, Piece.written, tUnit, tName]⟩ hc.1
    | name => exact absurd ⟨a.flatMap (boxed unit), b.flatMap (boxed unit), by simp [boxed, Piece.written, tUnit, tName]⟩ hc.2
    | box =>
      by_cases he : unit = []
      · simp [boxed, templ, he, tBoxU, tBoxPre]
      · refine absurd ⟨a.flatMap (boxed unit) ++ tBoxPre, ']' :: b.flatMap (boxed unit), ?_⟩ hc.1
        simp [boxed, he, tBoxUnit, tBoxPre, tUnit]

theorem pc_templ (pre unit name : List Char) (e : Int) (hu : '%' ∉ unit) (hn : '%' ∉ name) :
    ∀ ps : List Piece, (∀ q ∈ ps, q.Plain) →
    pcFormat (tickEnv pre e) .text (ps.flatMap (templ unit name)) = .ok (ps.flatMap (Piece.reads pre unit name))
  | [], _ => rfl
  | q :: ps, h => by
    have ih := pc_templ pre unit name e hu hn ps fun q hq => h q (by simp [hq])
    rw [List.flatMap_cons, List.flatMap_cons]
    cases q with
    | text s =>
      have hp : (Piece.text s).Plain := h _ (by simp)
      show pcFormat _ _ (s ++ _) = _
      rw [pc_text _ _ _ (fun hc => (hp '%' hc).1 rfl), ih]
      rfl
    | unit =>
      show pcFormat _ _ (unit ++ _) = _
      rw [pc_text _ _ _ hu, ih]
      rfl
    | name =>
      show pcFormat _ _ (name ++ _) = _
      rw [pc_text _ _ _ hn, ih]
      rfl
    | box =>
      have hU : '%' ∉ (if unit = [] then ['U'] else unit) ++ [']'] := by
        split
        · decide
        · simpa using hu
      rw [show templ unit name .box ++ ps.flatMap (templ unit name) = ['['] ++ (tPrefix ++
        (((if unit = [] then ['U'] else unit) ++ [']']) ++ ps.flatMap (templ unit name))) by simp [templ, tBoxPre, tPrefix],
        pc_text _ _ _ (by decide), pc_prefix, pc_text _ _ _ hU, ih]
      simp [Piece.reads, Except.map]

/-- C73: a label format of text, `[]`, `{unit}` and `{default}` gives, for every prefix, the label with the prefix and
the unit at `[]` (`U` without unit), the unit and the name of the axis at the other places. -/
theorem C73_label (ps : List Piece) (h : ∀ q ∈ ps, q.Plain) (unit dim pre : List Char) (e : Int) (hu : '%' ∉ unit) (hd : '%' ∉ dim) :
    ∃ t, makeTemplate (ps.flatMap Piece.written) unit dim = .ok t ∧
      pcFormat (tickEnv pre e) .text t = .ok (ps.flatMap (Piece.reads pre unit (axisName unit dim))) := by
  refine ⟨_, template_eq ps h unit dim, pc_templ pre unit _ e hu ?_ ps h⟩
  unfold axisName
  split_ifs <;> first | decide | exact hd

/-! ### Formats and units that are set one after the other -/

/-- The last one that was set. -/
def lastFmt (ops : List Op) : Option (List Char) :=
  (ops.filterMap fun o => match o with | .setFmt f => some (f.getD []) | _ => none).getLast?

def lastUnit (ops : List Op) : Option (List Char) :=
  (ops.filterMap fun o => match o with | .setUnit u => u | _ => none).getLast?

def lastName (ops : List Op) : Option (List Char) :=
  (ops.filterMap fun o => match o with | .setName n => some n | _ => none).getLast?

/-- All that was set, and whether the last step went well. -/
def run (s : UF) (ops : List Op) : UF × Except Err Unit :=
  ops.foldl (fun q o => q.1.step o) (s, .ok ())

theorem step_fields (s : UF) (o : Op) : (s.step o).1.defaultUnit = s.defaultUnit ∧
    (s.step o).1.labelUnit = (lastUnit [o]).or s.labelUnit ∧ (s.step o).1.labelFmt = (lastFmt [o]).getD s.labelFmt ∧
    (s.step o).1.defaultLabel = (lastName [o]).getD s.defaultLabel ∧
    ((s.step o).2 = .ok () → makeTemplate (s.step o).1.labelFmt (s.step o).1.unit (s.step o).1.defaultLabel =
      .ok ((s.step o).1.template.getD []) ∧ (s.step o).1.template.isSome) := by
  have key : ∀ s : UF, (UF.update s).1.defaultUnit = s.defaultUnit ∧ (UF.update s).1.labelUnit = s.labelUnit ∧
      (UF.update s).1.labelFmt = s.labelFmt ∧ (UF.update s).1.defaultLabel = s.defaultLabel ∧
      ((UF.update s).2 = .ok () → makeTemplate (UF.update s).1.labelFmt (UF.update s).1.unit (UF.update s).1.defaultLabel =
        .ok ((UF.update s).1.template.getD []) ∧ (UF.update s).1.template.isSome) := by
    intro s
    unfold UF.update
    cases h : makeTemplate s.labelFmt s.unit s.defaultLabel with
    | error e => simp
    | ok t => exact ⟨rfl, rfl, rfl, rfl, fun _ => ⟨h, rfl⟩⟩
  cases o with
  | setFmt f =>
    obtain ⟨k1, k2, k3, k4, k5⟩ := key { s with labelFmt := f.getD [] }
    exact ⟨k1, by simpa [lastUnit, UF.step] using k2, by simpa [lastFmt, UF.step] using k3, by simpa [lastName, UF.step] using k4, k5⟩
  | setUnit u =>
    obtain ⟨k1, k2, k3, k4, k5⟩ := key { s with labelUnit := u.or s.labelUnit }
    refine ⟨k1, ?_, by simpa [lastFmt, UF.step] using k3, by simpa [lastName, UF.step] using k4, k5⟩
    cases u <;> simpa [lastUnit, UF.step] using k2
  | setName n =>
    obtain ⟨k1, k2, k3, k4, k5⟩ := key { s with defaultLabel := n }
    exact ⟨k1, by simpa [lastUnit, UF.step] using k2, by simpa [lastFmt, UF.step] using k3, by simpa [lastName, UF.step] using k4, k5⟩

theorem getLast?_filterMap_snoc {γ δ : Type} (g : γ → Option δ) (l : List γ) (o : γ) :
    ((l ++ [o]).filterMap g).getLast? = (([o].filterMap g).getLast?).or (l.filterMap g).getLast? := by
  rw [List.filterMap_append]
  cases h : g o <;> simp [h]

theorem run_fields (s : UF) (ops : List Op) : (run s ops).1.defaultUnit = s.defaultUnit ∧
    (run s ops).1.labelUnit = (lastUnit ops).or s.labelUnit ∧ (run s ops).1.labelFmt = (lastFmt ops).getD s.labelFmt ∧
    (run s ops).1.defaultLabel = (lastName ops).getD s.defaultLabel := by
  induction ops using List.reverseRecOn with
  | nil => exact ⟨rfl, rfl, rfl, rfl⟩
  | append_singleton l o ih =>
    obtain ⟨i1, i2, i3, i4⟩ := ih
    have hr : run s (l ++ [o]) = (run s l).1.step o := by simp [run]
    obtain ⟨k1, k2, k3, k4, _⟩ := step_fields (run s l).1 o
    rw [hr]
    refine ⟨k1.trans i1, ?_, ?_, ?_⟩
    · rw [k2, i2, show lastUnit (l ++ [o]) = _ from getLast?_filterMap_snoc _ l o]
      exact (Option.or_assoc ..).symm
    · rw [k3, i3, show lastFmt (l ++ [o]) = _ from getLast?_filterMap_snoc _ l o]
      unfold lastFmt
      cases ([o].filterMap fun o => match o with | .setFmt f => some (f.getD []) | _ => none).getLast? <;> rfl
    · rw [k4, i4, show lastName (l ++ [o]) = _ from getLast?_filterMap_snoc _ l o]
      unfold lastName
      cases ([o].filterMap fun o => match o with | .setName n => some n | _ => none).getLast? <;> rfl

/-- C73: whatever was set before and in whatever order, the label is that of the last format, the last unit given (the
default unit if there was none; a degree sign for `deg`) and the last name. -/
theorem C73_history (s : UF) (ops : List Op) (hne : ops ≠ []) (hok : (run s ops).2 = .ok ()) :
    ∃ t, (run s ops).1.template = some t ∧
      makeTemplate ((lastFmt ops).getD s.labelFmt)
        (match ((lastUnit ops).or s.labelUnit).or s.defaultUnit with
          | none => []
          | some u => if u = ['d', 'e', 'g'] then ['°'] else u)
        ((lastName ops).getD s.defaultLabel) = .ok t := by
  obtain ⟨h1, h2, h3, h4⟩ := run_fields s ops
  have hlast : (run s ops).2 = .ok () → makeTemplate (run s ops).1.labelFmt (run s ops).1.unit (run s ops).1.defaultLabel =
      .ok ((run s ops).1.template.getD []) ∧ (run s ops).1.template.isSome := by
    obtain ⟨l, o, rfl⟩ : ∃ l o, ops = l ++ [o] := ⟨_, _, (List.dropLast_append_getLast hne).symm⟩
    have hr : run s (l ++ [o]) = (run s l).1.step o := by simp [run]
    rw [hr]
    exact (step_fields (run s l).1 o).2.2.2.2
  obtain ⟨t1, t2⟩ := hlast hok
  obtain ⟨t, ht⟩ := Option.isSome_iff_exists.1 t2
  refine ⟨t, ht, ?_⟩
  rw [ht, h3, h4] at t1
  have hu : (run s ops).1.unit = (match ((lastUnit ops).or s.labelUnit).or s.defaultUnit with
      | none => []
      | some u => if u = ['d', 'e', 'g'] then ['°'] else u) := by
    unfold UF.unit
    rw [h2, h1]
    cases (lastUnit ops).or s.labelUnit with
    | some u => rfl
    | none => cases s.defaultUnit <;> rfl
  rw [hu] at t1
  exact t1

end HF.Plot
