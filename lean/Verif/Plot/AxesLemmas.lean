import Verif.Plot.Axes
import Verif.Plot.AxesSpec
import Verif.Plot.TickProps
/-
Lemmas about the labels of axes.
-/
namespace HF.Plot.Ax

open Spec (Kind Look Usable)

/-! ### The template of an axis without prefixes -/

theorem written_of_no_unit (ps : List Piece) (h : Piece.unit ∉ ps) : Spec.written .plain ps = ps.flatMap Piece.written := by
  refine List.flatMap_congr fun q hq => ?_
  cases q with
  | unit => exact absurd hq h
  | text s => rfl
  | box => rfl
  | name => rfl

theorem written_prefixed (ps : List Piece) : Spec.written .prefixed ps = ps.flatMap Piece.written :=
  List.flatMap_congr fun q _ => by cases q <;> rfl

theorem pc_unit (unit t : Txt) : pcFormat (unitEnv unit) .text (tPcUnit ++ t) = (pcFormat (unitEnv unit) .text t).map (unit ++ ·) := by
  have : unitEnv unit ['u', 'n', 'i', 't'] = some unit := by simp [unitEnv, kUnit]
  simp [pcFormat, tPcUnit, this]

theorem pc_written (unit : Txt) : ∀ ps : List Piece, (∀ q ∈ ps, q.Plain) → Piece.name ∉ ps → Piece.box ∉ ps →
    pcFormat (unitEnv unit) .text (Spec.written .plain ps) = .ok (ps.flatMap (templ unit []))
  | [], _, _, _ => rfl
  | q :: ps, h, hn, hb => by
    simp only [List.mem_cons, not_or] at hn hb
    have ih := pc_written unit ps (fun q hq => h q (by simp [hq])) hn.2 hb.2
    unfold Spec.written at ih ⊢
    rw [List.flatMap_cons, List.flatMap_cons]
    cases q with
    | text s =>
      have hp : (Piece.text s).Plain := h _ (by simp)
      show pcFormat _ _ (s ++ _) = _
      rw [pc_text _ _ _ (fun hc => (hp '%' hc).1 rfl), ih]
      rfl
    | unit =>
      show pcFormat _ _ (tPcUnit ++ _) = _
      rw [pc_unit, ih]
      rfl
    | name => exact absurd rfl hn.1
    | box => exact absurd rfl hb.1

theorem box_mem {ps : List Piece} (h : Piece.box ∈ ps) : hasSub tBox (Spec.written .plain ps) = true := by
  rw [hasSub_iff tBox (by decide)]
  obtain ⟨a, b, rfl⟩ := List.append_of_mem h
  exact ⟨Spec.written .plain a, Spec.written .plain b, by simp [Spec.written, Spec.writtenPiece, Piece.written, tBox]⟩

theorem no_box {ps : List Piece} (hp : ∀ q ∈ ps, q.Plain) (hn : Piece.name ∉ ps) (h : Piece.box ∉ ps) :
    hasSub tBox (Spec.written .plain ps) = false := by
  rw [Bool.eq_false_iff, Ne, hasSub_iff tBox (by decide)]
  intro hc
  have hm : '[' ∈ Spec.written .plain ps := hc.subset (by decide)
  unfold Spec.written at hm
  obtain ⟨q, hq, hm⟩ := List.mem_flatMap.1 hm
  cases q with
  | text s => exact (hp _ hq '[' hm).2.2.2.1 rfl
  | unit => revert hm; decide
  | name => exact hn hq
  | box => exact h hq

theorem no_unit {ps : List Piece} (hp : ∀ q ∈ ps, q.Plain) (hn : Piece.name ∉ ps) (h : Piece.unit ∉ ps) :
    '%' ∉ Spec.written .plain ps := by
  intro hm
  unfold Spec.written at hm
  obtain ⟨q, hq, hm⟩ := List.mem_flatMap.1 hm
  cases q with
  | text s => exact (hp _ hq '%' hm).1 rfl
  | unit => exact h hq
  | name => exact hn hq
  | box => revert hm; decide

theorem simple_template {ps : List Piece} (h : Usable .plain ps) (unit : Txt) :
    makeSimple (Spec.written .plain ps) unit = .ok (ps.flatMap (templ unit [])) := by
  obtain ⟨hp, hk⟩ := h
  obtain ⟨hn, hbu⟩ := hk rfl
  unfold makeSimple
  by_cases hb : Piece.box ∈ ps
  · rw [if_pos (box_mem hb)]
    have hu : Piece.unit ∉ ps := fun hu => hbu ⟨hb, hu⟩
    rw [written_of_no_unit ps hu, box_replace _ ps hp, box_replace _ ps hp]
    split
    · rename_i hne
      congr 1
      refine List.flatMap_congr fun q hq => ?_
      cases q with
      | text s => rfl
      | unit => exact absurd hq hu
      | name => exact absurd hq hn
      | box => simp [templ, hne, tBoxPre]
    · rename_i hne
      have hne : unit = [] := by simpa using hne
      congr 1
      refine List.flatMap_congr fun q hq => ?_
      cases q with
      | text s => rfl
      | unit => exact absurd hq hu
      | name => exact absurd hq hn
      | box => simp [templ, hne, tBoxPre, tBoxU]
  · rw [if_neg (by rw [no_box hp hn hb]; decide)]
    split
    · exact pc_written unit ps hp hn hb
    · rename_i hs
      have hu : Piece.unit ∉ ps := by
        intro hu
        apply hs
        rw [hasSub_iff tPcUnit (by decide)]
        obtain ⟨a, b, rfl⟩ := List.append_of_mem hu
        exact ⟨Spec.written .plain a, Spec.written .plain b, by simp [Spec.written, Spec.writtenPiece, tPcUnit]⟩
      rw [written_of_no_unit ps hu]
      congr 1
      refine List.flatMap_congr fun q hq => ?_
      cases q with
      | text s => rfl
      | unit => exact absurd hq hu
      | name => exact absurd hq hn
      | box => exact absurd hq hb

theorem pc_templ_simple (unit name : Txt) (hu : '%' ∉ unit) (hn : '%' ∉ name) : ∀ ps : List Piece, (∀ q ∈ ps, q.Plain) →
    pcFormat simpleEnv .text (ps.flatMap (templ unit name)) = .ok (ps.flatMap (Piece.reads [] unit name))
  | [], _ => rfl
  | q :: ps, h => by
    have ih := pc_templ_simple unit name hu hn ps fun q hq => h q (by simp [hq])
    rw [List.flatMap_cons, List.flatMap_cons]
    cases q with
    | text s =>
      have hp : (Piece.text s).Plain := h _ (by simp)
      show pcFormat _ _ (s ++ _) = _
      rw [pc_text _ _ _ (fun hc => (hp '%' hc).1 rfl), ih]
      rfl
    | unit =>
      show pcFormat _ _ (unit ++ _) = _
      rw [pc_text _ _ _ hu, ih]
      rfl
    | name =>
      show pcFormat _ _ (name ++ _) = _
      rw [pc_text _ _ _ hn, ih]
      rfl
    | box =>
      have hU : '%' ∉ (if unit = [] then ['U'] else unit) ++ [']'] := by
        split
        · decide
        · simpa using hu
      have hpre : ∀ t, pcFormat simpleEnv .text (tPrefix ++ t) = (pcFormat simpleEnv .text t).map ([] ++ ·) := by
        intro t
        have : simpleEnv ['p', 'r', 'e', 'f', 'i', 'x'] = some [] := by simp [simpleEnv, kPrefix]
        simp [pcFormat, tPrefix, this]
      rw [show templ unit name .box ++ ps.flatMap (templ unit name) = ['['] ++ (tPrefix ++
        (((if unit = [] then ['U'] else unit) ++ [']']) ++ ps.flatMap (templ unit name))) by simp [templ, tBoxPre, tPrefix],
        pc_text _ _ _ (by decide), hpre, pc_text _ _ _ hU, ih]
      simp [Piece.reads, Except.map]

/-- The template is empty exactly if the label is. -/
theorem templ_nil (ps : List Piece) (pre unit name : Txt) :
    ps.flatMap (templ unit name) = [] ↔ ps.flatMap (Piece.reads pre unit name) = [] := by
  rw [List.flatMap_eq_nil_iff, List.flatMap_eq_nil_iff]
  refine forall₂_congr fun q _ => ?_
  cases q <;> simp [templ, Piece.reads, tBoxPre]

/-! ### Formatters and what one knows of them -/

/-- The formatter has what one knows. -/
def Shape (a : Axis) (l : Look) : Prop :=
  match l.kind with
  | .none => a.fm = .other
  | .plain => ∃ s, a.fm = .simple s ∧ s.defaultUnit = none ∧ s.labelUnit = l.unit ∧ s.labelFmt = Spec.written .plain l.fmt
  | .prefixed => ∃ s, a.fm = .unit s ∧ s.defaultUnit = none ∧ s.labelUnit = l.unit ∧
      s.labelFmt = Spec.written .prefixed l.fmt ∧ s.defaultLabel = l.name

/-- The template is up to date. -/
def Ready (a : Axis) : Prop :=
  match a.fm with
  | .other => True
  | .simple s => ∃ t, s.template = some t ∧ makeSimple s.labelFmt s.unit = .ok t
  | .unit s => ∃ t, s.template = some t ∧ makeTemplate s.labelFmt s.unit s.defaultLabel = .ok t

def Good (l : Look) : Prop := Usable l.kind l.fmt ∧ '%' ∉ l.unit.getD [] ∧ '%' ∉ l.name

theorem simple_unit {s : SF} {l : Look} (hk : l.kind = .plain) (h1 : s.defaultUnit = none) (h2 : s.labelUnit = l.unit) :
    s.unit = l.shownUnit := by
  unfold SF.unit Look.shownUnit
  rw [h1, h2, hk]
  cases l.unit <;> rfl

theorem unit_unit {s : UF} {l : Look} (hk : l.kind = .prefixed) (h1 : s.defaultUnit = none) (h2 : s.labelUnit = l.unit) :
    s.unit = l.shownUnit := by
  unfold UF.unit Look.shownUnit
  rw [h1, h2, hk]
  cases l.unit with
  | none => rfl
  | some u => simp [degree]

theorem shown_plain {l : Look} (h : Good l) : '%' ∉ l.shownUnit := by
  unfold Look.shownUnit
  split
  · split
    · decide
    · exact h.2.1
  · exact h.2.1

theorem sf_update {s : SF} {l : Look} (hk : l.kind = .plain) (hg : Good l) (h3 : s.labelFmt = Spec.written .plain l.fmt) :
    ∃ t, s.update = ({ s with template := some t }, .ok ()) ∧ makeSimple s.labelFmt s.unit = .ok t := by
  have := simple_template (hk ▸ hg.1) s.unit
  rw [← h3] at this
  exact ⟨_, by unfold SF.update; rw [this], this⟩

theorem uf_update {s : UF} {l : Look} (hg : Good l) (h3 : s.labelFmt = Spec.written .prefixed l.fmt) :
    ∃ t, s.update = ({ s with template := some t }, .ok ()) ∧ makeTemplate s.labelFmt s.unit s.defaultLabel = .ok t := by
  have := template_eq l.fmt hg.1.1 s.unit s.defaultLabel
  rw [← written_prefixed, ← h3] at this
  exact ⟨_, by unfold UF.update; rw [this], this⟩

/-- What a setter leaves behind. -/
def After (a : Axis) (r : Axis × Except Err Unit) (l : Look) : Prop :=
  r.2 = .ok () ∧ r.1.link = a.link ∧ Shape r.1 l ∧ Ready r.1

theorem after_setUnit {a : Axis} {l : Look} (h : Shape a l) (u : Option Txt) (hg : Good (l.newUnit u)) :
    After a (a.setUnit u) (l.newUnit u) := by
  unfold Shape at h
  unfold Axis.setUnit
  split at h
  · rename_i hk
    rw [h]
    refine ⟨rfl, rfl, ?_, ?_⟩
    · simpa [Shape, Look.newUnit, hk] using h
    · simp [Ready, h]
  · rename_i hk
    obtain ⟨s, h0, h1, h2, h3⟩ := h
    obtain ⟨t, ht1, ht2⟩ := sf_update (s := { s with labelUnit := u.or s.labelUnit }) (l := l.newUnit u) hk hg h3
    rw [h0]
    simp only [SF.setUnit, ht1]
    refine ⟨rfl, rfl, ?_, ?_⟩
    · unfold Shape
      rw [show (l.newUnit u).kind = .plain from hk]
      exact ⟨_, rfl, h1, by simp [Look.newUnit, h2], h3⟩
    · exact ⟨t, rfl, ht2⟩
  · rename_i hk
    obtain ⟨s, h0, h1, h2, h3, h4⟩ := h
    obtain ⟨t, ht1, ht2⟩ := uf_update (s := { s with labelUnit := u.or s.labelUnit }) (l := l.newUnit u) hg h3
    rw [h0]
    simp only [UF.step, ht1]
    refine ⟨rfl, rfl, ?_, ?_⟩
    · unfold Shape
      rw [show (l.newUnit u).kind = .prefixed from hk]
      exact ⟨_, rfl, h1, by simp [Look.newUnit, h2], h3, h4⟩
    · exact ⟨t, rfl, ht2⟩

theorem after_setFmtOnly {a : Axis} {l : Look} (h : Shape a l) (ps : List Piece) (hg : Good { l with fmt := ps }) :
    After a (a.setFmtOnly (some (Spec.written l.kind ps))) { l with fmt := ps } := by
  unfold Shape at h
  unfold Axis.setFmtOnly
  split at h
  · rename_i hk
    rw [h]
    refine ⟨rfl, rfl, ?_, ?_⟩
    · simpa [Shape, hk] using h
    · simp [Ready, h]
  · rename_i hk
    obtain ⟨s, h0, h1, h2, h3⟩ := h
    obtain ⟨t, ht1, ht2⟩ := sf_update (s := { s with labelFmt := Spec.written l.kind ps }) (l := { l with fmt := ps }) hk hg
      (by rw [hk])
    rw [h0]
    simp only [SF.setFmt, Option.getD_some, ht1]
    refine ⟨rfl, rfl, ?_, ?_⟩
    · unfold Shape
      simp only [hk]
      exact ⟨_, rfl, h1, h2, rfl⟩
    · exact ⟨t, rfl, ht2⟩
  · rename_i hk
    obtain ⟨s, h0, h1, h2, h3, h4⟩ := h
    obtain ⟨t, ht1, ht2⟩ := uf_update (s := { s with labelFmt := Spec.written l.kind ps }) (l := { l with fmt := ps }) hg
      (by rw [hk])
    rw [h0]
    simp only [UF.step, Option.getD_some, ht1]
    refine ⟨rfl, rfl, ?_, ?_⟩
    · unfold Shape
      simp only [hk]
      exact ⟨_, rfl, h1, h2, rfl, h4⟩
    · exact ⟨t, rfl, ht2⟩

theorem after_setName {a : Axis} {l : Look} (h : Shape a l) (n : Txt) (hg : Good { l with name := n }) :
    After a (a.setName n) { l with name := n } := by
  unfold Shape at h
  unfold Axis.setName
  split at h
  · rename_i hk
    rw [h]
    refine ⟨rfl, rfl, ?_, ?_⟩
    · simpa [Shape, hk] using h
    · simp [Ready, h]
  · rename_i hk
    obtain ⟨s, h0, h1, h2, h3⟩ := h
    obtain ⟨t, ht1, ht2⟩ := sf_update (s := s) (l := { l with name := n }) hk hg h3
    rw [h0]
    simp only [ht1]
    refine ⟨rfl, rfl, ?_, ?_⟩
    · unfold Shape
      simp only [hk]
      exact ⟨_, rfl, h1, h2, h3⟩
    · exact ⟨t, rfl, ht2⟩
  · rename_i hk
    obtain ⟨s, h0, h1, h2, h3, h4⟩ := h
    obtain ⟨t, ht1, ht2⟩ := uf_update (s := { s with defaultLabel := n }) (l := { l with name := n }) hg h3
    rw [h0]
    simp only [UF.step, ht1]
    refine ⟨rfl, rfl, ?_, ?_⟩
    · unfold Shape
      simp only [hk]
      exact ⟨_, rfl, h1, h2, h3, rfl⟩
    · exact ⟨t, rfl, ht2⟩

/-- An axis that shows what one knows. -/
def Agree (side : Side) (a : Axis) (l : Look) : Prop :=
  Shape a l ∧ Ready a ∧ (l.kind ≠ .none → a.link = some side)

theorem setFmt_agree {a : Axis} {l : Look} (h : Shape a l) (side : Side) (ps : List Piece) (u : Option Txt)
    (hg1 : Good (l.newUnit u)) (hg2 : Good { l.newUnit u with fmt := ps }) :
    (a.setFmt side (some (Spec.written l.kind ps)) u).2 = .ok () ∧
      Agree side (a.setFmt side (some (Spec.written l.kind ps)) u).1 { l.newUnit u with fmt := ps } := by
  have h' : Shape { a with link := some side } l := h
  obtain ⟨k1, k2, k3, k4⟩ := after_setUnit h' u hg1
  obtain ⟨m1, m2, m3, m4⟩ := after_setFmtOnly k3 ps hg2
  unfold Axis.setFmt
  cases hr : Axis.setUnit { a with link := some side } u with
  | mk a' e =>
    rw [hr] at k1 k2 m1 m2 m3 m4
    simp only at k1
    subst k1
    exact ⟨m1, m3, m4, fun _ => m2.trans k2⟩

/-! ### Drawing -/

/-- The label that a formatter sets, if any. -/
theorem call_unit (s : UF) (ps : List Piece) (h : ∀ q ∈ ps, q.Plain) (t : Txt) (ht : s.template = some t)
    (htt : t = ps.flatMap (templ s.unit (axisName s.unit s.defaultLabel)))
    (hu : '%' ∉ s.unit) (hd : '%' ∉ s.defaultLabel) (b : Bool) (digs : Nat) (locs : List ℝ) (x : ℝ) :
    ∃ tick lab, s.call b digs locs x = .ok (tick, lab) := by
  have hname : '%' ∉ axisName s.unit s.defaultLabel := by
    unfold axisName
    split_ifs <;> first | decide | exact hd
  have hpc := fun p e => pc_templ p s.unit _ e hu hname ps h
  rw [← htt] at hpc
  unfold UF.call
  simp only
  split
  · split
    · split
      · rename_i hb hte
        rw [ht] at hte
        cases hte
        split
        · rename_i p _
          rw [hpc]
          exact ⟨_, _, rfl⟩
        · rw [hpc]
          exact ⟨_, _, rfl⟩
      · exact ⟨_, _, rfl⟩
    · exact ⟨_, _, rfl⟩
  · exact ⟨_, _, rfl⟩

theorem call_nil (s : UF) (ht : s.template = some []) (b : Bool) (digs : Nat) (locs : List ℝ) (x : ℝ) :
    ∃ tick, s.call b digs locs x = .ok (tick, none) := by
  unfold UF.call
  simp only
  split
  · split
    · split
      · rename_i hte
        rw [ht] at hte
        cases hte
      · exact ⟨_, rfl⟩
    · exact ⟨_, rfl⟩
  · exact ⟨_, rfl⟩

end HF.Plot.Ax
