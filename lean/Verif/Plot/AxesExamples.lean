import Verif.Plot.AxesProps
/-
C94: ticks without prefix, counterexamples and examples.
-/
namespace HF.Plot.Ax

open Spec (Kind Look Usable Pair LOp Labelled)
open HF.Units

theorem trunc_fract (v : ℝ) : |(trunc v : ℝ) - v| = Int.fract |v| := by
  unfold trunc
  split
  · rename_i h
    rw [abs_of_nonneg h, abs_sub_comm, ← Int.fract, abs_of_nonneg (Int.fract_nonneg v)]
  · rename_i h
    rw [abs_of_neg (not_le.1 h), Int.fract, Int.floor_neg]
    rw [abs_of_nonneg (by linarith [Int.le_ceil v])]
    push_cast
    ring

/-- C94: ticks of an axis without prefixes.  All have the same number of digits, the least one (up to two) for which every
tick is a multiple of its last digit up to a thousandth; else three. -/
theorem C94_ticks (s : SF) (locs : List ℝ) : ∃ d ≤ 3,
    (∀ hasFun x tick lab, s.call hasFun locs x = .ok (tick, lab) → tick = ⟨x, .fixed d⟩) ∧
    (d ≤ 2 → ∀ l ∈ locs, |roundDigs d l - l| < 0.001 / 10 ^ d) ∧
    (∀ l ∈ locs, |roundDigs d l - l| ≤ 1 / 2 / 10 ^ d) ∧
    ∀ d' < d, ∃ l ∈ locs, 0.001 ≤ Int.fract |l * 10 ^ d'| := by
  have hcall : ∀ hasFun x tick lab, s.call hasFun locs x = .ok (tick, lab) → tick = ⟨x, .fixed (digits locs 1 3)⟩ := by
    intro hasFun x tick lab h
    unfold SF.call at h
    split at h
    · cases h
    · simp only at h
      split at h
      · rename_i c t _
        cases hp : pcFormat simpleEnv .text (c :: t) with
        | error e => rw [hp] at h; cases h
        | ok v =>
          rw [hp] at h
          simp only [Except.map, Except.ok.injEq, Prod.mk.injEq] at h
          rw [← h.1, div_one]
      · simp only [Except.ok.injEq, Prod.mk.injEq] at h
        rw [← h.1, div_one]
  have hmin : ∀ d' < digits locs 1 3, ¬ Fits locs 1 d' := by
    intro d' hd' hf
    unfold digits at hd'
    cases h : (List.range 3).find? fun d => @decide (Fits locs 1 d) (Classical.propDecidable _) with
    | none =>
      rw [h] at hd'
      have := List.find?_eq_none.1 h d' (List.mem_range.2 (by simpa using hd'))
      simp [hf] at this
    | some d =>
      rw [h] at hd'
      simp only [Option.getD_some] at hd'
      obtain ⟨_, as, bs, e, hn⟩ := List.find?_eq_some_iff_append.1 h
      have hmem : d' ∈ as := by
        have hd3 : d < 3 := List.mem_range.1 (by rw [e]; simp)
        have hr : (List.range 3) = [0, 1, 2] := rfl
        rw [hr] at e
        have hlt : ∀ m, m < d → m ∈ as := by
          intro m hm
          match as, e with
          | [], e => simp only [List.nil_append, List.cons.injEq] at e; omega
          | [a], e => simp only [List.cons_append, List.nil_append, List.cons.injEq] at e; simp; omega
          | [a, b], e => simp only [List.cons_append, List.nil_append, List.cons.injEq] at e; simp; omega
          | a :: b :: c :: as, e =>
            have := congrArg List.length e
            simp at this
        exact hlt d' hd'
      have := hn d' hmem
      simp [hf] at this
  refine ⟨digits locs 1 3, ?_, hcall, ?_, fun l _ => round_error _ _, ?_⟩
  · rcases digits_spec locs 1 3 with ⟨h, _⟩ | ⟨h, _⟩ <;> omega
  · intro h2 l hl
    rcases digits_spec locs 1 3 with ⟨_, h⟩ | ⟨h, _⟩
    · simpa using fits_round h l hl
    · omega
  · intro d' hd'
    have := hmin d' hd'
    unfold Fits at this
    push Not at this
    obtain ⟨l, hl, h⟩ := this
    refine ⟨l, hl, ?_⟩
    rw [trunc_fract, div_one] at h
    exact h

/-! ### Counterexamples -/

theorem look_unit {p : Proj} {ops : List LOp} (hf : ∀ o ∈ ops, o.Fine p) {u : Txt}
    (hk : (ops.foldl (Pair.step p) (Spec.start p)).y.kind ≠ .none)
    (hu : (ops.foldl (Pair.step p) (Spec.start p)).y.shownUnit = u) :
    ∃ a, Axes.run (Axes.init p) (ops.map (LOp.raw p)) = (a, .ok ()) ∧ a.y.getUnit = some u := by
  obtain ⟨a, h1, h2⟩ := C94_get p ops hf
  refine ⟨a, h1, ?_⟩
  rw [(h2 _ _ (Or.inr ⟨rfl, rfl⟩)).1, if_neg hk, hu]

/-- C94 fails to tell the unit of what is drawn: the unit of the data goes to the label whatever is drawn, so that axes for
decibels and angles show volts. -/
theorem C94_quantity_refuted (p : Proj) (hp : p ≠ .rectilinear ∧ p ≠ .xSi) (n : Option Txt) (cplx : Bool) (xu : Option Txt)
    (hn : '%' ∉ n.getD []) (hx : '%' ∉ xu.getD []) :
    ∃ a, Axes.run (Axes.init p) [.plot n none true cplx xu (some ['V'])] = (a, .ok ()) ∧ a.y.getUnit = some ['V'] := by
  have hfine : ∀ o ∈ [LOp.plot n none true cplx xu (some ['V'])], o.Fine p := by
    intro o ho
    rw [List.mem_singleton] at ho
    subst ho
    exact ⟨hn, hx, by decide⟩
  have hy : ([LOp.plot n none true cplx xu (some ['V'])].foldl (Pair.step p) (Spec.start p)).y = (Spec.start p).y.newUnit (some ['V']) := by
    simp only [List.foldl, Pair.step, if_true]
    have : ((Spec.start p).naming n).y = (Spec.start p).y := by
      unfold Pair.naming
      split <;> rfl
    rw [this]
    rfl
  refine look_unit hfine ?_ ?_
  · rw [hy]
    obtain ⟨h1, h2⟩ := hp
    cases p <;> first | exact absurd rfl h1 | exact absurd rfl h2 | decide
  · rw [hy]
    cases p <;> rfl

/-- C94: a label with decibels reads volts. -/
theorem C94_db_refuted : ∃ a a', Axes.run (Axes.init .db) [.plot none none true true none (some ['V'])] = (a, .ok ()) ∧
    a.draw [] [0] = (a', .ok ()) ∧ a'.ylabel = ['[', 'V', ']'] := by
  obtain ⟨a, a', h1, h2, _, h3⟩ := C94_labels .db [.plot none none true true none (some ['V'])]
    (by intro o ho; rw [List.mem_singleton] at ho; subst ho; exact ⟨by decide, by decide, by decide⟩) [] [0]
  refine ⟨a, a', h1, h2, ?_⟩
  have h3 : a'.ylabel = if ([0] : List ℝ) = [] ∨ ['[', 'V', ']'] = [] then a.ylabel else ['[', 'V', ']'] := h3
  rw [h3, if_neg (by simp)]

/-- C94 fails for the unit of angles: a new format brings back the unit of the projection, on other axes the unit stays. -/
theorem C94_angle_refuted (fmt : List Piece) (h : ∀ q ∈ fmt, q.Plain) (u : Txt) (hu : '%' ∉ u) :
    (∃ a, Axes.run (Axes.init .rad) [.yunit (some u), .yfmt (some (fmt.flatMap Piece.written)) none] = (a, .ok ()) ∧
      a.y.getUnit = some ['r', 'a', 'd']) ∧
    ∃ a, Axes.run (Axes.init .mag) [.yunit (some u), .yfmt (some (fmt.flatMap Piece.written)) none] = (a, .ok ()) ∧
      a.y.getUnit = some (if u = ['d', 'e', 'g'] then ['°'] else u) := by
  have key : ∀ p : Proj, (Spec.start p).y.kind = .prefixed → ∀ v,
      ([LOp.yunit (some u), .yfmt fmt none].foldl (Pair.step p) (Spec.start p)).y.shownUnit = v →
      ∃ a, Axes.run (Axes.init p) [.yunit (some u), .yfmt (some (fmt.flatMap Piece.written)) none] = (a, .ok ()) ∧ a.y.getUnit = some v := by
    intro p hk v hv
    have hf : ∀ o ∈ [LOp.yunit (some u), .yfmt fmt none], o.Fine p := by
      intro o ho
      simp only [List.mem_cons, List.not_mem_nil, or_false] at ho
      rcases ho with rfl | rfl
      · exact hu
      · exact ⟨⟨h, by rw [hk]; intro hc; cases hc⟩, by decide⟩
    obtain ⟨a, h1, h2⟩ := look_unit hf (by
      show (Spec.start p).y.kind ≠ _
      rw [hk]; decide) hv
    refine ⟨a, ?_, h2⟩
    rw [← written_prefixed, ← hk]
    exact h1
  refine ⟨key .rad rfl _ rfl, key .mag rfl _ ?_⟩
  simp [Pair.step, Look.newUnit, Look.shownUnit, Spec.start, Spec.angleUnit]

/-- C94 fails for formats that ask for the unit twice: on axes for decibels the format is accepted and drawing raises; a
unit with a percent sign as well. -/
theorem C94_raises_refuted :
    (∃ a, Axes.run (Axes.init .db) [.yfmt (some (tBox ++ tPcUnit)) none] = (a, .ok ()) ∧ (a.draw [] [0]).2 = .error .keyError) ∧
    ∃ a, Axes.run (Axes.init .db) [.yunit (some ['%'])] = (a, .ok ()) ∧ (a.draw [] [0]).2 = .error .valueError := by
  refine ⟨⟨_, rfl, ?_⟩, ⟨_, rfl, ?_⟩⟩
  · unfold Axes.draw
    rfl
  · unfold Axes.draw
    rfl

/-- C94 fails for `{default}` on axes for decibels: it is shown as it is written. -/
theorem C94_brace_refuted : ∃ a, Axes.run (Axes.init .db) [.yfmt (some fDefault) none] = (a, .ok ()) ∧
    (a.draw [] [0]).2 = .ok () ∧ (a.draw [] [0]).1.ylabel = tName ++ [' ', '[', 'd', 'B', ']'] := by
  refine ⟨_, rfl, ?_, ?_⟩
  · unfold Axes.draw
    rfl
  · unfold Axes.draw
    rfl

/-- C94 fails for an empty format: the old label stays. -/
theorem C94_empty_refuted : ∃ a, Axes.run (Axes.init .db) [.draw [] [0], .yfmt none none, .draw [] [0]] = (a, .ok ()) ∧
    a.ylabel = ['[', 'd', 'B', ']'] := by
  obtain ⟨a, a', h1, h2, _, h3⟩ := C94_labels .db [] (by simp) [] [0]
  have h3 : a'.ylabel = if ([0] : List ℝ) = [] ∨ ['[', 'd', 'B', ']'] = [] then a.ylabel else ['[', 'd', 'B', ']'] := h3
  rw [if_neg (by simp)] at h3
  obtain ⟨b, b', g1, g2, _, g3⟩ := C94_labels .db [.draw [] [0], .yfmt [] none] (by
    intro o ho
    simp only [List.mem_cons, List.not_mem_nil, or_false] at ho
    rcases ho with rfl | rfl
    · trivial
    · exact ⟨⟨by simp, fun _ => by simp⟩, by decide⟩) [] [0]
  have g3 : b'.ylabel = b.ylabel := by
    have : b'.ylabel = if ([0] : List ℝ) = [] ∨ ([] : Txt) = [] then b.ylabel else [] := g3
    rw [this, if_pos (Or.inr rfl)]
  refine ⟨b', ?_, ?_⟩
  · have e : Axes.run (Axes.init .db) [.draw [] [0], .yfmt none none, .draw [] [0]] =
        Axes.run (Axes.run (Axes.init .db) [.draw [] [0], .yfmt (some []) none]) [.draw [] [0]] := rfl
    rw [e]
    have g1 : Axes.run (Axes.init .db) [.draw [] [0], .yfmt (some []) none] = (b, .ok ()) := g1
    rw [g1]
    exact g2
  · rw [g3]
    have h1 : Axes.init .db = (a, .ok ()) := h1
    have g1 : Axes.run (Axes.init .db) [.draw [] [0], .yfmt (some []) none] = (b, .ok ()) := g1
    rw [h1] at g1
    simp only [Axes.run, Axes.andThen, Axes.step, h2] at g1
    have := congrArg (fun r => r.1.ylabel) g1
    rw [← show a'.ylabel = b.ylabel from this, h3]

/-- C94 fails for a second dimension: the axis keeps the name of the first one, and takes the unit of the second. -/
theorem C94_name_refuted : ∃ a a', Axes.run (Axes.init .mag)
    [.plot (some ['V', 'g']) none true false (some ['V']) none, .plot (some ['I', 'd']) none true false (some ['A']) none] = (a, .ok ()) ∧
    a.draw [1] [] = (a', .ok ()) ∧ ∃ p : String, a'.xlabel = ['V', 'g', ' ', '['] ++ p.toList ++ ['A', ']'] := by
  obtain ⟨a, a', h1, h2, h3, _⟩ := C94_labels .mag
    [.plot (some ['V', 'g']) none true false (some ['V']) none, .plot (some ['I', 'd']) none true false (some ['A']) none]
    (by
      intro o ho
      simp only [List.mem_cons, List.not_mem_nil, or_false] at ho
      rcases ho with rfl | rfl <;> exact ⟨by decide, by decide, by decide⟩) [1] []
  refine ⟨a, a', h1, h2, ?_⟩
  have hN : Narrow [(1 : ℝ)] := ⟨⟨1, by simp, by norm_num⟩, by
    intro l hl m hm _
    rw [List.mem_singleton] at hl hm
    subst hl; subst hm; norm_num⟩
  obtain ⟨p, e, _, _, _, hl⟩ := h3.1 hN ⟨1, by simp, by norm_num⟩ (by intro m hm; rw [List.mem_singleton] at hm; subst hm; norm_num)
  refine ⟨p, ?_⟩
  have e : ∀ l : Look, l.fmt = [.name, .text [' '], .box] → l.kind = .prefixed → l.shownUnit = ['A'] → l.name = ['V', 'g'] →
      l.label p.toList = ['V', 'g', ' ', '['] ++ p.toList ++ ['A', ']'] := by
    intro l a b c d
    unfold Look.label
    rw [a, b, c, d]
    simp [Piece.reads, axisName]
  rw [e _ rfl rfl rfl rfl] at hl
  rw [hl, if_neg (by simp)]

/-- Formats from which no label can be made. -/
def Bad (fmt : Txt) : Prop := ∀ unit name, ∃ e, makeTemplate fmt unit name = .error e

/-- C94 fails after a format that is refused: it has been stored, and every later format is refused as well, because the
unit is set first. -/
theorem C94_stuck_refuted (a : Axes) (s : UF) (ha : a.x.fm = .unit s) (bad : Txt) (hb : Bad bad) (u0 : Option Txt)
    (hs : (s.step (.setUnit u0)).2 = .ok ()) :
    (∃ e, (a.setXFmt (some bad) u0).2 = .error e) ∧
    ∀ later : List (Option Txt × Option Txt),
      ∀ fmt u, ∃ e, (Axes.setXFmt (later.foldl (fun a f => (a.setXFmt f.1 f.2).1) (a.setXFmt (some bad) u0).1) fmt u).2 = .error e := by
  have upd : ∀ s : UF, s.labelFmt = bad → ∃ e, s.update = (s, .error e) := by
    intro s hs
    obtain ⟨e, he⟩ := hb s.unit s.defaultLabel
    exact ⟨e, by unfold UF.update; rw [hs, he]⟩
  -- the bad format is in place
  have first : (∃ e, (a.setXFmt (some bad) u0).2 = .error e) ∧ ∃ s', (a.setXFmt (some bad) u0).1.x.fm = .unit s' ∧ s'.labelFmt = bad := by
    have h0 : Axis.setUnit { a.x with link := some .x } u0 = ({ fm := .unit (s.step (.setUnit u0)).1, link := some .x }, .ok ()) := by
      unfold Axis.setUnit
      simp only [ha, hs]
    obtain ⟨e, he⟩ := upd { (s.step (.setUnit u0)).1 with labelFmt := bad } rfl
    have h1 : a.x.setFmt .x (some bad) u0 = ({ fm := .unit { (s.step (.setUnit u0)).1 with labelFmt := bad }, link := some .x }, .error e) := by
      unfold Axis.setFmt
      rw [h0]
      simp only [Axis.setFmtOnly]
      have : (s.step (.setUnit u0)).1.step (.setFmt (some bad)) = ({ (s.step (.setUnit u0)).1 with labelFmt := bad }, .error e) := he
      rw [this]
    unfold Axes.setXFmt
    rw [h1]
    exact ⟨⟨e, rfl⟩, _, rfl, rfl⟩
  have again : ∀ (a : Axes) (s : UF), a.x.fm = .unit s → s.labelFmt = bad → ∀ fmt u,
      (∃ e, (a.setXFmt fmt u).2 = .error e) ∧ ∃ s', (a.setXFmt fmt u).1.x.fm = .unit s' ∧ s'.labelFmt = bad := by
    intro a s ha hs fmt u
    obtain ⟨e, he⟩ := upd { s with labelUnit := u.or s.labelUnit } hs
    have h1 : a.x.setFmt .x fmt u = ({ fm := .unit { s with labelUnit := u.or s.labelUnit }, link := some .x }, .error e) := by
      unfold Axis.setFmt Axis.setUnit
      simp only [ha]
      have : s.step (.setUnit u) = ({ s with labelUnit := u.or s.labelUnit }, .error e) := he
      rw [this]
    unfold Axes.setXFmt
    rw [h1]
    exact ⟨⟨e, rfl⟩, _, rfl, hs⟩
  refine ⟨first.1, fun later => ?_⟩
  have : ∀ (later : List (Option Txt × Option Txt)) (a : Axes) (s : UF), a.x.fm = .unit s → s.labelFmt = bad →
      ∀ fmt u, ∃ e, (Axes.setXFmt (later.foldl (fun a f => (a.setXFmt f.1 f.2).1) a) fmt u).2 = .error e := by
    intro later
    induction later with
    | nil => exact fun a s h1 h2 fmt u => (again a s h1 h2 fmt u).1
    | cons f later ih =>
      intro a s h1 h2
      obtain ⟨_, s', g1, g2⟩ := again a s h1 h2 f.1 f.2
      exact ih _ s' g1 g2
  obtain ⟨s', g1, g2⟩ := first.2
  exact this later _ s' g1 g2

/-! ### Examples -/

/-- `{unit}{` -/
def fOpen : Txt := ['{', 'u', 'n', 'i', 't', '}', '{']

theorem bad_open : Bad fOpen := by
  intro unit name
  refine ⟨.valueError, ?_⟩
  have h1 : hasSub tBox fOpen = false := by decide
  have h2 : hasSub tPow fOpen = false := by decide
  have h3 : hasSub tUnit fOpen = true := by decide
  unfold makeTemplate
  simp only [h1, h2, h3, Bool.false_eq_true, if_false, Bool.true_or, if_true]
  have : nameEnv unit (labelName unit name) ['u', 'n', 'i', 't'] = some unit := by simp [nameEnv, kUnit]
  simp [brFormat, fOpen, this, Except.map]

/-- A refused format cannot be replaced on new axes. -/
example (fmt u : Option Txt) : ∃ e, (Axes.setXFmt ((Axes.init .mag).1.setXFmt (some fOpen) none).1 fmt u).2 = .error e :=
  (C94_stuck_refuted (Axes.init .mag).1 _ rfl fOpen bad_open none rfl).2 [] fmt u

/-- A history with all kinds of steps. -/
example : ∀ o ∈ [LOp.plot (some ['f']) none true true (some ['H', 'z']) none, .yfmt [.text ['S', ' '], .box] none,
    .draw [1] [0], .xunit (some ['s']), .yunit none, .xfmt [.name, .text [' '], .unit] (some ['s'])], o.Fine .db := by
  intro o ho
  simp only [List.mem_cons, List.not_mem_nil, or_false] at ho
  have hs : ∀ c : Char, c ≠ '%' ∧ c ≠ '{' ∧ c ≠ '}' ∧ c ≠ '[' ∧ c ≠ ']' → (Piece.text [c]).Plain := by
    intro c hc d hd
    rw [List.mem_singleton] at hd
    subst hd
    exact hc
  rcases ho with rfl | rfl | rfl | rfl | rfl | rfl
  · exact ⟨by decide, by decide, by decide⟩
  · refine ⟨⟨?_, fun _ => ⟨by simp, by simp⟩⟩, by decide⟩
    intro q hq
    simp only [List.mem_cons, List.not_mem_nil, or_false] at hq
    rcases hq with rfl | rfl
    · intro d hd
      simp only [List.mem_cons, List.not_mem_nil, or_false] at hd
      rcases hd with rfl | rfl <;> decide
    · trivial
  · trivial
  · show '%' ∉ _
    decide
  · show '%' ∉ _
    decide
  · refine ⟨⟨?_, fun hc => by cases hc⟩, by decide⟩
    intro q hq
    simp only [List.mem_cons, List.not_mem_nil, or_false] at hq
    rcases hq with rfl | rfl | rfl
    · trivial
    · exact hs _ (by decide)
    · trivial

/-- Ticks at halves have one digit. -/
example : ∃ tick lab, (Axes.init .db).1.y.call [0, 0.5, 1] 0.5 = .ok (tick, lab) := by
  obtain ⟨a0, e0, i0, _⟩ := init_inv .db
  rw [e0]
  obtain ⟨r, hr⟩ := call_agree i0.y i0.gy [0, 0.5, 1] 0.5 (by simp)
  exact ⟨r.1, r.2, hr⟩

end HF.Plot.Ax
