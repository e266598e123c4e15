import Verif.Plot.LabelProps
/-
C73: ticks.
-/
namespace HF.Plot

open HF.Units

theorem round_trunc {v : ℝ} (h : |(trunc v : ℝ) - v| < 0.001) : round v = trunc v := by
  rw [round_eq, Int.floor_eq_iff]
  rw [abs_lt] at h
  norm_num at h
  constructor <;> linarith [h.1, h.2]

/-- The text of a tick that fits is off by less than a thousandth of the last digit. -/
theorem fits_round {locs : List ℝ} {div : ℝ} {d : Nat} (h : Fits locs div d) : ∀ l ∈ locs,
    |roundDigs d (l / div) - l / div| < 0.001 / 10 ^ d := by
  intro l hl
  have h1 := h l hl
  have hp : (0 : ℝ) < 10 ^ d := by positivity
  unfold roundDigs
  rw [round_trunc h1]
  have : (trunc (l / div * 10 ^ d) : ℝ) / 10 ^ d - l / div = ((trunc (l / div * 10 ^ d) : ℝ) - l / div * 10 ^ d) / 10 ^ d := by
    field_simp
  rw [this, abs_div, abs_of_pos hp]
  exact div_lt_div_of_pos_right h1 hp

theorem round_error (d : Nat) (v : ℝ) : |roundDigs d v - v| ≤ 1 / 2 / 10 ^ d := by
  have hp : (0 : ℝ) < 10 ^ d := by positivity
  unfold roundDigs
  have : (round (v * 10 ^ d) : ℝ) / 10 ^ d - v = ((round (v * 10 ^ d) : ℝ) - v * 10 ^ d) / 10 ^ d := by field_simp
  rw [this, abs_div, abs_of_pos hp, abs_sub_comm]
  exact div_le_div_of_nonneg_right (abs_sub_round _) hp.le

theorem digits_spec (locs : List ℝ) (div : ℝ) (digs : Nat) :
    (digits locs div digs ≤ 2 ∧ Fits locs div (digits locs div digs)) ∨
    (digits locs div digs = digs ∧ ∀ d ≤ 2, ¬ Fits locs div d) := by
  unfold digits
  cases h : (List.range 3).find? fun d => @decide (Fits locs div d) (Classical.propDecidable _) with
  | some d =>
    left
    have h1 := List.find?_some h
    have h2 := List.mem_range.1 (List.mem_of_find?_eq_some h)
    exact ⟨by simpa using Nat.lt_succ_iff.1 h2, by simpa using h1⟩
  | none =>
    right
    refine ⟨rfl, fun d hd => ?_⟩
    have := List.find?_eq_none.1 h d (List.mem_range.2 (by omega))
    simpa using this

/-- Ticks that are not all zero and not more than four decades apart. -/
def Narrow (locs : List ℝ) : Prop :=
  (∃ l ∈ locs, l ≠ 0) ∧ ∀ l ∈ locs, ∀ m ∈ locs, m ≠ 0 → |l| ≤ 10000 * |m|

open Classical in
theorem narrow_maxmin {locs : List ℝ} (h : Narrow locs) : ∃ hi lo, ((locs.filter (· ≠ 0)).map abs).max? = some hi ∧
    ((locs.filter (· ≠ 0)).map abs).min? = some lo ∧ hi / lo ≤ 10000 ∧ 0 < hi ∧ (∃ l ∈ locs, |l| = hi) ∧ ∀ l ∈ locs, |l| ≤ hi := by
  obtain ⟨⟨l0, hl0, hz⟩, hr⟩ := h
  have hmem : |l0| ∈ (locs.filter (· ≠ 0)).map abs := List.mem_map.2 ⟨l0, List.mem_filter.2 ⟨hl0, by simpa using hz⟩, rfl⟩
  have hof : ∀ v ∈ (locs.filter (· ≠ 0)).map abs, ∃ l ∈ locs, l ≠ 0 ∧ |l| = v := by
    intro v hv
    obtain ⟨l, hl, rfl⟩ := List.mem_map.1 hv
    obtain ⟨a, b⟩ := List.mem_filter.1 hl
    exact ⟨l, a, by simpa using b, rfl⟩
  generalize hnz : (locs.filter (· ≠ 0)).map abs = nz at hmem hof
  obtain ⟨hi, hhi⟩ : ∃ hi, nz.max? = some hi := by
    cases hx : nz.max? with
    | none => rw [List.max?_eq_none_iff] at hx; rw [hx] at hmem; simp at hmem
    | some v => exact ⟨v, rfl⟩
  obtain ⟨lo, hlo⟩ : ∃ lo, nz.min? = some lo := by
    cases hx : nz.min? with
    | none => rw [List.min?_eq_none_iff] at hx; rw [hx] at hmem; simp at hmem
    | some v => exact ⟨v, rfl⟩
  obtain ⟨m1, m2⟩ := List.max?_eq_some_iff.1 hhi
  obtain ⟨n1, _⟩ := List.min?_eq_some_iff.1 hlo
  obtain ⟨a, ha, haz, haa⟩ := hof hi m1
  obtain ⟨b, hb, hbz, hbb⟩ := hof lo n1
  have hlopos : 0 < lo := by rw [← hbb]; exact abs_pos.2 hbz
  have hhipos : 0 < hi := by rw [← haa]; exact abs_pos.2 haz
  refine ⟨hi, lo, hhi, hlo, ?_, hhipos, ⟨a, ha, haa⟩, fun l hl => ?_⟩
  · rw [div_le_iff₀ hlopos, ← haa, ← hbb]
    exact hr a ha b hb hbz
  · by_cases hz : l = 0
    · rw [hz, abs_zero]; exact hhipos.le
    · exact m2 _ (hnz ▸ List.mem_map.2 ⟨l, List.mem_filter.2 ⟨hl, by simpa using hz⟩, rfl⟩)

/-- Ticks of a formatter whose label is not empty. -/
theorem ticks_ne (s : UF) (ps : List Piece) (h : ∀ q ∈ ps, q.Plain)
    (hf : s.labelFmt = ps.flatMap Piece.written) (t : List Char) (ht : s.template = some t)
    (hs : makeTemplate s.labelFmt s.unit s.defaultLabel = .ok t) (hne : t ≠ [])
    (hu : '%' ∉ s.unit) (hd : '%' ∉ s.defaultLabel) (digs : Nat) (locs : List ℝ) (hl : Narrow locs)
    (hr1 : ∃ l ∈ locs, (10 : ℝ) ^ (-24 : ℤ) ≤ |l|) (hr2 : ∀ l ∈ locs, |l| < (10 : ℝ) ^ (24 : ℤ)) :
    ∃ (p : String) (e : ℤ) (d : Nat), siPower p = some e ∧
      (∀ x, ∃ v, s.call true digs locs x = .ok (⟨v, .fixed d⟩, some (ps.flatMap (Piece.reads p.toList s.unit (axisName s.unit s.defaultLabel))))
        ∧ v * 10 ^ e = x) ∧
      (∀ l ∈ locs, |l| < 1000 * 10 ^ e) ∧ (∃ l ∈ locs, 10 ^ e ≤ |l|) ∧
      ((d ≤ 2 ∧ ∀ l ∈ locs, |roundDigs d (l / 10 ^ e) - l / 10 ^ e| < 0.001 / 10 ^ d) ∨
        (d = digs ∧ ∀ l ∈ locs, |roundDigs d (l / 10 ^ e) - l / 10 ^ e| ≤ 1 / 2 / 10 ^ d)) := by
  obtain ⟨hi, lo, h1, h2, h3, h4, ⟨m, hm, hmh⟩, h5⟩ := narrow_maxmin hl
  have htempl := template_eq ps h s.unit s.defaultLabel
  rw [← hf, hs] at htempl
  have htt : t = ps.flatMap (templ s.unit (axisName s.unit s.defaultLabel)) := by simpa using htempl
  have hhi : hi ≠ 0 := h4.ne'
  have habs : |hi| = hi := abs_of_pos h4
  have r2 := hr2 m hm
  rw [hmh] at r2
  have r1 : (10 : ℝ) ^ (-24 : ℤ) ≤ hi := by
    obtain ⟨l, hl, hl1⟩ := hr1
    exact hl1.trans (h5 l hl)
  have hrange := exp_range (x := hi) (a := -8) (b := 8) hhi
    (by rw [habs]; simpa using r1) (by rw [habs]; simpa using r2)
  obtain ⟨e1, e2, e3⟩ := C16_engineering hi
  obtain ⟨e4, e5⟩ := e3 hhi
  obtain ⟨p, hp1, hp2⟩ := prefix_table false (helpFormatSci hi).2 (by omega) (by omega) e2
  have hp1 : dictDisplay siExpEntries (helpFormatSci hi).2 = some p := hp1
  have hpos : (0 : ℝ) < 10 ^ (helpFormatSci hi).2 := by positivity
  have hival : hi = |(helpFormatSci hi).1| * 10 ^ (helpFormatSci hi).2 := by
    conv_lhs => rw [← habs, ← e1]
    rw [abs_mul, abs_of_pos hpos]
  have hname : '%' ∉ axisName s.unit s.defaultLabel := by
    unfold axisName
    split_ifs <;> first | decide | exact hd
  refine ⟨p, (helpFormatSci hi).2, digits locs (10 ^ (helpFormatSci hi).2) digs, hp2, fun x => ⟨x / 10 ^ (helpFormatSci hi).2, ?_, ?_⟩, ?_, ?_, ?_⟩
  · obtain ⟨c, t', hct⟩ : ∃ c t', t = c :: t' := List.exists_cons_of_ne_nil hne
    have hpc := pc_templ p.toList s.unit _ (helpFormatSci hi).2 hu hname ps h
    rw [← htt, hct] at hpc
    unfold UF.call
    simp only [h1, h2, if_pos h3, ht, hct, hp1, hpc]
    rfl
  · exact div_mul_cancel₀ _ hpos.ne'
  · intro l hl
    refine lt_of_le_of_lt (h5 l hl) ?_
    calc hi = |(helpFormatSci hi).1| * 10 ^ (helpFormatSci hi).2 := hival
      _ < _ := mul_lt_mul_of_pos_right e5 hpos
  · refine ⟨m, hm, ?_⟩
    rw [hmh]
    nlinarith
  · rcases digits_spec locs (10 ^ (helpFormatSci hi).2) digs with ⟨d1, d2⟩ | ⟨d1, _⟩
    · exact Or.inl ⟨d1, fits_round d2⟩
    · exact Or.inr ⟨d1, fun l _ => round_error _ _⟩

/-- C73: label and tick together tell the coordinate.  For ticks not more than four decades apart the label carries the
prefix by whose power of ten all ticks are divided; the largest tick is shown between 1 and 1000; the text of every
tick is off by less than a thousandth of its last digit, or by half a unit of the last of `digs` digits. -/
theorem C73_ticks (s : UF) (ps : List Piece) (h : ∀ q ∈ ps, q.Plain) (hbox : Piece.box ∈ ps)
    (hf : s.labelFmt = ps.flatMap Piece.written) (t : List Char) (ht : s.template = some t)
    (hs : makeTemplate s.labelFmt s.unit s.defaultLabel = .ok t)
    (hu : '%' ∉ s.unit) (hd : '%' ∉ s.defaultLabel) (digs : Nat) (locs : List ℝ) (hl : Narrow locs)
    (hr : ∀ l ∈ locs, l ≠ 0 → (10 : ℝ) ^ (-24 : ℤ) ≤ |l| ∧ |l| < (10 : ℝ) ^ (24 : ℤ)) :
    ∃ (p : String) (e : ℤ) (d : Nat), siPower p = some e ∧
      (∀ x, ∃ v, s.call true digs locs x = .ok (⟨v, .fixed d⟩, some (ps.flatMap (Piece.reads p.toList s.unit (axisName s.unit s.defaultLabel))))
        ∧ v * 10 ^ e = x) ∧
      (∀ l ∈ locs, |l| < 1000 * 10 ^ e) ∧ (∃ l ∈ locs, 10 ^ e ≤ |l|) ∧
      ((d ≤ 2 ∧ ∀ l ∈ locs, |roundDigs d (l / 10 ^ e) - l / 10 ^ e| < 0.001 / 10 ^ d) ∨
        (d = digs ∧ ∀ l ∈ locs, |roundDigs d (l / 10 ^ e) - l / 10 ^ e| ≤ 1 / 2 / 10 ^ d)) := by
  have hr1 : ∃ l ∈ locs, (10 : ℝ) ^ (-24 : ℤ) ≤ |l| := by
    obtain ⟨⟨l, hm, hz⟩, _⟩ := hl
    exact ⟨l, hm, (hr l hm hz).1⟩
  have hr2 : ∀ l ∈ locs, |l| < (10 : ℝ) ^ (24 : ℤ) := by
    intro l hm
    by_cases hz : l = 0
    · rw [hz, abs_zero]; positivity
    · exact (hr l hm hz).2
  refine ticks_ne s ps h hf t ht hs ?_ hu hd digs locs hl hr1 hr2
  have htempl := template_eq ps h s.unit s.defaultLabel
  rw [← hf, hs] at htempl
  have htt : t = ps.flatMap (templ s.unit (axisName s.unit s.defaultLabel)) := by simpa using htempl
  obtain ⟨a, b, rfl⟩ := List.append_of_mem hbox
  rw [htt]
  simp [templ, tBoxPre]

/-- Ticks without prefix of a formatter whose label is not empty. -/
theorem far_ne (s : UF) (ps : List Piece) (h : ∀ q ∈ ps, q.Plain)
    (hf : s.labelFmt = ps.flatMap Piece.written) (t : List Char) (ht : s.template = some t)
    (hs : makeTemplate s.labelFmt s.unit s.defaultLabel = .ok t) (hne : t ≠ [])
    (hu : '%' ∉ s.unit) (hd : '%' ∉ s.defaultLabel) (digs : Nat) (locs : List ℝ) (hl : Narrow locs)
    (hr : (∃ l ∈ locs, (10 : ℝ) ^ (24 : ℤ) ≤ |l|) ∨ ∀ l ∈ locs, |l| < (10 : ℝ) ^ (-24 : ℤ)) (x : ℝ) :
    s.call true digs locs x =
      .ok (⟨x, .sci digs⟩, some (ps.flatMap (Piece.reads [] s.unit (axisName s.unit s.defaultLabel)))) := by
  obtain ⟨hi, lo, h1, h2, h3, h4, ⟨m, hm, hmh⟩, h5⟩ := narrow_maxmin hl
  have htempl := template_eq ps h s.unit s.defaultLabel
  rw [← hf, hs] at htempl
  have htt : t = ps.flatMap (templ s.unit (axisName s.unit s.defaultLabel)) := by simpa using htempl
  have hhi : hi ≠ 0 := h4.ne'
  have habs : |hi| = hi := abs_of_pos h4
  obtain ⟨e1, -, e3⟩ := C16_engineering hi
  obtain ⟨e4, e5⟩ := e3 hhi
  have hpos : (0 : ℝ) < 10 ^ (helpFormatSci hi).2 := by positivity
  have hival : hi = |(helpFormatSci hi).1| * 10 ^ (helpFormatSci hi).2 := by
    conv_lhs => rw [← habs, ← e1]
    rw [abs_mul, abs_of_pos hpos]
  have hexp : (helpFormatSci hi).2 < -24 ∨ 21 < (helpFormatSci hi).2 := by
    rcases hr with ⟨l, hl, hl1⟩ | hr
    · right
      have h6 : (10 : ℝ) ^ (24 : ℤ) < 10 ^ ((helpFormatSci hi).2 + 3) := by
        rw [zpow_add₀ (by norm_num)]
        calc (10 : ℝ) ^ (24 : ℤ) ≤ hi := hl1.trans (h5 l hl)
          _ = |(helpFormatSci hi).1| * 10 ^ (helpFormatSci hi).2 := hival
          _ < 1000 * 10 ^ (helpFormatSci hi).2 := mul_lt_mul_of_pos_right e5 hpos
          _ = _ := by rw [mul_comm]; norm_num
      have := (zpow_lt_zpow_iff_right₀ (by norm_num : (1 : ℝ) < 10)).1 h6
      omega
    · left
      have h6 : (10 : ℝ) ^ (helpFormatSci hi).2 < 10 ^ (-24 : ℤ) := by
        have := hr m hm
        rw [hmh] at this
        nlinarith
      exact (zpow_lt_zpow_iff_right₀ (by norm_num : (1 : ℝ) < 10)).1 h6
  have hp1 : dictDisplay siExpEntries (helpFormatSci hi).2 = none := prefix_none false _ hexp
  have hname : '%' ∉ axisName s.unit s.defaultLabel := by
    unfold axisName
    split_ifs <;> first | decide | exact hd
  obtain ⟨c, t', hct⟩ : ∃ c t', t = c :: t' := List.exists_cons_of_ne_nil hne
  have hpc := pc_templ [] s.unit _ (helpFormatSci hi).2 hu hname ps h
  rw [← htt, hct] at hpc
  unfold UF.call
  simp only [h1, h2, if_pos h3, ht, hct, hp1, hpc]
  rfl

/-- C73: ticks too large or too small for a prefix.  The label has none, and the ticks are written as they are, in
scientific notation. -/
theorem C73_far (s : UF) (ps : List Piece) (h : ∀ q ∈ ps, q.Plain) (hbox : Piece.box ∈ ps)
    (hf : s.labelFmt = ps.flatMap Piece.written) (t : List Char) (ht : s.template = some t)
    (hs : makeTemplate s.labelFmt s.unit s.defaultLabel = .ok t)
    (hu : '%' ∉ s.unit) (hd : '%' ∉ s.defaultLabel) (digs : Nat) (locs : List ℝ) (hl : Narrow locs)
    (hr : (∃ l ∈ locs, (10 : ℝ) ^ (24 : ℤ) ≤ |l|) ∨ ∀ l ∈ locs, |l| < (10 : ℝ) ^ (-24 : ℤ)) (x : ℝ) :
    s.call true digs locs x =
      .ok (⟨x, .sci digs⟩, some (ps.flatMap (Piece.reads [] s.unit (axisName s.unit s.defaultLabel)))) := by
  refine far_ne s ps h hf t ht hs ?_ hu hd digs locs hl hr x
  have htempl := template_eq ps h s.unit s.defaultLabel
  rw [← hf, hs] at htempl
  have htt : t = ps.flatMap (templ s.unit (axisName s.unit s.defaultLabel)) := by simpa using htempl
  obtain ⟨a, b, rfl⟩ := List.append_of_mem hbox
  rw [htt]
  simp [templ, tBoxPre]

end HF.Plot
