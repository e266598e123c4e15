import Verif.Plot.TickProps
/-
C73: concrete labels, and where the claims fail.
-/
namespace HF.Plot

open HF.Units

/-! ### Non-vacuity -/

/-- `{default} []` -/
def freqPieces : List Piece := [.name, .text [' '], .box]

theorem plain_freq : ∀ q ∈ freqPieces, q.Plain := by
  intro q hq
  rcases List.mem_cons.1 hq with rfl | hq
  · trivial
  · rcases List.mem_cons.1 hq with rfl | hq
    · simp [Piece.Plain]
    · rw [List.mem_singleton] at hq; subst hq; trivial

/-- A formatter that was told the format, then the unit. -/
def freqUF : UF := (run {} [.setFmt (some (freqPieces.flatMap Piece.written)), .setUnit none, .setUnit (some ['H', 'z'])]).1

theorem template_freq : freqUF.template = some ("Frequency [%(prefix)sHz]".toList) ∧ freqUF.unit = ['H', 'z'] ∧
    freqUF.labelFmt = freqPieces.flatMap Piece.written ∧ freqUF.defaultLabel = ['X'] ∧
    makeTemplate freqUF.labelFmt freqUF.unit freqUF.defaultLabel = .ok ("Frequency [%(prefix)sHz]".toList) := by
  refine ⟨by decide +kernel, by decide +kernel, by decide +kernel, by decide +kernel, ?_⟩
  rw [show freqUF.labelFmt = freqPieces.flatMap Piece.written by decide +kernel, template_eq _ plain_freq]
  congr 1

example : (run {} [.setFmt (some (freqPieces.flatMap Piece.written)), .setUnit none, .setUnit (some ['H', 'z'])]).2.isOk = true := by
  decide +kernel

theorem narrow_ghz : Narrow [(1 : ℝ) * 10 ^ 9, 2 * 10 ^ 9, 3 * 10 ^ 9] := by
  constructor
  · exact ⟨1 * 10 ^ 9, by simp, by norm_num⟩
  · intro l hl m hm _
    simp only [List.mem_cons, List.not_mem_nil, or_false] at hl hm
    rcases hl with rfl | rfl | rfl <;> rcases hm with rfl | rfl | rfl <;> norm_num [abs_of_pos]

theorem range_ghz : ∀ l ∈ [(1 : ℝ) * 10 ^ 9, 2 * 10 ^ 9, 3 * 10 ^ 9], l ≠ 0 → (10 : ℝ) ^ (-24 : ℤ) ≤ |l| ∧ |l| < (10 : ℝ) ^ (24 : ℤ) := by
  intro l hl _
  simp only [List.mem_cons, List.not_mem_nil, or_false] at hl
  rcases hl with rfl | rfl | rfl <;> norm_num [abs_of_pos]

example : ∃ (p : String) (e : ℤ) (d : Nat), siPower p = some e ∧
    (∀ x, ∃ v, freqUF.call true 3 [1 * 10 ^ 9, 2 * 10 ^ 9, 3 * 10 ^ 9] x = .ok (⟨v, .fixed d⟩, some (freqPieces.flatMap
      (Piece.reads p.toList freqUF.unit (axisName freqUF.unit freqUF.defaultLabel)))) ∧ v * 10 ^ e = x) := by
  obtain ⟨h1, h2, h3, h4, h5⟩ := template_freq
  obtain ⟨p, e, d, a, b, _⟩ := C73_ticks freqUF freqPieces plain_freq (by simp [freqPieces]) h3 _ h1 h5 (by rw [h2]; decide)
    (by rw [h4]; decide) 3 _ narrow_ghz range_ghz
  exact ⟨p, e, d, a, b⟩

example (x : ℝ) : freqUF.call true 3 [2 * 10 ^ 30] x = .ok (⟨x, .sci 3⟩, some (freqPieces.flatMap
    (Piece.reads [] freqUF.unit (axisName freqUF.unit freqUF.defaultLabel)))) := by
  obtain ⟨h1, h2, h3, h4, h5⟩ := template_freq
  exact C73_far freqUF freqPieces plain_freq (by simp [freqPieces]) h3 _ h1 h5 (by rw [h2]; decide) (by rw [h4]; decide) 3 _
    ⟨⟨_, List.mem_singleton.2 rfl, by norm_num⟩, by
      intro l hl m hm _
      simp only [List.mem_singleton] at hl hm
      subst hl; subst hm
      norm_num [abs_of_pos]⟩
    (Or.inl ⟨_, List.mem_singleton.2 rfl, by norm_num [abs_of_pos]⟩) x

/-! ### Where it fails -/

/-- C73 fails for a format given when the formatter is made: with a unit it is an error, and without it is
forgotten. -/
theorem C73_init_refuted :
    (∀ ps : List Piece, Piece.box ∈ ps → ∀ u : List Char, u ≠ [] → UF.init (some (ps.flatMap Piece.written)) (some u) = .error .attributeError) ∧
    ∀ fmt unit s, UF.init fmt unit = .ok s → s.template = none ∧
      ∀ hasFun digs locs x, ∃ tick, s.call hasFun digs locs x = .ok (tick, none) := by
  constructor
  · intro ps hb u hu
    have h1 : hasSub tBox (ps.flatMap Piece.written) = true := by
      rw [hasSub_iff tBox (by decide)]
      obtain ⟨a, b, rfl⟩ := List.append_of_mem hb
      exact ⟨a.flatMap Piece.written, b.flatMap Piece.written, by simp [Piece.written, tBox]⟩
    have h2 : ({ defaultUnit := some u, labelFmt := ps.flatMap Piece.written } : UF).unit ≠ [] := by
      show degree u ≠ []
      unfold degree
      split
      · simp
      · exact hu
    unfold UF.init
    rw [if_pos]
    simp only [Option.getD_some, h1, Bool.true_and, Bool.or_eq_true, decide_eq_true_eq]
    exact Or.inl (Or.inl (Or.inl h2))
  · intro fmt unit s h
    have ht : s.template = none := by
      unfold UF.init at h
      simp only at h
      split at h
      · simp at h
      · simp only [Except.ok.injEq] at h
        rw [← h]
    refine ⟨ht, fun hasFun digs locs x => ?_⟩
    unfold UF.call
    simp only [ht]
    split
    · split
      · cases hasFun <;> exact ⟨_, rfl⟩
      · exact ⟨_, rfl⟩
    · exact ⟨_, rfl⟩

/-- C73 fails for units with a percent sign: the ticks cannot be formatted. -/
theorem C73_percent_refuted (pre : List Char) (e : Int) :
    ∃ t, makeTemplate tBox ['%'] ['X'] = .ok t ∧ pcFormat (tickEnv pre e) .text t = .error .valueError := by
  refine ⟨['[', '%', '(', 'p', 'r', 'e', 'f', 'i', 'x', ')', 's', '%', ']'], ?_, ?_⟩
  · have := template_eq [.box] (by simp [Piece.Plain]) ['%'] ['X']
    simpa [Piece.written, templ, tBox, tBoxPre] using this
  · have h := pc_text (tickEnv pre e) ['['] (tPrefix ++ ['%', ']']) (by decide)
    rw [pc_prefix] at h
    have h2 : pcFormat (tickEnv pre e) .text ['%', ']'] = .error .valueError := by simp [pcFormat]
    rw [h2] at h
    exact h

/-- C73 fails for `[^]`: with a unit, whatever it is, no label can be made. -/
theorem C73_power_refuted (unit dim : List Char) (hu : unit ≠ []) : makeTemplate tPow unit dim = .error .valueError := by
  have h1 : hasSub tBox tPow = false := by decide
  have h2 : hasSub tPow tPow = true := by decide
  have h3 : replace tPow tPowUnit tPow = tPowUnit := by decide
  have h4 : hasSub tUnit tPowUnit = true := by decide
  unfold makeTemplate
  simp only [h1, h2, Bool.false_eq_true, if_false, if_true, if_pos hu, h3, h4, Bool.true_or, ne_eq, hu, not_false_eq_true]
  have hun : nameEnv unit (labelName unit dim) ['u', 'n', 'i', 't'] = some unit := rfl
  simp [tPowUnit, brFormat, hun, Except.map]

theorem giga : (helpFormatSci ((5 : ℝ) * 10 ^ 9)).2 = 9 := by
  have hr := exp_range (x := (5 : ℝ) * 10 ^ 9) (a := 3) (b := 4) (by norm_num) (by rw [abs_of_pos] <;> norm_num) (by rw [abs_of_pos] <;> norm_num)
  have hd := (C16_engineering ((5 : ℝ) * 10 ^ 9)).2.1
  omega

open Classical in
theorem one_loc (l : ℝ) (hl : 0 < l) : ([l].filter (· ≠ 0)).map abs = [l] := by
  have : l ≠ 0 := hl.ne'
  simp [this, abs_of_pos hl]

/-- C73 fails without label: the tick at 5e9 reads 5, and nothing tells the prefix. -/
theorem C73_nolabel_refuted (s : UF) (hs : s.template = none) :
    ∃ d, s.call true 3 [5 * 10 ^ 9] (5 * 10 ^ 9) = .ok (⟨5, .fixed d⟩, none) := by
  refine ⟨digits [5 * 10 ^ 9] (10 ^ (9 : ℤ)) 3, ?_⟩
  unfold UF.call
  simp only [one_loc (5 * 10 ^ 9) (by norm_num)]
  have h1 : [(5 : ℝ) * 10 ^ 9].max? = some (5 * 10 ^ 9) := rfl
  have h2 : [(5 : ℝ) * 10 ^ 9].min? = some (5 * 10 ^ 9) := rfl
  simp only [h1, h2, giga, hs]
  rw [if_pos (by norm_num)]
  congr 3
  norm_num

open Classical in
/-- C73 fails after a change of the range: if the ticks are more than four decades apart they get prefixes of their own,
and the label with the old prefix stays. -/
theorem C73_stale_refuted (s : UF) (hasFun : Bool) (digs : Nat) (x : ℝ) :
    s.call hasFun digs [1, 10 ^ 5] x = .ok (⟨x, .eng⟩, none) := by
  have h : ([(1 : ℝ), 10 ^ 5].filter (· ≠ 0)).map abs = [1, 10 ^ 5] := by norm_num [List.filter_cons]
  unfold UF.call
  simp only [h]
  have h1 : [(1 : ℝ), 10 ^ 5].max? = some (10 ^ 5) := by
    rw [List.max?_eq_some_iff]; norm_num
  have h2 : [(1 : ℝ), 10 ^ 5].min? = some 1 := by
    rw [List.min?_eq_some_iff]; norm_num
  simp only [h1, h2]
  rw [if_neg (by norm_num)]

theorem trunc_eq {v : ℝ} {n : ℤ} (h0 : 0 ≤ v) (h1 : (n : ℝ) ≤ v) (h2 : v < n + 1) : trunc v = n := by
  rw [trunc, if_pos h0, Int.floor_eq_iff]
  exact ⟨h1, h2⟩

/-- C73: different ticks can read the same: 1 and 1.0001 are both written without decimals. -/
theorem C73_same_text_refuted : digits [(1 : ℝ), 1.0001] 1 3 = 0 ∧ roundDigs 0 1 = roundDigs 0 (1.0001 : ℝ) := by
  have hf : Fits [(1 : ℝ), 1.0001] 1 0 := by
    intro l hl
    simp only [List.mem_cons, List.not_mem_nil, or_false] at hl
    rcases hl with rfl | rfl
    · rw [trunc_eq (n := 1) (by norm_num) (by norm_num) (by norm_num)]; norm_num
    · rw [trunc_eq (n := 1) (by norm_num) (by norm_num) (by norm_num)]; norm_num [abs_lt]
  constructor
  · unfold digits
    rw [show List.range 3 = [0, 1, 2] from rfl, List.find?_cons_of_pos (by simpa using hf)]
    rfl
  · have h := fits_round hf
    have e : ∀ v : ℝ, v ∈ [(1 : ℝ), 1.0001] → round (v * 10 ^ 0) = 1 := by
      intro v hv
      have := round_trunc (hf v hv)
      rw [div_one] at this
      rw [this]
      simp only [List.mem_cons, List.not_mem_nil, or_false] at hv
      rcases hv with rfl | rfl <;> exact trunc_eq (by norm_num) (by norm_num) (by norm_num)
    unfold roundDigs
    rw [e 1 (by simp), e 1.0001 (by simp)]

end HF.Plot
