import Verif.Config.ScalarInterval
/-
C88: settings without quotes.
-/
namespace HF
namespace Config
namespace Scalars

open Re
open Utils (isDigit decValue)
open Units (parseFloat decimal pow10 prefixPower lookup_prefix)

/-! ### Dates and times -/

theorem mem_digits {n : Nat} : ∀ {s : List Char} {x : Caps × List Char},
    x ∈ run (digits n) s ↔ ∃ w, (w.length = n ∧ Digits w) ∧ s = w ++ x.2 ∧ x.1 = [] := by
  induction n with
  | zero =>
    rintro s ⟨g, r⟩
    simp only [digits, mem_eps, Prod.mk.injEq]
    constructor
    · rintro ⟨rfl, rfl⟩; exact ⟨[], ⟨rfl, rfl⟩, rfl, rfl⟩
    · rintro ⟨w, ⟨h, -⟩, rfl, rfl⟩
      rw [List.length_eq_zero_iff] at h
      subst h
      exact ⟨rfl, rfl⟩
  | succ n ih =>
    rintro s ⟨g, r⟩
    simp only [digits, mem_seq]
    constructor
    · rintro ⟨⟨g1, r1⟩, h1, ⟨g2, r2⟩, h2, e⟩
      obtain ⟨c, k1, hc, k2⟩ := mem_cls.1 h1
      obtain ⟨w, ⟨hw, hd⟩, k3, k4⟩ := ih.1 h2
      simp only at k1 k2 k3 k4
      subst k2 k4
      simp only [List.append_nil, Prod.mk.injEq] at e
      obtain ⟨rfl, rfl⟩ := e
      refine ⟨c :: w, ⟨by simp [hw], ?_⟩, by rw [k1, k3]; rfl, rfl⟩
      simp only [Digits, List.all_cons, hc, Bool.true_and]
      exact hd
    · rintro ⟨w, ⟨hw, hd⟩, rfl, rfl⟩
      cases w with
      | nil => simp at hw
      | cons c w =>
        rw [Digits, List.all_cons, Bool.and_eq_true] at hd
        exact ⟨([], w ++ r), mem_cls.2 ⟨c, rfl, hd.1, rfl⟩, ([], r), ih.2 ⟨w, ⟨by simpa using hw, hd.2⟩, rfl, rfl⟩, rfl⟩

theorem mem_chr_seq {c : Char} {b : Re} {s : List Char} {x : Caps × List Char} :
    x ∈ run (.seq (chr c) b) s ↔ ∃ s', s = c :: s' ∧ x ∈ run b s' := by
  rw [mem_seq]
  constructor
  · rintro ⟨⟨g1, r1⟩, h1, z, hz, rfl⟩
    obtain ⟨k1, k2⟩ := mem_chr.1 h1
    simp only at k1 k2
    subst k2
    exact ⟨r1, k1, by simpa using hz⟩
  · rintro ⟨s', rfl, h⟩
    exact ⟨([], s'), mem_chr.2 ⟨rfl, rfl⟩, x, h, by simp⟩

theorem mem_digits_seq {n : Nat} {b : Re} {s : List Char} {x : Caps × List Char} :
    x ∈ run (.seq (digits n) b) s ↔ ∃ w s', (w.length = n ∧ Digits w) ∧ s = w ++ s' ∧ x ∈ run b s' := by
  rw [mem_seq]
  constructor
  · rintro ⟨⟨g1, r1⟩, h1, z, hz, rfl⟩
    obtain ⟨w, hw, k1, k2⟩ := mem_digits.1 h1
    simp only at k1 k2
    subst k2
    exact ⟨w, r1, hw, k1, by simpa using hz⟩
  · rintro ⟨w, s', hw, rfl, h⟩
    exact ⟨([], s'), mem_digits.2 ⟨w, hw, rfl, rfl⟩, x, h, by simp⟩

theorem mem_date {t : List Char} {x : Caps × List Char} :
    x ∈ run regDateTime t ↔ (∃ y m d h n, DateText t y m d h n x.2) ∧ x.1 = [] := by
  simp only [regDateTime, seqs, mem_digits_seq, mem_chr_seq, mem_digits]
  constructor
  · rintro ⟨y, _, hy, rfl, _, rfl, m, _, hm, rfl, _, rfl, d, _, hd, rfl, _, rfl, h, _, hh, rfl, _, rfl, n, hn, rfl, hx⟩
    exact ⟨⟨y, m, d, h, n, hy, hm, hd, hh, hn, rfl⟩, hx⟩
  · rintro ⟨⟨y, m, d, h, n, hy, hm, hd, hh, hn, rfl⟩, hx⟩
    exact ⟨y, _, hy, rfl, _, rfl, m, _, hm, rfl, _, rfl, d, _, hd, rfl, _, rfl, h, _, hh, rfl, _, rfl, n, hn, rfl, hx⟩

theorem date_match (t : List Char) : (regDateTime.match t).isSome ↔ ∃ y m d h n r, DateText t y m d h n r := by
  rw [match_isSome]
  constructor
  · rintro ⟨x, hx⟩
    obtain ⟨⟨y, m, d, h, n, hd⟩, -⟩ := mem_date.1 hx
    exact ⟨y, m, d, h, n, x.2, hd⟩
  · rintro ⟨y, m, d, h, n, r, hd⟩
    exact ⟨([], r), mem_date.2 ⟨⟨y, m, d, h, n, hd⟩, rfl⟩⟩

theorem time_match (t : List Char) : (regTime.match t).isSome ↔ TimeText t := by
  rw [match_isSome]
  constructor
  · rintro ⟨x, hx⟩
    simp only [regTime, seqs] at hx
    obtain ⟨⟨g1, r1⟩, h1, z, hz, -⟩ := mem_seq.1 hx
    obtain ⟨_, _, -, h1, -⟩ := mem_group.1 h1
    obtain ⟨h, hh, k1, -⟩ := mem_digits.1 h1
    obtain ⟨s', k2, hz⟩ := mem_chr_seq.1 hz
    obtain ⟨⟨g3, r3⟩, h3, -⟩ := mem_seq.1 hz
    obtain ⟨_, _, -, h3, -⟩ := mem_group.1 h3
    obtain ⟨m, hm, k3, -⟩ := mem_digits.1 h3
    simp only at k1 k2 k3
    exact ⟨h, m, r3, hh, hm, by rw [k1, k2, k3]⟩
  · rintro ⟨h, m, r, hh, hm, rfl⟩
    simp only [regTime, seqs]
    exact ⟨_, mem_seq.2 ⟨([(1, h)], _), mem_group.2 ⟨[], h, rfl, mem_digits.2 ⟨h, hh, rfl, rfl⟩, rfl⟩,
      _, mem_chr_seq.2 ⟨_, rfl, mem_seq.2 ⟨([(2, m)], r), mem_group.2 ⟨[], m, rfl, mem_digits.2 ⟨m, hm, rfl, rfl⟩, rfl⟩,
      ([], r), mem_opt.2 (.inr rfl), rfl⟩⟩, rfl⟩⟩

theorem digit_some (c : Char) : (Clock.digit c).isSome = isDigit c := by
  unfold Clock.digit
  have : c.isDigit = isDigit c := by
    simp only [Char.isDigit, isDigit, ge_iff_le]
    rfl
  rw [this]
  cases isDigit c <;> rfl

/-! ### Exclusion -/

theorem sign_chars {s : List Char} (h : Sign s) : ∀ c ∈ s, c = '-' ∨ c = '+' := by
  rcases h with rfl | rfl | rfl <;> simp

/-- Characters that do not occur in values. -/
def Marker (c : Char) : Prop := c = ':' ∨ c = 'y' ∨ c = 'r' ∨ c = 't' ∨ c = 'o'

theorem digit_not_marker {c : Char} (h : isDigit c = true) : ¬ Marker c := by
  rintro (rfl | rfl | rfl | rfl | rfl) <;> exact absurd h (by decide)

theorem number_chars (n : Number) (hn : n.Ok) : ∀ c ∈ n.text, ¬ Marker c := by
  have hs : ∀ {s : List Char}, Sign s → ∀ c ∈ s, ¬ Marker c := by
    intro s h c hc
    rcases sign_chars h c hc with rfl | rfl <;> (unfold Marker; decide)
  have hd : ∀ {s : List Char}, Digits s → ∀ c ∈ s, ¬ Marker c := by
    intro s h c hc
    rw [Digits, List.all_eq_true] at h
    exact digit_not_marker (h c hc)
  intro c hc
  simp only [Number.text, List.mem_append] at hc
  rcases hc with ((hc | hc) | hc) | hc
  · exact hs hn.sign c hc
  · exact hd hn.ints c hc
  · cases hf : n.frac with
    | none => rw [hf] at hc; simp at hc
    | some f =>
      rw [hf] at hc
      rcases List.mem_cons.1 hc with rfl | hc
      · unfold Marker; decide
      · exact hd (hn.frac f hf).2 c hc
  · cases he : n.exp with
    | none => rw [he] at hc; simp at hc
    | some e =>
      obtain ⟨h1, h2, h3, h4⟩ := hn.exp e he
      rw [he] at hc
      rcases List.mem_cons.1 hc with rfl | hc
      · rcases h1 with h | h <;> rw [h] <;> (unfold Marker; decide)
      · rcases List.mem_append.1 hc with hc | hc
        · exact hs h2 c hc
        · exact hd h4 c hc

theorem blanks_chars {b : List Char} (h : Blanks b) : ∀ c ∈ b, ¬ Marker c := by
  intro c hc
  rcases h c hc with rfl | rfl <;> (unfold Marker; decide)

theorem si_chars {t : List Char} (h : SIText t) : ∀ c ∈ t, ¬ Marker c := by
  obtain ⟨n, b, p, u, hn, hb, hp, hu, rfl⟩ := h
  intro c hc
  rcases List.mem_append.1 hc with hc | hc
  · rcases List.mem_append.1 hc with hc | hc
    · exact number_chars n hn c hc
    · exact blanks_chars hb c hc
  · obtain ⟨-, -, -, h1, h2, h3, h4, h5, -⟩ := tail_chars p (mem_prefixes hp) u (mem_units hu) c hc
    rintro (h | h | h | h | h)
    exacts [h1 h, h2 h, h3 h, h4 h, h5 h]

theorem percent_chars {t : List Char} {x : ℚ} (h : PercentText t x) : ∀ c ∈ t, ¬ Marker c := by
  obtain ⟨n, b, k, f, hn, hb, hk, rfl, -⟩ := h
  intro c hc
  rcases List.mem_append.1 hc with hc | hc
  · rcases List.mem_append.1 hc with hc | hc
    · exact number_chars n hn c hc
    · exact blanks_chars hb c hc
  · have : ∀ k ∈ [['%'], ['p', 'p', 'm'], ['p', 'p', 'b']], ∀ c ∈ k, c ≠ ':' ∧ c ≠ 'y' ∧ c ≠ 'r' ∧ c ≠ 't' ∧ c ≠ 'o' := by decide
    obtain ⟨h1, h2, h3, h4, h5⟩ := this k (part_words.2 ⟨f, hk⟩) c hc
    rintro (h | h | h | h | h)
    exacts [h1 h, h2 h, h3 h, h4 h, h5 h]

theorem piece_marker (p : Piece) (hp : p.Ok) : (∃ c ∈ p.text, Marker c) ∧ ':' ∉ p.text := by
  have hw : (∃ c ∈ p.word, Marker c) ∧ ':' ∉ p.word := by
    have := hp.span
    revert this
    generalize p.word = w
    generalize p.unit = k
    generalize p.secs = s
    unfold Marker
    intro h
    cases h <;> decide
  constructor
  · obtain ⟨c, hc, h⟩ := hw.1
    exact ⟨c, List.mem_append.2 (.inr hc), h⟩
  · intro h
    rcases List.mem_append.1 h with h | h
    · rcases List.mem_append.1 h with h | h
      · exact absurd (amount_chars p hp ':' h).1 (by decide)
      · exact absurd (List.eq_of_mem_replicate h) (by decide)
    · exact hw.2 h

theorem reading_marker {t : List Char} {ps : List Piece} (h : Reading t ps) : (∃ c ∈ t, Marker c) ∧ ':' ∉ t := by
  induction h with
  | one p hp => exact piece_marker p hp
  | cons p hp n t q ps _ _ ih =>
    obtain ⟨⟨c, hc, hm⟩, hn⟩ := piece_marker p hp
    refine ⟨⟨c, List.mem_append.2 (.inl hc), hm⟩, ?_⟩
    intro h
    rcases List.mem_append.1 h with h | h
    · exact hn h
    · rcases List.mem_append.1 h with h | h
      · exact absurd (List.eq_of_mem_replicate h) (by decide)
      · exact ih.2 h

theorem si_percent {t : List Char} {x : ℚ} (h : SIText t) (h' : PercentText t x) : False := by
  obtain ⟨n, b, p, u, hn, hb, hp, hu, rfl⟩ := h
  obtain ⟨n', b', k, f, hn', hb', hk, e, -⟩ := h'
  have := (head_unique hn hn' hb hb' (tail_plain ⟨p, u, hp, hu, rfl⟩) (part_plain hk) e).2
  have key : ∀ p ∈ prefixes, ∀ u ∈ units, p ++ u ∉ [['%'], ['p', 'p', 'm'], ['p', 'p', 'b']] := by decide +kernel
  exact key p (mem_prefixes hp) u (mem_units hu) (this ▸ part_words.2 ⟨f, hk⟩)

theorem date_time {t y m d h n r : List Char} (hd : DateText t y m d h n r) (ht : TimeText t) : False := by
  obtain ⟨⟨hy, hyd⟩, -, -, -, -, rfl⟩ := hd
  obtain ⟨a, b, rest, ⟨ha, -⟩, -, e⟩ := ht
  match y, hy, a, ha with
  | [y1, y2, y3, y4], _, [a1, a2], _ =>
    simp only [List.cons_append, List.nil_append, List.cons.injEq] at e
    rw [e.2.2.1] at hyd
    exact absurd hyd (by simp [Digits, isDigit])

/-! ### C88 -/

theorem interval_match (t : List Char) (ht : Plain t) : (regInterval.match t).isSome ↔ ∃ ps, Reading t ps := by
  rw [match_isSome, regInterval_eq]
  constructor
  · rintro ⟨x, hx⟩
    obtain ⟨t', ps, hl, k1, k2, -⟩ := mem_tail (by simp) (by decide) hx
    have hr := no_newline ht.2.2.2 k1 k2
    rw [hr, List.append_nil] at k1
    subst k1
    rcases lang_reading hl (by decide) ht.2.2.1 with ⟨h, -⟩ | ⟨n, t', h1, h2⟩
    · exact absurd h ht.1
    · cases n with
      | zero => exact ⟨ps, by rw [h1]; exact h2⟩
      | succ n => exact absurd (by rw [h1, List.replicate_succ]; rfl) ht.2.1
  · rintro ⟨ps, h⟩
    refine tail_mem (reading_lang (ks := [0, 1, 2, 3]) (by decide) h fun p hp => ?_)
    have := ((reading_ok h).1 p hp).span
    revert this
    generalize p.word = w
    generalize p.unit = k
    generalize p.secs = s
    intro h
    cases h <;> decide

theorem percent_match (t : List Char) (ht : t.getLast? ≠ some '\n') : (regPercent.match t).isSome ↔ ∃ x, PercentText t x := by
  rw [match_isSome]
  constructor
  · rintro ⟨x, hx⟩
    obtain ⟨n, b, k, f, g, hn, hb, hk, e, -⟩ := mem_percent ht hx
    exact ⟨_, n, b, k, f, hn, hb, hk, e, rfl⟩
  · rintro ⟨x, n, b, k, f, hn, hb, hk, rfl, -⟩
    exact percent_mem n hn b hb hk

theorem date_colon {t : List Char} (h : ∃ y m d h n r, DateText t y m d h n r) : ':' ∈ t := by
  obtain ⟨y, m, d, h, n, r, -, -, -, -, -, rfl⟩ := h
  simp

theorem time_colon {t : List Char} (h : TimeText t) : ':' ∈ t := by
  obtain ⟨h, m, r, -, -, rfl⟩ := h
  simp

/-- C88: how a text without quotes is recognised.  What YAML itself recognises remains what it is; other texts are values
with unit, percent values, intervals, dates and times if they have that form, in whatever order the forms are tried, and
texts otherwise. -/
theorem C88_detect (yaml : List Char → Option Tag) (t : List Char) (ht : Plain t) :
    (∀ g, yaml t = some g → detect yaml t = g) ∧
    (yaml t = none →
      (detect yaml t = .sivalue ↔ SIText t) ∧
      (detect yaml t = .percent ↔ ∃ x, PercentText t x) ∧
      (detect yaml t = .interval ↔ ∃ ps, Reading t ps) ∧
      (detect yaml t = .shortdatetime ↔ ∃ y m d h n r, DateText t y m d h n r) ∧
      (detect yaml t = .time ↔ TimeText t) ∧
      (detect yaml t = .str ↔ ¬ SIText t ∧ ¬ (∃ x, PercentText t x) ∧ ¬ (∃ ps, Reading t ps) ∧
        ¬ (∃ y m d h n r, DateText t y m d h n r) ∧ ¬ TimeText t)) := by
  refine ⟨fun g hg => by rw [detect, hg], fun hy => ?_⟩
  have m1 := si_match t ht.2.2.2
  have m2 := percent_match t ht.2.2.2
  have m3 := interval_match t ht
  have m4 := date_match t
  have m5 := time_match t
  have x12 : SIText t → ¬ ∃ x, PercentText t x := fun h ⟨x, h'⟩ => si_percent h h'
  have x13 : SIText t → ¬ ∃ ps, Reading t ps := fun h ⟨ps, h'⟩ => by
    obtain ⟨c, hc, hm⟩ := (reading_marker h').1
    exact si_chars h c hc hm
  have x14 : SIText t → ¬ ∃ y m d h n r, DateText t y m d h n r := fun h h' => si_chars h ':' (date_colon h') (.inl rfl)
  have x15 : SIText t → ¬ TimeText t := fun h h' => si_chars h ':' (time_colon h') (.inl rfl)
  have x23 : (∃ x, PercentText t x) → ¬ ∃ ps, Reading t ps := fun ⟨x, h⟩ ⟨ps, h'⟩ => by
    obtain ⟨c, hc, hm⟩ := (reading_marker h').1
    exact percent_chars h c hc hm
  have x24 : (∃ x, PercentText t x) → ¬ ∃ y m d h n r, DateText t y m d h n r :=
    fun ⟨x, h⟩ h' => percent_chars h ':' (date_colon h') (.inl rfl)
  have x25 : (∃ x, PercentText t x) → ¬ TimeText t := fun ⟨x, h⟩ h' => percent_chars h ':' (time_colon h') (.inl rfl)
  have x34 : (∃ ps, Reading t ps) → ¬ ∃ y m d h n r, DateText t y m d h n r :=
    fun ⟨ps, h⟩ h' => (reading_marker h).2 (date_colon h')
  have x35 : (∃ ps, Reading t ps) → ¬ TimeText t := fun ⟨ps, h⟩ h' => (reading_marker h).2 (time_colon h')
  have x45 : (∃ y m d h n r, DateText t y m d h n r) → ¬ TimeText t := fun ⟨y, m, d, h, n, r, hd⟩ h' => date_time hd h'
  have hd : detect yaml t = if (regSI.match t).isSome then .sivalue else if (regPercent.match t).isSome then .percent
      else if (regInterval.match t).isSome then .interval else if (regDateTime.match t).isSome then .shortdatetime
      else if (regTime.match t).isSome then .time else .str := by
    rw [detect, hy]
    simp only [resolvers, List.find?_cons]
    cases (regSI.match t).isSome <;> simp only [Bool.false_eq_true, if_false, if_true]
    cases (regPercent.match t).isSome <;> simp only [Bool.false_eq_true, if_false, if_true]
    cases (regInterval.match t).isSome <;> simp only [Bool.false_eq_true, if_false, if_true]
    cases (regDateTime.match t).isSome <;> simp only [Bool.false_eq_true, if_false, if_true]
    cases (regTime.match t).isSome <;> simp only [Bool.false_eq_true, if_false, if_true, List.find?_nil]
  rw [hd]
  classical
  simp only [m1, m2, m3, m4, m5]
  by_cases h1 : SIText t
  · simp [h1, x12 h1, x13 h1, x14 h1, x15 h1]
  by_cases h2 : ∃ x, PercentText t x
  · simp [h1, h2, x23 h2, x24 h2, x25 h2]
  by_cases h3 : ∃ ps, Reading t ps
  · simp [h1, h2, h3, x34 h3, x35 h3]
  by_cases h4 : ∃ y m d h n r, DateText t y m d h n r
  · simp [h1, h2, h3, h4, x45 h4]
  by_cases h5 : TimeText t
  · simp [h1, h2, h3, h4, h5]
  · simp [h1, h2, h3, h4, h5]

/-- C88: number, prefix, and unit or not. -/
theorem C88_prefixed (n : Number) (hn : n.Ok) (b : List Char) (hb : Blanks b) (c : Char) (e : Int)
    (hc : prefixPower c = some e) (u : List Char) (hu : u = [] ∨ IsUnit u) :
    siConstructor (n.text ++ b ++ c :: u) = .ok (n.value * (10 : ℚ) ^ e, if u = [] then none else some u) := by
  obtain ⟨g, h1, h2, h3⟩ := si_value n hn b hb [c] u (mem_prefixes (.inr ⟨c, e, hc, rfl⟩)) (mem_units hu)
    (.inr ⟨c, e, hc, rfl⟩) hu
  rw [if_neg (by simp), if_neg (by simp)] at h3
  simp only [Prod.mk.injEq] at h3
  rw [List.singleton_append] at h1
  simp only [siConstructor, h1, h2, number_value n hn, h3.1, h3.2, prefixOf, lookup_prefix, hc, pow10]

/-- C88: a number alone or with a unit other than metre. -/
theorem C88_plain (n : Number) (hn : n.Ok) (b : List Char) (hb : Blanks b) (u : List Char) (hu : u = [] ∨ IsUnit u)
    (hm : u ≠ ['m']) : siConstructor (n.text ++ b ++ u) = .ok (n.value, if u = [] then none else some u) := by
  obtain ⟨g, h1, h2, h3⟩ := si_value n hn b hb [] u (mem_prefixes (.inl rfl)) (mem_units hu) (.inl rfl) hu
  rw [if_neg (fun h => hm h.2), if_pos rfl] at h3
  simp only [Prod.mk.injEq] at h3
  rw [List.nil_append] at h1
  simp only [siConstructor, h1, h2, number_value n hn, h3.1, h3.2, prefixOf, pow10, zpow_zero, mul_one]

/-- C88 fails for metre: one metre is a thousandth without unit. -/
theorem C88_metre_refuted (n : Number) (hn : n.Ok) (b : List Char) (hb : Blanks b) :
    siConstructor (n.text ++ b ++ ['m']) = .ok (n.value / 1000, none) := by
  have := C88_prefixed n hn b hb 'm' (-3) rfl [] (.inl rfl)
  rw [this, if_pos rfl, div_eq_mul_inv]
  norm_num

/-- C88: percent values. -/
theorem C88_percent (t : List Char) (x : ℚ) (h : PercentText t x) : percentConstructor t = .ok x := by
  obtain ⟨n, b, k, f, hn, hb, hk, rfl, rfl⟩ := h
  have hend := part_end (n := n) (b := b) hk
  obtain ⟨g, hg⟩ := Option.isSome_iff_exists.1 ((percent_match _ hend).2 ⟨_, n, b, k, f, hn, hb, hk, rfl, rfl⟩)
  obtain ⟨r, hr⟩ := match_some hg
  obtain ⟨n', b', k', f', g', hn', hb', hk', e, e1, e2⟩ := mem_percent hend hr
  obtain ⟨e3, rfl⟩ := head_unique hn hn' hb hb' (part_plain hk) (part_plain hk') e
  simp only at e1
  have h1 : g.get 1 = some n.text := by rw [Caps.get, e1, e3]; rfl
  have h3 : g.get 3 = some k := by rw [Caps.get, e1]; exact e2
  simp only [percentConstructor, hg, h1, h3, Option.bind_some, number_value n hn]
  cases hk with
  | percent => simp
  | million => simp [pow10]; norm_num
  | billion => simp [pow10]; norm_num

theorem reading_plain {t : List Char} {ps : List Piece} (h : Reading t ps) : Plain t := by
  have hlast : ∃ c, t.getLast? = some c ∧ c ≠ ' ' ∧ c ≠ '\n' := by
    induction h with
    | one p hp => exact (piece_ends p hp).2
    | cons p hp n t q ps _ _ ih =>
      obtain ⟨c, hc, h⟩ := ih
      exact ⟨c, by rw [List.getLast?_append, List.getLast?_append, hc]; rfl, h⟩
  have hhead : ∃ c, t.head? = some c ∧ isDigit c = true := by
    cases h with
    | one p hp => exact (piece_ends p hp).1
    | cons p hp n t q ps _ _ =>
      obtain ⟨c, hc, h⟩ := (piece_ends p hp).1
      exact ⟨c, by rw [List.head?_append, hc]; rfl, h⟩
  obtain ⟨c, hc, h1, h2⟩ := hlast
  obtain ⟨d, hd, h3⟩ := hhead
  refine ⟨?_, ?_, ?_, ?_⟩
  · rintro rfl; cases hc
  · rw [hd]
    rintro ⟨⟩
    exact absurd h3 (by decide)
  · rw [hc]; rintro ⟨⟩; exact h1 rfl
  · rw [hc]; rintro ⟨⟩; exact h2 rfl

/-- C88: intervals. -/
theorem C88_interval (t : List Char) (ps : List Piece) (h : Reading t ps) : intervalConstructor t = .ok (total ps) := by
  have ht := reading_plain h
  obtain ⟨g, hg⟩ := Option.isSome_iff_exists.1 ((interval_match t ht).2 ⟨ps, h⟩)
  obtain ⟨r, hr⟩ := match_some hg
  rw [regInterval_eq] at hr
  obtain ⟨t', ps', hl, k1, k2, hgr⟩ := mem_tail (by simp) (by decide) hr
  have hr0 := no_newline ht.2.2.2 k1 k2
  rw [hr0, List.append_nil] at k1
  subst k1
  have hps : Reading t ps' := by
    rcases lang_reading hl (by decide) ht.2.2.1 with ⟨h, -⟩ | ⟨n, t', h1, h2⟩
    · exact absurd h ht.1
    · cases n with
      | zero => rw [h1]; exact h2
      | succ n => exact absurd (by rw [h1, List.replicate_succ]; rfl) ht.2.1
  rw [total_unique h hps]
  have hok := (reading_ok hps).1
  obtain ⟨d, d1, d2⟩ := constructor_amount g ps' hgr hok 0
  obtain ⟨hh, h1, h2⟩ := constructor_amount g ps' hgr hok 1
  obtain ⟨m, m1, m2⟩ := constructor_amount g ps' hgr hok 2
  obtain ⟨s, s1, s2⟩ := constructor_amount g ps' hgr hok 3
  have hsum := sum_parts hl (by decide)
  simp only [List.map_cons, List.map_nil, List.sum_cons, List.sum_nil, add_zero, ← d2, ← h2, ← m2, ← s2, secs, mul_one] at hsum
  simp only [intervalConstructor, hg, d1, h1, m1, s1]
  rw [← hsum]
  congr 1
  ring

/-- C88: what is recognised as value with unit, percent value or interval can be read. -/
theorem C88_loads (yaml : List Char → Option Tag) (t : List Char) (ht : Plain t) (hy : yaml t = none) :
    (detect yaml t = .sivalue → ∃ x u, siConstructor t = .ok (x, u)) ∧
    (detect yaml t = .percent → ∃ x, percentConstructor t = .ok x) ∧
    (detect yaml t = .interval → ∃ x, intervalConstructor t = .ok x) := by
  obtain ⟨h1, h2, h3, -⟩ := (C88_detect yaml t ht).2 hy
  refine ⟨fun h => ?_, fun h => ?_, fun h => ?_⟩
  · obtain ⟨n, b, p, u, hn, hb, hp, hu, rfl⟩ := h1.1 h
    rcases hp with rfl | ⟨c, e, he, rfl⟩
    · by_cases hm : u = ['m']
      · subst hm
        exact ⟨_, _, C88_metre_refuted n hn b hb⟩
      · exact ⟨_, _, C88_plain n hn b hb u hu hm⟩
    · exact ⟨_, _, C88_prefixed n hn b hb c e he u hu⟩
  · obtain ⟨x, hx⟩ := h2.1 h
    exact ⟨x, C88_percent t x hx⟩
  · obtain ⟨ps, hps⟩ := h3.1 h
    exact ⟨_, C88_interval t ps hps⟩

/-- Days of the months. -/
def IsDate (y m d : Nat) : Prop :=
  1 ≤ y ∧ 1 ≤ d ∧
    ((m ∈ [1, 3, 5, 7, 8, 10, 12] ∧ d ≤ 31) ∨ (m ∈ [4, 6, 9, 11] ∧ d ≤ 30) ∨ (m = 2 ∧ d ≤ 28) ∨
      (m = 2 ∧ d = 29 ∧ (4 ∣ y ∧ ¬ 100 ∣ y ∨ 400 ∣ y)))

theorem date_head {t y m d h n r : List Char} (hd : DateText t y m d h n r) :
    ∃ g, (regDateTime.run t).head? = some (g, r) := by
  obtain ⟨g, hg⟩ := Option.isSome_iff_exists.1 ((date_match t).2 ⟨y, m, d, h, n, r, hd⟩)
  unfold Re.match at hg
  obtain ⟨⟨g', r'⟩, hx, -⟩ := Option.map_eq_some_iff.1 hg
  have hm : (g', r') ∈ regDateTime.run t := List.mem_of_mem_head? hx
  obtain ⟨⟨y', m', d', h', n', k1⟩, -⟩ := mem_date.1 hm
  refine ⟨g', ?_⟩
  rw [hx]
  obtain ⟨⟨a1, -⟩, ⟨a2, -⟩, ⟨a3, -⟩, ⟨a4, -⟩, ⟨a5, -⟩, e⟩ := hd
  obtain ⟨⟨b1, -⟩, ⟨b2, -⟩, ⟨b3, -⟩, ⟨b4, -⟩, ⟨b5, -⟩, e'⟩ := k1
  simp only at e'
  have : ∀ (y m d h n r : List Char), y.length = 4 → m.length = 2 → d.length = 2 → h.length = 2 → n.length = 2 →
      (y ++ '-' :: (m ++ '-' :: (d ++ ' ' :: (h ++ ':' :: (n ++ r))))).drop 16 = r := by
    intro y m d h n r h1 h2 h3 h4 h5
    have e : y ++ '-' :: (m ++ '-' :: (d ++ ' ' :: (h ++ ':' :: (n ++ r)))) =
        (y ++ '-' :: (m ++ '-' :: (d ++ ' ' :: (h ++ ':' :: n)))) ++ r := by simp
    rw [e]
    apply List.drop_left'
    simp [h1, h2, h3, h4, h5]
  have k := this y m d h n r a1 a2 a3 a4 a5
  rw [← e, e', this y' m' d' h' n' r' b1 b2 b3 b4 b5] at k
  rw [k]

/-- C88: dates with hours and minutes are read if they exist and refused if they do not. -/
theorem C88_date (t y m d h n : List Char) (hd : DateText t y m d h n []) :
    (IsDate (decValue y) (decValue m) (decValue d) ∧ decValue h < 24 ∧ decValue n < 60 →
      dateConstructor t = .ok ⟨decValue y, decValue m, decValue d, decValue h, decValue n⟩) ∧
    (¬ (IsDate (decValue y) (decValue m) (decValue d) ∧ decValue h < 24 ∧ decValue n < 60) →
      dateConstructor t = .error .valueError) := by
  obtain ⟨g, hg⟩ := date_head hd
  obtain ⟨⟨a1, -⟩, ⟨a2, -⟩, ⟨a3, -⟩, ⟨a4, -⟩, ⟨a5, -⟩, e⟩ := hd
  have h1 : (t.drop 0).take 4 = y ∧ (t.drop 5).take 2 = m ∧ (t.drop 8).take 2 = d ∧ (t.drop 11).take 2 = h ∧
      (t.drop 14).take 2 = n := by
    subst e
    match y, a1, m, a2, d, a3, h, a4, n, a5 with
    | [_, _, _, _], _, [_, _], _, [_, _], _, [_, _], _, [_, _], _ => exact ⟨rfl, rfl, rfl, rfl, rfl⟩
  obtain ⟨k1, k2, k3, k4, k5⟩ := h1
  have key : (1 ≤ decValue y ∧ 1 ≤ decValue m ∧ decValue m ≤ 12 ∧ 1 ≤ decValue d ∧
      decValue d ≤ monthDays (decValue y) (decValue m) ∧ decValue h < 24 ∧ decValue n < 60) ↔
      (IsDate (decValue y) (decValue m) (decValue d) ∧ decValue h < 24 ∧ decValue n < 60) := by
    generalize decValue y = Y
    generalize decValue m = M
    generalize decValue d = D
    unfold IsDate monthDays
    simp only [List.mem_cons, List.not_mem_nil, or_false]
    constructor
    · rintro ⟨q1, q2, q3, q4, q5, q6, q7⟩
      refine ⟨⟨q1, q4, ?_⟩, q6, q7⟩
      split_ifs at q5 <;> omega
    · rintro ⟨⟨q1, q4, q5⟩, q6, q7⟩
      refine ⟨q1, by omega, by omega, q4, ?_, q6, q7⟩
      split_ifs <;> omega
  constructor
  · intro hok
    simp only [dateConstructor, hg, k1, k2, k3, k4, k5]
    rw [if_pos (key.2 hok)]
  · intro hbad
    simp only [dateConstructor, hg, k1, k2, k3, k4, k5]
    rw [if_neg fun h => hbad (key.1 h)]

/-- C88 fails for texts that begin with a date and go on, unless YAML recognises them: they are taken for a date that
cannot be read. -/
theorem C88_date_refuted (yaml : List Char → Option Tag) (t y m d h n r : List Char) (hd : DateText t y m d h n r)
    (hr : r ≠ []) (ht : Plain t) (hy : yaml t = none) :
    detect yaml t = .shortdatetime ∧ dateConstructor t = .error .valueError := by
  refine ⟨((C88_detect yaml t ht).2 hy).2.2.2.1.2 ⟨y, m, d, h, n, r, hd⟩, ?_⟩
  obtain ⟨g, hg⟩ := date_head hd
  obtain ⟨c, r, rfl⟩ := List.exists_cons_of_ne_nil hr
  simp only [dateConstructor, hg]

/-- C88: the texts recognised as time are those for which a time can be made. -/
theorem C88_time (t : List Char) : TimeText t ↔ (Clock.matchTime t).isSome := by
  constructor
  · rintro ⟨h, m, r, ⟨h1, h2⟩, ⟨h3, h4⟩, rfl⟩
    match h, h1, m, h3 with
    | [a, b], _, [c, d], _ =>
      simp only [Digits, List.all_cons, List.all_nil, Bool.and_true, Bool.and_eq_true, ← digit_some] at h2 h4
      obtain ⟨x, hx⟩ := Option.isSome_iff_exists.1 h2.1
      obtain ⟨x', hx'⟩ := Option.isSome_iff_exists.1 h2.2
      obtain ⟨z, hz⟩ := Option.isSome_iff_exists.1 h4.1
      obtain ⟨z', hz'⟩ := Option.isSome_iff_exists.1 h4.2
      simp [Clock.matchTime, Clock.two, hx, hx', hz, hz']
  · intro h
    unfold Clock.matchTime at h
    split at h
    · rename_i a b c d rest
      refine ⟨[a, b], [c, d], rest, ⟨rfl, ?_⟩, ⟨rfl, ?_⟩, rfl⟩
      · simp only [Digits, List.all_cons, List.all_nil, Bool.and_true, Bool.and_eq_true, ← digit_some]
        unfold Clock.two at h
        cases ha : Clock.digit a <;> cases hb : Clock.digit b <;> simp_all
      · simp only [Digits, List.all_cons, List.all_nil, Bool.and_true, Bool.and_eq_true, ← digit_some]
        unfold Clock.two at h
        cases hc : Clock.digit c <;> cases hd : Clock.digit d <;> simp_all
    · cases h

end Scalars
end Config
end HF
