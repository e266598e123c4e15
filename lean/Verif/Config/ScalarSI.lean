import Verif.Config.ScalarLemmas
/-
Values with unit and percent values in the regular expressions of settings.
-/
namespace HF
namespace Config
namespace Scalars

open Re
open Utils (isDigit decValue)
open Units (parseFloat pow10 prefixPower lookup_prefix cfgPrefixes cfgUnits siprefixes)

/-- What may follow number and blanks. -/
def Tail (s : List Char) : Prop :=
  ∃ p u, (p = [] ∨ ∃ c e, prefixPower c = some e ∧ p = [c]) ∧ (u = [] ∨ IsUnit u) ∧ s = p ++ u

theorem isUnit_iff (u : List Char) : IsUnit u ↔ u ∈ cfgUnits := by
  rw [IsUnit, show ["Hz", "V", "A", "m", "s", "W", "Ohm"].map String.toList = cfgUnits by decide]

theorem prefix_iff (c : Char) : cfgPrefixes.contains c = true ↔ ∃ e, prefixPower c = some e := by
  rw [List.contains_iff_mem]
  constructor
  · intro h
    have : ∀ c ∈ cfgPrefixes, (prefixPower c).isSome = true := by decide
    exact Option.isSome_iff_exists.1 (this c h)
  · rintro ⟨e, h⟩
    unfold prefixPower at h
    split at h <;> first | decide | cases h

theorem isBlank_iff (c : Char) : isBlank c = true ↔ c = ' ' ∨ c = '\t' := by simp [isBlank]

theorem blanks_iff (b : List Char) : Blanks b ↔ b.all isBlank = true := by
  rw [List.all_eq_true]
  exact ⟨fun h c hc => (isBlank_iff c).2 (h c hc), fun h c hc => (isBlank_iff c).1 (h c hc)⟩

theorem mem_siTail {s : List Char} {x : Caps × List Char} (h : x ∈ run siTail s) :
    ∃ t, Tail t ∧ s = t ++ x.2 ∧ (x.2 = [] ∨ x.2 = ['\n']) := by
  obtain ⟨gs, r⟩ := x
  obtain ⟨⟨g1, r1⟩, h1, ⟨g2, r2⟩, h2, e⟩ := mem_seq.1 h
  obtain ⟨k, k'⟩ := mem_eos.1 h2
  simp only [Prod.mk.injEq] at k' e k
  obtain ⟨rfl, rfl⟩ := k'
  obtain ⟨rfl, rfl⟩ := e
  rcases mem_opt.1 h1 with h1 | h1
  · obtain ⟨g, w, hw, h1, -⟩ := mem_group.1 h1
    obtain ⟨⟨g3, r3⟩, h3, ⟨g4, r4⟩, h4, e⟩ := mem_seq.1 h1
    simp only [Prod.mk.injEq] at e
    obtain ⟨-, rfl⟩ := e
    have hp : ∃ p, (p = [] ∨ ∃ c e, prefixPower c = some e ∧ p = [c]) ∧ s = p ++ r3 := by
      rcases mem_opt.1 h3 with h3 | h3
      · obtain ⟨g', w', -, h3, -⟩ := mem_group.1 h3
        obtain ⟨c, k1, k2, -⟩ := mem_cls.1 h3
        obtain ⟨e, he⟩ := (prefix_iff c).1 k2
        exact ⟨[c], .inr ⟨c, e, he, rfl⟩, k1⟩
      · simp only [Prod.mk.injEq] at h3
        exact ⟨[], .inl rfl, h3.2.symm⟩
    have hu : ∃ u, (u = [] ∨ IsUnit u) ∧ r3 = u ++ r := by
      rcases mem_opt.1 h4 with h4 | h4
      · obtain ⟨g', w', -, h4, -⟩ := mem_group.1 h4
        obtain ⟨u, hu, k1, -⟩ := mem_words.1 h4
        exact ⟨u, .inr ((isUnit_iff u).2 hu), k1⟩
      · simp only [Prod.mk.injEq] at h4
        exact ⟨[], .inl rfl, h4.2.symm⟩
    obtain ⟨p, hp, rfl⟩ := hp
    obtain ⟨u, hu, rfl⟩ := hu
    exact ⟨p ++ u, ⟨p, u, hp, hu, rfl⟩, by simp, k⟩
  · simp only [Prod.mk.injEq] at h1
    obtain ⟨-, rfl⟩ := h1
    exact ⟨[], ⟨[], [], .inl rfl, .inl rfl, rfl⟩, rfl, k⟩

/-- The tails, all of them. -/
def prefixes : List (List Char) := [] :: cfgPrefixes.map ([·])
def units : List (List Char) := [] :: cfgUnits

theorem mem_prefixes {p : List Char} (h : p = [] ∨ ∃ c e, prefixPower c = some e ∧ p = [c]) : p ∈ prefixes := by
  rcases h with rfl | ⟨c, e, he, rfl⟩
  · simp [prefixes]
  · have := List.contains_iff_mem.1 ((prefix_iff c).2 ⟨e, he⟩)
    simp only [prefixes, List.mem_cons, List.mem_map]
    exact .inr ⟨c, this, rfl⟩

theorem mem_units {u : List Char} (h : u = [] ∨ IsUnit u) : u ∈ units := by
  rcases h with rfl | h
  · simp [units]
  · exact List.mem_cons_of_mem _ ((isUnit_iff u).1 h)

/-- The first way in which a tail is matched: prefixes are tried before units. -/
theorem siTail_head : ∀ p ∈ prefixes, ∀ u ∈ units, ((run siTail (p ++ u)).head?.map fun x => (x.1.lookup 4, x.1.lookup 5, x.2)) =
    some (if p = [] ∧ u = ['m'] then (some ['m'], none, [])
      else (if p = [] then none else some p, if u = [] then none else some u, [])) := by
  decide +kernel

theorem tail_chars : ∀ p ∈ prefixes, ∀ u ∈ units, ∀ c ∈ p ++ u,
    isDigit c = false ∧ isBlank c = false ∧ c ≠ '\n' ∧ c ≠ ':' ∧ c ≠ 'y' ∧ c ≠ 'r' ∧ c ≠ 't' ∧ c ≠ 'o' ∧ c ≠ '%' ∧ c ≠ 'b' := by
  decide +kernel

theorem siTail_mem {t : List Char} (h : Tail t) : ∃ x, x ∈ run siTail t := by
  obtain ⟨p, u, hp, hu, rfl⟩ := h
  have := siTail_head p (mem_prefixes hp) u (mem_units hu)
  rcases hr : run siTail (p ++ u) with _ | ⟨x, l⟩
  · rw [hr] at this; simp at this
  · exact ⟨x, by simp⟩

/-! ### Number and blanks -/

theorem mem_head {s : List Char} {x : Caps × List Char} (h : x ∈ run (.seq number (.star isBlank)) s) :
    ∃ (n : Number) (b : List Char) (g : Caps), n.Ok ∧ Blanks b ∧ s = n.text ++ b ++ x.2 ∧ x.1 = (1, n.text) :: g ∧
      ∀ p ∈ g, p.1 = 2 := by
  obtain ⟨gs, r⟩ := x
  obtain ⟨⟨g1, r1⟩, h1, ⟨g2, r2⟩, h2, e⟩ := mem_seq.1 h
  obtain ⟨n, g, hn, k1, k2, k3⟩ := mem_number h1
  obtain ⟨b, k4, hb, k5⟩ := mem_star.1 h2
  simp only at k1 k2 k4 k5
  subst k5
  simp only [List.append_nil, Prod.mk.injEq] at e
  obtain ⟨rfl, rfl⟩ := e
  exact ⟨n, b, g, hn, (blanks_iff b).2 hb, by rw [k1, k4, List.append_assoc], k2, k3⟩

theorem head_mem (n : Number) (hn : n.Ok) (b : List Char) (hb : Blanks b) (r : List Char) :
    ∃ g, (g, r) ∈ run (.seq number (.star isBlank)) (n.text ++ b ++ r) := by
  obtain ⟨g, hg⟩ := number_mem n hn (b ++ r)
  refine ⟨g, mem_seq.2 ⟨(g, b ++ r), ?_, ([], r), mem_star.2 ⟨b, rfl, (blanks_iff b).1 hb, rfl⟩, by simp⟩⟩
  rw [List.append_assoc]
  exact hg

/-- Number and rest are determined if there are neither digits nor blanks in the rest. -/
theorem head_unique {n n' : Number} (hn : n.Ok) (hn' : n'.Ok) {b b' u u' : List Char} (hb : Blanks b) (hb' : Blanks b')
    (hu : ∀ c ∈ u, isDigit c = false ∧ isBlank c = false) (hu' : ∀ c ∈ u', isDigit c = false ∧ isBlank c = false)
    (h : n.text ++ b ++ u = n'.text ++ b' ++ u') : n.text = n'.text ∧ u = u' := by
  obtain ⟨v, c, e, hc⟩ := number_last n hn
  obtain ⟨v', c', e', hc'⟩ := number_last n' hn'
  have hbd : ∀ {b : List Char}, Blanks b → ∀ d ∈ b, isDigit d = false := by
    intro b hb d hd
    rcases hb d hd with rfl | rfl <;> decide
  rw [e, e', List.append_assoc (v ++ [c]) b u, List.append_assoc (v' ++ [c']) b' u'] at h
  obtain ⟨h1, h2⟩ := cut_unique hc hc'
    (fun d hd => (List.mem_append.1 hd).elim (hbd hb d) fun hd => (hu d hd).1)
    (fun d hd => (List.mem_append.1 hd).elim (hbd hb' d) fun hd => (hu' d hd).1) h
  refine ⟨by rw [e, e', h1], ?_⟩
  have k := Units.dropWhile_all ((blanks_iff b).1 hb) (m := u) fun c hc => (hu c (List.mem_of_mem_head? hc)).2
  have k' := Units.dropWhile_all ((blanks_iff b').1 hb') (m := u') fun c hc => (hu' c (List.mem_of_mem_head? hc)).2
  rw [← k, ← k', h2]

theorem tail_plain {u : List Char} (h : Tail u) : ∀ c ∈ u, isDigit c = false ∧ isBlank c = false := by
  obtain ⟨p, u, hp, hu, rfl⟩ := h
  intro c hc
  have := tail_chars p (mem_prefixes hp) u (mem_units hu) c hc
  exact ⟨this.1, this.2.1⟩

/-- The end of a text without line end. -/
theorem no_newline {t w r : List Char} (ht : t.getLast? ≠ some '\n') (h : t = w ++ r) (hr : r = [] ∨ r = ['\n']) : r = [] := by
  rcases hr with hr | rfl
  · exact hr
  · rw [h] at ht; simp at ht

theorem si_match (t : List Char) (ht : t.getLast? ≠ some '\n') : (regSI.match t).isSome ↔ SIText t := by
  rw [match_isSome]
  constructor
  · rintro ⟨x, hx⟩
    obtain ⟨y, hy, z, hz, -⟩ := mem_seq.1 hx
    obtain ⟨n, b, g, hn, hb, k1, -⟩ := mem_head hy
    obtain ⟨u, ⟨p, u, hp, hu, rfl⟩, k2, k3⟩ := mem_siTail hz
    have hz0 := no_newline ht (show t = (n.text ++ b ++ (p ++ u)) ++ z.2 by rw [k1, k2]; simp) k3
    rw [hz0, List.append_nil] at k2
    exact ⟨n, b, p, u, hn, hb, hp, hu, by rw [k1, k2]⟩
  · rintro ⟨n, b, p, u, hn, hb, hp, hu, rfl⟩
    obtain ⟨g, hg⟩ := head_mem n hn b hb (p ++ u)
    obtain ⟨x, hx⟩ := siTail_mem ⟨p, u, hp, hu, rfl⟩
    exact ⟨_, mem_seq.2 ⟨_, hg, x, hx, rfl⟩⟩

/-- The value of a text that is matched. -/
theorem si_value (n : Number) (hn : n.Ok) (b : List Char) (hb : Blanks b) (p u : List Char) (hp : p ∈ prefixes)
    (hu : u ∈ units) (hp' : p = [] ∨ ∃ c e, prefixPower c = some e ∧ p = [c]) (hu' : u = [] ∨ IsUnit u) :
    ∃ g, regSI.match (n.text ++ b ++ (p ++ u)) = some g ∧ g.get 1 = some n.text ∧
      (g.get 4, g.get 5) = if p = [] ∧ u = ['m'] then (some ['m'], none)
        else (if p = [] then none else some p, if u = [] then none else some u) := by
  have hend : (n.text ++ b ++ (p ++ u)).getLast? ≠ some '\n' := by
    intro h
    have hm := List.mem_of_getLast? h
    rcases List.mem_append.1 hm with hm | hm
    · rw [List.getLast?_append] at h
      rcases hpu : (p ++ u).getLast? with _ | c
      · rw [List.getLast?_eq_none_iff] at hpu
        rw [hpu] at h
        simp only [List.getLast?_nil, Option.none_or] at h
        rw [List.getLast?_append] at h
        rcases hbl : b.getLast? with _ | c
        · obtain ⟨v, c, e, hc⟩ := number_last n hn
          rw [hbl, e] at h
          simp only [List.getLast?_append, List.getLast?_singleton, Option.some_or, Option.none_or, Option.some.injEq] at h
          subst h
          exact absurd hc (by decide)
        · rw [hbl] at h
          simp only [Option.some_or, Option.some.injEq] at h
          subst h
          rcases hb _ (List.mem_of_getLast? hbl) with h | h <;> exact absurd h (by decide)
      · rw [hpu] at h
        simp only [Option.some_or, Option.some.injEq] at h
        subst h
        exact (tail_chars p hp u hu _ (List.mem_of_getLast? hpu)).2.2.1 rfl
    · exact (tail_chars p hp u hu _ hm).2.2.1 rfl
  have hsome := (si_match _ hend).2 ⟨n, b, p, u, hn, hb, hp', hu', rfl⟩
  obtain ⟨g, hg⟩ := Option.isSome_iff_exists.1 hsome
  refine ⟨g, hg, ?_⟩
  have htail : Tail (p ++ u) := ⟨p, u, hp', hu', rfl⟩
  unfold Re.match at hg
  obtain ⟨x, hx, rfl⟩ := Option.map_eq_some_iff.1 hg
  have huniq : ∀ y ∈ run (.seq number (.star isBlank)) (n.text ++ b ++ (p ++ u)), run siTail y.2 ≠ [] → y.2 = p ++ u := by
    intro y hy hne
    obtain ⟨n', b', g', hn', hb', k1, -⟩ := mem_head hy
    obtain ⟨z, hz⟩ := List.exists_mem_of_ne_nil _ hne
    obtain ⟨u', hu', k2, k3⟩ := mem_siTail hz
    have hz0 := no_newline hend (show _ = (n'.text ++ b' ++ u') ++ z.2 by rw [k1, k2]; simp) k3
    rw [hz0, List.append_nil] at k2
    rw [k2] at k1
    rw [k2]
    exact (head_unique hn hn' hb hb' (tail_plain htail) (tail_plain hu') k1).2.symm
  obtain ⟨g1, z, h1, h2, rfl⟩ := head_seq huniq hx
  obtain ⟨n', b', g', hn', hb', k1, k2, k3⟩ := mem_head h1
  simp only at k1 k2
  have hnn := (head_unique hn hn' hb hb' (tail_plain htail) (tail_plain htail) k1).1
  have h3 := siTail_head p hp u hu
  rw [h2, Option.map_some, Option.some.injEq] at h3
  have hg' : ∀ k, k ≠ 1 → k ≠ 2 → (g1 ++ z.1).lookup k = z.1.lookup k := by
    intro k hk1 hk2
    rw [List.lookup_append, k2, List.lookup_cons]
    have : (k == 1) = false := by simpa using hk1
    rw [this]
    simp only
    have hnone : g'.lookup k = none := by
      rw [List.lookup_eq_none_iff]
      intro p hp
      rw [k3 p hp]
      simpa using hk2
    rw [hnone, Option.none_or]
  refine ⟨?_, ?_⟩
  · rw [Caps.get, k2, hnn]
    rfl
  · rw [Caps.get, Caps.get, hg' 4 (by decide) (by decide), hg' 5 (by decide) (by decide)]
    split at h3
    · simp only [Prod.mk.injEq] at h3
      simp [*]
    · simp only [Prod.mk.injEq] at h3
      simp [*]

/-! ### Percent -/

theorem part_words {k : List Char} : k ∈ [['%'], ['p', 'p', 'm'], ['p', 'p', 'b']] ↔ ∃ f, Part k f := by
  constructor
  · intro h
    simp only [List.mem_cons, List.not_mem_nil, or_false] at h
    rcases h with rfl | rfl | rfl
    · exact ⟨_, .percent⟩
    · exact ⟨_, .million⟩
    · exact ⟨_, .billion⟩
  · rintro ⟨f, h⟩
    cases h <;> decide

theorem part_plain {k : List Char} {f : ℚ} (h : Part k f) : ∀ c ∈ k, isDigit c = false ∧ isBlank c = false := by
  cases h <;> decide

theorem mem_percent {t : List Char} (ht : t.getLast? ≠ some '\n') {x : Caps × List Char} (h : x ∈ run regPercent t) :
    ∃ (n : Number) (b k : List Char) (f : ℚ) (g : Caps), n.Ok ∧ Blanks b ∧ Part k f ∧ t = n.text ++ b ++ k ∧
      x.1 = (1, n.text) :: g ∧ g.lookup 3 = some k := by
  obtain ⟨y, hy, z, hz, rfl⟩ := mem_seq.1 h
  obtain ⟨n, b, g, hn, hb, k1, k2, k3⟩ := mem_head hy
  obtain ⟨⟨g1, r1⟩, h1, ⟨g2, r2⟩, h2, rfl⟩ := mem_seq.1 hz
  obtain ⟨e1, e2⟩ := mem_eos.1 h2
  simp only [Prod.mk.injEq] at e2 e1
  obtain ⟨rfl, rfl⟩ := e2
  obtain ⟨g3, w, hw, h3, e3⟩ := mem_group.1 h1
  obtain ⟨k, hk, k4, k5⟩ := mem_words.1 h3
  obtain ⟨f, hf⟩ := part_words.1 hk
  simp only at hw e3 k4 k5
  have hr := no_newline ht (show t = (n.text ++ b ++ k) ++ r2 by rw [k1, k4]; simp) e1
  subst hr
  have hwk : w = k := by
    rw [hw] at k4
    simpa using k4
  refine ⟨n, b, k, f, g ++ g1, hn, hb, hf, by rw [k1, k4]; simp, by rw [k2]; simp, ?_⟩
  have hnone : g.lookup 3 = none := by
    rw [List.lookup_eq_none_iff]
    intro p hp
    rw [k3 p hp]
    rfl
  rw [List.lookup_append, hnone, Option.none_or, e3, hwk]
  rfl

theorem percent_mem (n : Number) (hn : n.Ok) (b : List Char) (hb : Blanks b) {k : List Char} {f : ℚ} (hk : Part k f) :
    ∃ x, x ∈ run regPercent (n.text ++ b ++ k) := by
  obtain ⟨g, hg⟩ := head_mem n hn b hb k
  exact ⟨_, mem_seq.2 ⟨_, hg, _, mem_seq.2 ⟨([(3, k)], []), mem_group.2 ⟨[], k, by simp,
    mem_words.2 ⟨k, part_words.2 ⟨f, hk⟩, by simp, rfl⟩, rfl⟩, ([], []), mem_eos.2 ⟨.inl rfl, rfl⟩, rfl⟩, rfl⟩⟩

theorem part_end {n : Number} {b k : List Char} {f : ℚ} (hk : Part k f) : (n.text ++ b ++ k).getLast? ≠ some '\n' := by
  rw [List.getLast?_append]
  cases hk <;> simp

theorem part_unique {k : List Char} {f f' : ℚ} (h : Part k f) (h' : Part k f') : f = f' := by
  cases h <;> cases h' <;> rfl

end Scalars
end Config
end HF
