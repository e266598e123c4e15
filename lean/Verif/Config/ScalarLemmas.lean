import Verif.Config.ScalarSpec
/-
Numbers in the regular expressions of settings.
-/
namespace HF
namespace Config
namespace Scalars

open Re
open Utils (isDigit decValue)
open Units (parseFloat pow10 sign expPart isExpChar decimal decimalText parseFloat_text takeWhile_all dropWhile_all digit_ne
  prefixPower lookup_prefix cfgPrefixes cfgUnits)

theorem isSign_iff {c : Char} : isSign c = true ↔ c = '-' ∨ c = '+' := by simp [isSign]

theorem optSign {s : List Char} {x : Caps × List Char} :
    x ∈ run (.opt (.cls isSign)) s ↔ ∃ sg, Sign sg ∧ s = sg ++ x.2 ∧ x.1 = [] := by
  obtain ⟨g, r⟩ := x
  rw [mem_opt, mem_cls]
  constructor
  · rintro (⟨c, h1, h2, h3⟩ | h)
    · simp only at h1 h3
      rcases isSign_iff.1 h2 with rfl | rfl
      · exact ⟨['-'], .inr (.inl rfl), h1, h3⟩
      · exact ⟨['+'], .inr (.inr rfl), h1, h3⟩
    · simp only [Prod.mk.injEq] at h
      exact ⟨[], .inl rfl, h.2.symm, h.1⟩
  · rintro ⟨sg, rfl | rfl | rfl, h1, h2⟩
    · simp only [List.nil_append] at h1 h2
      subst h1 h2
      exact .inr rfl
    · exact .inl ⟨'-', h1, rfl, h2⟩
    · exact .inl ⟨'+', h1, rfl, h2⟩

/-- The exponent of `number`. -/
theorem mem_exponent {s : List Char} {x : Caps × List Char} :
    x ∈ run (seqs [.cls isE, .opt (.cls isSign), plus isDigit]) s ↔ ∃ e : Exponent, e.Ok ∧ s = e.text ++ x.2 ∧ x.1 = [] := by
  obtain ⟨g, r⟩ := x
  simp only [seqs, mem_seq]
  constructor
  · rintro ⟨⟨g1, r1⟩, h1, ⟨g2, r2⟩, ⟨⟨g3, r3⟩, h3, ⟨g4, r4⟩, h4, e2⟩, e1⟩
    obtain ⟨c, rfl, hc, k1⟩ := mem_cls.1 h1
    obtain ⟨sg, hsg, k2, k3⟩ := optSign.1 h3
    obtain ⟨w, hne, k4, hw, k5⟩ := mem_plus.1 h4
    simp only at k1 k2 k3 k4 k5
    subst k1 k2 k3 k4 k5
    simp only [List.append_nil, Prod.mk.injEq] at e2
    obtain ⟨rfl, rfl⟩ := e2
    simp only [List.append_nil, Prod.mk.injEq] at e1
    obtain ⟨rfl, rfl⟩ := e1
    refine ⟨⟨c, sg, w⟩, ⟨?_, hsg, hne, hw⟩, by simp [Exponent.text], rfl⟩
    simpa [isE] using hc
  · rintro ⟨e, ⟨h1, h2, h3, h4⟩, h, rfl⟩
    refine ⟨([], e.sign ++ (e.digits ++ r)), mem_cls.2 ⟨e.letter, by rw [h]; simp [Exponent.text], by simpa [isE] using h1, rfl⟩,
      ([], r), ⟨([], e.digits ++ r), optSign.2 ⟨_, h2, rfl, rfl⟩, ([], r), mem_plus.2 ⟨_, h3, rfl, h4, rfl⟩, rfl⟩, rfl⟩

/-- What `number` matches. -/
theorem mem_number {s : List Char} {x : Caps × List Char} (h : x ∈ run number s) :
    ∃ (n : Number) (g : Caps), n.Ok ∧ s = n.text ++ x.2 ∧ x.1 = (1, n.text) :: g ∧ ∀ p ∈ g, p.1 = 2 := by
  obtain ⟨gs, r⟩ := x
  obtain ⟨g, w, hw, h, hg⟩ := mem_group.1 h
  simp only at hw h hg
  simp only [seqs, mem_seq] at h
  obtain ⟨⟨g1, r1⟩, h1, ⟨g2, r2⟩, ⟨⟨g3, r3⟩, h3, ⟨g4, r4⟩, ⟨⟨g5, r5⟩, h5, ⟨g6, r6⟩, ⟨⟨g7, r7⟩, h7, ⟨g8, r8⟩, h8, e7⟩, e5⟩, e3⟩, e1⟩ := h
  obtain ⟨sg, hsg, k1, k1'⟩ := optSign.1 h1
  obtain ⟨i, k3, hi, k3'⟩ := mem_star.1 h3
  obtain ⟨f, hne, k7, hf, k7'⟩ := mem_plus.1 h7
  simp only at k1 k1' k3 k3' k7 k7'
  subst k1' k3' k7'
  simp only [List.nil_append, Prod.mk.injEq] at e7
  obtain ⟨rfl, rfl⟩ := e7
  simp only [Prod.mk.injEq] at e5
  obtain ⟨rfl, rfl⟩ := e5
  simp only [List.nil_append, Prod.mk.injEq] at e3
  obtain ⟨rfl, rfl⟩ := e3
  simp only [List.nil_append, Prod.mk.injEq] at e1
  obtain ⟨rfl, rfl⟩ := e1
  -- the point
  have hp : g5 = [] ∧ (r3 = '.' :: r5 ∨ r3 = r5) := by
    rcases mem_opt.1 h5 with h5 | h5
    · obtain ⟨k, k'⟩ := mem_chr.1 h5
      exact ⟨k', .inl k⟩
    · simp only [Prod.mk.injEq] at h5
      exact ⟨h5.1, .inr h5.2.symm⟩
  obtain ⟨rfl, hp⟩ := hp
  -- the exponent
  have he : ∃ e : Option Exponent, (∀ x, e = some x → x.Ok) ∧
      r7 = expText e ++ r ∧ ∀ p ∈ g6, p.1 = 2 := by
    rcases mem_opt.1 h8 with h8 | h8
    · obtain ⟨g', w', k, k', k''⟩ := mem_group.1 h8
      obtain ⟨e, he, k1, k2⟩ := mem_exponent.1 k'
      simp only at k k1 k2 k''
      subst k2
      refine ⟨some e, by rintro _ ⟨⟩; exact he, k1, ?_⟩
      rw [k'']
      simp
    · simp only [Prod.mk.injEq] at h8
      exact ⟨none, by simp, by simp [h8.2], by simp [h8.1]⟩
  obtain ⟨e, he, k8, hg6⟩ := he
  subst k1
  subst k3
  have fin : ∀ n : Number, n.Ok → sg ++ (i ++ r3) = n.text ++ r →
      ∃ (n : Number) (g : Caps), n.Ok ∧ sg ++ (i ++ r3) = n.text ++ r ∧ gs = (1, n.text) :: g ∧ ∀ p ∈ g, p.1 = 2 := by
    intro n hn ht
    have hwn : w = n.text := by
      rw [ht] at hw
      exact (List.append_cancel_right hw).symm
    exact ⟨n, g6, hn, ht, by rw [hg, hwn]; simp, hg6⟩
  rcases hp with rfl | rfl
  · refine fin ⟨sg, i, some f, e⟩ ⟨hsg, hi, by simp, by rintro _ ⟨⟩; exact ⟨hne, hf⟩, he⟩ ?_
    simp only [Number.text]
    rw [k7, k8]
    simp
  · refine fin ⟨sg, i ++ f, none, e⟩ ⟨hsg, ?_, by simp [hne], by simp, he⟩ ?_
    · simp only [Digits, List.all_append, Bool.and_eq_true]
      exact ⟨hi, hf⟩
    · simp only [Number.text]
      rw [k7, k8]
      simp

/-- All numbers are matched. -/
theorem number_mem (n : Number) (hn : n.Ok) (r : List Char) : ∃ g, (g, r) ∈ run number (n.text ++ r) := by
  have he : ∃ g8, (g8, r) ∈ run (.opt (.group 2 (seqs [.cls isE, .opt (.cls isSign), plus isDigit])))
      (expText n.exp ++ r) := by
    cases h : n.exp with
    | none => exact ⟨[], mem_opt.2 (.inr rfl)⟩
    | some e => exact ⟨_, mem_opt.2 (.inl (mem_group.2 ⟨[], e.text, rfl, mem_exponent.2 ⟨e, hn.exp e h, rfl, rfl⟩, rfl⟩))⟩
  obtain ⟨g8, h8⟩ := he
  refine ⟨(1, n.text) :: g8, mem_group.2 ⟨g8, n.text, rfl, ?_, rfl⟩⟩
  simp only [seqs, mem_seq]
  cases hf : n.frac with
  | some f =>
    obtain ⟨hne, hfd⟩ := hn.frac f hf
    refine ⟨([], n.ints ++ ('.' :: (f ++ (expText n.exp ++ r)))),
      optSign.2 ⟨n.sign, hn.sign, by simp [Number.text, hf, fracText], rfl⟩, (g8, r), ?_, rfl⟩
    refine ⟨([], '.' :: (f ++ (expText n.exp ++ r))), mem_star.2 ⟨_, rfl, hn.ints, rfl⟩, (g8, r), ?_, rfl⟩
    refine ⟨([], f ++ (expText n.exp ++ r)), mem_opt.2 (.inl (mem_chr.2 ⟨rfl, rfl⟩)), (g8, r), ?_, rfl⟩
    exact ⟨([], expText n.exp ++ r), mem_plus.2 ⟨f, hne, rfl, hfd, rfl⟩, (g8, r), h8, rfl⟩
  | none =>
    refine ⟨([], n.ints ++ (expText n.exp ++ r)),
      optSign.2 ⟨n.sign, hn.sign, by simp [Number.text, hf, fracText], rfl⟩, (g8, r), ?_, rfl⟩
    refine ⟨([], n.ints ++ (expText n.exp ++ r)), mem_star.2 ⟨[], rfl, rfl, rfl⟩, (g8, r), ?_, rfl⟩
    refine ⟨([], n.ints ++ (expText n.exp ++ r)), mem_opt.2 (.inr rfl), (g8, r), ?_, rfl⟩
    exact ⟨([], expText n.exp ++ r), mem_plus.2 ⟨n.ints, hn.ne hf, rfl, hn.ints, rfl⟩, (g8, r), h8, rfl⟩

/-! ### The value -/

theorem sign_of (sg r : List Char) (h : Sign sg) (hr : ∀ c ∈ r.head?, c ≠ '-' ∧ c ≠ '+') :
    sign (sg ++ r) = ((if sg = ['-'] then -1 else 1), r) := by
  rcases h with rfl | rfl | rfl
  · have := Units.sign_text false r hr
    simpa using this
  · rfl
  · rfl

theorem parseFloat_plus (r : List Char) (hr : ∀ c ∈ r.head?, c ≠ '-' ∧ c ≠ '+') :
    parseFloat ('+' :: r) = parseFloat r := by
  have h : sign r = (1, r) := by simpa using sign_of [] r (.inl rfl) hr
  have h' : sign ('+' :: r) = (1, r) := rfl
  unfold parseFloat
  rw [h, h']

theorem expPart_text (m : ℚ) (e : Exponent) (he : e.Ok) : expPart m e.text = some (m * e.value) := by
  obtain ⟨h1, h2, h3, h4⟩ := he
  have hx : isExpChar e.letter = true := by rcases h1 with h | h <;> rw [h] <;> decide
  have hd : ∀ c ∈ e.digits.head?, c ≠ '-' ∧ c ≠ '+' := by
    intro c hc
    have : isDigit c = true := by
      rw [Digits, List.all_eq_true] at h4
      exact h4 c (List.mem_of_mem_head? hc)
    exact ⟨digit_ne this (by decide), digit_ne this (by decide)⟩
  simp only [Exponent.text, expPart, hx, if_true, sign_of e.sign e.digits h2 hd]
  have e1 : e.digits.takeWhile isDigit = e.digits := by
    have := takeWhile_all (m := []) h4 (by simp)
    simpa using this
  have e2 : e.digits.dropWhile isDigit = [] := by
    have := dropWhile_all (m := []) h4 (by simp)
    simpa using this
  simp only [e1, e2, ne_eq, h3, not_false_eq_true, and_self, if_true, Exponent.value, pow10]

/-- `float` of a number is its value. -/
theorem number_value (n : Number) (hn : n.Ok) : parseFloat n.text = some n.value := by
  have hexp : expPart (decimal (n.sign = ['-']) n.ints (n.frac.getD [])) (expText n.exp) =
      some n.value := by
    cases h : n.exp with
    | none => simp only [expText, expPart, Number.value, h, mul_one]
    | some e => simp only [expText, expPart_text _ e (hn.exp e h), Number.value, h]
  have hf : (n.frac.getD []).all isDigit = true := by
    cases h : n.frac with
    | none => rfl
    | some f => exact (hn.frac f h).2
  have hne : n.ints ≠ [] ∨ n.frac.getD [] ≠ [] := by
    cases h : n.frac with
    | none => exact .inl (hn.ne h)
    | some f => exact .inr (hn.frac f h).1
  have ht : ∀ c ∈ (expText n.exp).head?, isDigit c = false ∧ c ≠ '.' := by
    cases h : n.exp with
    | none => simp
    | some e =>
      intro c hc
      simp only [expText, Exponent.text, List.head?_cons, Option.mem_def, Option.some.injEq] at hc
      subst hc
      rcases (hn.exp e h).1 with h | h <;> rw [h] <;> decide
  have key : ∀ neg : Bool, parseFloat ((if neg then ['-'] else []) ++ n.ints ++ fracText n.frac ++ expText n.exp) =
      expPart (decimal neg n.ints (n.frac.getD [])) (expText n.exp) := by
    intro neg
    rw [← parseFloat_text neg n.ints n.frac _ hn.ints hf hne ht]
    cases n.frac <;> rfl
  rcases hn.sign with h | h | h
  · have hh : n.text = (if false then ['-'] else []) ++ n.ints ++ fracText n.frac ++ expText n.exp := by
      rw [Number.text, h]; rfl
    rw [← hexp, h, hh, key]
    rfl
  · have hh : n.text = (if true then ['-'] else []) ++ n.ints ++ fracText n.frac ++ expText n.exp := by
      rw [Number.text, h]; rfl
    rw [← hexp, h, hh, key]
    rfl
  · have hh : n.text = '+' :: ((if false then ['-'] else []) ++ n.ints ++ fracText n.frac ++ expText n.exp) := by
      rw [Number.text, h]; rfl
    rw [← hexp, h, hh, parseFloat_plus, key]
    · rfl
    · intro c hc
      rcases hi : n.ints with _ | ⟨d, ds⟩
      · cases hfr : n.frac with
        | none => exact absurd hi (hn.ne hfr)
        | some f =>
          simp only [hi, hfr, fracText, Bool.false_eq_true, if_false, List.nil_append, List.cons_append, List.head?_cons, Option.mem_def, Option.some.injEq] at hc
          subst hc
          decide
      · simp only [hi, Bool.false_eq_true, if_false, List.nil_append, List.cons_append, List.head?_cons, Option.mem_def, Option.some.injEq] at hc
        subst hc
        have : isDigit d = true := by
          have := hn.ints
          rw [Digits, hi, List.all_cons, Bool.and_eq_true] at this
          exact this.1
        exact ⟨digit_ne this (by decide), digit_ne this (by decide)⟩

/-- A number ends with a digit. -/
theorem number_last (n : Number) (hn : n.Ok) : ∃ v c, n.text = v ++ [c] ∧ isDigit c = true := by
  have key : ∀ (a l : List Char), l ≠ [] → Digits l → ∃ v c, a ++ l = v ++ [c] ∧ isDigit c = true := by
    intro a l hl hd
    rw [Digits, List.all_eq_true] at hd
    refine ⟨a ++ l.dropLast, l.getLast hl, ?_, hd _ (List.getLast_mem hl)⟩
    rw [List.append_assoc, List.dropLast_append_getLast]
  cases h : n.exp with
  | some e =>
    obtain ⟨-, -, h3, h4⟩ := hn.exp e h
    obtain ⟨v, c, k, hc⟩ := key (n.sign ++ n.ints ++ fracText n.frac ++
      (e.letter :: e.sign)) e.digits h3 h4
    refine ⟨v, c, ?_, hc⟩
    rw [← k]
    simp [Number.text, h, Exponent.text]
  | none =>
    cases hf : n.frac with
    | some f =>
      obtain ⟨v, c, k, hc⟩ := key (n.sign ++ n.ints ++ ['.']) f (hn.frac f hf).1 (hn.frac f hf).2
      refine ⟨v, c, ?_, hc⟩
      rw [← k]
      simp [Number.text, h, hf]
    | none =>
      obtain ⟨v, c, k, hc⟩ := key n.sign n.ints (hn.ne hf) hn.ints
      refine ⟨v, c, ?_, hc⟩
      rw [← k]
      simp [Number.text, h, hf]

/-- Texts up to their last digit are determined. -/
theorem cut_unique {v v' w w' : List Char} {c c' : Char} (hc : isDigit c = true) (hc' : isDigit c' = true)
    (hw : ∀ d ∈ w, isDigit d = false) (hw' : ∀ d ∈ w', isDigit d = false)
    (h : v ++ [c] ++ w = v' ++ [c'] ++ w') : v ++ [c] = v' ++ [c'] ∧ w = w' := by
  have key : ∀ (w w' : List Char) (v v' : List Char) (c c' : Char), isDigit c = true → isDigit c' = true →
      (∀ d ∈ w, isDigit d = false) → (∀ d ∈ w', isDigit d = false) → w ++ c :: v = w' ++ c' :: v' →
      w = w' ∧ c :: v = c' :: v' := by
    intro w
    induction w with
    | nil =>
      intro w' v v' c c' hc hc' _ hw' h
      cases w' with
      | nil => exact ⟨rfl, h⟩
      | cons d w' =>
        rw [List.nil_append, List.cons_append, List.cons.injEq] at h
        have := hw' d (by simp)
        rw [← h.1, hc] at this
        cases this
    | cons d w ih =>
      intro w' v v' c c' hc hc' hw hw' h
      cases w' with
      | nil =>
        rw [List.nil_append, List.cons_append, List.cons.injEq] at h
        have := hw d (by simp)
        rw [h.1, hc'] at this
        cases this
      | cons d' w' =>
        rw [List.cons_append, List.cons_append, List.cons.injEq] at h
        obtain ⟨h1, h2⟩ := ih w' v v' c c' hc hc' (fun x hx => hw x (by simp [hx])) (fun x hx => hw' x (by simp [hx])) h.2
        exact ⟨by rw [h.1, h1], h2⟩
  have hr := congrArg List.reverse h
  simp only [List.reverse_append, List.reverse_cons, List.reverse_nil, List.nil_append, List.singleton_append] at hr
  obtain ⟨h1, h2⟩ := key w.reverse w'.reverse v.reverse v'.reverse c c' hc hc' (by simpa using hw) (by simpa using hw') hr
  have h1 := congrArg List.reverse h1
  have h2 := congrArg List.reverse h2
  simp only [List.reverse_reverse] at h1
  simp only [List.reverse_cons, List.reverse_reverse] at h2
  exact ⟨h2, h1⟩

end Scalars
end Config
end HF
