import Verif.Readers.DispatchProps
import Mathlib.Tactic.IntervalCases
/-
C38: which lines the recognisers accept.
-/
namespace HF.Readers.Dispatch

/-- A run of characters of one kind. -/
def All (p : Char → Bool) (w : List Char) : Prop := ∀ c ∈ w, p c = true

/-- `VAR name(type)`, possibly after and between blanks, at the beginning of a line. -/
def MdifLine (l : List Char) : Prop := ∃ a b name typ rest,
  l = a ++ ['V', 'A', 'R'] ++ b ++ name ++ ['('] ++ typ ++ [')'] ++ rest ∧ All isTab a ∧ All isTab b ∧
  name ≠ [] ∧ All isVarChar name ∧ typ ≠ [] ∧ All isAlpha typ

/-- `# [multiplier]Hz kind format`, at the beginning of a line, in capital or small letters. -/
def TouchstoneLine (l : List Char) : Prop := ∃ a b mult s kind t x y rest h z,
  l = a ++ ['#'] ++ b ++ mult ++ [h, z] ++ s ++ [kind] ++ t ++ [x, y] ++ rest ∧
  All isSpace a ∧ All isSpace b ∧ (mult = [] ∨ ∃ c ∈ "kmgtpKMGTP".toList, mult = [c]) ∧
  h ∈ ['h', 'H'] ∧ z ∈ ['z', 'Z'] ∧ s ≠ [] ∧ All isSpace s ∧ kind ∈ "szyghSZYGH".toList ∧
  t ≠ [] ∧ All isSpace t ∧ isAlpha x = true ∧ isAlpha y = true

theorem dropWhile_iff {p : Char → Bool} {l : List Char} {c : Char} {t : List Char} (hc : p c = false) :
    l.dropWhile p = c :: t ↔ ∃ w, l = w ++ c :: t ∧ All p w :=
  ⟨dropWhile_head, fun ⟨_, h1, h2⟩ => by rw [h1]; exact dropWhile_of_append h2 hc⟩

theorem plus_iff {p : Char → Bool} {l : List Char} {c : Char} {t : List Char} (hc : p c = false) :
    plus p l = some (c :: t) ↔ ∃ w, l = w ++ c :: t ∧ w ≠ [] ∧ All p w := by
  cases l with
  | nil =>
    simp only [plus, reduceCtorEq, false_iff]
    rintro ⟨w, h1, h2, -⟩
    simp at h1
  | cons d l =>
    simp only [plus]
    by_cases hd : p d = true
    · rw [if_pos hd, Option.some.injEq, dropWhile_iff hc]
      constructor
      · rintro ⟨w, rfl, hw⟩
        exact ⟨d :: w, rfl, by simp, fun x hx => (List.mem_cons.1 hx).elim (fun e => e ▸ hd) (hw x)⟩
      · rintro ⟨w, h1, h2, h3⟩
        cases w with
        | nil => exact absurd rfl h2
        | cons e w =>
          simp only [List.cons_append, List.cons.injEq] at h1
          exact ⟨w, h1.2, fun x hx => h3 x (by simp [hx])⟩
    · rw [if_neg hd]
      simp only [reduceCtorEq, false_iff]
      rintro ⟨w, h1, h2, h3⟩
      cases w with
      | nil => exact absurd rfl h2
      | cons e w =>
        simp only [List.cons_append, List.cons.injEq] at h1
        exact hd (h1.1 ▸ h3 e (by simp))

/-- C38: the lines taken for the beginning of an MDIF block. -/
theorem C38_mdif_line (l : List Char) : isMdif l = true ↔ MdifLine l := by
  have h1 : isMdif l = true ↔ ∃ t, l.dropWhile isTab = 'V' :: 'A' :: 'R' :: t ∧
      ∃ u, plus isVarChar (t.dropWhile isTab) = some ('(' :: u) ∧ ∃ v, plus isAlpha u = some (')' :: v) := by
    unfold isMdif
    split
    · rename_i t e
      rw [e]
      simp only [List.cons.injEq, true_and]
      split
      · rename_i u eu
        split
        · rename_i v ev
          simp only [true_iff]
          exact ⟨t, rfl, u, eu, v, ev⟩
        · rename_i hne
          simp only [Bool.false_eq_true, false_iff]
          rintro ⟨t', rfl, u', hu', v, hv⟩
          rw [eu] at hu'
          simp only [Option.some.injEq, List.cons.injEq, true_and] at hu'
          subst hu'
          exact hne v hv
      · rename_i hne
        simp only [Bool.false_eq_true, false_iff]
        rintro ⟨t', rfl, u', hu', -⟩
        exact hne u' hu'
    · rename_i hne
      simp only [Bool.false_eq_true, false_iff]
      rintro ⟨t, ht, -⟩
      exact hne t ht
  rw [h1]
  constructor
  · rintro ⟨t, ht, u, hu, v, hv⟩
    obtain ⟨a, rfl, ha⟩ := (dropWhile_iff (by decide)).1 ht
    obtain ⟨name, hn1, hn2, hn3⟩ := (plus_iff (by decide)).1 hu
    obtain ⟨typ, rfl, ht2, ht3⟩ := (plus_iff (by decide)).1 hv
    have hb : t = t.takeWhile isTab ++ t.dropWhile isTab := (List.takeWhile_append_dropWhile).symm
    refine ⟨a, t.takeWhile isTab, name, typ, v, ?_, ha, fun c hc => ?_, hn2, hn3, ht2, ht3⟩
    · rw [hn1] at hb
      simp only [List.append_assoc, List.cons_append, List.nil_append] at hb ⊢
      rw [← hb]
    · exact List.all_eq_true.1 List.all_takeWhile c hc
  · rintro ⟨a, b, name, typ, rest, rfl, ha, hb, hn, hn', ht, ht'⟩
    refine ⟨b ++ name ++ ['('] ++ typ ++ [')'] ++ rest, ?_, typ ++ [')'] ++ rest, ?_, rest, ?_⟩
    · rw [dropWhile_iff (by decide)]; exact ⟨a, by simp, ha⟩
    · obtain ⟨c, name, rfl⟩ := List.exists_cons_of_ne_nil hn
      have hc : isTab c = false := by
        have := hn' c (by simp)
        by_contra h
        simp only [isTab, Bool.not_eq_false, Bool.or_eq_true, decide_eq_true_eq] at h
        rcases h with rfl | rfl <;> revert this <;> decide
      have : (b ++ c :: name ++ ['('] ++ typ ++ [')'] ++ rest).dropWhile isTab =
          c :: (name ++ ['('] ++ typ ++ [')'] ++ rest) := by
        rw [dropWhile_iff hc]; exact ⟨b, by simp, hb⟩
      rw [this, plus_iff (by decide)]
      exact ⟨c :: name, by simp, by simp, hn'⟩
    · rw [plus_iff (by decide)]; exact ⟨typ, by simp, ht, ht'⟩

theorem lower_eq (c : Char) (d : Char) (hd : isAlpha d = true) (hl : lower d = d) :
    lower c = d ↔ c = d ∨ c = Char.ofNat (d.toNat - 32) := by
  have hc : c = Char.ofNat c.toNat := (Char.ofNat_toNat c).symm
  have hdd : d = Char.ofNat d.toNat := (Char.ofNat_toNat d).symm
  have hd' : 97 ≤ d.toNat ∧ d.toNat ≤ 122 := by
    simp only [isAlpha, Bool.or_eq_true, Bool.and_eq_true, decide_eq_true_eq] at hd
    rcases hd with ⟨h1, h2⟩ | ⟨h1, h2⟩
    · exact ⟨h1, h2⟩
    · exfalso
      have a1 : 65 ≤ d.toNat := h1
      have a2 : d.toNat ≤ 90 := h2
      generalize d.toNat = n at a1 a2 hdd
      subst hdd
      interval_cases n <;> revert hl <;> decide
  unfold lower
  by_cases h : ('A' ≤ c && c ≤ 'Z') = true
  · rw [if_pos h]
    simp only [Bool.and_eq_true, decide_eq_true_eq] at h
    have a1 : 65 ≤ c.toNat := h.1
    have a2 : c.toNat ≤ 90 := h.2
    generalize c.toNat = n at a1 a2 hc
    generalize d.toNat = m at hd' hdd
    obtain ⟨b1, b2⟩ := hd'
    subst hc hdd
    interval_cases n <;> interval_cases m <;> decide
  · rw [if_neg h]
    constructor
    · exact Or.inl
    · rintro (h' | h')
      · exact h'
      · exfalso
        apply h
        generalize d.toNat = m at hd' hdd h'
        obtain ⟨b1, b2⟩ := hd'
        subst h'
        interval_cases m <;> decide

theorem oneIn_mult (c : Char) : oneIn ['k', 'm', 'g', 't', 'p'] c = true ↔ c ∈ "kmgtpKMGTP".toList := by
  have e : "kmgtpKMGTP".toList = ['k', 'm', 'g', 't', 'p', 'K', 'M', 'G', 'T', 'P'] := by decide
  simp only [oneIn, List.contains_eq_mem, decide_eq_true_eq, List.mem_cons, List.not_mem_nil, or_false, e]
  rw [lower_eq c 'k' rfl rfl, lower_eq c 'm' rfl rfl, lower_eq c 'g' rfl rfl, lower_eq c 't' rfl rfl,
    lower_eq c 'p' rfl rfl]
  simp only [show Char.ofNat ('k'.toNat - 32) = 'K' from rfl, show Char.ofNat ('m'.toNat - 32) = 'M' from rfl,
    show Char.ofNat ('g'.toNat - 32) = 'G' from rfl, show Char.ofNat ('t'.toNat - 32) = 'T' from rfl,
    show Char.ofNat ('p'.toNat - 32) = 'P' from rfl]
  tauto

theorem oneIn_kind (c : Char) : oneIn ['s', 'z', 'y', 'g', 'h'] c = true ↔ c ∈ "szyghSZYGH".toList := by
  have e : "szyghSZYGH".toList = ['s', 'z', 'y', 'g', 'h', 'S', 'Z', 'Y', 'G', 'H'] := by decide
  simp only [oneIn, List.contains_eq_mem, decide_eq_true_eq, List.mem_cons, List.not_mem_nil, or_false, e]
  rw [lower_eq c 's' rfl rfl, lower_eq c 'z' rfl rfl, lower_eq c 'y' rfl rfl, lower_eq c 'g' rfl rfl,
    lower_eq c 'h' rfl rfl]
  simp only [show Char.ofNat ('s'.toNat - 32) = 'S' from rfl, show Char.ofNat ('z'.toNat - 32) = 'Z' from rfl,
    show Char.ofNat ('y'.toNat - 32) = 'Y' from rfl, show Char.ofNat ('g'.toNat - 32) = 'G' from rfl,
    show Char.ofNat ('h'.toNat - 32) = 'H' from rfl]
  tauto

theorem alpha_not_space {c : Char} (h : isAlpha c = true) : isSpace c = false := by
  by_contra h'
  simp only [isSpace, Bool.not_eq_false, Bool.or_eq_true, decide_eq_true_eq] at h'
  rcases h' with ((((rfl | rfl) | rfl) | rfl) | rfl) | rfl <;> revert h <;> decide

theorem plus_ne {p : Char → Bool} {l : List Char} {c : Char} {t : List Char} (h : plus p l = some (c :: t)) :
    p c = false := by
  cases l with
  | nil => simp [plus] at h
  | cons d l =>
    simp only [plus] at h
    split at h
    · simp only [Option.some.injEq] at h
      by_contra hc
      have := List.head?_dropWhile_not p l
      rw [h] at this
      simp at this
      simp [this] at hc
    · simp at h

theorem touchTail_iff (l : List Char) : touchTail l = true ↔ ∃ h z s kind t x y rest,
    l = [h, z] ++ s ++ [kind] ++ t ++ [x, y] ++ rest ∧ h ∈ ['h', 'H'] ∧ z ∈ ['z', 'Z'] ∧ s ≠ [] ∧
    All isSpace s ∧ kind ∈ "szyghSZYGH".toList ∧ t ≠ [] ∧ All isSpace t ∧ isAlpha x = true ∧ isAlpha y = true := by
  have hh : ∀ c, lower c = 'h' ↔ c ∈ ['h', 'H'] := fun c => by
    rw [lower_eq c 'h' rfl rfl]; simp [show Char.ofNat ('h'.toNat - 32) = 'H' from rfl]
  have hz : ∀ c, lower c = 'z' ↔ c ∈ ['z', 'Z'] := fun c => by
    rw [lower_eq c 'z' rfl rfl]; simp [show Char.ofNat ('z'.toNat - 32) = 'Z' from rfl]
  have hk : ∀ c ∈ "szyghSZYGH".toList, isSpace c = false := by decide
  constructor
  · intro h
    match l, h with
    | a :: b :: t, h =>
      simp only [touchTail, Bool.and_eq_true, decide_eq_true_eq] at h
      obtain ⟨⟨h1, h2⟩, h3⟩ := h
      match e : plus isSpace t with
      | none => simp [e] at h3
      | some [] => simp [e] at h3
      | some (p :: t') =>
        simp only [e, Bool.and_eq_true] at h3
        obtain ⟨h3, h4⟩ := h3
        match e' : plus isSpace t' with
        | none => simp [e'] at h4
        | some [] => simp [e'] at h4
        | some [_] => simp [e'] at h4
        | some (x :: y :: rest) =>
          simp only [e', Bool.and_eq_true] at h4
          obtain ⟨s, rfl, s1, s2⟩ := (plus_iff (plus_ne e)).1 e
          obtain ⟨u, rfl, u1, u2⟩ := (plus_iff (plus_ne e')).1 e'
          exact ⟨a, b, s, p, u, x, y, rest, by simp, (hh a).1 h1, (hz b).1 h2, s1, s2, (oneIn_kind p).1 h3, u1, u2,
            h4.1, h4.2⟩
  · rintro ⟨h, z, s, kind, t, x, y, rest, rfl, h1, h2, h3, h4, h5, h6, h7, h8, h9⟩
    have e1 : plus isSpace (s ++ [kind] ++ t ++ [x, y] ++ rest) = some (kind :: (t ++ [x, y] ++ rest)) :=
      (plus_iff (hk _ h5)).2 ⟨s, by simp, h3, h4⟩
    have e2 : plus isSpace (t ++ [x, y] ++ rest) = some (x :: y :: rest) :=
      (plus_iff (alpha_not_space h8)).2 ⟨t, by simp, h6, h7⟩
    have e0 : [h, z] ++ s ++ [kind] ++ t ++ [x, y] ++ rest = h :: z :: (s ++ [kind] ++ t ++ [x, y] ++ rest) := by
      simp
    rw [e0]
    simp only [touchTail, e1, e2, (hh h).2 h1, (hz z).2 h2, (oneIn_kind kind).2 h5, h8, h9, decide_true,
      Bool.and_self]

/-- C38: the lines taken for the option line of a Touchstone file. -/
theorem C38_touchstone_line (l : List Char) : isTouchstone l = true ↔ TouchstoneLine l := by
  have hmul : ∀ c ∈ "kmgtpKMGTP".toList, c ∉ ['h', 'H'] ∧ isSpace c = false := by decide
  have hhs : ∀ c ∈ ['h', 'H'], isSpace c = false := by decide
  have hm : ∀ t, touchMult t = true ↔ ∃ mult u, t = mult ++ u ∧
      (mult = [] ∨ ∃ c ∈ "kmgtpKMGTP".toList, mult = [c]) ∧ touchTail u = true := by
    intro t
    cases t with
    | nil =>
      simp only [touchMult, Bool.false_eq_true, false_iff]
      rintro ⟨mult, u, h, -, hu⟩
      simp at h
      rw [h.2] at hu
      simp [touchTail] at hu
    | cons c t =>
      simp only [touchMult]
      split
      · rename_i hc
        constructor
        · intro h
          exact ⟨[c], t, rfl, Or.inr ⟨c, (oneIn_mult c).1 hc, rfl⟩, h⟩
        · rintro ⟨mult, u, h, rfl | ⟨d, hd, rfl⟩, hu⟩
          · exfalso
            simp only [List.nil_append] at h
            subst h
            obtain ⟨h, z, s, kind, t', x, y, rest, e, h1, -⟩ := (touchTail_iff _).1 hu
            simp at e
            exact (hmul c ((oneIn_mult c).1 hc)).1 (e.1 ▸ h1)
          · simp at h
            rw [h.2]; exact hu
      · rename_i hc
        constructor
        · intro h
          exact ⟨[], c :: t, rfl, Or.inl rfl, h⟩
        · rintro ⟨mult, u, h, rfl | ⟨d, hd, rfl⟩, hu⟩
          · simp only [List.nil_append] at h
            rw [h]; exact hu
          · simp at h
            exact absurd ((oneIn_mult c).2 (h.1 ▸ hd)) hc
  have h1 : isTouchstone l = true ↔ ∃ t, l.dropWhile isSpace = '#' :: t ∧ touchMult (t.dropWhile isSpace) = true := by
    unfold isTouchstone
    split
    · rename_i t e
      rw [e]
      simp
    · rename_i hne
      simp only [Bool.false_eq_true, false_iff]
      rintro ⟨t, ht, -⟩
      exact hne t ht
  rw [h1]
  constructor
  · rintro ⟨t, ht, h⟩
    obtain ⟨a, rfl, ha⟩ := (dropWhile_iff (by decide)).1 ht
    obtain ⟨mult, u, e, hmu, hu⟩ := (hm _).1 h
    obtain ⟨h, z, s, kind, v, x, y, rest, e', r⟩ := (touchTail_iff _).1 hu
    have hb : t = t.takeWhile isSpace ++ t.dropWhile isSpace := (List.takeWhile_append_dropWhile).symm
    refine ⟨a, t.takeWhile isSpace, mult, s, kind, v, x, y, rest, h, z, ?_, ha,
      fun c hc => List.all_eq_true.1 List.all_takeWhile c hc, hmu, r⟩
    rw [e, e'] at hb
    simp only [List.append_assoc, List.cons_append, List.nil_append] at hb ⊢
    rw [← hb]
  · rintro ⟨a, b, mult, s, kind, t, x, y, rest, h, z, rfl, ha, hb, hmu, r⟩
    refine ⟨b ++ (mult ++ ([h, z] ++ s ++ [kind] ++ t ++ [x, y] ++ rest)), ?_, ?_⟩
    · rw [dropWhile_iff (by decide)]; exact ⟨a, by simp, ha⟩
    · have e : (b ++ (mult ++ ([h, z] ++ s ++ [kind] ++ t ++ [x, y] ++ rest))).dropWhile isSpace =
          mult ++ ([h, z] ++ s ++ [kind] ++ t ++ [x, y] ++ rest) := by
        rcases hmu with rfl | ⟨c, hc, rfl⟩
        · simp only [List.nil_append, List.cons_append]
          rw [dropWhile_iff (hhs h r.1)]
          exact ⟨b, rfl, hb⟩
        · simp only [List.nil_append, List.cons_append]
          rw [dropWhile_iff (hmul c hc).2]
          exact ⟨b, rfl, hb⟩
      rw [e, hm]
      exact ⟨mult, _, rfl, hmu, (touchTail_iff _).2 ⟨h, z, s, kind, t, x, y, rest, rfl, r⟩⟩

theorem isPrefix_iff (p l : List Char) : isPrefix p l = true ↔ p <+: l := by
  induction p generalizing l with
  | nil => simp [isPrefix]
  | cons a p ih =>
    cases l with
    | nil => simp [isPrefix]
    | cons c t => simp [isPrefix, ih, List.cons_prefix_cons]

/-- C38: the lines taken for the first of a CITI file and of a MATLAB file. -/
theorem C38_signature_line (l : List Char) :
    (isCiti l = true ↔ "CITIFILE".toList <+: l) ∧ (isMuwave l = true ↔ "MATLAB 5.0 MAT-file".toList <+: l) := by
  rw [show "CITIFILE".toList = citiSign by decide, show "MATLAB 5.0 MAT-file".toList = matSign by decide]
  exact ⟨isPrefix_iff _ _, isPrefix_iff _ _⟩

/-! ### Non-vacuity -/

example : MdifLine "\tVAR Vg.1(real) = 2".toList := (C38_mdif_line _).1 (by decide +kernel)

example : TouchstoneLine "# ghz  H RI R 50".toList := (C38_touchstone_line _).1 (by decide +kernel)

example : ¬ TouchstoneLine "# Hz Q RI".toList := fun h => by
  have := (C38_touchstone_line _).2 h
  revert this; decide +kernel

end HF.Readers.Dispatch
