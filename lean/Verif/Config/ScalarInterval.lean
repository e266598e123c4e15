import Verif.Config.ScalarSI
/-
Time intervals in the regular expressions of settings.
-/
namespace HF
namespace Config
namespace Scalars

open Re
open Utils (isDigit decValue)
open Units (parseFloat decimal parseFloat_text takeWhile_all dropWhile_all)

/-- The words for a unit, in the order in which they are tried. -/
def names : Nat → List (List Char)
  | 0 => ["days".toList, "day".toList]
  | 1 => ["hour".toList, "hours".toList]
  | 2 => ["minutes".toList, "minute".toList]
  | 3 => ["second".toList, "seconds".toList]
  | _ => []

def secs : Nat → ℚ
  | 0 => 86400
  | 1 => 3600
  | 2 => 60
  | _ => 1

theorem span_iff (w : List Char) (k : Nat) (s : ℚ) : Span w k s ↔ w ∈ names k ∧ s = secs k := by
  constructor
  · intro h
    cases h <;> exact ⟨by decide, rfl⟩
  · rintro ⟨h, rfl⟩
    match k, h with
    | 0, h => simp only [names, List.mem_cons, List.not_mem_nil, or_false] at h; rcases h with rfl | rfl; exacts [.days, .day]
    | 1, h => simp only [names, List.mem_cons, List.not_mem_nil, or_false] at h; rcases h with rfl | rfl; exacts [.hour, .hours]
    | 2, h => simp only [names, List.mem_cons, List.not_mem_nil, or_false] at h; rcases h with rfl | rfl; exacts [.minutes, .minute]
    | 3, h => simp only [names, List.mem_cons, List.not_mem_nil, or_false] at h; rcases h with rfl | rfl; exacts [.second, .seconds]
    | k + 4, h => simp [names] at h

theorem spaces {w : List Char} (h : w.all (fun c => decide (c = ' ')) = true) : w = List.replicate w.length ' ' := by
  rw [List.all_eq_true] at h
  exact List.eq_replicate_iff.2 ⟨rfl, fun c hc => by simpa using h c hc⟩

theorem spaces_all (n : Nat) : (List.replicate n ' ').all (fun c => decide (c = ' ')) = true := by
  rw [List.all_eq_true]
  intro c hc
  simpa using List.eq_of_mem_replicate hc

/-- The amount of a part. -/
theorem mem_amount {m : Nat} {s : List Char} {x : Caps × List Char}
    (h : x ∈ run (.seq (plus isDigit) (.opt (.group m (.seq (chr '.') (.star isDigit))))) s) :
    ∃ i f, i ≠ [] ∧ Digits i ∧ (∀ f', f = some f' → Digits f') ∧ s = i ++ fracText f ++ x.2 ∧ ∀ p ∈ x.1, p.1 = m := by
  obtain ⟨gs, r⟩ := x
  obtain ⟨⟨g1, r1⟩, h1, ⟨g2, r2⟩, h2, e⟩ := mem_seq.1 h
  obtain ⟨i, hne, k1, hi, k1'⟩ := mem_plus.1 h1
  simp only at k1 k1'
  subst k1'
  simp only [List.nil_append, Prod.mk.injEq] at e
  obtain ⟨rfl, rfl⟩ := e
  rcases mem_opt.1 h2 with h2 | h2
  · obtain ⟨g, w, hw, h2, hg⟩ := mem_group.1 h2
    obtain ⟨⟨g3, r3⟩, h3, ⟨g4, r4⟩, h4, e⟩ := mem_seq.1 h2
    obtain ⟨k3, k3'⟩ := mem_chr.1 h3
    obtain ⟨f, k4, hf, k4'⟩ := mem_star.1 h4
    simp only at k3 k3' k4 k4' hg
    subst k3' k4'
    simp only [List.append_nil, Prod.mk.injEq] at e
    obtain ⟨rfl, rfl⟩ := e
    exact ⟨i, some f, hne, hi, by rintro _ ⟨⟩; exact hf, by rw [k1, k3, k4]; simp, by simp [hg]⟩
  · simp only [Prod.mk.injEq] at h2
    obtain ⟨rfl, rfl⟩ := h2
    exact ⟨i, none, hne, hi, by simp, by rw [k1]; simp, by simp⟩

theorem amount_mem (m : Nat) (i : List Char) (f : Option (List Char)) (hne : i ≠ []) (hi : Digits i)
    (hf : ∀ f', f = some f' → Digits f') (r : List Char) :
    ∃ g, (g, r) ∈ run (.seq (plus isDigit) (.opt (.group m (.seq (chr '.') (.star isDigit))))) (i ++ fracText f ++ r) := by
  cases f with
  | none =>
    exact ⟨[], mem_seq.2 ⟨([], r), mem_plus.2 ⟨i, hne, by simp, hi, rfl⟩, ([], r), mem_opt.2 (.inr rfl), rfl⟩⟩
  | some f =>
    refine ⟨[(m, '.' :: f)], mem_seq.2 ⟨([], '.' :: f ++ r), mem_plus.2 ⟨i, hne, by simp, hi, rfl⟩,
      ([(m, '.' :: f)], r), mem_opt.2 (.inl (mem_group.2 ⟨[], '.' :: f, rfl, ?_, rfl⟩)), rfl⟩⟩
    exact mem_seq.2 ⟨([], f ++ r), mem_chr.2 ⟨rfl, rfl⟩, ([], r), mem_star.2 ⟨f, rfl, hf f rfl, rfl⟩, rfl⟩

theorem mem_part {k : Nat} {s : List Char} {x : Caps × List Char} (h : x ∈ run (part (3 * k + 1) (names k)) s) :
    x = ([], s) ∨ ∃ p : Piece, p.Ok ∧ p.unit = k ∧ s = p.text ++ x.2 ∧
      ∀ j, x.1.lookup (3 * j + 2) = if j = k then some p.amount else none := by
  rcases mem_opt.1 h with h | h
  · refine .inr ?_
    obtain ⟨gs, r⟩ := x
    obtain ⟨g, w, hw, h, hg⟩ := mem_group.1 h
    simp only [seqs, mem_seq] at h
    obtain ⟨⟨g1, r1⟩, h1, ⟨g2, r2⟩, ⟨⟨g3, r3⟩, h3, ⟨g4, r4⟩, h4, e3⟩, e1⟩ := h
    obtain ⟨ga, wa, hwa, ha, hga⟩ := mem_group.1 h1
    obtain ⟨i, f, hne, hi, hf, ka, kg⟩ := mem_amount ha
    obtain ⟨b, k3, hb, k3'⟩ := mem_star.1 h3
    obtain ⟨u, hu, k4, k4'⟩ := mem_words.1 h4
    simp only at hwa hga ka kg k3 k3' k4 k4' hw hg
    subst k3' k4'
    simp only [List.append_nil, Prod.mk.injEq] at e3
    obtain ⟨rfl, rfl⟩ := e3
    simp only [List.append_nil, Prod.mk.injEq] at e1
    obtain ⟨rfl, rfl⟩ := e1
    refine ⟨⟨i, f, b.length, u, k, secs k⟩, ⟨⟨hne, hi⟩, hf, (span_iff _ _ _).2 ⟨hu, rfl⟩⟩, rfl, ?_, ?_⟩
    · simp only [Piece.text, Piece.amount]
      rw [ka, k3, k4]
      rw [← spaces hb]
      simp
    · intro j
      have hwi : wa = i ++ fracText f := by
        rw [hwa] at ka
        exact List.append_cancel_right ka
      rw [hg, hga, hwi]
      simp only [Piece.amount]
      rw [List.lookup_cons]
      have h1 : (3 * j + 2 == 3 * k + 1) = false := by simp; omega
      rw [h1]
      simp only
      rw [List.lookup_cons]
      by_cases hj : j = k
      · subst hj
        simp
      · have h2 : (3 * j + 2 == 3 * k + 1 + 1) = false := by simp; omega
        rw [h2, if_neg hj]
        simp only
        rw [List.lookup_eq_none_iff]
        intro p hp
        rw [kg p hp]
        simp
        omega
  · exact .inl h

theorem part_mem (p : Piece) (hp : p.Ok) (r : List Char) :
    ∃ g, (g, r) ∈ run (part (3 * p.unit + 1) (names p.unit)) (p.text ++ r) := by
  obtain ⟨g, hg⟩ := amount_mem (3 * p.unit + 1 + 2) p.ints p.frac hp.ints.1 hp.ints.2 hp.frac
    (List.replicate p.gap ' ' ++ (p.word ++ r))
  have hw := ((span_iff _ _ _).1 hp.span).1
  refine ⟨(3 * p.unit + 1, p.text) :: ((3 * p.unit + 1 + 1, p.amount) :: g), mem_opt.2 (.inl (mem_group.2 ⟨_, p.text, rfl, ?_, rfl⟩))⟩
  simp only [seqs, mem_seq]
  refine ⟨((3 * p.unit + 1 + 1, p.amount) :: g, List.replicate p.gap ' ' ++ (p.word ++ r)),
    mem_group.2 ⟨g, p.amount, by simp [Piece.text], ?_, rfl⟩, ([], r),
    ⟨([], p.word ++ r), mem_star.2 ⟨_, rfl, spaces_all _, rfl⟩, ([], r), mem_words.2 ⟨p.word, hw, rfl, rfl⟩, rfl⟩, by simp⟩
  have : p.text ++ r = p.ints ++ fracText p.frac ++ (List.replicate p.gap ' ' ++ (p.word ++ r)) := by
    simp [Piece.text, Piece.amount]
  rw [this]
  exact hg

/-! ### The whole expression -/

/-- The expression for some of the units. -/
def tailRe : List Nat → Re
  | [] => .eos
  | [k] => .seq (part (3 * k + 1) (names k)) .eos
  | k :: ks => .seq (part (3 * k + 1) (names k)) (.seq (.star (· = ' ')) (tailRe ks))

theorem regInterval_eq : regInterval = tailRe [0, 1, 2, 3] := rfl

/-- Texts for some of the units. -/
inductive Lang : List Nat → List Char → List Piece → Prop
  | none (k : Nat) : Lang [k] [] []
  | last (p : Piece) (hp : p.Ok) : Lang [p.unit] p.text [p]
  | skip (k : Nat) (ks : List Nat) (n : Nat) (t : List Char) (ps : List Piece) (h : Lang ks t ps) :
      Lang (k :: ks) (List.replicate n ' ' ++ t) ps
  | take (p : Piece) (hp : p.Ok) (ks : List Nat) (n : Nat) (t : List Char) (ps : List Piece) (h : Lang ks t ps) :
      Lang (p.unit :: ks) (p.text ++ (List.replicate n ' ' ++ t)) (p :: ps)

theorem lang_ne {ks : List Nat} {t : List Char} {ps : List Piece} (h : Lang ks t ps) : ks ≠ [] := by
  cases h <;> simp

theorem lang_units {ks : List Nat} {t : List Char} {ps : List Piece} (h : Lang ks t ps) :
    ∀ p ∈ ps, p.unit ∈ ks ∧ p.Ok := by
  induction h with
  | none => simp
  | last p hp => simp [hp]
  | skip k ks n t ps _ ih => intro p hp; exact ⟨List.mem_cons_of_mem _ (ih p hp).1, (ih p hp).2⟩
  | take p hp ks n t ps _ ih =>
    intro q hq
    rcases List.mem_cons.1 hq with rfl | hq
    · exact ⟨by simp, hp⟩
    · exact ⟨List.mem_cons_of_mem _ (ih q hq).1, (ih q hq).2⟩

/-- The groups with the amounts. -/
def Groups (g : Caps) (ps : List Piece) : Prop :=
  ∀ j, g.lookup (3 * j + 2) = (ps.find? fun p => p.unit = j).map Piece.amount

theorem mem_tail {ks : List Nat} (hks : ks ≠ []) (hnd : ks.Nodup) : ∀ {s : List Char} {x : Caps × List Char},
    x ∈ run (tailRe ks) s → ∃ t ps, Lang ks t ps ∧ s = t ++ x.2 ∧ (x.2 = [] ∨ x.2 = ['\n']) ∧ Groups x.1 ps := by
  induction ks with
  | nil => exact absurd rfl hks
  | cons k ks ih =>
    rintro s ⟨gs, r⟩ h
    cases ks with
    | nil =>
      obtain ⟨⟨g1, r1⟩, h1, ⟨g2, r2⟩, h2, e⟩ := mem_seq.1 h
      obtain ⟨k1, k2⟩ := mem_eos.1 h2
      simp only [Prod.mk.injEq] at k2 e k1
      obtain ⟨rfl, rfl⟩ := k2
      obtain ⟨rfl, rfl⟩ := e
      rcases mem_part h1 with h1 | ⟨p, hp, rfl, h1, hg⟩
      · simp only [Prod.mk.injEq] at h1
        obtain ⟨rfl, rfl⟩ := h1
        exact ⟨[], [], .none k, rfl, k1, fun j => by simp⟩
      · simp only at h1 hg
        refine ⟨p.text, [p], .last p hp, h1, k1, fun j => ?_⟩
        rw [List.append_nil, hg]
        by_cases hj : j = p.unit
        · subst hj; simp
        · rw [if_neg hj, List.find?_cons_of_neg (by simpa using fun h => hj h.symm)]
          rfl
    | cons k' ks =>
      obtain ⟨⟨g1, r1⟩, h1, ⟨g2, r2⟩, h2, e⟩ := mem_seq.1 h
      obtain ⟨⟨g3, r3⟩, h3, ⟨g4, r4⟩, h4, e'⟩ := mem_seq.1 h2
      obtain ⟨b, k3, hb, k3'⟩ := mem_star.1 h3
      obtain ⟨t, ps, hl, k4, k5, k6⟩ := ih (by simp) (List.nodup_cons.1 hnd).2 h4
      simp only at k3 k3' k4 k5 k6
      subst k3'
      simp only [List.nil_append, Prod.mk.injEq] at e'
      obtain ⟨rfl, rfl⟩ := e'
      simp only [Prod.mk.injEq] at e
      obtain ⟨rfl, rfl⟩ := e
      rcases mem_part h1 with h1 | ⟨p, hp, rfl, h1, hg⟩
      · simp only [Prod.mk.injEq] at h1
        obtain ⟨rfl, rfl⟩ := h1
        refine ⟨List.replicate b.length ' ' ++ t, ps, .skip k _ b.length t ps hl, ?_, k5, by simpa using k6⟩
        rw [← spaces hb, k3, k4, List.append_assoc]
      · simp only at h1 hg
        refine ⟨p.text ++ (List.replicate b.length ' ' ++ t), p :: ps, .take p hp _ b.length t ps hl, ?_, k5, fun j => ?_⟩
        · rw [← spaces hb, h1, k3, k4]
          simp
        · rw [List.lookup_append, hg, k6]
          by_cases hj : j = p.unit
          · subst hj; simp
          · rw [if_neg hj, List.find?_cons_of_neg (by simpa using fun h => hj h.symm)]
            simp

theorem tail_mem {ks : List Nat} {t : List Char} {ps : List Piece} (h : Lang ks t ps) : ∃ x, x ∈ run (tailRe ks) t := by
  induction h with
  | none k => exact ⟨([], []), mem_seq.2 ⟨([], []), mem_opt.2 (.inr rfl), ([], []), mem_eos.2 ⟨.inl rfl, rfl⟩, rfl⟩⟩
  | last p hp =>
    obtain ⟨g, hg⟩ := part_mem p hp []
    rw [List.append_nil] at hg
    exact ⟨_, mem_seq.2 ⟨_, hg, ([], []), mem_eos.2 ⟨.inl rfl, rfl⟩, rfl⟩⟩
  | skip k ks n t ps h ih =>
    obtain ⟨x, hx⟩ := ih
    obtain ⟨k', ks, rfl⟩ := List.exists_cons_of_ne_nil (lang_ne h)
    exact ⟨_, mem_seq.2 ⟨([], _), mem_opt.2 (.inr rfl), _, mem_seq.2 ⟨([], t), mem_star.2 ⟨_, rfl, spaces_all n, rfl⟩, x, hx, rfl⟩, rfl⟩⟩
  | take p hp ks n t ps h ih =>
    obtain ⟨x, hx⟩ := ih
    obtain ⟨k', ks, rfl⟩ := List.exists_cons_of_ne_nil (lang_ne h)
    obtain ⟨g, hg⟩ := part_mem p hp (List.replicate n ' ' ++ t)
    exact ⟨_, mem_seq.2 ⟨_, hg, _, mem_seq.2 ⟨([], t), mem_star.2 ⟨_, rfl, spaces_all n, rfl⟩, x, hx, rfl⟩, rfl⟩⟩

/-! ### Readings -/

theorem piece_ends (p : Piece) (hp : p.Ok) : (∃ c, p.text.head? = some c ∧ isDigit c = true) ∧
    ∃ c, p.text.getLast? = some c ∧ c ≠ ' ' ∧ c ≠ '\n' := by
  constructor
  · obtain ⟨c, i, hi⟩ := List.exists_cons_of_ne_nil hp.ints.1
    refine ⟨c, by simp [Piece.text, Piece.amount, hi], ?_⟩
    have := hp.ints.2
    rw [Digits, hi, List.all_cons, Bool.and_eq_true] at this
    exact this.1
  · have : ∃ c, p.word.getLast? = some c ∧ c ≠ ' ' ∧ c ≠ '\n' := by
      have := hp.span
      revert this
      generalize p.word = w
      generalize p.unit = k
      generalize p.secs = s
      intro h
      cases h <;> exact ⟨_, rfl, by decide, by decide⟩
    obtain ⟨c, hc, h⟩ := this
    exact ⟨c, by rw [Piece.text, List.getLast?_append, hc]; rfl, h⟩

theorem piece_ne (p : Piece) (hp : p.Ok) : p.text ≠ [] := by
  obtain ⟨⟨c, hc, -⟩, -⟩ := piece_ends p hp
  intro h
  rw [h] at hc
  cases hc

theorem lang_empty {ks : List Nat} (h : ks ≠ []) : Lang ks [] [] := by
  induction ks with
  | nil => exact absurd rfl h
  | cons k ks ih =>
    cases ks with
    | nil => exact .none k
    | cons k' ks => exact .skip k (k' :: ks) 0 [] [] (ih (by simp))

theorem lang_reading {ks : List Nat} {t : List Char} {ps : List Piece} (h : Lang ks t ps) (hs : ks.Pairwise (· < ·))
    (hl : t.getLast? ≠ some ' ') :
    (t = [] ∧ ps = []) ∨ ∃ n t', t = List.replicate n ' ' ++ t' ∧ Reading t' ps := by
  induction h with
  | none => exact .inl ⟨rfl, rfl⟩
  | last p hp => exact .inr ⟨0, p.text, rfl, .one p hp⟩
  | skip k ks n t ps h ih =>
    rcases List.eq_nil_or_concat' t with rfl | ⟨t', c, rfl⟩
    · cases n with
      | zero =>
        rcases ih (List.pairwise_cons.1 hs).2 (by simp) with ⟨-, h⟩ | ⟨n, t', h1, h2⟩
        · exact .inl ⟨rfl, h⟩
        · exact .inr ⟨n, t', h1, h2⟩
      | succ n =>
        exfalso
        apply hl
        rw [List.append_nil, List.replicate_succ']
        simp
    · have hl' : (t' ++ [c]).getLast? ≠ some ' ' := by
        intro h'
        apply hl
        rw [List.getLast?_append, h']
        rfl
      rcases ih (List.pairwise_cons.1 hs).2 hl' with ⟨h, -⟩ | ⟨m, t', h1, h2⟩
      · simp at h
      · exact .inr ⟨n + m, t', by rw [h1, ← List.append_assoc, List.replicate_append_replicate], h2⟩
  | take p hp ks n t ps h ih =>
    rcases List.eq_nil_or_concat' t with rfl | ⟨t', c, rfl⟩
    · cases n with
      | zero =>
        rcases ih (List.pairwise_cons.1 hs).2 (by simp) with ⟨-, rfl⟩ | ⟨n, t', h1, h2⟩
        · exact .inr ⟨0, p.text, by simp, .one p hp⟩
        · exfalso
          have hne : t' ≠ [] := by
            cases h2 with
            | one q hq => exact piece_ne q hq
            | cons q hq => exact fun h => piece_ne q hq (List.append_eq_nil_iff.1 h).1
          exact hne (List.append_eq_nil_iff.1 h1.symm).2
      | succ n =>
        exfalso
        apply hl
        rw [List.append_nil, List.replicate_succ']
        simp
    · have hl' : (t' ++ [c]).getLast? ≠ some ' ' := by
        intro h'
        apply hl
        rw [List.getLast?_append, List.getLast?_append, h']
        rfl
      rcases ih (List.pairwise_cons.1 hs).2 hl' with ⟨h, -⟩ | ⟨m, t', h1, h2⟩
      · simp at h
      · refine .inr ⟨0, p.text ++ (List.replicate (n + m) ' ' ++ t'), ?_, ?_⟩
        · rw [h1, ← List.replicate_append_replicate]
          simp only [List.append_assoc, List.replicate_zero, List.nil_append]
        · cases ps with
          | nil => cases h2
          | cons q ps =>
            exact .cons p hp _ t' q ps h2 ((List.pairwise_cons.1 hs).1 _ (lang_units h q (by simp)).1)

theorem reading_ok {t : List Char} {ps : List Piece} (h : Reading t ps) : (∀ p ∈ ps, p.Ok) ∧
    ps.Pairwise (fun p q => p.unit < q.unit) := by
  induction h with
  | one p hp => exact ⟨by simpa using hp, by simp⟩
  | cons p hp n t q ps _ hlt ih =>
    refine ⟨fun r hr => ?_, List.pairwise_cons.2 ⟨fun r hr => ?_, ih.2⟩⟩
    · rcases List.mem_cons.1 hr with rfl | hr
      · exact hp
      · exact ih.1 r hr
    · rcases List.mem_cons.1 hr with rfl | hr
      · exact hlt
      · exact hlt.trans ((List.pairwise_cons.1 ih.2).1 r hr)

theorem reading_lang {ks : List Nat} (hs : ks.Pairwise (· < ·)) : ∀ {t : List Char} {ps : List Piece}, Reading t ps →
    (∀ p ∈ ps, p.unit ∈ ks) → Lang ks t ps := by
  induction ks with
  | nil =>
    intro t ps h hu
    cases h with
    | one p hp => exact absurd (hu p (by simp)) (by simp)
    | cons p hp => exact absurd (hu p (by simp)) (by simp)
  | cons k ks ih =>
    intro t ps h hu
    obtain ⟨hk, hs'⟩ := List.pairwise_cons.1 hs
    have hmono := (reading_ok h).2
    by_cases hh : ∃ p ∈ ps.head?, p.unit = k
    · obtain ⟨p, hp, rfl⟩ := hh
      cases h with
      | one p' hok =>
        simp only [List.head?_cons, Option.mem_def, Option.some.injEq] at hp
        subst hp
        cases ks with
        | nil => exact .last p' hok
        | cons k' ks =>
          have := Lang.take p' hok (k' :: ks) 0 [] [] (lang_empty (by simp))
          simpa using this
      | cons p' hok n t q ps hr hlt =>
        simp only [List.head?_cons, Option.mem_def, Option.some.injEq] at hp
        subst hp
        refine .take p' hok ks n t _ (ih hs' hr fun r hr' => ?_)
        rcases List.mem_cons.1 (hu r (List.mem_cons_of_mem _ hr')) with h | h
        · have := (List.pairwise_cons.1 hmono).1 r hr'
          omega
        · exact h
    · have key : ∀ p ∈ ps, p.unit ∈ ks := by
        intro p hp
        rcases List.mem_cons.1 (hu p hp) with h' | h'
        · exfalso
          cases ps with
          | nil => simp at hp
          | cons p0 ps =>
            rcases List.mem_cons.1 hp with rfl | hp'
            · exact hh ⟨p, by simp, h'⟩
            · have h1 := (List.pairwise_cons.1 hmono).1 p hp'
              rcases List.mem_cons.1 (hu p0 (by simp)) with h2 | h2
              · omega
              · have := hk _ h2
                omega
        · exact h'
      exact .skip k ks 0 t ps (ih hs' h key)

/-! ### Values -/

theorem amount_value (p : Piece) (hp : p.Ok) : parseFloat p.amount = some (decimal false p.ints (p.frac.getD [])) := by
  have hf : (p.frac.getD []).all isDigit = true := by
    cases h : p.frac with
    | none => rfl
    | some f => exact hp.frac f h
  have := parseFloat_text false p.ints p.frac [] hp.ints.2 hf (.inl hp.ints.1) (by simp)
  rw [List.append_nil] at this
  rw [show p.amount = Units.decimalText false p.ints p.frac by
    unfold Piece.amount Units.decimalText
    cases p.frac <;> rfl, this]
  rfl

/-- Parts of an interval, found by their unit. -/
theorem sum_parts {ks : List Nat} {t : List Char} {ps : List Piece} (h : Lang ks t ps) (hnd : ks.Nodup) :
    (ks.map fun j => match ps.find? (fun p => p.unit = j) with | some p => p.value | none => 0).sum = total ps := by
  unfold total
  induction h with
  | none => simp
  | last p hp => simp
  | skip k ks n t ps h ih =>
    obtain ⟨h1, h2⟩ := List.nodup_cons.1 hnd
    have : ps.find? (fun p => p.unit = k) = none := by
      rw [List.find?_eq_none]
      intro p hp hk
      simp only [decide_eq_true_eq] at hk
      exact h1 (hk ▸ (lang_units h p hp).1)
    rw [List.map_cons, List.sum_cons, this, ih h2, zero_add]
  | take p hp ks n t ps h ih =>
    obtain ⟨h1, h2⟩ := List.nodup_cons.1 hnd
    rw [List.map_cons, List.sum_cons, List.map_cons, List.sum_cons, ← ih h2, List.find?_cons_of_pos (by simp)]
    congr 2
    apply List.map_congr_left
    intro j hj
    rw [List.find?_cons_of_neg (by simp; rintro rfl; exact h1 hj)]

theorem constructor_amount (g : Caps) (ps : List Piece) (hg : Groups g ps) (hok : ∀ p ∈ ps, p.Ok) (j : Nat) :
    ∃ x, amount (g.get (3 * j + 2)) = .ok x ∧
      x * secs j = match ps.find? (fun p => p.unit = j) with | some p => p.value | none => 0 := by
  rw [Caps.get, hg j]
  cases h : ps.find? (fun p => p.unit = j) with
  | none => exact ⟨0, rfl, zero_mul _⟩
  | some p =>
    have hp := hok p (List.mem_of_find?_eq_some h)
    have hu : p.unit = j := by simpa using List.find?_some h
    refine ⟨decimal false p.ints (p.frac.getD []), ?_, ?_⟩
    · simp only [Option.map_some, amount, amount_value p hp]
    · simp only [Piece.value]
      rw [((span_iff _ _ _).1 hp.span).2, hu]

/-! ### One meaning only -/

def numCh (c : Char) : Bool := isDigit c || c = '.'

theorem pieces_unique : ∀ (l l' : List (List Char × List Char)),
    (∀ p ∈ l, (p.1 ≠ [] ∧ p.1.all numCh = true) ∧ p.2 ≠ [] ∧ p.2.all (fun c => !numCh c) = true) →
    (∀ p ∈ l', (p.1 ≠ [] ∧ p.1.all numCh = true) ∧ p.2 ≠ [] ∧ p.2.all (fun c => !numCh c) = true) →
    l.flatMap (fun p => p.1 ++ p.2) = l'.flatMap (fun p => p.1 ++ p.2) → l = l' := by
  have hd : ∀ l : List (List Char × List Char),
      (∀ p ∈ l, (p.1 ≠ [] ∧ p.1.all numCh = true) ∧ p.2 ≠ [] ∧ p.2.all (fun c => !numCh c) = true) →
      ∀ c ∈ (l.flatMap fun p => p.1 ++ p.2).head?, (!numCh c) = false := by
    intro l hl c hc
    cases l with
    | nil => simp at hc
    | cons p l =>
      obtain ⟨⟨h1, h2⟩, -⟩ := hl p (by simp)
      obtain ⟨d, ds, e⟩ := List.exists_cons_of_ne_nil h1
      rw [List.flatMap_cons, e] at hc
      simp only [List.cons_append, List.head?_cons, Option.mem_def, Option.some.injEq] at hc
      subst hc
      rw [e, List.all_cons, Bool.and_eq_true] at h2
      simp [h2.1]
  have hw : ∀ (p : List Char × List Char) (r : List Char), p.2 ≠ [] → p.2.all (fun c => !numCh c) = true →
      ∀ c ∈ (p.2 ++ r).head?, numCh c = false := by
    intro p r h1 h2 c hc
    obtain ⟨d, ds, e⟩ := List.exists_cons_of_ne_nil h1
    rw [e] at hc h2
    simp only [List.cons_append, List.head?_cons, Option.mem_def, Option.some.injEq] at hc
    subst hc
    rw [List.all_cons, Bool.and_eq_true] at h2
    simpa using h2.1
  intro l
  induction l with
  | nil =>
    intro l' _ hl' h
    cases l' with
    | nil => rfl
    | cons p l' =>
      exfalso
      rw [List.flatMap_nil, List.flatMap_cons] at h
      exact (hl' p (by simp)).1.1 (List.append_eq_nil_iff.1 (List.append_eq_nil_iff.1 h.symm).1).1
  | cons p l ih =>
    intro l' hl hl' h
    cases l' with
    | nil =>
      exfalso
      rw [List.flatMap_nil, List.flatMap_cons] at h
      exact (hl p (by simp)).1.1 (List.append_eq_nil_iff.1 (List.append_eq_nil_iff.1 h).1).1
    | cons p' l' =>
      rw [List.flatMap_cons, List.flatMap_cons, List.append_assoc, List.append_assoc] at h
      obtain ⟨⟨a1, a2⟩, a3, a4⟩ := hl p (by simp)
      obtain ⟨⟨b1, b2⟩, b3, b4⟩ := hl' p' (by simp)
      have e1 : p.1 = p'.1 := by
        rw [← takeWhile_all a2 (hw p _ a3 a4), ← takeWhile_all b2 (hw p' _ b3 b4), h]
      have e2 := dropWhile_all a2 (hw p (l.flatMap fun p => p.1 ++ p.2) a3 a4)
      rw [h, dropWhile_all b2 (hw p' _ b3 b4)] at e2
      have k := hd l fun q hq => hl q (by simp [hq])
      have k' := hd l' fun q hq => hl' q (by simp [hq])
      have e3 : p.2 = p'.2 := by
        rw [← takeWhile_all a4 k, ← takeWhile_all b4 k', e2]
      have e4 : l.flatMap (fun p => p.1 ++ p.2) = l'.flatMap (fun p => p.1 ++ p.2) := by
        rw [← dropWhile_all a4 k, ← dropWhile_all b4 k', e2]
      rw [ih l' (fun q hq => hl q (by simp [hq])) (fun q hq => hl' q (by simp [hq])) e4]
      congr 1
      exact Prod.ext e1 e3

def Piece.key (p : Piece) : List Char × List Char := (p.amount, p.word)

theorem digit_numCh {c : Char} (h : isDigit c = true) : numCh c = true ∧ c ≠ ' ' := by
  refine ⟨by simp [numCh, h], ?_⟩
  rintro rfl
  exact absurd h (by decide)

theorem amount_chars (p : Piece) (hp : p.Ok) : ∀ c ∈ p.amount, numCh c = true ∧ c ≠ ' ' := by
  intro c hc
  have hi := hp.ints.2
  rw [Digits, List.all_eq_true] at hi
  rcases List.mem_append.1 hc with hc | hc
  · exact digit_numCh (hi c hc)
  · cases hf : p.frac with
    | none => rw [hf] at hc; simp at hc
    | some f =>
      have h := hp.frac f hf
      rw [Digits, List.all_eq_true] at h
      rw [hf] at hc
      rcases List.mem_cons.1 hc with rfl | hc
      · decide
      · exact digit_numCh (h c hc)

theorem word_chars (p : Piece) (hp : p.Ok) : p.word ≠ [] ∧ ∀ c ∈ p.word, numCh c = false ∧ c ≠ ' ' := by
  have := hp.span
  revert this
  generalize p.word = w
  generalize p.unit = k
  generalize p.secs = s
  intro h
  cases h <;> decide

theorem filter_replicate (n : Nat) : (List.replicate n ' ').filter (fun c => decide (c ≠ ' ')) = [] := by
  rw [List.filter_eq_nil_iff]
  intro c hc
  simp [List.eq_of_mem_replicate hc]

theorem filter_all {l : List Char} (h : ∀ c ∈ l, c ≠ ' ') : l.filter (fun c => decide (c ≠ ' ')) = l := by
  rw [List.filter_eq_self]
  intro c hc
  simpa using h c hc

theorem filter_text (p : Piece) (hp : p.Ok) : p.text.filter (fun c => decide (c ≠ ' ')) = p.key.1 ++ p.key.2 := by
  rw [Piece.text, List.filter_append, List.filter_append, filter_replicate, List.append_nil,
    filter_all fun c hc => (amount_chars p hp c hc).2, filter_all fun c hc => ((word_chars p hp).2 c hc).2]
  rfl

theorem reading_filter {t : List Char} {ps : List Piece} (h : Reading t ps) :
    t.filter (fun c => decide (c ≠ ' ')) = (ps.map Piece.key).flatMap fun p => p.1 ++ p.2 := by
  induction h with
  | one p hp => rw [filter_text p hp]; simp
  | cons p hp n t q ps _ _ ih =>
    rw [List.filter_append, List.filter_append, filter_replicate, List.nil_append, filter_text p hp, ih, List.map_cons,
      List.flatMap_cons]
    rfl

theorem reading_keys {ps : List Piece} (h : ∀ p ∈ ps, p.Ok) : ∀ p ∈ ps.map Piece.key,
    (p.1 ≠ [] ∧ p.1.all numCh = true) ∧ p.2 ≠ [] ∧ p.2.all (fun c => !numCh c) = true := by
  intro k hk
  obtain ⟨p, hp, rfl⟩ := List.mem_map.1 hk
  have hok := h p hp
  refine ⟨⟨?_, ?_⟩, (word_chars p hok).1, ?_⟩
  · simp only [Piece.key, Piece.amount]
    exact fun h => hok.ints.1 (List.append_eq_nil_iff.1 h).1
  · rw [List.all_eq_true]
    exact fun c hc => (amount_chars p hok c hc).1
  · rw [List.all_eq_true]
    intro c hc
    simpa using ((word_chars p hok).2 c hc).1

theorem values_of_keys : ∀ (ps ps' : List Piece), (∀ p ∈ ps, p.Ok) → (∀ p ∈ ps', p.Ok) →
    ps.map Piece.key = ps'.map Piece.key → ps.map Piece.value = ps'.map Piece.value
  | [], [], _, _, _ => rfl
  | [], _ :: _, _, _, h => by simp at h
  | _ :: _, [], _, _, h => by simp at h
  | p :: ps, p' :: ps', h1, h2, h => by
    rw [List.map_cons, List.map_cons, List.cons.injEq] at h
    rw [List.map_cons, List.map_cons, values_of_keys ps ps' (fun q hq => h1 q (by simp [hq])) (fun q hq => h2 q (by simp [hq])) h.2]
    congr 1
    have hp := h1 p (by simp)
    have hp' := h2 p' (by simp)
    have ha : p.amount = p'.amount := congrArg Prod.fst h.1
    have hw : p.word = p'.word := congrArg Prod.snd h.1
    have e1 := amount_value p hp
    rw [ha, amount_value p' hp', Option.some.injEq] at e1
    have e2 : p.secs = p'.secs := by
      have s1 := hp.span
      have s2 := hp'.span
      rw [← hw] at s2
      revert s1 s2
      generalize p.word = w
      generalize p.unit = k
      generalize p'.unit = k'
      generalize p.secs = s
      generalize p'.secs = s'
      intro s1 s2
      cases s1 <;> cases s2 <;> rfl
    rw [Piece.value, Piece.value, e1, e2]

/-- A text has only one meaning as interval. -/
theorem total_unique {t : List Char} {ps ps' : List Piece} (h : Reading t ps) (h' : Reading t ps') : total ps = total ps' := by
  have e := pieces_unique _ _ (reading_keys (reading_ok h).1) (reading_keys (reading_ok h').1)
    ((reading_filter h).symm.trans (reading_filter h'))
  rw [total, total, values_of_keys ps ps' (reading_ok h).1 (reading_ok h').1 e]

end Scalars
end Config
end HF
