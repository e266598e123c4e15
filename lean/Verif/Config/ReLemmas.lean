import Verif.Config.Re
/-
What regular expressions match, without the order of the ways.
-/
namespace HF
namespace Config
namespace Re

theorem mem_starRests {p : Char → Bool} {s r : List Char} :
    r ∈ starRests p s ↔ ∃ w, s = w ++ r ∧ w.all p = true := by
  induction s with
  | nil =>
    simp only [starRests, List.mem_singleton]
    constructor
    · rintro rfl; exact ⟨[], rfl, rfl⟩
    · rintro ⟨w, h, -⟩; exact (List.append_eq_nil_iff.1 h.symm).2
  | cons c s ih =>
    simp only [starRests]
    constructor
    · intro h
      split at h
      case isTrue hc =>
        rcases List.mem_append.1 h with h | h
        · obtain ⟨w, rfl, hw⟩ := ih.1 h
          exact ⟨c :: w, rfl, by simp [hc, hw]⟩
        · rw [List.mem_singleton] at h
          exact ⟨[], h.symm, rfl⟩
      case isFalse hc =>
        rw [List.mem_singleton] at h
        exact ⟨[], h.symm, rfl⟩
    · rintro ⟨w, h, hw⟩
      cases w with
      | nil =>
        subst h
        split <;> simp
      | cons d w =>
        rw [List.cons_append, List.cons.injEq] at h
        obtain ⟨rfl, rfl⟩ := h
        rw [List.all_cons, Bool.and_eq_true] at hw
        rw [if_pos hw.1, List.mem_append]
        exact Or.inl (ih.2 ⟨w, rfl, hw.2⟩)

theorem mem_eps {s : List Char} {x : Caps × List Char} : x ∈ run .eps s ↔ x = ([], s) := by simp [run]

theorem mem_cls {p : Char → Bool} {s : List Char} {x : Caps × List Char} :
    x ∈ run (.cls p) s ↔ ∃ c, s = c :: x.2 ∧ p c = true ∧ x.1 = [] := by
  obtain ⟨g, r⟩ := x
  cases s with
  | nil => simp [run]
  | cons c s =>
    simp only [run]
    split
    case isTrue h =>
      simp only [List.mem_singleton, Prod.mk.injEq, List.cons.injEq]
      constructor
      · rintro ⟨rfl, rfl⟩; exact ⟨c, ⟨rfl, rfl⟩, h, rfl⟩
      · rintro ⟨d, ⟨rfl, rfl⟩, -, rfl⟩; exact ⟨rfl, rfl⟩
    case isFalse h =>
      simp only [List.not_mem_nil, List.cons.injEq, false_iff]
      rintro ⟨d, ⟨rfl, -⟩, h', -⟩
      exact h h'

theorem mem_seq {a b : Re} {s : List Char} {x : Caps × List Char} :
    x ∈ run (.seq a b) s ↔ ∃ y ∈ run a s, ∃ z ∈ run b y.2, x = (y.1 ++ z.1, z.2) := by
  simp only [run, List.mem_flatMap, List.mem_map]
  constructor
  · rintro ⟨y, hy, z, hz, rfl⟩; exact ⟨y, hy, z, hz, rfl⟩
  · rintro ⟨y, hy, z, hz, rfl⟩; exact ⟨y, hy, z, hz, rfl⟩

theorem mem_alt {a b : Re} {s : List Char} {x : Caps × List Char} :
    x ∈ run (.alt a b) s ↔ x ∈ run a s ∨ x ∈ run b s := by simp [run]

theorem mem_opt {a : Re} {s : List Char} {x : Caps × List Char} :
    x ∈ run (.opt a) s ↔ x ∈ run a s ∨ x = ([], s) := by simp [run]

theorem mem_star {p : Char → Bool} {s : List Char} {x : Caps × List Char} :
    x ∈ run (.star p) s ↔ ∃ w, s = w ++ x.2 ∧ w.all p = true ∧ x.1 = [] := by
  obtain ⟨g, r⟩ := x
  simp only [run, List.mem_map, mem_starRests, Prod.mk.injEq]
  constructor
  · rintro ⟨r', ⟨w, rfl, hw⟩, rfl, rfl⟩; exact ⟨w, rfl, hw, rfl⟩
  · rintro ⟨w, rfl, hw, rfl⟩; exact ⟨r, ⟨w, rfl, hw⟩, rfl, rfl⟩

/-- What is left is the end of the text. -/
theorem run_suffix (r : Re) : ∀ {s : List Char} {x : Caps × List Char}, x ∈ run r s → ∃ w, s = w ++ x.2 := by
  induction r with
  | eps => intro s x h; rw [mem_eps] at h; subst h; exact ⟨[], rfl⟩
  | cls p => intro s x h; obtain ⟨c, h, -⟩ := mem_cls.1 h; exact ⟨[c], h⟩
  | seq a b iha ihb =>
    intro s x h
    obtain ⟨y, hy, z, hz, rfl⟩ := mem_seq.1 h
    obtain ⟨v, hv⟩ := iha hy
    obtain ⟨w, hw⟩ := ihb hz
    exact ⟨v ++ w, by rw [hv, hw, List.append_assoc]⟩
  | alt a b iha ihb =>
    intro s x h
    rcases mem_alt.1 h with h | h
    · exact iha h
    · exact ihb h
  | opt a iha =>
    intro s x h
    rcases mem_opt.1 h with h | rfl
    · exact iha h
    · exact ⟨[], rfl⟩
  | star p => intro s x h; obtain ⟨w, h, -⟩ := mem_star.1 h; exact ⟨w, h⟩
  | group n a iha =>
    intro s x h
    simp only [run, List.mem_map] at h
    obtain ⟨y, hy, rfl⟩ := h
    obtain ⟨w, hw⟩ := iha hy
    exact ⟨w, hw⟩
  | eos =>
    intro s x h
    simp only [run] at h
    split at h
    · rw [List.mem_singleton] at h; subst h; exact ⟨[], rfl⟩
    · simp at h

theorem mem_group {n : Nat} {a : Re} {s : List Char} {x : Caps × List Char} :
    x ∈ run (.group n a) s ↔ ∃ g w, s = w ++ x.2 ∧ (g, x.2) ∈ run a s ∧ x.1 = (n, w) :: g := by
  obtain ⟨c, r⟩ := x
  simp only [run, List.mem_map]
  constructor
  · rintro ⟨⟨g, r'⟩, hy, e⟩
    obtain ⟨w, hw⟩ := run_suffix a hy
    simp only at hw
    subst hw
    simp only [Prod.mk.injEq] at e
    obtain ⟨rfl, rfl⟩ := e
    refine ⟨g, w, rfl, hy, ?_⟩
    simp
  · rintro ⟨g, w, rfl, hy, rfl⟩
    exact ⟨(g, r), hy, by simp⟩

theorem mem_eos {s : List Char} {x : Caps × List Char} :
    x ∈ run .eos s ↔ (s = [] ∨ s = ['\n']) ∧ x = ([], s) := by
  simp only [run]
  split <;> simp [*]

theorem mem_chr {c : Char} {s : List Char} {x : Caps × List Char} :
    x ∈ run (chr c) s ↔ s = c :: x.2 ∧ x.1 = [] := by
  rw [chr, mem_cls]
  constructor
  · rintro ⟨d, h, hd, hx⟩
    simp only [decide_eq_true_eq] at hd
    subst hd
    exact ⟨h, hx⟩
  · rintro ⟨h, hx⟩; exact ⟨c, h, by simp, hx⟩

theorem mem_word {w : List Char} : ∀ {s : List Char} {x : Caps × List Char},
    x ∈ run (word w) s ↔ s = w ++ x.2 ∧ x.1 = [] := by
  induction w with
  | nil =>
    rintro s ⟨g, r⟩
    simp only [word, mem_eps, Prod.mk.injEq, List.nil_append]
    constructor
    · rintro ⟨rfl, rfl⟩; exact ⟨rfl, rfl⟩
    · rintro ⟨rfl, rfl⟩; exact ⟨rfl, rfl⟩
  | cons c w ih =>
    rintro s ⟨g, r⟩
    simp only [word, mem_seq]
    constructor
    · rintro ⟨⟨g1, r1⟩, h1, ⟨g2, r2⟩, h2, e⟩
      obtain ⟨rfl, rfl⟩ := mem_chr.1 h1
      obtain ⟨k, k'⟩ := ih.1 h2
      simp only at k k'
      subst k k'
      simp only [List.append_nil, Prod.mk.injEq] at e
      obtain ⟨rfl, rfl⟩ := e
      exact ⟨rfl, rfl⟩
    · rintro ⟨h, rfl⟩
      exact ⟨([], w ++ r), mem_chr.2 ⟨h, rfl⟩, ([], r), ih.2 ⟨rfl, rfl⟩, rfl⟩

theorem mem_words : ∀ {ws : List (List Char)} {s : List Char} {x : Caps × List Char},
    x ∈ run (words ws) s ↔ ∃ w ∈ ws, s = w ++ x.2 ∧ x.1 = []
  | [], s, x => by simp [words, mem_cls]
  | [w], s, x => by simp [words, mem_word]
  | w :: w' :: ws, s, x => by
    rw [words, mem_alt, mem_word, mem_words]
    · simp
    · simp

theorem mem_plus {p : Char → Bool} {s : List Char} {x : Caps × List Char} :
    x ∈ run (plus p) s ↔ ∃ w, w ≠ [] ∧ s = w ++ x.2 ∧ w.all p = true ∧ x.1 = [] := by
  obtain ⟨g, r⟩ := x
  rw [plus, mem_seq]
  constructor
  · rintro ⟨⟨g1, r1⟩, h1, ⟨g2, r2⟩, h2, e⟩
    obtain ⟨c, rfl, hc, h1'⟩ := mem_cls.1 h1
    obtain ⟨w, k, hw, k'⟩ := mem_star.1 h2
    simp only at h1' k k'
    subst h1' k k'
    simp only [List.append_nil, Prod.mk.injEq] at e
    obtain ⟨rfl, rfl⟩ := e
    exact ⟨c :: w, by simp, rfl, by simp [hc, hw], rfl⟩
  · rintro ⟨w, hne, h, hw, hg⟩
    simp only at h hg
    subst h hg
    cases w with
    | nil => exact absurd rfl hne
    | cons c w =>
      rw [List.all_cons, Bool.and_eq_true] at hw
      exact ⟨([], w ++ r), mem_cls.2 ⟨c, rfl, hw.1, rfl⟩, ([], r), mem_star.2 ⟨w, rfl, hw.2, rfl⟩, rfl⟩

/-- There is a match if there is a way to match. -/
theorem match_isSome {r : Re} {s : List Char} : (r.match s).isSome ↔ ∃ x, x ∈ run r s := by
  unfold «match»
  rcases h : run r s with _ | ⟨x, l⟩
  · simp
  · simp only [List.head?_cons, Option.map_some, Option.isSome_some, true_iff]
    exact ⟨x, by simp⟩

theorem match_some {r : Re} {s : List Char} {g : Caps} (h : r.match s = some g) : ∃ rest, (g, rest) ∈ run r s := by
  unfold «match» at h
  rcases h' : run r s with _ | ⟨⟨g', rest⟩, l⟩
  · simp [h'] at h
  · rw [h'] at h
    simp only [List.head?_cons, Option.map_some, Option.some.injEq] at h
    subst h
    exact ⟨rest, by simp⟩

/-- If all ways to match the first part that can be completed end at the same place, the second part is matched in its
first way there. -/
theorem head_seq {a b : Re} {s u : List Char} (hu : ∀ y ∈ run a s, run b y.2 ≠ [] → y.2 = u) {x : Caps × List Char}
    (h : (run (.seq a b) s).head? = some x) :
    ∃ g z, (g, u) ∈ run a s ∧ (run b u).head? = some z ∧ x = (g ++ z.1, z.2) := by
  have key : ∀ l : List (Caps × List Char), (∀ y ∈ l, run b y.2 ≠ [] → y.2 = u) →
      (l.flatMap fun x => (run b x.2).map fun y => (x.1 ++ y.1, y.2)).head? = some x →
      ∃ g z, (g, u) ∈ l ∧ (run b u).head? = some z ∧ x = (g ++ z.1, z.2) := by
    intro l
    induction l with
    | nil => intro _ h; simp at h
    | cons y l ih =>
      intro hl h
      rw [List.flatMap_cons] at h
      rcases hb : run b y.2 with _ | ⟨z, zs⟩
      · rw [hb, List.map_nil, List.nil_append] at h
        obtain ⟨g, z, h1, h2⟩ := ih (fun y' hy' => hl y' (by simp [hy'])) h
        exact ⟨g, z, by simp [h1], h2⟩
      · have e := hl y (by simp) (by rw [hb]; simp)
        rw [hb, List.map_cons, List.cons_append, List.head?_cons, Option.some.injEq] at h
        obtain ⟨g, r⟩ := y
        simp only at e
        subst e
        exact ⟨g, z, by simp, by rw [hb]; rfl, h.symm⟩
  exact key _ hu h

end Re
end Config
end HF
