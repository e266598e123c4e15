import Verif.Config.LoadProps
/-
C80: aliases without anchor.
-/
namespace HF
namespace Config

variable {K A : Type} [DecidableEq K]

/-! ### Specification -/

/-- What the file says about anchors and aliases, in the order of its lines; an anchor counts from the end of its
node. -/
inductive Mark
  | complete (n : Nat)
  | used (n : Nat)
  deriving DecidableEq

mutual
def marks : Yaml K A → List Mark
  | .atom _ => []
  | .aliased n => [.used n]
  | .anchor n y => marks y ++ [.complete n]
  | .map es => marksMap es
  | .seq l => marksSeq l

def marksMap : List (K × Yaml K A) → List Mark
  | [] => []
  | (_, y) :: es => marks y ++ marksMap es

def marksSeq : List (Yaml K A) → List Mark
  | [] => []
  | y :: l => marks y ++ marksSeq l
end

/-- Every alias comes after the node with its anchor; the nodes with the anchors `seen` came before. -/
def InOrder (seen : List Nat) (l : List Mark) : Prop :=
  ∀ pre n post, l = pre ++ .used n :: post → n ∈ seen ∨ .complete n ∈ pre

/-! ### Proofs -/

/-- The anchors that are complete in the end. -/
def completed (l : List Mark) : List Nat := l.filterMap fun m => match m with | .complete n => some n | .used _ => none

theorem mem_completed (l : List Mark) (n : Nat) : n ∈ completed l ↔ .complete n ∈ l := by
  unfold completed
  rw [List.mem_filterMap]
  constructor
  · rintro ⟨m, hm, he⟩
    cases m with
    | complete k => simp only [Option.some.injEq] at he; subst he; exact hm
    | used k => cases he
  · exact fun h => ⟨_, h, rfl⟩

theorem inOrder_append (seen : List Nat) (a b : List Mark) :
    InOrder seen (a ++ b) ↔ InOrder seen a ∧ InOrder (completed a ++ seen) b := by
  constructor
  · intro h
    refine ⟨fun pre n post he => h pre n (post ++ b) (by rw [he]; simp), fun pre n post he => ?_⟩
    rcases h (a ++ pre) n post (by rw [he]; simp) with h | h
    · exact .inl (List.mem_append_right _ h)
    · rcases List.mem_append.1 h with h | h
      · exact .inl (List.mem_append_left _ ((mem_completed a n).2 h))
      · exact .inr h
  · rintro ⟨ha, hb⟩ pre n post he
    rcases List.append_eq_append_iff.1 he with ⟨c, h1, h2⟩ | ⟨c, h1, h2⟩
    · rcases hb c n post h2 with h | h
      · rcases List.mem_append.1 h with h | h
        · exact .inr (by rw [h1]; exact List.mem_append_left _ ((mem_completed a n).1 h))
        · exact .inl h
      · exact .inr (by rw [h1]; exact List.mem_append_right _ h)
    · cases c with
      | nil =>
        rcases hb [] n post (by simpa using h2.symm) with h | h
        · rcases List.mem_append.1 h with h | h
          · exact .inr (by have : a = pre := by simpa using h1
                           rw [← this]; exact (mem_completed a n).1 h)
          · exact .inl h
        · cases h
      | cons c cs =>
        have hc : c = .used n := by
          have := congrArg List.head? h2
          simpa using this.symm
        subst hc
        exact ha pre n cs h1

/-- Membership in the table of anchors. -/
def Known (m : Mem K A) (seen : List Nat) : Prop := ∀ n, (m.names.lookup n).isSome ↔ n ∈ seen

theorem known_append {m : Mem K A} {seen : List Nat} {l l' : List Mark} (h : Known m (completed l' ++ (completed l ++ seen))) :
    Known m (completed (l ++ l') ++ seen) := by
  intro n
  rw [h n]
  simp only [completed, List.filterMap_append, List.mem_append]
  tauto

mutual
theorem construct_marks (m : Mem K A) (seen : List Nat) (hk : Known m seen) : (y : Yaml K A) →
    (InOrder seen (marks y) → ∃ m' v, construct m y = some (m', v) ∧ Known m' (completed (marks y) ++ seen)) ∧
    (¬ InOrder seen (marks y) → construct m y = none)
  | .atom a => by
    refine ⟨fun _ => ⟨m, .atom a, by rw [construct], by simpa [marks, completed] using hk⟩, fun h => absurd ?_ h⟩
    intro pre n post he
    simp [marks] at he
  | .aliased n => by
    constructor
    · intro h
      have hn : n ∈ seen := by
        rcases h [] n [] (by simp [marks]) with h | h
        · exact h
        · cases h
      obtain ⟨v, hv⟩ := Option.isSome_iff_exists.1 ((hk n).2 hn)
      exact ⟨m, v, by rw [construct, hv]; rfl, by simpa [marks, completed] using hk⟩
    · intro h
      rw [construct]
      cases hl : m.names.lookup n with
      | none => rfl
      | some v =>
        refine absurd ?_ h
        have hn : n ∈ seen := (hk n).1 (by rw [hl]; rfl)
        intro pre n' post he
        simp only [marks] at he
        cases pre with
        | nil => simp at he; exact .inl (he.1 ▸ hn)
        | cons c cs => simp at he
  | .anchor n y => by
    have ih := construct_marks m seen hk y
    have hone : ∀ s, InOrder s [Mark.complete n] := by
      intro s pre n' post he
      cases pre with
      | nil => simp at he
      | cons c cs => simp at he
    constructor
    · intro h
      rw [marks, inOrder_append] at h
      obtain ⟨m', v, h1, h2⟩ := ih.1 h.1
      refine ⟨{ m' with names := (n, v) :: m'.names }, v, by rw [construct, h1], ?_⟩
      rw [marks]
      refine known_append ?_
      intro k
      have := h2 k
      simp only [List.lookup_cons]
      by_cases hkn : k = n
      · subst hkn
        simp [completed]
      · have hb : (k == n) = false := by simpa using hkn
        rw [hb]
        simp only [cond_false, this]
        simp [completed, hkn]
    · intro h
      rw [marks, inOrder_append] at h
      have hn : ¬ InOrder seen (marks y) := fun hy => h ⟨hy, hone _⟩
      rw [construct, ih.2 hn]
  | .map es => by
    have ih := fillMap_marks { m with heap := m.heap ++ [⟨.dict [], none⟩] } seen hk m.heap.length es
    constructor
    · intro h
      obtain ⟨m', h1, h2⟩ := ih.1 (by simpa [marks] using h)
      exact ⟨m', _, by rw [construct, h1], by simpa [marks] using h2⟩
    · intro h
      rw [construct, ih.2 (by simpa [marks] using h)]
  | .seq l => by
    have ih := fillSeq_marks { m with heap := m.heap ++ [⟨.list [], none⟩] } seen hk m.heap.length l
    constructor
    · intro h
      obtain ⟨m', h1, h2⟩ := ih.1 (by simpa [marks] using h)
      exact ⟨m', _, by rw [construct, h1], by simpa [marks] using h2⟩
    · intro h
      rw [construct, ih.2 (by simpa [marks] using h)]

theorem fillMap_marks (m : Mem K A) (seen : List Nat) (hk : Known m seen) (i : Nat) : (es : List (K × Yaml K A)) →
    (InOrder seen (marksMap es) → ∃ m', fillMap m i es = some m' ∧ Known m' (completed (marksMap es) ++ seen)) ∧
    (¬ InOrder seen (marksMap es) → fillMap m i es = none)
  | [] => by
    refine ⟨fun _ => ⟨m, by rw [fillMap], by simpa [marksMap, completed] using hk⟩, fun h => absurd ?_ h⟩
    intro pre n post he
    simp [marksMap] at he
  | (k, y) :: es => by
    have ih := construct_marks m seen hk y
    by_cases hy : InOrder seen (marks y)
    · obtain ⟨m', v, h1, h2⟩ := ih.1 hy
      have ih2 := fillMap_marks { m' with heap := setEntry (setParent m'.heap v i) i k v } (completed (marks y) ++ seen) h2 i es
      rw [marksMap, inOrder_append, fillMap, h1]
      constructor
      · intro h
        obtain ⟨m2, h3, h4⟩ := ih2.1 h.2
        exact ⟨m2, h3, known_append h4⟩
      · intro h
        exact ih2.2 fun h' => h ⟨hy, h'⟩
    · rw [marksMap, inOrder_append, fillMap, ih.2 hy]
      exact ⟨fun h => absurd h.1 hy, fun _ => rfl⟩

theorem fillSeq_marks (m : Mem K A) (seen : List Nat) (hk : Known m seen) (i : Nat) : (l : List (Yaml K A)) →
    (InOrder seen (marksSeq l) → ∃ m', fillSeq m i l = some m' ∧ Known m' (completed (marksSeq l) ++ seen)) ∧
    (¬ InOrder seen (marksSeq l) → fillSeq m i l = none)
  | [] => by
    refine ⟨fun _ => ⟨m, by rw [fillSeq], by simpa [marksSeq, completed] using hk⟩, fun h => absurd ?_ h⟩
    intro pre n post he
    simp [marksSeq] at he
  | y :: l => by
    have ih := construct_marks m seen hk y
    by_cases hy : InOrder seen (marks y)
    · obtain ⟨m', v, h1, h2⟩ := ih.1 hy
      have ih2 := fillSeq_marks { m' with heap := append (setParent m'.heap v i) i v } (completed (marks y) ++ seen) h2 i l
      rw [marksSeq, inOrder_append, fillSeq, h1]
      constructor
      · intro h
        obtain ⟨m2, h3, h4⟩ := ih2.1 h.2
        exact ⟨m2, h3, known_append h4⟩
      · intro h
        exact ih2.2 fun h' => h ⟨hy, h'⟩
    · rw [marksSeq, inOrder_append, fillSeq, ih.2 hy]
      exact ⟨fun h => absurd h.1 hy, fun _ => rfl⟩
end

/-- C80.  Loading fails in the parser exactly if the file has, at whatever depth, an alias that no node with its anchor
comes before. -/
theorem C80_undefined (y : Yaml K A) :
    load y = .error .yaml ↔ ∃ pre n post, marks y = pre ++ .used n :: post ∧ .complete n ∉ pre := by
  have H := construct_marks (⟨[⟨.dict [], none⟩], []⟩ : Mem K A) [] (by intro n; simp) y
  have hiff : (∃ pre n post, marks y = pre ++ .used n :: post ∧ .complete n ∉ pre) ↔ ¬ InOrder [] (marks y) := by
    unfold InOrder
    push_neg
    simp
  rw [hiff]
  constructor
  · intro h hy
    obtain ⟨m', v, h1, -⟩ := H.1 hy
    unfold load at h
    rw [h1] at h
    cases v with
    | atom a => simp at h
    | ref r =>
      simp only at h
      cases hr : m'.heap[r]? with
      | none => simp [hr] at h
      | some o =>
        obtain ⟨b, p⟩ := o
        cases b <;> simp [hr] at h
  · intro hy
    unfold load
    rw [H.2 hy]

/-- Not vacuous: an alias two levels deep before its anchor, and one after it. -/
example : load (.map [('a', .seq [.map [('b', .aliased 3)]]), ('c', .anchor 3 (.atom 1))] : Yaml Char Nat) = .error .yaml ∧
    load (.map [('c', .anchor 3 (.atom 1)), ('a', .seq [.map [('b', .aliased 3)]])] : Yaml Char Nat) ≠ .error .yaml := by
  constructor
  · exact (C80_undefined _).2 ⟨[], 3, [.complete 3], rfl, by simp⟩
  · intro h
    obtain ⟨pre, n, post, h1, h2⟩ := (C80_undefined _).1 h
    simp only [marks, marksMap, marksSeq, List.append_nil, List.nil_append] at h1
    rcases pre with _ | ⟨c, _ | ⟨c', cs⟩⟩
    · simp at h1
    · simp at h1
      apply h2
      rw [← h1.1, ← h1.2.1]
      simp
    · simp at h1

end Config
end HF
