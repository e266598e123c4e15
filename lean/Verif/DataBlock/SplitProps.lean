import Verif.DataBlock.Split
import Verif.DataBlock.Examples
/-
C13: splitting into blocks with consistent dimensions.
-/
namespace HF.DataBlock

variable {β α : Type} [DecidableEq β]

/-- Same dimensions, in any order. -/
def SameSet (a b : List (Dim β)) : Prop := ∀ d, d ∈ a ↔ d ∈ b

theorem setEq_iff (a b : List (Dim β)) : setEq a b = true ↔ SameSet a b := by
  simp only [setEq, Bool.and_eq_true, List.all_eq_true, decide_eq_true_eq, SameSet]
  exact ⟨fun h d => ⟨h.1 d, h.2 d⟩, fun h => ⟨fun d => (h d).1, fun d => (h d).2⟩⟩

theorem longest_none (en : Enum (List (Dim β))) (s : List (List (Dim β))) :
    longest en s = none ↔ s = [] := by
  unfold longest
  rw [List.getLast?_eq_none_iff]
  constructor
  · intro h
    have h1 := (Py.sortBy_perm (fun a b : List (Dim β) => decide (a.length < b.length)) (en.f s)).trans (en.perm s)
    rw [h] at h1
    exact List.nil_perm.1 h1
  · rintro rfl
    have h1 := (Py.sortBy_perm (fun a b : List (Dim β) => decide (a.length < b.length)) (en.f [])).trans (en.perm [])
    exact List.perm_nil.1 h1

theorem longest_max (en : Enum (List (Dim β))) (s : List (List (Dim β))) (l : List (Dim β))
    (h : longest en s = some l) : ∀ x ∈ s, x.length ≤ l.length := by
  unfold longest at h
  have hs := Py.sortBy_sorted (lt := fun a b : List (Dim β) => decide (a.length < b.length)) (l := en.f s)
    (by intro x _ y _ z _; simp; omega) (by intro x _ y _; simp; omega)
  have hp := (Py.sortBy_perm (fun a b : List (Dim β) => decide (a.length < b.length)) (en.f s)).trans (en.perm s)
  generalize Py.sortBy (fun a b : List (Dim β) => decide (a.length < b.length)) (en.f s) = t at h hs hp
  intro x hx
  have hx' := hp.mem_iff.2 hx
  obtain ⟨t', rfl⟩ := List.getLast?_eq_some_iff.1 h
  rw [List.pairwise_append] at hs
  rcases List.mem_append.1 hx' with hx | hx
  · have := hs.2.2 x hx l (by simp)
    simpa using this
  · simp at hx; simp [hx]

theorem yields_nil (en : Enum (List (Dim β))) : yields en [] = [] := by
  rw [yields]
  split
  · rfl
  · rename_i l h
    rw [(longest_none en []).2 rfl] at h
    simp at h

theorem yields_cons (en : Enum (List (Dim β))) (s : List (List (Dim β))) (hs : s ≠ []) :
    ∃ l, longest en s = some l ∧ yields en s = l :: yields en (discard s l) := by
  rw [yields]
  split
  · rename_i h
    exact absurd ((longest_none en s).1 h) hs
  · rename_i l h
    exact ⟨l, h, rfl⟩

/-- Strong induction over the generator. -/
theorem yields_induct (en : Enum (List (Dim β))) (P : List (List (Dim β)) → Prop) (h0 : P [])
    (h1 : ∀ s l, longest en s = some l → P (discard s l) → P s) : ∀ s, P s := by
  intro s
  generalize hn : s.length = n
  induction n using Nat.strongRecOn generalizing s with
  | ind n ih =>
    by_cases e : s = []
    · subst e; exact h0
    · obtain ⟨l, hl, _⟩ := yields_cons en s e
      exact h1 s l hl (ih _ (hn ▸ discard_lt s l (longest_mem en s l hl)) _ rfl)

theorem mem_discard (s : List (List (Dim β))) (l x : List (Dim β)) :
    x ∈ discard s l ↔ x ∈ s ∧ x ≠ l ∧ (l.length > 1 → x ≠ l.tail) := by
  simp only [discard]
  split
  · rename_i h
    simp [h]
    tauto
  · rename_i h
    simp [h]

theorem yields_of_longest (en : Enum (List (Dim β))) (s : List (List (Dim β))) (l : List (Dim β))
    (h : longest en s = some l) : yields en s = l :: yields en (discard s l) := by
  have hs : s ≠ [] := by
    rintro rfl
    rw [(longest_none en []).2 rfl] at h; simp at h
  obtain ⟨l', h1, h2⟩ := yields_cons en s hs
  rw [h] at h1
  simp only [Option.some.injEq] at h1
  subst h1
  exact h2

theorem yields_sub (en : Enum (List (Dim β))) : ∀ s, ∀ l ∈ yields en s, l ∈ s := by
  refine yields_induct en _ (by simp [yields_nil]) ?_
  intro s l hl ih x hx
  rw [yields_of_longest en s l hl] at hx
  rcases List.mem_cons.1 hx with rfl | hx
  · exact longest_mem en s _ hl
  · exact ((mem_discard _ _ _).1 (ih x hx)).1

/-- C13: the blocks come with ever fewer dimensions, each tuple of dimensions at most once. -/
theorem C13_order (en : Enum (List (Dim β))) : ∀ s,
    (yields en s).Pairwise fun a b => b.length ≤ a.length ∧ a ≠ b := by
  refine yields_induct en _ (by simp [yields_nil]) ?_
  intro s l hl ih
  rw [yields_of_longest en s l hl, List.pairwise_cons]
  refine ⟨?_, ih⟩
  intro x hx
  have := (mem_discard _ _ _).1 (yields_sub en _ x hx)
  exact ⟨longest_max en s l hl x this.1, fun e => this.2.1 e.symm⟩

/-- C13: which tuples are yielded: all but those that are the tail of a yielded one. -/
theorem C13_yielded (en : Enum (List (Dim β))) : ∀ s l,
    l ∈ yields en s ↔ l ∈ s ∧ ¬ ∃ l' ∈ yields en s, l'.length > 1 ∧ l'.tail = l := by
  refine yields_induct en _ (by simp [yields_nil]) ?_
  intro s l0 hl ih l
  have hy := yields_of_longest en s l0 hl
  constructor
  · intro h
    refine ⟨yields_sub en s l h, ?_⟩
    rintro ⟨l', h1, h2, h3⟩
    rw [hy] at h h1
    have hlen : l.length < l'.length := by
      rw [← h3, List.length_tail]; omega
    rcases List.mem_cons.1 h1 with rfl | h1
    · rcases List.mem_cons.1 h with rfl | h
      · omega
      · exact ((mem_discard _ _ _).1 (yields_sub en _ l h)).2.2 h2 h3.symm
    · rcases List.mem_cons.1 h with rfl | h
      · have := longest_max en s _ hl l' ((mem_discard _ _ _).1 (yields_sub en _ l' h1)).1
        omega
      · exact ((ih l).1 h).2 ⟨l', h1, h2, h3⟩
  · rintro ⟨h1, h2⟩
    rw [hy]
    by_cases e : l = l0
    · simp [e]
    · refine List.mem_cons.2 (Or.inr ((ih l).2 ⟨(mem_discard _ _ _).2 ⟨h1, e, ?_⟩, ?_⟩))
      · intro h3 h4
        exact h2 ⟨l0, by rw [hy]; simp, h3, h4.symm⟩
      · rintro ⟨l', h3, h4⟩
        exact h2 ⟨l', by rw [hy]; simp [h3], h4⟩

/-- C13: which blocks are returned does not depend on the order in which the set is enumerated. -/
theorem C13_enumeration (en en' : Enum (List (Dim β))) (s : List (List (Dim β))) (l : List (Dim β)) :
    l ∈ yields en s ↔ l ∈ yields en' s := by
  -- longer tuples first
  have key : ∀ n (l : List (Dim β)), (∀ x ∈ s, x.length ≤ l.length + n) →
      (l ∈ yields en s ↔ l ∈ yields en' s) := by
    intro n
    induction n with
    | zero =>
      intro l h
      rw [C13_yielded en s l, C13_yielded en' s l]
      have none_longer : ∀ e : Enum (List (Dim β)), ¬ ∃ l' ∈ yields e s, l'.length > 1 ∧ l'.tail = l := by
        rintro e ⟨l', h1, h2, rfl⟩
        have := h l' (yields_sub e s l' h1)
        rw [List.length_tail] at this; omega
      simp [none_longer]
    | succ n ih =>
      intro l h
      rw [C13_yielded en s l, C13_yielded en' s l]
      have : (∃ l' ∈ yields en s, l'.length > 1 ∧ l'.tail = l) ↔
          ∃ l' ∈ yields en' s, l'.length > 1 ∧ l'.tail = l := by
        have hx : ∀ l' : List (Dim β), l'.length > 1 ∧ l'.tail = l →
            (l' ∈ yields en s ↔ l' ∈ yields en' s) := by
          rintro l' ⟨h1, rfl⟩
          refine ih l' fun x hx => ?_
          have := h x hx
          rw [List.length_tail] at this
          omega
        exact ⟨fun ⟨l', h1, h2⟩ => ⟨l', (hx l' h2).1 h1, h2⟩, fun ⟨l', h1, h2⟩ => ⟨l', (hx l' h2).2 h1, h2⟩⟩
      rw [this]
  refine key (s.map List.length).sum l fun x hx => ?_
  have : ∀ t : List (List (Dim β)), x ∈ t → x.length ≤ (t.map List.length).sum := by
    intro t ht
    induction t with
    | nil => simp at ht
    | cons a t ih =>
      rw [List.map_cons, List.sum_cons]
      rcases List.mem_cons.1 ht with rfl | ht
      · omega
      · have := ih ht; omega
  have := this s hx
  omega

/-- C13: every returned block holds exactly the variables with the dimensions of the block, or with
these without the first, in the order of the original block, and exactly their dimensions. -/
theorem C13_exact (env : Env β α) (en : Enum (List (Dim β))) (b : Block β α) (hq : Quiet b.vars)
    (hd : ∀ w ∈ b.vars, w.2.dims.Nodup) (l : List (Dim β)) (r : Except Err (Block β α))
    (h : (l, r) ∈ splitBlock env en b) :
    ∃ b', r = .ok b' ∧ b'.vars.Sublist b.vars ∧
      (∀ w, w ∈ b'.vars ↔ w ∈ b.vars ∧ (SameSet w.2.dims l ∨ SameSet w.2.dims l.tail)) ∧
      (∀ n, n ∈ keys b'.ivars ↔ ∃ w ∈ b'.vars, ∃ d ∈ w.2.dims, d.name = n) := by
  simp only [splitBlock, List.mem_map, Prod.mk.injEq] at h
  obtain ⟨l', h1, rfl, rfl⟩ := h
  have hl := yields_sub en _ l' h1
  rw [List.mem_dedup, List.mem_map] at hl
  obtain ⟨w0, hw0, rfl⟩ := hl
  obtain ⟨b', e1, e2, e3⟩ := writes_empty env (b.vars.filter (fitsDims w0.2.dims))
    (hq.sublist (List.filter_sublist))
  refine ⟨b', ?_, ?_, ?_, ?_⟩
  · simp only [subsetByDims, hd w0 hw0, if_true, e1]
  · rw [e2]; exact List.filter_sublist
  · intro w
    rw [e2, List.mem_filter]
    simp only [fitsDims, Bool.or_eq_true, setEq_iff]
  · intro n; rw [e3, e2]

/-- C13: every variable is in at least one of the returned blocks. -/
theorem C13_covered (env : Env β α) (en : Enum (List (Dim β))) (b : Block β α) (hq : Quiet b.vars)
    (hd : ∀ w ∈ b.vars, w.2.dims.Nodup) (w : String × Arr β α) (hw : w ∈ b.vars) :
    ∃ l b', (l, .ok b') ∈ splitBlock env en b ∧ w ∈ b'.vars := by
  have hm : w.2.dims ∈ (b.vars.map fun w => w.2.dims).dedup := by
    rw [List.mem_dedup]; exact List.mem_map.2 ⟨w, hw, rfl⟩
  have : ∃ l ∈ yields en (b.vars.map fun w => w.2.dims).dedup,
      SameSet w.2.dims l ∨ SameSet w.2.dims l.tail := by
    by_cases h : w.2.dims ∈ yields en (b.vars.map fun w => w.2.dims).dedup
    · exact ⟨_, h, Or.inl fun _ => Iff.rfl⟩
    · have := Classical.not_not.1 fun hh => h ((C13_yielded en _ _).2 ⟨hm, hh⟩)
      obtain ⟨l', h1, _, h3⟩ := this
      exact ⟨l', h1, Or.inr (by rw [h3]; exact fun _ => Iff.rfl)⟩
  obtain ⟨l, h1, h2⟩ := this
  have hin : (l, subsetByDims env b l) ∈ splitBlock env en b :=
    List.mem_map.2 ⟨l, h1, rfl⟩
  obtain ⟨b', e1, _, e3, _⟩ := C13_exact env en b hq hd l _ hin
  exact ⟨l, b', e1 ▸ hin, (e3 w).2 ⟨hw, h2⟩⟩

/-! ### Concrete cases -/

def arrOver (names : List String) : Arr Nat Nat :=
  ⟨names.map sweep, ⟨names.map fun _ => 3, fun _ => 0⟩⟩

def splitEx : Block Nat Nat :=
  { vars := [("x", arrOver ["f", "t"]), ("y", arrOver ["t"]), ("z", arrOver ["g", "t"]), ("c", arrOver [])] }

def idEnum : Enum (List (Dim Nat)) := ⟨id, fun _ => List.Perm.refl _⟩

/-- The hypotheses of `C13_covered` are met. -/
example : Quiet splitEx.vars ∧ ∀ w ∈ splitEx.vars, w.2.dims.Nodup := by
  refine ⟨⟨⟨by decide +kernel, ?_⟩, by decide +kernel⟩, by decide +kernel⟩
  intro w hw w' _ m i j h
  have : ∀ w ∈ splitEx.vars, isMatrixName w.1 = none := by
    intro w hw
    have : w.1 ∈ ["x", "y", "z", "c"] := List.mem_map.2 ⟨w, hw, rfl⟩
    revert this
    generalize w.1 = n
    revert n
    decide +kernel
  rw [this w hw] at h
  simp at h

theorem yields_split : yields idEnum (splitEx.vars.map fun w => w.2.dims).dedup =
    [["g", "t"].map sweep, ["f", "t"].map sweep, []] := by
  have e0 : (splitEx.vars.map fun w => w.2.dims).dedup =
    [["f", "t"].map sweep, ["t"].map sweep, ["g", "t"].map sweep, []] := by decide +kernel
  rw [e0]
  rw [yields_of_longest idEnum _ (["g", "t"].map sweep) (by decide +kernel)]
  have e1 : discard [["f", "t"].map sweep, ["t"].map sweep, ["g", "t"].map sweep, []]
    (["g", "t"].map sweep) = [["f", "t"].map sweep, []] := by decide +kernel
  rw [e1, yields_of_longest idEnum _ (["f", "t"].map sweep) (by decide +kernel)]
  have e2 : discard [["f", "t"].map sweep, []] (["f", "t"].map sweep) = [[]] := by decide +kernel
  rw [e2, yields_of_longest idEnum _ [] (by decide +kernel)]
  have e3 : discard [([] : List (Dim Nat))] [] = [] := by decide +kernel
  rw [e3, yields_nil]

/-- C13: a variable can be returned more than once. -/
theorem C13_twice_refuted :
    (splitBlock envN idEnum splitEx).map (fun p => p.2.toOption.map fun b => b.vars.map Prod.fst) =
      [some ["y", "z"], some ["x", "y"], some ["c"]] := by
  simp only [splitBlock, yields_split]
  decide +kernel

/-- C13: a variable that uses a dimension twice makes the split fail. -/
theorem C13_repeated_dim_refuted (env : Env β α) (b : Block β α) (l : List (Dim β)) (h : ¬ l.Nodup) :
    subsetByDims env b l = .error .valueError := by
  simp [subsetByDims, h]

end HF.DataBlock
