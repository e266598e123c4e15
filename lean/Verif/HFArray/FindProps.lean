import Verif.HFArray.Find
/-
C114: finding dims.
-/
namespace HF
namespace Find

open HF.Arr

variable {β : Type}

/-! ### Specification -/

/-- `c` is `d` or derived from it. -/
inductive Below : Cls → Cls → Prop
  | refl (c : Cls) : Below c c
  | step {c p d : Cls} (h : c.parent = some p) (h' : Below p d) : Below c d

/-- `x` is what one looks for with `v`: it has the name, and the class or one derived from it. -/
def Fits (x v : Dim β) : Prop := x.name = v.name ∧ Below x.cls v.cls

/-- The first place at which `P` holds. -/
def FirstAt (dims : List (Dim β)) (P : Dim β → Prop) (i : Nat) (x : Dim β) : Prop :=
  dims[i]? = some x ∧ P x ∧ ∀ j < i, ∀ y, dims[j]? = some y → ¬ P y

/-! ### Lemmas -/

theorem isSub_of_below {c d : Cls} (h : Below c d) : c.isSub d = true := by
  induction h with
  | refl c => unfold Cls.isSub; simp
  | @step c p d h _ ih =>
    unfold Cls.isSub
    split
    · rfl
    · split
      · next h' => rw [h] at h'; cases h'
      · next q h' => rw [h] at h'; cases h'; exact ih

theorem below_of_isSub (n : Nat) : ∀ c d : Cls, c.depth ≤ n → c.isSub d = true → Below c d := by
  induction n with
  | zero =>
    intro c d hn h
    unfold Cls.isSub at h
    split at h
    · next e => subst e; exact .refl _
    · split at h
      · cases h
      · next p hp => have := Cls.depth_parent hp; omega
  | succ n ih =>
    intro c d hn h
    unfold Cls.isSub at h
    split at h
    · next e => subst e; exact .refl _
    · split at h
      · cases h
      · next p hp =>
        have := Cls.depth_parent hp
        exact .step hp (ih p d (by omega) h)

theorem matches_iff (x v : Dim β) : matches_ x v = true ↔ Fits x v := by
  unfold matches_ Fits Dim.isa
  rw [Bool.and_eq_true, beq_iff_eq]
  exact and_congr_right fun _ => ⟨below_of_isSub _ _ _ le_rfl', isSub_of_below⟩
where
  le_rfl' {n : Nat} : n ≤ n := Nat.le_refl n

theorem below_base (c : Cls) : Below c .dimBase :=
  below_of_isSub _ _ _ (Nat.le_refl _) (by cases c <;> decide +kernel)

/-- What the loops find. -/
theorem firstAt_cons {x : Dim β} {t : List (Dim β)} {P : Dim β → Prop} (hx : ¬ P x) (i : Nat) (y : Dim β) :
    FirstAt (x :: t) P (i + 1) y ↔ FirstAt t P i y := by
  unfold FirstAt
  rw [List.getElem?_cons_succ]
  refine and_congr_right fun _ => and_congr_right fun _ => ⟨fun h j hj z hz => h (j + 1) (by omega) z (by simpa using hz), ?_⟩
  intro h j hj z hz
  cases j with
  | zero =>
    rw [List.getElem?_cons_zero, Option.some_inj] at hz
    subst hz
    exact hx
  | succ j => exact h j (by omega) z (by simpa using hz)

theorem firstAt_zero {x : Dim β} {t : List (Dim β)} {P : Dim β → Prop} (hx : P x) (i : Nat) (y : Dim β) :
    FirstAt (x :: t) P i y ↔ i = 0 ∧ y = x := by
  constructor
  · rintro ⟨h1, h2, h3⟩
    cases i with
    | zero => rw [List.getElem?_cons_zero, Option.some_inj] at h1; exact ⟨rfl, h1.symm⟩
    | succ i => exact absurd hx (h3 0 (by omega) x rfl)
  · rintro ⟨rfl, rfl⟩
    exact ⟨rfl, hx, fun j hj => by omega⟩

theorem matchingIndex_spec (dims : List (Dim β)) (v : Dim β) (i : Nat) :
    matchingIndex dims v = some i ↔ ∃ x, FirstAt dims (Fits · v) i x := by
  induction dims generalizing i with
  | nil => simp [matchingIndex, FirstAt]
  | cons x t ih =>
    unfold matchingIndex
    by_cases hx : matches_ x v = true
    · rw [if_pos hx]
      simp only [firstAt_zero (P := (Fits · v)) ((matches_iff x v).1 hx)]
      simp [eq_comm]
    · rw [if_neg hx]
      have hx' : ¬ Fits x v := fun h => hx ((matches_iff x v).2 h)
      cases i with
      | zero =>
        refine ⟨fun h => by simp at h, ?_⟩
        rintro ⟨y, h1, h2, -⟩
        rw [List.getElem?_cons_zero, Option.some_inj] at h1
        subst h1
        exact absurd h2 hx'
      | succ i =>
        simp only [firstAt_cons (P := (Fits · v)) hx']
        rw [← ih]
        simp

theorem firstMatch_spec (dims : List (Dim β)) (v x : Dim β) :
    firstMatch dims v = some x ↔ ∃ i, FirstAt dims (Fits · v) i x := by
  induction dims with
  | nil => simp [firstMatch, FirstAt]
  | cons y t ih =>
    unfold firstMatch
    by_cases hy : matches_ y v = true
    · rw [if_pos hy]
      simp only [firstAt_zero (P := (Fits · v)) ((matches_iff y v).1 hy)]
      simp [eq_comm]
    · rw [if_neg hy, ih]
      have hy' : ¬ Fits y v := fun h => hy ((matches_iff y v).2 h)
      constructor
      · rintro ⟨i, h⟩
        exact ⟨i + 1, (firstAt_cons (P := (Fits · v)) hy' i x).2 h⟩
      · rintro ⟨i, h⟩
        cases i with
        | zero =>
          obtain ⟨h1, h2, -⟩ := h
          rw [List.getElem?_cons_zero, Option.some_inj] at h1
          subst h1
          exact absurd h2 hy'
        | succ i => exact ⟨i, (firstAt_cons (P := (Fits · v)) hy' i x).1 h⟩

theorem containsDim_spec (dims : List (Dim β)) (v : Dim β) : containsDim dims v = true ↔ ∃ x ∈ dims, Fits x v := by
  unfold containsDim
  rw [List.any_eq_true]
  simp only [matches_iff]

theorem indexLoop_spec [DecidableEq β] (dims : List (Dim β)) (v : Dim.Obj β) (i : Nat) :
    indexLoop dims v = some i ↔ ∃ x, FirstAt dims (fun x => Dim.pyEq (.dim x) v = true) i x := by
  induction dims generalizing i with
  | nil => simp [indexLoop, FirstAt]
  | cons x t ih =>
    unfold indexLoop
    by_cases hx : Dim.pyEq (.dim x) v = true
    · rw [if_pos hx]
      simp only [firstAt_zero (P := fun x => Dim.pyEq (.dim x) v = true) hx]
      simp [eq_comm]
    · rw [if_neg hx]
      cases i with
      | zero =>
        refine ⟨fun h => by simp at h, ?_⟩
        rintro ⟨y, h1, h2, -⟩
        rw [List.getElem?_cons_zero, Option.some_inj] at h1
        subst h1
        exact absurd h2 hx
      | succ i =>
        simp only [firstAt_cons (P := fun x => Dim.pyEq (.dim x) v = true) hx]
        rw [← ih]
        simp

/-- If there is one there is a first one. -/
theorem exists_firstAt (dims : List (Dim β)) (P : Dim β → Prop) : (∃ x ∈ dims, P x) ↔ ∃ i x, FirstAt dims P i x := by
  constructor
  · rintro ⟨x, hx, hP⟩
    induction dims with
    | nil => simp at hx
    | cons y t ih =>
      by_cases hy : P y
      · exact ⟨0, y, (firstAt_zero hy 0 y).2 ⟨rfl, rfl⟩⟩
      · rcases List.mem_cons.1 hx with rfl | hx
        · exact absurd hP hy
        · obtain ⟨i, z, h⟩ := ih hx
          exact ⟨i + 1, z, (firstAt_cons hy i z).2 h⟩
  · rintro ⟨i, x, h, hP, -⟩
    exact ⟨x, List.mem_of_getElem? h, hP⟩

/-! ### Theorems -/

/-- C114: `in` says whether some dim has the name, and the class or a class derived from it. -/
theorem C114_in (kind : Kind) (dims : List (Dim β)) (v : Dim β) :
    has kind dims (.dim v) = true ↔ ∃ x ∈ dims, Fits x v :=
  containsDim_spec dims v

/-- C114: `matching_index` gives the place of the first such dim and `get_matching_dim` that dim; if there is none both
raise a KeyError. -/
theorem C114_find (kind : Kind) (dims : List (Dim β)) (v : Dim β) :
    (has kind dims (.dim v) = true → ∃ i x, FirstAt dims (Fits · v) i x ∧
      matchIndex dims (.dim v) = .ok i ∧ getMatching dims (.dim v) = .ok x) ∧
    (has kind dims (.dim v) = false →
      matchIndex dims (.dim v) = .error .keyError ∧ getMatching dims (.dim v) = .error .keyError) := by
  constructor
  · intro h
    obtain ⟨i, x, hf⟩ := (exists_firstAt _ _).1 ((C114_in kind dims v).1 h)
    refine ⟨i, x, hf, ?_, ?_⟩
    · simp only [matchIndex]
      rw [(matchingIndex_spec dims v i).2 ⟨x, hf⟩]
    · simp only [getMatching]
      rw [(firstMatch_spec dims v x).2 ⟨i, hf⟩]
  · intro h
    have hn : ¬ ∃ i x, FirstAt dims (Fits · v) i x := by
      rw [← exists_firstAt, ← C114_in kind, h]
      simp
    constructor
    · simp only [matchIndex]
      cases hm : matchingIndex dims v with
      | none => rfl
      | some i =>
        obtain ⟨x, hx⟩ := (matchingIndex_spec dims v i).1 hm
        exact absurd ⟨i, x, hx⟩ hn
    · simp only [getMatching]
      cases hm : firstMatch dims v with
      | none => rfl
      | some x =>
        obtain ⟨i, hx⟩ := (firstMatch_spec dims v x).1 hm
        exact absurd ⟨i, x, hx⟩ hn

/-- C114: a name is in the dims of an array if a dim has it; `index` gives its place. -/
theorem C114_name [DecidableEq β] (dims : List (Dim β)) (s : String) :
    (has .tuple dims (.str s) = true ↔ ∃ x ∈ dims, x.name = s) ∧
    (has .tuple dims (.str s) = true → ∃ i x, FirstAt dims (fun x => x.name = s) i x ∧ index dims (.str s) = .ok i) ∧
    (has .tuple dims (.str s) = false → index dims (.str s) = .error .valueError) := by
  have h1 : has .tuple dims (.str s) = true ↔ ∃ x ∈ dims, x.name = s := by
    show containsDim dims _ = true ↔ _
    rw [containsDim_spec]
    exact exists_congr fun x => and_congr_right fun _ => ⟨fun h => h.1, fun h => ⟨h, below_base _⟩⟩
  have hp : (fun x : Dim β => Dim.pyEq (.dim x) (.str s) = true) = fun x => x.name = s := by
    funext x
    simp [Dim.pyEq]
  refine ⟨h1, ?_, ?_⟩
  · intro h
    obtain ⟨i, x, hf⟩ := (exists_firstAt _ _).1 (h1.1 h)
    refine ⟨i, x, hf, ?_⟩
    unfold index
    simp only
    rw [(indexLoop_spec dims (.str s) i).2 ⟨x, by rw [hp]; exact hf⟩]
  · intro h
    unfold index
    simp only
    cases hm : indexLoop dims (.str s) with
    | none => rfl
    | some i =>
      obtain ⟨x, hx⟩ := (indexLoop_spec dims (.str s) i).1 hm
      rw [hp] at hx
      have := h1.2 ((exists_firstAt _ _).2 ⟨i, x, hx⟩)
      rw [h] at this
      cases this

/-- C114: but `get_matching_dim` and `matching_index` raise a KeyError for every name, and in a list of dims there is no
name. -/
theorem C114_name_refuted (dims : List (Dim β)) (s : String) :
    getMatching dims (.str s) = .error .keyError ∧ matchIndex dims (.str s) = .error .keyError ∧
    has .list dims (.str s) = false :=
  ⟨rfl, rfl, rfl⟩

/-- C114: other objects are in no dims. -/
theorem C114_other [DecidableEq β] (kind : Kind) (dims : List (Dim β)) :
    has kind dims .other = false ∧ getMatching dims .other = .error .keyError ∧
    matchIndex dims .other = .error .keyError ∧ index dims .other = .error .valueError :=
  ⟨rfl, rfl, rfl, rfl⟩

/-- C114: `index` of a dim needs equal data, unit and class; only then it gives a place, and there is a dim there that
`in` finds. -/
theorem C114_index [DecidableEq β] (dims : List (Dim β)) (v : Dim β) (i : Nat) :
    index dims (.dim v) = .ok i ↔ ∃ x, FirstAt dims
      (fun x => x.name = v.name ∧ x.cls = v.cls ∧ x.data = v.data ∧ x.unit = v.unit) i x := by
  have hp : (fun x : Dim β => Dim.pyEq (.dim x) (.dim v) = true) =
      fun x => x.name = v.name ∧ x.cls = v.cls ∧ x.data = v.data ∧ x.unit = v.unit := by
    funext x
    simp only [Dim.pyEq, Dim.eqDim, decide_eq_true_eq, Prod.mk.injEq, and_true]
    refine propext ⟨fun h => h.2, fun h => ⟨?_, h⟩⟩
    unfold Dim.sortprio
    rw [h.2.1]
  rw [← hp, ← indexLoop_spec]
  unfold index
  simp only
  cases indexLoop dims (.dim v) with
  | none => simp
  | some j => simp

/-- C114: a dim can be in the dims of an array though `index` does not find it: with other data. -/
theorem C114_index_refuted [DecidableEq β] (kind : Kind) (x v : Dim β) (hn : x.name = v.name) (hc : x.cls = v.cls)
    (hd : x.data ≠ v.data) : has kind [x] (.dim v) = true ∧ index [x] (.dim v) = .error .valueError := by
  constructor
  · exact (C114_in kind [x] v).2 ⟨x, List.mem_singleton.2 rfl, hn, hc ▸ .refl _⟩
  · cases h : index [x] (.dim v) with
    | ok i =>
      obtain ⟨y, h1, h2, -⟩ := (C114_index [x] v i).1 h
      have : y = x := List.mem_singleton.1 (List.mem_of_getElem? h1)
      subst this
      exact absurd h2.2.2.1 hd
    | error e =>
      unfold index at h
      simp only at h
      split at h
      · cases h
      · cases h; rfl

/-- C114: being found is not symmetric: a dim of a base class finds those of derived classes, not the other way round. -/
theorem C114_derived (kind : Kind) (x v : Dim β) (hn : x.name = v.name) (hb : Below x.cls v.cls) (hne : x.cls ≠ v.cls) :
    has kind [x] (.dim v) = true ∧ has kind [v] (.dim x) = false := by
  constructor
  · exact (C114_in kind [x] v).2 ⟨x, List.mem_singleton.2 rfl, hn, hb⟩
  · cases h : has kind [v] (.dim x) with
    | false => rfl
    | true =>
      obtain ⟨y, hy, -, h2⟩ := (C114_in kind [v] x).1 h
      rw [List.mem_singleton] at hy
      subst hy
      have hd : ∀ {c d : Cls}, Below c d → c = d ∨ d.depth < c.depth := by
        intro c d h
        induction h with
        | refl => exact .inl rfl
        | step h _ ih =>
          have := Cls.depth_parent h
          rcases ih with rfl | ih
          · exact .inr this
          · exact .inr (by omega)
      rcases hd hb with h | h
      · exact absurd h hne
      · rcases hd h2 with h' | h'
        · exact absurd h'.symm hne
        · omega

/-! ### Concrete cases -/

def freq : Dim Nat := ⟨.dimSweep, "freq", [1, 2, 3], some "Hz", none⟩
def rep : Dim Nat := ⟨.dimRep, "freq", [1, 2], none, none⟩

/-- A dim of class `DimBase` finds the first of two dims with one name, a `DimRep` the second one. -/
example : getMatching [freq, rep] (.dim ⟨.dimBase, "freq", [], none, none⟩) = .ok freq ∧
    matchIndex [freq, rep] (.dim ⟨.dimRep, "freq", [7], none, none⟩) = .ok 1 ∧
    has .tuple [freq, rep] (.str "freq") = true ∧ index [freq, rep] (.str "freq") = .ok 0 := by
  refine ⟨?_, ?_, by decide +kernel, ?_⟩
  · have : firstMatch [freq, rep] ⟨.dimBase, "freq", [], none, none⟩ = some freq := by decide +kernel
    simp only [getMatching]
    rw [this]
  · have : matchingIndex [freq, rep] ⟨.dimRep, "freq", [7], none, none⟩ = some 1 := by decide +kernel
    simp only [matchIndex]
    rw [this]
  · have : indexLoop [freq, rep] (.str "freq") = some 0 := by decide +kernel
    unfold index
    simp only
    rw [this]

example : index [freq] (.dim { freq with data := [1, 2] }) = .error .valueError :=
  (C114_index_refuted .tuple freq { freq with data := [1, 2] } rfl rfl (by decide)).2

/-- A sweep is found by the base class of all axes, not the other way round. -/
example : has .tuple [{ freq with cls := .diagAxis }] (.dim freq) = false :=
  (C114_derived .tuple freq { freq with cls := .diagAxis } rfl (.step rfl (.refl _)) (by decide)).2

end Find
end HF
