import Verif.DataBlock.World
import Verif.DataDict.Lemmas
/-
Helper lemmas about blocks.
-/
namespace HF.DataBlock

open HF.DataDict.Spec
open HF.DataDict hiding rename

variable {β α : Type} {V : Type}

/-- Keys of an ordered map. -/
abbrev keys (m : OMap String V) : List String := m.map Prod.fst

theorem mem_keys_assign (m : OMap String V) (k : String) (v : V) (a : String) :
    a ∈ keys (assign m k v) ↔ a = k ∨ a ∈ keys m := by
  unfold assign
  split
  · rename_i h
    rw [keys, keys_modify]
    constructor
    · exact Or.inr
    · rintro (rfl | h')
      · exact (member_iff m a).1 h
      · exact h'
  · simp [keys, or_comm]

theorem mem_assign {m : OMap String V} {k : String} {v : V} {p : String × V}
    (h : p ∈ assign m k v) : p ∈ m ∨ p = (k, v) := by
  unfold assign at h
  split at h
  · simp only [Spec.modify, List.mem_map] at h
    obtain ⟨q, hq, rfl⟩ := h
    split
    · exact Or.inr rfl
    · exact Or.inl hq
  · simpa using h

theorem mem_rename {m : OMap String V} {a b : String} {v : V} {p : String × V}
    (h : p ∈ rename m a b v) : p ∈ m ∨ p.2 = v := by
  unfold rename at h
  split at h
  · simp only [remove, List.mem_append, List.mem_filter, List.mem_singleton] at h
    rcases h with h | rfl
    · exact Or.inl h.1
    · exact Or.inr rfl
  · split at h
    · simp only [Spec.modify, List.mem_map] at h
      obtain ⟨q, hq, rfl⟩ := h
      split
      · exact Or.inr rfl
      · exact Or.inl (List.mem_filter.1 hq).1
    · simp only [List.mem_map] at h
      obtain ⟨q, hq, rfl⟩ := h
      split
      · exact Or.inr rfl
      · exact Or.inl hq

theorem mem_keys_rename (m : OMap String V) (a b : String) (v : V) (ha : a ∈ keys m) (c : String) :
    c ∈ keys (rename m a b v) ↔ c = b ∨ (c ∈ keys m ∧ c ≠ a) := by
  unfold rename
  split
  · rename_i h; subst h
    simp only [keys, List.map_append, List.mem_append, keys_remove, List.mem_filter, List.map_cons,
      List.map_nil, List.mem_singleton, decide_eq_true_eq]
    tauto
  · rename_i h
    split
    · rename_i hb
      have hb' := (member_iff m b).1 hb
      simp only [keys, keys_modify, keys_remove, List.mem_filter, decide_eq_true_eq]
      constructor
      · exact Or.inr
      · rintro (rfl | h')
        · exact ⟨hb', fun e => h e.symm⟩
        · exact h'
    · simp only [keys, List.map_map, List.mem_map, Function.comp]
      constructor
      · rintro ⟨p, hp, rfl⟩
        by_cases e : p.1 = a
        · simp [e]
        · rw [if_neg e]; exact Or.inr ⟨⟨p, hp, rfl⟩, e⟩
      · rintro (rfl | ⟨⟨p, hp, rfl⟩, e⟩)
        · obtain ⟨q, hq, rfl⟩ := List.mem_map.1 ha
          exact ⟨q, hq, by simp⟩
        · exact ⟨p, hp, by rw [if_neg e]⟩

theorem lookup_assign (m : OMap String V) (k : String) (v : V) (a : String) :
    lookup (assign m k v) a = if a = k then some v else lookup m a := by
  unfold assign
  split
  · rename_i h
    rw [lookup_modify]
    by_cases e : k = a
    · simp [e] at h ⊢; simp [h]
    · have : ¬ a = k := fun h => e h.symm
      simp [e, this]
  · rename_i h
    rw [lookup_append, lookup_singleton]
    by_cases e : k = a
    · subst e
      have : lookup m k = none := by
        rw [lookup_eq_dget, dget_none_iff]; exact fun hk => h ((member_iff m k).2 hk)
      simp [this]
    · have : ¬ a = k := fun h => e h.symm
      simp [e, this]

theorem lookup_mem {m : OMap String V} {k : String} {v : V} (h : lookup m k = some v) :
    (k, v) ∈ m := by
  induction m with
  | nil => simp [lookup] at h
  | cons p t ih =>
    rw [lookup_cons] at h
    split at h
    · rename_i e
      simp only [Option.some.injEq] at h
      obtain ⟨a, b⟩ := p
      simp only at e h; subst e h; simp
    · exact List.mem_cons_of_mem _ (ih h)

theorem lookup_key {m : OMap String V} {k : String} {v : V} (h : lookup m k = some v) :
    k ∈ keys m := List.mem_map.2 ⟨_, lookup_mem h, rfl⟩

theorem lookup_isSome_iff (m : OMap String V) (k : String) : (lookup m k).isSome ↔ k ∈ keys m := by
  rw [lookup_eq_dget, dget_isSome_iff]

theorem lookup_none_iff' (m : OMap String V) (k : String) : lookup m k = none ↔ k ∉ keys m := by
  rw [lookup_eq_dget, dget_none_iff]

theorem mem_keys_addDims (m : OMap String (Dim β)) (dims : List (Dim β)) (a : String) :
    a ∈ keys (addDims m dims) ↔ a ∈ keys m ∨ ∃ d ∈ dims, d.name = a := by
  unfold addDims
  induction dims generalizing m with
  | nil => simp
  | cons d t ih =>
    rw [List.foldl_cons, ih]
    by_cases h : member m d.name = true
    · have h' := (member_iff m d.name).1 h
      simp only [h, if_true, List.mem_cons, exists_eq_or_imp]
      constructor
      · tauto
      · rintro (h1 | rfl | h1)
        · exact Or.inl h1
        · exact Or.inl h'
        · exact Or.inr h1
    · simp only [h, Bool.false_eq_true, if_false, mem_keys_assign, List.mem_cons, exists_eq_or_imp]
      have : a = d.name ↔ d.name = a := eq_comm
      tauto

theorem mem_keys_renameIvar {iv iv' : OMap String (Dim β)} {old new : Dim β}
    (h : renameIvar iv old new = some iv') (a : String) :
    a ∈ keys iv' ↔ a = new.name ∨ (a ∈ keys iv ∧ a ≠ old.name) := by
  unfold renameIvar at h
  cases hl : lookup iv old.name with
  | none => rw [hl] at h; simp at h
  | some v =>
    rw [hl] at h
    simp only [Option.some.injEq] at h
    subst h
    rw [mem_keys_assign, mem_keys_rename _ _ _ _ (lookup_key hl)]
    tauto

theorem replaceDimArr_idem (old new : Dim β) (x : Arr β α) :
    replaceDimArr old new (replaceDimArr old new x) = replaceDimArr old new x := by
  simp only [replaceDimArr, List.map_map]
  congr 1
  apply List.map_congr_left
  intro d _
  simp only [Function.comp]
  by_cases h : old.name = d.name <;> simp [h]

theorem getElem?_relabel (old new : Dim β) (refs : List Nat) (heap : List (Arr β α)) (r : Nat) :
    (relabel old new refs heap)[r]? =
      if r ∈ refs then (heap[r]?).map (replaceDimArr old new) else heap[r]? := by
  unfold relabel
  induction refs generalizing heap with
  | nil => simp
  | cons a t ih =>
    rw [List.foldl_cons, ih]
    cases ha : heap[a]? with
    | none =>
      by_cases e : r = a
      · subst e; simp [ha]
      · simp [e]
    | some x =>
      have hlt : a < heap.length := by
        rw [List.getElem?_eq_some_iff] at ha; exact ha.1
      by_cases e : r = a
      · subst e
        simp only [List.getElem?_set_self hlt, ha, List.mem_cons, true_or, if_true, Option.map_some,
          replaceDimArr_idem]
        split <;> rfl
      · have e' : ¬ a = r := fun h => e h.symm
        simp [List.getElem?_set, e, e']

end HF.DataBlock
