import Verif.Merge.GroupsSpec
import Verif.Merge.Index
import Verif.DataBlock.RepProps
import Mathlib.Data.List.Flatten
/-
Lemmas about the families of blocks.
-/
namespace HF.Merge

open HF.DataDict.Spec
open HF.DataDict hiding rename delitem
open HF.DataBlock
open HF.Arr hiding Err ofNd getitem

variable {β α : Type}

section maps
variable {K V : Type} [DecidableEq K]

theorem fst_modify (m : OMap K V) (k : K) (v : V) : (Spec.modify m k v).map Prod.fst = m.map Prod.fst := by
  induction m with
  | nil => rfl
  | cons p t ih =>
    simp only [Spec.modify, List.map_cons, List.cons.injEq] at ih ⊢
    refine ⟨?_, ih⟩
    split
    · rename_i h; exact h.symm
    · rfl

theorem fst_assign (m : OMap K V) (k : K) (v : V) :
    (assign m k v).map Prod.fst = if k ∈ m.map Prod.fst then m.map Prod.fst else m.map Prod.fst ++ [k] := by
  unfold assign
  by_cases h : k ∈ m.map Prod.fst
  · rw [if_pos ((member_iff m k).2 h), if_pos h, fst_modify]
  · rw [if_neg (fun hc => h ((member_iff m k).1 hc)), if_neg h]
    simp

theorem mem_assign_iff (m : OMap K V) (k : K) (v : V) {p : K × V} (h : p ∈ assign m k v) :
    p = (k, v) ∨ (p ∈ m ∧ p.1 ≠ k) := by
  unfold assign at h
  split at h
  · simp only [Spec.modify, List.mem_map] at h
    obtain ⟨q, hq, rfl⟩ := h
    by_cases e : q.1 = k
    · left; rw [if_pos e]
    · right; rw [if_neg e]; exact ⟨hq, e⟩
  · rename_i hm
    rcases List.mem_append.1 h with h | h
    · refine Or.inr ⟨h, fun e => hm ((member_iff m k).2 ?_)⟩
      rw [← e]; exact List.mem_map_of_mem h
    · exact Or.inl (by simpa using h)

theorem lookup_cases (m : OMap K V) (k : K) :
    (lookup m k = none ∧ k ∉ m.map Prod.fst) ∨ ∃ v, lookup m k = some v ∧ (k, v) ∈ m := by
  induction m with
  | nil => left; simp [lookup]
  | cons p t ih =>
    rw [lookup_cons]
    by_cases e : p.1 = k
    · right; rw [if_pos e]; exact ⟨p.2, rfl, by subst e; simp⟩
    · rw [if_neg e]
      rcases ih with ⟨h1, h2⟩ | ⟨v, h1, h2⟩
      · left; refine ⟨h1, ?_⟩
        rw [List.map_cons, List.mem_cons, not_or]
        exact ⟨fun h => e h.symm, h2⟩
      · exact Or.inr ⟨v, h1, by simp [h2]⟩

end maps

theorem groups_snoc (bs : List (Block β α)) (b : Block β α) :
    groups (bs ++ [b]) = assign (groups bs) (keys (partials b))
      (extendGroup ((lookup (groups bs) (keys (partials b))).getD []) (partials b)) := by
  simp only [groups, List.foldl_append, List.foldl_cons, List.foldl_nil]

theorem groups_keys (bs : List (Block β α)) :
    (groups bs).map Prod.fst = (bs.map partNames).eraseDups := by
  induction bs using List.reverseRecOn with
  | nil => rfl
  | append_singleton bs b ih =>
    rw [groups_snoc, fst_assign, ih, List.map_append, List.eraseDups_append]
    have e : keys (partials b) = partNames b := rfl
    rw [e]
    simp only [List.mem_eraseDups, List.map_cons, List.map_nil, List.removeAll, List.filter_cons, List.filter_nil,
      List.elem_eq_mem, Bool.not_eq_true', decide_eq_false_iff_not]
    by_cases h : partNames b ∈ bs.map partNames
    · rw [if_pos h, if_neg (not_not.2 h)]; simp
    · rw [if_neg h, if_pos h]; rfl

theorem family_snoc (ks : List String) (bs : List (Block β α)) (b : Block β α) :
    family ks (bs ++ [b]) = family ks bs ++ (if partNames b = ks then [b] else []) := by
  simp only [family, List.filter_append, List.filter_cons, List.filter_nil, decide_eq_true_eq]

theorem partialOf_some (b : Block β α) (k : String) (hk : k ∈ partNames b) : ∃ d, partialOf b k = some d :=
  Option.isSome_iff_exists.1 ((lookup_isSome_iff _ _).2 hk)

theorem groups_look (bs : List (Block β α)) (hn : ∀ b ∈ bs, (partNames b).Nodup) :
    ∀ p ∈ groups bs, keys p.2 = p.1 ∧
      ∀ k ∈ p.1, lookup p.2 k = some ((family p.1 bs).filterMap fun b => partialOf b k) := by
  induction bs using List.reverseRecOn with
  | nil => intro p hp; simp [groups] at hp
  | append_singleton bs b ih =>
    have ih := ih fun b hb => hn b (by simp [hb])
    have hnb : (partNames b).Nodup := hn b (by simp)
    have e : keys (partials b) = partNames b := rfl
    intro p hp
    rw [groups_snoc, e] at hp
    rcases mem_assign_iff _ _ _ hp with rfl | ⟨hp, hne⟩
    · simp only
      rw [family_snoc, if_pos rfl]
      have fin : ∀ k ∈ partNames b, ∀ g : OMap String (List (Dim β)),
          (lookup g k).getD [] = (family (partNames b) bs).filterMap (fun b => partialOf b k) →
          lookup (extendGroup g (partials b)) k =
            some ((family (partNames b) bs ++ [b]).filterMap fun b => partialOf b k) := by
        intro k hk g hg
        obtain ⟨d, hd⟩ := partialOf_some b k hk
        rw [lookup_extendGroup (partials b) g hnb]
        unfold partialOf at hd hg ⊢
        simp [hd, hg]
      rcases lookup_cases (groups bs) (partNames b) with ⟨h1, h2⟩ | ⟨g, h1, h2⟩
      · have hf : family (partNames b) bs = [] := by
          rw [family, List.filter_eq_nil_iff]
          intro b' hb' hc
          rw [groups_keys, List.mem_eraseDups] at h2
          exact h2 (List.mem_map.2 ⟨b', hb', by simpa using hc⟩)
        rw [h1]
        refine ⟨?_, fun k hk => fin k hk _ (by rw [hf]; rfl)⟩
        rw [Option.getD_none, extendGroup_new _ _ (by simpa [keys, e] using hnb), ← e]
        simp [keys]
      · obtain ⟨h3, h4⟩ := ih _ h2
        rw [h1, Option.getD_some]
        refine ⟨?_, fun k hk => fin k hk _ (by rw [h4 k hk]; rfl)⟩
        rw [keys_extendGroup _ _ (by rw [h3, e]; exact fun k hk => hk)]
        exact h3
    · rw [family_snoc, if_neg fun h => hne h.symm, List.append_nil]
      exact ih p hp

theorem writes_flatten_cons (env : Env β α) (db : Block β α) (ws : List (String × Arr β α))
    (wss : List (List (String × Arr β α))) :
    writes env db (ws :: wss).flatten = match writes env db ws with
      | .error e => .error e
      | .ok db' => writes env db' wss.flatten := by
  rw [List.flatten_cons, writes_append]
  rfl

/-- The index variables of all families are one sequence of assignments. -/
theorem putGroups_writes (env : Env β α) (ofIdx : Nat → β) (l : List (OMap String (List (Dim β))))
    (s : Nat) (wss : List (List (String × Arr β α)))
    (h : List.Forall₂ (fun p ws => ∀ db, putIndexVars env ofIdx p.2 db p.1 = writes env db ws) (l.zipIdx s) wss) :
    ∀ db, putGroups env ofIdx s db l = writes env db wss.flatten := by
  induction l generalizing s wss with
  | nil =>
    intro db
    simp only [List.zipIdx_nil] at h
    cases h
    rfl
  | cons g t ih =>
    intro db
    rw [List.zipIdx_cons] at h
    cases h with
    | cons h1 h2 =>
      rw [writes_flatten_cons, putGroups, h1]
      cases writes env db _ with
      | error e => rfl
      | ok db' => exact ih _ _ h2 _

variable [DecidableEq β]

/-- Blocks without the variable do not matter. -/
theorem collect_filter (env : Env β α) (n : String) (bs : List (Block β α)) :
    collect env n bs = collect env n (bs.filter fun b => contains b n) := by
  induction bs with
  | nil => rfl
  | cons b t ih =>
    by_cases h : contains b n = true
    · rw [List.filter_cons_of_pos (p := fun b => contains b n) h]
      simp only [collect, h, if_true, ih]
    · rw [List.filter_cons_of_neg (p := fun b => contains b n) h]
      simp only [collect, h, ih]
      rfl

theorem mergeVar_filter (env : Env β α) (db : Block β α) (bs : List (Block β α)) (n : String) :
    mergeVar env db bs n = mergeVar env db (bs.filter fun b => contains b n) n := by
  have : indexDims env db n (bs.filter fun b => contains b n) = indexDims env db n bs := by
    simp only [indexDims, List.filter_filter, Bool.and_self]
  simp only [mergeVar, this, ← collect_filter]

end HF.Merge
