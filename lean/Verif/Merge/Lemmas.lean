import Verif.Merge.Model
import Verif.DataBlock.FilterBlock
/-
Lemmas for `merge_blocks`.
-/
namespace HF.Merge

open HF.DataDict.Spec
open HF.DataDict hiding rename delitem
open HF.DataBlock

variable {β α : Type}

/-! ### Groups -/

theorem keys_assign_mem {V : Type} (m : OMap String V) (k : String) (v : V)
    (h : k ∈ keys m) : keys (assign m k v) = keys m := by
  have : member m k = true := (member_iff _ _).2 h
  rw [assign, if_pos this]
  exact keys_modify m k v

theorem extendGroup_cons (g : OMap String (List (Dim β))) (p : String × Dim β)
    (ps : OMap String (Dim β)) :
    extendGroup g (p :: ps) = extendGroup (assign g p.1 ((lookup g p.1).getD [] ++ [p.2])) ps := rfl

theorem keys_extendGroup (ps : OMap String (Dim β)) (g : OMap String (List (Dim β)))
    (h : ∀ k ∈ keys ps, k ∈ keys g) : keys (extendGroup g ps) = keys g := by
  induction ps generalizing g with
  | nil => rfl
  | cons p t ih =>
    have hp : p.1 ∈ keys g := h p.1 (by simp [keys])
    rw [extendGroup_cons, ih, keys_assign_mem _ _ _ hp]
    intro k hk
    rw [keys_assign_mem _ _ _ hp]
    exact h k (by simp only [keys, List.map_cons, List.mem_cons]; exact Or.inr hk)

theorem extendGroup_new (ps : OMap String (Dim β)) (g : OMap String (List (Dim β)))
    (h : (keys g ++ keys ps).Nodup) :
    extendGroup g ps = g ++ ps.map fun p => (p.1, [p.2]) := by
  induction ps generalizing g with
  | nil => simp [extendGroup]
  | cons p t ih =>
    have hn : p.1 ∉ keys g := by
      rw [List.nodup_append] at h
      exact fun hc => h.2.2 _ hc _ (by simp [keys]) rfl
    have hm : member g p.1 = false := by
      rw [Bool.eq_false_iff]; exact fun hc => hn ((member_iff _ _).1 hc)
    have hl : lookup g p.1 = none := (lookup_none_iff' _ _).2 hn
    rw [extendGroup_cons, hl, assign, hm]
    simp only [Bool.false_eq_true, if_false, Option.getD_none, List.nil_append]
    rw [ih]
    · simp
    · simpa [keys] using h

theorem lookup_extendGroup (ps : OMap String (Dim β)) (g : OMap String (List (Dim β)))
    (hn : (keys ps).Nodup) (k : String) :
    lookup (extendGroup g ps) k = match lookup ps k with
      | some d => some ((lookup g k).getD [] ++ [d])
      | none => lookup g k := by
  induction ps generalizing g with
  | nil => simp [extendGroup, lookup]
  | cons p t ih =>
    simp only [keys, List.map_cons, List.nodup_cons] at hn
    rw [extendGroup_cons, ih _ hn.2, lookup_assign, lookup_cons]
    by_cases hk : p.1 = k
    · subst hk
      have : lookup t p.1 = none := (lookup_none_iff' _ _).2 hn.1
      simp [this]
    · simp [hk, Ne.symm hk]

/-- The partial sweep of a block. -/
def partialOf (b : Block β α) (k : String) : Option (Dim β) := lookup (partials b) k

theorem omap_ext {V : Type} {m : OMap String V} (hn : (keys m).Nodup) {f : String → V}
    (h : ∀ k ∈ keys m, lookup m k = some (f k)) : m = (keys m).map fun k => (k, f k) := by
  induction m with
  | nil => rfl
  | cons p t ih =>
    simp only [keys, List.map_cons, List.nodup_cons] at hn
    simp only [keys, List.map_cons]
    have h1 := h p.1 (by simp [keys])
    rw [lookup_cons, if_pos rfl] at h1
    have h2 : t = (keys t).map fun k => (k, f k) := by
      refine ih hn.2 fun k hk => ?_
      have := h k (by simp only [keys, List.map_cons, List.mem_cons]; exact Or.inr hk)
      rw [lookup_cons, if_neg] at this
      · exact this
      · rintro rfl; exact hn.1 hk
    have e1 : p = (p.1, f p.1) := Prod.ext rfl (Option.some.inj h1)
    have e2 : (List.map Prod.fst t).map (fun k => (k, f k)) = t := h2.symm
    rw [e2, ← e1]

/-- All blocks have the same partial sweeps: there is one group, which has for each of them
the values of all blocks in order. -/
theorem groups_uniform (ks : List String) (hn : ks.Nodup) (b0 : Block β α) (bs : List (Block β α))
    (h0 : keys (partials b0) = ks) (h : ∀ b ∈ bs, keys (partials b) = ks) :
    ∃ g, groups (b0 :: bs) = [(ks, g)] ∧ keys g = ks ∧
      ∀ k ∈ ks, lookup g k = some ((b0 :: bs).filterMap fun b => partialOf b k) := by
  have some_of : ∀ b : Block β α, keys (partials b) = ks → ∀ k ∈ ks, ∃ d, partialOf b k = some d := by
    intro b hb k hk
    exact Option.isSome_iff_exists.1 ((lookup_isSome_iff _ _).2 (hb ▸ hk))
  have key : ∀ (bs : List (Block β α)) (g : OMap String (List (Dim β))) (L : String → List (Dim β)),
      (∀ b ∈ bs, keys (partials b) = ks) → keys g = ks → (∀ k ∈ ks, lookup g k = some (L k)) →
      ∃ g', bs.foldl (fun gs b => assign gs (keys (partials b))
          (extendGroup ((lookup gs (keys (partials b))).getD []) (partials b))) [(ks, g)] = [(ks, g')] ∧
        keys g' = ks ∧ ∀ k ∈ ks, lookup g' k = some (L k ++ bs.filterMap fun b => partialOf b k) := by
    intro bs
    induction bs with
    | nil => intro g L _ hg hl; exact ⟨g, rfl, hg, fun k hk => by simp [hl k hk]⟩
    | cons b t ih =>
      intro g L hb hg hl
      have hb0 := hb b (by simp)
      rw [List.foldl_cons, hb0]
      have e1 : lookup [(ks, g)] ks = some g := by simp [lookup]
      have e2 : ∀ g', assign [(ks, g)] ks g' = [(ks, g')] := by
        intro g'; simp [assign, member, Spec.modify]
      rw [e1, e2]
      simp only [Option.getD_some]
      obtain ⟨g', h1, h2, h3⟩ := ih (extendGroup g (partials b))
        (fun k => L k ++ (partialOf b k).toList) (fun b hb' => hb b (by simp [hb']))
        (by rw [keys_extendGroup _ _ (by rw [hb0, hg]; exact fun k hk => hk), hg])
        (fun k hk => by
          obtain ⟨d, hd⟩ := some_of b hb0 k hk
          rw [lookup_extendGroup _ _ (hb0 ▸ hn)]
          unfold partialOf at hd ⊢
          simp [hd, hl k hk])
      refine ⟨g', h1, h2, fun k hk => ?_⟩
      obtain ⟨d, hd⟩ := some_of b hb0 k hk
      rw [h3 k hk]
      simp [hd]
  obtain ⟨g', h1, h2, h3⟩ := key bs (extendGroup [] (partials b0)) (fun k => (partialOf b0 k).toList) h
    (by rw [extendGroup_new _ _ (by simpa [keys, h0] using hn), ← h0]; simp [keys])
    (fun k hk => by
      obtain ⟨d, hd⟩ := some_of b0 h0 k hk
      rw [lookup_extendGroup _ _ (h0 ▸ hn)]
      unfold partialOf at hd ⊢
      rw [hd]
      rfl)
  refine ⟨g', ?_, h2, fun k hk => ?_⟩
  · rw [← h1, groups, List.foldl_cons, h0]
    simp [lookup, assign, member]
  · obtain ⟨d, hd⟩ := some_of b0 h0 k hk
    rw [h3 k hk]
    simp [hd]

/-! ### Assignments -/

theorem putIndexVars_writes (env : Env β α) (ofIdx : Nat → β) (idx : Nat)
    (g : List (String × List (Dim β))) (ws : List (String × Arr β α))
    (h : List.Forall₂ (fun p w => p.1 = w.1 ∧ indexVar env ofIdx idx p.2 = .ok w.2) g ws) :
    ∀ db, putIndexVars env ofIdx idx db g = writes env db ws := by
  induction h with
  | nil => intro db; rfl
  | @cons p w g ws hr _ ih =>
    intro db
    obtain ⟨k, v⟩ := p
    simp only at hr
    simp only [putIndexVars, writes, hr.2, hr.1]
    split
    · rename_i e; simp [e]
    · rename_i e; simp [e, ih]

/-- Adding the dims of a block: the variables stay, and only its own names are added. -/
theorem addIvars_spec (iv : OMap String (Dim β)) :
    ∀ db : Block β α, (addIvars db iv).vars = db.vars ∧
      ∀ n, n ∈ keys (addIvars db iv).ivars → n ∈ keys db.ivars ∨ (n ∈ keys iv ∧ n ∉ keys db.vars) := by
  induction iv with
  | nil => intro db; exact ⟨rfl, fun n h => Or.inl h⟩
  | cons p t ih =>
    intro db
    have e : addIvars db (p :: t) =
        addIvars (if contains db p.1 then db else setDim db p.1 p.2) t := rfl
    rw [e]
    by_cases hc : contains db p.1 = true
    · rw [if_pos hc]
      obtain ⟨h1, h2⟩ := ih db
      refine ⟨h1, fun n hn => ?_⟩
      rcases h2 n hn with h | ⟨h, h'⟩
      · exact Or.inl h
      · exact Or.inr ⟨by simp only [keys, List.map_cons, List.mem_cons]; exact Or.inr h, h'⟩
    · rw [if_neg hc]
      obtain ⟨h1, h2⟩ := ih (setDim db p.1 p.2)
      refine ⟨h1, fun n hn => ?_⟩
      have hv : (setDim db p.1 p.2).vars = db.vars := rfl
      rcases h2 n hn with h | ⟨h, h'⟩
      · rcases (mem_keys_assign _ _ _ _).1 h with rfl | h
        · refine Or.inr ⟨by simp [keys], fun hk => hc ?_⟩
          simp [contains, (member_iff _ _).2 hk]
        · exact Or.inl h
      · exact Or.inr ⟨by simp only [keys, List.map_cons, List.mem_cons]; exact Or.inr h, hv ▸ h'⟩

theorem addAllIvars_spec (bs : List (Block β α)) :
    ∀ db : Block β α, (bs.foldl (fun db b => addIvars db b.ivars) db).vars = db.vars ∧
      ∀ n, n ∈ keys (bs.foldl (fun db b => addIvars db b.ivars) db).ivars →
        n ∈ keys db.ivars ∨ ∃ b ∈ bs, n ∈ keys b.ivars ∧ n ∉ keys db.vars := by
  induction bs with
  | nil => intro db; exact ⟨rfl, fun n h => Or.inl h⟩
  | cons b t ih =>
    intro db
    rw [List.foldl_cons]
    obtain ⟨h1, h2⟩ := addIvars_spec b.ivars db
    obtain ⟨h3, h4⟩ := ih (addIvars db b.ivars)
    refine ⟨h3.trans h1, fun n hn => ?_⟩
    rcases h4 n hn with h | ⟨b', hb', h, h'⟩
    · rcases h2 n h with h | ⟨h, h'⟩
      · exact Or.inl h
      · exact Or.inr ⟨b, by simp, h, h'⟩
    · exact Or.inr ⟨b', by simp [hb'], h, h1 ▸ h'⟩

theorem lookup_addIvars (iv : OMap String (Dim β)) (db : Block β α) (n : String) :
    lookup (addIvars db iv).ivars n =
      (lookup db.ivars n).or (if n ∈ keys db.vars then none else lookup iv n) := by
  induction iv generalizing db with
  | nil => simp [addIvars, lookup]
  | cons p t ih =>
    have e : addIvars db (p :: t) =
        addIvars (if contains db p.1 then db else setDim db p.1 p.2) t := rfl
    rw [e, lookup_cons]
    by_cases hc : contains db p.1 = true
    · rw [if_pos hc, ih]
      by_cases hp : p.1 = n
      · subst hp
        simp only [contains, Bool.or_eq_true, member_iff] at hc
        rcases hc with hc | hc
        · rw [if_pos hc, if_pos hc]
        · obtain ⟨d, hd⟩ := Option.isSome_iff_exists.1 ((lookup_isSome_iff _ _).2 hc)
          rw [hd]; rfl
      · rw [if_neg hp]
    · rw [if_neg hc, ih]
      have hv : (setDim db p.1 p.2).vars = db.vars := rfl
      have hi : (setDim db p.1 p.2).ivars = assign db.ivars p.1 p.2 := rfl
      rw [hv, hi, lookup_assign]
      simp only [contains, Bool.or_eq_true, member_iff, not_or] at hc
      by_cases hp : p.1 = n
      · subst hp
        rw [if_pos rfl, if_pos rfl, if_neg hc.1, (lookup_none_iff' _ _).2 hc.2]
        simp [hc.1]
      · rw [if_neg (Ne.symm hp), if_neg hp]

theorem lookup_addAllIvars (bs : List (Block β α)) (db : Block β α) (n : String) :
    lookup (bs.foldl (fun db b => addIvars db b.ivars) db).ivars n =
      (lookup db.ivars n).or (if n ∈ keys db.vars then none else lookup (bs.flatMap fun b => b.ivars) n) := by
  induction bs generalizing db with
  | nil => simp [lookup]
  | cons b t ih =>
    rw [List.foldl_cons, ih, (addIvars_spec b.ivars db).1, lookup_addIvars, List.flatMap_cons, lookup_append,
      Option.or_assoc]
    split <;> simp

theorem keys_assign_nodup {V : Type} (m : OMap String V) (k : String) (v : V) (h : (keys m).Nodup) :
    (keys (assign m k v)).Nodup := keys_assigns_nodup [(k, v)] m h

theorem addAllIvars_nodup (bs : List (Block β α)) (db : Block β α) (h : (keys db.ivars).Nodup) :
    (keys (bs.foldl (fun db b => addIvars db b.ivars) db).ivars).Nodup := by
  induction bs generalizing db with
  | nil => exact h
  | cons b t ih =>
    rw [List.foldl_cons]
    refine ih _ ?_
    generalize b.ivars = iv
    induction iv generalizing db with
    | nil => exact h
    | cons p t ih' =>
      refine ih' (if contains db p.1 then db else setDim db p.1 p.2) ?_
      split
      · exact h
      · exact keys_assign_nodup _ _ _ h

theorem keys_addDims_nodup (iv : OMap String (Dim β)) (ds : List (Dim β)) (h : (keys iv).Nodup) :
    (keys (addDims iv ds)).Nodup := by
  induction ds generalizing iv with
  | nil => exact h
  | cons d t ih =>
    refine ih (if member iv d.name then iv else assign iv d.name d) ?_
    split
    · exact h
    · exact keys_assign_nodup _ _ _ h

theorem collect_of (env : Env β α) (n : String) (bs : List (Block β α)) (f : Block β α → Arr β α)
    (h : ∀ b ∈ bs, n ∉ keys b.ivars ∧ lookup b.vars n = some (f b)) :
    collect env n bs = .ok (bs.map f) := by
  induction bs with
  | nil => rfl
  | cons b t ih =>
    obtain ⟨h1, h2⟩ := h b (by simp)
    have hc : contains b n = true := by
      have : n ∈ keys b.vars := (lookup_isSome_iff _ _).1 (by rw [h2]; rfl)
      simp [contains, (member_iff _ _).2 this]
    have hg : getitem env b n = .ok (f b) := by
      simp only [getitem, (lookup_none_iff' _ _).2 h1, h2]
    simp only [collect, hc, if_true, hg, ih fun b hb => h b (by simp [hb]), List.map_cons]

end HF.Merge
