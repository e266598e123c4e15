import Verif.Mdif.FilesSpec
import Verif.Mdif.MergeProps
import Verif.Mdif.NamesProps
/-
C67: several files are read, and blocks of the same name are put together.
-/
namespace HF.Mdif

open HF.DataDict.Spec HF.DataBlock
open HF.DataDict hiding rename delitem

variable {β α σ : Type}

/-! ### Groups -/

section
variable {γ : Type}

theorem lookup_assign' {V : Type} (m : OMap (List Char) V) (k : List Char) (v : V) (a : List Char) :
    lookup (assign m k v) a = if a = k then some v else lookup m a := by
  unfold assign
  split
  · rename_i h
    unfold DataDict.Spec.modify lookup
    by_cases e : a = k
    · subst e
      rw [if_pos rfl]
      induction m with
      | nil => simp [member] at h
      | cons p t ih =>
        rw [List.map_cons, List.find?_cons]
        by_cases e : p.1 = a
        · simp [e]
        · simp only [e, if_false, decide_false]
          exact ih (by simpa [member, e] using h)
    · rw [if_neg e]
      clear h
      induction m with
      | nil => rfl
      | cons p t ih =>
        rw [List.map_cons, List.find?_cons, List.find?_cons]
        by_cases e1 : p.1 = k
        · have e2 : ¬ k = a := fun h => e h.symm
          simp only [e1, if_true, e2, decide_false]
          exact ih
        · simp only [e1, if_false]
          by_cases e2 : p.1 = a
          · simp [e2]
          · simp only [e2, decide_false]
            exact ih
  · rename_i h
    unfold lookup
    rw [List.find?_append]
    by_cases e : a = k
    · subst e
      have : m.find? (fun p => decide (p.1 = a)) = none := by
        rw [List.find?_eq_none]
        intro p hp hpa
        apply h
        rw [member, List.any_eq_true]
        exact ⟨p, hp, hpa⟩
      rw [this]
      simp
    · rw [if_neg e]
      have : ¬ k = a := fun h => e h.symm
      simp [this]

/-- All that is kept under a name. -/
def kept (m : OMap (List Char) (List γ)) (n : List Char) : List γ := (lookup m n).getD []

def addGroups (m : OMap (List Char) (List γ)) (l : List (List Char × List γ)) : OMap (List Char) (List γ) :=
  l.foldl (fun m g => addGroup m g.1 g.2) m

theorem kept_addGroups (l : List (List Char × List γ)) (m : OMap (List Char) (List γ)) (n : List Char) :
    kept (addGroups m l) n = kept m n ++ (l.filter fun g => g.1 = n).flatMap Prod.snd := by
  induction l generalizing m with
  | nil => simp [addGroups]
  | cons g l ih =>
    show kept (addGroups (addGroup m g.1 g.2) l) n = _
    rw [ih, kept, addGroup, lookup_assign']
    by_cases e : g.1 = n
    · rw [List.filter_cons_of_pos (by simpa using e), if_pos e.symm, e]
      simp [kept]
    · rw [List.filter_cons_of_neg (by simpa using e), if_neg (fun h => e h.symm)]
      rfl

theorem some_addGroups (l : List (List Char × List γ)) (m : OMap (List Char) (List γ)) (n : List Char) :
    (lookup (addGroups m l) n).isSome ↔ (lookup m n).isSome ∨ n ∈ l.map Prod.fst := by
  induction l generalizing m with
  | nil => simp [addGroups]
  | cons g l ih =>
    show (lookup (addGroups (addGroup m g.1 g.2) l) n).isSome ↔ _
    rw [ih, addGroup, lookup_assign', List.map_cons, List.mem_cons]
    by_cases e : n = g.1
    · simp [e]
    · simp [e]

theorem nodup_addGroups (l : List (List Char × List γ)) (m : OMap (List Char) (List γ)) (h : (m.map Prod.fst).Nodup) :
    ((addGroups m l).map Prod.fst).Nodup := by
  induction l generalizing m with
  | nil => exact h
  | cons g l ih =>
    refine ih _ ?_
    show (List.map Prod.fst (assign m g.1 _)).Nodup
    rw [assign]
    split
    · rw [modify_fst]
      exact h
    · rename_i hm
      rw [List.map_append, List.nodup_append]
      refine ⟨h, by simp, ?_⟩
      rintro a ha b hb rfl
      apply hm
      rw [List.map_cons, List.map_nil, List.mem_singleton] at hb
      obtain ⟨p, hp, he⟩ := List.mem_map.1 ha
      rw [member, List.any_eq_true]
      exact ⟨p, hp, by simp [he, hb]⟩

theorem lookup_nil' {V : Type} (n : List Char) : lookup ([] : OMap (List Char) V) n = none := rfl

end

/-! ### One block -/

/-- The block with the file and its number. -/
def tag (ofIdx : Nat → β) (ofName : String → α) (q : Located β α) : Commented β α :=
  ⟨{ vars := q.block.vars ++ [("FILENAME", ⟨[], ⟨[], fun _ => ofName q.file⟩⟩)],
     ivars := q.block.ivars ++ [("FILEINDEX", ⟨.dimPartial, "FILEINDEX", [ofIdx q.number], none, none⟩)],
     xname := nextXname (some (q.block.xname.getD "FILEINDEX")) ([] : List (Dim β)) }, q.comments⟩

theorem assign_new {V : Type} (m : OMap String V) (k : String) (v : V) (h : k ∉ m.map Prod.fst) :
    assign m k v = m ++ [(k, v)] := by
  rw [assign, if_neg]
  intro hc
  exact h ((member_iff _ _).1 hc)

theorem member_false {V : Type} {m : OMap String V} {k : String} (h : k ∉ m.map Prod.fst) : member m k = false := by
  cases e : member m k with
  | false => rfl
  | true => exact absurd ((member_iff _ _).1 e) h

theorem tag_eq (env : Env β α) (ofIdx : Nat → β) (ofName : String → α) (q : Located β α) (h : Fresh q.block) :
    withFileName env ofName q.file (withFileIndex ofIdx q.number ⟨q.block, q.comments⟩) = .ok (tag ofIdx ofName q) := by
  have hc : contains q.block "FILEINDEX" = false := by
    rw [contains, member_false h.vars.2, member_false h.ivars.2]
    rfl
  unfold withFileName withFileIndex
  simp only [hc, Bool.false_eq_true, if_false, setArr, setDim]
  rw [show elemTarget (β := β) (α := α) (member q.block.vars) "FILENAME" ⟨[], ⟨[], fun _ => ofName q.file⟩⟩ = none by
    rw [elemTarget, show isMatrixName "FILENAME" = none from by decide +kernel]]
  rw [assign_new _ _ _ h.ivars.2]
  have hl : lookup (q.block.ivars ++ [("FILEINDEX", (⟨.dimPartial, "FILEINDEX", [ofIdx q.number], none, none⟩ : Dim β))]) "FILENAME" = none := by
    rw [lookup_none_iff']
    intro hc
    rw [keys, List.map_append, List.mem_append] at hc
    rcases hc with hc | hc
    · exact h.ivars.1 hc
    · simp at hc
  simp only [hl, assign_new _ _ _ h.vars.1]
  rfl

theorem byName_eq (ps : List (Parsed β α)) :
    byName ps = addGroups [] (ps.map fun p => (p.name, [⟨p.block, p.comments⟩])) := by
  unfold byName addGroups
  rw [List.foldl_map]

theorem kept_byName (ps : List (Parsed β α)) (n : List Char) :
    kept (byName ps) n = (ps.filter fun p => p.name = n).map fun p => ⟨p.block, p.comments⟩ := by
  rw [byName_eq, kept_addGroups, kept, lookup_nil', Option.getD_none, List.nil_append]
  induction ps with
  | nil => rfl
  | cons p ps ih =>
    by_cases e : p.name = n
    · rw [List.map_cons, List.filter_cons_of_pos (by simpa using e), List.filter_cons_of_pos (by simpa using e),
        List.flatMap_cons, ih]
      rfl
    · rw [List.map_cons, List.filter_cons_of_neg (by simpa using e), List.filter_cons_of_neg (by simpa using e), ih]

theorem nodup_byName (ps : List (Parsed β α)) : ((byName ps).map Prod.fst).Nodup := by
  rw [byName_eq]
  exact nodup_addGroups _ _ (by simp)

theorem some_byName (ps : List (Parsed β α)) (n : List Char) :
    (lookup (byName ps) n).isSome ↔ ∃ p ∈ ps, p.name = n := by
  rw [byName_eq, some_addGroups]
  simp [lookup_nil']

theorem filter_flat {γ : Type} (m : OMap (List Char) (List γ)) (h : (m.map Prod.fst).Nodup) (n : List Char) :
    (m.filter fun g => g.1 = n).flatMap Prod.snd = kept m n := by
  induction m with
  | nil => rfl
  | cons g m ih =>
    rw [List.map_cons, List.nodup_cons] at h
    by_cases e : g.1 = n
    · rw [List.filter_cons_of_pos (by simpa using e)]
      have : m.filter (fun g => decide (g.1 = n)) = [] := by
        rw [List.filter_eq_nil_iff]
        intro g' hg' he
        refine h.1 ?_
        rw [e, ← of_decide_eq_true he]
        exact List.mem_map_of_mem hg'
      rw [this, kept, lookup, List.find?_cons]
      simp [e]
    · rw [List.filter_cons_of_neg (by simpa using e), ih h.2, kept, kept, lookup, lookup, List.find?_cons]
      simp [e]

/-- The block with the file and its number. -/
def tagC (ofIdx : Nat → β) (ofName : String → α) (k : Nat) (f : String) (c : Commented β α) : Commented β α :=
  tag ofIdx ofName ⟨k, f, [], c.block, c.comments⟩

theorem mapM_tag (env : Env β α) (ofIdx : Nat → β) (ofName : String → α) (k : Nat) (f : String)
    (l : List (Commented β α)) (h : ∀ c ∈ l, Fresh c.block) :
    (l.map (withFileIndex ofIdx k)).mapM (withFileName env ofName f) = .ok (l.map (tagC ofIdx ofName k f)) := by
  induction l with
  | nil => rfl
  | cons c l ih =>
    rw [List.map_cons, List.mapM_cons, tag_eq env ofIdx ofName ⟨k, f, [], c.block, c.comments⟩ (h c (by simp)),
      ih fun c hc => h c (by simp [hc])]
    rfl

theorem extend_all (env : Env β α) (ofIdx : Nat → β) (ofName : String → α) (k : Nat) (f : String)
    (m : List (List Char × List (Commented β α))) (h : ∀ g ∈ m, ∀ c ∈ g.2, Fresh c.block)
    (objs : OMap (List Char) (List (Commented β α))) :
    (m.map fun g => (g.1, g.2.map (withFileIndex ofIdx k))).foldlM (extendObjs env ofName f) objs =
      .ok (addGroups objs (m.map fun g => (g.1, g.2.map (tagC ofIdx ofName k f)))) := by
  induction m generalizing objs with
  | nil => rfl
  | cons g m ih =>
    rw [List.map_cons, List.foldlM_cons]
    have : extendObjs env ofName f objs (g.1, g.2.map (withFileIndex ofIdx k)) =
        .ok (addGroup objs g.1 (g.2.map (tagC ofIdx ofName k f))) := by
      unfold extendObjs
      simp only [mapM_tag env ofIdx ofName k f g.2 (h g (by simp))]
    rw [this]
    exact ih (fun g hg => h g (by simp [hg])) _

/-- What is read from a file. -/
def IsText (blocksOf : σ → Except FileErr (List (Parsed β α))) (f : String × σ) (g : String × List (Parsed β α)) : Prop :=
  f.1 = g.1 ∧ blocksOf f.2 = .ok g.2 ∧ g.2 ≠ []

theorem loop_files (env : Env β α) (ofIdx : Nat → β) (ofName : String → α)
    (blocksOf : σ → Except FileErr (List (Parsed β α))) (files : List (String × σ)) (parsed : List (String × List (Parsed β α)))
    (hf : List.Forall₂ (IsText blocksOf) files parsed) (hq : ∀ g ∈ parsed, ∀ p ∈ g.2, Fresh p.block) (k : Nat)
    (objs : OMap (List Char) (List (Commented β α))) (hn : (objs.map Prod.fst).Nodup) :
    ∃ objs', loopFiles env ofIdx ofName blocksOf k objs files = .ok objs' ∧ (objs'.map Prod.fst).Nodup ∧
      (∀ n, (lookup objs' n).isSome ↔ (lookup objs n).isSome ∨ ∃ q ∈ located k parsed, q.name = n) ∧
      ∀ n, kept objs' n = kept objs n ++ ((located k parsed).filter fun q => q.name = n).map (tag ofIdx ofName) := by
  induction hf generalizing k objs with
  | nil => exact ⟨objs, rfl, hn, by simp [located], by simp [located]⟩
  | @cons f g files parsed h _ ih =>
    obtain ⟨f, text⟩ := f
    obtain ⟨g, ps⟩ := g
    obtain ⟨e, hb, hne⟩ := h
    simp only at e hb hne
    subst e
    obtain ⟨m, hm⟩ : ∃ m, m = byName ps := ⟨_, rfl⟩
    have hfresh : ∀ g ∈ m, ∀ c ∈ g.2, Fresh c.block := by
      intro g hg c hc
      have hl := (mem_iff_lookup (hm ▸ nodup_byName ps) g.1 g.2).1 hg
      have hk := kept_byName ps g.1
      rw [← hm, kept, hl, Option.getD_some] at hk
      rw [hk] at hc
      obtain ⟨p, hp, rfl⟩ := List.mem_map.1 hc
      exact hq (f, ps) (by simp) p (List.mem_filter.1 hp).1
    have hdo : doFile ofIdx blocksOf k text = .ok (m.map fun g => (g.1, g.2.map (withFileIndex ofIdx k))) := by
      unfold doFile
      rw [hb]
      obtain ⟨p, ps', rfl⟩ := List.exists_cons_of_ne_nil hne
      rw [hm]
    obtain ⟨m', hm'⟩ : ∃ m', m' = m.map fun g => (g.1, g.2.map (tagC ofIdx ofName k f)) := ⟨_, rfl⟩
    have hfst : m'.map Prod.fst = m.map Prod.fst := by
      rw [hm', List.map_map]
      rfl
    obtain ⟨objs', h1, h2, h3, h4⟩ := ih (fun g hg => hq g (by simp [hg])) (k + 1) (addGroups objs m') (nodup_addGroups _ _ hn)
    refine ⟨objs', ?_, h2, ?_, ?_⟩
    · rw [loopFiles, hdo]
      simp only [extend_all env ofIdx ofName k f m hfresh objs]
      rw [← hm', h1]
    · intro n
      rw [h3, some_addGroups, hfst, or_assoc]
      refine or_congr_right ?_
      have : n ∈ m.map Prod.fst ↔ ∃ p ∈ ps, p.name = n := by
        rw [← some_byName ps n, ← hm]
        have := not_congr (lookup_none (m := m) (k := n))
        rw [not_not] at this
        rw [← this, Option.isSome_iff_ne_none]
      rw [this, located]
      simp only [List.mem_append, List.mem_map]
      constructor
      · rintro (⟨p, hp, e⟩ | ⟨q, hq, e⟩)
        · exact ⟨_, Or.inl ⟨p, hp, rfl⟩, e⟩
        · exact ⟨q, Or.inr hq, e⟩
      · rintro ⟨q, ⟨p, hp, rfl⟩ | hq, e⟩
        · exact Or.inl ⟨p, hp, e⟩
        · exact Or.inr ⟨q, hq, e⟩
    · intro n
      rw [h4, kept_addGroups, located, List.filter_append, List.map_append, List.append_assoc]
      congr 2
      rw [filter_flat m' (hfst ▸ hm ▸ nodup_byName ps) n]
      have : kept m' n = (kept m n).map (tagC ofIdx ofName k f) := by
        rw [hm']
        unfold kept lookup
        rw [List.find?_map]
        simp only [Function.comp_def]
        cases List.find? (fun g : List Char × List (Commented β α) => decide (g.1 = n)) m <;> rfl
      rw [this, hm, kept_byName, List.map_map, List.filter_map, List.map_map]
      rfl

/-! ### Blocks of the same name -/

theorem lookup_append_ne {V : Type} (m : OMap String V) (k n : String) (v : V) (h : n ≠ k) :
    lookup (m ++ [(k, v)]) n = lookup m n := by
  unfold lookup
  rw [List.find?_append]
  have : ¬ k = n := fun e => h e.symm
  simp [this]

theorem lookup_append_new {V : Type} (m : OMap String V) (k : String) (v : V) (h : k ∉ m.map Prod.fst) :
    lookup (m ++ [(k, v)]) k = some v := by
  unfold lookup
  rw [List.find?_append]
  have : m.find? (fun p => decide (p.1 = k)) = none := by
    rw [List.find?_eq_none]
    intro p hp hpa
    exact h (List.mem_map.2 ⟨p, hp, of_decide_eq_true hpa⟩)
  rw [this]
  simp

theorem tag_alone (ofIdx : Nat → β) (ofName : String → α) (q : Located β α) (h : Fresh q.block) :
    Alone ofIdx ofName q (tag ofIdx ofName q).block where
  vars := fun n hn => lookup_append_ne _ _ _ _ hn
  ivars := fun n hn => lookup_append_ne _ _ _ _ hn
  file := ⟨_, lookup_append_new _ _ _ h.vars.1, rfl, rfl, rfl⟩
  number := lookup_append_new _ _ _ h.ivars.2

theorem tag_keys (ofIdx : Nat → β) (ofName : String → α) (q : Located β α) :
    (tag ofIdx ofName q).block.vars.map Prod.fst = q.block.vars.map Prod.fst ++ ["FILENAME"] := by
  simp [tag]

theorem tag_settings (ofIdx : Nat → β) (ofName : String → α) (q : Located β α) :
    settingNames (tag ofIdx ofName q).block = settingNames q.block ++ ["FILEINDEX"] := by
  unfold settingNames tag
  simp only [List.filter_append, List.map_append]
  congr 1
  rw [List.filter_cons_of_pos]
  · rfl
  · show Cls.isSub .dimPartial .dimPartial = true
    decide +kernel

theorem settings_sub (b : Block β α) (k : String) (h : k ∈ settingNames b) : k ∈ b.ivars.map Prod.fst := by
  obtain ⟨p, hp, rfl⟩ := List.mem_map.1 h
  exact List.mem_map_of_mem (List.mem_filter.1 hp).1

theorem tag_stack (ofIdx : Nat → β) (ofName : String → α) (q0 : Located β α) (qs : List (Located β α))
    (hq : ∀ q ∈ q0 :: qs, Fresh q.block) (h : Stackable q0.block (qs.map Located.block)) :
    Stackable (tag ofIdx ofName q0).block (qs.map fun q => (tag ofIdx ofName q).block) := by
  have h0 := hq q0 (by simp)
  have hmem : ∀ n, n ∈ (tag ofIdx ofName q0).block.vars.map Prod.fst ++ settingNames (tag ofIdx ofName q0).block ↔
      n ∈ q0.block.vars.map Prod.fst ++ settingNames q0.block ∨ n = "FILENAME" ∨ n = "FILEINDEX" := by
    intro n
    rw [tag_keys, tag_settings]
    simp only [List.mem_append, List.mem_singleton]
    tauto
  have hns : "FILEINDEX" ∉ settingNames q0.block := fun hc => h0.ivars.2 (settings_sub _ _ hc)
  have hns' : "FILENAME" ∉ settingNames q0.block := fun hc => h0.ivars.1 (settings_sub _ _ hc)
  refine ⟨?_, ?_, ?_, ?_, ?_, ?_, ?_, ?_⟩
  · intro b hb n x0 hx0
    obtain ⟨q, hq', rfl⟩ := List.mem_map.1 hb
    have hf := hq q (by simp [hq'])
    by_cases e : n = "FILENAME"
    · subst e
      have ha := (tag_alone ofIdx ofName q0 h0).file
      obtain ⟨a, ha1, -, ha2, -⟩ := ha
      obtain ⟨a', hb1, -, hb2, -⟩ := (tag_alone ofIdx ofName q hf).file
      rw [ha1] at hx0
      obtain rfl := Option.some.inj hx0
      exact ⟨a', hb1, by rw [ha2, hb2]⟩
    · rw [(tag_alone ofIdx ofName q0 h0).vars n e] at hx0
      obtain ⟨x, hx, hs⟩ := h.vars q.block (List.mem_map_of_mem hq') n x0 hx0
      exact ⟨x, by rw [(tag_alone ofIdx ofName q hf).vars n e, hx], hs⟩
  · intro b hb n hn hc
    obtain ⟨q, hq', rfl⟩ : ∃ q ∈ q0 :: qs, (tag ofIdx ofName q).block = b := by
      rcases List.mem_cons.1 hb with rfl | hb
      · exact ⟨q0, by simp, rfl⟩
      · obtain ⟨q, hq', rfl⟩ := List.mem_map.1 hb
        exact ⟨q, by simp [hq'], rfl⟩
    have hf := hq q hq'
    have hc' : n ∈ q.block.ivars.map Prod.fst ∨ n = "FILEINDEX" := by simpa [tag] using hc
    rw [tag_keys, List.mem_append, List.mem_singleton] at hn
    rcases hn with hn | rfl
    · rcases hc' with hc' | rfl
      · exact h.apart q.block (by rw [← List.map_cons]; exact List.mem_map_of_mem hq') n hn hc'
      · exact h0.vars.2 hn
    · rcases hc' with hc' | hc'
      · exact hf.ivars.1 hc'
      · exact absurd hc' (by decide)
  · intro b hb k hk
    obtain ⟨q, hq', rfl⟩ : ∃ q ∈ q0 :: qs, (tag ofIdx ofName q).block = b := by
      rcases List.mem_cons.1 hb with rfl | hb
      · exact ⟨q0, by simp, rfl⟩
      · obtain ⟨q, hq', rfl⟩ := List.mem_map.1 hb
        exact ⟨q, by simp [hq'], rfl⟩
    have hf := hq q hq'
    rw [tag_settings, List.mem_append, List.mem_singleton] at hk
    rcases hk with hk | rfl
    · have hne : k ≠ "FILEINDEX" := fun e => hns (e ▸ hk)
      rw [(tag_alone ofIdx ofName q hf).ivars k hne]
      exact h.parts q.block (by rw [← List.map_cons]; exact List.mem_map_of_mem hq') k hk
    · exact ⟨_, (tag_alone ofIdx ofName q hf).number, by simp⟩
  · intro p hp
    have : p ∈ q0.block.vars ++ [("FILENAME", ⟨[], ⟨[], fun _ => ofName q0.file⟩⟩)] := hp
    rw [List.mem_append, List.mem_singleton] at this
    rcases this with hp | rfl
    · exact h.wf p hp
    · exact ⟨rfl, by simp⟩
  · rw [tag_keys, tag_settings]
    have hnd := List.nodup_append.1 h.nodup
    rw [List.nodup_append]
    refine ⟨?_, ?_, ?_⟩
    · rw [List.nodup_append]
      refine ⟨hnd.1, by simp, ?_⟩
      rintro a ha b hb rfl
      rw [List.mem_singleton.1 hb] at ha
      exact h0.vars.1 ha
    · rw [List.nodup_append]
      refine ⟨hnd.2.1, by simp, ?_⟩
      rintro a ha b hb rfl
      rw [List.mem_singleton.1 hb] at ha
      exact hns ha
    · rintro a ha b hb rfl
      rw [List.mem_append, List.mem_singleton] at ha hb
      rcases ha with ha | rfl <;> rcases hb with hb | hb
      · exact hnd.2.2 a ha a hb rfl
      · exact h0.vars.2 (hb ▸ ha)
      · exact hns' hb
      · exact absurd hb (by decide)
  · intro p hp d hd
    have : p ∈ q0.block.vars ++ [("FILENAME", ⟨[], ⟨[], fun _ => ofName q0.file⟩⟩)] := hp
    rw [List.mem_append, List.mem_singleton] at this
    rcases this with hp | rfl
    · have h1 := h.dims p hp d hd
      have h2 := h0.dims p hp d hd
      rw [hmem]
      refine ⟨?_, h1.2⟩
      rintro (hc | hc | hc)
      · exact h1.1 hc
      · exact h2.1 hc
      · exact h2.2 hc
    · cases hd
  · rw [hmem]
    rintro (hc | hc | hc)
    · exact h.index hc
    · exact absurd hc (by decide)
    · exact absurd hc (by decide)
  · intro n hn m i j hm
    rw [hmem] at hn ⊢
    rcases hn with hn | rfl | rfl
    · rintro (hc | hc | hc)
      · exact h.elems n hn m i j hm hc
      · exact (h0.elems n hn m i j hm).1 hc
      · exact (h0.elems n hn m i j hm).2 hc
    · rw [show isMatrixName "FILENAME" = none from by decide +kernel] at hm
      cases hm
    · rw [show isMatrixName "FILEINDEX" = none from by decide +kernel] at hm
      cases hm

variable [DecidableEq β]

theorem tag_merge (env : Env β α) (ofIdx : Nat → β) (ofName : String → α) (q0 q1 : Located β α) (qs : List (Located β α))
    (hq : ∀ q ∈ q0 :: q1 :: qs, Fresh q.block) (h : Stackable q0.block ((q1 :: qs).map Located.block)) :
    ∃ c, simpleMerge env ofIdx ((q0 :: q1 :: qs).map (tag ofIdx ofName)) = .ok c ∧
      Together env ofIdx ofName q0 (q1 :: qs) c.block ∧ c.comments = (q0 :: q1 :: qs).flatMap Located.comments := by
  have h0 := hq q0 (by simp)
  have hal := fun q hq' => tag_alone ofIdx ofName q (hq q hq')
  obtain ⟨rest, hrest⟩ : ∃ rest, rest = q1 :: qs := ⟨_, rfl⟩
  have hst := tag_stack ofIdx ofName q0 (q1 :: qs) hq h
  obtain ⟨c, m1, m2, m3⟩ := C67_merge env ofIdx (tag ofIdx ofName q0) (tag ofIdx ofName q1) (qs.map (tag ofIdx ofName)) (by
    rw [← List.map_cons, List.map_map]
    exact hst)
  rw [← List.map_cons, List.map_map, ← hrest] at m2
  rw [← List.map_cons, ← List.map_cons, List.flatMap_map, ← hrest] at m3
  rw [← List.map_cons, ← List.map_cons] at m1
  rw [← hrest] at h hal
  have hlen : (rest.map (Commented.block ∘ tag ofIdx ofName)).length = rest.length := by simp
  have hget : ∀ (m : Nat) q, (q0 :: rest)[m]? = some q →
      ((tag ofIdx ofName q0).block :: rest.map (Commented.block ∘ tag ofIdx ofName))[m]? = some (tag ofIdx ofName q).block := by
    intro m q hm
    have : (tag ofIdx ofName q0).block :: rest.map (Commented.block ∘ tag ofIdx ofName) =
        (q0 :: rest).map (Commented.block ∘ tag ofIdx ofName) := rfl
    rw [this, List.getElem?_map, hm]
    rfl
  have hmem : ∀ (m : Nat) q, (q0 :: rest)[m]? = some q → q ∈ q0 :: rest := fun m q hm => List.mem_of_getElem? hm
  have hvne : ∀ n x, lookup q0.block.vars n = some x → n ≠ "FILENAME" := by
    rintro n x hx rfl
    exact h0.vars.1 (List.mem_map_of_mem (f := Prod.fst) (lookup_mem hx))
  have hsne : ∀ k ∈ settingNames q0.block, k ≠ "FILEINDEX" := by
    rintro k hk rfl
    exact h0.ivars.2 (settings_sub _ _ hk)
  refine ⟨c, m1, ?_, m3.trans (by rw [hrest]; rfl)⟩
  rw [← hrest]
  refine ⟨?_, ?_, ?_, ?_, ?_, ?_⟩
  · intro n
    rw [m2.names, tag_keys, tag_settings]
    simp only [List.mem_append, List.mem_singleton]
    tauto
  · intro n x0 hx0 hd
    have hne := hvne n x0 hx0
    obtain ⟨a, a1, a2, a3, a4⟩ := m2.numbers n x0 (by rw [(hal q0 (by simp)).vars n hne, hx0]) hd
    rw [hlen] at a2 a3
    refine ⟨a, a1, a2, a3, ?_⟩
    intro m q x hm hx
    exact a4 m _ x (hget m q hm) (by rw [(hal q (hmem m q hm)).vars n hne, hx])
  · intro n x0 d ds hx0 hd
    have hne := hvne n x0 hx0
    obtain ⟨a, a1, a2, a3, a4⟩ := m2.columns n x0 d ds (by rw [(hal q0 (by simp)).vars n hne, hx0]) hd
    rw [hlen] at a2 a3
    refine ⟨a, a1, a2, a3, ?_⟩
    intro m q x hm hx
    exact a4 m _ x (hget m q hm) (by rw [(hal q (hmem m q hm)).vars n hne, hx])
  · intro k hk
    have hne := hsne k hk
    obtain ⟨a, a1, a2, a3, a4⟩ := m2.settings k (by rw [tag_settings]; simp [hk])
    rw [hlen] at a2 a3
    refine ⟨a, a1, a2, a3, ?_⟩
    intro m q d x hm hd hx
    exact a4 m _ d x (hget m q hm) (by rw [(hal q (hmem m q hm)).ivars k hne, hd]) hx
  · obtain ⟨x0, k1, k2, -, -⟩ := (hal q0 (by simp)).file
    obtain ⟨a, a1, a2, a3, a4⟩ := m2.numbers "FILENAME" x0 k1 k2
    rw [hlen] at a2 a3
    refine ⟨a, a1, a2, a3, ?_⟩
    intro m q hm
    obtain ⟨x, l1, -, -, l4⟩ := (hal q (hmem m q hm)).file
    rw [a4 m _ x (hget m q hm) l1, l4]
  · obtain ⟨a, a1, a2, a3, a4⟩ := m2.settings "FILEINDEX" (by rw [tag_settings]; simp)
    rw [hlen] at a2 a3
    refine ⟨a, a1, a2, a3, ?_⟩
    intro m q hm
    exact a4 m _ _ _ (hget m q hm) (hal q (hmem m q hm)).number rfl

theorem mergeGroups_of (env : Env β α) (ofIdx : Nat → β) (m : OMap (List Char) (List (Commented β α)))
    (h : ∀ g ∈ m, ∃ c, simpleMerge env ofIdx g.2 = .ok c) :
    ∃ res, mergeGroups env ofIdx m = .ok res ∧ ∀ n, (∀ L, lookup m n = some L → ∃ c, lookup res n = some c ∧ simpleMerge env ofIdx L = .ok c) ∧
      (lookup m n = none → lookup res n = none) := by
  induction m with
  | nil => exact ⟨[], rfl, by simp [lookup]⟩
  | cons g m ih =>
    obtain ⟨res, h1, h2⟩ := ih fun g hg => h g (by simp [hg])
    obtain ⟨c, hc⟩ := h g (by simp)
    refine ⟨(g.1, c) :: res, by simp only [mergeGroups, hc, h1], ?_⟩
    intro n
    unfold lookup at h2 ⊢
    rw [List.find?_cons, List.find?_cons]
    by_cases e : g.1 = n
    · simp only [e, decide_true, Option.map_some, Option.some.injEq]
      exact ⟨fun L hL => ⟨c, rfl, hL ▸ hc⟩, fun h => by cases h⟩
    · simp only [e, decide_false]
      exact h2 n

/-- C67: the files are read in the order given; blocks of the same name are put together, in this order, and keep the
name and number of their file; a name asked for selects its block. -/
theorem C67_files (env : Env β α) (ofIdx : Nat → β) (ofName : String → α)
    (blocksOf : σ → Except FileErr (List (Parsed β α))) (files : List (String × σ)) (parsed : List (String × List (Parsed β α)))
    (hf : List.Forall₂ (IsText blocksOf) files parsed) (hq : ∀ g ∈ parsed, ∀ p ∈ g.2, Fresh p.block)
    (hst : ∀ n q0 q1 qs, (located 0 parsed).filter (fun q => q.name = n) = q0 :: q1 :: qs →
      Stackable q0.block ((q1 :: qs).map Located.block)) :
    ∃ res, readFiles env ofIdx ofName blocksOf none files = .ok (.all res) ∧
      (∀ n, (lookup res n).isSome ↔ ∃ q ∈ located 0 parsed, q.name = n) ∧
      (∀ n c, n ≠ [] → lookup res n = some c → readFiles env ofIdx ofName blocksOf (some n) files = .ok (.one c)) ∧
      (∀ n q, (located 0 parsed).filter (fun q => q.name = n) = [q] → ∃ c, lookup res n = some c ∧
        Alone ofIdx ofName q c.block ∧ c.comments = q.comments) ∧
      (∀ n q0 q1 qs, (located 0 parsed).filter (fun q => q.name = n) = q0 :: q1 :: qs → ∃ c, lookup res n = some c ∧
        Together env ofIdx ofName q0 (q1 :: qs) c.block ∧ c.comments = (q0 :: q1 :: qs).flatMap Located.comments) := by
  obtain ⟨objs, h1, h2, h3, h4⟩ := loop_files env ofIdx ofName blocksOf files parsed hf hq 0 [] (by simp)
  have hfresh : ∀ q ∈ located 0 parsed, Fresh q.block := by
    generalize (0 : Nat) = k
    clear * - hq
    induction parsed generalizing k with
    | nil => intro q hq'; cases hq'
    | cons g t ih =>
      obtain ⟨f, ps⟩ := g
      intro q hq'
      rw [located, List.mem_append] at hq'
      rcases hq' with hq' | hq'
      · obtain ⟨p, hp, rfl⟩ := List.mem_map.1 hq'
        exact hq (f, ps) (by simp) p hp
      · exact ih (fun g hg => hq g (by simp [hg])) (k + 1) q hq'
  have hgrp : ∀ n L, lookup objs n = some L →
      L = ((located 0 parsed).filter fun q => q.name = n).map (tag ofIdx ofName) := by
    intro n L hL
    have := h4 n
    rw [kept, kept, hL, lookup_nil', Option.getD_some, Option.getD_none, List.nil_append] at this
    exact this
  have hsome : ∀ n, (lookup objs n).isSome ↔ ∃ q ∈ located 0 parsed, q.name = n := by
    intro n
    rw [h3, lookup_nil']
    simp
  have hfr : ∀ n q, q ∈ (located 0 parsed).filter (fun q => q.name = n) → Fresh q.block :=
    fun n q hq' => hfresh q (List.mem_filter.1 hq').1
  have hmg : ∀ g ∈ objs, ∃ c, simpleMerge env ofIdx g.2 = .ok c := by
    intro g hg
    have hl := (mem_iff_lookup h2 g.1 g.2).1 hg
    have hL := hgrp g.1 g.2 hl
    obtain ⟨q, hq1, hq2⟩ := (hsome g.1).1 (by rw [hl]; rfl)
    have hne : q ∈ (located 0 parsed).filter (fun q => q.name = g.1) := List.mem_filter.2 ⟨hq1, by simpa using hq2⟩
    match hm : (located 0 parsed).filter (fun q => q.name = g.1) with
    | [] => rw [hm] at hne; cases hne
    | [q] =>
      rw [hL, hm]
      exact ⟨_, rfl⟩
    | q0 :: q1 :: qs =>
      obtain ⟨c, hc, -⟩ := tag_merge env ofIdx ofName q0 q1 qs (fun q hq' => hfr g.1 q (hm ▸ hq')) (hst g.1 q0 q1 qs hm)
      rw [hL, hm]
      exact ⟨c, hc⟩
  obtain ⟨res, r1, r2⟩ := mergeGroups_of env ofIdx objs hmg
  have hsome' : ∀ n q, q ∈ (located 0 parsed).filter (fun q => q.name = n) → ∃ L, lookup objs n = some L := by
    intro n q hq'
    have := List.mem_filter.1 hq'
    exact Option.isSome_iff_exists.1 ((hsome n).2 ⟨q, this.1, by simpa using this.2⟩)
  refine ⟨res, ?_, ?_, ?_, ?_, ?_⟩
  · simp only [readFiles, h1, r1]
  · intro n
    rw [← hsome n]
    cases hl : lookup objs n with
    | none => simp [(r2 n).2 hl]
    | some L =>
      obtain ⟨c, hc, -⟩ := (r2 n).1 L hl
      rw [hc]
      simp
  · intro n c hn hc
    obtain ⟨x, xs, rfl⟩ := List.exists_cons_of_ne_nil hn
    simp only [readFiles, h1, r1, hc]
  · intro n q hm
    obtain ⟨L, hL⟩ := hsome' n q (by rw [hm]; simp)
    obtain ⟨c, hc, hs⟩ := (r2 n).1 L hL
    rw [hgrp n L hL, hm] at hs
    obtain rfl := Except.ok.inj hs
    exact ⟨_, hc, tag_alone ofIdx ofName q (hfr n q (by rw [hm]; simp)), rfl⟩
  · intro n q0 q1 qs hm
    obtain ⟨L, hL⟩ := hsome' n q0 (by rw [hm]; simp)
    obtain ⟨c, hc, hs⟩ := (r2 n).1 L hL
    obtain ⟨c', hc', h5, h6⟩ := tag_merge env ofIdx ofName q0 q1 qs (fun q hq' => hfr n q (hm ▸ hq')) (hst n q0 q1 qs hm)
    rw [hgrp n L hL, hm, hc'] at hs
    obtain rfl := Except.ok.inj hs
    exact ⟨_, hc, h5, h6⟩

end HF.Mdif
