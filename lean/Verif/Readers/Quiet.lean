import Verif.Readers.TreatProps
/-
The steps after reading a file, for blocks whose names are not titles with units and not calls of functions.
-/
namespace HF.Readers.Treat

open HF.DataDict.Spec HF.DataBlock
open HF.DataDict hiding rename delitem
open HF.Readers.FixUnit (UBlock title nameOf relabelled guessed unitOf scaled)
open HF.Readers.Assemble (Form CompleteF Wins FitF AssembledF elemNmF)
open HF.Readers.Normalize (trtable viaTable NoClash label Label varView dimView vnames dnames WF vnames_view dnames_view)

variable {β α : Type}

/-- Blocks as they come from a file: every name is used once, and the dimensions of the variables are those of the
block. -/
structure Linked (b : Block β α) : Prop where
  nodup : (keys b.ivars).Nodup
  named : ∀ p ∈ b.ivars, p.2.name = p.1
  known : ∀ w ∈ b.vars, ∀ d ∈ w.2.dims, lookup b.ivars d.name = some d

/-- No name is a title with a unit or a call of a function, and no two names are to be replaced by the same one. -/
structure Calm (b : Block β α) : Prop where
  linked : Linked b
  names : (keys b.vars ++ keys b.ivars).Nodup
  title : ∀ k ∈ keys b.vars ++ keys b.ivars, title k = none
  calls : ∀ k ∈ keys b.vars ++ keys b.ivars, '(' ∉ k.toList
  clash : NoClash b trtable

theorem Linked.lookup_name {b : Block β α} (h : Linked b) {n : String} {d : Dim β} (hl : lookup b.ivars n = some d) :
    d.name = n := h.named _ (lookup_mem hl)

theorem Calm.wf {b : Block β α} (h : Calm b) : WF b where
  names := h.names
  named := by
    intro p hp
    obtain ⟨q, hq, rfl⟩ := List.mem_map.1 hp
    exact h.linked.named q hq
  known := by
    intro p hp l hl
    obtain ⟨w, hw, rfl⟩ := List.mem_map.1 hp
    obtain ⟨d, hd, rfl⟩ := List.mem_map.1 hl
    exact ⟨(d.name, label d), List.mem_map.2 ⟨_, lookup_mem (h.linked.known w hw d hd), rfl⟩, rfl⟩

/-- Replacing a dimension by one of the same name. -/
theorem Linked.replace {b : Block β α} (h : Linked b) {d d' : Dim β} (hl : lookup b.ivars d.name = some d)
    (hn : d'.name = d.name) : ∃ b', replaceDim b d d' = some b' ∧ Linked b' := by
  have hri : renameIvar b.ivars d d' = some ((b.ivars.filter fun p => p.1 ≠ d.name) ++ [(d.name, d')]) := by
    unfold renameIvar
    rw [hl]
    simp only [hn, Spec.rename, if_true, Option.some.injEq, Spec.remove, assign]
    rw [if_pos ((member_iff _ _).2 (by simp))]
    unfold Spec.modify
    rw [List.map_append]
    congr 1
    · refine (List.map_congr_left fun p hp => ?_).trans (List.map_id _)
      have : p.1 ≠ d.name := by simpa using (List.mem_filter.1 hp).2
      simp [this]
    · simp
  have hlook : ∀ n, lookup ((b.ivars.filter fun p => p.1 ≠ d.name) ++ [(d.name, d')]) n =
      if n = d.name then some d' else lookup b.ivars n := by
    intro n
    have hf : lookup (b.ivars.filter fun p => p.1 ≠ d.name) n = if n = d.name then none else lookup b.ivars n := by
      have := lookup_remove b.ivars d.name n
      unfold Spec.remove at this
      by_cases e : n = d.name
      · subst e
        rw [if_pos rfl]
        rw [if_pos rfl] at this
        exact this
      · rw [if_neg e]
        rw [if_neg (fun h => e h.symm)] at this
        exact this
    rw [lookup_append, hf, lookup_single]
    by_cases e : n = d.name
    · subst e; simp
    · rw [if_neg e, if_neg e, if_neg (fun h => e h.symm)]
      simp
  refine ⟨_, by simp only [replaceDim, hri]; rfl, ?_, ?_, ?_⟩
  · simp only [keys, List.map_append, List.map_cons, List.map_nil, List.nodup_append]
    refine ⟨h.nodup.sublist (List.filter_sublist.map _), by simp, ?_⟩
    intro a ha c hc e
    simp only [List.mem_singleton] at hc
    subst hc; subst e
    obtain ⟨p, hp, e⟩ := List.mem_map.1 ha
    have : p.1 ≠ d.name := by simpa using (List.mem_filter.1 hp).2
    exact this e
  · intro p hp
    rcases List.mem_append.1 hp with hp | hp
    · exact h.named p (List.mem_filter.1 hp).1
    · rw [List.mem_singleton.1 hp]; exact hn
  · intro w hw c hc
    obtain ⟨p, hp, rfl⟩ := List.mem_map.1 hw
    simp only [replaceDimArr, List.mem_map] at hc
    obtain ⟨c0, hc0, rfl⟩ := hc
    show lookup ((b.ivars.filter fun p => p.1 ≠ d.name) ++ [(d.name, d')]) _ = _
    rw [hlook]
    by_cases e : d.name = c0.name
    · rw [if_pos e, if_pos hn]
    · rw [if_neg e, if_neg (fun h => e h.symm)]
      exact h.known p hp c0 hc0

theorem linked_guessOne {env : Env β α} {guess : String → Option String} {b b' : UBlock β α} {v : String}
    (h : Linked b.blk) (hs : FixUnit.guessOne env guess b v = .ok b') : Linked b'.blk := by
  unfold FixUnit.guessOne at hs
  split at hs
  · rename_i d hd
    split at hs
    · have hn := h.lookup_name hd
      obtain ⟨c, h1, h2⟩ := h.replace (d := d) (d' := Dim.copyFrom env.dfltDim d.cls d (unit := guess v))
        (by rw [hn]; exact hd) (by simp [Dim.copyFrom])
      rw [h1] at hs
      cases hs
      exact h2
    · cases hs; exact h
  · split at hs <;> cases hs <;> exact h

theorem linked_each {f : UBlock β α → String → Except DataBlock.Err (UBlock β α)}
    (hf : ∀ b b' v, Linked b.blk → f b v = .ok b' → Linked b'.blk) (l : List String) :
    ∀ b b', Linked b.blk → FixUnit.each f b l = .ok b' → Linked b'.blk := by
  induction l with
  | nil => intro b b' h hs; cases hs; exact h
  | cons v t ih =>
    intro b b' h hs
    simp only [FixUnit.each] at hs
    split at hs
    · cases hs
    · rename_i c hc
      exact ih c b' (hf b c v h hc) hs

theorem each_fix_calm (env : Env β α) (mul : ℚ → α → α) (cmul : ℚ → β → β) (l : List String) (h : ∀ k ∈ l, title k = none)
    (b : UBlock β α) : FixUnit.each (FixUnit.fixUnit env mul cmul) b l = .ok b := by
  induction l with
  | nil => rfl
  | cons v t ih =>
    simp only [FixUnit.each, FixUnit.fixUnit, h v (by simp)]
    exact ih fun k hk => h k (by simp [hk])

theorem label_inj_name {d e : Dim β} (h : label d = label e) : d.name = e.name := congrArg Label.name h

/-- Units are guessed, and nothing else changes. -/
theorem units_calm (env : Env β α) (mul : ℚ → α → α) (cmul : ℚ → β → β) (guess : String → Option String)
    (b : Block β α) (u : String → Option String) (hq : Calm b) :
    ∃ (b3 : UBlock β α) (G : Dim β → Dim β), FixUnit.guessUnit env mul cmul guess ⟨b, u⟩ = .ok b3 ∧ Linked b3.blk ∧
      b3.blk.vars = b.vars.map (fun p => (p.1, ⟨p.2.dims.map G, p.2.nd⟩)) ∧
      (∀ n d, lookup b.ivars n = some d → lookup b3.blk.ivars n = some (G d) ∧ label (G d) = guessed guess (label d)) ∧
      (∀ n, n ∈ keys b3.blk.ivars ↔ n ∈ keys b.ivars) ∧
      ∀ k ∈ keys b.vars, b3.units k = (u k).or (guess k) := by
  have hclear : FixUnit.Clear b := by
    refine ⟨?_, ?_, ?_⟩
    · intro k hk n m u ht
      rw [hq.title k hk] at ht
      cases ht
    · have : (FixUnit.names b).map nameOf = FixUnit.names b := by
        refine (List.map_congr_left fun k hk => ?_).trans (List.map_id _)
        simp only [nameOf, hq.title k hk, id]
      rw [this]
      exact hq.names
    · intro k hk n m u ht
      rw [hq.title k (List.mem_append_left _ hk)] at ht
      cases ht
  obtain ⟨b3, c1, c2, c3, c4, c5⟩ := FixUnit.C57_units env mul cmul guess ⟨b, u⟩ hq.wf hclear
  have hnv : ∀ k ∈ keys b.vars, title k = none := fun k hk => hq.title k (List.mem_append_left _ hk)
  have hnd : ∀ k ∈ keys b.ivars, title k = none := fun k hk => hq.title k (List.mem_append_right _ hk)
  have hlink : Linked b3.blk := by
    unfold FixUnit.guessUnit at c1
    split at c1
    · cases c1
    · rename_i b1 hb1
      have h1 := linked_each (fun _ _ _ => linked_guessOne) _ _ _ (by exact hq.linked) hb1
      have h2 : ∀ k ∈ Complex.allNames b1.blk, title k = none := by
        obtain ⟨b1', g1, g2, g3, g4, -⟩ := FixUnit.C57_guess env guess ⟨b, u⟩ hq.wf
        rw [hb1] at g1
        cases g1
        have e1 : vnames b1.blk = vnames b := by
          rw [vnames_view, vnames_view, g3]; simp [Function.comp_def]
        have e2 : ∀ k, k ∈ dnames b1.blk → k ∈ dnames b := by
          intro k hk
          rw [dnames_view, g4] at hk
          rw [dnames_view]
          simp only [List.map_append, List.map_map, List.mem_append, List.mem_map, List.mem_filter, Function.comp] at hk
          rcases hk with ⟨p, ⟨hp, -⟩, rfl⟩ | ⟨p, ⟨hp, -⟩, rfl⟩ <;> exact List.mem_map_of_mem hp
        intro k hk
        rw [FixUnit.allNames_eq g2] at hk
        rcases List.mem_append.1 hk with hk | hk
        · exact hq.title k (List.mem_append_right _ (e2 k hk))
        · rw [e1] at hk
          exact hq.title k (List.mem_append_left _ hk)
      rw [each_fix_calm env mul cmul _ h2] at c1
      cases c1
      exact h1
  -- labels
  have hrel : ∀ l : Label β, title l.name = none → relabelled cmul (guessed guess l) = guessed guess l := by
    intro l hl
    unfold relabelled
    simp only [guessed, hl]
  have hdim : ∀ n d, lookup b.ivars n = some d → ∃ e, lookup b3.blk.ivars n = some e ∧ label e = guessed guess (label d) := by
    intro n d hl
    have hm : (n, label d) ∈ dimView b := List.mem_map.2 ⟨_, lookup_mem hl, rfl⟩
    have hn := hnd n (lookup_key hl)
    have hdn := hq.linked.lookup_name hl
    have hm' := c4.mem_iff.2 (List.mem_map.2 ⟨_, hm, rfl⟩)
    simp only [nameOf, hn] at hm'
    rw [hrel (label d) (by rw [show (label d).name = d.name from rfl, hdn]; exact hn)] at hm'
    obtain ⟨⟨n', e⟩, he, h2⟩ := List.mem_map.1 hm'
    simp only [Prod.mk.injEq] at h2
    obtain ⟨rfl, h2⟩ := h2
    exact ⟨e, mem_lookup hlink.nodup he, h2⟩
  refine ⟨b3, fun d => (lookup b3.blk.ivars d.name).getD d, c1, hlink, ?_, ?_, ?_, ?_⟩
  · -- variables
    have hvars : ∀ (l : List (String × Arr β α)) (l3 : List (String × Arr β α)),
        (l3.map fun p => (p.1, p.2.nd, p.2.dims.map label)) =
          (l.map fun p => (p.1, p.2.nd, p.2.dims.map fun d => guessed guess (label d))) →
        (∀ w ∈ l3, ∀ d ∈ w.2.dims, lookup b3.blk.ivars d.name = some d) →
        l3 = l.map fun p => (p.1, ⟨p.2.dims.map fun d => (lookup b3.blk.ivars d.name).getD d, p.2.nd⟩) := by
      intro l
      induction l with
      | nil => intro l3 h _; simpa using h
      | cons p l ih =>
        intro l3 h hk
        cases l3 with
        | nil => simp at h
        | cons q l3 =>
          simp only [List.map_cons, List.cons.injEq, Prod.mk.injEq] at h
          obtain ⟨⟨h1, h2, h3⟩, h4⟩ := h
          rw [ih l3 h4 fun w hw => hk w (by simp [hw]), List.map_cons]
          congr 1
          refine Prod.ext h1 ?_
          obtain ⟨qn, ⟨qd, qnd⟩⟩ := q
          simp only at h2 h3 ⊢
          subst h2
          have : ∀ (x y : List (Dim β)), (x.map label = y.map fun d => guessed guess (label d)) →
              (∀ d ∈ x, lookup b3.blk.ivars d.name = some d) → x = y.map fun d => (lookup b3.blk.ivars d.name).getD d := by
            intro x
            induction x with
            | nil => intro y h _; cases y with | nil => rfl | cons _ _ => simp at h
            | cons a x ih2 =>
              intro y h hx
              cases y with
              | nil => simp at h
              | cons c y =>
                simp only [List.map_cons, List.cons.injEq] at h
                have hn : a.name = c.name := congrArg Label.name h.1
                rw [List.map_cons, ← ih2 y h.2 fun d hd => hx d (by simp [hd]), ← hn, hx a (by simp)]
                rfl
          rw [this qd p.2.dims h3 (hk _ (List.mem_cons_self ..))]
    refine hvars b.vars b3.blk.vars ?_ hlink.known
    have := c3
    simp only [varView, List.map_map] at this
    rw [this]
    refine List.map_congr_left fun p hp => ?_
    have hp1 := hnv p.1 (List.mem_map_of_mem hp)
    simp only [Function.comp, nameOf, hp1, scaled, Prod.mk.injEq, true_and, List.map_map]
    refine List.map_congr_left fun d hd => ?_
    simp only [Function.comp]
    exact hrel (label d) (hnd d.name (lookup_key (hq.linked.known p hp d hd)))
  · intro n d hl
    obtain ⟨e, h1, h2⟩ := hdim n d hl
    have hdn := hq.linked.lookup_name hl
    simp only [hdn, h1, Option.getD_some]
    exact ⟨trivial, h2⟩
  · intro n
    have : (dnames b3.blk).Perm (dnames b) := by
      rw [dnames_view, dnames_view]
      refine (c4.map Prod.fst).trans ?_
      rw [List.map_map]
      refine List.Perm.of_eq (List.map_congr_left fun p hp => ?_)
      obtain ⟨q, hq', rfl⟩ := List.mem_map.1 hp
      simp only [Function.comp, nameOf, hnd q.1 (List.mem_map_of_mem hq')]
    exact this.mem_iff
  · intro k hk
    have := c5 k hk
    simpa [nameOf, unitOf, hnv k hk] using this

/-- Renaming keeps blocks linked. -/
theorem linked_rename (env : Env β α) (b b' : Block β α) (o n : String) (_ : WF b) (hn : n ∉ vnames b ++ dnames b)
    (hs : renameVar env b o n = (b', .ok ())) (h : Linked b) : Linked b' := by
  have hnd : n ∉ keys b.ivars := fun e => hn (List.mem_append_right _ e)
  unfold renameVar at hs
  cases hd : lookup b.ivars o with
  | none =>
    rw [hd] at hs
    simp only at hs
    cases hv : lookup b.vars o with
    | none =>
      rw [hv] at hs
      cases hs
      exact h
    | some v =>
      rw [hv] at hs
      cases hs
      refine ⟨h.nodup, h.named, ?_⟩
      intro w hw d hd'
      have : ∃ w0 ∈ b.vars, w0.2 = w.2 := by
        have hon : o ≠ n := by
          rintro rfl
          exact hn (List.mem_append_left _ (lookup_key hv))
        have hm : ¬ member b.vars n = true := by
          rw [member_iff]
          exact fun e => hn (List.mem_append_left _ e)
        simp only [Spec.rename, if_neg hon, if_neg hm] at hw
        obtain ⟨w0, hw0, rfl⟩ := List.mem_map.1 hw
        by_cases e : w0.1 = o
        · rw [if_pos e]
          exact ⟨_, lookup_mem hv, rfl⟩
        · rw [if_neg e]
          exact ⟨w0, hw0, rfl⟩
      obtain ⟨w0, hw0, e⟩ := this
      exact h.known w0 hw0 d (by rw [e]; exact hd')
  | some d =>
    rw [hd] at hs
    simp only at hs
    have hdn := h.lookup_name hd
    have hon : o ≠ n := by
      rintro rfl
      exact hnd (lookup_key hd)
    have hm : ¬ member b.ivars n = true := by rw [member_iff]; exact hnd
    generalize hd' : Dim.copyFrom env.dfltDim d.cls d (name := some n) = d' at hs
    have hd'n : d'.name = n := by rw [← hd']; simp [Dim.copyFrom]
    have hri : renameIvar b.ivars d d' = some (b.ivars.map fun p => if p.1 = o then (n, d') else p) := by
      unfold renameIvar
      rw [hdn, hd, hd'n]
      simp only [Spec.rename, if_neg hon, if_neg hm, assign, Option.some.injEq]
      rw [if_pos]
      · unfold Spec.modify
        rw [List.map_map]
        refine List.map_congr_left fun p hp => ?_
        simp only [Function.comp]
        by_cases e : p.1 = o
        · simp [e]
        · have : p.1 ≠ n := fun e' => hnd (e' ▸ List.mem_map_of_mem hp)
          simp [e, this]
      · rw [member_iff]
        exact List.mem_map.2 ⟨(n, d), List.mem_map.2 ⟨(o, d), lookup_mem hd, by simp⟩, rfl⟩
    simp only [replaceDim, hri] at hs
    cases hs
    have hkeys : keys (b.ivars.map fun p => if p.1 = o then (n, d') else p) = (keys b.ivars).map fun k => if k = o then n else k := by
      simp only [keys, List.map_map]
      refine List.map_congr_left fun p _ => ?_
      by_cases e : p.1 = o <;> simp [e]
    have hnd2 : (keys (b.ivars.map fun p => if p.1 = o then (n, d') else p)).Nodup := by
      rw [hkeys]
      refine List.Nodup.map_on ?_ h.nodup
      intro x hx y hy e
      split at e <;> split at e <;> rename_i h1 h2
      · rw [h1, h2]
      · exact absurd (e ▸ hy) hnd
      · exact absurd (e ▸ hx) hnd
      · exact e
    refine ⟨hnd2, ?_, ?_⟩
    · intro p hp
      obtain ⟨q, hq, rfl⟩ := List.mem_map.1 hp
      by_cases e : q.1 = o
      · simp [e, hd'n]
      · simp only [if_neg e]; exact h.named q hq
    · intro w hw c hc
      obtain ⟨w0, hw0, rfl⟩ := List.mem_map.1 hw
      simp only [replaceDimArr, List.mem_map] at hc
      obtain ⟨c0, hc0, rfl⟩ := hc
      have hk := h.known w0 hw0 c0 hc0
      rw [hdn]
      by_cases e : o = c0.name
      · rw [if_pos e, hd'n]
        have : (n, d') ∈ b.ivars.map fun p => if p.1 = o then (n, d') else p := List.mem_map.2 ⟨(o, d), lookup_mem hd, by simp⟩
        exact mem_lookup hnd2 this
      · rw [if_neg e]
        have : (c0.name, c0) ∈ b.ivars.map fun p => if p.1 = o then (n, d') else p :=
          List.mem_map.2 ⟨_, lookup_mem hk, by simp [Ne.symm e]⟩
        exact mem_lookup hnd2 this

/-- If the names of the dimensions are enough to find them, arrays are known by values and labels. -/
theorem vars_from_view {b3 b4 : Block β α} {T : String → String} {lab : Label β → Label β} (hl : Linked b4)
    (hT : ∀ w ∈ b3.vars, ∀ d ∈ w.2.dims, (lab (label d)).name = T d.name)
    (hv : varView b4 = (varView b3).map fun p => (T p.1, p.2.1, p.2.2.map lab)) :
    b4.vars = b3.vars.map fun p => (T p.1, ⟨p.2.dims.map fun d => (lookup b4.ivars (T d.name)).getD d, p.2.nd⟩) := by
  have hdims : ∀ (x y : List (Dim β)), x.map label = y.map (fun d => lab (label d)) → (∀ d ∈ y, (lab (label d)).name = T d.name) →
      (∀ d ∈ x, lookup b4.ivars d.name = some d) → x = y.map fun d => (lookup b4.ivars (T d.name)).getD d := by
    intro x
    induction x with
    | nil => intro y h _ _; cases y with | nil => rfl | cons _ _ => simp at h
    | cons a x ih2 =>
      intro y h hy hx
      cases y with
      | nil => simp at h
      | cons c y =>
        simp only [List.map_cons, List.cons.injEq] at h
        have hn : a.name = T c.name := (congrArg Label.name h.1).trans (hy c (by simp))
        rw [List.map_cons, ← ih2 y h.2 (fun d hd => hy d (by simp [hd])) fun d hd => hx d (by simp [hd]), ← hn, hx a (by simp)]
        rfl
  have hvars : ∀ (l : List (String × Arr β α)) (l3 : List (String × Arr β α)),
      (l3.map fun p => (p.1, p.2.nd, p.2.dims.map label)) =
        (l.map fun p => (T p.1, p.2.nd, p.2.dims.map fun d => lab (label d))) →
      (∀ w ∈ l, ∀ d ∈ w.2.dims, (lab (label d)).name = T d.name) →
      (∀ w ∈ l3, ∀ d ∈ w.2.dims, lookup b4.ivars d.name = some d) →
      l3 = l.map fun p => (T p.1, ⟨p.2.dims.map fun d => (lookup b4.ivars (T d.name)).getD d, p.2.nd⟩) := by
    intro l
    induction l with
    | nil => intro l3 h _ _; simpa using h
    | cons p l ih =>
      intro l3 h hk0 hk
      cases l3 with
      | nil => simp at h
      | cons q l3 =>
        simp only [List.map_cons, List.cons.injEq, Prod.mk.injEq] at h
        obtain ⟨⟨h1, h2, h3⟩, h4⟩ := h
        rw [ih l3 h4 (fun w hw => hk0 w (by simp [hw])) fun w hw => hk w (by simp [hw]), List.map_cons]
        congr 1
        refine Prod.ext h1 ?_
        obtain ⟨qn, ⟨qd, qnd⟩⟩ := q
        simp only at h2 h3 ⊢
        subst h2
        rw [hdims qd p.2.dims h3 (hk0 p (by simp)) (hk _ (List.mem_cons_self ..))]
  refine hvars b3.vars b4.vars ?_ hT hl.known
  have := hv
  simp only [varView, List.map_map] at this
  rw [this]
  refine List.map_congr_left fun p hp => ?_
  simp [Function.comp_def]

/-- Units and names of a calm block: units are guessed, names are replaced by the table, and nothing else changes. -/
theorem names_calm (env : Env β α) (S : Steps β α) (htab : S.table.Perm trtable) (b : Block β α) (u : String → Option String)
    (hq : Calm b) :
    ∃ (b3 : UBlock β α) (b4 : Block β α) (H : Dim β → Dim β),
      FixUnit.guessUnit env S.mul S.cmul S.guess ⟨b, u⟩ = .ok b3 ∧ Normalize.normalize env S.table b3.blk = .ok b4 ∧
      Linked b4 ∧ (keys b4.vars ++ keys b4.ivars).Nodup ∧ keys b3.blk.vars = keys b.vars ∧
      b4.vars = b.vars.map (fun p => (viaTable b trtable p.1, ⟨p.2.dims.map H, p.2.nd⟩)) ∧
      (∀ n d, lookup b.ivars n = some d → lookup b4.ivars (viaTable b trtable n) = some (H d) ∧
        label (H d) = (guessed S.guess (label d)).ren (viaTable b trtable)) ∧
      (∀ n, n ∈ keys b4.ivars ↔ n ∈ (keys b.ivars).map (viaTable b trtable)) ∧
      ∀ k ∈ keys b.vars, b3.units k = (u k).or (S.guess k) := by
  obtain ⟨b3, G, g1, g2, g3, g4, g5, g6⟩ := units_calm env S.mul S.cmul S.guess b u hq
  have hkv : keys b3.blk.vars = keys b.vars := by
    rw [g3]
    simp [keys, Function.comp_def]
  have hmem : ∀ k, k ∈ vnames b3.blk ++ dnames b3.blk ↔ k ∈ vnames b ++ dnames b := by
    intro k
    rw [List.mem_append, List.mem_append]
    exact or_congr (by rw [show vnames b3.blk = vnames b from hkv]) (g5 k)
  have hT : viaTable b3.blk trtable = viaTable b trtable := by
    funext k
    unfold viaTable
    simp only [hmem]
  have hclash : NoClash b3.blk trtable := by
    intro e he e' he' h1 h2 h3 h4
    rw [hmem] at h1 h2 h3
    exact hq.clash e he e' he' h1 h2 h3 h4
  have hwf : WF b3.blk := by
    refine ⟨?_, ?_, ?_⟩
    · rw [List.nodup_append]
      refine ⟨?_, g2.nodup, ?_⟩
      · rw [show vnames b3.blk = keys b.vars from hkv]
        exact (List.nodup_append.1 hq.names).1
      · intro x hx y hy
        rw [show vnames b3.blk = keys b.vars from hkv] at hx
        exact (List.nodup_append.1 hq.names).2.2 x hx y ((g5 y).1 hy)
    · intro p hp
      obtain ⟨q, hq', rfl⟩ := List.mem_map.1 hp
      exact g2.named q hq'
    · intro p hp l hl
      obtain ⟨w, hw, rfl⟩ := List.mem_map.1 hp
      obtain ⟨d, hd, rfl⟩ := List.mem_map.1 hl
      exact ⟨(d.name, label d), List.mem_map.2 ⟨_, lookup_mem (g2.known w hw d hd), rfl⟩, rfl⟩
  obtain ⟨b4, c1, c2, c3, c4⟩ := Normalize.table_inv env Linked (linked_rename env) S.table htab b3.blk hwf hclash
  have c3 := c3 g2
  rw [hT] at c4
  have hparen : ∀ k ∈ b4.vars.map Prod.fst, '(' ∉ k.toList := by
    intro k hk
    have hk : k ∈ vnames b4 := hk
    rw [c4.vnames] at hk
    obtain ⟨k0, hk0, rfl⟩ := List.mem_map.1 hk
    rw [show vnames b3.blk = keys b.vars from hkv] at hk0
    rcases Normalize.viaTable_cases b trtable k0 with h | ⟨e, h1, h2, h3, -⟩
    · rw [h]
      exact hq.calls k0 (List.mem_append_left _ hk0)
    · rw [h3]
      have : ∀ e ∈ trtable, '(' ∉ e.2.toList := by decide
      exact this e h1
  have hnorm : Normalize.normalize env S.table b3.blk = .ok b4 := by
    unfold Normalize.normalize
    rw [c1]
    simp only [Normalize.pass]
    have p1 := pass_plain env (Normalize.translate "Mean" "") b4 (b4.vars.map Prod.fst)
      fun k hk => by simpa using translate_plain "Mean".toList "".toList (hparen k hk)
    have p2 := pass_plain env (Normalize.translate "Std" "s_") b4 (b4.vars.map Prod.fst)
      fun k hk => by simpa using translate_plain "Std".toList "s_".toList (hparen k hk)
    rw [p1]
    exact p2
  have hlook : ∀ n d, lookup b.ivars n = some d → ∃ e, lookup b4.ivars (viaTable b trtable n) = some e ∧
      label e = (guessed S.guess (label d)).ren (viaTable b trtable) := by
    intro n d hl
    obtain ⟨h1, h2⟩ := g4 n d hl
    have hm : (n, label (G d)) ∈ dimView b3.blk := List.mem_map.2 ⟨_, lookup_mem h1, rfl⟩
    have hm' : (viaTable b trtable n, (label (G d)).ren (viaTable b trtable)) ∈ dimView b4 := by
      rw [c4.dims]
      exact List.mem_map.2 ⟨_, hm, rfl⟩
    obtain ⟨⟨n', e⟩, he, h3⟩ := List.mem_map.1 hm'
    simp only [Prod.mk.injEq] at h3
    obtain ⟨rfl, h3⟩ := h3
    exact ⟨e, mem_lookup c3.nodup he, by rw [h3, h2]⟩
  refine ⟨b3, b4, fun d => (lookup b4.ivars (viaTable b trtable d.name)).getD d, g1, hnorm, c3, c2.names, hkv, ?_, ?_, ?_, g6⟩
  · refine vars_from_view (lab := fun l => (guessed S.guess l).ren (viaTable b trtable)) c3 (fun _ _ _ _ => rfl) ?_
    rw [c4.vars]
    have : varView b3.blk = (varView b).map fun p => (p.1, p.2.1, p.2.2.map (guessed S.guess)) := by
      simp only [varView, g3, List.map_map]
      refine List.map_congr_left fun p hp => ?_
      simp only [Function.comp, Prod.mk.injEq, true_and, List.map_map]
      refine List.map_congr_left fun d hd => ?_
      exact (g4 d.name d (hq.linked.known p hp d hd)).2
    rw [this, List.map_map]
    refine List.map_congr_left fun p hp => ?_
    simp [Function.comp_def]
  · intro n d hl
    obtain ⟨e, h1, h2⟩ := hlook n d hl
    simp only [hq.linked.lookup_name hl, h1, Option.getD_some]
    exact ⟨trivial, h2⟩
  · intro n
    have : n ∈ dnames b4 ↔ n ∈ (dnames b3.blk).map (viaTable b trtable) := by rw [c4.dnames]
    refine this.trans ?_
    rw [List.mem_map, List.mem_map]
    constructor
    · rintro ⟨k, hk, rfl⟩; exact ⟨k, (g5 k).1 hk, rfl⟩
    · rintro ⟨k, hk, rfl⟩; exact ⟨k, (g5 k).2 hk, rfl⟩

/-- The variables under their new names. -/
def newCols (b : Block β α) : List (String × Arr β α) := b.vars.map fun p => (viaTable b trtable p.1, p.2)

/-- The columns of `v` can be put together: they have the same dimensions and element type, and the name is free. -/
structure Alike (f : Form) (cast : Arr β α → α → α) (b : Block β α) (v : String) (I J : List Nat)
    (D : List (Dim β)) (sh : List Nat) : Prop where
  len : D.length = sh.length
  name : v ∉ (keys b.ivars).map (viaTable b trtable) ∧ v ≠ "i" ∧ v ≠ "j"
  cols : ∀ i ∈ I, ∀ j ∈ J, ∃ c, lookup (newCols b) (elemNmF f v i j) = some c ∧ c.dims = D ∧ c.nd.shape = sh
  type : ∀ i ∈ I, ∀ j ∈ J, ∀ k ∈ I, ∀ l ∈ J, ∀ c c' : Arr β α,
    lookup (newCols b) (elemNmF f v i j) = some c → lookup (newCols b) (elemNmF f v k l) = some c' →
    ∀ idx, Nd.Valid sh idx → cast c (c'.nd.get idx) = c'.nd.get idx

theorem lookup_renamed (T : String → String) (G : Dim β → Dim β) (l : List (String × Arr β α)) (n : String) :
    lookup (l.map fun p => (T p.1, (⟨p.2.dims.map G, p.2.nd⟩ : Arr β α))) n =
      (lookup (l.map fun p => (T p.1, p.2)) n).map fun a => ⟨a.dims.map G, a.nd⟩ := by
  induction l with
  | nil => rfl
  | cons p t ih =>
    by_cases h : T p.1 = n
    · simp [lookup, h]
    · simpa [lookup, h] using ih

theorem carry_renamed (u : String → Option String) (T : String → String) (l : List String) (hn : (l.map T).Nodup) {k : String}
    (hk : k ∈ l) : carry u l (l.map T) (T k) = u k := by
  unfold carry
  have : ((l.map T).zip l).find? (fun p => p.1 = T k) = some (T k, k) := by
    induction l with
    | nil => simp at hk
    | cons a t ih =>
      rw [List.map_cons, List.nodup_cons] at hn
      rw [List.map_cons, List.zip_cons_cons, List.find?_cons]
      by_cases e : a = k
      · subst e; simp
      · have hk' : k ∈ t := by
          rcases List.mem_cons.1 hk with h | h
          · exact absurd h.symm e
          · exact h
        have : T a ≠ T k := fun h => hn.1 (h ▸ List.mem_map_of_mem hk')
        simp only [this, decide_false]
        exact ih hn.2 hk'
  rw [this]

/-- All steps: units are guessed, names are replaced by the table, columns are put together to matrices, and nothing else
changes. -/
theorem laterOn_calm (forms : List Form) (env : Env β α) (S : Steps β α) (htab : S.table.Perm trtable)
    (hcast : ∀ c c' : Arr β α, c.nd = c'.nd → S.cast c = S.cast c') (props : List (String × Comments.PVal)) (b b2 : UBlock β α)
    (hv : valuesFromProperty env S.ofProp b props = .ok b2) (hq : Calm b2.blk)
    (hf : ∀ f v I J, Wins (keys (newCols b2.blk)) forms f v I J → ∃ D sh, Alike f S.cast b2.blk v I J D sh) :
    ∃ r H, laterOn forms env S props b = .ok r ∧
      (∀ n d, lookup b2.blk.ivars n = some d → lookup r.blk.ivars (viaTable b2.blk trtable n) = some (H d) ∧
        label (H d) = (guessed S.guess (label d)).ren (viaTable b2.blk trtable)) ∧
      (∀ n ∈ keys r.blk.ivars, n ∈ (keys b2.blk.ivars).map (viaTable b2.blk trtable) ∨
        (∃ f v I J, Wins (keys (newCols b2.blk)) forms f v I J) ∧ (n = "i" ∨ n = "j")) ∧
      (∀ f v I J, Wins (keys (newCols b2.blk)) forms f v I J → ∃ m D sh, lookup r.blk.vars v = some m ∧ r.units v = none ∧
        Alike f S.cast b2.blk v I J D sh ∧ AssembledF f { vars := newCols b2.blk } v I J (D.map H) sh m) ∧
      (∀ f v I J, Wins (keys (newCols b2.blk)) forms f v I J → ∀ i ∈ I, ∀ j ∈ J, lookup r.blk.vars (elemNmF f v i j) = none) ∧
      (∀ n, (∀ f v I J, Wins (keys (newCols b2.blk)) forms f v I J → n ≠ v ∧ ∀ i ∈ I, ∀ j ∈ J, n ≠ elemNmF f v i j) →
        lookup r.blk.vars n = (lookup (newCols b2.blk) n).map (fun a => ⟨a.dims.map H, a.nd⟩)) ∧
      ∀ k ∈ keys b2.blk.vars, (∀ f v I J, Wins (keys (newCols b2.blk)) forms f v I J → viaTable b2.blk trtable k ≠ v) →
        r.units (viaTable b2.blk trtable k) = (b2.units k).or (S.guess k) := by
  obtain ⟨b3, b4, H, g1, hnorm, g2, hnn, hk3, g3, g4, g5, g6⟩ := names_calm env S htab b2.blk b2.units hq
  have hlk : ∀ n, lookup b4.vars n = (lookup (newCols b2.blk) n).map fun a => ⟨a.dims.map H, a.nd⟩ := by
    intro n
    rw [g3]
    exact lookup_renamed ..
  have hkv : keys b4.vars = keys (newCols b2.blk) := by
    rw [g3]
    simp [keys, newCols, Function.comp_def]
  have hpull : ∀ n c, lookup b4.vars n = some c → ∃ a, lookup (newCols b2.blk) n = some a ∧ c = ⟨a.dims.map H, a.nd⟩ := by
    intro n c hc
    rw [hlk] at hc
    cases ha : lookup (newCols b2.blk) n with
    | none => rw [ha] at hc; cases hc
    | some a =>
      rw [ha] at hc
      cases hc
      exact ⟨a, rfl, rfl⟩
  have hpos : ∀ {f v I J}, CompleteF f (keys (newCols b2.blk)) v I J → 0 < I.length ∧ 0 < J.length := by
    intro f v I J hcp
    have := hcp.many
    constructor <;> refine Nat.pos_of_ne_zero ?_ <;> intro e <;> rw [e] at this <;> simp at this
  have hf3 : ∀ f v I J D sh, CompleteF f (keys (newCols b2.blk)) v I J → Alike f S.cast b2.blk v I J D sh →
      FitF f S.cast b4 v I J (D.map H) sh := by
    intro f v I J D sh hcp h
    have hDn : ∀ d ∈ D, (H d).name ∈ keys b4.ivars := by
      obtain ⟨i0, hi0⟩ := List.exists_mem_of_length_pos (hpos hcp).1
      obtain ⟨j0, hj0⟩ := List.exists_mem_of_length_pos (hpos hcp).2
      obtain ⟨c, hc, hd, -⟩ := h.cols i0 hi0 j0 hj0
      intro d hdD
      obtain ⟨w, hw, e⟩ := List.mem_map.1 (lookup_mem hc)
      simp only [Prod.mk.injEq] at e
      have hk := (g4 d.name d (hq.linked.known w hw d (by rw [e.2, hd]; exact hdD)))
      have hn : (H d).name = viaTable b2.blk trtable d.name := congrArg Label.name hk.2
      rw [hn]
      exact lookup_key hk.1
    refine ⟨by simpa using h.len, ?_, ⟨fun e => h.name.1 ((g5 _).1 e), h.name.2⟩, ?_, ?_, ?_⟩
    · intro d hd
      obtain ⟨e, he, rfl⟩ := List.mem_map.1 hd
      exact hDn e he
    · intro i hi j hj e
      have := (hcp.mem i j (hcp.digits.1 i hi) (hcp.digits.2 j hj)).2 ⟨hi, hj⟩
      rw [← hkv] at this
      exact (List.nodup_append.1 hnn).2.2 _ this _ e rfl
    · intro i hi j hj
      obtain ⟨c, h1, h2, h3⟩ := h.cols i hi j hj
      exact ⟨⟨c.dims.map H, c.nd⟩, by rw [hlk, h1]; rfl, by rw [h2], h3⟩
    · intro i hi j hj k hk l hl c c' hc hc' idx hidx
      obtain ⟨a, ha, rfl⟩ := hpull _ _ hc
      obtain ⟨a', ha', rfl⟩ := hpull _ _ hc'
      rw [hcast ⟨a.dims.map H, a.nd⟩ a rfl]
      exact h.type i hi j hj k hk l hl a a' ha ha' idx hidx
  have hwc : ∀ {f v I J}, Wins (keys (newCols b2.blk)) forms f v I J → CompleteF f (keys (newCols b2.blk)) v I J := by
    rintro f v I J ⟨_, _, _, _, h, _⟩
    exact h
  have hnd : (keys (newCols b2.blk)).Nodup := by
    rw [← hkv]
    exact (List.nodup_append.1 hnn).1
  obtain ⟨b5, c1, c2, c3, c4, c5, c6⟩ := Assemble.C21_forms forms env S.num S.cast b4 (by rw [hkv]; exact hnd) (by
    intro f v I J hw
    rw [hkv] at hw
    obtain ⟨D, sh, h⟩ := hf f v I J hw
    exact ⟨_, _, hf3 f v I J D sh (hwc hw) h⟩)
  rw [hkv] at c2 c3 c4
  have hkk : b4.vars.map Prod.fst = keys (newCols b2.blk) := hkv
  have hkc : keys (newCols b2.blk) = (keys b2.blk.vars).map (viaTable b2.blk trtable) := by
    simp [newCols, keys, Function.comp_def]
  refine ⟨⟨b5, fun k => if k ∈ (Assemble.matrices (b4.vars.map Prod.fst) forms []).map Assemble.Group.name then none
      else carry b3.units (b3.blk.vars.map Prod.fst) (b4.vars.map Prod.fst) k⟩, H, ?_, ?_, ?_, ?_, c3, ?_, ?_⟩
  · simp only [laterOn, hv, g1, hnorm, c1]
  · intro n d hl
    obtain ⟨h1, h2⟩ := g4 n d hl
    exact ⟨c6 _ _ h1, h2⟩
  · intro n hn
    by_cases hany : ∃ f v I J, Wins (keys (newCols b2.blk)) forms f v I J
    · rcases c5 n hn with h | h
      · exact Or.inl ((g5 n).1 h)
      · exact Or.inr ⟨hany, h⟩
    · have hno : Assemble.matrices (b4.vars.map Prod.fst) forms [] = [] := by
        rw [List.eq_nil_iff_forall_not_mem]
        intro g hg
        rw [hkk] at hg
        exact hany ⟨_, _, _, _, ((Assemble.matrices_iff _ hnd forms g).1 hg).1⟩
      unfold Assemble.makeMatricesBy at c1
      rw [hno] at c1
      cases c1
      exact Or.inl ((g5 n).1 hn)
  · intro f v I J hw
    obtain ⟨m, D', sh', h1, h2, h3⟩ := c2 f v I J hw
    obtain ⟨D, sh, h⟩ := hf f v I J hw
    have hcp := hwc hw
    obtain ⟨i0, hi0⟩ := List.exists_mem_of_length_pos (hpos hcp).1
    obtain ⟨j0, hj0⟩ := List.exists_mem_of_length_pos (hpos hcp).2
    obtain ⟨x, x1, x2, x3⟩ := h2.cols i0 hi0 j0 hj0
    obtain ⟨y, y1, y2, y3⟩ := h.cols i0 hi0 j0 hj0
    rw [hlk, y1] at x1
    cases x1
    simp only at x2 x3
    rw [y2] at x2
    have x3 : y.nd.shape = sh' := x3
    rw [y3] at x3
    subst x2; subst x3
    refine ⟨m, D, sh, h1, ?_, h, h3.shape, ?_⟩
    · show (if _ then _ else _) = none
      rw [if_pos]
      rw [hkk]
      exact List.mem_map.2 ⟨⟨v, (Assemble.grid f v I J).map fun t => t.2.2, I, J, f⟩,
        (Assemble.matrices_iff _ hnd forms _).2 ⟨hw, rfl⟩, rfl⟩
    · intro a c ha hc
      obtain ⟨col, k1, k2⟩ := h3.get a c ha hc
      obtain ⟨a0, ha0, rfl⟩ := hpull _ _ k1
      exact ⟨a0, ha0, k2⟩
  · intro n hn
    rw [c4 n hn, hlk]
  · intro k hm hn
    show (if _ then _ else _) = _
    rw [if_neg, hkk, hkc, show b3.blk.vars.map Prod.fst = keys b2.blk.vars from hk3,
      carry_renamed _ _ _ (by rw [← hkc]; exact hnd) hm, g6 k hm]
    rw [hkk]
    intro hm'
    obtain ⟨g, hg, e⟩ := List.mem_map.1 hm'
    exact hn _ _ _ _ ((Assemble.matrices_iff _ hnd forms g).1 hg).1 e.symm

end HF.Readers.Treat
