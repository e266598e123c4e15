import Verif.Merge.Core
/-
C48: merging blocks with partial sweeps.
-/
namespace HF.Merge

open HF.DataDict.Spec
open HF.DataDict hiding rename delitem
open HF.DataBlock
open HF.Arr hiding Err ofNd getitem

variable {β α : Type}

theorem placed_fst (idx : Dim β) (n : Nat) (ds : List (Dim β)) (sh : List Nat)
    (h : ds.length = sh.length) : (placed (idx, n) (ds.zip sh)).map Prod.fst = withIndex idx ds := by
  cases ds with
  | nil => rfl
  | cons d t =>
    cases sh with
    | nil => simp at h
    | cons s u =>
      have e : (t.zip u).map Prod.fst = t := List.map_fst_zip (by simp at h; omega)
      simp only [List.zip_cons_cons, placed, withIndex]
      split <;> simp [e]

theorem placed_mem (idx : Dim β × Nat) (l : List (Dim β × Nat)) (p : Dim β × Nat) :
    p ∈ placed idx l ↔ p = idx ∨ p ∈ l := by
  cases l with
  | nil => simp [placed]
  | cons a t =>
    simp only [placed]
    split
    · simp only [List.mem_cons]; tauto
    · simp only [List.mem_cons]

theorem placed_zip (idx : Dim β) (n : Nat) (x a : Arr β α) (hx : x.WF)
    (hn : ((idx :: x.dims).map Dim.name).Nodup)
    (ha : a.WF) (hd : a.dims = withIndex idx x.dims) (h1 : a.axisLen idx.key = some n)
    (h2 : ∀ e m, (e, m) ∈ x.dims.zip x.nd.shape → a.axisLen e.key = some m) :
    a.dims.zip a.nd.shape = placed (idx, n) (x.dims.zip x.nd.shape) := by
  have e1 := placed_fst idx n x.dims x.nd.shape hx
  have hperm : (withIndex idx x.dims).Perm (idx :: x.dims) := by
    cases x.dims with
    | nil => exact List.Perm.refl _
    | cons d t =>
      simp only [withIndex]
      split
      · exact List.Perm.swap _ _ _
      · exact List.Perm.refl _
  have hdist : Distinct a.dims := distinct_of_names (by
    rw [hd]; exact (hperm.map Dim.name).nodup_iff.2 hn)
  have hzip : ∀ l : List (Dim β × Nat), (l.map Prod.fst).zip (l.map Prod.snd) = l := by
    intro l
    induction l with
    | nil => rfl
    | cons p t ih => simp [ih]
  have e2 : a.nd.shape = (placed (idx, n) (x.dims.zip x.nd.shape)).map Prod.snd := by
    apply shape_of_axisLen ha hdist
    · rw [hd, ← e1]; simp
    · intro e m hem
      rw [hd, ← e1, hzip] at hem
      rcases (placed_mem _ _ _).1 hem with h | h
      · cases h; exact h1
      · exact h2 e m h
  rw [hd, ← e1, e2, hzip]

variable [DecidableEq β]

/-- C48: blocks with the same partial sweeps and the same variables are merged into one block.
Its variables are those of the blocks and, for each partial sweep, the values of this sweep.
Everything gets a new sweep that numbers the blocks: at its index `i` there are the values of
block number `i`.  All other dims are taken from the first block.  Axes of length one are
dropped. -/
theorem C48_merge (env : Env β α) (ofIdx : Nat → β) (en : Enum String) (ks vs : List String)
    (b0 : Block β α) (bs : List (Block β α)) (hks : ks ≠ []) (hu : Uniform ks vs (b0 :: bs)) :
    ∃ r, merge env ofIdx en (b0 :: bs) = .ok r ∧ (r.vars.map Prod.fst).Perm (ks ++ vs) ∧
      (∀ k ∈ ks, ∃ a, lookup r.vars k = some a ∧
        a.dims = (if bs = [] then [] else [blockIndex ofIdx (bs.length + 1)]) ∧
        ∀ (i : Nat) b d x, (b0 :: bs)[i]? = some b → (k, d) ∈ b.ivars → d.isa .dimPartial = true →
          d.data.head? = some x → ∀ c, c (blockIndex ofIdx (bs.length + 1)).key = i →
          a.at_ c = env.toVal x) ∧
      (∀ n x0, lookup b0.vars n = some x0 → ∃ a, lookup r.vars n = some a ∧ a.WF ∧
        a.dims.zip a.nd.shape =
          (placed (blockIndex ofIdx (bs.length + 1), bs.length + 1) (x0.dims.zip x0.nd.shape)).filter
            (fun p => p.2 ≠ 1) ∧
        ∀ (i : Nat) b x, (b0 :: bs)[i]? = some b → lookup b.vars n = some x →
          ∀ c, c (blockIndex ofIdx (bs.length + 1)).key = i →
            (∀ e, (e, 1) ∈ x0.dims.zip x0.nd.shape → c e.key = 0) →
            a.at_ c = x.nd.get (x0.dims.map fun d => c d.key)) ∧
      ∀ n d, lookup b0.ivars n = some d → n ∉ ks → n ≠ "INDEX1" → lookup r.ivars n = some d := by
  obtain ⟨q, hq, hm⟩ := merge_core env ofIdx en ks vs b0 bs hks hu
  obtain ⟨r, hr1, hr2, hr3⟩ := C49_block env q hm.orderly
  have hkeys : r.vars.map Prod.fst = q.vars.map Prod.fst :=
    keys_of_forall₂ (R := fun p w => w.1 = p.1 ∧ Squeezed p.2 w.2) hr2 fun p w h => h.1.symm
  have hrn : (r.vars.map Prod.fst).Nodup := hkeys ▸ hm.orderly.vars
  obtain ⟨idx, hidx⟩ : ∃ idx, idx = blockIndex ofIdx (bs.length + 1) := ⟨_, rfl⟩
  have hlast : ∀ (i : Nat) b, (b0 :: bs)[i]? = some b → i < bs.length + 1 := by
    intro i b hb
    obtain ⟨h, _⟩ := List.getElem?_eq_some_iff.1 hb
    simpa using h
  have find : ∀ n a, lookup q.vars n = some a → ∃ a', lookup r.vars n = some a' ∧ Squeezed a a' := by
    intro n a ha
    obtain ⟨w, hw, hw1, hw2⟩ := forall₂_mem_left hr2 (lookup_mem ha)
    exact ⟨w.2, by rw [show n = w.1 from hw1.symm]; exact mem_lookup hrn hw, hw2⟩
  refine ⟨r, by simp only [merge, hq, hr1], by rw [hkeys]; exact hm.names, ?_, ?_, ?_⟩
  · intro k hk
    obtain ⟨a, h1, h2, h3, h4⟩ := hm.parts k hk
    obtain ⟨a', h1', hs⟩ := find k a h1
    rw [List.length_cons] at h2 h3
    rw [← hidx] at h2 ⊢
    refine ⟨a', h1', ?_, ?_⟩
    · rw [hs.dims, h2, h3]
      by_cases hb : bs = []
      · subst hb; simp
      · have : bs.length ≠ 0 := by simpa using hb
        simp [hb]
    · intro i b d x hb hd hp hx c hc
      rw [hs.elems c]
      · rw [at_, h2, List.map_cons, List.map_nil, hc]
        exact h4 i b d x hb hd hp hx
      · intro e he
        rw [h2, h3] at he
        simp only [List.zip_cons_cons, List.zip_nil_left, List.mem_singleton, Prod.mk.injEq] at he
        rw [he.1, hc]
        have := hlast i b hb
        omega
  · intro n x0 hx0
    obtain ⟨a, h1, h2, h3, h4, h5, h6⟩ := hm.vars n x0 hx0
    obtain ⟨a', h1', hs⟩ := find n a h1
    have hmem := lookup_mem hx0
    have hw0 := hu.wf b0 (by simp) _ hmem
    rw [List.length_cons] at h2 h4 h6
    have hpz := placed_zip (blockIndex ofIdx (bs.length + 1)) (bs.length + 1) x0 a hw0.1
      (by
        rw [List.map_cons, List.nodup_cons]
        refine ⟨fun hc => ?_, hw0.2⟩
        obtain ⟨d, hd, he⟩ := List.mem_map.1 hc
        exact (hu.dims b0 (by simp) _ hmem d hd).2 he)
      h3 h2 h4 h5
    refine ⟨a', h1', hs.wf, ?_, ?_⟩
    · rw [← hpz, hs.dims, hs.shape]
      have : ∀ (ds : List (Dim β)) (sh : List Nat), ds.length = sh.length →
          (((ds.zip sh).filter fun p => p.2 ≠ 1).map Prod.fst).zip (sh.filter (· ≠ 1)) =
            (ds.zip sh).filter fun p => p.2 ≠ 1 := by
        intro ds
        induction ds with
        | nil => intro sh _; simp
        | cons d t ih =>
          intro sh hl
          cases sh with
          | nil => simp at hl
          | cons s u =>
            have := ih u (by simpa using hl)
            by_cases hs : s = 1
            · rw [List.zip_cons_cons, List.filter_cons_of_neg (by simpa using hs),
                List.filter_cons_of_neg (by simpa using hs)]
              exact this
            · rw [List.zip_cons_cons, List.filter_cons_of_pos (by simpa using hs),
                List.filter_cons_of_pos (by simpa using hs), List.map_cons, List.zip_cons_cons, this]
      exact this _ _ h3
    · intro i b x hb hx c hc h0
      rw [hs.elems c, h6 i b x hb hx c hc]
      intro e he
      rw [hpz] at he
      rcases (placed_mem _ _ _).1 he with h | h
      · simp only [Prod.mk.injEq] at h
        rw [h.1, hc]
        have := hlast i b hb
        omega
      · exact h0 e h
  · intro n d hd hnk hni
    rw [hr3, hm.ivars n d hd hnk hni]
    rfl

/-- C48: the new sweep is known to the merged block under the name `INDEX1`, also if there was
only one block and no variable has it, and names of variables and sweeps stay apart. -/
theorem C48_sweep (env : Env β α) (ofIdx : Nat → β) (en : Enum String) (ks vs : List String)
    (b0 : Block β α) (bs : List (Block β α)) (hks : ks ≠ []) (hu : Uniform ks vs (b0 :: bs))
    (r : Block β α) (hr : merge env ofIdx en (b0 :: bs) = .ok r) :
    lookup r.ivars "INDEX1" = some (blockIndex ofIdx (bs.length + 1)) ∧
      ∀ n ∈ ks ++ vs, lookup r.ivars n = none := by
  obtain ⟨q, hq, hm⟩ := merge_core env ofIdx en ks vs b0 bs hks hu
  obtain ⟨r', hr1, hr2, hr3⟩ := C49_block env q hm.orderly
  simp only [merge, hq, hr1, Except.ok.injEq] at hr
  subst hr
  refine ⟨by rw [hr3, hm.index]; rfl, fun n hn => ?_⟩
  obtain ⟨p, hp, rfl⟩ := List.mem_map.1 (hm.names.mem_iff.2 hn : n ∈ q.vars.map Prod.fst)
  rw [hr3, (lookup_none_iff' _ _).2 (hm.orderly.apart p hp), List.find?_eq_none.2]
  · rfl
  · intro d hd
    obtain ⟨w, hw, hwd⟩ := List.mem_flatMap.1 hd
    obtain ⟨p', hp', _, hs⟩ := forall₂_mem_right hr2 hw
    simpa using hm.orderly.dims p hp p' hp' d (hs.mem hwd)

theorem collect_some (env : Env β α) (n : String) (bs : List (Block β α))
    (h : ∀ b ∈ bs, ∀ p ∈ b.vars, p.1 ∉ b.ivars.map Prod.fst)
    (h' : ∀ b ∈ bs, n ∈ keys b.ivars → n ∈ keys b.vars) :
    ∃ l, collect env n bs = .ok l ∧ (∀ v ∈ l, ∃ b ∈ bs, (n, v) ∈ b.vars) ∧
      ((∃ b ∈ bs, n ∈ keys b.vars) → l ≠ []) := by
  induction bs with
  | nil => exact ⟨[], rfl, by simp, by simp⟩
  | cons b t ih =>
    obtain ⟨l, h1, h2, h3⟩ := ih (fun b hb => h b (by simp [hb])) (fun b hb => h' b (by simp [hb]))
    by_cases hn : n ∈ keys b.vars
    · obtain ⟨v, hv⟩ := Option.isSome_iff_exists.1 ((lookup_isSome_iff _ _).2 hn)
      have hni : lookup b.ivars n = none :=
        (lookup_none_iff' _ _).2 (h b (by simp) _ (lookup_mem hv))
      have hc : contains b n = true := by simp [contains, (member_iff _ _).2 hn]
      refine ⟨v :: l, by simp only [collect, hc, if_true, getitem, hni, hv, h1], ?_, by simp⟩
      intro u hu
      rcases List.mem_cons.1 hu with rfl | hu
      · exact ⟨b, by simp, lookup_mem hv⟩
      · obtain ⟨b', hb', h⟩ := h2 u hu
        exact ⟨b', by simp [hb'], h⟩
    · have hc : contains b n = false := by
        rw [Bool.eq_false_iff]
        intro hc
        simp only [contains, Bool.or_eq_true, member_iff] at hc
        rcases hc with hc | hc
        · exact hn hc
        · exact hn (h' b (by simp) hc)
      refine ⟨l, by simp only [collect, hc, Bool.false_eq_true, if_false, h1], ?_, ?_⟩
      · intro u hu
        obtain ⟨b', hb', h⟩ := h2 u hu
        exact ⟨b', by simp [hb'], h⟩
      · rintro ⟨b', hb', hm⟩
        rcases List.mem_cons.1 hb' with rfl | hb'
        · exact absurd hm hn
        · exact h3 ⟨b', hb', hm⟩

/-- C48 fails without partial sweeps: blocks of which none has a partial sweep, but one has a
variable, cannot be merged at all. -/
theorem C48_no_partials_refuted (env : Env β α) (ofIdx : Nat → β) (en : Enum String)
    (blocks : List (Block β α)) (hne : ∃ b ∈ blocks, b.vars ≠ [])
    (hp : ∀ b ∈ blocks, ∀ p ∈ b.ivars, p.2.isa .dimPartial = false)
    (hwf : ∀ b ∈ blocks, ∀ p ∈ b.vars, p.2.WF)
    (hap : ∀ b ∈ blocks, ∀ b' ∈ blocks, ∀ p ∈ b.vars, p.1 ∉ b'.ivars.map Prod.fst) :
    merge env ofIdx en blocks = .error .valueError := by
  have hpk : ∀ b ∈ blocks, partials b = [] := by
    intro b hb
    rw [partials, List.filter_eq_nil_iff]
    intro p hpm
    rw [hp b hb p hpm]
    simp
  obtain ⟨b0, bs, rfl⟩ : ∃ b0 bs, blocks = b0 :: bs := by
    cases blocks with
    | nil => simp at hne
    | cons a t => exact ⟨a, t, rfl⟩
  obtain ⟨g, hg1, hg2, _⟩ := groups_uniform [] (by simp) b0 bs (by rw [hpk b0 (by simp)]; rfl)
    (fun b hb => by rw [hpk b (by simp [hb])]; rfl)
  have hg : g = [] := List.map_eq_nil_iff.1 hg2
  subst hg
  obtain ⟨ns, hns⟩ : ∃ ns, ns = en.f ((b0 :: bs).flatMap fun b => keys b.vars).dedup := ⟨_, rfl⟩
  have hnsp := en.perm ((b0 :: bs).flatMap fun b => keys b.vars).dedup
  rw [← hns] at hnsp
  cases hnc : ns with
  | nil =>
    rw [hnc] at hnsp
    obtain ⟨b, hb, hv⟩ := hne
    have h1 : ((b0 :: bs).flatMap fun b => keys b.vars) = [] := by
      simpa using hnsp.symm.eq_nil
    rw [List.flatMap_eq_nil_iff] at h1
    exact absurd (List.map_eq_nil_iff.1 (h1 b hb)) hv
  | cons n t =>
    have hn : ∃ b ∈ b0 :: bs, n ∈ keys b.vars := by
      have : n ∈ ns := by rw [hnc]; simp
      rw [hnsp.mem_iff, List.mem_dedup, List.mem_flatMap] at this
      exact this
    obtain ⟨l, hl1, hl2, hl3⟩ := collect_some env n (b0 :: bs) (fun b hb => hap b hb b hb) (by
      intro b hb hc
      obtain ⟨b', hb', hn'⟩ := hn
      obtain ⟨p, hpm, rfl⟩ := List.mem_map.1 hn'
      exact absurd hc (hap b' hb' b hb p hpm))
    cases l with
    | nil => exact absurd rfl (hl3 hn)
    | cons v0 vs =>
      obtain ⟨b, hb, hv⟩ := hl2 v0 (by simp)
      have hw := hwf b hb _ hv
      have hri : ∀ db, indexDims env db n (b0 :: bs) = .ok [] := by
        intro db
        unfold indexDims
        cases hf : ((b0 :: bs).filter fun b => contains b n).getLast? with
        | none => rfl
        | some b =>
          have hbm := (List.mem_filter.1 (List.mem_of_getLast? hf)).1
          simp only [hpk b hbm]
      have hst : ofArr (stack ([] ++ v0.dims) v0 vs) = .error .valueError := by
        unfold stack
        split
        · rw [mk?, if_neg]
          · rfl
          · simp only [Nd.ndim, List.length_cons, List.nil_append]
            have : v0.dims.length = v0.nd.shape.length := hw
            omega
        · rfl
      have hmv : ∀ db, mergeVar env db (b0 :: bs) n = .error .valueError := by
        intro db
        simp only [mergeVar, hl1, hri db, hst]
      simp only [merge, mergeUnsqueezed, hg1, List.map_cons, List.map_nil, putGroups, putIndexVars,
        ← hns, hnc, mergeVars, hmv]

end HF.Merge
