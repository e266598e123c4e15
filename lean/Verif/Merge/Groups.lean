import Verif.Merge.GroupsLemmas
import Verif.Merge.Core
import Mathlib.Data.List.Forall2
/-
Merging blocks in several families, up to the final `squeeze`.
-/
namespace HF.Merge

open HF.DataDict.Spec
open HF.DataDict hiding rename delitem
open HF.DataBlock
open HF.Arr hiding Err ofNd getitem

variable {β α : Type} [DecidableEq β]

/-- What the merged block, before `squeeze`, has of one family. -/
structure MergedFamily (env : Env β α) (ofIdx : Nat → β) (j : Nat) (ks : List String) (b0 : Block β α)
    (blocks : List (Block β α)) (r : Block β α) : Prop where
  parts : ∀ k ∈ ks, ∃ a, lookup r.vars k = some a ∧ a.dims = [familyIndex ofIdx j blocks.length] ∧
    a.nd.shape = [blocks.length] ∧
    ∀ (i : Nat) b d x, blocks[i]? = some b → (k, d) ∈ b.ivars → d.isa .dimPartial = true →
      d.data.head? = some x → a.nd.get [i] = env.toVal x
  vars : ∀ n x0, lookup b0.vars n = some x0 → ∃ a, lookup r.vars n = some a ∧
    a.dims = withIndex (familyIndex ofIdx j blocks.length) x0.dims ∧ a.WF ∧
    a.axisLen (familyIndex ofIdx j blocks.length).key = some blocks.length ∧
    (∀ e m, (e, m) ∈ x0.dims.zip x0.nd.shape → a.axisLen e.key = some m) ∧
    ∀ (i : Nat) b x, blocks[i]? = some b → lookup b.vars n = some x →
      ∀ c, c (familyIndex ofIdx j blocks.length).key = i →
        a.at_ c = x.nd.get (x0.dims.map fun d => c d.key)

theorem flatMap_unique {δ ε : Type} {l : List δ} {f : δ → List ε} (h : (l.flatMap f).Nodup)
    {i j : Nat} {a b : δ} {x : ε} (ha : l[i]? = some a) (hb : l[j]? = some b)
    (hx : x ∈ f a) (hy : x ∈ f b) : i = j := by
  have hp := (List.nodup_flatMap.1 h).2
  rw [List.pairwise_iff_getElem] at hp
  obtain ⟨hi, rfl⟩ := List.getElem?_eq_some_iff.1 ha
  obtain ⟨hj, rfl⟩ := List.getElem?_eq_some_iff.1 hb
  rcases Nat.lt_trichotomy i j with h | h | h
  · exact absurd hy (hp i j hi hj h hx)
  · exact h
  · exact absurd hx (hp j i hj hi h hy)

theorem merge_families (env : Env β α) (ofIdx : Nat → β) (en : Enum String)
    (gs : List (List String × List String)) (blocks : List (Block β α)) (hu : Families gs blocks) :
    ∃ r, mergeUnsqueezed env ofIdx en blocks = .ok r ∧
      (keys r.vars).Perm (gs.flatMap Prod.fst ++ gs.flatMap Prod.snd) ∧ Orderly r ∧
      (∀ n d, lookup (blocks.flatMap fun b => b.ivars) n = some d → n ∉ gs.flatMap Prod.fst →
        (∀ i < gs.length, n ≠ familyName i) → lookup r.ivars n = some d) ∧
      ∀ (j : Nat) ks vs b0 bs, gs[j]? = some (ks, vs) → family ks blocks = b0 :: bs →
        MergedFamily env ofIdx j ks b0 (b0 :: bs) r := by
  obtain ⟨KS, hKS⟩ : ∃ KS, KS = gs.flatMap Prod.fst := ⟨_, rfl⟩
  obtain ⟨VS, hVS⟩ : ∃ VS, VS = gs.flatMap Prod.snd := ⟨_, rfl⟩
  have huN := hu.nodup
  have huD := hu.dims
  have huI := hu.index
  have huE := hu.elems
  have huA := hu.apart
  rw [← hKS, ← hVS] at huN huD huI huE ⊢
  rw [← hVS] at huA
  have hKSn : KS.Nodup := (List.nodup_append.1 huN).1
  have hVSn : VS.Nodup := (List.nodup_append.1 huN).2.1
  have hdis : ∀ k ∈ KS, k ∉ VS := fun k hk hv => (List.nodup_append.1 huN).2.2 k hk k hv rfl
  -- every block is in a family
  have hgs : ∀ b ∈ blocks, ∃ (j : Nat) (vs : List String), gs[j]? = some (partNames b, vs) := by
    intro b hb
    have : partNames b ∈ gs.map Prod.fst := by
      rw [hu.order, List.mem_eraseDups]; exact List.mem_map_of_mem hb
    obtain ⟨g, hg, he⟩ := List.mem_map.1 this
    obtain ⟨j, hj⟩ := List.mem_iff_getElem?.1 hg
    exact ⟨j, g.2, by rw [hj, ← he]⟩
  have hmk : ∀ g ∈ gs, ∀ k ∈ g.1, k ∈ KS := fun g hg k hk => by
    rw [hKS]; exact List.mem_flatMap.2 ⟨g, hg, hk⟩
  have hmv : ∀ g ∈ gs, ∀ k ∈ g.2, k ∈ VS := fun g hg k hk => by
    rw [hVS]; exact List.mem_flatMap.2 ⟨g, hg, hk⟩
  have hpn : ∀ g ∈ gs, g.1.Nodup := fun g hg => by
    rw [hKS] at hKSn; exact (List.nodup_flatMap.1 hKSn).1 g hg
  have hbn : ∀ b ∈ blocks, (partNames b).Nodup := by
    intro b hb
    obtain ⟨j, vs, h⟩ := hgs b hb
    exact hpn _ (List.mem_of_getElem? h)
  have hfam : ∀ g ∈ gs, ∃ b0 bs, family g.1 blocks = b0 :: bs := by
    intro g hg
    have : g.1 ∈ gs.map Prod.fst := List.mem_map_of_mem hg
    rw [hu.order, List.mem_eraseDups] at this
    obtain ⟨b, hb, he⟩ := List.mem_map.1 this
    have hm : b ∈ family g.1 blocks := List.mem_filter.2 ⟨hb, by simpa using he⟩
    cases hf : family g.1 blocks with
    | nil => rw [hf] at hm; simp at hm
    | cons b0 bs => exact ⟨b0, bs, rfl⟩
  have hfm : ∀ {ks : List String} {b : Block β α}, b ∈ family ks blocks → b ∈ blocks ∧ partNames b = ks := by
    intro ks b hb
    have := List.mem_filter.1 hb
    exact ⟨this.1, by simpa using this.2⟩
  have hlen : ∀ (j : Nat) g, gs[j]? = some g → j < gs.length := fun j g h =>
    (List.getElem?_eq_some_iff.1 h).1
  -- the groups of the code
  have hgk : (groups blocks).map Prod.fst = gs.map Prod.fst := by rw [groups_keys, hu.order]
  have hgl := groups_look blocks hbn
  -- the index variables
  have hR : ∀ p ∈ ((groups blocks).map Prod.snd).zipIdx 1, ∃ ws : List (String × Arr β α),
      (∀ db, putIndexVars env ofIdx p.2 db p.1 = writes env db ws) ∧
      ∃ (j : Nat) (g : List String × List String), p.2 = j + 1 ∧ gs[j]? = some g ∧ keys ws = g.1 ∧
        ∀ w ∈ ws, w.2.dims = [familyIndex ofIdx j (family g.1 blocks).length] ∧
          w.2.nd.shape = [(family g.1 blocks).length] ∧
          ∀ (i : Nat) b d x, (family g.1 blocks)[i]? = some b → partialOf b w.1 = some d →
            d.data.head? = some x → w.2.nd.get [i] = env.toVal x := by
    rintro ⟨G, m⟩ hp
    rw [List.mk_mem_zipIdx_iff_le_and_getElem?_sub] at hp
    obtain ⟨hm, hp⟩ := hp
    obtain ⟨j, rfl⟩ : ∃ j, m = j + 1 := ⟨m - 1, by omega⟩
    rw [Nat.add_sub_cancel, List.getElem?_map] at hp
    obtain ⟨q, hq, hqG⟩ := Option.map_eq_some_iff.1 hp
    subst hqG
    have hqf : (gs.map Prod.fst)[j]? = some q.1 := by rw [← hgk, List.getElem?_map, hq]; rfl
    rw [List.getElem?_map] at hqf
    obtain ⟨g, hg, hgq⟩ := Option.map_eq_some_iff.1 hqf
    obtain ⟨hq1, hq2⟩ := hgl q (List.mem_of_getElem? hq)
    rw [← hgq] at hq1 hq2
    have hgm := List.mem_of_getElem? hg
    obtain ⟨ws, hws⟩ := forall₂_choose (l := q.2)
      (R := fun p (w : String × Arr β α) => p.1 = w.1 ∧ indexVar env ofIdx (j + 1) p.2 = .ok w.2 ∧
        w.2.dims = [familyIndex ofIdx j (family g.1 blocks).length] ∧
        w.2.nd.shape = [(family g.1 blocks).length] ∧
        ∀ (i : Nat) b d x, (family g.1 blocks)[i]? = some b → partialOf b p.1 = some d → d.data.head? = some x →
          w.2.nd.get [i] = env.toVal x)
      (fun p hp => by
        have hpk' : p.1 ∈ g.1 := hq1 ▸ List.mem_map_of_mem hp
        have hl := mem_lookup (show (keys q.2).Nodup from hq1.symm ▸ hpn g hgm) hp
        rw [hq2 _ hpk'] at hl
        have hl' := Option.some.inj hl
        obtain ⟨e1, e2⟩ := filterMap_all (fun b => partialOf b p.1) (family g.1 blocks)
          (fun b hb => partialOf_some b _ (by rw [(hfm hb).2]; exact hpk'))
        rw [hl'] at e1 e2
        obtain ⟨a, h1, h2, h3, h4⟩ := indexVar_spec env ofIdx (j + 1) p.2 (by
          intro d hd
          rw [← hl'] at hd
          obtain ⟨b, hb, hbd⟩ := List.mem_filterMap.1 hd
          have := List.mem_filter.1 (lookup_mem hbd)
          exact hu.vals b (hfm hb).1 _ this.1 this.2)
        refine ⟨(p.1, a), rfl, h1, by rw [h2, e1]; rfl, by rw [h3, e1], ?_⟩
        intro i b d x hb hd hx
        exact h4 i d x (by rw [e2 i b hb]; exact hd) hx)
    refine ⟨ws, putIndexVars_writes env ofIdx (j + 1) q.2 ws (hws.imp fun p w h => ⟨h.1, h.2.1⟩), j, g, rfl, hg,
      by rw [keys_of_forall₂ hws fun p w h => h.1]; exact hq1, ?_⟩
    intro w hw
    obtain ⟨p, _, h1, _, h2⟩ := forall₂_mem_right hws hw
    rw [h1] at h2
    exact h2
  obtain ⟨wss, hwss⟩ := forall₂_choose hR
  obtain ⟨ws1, hws1⟩ : ∃ ws1, ws1 = wss.flatten := ⟨_, rfl⟩
  have hput := putGroups_writes env ofIdx _ 1 wss (hwss.imp fun p w h => h.1)
  rw [← hws1] at hput
  have hk1 : keys ws1 = KS := by
    have e : wss.map keys = gs.map Prod.fst := by
      rw [List.forall₂_iff_get] at hwss
      obtain ⟨h1, h2⟩ := hwss
      have hl : wss.length = gs.length := by
        rw [← h1, List.length_zipIdx, List.length_map, ← List.length_map (as := groups blocks) Prod.fst, hgk,
          List.length_map]
      refine List.ext_getElem (by simp [hl]) fun i hi hi' => ?_
      simp only [List.length_map] at hi hi'
      obtain ⟨_, j, g, hj, hg, hk, _⟩ := h2 i (by rw [h1]; exact hi) hi
      simp only [List.get_eq_getElem, List.getElem_zipIdx] at hj hk
      obtain rfl : i = j := by omega
      rw [List.getElem_map, List.getElem_map, hk]
      rw [List.getElem?_eq_getElem hi'] at hg
      rw [Option.some.inj hg]
    rw [hws1, hKS, List.flatMap, ← e]
    simp only [keys, List.map_flatten]
  have hw1 : ∀ w ∈ ws1, ∃ (j : Nat) (g : List String × List String), gs[j]? = some g ∧ w.1 ∈ g.1 ∧
      w.2.dims = [familyIndex ofIdx j (family g.1 blocks).length] ∧
      w.2.nd.shape = [(family g.1 blocks).length] ∧
      ∀ (i : Nat) b d x, (family g.1 blocks)[i]? = some b → partialOf b w.1 = some d →
        d.data.head? = some x → w.2.nd.get [i] = env.toVal x := by
    intro w hw
    rw [hws1] at hw
    obtain ⟨ws, hws, hw⟩ := List.mem_flatten.1 hw
    obtain ⟨p, _, _, j, g, _, hg, hk, h⟩ := forall₂_mem_right hwss hws
    exact ⟨j, g, hg, hk ▸ List.mem_map_of_mem hw, h w hw⟩
  have hd1 : ∀ w ∈ ws1, ∀ d ∈ w.2.dims, ∃ j < gs.length, d.name = familyName j := by
    intro w hw d hd
    obtain ⟨j, g, hg, _, h, _⟩ := hw1 w hw
    rw [h] at hd
    exact ⟨j, hlen j g hg, by rw [List.mem_singleton.1 hd]; rfl⟩
  have hmemk : ∀ w ∈ ws1, w.1 ∈ KS := fun w hw => hk1 ▸ List.mem_map_of_mem hw
  obtain ⟨db1, hb1, hb2, hb3⟩ := writes_new env ws1 ({} : Block β α) (fun w _ h => by simp [keys] at h)
    (fun w hw w' hw' d hd he => by
      obtain ⟨j, hj, hn⟩ := hd1 w' hw' d hd
      exact huI j hj (List.mem_append_left _ (by rw [← hn, he]; exact hmemk w hw)))
    (fun w hw m i j hm => ⟨by simp [keys], fun hc => huE w.1
      (List.mem_append_left _ (hmemk w hw)) m i j hm (List.mem_append_left _ (hk1 ▸ hc))⟩)
    (by simpa [keys] using (hk1.symm ▸ hKSn : (keys ws1).Nodup))
  have hb2' : db1.vars = ws1 := by rw [hb2]; rfl
  -- all dims of the blocks
  obtain ⟨db2, hdb2⟩ : ∃ db2, db2 = blocks.foldl (fun db b => addIvars db b.ivars) db1 := ⟨_, rfl⟩
  obtain ⟨ha1, ha2⟩ := addAllIvars_spec blocks db1
  rw [← hdb2, hb2'] at ha1
  rw [← hdb2, hb2'] at ha2
  have hiv : ∀ n, n ∈ keys db2.ivars → (∃ j < gs.length, n = familyName j) ∨
      ∃ b ∈ blocks, n ∈ keys b.ivars ∧ n ∉ KS := by
    intro n hn
    rcases ha2 n hn with h | h
    · left
      rw [hb3] at h
      rcases (mem_keys_addDims _ _ _).1 h with h | ⟨d, hd, h⟩
      · simp [keys] at h
      · obtain ⟨w, hw, hwd⟩ := List.mem_flatMap.1 hd
        obtain ⟨j, hj, e⟩ := hd1 w hw d hwd
        exact ⟨j, hj, by rw [← h, e]⟩
    · obtain ⟨b, hb, h1, h2⟩ := h
      exact Or.inr ⟨b, hb, h1, hk1 ▸ h2⟩
  -- the names of the variables
  obtain ⟨ns, hns⟩ : ∃ ns, ns = en.f (blocks.flatMap fun b => keys b.vars).dedup := ⟨_, rfl⟩
  have hnsp := en.perm (blocks.flatMap fun b => keys b.vars).dedup
  rw [← hns] at hnsp
  have hnsn : ns.Nodup := hnsp.nodup_iff.2 (List.nodup_dedup _)
  have hnsm : ∀ n, n ∈ ns ↔ n ∈ VS := by
    intro n
    rw [hnsp.mem_iff, List.mem_dedup, List.mem_flatMap]
    constructor
    · rintro ⟨b, hb, h⟩
      obtain ⟨j, vs, hj⟩ := hgs b hb
      exact hmv _ (List.mem_of_getElem? hj) _ ((hu.vars _ (List.mem_of_getElem? hj) b hb rfl n).1 h)
    · intro h
      rw [hVS] at h
      obtain ⟨g, hg, hn⟩ := List.mem_flatMap.1 h
      obtain ⟨b0, bs, hf⟩ := hfam g hg
      have hb0 := hfm (show b0 ∈ family g.1 blocks by rw [hf]; simp)
      exact ⟨b0, hb0.1, (hu.vars g hg b0 hb0.1 hb0.2 n).2 hn⟩
  -- the blocks which have a variable
  have hhas : ∀ (j : Nat) g, gs[j]? = some g → ∀ n ∈ g.2,
      (blocks.filter fun b => contains b n) = family g.1 blocks := by
    intro j g hg n hn
    have hgm := List.mem_of_getElem? hg
    apply List.filter_congr
    intro b hb
    rw [Bool.eq_iff_iff, decide_eq_true_eq]
    have hnv := hmv g hgm n hn
    constructor
    · intro h
      simp only [contains, Bool.or_eq_true, member_iff] at h
      rcases h with h | h
      · obtain ⟨j', vs', hj'⟩ := hgs b hb
        have h' := (hu.vars _ (List.mem_of_getElem? hj') b hb rfl n).1 h
        have : j = j' := flatMap_unique (f := Prod.snd) (by rw [← hVS]; exact hVSn) hg hj' hn h'
        subst this
        rw [hg] at hj'
        rw [Option.some.inj hj']
      · exact absurd h (huA b hb n hnv)
    · intro h
      have := (hu.vars g hgm b hb h n).2 hn
      simp [contains, (member_iff _ _).2 this]
  -- the arrays of the variables
  obtain ⟨ws2, hws2⟩ := forall₂_choose (l := ns)
    (R := fun n (w : String × Arr β α) => n = w.1 ∧ (∃ p ∈ ws1, ∀ db, getitem env db p.1 = .ok p.2 →
        mergeVar env db blocks n = done (setArr env db n w.2)) ∧
      ∃ (j : Nat) (g : List String × List String) (b0 : Block β α) (bs : List (Block β α)) (x0 : Arr β α),
        gs[j]? = some g ∧ n ∈ g.2 ∧ family g.1 blocks = b0 :: bs ∧
        lookup b0.vars n = some x0 ∧ w.2.dims = withIndex (familyIndex ofIdx j (b0 :: bs).length) x0.dims ∧
        w.2.WF ∧ w.2.axisLen (familyIndex ofIdx j (b0 :: bs).length).key = some (b0 :: bs).length ∧
        (∀ e m, (e, m) ∈ x0.dims.zip x0.nd.shape → w.2.axisLen e.key = some m) ∧
        ∀ (i : Nat) b x, (b0 :: bs)[i]? = some b → lookup b.vars n = some x →
          ∀ c, c (familyIndex ofIdx j (b0 :: bs).length).key = i →
            w.2.at_ c = x.nd.get (x0.dims.map fun d => c d.key))
    (fun n hn => by
      have hnv := (hnsm n).1 hn
      rw [hVS] at hnv
      obtain ⟨g, hgm, hng⟩ := List.mem_flatMap.1 hnv
      rw [← hVS] at hnv
      obtain ⟨j, hg⟩ := List.mem_iff_getElem?.1 hgm
      obtain ⟨b0, bs, hf⟩ := hfam g hgm
      have hbm : ∀ b ∈ b0 :: bs, b ∈ blocks ∧ partNames b = g.1 := fun b hb => hfm (hf ▸ hb)
      have hb0 := hbm b0 (by simp)
      obtain ⟨k0, kt, hk0⟩ : ∃ k0 kt, g.1 = k0 :: kt := by
        cases hc : g.1 with
        | nil => exact absurd hc (hu.nonempty g hgm)
        | cons a t => exact ⟨a, t, rfl⟩
      have hlook : ∀ b ∈ b0 :: bs, ∃ x, lookup b.vars n = some x := fun b hb =>
        Option.isSome_iff_exists.1 ((lookup_isSome_iff _ _).2
          ((hu.vars g hgm b (hbm b hb).1 (hbm b hb).2 n).2 hng))
      obtain ⟨x0, hx0⟩ := hlook b0 (by simp)
      have hf0 : (lookup b0.vars n).getD x0 = x0 := by rw [hx0]; rfl
      have hm0 := lookup_mem hx0
      -- the index variable
      obtain ⟨p0, hp0, hp0k⟩ : ∃ p0 ∈ ws1, p0.1 = k0 := by
        have : k0 ∈ keys ws1 := by rw [hk1]; exact hmk g hgm k0 (by rw [hk0]; simp)
        exact List.mem_map.1 this
      have hp0d : p0.2.dims = [familyIndex ofIdx j (b0 :: bs).length] := by
        obtain ⟨j', g', hg', hk', hd', _⟩ := hw1 p0 hp0
        have : j = j' := flatMap_unique (f := Prod.fst) (by rw [← hKS]; exact hKSn) hg hg'
          (by rw [hk0]; simp) (hp0k ▸ hk')
        subst this
        rw [hg] at hg'
        rw [hd', ← Option.some.inj hg', hf]
      obtain ⟨a, h1, h2, h3, h4, h5, h6⟩ := mergeVar_spec env (familyIndex ofIdx j (b0 :: bs).length) b0 bs n k0
        (fun b => (lookup b.vars n).getD x0)
        (fun b hb => by
          have := (hbm b hb).2
          rw [hk0] at this
          cases hp : partials b with
          | nil => simp only [partNames] at this; simp only [partials] at hp; rw [hp] at this; simp at this
          | cons p t =>
            simp only [partNames] at this; simp only [partials] at hp
            rw [hp] at this; simp only [List.map_cons, List.cons.injEq] at this
            exact ⟨p, t, rfl, this.1⟩)
        (fun b hb => ⟨huA b (hbm b hb).1 n hnv, by
          obtain ⟨x, hx⟩ := hlook b hb
          rw [hx]; rfl⟩)
        (fun b hb => by
          obtain ⟨x, hx⟩ := hlook b hb
          simp only [hx, hx0, Option.getD_some]
          exact hu.shape b (hbm b hb).1 b0 hb0.1 n x x0 hx hx0)
        (by simp only [hf0]; exact (hu.wf b0 hb0.1 _ hm0).1)
        (by simp only [hf0]; exact (hu.wf b0 hb0.1 _ hm0).2)
        (by simp only [hf0]; exact fun d hd => (huD b0 hb0.1 _ hm0 d hd).2 j (hlen j g hg))
      simp only [hf0] at h1 h4 h5
      refine ⟨(n, a), rfl, ⟨p0, hp0, fun db hdb => ?_⟩, j, g, b0, bs, x0, hg, hng, hf, hx0, h1, h2, by rw [h3]; rfl,
        h4, ?_⟩
      · rw [mergeVar_filter, hhas j g hg n hng, hf]
        exact h6 db p0.2 (hp0k ▸ hdb) hp0d
      · intro i b x hb hx c hc
        have := h5 i b hb c hc
        rw [hx] at this
        exact this)
  have hk2 : keys ws2 = ns := names_of_forall₂ hws2 fun n w h => h.1
  have hmemv : ∀ w ∈ ws2, w.1 ∈ VS := fun w hw => (hnsm _).1 (hk2 ▸ List.mem_map_of_mem hw)
  have hd2 : ∀ w ∈ ws2, ∀ d ∈ w.2.dims, d.name ∉ KS ++ VS := by
    intro w hw d hd
    obtain ⟨n, _, h⟩ := forall₂_mem_right hws2 hw
    obtain ⟨_, _, j, g, b0, bs, x0, hg, _, hf, hx0, hxd, _⟩ := h
    rw [hxd] at hd
    rcases (withIndex_mem _ _ _).1 hd with rfl | hd
    · exact huI j (hlen j g hg)
    · exact (huD b0 (hfm (show b0 ∈ family g.1 blocks by rw [hf]; simp)).1 _ (lookup_mem hx0) d hd).1
  have c1 : ∀ w ∈ ws2, w.1 ∉ keys db2.ivars := by
    intro w hw hc
    have hv := hmemv w hw
    rcases hiv _ hc with ⟨j, hj, h⟩ | ⟨b, hb, h, _⟩
    · exact huI j hj (h ▸ List.mem_append_right _ hv)
    · exact huA b hb _ hv h
  have c2 : ∀ w ∈ ws2, ∀ w' ∈ ws2, ∀ d ∈ w'.2.dims, d.name ≠ w.1 := by
    intro w hw w' hw' d hd he
    exact hd2 w' hw' d hd (he ▸ List.mem_append_right _ (hmemv w hw))
  have c3 : ∀ w ∈ ws2, ∀ m i j, isMatrixName w.1 = some (m, i, j) → m ∉ keys db2.vars ∧ m ∉ keys ws2 := by
    intro w hw m i j hm
    have := huE w.1 (List.mem_append_right _ (hmemv w hw)) m i j hm
    rw [List.mem_append, not_or] at this
    rw [ha1, hk1, hk2, hnsm]
    exact this
  have c4 : (keys db2.vars ++ keys ws2).Nodup := by
    rw [ha1, hk1, hk2, List.nodup_append]
    refine ⟨hKSn, hnsn, fun a ha b hb hab => ?_⟩
    subst hab
    exact hdis a ha ((hnsm a).1 hb)
  have hloop := mergeVars_writes env blocks ws1 ns ws2 (hws2.imp fun n w h => ⟨h.1, h.2.1⟩)
    db2 c1 c2 c3 c4
    (fun p hp => by rw [ha1]; exact mem_lookup (m := ws1) (hk1.symm ▸ hKSn : (keys ws1).Nodup) hp)
    (fun p hp hc => by
      rcases hiv _ hc with ⟨j, hj, h⟩ | ⟨b, hb, _, h⟩
      · exact huI j hj (h ▸ List.mem_append_left _ (hmemk p hp))
      · exact h (hmemk p hp))
    (fun p hp w hw d hd he => hd2 w hw d hd (he ▸ List.mem_append_left _ (hmemk p hp)))
  obtain ⟨r, hr1, hr2, hr3⟩ := writes_new env ws2 db2 c1 c2 c3 c4
  rw [ha1] at hr2
  have hkn : (keys r.vars).Nodup := by
    rw [hr2]
    simpa [keys, ha1] using c4
  have hmem : ∀ p ∈ r.vars, p.1 ∈ KS ++ VS := by
    intro p hp
    rw [hr2] at hp
    rcases List.mem_append.1 hp with hp | hp
    · exact List.mem_append_left _ (hmemk p hp)
    · exact List.mem_append_right _ (hmemv p hp)
  refine ⟨r, ?_, ?_, ⟨?_, hkn, ?_, ?_, ?_, ?_⟩, ?_, ?_⟩
  · simp only [mergeUnsqueezed, hput, hb1]
    rw [← hdb2, ← hns, hloop, hr1]
  · rw [hr2]
    have : keys (ws1 ++ ws2) = KS ++ ns := by
      simp only [keys, List.map_append]; exact congrArg₂ _ hk1 hk2
    rw [this]
    exact List.Perm.append_left _ ((List.perm_ext_iff_of_nodup hnsn hVSn).2 hnsm)
  · intro p hp
    rw [hr2] at hp
    rcases List.mem_append.1 hp with hp | hp
    · obtain ⟨_, _, _, _, h1, h2, _⟩ := hw1 p hp
      rw [WF, h1, h2]; rfl
    · obtain ⟨_, _, _, _, _, _, _, _, _, _, _, _, _, _, h, _⟩ := forall₂_mem_right hws2 hp
      exact h
  · show (keys r.ivars).Nodup
    rw [hr3, hdb2]
    exact keys_addDims_nodup _ _ (addAllIvars_nodup _ _ (by
      rw [hb3]; exact keys_addDims_nodup _ _ (by simp [keys])))
  · intro p hp hc
    have hc' : p.1 ∈ keys r.ivars := hc
    rw [hr3] at hc'
    have hpn := hmem p hp
    rcases (mem_keys_addDims _ _ _).1 hc' with h | ⟨d, hd, h⟩
    · rcases hiv _ h with ⟨j, hj, h⟩ | ⟨b, hb, h1, h2⟩
      · exact huI j hj (h ▸ hpn)
      · rcases List.mem_append.1 hpn with hpn | hpn
        · exact h2 hpn
        · exact huA b hb _ hpn h1
    · obtain ⟨w, hw, hwd⟩ := List.mem_flatMap.1 hd
      exact hd2 w hw d hwd (h ▸ hpn)
  · intro p hp p' hp' d hd he
    have hpn := hmem p hp
    rw [hr2] at hp'
    rcases List.mem_append.1 hp' with hp' | hp'
    · obtain ⟨j, hj, h⟩ := hd1 p' hp' d hd
      exact huI j hj (by rw [← h, he]; exact hpn)
    · exact hd2 p' hp' d hd (he ▸ hpn)
  · intro p hp m i j hm hc
    obtain ⟨p', hp', rfl⟩ := List.mem_map.1 hc
    exact huE p.1 (hmem p hp) _ i j hm (hmem p' hp')
  · intro n d hd hnk hni
    rw [hr3, lookup_addDims, hdb2, lookup_addAllIvars, hd, hb3,
      lookup_addDims, List.find?_eq_none.2, hb2', hk1, if_neg hnk]
    · rfl
    · intro e he
      obtain ⟨w, hw, hwd⟩ := List.mem_flatMap.1 he
      obtain ⟨j, hj, h⟩ := hd1 w hw e hwd
      rw [h]
      simpa using (hni j hj).symm
  · intro j ks vs b0 bs hg hf
    refine ⟨fun k hk => ?_, fun n x0 hx0 => ?_⟩
    · obtain ⟨w, hw, rfl⟩ := List.mem_map.1 (show k ∈ keys ws1 from
        hk1.symm ▸ hmk _ (List.mem_of_getElem? hg) k hk)
      obtain ⟨j', g', hg', hk', h1, h2, h3⟩ := hw1 w hw
      have : j = j' := flatMap_unique (f := Prod.fst) (by rw [← hKS]; exact hKSn) hg hg' hk hk'
      subst this
      rw [hg] at hg'
      obtain rfl := Option.some.inj hg'
      simp only [hf] at h1 h2 h3
      refine ⟨w.2, mem_lookup hkn (by rw [hr2]; exact List.mem_append_left _ hw), h1, h2, ?_⟩
      intro i b d x hb hd hpd hx
      refine h3 i b d x hb ?_ hx
      have hbm : b ∈ family ks blocks := by rw [hf]; exact List.mem_of_getElem? hb
      exact mem_lookup (m := partials b) (p := (w.1, d)) (hbn b (hfm hbm).1) (List.mem_filter.2 ⟨hd, hpd⟩)
    · have hb0 := hfm (show b0 ∈ family ks blocks by rw [hf]; simp)
      have hn : n ∈ vs := (hu.vars _ (List.mem_of_getElem? hg) b0 hb0.1 hb0.2 n).1
        ((lookup_isSome_iff _ _).1 (by rw [hx0]; rfl))
      obtain ⟨w, hw, h1, _, j', g', b0', bs', x0', hg', hn', hf', hx0', h2, h3, h4, h5, h6⟩ :=
        forall₂_mem_left hws2 ((hnsm n).2 (hmv _ (List.mem_of_getElem? hg) n hn))
      have : j = j' := flatMap_unique (f := Prod.snd) (by rw [← hVS]; exact hVSn) hg hg' hn hn'
      subst this
      rw [hg] at hg'
      obtain rfl := Option.some.inj hg'
      simp only [hf, List.cons.injEq] at hf'
      obtain ⟨rfl, rfl⟩ := hf'
      rw [hx0] at hx0'
      obtain rfl := Option.some.inj hx0'
      refine ⟨w.2, ?_, h2, h3, h4, h5, h6⟩
      rw [h1]
      exact mem_lookup hkn (by rw [hr2]; exact List.mem_append_right _ hw)

end HF.Merge
