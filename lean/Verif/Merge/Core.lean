import Verif.Merge.Index
import Verif.DataBlock.SqueezeProps
/-
Merging blocks with partial sweeps, up to the final `squeeze`.
-/
namespace HF.Merge

open HF.DataDict.Spec
open HF.DataDict hiding rename delitem
open HF.DataBlock
open HF.Arr hiding Err ofNd getitem

variable {β α : Type}

variable [DecidableEq β]

/-- The merged block before `squeeze`: block number `i` is found at index `i`. -/
structure Merged (env : Env β α) (ofIdx : Nat → β) (ks vs : List String) (b0 : Block β α)
    (blocks : List (Block β α)) (r : Block β α) : Prop where
  names : (keys r.vars).Perm (ks ++ vs)
  parts : ∀ k ∈ ks, ∃ a, lookup r.vars k = some a ∧ a.dims = [blockIndex ofIdx blocks.length] ∧
    a.nd.shape = [blocks.length] ∧
    ∀ (i : Nat) b d x, blocks[i]? = some b → (k, d) ∈ b.ivars → d.isa .dimPartial = true →
      d.data.head? = some x → a.nd.get [i] = env.toVal x
  ivars : ∀ n d, lookup b0.ivars n = some d → n ∉ ks → n ≠ "INDEX1" → lookup r.ivars n = some d
  orderly : Orderly r
  vars : ∀ n x0, lookup b0.vars n = some x0 → ∃ a, lookup r.vars n = some a ∧
    a.dims = withIndex (blockIndex ofIdx blocks.length) x0.dims ∧ a.WF ∧
    a.axisLen (blockIndex ofIdx blocks.length).key = some blocks.length ∧
    (∀ e m, (e, m) ∈ x0.dims.zip x0.nd.shape → a.axisLen e.key = some m) ∧
    ∀ (i : Nat) b x, blocks[i]? = some b → lookup b.vars n = some x →
      ∀ c, c (blockIndex ofIdx blocks.length).key = i →
        a.at_ c = x.nd.get (x0.dims.map fun d => c d.key)
  index : lookup r.ivars "INDEX1" = some (blockIndex ofIdx blocks.length)

theorem names_of_forall₂ {δ : Type} {R : String → String × δ → Prop}
    {l : List String} {m : List (String × δ)} (h : List.Forall₂ R l m)
    (hR : ∀ p w, R p w → p = w.1) : keys m = l := by
  induction h with
  | nil => rfl
  | cons hr _ ih =>
    simp only [keys, List.map_cons] at ih ⊢
    rw [ih, hR _ _ hr]

theorem merge_core (env : Env β α) (ofIdx : Nat → β) (en : Enum String) (ks vs : List String)
    (b0 : Block β α) (bs : List (Block β α)) (hks : ks ≠ []) (hu : Uniform ks vs (b0 :: bs)) :
    ∃ r, mergeUnsqueezed env ofIdx en (b0 :: bs) = .ok r ∧
      Merged env ofIdx ks vs b0 (b0 :: bs) r := by
  obtain ⟨k0, kt, rfl⟩ : ∃ k0 kt, ks = k0 :: kt := by
    cases ks with
    | nil => exact absurd rfl hks
    | cons a t => exact ⟨a, t, rfl⟩
  have hpk : ∀ b ∈ b0 :: bs, keys (partials b) = k0 :: kt := hu.parts
  have hksn : (k0 :: kt).Nodup := (List.nodup_append.1 hu.nodup).1
  have hvsn : vs.Nodup := (List.nodup_append.1 hu.nodup).2.1
  have hdis : ∀ k ∈ k0 :: kt, k ∉ vs := fun k hk hv => (List.nodup_append.1 hu.nodup).2.2 k hk k hv rfl
  obtain ⟨N, hN⟩ : ∃ N, N = (b0 :: bs).length := ⟨_, rfl⟩
  obtain ⟨idx, hidx⟩ : ∃ idx, idx = blockIndex ofIdx N := ⟨_, rfl⟩
  have hin : idx.name = "INDEX1" := by rw [hidx]; rfl
  -- the groups
  obtain ⟨g, hg1, hg2, hg3⟩ := groups_uniform (k0 :: kt) hksn b0 bs (hpk b0 (by simp))
    (fun b hb => hpk b (by simp [hb]))
  have hpo : ∀ k ∈ k0 :: kt, ∀ b ∈ b0 :: bs, ∃ d, partialOf b k = some d := by
    intro k hk b hb
    exact Option.isSome_iff_exists.1 ((lookup_isSome_iff _ _).2 ((hpk b hb) ▸ hk))
  obtain ⟨ws1, hws1⟩ := forall₂_choose (l := g)
    (R := fun p (w : String × Arr β α) => p.1 = w.1 ∧ indexVar env ofIdx 1 p.2 = .ok w.2 ∧
      w.2.dims = [idx] ∧ w.2.nd.shape = [N] ∧
      ∀ (i : Nat) b d x, (b0 :: bs)[i]? = some b → partialOf b p.1 = some d → d.data.head? = some x →
        w.2.nd.get [i] = env.toVal x)
    (fun p hp => by
      have hpk' : p.1 ∈ k0 :: kt := hg2 ▸ List.mem_map_of_mem hp
      have hl := mem_lookup (show (keys g).Nodup from hg2.symm ▸ hksn) hp
      rw [hg3 _ hpk'] at hl
      have hl' := Option.some.inj hl
      obtain ⟨e1, e2⟩ := filterMap_all (fun b => partialOf b p.1) (b0 :: bs) (hpo _ hpk')
      rw [hl'] at e1 e2
      obtain ⟨a, h1, h2, h3, h4⟩ := indexVar_spec env ofIdx 1 p.2 (by
        intro d hd
        rw [← hl'] at hd
        obtain ⟨b, hb, hbd⟩ := List.mem_filterMap.1 hd
        have := List.mem_filter.1 (lookup_mem hbd)
        exact hu.vals b hb _ this.1 this.2)
      refine ⟨(p.1, a), rfl, h1, by rw [h2, e1, hidx, hN]; rfl, by rw [h3, e1, hN], ?_⟩
      intro i b d x hb hd hx
      exact h4 i d x (by rw [e2 i b hb]; exact hd) hx)
  have hk1 : keys ws1 = k0 :: kt := by rw [keys_of_forall₂ hws1 fun p w h => h.1, hg2]
  have hd1 : ∀ w ∈ ws1, ∀ d ∈ w.2.dims, d = idx := by
    intro w hw d hd
    obtain ⟨p, _, h⟩ := forall₂_mem_right hws1 hw
    rw [h.2.2.1] at hd
    simpa using hd
  have hmemk : ∀ w ∈ ws1, w.1 ∈ k0 :: kt := fun w hw => hk1 ▸ List.mem_map_of_mem hw
  have hidxn : ∀ n ∈ (k0 :: kt) ++ vs, "INDEX1" ≠ n := by
    rintro n hn rfl
    exact hu.index hn
  obtain ⟨db1, hb1, hb2, hb3⟩ := writes_new env ws1 ({} : Block β α) (fun w _ h => by simp [keys] at h)
    (fun w hw w' hw' d hd => by
      rw [hd1 w' hw' d hd, hin]
      exact hidxn _ (List.mem_append_left _ (hmemk w hw)))
    (fun w hw m i j hm => ⟨by simp [keys], fun hc => hu.elems w.1
      (List.mem_append_left _ (hmemk w hw)) m i j hm (List.mem_append_left _ (hk1 ▸ hc))⟩)
    (by simpa [keys] using (hk1.symm ▸ hksn : (keys ws1).Nodup))
  have hb2' : db1.vars = ws1 := by rw [hb2]; rfl
  -- all dims of the blocks
  obtain ⟨db2, hdb2⟩ : ∃ db2, db2 = (b0 :: bs).foldl (fun db b => addIvars db b.ivars) db1 := ⟨_, rfl⟩
  obtain ⟨ha1, ha2⟩ := addAllIvars_spec (b0 :: bs) db1
  rw [← hdb2, hb2'] at ha1
  rw [← hdb2, hb2'] at ha2
  have hiv : ∀ n, n ∈ keys db2.ivars → n = "INDEX1" ∨ ∃ b ∈ b0 :: bs, n ∈ keys b.ivars ∧ n ∉ k0 :: kt := by
    intro n hn
    rcases ha2 n hn with h | h
    · left
      rw [hb3] at h
      rcases (mem_keys_addDims _ _ _).1 h with h | ⟨d, hd, h⟩
      · simp [keys] at h
      · obtain ⟨w, hw, hwd⟩ := List.mem_flatMap.1 hd
        rw [← h, hd1 w hw d hwd, hin]
    · obtain ⟨b, hb, h1, h2⟩ := h
      exact Or.inr ⟨b, hb, h1, hk1 ▸ h2⟩
  -- the names of the variables
  obtain ⟨ns, hns⟩ : ∃ ns, ns = en.f ((b0 :: bs).flatMap fun b => keys b.vars).dedup := ⟨_, rfl⟩
  have hnsp := en.perm ((b0 :: bs).flatMap fun b => keys b.vars).dedup
  rw [← hns] at hnsp
  have hnsn : ns.Nodup := hnsp.nodup_iff.2 (List.nodup_dedup _)
  have hnsm : ∀ n, n ∈ ns ↔ n ∈ vs := by
    intro n
    rw [hnsp.mem_iff, List.mem_dedup, List.mem_flatMap]
    constructor
    · rintro ⟨b, hb, h⟩; exact (hu.vars b hb n).1 h
    · intro h; exact ⟨b0, by simp, (hu.vars b0 (by simp) n).2 h⟩
  have hlook : ∀ n ∈ vs, ∀ b ∈ b0 :: bs, ∃ x, lookup b.vars n = some x := fun n hn b hb =>
    Option.isSome_iff_exists.1 ((lookup_isSome_iff _ _).2 ((hu.vars b hb n).2 hn))
  -- the index variable
  obtain ⟨a0, ha0, ha0d⟩ : ∃ a0, lookup ws1 k0 = some a0 ∧ a0.dims = [idx] := by
    have : k0 ∈ keys ws1 := by rw [hk1]; simp
    obtain ⟨a0, ha0⟩ := Option.isSome_iff_exists.1 ((lookup_isSome_iff _ _).2 this)
    obtain ⟨p, _, h⟩ := forall₂_mem_right hws1 (lookup_mem ha0)
    exact ⟨a0, ha0, h.2.2.1⟩
  obtain ⟨ws2, hws2⟩ := forall₂_choose (l := ns)
    (R := fun n (w : String × Arr β α) => n = w.1 ∧ (∀ db, getitem env db k0 = .ok a0 →
        mergeVar env db (b0 :: bs) n = done (setArr env db n w.2)) ∧
      ∃ x0, lookup b0.vars n = some x0 ∧ w.2.dims = withIndex idx x0.dims ∧ w.2.WF ∧
        w.2.axisLen idx.key = some N ∧
        (∀ e m, (e, m) ∈ x0.dims.zip x0.nd.shape → w.2.axisLen e.key = some m) ∧
        ∀ (i : Nat) b x, (b0 :: bs)[i]? = some b → lookup b.vars n = some x →
          ∀ c, c idx.key = i → w.2.at_ c = x.nd.get (x0.dims.map fun d => c d.key))
    (fun n hn => by
      have hnv := (hnsm n).1 hn
      obtain ⟨x0, hx0⟩ := hlook n hnv b0 (by simp)
      have hf0 : (lookup b0.vars n).getD x0 = x0 := by rw [hx0]; rfl
      have hm0 := lookup_mem hx0
      obtain ⟨a, h1, h2, h3, h4, h5, h6⟩ := mergeVar_spec env idx b0 bs n k0
        (fun b => (lookup b.vars n).getD x0)
        (fun b hb => by
          have := hpk b hb
          cases hp : partials b with
          | nil => rw [hp] at this; simp [keys] at this
          | cons p t => rw [hp] at this; simp only [keys, List.map_cons, List.cons.injEq] at this
                        exact ⟨p, t, rfl, this.1⟩)
        (fun b hb => ⟨hu.apart b hb n hnv, by
          obtain ⟨x, hx⟩ := hlook n hnv b hb
          rw [hx]; rfl⟩)
        (fun b hb => by
          obtain ⟨x, hx⟩ := hlook n hnv b hb
          simp only [hx, hx0, Option.getD_some]
          exact hu.shape b hb b0 (by simp) n x x0 hx hx0)
        (by simp only [hf0]; exact (hu.wf b0 (by simp) _ hm0).1)
        (by simp only [hf0]; exact (hu.wf b0 (by simp) _ hm0).2)
        (by simp only [hf0, hin]; exact fun d hd => (hu.dims b0 (by simp) _ hm0 d hd).2)
      simp only [hf0] at h1 h4 h5
      refine ⟨(n, a), rfl, fun db hdb => h6 db a0 hdb ha0d, x0, hx0, h1, h2, by rw [h3, hN]; rfl, h4, ?_⟩
      intro i b x hb hx c hc
      have := h5 i b hb c hc
      rw [hx] at this
      exact this)
  have hk2 : keys ws2 = ns := names_of_forall₂ hws2 fun n w h => h.1
  have hmemv : ∀ w ∈ ws2, w.1 ∈ vs := fun w hw => (hnsm _).1 (hk2 ▸ List.mem_map_of_mem hw)
  have hd2 : ∀ w ∈ ws2, ∀ d ∈ w.2.dims, d.name ∉ (k0 :: kt) ++ vs := by
    intro w hw d hd
    obtain ⟨n, _, h⟩ := forall₂_mem_right hws2 hw
    obtain ⟨_, _, x0, hx0, hxd, _⟩ := h
    rw [hxd] at hd
    rcases (withIndex_mem _ _ _).1 hd with rfl | hd
    · rw [hin]; exact hu.index
    · exact (hu.dims b0 (by simp) _ (lookup_mem hx0) d hd).1
  have c1 : ∀ w ∈ ws2, w.1 ∉ keys db2.ivars := by
    intro w hw hc
    have hv := hmemv w hw
    rcases hiv _ hc with h | ⟨b, hb, h, _⟩
    · exact hidxn _ (List.mem_append_right _ hv) h.symm
    · exact hu.apart b hb _ hv h
  have c2 : ∀ w ∈ ws2, ∀ w' ∈ ws2, ∀ d ∈ w'.2.dims, d.name ≠ w.1 := by
    intro w hw w' hw' d hd he
    exact hd2 w' hw' d hd (he ▸ List.mem_append_right _ (hmemv w hw))
  have c3 : ∀ w ∈ ws2, ∀ m i j, isMatrixName w.1 = some (m, i, j) → m ∉ keys db2.vars ∧ m ∉ keys ws2 := by
    intro w hw m i j hm
    have := hu.elems w.1 (List.mem_append_right _ (hmemv w hw)) m i j hm
    rw [List.mem_append, not_or] at this
    rw [ha1, hk1, hk2, hnsm]
    exact this
  have c4 : (keys db2.vars ++ keys ws2).Nodup := by
    rw [ha1, hk1, hk2, List.nodup_append]
    refine ⟨hksn, hnsn, fun a ha b hb hab => ?_⟩
    subst hab
    exact hdis a ha ((hnsm a).1 hb)
  have hloop := mergeVars_writes env (b0 :: bs) [(k0, a0)] ns ws2
    (hws2.imp fun n w h => ⟨h.1, _, List.mem_singleton_self _, h.2.1⟩)
    db2 c1 c2 c3 c4 (fun p hp => by rw [List.mem_singleton.1 hp, ha1]; exact ha0)
    (fun p hp hc => by
      rw [List.mem_singleton.1 hp] at hc
      rcases hiv _ hc with h | ⟨b, hb, _, h⟩
      · exact hidxn k0 (by simp) h.symm
      · exact h (by simp))
    (fun p hp w hw d hd he => hd2 w hw d hd (he ▸ by rw [List.mem_singleton.1 hp]; simp))
  obtain ⟨r, hr1, hr2, hr3⟩ := writes_new env ws2 db2 c1 c2 c3 c4
  rw [ha1] at hr2
  have hkn : (keys r.vars).Nodup := by
    rw [hr2]
    simpa [keys, ha1] using c4
  refine ⟨r, ?_, ?_, ?_, ?_, ⟨?_, hkn, ?_, ?_, ?_, ?_⟩, ?_, ?_⟩
  · have hput := putIndexVars_writes env ofIdx 1 g ws1 (hws1.imp fun p w h => ⟨h.1, h.2.1⟩)
    simp only [mergeUnsqueezed, hg1, List.map_cons, List.map_nil, putGroups, hput, hb1]
    rw [← hdb2, ← hns, hloop, hr1]
  · rw [hr2]
    have : keys (ws1 ++ ws2) = (k0 :: kt) ++ ns := by
      simp only [keys, List.map_append]; exact congrArg₂ _ hk1 hk2
    rw [this]
    exact List.Perm.append_left _ ((List.perm_ext_iff_of_nodup hnsn hvsn).2 hnsm)
  · intro k hk
    obtain ⟨p, hp, hpk1⟩ := List.mem_map.1 (show k ∈ keys g from hg2.symm ▸ hk)
    obtain ⟨w, hw, h1, h2, h3, h4, h5⟩ := forall₂_mem_left hws1 hp
    subst hpk1
    refine ⟨w.2, ?_, by rw [h3, hidx, hN], by rw [h4, hN], ?_⟩
    · rw [h1]
      exact mem_lookup hkn (by rw [hr2]; exact List.mem_append_left _ hw)
    · intro i b d x hb hd hpd hx
      refine h5 i b d x hb ?_ hx
      have hbm := List.mem_of_getElem? hb
      exact mem_lookup (m := partials b) (p := (p.1, d)) (by rw [show List.map Prod.fst (partials b) = _ from hpk b hbm]; exact hksn)
        (List.mem_filter.2 ⟨hd, hpd⟩)
  · intro n d hd hnk hni
    rw [hr3, lookup_addDims, hdb2, lookup_addAllIvars, List.flatMap_cons, lookup_append, hd, hb3,
      lookup_addDims, List.find?_eq_none.2, hb2', hk1, if_neg hnk]
    · rfl
    · intro e he
      obtain ⟨w, hw, hwd⟩ := List.mem_flatMap.1 he
      rw [hd1 w hw e hwd, hin]
      simpa using hni.symm
  · intro p hp
    rw [hr2] at hp
    rcases List.mem_append.1 hp with hp | hp
    · obtain ⟨_, _, _, _, h1, h2, _⟩ := forall₂_mem_right hws1 hp
      rw [WF, h1, h2]; rfl
    · obtain ⟨_, _, _, _, _, _, _, h, _⟩ := forall₂_mem_right hws2 hp
      exact h
  · show (keys r.ivars).Nodup
    rw [hr3, hdb2]
    exact keys_addDims_nodup _ _ (addAllIvars_nodup _ _ (by
      rw [hb3]; exact keys_addDims_nodup _ _ (by simp [keys])))
  · intro p hp hc
    have hc' : p.1 ∈ keys r.ivars := hc
    rw [hr3] at hc'
    have hpn : p.1 ∈ (k0 :: kt) ++ vs := by
      rw [hr2] at hp
      rcases List.mem_append.1 hp with hp | hp
      · exact List.mem_append_left _ (hmemk p hp)
      · exact List.mem_append_right _ (hmemv p hp)
    rcases (mem_keys_addDims _ _ _).1 hc' with h | ⟨d, hd, h⟩
    · rcases hiv _ h with h | ⟨b, hb, h1, h2⟩
      · exact hidxn _ hpn h.symm
      · rcases List.mem_append.1 hpn with hpn | hpn
        · exact h2 hpn
        · exact hu.apart b hb _ hpn h1
    · obtain ⟨w, hw, hwd⟩ := List.mem_flatMap.1 hd
      exact hd2 w hw d hwd (h ▸ hpn)
  · intro p hp p' hp' d hd he
    have hpn : p.1 ∈ (k0 :: kt) ++ vs := by
      rw [hr2] at hp
      rcases List.mem_append.1 hp with hp | hp
      · exact List.mem_append_left _ (hmemk p hp)
      · exact List.mem_append_right _ (hmemv p hp)
    rw [hr2] at hp'
    rcases List.mem_append.1 hp' with hp' | hp'
    · rw [hd1 p' hp' d hd, hin] at he
      exact hidxn _ hpn he
    · exact hd2 p' hp' d hd (he ▸ hpn)
  · intro p hp m i j hm hc
    have hk : ∀ n, n ∈ keys r.vars → n ∈ (k0 :: kt) ++ vs := by
      intro n hn
      rw [hr2] at hn
      simp only [keys, List.map_append, List.mem_append] at hn
      rcases hn with hn | hn
      · exact List.mem_append_left _ (hk1 ▸ hn)
      · exact List.mem_append_right _ ((hnsm n).1 (hk2 ▸ hn))
    exact hu.elems p.1 (hk _ (List.mem_map_of_mem hp)) m i j hm (hk _ hc)
  · intro n x0 hx0
    have hn : n ∈ vs := (hu.vars b0 (by simp) n).1 ((lookup_isSome_iff _ _).1 (by rw [hx0]; rfl))
    obtain ⟨w, hw, h1, _, x0', hx0', h2, h3, h4, h5, h6⟩ := forall₂_mem_left hws2 ((hnsm n).2 hn)
    rw [hx0] at hx0'
    obtain rfl := Option.some.inj hx0'
    rw [← hN, ← hidx]
    refine ⟨w.2, ?_, h2, h3, h4, h5, h6⟩
    rw [h1]
    exact mem_lookup hkn (by rw [hr2]; exact List.mem_append_right _ hw)
  · have hmem : idx ∈ ws1.flatMap fun w => w.2.dims :=
      List.mem_flatMap.2 ⟨(k0, a0), lookup_mem ha0, by rw [ha0d]; simp⟩
    have hfind : (ws1.flatMap fun w => w.2.dims).find? (fun d => d.name == "INDEX1") = some idx := by
      have hex : ((ws1.flatMap fun w => w.2.dims).find? (fun d => d.name == "INDEX1")).isSome = true :=
        List.find?_isSome.2 ⟨idx, hmem, by simp [hin]⟩
      obtain ⟨d, hd⟩ := Option.isSome_iff_exists.1 hex
      obtain ⟨w, hw, hwd⟩ := List.mem_flatMap.1 (List.mem_of_find?_eq_some hd)
      rw [hd, hd1 w hw d hwd]
    rw [hr3, lookup_addDims, hdb2, lookup_addAllIvars, hb3, lookup_addDims, hfind, hidx, hN]
    rfl

end HF.Merge
