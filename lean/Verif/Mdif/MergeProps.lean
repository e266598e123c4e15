import Verif.Mdif.MergeLemmas
import Verif.DataBlock.ConvertProps
/-
C67: blocks of the same name are put together.
-/
namespace HF.Mdif

open HF.DataDict.Spec HF.DataBlock
open HF.DataDict hiding rename delitem
open HF.Arr hiding Err ofNd getitem

variable {β α : Type}

theorem firsts_of (env : Env β α) (k : String) (bs : List (Block β α))
    (h : ∀ b ∈ bs, ∃ d, lookup b.ivars k = some d ∧ d.data ≠ []) :
    ∃ l, firsts env k bs = .ok l ∧ l.length = bs.length ∧
      ∀ (m : Nat) b d x, bs[m]? = some b → lookup b.ivars k = some d → d.data.head? = some x → l[m]? = some (env.toVal x) := by
  induction bs with
  | nil => exact ⟨[], rfl, rfl, by simp⟩
  | cons b t ih =>
    obtain ⟨l, h1, h2, h3⟩ := ih fun b hb => h b (by simp [hb])
    obtain ⟨d, hd, hne⟩ := h b (by simp)
    obtain ⟨x, xs, hx⟩ := List.exists_cons_of_ne_nil hne
    refine ⟨env.toVal x :: l, by simp only [firsts, hd, hx, h1], by simp [h2], ?_⟩
    intro m b' d' x' hb hd' hx'
    cases m with
    | zero =>
      simp only [List.getElem?_cons_zero, Option.some.injEq] at hb
      subst hb
      rw [hd] at hd'
      obtain rfl := Option.some.inj hd'
      rw [hx] at hx'
      simp only [List.head?_cons, Option.some.injEq] at hx'
      rw [hx']
      rfl
    | succ m => exact h3 m b' d' x' (by simpa using hb) hd' hx'

theorem foldlM_filter {γ δ ε : Type} (f : γ → δ → Except ε γ) (p : δ → Bool) (h : ∀ b d, p d = false → f b d = .ok b)
    (l : List δ) (b : γ) : l.foldlM f b = (l.filter p).foldlM f b := by
  induction l generalizing b with
  | nil => rfl
  | cons d t ih =>
    cases hd : p d with
    | false =>
      rw [List.filter_cons_of_neg (by simp [hd]), List.foldlM_cons, h b d hd, ← ih]
      rfl
    | true =>
      rw [List.filter_cons_of_pos hd, List.foldlM_cons, List.foldlM_cons]
      congr 1
      funext b'
      exact ih b'

variable [DecidableEq β]

/-- C67: blocks that fit together are put together, and nothing of them is lost or mixed up. -/
theorem C67_merge (env : Env β α) (ofIdx : Nat → β) (c0 c1 : Commented β α) (cs : List (Commented β α))
    (hs : Stackable c0.block ((c1 :: cs).map Commented.block)) :
    ∃ r, simpleMerge env ofIdx (c0 :: c1 :: cs) = .ok r ∧
      Stacked env ofIdx c0.block ((c1 :: cs).map Commented.block) r.block ∧
      r.comments = (c0 :: c1 :: cs).flatMap Commented.comments := by
  obtain ⟨b0, hb0⟩ : ∃ b, b = c0.block := ⟨_, rfl⟩
  obtain ⟨bs, hbs⟩ : ∃ bs, bs = (c1 :: cs).map Commented.block := ⟨_, rfl⟩
  obtain ⟨ri, hri⟩ : ∃ ri, ri = blockNumber ofIdx (bs.length + 1) := ⟨_, rfl⟩
  have hall : (c0 :: c1 :: cs).map Commented.block = b0 :: bs := by rw [List.map_cons, hb0, hbs]
  rw [← hb0, ← hbs] at hs
  have hrn : ri.name = "INDEX" := by rw [hri]; rfl
  have hvn : (keys b0.vars).Nodup := (List.nodup_append.1 hs.nodup).1
  have hpn : (settingNames b0).Nodup := (List.nodup_append.1 hs.nodup).2.1
  have hdis : ∀ k ∈ keys b0.vars, k ∉ settingNames b0 := fun k hk hv => (List.nodup_append.1 hs.nodup).2.2 k hk k hv rfl
  -- the arrays
  have hvar : ∀ n x0, lookup b0.vars n = some x0 → ∃ a : Arr β α,
      (x0.dims = [] → a.dims = [ri] ∧ a.nd.shape = [bs.length + 1] ∧
        ∀ (m : Nat) b x, (b0 :: bs)[m]? = some b → lookup b.vars n = some x → a.nd.get [m] = x.nd.get []) ∧
      (∀ d ds, x0.dims = d :: ds → a.dims = d :: ri :: ds ∧
        (∀ l ls, x0.nd.shape = l :: ls → a.nd.shape = l :: (bs.length + 1) :: ls) ∧
        ∀ (m : Nat) b x, (b0 :: bs)[m]? = some b → lookup b.vars n = some x → ∀ i idx, idx.length = ds.length →
          a.nd.get (i :: m :: idx) = x.nd.get (i :: idx)) ∧
      Adds (stackVar env ri (b0 :: bs)) id (fun _ => a) (fun _ => ri :: x0.dims) n := by
    intro n x0 hx0
    have hm := lookup_mem hx0
    have hnk : n ∈ keys b0.vars := List.mem_map_of_mem (f := Prod.fst) hm
    have hf0 : (lookup b0.vars n).getD x0 = x0 := by rw [hx0]; rfl
    obtain ⟨a, h1, h2, h3⟩ := stackVar_spec env ri b0 bs n (fun b => (lookup b.vars n).getD x0)
      (fun b hb => ⟨hs.apart b hb n hnk, by
        rcases List.mem_cons.1 hb with rfl | hb
        · rw [hx0]; rfl
        · obtain ⟨x, hx, -⟩ := hs.vars b hb n x0 hx0
          rw [hx]; rfl⟩)
      (fun b hb => by
        obtain ⟨x, hx, he⟩ := hs.vars b hb n x0 hx0
        simp only [hx, hx0, Option.getD_some]
        exact he)
      (by simp only [hf0]; exact (hs.wf _ hm).1)
      (by
        simp only [hf0]
        rw [List.map_cons, List.nodup_cons]
        refine ⟨fun hc => ?_, (hs.wf _ hm).2⟩
        obtain ⟨d, hd, he⟩ := List.mem_map.1 hc
        exact (hs.dims _ hm d hd).2 (he.trans hrn))
      (by
        simp only [hf0]
        intro d hd he
        rcases List.mem_cons.1 hd with rfl | hd
        · exact hs.index (by rw [← hrn, he]; exact List.mem_append_left _ hnk)
        · exact (hs.dims _ hm d hd).1 (by rw [he]; exact List.mem_append_left _ hnk))
      (by
        rintro m i j hmat rfl
        exact hs.elems _ (List.mem_append_left _ hnk) _ i j hmat (List.mem_append_left _ hnk))
    simp only [hf0] at h1 h2 h3
    refine ⟨a, fun h => ?_, fun d ds h => ?_, h3⟩
    · obtain ⟨g1, g2, g3⟩ := h1 h
      refine ⟨g1, g2, fun m b x hb hx => ?_⟩
      rw [g3 m b hb, hx]
      rfl
    · obtain ⟨g1, g2, g3⟩ := h2 d ds h
      refine ⟨g1, g2, fun m b x hb hx i idx hi => ?_⟩
      rw [g3 m b hb i idx hi, hx]
      rfl
  -- choose them
  have hch : ∀ n, ∃ p : Arr β α × List (Dim β), ∀ x0, lookup b0.vars n = some x0 → p.2 = ri :: x0.dims ∧
      (x0.dims = [] → p.1.dims = [ri] ∧ p.1.nd.shape = [bs.length + 1] ∧
        ∀ (m : Nat) b x, (b0 :: bs)[m]? = some b → lookup b.vars n = some x → p.1.nd.get [m] = x.nd.get []) ∧
      (∀ d ds, x0.dims = d :: ds → p.1.dims = d :: ri :: ds ∧
        (∀ l ls, x0.nd.shape = l :: ls → p.1.nd.shape = l :: (bs.length + 1) :: ls) ∧
        ∀ (m : Nat) b x, (b0 :: bs)[m]? = some b → lookup b.vars n = some x → ∀ i idx, idx.length = ds.length →
          p.1.nd.get (i :: m :: idx) = x.nd.get (i :: idx)) ∧
      Adds (stackVar env ri (b0 :: bs)) id (fun _ => p.1) (fun _ => p.2) n := by
    intro n
    cases hx : lookup b0.vars n with
    | none => exact ⟨(⟨[], ⟨[], fun _ => env.junk⟩⟩, []), by simp⟩
    | some x0 =>
      obtain ⟨a, h1, h2, h3⟩ := hvar n x0 hx
      refine ⟨(a, ri :: x0.dims), ?_⟩
      rintro x ⟨⟩
      exact ⟨rfl, h1, h2, h3⟩
  choose A hA using hch
  have hlk : ∀ n ∈ keys b0.vars, ∃ x0, lookup b0.vars n = some x0 := fun n hn =>
    Option.isSome_iff_exists.1 ((lookup_isSome_iff _ _).2 hn)
  have hAd : ∀ n ∈ keys b0.vars, ∀ d ∈ (A n).2, d.name ∉ keys b0.vars ++ settingNames b0 := by
    intro n hn d hd
    obtain ⟨x0, hx0⟩ := hlk n hn
    rw [(hA n x0 hx0).1] at hd
    rcases List.mem_cons.1 hd with rfl | hd
    · rw [hrn]; exact hs.index
    · exact (hs.dims _ (lookup_mem hx0) d hd).1
  obtain ⟨o1, ho1, ho2, ho3⟩ := fold_adds (stackVar env ri (b0 :: bs)) id (fun n => (A n).1) (fun n => (A n).2)
    (keys b0.vars) {}
    (by
      intro n hn
      obtain ⟨x0, hx0⟩ := hlk n hn
      exact (hA n x0 hx0).2.2.2)
    (by simp [keys])
    (by
      intro n hn n' hn' d hd he
      exact hAd n' hn' d hd (he ▸ List.mem_append_left _ hn))
    (by
      intro n hn m i j hm
      refine ⟨by simp [keys], fun hc => ?_⟩
      rw [List.map_id] at hc
      exact hs.elems n (List.mem_append_left _ hn) m i j hm (List.mem_append_left _ hc))
    (by simpa [keys] using hvn)
  -- the settings
  have hpch : ∀ k, ∃ l : List α, k ∈ settingNames b0 → firsts env k (b0 :: bs) = .ok l ∧ l.length = bs.length + 1 ∧
      ∀ (m : Nat) b d x, (b0 :: bs)[m]? = some b → lookup b.ivars k = some d → d.data.head? = some x →
        l[m]? = some (env.toVal x) := by
    intro k
    by_cases hk : k ∈ settingNames b0
    · obtain ⟨l, h⟩ := firsts_of env k (b0 :: bs) fun b hb => hs.parts b hb k hk
      exact ⟨l, fun _ => h⟩
    · exact ⟨[], fun h => absurd h hk⟩
  choose L hL using hpch
  obtain ⟨ps, hps⟩ : ∃ ps, ps = b0.ivars.filter fun p => p.2.isa .dimPartial := ⟨_, rfl⟩
  have hpk : ∀ p ∈ ps, p.1 ∈ settingNames b0 := by
    intro p hp
    rw [hps] at hp
    exact List.mem_map_of_mem hp
  have ho1k : keys o1.vars = keys b0.vars := by
    rw [ho2]
    simp [keys, List.map_map, Function.comp_def]
  have ho1i : ∀ n ∈ keys o1.ivars, n ∉ keys b0.vars ++ settingNames b0 := by
    intro n hn
    rw [ho3] at hn
    rcases (mem_keys_addDims _ _ _).1 hn with hn | ⟨d, hd, rfl⟩
    · simp [keys] at hn
    · obtain ⟨k, hk, hd⟩ := List.mem_flatMap.1 hd
      exact hAd k hk d hd
  obtain ⟨o2, hq1, hq2, hq3⟩ := fold_adds (stackPartial env ri (b0 :: bs)) Prod.fst
    (fun p => repArr env ri (L p.1)) (fun _ => [ri]) ps o1
    (by
      intro p hp out h1 h2 h3
      have hpp : p.2.isa .dimPartial = true := by
        rw [hps] at hp
        exact (List.mem_filter.1 hp).2
      refine ⟨nextXname out.xname [ri], ?_⟩
      simp only [stackPartial, hpp, if_true, (hL p.1 (hpk p hp)).1]
      rw [setArr_new env out p.1 _ h1 h2 h3]
      rfl)
    (fun p hp hc => ho1i _ hc (List.mem_append_right _ (hpk p hp)))
    (by
      intro p hp p' hp' d hd he
      rw [List.mem_singleton] at hd
      subst hd
      exact hs.index (by rw [← hrn, he]; exact List.mem_append_right _ (hpk p hp)))
    (by
      intro p hp m i j hm
      have := hs.elems p.1 (List.mem_append_right _ (hpk p hp)) m i j hm
      rw [ho1k]
      exact ⟨fun h => this (List.mem_append_left _ h), fun h => this (List.mem_append_right _ (by
        rw [hps] at h
        exact h))⟩)
    (by
      rw [ho1k, hps]
      exact hs.nodup)
  have hvars : o2.vars = (keys b0.vars).map (fun n => (n, (A n).1)) ++ ps.map fun p => (p.1, repArr env ri (L p.1)) := by
    rw [hq2, ho2]
    rfl
  have hkeys : o2.vars.map Prod.fst = b0.vars.map Prod.fst ++ settingNames b0 := by
    simp only [hvars, hps, List.map_append, List.map_map, Function.comp_def, keys, settingNames]
  have hnd : (keys o2.vars).Nodup := by rw [keys, hkeys]; exact hs.nodup
  have hlook : ∀ n x0, lookup b0.vars n = some x0 → lookup o2.vars n = some (A n).1 := by
    intro n x0 hx0
    refine mem_lookup (p := (n, (A n).1)) hnd ?_
    rw [hvars]
    exact List.mem_append_left _ (List.mem_map.2 ⟨n, List.mem_map_of_mem (f := Prod.fst) (lookup_mem hx0), rfl⟩)
  have hivs : ∀ n, lookup o2.ivars n =
      ((keys b0.vars).flatMap (fun n => (A n).2) ++ ps.flatMap fun _ => [ri]).find? fun d => d.name == n := by
    intro n
    rw [hq3, ho3, lookup_addDims, lookup_addDims, List.find?_append]
    simp [lookup]
  refine ⟨⟨o2, (c0 :: c1 :: cs).flatMap Commented.comments⟩, ?_, ⟨hb0 ▸ hkeys, ?_, ?_, ?_, ?_, ?_⟩, rfl⟩
  · have hlen : repDim ofIdx (b0 :: bs).length = ri := by rw [hri]; rfl
    simp only [simpleMerge, hall, hlen, ← hb0]
    rw [ho1]
    simp only
    rw [foldlM_filter (stackPartial env ri (b0 :: bs)) (fun p => p.2.isa .dimPartial)
      (fun b d h => by simp [stackPartial, h]), ← hps, hq1]
  · intro n x0 hx0 hd
    rw [← hb0] at hx0
    rw [← hbs, ← hri, ← hb0]
    obtain ⟨h1, h2, h3⟩ := (hA n x0 hx0).2.1 hd
    exact ⟨_, hlook n x0 hx0, h1, h2, h3⟩
  · intro n x0 d ds hx0 hd
    rw [← hb0] at hx0
    rw [← hbs, ← hri, ← hb0]
    obtain ⟨h1, h2, h3⟩ := (hA n x0 hx0).2.2.1 d ds hd
    exact ⟨_, hlook n x0 hx0, h1, h2, h3⟩
  · intro k hk
    rw [← hb0] at hk
    rw [← hbs, ← hri, ← hb0]
    obtain ⟨h1, h2, h3⟩ := hL k hk
    refine ⟨repArr env ri (L k), ?_, rfl, by simp [repArr, h2], ?_⟩
    · refine mem_lookup (p := (k, repArr env ri (L k))) hnd ?_
      rw [hvars]
      obtain ⟨p, hp, rfl⟩ := List.mem_map.1 hk
      refine List.mem_append_right _ (List.mem_map.2 ⟨p, by rw [hps]; exact hp, rfl⟩)
    · intro m b d x hb hd hx
      simp only [repArr, List.headD_cons, List.getD_eq_getElem?_getD, h3 m b d x hb hd hx, Option.getD_some]
  · intro hne
    rw [← hbs, ← hri]
    show lookup o2.ivars "INDEX" = some ri
    rw [hivs, List.find?_append]
    cases hk : b0.vars with
    | cons w ws =>
      have hw : w.1 ∈ keys b0.vars := by rw [hk]; simp [keys]
      obtain ⟨x0, hx0⟩ := hlk w.1 hw
      have := (hA w.1 x0 hx0).1
      simp [keys, this, hrn]
    | nil =>
      cases hp : ps with
      | nil =>
        exfalso
        apply hne
        show o2.vars = []
        rw [hvars, hp, hk]
        rfl
      | cons p pt => simp [keys, hrn]
  · intro n hn
    show lookup o2.ivars n = _
    rw [hivs, List.find?_append]
    have e1 : (ps.flatMap fun _ => [ri]).find? (fun d => d.name == n) = none := by
      rw [List.find?_eq_none]
      intro d hd
      obtain ⟨_, -, hd⟩ := List.mem_flatMap.1 hd
      rw [List.mem_singleton.1 hd, hrn]
      simpa using Ne.symm hn
    rw [e1, Option.or_none, ← hb0]
    have : ∀ l : List (String × Arr β α), (∀ p ∈ l, lookup b0.vars p.1 = some p.2) →
        ((keys l).flatMap fun n => (A n).2).find? (fun d => d.name == n) =
          (l.flatMap fun p => p.2.dims).find? fun d => d.name == n := by
      intro l hl
      induction l with
      | nil => rfl
      | cons p t ih =>
        simp only [keys, List.map_cons, List.flatMap_cons, List.find?_append]
        rw [(hA p.1 p.2 (hl p (by simp))).1, List.find?_cons_of_neg (by rw [hrn]; simpa using Ne.symm hn)]
        have := ih fun q hq => hl q (by simp [hq])
        simp only [keys] at this
        rw [this]
    exact this b0.vars fun p hp => mem_lookup hvn hp

end HF.Mdif
