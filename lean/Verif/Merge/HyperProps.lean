import Verif.Merge.Hyper
import Verif.Merge.HyperSpec
import Verif.Merge.Props
import Verif.Hyper.BlockProps
/-
C69: merging blocks to hypercubes.
-/
namespace HF.Merge

open HF.DataDict.Spec
open HF.DataDict hiding rename delitem
open HF.DataBlock
open HF.Arr hiding Err ofNd getitem

variable {β α : Type}

theorem filter_zip (ds : List (Dim β)) : ∀ sh : List Nat, ds.length = sh.length →
    (((ds.zip sh).filter fun p => p.2 ≠ 1).map Prod.fst).zip (sh.filter (· ≠ 1)) =
      (ds.zip sh).filter fun p => p.2 ≠ 1 := by
  induction ds with
  | nil => intro sh _; simp
  | cons d t ih =>
    intro sh hl
    cases sh with
    | nil => simp at hl
    | cons s u =>
      have := ih u (by simpa using hl)
      by_cases hs : s = 1
      · rw [List.zip_cons_cons, List.filter_cons_of_neg (by simpa using hs),
          List.filter_cons_of_neg (by simpa using hs)]
        exact this
      · rw [List.zip_cons_cons, List.filter_cons_of_pos (by simpa using hs),
          List.filter_cons_of_pos (by simpa using hs), List.map_cons, List.zip_cons_cons, this]

/-- The place of the settings. -/
theorem split_placed (ds : List (Dim β)) (sh : List Nat) (h : ds.length = sh.length) :
    ∃ pre post sp sq, ds = pre ++ post ∧ sh = sp ++ sq ∧ sp.length = pre.length ∧ sq.length = post.length ∧
      (∀ p, placed p (ds.zip sh) = pre.zip sp ++ p :: post.zip sq) ∧
      ∀ l, placedAll l (ds.zip sh) = pre.zip sp ++ l ++ post.zip sq := by
  cases ds with
  | nil =>
    cases sh with
    | nil => exact ⟨[], [], [], [], rfl, rfl, rfl, rfl, fun _ => rfl, fun l => by simp [placedAll]⟩
    | cons => simp at h
  | cons d t =>
    cases sh with
    | nil => simp at h
    | cons s u =>
      by_cases hd : d.isa .dimSweep = true
      · exact ⟨[d], t, [s], u, rfl, rfl, rfl, by simpa using h.symm, fun p => by simp [placed, hd],
          fun l => by simp [placedAll, hd]⟩
      · exact ⟨[], d :: t, [], s :: u, rfl, rfl, rfl, by simpa using h.symm, fun p => by simp [placed, hd],
          fun l => by simp [placedAll, hd]⟩

theorem zero_of_one (c : Coord) : ∀ (ds : List (Dim β)) (sh : List Nat), Nd.Valid sh (ds.map fun d => c d.key) →
    ∀ e, (e, 1) ∈ ds.zip sh → c e.key = 0
  | [], _, _, e, he => by simp at he
  | d :: t, [], _, e, he => by simp at he
  | d :: t, s :: u, h, e, he => by
    rw [List.map_cons, Nd.Valid] at h
    rw [List.zip_cons_cons, List.mem_cons] at he
    rcases he with he | he
    · cases he
      omega
    · exact zero_of_one c t u h.2 e he

theorem mem_zip_append {γ δ : Type} {a c : List γ} {b d : List δ} (h : b.length = a.length) :
    (a ++ c).zip (b ++ d) = a.zip b ++ c.zip d := List.zip_append h.symm

variable [DecidableEq β] [LinearOrder α]

theorem cubeAxes_settings (env : Env β α) (ks : List String) (blocks : List (Block β α)) :
    Hyper.cubeAxes env ks (settings env ks blocks) = ks.map (settingDim env blocks) ∧
      Hyper.newDims (settings env ks blocks) = ks.map (choices env blocks) := by
  have h : Hyper.newDims (settings env ks blocks) = ks.map (choices env blocks) := by
    unfold Hyper.newDims settings choices
    rw [List.map_map]
    rfl
  refine ⟨?_, h⟩
  unfold Hyper.cubeAxes
  rw [h]
  clear h
  induction ks with
  | nil => rfl
  | cons k ks ih =>
    simp only [List.map_cons, List.zipWith_cons_cons, ih, settingDim]

theorem setting_eq (env : Env β α) {ks vs : List String} {blocks : List (Block β α)} (hu : Uniform ks vs blocks)
    {b : Block β α} (hb : b ∈ blocks) {k : String} (hk : k ∈ ks) :
    ∃ d x, (k, d) ∈ b.ivars ∧ d.isa .dimPartial = true ∧ d.data.head? = some x ∧ setting env b k = env.toVal x := by
  rw [← hu.parts b hb] at hk
  obtain ⟨d, hd⟩ := Option.isSome_iff_exists.1
    ((lookup_isSome_iff (b.ivars.filter fun p => p.2.isa .dimPartial) k).2 hk)
  have hm := List.mem_filter.1 (lookup_mem hd)
  have hne := hu.vals b hb _ hm.1 hm.2
  obtain ⟨x, l, hx⟩ := List.exists_cons_of_ne_nil hne
  simp only at hx
  refine ⟨d, x, hm.1, hm.2, by rw [hx]; rfl, ?_⟩
  unfold setting
  rw [hd]
  simp [hx]

/-- The merged block is a table. -/
theorem merged_table (env : Env β α) (ofIdx : Nat → β) (ks vs : List String) (b0 : Block β α) (bs : List (Block β α))
    (hu : Uniform ks vs (b0 :: bs)) (q : Block β α) (hm : Merged env ofIdx ks vs b0 (b0 :: bs) q) :
    Hyper.IsTable q ks ks (blockIndex ofIdx (bs.length + 1)) (bs.length + 1) (settings env ks (b0 :: bs)) ∧
    ∀ n x0, lookup b0.vars n = some x0 → ∃ a, lookup q.vars n = some a ∧
      a.dims.zip a.nd.shape = placed (blockIndex ofIdx (bs.length + 1), bs.length + 1) (x0.dims.zip x0.nd.shape) := by
  have hin : (blockIndex ofIdx (bs.length + 1)).name = "INDEX1" := rfl
  have hq : ∀ p ∈ q.vars, lookup q.vars p.1 = some p.2 := fun p hp => mem_lookup hm.orderly.vars hp
  have hvar : ∀ n x0, lookup b0.vars n = some x0 → ∃ a, lookup q.vars n = some a ∧
      a.dims = withIndex (blockIndex ofIdx (bs.length + 1)) x0.dims ∧
      (a.dims.map Dim.name).Nodup ∧ (∀ d ∈ x0.dims, d.name ∉ ks ++ vs ∧ d.name ≠ "INDEX1") ∧
      a.dims.zip a.nd.shape = placed (blockIndex ofIdx (bs.length + 1), bs.length + 1) (x0.dims.zip x0.nd.shape) := by
    intro n x0 hx0
    obtain ⟨a, h1, h2, h3, h4, h5, -⟩ := hm.vars n x0 hx0
    have hmem := lookup_mem hx0
    have hw0 := hu.wf b0 (by simp) _ hmem
    rw [List.length_cons] at h2 h4
    have hnd : ((blockIndex ofIdx (bs.length + 1) :: x0.dims).map Dim.name).Nodup := by
      rw [List.map_cons, List.nodup_cons]
      refine ⟨fun hc => ?_, hw0.2⟩
      obtain ⟨d, hd, he⟩ := List.mem_map.1 hc
      exact (hu.dims b0 (by simp) _ hmem d hd).2 he
    refine ⟨a, h1, h2, ?_, hu.dims b0 (by simp) _ hmem, placed_zip _ _ x0 a hw0.1 hnd h3 h2 h4 h5⟩
    rw [h2]
    have hperm : (withIndex (blockIndex ofIdx (bs.length + 1)) x0.dims).Perm (blockIndex ofIdx (bs.length + 1) :: x0.dims) := by
      cases x0.dims with
      | nil => exact List.Perm.refl _
      | cons d t =>
        simp only [withIndex]
        split
        · exact List.Perm.swap _ _ _
        · exact List.Perm.refl _
    exact (hperm.map Dim.name).nodup_iff.2 hnd
  have hcase : ∀ p ∈ q.vars, (p.1 ∈ ks ∧ p.2.dims = [blockIndex ofIdx (bs.length + 1)] ∧ p.2.nd.shape = [bs.length + 1]) ∨
      (p.1 ∉ ks ∧ ∃ x0, lookup b0.vars p.1 = some x0) := by
    intro p hp
    have hk : p.1 ∈ ks ++ vs := hm.names.mem_iff.1 (List.mem_map_of_mem hp)
    by_cases hpk : p.1 ∈ ks
    · obtain ⟨a, h1, h2, h3, -⟩ := hm.parts p.1 hpk
      rw [hq p hp] at h1
      cases h1
      exact Or.inl ⟨hpk, h2, h3⟩
    · have hv : p.1 ∈ vs := by
        rcases List.mem_append.1 hk with h | h
        · exact absurd h hpk
        · exact h
      exact Or.inr ⟨hpk, Option.isSome_iff_exists.1 ((lookup_isSome_iff _ _).2 ((hu.vars b0 (by simp) _).2 hv))⟩
  refine ⟨⟨hm.orderly, ?_, ?_, (List.nodup_append.1 hu.nodup).1, ?_, ?_⟩, ?_⟩
  · unfold settings
    rw [List.forall₂_map_right_iff, List.forall₂_same]
    intro k hk
    obtain ⟨a, h1, h2, h3, h4⟩ := hm.parts k hk
    refine ⟨a, h1, h2, h3, by simp, fun i hi => ?_⟩
    have hi' : i < (b0 :: bs).length := by simpa using hi
    have hb := List.getElem?_eq_getElem hi'
    obtain ⟨d, x, g1, g2, g3, g4⟩ := setting_eq env hu (List.mem_of_getElem? hb) hk
    rw [List.getElem?_map, hb, Option.map_some, g4, h4 i _ d x hb g1 g2 g3]
  · intro p hp
    rcases hcase p hp with ⟨-, h1, h2⟩ | ⟨-, x0, hx0⟩
    · rw [h1, h2]
      refine ⟨by simp, fun d m hdm _ => ?_⟩
      simpa using hdm
    · obtain ⟨a, h1, h2, h3, h4, h5⟩ := hvar p.1 x0 hx0
      rw [hq p hp] at h1
      cases h1
      refine ⟨h3, fun d m hdm he => ?_⟩
      rw [h5] at hdm
      rcases (placed_mem _ _ _).1 hdm with h | h
      · cases h; exact ⟨rfl, rfl⟩
      · exact absurd he (h4 d (List.of_mem_zip h).1).2
  · intro p hp d hd
    rcases hcase p hp with ⟨-, h1, h2⟩ | ⟨-, x0, hx0⟩
    · rw [h1, List.mem_singleton] at hd
      rw [hd, hin]
      exact fun h => hu.index (List.mem_append_left _ h)
    · obtain ⟨a, h1, h2, h3, h4, h5⟩ := hvar p.1 x0 hx0
      rw [hq p hp] at h1
      cases h1
      rw [h2] at hd
      have hd' : d = blockIndex ofIdx (bs.length + 1) ∨ d ∈ x0.dims := by
        revert hd
        cases x0.dims with
        | nil => simp [withIndex]
        | cons e t =>
          simp only [withIndex]
          split <;> simp only [List.mem_cons] <;> tauto
      rcases hd' with rfl | hd'
      · rw [hin]
        exact fun h => hu.index (List.mem_append_left _ h)
      · exact fun h => (h4 d hd').1 (List.mem_append_left _ h)
  · intro p hp hk
    rcases hcase p hp with ⟨-, h1, -⟩ | ⟨h, -⟩
    · rw [h1]; simp
    · exact absurd hk h
  · intro n x0 hx0
    obtain ⟨a, h1, -, -, -, h5⟩ := hvar n x0 hx0
    exact ⟨a, h1, h5⟩

/-- C69: blocks with the same partial sweeps and the same variables, one for every combination of values of these
sweeps, are merged into one block in which the sweeps are dimensions: at the index of given values there are the
elements of the block with these values.  The values of each sweep have to appear first in ascending order. -/
theorem C69_hyper (env : Env β α) (ofIdx : Nat → β) (en : Enum String) (ks vs : List String)
    (b0 : Block β α) (bs : List (Block β α)) (hks : ks ≠ []) (hu : Uniform ks vs (b0 :: bs))
    (hg : Hyper.FullGrid (settings env ks (b0 :: bs)) (bs.length + 1))
    (hasc : ∀ k ∈ ks, Hyper.Ascending (choices env (b0 :: bs) k)) :
    ∃ r, mergeHyper env ofIdx en (b0 :: bs) = .ok r ∧ (r.vars.map Prod.fst).Perm vs ∧
      (∀ k ∈ ks, lookup r.ivars k = some (settingDim env (b0 :: bs) k)) ∧
      lookup r.ivars "INDEX1" = none ∧
      (∀ n x0, lookup b0.vars n = some x0 → ∃ a, lookup r.vars n = some a ∧ a.WF ∧
        a.dims.zip a.nd.shape =
          (placedAll (ks.map fun k => (settingDim env (b0 :: bs) k, (choices env (b0 :: bs) k).length))
            (x0.dims.zip x0.nd.shape)).filter (fun p => p.2 ≠ 1) ∧
        ∀ (i : Nat) b x, (b0 :: bs)[i]? = some b → lookup b.vars n = some x →
          ∀ c, (∀ k ∈ ks, (choices env (b0 :: bs) k)[c (k, Cls.dimSweep)]? = some (setting env b k)) → x0.InRange c →
            a.at_ c = x.nd.get (x0.dims.map fun d => c d.key)) ∧
      ∀ n d, lookup b0.ivars n = some d → n ∉ ks → n ≠ "INDEX1" →
        (∀ p ∈ b0.vars, ∀ e ∈ p.2.dims, e.name = n → e = d) → lookup r.ivars n = some d := by
  obtain ⟨q, hq, hm⟩ := merge_core env ofIdx en ks vs b0 bs hks hu
  obtain ⟨ht, hzip⟩ := merged_table env ofIdx ks vs b0 bs hu q hm
  obtain ⟨ax, hnew⟩ := cubeAxes_settings env ks (b0 :: bs)
  obtain ⟨w, hw, hc⟩ := Hyper.C68_cube env q ks (blockIndex ofIdx (bs.length + 1)) (bs.length + 1)
    (settings env ks (b0 :: bs)) false true ht hg (by
      intro d hd
      rw [hnew] at hd
      obtain ⟨k, hk, rfl⟩ := List.mem_map.1 hd
      exact hasc k hk)
  have hlab : Hyper.labels false ks = ks := rfl
  rw [hlab] at hc
  obtain ⟨r, hr1, hr2, hr3⟩ := C49_block env w hc.orderly
  have hkeys : r.vars.map Prod.fst = w.vars.map Prod.fst :=
    keys_of_forall₂ (R := fun p w => w.1 = p.1 ∧ Squeezed p.2 w.2) hr2 fun p w h => h.1.symm
  have hrn : (r.vars.map Prod.fst).Nodup := hkeys ▸ hc.orderly.vars
  have find : ∀ n a, lookup w.vars n = some a → ∃ a', lookup r.vars n = some a' ∧ Squeezed a a' := by
    intro n a ha
    obtain ⟨w, hw, hw1, hw2⟩ := forall₂_mem_left hr2 (lookup_mem ha)
    exact ⟨w.2, by rw [show n = w.1 from hw1.symm]; exact mem_lookup hrn hw, hw2⟩
  have hdis : ∀ k ∈ ks, k ∉ vs := fun k hk hv => (List.nodup_append.1 hu.nodup).2.2 k hk k hv rfl
  -- every variable
  have hvar : ∀ n x0, lookup b0.vars n = some x0 → ∃ A B pre post sp sq, lookup q.vars n = some A ∧
      lookup w.vars n = some B ∧ x0.dims = pre ++ post ∧ x0.nd.shape = sp ++ sq ∧ sp.length = pre.length ∧
      sq.length = post.length ∧ A.dims = pre ++ blockIndex ofIdx (bs.length + 1) :: post ∧
      B.dims = pre ++ ks.map (settingDim env (b0 :: bs)) ++ post ∧
      B.nd.shape = sp ++ (ks.map fun k => (choices env (b0 :: bs) k).length) ++ sq ∧
      placedAll (ks.map fun k => (settingDim env (b0 :: bs) k, (choices env (b0 :: bs) k).length))
        (x0.dims.zip x0.nd.shape) = B.dims.zip B.nd.shape ∧
      ∀ is js ls i, Nd.Valid sp is → Hyper.Valid (ks.map fun k => (choices env (b0 :: bs) k).length) ls → Nd.Valid sq js →
        i < bs.length + 1 → Hyper.RowAt (settings env ks (b0 :: bs)) (ks.map (choices env (b0 :: bs))) ls i →
        B.nd.get (is ++ ls ++ js) = A.nd.get (is ++ i :: js) := by
    intro n x0 hx0
    obtain ⟨A, h1, h2⟩ := hzip n x0 hx0
    have hmem := lookup_mem hx0
    have hw0 : x0.dims.length = x0.nd.shape.length := (hu.wf b0 (by simp) _ hmem).1
    obtain ⟨pre, post, sp, sq, e1, e2, e3, e4, e5, e6⟩ := split_placed x0.dims x0.nd.shape hw0
    rw [e5] at h2
    have hAwf : A.dims.length = A.nd.shape.length := hm.orderly.wf _ (lookup_mem h1)
    have hAd : A.dims = pre ++ blockIndex ofIdx (bs.length + 1) :: post := by
      have := congrArg (List.map Prod.fst) h2
      rw [List.map_fst_zip (by omega), List.map_append, List.map_cons, List.map_fst_zip (by omega),
        List.map_fst_zip (by omega)] at this
      exact this
    have hAs : A.nd.shape = sp ++ (bs.length + 1) :: sq := by
      have := congrArg (List.map Prod.snd) h2
      rw [List.map_snd_zip (by omega), List.map_append, List.map_cons, List.map_snd_zip (by omega),
        List.map_snd_zip (by omega)] at this
      exact this
    have hnk : n ∉ ks := fun hk => hdis n hk ((hu.vars b0 (by simp) n).1 (List.mem_map_of_mem hmem))
    obtain ⟨B, g1, g2, g3, g4⟩ := hc.spread n A pre post sp sq hnk h1 hAd hAs e3
    rw [ax] at g2
    rw [hnew, List.map_map] at g3 g4
    have hco : List.map (List.length ∘ choices env (b0 :: bs)) ks = ks.map fun k => (choices env (b0 :: bs) k).length := rfl
    rw [hco] at g3 g4
    refine ⟨A, B, pre, post, sp, sq, h1, g1, e1, e2, e3, e4, hAd, g2, g3, ?_, ?_⟩
    · rw [e6, g2, g3, List.zip_append (by simp [e3]), List.zip_append e3.symm]
      congr 2
      rw [List.zip_map']
    · exact fun is js ls i h1 h2 h3 h4 h5 => g4 is ls js i h1 h2 h3 h4 h5
  refine ⟨r, ?_, ?_, ?_, ?_, ?_, ?_⟩
  · obtain ⟨k0, kt, rfl⟩ := List.exists_cons_of_ne_nil hks
    obtain ⟨g, hg1, -, -⟩ := groups_uniform (k0 :: kt) (List.nodup_append.1 hu.nodup).1 b0 bs (hu.parts b0 (by simp))
      (fun b hb => hu.parts b (by simp [hb]))
    obtain ⟨a, ha1, ha2, -⟩ := hm.parts k0 (by simp)
    have hni : lookup q.ivars k0 = none := (lookup_none_iff' _ _).2 (hm.orderly.apart _ (lookup_mem ha1))
    have hgi : getitem env q k0 = .ok a := by simp only [getitem, hni, ha1]
    have hl : (b0 :: bs).length = bs.length + 1 := rfl
    have hkg : (groups (b0 :: bs)).map Prod.fst = [k0 :: kt] := by rw [hg1]; rfl
    simp only [mergeHyper, hq, hkg, hyperGroups, hgi, ha2, hl, hw, hr1]
  · rw [hkeys, List.perm_ext_iff_of_nodup hc.orderly.vars (List.nodup_append.1 hu.nodup).2.1]
    intro n
    constructor
    · intro hn
      have h1 := hm.names.mem_iff.1 (hc.order.subset hn)
      rcases List.mem_append.1 h1 with h | h
      · have h2 := (hc.coords (settingDim env (b0 :: bs) n) (by rw [ax]; exact List.mem_map_of_mem h)).2
        exact absurd hn ((lookup_none_iff' w.vars n).1 h2)
      · exact h
    · intro hn
      obtain ⟨x0, hx0⟩ := Option.isSome_iff_exists.1 ((lookup_isSome_iff _ _).2 ((hu.vars b0 (by simp) n).2 hn))
      obtain ⟨A, B, _, _, _, _, -, h2, -⟩ := hvar n x0 hx0
      exact List.mem_map_of_mem (lookup_mem h2)
  · intro k hk
    have h2 := (hc.coords (settingDim env (b0 :: bs) k) (by rw [ax]; exact List.mem_map_of_mem hk)).1
    rw [hr3]
    have : (settingDim env (b0 :: bs) k).name = k := rfl
    rw [this] at h2
    rw [h2]
    rfl
  · have h1 := hc.gone
    have hin : (blockIndex ofIdx (bs.length + 1)).name = "INDEX1" := rfl
    rw [hin] at h1
    rw [hr3, h1, Option.none_or, List.find?_eq_none]
    intro d hd he
    simp only [beq_iff_eq] at he
    obtain ⟨w', hw', hdw⟩ := List.mem_flatMap.1 hd
    obtain ⟨p, hp, hpn, hs⟩ := forall₂_mem_right hr2 hw'
    have hdp := hs.mem hdw
    have hp1 : p.1 ∈ ks ++ vs := hm.names.mem_iff.1 (hc.order.subset (List.mem_map_of_mem hp))
    have hpk : p.1 ∉ ks := by
      intro h
      have h2 := (hc.coords (settingDim env (b0 :: bs) p.1) (by rw [ax]; exact List.mem_map_of_mem h)).2
      exact (lookup_none_iff' w.vars p.1).1 h2 (List.mem_map_of_mem hp)
    have hpv : p.1 ∈ vs := by
      rcases List.mem_append.1 hp1 with h | h
      · exact absurd h hpk
      · exact h
    obtain ⟨x0, hx0⟩ := Option.isSome_iff_exists.1 ((lookup_isSome_iff _ _).2 ((hu.vars b0 (by simp) _).2 hpv))
    obtain ⟨A, B, pre, post, sp, sq, -, h2, h3, -, -, -, -, h4, -⟩ := hvar p.1 x0 hx0
    rw [mem_lookup hc.orderly.vars hp] at h2
    cases h2
    rw [h4] at hdp
    have hxd := hu.dims b0 (by simp) _ (lookup_mem hx0)
    simp only [List.mem_append, List.mem_map] at hdp
    rcases hdp with (h | ⟨k, hk, rfl⟩) | h
    · exact (hxd d (by rw [h3]; simp [h])).2 he
    · have : (settingDim env (b0 :: bs) k).name = k := rfl
      rw [this] at he
      exact hu.index (List.mem_append_left _ (he ▸ hk))
    · exact (hxd d (by rw [h3]; simp [h])).2 he
  · intro n x0 hx0
    obtain ⟨A, B, pre, post, sp, sq, h1, h2, h3, h4, h5, h6, h7, h8, h9, h10, h11⟩ := hvar n x0 hx0
    obtain ⟨a, ha, hs⟩ := find n B h2
    have hBwf : B.dims.length = B.nd.shape.length := hc.orderly.wf _ (lookup_mem h2)
    refine ⟨a, ha, hs.wf, ?_, ?_⟩
    · rw [h10, hs.dims, hs.shape]
      exact filter_zip _ _ hBwf
    · intro i b x hb hx c hcc hr
      have hbm := List.mem_of_getElem? hb
      obtain ⟨hi, -⟩ := List.getElem?_eq_some_iff.1 hb
      unfold InRange at hr
      rw [h3, h4, List.map_append, Nd.valid_append (by simp [h5])] at hr
      have hval : Hyper.Valid (ks.map fun k => (choices env (b0 :: bs) k).length)
          (ks.map fun k => c (k, Cls.dimSweep)) := by
        unfold Hyper.Valid
        rw [List.forall₂_map_left_iff, List.forall₂_map_right_iff, List.forall₂_same]
        intro k hk
        obtain ⟨h, -⟩ := List.getElem?_eq_some_iff.1 (hcc k hk)
        exact h
      have hrow : Hyper.RowAt (settings env ks (b0 :: bs)) (ks.map (choices env (b0 :: bs)))
          (ks.map fun k => c (k, Cls.dimSweep)) i := by
        unfold Hyper.RowAt settings
        rw [List.zip_map', List.forall₂_map_left_iff, List.forall₂_map_right_iff, List.forall₂_same]
        intro k hk
        exact ⟨setting env b k, by rw [List.getElem?_map, hb]; rfl, hcc k hk⟩
      have hkc : (ks.map (settingDim env (b0 :: bs))).map (fun d => c d.key) = ks.map fun k => c (k, Cls.dimSweep) := by
        rw [List.map_map]
        rfl
      have hBr : Nd.Valid B.nd.shape (B.dims.map fun d => c d.key) := by
        rw [h8, h9, List.map_append, List.map_append, hkc, Nd.valid_append (by simp [h5]), Nd.valid_append (by simp [h5])]
        exact ⟨⟨hr.1, (Hyper.valid_nd _ _).1 hval⟩, hr.2⟩
      rw [hs.elems c (zero_of_one c _ _ hBr)]
      have e1 : B.at_ c = A.nd.get (pre.map (fun d => c d.key) ++ i :: post.map fun d => c d.key) := by
        rw [at_, h8, List.map_append, List.map_append, hkc]
        exact h11 _ _ _ i hr.1 hval hr.2 (by simpa using hi) hrow
      obtain ⟨A', g1, -, -, -, -, g2⟩ := hm.vars n x0 hx0
      rw [h1] at g1
      cases g1
      have hl : (b0 :: bs).length = bs.length + 1 := rfl
      rw [hl] at g2
      have hxd : ∀ d ∈ x0.dims, d.key ≠ (blockIndex ofIdx (bs.length + 1)).key := by
        intro d hd he
        exact (hu.dims b0 (by simp) _ (lookup_mem hx0) d hd).2 (congrArg Prod.fst he)
      have e2 := g2 i b x hb hx (fun k => if k = (blockIndex ofIdx (bs.length + 1)).key then i else c k) (by simp)
      have e3 : ∀ l : List (Dim β), (∀ d ∈ l, d ∈ x0.dims) →
          l.map (fun d => if d.key = (blockIndex ofIdx (bs.length + 1)).key then i else c d.key) = l.map fun d => c d.key := by
        intro l hl
        refine List.map_congr_left fun d hd => ?_
        rw [if_neg (hxd d (hl d hd))]
      rw [at_, h7, List.map_append, List.map_cons, if_pos rfl, e3 pre (fun d hd => by rw [h3]; simp [hd]),
        e3 post (fun d hd => by rw [h3]; simp [hd]), e3 x0.dims fun _ h => h] at e2
      rw [e1, e2]
  · intro n d hd hnk hni hsame
    have h1 := hm.ivars n d hd hnk hni
    have h2 := hc.ivars n hnk hni
    rw [h1] at h2
    have h3 : lookup w.ivars n = some d := by
      rw [h2]
      cases hf : ((w.vars.flatMap fun w => w.2.dims).find? fun d => d.name == n) with
      | none => rfl
      | some e =>
        have he := List.find?_some hf
        simp only [beq_iff_eq] at he
        obtain ⟨p, hp, hdp⟩ := List.mem_flatMap.1 (List.mem_of_find?_eq_some hf)
        have hp1 : p.1 ∈ ks ++ vs := hm.names.mem_iff.1 (hc.order.subset (List.mem_map_of_mem hp))
        have hpk : p.1 ∉ ks := by
          intro h
          have h2 := (hc.coords (settingDim env (b0 :: bs) p.1) (by rw [ax]; exact List.mem_map_of_mem h)).2
          exact (lookup_none_iff' w.vars p.1).1 h2 (List.mem_map_of_mem hp)
        have hpv : p.1 ∈ vs := by
          rcases List.mem_append.1 hp1 with h | h
          · exact absurd h hpk
          · exact h
        obtain ⟨x0, hx0⟩ := Option.isSome_iff_exists.1 ((lookup_isSome_iff _ _).2 ((hu.vars b0 (by simp) _).2 hpv))
        obtain ⟨A, B, pre, post, sp, sq, -, h2, h3, -, -, -, -, h4, -⟩ := hvar p.1 x0 hx0
        rw [mem_lookup hc.orderly.vars hp] at h2
        cases h2
        rw [h4] at hdp
        simp only [List.mem_append, List.mem_map] at hdp
        have hx := hsame _ (lookup_mem hx0)
        rcases hdp with (h | ⟨k, hk, rfl⟩) | h
        · rw [hx e (by rw [h3]; simp [h]) he]; rfl
        · have : (settingDim env (b0 :: bs) k).name = k := rfl
          rw [this] at he
          exact absurd (he ▸ hk) hnk
        · rw [hx e (by rw [h3]; simp [h]) he]; rfl
    rw [hr3, h3]
    rfl

end HF.Merge
