import Verif.HFArray.Mask
import Verif.HFArray.IndexProps
import Verif.HFArray.NdLemmas
/-
C90: boolean masks over several axes.
-/
namespace HF
namespace Arr

variable {β α : Type}

/-! ### Positions -/

/-- One position comes before another in row-major order. -/
def Before : List Nat → List Nat → Prop
  | i :: is, j :: js => i < j ∨ (i = j ∧ Before is js)
  | _, _ => False

theorem unravel_before : ∀ (sh : List Nat) (m n : Nat), m < n → n < Nd.size sh →
    Before (Nd.unravel sh m) (Nd.unravel sh n)
  | [], m, n, h, hn => by simp [Nd.size] at hn; omega
  | s :: ss, m, n, h, hn => by
    have hpos : 0 < Nd.size ss := by
      rcases Nat.eq_zero_or_pos (Nd.size ss) with h0 | h0
      · simp [Nd.size, h0] at hn
      · exact h0
    simp only [Nd.unravel, Before]
    rcases Nat.lt_or_ge (m / Nd.size ss) (n / Nd.size ss) with hlt | hge
    · exact .inl hlt
    · have heq : m / Nd.size ss = n / Nd.size ss := le_antisymm (Nat.div_le_div_right h.le) hge
      refine .inr ⟨heq, unravel_before ss _ _ ?_ (Nat.mod_lt _ hpos)⟩
      have h1 := Nat.div_add_mod m (Nd.size ss)
      have h2 := Nat.div_add_mod n (Nd.size ss)
      rw [heq] at h1
      omega

/-- C90: the positions of a mask: exactly those where it is true, in row-major order. -/
theorem C90_positions (m : Nd Bool) :
    (maskPos m).Pairwise Before ∧ ∀ idx, idx ∈ maskPos m ↔ Nd.Valid m.shape idx ∧ m.get idx = true := by
  constructor
  · unfold maskPos
    apply List.Pairwise.filter
    rw [List.pairwise_map, List.pairwise_iff_getElem]
    intro i j hi hj h
    rw [List.getElem_range, List.getElem_range]
    rw [List.length_range] at hj
    exact unravel_before _ _ _ h hj
  · intro idx
    simp only [maskPos, List.mem_filter, List.mem_map, List.mem_range]
    constructor
    · rintro ⟨⟨n, hn, rfl⟩, h⟩
      exact ⟨Nd.valid_unravel hn, h⟩
    · rintro ⟨hv, h⟩
      exact ⟨⟨_, Nd.ravel_lt hv, Nd.unravel_ravel hv⟩, h⟩

/-! ### Names of the new axis -/

/-- The anonymous dims have the names hftools gives them, or others. -/
def AnonOk (dims : List (Dim β)) : Prop :=
  ∀ d ∈ dims, d.cls = .dimAnonymous → ∀ t, d.name.toList = "ANON".toList ++ t → t ≠ [] ∧ t.all Char.isDigit = true

theorem isa_anon {d : Dim β} : d.isa .dimAnonymous = true ↔ d.cls = .dimAnonymous := by
  unfold Dim.isa
  cases d.cls <;> simp [Cls.isSub, Cls.parent]

theorem le_foldl_max : ∀ (ns : List Nat) (a : Nat), a ≤ ns.foldl max a ∧ ∀ n ∈ ns, n ≤ ns.foldl max a
  | [], a => ⟨le_rfl, by simp⟩
  | m :: ns, a => by
    obtain ⟨h1, h2⟩ := le_foldl_max ns (max a m)
    refine ⟨le_trans (le_max_left _ _) h1, ?_⟩
    intro n hn
    rcases List.mem_cons.1 hn with rfl | hn
    · exact le_trans (le_max_right _ _) h1
    · exact h2 n hn

theorem anonNumbers_ok : ∀ (dims : List (Dim β)), AnonOk dims → ∃ ns, anonNumbers dims = .ok ns ∧
    ∀ d ∈ dims, d.cls = .dimAnonymous → ∀ t, d.name.toList = "ANON".toList ++ t → Nat.ofDigitChars 10 t 0 ∈ ns
  | [], _ => ⟨[], rfl, by simp⟩
  | d :: ds, h => by
    obtain ⟨ns, e, hns⟩ := anonNumbers_ok ds fun d hd => h d (by simp [hd])
    by_cases hc : d.isa .dimAnonymous = true ∧ "ANON".toList.isPrefixOf d.name.toList = true
    · obtain ⟨h1, h2⟩ := hc
      obtain ⟨t, ht⟩ := List.isPrefixOf_iff_prefix.1 h2
      obtain ⟨t1, t2⟩ := h d (by simp) (isa_anon.1 h1) t ht.symm
      refine ⟨Nat.ofDigitChars 10 t 0 :: ns, ?_, ?_⟩
      · have hdrop : d.name.toList.drop 4 = t := by rw [← ht]; rfl
        rw [anonNumbers, if_pos ⟨h1, h2⟩, hdrop, e]
        simp only [intOf]
        rw [if_pos ⟨t1, t2⟩]
      · intro d' hd' hc' t' ht'
        rcases List.mem_cons.1 hd' with rfl | hd'
        · rw [← ht] at ht'
          rw [List.append_cancel_left ht']
          simp
        · exact List.mem_cons_of_mem _ (hns d' hd' hc' t' ht')
    · refine ⟨ns, by rw [anonNumbers, if_neg hc, e], ?_⟩
      intro d' hd' hc' t' ht'
      rcases List.mem_cons.1 hd' with rfl | hd'
      · exact absurd ⟨isa_anon.2 hc', List.isPrefixOf_iff_prefix.2 ⟨t', ht'.symm⟩⟩ hc
      · exact hns d' hd' hc' t' ht'

/-- C90: a new anonymous dim has a name no other anonymous dim has. -/
theorem C90_fresh (ofIdx : Int → β) (dims : List (Dim β)) (n : Nat) (h : AnonOk dims) :
    ∃ a, newAnonymous ofIdx dims n = .ok a ∧ a.cls = .dimAnonymous ∧ a.data.length = n ∧
      (∀ d ∈ dims, d.key ≠ a.key) ∧ AnonOk (a :: dims) := by
  obtain ⟨ns, e, hns⟩ := anonNumbers_ok dims h
  refine ⟨⟨.dimAnonymous, String.ofList ("ANON".toList ++ Nat.toDigits 10 ((ns.foldl max 0) + 1)),
    (List.range n).map fun i : Nat => ofIdx (i : Int), none, none⟩, by simp only [newAnonymous, e], rfl, by simp, ?_, ?_⟩
  · intro d hd hk
    have hc : d.cls = .dimAnonymous := by
      have := congrArg Prod.snd hk
      exact this
    have hname : d.name.toList = "ANON".toList ++ Nat.toDigits 10 (ns.foldl max 0 + 1) := by
      have : d.name = String.ofList ("ANON".toList ++ Nat.toDigits 10 (ns.foldl max 0 + 1)) := congrArg Prod.fst hk
      rw [this, String.toList_ofList]
    have := hns d hd hc _ hname
    rw [Nat.ofDigitChars_toDigits (by decide) (by decide)] at this
    have := (le_foldl_max ns 0).2 _ this
    omega
  · intro d hd hc t ht
    rcases List.mem_cons.1 hd with rfl | hd
    · rw [String.toList_ofList] at ht
      rw [← List.append_cancel_left ht]
      refine ⟨Nat.toDigits_ne_nil, ?_⟩
      rw [List.all_eq_true]
      intro c hc
      exact Nat.isDigit_of_mem_toDigits (by decide) (by decide) hc
    · exact h d hd hc t ht

/-! ### Selecting -/

theorem axisLen_get (z : Arr β α) (hwf : z.WF) (hd : Distinct z.dims) (j : Nat) (h1 : j < z.dims.length)
    (h2 : j < z.nd.shape.length) : z.axisLen z.dims[j].key = some z.nd.shape[j] := by
  unfold axisLen
  have hfind : ((z.dims.zip z.nd.shape).find? fun p => p.1.key = z.dims[j].key) = some (z.dims[j], z.nd.shape[j]) := by
    rw [List.find?_eq_some_iff_getElem]
    refine ⟨by simp, j, by simp [h1, h2], by simp, fun i hi => ?_⟩
    simp only [List.getElem_zip, Bool.not_eq_true', decide_eq_false_iff_not]
    intro hk
    have hi' : i < z.dims.length := by omega
    have := (List.Nodup.getElem_inj_iff hd (i := i) (j := j) (hi := by simpa using hi')
      (hj := by simpa using h1)).1 (by simpa using hk)
    omega
  rw [hfind]
  rfl

theorem axisLen_labelled (z : Arr β α) (hwf : z.WF) (hl : z.Labelled) (hd : Distinct z.dims) (d : Dim β)
    (h : d ∈ z.dims) : z.axisLen d.key = some d.data.length := by
  obtain ⟨j, hj, rfl⟩ := List.getElem_of_mem h
  have hj2 : j < z.nd.shape.length := by rw [← hwf]; exact hj
  rw [axisLen_get z hwf hd j hj hj2]
  congr 1
  have : z.nd.shape[j]? = some z.dims[j].data.length := by
    rw [← hl, List.getElem?_map, List.getElem?_eq_getElem hj]
    rfl
  rw [List.getElem?_eq_getElem hj2] at this
  exact Option.some.inj this

/-- Arrays with the dims and the lengths of a labelled array are labelled. -/
theorem labelled_of_axisLen (x y : Arr β α) (hwf : x.WF) (hl : x.Labelled) (hd : Distinct x.dims) (hy : y.WF)
    (hyd : Distinct y.dims) (hs : ∀ d ∈ y.dims, d ∈ x.dims) (h : ∀ k, y.axisLen k = x.axisLen k) : y.Labelled := by
  unfold Labelled
  apply List.ext_getElem
  · rw [List.length_map]
    exact hy
  · intro j h1 h2
    rw [List.length_map] at h1
    have e1 := axisLen_get y hy hyd j h1 h2
    rw [h, axisLen_labelled x hwf hl hd _ (hs _ (List.getElem_mem h1))] at e1
    rw [List.getElem_map]
    exact Option.some.inj e1

theorem distinct_of_names {dims : List (Dim β)} (hn : (dims.map Dim.name).Nodup) : Distinct dims := by
  unfold Distinct
  have : dims.map Dim.name = (dims.map Dim.key).map Prod.fst := by
    rw [List.map_map]; rfl
  exact List.Nodup.of_map Prod.fst (this ▸ hn)

theorem dimsBeforeAny_eq {ms p q : List (Dim β)} (hn : ((p ++ q).map Dim.name).Nodup) (hs : ∀ m ∈ ms, m ∈ p ++ q)
    (hp : ∀ d ∈ p, d ∉ ms) (hq : ∀ d, q.head? = some d → d ∈ ms) : dimsBeforeAny ms (p ++ q) = p := by
  have hinj : ∀ d ∈ p ++ q, ∀ e ∈ p ++ q, d.name = e.name → d = e := fun d hd e he h =>
    List.inj_on_of_nodup_map hn hd he h
  have key : ∀ p', (∀ d ∈ p', d ∈ p) → dimsBeforeAny ms (p' ++ q) = p' := by
    intro p'
    induction p' with
    | nil =>
      intro _
      cases q with
      | nil => rfl
      | cons d q =>
        have : containsDim ms d = true := by
          rw [containsDim, List.any_eq_true]
          exact ⟨d, hq d rfl, by simp [matches_, Dim.isa, isSub_refl]⟩
        simp [dimsBeforeAny, this]
    | cons d p' ih =>
      intro hsub
      have : containsDim ms d = false := by
        rw [containsDim, List.any_eq_false]
        intro m hm hmat
        simp only [matches_, Bool.and_eq_true, beq_iff_eq] at hmat
        have hd := hsub d (by simp)
        have := hinj m (hs m hm) d (List.mem_append.2 (.inl hd)) hmat.1
        exact hp d hd (this ▸ hm)
      rw [List.cons_append, dimsBeforeAny, this, if_neg (by simp), ih fun d hd => hsub d (by simp [hd])]
  exact key p fun _ h => h

theorem filter_rest [DecidableEq β] {p q ms : List (Dim β)} (hn : (p ++ q).Nodup) :
    (p ++ q).filter (fun e => e ∉ p ++ ms) = q.filter fun e => e ∉ ms := by
  rw [List.filter_append]
  have h1 : p.filter (fun e => decide (e ∉ p ++ ms)) = [] := by
    rw [List.filter_eq_nil_iff]; intro a ha; simp [ha]
  rw [h1, List.nil_append]
  apply List.filter_congr
  intro a ha
  have : a ∉ p := fun hp => (List.disjoint_of_nodup_append hn) hp ha
  simp [this]

/-- C90: `a[mask]` with a mask over some of the dims of `a` (in any order): the axes of the mask become one new axis, at
the place of the first of them, with one element for each position where the mask is true, in the order of these
positions. -/
theorem C90_mask [DecidableEq β] (ofIdx : Int → β) (x : Arr β α) (hwf : x.WF) (hlab : x.Labelled)
    (hn : (x.dims.map Dim.name).Nodup) (mask : Arr β Bool) (hm1 : ∀ m ∈ mask.dims, m ∈ x.dims) (hm2 : mask.dims.Nodup)
    (hml : mask.Labelled) (hk : mask.dims.length ≠ 1) (ha : AnonOk x.dims) (p q : List (Dim β))
    (hdims : x.dims = p ++ q) (hp : ∀ d ∈ p, d ∉ mask.dims) (hq : ∀ d, q.head? = some d → d ∈ mask.dims) :
    ∃ r a, x.getMaskMany ofIdx mask = .ok r ∧ r.WF ∧ r.Labelled ∧
      r.dims = p ++ a :: q.filter (fun d => d ∉ mask.dims) ∧ a.cls = .dimAnonymous ∧
      a.data.length = (maskPos mask.nd).length ∧ (∀ d ∈ x.dims, d.key ≠ a.key) ∧
      ∀ c, c a.key < (maskPos mask.nd).length → r.at_ c = x.at_ fun k =>
        if k ∈ mask.dims.map Dim.key then
          ((maskPos mask.nd).getD (c a.key) []).getD ((mask.dims.map Dim.key).idxOf k) 0
        else c k := by
  have hdist := distinct_of_names hn
  have hnd : x.dims.Nodup := List.Nodup.of_map _ hn
  have hbef : dimsBeforeAny mask.dims x.dims = p := by
    rw [hdims]
    exact dimsBeforeAny_eq (hdims ▸ hn) (hdims ▸ hm1) hp hq
  have hpm : (p ++ mask.dims).Nodup := by
    rw [List.nodup_append']
    refine ⟨(List.nodup_append.1 (hdims ▸ hnd)).1, hm2, ?_⟩
    intro d h1 h2
    exact hp d h1 h2
  have hsub : p ++ mask.dims ⊆ x.dims := by
    intro d hd
    rcases List.mem_append.1 hd with hd | hd
    · rw [hdims]; simp [hd]
    · exact hm1 d hd
  obtain ⟨y, hy1, hy2, hy3, hy4, hy5⟩ := C07_reorder x hwf hn (p ++ mask.dims) _ (forall₂_refersTo _) hsub hpm
  have hrest : x.dims.filter (fun d => d ∉ p ++ mask.dims) = q.filter fun d => d ∉ mask.dims := by
    rw [hdims]
    exact filter_rest (hdims ▸ hnd)
  rw [hrest] at hy3
  have hys : ∀ d ∈ y.dims, d ∈ x.dims := by
    intro d hd
    rw [hy3] at hd
    rcases List.mem_append.1 hd with hd | hd
    · exact hsub hd
    · rw [hdims]
      exact List.mem_append.2 (.inr (List.mem_filter.1 hd).1)
  have hynd : y.dims.Nodup := by
    rw [hy3, List.nodup_append']
    refine ⟨hpm, (List.nodup_append.1 (hdims ▸ hnd)).2.1.filter _, ?_⟩
    intro d h1 h2
    obtain ⟨h3, h4⟩ := List.mem_filter.1 h2
    rcases List.mem_append.1 h1 with h1 | h1
    · exact List.disjoint_of_nodup_append (hdims ▸ hnd) h1 h3
    · simp [h1] at h4
  have hyd : Distinct y.dims := by
    unfold Distinct at hdist ⊢
    exact List.Nodup.map_on (fun a ha b hb h => List.inj_on_of_nodup_map hdist (hys a ha) (hys b hb) h) hynd
  have hyl := labelled_of_axisLen x y hwf hlab hdist hy2 hyd hys hy4
  have hysh : y.nd.shape = p.map (fun d => d.data.length) ++ (mask.nd.shape ++
      (q.filter fun d => d ∉ mask.dims).map fun d => d.data.length) := by
    rw [← hyl, hy3, List.map_append, List.map_append, ← hml, List.append_assoc]
  obtain ⟨a, ha1, ha2, ha3, ha4, -⟩ := C90_fresh ofIdx x.dims (maskPos mask.nd).length ha
  have hmlen : mask.nd.shape.length = mask.dims.length := by rw [← hml, List.length_map]
  have e1 : y.nd.shape.take p.length = p.map fun d => d.data.length := by
    rw [hysh, List.take_left' (by simp)]
  have e2 : (y.nd.shape.drop p.length).take mask.dims.length = mask.nd.shape := by
    rw [hysh, List.drop_left' (by simp), List.take_left' hmlen]
  have e3 : y.nd.shape.drop (p.length + mask.dims.length) = (q.filter fun d => d ∉ mask.dims).map fun d => d.data.length := by
    rw [← List.drop_drop, hysh, List.drop_left' (by simp), List.drop_left' hmlen]
  have d1 : y.dims.take p.length = p := by rw [hy3, List.append_assoc, List.take_left' rfl]
  have d2 : y.dims.drop (p.length + mask.dims.length) = q.filter fun d => d ∉ mask.dims := by
    rw [hy3, List.drop_left' (by simp)]
  refine ⟨⟨p ++ a :: q.filter (fun d => d ∉ mask.dims),
    ⟨p.map (fun d => d.data.length) ++ (maskPos mask.nd).length :: (q.filter fun d => d ∉ mask.dims).map fun d => d.data.length,
      fun idx => y.nd.get (idx.take p.length ++ (maskPos mask.nd).getD (idx.getD p.length 0) [] ++ idx.drop (p.length + 1))⟩⟩,
    a, ?_, ?_, ?_, rfl, ha2, ha3, ha4, ?_⟩
  · unfold getMaskMany
    split
    · rename_i d hd
      rw [hd] at hk
      simp at hk
    · simp only [hbef, hy1, ha1, e1, e2, e3, d1, d2, ne_eq, not_true, if_false, mk?, Nd.ndim]
      rw [if_pos (by simp)]
  · simp [WF]
  · simp [Labelled, ha3]
  · intro c hc
    rw [← hy5]
    simp only [at_, hy3, List.map_append, List.map_cons]
    congr 1
    have hpos : (maskPos mask.nd).getD (c a.key) [] ∈ maskPos mask.nd := by
      rw [List.getD_eq_getElem?_getD, List.getElem?_eq_getElem hc]
      exact List.getElem_mem hc
    have hval := Nd.Valid.length (((C90_positions mask.nd).2 _).1 hpos).1
    rw [hmlen] at hval
    have hidx : (List.map (fun d => c d.key) p ++ c a.key :: List.map (fun d => c d.key)
        (q.filter fun d => d ∉ mask.dims)).getD p.length 0 = c a.key := by
      simp [List.getD_eq_getElem?_getD]
    have hdrop : (List.map (fun d => c d.key) p ++ c a.key :: List.map (fun d => c d.key)
        (q.filter fun d => d ∉ mask.dims)).drop (p.length + 1) =
        List.map (fun d => c d.key) (q.filter fun d => d ∉ mask.dims) := by
      rw [← List.drop_drop, List.drop_left' (by simp)]
      rfl
    rw [List.take_left' (by simp), hidx, hdrop]
    generalize (maskPos mask.nd).getD (c a.key) [] = pos at hval
    have hkey : ∀ d ∈ x.dims, d ∉ mask.dims → d.key ∉ mask.dims.map Dim.key := by
      intro d hd hdm hmem
      obtain ⟨e, he, hek⟩ := List.mem_map.1 hmem
      exact hdm (List.inj_on_of_nodup_map hdist (hm1 e he) hd hek ▸ he)
    congr 1
    · congr 1
      · apply List.map_congr_left
        intro d hd
        rw [if_neg (hkey d (by rw [hdims]; simp [hd]) (hp d hd))]
      · apply List.ext_getElem
        · rw [List.length_map, hval]
        · intro j h1 h2
          have hj : j < mask.dims.length := by simpa using h2
          have hmk : (mask.dims.map Dim.key).Nodup :=
            List.Nodup.map_on (fun a ha b hb h => List.inj_on_of_nodup_map hdist (hm1 a ha) (hm1 b hb) h) hm2
          have hix : (mask.dims.map Dim.key).idxOf mask.dims[j].key = j := by
            have := hmk.idxOf_getElem j (by simpa using hj)
            simpa using this
          rw [List.getElem_map, if_pos (List.mem_map_of_mem (List.getElem_mem hj)), hix]
          simp [List.getD_eq_getElem?_getD, h1]
    · apply List.map_congr_left
      intro d hd
      obtain ⟨h3, h4⟩ := List.mem_filter.1 hd
      rw [if_neg (hkey d (by rw [hdims]; simp [h3]) (by simpa using h4))]

/-- C90: `a[mask]` with a mask over all the dims, as in `a[a > 0]`: the elements where the mask is true, in the order in
which they are in `a`. -/
theorem C90_select [DecidableEq β] (ofIdx : Int → β) (x : Arr β α) (hwf : x.WF) (hlab : x.Labelled)
    (hn : (x.dims.map Dim.name).Nodup) (mask : Arr β Bool) (hm : mask.dims = x.dims) (hml : mask.Labelled)
    (hk : x.dims.length ≠ 1) (ha : AnonOk x.dims) :
    ∃ r a, x.getMaskMany ofIdx mask = .ok r ∧ r.dims = [a] ∧ r.nd.shape = [a.data.length] ∧
      (List.range a.data.length).map (fun j => r.nd.get [j]) =
        (((List.range (Nd.size x.nd.shape)).map (Nd.unravel x.nd.shape)).filter mask.nd.get).map x.nd.get := by
  have hnd : x.dims.Nodup := List.Nodup.of_map _ hn
  obtain ⟨r, a, h1, h2, h3, h4, -, h6, h7, h8⟩ := C90_mask ofIdx x hwf hlab hn mask (by rw [hm]; exact fun _ h => h)
    (hm ▸ hnd) hml (hm ▸ hk) ha [] x.dims rfl (by simp) (by
      intro d hd
      rw [hm]
      exact List.mem_of_mem_head? hd)
  have hf : x.dims.filter (fun d => d ∉ mask.dims) = [] := by
    rw [List.filter_eq_nil_iff]
    intro d hd
    simp [hm, hd]
  rw [hf, List.nil_append] at h4
  have hsh : mask.nd.shape = x.nd.shape := by rw [← hml, ← hlab, hm]
  have hpos : maskPos mask.nd = ((List.range (Nd.size x.nd.shape)).map (Nd.unravel x.nd.shape)).filter mask.nd.get := by
    rw [maskPos, hsh]
  refine ⟨r, a, h1, h4, by rw [← h3, h4]; rfl, ?_⟩
  rw [← hpos]
  apply List.ext_getElem
  · simp [h6]
  · intro j hj1 hj2
    have hj : j < (maskPos mask.nd).length := by simpa using hj2
    have h := h8 (fun _ => j) hj
    simp only [at_, h4, hm, List.map_cons, List.map_nil] at h
    simp only [List.getElem_map, List.getElem_range]
    rw [h]
    congr 1
    have hmem : (maskPos mask.nd)[j] ∈ maskPos mask.nd := List.getElem_mem hj
    have hval := Nd.Valid.length (((C90_positions mask.nd).2 _).1 hmem).1
    have hkn : (x.dims.map Dim.key).Nodup := distinct_of_names hn
    apply List.ext_getElem
    · rw [List.length_map, hval, ← hml, List.length_map, hm]
    · intro i hi1 hi2
      have hi : i < x.dims.length := by simpa using hi1
      have hix : (x.dims.map Dim.key).idxOf x.dims[i].key = i := by
        have := hkn.idxOf_getElem i (by simpa using hi)
        rwa [List.getElem_map] at this
      rw [List.getElem_map, if_pos (List.mem_map_of_mem (List.getElem_mem hi)), hix]
      simp [List.getD_eq_getElem?_getD, hj, hi2]

/-- C90: a mask whose axes have other lengths than the dims of the array is an `IndexError`. -/
theorem C90_shape [DecidableEq β] (ofIdx : Int → β) (x : Arr β α) (hwf : x.WF) (hlab : x.Labelled)
    (hn : (x.dims.map Dim.name).Nodup) (mask : Arr β Bool) (hm1 : ∀ m ∈ mask.dims, m ∈ x.dims) (hm2 : mask.dims.Nodup)
    (hml : ¬ mask.Labelled) (hk : mask.dims.length ≠ 1) (ha : AnonOk x.dims) (p q : List (Dim β))
    (hdims : x.dims = p ++ q) (hp : ∀ d ∈ p, d ∉ mask.dims) (hq : ∀ d, q.head? = some d → d ∈ mask.dims) :
    x.getMaskMany ofIdx mask = .error .indexError := by
  have hdist := distinct_of_names hn
  have hnd : x.dims.Nodup := List.Nodup.of_map _ hn
  have hbef : dimsBeforeAny mask.dims x.dims = p := by
    rw [hdims]
    exact dimsBeforeAny_eq (hdims ▸ hn) (hdims ▸ hm1) hp hq
  have hpm : (p ++ mask.dims).Nodup := by
    rw [List.nodup_append']
    exact ⟨(List.nodup_append.1 (hdims ▸ hnd)).1, hm2, fun d h1 h2 => hp d h1 h2⟩
  have hsub : p ++ mask.dims ⊆ x.dims := by
    intro d hd
    rcases List.mem_append.1 hd with hd | hd
    · rw [hdims]; simp [hd]
    · exact hm1 d hd
  obtain ⟨y, hy1, hy2, hy3, hy4, -⟩ := C07_reorder x hwf hn (p ++ mask.dims) _ (forall₂_refersTo _) hsub hpm
  have hys : ∀ d ∈ y.dims, d ∈ x.dims := by
    intro d hd
    rw [hy3] at hd
    rcases List.mem_append.1 hd with hd | hd
    · exact hsub hd
    · exact (List.mem_filter.1 hd).1
  have hynd : y.dims.Nodup := by
    rw [hy3, List.nodup_append']
    refine ⟨hpm, hnd.filter _, fun d h1 h2 => ?_⟩
    have := (List.mem_filter.1 h2).2
    simp only [decide_not, Bool.not_eq_true', decide_eq_false_iff_not] at this
    exact this h1
  have hyd : Distinct y.dims := by
    unfold Distinct at hdist ⊢
    exact List.Nodup.map_on (fun a ha b hb h => List.inj_on_of_nodup_map hdist (hys a ha) (hys b hb) h) hynd
  have hyl := labelled_of_axisLen x y hwf hlab hdist hy2 hyd hys hy4
  obtain ⟨a, ha1, -⟩ := C90_fresh ofIdx x.dims (maskPos mask.nd).length ha
  have e2 : (y.nd.shape.drop p.length).take mask.dims.length = mask.dims.map fun d => d.data.length := by
    rw [← hyl, hy3, List.map_append, List.map_append, List.append_assoc, List.drop_left' (by simp),
      List.take_left' (by simp)]
  unfold getMaskMany
  split
  · rename_i d hd
    rw [hd] at hk
    simp at hk
  · simp only [hbef, hy1, ha1, e2]
    rw [if_pos fun h => hml h.symm]

/-- C90 fails: with an anonymous dim whose name begins with ANON and does not go on with a number, there is no new
axis and so no selecting. -/
theorem C90_name_refuted [DecidableEq β] (ofIdx : Int → β) (x : Arr β α) (hwf : x.WF)
    (hn : (x.dims.map Dim.name).Nodup) (mask : Arr β Bool) (hm1 : ∀ m ∈ mask.dims, m ∈ x.dims) (hm2 : mask.dims.Nodup)
    (hk : mask.dims.length ≠ 1) (d : Dim β) (hd : d ∈ x.dims) (hc : d.cls = .dimAnonymous) (t : List Char)
    (ht : d.name.toList = "ANON".toList ++ t) (hb : ¬ (t ≠ [] ∧ t.all Char.isDigit = true)) :
    x.getMaskMany ofIdx mask = .error .valueError := by
  have hnum : anonNumbers x.dims = .error .valueError := by
    have key : ∀ ds : List (Dim β), d ∈ ds → anonNumbers ds = .error .valueError := by
      intro ds
      induction ds with
      | nil => simp
      | cons e ds ih =>
        intro hmem
        rw [anonNumbers]
        rcases List.mem_cons.1 hmem with rfl | hmem
        · have hdrop : d.name.toList.drop 4 = t := by rw [ht]; rfl
          rw [if_pos ⟨isa_anon.2 hc, List.isPrefixOf_iff_prefix.2 ⟨t, ht.symm⟩⟩, hdrop]
          simp only [intOf]
          rw [if_neg hb]
        · rw [ih hmem]
          split
          · cases intOf (e.name.toList.drop 4) <;> rfl
          · rfl
    exact key _ hd
  have hnd : x.dims.Nodup := List.Nodup.of_map _ hn
  have hin : ∀ ds : List (Dim β), dimsBeforeAny mask.dims ds <+: ds ∧
      ∀ e ∈ dimsBeforeAny mask.dims ds, e ∉ mask.dims := by
    intro ds
    induction ds with
    | nil => simp [dimsBeforeAny]
    | cons e ds ih =>
      rw [dimsBeforeAny]
      split
      · simp
      · rename_i h
        refine ⟨by rw [List.prefix_cons_inj]; exact ih.1, ?_⟩
        intro e' he'
        rcases List.mem_cons.1 he' with rfl | he'
        · intro hmem
          apply h
          rw [containsDim, List.any_eq_true]
          exact ⟨e', hmem, by simp [matches_, Dim.isa, isSub_refl]⟩
        · exact ih.2 e' he'
  obtain ⟨h1, h2⟩ := hin x.dims
  have hpm : (dimsBeforeAny mask.dims x.dims ++ mask.dims).Nodup := by
    rw [List.nodup_append']
    exact ⟨hnd.sublist h1.sublist, hm2, fun d h3 h4 => h2 d h3 h4⟩
  have hsub : dimsBeforeAny mask.dims x.dims ++ mask.dims ⊆ x.dims := by
    intro d hd
    rcases List.mem_append.1 hd with hd | hd
    · exact h1.subset hd
    · exact hm1 d hd
  obtain ⟨y, hy1, -⟩ := C07_reorder x hwf hn _ _ (forall₂_refersTo _) hsub hpm
  unfold getMaskMany
  split
  · rename_i d hd
    rw [hd] at hk
    simp at hk
  · simp only [hy1, newAnonymous, hnum]

/-! ### Setting -/

/-- C90: `a[mask] = v` sets exactly the elements where the mask is true, if the dims of the mask are the first dims of the
array, in the same order. -/
theorem C90_set (x : Arr β α) (hlab : x.Labelled) (mask : Arr β Bool) (hml : mask.Labelled) (rest : List (Dim β))
    (hd : x.dims = mask.dims ++ rest) (v : α) :
    ∃ r, x.setMask mask v = .ok r ∧ r.dims = x.dims ∧ r.nd.shape = x.nd.shape ∧
      ∀ c, r.at_ c = if mask.at_ c then v else x.at_ c := by
  have hlen : mask.nd.shape.length = mask.dims.length := by rw [← hml, List.length_map]
  have htake : x.nd.shape.take mask.nd.shape.length = mask.nd.shape := by
    rw [← hlab, hd, List.map_append, hlen, List.take_left' (by simp)]
    exact hml
  refine ⟨⟨x.dims, ⟨x.nd.shape, fun idx => if mask.nd.get (idx.take mask.nd.shape.length) then v else x.nd.get idx⟩⟩,
    ?_, rfl, rfl, ?_⟩
  · simp only [setMask, htake, ne_eq, not_true, if_false]
  · intro c
    have ht : (x.dims.map fun d => c d.key).take mask.nd.shape.length = mask.dims.map fun d => c d.key := by
      rw [hd, List.map_append, hlen, List.take_left' (by simp)]
    have hm : mask.nd.get ((x.dims.map fun d => c d.key).take mask.nd.shape.length) = mask.at_ c := by
      rw [ht]
      rfl
    show (if mask.nd.get ((x.dims.map fun d => c d.key).take mask.nd.shape.length) then v else x.at_ c) = _
    rw [hm]

/-- C90 fails: with the dims of the mask in another order, `a[mask] = v` is without complaint for square matrices, but sets
the transposed elements — not those which `a[mask]` reads. -/
theorem C90_set_refuted (x : Arr β α) (d e : Dim β) (hd : x.dims = [d, e]) (hlab : x.Labelled) (hne : d.key ≠ e.key)
    (hsq : d.data.length = e.data.length) (mask : Arr β Bool) (hmd : mask.dims = [e, d]) (hml : mask.Labelled) (v : α) :
    ∃ r, x.setMask mask v = .ok r ∧ r.dims = x.dims ∧
      ∀ c, r.at_ c = if mask.at_ (fun k => if k = d.key then c e.key else if k = e.key then c d.key else c k) then v
        else x.at_ c := by
  have hsh : x.nd.shape = [d.data.length, e.data.length] := by rw [← hlab, hd]; rfl
  have hms : mask.nd.shape = [e.data.length, d.data.length] := by rw [← hml, hmd]; rfl
  refine ⟨⟨x.dims, ⟨x.nd.shape, fun idx => if mask.nd.get (idx.take mask.nd.shape.length) then v else x.nd.get idx⟩⟩,
    ?_, rfl, ?_⟩
  · simp [setMask, hsh, hms, hsq]
  · intro c
    simp only [at_, hd, hmd, hms, List.map_cons, List.map_nil, List.length_cons, List.length_nil, List.take_succ_cons,
      List.take_zero, if_pos, if_neg (Ne.symm hne)]

end Arr
end HF
