import Verif.Readers.TreatLemmas
import Verif.DataBlock.ConvertProps
/-
Lemmas about complex columns over one sweep.
-/
namespace HF.Readers.Treat

open HF.DataDict.Spec HF.DataBlock
open HF.DataDict hiding rename delitem

variable {β α : Type}

theorem Tab.exact {b : Block β α} {sw : Dim β} {n : Nat} {L : List (String × (Nat → α))} (h : Tab b sw n L) :
    Exact b sw := by
  refine ⟨h.ivars, h.cls, ?_⟩
  intro w hw
  have hk : w.1 ∈ DataBlock.keys b.vars := List.mem_map_of_mem hw
  obtain ⟨e, he, e1⟩ := List.mem_map.1 ((h.keys _).1 hk)
  obtain ⟨a, ha, hd, -⟩ := h.col e he
  rw [e1, mem_lookup h.nodup hw] at ha
  cases ha
  exact hd

theorem Tab.shape {b : Block β α} {sw : Dim β} {n : Nat} {L : List (String × (Nat → α))} (h : Tab b sw n L) :
    ∀ w ∈ b.vars, w.2.nd.shape = [n] := by
  intro w hw
  have hk : w.1 ∈ DataBlock.keys b.vars := List.mem_map_of_mem hw
  obtain ⟨e, he, e1⟩ := List.mem_map.1 ((h.keys _).1 hk)
  obtain ⟨a, ha, -, hd, -⟩ := h.col e he
  rw [e1, mem_lookup h.nodup hw] at ha
  cases ha
  exact hd

theorem axisLen_col {x : Arr β α} {sw : Dim β} {n : Nat} (h1 : x.dims = [sw]) (h2 : x.nd.shape = [n]) (k : Key) :
    x.axisLen k = if sw.key = k then some n else none := by
  unfold Arr.axisLen
  rw [h1, h2]
  by_cases e : sw.key = k <;> simp [e]

theorem fit_cols {x y : Arr β α} {sw : Dim β} {n : Nat} (hs : sw.cls = .dimSweep) (h1 : x.dims = [sw])
    (h2 : x.nd.shape = [n]) (h3 : y.dims = [sw]) (h4 : y.nd.shape = [n]) : Complex.Fit x y := by
  refine ⟨by simp [Arr.WF, h1, h2], by simp [Arr.WF, h3, h4], by simp [Arr.Distinct, h1], by simp [Arr.Distinct, h3], ?_, ?_, ?_⟩
  · intro d hd e he _ _
    simp only [h1, h3, List.cons_append, List.nil_append, List.mem_cons, List.not_mem_nil, or_false, or_self] at hd he
    rw [hd, he]
  · intro k s t hs ht
    rw [axisLen_col h1 h2] at hs
    rw [axisLen_col h3 h4] at ht
    split at hs
    · rename_i e
      rw [if_pos e] at ht
      cases hs; cases ht
      exact Or.inl rfl
    · cases hs
  · have a1 : Cls.isSub .dimSweep .complexDeriv = false := by decide +kernel
    have a2 : Cls.isSub .dimSweep .complexIndep = false := by decide +kernel
    have a3 : Cls.isSub .dimSweep .complexDiag = false := by decide +kernel
    simp [Dim.hasComplex, h1, h3, Dim.isa, hs, a1, a2, a3]

theorem combined_cols {f : α → α → α} {x y r : Arr β α} {sw : Dim β} {n : Nat} (h1 : x.dims = [sw])
    (h2 : x.nd.shape = [n]) (h3 : y.dims = [sw]) (h4 : y.nd.shape = [n]) (h : Complex.Combined f x y r) :
    r.dims = [sw] ∧ r.nd.shape = [n] ∧ ∀ k < n, r.nd.get [k] = f (x.nd.get [k]) (y.nd.get [k]) := by
  obtain ⟨c1, c2, c3, c4, c5⟩ := h
  have hall : ∀ d ∈ r.dims, d = sw := by
    intro d hd
    rcases c3 d hd with h | h
    · simpa [h1] using h
    · simpa [h3] using h
  have hlen := c4 sw.key
  rw [axisLen_col h1 h2, axisLen_col h3 h4, if_pos rfl] at hlen
  have hb : Arr.bLen (some n) (some n) = some n := by simp [Arr.bLen]
  rw [hb] at hlen
  have hd : r.dims = [sw] := by
    cases hr : r.dims with
    | nil => simp [Arr.axisLen, hr] at hlen
    | cons a t =>
      cases t with
      | nil => rw [hall a (by simp [hr])]
      | cons b t =>
        rw [hr] at hall
        unfold Arr.Distinct at c2
        rw [hr, hall a (by simp), hall b (by simp)] at c2
        simp at c2
  have hsh : r.nd.shape = [n] := by
    unfold Arr.WF at c1
    rw [hd] at c1
    cases hr : r.nd.shape with
    | nil => rw [hr] at c1; simp at c1
    | cons m t =>
      cases t with
      | cons b t => rw [hr] at c1; simp at c1
      | nil =>
        rw [axisLen_col hd hr, if_pos rfl] at hlen
        cases hlen; rfl
  refine ⟨hd, hsh, fun k hk => ?_⟩
  have := c5 (fun _ => k) (by
    unfold Arr.InRange
    rw [hd, hsh]
    simp [Nd.Valid, hk])
  simp only [Arr.at_, Arr.atB, hd, h1, h2, h3, h4, List.map_cons, List.map_nil, List.zipWith_cons_cons, List.zipWith_nil_left] at this
  rw [this]
  by_cases e : n = 1
  · have : k = 0 := by omega
    simp [e, this]
  · simp [e]

theorem part_inj {K : List String} {re im : α → α} {items : List (Item α)} (hs : Sober items)
    (hK : ∀ k, k ∈ K ↔ k ∈ (items.flatMap (Item.cols re im)).map Prod.fst) {s f v : String} (h : s ∈ K)
    (ho : Complex.outer s = (f, v)) (hf : f ≠ "") : ∃ it ∈ items, it.cplx = true ∧ it.name = v ∧
      ((f = "Re" ∧ s = it.part ['R', 'e']) ∨ (f = "Im" ∧ s = it.part ['I', 'm'])) := by
  obtain ⟨e, he, rfl⟩ := List.mem_map.1 ((hK s).1 h)
  obtain ⟨it, hi, ⟨hc, rfl⟩ | ⟨hc, rfl⟩ | ⟨hc, rfl⟩⟩ := mem_cols he
  · rw [outer_title (hs.ident it hi) (hs.word it hi)] at ho
    cases ho
    exact absurd rfl hf
  · rw [outer_part (hs.ident it hi) (hs.word it hi) _ identRe] at ho
    simp only [Prod.mk.injEq] at ho
    exact ⟨it, hi, hc, ho.2, Or.inl ⟨ho.1.symm, rfl⟩⟩
  · rw [outer_part (hs.ident it hi) (hs.word it hi) _ identIm] at ho
    simp only [Prod.mk.injEq] at ho
    exact ⟨it, hi, hc, ho.2, Or.inr ⟨ho.1.symm, rfl⟩⟩

theorem mem_part {re im : α → α} {items : List (Item α)} {it : Item α} (hi : it ∈ items) (hc : it.cplx = true) :
    (it.part ['R', 'e'], fun k => re (it.val k)) ∈ items.flatMap (Item.cols re im) ∧
    (it.part ['I', 'm'], fun k => im (it.val k)) ∈ items.flatMap (Item.cols re im) := by
  constructor <;> refine List.mem_flatMap.2 ⟨it, hi, ?_⟩ <;> simp [Item.cols, hc]

theorem mem_title {re im : α → α} {items : List (Item α)} {it : Item α} (hi : it ∈ items) (hc : it.cplx = false) :
    (it.title, it.val) ∈ items.flatMap (Item.cols re im) :=
  List.mem_flatMap.2 ⟨it, hi, by simp [Item.cols, hc]⟩

/-- Putting together the columns of complex items. -/
theorem cplx_step (env : Env β α) (full : Arr β α → Arr β α) (rect polar : α → α → α) (re im : α → α)
    (hri : ∀ x, rect (re x) (im x) = x) {b : Block β α} {sw : Dim β} {n : Nat} {items : List (Item α)}
    (ht : Tab b sw n (items.flatMap (Item.cols re im))) (hs : Sober items) (hsw : (Complex.outer sw.name).1 = "")
    (hsn : sw.name ∉ items.map Item.name) :
    ∃ b', Complex.makeCplx env full rect polar b = .ok b' ∧ Tab b' sw n (items.map Item.mid) := by
  have hex := ht.exact
  have hsh := ht.shape
  have hivk : ∀ k, k ∈ DataBlock.keys b.ivars ↔ k = sw.name := by
    intro k; rw [ht.ivars]; simp [DataBlock.keys]
  have hpart : ∀ k ∈ DataBlock.keys b.vars, Complex.IsPart k → ∃ it ∈ items, it.cplx = true ∧
      (Complex.outer k).2 = it.name := by
    intro k hk hp
    obtain ⟨it, hi, hc, hv, -⟩ := part_inj hs ht.keys hk (s := k) (f := (Complex.outer k).1)
      (v := (Complex.outer k).2) rfl (by
        intro h0
        unfold Complex.IsPart at hp
        rw [h0] at hp
        simp at hp)
    exact ⟨it, hi, hc, hv.symm⟩
  have hplainname : ∀ it ∈ items, it.cplx = true → it.name ∉ DataBlock.keys b.vars := by
    intro it hi hc hk
    obtain ⟨it', hi', e, hc'⟩ := plain_title ((hs.ident it hi).none (by decide)) ((hs.ident it hi).none (by decide))
      ((ht.keys _).1 hk)
    rw [hs.inj hi' hi e, hc] at hc'
    cases hc'
  have hplain : Complex.Plain b := by
    refine ⟨?_, ht.nodup, ?_, ?_, ?_, ?_, ?_⟩
    · intro k hk h
      rw [hivk] at h
      exact ht.apart (h ▸ (ht.keys _).1 hk)
    · intro k hk hp
      rw [hivk] at hk
      unfold Complex.IsPart at hp
      rw [hk, hsw] at hp
      simp at hp
    · intro w hw d hd
      rw [hex.dims w hw] at hd
      rw [hivk, List.mem_singleton.1 hd]
    · intro k hk hp hp'
      obtain ⟨it, hi, hc, e⟩ := hpart k hk hp
      unfold Complex.IsPart at hp'
      rw [e, outer_no_paren ((hs.ident it hi).none (by decide))] at hp'
      simp at hp'
    · intro k hk hp m i j hm
      obtain ⟨it, hi, hc, e⟩ := hpart k hk hp
      rw [e] at hm
      have hpre := matrixName_prefix hm
      constructor
      · intro h
        obtain ⟨it', hi', rfl, -⟩ := plain_title
          (fun h => (hs.ident it hi).none (by decide) (hpre.subset h))
          (fun h => (hs.ident it hi).none (by decide) (hpre.subset h)) ((ht.keys _).1 h)
        exact hs.elem it hi it' hi' i j hm
      · intro k' hk' hp' e'
        obtain ⟨it', hi', hc', e''⟩ := hpart k' hk' hp'
        rw [e', e''] at hm
        exact hs.elem it hi it' hi' i j hm
    · intro w hw w' hw' _ _ _
      exact fit_cols ht.cls (hex.dims w hw) (hsh w hw) (hex.dims w' hw') (hsh w' hw')
  obtain ⟨b', js, g1, g2, g3, g4, g5, g6⟩ := Complex.C51_make_cplx env full rect polar b hplain
  -- the jobs
  have hname : ∀ v, v ∈ js.map Complex.Job.name ↔ ∃ it ∈ items, it.cplx = true ∧ it.name = v := by
    intro v
    rw [g5]
    constructor
    · rintro ⟨-, -, ⟨⟨s, hs1, ho⟩, -⟩ | ⟨⟨s, hs1, ho⟩, -⟩⟩
      · obtain ⟨it, hi, hc, hv, -⟩ := part_inj hs ht.keys hs1 ho (by decide)
        exact ⟨it, hi, hc, hv⟩
      · obtain ⟨it, hi, hc, hv, -⟩ := part_inj hs ht.keys hs1 ho (by decide)
        exact ⟨it, hi, hc, hv⟩
    · rintro ⟨it, hi, hc, rfl⟩
      refine ⟨hplainname it hi hc, ?_, Or.inl ⟨⟨it.part ['R', 'e'], ?_, ?_⟩, it.part ['I', 'm'], ?_, ?_⟩⟩
      · rw [hivk]
        intro e
        exact hsn (e ▸ List.mem_map_of_mem hi)
      · exact (ht.keys _).2 (List.mem_map_of_mem (mem_part hi hc).1)
      · exact outer_part (hs.ident it hi) (hs.word it hi) _ identRe
      · exact (ht.keys _).2 (List.mem_map_of_mem (mem_part (re := re) hi hc).2)
      · exact outer_part (hs.ident it hi) (hs.word it hi) _ identIm
  have hjob : ∀ j ∈ js, ∃ it ∈ items, it.cplx = true ∧ it.name = j.name ∧ j.fst = it.part ['R', 'e'] ∧
      j.snd = it.part ['I', 'm'] ∧ j.val.dims = [sw] ∧ j.val.nd.shape = [n] ∧ ∀ k < n, j.val.nd.get [k] = it.val k := by
    intro j hj
    obtain ⟨x, y, hx, hy, h | h⟩ := g6 j hj
    · obtain ⟨h1, h2, h3⟩ := h
      obtain ⟨m1, o1⟩ := Complex.lastCall_some h1
      obtain ⟨m2, o2⟩ := Complex.lastCall_some h2
      obtain ⟨it, hi, hc, hv, h | h⟩ := part_inj hs ht.keys m1 o1 (by decide)
      · obtain ⟨it', hi', hc', hv', h' | h'⟩ := part_inj hs ht.keys m2 o2 (by decide)
        · exact absurd h'.1 (by decide)
        · have := hs.inj hi' hi (hv'.trans hv.symm)
          subst this
          refine ⟨it', hi, hc, hv, h.2, h'.2, ?_⟩
          obtain ⟨a, ha, a1, a2, a3⟩ := ht.col _ (mem_part (re := re) (im := im) hi hc).1
          obtain ⟨c, hc', c1, c2, c3⟩ := ht.col _ (mem_part (re := re) (im := im) hi hc).2
          rw [h.2, ha] at hx
          rw [h'.2, hc'] at hy
          cases hx
          cases hy
          obtain ⟨r1, r2, r3⟩ := combined_cols a1 a2 c1 c2 h3
          refine ⟨r1, r2, fun k hk => ?_⟩
          rw [r3 k hk, a3 k hk, c3 k hk, hri]
      · exact absurd h.1 (by decide)
    · obtain ⟨-, h1, -⟩ := h
      obtain ⟨m1, o1⟩ := Complex.lastCall_some h1
      obtain ⟨it, -, -, -, h | h⟩ := part_inj hs ht.keys m1 o1 (by decide)
      · exact absurd h.1 (by decide)
      · exact absurd h.1 (by decide)
  have heaten : ∀ t, t ∈ Complex.eaten js ↔ ∃ it ∈ items, it.cplx = true ∧ (t = it.part ['R', 'e'] ∨ t = it.part ['I', 'm']) := by
    intro t
    unfold Complex.eaten
    rw [List.mem_flatMap]
    constructor
    · rintro ⟨j, hj, hm⟩
      obtain ⟨it, hi, hc, -, e1, e2, -⟩ := hjob j hj
      refine ⟨it, hi, hc, ?_⟩
      rw [← e1, ← e2]
      simpa using hm
    · rintro ⟨it, hi, hc, h⟩
      obtain ⟨j, hj, e⟩ := List.mem_map.1 ((hname it.name).2 ⟨it, hi, hc, rfl⟩)
      obtain ⟨it', hi', -, e0, e1, e2, -⟩ := hjob j hj
      have := hs.inj hi' hi (e0.trans e)
      subst this
      refine ⟨j, hj, ?_⟩
      rw [e1, e2]
      simpa using h
  have hnote : ∀ it ∈ items, it.cplx = false → it.title ∉ Complex.eaten js := by
    intro it hi hc h
    obtain ⟨it', hi', hc', h⟩ := (heaten _).1 h
    have o := outer_title (hs.ident it hi) (hs.word it hi)
    rcases h with h | h
    · rw [h, outer_part (hs.ident it' hi') (hs.word it' hi') _ identRe] at o
      exact absurd (congrArg Prod.fst o) (by simp)
    · rw [h, outer_part (hs.ident it' hi') (hs.word it' hi') _ identIm] at o
      exact absurd (congrArg Prod.fst o) (by simp)
  have hnd : (DataBlock.keys b'.vars).Nodup := by
    rw [DataBlock.keys, g3, List.map_append, List.map_map]
    refine List.nodup_append.2 ⟨(List.filter_sublist.map _).nodup ht.nodup, g4, ?_⟩
    rintro a ha c hc rfl
    obtain ⟨w, hw, rfl⟩ := List.mem_map.1 ha
    obtain ⟨it, hi, hc', e⟩ := (hname w.1).1 hc
    exact hplainname it hi hc' (e ▸ List.mem_map_of_mem (List.mem_filter.1 hw).1)
  have hmem : ∀ it ∈ items, ∃ a, (it.mid.1, a) ∈ b'.vars ∧ a.dims = [sw] ∧ a.nd.shape = [n] ∧
      ∀ k < n, a.nd.get [k] = it.val k := by
    intro it hi
    cases hc : it.cplx
    · obtain ⟨a, ha, h1⟩ := ht.col _ (mem_title (re := re) (im := im) hi hc)
      refine ⟨a, ?_, h1⟩
      rw [g3]
      refine List.mem_append_left _ (List.mem_filter.2 ⟨?_, ?_⟩)
      · simp only [Item.mid, hc, Bool.false_eq_true, if_false]
        exact lookup_mem ha
      · simpa [Item.mid, hc] using hnote it hi hc
    · obtain ⟨j, hj, e⟩ := List.mem_map.1 ((hname it.name).2 ⟨it, hi, hc, rfl⟩)
      obtain ⟨it', hi', -, e0, e1, e2, e3⟩ := hjob j hj
      have := hs.inj hi' hi (e0.trans e)
      subst this
      refine ⟨j.val, ?_, e3⟩
      rw [g3]
      refine List.mem_append_right _ (List.mem_map.2 ⟨j, hj, ?_⟩)
      simp only [Item.mid, hc, if_true, e]
  refine ⟨b', g1, by rw [g2, ht.ivars], ht.cls, hnd, ?_, ?_, ?_⟩
  · intro k
    constructor
    · intro hk
      obtain ⟨w, hw, rfl⟩ := List.mem_map.1 hk
      rw [g3] at hw
      rcases List.mem_append.1 hw with hw | hw
      · obtain ⟨hw1, hw2⟩ := List.mem_filter.1 hw
        have hw2' : w.1 ∉ Complex.eaten js := by simpa using hw2
        obtain ⟨e, he, e1⟩ := List.mem_map.1 ((ht.keys w.1).1 (List.mem_map_of_mem hw1))
        obtain ⟨it, hi, ⟨hc, rfl⟩ | ⟨hc, rfl⟩ | ⟨hc, rfl⟩⟩ := mem_cols he
        · refine List.mem_map.2 ⟨it.mid, List.mem_map_of_mem hi, ?_⟩
          rw [← e1]
          simp [Item.mid, hc]
        · exact absurd ((heaten _).2 ⟨it, hi, hc, Or.inl e1.symm⟩) hw2'
        · exact absurd ((heaten _).2 ⟨it, hi, hc, Or.inr e1.symm⟩) hw2'
      · obtain ⟨j, hj, rfl⟩ := List.mem_map.1 hw
        obtain ⟨it, hi, hc, e, -⟩ := hjob j hj
        refine List.mem_map.2 ⟨it.mid, List.mem_map_of_mem hi, ?_⟩
        simp [Item.mid, hc, e]
    · intro hk
      obtain ⟨e, he, rfl⟩ := List.mem_map.1 hk
      obtain ⟨it, hi, rfl⟩ := List.mem_map.1 he
      obtain ⟨a, ha, -⟩ := hmem it hi
      exact List.mem_map_of_mem (f := Prod.fst) ha
  · intro h
    obtain ⟨e, he, e1⟩ := List.mem_map.1 h
    obtain ⟨it, hi, rfl⟩ := List.mem_map.1 he
    cases hc : it.cplx
    · simp only [Item.mid, hc, Bool.false_eq_true, if_false] at e1
      exact ht.apart (e1 ▸ List.mem_map_of_mem (mem_title (re := re) (im := im) hi hc))
    · simp only [Item.mid, hc, if_true] at e1
      exact hsn (e1 ▸ List.mem_map_of_mem hi)
  · intro e he
    obtain ⟨it, hi, rfl⟩ := List.mem_map.1 he
    obtain ⟨a, ha, h1⟩ := hmem it hi
    exact ⟨a, mem_lookup hnd ha, h1⟩

end HF.Readers.Treat
