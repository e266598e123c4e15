import Verif.HFArray.IndexLemmas
/-
C09: indexing keeps dims and data in step.
-/
namespace HF
namespace Arr

variable {β α : Type}

theorem selOf_full (n : Nat) : selOf (.slice Slice.full) n = some (.many (List.range n)) := by
  simp [selOf, Slice.indices_full]

/-- C09.  Indexing with integers, slices and at most one `Ellipsis`.  `full` is the tuple with
one component per axis; `sels` are the positions it selects.  If an axis remains (or there is
an `Ellipsis`) the result is an array with one dim per axis: integer-indexed dims are gone,
the others keep class, name and unit and carry exactly the coordinate values at the selected
positions, and the element at
every named coordinate is the element of the original at the corresponding one. -/
theorem C09_index (dflt : β → String) (x : Arr β α) (hwf : x.WF) (hlab : x.Labelled) (hd : Distinct x.dims)
    (ixs full : List Ix) (hf : Fills x.dims.length ixs full) (sels : List Sel)
    (hs : (full.zip x.nd.shape).mapM (fun p => selOf p.1 p.2) = some sels)
    (hk : (∃ l, Sel.many l ∈ sels) ∨ Ix.ellipsis ∈ ixs) (hsl : ∀ d ∈ x.dims, Sliceable d) :
    ∃ r, x.getitem dflt ixs = .ok (.arr r) ∧ r.WF ∧ r.Labelled ∧
      r.dims.map strip = selDims sels x.dims ∧
      ∀ c, r.InRange c →
        r.at_ c = x.at_ (srcCoord sels x.dims c) ∧
        ∀ e ∈ r.dims, ∃ d ∈ x.dims, d.key = e.key ∧
          e.data[c e.key]? = d.data[srcCoord sels x.dims c e.key]? := by
  obtain ⟨ex, h1, h2, h3⟩ := hf.expand
  have hlen := hf.length
  have hwf' : x.nd.ndim = x.dims.length := hwf.symm
  have hs' := hs
  rw [← hlab] at hs'
  obtain ⟨rd, hid, hrd, hsl⟩ := indexDims_of dflt hlen hs' hsl
  have hres := resolve_of (by rw [hlen]; exact hwf) hs
  have hltn := selOf_lt hs'
  have hlt : ∀ l d, (Sel.many l, d) ∈ sels.zip x.dims → ∀ k ∈ l, k < d.data.length := by
    intro l d hm
    apply hltn l d.data.length
    rw [List.zip_map_right]
    exact List.mem_map.2 ⟨_, hm, rfl⟩
  have hsh := selShape_dims sels x.dims hsl hlt
  have labels : ∀ (r : Arr β α), r.Labelled → r.dims.map strip = selDims sels x.dims → ∀ c,
      r.InRange c → ∀ e ∈ r.dims, ∃ d ∈ x.dims, d.key = e.key ∧
          e.data[c e.key]? = d.data[srcCoord sels x.dims c e.key]? := by
    intro r hr hrd c hc e he
    have : c e.key < e.data.length := by
      obtain ⟨j, hj, rfl⟩ := List.getElem_of_mem he
      have := (Nd.valid_iff.1 hc).2 j (by rw [← hr]; simpa using hj)
      rw [← hr] at this
      simpa [List.getElem?_eq_getElem hj] using this
    exact srcCoord_label (e := strip e) hd hlt c (hrd ▸ List.mem_map_of_mem he) this
  by_cases hell : ixs = [.ellipsis]
  · have hsd : selDims sels x.dims = x.dims.map strip ∧
        sels = x.dims.map fun d => Sel.many (List.range d.data.length) := by
      have : full = List.replicate x.dims.length (.slice Slice.full) := by
        rw [← h2]
        subst hell
        have := expand_mid (p := []) (q := []) (by simp [Plain]) (by simp [Plain]) x.dims.length
        simp only [List.nil_append] at this
        rw [this] at h1
        cases h1
        simp
      subst this
      clear hid hres hsh labels h2 hlen hf hk hs hlt hltn hsl h1 hrd
      clear hlab hwf hwf' hd
      generalize x.dims = ds at hs' ⊢
      induction ds generalizing sels with
      | nil => simp at hs'; subst hs'; exact ⟨rfl, rfl⟩
      | cons d ds ih =>
        simp only [List.length_cons, List.replicate_succ, List.map_cons, List.zip_cons_cons,
          List.mapM_cons, selOf_full] at hs'
        cases hr : ((List.replicate ds.length (Ix.slice Slice.full)).zip
            (ds.map fun d => d.data.length)).mapM (fun p => selOf p.1 p.2) with
        | none => rw [hr] at hs'; cases hs'
        | some r =>
          rw [hr] at hs'
          have hh : sels = .many (List.range d.data.length) :: r := by cases hs'; rfl
          subst hh
          obtain ⟨i1, i2⟩ := ih r hr
          refine ⟨?_, by simp [i2]⟩
          simp only [selDims, filterMap_range, i1, List.map_cons]
          rfl
    refine ⟨x, ?_, hwf, hlab, hsd.1.symm, fun c hc => ⟨?_, labels x hlab hsd.1.symm c hc⟩⟩
    · subst hell; simp [getitem]
    · have hin : ∀ d ∈ x.dims, c d.key < d.data.length := by
        intro e he
        obtain ⟨j, hj, rfl⟩ := List.getElem_of_mem he
        have := (Nd.valid_iff.1 hc).2 j (by rw [← hlab]; simpa using hj)
        rw [← hlab] at this
        simpa [List.getElem?_eq_getElem hj] using this
      simp only [at_]
      congr 1
      rw [srcCoord_map hd hsl, hsd.1, hsd.2, List.map_map]
      have hkey : ((fun d : Dim β => c d.key) ∘ strip) = fun d => c d.key := rfl
      rw [hkey]
      clear hsd hsh labels hid hlt hsl hs' hc hd hlab hwf hwf' hf h1 hlen hrd
      generalize x.dims = ds at hin ⊢
      induction ds with
      | nil => rfl
      | cons d ds ih =>
        have := hin d (by simp)
        simp only [List.map_cons, Nd.selIdx, List.headD_cons, List.tail_cons]
        rw [← ih fun e he => hin e (by simp [he])]
        simp [List.getD_eq_getElem?_getD, List.getElem?_range this]
  · have hnsc : ¬ (Nd.selShape sels = [] ∧ Ix.ellipsis ∉ ixs) := by
      rintro ⟨a, b⟩
      rcases hk with ⟨l, hl⟩ | hk
      · clear hid hres hsh labels hlt hltn hsl hs hs' hrd
        induction sels with
        | nil => simp at hl
        | cons s t ih =>
          cases s with
          | one k => exact ih (by simpa [Nd.selShape] using a) (by simpa using hl)
          | many l => simp [Nd.selShape] at a
      · exact b hk
    have hmk : rd.length = (Nd.selShape sels).length := by
      rw [← hsh, ← hrd, List.length_map, List.length_map]
    have hshr : rd.map (fun d => d.data.length) = Nd.selShape sels := by
      rw [← hsh, ← hrd, List.map_map]; rfl
    let r : Arr β α := ⟨rd,
      ⟨Nd.selShape sels, fun idx => x.nd.get (Nd.selIdx sels idx)⟩⟩
    refine ⟨r, ?_, hmk, hshr, hrd, fun c hc => ⟨?_, labels r hshr hrd c hc⟩⟩
    · unfold getitem
      simp only [h3, if_false, hell, hwf', h1, h2, hid, Nd.getBasic, hres, ofNd, hnsc]
      have : mk? ⟨Nd.selShape sels, fun idx => x.nd.get (Nd.selIdx sels idx)⟩ rd
          = .ok r := by
        simp only [mk?, Nd.ndim, hmk, if_true]; rfl
      rw [this]
    · simp only [at_, r, srcCoord_map hd hsl, ← hrd, List.map_map]
      rfl

/-- C09.  With an integer for every axis the result is the element itself. -/
theorem C09_scalar (dflt : β → String) (x : Arr β α) (hwf : x.WF) (hlab : x.Labelled) (ixs : List Ix)
    (ks : List Nat) (hl : ixs.length = x.dims.length)
    (hs : (ixs.zip x.nd.shape).mapM (fun p => selOf p.1 p.2) = some (ks.map .one))
    (hsb : ∀ d ∈ x.dims, Sliceable d) :
    x.getitem dflt ixs = .ok (.scalar (x.nd.get ks)) := by
  have hwf' : x.nd.ndim = x.dims.length := hwf.symm
  have hpl : Plain ixs := by
    have hl' : ixs.length = x.nd.shape.length := hl.trans hwf
    clear hl
    generalize x.nd.shape = ns at hs hl'
    clear hwf hlab hwf' hsb
    induction ixs generalizing ns ks with
    | nil => simp [Plain]
    | cons ix t ih =>
      cases ns with
      | nil => simp at hl'
      | cons n ns =>
        simp only [List.zip_cons_cons, List.mapM_cons] at hs
        cases hv : selOf ix n with
        | none => rw [hv] at hs; cases hs
        | some v =>
          cases hr : (t.zip ns).mapM (fun p => selOf p.1 p.2) with
          | none => rw [hv, hr] at hs; cases hs
          | some r =>
            rw [hv, hr] at hs
            have hh : ks.map Sel.one = v :: r := by cases ks <;> cases hs <;> rfl
            cases ks with
            | nil => cases hh
            | cons k ks =>
              simp only [List.map_cons, List.cons.injEq] at hh
              have := ih ks ns (hh.2 ▸ hr) (by simpa using hl')
              intro i hi
              rcases List.mem_cons.1 hi with rfl | hi
              · cases i with
                | int k => exact Or.inl ⟨k, rfl⟩
                | slice s => exact Or.inr ⟨s, rfl⟩
                | ellipsis => simp [selOf] at hv
                | newaxis => simp [selOf] at hv
              · exact this i hi
  have hs' := hs
  rw [← hlab] at hs'
  obtain ⟨rd, hid, hrd, hsl⟩ := indexDims_of dflt hl hs' hsb
  have hres := resolve_of (by rw [hl]; exact hwf) hs
  have hne : ixs ≠ [.ellipsis] := fun h => hpl.not_mem.1 (by simp [h])
  have h0 : x.dims.length - ixs.length = 0 := by omega
  have hsh : Nd.selShape (ks.map .one) = [] := by
    clear hs hs' hid hres hrd hsl
    induction ks with
    | nil => rfl
    | cons k t ih => simpa [Nd.selShape] using ih
  have hix : Nd.selIdx (ks.map .one) [] = ks := by
    clear hs hs' hid hres hrd hsl hsh
    induction ks with
    | nil => rfl
    | cons k t ih => simpa [Nd.selIdx] using ih
  unfold getitem
  simp only [hpl.not_mem.2, if_false, hne, hwf', expand_plain hpl, h0, List.replicate_zero,
    List.append_nil, hid, Nd.getBasic, hres, ofNd, hsh, hpl.not_mem.1, not_false_eq_true,
    and_self, if_true, hix]

/-- C09.  Too many indices, an integer out of range or a slice with step zero are errors. -/
theorem C09_bad_index (dflt : β → String) (x : Arr β α) (hwf : x.WF) (ixs : List Ix)
    (h : TooMany x.dims.length ixs ∨ ∃ full, Fills x.dims.length ixs full ∧
      (full.zip x.nd.shape).mapM (fun p => selOf p.1 p.2) = none) :
    ∃ e, x.getitem dflt ixs = .error e := by
  have hwf' : x.nd.ndim = x.dims.length := hwf.symm
  have core : ∀ ex, Ix.newaxis ∉ ixs → ixs ≠ [.ellipsis] →
      expandEllipsis x.dims.length ixs = .ok ex →
      (∃ e, Nd.resolve (ex ++ List.replicate (x.dims.length - ex.length) (.slice Slice.full))
        x.nd.shape = .error e) → ∃ e, x.getitem dflt ixs = .error e := by
    rintro ex h1 h2 h3 ⟨e, he⟩
    unfold getitem
    simp only [h1, if_false, h2, hwf', h3, Nd.getBasic, he]
    split
    · exact ⟨_, rfl⟩
    · cases e <;> exact ⟨_, rfl⟩
  rcases h with h | ⟨full, hf, hn⟩
  · cases h with
    | tail _ hp hl =>
      refine core ixs hp.not_mem.2 ?_ (expand_plain hp _) (resolve_err (Or.inl ?_))
      · rintro rfl; exact hp.not_mem.1 (by simp)
      · rw [← hwf]; simp; omega
    | mid p q hp hq hl =>
      refine core _ (by simp [hp.not_mem.2, hq.not_mem.2]) ?_ (expand_mid hp hq _)
        (resolve_err (Or.inl ?_))
      · intro hh
        have := congrArg List.length hh
        simp at this
        omega
      · rw [← hwf]; simp; omega
  · obtain ⟨ex, h1, h2, h3⟩ := hf.expand
    refine core ex h3 ?_ h1 (by rw [h2]; exact resolve_err (Or.inr ⟨by rw [hf.length]; exact hwf, hn⟩))
    rintro rfl
    have h4 := expand_mid (p := []) (q := []) (by simp [Plain]) (by simp [Plain]) x.dims.length
    simp only [List.nil_append] at h4
    rw [h4] at h1
    cases h1
    simp at h2
    subst h2
    clear core h3 h4 hf
    have hl : x.dims.length = x.nd.shape.length := hwf
    rw [hl] at hn
    clear hl hwf hwf'
    generalize x.nd.shape = ns at hn
    induction ns with
    | nil => simp at hn
    | cons n ns ih =>
      simp only [List.length_cons, List.replicate_succ, List.zip_cons_cons, List.mapM_cons,
        selOf_full] at hn
      apply ih
      cases hr : ((List.replicate ns.length (Ix.slice Slice.full)).zip ns).mapM
        (fun p => selOf p.1 p.2) with
      | none => rfl
      | some r => rw [hr] at hn; cases hn

/-- C09.  More than one `Ellipsis` is an `IndexError`. -/
theorem C09_two_ellipses (dflt : β → String) (x : Arr β α) (ixs : List Ix) (h : 2 ≤ ixs.count .ellipsis)
    (hn : Ix.newaxis ∉ ixs) : x.getitem dflt ixs = .error .indexError := by
  have h1 : ixs ≠ [.ellipsis] := by rintro rfl; simp at h
  have h2 : ixs.count .ellipsis ≠ 0 := by omega
  have h3 : ixs.count .ellipsis ≠ 1 := by omega
  simp only [getitem, hn, if_false, h1, expandEllipsis, h2, h3]

/-- C09 is false for `None`: the result is a plain `ndarray` without any dims. -/
theorem C09_newaxis_refuted (dflt : β → String) (x : Arr β α) (ixs : List Ix) (hn : Ix.newaxis ∈ ixs) :
    x.getitem dflt ixs = .ok .plain := by simp [getitem, hn]

/-- C09 is false for arrays with an empty axis: slicing (with anything but `:`) raises
`IndexError`, because the default output format is looked up from the first value. -/
theorem C09_empty_axis_refuted (dflt : β → String) (x : Arr β α) (d : Dim β) (hd : x.dims = [d])
    (hsh : x.nd.shape = [0]) (he : d.data = []) (ho : d.outputformat = none) (s : Slice)
    (hs : s ≠ Slice.full) (h0 : s.step.getD 1 ≠ 0) :
    x.getitem dflt [.slice s] = .error .indexError := by
  have h1 : ∃ l, s.indices 0 = some l := by
    simp only [Slice.indices, h0, if_false]; exact ⟨_, rfl⟩
  obtain ⟨l, hl⟩ := h1
  have h2 : expandEllipsis 1 [Ix.slice s] = .ok [Ix.slice s] :=
    expand_plain (by simp [Plain]) 1
  unfold getitem
  simp only [Nd.ndim, hsh, List.length_cons, List.length_nil, Nat.zero_add, h2]
  simp [hd, indexDims, dimSlice, hs, he, hl, outputformatOf, ho]

/-- C09 is false for a list of positions: `a[[i, j, ..]]` selects rows but the first dim keeps
all of its coordinate values, so the array is wrongly labelled as soon as the number of
positions is not the length of the axis. -/
theorem C09_list_index_refuted (x : Arr β α) (hwf : x.WF) (hlab : x.Labelled) (n : Nat)
    (ns : List Nat) (hsh : x.nd.shape = n :: ns) (ks : List Nat) (hk : ∀ k ∈ ks, k < n)
    (hne : ks.length ≠ n) :
    ∃ r, x.getList (ks.map Int.ofNat) = .ok r ∧ r.dims = x.dims ∧
      r.nd.shape = ks.length :: ns ∧ ¬ r.Labelled := by
  have hm : (ks.map Int.ofNat).mapM (Nd.normAxis n) = some ks := by
    clear hne
    induction ks with
    | nil => rfl
    | cons k t ih =>
      have := hk k (by simp)
      rw [List.map_cons, List.mapM_cons, ih fun k hk' => hk k (by simp [hk'])]
      simp [Nd.normAxis, this]
  have hl : x.dims.length = ns.length + 1 := by rw [hwf, hsh]; rfl
  refine ⟨⟨x.dims, ⟨ks.length :: ns, fun idx => x.nd.get (idx.set 0 (ks.getD (idx.getD 0 0) 0))⟩⟩,
    ?_, rfl, rfl, ?_⟩
  · simp only [getList, Nd.take, hsh, List.getD_cons_zero, hm, ofNd, mk?, Nd.ndim, List.set_cons_zero,
      List.length_cons, hl, if_true]
  · intro h
    have h1 : x.nd.shape = ks.length :: ns := hlab.symm.trans h
    rw [hsh] at h1
    exact hne (by cases h1; rfl)

/-- C09 is false for `take`: the coordinate values of the result are the requested positions,
not the values found there. -/
theorem C09_take_labels_refuted (ofIdx : Int → β) (x : Arr β α) (n : Nat) (d : Dim β)
    (hd : x.dims = [d]) (hsh : x.nd.shape = [n]) (k : Nat) (hk : k < n) :
    ∃ r, x.take ofIdx [(k : Int)] d.name = .ok r ∧ r.nd.get [0] = x.nd.get [k] ∧
      r.dims.map Dim.data = [[ofIdx k]] := by
  refine ⟨⟨[⟨d.cls, d.name, [ofIdx k], none, none⟩], ⟨[1], fun idx =>
    x.nd.get (idx.set 0 ([k].getD (idx.getD 0 0) 0))⟩⟩, ?_, by simp, rfl⟩
  have hn : Nd.normAxis n (k : Int) = some k := by simp [Nd.normAxis, hk]
  simp only [take, hd, dimsIndex, if_true, Nd.take, hsh, List.getD_cons_zero, List.mapM_cons, hn,
    List.mapM_nil, List.getElem?_cons_zero]
  rfl

/-! ### Boolean masks -/

theorem dimsBefore_eq {d : Dim β} {p q : List (Dim β)} (hn : ((p ++ d :: q).map Dim.name).Nodup) :
    dimsBefore d (p ++ d :: q) = p := by
  induction p with
  | nil => simp [dimsBefore, matches_, Dim.isa, isSub_refl]
  | cons a t ih =>
    simp only [List.cons_append, List.map_cons, List.nodup_cons] at hn
    have : d.name ≠ a.name := fun h => hn.1 (by simp [h.symm])
    simp [dimsBefore, matches_, this, ih hn.2]

theorem forall₂_refersTo [DecidableEq β] (l : List (Dim β)) :
    List.Forall₂ RefersTo l (l.map .dim) := by
  induction l with
  | nil => exact .nil
  | cons d t ih => exact .cons (Or.inl rfl) ih

theorem filter_not_mem_prefix [DecidableEq β] {p q : List (Dim β)} (hn : (p ++ q).Nodup) :
    (p ++ q).filter (fun e => e ∉ p) = q := by
  rw [List.filter_append]
  have h1 : p.filter (fun e => decide (e ∉ p)) = [] := by
    rw [List.filter_eq_nil_iff]; intro a ha; simp [ha]
  have h2 : q.filter (fun e => decide (e ∉ p)) = q := by
    rw [List.filter_eq_self]
    intro a ha
    simp only [decide_eq_true_eq]
    exact fun hp => (List.disjoint_of_nodup_append hn) hp ha
  rw [h1, h2]; rfl

theorem map_coord_set {p q : List (Dim β)} {d : Dim β} (hd : Distinct (p ++ d :: q)) (c : Coord)
    (v : Nat) :
    ((p ++ d :: q).map fun e => c e.key).set p.length v =
      (p ++ d :: q).map fun e => if e.key = d.key then v else c e.key := by
  unfold Distinct at hd
  rw [List.map_append, List.map_cons, List.nodup_append] at hd
  obtain ⟨_, h2, h3⟩ := hd
  rw [List.nodup_cons] at h2
  rw [List.map_append, List.map_append, List.map_cons, List.map_cons]
  rw [List.set_append_right _ _ (by simp)]
  simp only [List.length_map, Nat.sub_self, List.set_cons_zero, if_true]
  congr 1
  · refine List.map_congr_left fun e he => ?_
    have : e.key ≠ d.key := h3 _ (List.mem_map_of_mem he) _ (by simp)
    simp [this]
  · congr 1
    refine List.map_congr_left fun e he => ?_
    have : e.key ≠ d.key := fun h => h2.1 (h ▸ List.mem_map_of_mem he)
    simp [this]

/-- C09.  `a[mask]` with a one-dimensional boolean array over one of the dims of `a`: exactly
the positions where the mask is true remain along that dim, in order, with their own
coordinate values; nothing else changes. -/
theorem C09_mask [DecidableEq β] (x : Arr β α) (hwf : x.WF) (hlab : x.Labelled)
    (hn : (x.dims.map Dim.name).Nodup) (d : Dim β) (p q : List (Dim β))
    (hdims : x.dims = p ++ d :: q) (mask : List Bool) (hm : mask.length = d.data.length) :
    ∃ r, x.getMask d mask = .ok r ∧ r.WF ∧ r.Labelled ∧
      r.dims = p ++ ⟨d.cls, d.name, (maskIdx mask).filterMap fun i => d.data[i]?, d.unit, none⟩ :: q ∧
      ∀ c, r.at_ c =
        x.at_ fun k => if k = d.key then (maskIdx mask).getD (c d.key) 0 else c k := by
  have hdist : Distinct x.dims := by
    unfold Distinct
    have : x.dims.map Dim.name = (x.dims.map Dim.key).map Prod.fst := by
      rw [List.map_map]; rfl
    exact List.Nodup.of_map Prod.fst (this ▸ hn)
  have hnd : x.dims.Nodup := List.Nodup.of_map _ hn
  have hbef : dimsBefore d x.dims = p := by rw [hdims]; exact dimsBefore_eq (hdims ▸ hn)
  have hsub : p ++ [d] ⊆ x.dims := by
    rw [hdims]; intro e he; simp at he ⊢; tauto
  obtain ⟨y, hy1, hy2, hy3, hy4, hy5⟩ := C07_reorder x hwf hn (p ++ [d]) _ (forall₂_refersTo _) hsub
    (by rw [hdims, ← List.singleton_append, ← List.append_assoc, List.nodup_append] at hnd
        exact hnd.1)
  have hyd : y.dims = x.dims := by
    rw [hy3]
    have h1 : x.dims = (p ++ [d]) ++ q := by simp [hdims]
    conv_lhs => rw [h1]
    rw [filter_not_mem_prefix (h1 ▸ hnd), ← h1]
  have hysh : y.nd.shape = x.nd.shape := by
    apply List.ext_getElem
    · rw [← hwf, ← hyd, hy2]
    · intro j h1 h2
      have hj : j < x.dims.length := by rw [hwf]; exact h2
      have hax : ∀ z : Arr β α, z.dims = x.dims → z.WF → ∀ hz : j < z.nd.shape.length,
          z.axisLen x.dims[j].key = some z.nd.shape[j] := by
        intro z hz1 hz2 hz3
        unfold axisLen
        have hfind : ((z.dims.zip z.nd.shape).find? fun p => p.1.key = x.dims[j].key) =
            some (x.dims[j], z.nd.shape[j]) := by
          rw [List.find?_eq_some_iff_getElem]
          refine ⟨by simp, j, by simp [hz1, hj, hz3], by simp [hz1], fun i hi => ?_⟩
          simp only [List.getElem_zip, hz1, Bool.not_eq_true', decide_eq_false_iff_not]
          intro hk
          have hi' : i < x.dims.length := by omega
          have := (List.Nodup.getElem_inj_iff hdist (i := i) (j := j) (hi := by simpa using hi')
            (hj := by simpa using hj)).1 (by simpa using hk)
          omega
        rw [hfind]; rfl
      have e1 := hax y hyd hy2 h1
      have e2 := hax x rfl hwf h2
      rw [hy4] at e1
      exact Option.some.inj (e1.symm.trans e2)
  have hlen : x.nd.shape.getD p.length 0 = d.data.length := by
    rw [← hlab, hdims]; simp [List.getD_eq_getElem?_getD]
  have hplt : p.length < x.nd.shape.length := by rw [← hwf, hdims]; simp
  have hidx : ∀ k ∈ maskIdx mask, k < d.data.length := by
    intro k hk
    obtain ⟨⟨b, i⟩, hp, rfl⟩ := List.mem_map.1 hk
    have := List.mem_zipIdx (List.mem_filter.1 hp).1
    rw [← hm]; simpa using this.2.1
  have hfl : ∀ l : List Nat, (∀ k ∈ l, k < d.data.length) →
      (l.filterMap fun i => d.data[i]?).length = l.length := by
    intro l
    induction l with
    | nil => simp
    | cons a t ih =>
      intro h
      simp [List.filterMap_cons, List.getElem?_eq_getElem (h a (by simp)),
        ih fun k hk => h k (by simp [hk])]
  have htake : x.dims.take p.length = p := by rw [hdims]; simp
  have hdrop : x.dims.drop (p.length + 1) = q := by
    rw [hdims, ← List.drop_drop]; simp
  have hl2 : p.length + (q.length + 1) = x.nd.shape.length := by rw [← hwf, hdims]; simp
  refine ⟨⟨p ++ ⟨d.cls, d.name, (maskIdx mask).filterMap fun i => d.data[i]?, d.unit, none⟩ :: q,
      ⟨y.nd.shape.set p.length (maskIdx mask).length, fun idx =>
        y.nd.get (idx.set p.length ((maskIdx mask).getD (idx.getD p.length 0) 0))⟩⟩,
    ?_, ?_, ?_, rfl, ?_⟩
  · unfold getMask
    simp only [hbef, hy1, hm, ne_eq, not_true, if_false, hysh, hlen, hyd, htake, hdrop, mk?, Nd.ndim,
      List.length_append, List.length_cons, List.length_set, hl2, if_true]
  · simp [WF, hysh, hl2]
  · unfold Labelled at hlab ⊢
    simp only [hysh]
    rw [← hlab, hdims]
    simp [hfl _ hidx]
  · intro c
    rw [← hy5]
    simp only [at_, hyd]
    congr 1
    have hkey : ∀ e : Dim β, e.key = d.key → ∀ l : List β, ∀ u o,
        (⟨d.cls, d.name, l, u, o⟩ : Dim β).key = d.key := fun _ _ _ _ _ => rfl
    have h1 := map_coord_set (hdims ▸ hdist) c ((maskIdx mask).getD (c d.key) 0)
    rw [hdims, ← h1]
    simp only [List.map_append, List.map_cons]
    have h2 : ∀ l : List β, ∀ u o, (⟨d.cls, d.name, l, u, o⟩ : Dim β).key = d.key :=
      fun _ _ _ => rfl
    simp only [h2]
    congr 2
    simp [List.getD_eq_getElem?_getD]

/-- The positions of a mask: increasing, and exactly those where it is true. -/
theorem C09_mask_positions (mask : List Bool) :
    (maskIdx mask).Pairwise (· < ·) ∧ ∀ k, k ∈ maskIdx mask ↔ mask[k]? = some true := by
  constructor
  · unfold maskIdx
    rw [List.pairwise_map]
    apply List.Pairwise.filter
    rw [List.pairwise_iff_getElem]
    intro i j hi hj h
    simpa using h
  · intro k
    simp only [maskIdx, List.mem_map, List.mem_filter, Prod.exists, exists_eq_right]
    simp [List.mem_zipIdx_iff_getElem?]

/-! Non-vacuity -/

section Examples

/-- `f = [10, 20]`, `r = [1, 2, 3]`. -/
def exI : Arr Nat Nat :=
  ⟨[⟨.dimSweep, "f", [10, 20], none, none⟩, ⟨.dimSweep, "r", [1, 2, 3], none, none⟩],
   ⟨[2, 3], fun idx => 10 * idx.getD 0 0 + idx.getD 1 0⟩⟩

example : exI.WF ∧ exI.Labelled ∧ Distinct exI.dims ∧ ∀ d ∈ exI.dims, Sliceable d := by
  refine ⟨rfl, rfl, ?_, ?_⟩
  · unfold Distinct; decide
  · simp [exI, Sliceable]

/-- `a[..., ::-2]` -/
example : Fills exI.dims.length [.ellipsis, .slice ⟨none, none, some (-2)⟩]
    [.slice Slice.full, .slice ⟨none, none, some (-2)⟩] :=
  Fills.mid [] [.slice ⟨none, none, some (-2)⟩] (by simp [Plain]) (by simp [Plain]) (by decide)

example : ([Ix.slice Slice.full, .slice ⟨none, none, some (-2)⟩].zip exI.nd.shape).mapM
    (fun p => selOf p.1 p.2) = some [.many [0, 1], .many [2, 0]] := by decide

/-- `a[1, -1]` -/
example : ([Ix.int 1, .int (-1)].zip exI.nd.shape).mapM (fun p => selOf p.1 p.2) =
    some ([1, 2].map .one) := by decide

/-- `a[2]` is out of range, `a[0, 0, 0]` has too many indices. -/
example : Fills exI.dims.length [.int 2] [.int 2, .slice Slice.full] ∧
    ([Ix.int 2, .slice Slice.full].zip exI.nd.shape).mapM (fun p => selOf p.1 p.2) = none :=
  ⟨Fills.tail [.int 2] (by simp [Plain]) (by decide), by decide⟩

example : TooMany exI.dims.length [.int 0, .int 0, .int 0] :=
  TooMany.tail _ (by simp [Plain]) (by decide)

/-- A mask over the second dim. -/
example : exI.dims = [(⟨.dimSweep, "f", [10, 20], none, none⟩ : Dim Nat)] ++
      ⟨.dimSweep, "r", [1, 2, 3], none, none⟩ :: [] ∧
    (exI.dims.map Dim.name).Nodup ∧ [true, false, true].length = [1, 2, 3].length :=
  ⟨rfl, by decide, rfl⟩

end Examples

end Arr
end HF
