import Mathlib.Data.List.Forall2
import Verif.HFArray.BinopLemmas
/-
C07: reordering and transposing only permutes axes.
-/
namespace HF.Arr

variable {β α γ : Type}

/-- Two arrays the user cannot tell apart: same dims, same shape, same elements. -/
def Same (a b : Arr β α) : Prop :=
  a.dims = b.dims ∧ a.nd.shape = b.nd.shape ∧
    ∀ idx, Nd.Valid a.nd.shape idx → a.nd.get idx = b.nd.get idx

theorem exists_coord {dims : List (Dim β)} (hd : Distinct dims) (idx : List Nat)
    (hlen : idx.length = dims.length) : ∃ c : Coord, dims.map (fun d => c d.key) = idx := by
  induction dims generalizing idx with
  | nil => exact ⟨fun _ => 0, by rw [List.length_eq_zero_iff.1 hlen]; rfl⟩
  | cons d t ih =>
    cases idx with
    | nil => simp at hlen
    | cons i is =>
      simp only [Distinct, List.map_cons, List.nodup_cons] at hd
      obtain ⟨c, hc⟩ := ih hd.2 is (by simpa using hlen)
      refine ⟨fun k => if k = d.key then i else c k, ?_⟩
      simp only [List.map_cons, if_true, List.cons.injEq, true_and]
      rw [← hc]
      refine List.map_congr_left fun e he => ?_
      have : e.key ≠ d.key := fun h => hd.1 (h ▸ List.mem_map_of_mem he)
      simp [this]

theorem Same.of_at {a b : Arr β α} (hwf : a.WF) (hd : Distinct a.dims) (h1 : a.dims = b.dims)
    (h2 : a.nd.shape = b.nd.shape) (h : ∀ c, a.InRange c → a.at_ c = b.at_ c) : Same a b := by
  refine ⟨h1, h2, fun idx hv => ?_⟩
  obtain ⟨c, hc⟩ := exists_coord hd idx (by rw [hv.length]; exact hwf.symm)
  have := h c (by rw [InRange, hc]; exact hv)
  rwa [at_, at_, ← h1, hc] at this

/-- Transposition with named coordinates. -/
theorem transpose_spec {x : Arr β α} (hwf : x.WF) {order : List Nat}
    (hp : order.Perm (List.range x.dims.length)) :
    ∃ y, transpose x order = .ok y ∧ y.WF ∧
      y.dims.map some = order.map (fun k => x.dims[k]?) ∧
      y.nd.shape.map some = order.map (fun k => x.nd.shape[k]?) ∧
      ∀ c, y.at_ c = x.at_ c := by
  have hip : Nd.isPerm order x.nd.ndim = true := by
    apply Nd.isPerm_of_nodup (hp.nodup_iff.2 List.nodup_range)
    intro k
    rw [hp.mem_iff, List.mem_range, hwf]; rfl
  have hlt : ∀ k ∈ order, k < x.dims.length := fun k hk => by simpa using hp.mem_iff.1 hk
  obtain ⟨y, h1, h2, h3, h4, h5, h6⟩ := transpose_ok hwf hip
  refine ⟨y, h1, h2, ?_, ?_, ?_⟩
  · apply List.ext_getElem
    · simp [h4]
    · intro j hj1 hj2
      have hj : j < order.length := by simpa using hj2
      have := h5 j hj
      simp only [List.getElem_map]
      rw [← this, List.getElem?_eq_getElem (by omega)]
  · rw [h3, List.map_map]
    refine List.map_congr_left fun k hk => ?_
    have : k < x.nd.shape.length := by rw [← hwf]; exact hlt k hk
    simp [List.getD_eq_getElem?_getD, List.getElem?_eq_getElem this]
  · intro c
    simp only [at_, h6]
    congr 1
    apply List.ext_getElem
    · simp [Nd.ndim]; exact hwf.symm
    · intro k hk1 hk2
      have hk : k < x.dims.length := by simpa using hk2
      have hm : k ∈ order := hp.mem_iff.2 (by simpa using hk)
      have hi : order.idxOf k < order.length := List.idxOf_lt_length_of_mem hm
      have := h5 _ hi
      simp only [List.getElem_idxOf] at this
      simp [List.getD_eq_getElem?_getD, this, List.getElem?_eq_getElem hk]

/-- C07.  `transpose(*order)` for a permutation of the axes: the dims and the axis lengths
are those of `x` in the requested order and the element at every named coordinate is
unchanged. -/
theorem C07_transpose (x : Arr β α) (hwf : x.WF) (order : List Nat)
    (hp : order.Perm (List.range x.dims.length)) :
    ∃ y, transpose x order = .ok y ∧ y.WF ∧
      y.dims.map some = order.map (fun k => x.dims[k]?) ∧
      y.nd.shape.map some = order.map (fun k => x.nd.shape[k]?) ∧
      ∀ c, y.at_ c = x.at_ c := transpose_spec hwf hp

/-- C07.  Any other nonempty list of axes is rejected. -/
theorem C07_transpose_rejects (x : Arr β α) (hwf : x.WF) (order : List Nat) (hne : order ≠ [])
    (hp : ¬ order.Perm (List.range x.dims.length)) : transpose x order = .error .valueError := by
  have : ¬ Nd.isPerm order x.nd.ndim = true := fun h => hp (by
    rw [hwf]; exact Nd.perm_of_isPerm h)
  have hn : order.isEmpty = false := by cases order <;> simp_all
  simp [transpose, hn, Nd.transpose, this, ofNd]

/-- C07.  `transpose()` without arguments reverses the axes. -/
theorem C07_transpose_default (x : Arr β α) (hwf : x.WF) :
    ∃ y, transpose x [] = .ok y ∧ y.WF ∧ y.dims = x.dims.reverse ∧
      y.nd.shape = x.nd.shape.reverse ∧ ∀ c, y.at_ c = x.at_ c := by
  have hrev : transpose x [] = transpose x (List.range x.dims.length).reverse := by
    rw [hwf]
    unfold transpose
    simp only [List.isEmpty_nil, if_true, Nd.ndim]
    cases hh : (List.range x.nd.shape.length).reverse with
    | nil =>
      have : (List.range x.nd.shape.length).reverse.length = 0 := by rw [hh]; rfl
      have h0 : x.nd.shape.length = 0 := by simpa using this
      simp [h0]
    | cons o t => simp
  have hmap : ∀ {δ : Type} (l : List δ) (n : Nat), n = l.length →
      (List.range n).reverse.map (fun k => l[k]?) = l.reverse.map some := by
    intro δ l n hn
    subst hn
    rw [List.map_reverse, List.map_reverse]
    congr 1
    apply List.ext_getElem
    · simp
    · intro i h1 h2
      have hi : i < l.length := by simpa using h1
      simp [List.getElem?_eq_getElem hi]
  obtain ⟨y, h1, h2, h3, h4, h5⟩ := transpose_spec hwf
    (order := (List.range x.dims.length).reverse) (List.reverse_perm _)
  rw [hmap _ _ rfl] at h3
  rw [hmap _ _ hwf] at h4
  have inj : Function.Injective (some : Dim β → _) := fun _ _ h => Option.some.inj h
  have inj' : Function.Injective (some : Nat → _) := fun _ _ h => Option.some.inj h
  exact ⟨y, by rw [hrev]; exact h1, h2, List.map_injective_iff.2 inj h3,
    List.map_injective_iff.2 inj' h4, h5⟩

/-! ### `reorder_dimensions` -/

/-- How a dim of the array can be requested: by itself or by its name. -/
def RefersTo (d : Dim β) (o : Dim.Obj β) : Prop := o = .dim d ∨ o = .str d.name

variable [DecidableEq β]

theorem pyEq_self {d : Dim β} {o : Dim.Obj β} (h : RefersTo d o) : Dim.pyEq (.dim d) o = true := by
  rcases h with rfl | rfl <;> simp [Dim.pyEq, Dim.eqDim]

theorem pyEq_name {x d : Dim β} {o : Dim.Obj β} (h : RefersTo d o)
    (he : Dim.pyEq (.dim x) o = true) : x.name = d.name := by
  rcases h with rfl | rfl
  · simp [Dim.pyEq, Dim.eqDim] at he; exact he.2.1
  · simpa [Dim.pyEq] using he

theorem pyIndex_of {dims : List (Dim β)} (hn : (dims.map Dim.name).Nodup) {o : Dim.Obj β} {i : Nat}
    (hi : i < dims.length) (ho : RefersTo dims[i] o) : pyIndex dims o = some i := by
  induction dims generalizing i with
  | nil => simp at hi
  | cons x t ih =>
    simp only [List.map_cons, List.nodup_cons] at hn
    simp only [pyIndex]
    cases i with
    | zero => simp only [List.getElem_cons_zero] at ho; simp [pyEq_self ho]
    | succ i =>
      simp only [List.getElem_cons_succ] at ho
      have hi' : i < t.length := by simpa using hi
      have : Dim.pyEq (.dim x) o = false := by
        cases h : Dim.pyEq (.dim x) o with
        | false => rfl
        | true =>
          exact absurd (pyEq_name ho h ▸ List.mem_map_of_mem (List.getElem_mem hi')) hn.1
      simp [this, ih hn.2 hi' ho]

theorem eraseIdx_eq_filter {l : List (Dim β)} (hn : (l.map Dim.name).Nodup) {j : Nat}
    (hj : j < l.length) : l.eraseIdx j = l.filter (fun d => d.name ≠ l[j].name) := by
  induction l generalizing j with
  | nil => simp at hj
  | cons x t ih =>
    simp only [List.map_cons, List.nodup_cons] at hn
    cases j with
    | zero =>
      simp only [List.eraseIdx_zero, List.tail_cons, List.getElem_cons_zero, List.filter_cons,
        ne_eq, not_true_eq_false, decide_false]
      rw [if_neg (by simp), List.filter_eq_self.2]
      intro a ha
      have : a.name ≠ x.name := fun h => hn.1 (h ▸ List.mem_map_of_mem ha)
      simpa using this
    | succ j =>
      have hj' : j < t.length := by simpa using hj
      have hx : x.name ≠ t[j].name := fun h => hn.1 (h ▸ List.mem_map_of_mem (List.getElem_mem hj'))
      simp [List.filter_cons, hx, ih hn.2 hj']

theorem reorderLoop_spec {dims : List (Dim β)} (hn : (dims.map Dim.name).Nodup)
    (ds : List (Dim β)) (os : List (Dim.Obj β)) (hr : List.Forall₂ RefersTo ds os)
    (infos : List (Dim β)) (hs : infos.Sublist dims) (hds : ds ⊆ infos)
    (hdn : (ds.map Dim.name).Nodup) :
    ∃ r, reorderLoop dims infos os =
        some (r, infos.filter fun d => d.name ∉ ds.map Dim.name) ∧
      r.map (fun k => dims[k]?) = ds.map some := by
  induction hr generalizing infos with
  | nil => exact ⟨[], by simp [reorderLoop], rfl⟩
  | @cons d o ds os ho hr ih =>
    have hdi : d ∈ infos := hds (by simp)
    have hinf : (infos.map Dim.name).Nodup := (hs.map Dim.name).nodup hn
    obtain ⟨j, hj, hjd⟩ := List.getElem_of_mem hdi
    obtain ⟨i, hi, hid⟩ := List.getElem_of_mem (hs.subset hdi)
    simp only [List.map_cons, List.nodup_cons] at hdn
    have e1 : pyIndex dims o = some i := pyIndex_of hn hi (hid.symm ▸ ho)
    have e2 : pyIndex infos o = some j := pyIndex_of hinf hj (hjd.symm ▸ ho)
    obtain ⟨r, h1, h2⟩ := ih (infos.eraseIdx j) ((List.eraseIdx_sublist _ _).trans hs)
      (by
        intro e he
        rw [eraseIdx_eq_filter hinf hj, List.mem_filter]
        refine ⟨hds (by simp [he]), ?_⟩
        have : e.name ≠ d.name := fun h => hdn.1 (h ▸ List.mem_map_of_mem he)
        simpa [hjd] using this)
      hdn.2
    refine ⟨i :: r, ?_, ?_⟩
    · simp only [reorderLoop, e1, e2, h1]
      rw [eraseIdx_eq_filter hinf hj, List.filter_filter, hjd]
      congr 2
      apply List.filter_congr
      intro e _
      simp only [List.map_cons, List.mem_cons, not_or, ne_eq, Bool.decide_and]
      rw [Bool.and_comm]
    · simp [h2, List.getElem?_eq_getElem hi, hid]

theorem mapM_pyIndex {dims : List (Dim β)} (hn : (dims.map Dim.name).Nodup) (l : List (Dim β))
    (hl : l ⊆ dims) : ∃ r, (l.mapM fun d => pyIndex dims (.dim d)) = some r ∧
      r.map (fun k => dims[k]?) = l.map some := by
  induction l with
  | nil => exact ⟨[], rfl, rfl⟩
  | cons d t ih =>
    obtain ⟨r, h1, h2⟩ := ih fun x hx => hl (by simp [hx])
    obtain ⟨i, hi, hid⟩ := List.getElem_of_mem (hl (by simp : d ∈ d :: t))
    refine ⟨i :: r, ?_, by simp [h2, List.getElem?_eq_getElem hi, hid]⟩
    rw [List.mapM_cons, h1, pyIndex_of hn hi (hid.symm ▸ Or.inl rfl)]
    rfl

/-- C07.  `reorder_dimensions`: dims are requested by name or as objects; the requested
ones come first in the requested order, all others follow in their old order, every dim
keeps its length, and the element at every named coordinate is unchanged. -/
theorem C07_reorder (x : Arr β α) (hwf : x.WF) (hn : (x.dims.map Dim.name).Nodup)
    (ds : List (Dim β)) (os : List (Dim.Obj β)) (hr : List.Forall₂ RefersTo ds os)
    (hds : ds ⊆ x.dims) (hdn : ds.Nodup) :
    ∃ y, reorderDimensions x os = .ok y ∧ y.WF ∧
      y.dims = ds ++ x.dims.filter (fun d => d ∉ ds) ∧
      (∀ k, y.axisLen k = x.axisLen k) ∧
      ∀ c, y.at_ c = x.at_ c := by
  have hinj : ∀ d ∈ x.dims, ∀ e ∈ x.dims, d.name = e.name → d = e := fun d hd e he h =>
    List.inj_on_of_nodup_map hn hd he h
  have hdn' : (ds.map Dim.name).Nodup :=
    List.Nodup.map_on (fun a ha b hb h => hinj a (hds ha) b (hds hb) h) hdn
  have hfil : (x.dims.filter fun d => d.name ∉ ds.map Dim.name) = x.dims.filter (fun d => d ∉ ds) := by
    apply List.filter_congr
    intro e he
    simp only [decide_eq_decide, not_iff_not]
    constructor
    · intro h
      obtain ⟨d, hd, hh⟩ := List.mem_map.1 h
      exact hinj d (hds hd) e he hh ▸ hd
    · exact fun h => List.mem_map_of_mem h
  obtain ⟨r, h1, h2⟩ := reorderLoop_spec hn ds os hr x.dims (List.Sublist.refl _) hds hdn'
  obtain ⟨r', h3, h4⟩ := mapM_pyIndex hn (x.dims.filter fun d => d.name ∉ ds.map Dim.name)
    (fun e he => (List.mem_filter.1 he).1)
  rw [hfil] at h1 h3 h4
  have hall : (r ++ r').map (fun k => x.dims[k]?) =
      (ds ++ x.dims.filter (fun d => d ∉ ds)).map some := by simp [h2, h4]
  have hpd : (ds ++ x.dims.filter (fun d => d ∉ ds)).Perm x.dims := by
    rw [List.perm_ext_iff_of_nodup]
    · intro d
      simp only [List.mem_append, List.mem_filter, decide_eq_true_eq]
      constructor
      · rintro (h | h)
        · exact hds h
        · exact h.1
      · intro h
        by_cases hd : d ∈ ds
        · exact Or.inl hd
        · exact Or.inr ⟨h, hd⟩
    · refine hdn.append ((List.Nodup.of_map _ hn).filter _) ?_
      intro d hd he
      exact absurd hd (by simpa using (List.mem_filter.1 he).2)
    · exact List.Nodup.of_map _ hn
  have hlen : (r ++ r').length = x.dims.length := by
    have := congrArg List.length hall
    simp only [List.length_map] at this
    rw [this, hpd.length_eq]
  have hperm : (r ++ r').Perm (List.range x.dims.length) := by
    have hlt : ∀ k ∈ r ++ r', k < x.dims.length := by
      intro k hk
      have : x.dims[k]? ∈ (ds ++ x.dims.filter (fun d => d ∉ ds)).map some := by
        rw [← hall]; exact List.mem_map_of_mem (f := fun k => x.dims[k]?) hk
      obtain ⟨d, _, hd⟩ := List.mem_map.1 this
      exact (List.getElem?_eq_some_iff.1 hd.symm).1
    have hnod : (r ++ r').Nodup := by
      have : ((r ++ r').map (fun k => x.dims[k]?)).Nodup := by
        rw [hall]
        exact (hpd.nodup_iff.2 (List.Nodup.of_map _ hn)).map (fun _ _ h => Option.some.inj h)
      exact List.Nodup.of_map _ this
    refine (List.subperm_of_subset hnod ?_).perm_of_length_le (by simp [hlen])
    intro k hk; simpa using hlt k hk
  obtain ⟨y, e1, e2, e3, e4, e5⟩ := transpose_spec hwf hperm
  have ed : y.dims = ds ++ x.dims.filter (fun d => d ∉ ds) := by
    rw [hall] at e3
    exact List.map_injective_iff.2 (fun _ _ h => Option.some.inj h) e3
  refine ⟨y, ?_, e2, ed, ?_, e5⟩
  · simp only [reorderDimensions, h1, h3, e1]
  · -- the pairs (dim, length) are permuted together
    have hz : (y.dims.zip y.nd.shape).Perm (x.dims.zip x.nd.shape) := by
      have hz' : (y.dims.zip y.nd.shape).map some =
          (r ++ r').map (fun k => (x.dims.zip x.nd.shape)[k]?) := by
        apply List.ext_getElem
        · have := congrArg List.length e3
          simp only [List.length_map] at this
          have hw : y.dims.length = y.nd.shape.length := e2
          simp only [List.length_map, List.length_zip]
          omega
        · intro j h1 h2
          have hj : j < (r ++ r').length := by simpa using h2
          have a1 : y.dims[j]? = x.dims[(r ++ r')[j]]? := by
            have := congrArg (fun l => l[j]?) e3
            simp only [List.getElem?_map, List.getElem?_eq_getElem hj, Option.map_some] at this
            cases hy : y.dims[j]? with
            | none => rw [hy] at this; simp at this
            | some v => rw [hy] at this; simpa using this
          have a2 : y.nd.shape[j]? = x.nd.shape[(r ++ r')[j]]? := by
            have := congrArg (fun l => l[j]?) e4
            simp only [List.getElem?_map, List.getElem?_eq_getElem hj, Option.map_some] at this
            cases hy : y.nd.shape[j]? with
            | none => rw [hy] at this; simp at this
            | some v => rw [hy] at this; simpa using this
          have hjz : j < (y.dims.zip y.nd.shape).length := by simpa using h1
          simp only [List.getElem_map]
          rw [← List.getElem?_eq_getElem hjz]
          have : ∀ {δ ε : Type} (l : List δ) (m : List ε) (i : Nat),
              (l.zip m)[i]? = (l[i]?).bind fun a => (m[i]?).map fun b => (a, b) := by
            intro δ ε l m i
            rw [List.zip, List.getElem?_zipWith]
            cases hl : l[i]? <;> cases hm : m[i]? <;> rfl
          rw [this, this, a1, a2]
      have hz2 : ((r ++ r').map (fun k => (x.dims.zip x.nd.shape)[k]?)).Perm
          ((x.dims.zip x.nd.shape).map some) := by
        refine (hperm.map _).trans (List.Perm.of_eq ?_)
        apply List.ext_getElem
        · have hw : x.dims.length = x.nd.shape.length := hwf
          simp only [List.length_map, List.length_range, List.length_zip]; omega
        · intro i h1 h2
          have : i < (x.dims.zip x.nd.shape).length := by simpa using h2
          simp [List.getElem?_eq_getElem this]
      rw [← hz'] at hz2
      have := hz2.filterMap id
      simpa using this
    intro k
    have hnz : ∀ (p q : Dim β × Nat), p ∈ x.dims.zip x.nd.shape → q ∈ x.dims.zip x.nd.shape →
        p.1.key = q.1.key → p = q := by
      intro p q hp hq h
      have hzn : ((x.dims.zip x.nd.shape).map (fun p => p.1.name)).Nodup := by
        have : (x.dims.zip x.nd.shape).map Prod.fst = x.dims :=
          List.map_fst_zip (Nat.le_of_eq hwf)
        have h' : (x.dims.zip x.nd.shape).map (fun p => p.1.name) = x.dims.map Dim.name := by
          conv_rhs => rw [← this, List.map_map]
          rfl
        rw [h']; exact hn
      exact List.inj_on_of_nodup_map hzn hp hq (congrArg Prod.fst h)
    unfold axisLen
    congr 1
    cases hf : (x.dims.zip x.nd.shape).find? (fun p => p.1.key = k) with
    | none =>
      rw [List.find?_eq_none] at hf ⊢
      intro p hp; exact hf p (hz.mem_iff.1 hp)
    | some p =>
      have hp1 := List.mem_of_find?_eq_some hf
      have hp2 := List.find?_some hf
      cases hg : (y.dims.zip y.nd.shape).find? (fun p => p.1.key = k) with
      | none =>
        rw [List.find?_eq_none] at hg
        exact absurd hp2 (hg p (hz.mem_iff.2 hp1))
      | some q =>
        have hq1 := List.mem_of_find?_eq_some hg
        have hq2 := List.find?_some hg
        simp only [decide_eq_true_eq] at hp2 hq2
        rw [hnz p q hp1 (hz.mem_iff.1 hq1) (hp2.trans hq2.symm)]

/-- C07.  Requesting something that is not a dim of the array is an error. -/
theorem C07_reorder_unknown (x : Arr β α) (o : Dim.Obj β) (os : List (Dim.Obj β))
    (h : ∀ d ∈ x.dims, Dim.pyEq (.dim d) o = false) :
    reorderDimensions x (o :: os) = .error .valueError := by
  have : ∀ l : List (Dim β), (∀ d ∈ l, Dim.pyEq (.dim d) o = false) → pyIndex l o = none := by
    intro l
    induction l with
    | nil => intro _; rfl
    | cons d t ih => intro h; simp [pyIndex, h d (by simp), ih fun d hd => h d (by simp [hd])]
  simp [reorderDimensions, reorderLoop, this x.dims h]

/-- C07.  Going back to the original order restores the array. -/
theorem C07_reorder_inverse (x : Arr β α) (hwf : x.WF) (hn : (x.dims.map Dim.name).Nodup)
    (ds : List (Dim β)) (os : List (Dim.Obj β)) (hr : List.Forall₂ RefersTo ds os)
    (hds : ds ⊆ x.dims) (hdn : ds.Nodup) :
    ∃ y z, reorderDimensions x os = .ok y ∧
      reorderDimensions y (x.dims.map .dim) = .ok z ∧ Same x z := by
  have hnd := List.Nodup.of_map _ hn
  obtain ⟨y, h1, h2, h3, h4, h5⟩ := C07_reorder x hwf hn ds os hr hds hdn
  have hpy : y.dims.Perm x.dims := by
    rw [h3, List.perm_ext_iff_of_nodup _ hnd]
    · intro d
      simp only [List.mem_append, List.mem_filter, decide_eq_true_eq]
      constructor
      · rintro (h | h)
        · exact hds h
        · exact h.1
      · intro h
        by_cases hd : d ∈ ds
        · exact Or.inl hd
        · exact Or.inr ⟨h, hd⟩
    · refine hdn.append (hnd.filter _) ?_
      intro d hd he
      exact absurd hd (by simpa using (List.mem_filter.1 he).2)
  have hrefl : ∀ l : List (Dim β), List.Forall₂ RefersTo l (l.map .dim) := by
    intro l
    induction l with
    | nil => exact .nil
    | cons a t ih => exact .cons (Or.inl rfl) ih
  obtain ⟨z, g1, g2, g3, g4, g5⟩ := C07_reorder y h2 ((hpy.map _).nodup_iff.2 hn) x.dims
    (x.dims.map .dim) (hrefl _) (fun d hd => hpy.mem_iff.2 hd) hnd
  have hz : z.dims = x.dims := by
    rw [g3, List.filter_eq_nil_iff.2, List.append_nil]
    intro d hd; simpa using hpy.mem_iff.1 hd
  have hdist : Distinct x.dims := by
    have : x.dims.map Dim.name = (x.dims.map Dim.key).map Prod.fst := by rw [List.map_map]; rfl
    rw [this] at hn
    exact List.Nodup.of_map _ hn
  refine ⟨y, z, h1, g1, Same.of_at hwf hdist hz.symm ?_ (fun c _ => by rw [g5, h5])⟩
  -- equal lengths for all keys give equal shapes
  have hk : ∀ k, z.axisLen k = x.axisLen k := fun k => by rw [g4, h4]
  have : ∀ (ds : List (Dim β)) (s t : List Nat), Distinct ds → ds.length = s.length →
      ds.length = t.length →
      (∀ k, ((ds.zip s).find? fun p => p.1.key = k).map Prod.snd =
        ((ds.zip t).find? fun p => p.1.key = k).map Prod.snd) → s = t := by
    intro ds
    induction ds with
    | nil => intro s t _ hs ht _
             rw [List.length_eq_zero_iff.1 hs.symm, List.length_eq_zero_iff.1 ht.symm]
    | cons d ds ih =>
      intro s t hd hs ht hk
      cases s with
      | nil => simp at hs
      | cons a s =>
        cases t with
        | nil => simp at ht
        | cons b t =>
          simp only [Distinct, List.map_cons, List.nodup_cons] at hd
          have h0 : a = b := by simpa using hk d.key
          subst h0
          congr 1
          refine ih s t hd.2 (by simpa using hs) (by simpa using ht) fun k => ?_
          by_cases hkd : d.key = k
          · have hnone : ∀ u : List Nat, ((ds.zip u).find? fun p => p.1.key = k) = none := by
              intro u
              rw [List.find?_eq_none]
              intro p hp
              have := (List.of_mem_zip hp).1
              simp only [decide_eq_true_eq]
              intro h
              exact hd.1 (hkd ▸ h ▸ List.mem_map_of_mem this)
            rw [hnone, hnone]
          · simpa [hkd] using hk k
  have hw : z.dims.length = z.nd.shape.length := g2
  refine this x.dims _ _ hdist hwf (by rw [← hz]; exact hw) fun k => ?_
  have := hk k
  unfold axisLen at this
  rw [hz] at this
  exact this.symm

/-! Concrete case: three axes, the last one requested by name, the second as an object. -/

def exR : Arr Nat Nat := ⟨[⟨.dimSweep, "f", [1, 2], none, none⟩, ⟨.dimRep, "r", [0, 1, 2], none, none⟩,
  ⟨.matI, "i", [0], none, none⟩], ⟨[2, 3, 1], fun l => 10 * l.getD 0 0 + l.getD 1 0⟩⟩

example : exR.WF ∧ (exR.dims.map Dim.name).Nodup ∧
    List.Forall₂ RefersTo [(⟨.matI, "i", [0], none, none⟩ : Dim Nat), ⟨.dimRep, "r", [0, 1, 2], none, none⟩]
      [.str "i", .dim ⟨.dimRep, "r", [0, 1, 2], none, none⟩] := by
  refine ⟨rfl, by decide, .cons (Or.inr rfl) (.cons (Or.inl rfl) .nil)⟩

example : (match reorderDimensions exR [.str "i", .dim ⟨.dimRep, "r", [0, 1, 2], none, none⟩] with
    | .ok y => (y.dims.map Dim.name, y.nd.shape, y.nd.get [0, 2, 1])
    | .error _ => ([], [], 0)) = (["i", "r", "f"], [1, 3, 2], 12) := by decide +kernel

end HF.Arr
