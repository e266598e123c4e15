import Mathlib.Algebra.BigOperators.Group.List.Basic
import Mathlib.Algebra.Order.Field.Rat
import Mathlib.Tactic.FieldSimp
import Mathlib.Tactic.Linarith
import Verif.HFArray.ReduceLemmas
/-
C08: reductions along named dimensions.
-/
namespace HF.Arr

variable {β α γ : Type} [DecidableEq β]

/-- The ways to name one axis of an array: its name, its dim, its position. -/
def AxisRefers (dims : List (Dim β)) (d : Dim β) (ax : Axis β) : Prop :=
  ax = .name d.name ∨ ax = .dim d ∨ ∃ i : Nat, ax = .int i ∧ dims[i]? = some d

theorem dimsIndex_of {dims : List (Dim β)} (hn : (dims.map Dim.name).Nodup) {i : Nat}
    (hi : i < dims.length) : dimsIndex dims dims[i].name = some i := by
  induction dims generalizing i with
  | nil => simp at hi
  | cons x t ih =>
    simp only [List.map_cons, List.nodup_cons] at hn
    cases i with
    | zero => simp [dimsIndex]
    | succ i =>
      have hi' : i < t.length := by simpa using hi
      have : x.name ≠ t[i].name := fun h => hn.1 (h ▸ List.mem_map_of_mem (List.getElem_mem hi'))
      simp [dimsIndex, this, ih hn.2 hi']

theorem multipleAxis_of {dims : List (Dim β)} (hn : (dims.map Dim.name).Nodup)
    (ds : List (Dim β)) (axes : List (Axis β)) (h : List.Forall₂ (AxisRefers dims) ds axes)
    (hds : ds ⊆ dims) : ∃ ks : List Nat, multipleAxis dims axes = .ok (ks.map Int.ofNat) ∧
      ks.map (fun k => dims[k]?) = ds.map some := by
  induction h with
  | nil => exact ⟨[], rfl, rfl⟩
  | @cons d ax ds axes ha _ ih =>
    obtain ⟨ks, h1, h2⟩ := ih fun x hx => hds (by simp [hx])
    obtain ⟨i, hi, hid⟩ := List.getElem_of_mem (hds (by simp : d ∈ d :: ds))
    have hpy : pyIndex dims (.dim d) = some i := pyIndex_of hn hi (hid ▸ Or.inl rfl)
    have hdi : dimsIndex dims d.name = some i := hid ▸ dimsIndex_of hn hi
    have hgi : dims[i]? = some d := by rw [List.getElem?_eq_getElem hi, hid]
    refine ⟨i :: ks, ?_, by simp [h2, hgi]⟩
    rcases ha with rfl | rfl | ⟨j, rfl, hj⟩
    · simp [multipleAxis, hdi, hgi, hpy, h1]
    · have : containsDim dims d = true := by
        simp only [containsDim, List.any_eq_true]
        exact ⟨d, hds (by simp), by simp [matches_, Dim.isa, isSub_refl]⟩
      simp [multipleAxis, this, hpy, h1]
    · obtain ⟨hj', hjd⟩ := List.getElem?_eq_some_iff.1 hj
      have hij : j = i := by
        have hdn := List.Nodup.of_map _ hn
        exact (hdn.getElem_inj_iff (hi := hj') (hj := hi)).1 (hjd.trans hid.symm)
      subst hij
      have hnorm : Nd.normAxis dims.length (j : Int) = some j := by
        simp [Nd.normAxis, hi]
      simp [multipleAxis, hnorm, h1]

/-- C08.  A reduction over any number of dimensions, each given by name, as dim object or by
its position: exactly these dimensions are gone, the others keep their order and length, and
the element at every coordinate of the result combines exactly the elements of the array
whose coordinates agree with it in the remaining dimensions (each once, row by row).
`red` is what the method does with the elements: sum, mean, min, max, ... -/
theorem C08_reduce_named (red : List α → γ) (x : Arr β α) (hwf : x.WF)
    (hn : (x.dims.map Dim.name).Nodup) (ds : List (Dim β)) (axes : List (Axis β))
    (h : List.Forall₂ (AxisRefers x.dims) ds axes) (hds : ds ⊆ x.dims) (hdn : ds.Nodup) :
    ∃ r, reduce red x (some axes) = .ok r ∧ r.WF ∧
      r.dims.zip r.nd.shape = (x.dims.zip x.nd.shape).filter (fun p => p.1 ∉ ds) ∧
      r.dims = x.dims.filter (fun d => d ∉ ds) ∧
      ∀ c, r.at_ c = red ((coordsOver (((x.dims.zip x.nd.shape).filter fun p => p.1 ∈ ds).map
        fun p => (p.1.key, p.2)) c).map x.at_) := by
  obtain ⟨ks, h1, h2⟩ := multipleAxis_of hn ds axes h hds
  have hdist : Distinct x.dims := by
    have : x.dims.map Dim.name = (x.dims.map Dim.key).map Prod.fst := by rw [List.map_map]; rfl
    rw [this] at hn; exact List.Nodup.of_map _ hn
  have hxn := List.Nodup.of_map _ hn
  have hkn : ks.Nodup := by
    have : (ks.map fun k => x.dims[k]?).Nodup := by
      rw [h2]; exact hdn.map fun _ _ h => Option.some.inj h
    exact List.Nodup.of_map _ this
  have hlt : ∀ k ∈ ks, k < x.dims.length := by
    intro k hk
    have : x.dims[k]? ∈ ds.map some := by
      rw [← h2]; exact List.mem_map_of_mem (f := fun k => x.dims[k]?) hk
    obtain ⟨d, _, hd⟩ := List.mem_map.1 this
    exact (List.getElem?_eq_some_iff.1 hd.symm).1
  have hmem : ∀ k (hk : k < x.dims.length), k ∈ ks ↔ x.dims[k] ∈ ds := by
    intro k hk
    constructor
    · intro hks
      have : x.dims[k]? ∈ ds.map some := by
        rw [← h2]; exact List.mem_map_of_mem (f := fun k => x.dims[k]?) hks
      rw [List.getElem?_eq_getElem hk] at this
      obtain ⟨d, hd, he⟩ := List.mem_map.1 this
      exact Option.some.inj he ▸ hd
    · intro hd
      have : some x.dims[k] ∈ ks.map fun k => x.dims[k]? := by
        rw [h2]; exact List.mem_map_of_mem hd
      obtain ⟨j, hj, he⟩ := List.mem_map.1 this
      obtain ⟨hj', hjd⟩ := List.getElem?_eq_some_iff.1 he
      exact (hxn.getElem_inj_iff (hi := hj') (hj := hk)).1 hjd ▸ hj
  -- positions in `ks` versus membership in `ds`
  have key : ∀ (l : List (Dim β)) (ss : List Nat) (j : Nat), l.length = ss.length →
      (∀ i (hi : i < l.length), i + j ∈ ks ↔ l[i] ∈ ds) →
      Nd.dropFrom ks j l = l.filter (fun d => d ∉ ds) ∧
      (Nd.dropFrom ks j l).zip (Nd.dropFrom ks j ss) = (l.zip ss).filter (fun p => p.1 ∉ ds) ∧
      axesAt ks j l ss = ((l.zip ss).filter fun p => p.1 ∈ ds).map fun p => (p.1.key, p.2) := by
    intro l
    induction l with
    | nil => intro ss j hl _; cases ss <;> simp [Nd.dropFrom, axesAt]
    | cons d t ih =>
      intro ss j hl hj
      cases ss with
      | nil => simp at hl
      | cons s u =>
        have h0 := hj 0 (by simp)
        simp only [Nat.zero_add, List.getElem_cons_zero] at h0
        obtain ⟨i1, i2, i3⟩ := ih u (j + 1) (by simpa using hl) (by
          intro i hi
          have := hj (i + 1) (by simpa using hi)
          rw [List.getElem_cons_succ] at this
          rw [← this]
          have e : i + (j + 1) = i + 1 + j := by omega
          rw [e])
        simp only [Nd.dropFrom_cons, axesAt]
        by_cases hd : d ∈ ds
        · simp only [h0, hd, if_true, i1, i3, List.zip_cons_cons, List.filter_cons,
            not_true_eq_false, decide_false, decide_true, List.map_cons]
          exact ⟨rfl, i1 ▸ i2, trivial⟩
        · simp only [h0, hd, if_false, i1, i3, List.zip_cons_cons, List.filter_cons,
            not_false_eq_true, decide_false, decide_true, if_true]
          refine ⟨trivial, ?_, rfl⟩
          rw [← i2, i1]
  obtain ⟨k1, k2, k3⟩ := key x.dims x.nd.shape 0 hwf fun i hi => hmem i hi
  obtain ⟨r, e1, e2, e3, e4, e5⟩ := reduce_resolved red x hwf hdist axes ks h1 hkn hlt
  refine ⟨r, e1, e2, ?_, ?_, ?_⟩
  · rw [e3, e4]; exact k2
  · rw [e3]; exact k1
  · intro c; rw [e5, k3]

/-- C08.  Summing over one dimension, spelled out. -/
theorem C08_sum_one [AddMonoid α] (x : Arr β α) (hwf : x.WF)
    (hn : (x.dims.map Dim.name).Nodup) (d : Dim β) (n : Nat) (hd : (d, n) ∈ x.dims.zip x.nd.shape) :
    ∃ r, reduce List.sum x (some [.name d.name]) = .ok r ∧ r.WF ∧
      r.dims = x.dims.filter (fun e => e ≠ d) ∧
      ∀ c, r.at_ c = ((List.range n).map fun i => x.at_ (Function.update c d.key i)).sum := by
  have hdm := (List.of_mem_zip hd).1
  obtain ⟨r, h1, h2, _, h3, h4⟩ := C08_reduce_named List.sum x hwf hn [d] [.name d.name]
    (.cons (Or.inl rfl) .nil) (by simpa using hdm) (by simp)
  refine ⟨r, h1, h2, by simpa using h3, fun c => ?_⟩
  rw [h4]
  have hfil : (x.dims.zip x.nd.shape).filter (fun p => p.1 ∈ [d]) = [(d, n)] := by
    have hzn : ((x.dims.zip x.nd.shape).map Prod.fst).Nodup := by
      rw [List.map_fst_zip (Nat.le_of_eq hwf)]; exact List.Nodup.of_map _ hn
    revert hd hzn
    generalize x.dims.zip x.nd.shape = z
    intro hd hzn
    induction z with
    | nil => simp at hd
    | cons p t ih =>
      simp only [List.map_cons, List.nodup_cons] at hzn
      rcases List.mem_cons.1 hd with rfl | hd
      · have : t.filter (fun p => p.1 ∈ [d]) = [] := by
          rw [List.filter_eq_nil_iff]
          intro q hq hc
          simp only [List.mem_singleton, decide_eq_true_eq] at hc
          have hm := List.mem_map_of_mem (f := Prod.fst) hq
          rw [hc] at hm
          exact hzn.1 hm
        simp [List.filter_cons]
        simpa using this
      · have hp : p.1 ≠ d := fun h => hzn.1 (h ▸ List.mem_map_of_mem (f := Prod.fst) hd)
        rw [List.filter_cons, if_neg (by simpa using hp)]
        exact ih hd hzn.2
  rw [hfil]
  simp only [List.map_cons, List.map_nil, coordsOver, List.map_flatMap, List.flatMap_singleton]
  have hf : ∀ i, (fun q => if q = d.key then i else c q) = Function.update c d.key i := by
    intro i; funext q; simp [Function.update_apply]
  simp only [hf]
  congr 1
  induction List.range n with
  | nil => rfl
  | cons a t ih => simp only [List.flatMap_cons, List.map_cons, ih]; rfl

/-- C08.  A dimension class stands for all dims of this class (none is allowed: then nothing
is reduced). -/
theorem C08_class_axis (red : List α → γ) (x : Arr β α) (hwf : x.WF)
    (hn : (x.dims.map Dim.name).Nodup) (cl : Cls) :
    ∃ r, reduce red x (some [.cls cl]) = .ok r ∧ r.WF ∧
      r.dims = Nd.dropAt ((x.dims.zipIdx.filter fun p => p.1.isa cl).map Prod.snd) x.dims ∧
      ∀ d, d ∈ r.dims ↔ d ∈ x.dims ∧ d.isa cl = false := by
  have hdist : Distinct x.dims := by
    have : x.dims.map Dim.name = (x.dims.map Dim.key).map Prod.fst := by rw [List.map_map]; rfl
    rw [this] at hn; exact List.Nodup.of_map _ hn
  have hmem : ∀ k, k ∈ (x.dims.zipIdx.filter fun p => p.1.isa cl).map Prod.snd ↔
      ∃ h : k < x.dims.length, x.dims[k].isa cl = true := by
    intro k
    simp only [List.mem_map, List.mem_filter, Prod.exists, exists_and_right, exists_eq_right]
    constructor
    · rintro ⟨d, hd, h⟩
      obtain ⟨h1, h2⟩ := List.getElem?_eq_some_iff.1 (List.mk_mem_zipIdx_iff_getElem?.1 hd)
      exact ⟨h1, h2 ▸ h⟩
    · rintro ⟨h1, h2⟩
      exact ⟨x.dims[k], List.mk_mem_zipIdx_iff_getElem?.2 (List.getElem?_eq_getElem h1), h2⟩
  have hks : ((x.dims.zipIdx.filter fun p => p.1.isa cl).map Prod.snd).Nodup := by
    have hs := (List.filter_sublist (l := x.dims.zipIdx) (p := fun p => p.1.isa cl)).map Prod.snd
    rw [List.zipIdx_map_snd] at hs
    exact hs.nodup (List.nodup_range' ..)
  obtain ⟨r, e1, e2, e3, _, _⟩ := reduce_resolved red x hwf hdist [.cls cl]
    ((x.dims.zipIdx.filter fun p => p.1.isa cl).map Prod.snd)
    (by simp only [multipleAxis, List.append_nil, List.map_map]; rfl)
    hks (fun k hk => ((hmem k).1 hk).1)
  refine ⟨r, e1, e2, e3, fun d => ?_⟩
  rw [e3]
  simp only [Nd.dropAt, List.mem_map, List.mem_filter, Prod.exists, exists_and_right,
    exists_eq_right, decide_eq_true_eq]
  constructor
  · rintro ⟨k, hk, h⟩
    obtain ⟨h1, h2⟩ := List.getElem?_eq_some_iff.1 (List.mk_mem_zipIdx_iff_getElem?.1 hk)
    refine ⟨h2 ▸ List.getElem_mem h1, ?_⟩
    cases hd : d.isa cl with
    | false => rfl
    | true => exact absurd ((hmem k).2 ⟨h1, h2 ▸ hd⟩) (by simpa using h)
  · rintro ⟨hd, h⟩
    obtain ⟨k, h1, h2⟩ := List.getElem_of_mem hd
    refine ⟨k, List.mk_mem_zipIdx_iff_getElem?.2 (by rw [List.getElem?_eq_getElem h1, h2]), ?_⟩
    intro hc
    obtain ⟨_, hh⟩ := (hmem k).1 (by simpa using hc)
    rw [h2, h] at hh; cases hh

/-- C08.  Unknown names are rejected with an `IndexError`. -/
theorem C08_unknown_axis (red : List α → γ) (x : Arr β α) (s : String)
    (h : s ∉ x.dims.map Dim.name) : reduce red x (some [.name s]) = .error .indexError := by
  have : ∀ l : List (Dim β), s ∉ l.map Dim.name → dimsIndex l s = none := by
    intro l
    induction l with
    | nil => intro _; rfl
    | cons d t ih =>
      intro h
      simp only [List.map_cons, List.mem_cons, not_or] at h
      simp [dimsIndex, Ne.symm h.1, ih h.2]
  simp [reduce, multipleAxis, this _ h]

/-- C08 fails for negative integers: `sum(axis=-1)` and all other reductions raise the
shape/dims mismatch error on *every* array with at least one axis. -/
theorem C08_negative_axis_refuted (red : List α → γ) (x : Arr β α) (hwf : x.WF) (i : Int)
    (h1 : i < 0) (h2 : -(x.dims.length : Int) ≤ i) :
    reduce red x (some [.int i]) = .error .shapeDimsMismatch := by
  have hnorm : ∀ n : Nat, n = x.dims.length → Nd.normAxis n i = some (i + n).toNat := by
    intro n hn
    have : ¬ (0 ≤ i ∧ i < (n : Int)) := by omega
    simp [Nd.normAxis, this, h1, hn, h2]
  have hlt : (i + x.dims.length).toNat < x.nd.shape.length := by
    rw [← hwf]; omega
  have hax : multipleAxis x.dims [.int i] = .ok [i] := by simp [multipleAxis, hnorm]
  obtain ⟨k, hk⟩ : ∃ k, k = (i + x.dims.length).toNat := ⟨_, rfl⟩
  rw [← hk] at hlt
  have hnax : Nd.normAxes x.dims.length [i] = .ok [k] := by
    simp [Nd.normAxes, hnorm _ rfl, hk]
  have hks : (Nd.keepShape [k] x.nd.shape).length = x.nd.shape.length := by simp [Nd.keepShape]
  have h3 : ([k].all fun k' => (Nd.keepShape [k] x.nd.shape).getD k' 0 = 1) = true :=
    keepShape_ones (by simpa using hlt)
  have hdim : (x.dims.zipIdx.filter fun p => (p.2 : Int) ∉ [i]).map Prod.fst = x.dims := by
    rw [List.filter_eq_self.2, List.zipIdx_map_fst]
    intro p _
    have : (p.2 : Int) ≠ i := by omega
    simpa using this
  have hdl : (Nd.dropAt [k] (Nd.keepShape [k] x.nd.shape)).length ≠ x.dims.length := by
    rw [hwf, ← hks]
    unfold Nd.dropAt
    intro hc
    rw [List.length_map] at hc
    have hlz : (Nd.keepShape [k] x.nd.shape).zipIdx.length = (Nd.keepShape [k] x.nd.shape).length := by simp
    rw [← hlz] at hc
    have := List.length_filter_eq_length_iff.1 hc
    have hk : k < (Nd.keepShape [k] x.nd.shape).length := by rw [hks]; exact hlt
    have := this ((Nd.keepShape [k] x.nd.shape)[k], k)
      (List.mk_mem_zipIdx_iff_getElem?.2 (List.getElem?_eq_getElem hk))
    simp at this
  have hn1 : x.nd.ndim = x.dims.length := hwf.symm
  have hn2 : ∀ g : List Nat → γ, (⟨Nd.keepShape [k] x.nd.shape, g⟩ : Nd γ).ndim = x.dims.length := by
    intro g; rw [Nd.ndim, hks]; exact hwf.symm
  simp only [reduce, hax, Nd.reduce, hn1, hnax, ofNd, mk?, hn2, if_true, squeezeIdx, hdim,
    Nd.squeeze, h3]
  simp only [Nd.ndim]
  have hne : ¬ x.dims.length = (Nd.dropAt [k] (Nd.keepShape [k] x.nd.shape)).length :=
    fun h => hdl h.symm
  simp only [hne, if_false]

/-- Population variance, what numpy computes for `ddof=0`. -/
def varOf (ddof : ℚ) (l : List ℚ) : ℚ :=
  (l.map fun v => (v - l.sum / l.length) ^ 2).sum / (l.length - ddof)

/-- `var(axis, ddof=ddof)`: the argument is accepted but not handed on to numpy.
repo: hftools/dataset/arrayobj.py:828-846 (`std`, 809-827, is the same) -/
def var (x : Arr β ℚ) (axes : Option (List (Axis β))) (_ddof : ℚ) : Except Err (Arr β ℚ) :=
  reduce (varOf 0) x axes

/-- C08 fails for `var` and `std` with a `ddof` argument: the result is the one for `ddof=0`;
for `ddof=1` and data that are not all equal this is never the sample variance. -/
theorem C08_ddof_refuted (x : Arr β ℚ) (axes : Option (List (Axis β))) (ddof : ℚ) :
    var x axes ddof = reduce (varOf 0) x axes ∧
    ∀ l : List ℚ, 2 ≤ l.length → (l.map fun v => (v - l.sum / l.length) ^ 2).sum ≠ 0 →
      varOf 0 l ≠ varOf 1 l := by
  refine ⟨rfl, fun l hl hs h => ?_⟩
  unfold varOf at h
  have h2 : (2 : ℚ) ≤ l.length := by exact_mod_cast hl
  have h0 : (l.length : ℚ) - 0 ≠ 0 := by intro h; linarith
  have h1 : (l.length : ℚ) - 1 ≠ 0 := by intro h; linarith
  rw [div_eq_div_iff h0 h1] at h
  have := mul_left_cancel₀ hs h
  linarith

/-! Concrete case for the hypotheses. -/

example : ∃ r, reduce List.sum exR (some [.name "r"]) = .ok r ∧ r.WF ∧
      r.dims = exR.dims.filter (fun e => e ≠ ⟨.dimRep, "r", [0, 1, 2], none, none⟩) ∧
      ∀ c, r.at_ c = ((List.range 3).map fun i => exR.at_ (Function.update c ("r", .dimRep) i)).sum :=
  C08_sum_one exR rfl (by decide) ⟨.dimRep, "r", [0, 1, 2], none, none⟩ 3 (by decide)

example : (match reduce List.sum exR (some [.name "r", .int 2]) with
    | .ok y => (y.dims.map Dim.name, y.nd.shape, y.nd.get [1])
    | .error _ => ([], [], 0)) = (["f"], [2], 10 + 11 + 12) := by decide +kernel

end HF.Arr
