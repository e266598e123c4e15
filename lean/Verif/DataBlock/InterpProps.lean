import Verif.DataBlock.Interp
import Verif.DataBlock.SqueezeProps
/-
C50: `interpolate`.
-/
namespace HF.DataBlock

open HF.DataDict.Spec
open HF.DataDict hiding rename delitem
open HF.Arr hiding Err ofNd getitem

variable {β α : Type}

theorem zipIdx_filter_spec (p : β → Bool) (l : List β) (j : Nat) :
    (((l.map p).zipIdx j).filter fun q => q.1).map (fun q => l[q.2 - j]?) = (l.filter p).map some := by
  induction l generalizing j with
  | nil => rfl
  | cons a t ih =>
    have hmap : (((t.map p).zipIdx (j + 1)).filter fun q => q.1).map (fun q => (a :: t)[q.2 - j]?) =
        (t.filter p).map some := by
      rw [← ih (j + 1)]
      apply List.map_congr_left
      intro q hq
      have hge : j + 1 ≤ q.2 := List.le_snd_of_mem_zipIdx (List.mem_filter.1 hq).1
      have : q.2 - j = (q.2 - (j + 1)) + 1 := by omega
      rw [this, List.getElem?_cons_succ]
    rw [List.map_cons, List.zipIdx_cons]
    by_cases h : p a = true
    · rw [List.filter_cons_of_pos (by simpa using h), List.filter_cons_of_pos h, List.map_cons,
        List.map_cons, hmap]
      simp
    · rw [List.filter_cons_of_neg (by simpa using h), List.filter_cons_of_neg h, hmap]

/-- The values at the positions of a mask made by `p` are those which satisfy `p`. -/
theorem maskIdx_map (p : β → Bool) (l : List β) :
    (maskIdx (l.map p)).map (fun k => l[k]?) = (l.filter p).map some := by
  have := zipIdx_filter_spec p l 0
  rw [maskIdx, List.map_map, ← this]
  rfl

theorem maskIdx_map_length (p : β → Bool) (l : List β) :
    (maskIdx (l.map p)).length = (l.filter p).length := by
  have := congrArg List.length (maskIdx_map p l)
  simpa using this

variable [DecidableEq β]

theorem hits_count (new old : List β) :
    (hits new old).count true = (old.filter fun c => decide (c ∈ new)).length := by
  unfold hits
  rw [List.count_eq_countP, List.countP_map, List.countP_eq_length_filter]
  congr 1
  apply List.filter_congr
  intro c _
  rw [Bool.eq_iff_iff]
  simp

theorem hits_eq (new old : List β) : hits new old = old.map fun c => decide (c ∈ new) := by
  unfold hits
  apply List.map_congr_left
  intro c _
  rw [Bool.eq_iff_iff]
  simp

theorem filter_mem_sublist {new old : List β} (hs : new.Sublist old) (hn : old.Nodup) :
    (old.filter fun c => decide (c ∈ new)) = new := by
  induction hs with
  | slnil => rfl
  | @cons l1 l2 a hs ih =>
    rw [List.nodup_cons] at hn
    rw [List.filter_cons_of_neg (by
      simp only [decide_eq_true_eq]; exact fun h => hn.1 (hs.subset h)), ih hn.2]
  | @cons_cons l1 l2 a hs ih =>
    rw [List.nodup_cons] at hn
    rw [List.filter_cons_of_pos (by simp)]
    congr 1
    rw [← ih hn.2]
    apply List.filter_congr
    intro c hc
    have hca : c ≠ a := fun h => hn.1 (h ▸ hc)
    rw [ih hn.2]
    simp [hca]

theorem matchingIndex_zero {d newx : Dim β} {t : List (Dim β)} (h1 : d.name = newx.name)
    (h2 : d.isa newx.cls = true) : matchingIndex (d :: t) newx = some 0 := by
  simp [matchingIndex, matches_, h1, h2]

/-- C50: without a mode, points are picked: if the axis is the first one and the new
coordinates are some of the old ones in the same order, the value at each new coordinate is
the one that was at this coordinate before. -/
theorem C50_none (lenient : Bool) (lin : List β → List α → β → Option α) (junk : α) (newx d : Dim β)
    (t : List (Dim β)) (y : Arr β α) (hwf : y.WF) (hd : y.dims = d :: t) (h1 : d.name = newx.name)
    (h2 : d.isa newx.cls = true) (hlen : y.nd.shape.head? = some d.data.length)
    (hs : newx.data.Sublist d.data) (hn : d.data.Nodup) :
    ∃ r, interpolate lenient lin junk .none newx y = .ok r ∧ r.WF ∧ r.dims = newx :: t ∧
      r.nd.shape = newx.data.length :: y.nd.shape.tail ∧
      ∀ (i j : Nat) v, newx.data[i]? = some v → d.data[j]? = some v →
        ∀ is, r.nd.get (i :: is) = y.nd.get (j :: is) := by
  have hf := filter_mem_sublist hs hn
  have hh := hits_eq newx.data d.data
  have hcnt : (hits newx.data d.data).count true = newx.data.length := by rw [hits_count, hf]
  have hml := maskIdx_map_length (fun c => decide (c ∈ newx.data)) d.data
  have hmm := maskIdx_map (fun c => decide (c ∈ newx.data)) d.data
  rw [← hh, hf] at hml hmm
  obtain ⟨s, ss, hsh⟩ : ∃ s ss, y.nd.shape = s :: ss := by
    cases hy : y.nd.shape with
    | nil => rw [hy] at hlen; simp at hlen
    | cons s ss => exact ⟨s, ss, rfl⟩
  have hsl : s = d.data.length := by rw [hsh] at hlen; simpa using hlen
  have hfit : maskFits lenient (hits newx.data d.data) s = true := by
    simp [maskFits, hits, hsl]
  have hl : (newx :: t).length = (newx.data.length :: ss).length := by
    have := hwf
    rw [WF, hd, hsh] at this
    simpa using this
  refine ⟨⟨newx :: t, ⟨newx.data.length :: ss,
    fun idx => y.nd.get (pickIdx (maskIdx (hits newx.data d.data)) idx)⟩⟩, ?_, hl, rfl, ?_, ?_⟩
  · simp only [interpolate, hd, matchingIndex_zero h1 h2, List.getElem?_cons_zero, hcnt,
      ne_eq, not_true_eq_false, if_false, maskFirst, hsh, hfit, if_true, Arr.ofNd, List.set_cons_zero]
    rw [mk?, if_pos]
    · rw [hml]
    · rw [Nd.ndim, hml]; exact hl
  · rw [hsh]; rfl
  · intro i j v hi hj is
    show y.nd.get ((maskIdx (hits newx.data d.data)).getD i 0 :: is) = _
    have hil : i < newx.data.length := (List.getElem?_eq_some_iff.1 hi).1
    have e := congrArg (fun l => l[i]?) hmm
    simp only [List.getElem?_map, hi, Option.map_some] at e
    cases hk : (maskIdx (hits newx.data d.data))[i]? with
    | none => rw [hk] at e; simp at e
    | some k =>
      rw [hk] at e
      simp only [Option.map_some, Option.some.injEq] at e
      rw [List.getD_eq_getElem?_getD, hk]
      have : k = j := by
        obtain ⟨a1, a2⟩ := List.getElem?_eq_some_iff.1 e
        obtain ⟨b1, b2⟩ := List.getElem?_eq_some_iff.1 hj
        exact (List.Nodup.getElem_inj_iff hn).1 (a2.trans b2.symm)
      rw [this]
      rfl

/-- C50: a new coordinate that was not there before is a `ValueError`. -/
theorem C50_missing (lenient : Bool) (lin : List β → List α → β → Option α) (junk : α) (newx oldx : Dim β)
    (y : Arr β α) (k : Nat) (hk : matchingIndex y.dims newx = some k) (ho : y.dims[k]? = some oldx)
    (hn : oldx.data.Nodup) (v : β) (hv : v ∈ newx.data) (hv' : v ∉ oldx.data) :
    interpolate lenient lin junk .none newx y = .error .valueError := by
  have hlt : (hits newx.data oldx.data).count true < newx.data.length := by
    rw [hits_count]
    have hsub : (oldx.data.filter fun c => decide (c ∈ newx.data)).Subperm (newx.data.erase v) := by
      apply List.subperm_of_subset (hn.filter _)
      intro c hc
      obtain ⟨hc1, hc2⟩ := List.mem_filter.1 hc
      have hcv : c ≠ v := fun h => hv' (h ▸ hc1)
      exact (List.mem_erase_of_ne hcv).2 (by simpa using hc2)
    have := hsub.length_le
    rw [List.length_erase_of_mem hv] at this
    have : 0 < newx.data.length := List.length_pos_of_mem hv
    omega
  simp only [interpolate, hk, ho]
  rw [if_pos (by omega)]

/-- C50: arrays without the dimension are returned as they are, in every mode. -/
theorem C50_absent (lenient : Bool) (lin : List β → List α → β → Option α) (junk : α) (mode : Mode)
    (newx : Dim β) (y : Arr β α)
    (h : ∀ d ∈ y.dims, d.name = newx.name → d.isa newx.cls = false) :
    interpolate lenient lin junk mode newx y = .ok y := by
  have : matchingIndex y.dims newx = none := by
    generalize y.dims = l at h
    induction l with
    | nil => rfl
    | cons d t ih =>
      have hm : matches_ d newx = false := by
        rw [matches_, Bool.and_eq_false_iff]
        by_cases hn : d.name = newx.name
        · exact Or.inr (h d (by simp) hn)
        · exact Or.inl (by simpa using hn)
      simp [matchingIndex, hm, ih fun e he => h e (by simp [he])]
  simp only [interpolate, this]

/-- C50.  A mode which is not known is refused for every array that has the dim. -/
theorem C50_unknown (lenient : Bool) (lin : List β → List α → β → Option α) (junk : α) (newx d : Dim β)
    (y : Arr β α) (hd : d ∈ y.dims) (h1 : d.name = newx.name) (h2 : d.isa newx.cls = true) :
    interpolate lenient lin junk .unknown newx y = .error .valueError := by
  have h : ∃ k, matchingIndex y.dims newx = some k ∧ k < y.dims.length := by
    have hm : matches_ d newx = true := by simp [matches_, h1, h2]
    generalize y.dims = l at hd
    induction l with
    | nil => cases hd
    | cons e t ih =>
      by_cases he : matches_ e newx = true
      · exact ⟨0, by simp [matchingIndex, he], by simp⟩
      · rcases List.mem_cons.1 hd with rfl | hd'
        · exact absurd hm he
        · obtain ⟨k, hk, hl⟩ := ih hd'
          exact ⟨k + 1, by simp [matchingIndex, he, hk], by simp; omega⟩
  obtain ⟨k, hk, hl⟩ := h
  simp [interpolate, hk, List.getElem?_eq_getElem hl]

/-- C50 fails if the new coordinates come in another order: the values stay where they are and
only the labels change. -/
theorem C50_order_refuted (lenient : Bool) (lin : List β → List α → β → Option α) (junk : α)
    (newx d : Dim β) (t : List (Dim β)) (y : Arr β α) (hwf : y.WF) (hd : y.dims = d :: t)
    (h1 : d.name = newx.name) (h2 : d.isa newx.cls = true)
    (hlen : y.nd.shape.head? = some d.data.length) (hp : newx.data.Perm d.data) :
    ∃ r, interpolate lenient lin junk .none newx y = .ok r ∧ r.dims = newx :: t ∧
      r.nd.shape = y.nd.shape ∧
      ∀ i < d.data.length, ∀ is, r.nd.get (i :: is) = y.nd.get (i :: is) := by
  have hall : ∀ c ∈ d.data, (decide (c ∈ newx.data)) = true := by
    intro c hc; simpa using hp.mem_iff.2 hc
  have hf : (d.data.filter fun c => decide (c ∈ newx.data)) = d.data := List.filter_eq_self.2 hall
  have hh : hits newx.data d.data = List.replicate d.data.length true := by
    rw [hits_eq, List.map_congr_left (g := fun _ => true) hall, List.map_const']
  have hcnt : (hits newx.data d.data).count true = newx.data.length := by
    rw [hits_count, hf, hp.length_eq]
  have hml : maskIdx (hits newx.data d.data) = List.range d.data.length := by
    rw [hh, maskIdx, List.filter_eq_self.2 (by
      intro q hq
      have := List.fst_mem_of_mem_zipIdx hq
      exact (List.mem_replicate.1 this).2), List.zipIdx_map_snd]
    simp [List.range_eq_range']
  obtain ⟨s, ss, hsh⟩ : ∃ s ss, y.nd.shape = s :: ss := by
    cases hy : y.nd.shape with
    | nil => rw [hy] at hlen; simp at hlen
    | cons s ss => exact ⟨s, ss, rfl⟩
  have hsl : s = d.data.length := by rw [hsh] at hlen; simpa using hlen
  have hfit : maskFits lenient (hits newx.data d.data) s = true := by
    simp [maskFits, hits, hsl]
  have hl : (newx :: t).length = (d.data.length :: ss).length := by
    have := hwf
    rw [WF, hd, hsh] at this
    simpa using this
  refine ⟨⟨newx :: t, ⟨d.data.length :: ss,
    fun idx => y.nd.get (pickIdx (List.range d.data.length) idx)⟩⟩, ?_, rfl, ?_, ?_⟩
  · simp only [interpolate, hd, matchingIndex_zero h1 h2, List.getElem?_cons_zero, hcnt,
      ne_eq, not_true_eq_false, if_false, maskFirst, hsh, hfit, if_true, Arr.ofNd, List.set_cons_zero,
      hml, List.length_range]
    rw [mk?, Nd.ndim, if_pos hl]
  · rw [hsh, hsl]
  · intro i hi is
    show y.nd.get ((List.range d.data.length).getD i 0 :: is) = _
    rw [List.getD_eq_getElem?_getD, List.getElem?_range hi]
    rfl

/-- C50 fails if the axis is not the first one: the points are picked along the first axis.
With axes of different lengths this is an exception (from numpy 1.13 on). -/
theorem C50_axis_refuted (lin : List β → List α → β → Option α) (junk : α) (newx oldx : Dim β)
    (y : Arr β α) (k : Nat) (hk : matchingIndex y.dims newx = some k) (ho : y.dims[k]? = some oldx)
    (s : Nat) (ss : List Nat) (hs : y.nd.shape = s :: ss) (hne : s ≠ oldx.data.length) :
    ∃ e, interpolate false lin junk .none newx y = .error e := by
  simp only [interpolate, hk, ho]
  split
  · exact ⟨_, rfl⟩
  · have : maskFits false (hits newx.data oldx.data) s = false := by
      simp only [maskFits, hits, List.length_map, Bool.false_and, Bool.or_false, decide_eq_false_iff_not]
      exact Ne.symm hne
    simp only [maskFirst, hs, this, Bool.false_eq_true, if_false, Arr.ofNd]
    exact ⟨_, rfl⟩

/-- C50: in linear mode every value is that of the one-dimensional interpolation along the
axis, which may be any of them. -/
theorem C50_linear (lenient : Bool) (lin : List β → List α → β → Option α) (junk : α) (newx oldx : Dim β)
    (y : Arr β α) (hwf : y.WF) (k : Nat) (hk : matchingIndex y.dims newx = some k)
    (ho : y.dims[k]? = some oldx) (hlen : y.nd.shape[k]? = some oldx.data.length)
    (hlin : ∀ ys : List α, ys.length = oldx.data.length → ∀ t ∈ newx.data, (lin oldx.data ys t).isSome) :
    ∃ r, interpolate lenient lin junk .linear newx y = .ok r ∧ r.WF ∧ r.dims = y.dims.set k newx ∧
      r.nd.shape = y.nd.shape.set k newx.data.length ∧
      ∀ idx (i : Nat) t, idx[k]? = some i → newx.data[i]? = some t →
        lin oldx.data ((List.range oldx.data.length).map fun j => y.nd.get (idx.set k j)) t =
          some (r.nd.get idx) := by
  have hg : y.nd.shape.getD k 0 = oldx.data.length := by
    rw [List.getD_eq_getElem?_getD, hlen]; rfl
  refine ⟨⟨y.dims.set k newx, ⟨y.nd.shape.set k newx.data.length, interpGet lin junk oldx.data y.nd k newx.data⟩⟩,
    ?_, ?_, rfl, rfl, ?_⟩
  · simp only [interpolate, hk, ho, interp1d, hg, ne_eq, not_true_eq_false, if_false]
    rw [if_pos]
    · simp only [Arr.ofNd, mk?, Nd.ndim, List.length_set]
      rw [if_pos]
      exact hwf
    · rw [List.all_eq_true]
      intro n _
      rw [List.all_eq_true]
      intro t ht
      exact hlin _ (by simp [fibreAt]) t ht
  · simp only [WF, List.length_set]; exact hwf
  · intro idx i t hi ht
    have hi' : idx.getD k 0 = i := by rw [List.getD_eq_getElem?_getD, hi]; rfl
    simp only [interpGet, hi', ht]
    obtain ⟨v, hv⟩ := Option.isSome_iff_exists.1 (hlin
      ((List.range oldx.data.length).map fun j => y.nd.get (idx.set k j)) (by simp) t
      (List.mem_of_getElem? ht))
    rw [hv, fibreAt, hv]
    rfl

/-- C50: with an interpolation that reproduces the given points, linear mode keeps the values
at the old coordinates; the order of the new ones does not matter, nor does the place of the
axis. -/
theorem C50_linear_knots (lenient : Bool) (lin : List β → List α → β → Option α) (junk : α)
    (newx oldx : Dim β) (y : Arr β α) (hwf : y.WF) (k : Nat)
    (hk : matchingIndex y.dims newx = some k) (ho : y.dims[k]? = some oldx)
    (hlen : y.nd.shape[k]? = some oldx.data.length)
    (hlin : ∀ ys : List α, ys.length = oldx.data.length → ∀ t ∈ newx.data, (lin oldx.data ys t).isSome)
    (hknot : ∀ (ys : List α) (j : Nat) a b, ys.length = oldx.data.length → oldx.data[j]? = some a →
      ys[j]? = some b → lin oldx.data ys a = some b) :
    ∃ r, interpolate lenient lin junk .linear newx y = .ok r ∧ r.dims = y.dims.set k newx ∧
      ∀ idx (i j : Nat) t, idx[k]? = some i → newx.data[i]? = some t → oldx.data[j]? = some t →
        r.nd.get idx = y.nd.get (idx.set k j) := by
  obtain ⟨r, h1, _, h2, _, h3⟩ := C50_linear lenient lin junk newx oldx y hwf k hk ho hlen hlin
  refine ⟨r, h1, h2, fun idx i j t hi ht hj => ?_⟩
  have hjl : j < oldx.data.length := (List.getElem?_eq_some_iff.1 hj).1
  have := hknot ((List.range oldx.data.length).map fun j => y.nd.get (idx.set k j)) j t
    (y.nd.get (idx.set k j)) (by simp) hj (by simp [hjl])
  rw [h3 idx i t hi ht] at this
  exact Option.some.inj this

/-- `r` has the values of `x` at the coordinates `newx`, or is `x` if it has no such axis. -/
def PickedAt (newx : Dim β) (x r : Arr β α) : Prop :=
  ((∀ d ∈ x.dims, d.name ≠ newx.name) ∧ r = x) ∨
  ∃ d t, x.dims = d :: t ∧ d.name = newx.name ∧ r.WF ∧ r.dims = newx :: t ∧
    r.nd.shape = newx.data.length :: x.nd.shape.tail ∧
    ∀ (i j : Nat) v, newx.data[i]? = some v → d.data[j]? = some v →
      ∀ is, r.nd.get (i :: is) = x.nd.get (j :: is)

theorem interpolateLoop_writes (env : Env β α) (lenient : Bool) (lin : List β → List α → β → Option α)
    (mode : Mode) (newx : Dim β) (b : Block β α) (ps ws : List (String × Arr β α))
    (h : List.Forall₂ (fun p w => p.1 = w.1 ∧ getitem env b p.1 = .ok p.2 ∧
      interpolate lenient lin env.junk mode newx p.2 = .ok w.2) ps ws) :
    ∀ db, interpolateLoop env lenient lin mode newx b db (ps.map Prod.fst) = writes env db ws := by
  induction h with
  | nil => intro db; rfl
  | @cons p w ps ws hr _ ih =>
    intro db
    simp only [List.map_cons, interpolateLoop, writes, hr.2.1, hr.2.2, ofArr]
    rw [hr.1]
    split
    · rename_i e; simp [e]
    · rename_i e; simp [e, ih]

/-- C50 for a block whose variables depend on the dimension, if at all, through their first
axis: each variable is picked at the new coordinates. -/
theorem C50_block (env : Env β α) (lenient : Bool) (lin : List β → List α → β → Option α) (newx : Dim β)
    (b : Block β α) (hb : Orderly b)
    (hdim : ∀ p ∈ b.vars, (∀ d ∈ p.2.dims, d.name ≠ newx.name) ∨
      ∃ d t, p.2.dims = d :: t ∧ d.name = newx.name ∧ d.isa newx.cls = true ∧
        p.2.nd.shape.head? = some d.data.length ∧ newx.data.Sublist d.data ∧ d.data.Nodup) :
    ∃ r, interpolateBlock env lenient lin .none newx b = .ok r ∧
      List.Forall₂ (fun p w => w.1 = p.1 ∧ PickedAt newx p.2 w.2) b.vars r.vars := by
  obtain ⟨ws, hws⟩ := forall₂_choose (l := b.vars)
    (R := fun p (w : String × Arr β α) => p.1 = w.1 ∧ getitem env b p.1 = .ok p.2 ∧
      interpolate lenient lin env.junk .none newx p.2 = .ok w.2 ∧ PickedAt newx p.2 w.2)
    (fun p hp => by
      have hni : lookup b.ivars p.1 = none := (lookup_none_iff' _ _).2 (hb.apart p hp)
      have hg : getitem env b p.1 = .ok p.2 := by simp only [getitem, hni, mem_lookup hb.vars hp]
      rcases hdim p hp with h | ⟨d, t, h1, h2, h3, h4, h5, h6⟩
      · exact ⟨p, rfl, hg, C50_absent lenient lin env.junk .none newx p.2
          (fun d hd hn => absurd hn (h d hd)), Or.inl ⟨h, rfl⟩⟩
      · obtain ⟨r, e1, e2, e3, e4, e5⟩ := C50_none lenient lin env.junk newx d t p.2 (hb.wf p hp) h1 h2 h3 h4 h5 h6
        exact ⟨(p.1, r), rfl, hg, e1, Or.inr ⟨d, t, h1, h2, e2, e3, e4, e5⟩⟩)
  have hk : keys ws = b.vars.map Prod.fst := keys_of_forall₂ hws fun p w h => h.1
  obtain ⟨r, h1, h2, _⟩ := writes_new env ws ({} : Block β α) (fun w _ h => by simp [keys] at h)
    (fun w hw w' hw' d hd => by
      obtain ⟨p, hp, hpw⟩ := forall₂_mem_right hws hw
      obtain ⟨p', hp', hpw'⟩ := forall₂_mem_right hws hw'
      rw [← hpw.1]
      rcases hpw'.2.2.2 with ⟨_, h⟩ | ⟨e, t, h1, h2, _, h3, _⟩
      · rw [h] at hd; exact hb.dims p hp p' hp' d hd
      · rw [h3] at hd
        rcases List.mem_cons.1 hd with rfl | hd
        · rw [← h2]; exact hb.dims p hp p' hp' e (by rw [h1]; simp)
        · exact hb.dims p hp p' hp' d (by rw [h1]; simp [hd]))
    (fun w hw m i j hm => by
      obtain ⟨p, hp, hpw⟩ := forall₂_mem_right hws hw
      rw [← hpw.1] at hm
      exact ⟨by simp [keys], hk ▸ hb.elems p hp m i j hm⟩)
    (by rw [hk]; simpa [keys] using hb.vars)
  have h0 : r.vars = ws := by rw [h2]; rfl
  refine ⟨r, ?_, ?_⟩
  · rw [interpolateBlock, interpolateLoop_writes env lenient lin .none newx b b.vars ws
      (hws.imp fun p w h => ⟨h.1, h.2.1, h.2.2.1⟩), h1]
  · rw [h0]
    exact hws.imp fun p w h => ⟨h.1.symm, h.2.2.2⟩

end HF.DataBlock
