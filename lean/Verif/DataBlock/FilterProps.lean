import Verif.DataBlock.FilterBlock
/-
C46: filtering a block.  C47: sorting a block.
-/
namespace HF.DataBlock

open HF.DataDict.Spec
open HF.DataDict hiding rename delitem
open HF.Arr hiding Err ofNd

variable {β α : Type}

/-- Blocks in which the variables do not get into conflict with each other, and in which every
axis called `name` has class `cls` and length `n`. -/
structure Usable (b : Block β α) (name : String) (cls : Cls) (n : Nat) : Prop where
  quiet : Quiet b.vars
  wf : ∀ p ∈ b.vars, p.2.WF
  names : ∀ p ∈ b.vars, (p.2.dims.map Dim.name).Nodup
  axis : ∀ p ∈ b.vars, ∀ e m, (e, m) ∈ p.2.dims.zip p.2.nd.shape → e.name = name → e.cls = cls ∧ m = n

/-- The names of the variables stay, each has been reduced to the points `pos` along the axes
called `name`. -/
def AllPicked (name : String) (new : Dim β) (pos : List Nat) (ps qs : List (String × Arr β α)) : Prop :=
  List.Forall₂ (fun p q => p.1 = q.1 ∧ Picked name new pos p.2 q.2) ps qs

/-- `new` is `old` with the coordinate values at the positions `pos`. -/
structure Relabelled (old new : Dim β) (pos : List Nat) : Prop where
  cls : new.cls = old.cls
  name : new.name = old.name
  unit : new.unit = old.unit
  data : new.data.map some = pos.map fun k => old.data[k]?

theorem forall₂_choose {δ ε : Type} {R : δ → ε → Prop} {l : List δ} (h : ∀ a ∈ l, ∃ b, R a b) :
    ∃ m, List.Forall₂ R l m := by
  induction l with
  | nil => exact ⟨[], .nil⟩
  | cons a t ih =>
    obtain ⟨b, hb⟩ := h a (by simp)
    obtain ⟨m, hm⟩ := ih fun x hx => h x (by simp [hx])
    exact ⟨b :: m, .cons hb hm⟩

theorem picked_keys {name : String} {new : Dim β} {pos : List Nat} {x y : Arr β α}
    (h : Picked name new pos x y) (hn : new.name = name)
    (hc : ∀ e ∈ x.dims, e.name = name → e.cls = new.cls) :
    y.dims.map Dim.key = x.dims.map Dim.key := by
  rw [h.dims, List.map_map]
  refine List.map_congr_left fun e he => ?_
  simp only [Function.comp]
  split
  · rename_i hen
    rw [Dim.key, Dim.key, hn, hen, hc e he hen]
  · rfl

theorem mem_zip_of_mem {δ ε : Type} {l : List δ} {m : List ε} (h : l.length = m.length) {a : δ}
    (ha : a ∈ l) : ∃ b, (a, b) ∈ l.zip m := by
  obtain ⟨j, hj, rfl⟩ := List.mem_iff_getElem.1 ha
  exact ⟨m[j]'(h ▸ hj), List.mem_iff_getElem.2 ⟨j, by simp [hj, ← h], by simp⟩⟩

theorem filterMap_getElem? (l : List β) (pos : List Nat) (h : ∀ k ∈ pos, k < l.length) :
    (pos.filterMap fun i => l[i]?).map some = pos.map fun k => l[k]? := by
  induction pos with
  | nil => rfl
  | cons k t ih =>
    have := h k (by simp)
    simp [List.getElem?_eq_getElem this] at ih ⊢
    exact ih fun k hk => h k (by simp [hk])

theorem maskIdx_lt {mask : List Bool} {k : Nat} (h : k ∈ maskIdx mask) : k < mask.length := by
  have := ((C09_mask_positions mask).2 k).1 h
  rw [List.getElem?_eq_some_iff] at this
  exact this.1

theorem maskFits_self (lenient : Bool) (mask : List Bool) : maskFits lenient mask mask.length = true := by
  simp [maskFits]

/-- C46.  `block.filter(mask)` with a boolean array: of every variable exactly the points
remain at which the mask is true, in order, along the axes with the name of the mask's dim;
the other axes and the other variables are as before; the dim has the coordinate values
belonging to these points. -/
theorem C46_filter_mask [DecidableEq β] (env : Env β α) (lenient : Bool) (b : Block β α) (d : Dim β)
    (mask : List Bool) (hu : Usable b d.name d.cls mask.length) (hm : mask.length = d.data.length)
    (hd : d.data ≠ [] ∨ d.outputformat ≠ none) :
    ∃ r new pos, filterMask env lenient b d mask = .ok r ∧
      pos.Pairwise (· < ·) ∧ (∀ k, k ∈ pos ↔ mask[k]? = some true) ∧
      Relabelled d new pos ∧ AllPicked d.name new pos b.vars r.vars ∧ r.xname = b.xname ∧
      ∀ n, lookup r.ivars n = (r.vars.flatMap fun q => q.2.dims).find? fun e => e.name == n := by
  obtain ⟨new, hnew⟩ : ∃ new, new = Dim.copyFrom env.dfltDim d.cls d
      (data := some ((maskIdx mask).filterMap fun i => d.data[i]?)) := ⟨_, rfl⟩
  have hw : withData env d ((maskIdx mask).filterMap fun i => d.data[i]?) = .ok new := by
    rw [withData, if_neg (by tauto), hnew]
  have hnn : new.name = d.name := by rw [hnew]; rfl
  have hnc : new.cls = d.cls := by rw [hnew]; rfl
  obtain ⟨ws, hws⟩ := forall₂_choose (l := b.vars)
    (R := fun p (w : String × Arr β α) => p.1 = w.1 ∧ filterArr lenient d new mask p.2 = .ok w.2 ∧
      w.2.dims.map Dim.key = p.2.dims.map Dim.key ∧ Picked d.name new (maskIdx mask) p.2 w.2)
    (fun p hp => by
      obtain ⟨y, h1, h2⟩ := filterArr_spec lenient d new hnn mask p.2 (hu.wf p hp) (hu.names p hp)
        (fun e m hem hen => by rw [(hu.axis p hp e m hem hen).2]; exact maskFits_self _ _)
      refine ⟨(p.1, y), rfl, h1, picked_keys h2 hnn fun e he hen => ?_, h2⟩
      obtain ⟨m, hm⟩ := mem_zip_of_mem (hu.wf p hp) he
      rw [hnc]; exact (hu.axis p hp e m hm hen).1)
  have hq : Quiet ws := SameFrame.quiet (hws.imp fun p w h => ⟨h.1, h.2.2.1⟩) hu.quiet
  obtain ⟨b', hb1, hb2, hb3⟩ := writes_fresh env b.xname ws hq
  refine ⟨{ b' with xname := b.xname }, new, maskIdx mask, ?_, (C09_mask_positions mask).1,
    (C09_mask_positions mask).2, ⟨hnc, hnn, by rw [hnew]; rfl, ?_⟩, ?_, rfl, ?_⟩
  · simp only [filterMask, ← hm, maskFits_self, Bool.not_true, Bool.false_eq_true, if_false, hw]
    rw [filterLoop_writes env lenient d new mask b.vars ws (hws.imp fun p w h => ⟨h.1, h.2.1⟩), hb1]
  · rw [hnew]
    exact filterMap_getElem? d.data _ fun k hk => hm ▸ maskIdx_lt hk
  · show AllPicked d.name new (maskIdx mask) b.vars b'.vars
    rw [hb2]
    exact hws.imp fun p w h => ⟨h.1, h.2.2.2⟩
  · intro n
    show lookup b'.ivars n = (b'.vars.flatMap fun q => q.2.dims).find? fun e => e.name == n
    rw [hb2]; exact hb3 n

/-- C46 fails for dims no variable depends on: whatever is filtered, they are lost. -/
theorem C46_unused_dim_refuted [DecidableEq β] (env : Env β α) (lenient : Bool) (b : Block β α)
    (d : Dim β) (mask : List Bool) (hu : Usable b d.name d.cls mask.length)
    (hm : mask.length = d.data.length) (hd : d.data ≠ [] ∨ d.outputformat ≠ none) (n : String)
    (hn : ∀ p ∈ b.vars, ∀ e ∈ p.2.dims, e.name ≠ n) :
    ∃ r, filterMask env lenient b d mask = .ok r ∧ lookup r.ivars n = none := by
  obtain ⟨r, new, pos, h1, _, _, h4, h5, _, h7⟩ := C46_filter_mask env lenient b d mask hu hm hd
  refine ⟨r, h1, ?_⟩
  rw [h7, List.find?_eq_none]
  intro e he
  obtain ⟨q, hq, he⟩ := List.mem_flatMap.1 he
  obtain ⟨p, hp, _, h⟩ := forall₂_mem_right h5 hq
  rw [h.dims] at he
  obtain ⟨e', he', rfl⟩ := List.mem_map.1 he
  have := hn p hp e' he'
  split
  · rename_i hen
    rw [h4.name, ← hen]; simpa using this
  · simpa using this

/-- C46 for arrays of values, exactly as far as it holds: the array must be as long as the
axis, and at every position its value must be known to the block iff the coordinate value of
the block at the same position is one of the values.  Then exactly the points remain whose
coordinate value is one of the values. -/
theorem C46_filter_values [DecidableEq β] [DecidableEq α] (env : Env β α) (lenient : Bool)
    (b : Block β α) (d loc : Dim β) (vals : List α) (hl : lookup b.ivars d.name = some loc)
    (hu : Usable b d.name d.cls vals.length) (hm : vals.length = d.data.length)
    (hd : d.data ≠ [] ∨ d.outputformat ≠ none) (hlen : loc.data.length = vals.length)
    (hpos : ∀ (i : Nat) (c : β) (v : α), loc.data[i]? = some c → vals[i]? = some v →
      (v ∈ loc.data.map env.toVal ↔ env.toVal c ∈ vals)) :
    ∃ r new pos, filterValues env lenient b d vals = .ok r ∧
      pos.Pairwise (· < ·) ∧ (∀ k, k ∈ pos ↔ ∃ c, loc.data[k]? = some c ∧ env.toVal c ∈ vals) ∧
      Relabelled d new pos ∧ AllPicked d.name new pos b.vars r.vars := by
  obtain ⟨r, new, pos, h1, h2, h3, h4, h5, _, _⟩ := C46_filter_mask env lenient b d
    (vals.map fun v => decide (v ∈ loc.data.map env.toVal)) (by simpa using hu) (by simpa using hm) hd
  refine ⟨r, new, pos, by simp only [filterValues, hl]; exact h1, h2, fun k => ?_, h4, h5⟩
  rw [h3, List.getElem?_map]
  constructor
  · intro h
    obtain ⟨v, hv, hvm⟩ := Option.map_eq_some_iff.1 h
    have hk : k < loc.data.length := by
      rw [hlen]; exact (List.getElem?_eq_some_iff.1 hv).1
    exact ⟨_, List.getElem?_eq_getElem hk, (hpos k _ v (List.getElem?_eq_getElem hk) hv).1
      (of_decide_eq_true hvm)⟩
  · rintro ⟨c, hc, hcm⟩
    have hk : k < vals.length := by
      rw [← hlen]; exact (List.getElem?_eq_some_iff.1 hc).1
    rw [List.getElem?_eq_getElem hk, Option.map_some, Option.some.injEq]
    exact decide_eq_true ((hpos k c _ hc (List.getElem?_eq_getElem hk)).2 hcm)

/-- C46 fails for arrays of values of another length than the axis (e.g. a selection of
frequencies): `filter` raises an exception, whatever the values. -/
theorem C46_values_length_refuted [DecidableEq β] [DecidableEq α] (env : Env β α)
    (b : Block β α) (d loc : Dim β) (vals : List α) (hl : lookup b.ivars d.name = some loc)
    (p : String × Arr β α) (hp : p ∈ b.vars) (hwf : p.2.WF) (i n : Nat)
    (hi : dimsIndex p.2.dims d.name = some i) (hs : p.2.nd.shape[i]? = some n) (hn : vals.length ≠ n) :
    ∃ e, filterValues env false b d vals = .error e := by
  simp only [filterValues, hl, filterMask]
  split
  · exact ⟨_, rfl⟩
  split
  · exact ⟨_, rfl⟩
  · rename_i new _
    obtain ⟨e, he⟩ := filterLoop_error env false d new
      (vals.map fun v => decide (v ∈ loc.data.map env.toVal)) b.vars
      ⟨p, hp, _, filterArr_error false d new _ p.2 hwf i n hi hs (by simp [maskFits, hn])⟩ { xname := b.xname }
    rw [he]
    exact ⟨_, rfl⟩

/-- C46: an array of values over a dim which the block does not have leaves it as it is. -/
theorem C46_values_unknown [DecidableEq β] [DecidableEq α] (env : Env β α) (lenient : Bool)
    (b : Block β α) (d : Dim β) (vals : List α) (hl : lookup b.ivars d.name = none) :
    filterValues env lenient b d vals = .ok b := by
  simp only [filterValues, hl]

/-! ### Sorting -/

theorem gather_map (l : List β) (order : List Nat) (h : ∀ k ∈ order, k < l.length) :
    ∃ data, gather l order = some data ∧ data.map some = order.map fun k => l[k]? := by
  induction order with
  | nil => exact ⟨[], rfl, rfl⟩
  | cons k t ih =>
    obtain ⟨data, h1, h2⟩ := ih fun k hk => h k (by simp [hk])
    have hk := h k (by simp)
    refine ⟨l[k] :: data, ?_, by simp [h2, List.getElem?_eq_getElem hk]⟩
    unfold gather at h1 ⊢
    rw [List.mapM_cons, List.getElem?_eq_getElem hk, h1]
    rfl

theorem find?_flatMap_new (name : String) (new : Dim β) (hn : new.name = name)
    (ws : List (String × Arr β α))
    (hall : ∀ w ∈ ws, ∀ e ∈ w.2.dims, e.name = name → e = new)
    (hex : ∃ w ∈ ws, ∃ e ∈ w.2.dims, e.name = name) :
    (ws.flatMap fun w => w.2.dims).find? (fun e => e.name == name) = some new := by
  cases h : (ws.flatMap fun w => w.2.dims).find? (fun e => e.name == name) with
  | none =>
    obtain ⟨w, hw, e, he, hen⟩ := hex
    rw [List.find?_eq_none] at h
    exact absurd (by simpa using hen) (h e (List.mem_flatMap.2 ⟨w, hw, he⟩))
  | some e =>
    have h1 := List.find?_some h
    obtain ⟨w, hw, he⟩ := List.mem_flatMap.1 (List.mem_of_find?_eq_some h)
    rw [hall w hw e he (by simpa using h1)]

theorem find?_flatMap_other (old new : Dim β) (hn : new.name = old.name) (m : String)
    (hm : m ≠ old.name) (ws : List (String × Arr β α)) :
    ((ws.map fun p => (p.1, replaceDimArr old new p.2)).flatMap fun w => w.2.dims).find?
      (fun e => e.name == m) = (ws.flatMap fun w => w.2.dims).find? (fun e => e.name == m) := by
  have e1 : ((ws.map fun p => (p.1, replaceDimArr old new p.2)).flatMap fun w => w.2.dims) =
      (ws.flatMap fun w => w.2.dims).map fun e => if old.name = e.name then new else e := by
    rw [List.map_flatMap, List.flatMap_map]
    rfl
  rw [e1]
  generalize (ws.flatMap fun w => w.2.dims) = l
  induction l with
  | nil => rfl
  | cons a t ih =>
    rw [List.map_cons, List.find?_cons, List.find?_cons]
    by_cases h : old.name = a.name
    · have h1 : (new.name == m) = false := by rw [hn]; simpa using Ne.symm hm
      have h2 : (a.name == m) = false := by rw [← h]; simpa using Ne.symm hm
      rw [if_pos h, h1, h2]
      exact ih
    · rw [if_neg h]
      split
      · rfl
      · exact ih

/-- C47.  `block.sort(array)`, whatever the order obtained from the array: all variables that
depend on the dim are rearranged in the same way, and the coordinate values with them; the
other axes and the other variables are as before. -/
theorem C47_sort (env : Env β α) (ofIdx : Int → β) (b : Block β α) (old : Dim β) (n : Nat)
    (order : List Nat) (hold : lookup b.ivars old.name = some old)
    (hu : Usable b old.name old.cls n) (hlt : ∀ k ∈ order, k < n) (hdl : old.data.length = n)
    (hd : old.data ≠ [] ∨ old.outputformat ≠ none)
    (hex : ∃ p ∈ b.vars, ∃ e ∈ p.2.dims, e.name = old.name) :
    ∃ r new, sortBlock env ofIdx b old.name order = .ok r ∧ Relabelled old new order ∧
      AllPicked old.name new order b.vars r.vars ∧ r.xname = b.xname ∧
      ∀ m, lookup r.ivars m = (r.vars.flatMap fun q => q.2.dims).find? fun e => e.name == m := by
  obtain ⟨data, hg1, hg2⟩ := gather_map old.data order (hdl ▸ hlt)
  obtain ⟨new, hnew⟩ : ∃ new, new = Dim.copyFrom env.dfltDim old.cls old (data := some data) := ⟨_, rfl⟩
  have hw : withData env old data = .ok new := by
    rw [withData, if_neg (by tauto), hnew]
  have hnn : new.name = old.name := by rw [hnew]; rfl
  obtain ⟨ws, hws⟩ := forall₂_choose (l := b.vars)
    (R := fun p (w : String × Arr β α) => p.1 = w.1 ∧
      (p.2.take ofIdx (order.map Int.ofNat) old.name = .ok w.2 ∨
        (p.2.take ofIdx (order.map Int.ofNat) old.name = .error .indexError ∧ w.2 = p.2)) ∧
      w.2.dims.map Dim.key = p.2.dims.map Dim.key ∧
      Picked old.name new order p.2 (replaceDimArr old new w.2))
    (fun p hp => by
      obtain ⟨y, h1, h2, h3⟩ := take_spec ofIdx p.2 (hu.wf p hp) (hu.names p hp) old new order
        (fun e m hem hen => by rw [(hu.axis p hp e m hem hen).2]; exact hlt)
      exact ⟨(p.1, y), rfl, h1, h2, h3⟩)
  have hq : Quiet ws := SameFrame.quiet (hws.imp fun p w h => ⟨h.1, h.2.2.1⟩) hu.quiet
  obtain ⟨b', hb1, hb2, hb3⟩ := writes_fresh env b.xname ws hq
  have hloop := sortLoop_writes env ofIdx old.name order b.vars ws
    (hws.imp fun p w h => ⟨h.1, h.2.1⟩) _ _ hb1
  -- some variable of the new block has the dim
  have hex' : ∃ w ∈ ws, ∃ e ∈ w.2.dims, e.name = old.name := by
    obtain ⟨p, hp, e, he, hen⟩ := hex
    obtain ⟨w, hw, h⟩ := forall₂_mem_left hws hp
    have : old.name ∈ w.2.dims.map Dim.name := by
      rw [names_of_keys h.2.2.1, ← hen]; exact List.mem_map_of_mem he
    obtain ⟨e', he', hen'⟩ := List.mem_map.1 this
    exact ⟨w, hw, e', he', hen'⟩
  obtain ⟨v, hv⟩ : ∃ v, lookup b'.ivars old.name = some v := by
    rw [hb3]
    obtain ⟨w, hw, e, he, hen⟩ := hex'
    rw [← Option.isSome_iff_exists, List.find?_isSome]
    exact ⟨e, List.mem_flatMap.2 ⟨w, hw, he⟩, by simpa using hen⟩
  have hren : renameIvar b'.ivars old new =
      some (assign (rename b'.ivars old.name new.name v) new.name new) := by
    simp only [renameIvar, hv]
  refine ⟨⟨ws.map fun p => (p.1, replaceDimArr old new p.2),
    assign (rename b'.ivars old.name new.name v) new.name new, b.xname⟩, new, ?_,
    ⟨by rw [hnew]; rfl, hnn, by rw [hnew]; rfl, by rw [hnew]; exact hg2⟩, ?_, rfl, ?_⟩
  · simp only [sortBlock, hold, hloop, hg1, hw, replaceDim, hren, hb2]
  · show AllPicked old.name new order b.vars (ws.map fun p => (p.1, replaceDimArr old new p.2))
    unfold AllPicked
    rw [List.forall₂_map_right_iff]
    exact hws.imp fun p w h => ⟨h.1, h.2.2.2⟩
  · intro m
    show lookup (assign (rename b'.ivars old.name new.name v) new.name new) m = _
    rw [lookup_assign]
    by_cases hm : m = old.name
    · rw [if_pos (hm.trans hnn.symm), hm, find?_flatMap_new old.name new hnn]
      · intro w hw e he hen
        obtain ⟨w', _, rfl⟩ := List.mem_map.1 hw
        obtain ⟨e', _, rfl⟩ := List.mem_map.1 he
        by_cases h : old.name = e'.name
        · simp [h]
        · simp only [if_neg h] at hen; exact absurd hen.symm h
      · obtain ⟨w, hw, e, he, hen⟩ := hex'
        refine ⟨_, List.mem_map_of_mem hw, new, ?_, hnn⟩
        exact List.mem_map.2 ⟨e, he, by simp [hen]⟩
    · rw [if_neg (fun h => hm (h.trans hnn)), find?_flatMap_other old new hnn m hm, ← hb3]
      rw [hnn, rename, if_pos rfl, lookup_append, lookup_remove, lookup_singleton, if_neg (Ne.symm hm),
        if_neg (Ne.symm hm)]
      simp

/-- C47.  Sorting by a variable puts this variable into order and keeps all of its values: if
`order` sorts the values of the one-dimensional variable `p` with respect to `le`, then after
sorting they are in order and the same values with the same multiplicity. -/
theorem C47_sorted (env : Env β α) (ofIdx : Int → β) (b : Block β α) (old : Dim β) (n : Nat)
    (order : List Nat) (hold : lookup b.ivars old.name = some old)
    (hu : Usable b old.name old.cls n) (hperm : order.Perm (List.range n)) (hdl : old.data.length = n)
    (hd : old.data ≠ [] ∨ old.outputformat ≠ none) (le : α → α → Prop)
    (p : String × Arr β α) (hp : p ∈ b.vars) (e : Dim β) (hpd : p.2.dims = [e]) (hen : e.name = old.name)
    (hsort : order.Pairwise fun i j => le (p.2.nd.get [i]) (p.2.nd.get [j])) :
    ∃ r q, sortBlock env ofIdx b old.name order = .ok r ∧ (p.1, q) ∈ r.vars ∧ q.nd.shape = [n] ∧
      (∀ i j, i < j → j < n → le (q.nd.get [i]) (q.nd.get [j])) ∧
      ((List.range n).map fun i => q.nd.get [i]).Perm ((List.range n).map fun i => p.2.nd.get [i]) := by
  have hlt : ∀ k ∈ order, k < n := fun k hk => by simpa using hperm.mem_iff.1 hk
  have hlen : order.length = n := by simpa using hperm.length_eq
  obtain ⟨r, new, h1, h2, h3, _, _⟩ := C47_sort env ofIdx b old n order hold hu hlt hdl hd
    ⟨p, hp, e, by simp [hpd], hen⟩
  obtain ⟨q, hq, hq1, hq2⟩ := forall₂_mem_left h3 hp
  obtain ⟨s, hs⟩ : ∃ s, p.2.nd.shape = [s] := by
    have := hu.wf p hp
    rw [WF, hpd] at this
    cases h : p.2.nd.shape with
    | nil => simp [h] at this
    | cons a t => cases t with
      | nil => exact ⟨a, rfl⟩
      | cons _ _ => simp [h] at this
  have hsh : q.2.nd.shape = [n] := by
    rw [hq2.shape, hpd, hs]; simp [hen, hlen]
  have hget : ∀ (i : Nat) (hi : i < n), q.2.nd.get [i] = p.2.nd.get [order[i]'(hlen ▸ hi)] := by
    intro i hi
    rw [hq2.get [i] (by rw [hsh]; exact ⟨hi, trivial⟩), hpd]
    simp [hen, List.getD_eq_getElem?_getD, List.getElem?_eq_getElem (hlen.symm ▸ hi)]
  refine ⟨r, q.2, h1, by rw [hq1]; exact hq, hsh, ?_, ?_⟩
  · intro i j hij hj
    rw [hget i (by omega), hget j hj]
    exact List.pairwise_iff_getElem.1 hsort i j _ _ hij
  · have : (List.range n).map (fun i => q.2.nd.get [i]) = order.map fun i => p.2.nd.get [i] := by
      apply List.ext_getElem
      · simp [hlen]
      · intro i hi1 hi2
        simp only [List.getElem_map, List.getElem_range]
        exact hget i (by simpa using hi1)
    rw [this]
    exact hperm.map _

/-- C47 fails for dims no variable depends on: `KeyError`. -/
theorem C47_unused_dim_refuted (env : Env β α) (ofIdx : Int → β) (b : Block β α) (old : Dim β)
    (order : List Nat) (hold : lookup b.ivars old.name = some old) (cls : Cls) (n : Nat)
    (hu : Usable b old.name cls n) (hlt : ∀ k ∈ order, k < old.data.length)
    (hd : old.data ≠ [] ∨ old.outputformat ≠ none)
    (hno : ∀ p ∈ b.vars, ∀ e ∈ p.2.dims, e.name ≠ old.name) :
    sortBlock env ofIdx b old.name order = .error .keyError := by
  obtain ⟨data, hg1, hg2⟩ := gather_map old.data order hlt
  obtain ⟨new, hnew⟩ : ∃ new, new = Dim.copyFrom env.dfltDim old.cls old (data := some data) := ⟨_, rfl⟩
  have hw : withData env old data = .ok new := by
    rw [withData, if_neg (by tauto), hnew]
  have hws : List.Forall₂ (fun p (w : String × Arr β α) => p.1 = w.1 ∧
      (p.2.take ofIdx (order.map Int.ofNat) old.name = .ok w.2 ∨
        (p.2.take ofIdx (order.map Int.ofNat) old.name = .error .indexError ∧ w.2 = p.2)))
      b.vars b.vars := by
    rw [List.forall₂_same]
    intro p hp
    refine ⟨rfl, Or.inr ⟨?_, rfl⟩⟩
    rw [Arr.take, dimsIndex_none.2 (hno p hp)]
  obtain ⟨b', hb1, hb2, hb3⟩ := writes_fresh env b.xname b.vars hu.quiet
  have hloop := sortLoop_writes env ofIdx old.name order b.vars b.vars hws _ _ hb1
  have hnone : lookup b'.ivars old.name = none := by
    rw [hb3, List.find?_eq_none]
    intro e he
    obtain ⟨q, hq, he⟩ := List.mem_flatMap.1 he
    simpa using hno q hq e he
  simp only [sortBlock, hold, hloop, hg1, hw, replaceDim, renameIvar, hnone]

/-- C47: a dim which the block does not have leaves it as it is. -/
theorem C47_unknown (env : Env β α) (ofIdx : Int → β) (b : Block β α) (name : String)
    (order : List Nat) (h : lookup b.ivars name = none) : sortBlock env ofIdx b name order = .ok b := by
  simp only [sortBlock, h]

end HF.DataBlock
