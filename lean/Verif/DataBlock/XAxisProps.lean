import Verif.DataBlock.XAxis
import Verif.DataBlock.Props
/-
C111: the x axis of a block.
-/
namespace HF.DataBlock

open HF.DataDict.Spec
open HF.DataDict hiding rename delitem

variable {β α : Type}

/-! ### Specification -/

/-- What matters for the x axis: an array was assigned, with the name of its outermost dimension, if it has one, or a
dimension was assigned. -/
inductive Event where
  | array (outer : Option String)
  | sweep (name : String)

/-- The name after an event. -/
def Event.after : Option String → Event → Option String
  | none, .array o => o
  | some _, .array _ => none
  | none, .sweep n => some n
  | some x, .sweep _ => some x

/-- The name of the outermost dimension. -/
def outermost (v : Arr β α) : Option String := v.dims.head?.map Dim.name

/-- The event of one operation for block number `b`; all other operations are none. -/
def eventOf (w : World β α) (b : Nat) : Op β α → Option Event
  | .set b' _ v => if b' = b then some (.array (outermost v)) else none
  | .share b' _ r => if b' = b then (w.heap[r]?).map fun v => .array (outermost v) else none
  | .setDim b' _ d => if b' = b then some (.sweep d.name) else none
  | _ => none

/-- The events of a program. -/
def eventsOf (env : Env β α) (b : Nat) : World β α → List (Op β α) → List Event
  | _, [] => []
  | w, op :: ops => (eventOf w b op).toList ++ eventsOf env b (wstep env w op).1 ops

/-! ### Lemmas -/

theorem nextXname_eq (x : Option String) (v : Arr β α) : nextXname x v.dims = Event.after x (.array (outermost v)) := by
  cases x <;> cases h : v.dims <;> simp [nextXname, Event.after, outermost, h]

theorem set_get {γ : Type} (l : List γ) (b b' : Nat) (x y : γ) (h : l[b]? = some x) :
    (l.set b' y)[b]? = some (if b' = b then y else x) := by
  have hlt : b < l.length := (List.getElem?_eq_some_iff.1 h).1
  by_cases e : b' = b
  · subst e; rw [List.getElem?_set_self hlt, if_pos rfl]
  · rw [List.getElem?_set_ne e, h, if_neg e]

/-- Assignment of an array object. -/
theorem wSetArr_xname (env : Env β α) (w : World β α) (b b' : Nat) (key : String) (r : Nat) (blk : RBlock β)
    (hb : w.blocks[b]? = some blk) :
    ∃ blk', (wSetArr env w b' key r).1.blocks[b]? = some blk' ∧
      blk'.xname = match (if b' = b then (w.heap[r]?).map fun v => Event.array (outermost v) else none) with
        | some e => e.after blk.xname
        | none => blk.xname := by
  unfold wSetArr
  cases hb' : w.blocks[b']? with
  | none =>
    have : b' ≠ b := by rintro rfl; rw [hb] at hb'; cases hb'
    exact ⟨blk, hb, by rw [if_neg this]⟩
  | some c =>
    cases hv : w.heap[r]? with
    | none => exact ⟨blk, hb, by split <;> simp_all⟩
    | some v =>
      have hc : b' = b → c = blk := by rintro rfl; rw [hb] at hb'; exact (Option.some.inj hb').symm
      have g : ∀ d : RBlock β, d.xname = nextXname c.xname v.dims →
          ∃ blk', (w.blocks.set b' d)[b]? = some blk' ∧
            blk'.xname = match (if b' = b then (some v).map fun v => Event.array (outermost v) else none) with
              | some e => e.after blk.xname
              | none => blk.xname := by
        intro d hd
        refine ⟨_, set_get _ _ _ _ _ hb, ?_⟩
        by_cases e : b' = b
        · simp only [if_pos e, Option.map_some]
          rw [hd, hc e, nextXname_eq]
        · simp only [if_neg e]
      have hset : ∀ q : World β α × Except Err Unit, (∃ d : RBlock β, q.1.blocks = w.blocks.set b' d ∧
          d.xname = nextXname c.xname v.dims) → ∃ blk', q.1.blocks[b]? = some blk' ∧
            blk'.xname = match (if b' = b then (some v).map fun v => Event.array (outermost v) else none) with
              | some e => e.after blk.xname
              | none => blk.xname := by
        rintro q ⟨d, h1, h2⟩
        rw [h1]
        exact g d h2
      apply hset
      simp only [putBlock]
      repeat' split
      all_goals simp only [putArr, List.set_set]
      all_goals exact ⟨_, rfl, rfl⟩

theorem wSetNew_xname (env : Env β α) (w : World β α) (b b' : Nat) (key : String) (v : Arr β α) (blk : RBlock β)
    (hb : w.blocks[b]? = some blk) :
    ∃ blk', (wSetNew env w b' key v).1.blocks[b]? = some blk' ∧
      blk'.xname = if b' = b then (Event.array (outermost v)).after blk.xname else blk.xname := by
  obtain ⟨blk', h1, h2⟩ := wSetArr_xname env { w with heap := w.heap ++ [v] } b b' key w.heap.length blk hb
  refine ⟨blk', h1, ?_⟩
  rw [h2]
  by_cases e : b' = b <;> simp [e]

theorem wKeep_xname (env : Env β α) (src : RBlock β) (b b' : Nat) (hne : b' ≠ b) (names : List String) :
    ∀ (w : World β α) (blk : RBlock β), w.blocks[b]? = some blk →
    ∃ blk', (wKeep env src b' w names).1.blocks[b]? = some blk' ∧ blk'.xname = blk.xname := by
  induction names with
  | nil => intro w blk hb; exact ⟨blk, hb, rfl⟩
  | cons n ns ih =>
    intro w blk hb
    unfold wKeep
    cases lookup src.ivars n with
    | some d =>
      simp only
      obtain ⟨b1, h1, h2⟩ := wSetNew_xname env w b b' n (ofDim env d) blk hb
      rw [if_neg hne] at h2
      generalize wSetNew env w b' n (ofDim env d) = r at h1
      obtain ⟨w', e | e⟩ := r
      · exact ⟨b1, h1, h2⟩
      · obtain ⟨b2, h3, h4⟩ := ih w' b1 h1
        exact ⟨b2, h3, h4.trans h2⟩
    | none =>
      simp only
      cases lookup src.vars n with
      | none => exact ih w blk hb
      | some r =>
        simp only
        obtain ⟨b1, h1, h2⟩ := wSetArr_xname env w b b' n r blk hb
        rw [if_neg hne] at h2
        generalize wSetArr env w b' n r = q at h1
        obtain ⟨w', e | e⟩ := q
        · exact ⟨b1, h1, h2⟩
        · obtain ⟨b2, h3, h4⟩ := ih w' b1 h1
          exact ⟨b2, h3, h4.trans h2⟩

theorem wReplaceDim_xname (w w' : World β α) (b b' : Nat) (blk c : RBlock β) (old new : Dim β)
    (hb : w.blocks[b]? = some blk) (hc : w.blocks[b']? = some c) (h : wReplaceDim w b' c old new = some w') :
    ∃ blk', w'.blocks[b]? = some blk' ∧ blk'.xname = blk.xname := by
  unfold wReplaceDim at h
  cases hr : renameIvar c.ivars old new with
  | none => rw [hr] at h; cases h
  | some iv =>
    rw [hr] at h
    cases h
    refine ⟨_, set_get _ _ _ _ _ hb, ?_⟩
    by_cases e : b' = b
    · subst e
      rw [hb] at hc
      cases hc
      rw [if_pos rfl]
    · rw [if_neg e]

/-! ### Theorems -/

/-- C111: one operation of a program: only the assignment of arrays and dimensions to the block itself changes the name
of its x axis; an array takes it away when there is one, a dimension leaves it. -/
theorem C111_step (env : Env β α) (w : World β α) (b : Nat) (hb : b < w.blocks.length) (op : Op β α) :
    b < (wstep env w op).1.blocks.length ∧
    xname (wstep env w op).1 b = match eventOf w b op with
      | some e => e.after (xname w b)
      | none => xname w b := by
  obtain ⟨blk, hblk⟩ : ∃ blk, w.blocks[b]? = some blk := ⟨_, List.getElem?_eq_getElem hb⟩
  have hx : xname w b = blk.xname := by simp [xname, hblk]
  suffices h : ∃ blk', (wstep env w op).1.blocks[b]? = some blk' ∧ blk'.xname = (match eventOf w b op with
      | some e => e.after (xname w b)
      | none => xname w b) by
    obtain ⟨blk', h1, h2⟩ := h
    refine ⟨(List.getElem?_eq_some_iff.1 h1).1, ?_⟩
    rw [← h2]
    simp [xname, h1]
  rw [hx]
  have happ : ∀ c : RBlock β, (w.blocks ++ [c])[b]? = some blk := fun c => by
    rw [List.getElem?_append_left hb, hblk]
  cases op with
  | new => exact ⟨blk, happ _, rfl⟩
  | set b' key v =>
    obtain ⟨blk', h1, h2⟩ := wSetNew_xname env w b b' key v blk hblk
    refine ⟨blk', h1, ?_⟩
    rw [h2]
    by_cases e : b' = b <;> simp [eventOf, e]
  | share b' key r => exact wSetArr_xname env w b b' key r blk hblk
  | setDim b' key d =>
    simp only [wstep]
    cases hc : w.blocks[b']? with
    | none =>
      have : b' ≠ b := by rintro rfl; rw [hblk] at hc; cases hc
      exact ⟨blk, hblk, by simp [eventOf, this]⟩
    | some c =>
      refine ⟨_, set_get _ _ _ _ _ hblk, ?_⟩
      by_cases e : b' = b
      · subst e
        rw [hblk] at hc
        cases hc
        rw [if_pos rfl]
        cases hxn : blk.xname <;> simp [eventOf, Event.after]
      · simp [eventOf, e]
  | del b' key =>
    simp only [wstep]
    cases hc : w.blocks[b']? with
    | none => exact ⟨blk, hblk, rfl⟩
    | some c =>
      simp only
      split
      · refine ⟨_, set_get _ _ _ _ _ hblk, ?_⟩
        by_cases e : b' = b
        · subst e
          rw [hblk] at hc
          cases hc
          rw [if_pos rfl]
          rfl
        · rw [if_neg e]; rfl
      · exact ⟨blk, hblk, rfl⟩
  | rename b' old new =>
    simp only [wstep]
    cases hc : w.blocks[b']? with
    | none => exact ⟨blk, hblk, rfl⟩
    | some c =>
      simp only
      cases lookup c.ivars old with
      | some d =>
        simp only
        cases hr : wReplaceDim w b' c d (Dim.copyFrom env.dfltDim d.cls d (name := some new)) with
        | none => exact ⟨blk, hblk, rfl⟩
        | some w' => exact wReplaceDim_xname w w' b b' blk c _ _ hblk hc hr
      | none =>
        simp only
        cases lookup c.vars old with
        | none => exact ⟨blk, hblk, rfl⟩
        | some r =>
          refine ⟨_, set_get _ _ _ _ _ hblk, ?_⟩
          by_cases e : b' = b
          · subst e
            rw [hblk] at hc
            cases hc
            rw [if_pos rfl]
            rfl
          · rw [if_neg e]; rfl
  | replaceDim b' old new =>
    simp only [wstep]
    cases hc : w.blocks[b']? with
    | none => exact ⟨blk, hblk, rfl⟩
    | some c =>
      simp only
      cases hr : wReplaceDim w b' c old new with
      | none => exact ⟨blk, hblk, rfl⟩
      | some w' => exact wReplaceDim_xname w w' b b' blk c _ _ hblk hc hr
  | copy b' =>
    simp only [wstep]
    cases hc : w.blocks[b']? with
    | none => exact ⟨blk, hblk, rfl⟩
    | some c => exact ⟨blk, happ _, rfl⟩
  | keep b' names =>
    simp only [wstep]
    cases hc : w.blocks[b']? with
    | none => exact ⟨blk, hblk, rfl⟩
    | some c =>
      exact wKeep_xname env c b w.blocks.length (by omega) names _ blk (happ _)

/-- C111: whole programs: the name of the x axis is what the events of this block make of it, one after the other. -/
theorem C111_history (env : Env β α) (b : Nat) (ops : List (Op β α)) : ∀ w : World β α, b < w.blocks.length →
    xname (wrun env w ops) b = (eventsOf env b w ops).foldl Event.after (xname w b) := by
  induction ops with
  | nil => intro w _; rfl
  | cons op ops ih =>
    intro w hb
    obtain ⟨h1, h2⟩ := C111_step env w b hb op
    show xname (wrun env (wstep env w op).1 ops) b = _
    rw [ih _ h1, h2]
    simp only [eventsOf, List.foldl_append]
    cases eventOf w b op <;> rfl

/-- C111: a new block has no x axis, a copy has that of the block copied. -/
theorem C111_made (env : Env β α) (w : World β α) :
    xname (wstep env w .new).1 w.blocks.length = none ∧
    ∀ b, b < w.blocks.length → xname (wstep env w (.copy b)).1 w.blocks.length = xname w b := by
  constructor
  · simp [xname, wstep]
  · intro b hb
    simp [xname, wstep, List.getElem?_eq_getElem hb]

/-- C111: an array is assigned to a block without x axis, under a new name that is not a name of its dimensions: the
values of the x axis are those of the outermost dimension of this array, or of the dimension with this name that the block
has already. -/
theorem C111_value (env : Env β α) (w : World β α) (b : Nat) (blk : RBlock β) (hb : w.blocks[b]? = some blk)
    (hx : blk.xname = none) (key : String) (v : Arr β α) (hp : Plain blk key v) (d : Dim β) (ds : List (Dim β))
    (hv : v.dims = d :: ds) :
    xvalue env (wstep env w (.set b key v)).1 b = .ok (ofDim env ((lookup blk.ivars d.name).getD d)) := by
  have hi : lookup blk.ivars key = none := (lookup_none_iff' _ _).2 hp.ivar
  have hlt : b < w.blocks.length := (List.getElem?_eq_some_iff.1 hb).1
  simp only [wstep, wSetNew, wSetArr, hb]
  rw [List.getElem?_append_right (Nat.le_refl _)]
  simp only [Nat.sub_self, List.getElem?_cons_zero, putBlock, elemTarget_plain hp, hi, List.set_set]
  simp only [xvalue, wGetitem]
  rw [List.getElem?_set_self hlt]
  simp only [hx, hv, nextXname, getitem]
  have keep : ∀ (ds : List (Dim β)) (m : OMap String (Dim β)) x, lookup m d.name = some x →
      lookup (addDims m ds) d.name = some x := by
    intro ds
    induction ds with
    | nil => intro m x h; exact h
    | cons e t ih =>
      intro m x h
      unfold addDims at ih ⊢
      rw [List.foldl_cons]
      apply ih
      split
      · exact h
      · rename_i hm
        rw [lookup_assign, if_neg]
        · exact h
        · intro e'
          rw [← e', member_eq_isSome, h] at hm
          exact hm rfl
  have : lookup (addDims blk.ivars (d :: ds)) d.name = some ((lookup blk.ivars d.name).getD d) := by
    unfold addDims
    rw [List.foldl_cons]
    apply keep ds
    cases hl : lookup blk.ivars d.name with
    | none =>
      rw [if_neg (by rw [member_eq_isSome, hl]; simp), lookup_assign, if_pos rfl]
      rfl
    | some x =>
      rw [if_pos (by rw [member_eq_isSome, hl]; rfl), hl]
      rfl
  rw [this]

/-- C111: a dimension assigned under its own name to a block without x axis. -/
theorem C111_sweep (env : Env β α) (w : World β α) (b : Nat) (hb : b < w.blocks.length) (hx : xname w b = none) (d : Dim β) :
    xvalue env (wstep env w (.setDim b d.name d)).1 b = .ok (ofDim env d) := by
  have hblk : w.blocks[b]? = some w.blocks[b] := List.getElem?_eq_getElem hb
  have hx' : (w.blocks[b]).xname = none := by simpa [xname, hblk] using hx
  simp only [wstep, hblk, putBlock, xvalue, wGetitem]
  rw [List.getElem?_set_self hb]
  simp only [hx', Option.getD_none, getitem, lookup_assign, if_pos]

/-- C111: two arrays with dimensions, one after the other: there is no x axis any more, its values cannot be read. -/
theorem C111_second_refuted (env : Env β α) (w : World β α) (b : Nat) (hb : b < w.blocks.length) (hx : xname w b = none)
    (k k' : String) (v v' : Arr β α) (hv : v.dims ≠ []) :
    xvalue env (wrun env w [.set b k v, .set b k' v']) b = .error .typeError := by
  have h := C111_history env b [.set b k v, .set b k' v'] w hb
  have hlt : b < (wrun env w [.set b k v, .set b k' v']).blocks.length := by
    have h1 := (C111_step env w b hb (.set b k v)).1
    exact (C111_step env _ b h1 (.set b k' v')).1
  have ho : ∃ n, outermost v = some n := by
    unfold outermost
    cases hd : v.dims with
    | nil => exact absurd hd hv
    | cons d t => exact ⟨d.name, rfl⟩
  obtain ⟨n, ho⟩ := ho
  simp only [eventsOf, eventOf, if_pos, Option.toList, List.cons_append, List.nil_append, List.foldl_cons, List.foldl_nil, hx,
    ho, Event.after] at h
  generalize wrun env w [.set b k v, .set b k' v'] = w' at h hlt
  have hblk : w'.blocks[b]? = some w'.blocks[b] := List.getElem?_eq_getElem hlt
  have hx' : (w'.blocks[b]).xname = none := by simpa [xname, hblk] using h
  simp only [xvalue, hblk, hx']

/-- C111: the dimension of the x axis is replaced by one with another name: the name of the x axis is that of before, and
there are no values with this name. -/
theorem C111_renamed_refuted (env : Env β α) (w : World β α) (b : Nat) (blk : RBlock β) (hb : w.blocks[b]? = some blk)
    (old new : Dim β) (hx : blk.xname = some old.name) (hi : old.name ∈ keys blk.ivars) (hne : new.name ≠ old.name)
    (hv : old.name ∉ keys blk.vars) (hm : isMatrixName old.name = none) :
    (wstep env w (.replaceDim b old new)).2 = .ok () ∧
    xvalue env (wstep env w (.replaceDim b old new)).1 b = .error (.item .keyError) := by
  have hlt : b < w.blocks.length := (List.getElem?_eq_some_iff.1 hb).1
  obtain ⟨x, hl⟩ : ∃ x, lookup blk.ivars old.name = some x := by
    cases h : lookup blk.ivars old.name with
    | none => exact absurd hi ((lookup_none_iff' _ _).1 h)
    | some x => exact ⟨x, rfl⟩
  have hr : renameIvar blk.ivars old new = some (assign (DataDict.Spec.rename blk.ivars old.name new.name x) new.name new) := by
    simp only [renameIvar, hl]
  have hk := mem_keys_renameIvar hr old.name
  simp only [wstep, hb, wReplaceDim, hr]
  refine ⟨trivial, ?_⟩
  simp only [xvalue, wGetitem]
  rw [List.getElem?_set_self hlt]
  simp only [hx, getitem]
  rw [(lookup_none_iff' _ _).2 (by rw [hk]; rintro (h | h); exacts [hne h.symm, h.2 rfl])]
  simp only
  rw [(lookup_none_iff' _ _).2 (by
    intro h
    apply hv
    obtain ⟨p, hp, e⟩ := List.mem_map.1 h
    obtain ⟨q, hq, e'⟩ := List.mem_filterMap.1 hp
    cases hh : (relabel old new (blk.vars.map Prod.snd) w.heap)[q.2]? with
    | none => rw [hh] at e'; cases e'
    | some y =>
      rw [hh] at e'
      cases e'
      exact e ▸ List.mem_map_of_mem hq)]
  simp only [hm]

end HF.DataBlock
