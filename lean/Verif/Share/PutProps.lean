import Verif.Share.Distinct
/-
C93: what an assignment to elements changes.
-/
namespace HF.Share

open HF.DataDict.Spec
open HF.DataBlock

variable {β α : Type}

/-! ### The elements of an array object are at different places -/

def AllInj (m : Mem β α) : Prop := ∀ o ∈ m.objs, Inj o.pos.nd

theorem allInj_addArr {m : Mem β α} (h : AllInj m) (v : Arr β α) (u : Option String) (f : String) :
    AllInj (addArr m v u f) := by
  intro o ho
  rcases List.mem_append.1 ho with ho | ho
  · exact h o ho
  · rw [List.mem_singleton.1 ho]
    exact inj_ravel _

theorem allInj_addObj {m : Mem β α} (h : AllInj m) {o : Obj β} (ho : Inj o.pos.nd) :
    AllInj (addObj m o) := by
  intro o' ho'
  rcases List.mem_append.1 ho' with ho' | ho'
  · exact h o' ho'
  · rw [List.mem_singleton.1 ho']
    exact ho

theorem allInj_objs {m m' : Mem β α} (h : AllInj m) (e : m'.objs = m.objs) : AllInj m' := by
  intro o ho
  rw [e] at ho
  exact h o ho

theorem allInj_set {objs : List (Obj β)} (h : ∀ o ∈ objs, Inj o.pos.nd) (r : Nat) {o : Obj β}
    (ho : Inj o.pos.nd) : ∀ o' ∈ objs.set r o, Inj o'.pos.nd := by
  intro o' ho'
  rcases List.mem_or_eq_of_mem_set ho' with h' | rfl
  · exact h o' h'
  · exact ho

theorem allInj_relabel (old new : Dim β) (refs : List Nat) : ∀ objs : List (Obj β),
    (∀ o ∈ objs, Inj o.pos.nd) → ∀ o ∈ relabel old new refs objs, Inj o.pos.nd := by
  induction refs with
  | nil => intro objs h; exact h
  | cons r t ih =>
    intro objs h
    refine ih _ ?_
    beta_reduce
    split
    · rename_i o ho
      exact allInj_set h r (o := { o with pos := replaceDimArr old new o.pos })
        (h o (List.mem_of_getElem? ho))
    · exact h

theorem write_objs (m : Mem β α) (r : Nat) (upd : List Nat → Option α) :
    (write m r upd).objs = m.objs := by
  unfold write
  split
  · rfl
  · split <;> rfl

theorem allInj_replaceDimB {m m' : Mem β α} (h : AllInj m) {b : Nat} {blk : Blk β} {old new : Dim β}
    (hr : replaceDimB m b blk old new = some m') : AllInj m' := by
  unfold replaceDimB at hr
  split at hr
  · cases hr
  · cases hr
    exact allInj_relabel _ _ _ _ h

theorem allInj_setVar (env : Env β α) {m : Mem β α} (h : AllInj m) (b : Nat) (key : String) (r : Nat) :
    AllInj (setVar env m b key r).1 := by
  unfold setVar
  split
  · simp only
    split
    · split
      · exact h
      · split
        · exact h
        · split
          · exact allInj_objs h (write_objs _ _ _)
          · exact h
    · split
      · split
        · split
          · rename_i m' hm
            have := allInj_replaceDimB (m := putBlk m b _) h hm
            split
            · exact this
            · exact this
          · exact h
        · exact h
      · exact h
  · exact h

theorem allInj_viewOf (env : Env β α) {m : Mem β α} (h : AllInj m) (r : Nat) (mv : Move) :
    AllInj (viewOf env m r mv).1 := by
  unfold viewOf
  split
  · exact h
  · rename_i o ho
    split
    · exact h
    · exact h
    · rename_i p hp
      refine allInj_addObj h (inj_move env.dflt (h o (List.mem_of_getElem? ho)) mv ?_)
      unfold ofArr at hp
      split at hp
      · rename_i e; cases hp; exact e
      all_goals cases hp

theorem allInj_getVar (env : Env β α) {m : Mem β α} (h : AllInj m) (b : Nat) (key : String) :
    AllInj (getVar env m b key).1 := by
  unfold getVar
  split
  · exact h
  · split
    · exact allInj_addArr h _ _ _
    · split
      · exact h
      · split
        · exact h
        · split
          · exact h
          · split
            · exact h
            · split
              · exact allInj_viewOf env h _ _
              · exact h

theorem allInj_copyVars (junk : α) (vars : OMap String Nat) : ∀ m : Mem β α, AllInj m →
    AllInj (copyVars junk m vars).1 := by
  induction vars with
  | nil => intro m h; exact h
  | cons q t ih =>
    intro m h
    obtain ⟨k, r⟩ := q
    unfold copyVars
    split
    · exact ih _ (allInj_addArr h _ _ _)
    · exact ih _ h

theorem allInj_viewVars (vars : OMap String Nat) : ∀ m : Mem β α, AllInj m →
    AllInj (viewVars m vars).1 := by
  induction vars with
  | nil => intro m h; exact h
  | cons q t ih =>
    intro m h
    obtain ⟨k, r⟩ := q
    unfold viewVars
    split
    · rename_i o ho
      exact ih _ (allInj_addObj h (h o (List.mem_of_getElem? ho)))
    · exact ih _ h

theorem allInj_keepLoop (env : Env β α) (src : Blk β) (b : Nat) (ns : List String) :
    ∀ m : Mem β α, AllInj m → AllInj (keepLoop env src b m ns).1 := by
  induction ns with
  | nil => intro m h; exact h
  | cons n ns ih =>
    intro m h
    have h1 : AllInj (keepOne env src b m n).1 := by
      unfold keepOne
      split
      · exact allInj_setVar env (allInj_addArr h _ _ _) _ _ _
      · split
        · exact allInj_setVar env h _ _ _
        · exact h
    unfold keepLoop
    split
    · rename_i m' _ e
      rw [e] at h1
      exact ih m' h1
    · rename_i m' _ e
      rw [e] at h1
      exact h1

theorem allInj_filterLoop [DecidableEq β] (env : Env β α) (lenient : Bool) (d new : Dim β)
    (mask : List Bool) (b : Nat) (l : OMap String Nat) :
    ∀ m : Mem β α, AllInj m → AllInj (filterLoop env lenient d new mask b m l).1 := by
  induction l with
  | nil => intro m h; exact h
  | cons q t ih =>
    intro m h
    obtain ⟨k, r⟩ := q
    unfold filterLoop
    split
    · exact h
    · rename_i o ho
      have hi := h o (List.mem_of_getElem? ho)
      split
      · have h1 := allInj_setVar env (allInj_addObj h hi) b k m.objs.length
        split
        · rename_i m' _ e
          rw [e] at h1
          exact ih m' h1
        · rename_i m' _ e
          rw [e] at h1
          exact h1
      · split
        · exact h
        · rename_i u _
          have h1 := allInj_setVar env (allInj_addArr h u o.unit o.fmt) b k m.objs.length
          split
          · rename_i m' _ e
            rw [e] at h1
            exact ih m' h1
          · rename_i m' _ e
            rw [e] at h1
            exact h1

theorem allInj_step [DecidableEq β] (env : Env β α) {m : Mem β α} (h : AllInj m) (op : Op β α) :
    AllInj (step env m op).1 := by
  cases op with
  | arr v u f => exact allInj_addArr h _ _ _
  | copyArr r =>
    simp only [step]
    split
    · exact allInj_addArr h _ _ _
    · exact h
  | move r mv => exact allInj_viewOf env h r mv
  | put r idx x =>
    simp only [step]
    split
    · exact h
    · split
      · exact allInj_objs h (write_objs _ _ _)
      · exact h
  | fill r c =>
    simp only [step]
    split
    · split
      · exact allInj_objs h (write_objs _ _ _)
      · exact h
    · exact h
  | unit r u =>
    simp only [step]
    split
    · rename_i o ho
      exact allInj_set h r (o := { o with unit := u }) (h o (List.mem_of_getElem? ho))
    · exact h
  | fmt r f =>
    simp only [step]
    split
    · rename_i o ho
      exact allInj_set h r (o := { o with fmt := f }) (h o (List.mem_of_getElem? ho))
    · exact h
  | relabel r old new =>
    simp only [step]
    split
    · rename_i o ho
      exact allInj_set h r (o := { o with pos := replaceDimArr old new o.pos })
        (h o (List.mem_of_getElem? ho))
    · exact h
  | new => exact h
  | set b key r => exact allInj_setVar env h b key r
  | setDim b key d =>
    simp only [step]
    split
    · exact h
    · exact h
  | get b key => exact allInj_getVar env h b key
  | del b key =>
    simp only [step]
    split
    · split
      · exact h
      · exact h
    · exact h
  | rename b old new =>
    simp only [step]
    split
    · split
      · split
        · rename_i m' e
          exact allInj_replaceDimB h e
        · exact h
      · split
        · exact h
        · exact h
    · exact h
  | replaceDim b old new =>
    simp only [step]
    split
    · split
      · rename_i m' e
        exact allInj_replaceDimB h e
      · exact h
    · exact h
  | copy b =>
    simp only [step, copyBlk]
    split
    · exact h
    · rename_i blk _
      have : AllInj (copyComm m blk.comm).1 := by
        unfold copyComm
        split
        · exact h
        · split <;> exact h
      exact allInj_copyVars env.junk blk.vars _ this
  | view b =>
    simp only [step, viewBlk]
    split
    · exact h
    · rename_i blk _
      exact allInj_viewVars blk.vars _ h
  | keep b names =>
    simp only [step]
    split
    · exact allInj_keepLoop env _ _ _ _ h
    · exact h
  | filter b lenient d mask =>
    simp only [step, filterBlk]
    split
    · exact h
    · rename_i blk _
      split
      · exact h
      · split
        · exact h
        · rename_i new _
          have h1 := allInj_filterLoop env lenient d new mask m.blks.length blk.vars
            { m with blks := m.blks ++ [⟨[], [], blk.xname, blk.comm⟩] } h
          split
          · rename_i m' out e
            rw [e] at h1
            unfold putXname
            split
            · exact h1
            · exact h1
          · rename_i m' _ e
            rw [e] at h1
            exact h1
  | comments b lines =>
    simp only [step]
    split
    · exact h
    · exact h
  | comment b line =>
    simp only [step]
    split
    · split
      · exact h
      · split
        · exact h
        · exact h
    · exact h

theorem allInj_run [DecidableEq β] (env : Env β α) (ops : List (Op β α)) :
    ∀ {m : Mem β α}, AllInj m → AllInj (run env m ops) := by
  induction ops with
  | nil => exact fun h => h
  | cons op ops ih => exact fun h => ih (allInj_step env h op)

/-! ### Writing -/

theorem poke_other {pos : List Nat → Nat} {upd : List Nat → Option α} {p : Nat} :
    ∀ (l : List (List Nat)) (f : Nat → α), (∀ i ∈ l, pos i = p → upd i = none) →
      poke pos upd l f p = f p
  | [], _, _ => rfl
  | i :: l, f, h => by
    simp only [poke]
    rw [poke_other l _ fun j hj => h j (by simp [hj])]
    cases hv : upd i with
    | none => rfl
    | some v =>
      simp only
      split
      · rename_i e
        have := h i (by simp) e.symm
        rw [hv] at this
        cases this
      · rfl

theorem poke_hit {pos : List Nat → Nat} {upd : List Nat → Option α} {p : Nat} {v : α} :
    ∀ (l : List (List Nat)) (f : Nat → α), (∀ i ∈ l, pos i = p → upd i = some v) →
      ((∃ i ∈ l, pos i = p) ∨ f p = v) → poke pos upd l f p = v
  | [], f, _, h => by simpa [poke] using h
  | i :: l, f, h1, h2 => by
    simp only [poke]
    apply poke_hit l _ fun j hj => h1 j (by simp [hj])
    by_cases e : pos i = p
    · right
      rw [h1 i (by simp) e]
      simp [e]
    · rcases h2 with ⟨j, hj, hjp⟩ | h2
      · rcases List.mem_cons.1 hj with rfl | hj
        · exact absurd hjp e
        · exact Or.inl ⟨j, hj, hjp⟩
      · right
        cases upd i with
        | none => exact h2
        | some w =>
          simp only
          rw [if_neg (fun h => e h.symm), h2]

theorem mem_indices {sh i : List Nat} : i ∈ indices sh ↔ Nd.Valid sh i := by
  unfold indices
  rw [List.mem_map]
  constructor
  · rintro ⟨n, hn, rfl⟩
    exact Nd.valid_unravel (List.mem_range.1 hn)
  · intro h
    exact ⟨Nd.ravel sh i, List.mem_range.2 (Nd.ravel_lt h), Nd.unravel_ravel h⟩

/-- Element `i'` of array `r'` is the same place in memory as element `i` of array `r`. -/
def SamePlace (m : Mem β α) (r : Nat) (i : List Nat) (r' : Nat) (i' : List Nat) : Prop :=
  ∃ o o', m.objs[r]? = some o ∧ m.objs[r']? = some o' ∧ o.buf = o'.buf ∧
    o.pos.nd.get i = o'.pos.nd.get i'

/-- One element of an array object. -/
def elemAt (junk : α) (m : Mem β α) (r : Nat) (i : List Nat) : Option α :=
  (elems junk m r).map fun a => a.get i

/-- Writing changes exactly what is at the places of the elements which get a value. -/
theorem write_spec {m : Mem β α} (junk : α) (hw : Wf m) (hi : AllInj m) (r : Nat) (o : Obj β)
    (ho : m.objs[r]? = some o) (upd : List Nat → Option α) :
    (∀ i v, Nd.Valid o.pos.nd.shape i → upd i = some v → ∀ r' i', SamePlace m r i r' i' →
      elemAt junk (write m r upd) r' i' = some v) ∧
    (∀ r' i', (∀ i v, Nd.Valid o.pos.nd.shape i → upd i = some v → ¬ SamePlace m r i r' i') →
      elemAt junk (write m r upd) r' i' = elemAt junk m r' i') := by
  have hb := hw.obj r o ho
  have hinj := hi o (List.mem_of_getElem? ho)
  have hwr : write m r upd =
      { m with bufs := m.bufs.set o.buf (poke o.pos.nd.get upd (indices o.pos.nd.shape) m.bufs[o.buf]) } := by
    simp only [write, ho, List.getElem?_eq_getElem hb]
  constructor
  · rintro i v hv hu r' i' ⟨o1, o', h1, h2, h3, h4⟩
    rw [ho] at h1
    cases h1
    rw [hwr]
    have hbs : (m.bufs.set o.buf (poke o.pos.nd.get upd (indices o.pos.nd.shape) m.bufs[o.buf]))[o.buf]? =
        some (poke o.pos.nd.get upd (indices o.pos.nd.shape) m.bufs[o.buf]) := List.getElem?_set_self hb
    simp only [elemAt, elems, h2, Option.map_some, Obj.val, ← h3, hbs, Option.some.injEq]
    refine poke_hit _ _ (fun j hj e => ?_) (Or.inl ⟨i, mem_indices.2 hv, h4⟩)
    rw [hinj j i (mem_indices.1 hj) hv (e.trans h4.symm)]
    exact hu
  · intro r' i' hn
    rw [hwr]
    simp only [elemAt, elems]
    cases h2 : m.objs[r']? with
    | none => rfl
    | some o' =>
      simp only [Option.map_some, Option.some.injEq, Obj.val]
      by_cases e : o.buf = o'.buf
      · rw [← e, List.getElem?_set_self hb, List.getElem?_eq_getElem hb]
        refine poke_other _ _ fun j hj hp => ?_
        cases hu : upd j with
        | none => rfl
        | some v => exact absurd ⟨o, o', ho, h2, e, hp⟩ (hn j v (mem_indices.1 hj) hu)
      · rw [List.getElem?_set_ne e]

theorem inside_iff : ∀ {sh i : List Nat}, inside sh i = true ↔ Nd.Valid sh i
  | [], [] => by simp [inside, Nd.Valid]
  | [], _ :: _ => by simp [inside, Nd.Valid]
  | _ :: _, [] => by simp [inside, Nd.Valid]
  | s :: ss, i :: is => by simp [inside, Nd.Valid, inside_iff (sh := ss) (i := is)]

/-- C93: assigning one element, `a[idx] = x`, in any program: this element is `x` afterwards, and
so is everything that is at the same place in memory; every other element of this and of all
other arrays is as before. -/
theorem C93_put [DecidableEq β] (env : Env β α) (ops : List (Op β α)) (r : Nat) (idx : List Nat)
    (x : α) (a : Nd α) :
    let m := run env {} ops
    elems env.junk m r = some a → Nd.Valid a.shape idx →
    (step env m (.put r idx x)).2 = .ok .nothing ∧
    (∀ r' i', SamePlace m r idx r' i' →
      elemAt env.junk (step env m (.put r idx x)).1 r' i' = some x) ∧
    (∀ r' i', ¬ SamePlace m r idx r' i' →
      elemAt env.junk (step env m (.put r idx x)).1 r' i' = elemAt env.junk m r' i') ∧
    elemAt env.junk (step env m (.put r idx x)).1 r idx = some x ∧
    (∀ i, Nd.Valid a.shape i → i ≠ idx →
      elemAt env.junk (step env m (.put r idx x)).1 r i = elemAt env.junk m r i) := by
  intro m ha hv
  have hw : Wf m := C93_wf env ops
  have hi : AllInj m := allInj_run env ops (by intro o ho; cases ho)
  cases ho : m.objs[r]? with
  | none => simp [elems, ho] at ha
  | some o =>
    have hsh : a.shape = o.pos.nd.shape := by
      simp only [elems, ho, Option.map_some, Option.some.injEq] at ha
      rw [← ha]; rfl
    rw [hsh] at hv ⊢
    have hs : step env m (.put r idx x) =
        (write m r fun i => if i = idx then some x else none, .ok .nothing) := by
      simp only [step, ho, inside_iff.2 hv, if_true]
    obtain ⟨w1, w2⟩ := write_spec env.junk hw hi r o ho fun i => if i = idx then some x else none
    have w2' : ∀ r' i', ¬ SamePlace m r idx r' i' →
        elemAt env.junk (step env m (.put r idx x)).1 r' i' = elemAt env.junk m r' i' := by
      intro r' i' hn
      rw [hs]
      refine w2 r' i' fun i v _ hu => ?_
      split at hu
      · rename_i e; rw [e]; exact hn
      · cases hu
    refine ⟨by rw [hs], fun r' i' hp => ?_, w2', ?_, fun i hvi hne => ?_⟩
    · rw [hs]
      exact w1 idx x hv (if_pos rfl) r' i' hp
    · rw [hs]
      exact w1 idx x hv (if_pos rfl) r idx ⟨o, o, ho, ho, rfl, rfl⟩
    · refine w2' r i ?_
      rintro ⟨o1, o2, h1, h2, -, h4⟩
      rw [ho] at h1 h2
      cases h1
      cases h2
      exact hne (hi o (List.mem_of_getElem? ho) idx i hv hvi h4).symm

/-- C93: `a[...] = c` in any program: afterwards the elements of `a` are those which `c` had
before (repeated by numpy's rules where `c` is shorter), even if `a` and `c` overlap in
memory. -/
theorem C93_fill [DecidableEq β] (env : Env β α) (ops : List (Op β α)) (r c : Nat) (a v : Nd α) :
    let m := run env {} ops
    elems env.junk m r = some a → elems env.junk m c = some v →
    ((step env m (.fill r c)).2 = .ok .nothing ↔ bcastOk v.shape.reverse a.shape.reverse = true) ∧
    (bcastOk v.shape.reverse a.shape.reverse = true → ∀ i, Nd.Valid a.shape i →
      elemAt env.junk (step env m (.fill r c)).1 r i =
        some (v.get (bcastIdx v.shape.reverse i.reverse).reverse)) := by
  intro m ha hc
  have hw : Wf m := C93_wf env ops
  have hi : AllInj m := allInj_run env ops (by intro o ho; cases ho)
  cases ho : m.objs[r]? with
  | none => simp [elems, ho] at ha
  | some o =>
    cases hoc : m.objs[c]? with
    | none => simp [elems, hoc] at hc
    | some oc =>
      have hsh : a.shape = o.pos.nd.shape := by
        simp only [elems, ho, Option.map_some, Option.some.injEq] at ha
        rw [← ha]; rfl
      have hvv : (oc.val m.bufs env.junk).nd = v := by
        simpa only [elems, hoc, Option.map_some, Option.some.injEq] using hc
      rw [hsh]
      simp only [step, ho, hoc, hvv, fillUpd]
      by_cases hb : bcastOk v.shape.reverse o.pos.nd.shape.reverse = true
      · simp only [hb, if_true, iff_self, true_and, true_implies]
        intro i hvi
        exact (write_spec env.junk hw hi r o ho _).1 i _ hvi rfl r i ⟨o, o, ho, ho, rfl, rfl⟩
      · have hb' : bcastOk v.shape.reverse o.pos.nd.shape.reverse = false := by simpa using hb
        simp [hb']

theorem setElem_eq (x v : Arr β α) (i j : Int) :
    setElem x i j v = (elemUpd x.nd.shape i j v.nd).map fun upd =>
      ⟨x.dims, ⟨x.nd.shape, fun idx => (upd idx).getD (x.nd.get idx)⟩⟩ := by
  unfold setElem elemUpd
  rcases x.nd.shape.reverse with _ | ⟨q, _ | ⟨p, sh⟩⟩
  · rfl
  · rfl
  · simp only
    cases Nd.normAxis p i with
    | none => rfl
    | some a =>
      cases Nd.normAxis q j with
      | none => rfl
      | some c =>
        simp only
        split
        · simp only [Except.map, Except.ok.injEq, Arr.mk.injEq, Nd.mk.injEq, true_and]
          funext idx
          split <;> rfl
        · rfl

/-- C93: `block["S11"] = value`, for a block with a variable `S`, in any program: the matrix is
changed in place, its elements are afterwards those of the matrix with this element replaced
(`DataBlock.setElem`); if that is not possible, nothing is written. -/
theorem C93_element [DecidableEq β] (env : Env β α) (ops : List (Op β α)) (b r rx : Nat) (blk : Blk β)
    (o x : Obj β) (key name : String) (i j : Int) :
    let m := run env {} ops
    m.blks[b]? = some blk → m.objs[r]? = some o → ismatrix o.pos = false →
    isMatrixName key = some (name, i, j) → lookup blk.vars name = some rx → m.objs[rx]? = some x →
    match setElem (x.val m.bufs env.junk) i j (o.val m.bufs env.junk) with
    | .ok y => (step env m (.set b key r)).2 = .ok .nothing ∧
        ∀ idx, Nd.Valid x.pos.nd.shape idx →
          elemAt env.junk (step env m (.set b key r)).1 rx idx = some (y.nd.get idx)
    | .error e => (step env m (.set b key r)).2 = .error e ∧
        (step env m (.set b key r)).1.bufs = m.bufs := by
  intro m hb hr hno hname hl hx
  have hw : Wf m := C93_wf env ops
  have hi : AllInj m := allInj_run env ops (by intro o ho; cases ho)
  have hm : member blk.vars name = true := by
    have := (lookup_isSome_iff blk.vars name).1 (by rw [hl]; rfl)
    rw [member, List.any_eq_true]
    obtain ⟨p, hp, e⟩ := List.mem_map.1 this
    exact ⟨p, hp, by simpa using e⟩
  have ht : elemTarget (member blk.vars) key (o.val m.bufs env.junk) = some (name, i, j) := by
    have : ismatrix (o.val m.bufs env.junk) = false := hno
    simp [elemTarget, hname, hm, this]
  let m' : Mem β α := putBlk m b { blk with xname := nextXname blk.xname o.pos.dims }
  have hst : step env m (.set b key r) =
      match elemUpd x.pos.nd.shape i j (o.val m.bufs env.junk).nd with
      | .ok upd => (write m' rx upd, .ok .nothing)
      | .error e => (m', .error e) := by
    have hx' : (putBlk m b { blk with xname := nextXname blk.xname o.pos.dims }).objs[rx]? = some x := hx
    simp only [step, setVar, hb, hr, ht, hl]
    rw [show (putBlk m b { blk with
      xname := nextXname blk.xname (o.val m.bufs env.junk).dims }).objs[rx]? = some x from hx]
    rfl
  have hw' : Wf m' := by
    refine ⟨hw.obj, ?_, ?_⟩
    · intro b' blk' h' q hq
      simp only [m', putBlk] at h'
      by_cases e : b = b'
      · subst e
        rw [List.getElem?_set_self (lt_of_getElem? hb)] at h'
        cases h'
        exact hw.vars b blk hb q hq
      · rw [List.getElem?_set_ne e] at h'
        exact hw.vars b' blk' h' q hq
    · intro b' blk' h' c hc
      simp only [m', putBlk] at h'
      by_cases e : b = b'
      · subst e
        rw [List.getElem?_set_self (lt_of_getElem? hb)] at h'
        cases h'
        exact hw.comm b blk hb c hc
      · rw [List.getElem?_set_ne e] at h'
        exact hw.comm b' blk' h' c hc
  have hi' : AllInj m' := hi
  have hx2 : m'.objs[rx]? = some x := hx
  rw [setElem_eq, hst, show (x.val m.bufs env.junk).nd.shape = x.pos.nd.shape from rfl]
  cases hu : elemUpd x.pos.nd.shape i j (o.val m.bufs env.junk).nd with
  | error e => exact ⟨rfl, rfl⟩
  | ok upd =>
    refine ⟨rfl, fun idx hv => ?_⟩
    obtain ⟨w1, w2⟩ := write_spec env.junk hw' hi' rx x hx2 upd
    cases h : upd idx with
    | some v =>
      simp only [h, Option.getD_some]
      exact w1 idx v hv h rx idx ⟨x, x, hx2, hx2, rfl, rfl⟩
    | none =>
      simp only [h, Option.getD_none]
      rw [w2 rx idx]
      · simp only [elemAt, elems, hx2, Option.map_some]
        rfl
      · rintro i' v hv' hu' ⟨x1, x2, e1, e2, -, e4⟩
        rw [hx2] at e1 e2
        cases e1
        cases e2
        rw [hi x (List.mem_of_getElem? hx) i' idx hv' hv e4, h] at hu'
        cases hu'

end HF.Share
