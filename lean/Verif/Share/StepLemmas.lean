import Verif.Share.Frame
/-
The effect of each operation.
-/
namespace HF.Share

open HF.DataDict.Spec
open HF.DataBlock

variable {β α : Type}

/-- The object, if it exists, belongs to the part. -/
def ObjIn (m : Mem β α) (P : Part) (r : Nat) : Prop := r < m.objs.length → P.obj r

/-- The block, if it exists, belongs to the part. -/
def BlkIn (m : Mem β α) (P : Part) (b : Nat) : Prop := b < m.blks.length → P.blk b

/-- What has been returned belongs to the part. -/
def OutIn (P : Part) : Except Err Out → Prop
  | .ok (.obj r) => P.obj r
  | .ok (.blk b) => P.blk b
  | _ => True

theorem assign_mem {κ : Type} {m : OMap String κ} {k : String} {v : κ} {q : String × κ}
    (h : q ∈ assign m k v) : q ∈ m ∨ q.2 = v := by
  unfold assign at h
  split at h
  · unfold DataDict.Spec.modify at h
    obtain ⟨p, hp, rfl⟩ := List.mem_map.1 h
    split
    · exact Or.inr rfl
    · exact Or.inl hp
  · rcases List.mem_append.1 h with h | h
    · exact Or.inl h
    · simp only [List.mem_singleton] at h; subst h; exact Or.inr rfl

theorem remove_mem {κ : Type} {m : OMap String κ} {k : String} {q : String × κ}
    (h : q ∈ remove m k) : q ∈ m := (List.mem_filter.1 h).1

theorem lookup_val_mem {κ : Type} {m : OMap String κ} {k : String} {v : κ}
    (h : lookup m k = some v) : ∃ q ∈ m, q.2 = v := by
  unfold lookup at h
  obtain ⟨q, h1, h2⟩ := Option.map_eq_some_iff.1 h
  exact ⟨q, List.mem_of_find?_eq_some h1, h2⟩

theorem rename_mem {m : OMap String Nat} {a b : String} {v : Nat} {q : String × Nat}
    (h : q ∈ DataDict.Spec.rename m a b v) : q ∈ m ∨ q.2 = v := by
  unfold DataDict.Spec.rename at h
  split at h
  · rcases List.mem_append.1 h with h | h
    · exact Or.inl (remove_mem h)
    · simp only [List.mem_singleton] at h; subst h; exact Or.inr rfl
  · split at h
    · unfold DataDict.Spec.modify at h
      obtain ⟨p, hp, rfl⟩ := List.mem_map.1 h
      split
      · exact Or.inr rfl
      · exact Or.inl (remove_mem hp)
    · obtain ⟨p, hp, rfl⟩ := List.mem_map.1 h
      split
      · exact Or.inr rfl
      · exact Or.inl hp

/-- After a change that makes nothing new. -/
theorem Effect.andThen {P : Part} {m m1 m2 : Mem β α} (h : Effect P m m1)
    (h1 : m1.bufs.length = m.bufs.length) (h2 : m1.objs.length = m.objs.length)
    (h3 : m1.blks.length = m.blks.length) (h4 : m1.comms.length = m.comms.length)
    (k : Closed m1 P → Effect P m1 m2) : Effect P m m2 := by
  have e := Part.grow_same P h1 h2 h3 h4
  have hc := h.closed
  rw [e] at hc
  refine h.trans ?_
  rw [e]
  exact k hc

theorem effect_replaceDimB {P : Part} {m m' : Mem β α} (h : Closed m P) (b : Nat) (blk : Blk β)
    (hb : P.blk b) (hv : ∀ q ∈ blk.vars, P.obj q.2) (hc : ∀ c, blk.comm = some c → P.comm c)
    (old new : Dim β) (hm : replaceDimB m b blk old new = some m') :
    Effect P m m' := by
  unfold replaceDimB at hm
  split at hm
  · cases hm
  · rename_i iv hiv
    cases hm
    have e1 : Effect P m { m with objs := relabel old new (blk.vars.map Prod.snd) m.objs } := by
      refine effect_objs h _ (relabel_length _ _ _ _) fun r o ho => ?_
      obtain ⟨o', k1, k2, k3, k4, k5, k6, k7⟩ := relabel_get old new (blk.vars.map Prod.snd) m.objs r o ho
      refine ⟨o', k1, k2, k3, fun hn => k6 fun hr => hn ?_⟩
      obtain ⟨q, hq, rfl⟩ := List.mem_map.1 hr
      exact hv q hq
    refine e1.andThen (by rfl) (by exact relabel_length _ _ _ _) (by rfl) (by rfl) fun hcl => ?_
    exact effect_putBlk hcl b { blk with ivars := iv } hb hv hc

theorem replaceDimB_lens {m m' : Mem β α} {b : Nat} {blk : Blk β} {old new : Dim β}
    (hm : replaceDimB m b blk old new = some m') :
    m'.bufs.length = m.bufs.length ∧ m'.objs.length = m.objs.length ∧
      m'.blks.length = m.blks.length ∧ m'.comms.length = m.comms.length := by
  unfold replaceDimB at hm
  split at hm
  · cases hm
  · cases hm
    exact ⟨rfl, relabel_length _ _ _ _, by simp, rfl⟩

theorem replaceDimB_blk {m m' : Mem β α} {b : Nat} {blk : Blk β} {old new : Dim β}
    (hm : replaceDimB m b blk old new = some m') (blk' : Blk β) (hb : m'.blks[b]? = some blk') :
    blk'.vars = blk.vars ∧ blk'.comm = blk.comm := by
  unfold replaceDimB at hm
  split at hm
  · cases hm
  · cases hm
    simp only [List.getElem?_set, if_true] at hb
    split at hb
    · cases hb; exact ⟨rfl, rfl⟩
    · cases hb

theorem write_lens (m : Mem β α) (r : Nat) (upd : List Nat → Option α) :
    (write m r upd).bufs.length = m.bufs.length ∧ (write m r upd).objs = m.objs ∧
      (write m r upd).blks = m.blks ∧ (write m r upd).comms = m.comms := by
  unfold write
  split
  · exact ⟨rfl, rfl, rfl, rfl⟩
  · split
    · exact ⟨rfl, rfl, rfl, rfl⟩
    · exact ⟨by simp, rfl, rfl, rfl⟩

theorem effect_setVar (env : Env β α) {P : Part} {m : Mem β α} (h : Closed m P) (b : Nat)
    (key : String) (r : Nat) (hb : BlkIn m P b) (hr : ObjIn m P r) :
    Effect P m (setVar env m b key r).1 := by
  unfold setVar
  split
  · rename_i blk o hblk ho
    have pb : P.blk b := hb (lt_of_getElem? hblk)
    have pr : P.obj r := hr (lt_of_getElem? ho)
    have hv := h.vars b blk pb hblk
    have hc := h.comm b blk pb hblk
    have e1 : ∀ x, Effect P m (putBlk m b { blk with xname := x }) := fun x =>
      effect_putBlk h b _ pb hv hc
    have e2 : ∀ x (m2 : Mem β α), (Closed (putBlk m b { blk with xname := x }) P →
        Effect P (putBlk m b { blk with xname := x }) m2) → Effect P m m2 := fun x m2 k =>
      (e1 x).andThen (by rfl) (by rfl) (by simp [putBlk]) (by rfl) k
    simp only
    split
    · rename_i name i j _
      split
      · exact e1 _
      · rename_i rx hrx
        split
        · exact e1 _
        · split
          · obtain ⟨q, hq, rfl⟩ := lookup_val_mem hrx
            exact e2 _ _ fun hcl => effect_write hcl q.2 (hv q hq) _
          · exact e1 _
    · split
      · split
        · split
          · rename_i m' hm'
            have e3 : Effect P m m' := e2 _ _ fun hcl => by
              refine effect_replaceDimB hcl b _ pb ?_ ?_ _ _ hm'
              · exact hv
              · exact hc
            obtain ⟨l1, l2, l3, l4⟩ := replaceDimB_lens hm'
            split
            · rename_i blk' hblk'
              obtain ⟨v1, v2⟩ := replaceDimB_blk hm' blk' hblk'
              refine e3.andThen (by simpa [putBlk] using l1) (by simpa [putBlk] using l2)
                (by simpa [putBlk] using l3) (by simpa [putBlk] using l4) fun hcl => ?_
              exact effect_putBlk hcl b _ pb (by simpa only [v1] using hv)
                (by simpa only [v2] using hc)
            · exact e3
          · exact e1 _
        · exact e1 _
      · refine e2 _ _ fun hcl => effect_putBlk hcl b _ pb ?_ hc
        intro q hq
        rcases assign_mem hq with hq | hq
        · exact hv q hq
        · rw [hq]; exact pr
  · exact Effect.refl h

theorem setVar_out (env : Env β α) (P : Part) (m : Mem β α) (b : Nat) (key : String) (r : Nat) :
    OutIn P (setVar env m b key r).2 := by
  unfold setVar
  repeat' split
  all_goals first
    | trivial
    | (simp only; repeat' split
       all_goals trivial)

theorem Part.grow_obj {P : Part} {m m' : Mem β α} {r : Nat} (h : P.obj r) : (P.grow m m').obj r :=
  Or.inl h

theorem effect_addDimArr (env : Env β α) {P : Part} {m : Mem β α} (h : Closed m P) (d : Dim β) :
    Effect P m (addDimArr env m d) := effect_addArr h _ _ _

theorem effect_viewOf (env : Env β α) {P : Part} {m : Mem β α} (h : Closed m P) (r : Nat)
    (hr : ObjIn m P r) (mv : Move) :
    Effect P m (viewOf env m r mv).1 ∧
      OutIn (P.grow m (viewOf env m r mv).1) (viewOf env m r mv).2 := by
  unfold viewOf
  split
  · exact ⟨Effect.refl h, trivial⟩
  · rename_i o ho
    split
    · exact ⟨Effect.refl h, trivial⟩
    · exact ⟨Effect.refl h, trivial⟩
    · exact ⟨effect_addObj h _ (h.obj r o (hr (lt_of_getElem? ho)) ho),
        Or.inr ⟨Nat.le_refl _, by simp [addObj]⟩⟩

theorem effect_getVar (env : Env β α) {P : Part} {m : Mem β α} (h : Closed m P) (b : Nat)
    (key : String) (hb : BlkIn m P b) :
    Effect P m (getVar env m b key).1 ∧
      OutIn (P.grow m (getVar env m b key).1) (getVar env m b key).2 := by
  unfold getVar
  split
  · exact ⟨Effect.refl h, trivial⟩
  · rename_i blk hblk
    have hv := h.vars b blk (hb (lt_of_getElem? hblk)) hblk
    split
    · exact ⟨effect_addDimArr env h _, Or.inr ⟨Nat.le_refl _, by simp [addDimArr, addArr]⟩⟩
    · split
      · rename_i r hr
        obtain ⟨q, hq, rfl⟩ := lookup_val_mem hr
        exact ⟨Effect.refl h, Or.inl (hv q hq)⟩
      · split
        · exact ⟨Effect.refl h, trivial⟩
        · split
          · exact ⟨Effect.refl h, trivial⟩
          · rename_i r hr
            obtain ⟨q, hq, rfl⟩ := lookup_val_mem hr
            split
            · exact ⟨Effect.refl h, trivial⟩
            · split
              · exact effect_viewOf env h _ (fun _ => hv q hq) _
              · exact ⟨Effect.refl h, trivial⟩

theorem addArr_last (m : Mem β α) (v : Arr β α) (u : Option String) (f : String) :
    (addArr m v u f).objs.length = m.objs.length + 1 ∧
    (addArr m v u f).bufs.length = m.bufs.length + 1 ∧
    (addArr m v u f).blks = m.blks ∧ (addArr m v u f).comms = m.comms := by
  simp [addArr]

theorem effect_copyVars (junk : α) (vars : OMap String Nat) :
    ∀ {P : Part} {m : Mem β α}, Closed m P →
      Effect P m (copyVars junk m vars).1 ∧ (copyVars junk m vars).1.blks = m.blks ∧
      (copyVars junk m vars).1.comms = m.comms ∧
      ∀ q ∈ (copyVars junk m vars).2, m.objs.length ≤ q.2 ∧
        q.2 < (copyVars junk m vars).1.objs.length := by
  induction vars with
  | nil => intro P m h; exact ⟨Effect.refl h, rfl, rfl, by simp [copyVars]⟩
  | cons p t ih =>
    intro P m h
    obtain ⟨k, r⟩ := p
    unfold copyVars
    split
    · rename_i o ho
      have e1 := effect_addArr h (o.val m.bufs junk) o.unit o.fmt
      obtain ⟨l1, l2, l3, l4⟩ := addArr_last m (o.val m.bufs junk) o.unit o.fmt
      obtain ⟨e2, b2, c2, r2⟩ := ih e1.closed
      refine ⟨e1.trans e2, b2, c2, ?_⟩
      intro q hq
      rcases List.mem_cons.1 hq with rfl | hq
      · exact ⟨Nat.le_refl _, by have := e2.nobjs; simp only at this ⊢; omega⟩
      · obtain ⟨q1, q2⟩ := r2 q hq
        exact ⟨by omega, q2⟩
    · exact ih h

theorem effect_viewVars (vars : OMap String Nat) :
    ∀ {P : Part} {m : Mem β α}, Closed m P → (∀ q ∈ vars, ObjIn m P q.2) →
      Effect P m (viewVars m vars).1 ∧ (viewVars m vars).1.blks = m.blks ∧
      (viewVars m vars).1.comms = m.comms ∧ (viewVars m vars).1.bufs = m.bufs ∧
      ∀ q ∈ (viewVars m vars).2, m.objs.length ≤ q.2 ∧
        q.2 < (viewVars m vars).1.objs.length := by
  induction vars with
  | nil => intro P m h _; exact ⟨Effect.refl h, rfl, rfl, rfl, by simp [viewVars]⟩
  | cons p t ih =>
    intro P m h hv
    obtain ⟨k, r⟩ := p
    unfold viewVars
    split
    · rename_i o ho
      have hr := hv (k, r) (by simp)
      have e1 := effect_addObj h o (h.obj r o (hr (lt_of_getElem? ho)) ho)
      have l1 : (addObj m o).objs.length = m.objs.length + 1 := by simp [addObj]
      obtain ⟨e2, b2, c2, f2, r2⟩ := ih e1.closed (fun q hq hlt => by
        by_cases hh : q.2 < m.objs.length
        · exact Or.inl (hv q (by simp [hq]) hh)
        · exact Or.inr ⟨by omega, hlt⟩)
      refine ⟨e1.trans e2, b2, c2, f2, ?_⟩
      intro q hq
      rcases List.mem_cons.1 hq with rfl | hq
      · exact ⟨Nat.le_refl _, by have := e2.nobjs; simp only at this ⊢; omega⟩
      · obtain ⟨q1, q2⟩ := r2 q hq
        exact ⟨by omega, q2⟩
    · exact ih h fun q hq => hv q (by simp [hq])

theorem effect_copyComm {P : Part} {m : Mem β α} (h : Closed m P) (c : Option Nat) :
    Effect P m (copyComm m c).1 ∧ (copyComm m c).1.blks = m.blks ∧
      (copyComm m c).1.objs = m.objs ∧ (copyComm m c).1.bufs = m.bufs ∧
      ∀ k, (copyComm m c).2 = some k → m.comms.length ≤ k ∧ k < (copyComm m c).1.comms.length := by
  unfold copyComm
  split
  · exact ⟨Effect.refl h, rfl, rfl, rfl, by simp⟩
  · split
    · exact ⟨Effect.refl h, rfl, rfl, rfl, by simp⟩
    · refine ⟨effect_addComm h _, rfl, rfl, rfl, ?_⟩
      intro k hk
      cases hk
      exact ⟨Nat.le_refl _, by simp⟩

/-- Copying a block does not need the block to be in the part: nothing of it is used later. -/
theorem effect_copyBlk (env : Env β α) {P : Part} {m : Mem β α} (h : Closed m P) (b : Nat) :
    Effect P m (copyBlk env m b).1 ∧
      OutIn (P.grow m (copyBlk env m b).1) (copyBlk env m b).2 := by
  unfold copyBlk
  split
  · exact ⟨Effect.refl h, trivial⟩
  · rename_i blk hblk
    obtain ⟨e1, b1, o1, f1, c1⟩ := effect_copyComm h blk.comm
    obtain ⟨e2, b2, c2, r2⟩ := effect_copyVars env.junk blk.vars e1.closed
    have e3 := e1.trans e2
    have e4 := effect_addBlk e3.closed
      ⟨(copyVars env.junk (copyComm m blk.comm).1 blk.vars).2, blk.ivars, blk.xname,
        (copyComm m blk.comm).2⟩
      (fun q hq => by
        obtain ⟨q1, q2⟩ := r2 q hq
        rw [o1] at q1
        exact Or.inr ⟨q1, q2⟩)
      (fun c hc => by
        obtain ⟨q1, q2⟩ := c1 c hc
        exact Or.inr ⟨q1, by rw [c2]; exact q2⟩)
    refine ⟨e3.trans e4, ?_⟩
    simp only [OutIn]
    refine Or.inr ⟨?_, by simp⟩
    rw [b2, b1]
    exact Nat.le_refl _

theorem effect_viewBlk {P : Part} {m : Mem β α} (h : Closed m P) (b : Nat) (hb : BlkIn m P b) :
    Effect P m (viewBlk m b).1 ∧ OutIn (P.grow m (viewBlk m b).1) (viewBlk m b).2 := by
  unfold viewBlk
  split
  · exact ⟨Effect.refl h, trivial⟩
  · rename_i blk hblk
    have pb := hb (lt_of_getElem? hblk)
    obtain ⟨e2, b2, c2, f2, r2⟩ := effect_viewVars blk.vars h
      (fun q hq _ => h.vars b blk pb hblk q hq)
    have e4 := effect_addBlk e2.closed
      ⟨(viewVars m blk.vars).2, blk.ivars, blk.xname, blk.comm⟩
      (fun q hq => Or.inr (r2 q hq)) (fun c hc => Or.inl (h.comm b blk pb hblk c hc))
    refine ⟨e2.trans e4, ?_⟩
    simp only [OutIn]
    exact Or.inr ⟨by rw [b2]; exact Nat.le_refl _, by simp⟩

theorem effect_keepLoop (env : Env β α) (src : Blk β) (b : Nat) (names : List String) :
    ∀ {P : Part} {m : Mem β α}, Closed m P → P.blk b → (∀ q ∈ src.vars, P.obj q.2) →
      Effect P m (keepLoop env src b m names).1 ∧
        OutIn (P.grow m (keepLoop env src b m names).1) (keepLoop env src b m names).2 := by
  induction names with
  | nil => intro P m h hb _; exact ⟨Effect.refl h, Or.inl hb⟩
  | cons n ns ih =>
    intro P m h hb hv
    unfold keepLoop
    have key : Effect P m (keepOne env src b m n).1 := by
      unfold keepOne
      split
      · rename_i d _
        have e1 := effect_addDimArr env h d
        have l1 : (addDimArr env m d).objs.length = m.objs.length + 1 := by simp [addDimArr, addArr]
        exact e1.trans (effect_setVar env e1.closed b n _ (fun _ => Or.inl hb)
          (fun _ => Or.inr ⟨Nat.le_refl _, by omega⟩))
      · split
        · rename_i r hr
          obtain ⟨q, hq, rfl⟩ := lookup_val_mem hr
          exact effect_setVar env h b n _ (fun _ => hb) (fun _ => hv q hq)
        · exact Effect.refl h
    revert key
    generalize keepOne env src b m n = res
    intro key
    obtain ⟨m', out⟩ := res
    cases out with
    | error e => exact ⟨key, trivial⟩
    | ok o =>
      obtain ⟨e2, o2⟩ := ih key.closed (Or.inl hb) (fun q hq => Or.inl (hv q hq))
      refine ⟨key.trans e2, ?_⟩
      rw [Part.grow_grow P key.nbufs key.nobjs key.nblks key.ncomms e2.nbufs e2.nobjs e2.nblks
        e2.ncomms] at o2
      exact o2

theorem effect_filterLoop [DecidableEq β] (env : Env β α) (lenient : Bool) (d new : Dim β)
    (mask : List Bool) (b : Nat) (vars : OMap String Nat) :
    ∀ {P : Part} {m : Mem β α}, Closed m P → P.blk b → (∀ q ∈ vars, P.obj q.2) →
      Effect P m (filterLoop env lenient d new mask b m vars).1 ∧
        OutIn (P.grow m (filterLoop env lenient d new mask b m vars).1)
          (filterLoop env lenient d new mask b m vars).2 := by
  induction vars with
  | nil => intro P m h hb _; exact ⟨Effect.refl h, Or.inl hb⟩
  | cons p t ih =>
    intro P m h hb hv
    obtain ⟨k, r⟩ := p
    have go : ∀ (m1 : Mem β α), Effect P m m1 → m1.objs.length = m.objs.length + 1 →
        Effect P m (match setVar env m1 b k m.objs.length with
          | (m', .ok _) => filterLoop env lenient d new mask b m' t
          | (m', .error e) => (m', .error e)).1 ∧
        OutIn (P.grow m (match setVar env m1 b k m.objs.length with
          | (m', .ok _) => filterLoop env lenient d new mask b m' t
          | (m', .error e) => (m', .error e)).1) (match setVar env m1 b k m.objs.length with
          | (m', .ok _) => filterLoop env lenient d new mask b m' t
          | (m', .error e) => (m', .error e)).2 := by
      intro m1 e1 l1
      have key := e1.trans (effect_setVar env e1.closed b k m.objs.length (fun _ => Or.inl hb)
          (fun _ => Or.inr ⟨Nat.le_refl _, by omega⟩))
      revert key
      generalize setVar env m1 b k m.objs.length = res
      intro key
      obtain ⟨m', out⟩ := res
      cases out with
      | error e => exact ⟨key, trivial⟩
      | ok o =>
        obtain ⟨e2, o2⟩ := ih key.closed (Or.inl hb) (fun q hq => Or.inl (hv q (by simp [hq])))
        refine ⟨key.trans e2, ?_⟩
        rw [Part.grow_grow P key.nbufs key.nobjs key.nblks key.ncomms e2.nbufs e2.nobjs e2.nblks
          e2.ncomms] at o2
        exact o2
    unfold filterLoop
    split
    · exact ⟨Effect.refl h, trivial⟩
    · rename_i o ho
      have hr := hv (k, r) (by simp)
      split
      · exact go _ (effect_addObj h o (h.obj r o hr ho)) (by simp [addObj])
      · split
        · exact ⟨Effect.refl h, trivial⟩
        · exact go _ (effect_addArr h _ _ _) (by simp [addArr])

theorem effect_putXname {P : Part} {m : Mem β α} (h : Closed m P) (b : Nat) (hb : P.blk b)
    (x : Option String) : Effect P m (putXname m b x) := by
  unfold putXname
  split
  · rename_i blk hblk
    exact effect_putBlk h b _ hb (h.vars b blk hb hblk) (h.comm b blk hb hblk)
  · exact Effect.refl h

theorem effect_filterBlk [DecidableEq β] (env : Env β α) {P : Part} {m : Mem β α}
    (h : Closed m P) (b : Nat) (hb : BlkIn m P b) (lenient : Bool) (d : Dim β) (mask : List Bool) :
    Effect P m (filterBlk env m b lenient d mask).1 ∧
      OutIn (P.grow m (filterBlk env m b lenient d mask).1)
        (filterBlk env m b lenient d mask).2 := by
  unfold filterBlk
  split
  · exact ⟨Effect.refl h, trivial⟩
  · rename_i blk hblk
    have pb := hb (lt_of_getElem? hblk)
    split
    · exact ⟨Effect.refl h, trivial⟩
    · split
      · exact ⟨Effect.refl h, trivial⟩
      · rename_i new hnew
        have e1 := effect_addBlk h ⟨[], [], blk.xname, blk.comm⟩ (by simp)
          (h.comm b blk pb hblk)
        have hn : (P.grow m { m with blks := m.blks ++ [⟨[], [], blk.xname, blk.comm⟩] }).blk
            m.blks.length := Or.inr ⟨Nat.le_refl _, by simp⟩
        obtain ⟨e2, o2⟩ := effect_filterLoop env lenient d new mask m.blks.length blk.vars
          e1.closed hn (fun q hq => Or.inl (h.vars b blk pb hblk q hq))
        have e3 := e1.trans e2
        rw [Part.grow_grow P e1.nbufs e1.nobjs e1.nblks e1.ncomms e2.nbufs e2.nobjs e2.nblks
          e2.ncomms] at o2
        revert e3 o2 e2
        generalize filterLoop env lenient d new mask m.blks.length
          { m with blks := m.blks ++ [⟨[], [], blk.xname, blk.comm⟩] } blk.vars = res
        intro e2 o2 e3
        obtain ⟨m', out⟩ := res
        cases out with
        | error e => exact ⟨e3, trivial⟩
        | ok o =>
          have hn' : (P.grow m m').blk m.blks.length := by
            refine Or.inr ⟨Nat.le_refl _, ?_⟩
            have := e2.nblks
            simp only [List.length_append, List.length_cons, List.length_nil] at this
            show m.blks.length < m'.blks.length
            omega
          have e4 := effect_putXname e3.closed m.blks.length hn' blk.xname
          refine ⟨e3.trans e4, ?_⟩
          have hl : (putXname m' m.blks.length blk.xname).blks.length = m'.blks.length ∧
              (putXname m' m.blks.length blk.xname).objs = m'.objs := by
            unfold putXname
            split <;> simp [putBlk]
          revert o2
          show OutIn _ (.ok o) → OutIn _ (.ok o)
          cases o with
          | nothing => exact id
          | obj r => simp only [OutIn, Part.grow, hl]; exact id
          | blk r => simp only [OutIn, Part.grow, hl]; exact id

/-- The array objects and blocks which an operation is given. -/
def Op.on (m : Mem β α) (P : Part) : Op β α → Prop
  | .arr _ _ _ => True
  | .copyArr r => ObjIn m P r
  | .move r _ => ObjIn m P r
  | .put r _ _ => ObjIn m P r
  | .fill r c => ObjIn m P r ∧ ObjIn m P c
  | .unit r _ => ObjIn m P r
  | .fmt r _ => ObjIn m P r
  | .relabel r _ _ => ObjIn m P r
  | .new => True
  | .set b _ r => BlkIn m P b ∧ ObjIn m P r
  | .setDim b _ _ => BlkIn m P b
  | .get b _ => BlkIn m P b
  | .del b _ => BlkIn m P b
  | .rename b _ _ => BlkIn m P b
  | .replaceDim b _ _ => BlkIn m P b
  | .copy b => BlkIn m P b
  | .view b => BlkIn m P b
  | .keep b _ => BlkIn m P b
  | .filter b _ _ _ => BlkIn m P b
  | .comments b _ => BlkIn m P b
  | .comment b _ => BlkIn m P b

/-- One step changes only what can be reached from its arguments. -/
theorem effect_step [DecidableEq β] (env : Env β α) {P : Part} {m : Mem β α} (h : Closed m P)
    (op : Op β α) (hop : op.on m P) :
    Effect P m (step env m op).1 ∧ OutIn (P.grow m (step env m op).1) (step env m op).2 := by
  cases op with
  | arr v u f => exact ⟨effect_addArr h v u f, Or.inr ⟨Nat.le_refl _, by simp [step, addArr]⟩⟩
  | copyArr r =>
    simp only [step]
    split
    · exact ⟨effect_addArr h _ _ _, Or.inr ⟨Nat.le_refl _, by simp [addArr]⟩⟩
    · exact ⟨Effect.refl h, trivial⟩
  | move r mv => exact effect_viewOf env h r hop mv
  | put r idx x =>
    simp only [step]
    split
    · exact ⟨Effect.refl h, trivial⟩
    · rename_i o ho
      split
      · exact ⟨effect_write h r (hop (lt_of_getElem? ho)) _, trivial⟩
      · exact ⟨Effect.refl h, trivial⟩
  | fill r c =>
    simp only [step]
    split
    · rename_i o oc ho hoc
      split
      · exact ⟨effect_write h r (hop.1 (lt_of_getElem? ho)) _, trivial⟩
      · exact ⟨Effect.refl h, trivial⟩
    · exact ⟨Effect.refl h, trivial⟩
  | unit r u =>
    simp only [step]
    split
    · rename_i o ho
      exact ⟨effect_putObj h r o _ (hop (lt_of_getElem? ho)) ho rfl rfl, trivial⟩
    · exact ⟨Effect.refl h, trivial⟩
  | fmt r u =>
    simp only [step]
    split
    · rename_i o ho
      exact ⟨effect_putObj h r o _ (hop (lt_of_getElem? ho)) ho rfl rfl, trivial⟩
    · exact ⟨Effect.refl h, trivial⟩
  | relabel r old new =>
    simp only [step]
    split
    · rename_i o ho
      exact ⟨effect_putObj h r o _ (hop (lt_of_getElem? ho)) ho rfl rfl, trivial⟩
    · exact ⟨Effect.refl h, trivial⟩
  | new => exact ⟨effect_addBlk h {} (by simp) (by simp), Or.inr ⟨Nat.le_refl _, by simp [step]⟩⟩
  | set b key r =>
    exact ⟨effect_setVar env h b key r hop.1 hop.2, setVar_out env _ m b key r⟩
  | setDim b key d =>
    simp only [step]
    split
    · rename_i blk hblk
      have pb := hop (lt_of_getElem? hblk)
      exact ⟨effect_putBlk h b _ pb (h.vars b blk pb hblk) (h.comm b blk pb hblk), trivial⟩
    · exact ⟨Effect.refl h, trivial⟩
  | get b key => exact effect_getVar env h b key hop
  | del b key =>
    simp only [step]
    split
    · rename_i blk hblk
      have pb := hop (lt_of_getElem? hblk)
      refine ⟨?_, trivial⟩
      simp only
      split
      · exact effect_putBlk h b _ pb (fun q hq => h.vars b blk pb hblk q (remove_mem hq))
          (h.comm b blk pb hblk)
      · exact Effect.refl h
    · exact ⟨Effect.refl h, trivial⟩
  | rename b old new =>
    simp only [step]
    split
    · rename_i blk hblk
      have pb := hop (lt_of_getElem? hblk)
      split
      · split
        · rename_i m' hm'
          exact ⟨effect_replaceDimB h b blk pb (h.vars b blk pb hblk) (h.comm b blk pb hblk) _ _ hm',
            trivial⟩
        · exact ⟨Effect.refl h, trivial⟩
      · split
        · rename_i r hr
          obtain ⟨q0, hq0, rfl⟩ := lookup_val_mem hr
          refine ⟨effect_putBlk h b _ pb (fun q hq => ?_) (h.comm b blk pb hblk), trivial⟩
          rcases rename_mem hq with hq | hq
          · exact h.vars b blk pb hblk q hq
          · rw [hq]; exact h.vars b blk pb hblk q0 hq0
        · exact ⟨Effect.refl h, trivial⟩
    · exact ⟨Effect.refl h, trivial⟩
  | replaceDim b old new =>
    simp only [step]
    split
    · rename_i blk hblk
      have pb := hop (lt_of_getElem? hblk)
      split
      · rename_i m' hm'
        exact ⟨effect_replaceDimB h b blk pb (h.vars b blk pb hblk) (h.comm b blk pb hblk) _ _ hm',
          trivial⟩
      · exact ⟨Effect.refl h, trivial⟩
    · exact ⟨Effect.refl h, trivial⟩
  | copy b => exact effect_copyBlk env h b
  | view b => exact effect_viewBlk h b hop
  | keep b names =>
    simp only [step]
    split
    · rename_i blk hblk
      have pb := hop (lt_of_getElem? hblk)
      have e1 := effect_addBlk h {} (by simp) (by simp)
      obtain ⟨e2, o2⟩ := effect_keepLoop env blk m.blks.length names e1.closed
        (Or.inr ⟨Nat.le_refl _, by simp⟩) (fun q hq => Or.inl (h.vars b blk pb hblk q hq))
      rw [Part.grow_grow P e1.nbufs e1.nobjs e1.nblks e1.ncomms e2.nbufs e2.nobjs e2.nblks
        e2.ncomms] at o2
      exact ⟨e1.trans e2, o2⟩
    · exact ⟨Effect.refl h, trivial⟩
  | filter b lenient d mask => exact effect_filterBlk env h b hop lenient d mask
  | comments b lines =>
    simp only [step]
    split
    · rename_i blk hblk
      have pb := hop (lt_of_getElem? hblk)
      have e1 := effect_addComm h lines
      refine ⟨e1.trans (effect_putBlk e1.closed b { blk with comm := some m.comms.length }
        (Or.inl pb) (fun q hq => Or.inl (h.vars b blk pb hblk q hq)) fun c hc => ?_), trivial⟩
      cases hc
      exact Or.inr ⟨Nat.le_refl _, by simp⟩
    · exact ⟨Effect.refl h, trivial⟩
  | comment b line =>
    simp only [step]
    split
    · rename_i blk hblk
      have pb := hop (lt_of_getElem? hblk)
      split
      · exact ⟨Effect.refl h, trivial⟩
      · rename_i c hc
        split
        · exact ⟨effect_setComm h c (h.comm b blk pb hblk c hc) _, trivial⟩
        · exact ⟨Effect.refl h, trivial⟩
    · exact ⟨Effect.refl h, trivial⟩

end HF.Share
