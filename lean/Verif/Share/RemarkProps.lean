import Verif.Share.ViewProps
/-
C93: a view has the comments of the block it was made from for ever, as long as neither is given new ones.
-/
namespace HF.Share

open HF.DataDict.Spec
open HF.DataBlock

variable {β α : Type}

/-- The block refers to these comments. -/
def HasComm (b : Nat) (c : Option Nat) (m : Mem β α) : Prop := ∃ blk, m.blks[b]? = some blk ∧ blk.comm = c

variable {b : Nat} {c : Option Nat}

theorem hasComm_blks {m m' : Mem β α} (h : HasComm b c m) (e : m'.blks = m.blks) : HasComm b c m' := by
  unfold HasComm
  rw [e]
  exact h

theorem hasComm_append {m m' : Mem β α} (h : HasComm b c m) {l : List (Blk β)} (e : m'.blks = m.blks ++ l) :
    HasComm b c m' := by
  obtain ⟨blk, h1, h2⟩ := h
  exact ⟨blk, by rw [e]; exact getElem?_append_some h1, h2⟩

theorem hasComm_set {m m' : Mem β α} (h : HasComm b c m) {x : Nat} {blk blk' : Blk β} (hx : m.blks[x]? = some blk)
    (e : m'.blks = m.blks.set x blk') (hc : blk'.comm = blk.comm) : HasComm b c m' := by
  obtain ⟨blk0, h1, h2⟩ := h
  by_cases hb : b = x
  · subst hb
    rw [hx] at h1
    obtain rfl := Option.some.inj h1
    refine ⟨blk', ?_, hc.trans h2⟩
    rw [e]
    exact List.getElem?_set_self (lt_of_getElem? hx)
  · refine ⟨blk0, ?_, h2⟩
    rw [e, List.getElem?_set_ne (Ne.symm hb)]
    exact h1

theorem write_blks (m : Mem β α) (r : Nat) (upd : List Nat → Option α) : (write m r upd).blks = m.blks := by
  unfold write
  split
  · rfl
  · split <;> rfl

theorem hasComm_replaceDimB {m m' : Mem β α} (h : HasComm b c m) {x : Nat} {blk : Blk β} {old new : Dim β}
    (hx : m.blks[x]? = some blk) (e : replaceDimB m x blk old new = some m') : HasComm b c m' := by
  unfold replaceDimB at e
  split at e
  · cases e
  · obtain rfl := Option.some.inj e
    exact hasComm_set h hx rfl rfl

theorem set_blk {m : Mem β α} {x : Nat} {blk blk' : Blk β} (hx : m.blks[x]? = some blk) :
    (putBlk m x blk').blks[x]? = some blk' := List.getElem?_set_self (lt_of_getElem? hx)

theorem hasComm_setVar (env : Env β α) {m : Mem β α} (h : HasComm b c m) (x : Nat) (key : String) (r : Nat) :
    HasComm b c (setVar env m x key r).1 := by
  unfold setVar
  split
  · rename_i blk o hx ho
    have h1 : HasComm b c (putBlk m x { blk with xname := nextXname blk.xname (o.val m.bufs env.junk).dims }) :=
      hasComm_set h hx rfl rfl
    have hx1 := set_blk (blk' := { blk with xname := nextXname blk.xname (o.val m.bufs env.junk).dims }) hx
    dsimp only
    split
    · split
      · exact h1
      · split
        · exact h1
        · split
          · exact hasComm_blks h1 (write_blks _ _ _)
          · exact h1
    · split
      · split
        · split
          · rename_i m' hm
            have h2 := hasComm_replaceDimB h1 hx1 hm
            split
            · rename_i blk' hb'
              exact hasComm_set h2 hb' rfl rfl
            · exact h2
          · exact h1
        · exact h1
      · exact hasComm_set h1 hx1 rfl rfl
  · exact h

theorem hasComm_viewOf (env : Env β α) {m : Mem β α} (h : HasComm b c m) (r : Nat) (mv : Move) :
    HasComm b c (viewOf env m r mv).1 := by
  unfold viewOf
  split
  · exact h
  · split <;> exact h

theorem hasComm_getVar (env : Env β α) {m : Mem β α} (h : HasComm b c m) (x : Nat) (key : String) :
    HasComm b c (getVar env m x key).1 := by
  unfold getVar
  split
  · exact h
  · split
    · exact h
    · split
      · exact h
      · split
        · exact h
        · split
          · exact h
          · split
            · exact h
            · split
              · exact hasComm_viewOf env h _ _
              · exact h

theorem copyVars_blks (junk : α) (vars : OMap String Nat) : ∀ m : Mem β α, (copyVars junk m vars).1.blks = m.blks := by
  induction vars with
  | nil => exact fun _ => rfl
  | cons p t ih =>
    intro m
    unfold copyVars
    split
    · exact ih _
    · exact ih _

theorem viewVars_blks (vars : OMap String Nat) : ∀ m : Mem β α, (viewVars m vars).1.blks = m.blks := by
  induction vars with
  | nil => exact fun _ => rfl
  | cons p t ih =>
    intro m
    unfold viewVars
    split
    · exact ih _
    · exact ih _

theorem hasComm_keepLoop (env : Env β α) (src : Blk β) (x : Nat) (ns : List String) :
    ∀ m : Mem β α, HasComm b c m → HasComm b c (keepLoop env src x m ns).1 := by
  induction ns with
  | nil => exact fun _ h => h
  | cons n ns ih =>
    intro m h
    have h1 : HasComm b c (keepOne env src x m n).1 := by
      unfold keepOne
      split
      · exact hasComm_setVar env (m := addDimArr env m _) (hasComm_blks h rfl) _ _ _
      · split
        · exact hasComm_setVar env h _ _ _
        · exact h
    unfold keepLoop
    split
    · rename_i m' _ e
      rw [e] at h1
      exact ih m' h1
    · rename_i m' _ e
      rw [e] at h1
      exact h1

theorem hasComm_filterLoop [DecidableEq β] (env : Env β α) (lenient : Bool) (d new : Dim β) (mask : List Bool) (x : Nat)
    (vars : OMap String Nat) :
    ∀ m : Mem β α, HasComm b c m → HasComm b c (filterLoop env lenient d new mask x m vars).1 := by
  induction vars with
  | nil => exact fun _ h => h
  | cons p t ih =>
    intro m h
    obtain ⟨k, r⟩ := p
    unfold filterLoop
    split
    · exact h
    · rename_i o ho
      split
      · have h1 := hasComm_setVar env (m := addObj m o) (hasComm_blks h rfl) x k m.objs.length
        split
        · rename_i m' _ e
          rw [e] at h1
          exact ih m' h1
        · rename_i m' _ e
          rw [e] at h1
          exact h1
      · split
        · exact h
        · rename_i u _
          have h1 := hasComm_setVar env (m := addArr m u o.unit o.fmt) (hasComm_blks h rfl) x k m.objs.length
          split
          · rename_i m' _ e
            rw [e] at h1
            exact ih m' h1
          · rename_i m' _ e
            rw [e] at h1
            exact h1

theorem hasComm_step [DecidableEq β] (env : Env β α) {m : Mem β α} (h : HasComm b c m) (op : Op β α)
    (hop : ∀ lines, op ≠ .comments b lines) : HasComm b c (step env m op).1 := by
  cases op with
  | arr v u f => exact h
  | copyArr r =>
    simp only [step]
    split <;> exact h
  | move r mv => exact hasComm_viewOf env h r mv
  | put r idx x =>
    simp only [step]
    split
    · exact h
    · split
      · exact hasComm_blks h (write_blks _ _ _)
      · exact h
  | fill r x =>
    simp only [step]
    split
    · split
      · exact hasComm_blks h (write_blks _ _ _)
      · exact h
    · exact h
  | unit r u =>
    simp only [step]
    split <;> exact h
  | fmt r f =>
    simp only [step]
    split <;> exact h
  | relabel r old new =>
    simp only [step]
    split <;> exact h
  | new => exact hasComm_append h rfl
  | set x key r => exact hasComm_setVar env h x key r
  | setDim x key d =>
    simp only [step]
    split
    · rename_i blk hx
      exact hasComm_set h hx rfl rfl
    · exact h
  | get x key => exact hasComm_getVar env h x key
  | del x key =>
    simp only [step]
    split
    · rename_i blk hx
      split
      · exact hasComm_set h hx rfl rfl
      · exact h
    · exact h
  | rename x old new =>
    simp only [step]
    split
    · rename_i blk hx
      split
      · split
        · rename_i m' e
          exact hasComm_replaceDimB h hx e
        · exact h
      · split
        · exact hasComm_set h hx rfl rfl
        · exact h
    · exact h
  | replaceDim x old new =>
    simp only [step]
    split
    · rename_i blk hx
      split
      · rename_i m' e
        exact hasComm_replaceDimB h hx e
      · exact h
    · exact h
  | copy x =>
    simp only [step, copyBlk]
    split
    · exact h
    · rename_i blk _
      have : (copyComm m blk.comm).1.blks = m.blks := by
        unfold copyComm
        split
        · rfl
        · split <;> rfl
      exact hasComm_append (m := m) h (by simp only [copyVars_blks, this]; rfl)
  | view x =>
    simp only [step, viewBlk]
    split
    · exact h
    · exact hasComm_append (m := m) h (by simp only [viewVars_blks]; rfl)
  | keep x names =>
    simp only [step]
    split
    · exact hasComm_keepLoop env _ _ _ _ (hasComm_append h rfl)
    · exact h
  | filter x lenient d mask =>
    simp only [step, filterBlk]
    split
    · exact h
    · rename_i blk _
      split
      · exact h
      · split
        · exact h
        · rename_i new _
          have h1 := hasComm_filterLoop env lenient d new mask m.blks.length blk.vars
            { m with blks := m.blks ++ [⟨[], [], blk.xname, blk.comm⟩] } (hasComm_append h rfl)
          split
          · rename_i m' out e
            rw [e] at h1
            unfold putXname
            split
            · rename_i blk' hx
              exact hasComm_set h1 hx rfl rfl
            · exact h1
          · rename_i m' _ e
            rw [e] at h1
            exact h1
  | comments x lines =>
    simp only [step]
    split
    · have hne : b ≠ x := fun e => hop lines (by rw [e])
      obtain ⟨blk, h1, h2⟩ := h
      exact ⟨blk, by simp only [List.getElem?_set_ne (Ne.symm hne), h1], h2⟩
    · exact h
  | comment x line =>
    simp only [step]
    split
    · split
      · exact h
      · split <;> exact h
    · exact h

theorem hasComm_run [DecidableEq β] (env : Env β α) (ops : List (Op β α)) :
    ∀ {m : Mem β α}, HasComm b c m → (∀ op ∈ ops, ∀ lines, op ≠ .comments b lines) → HasComm b c (run env m ops) := by
  induction ops with
  | nil => exact fun h _ => h
  | cons op ops ih =>
    intro m h hops
    exact ih (hasComm_step env h op (hops op (by simp))) fun o ho => hops o (List.mem_cons_of_mem _ ho)

/-- The comments of a block. -/
def commentsOf (junk : α) (m : Mem β α) (b : Nat) : Option (List String) := (see junk m b).bind Seen.comments

/-- C93: at any later time the comments of a view are those of the block it was made from, whatever the program does, unless
one of the two is given new comments. -/
theorem C93_remarks [DecidableEq β] (env : Env β α) (m : Mem β α) (b : Nat) (hb : b < m.blks.length) (ops : List (Op β α))
    (hops : ∀ op ∈ ops, ∀ lines, op ≠ .comments b lines ∧ op ≠ .comments m.blks.length lines) :
    let m1 := run env (step env m (.view b)).1 ops
    commentsOf env.junk m1 b = commentsOf env.junk m1 m.blks.length := by
  have hx : m.blks[b]? = some m.blks[b] := List.getElem?_eq_getElem hb
  have h0 : HasComm b m.blks[b].comm (step env m (.view b)).1 :=
    hasComm_step env ⟨_, hx, rfl⟩ _ fun lines => nofun
  have h1 : HasComm m.blks.length m.blks[b].comm (step env m (.view b)).1 := by
    simp only [step, viewBlk, hx]
    refine ⟨⟨(viewVars m m.blks[b].vars).2, m.blks[b].ivars, m.blks[b].xname, m.blks[b].comm⟩, ?_, rfl⟩
    simp [viewVars_blks]
  obtain ⟨blk, e1, e2⟩ := hasComm_run env ops h0 fun op ho lines => (hops op ho lines).1
  obtain ⟨blk', e1', e2'⟩ := hasComm_run env ops h1 fun op ho lines => (hops op ho lines).2
  simp only [commentsOf, see, e1, e1', e2, e2', Option.map_some, Option.bind_some]

/-- C93: new comments belong to one block only: after `block.comments = ...` the view still has the old ones, and the other
way round. -/
theorem C93_own_remarks [DecidableEq β] (env : Env β α) (m : Mem β α) (hw : Wf m) (b : Nat) (hb : b < m.blks.length)
    (lines : List String) :
    commentsOf env.junk (step env m (.comments b lines)).1 b = some lines ∧
    ∀ b', b' ≠ b → commentsOf env.junk (step env m (.comments b lines)).1 b' = commentsOf env.junk m b' := by
  have hx : m.blks[b]? = some m.blks[b] := List.getElem?_eq_getElem hb
  refine ⟨?_, fun b' hne => ?_⟩
  · simp only [commentsOf, see, step, hx, List.getElem?_set_self hb, Option.map_some, Option.bind_some]
    simp
  · simp only [commentsOf, see, step, hx, List.getElem?_set_ne (Ne.symm hne)]
    cases hb' : m.blks[b']? with
    | none => rfl
    | some blk =>
      simp only [Option.map_some, Option.bind_some]
      cases hc : blk.comm with
      | none => rfl
      | some k =>
        have := hw.comm b' blk hb' k hc
        simp only [Option.bind_some]
        rw [List.getElem?_append_left this]

/-- C93: comments come only with the block: without any (as in a new block) a remark is an error and changes nothing. -/
theorem C93_no_remarks [DecidableEq β] (env : Env β α) (m : Mem β α) (b : Nat) (blk : Blk β) (hx : m.blks[b]? = some blk)
    (hc : blk.comm = none) (line : String) : step env m (.comment b line) = (m, .error .attributeError) := by
  simp only [step, hx, hc]

end HF.Share
