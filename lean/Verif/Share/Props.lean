import Verif.Share.Spec
/-
C93: what copies and views share with the block they are made from.
-/
namespace HF.Share

open HF.DataDict.Spec
open HF.DataBlock

variable {β α : Type}

/-! ### Every program -/

theorem wf_iff (m : Mem β α) : Wf m ↔ Closed m (everything m) := by
  constructor
  · intro h
    exact ⟨fun r o _ ho => h.obj r o ho, fun b blk _ hb => h.vars b blk hb,
      fun b blk _ hb => h.comm b blk hb⟩
  · intro h
    exact ⟨fun r o ho => h.obj r o (lt_of_getElem? ho) ho,
      fun b blk hb => h.vars b blk (lt_of_getElem? hb) hb,
      fun b blk hb => h.comm b blk (lt_of_getElem? hb) hb⟩

theorem on_everything (m : Mem β α) (op : Op β α) : op.on m (everything m) := by
  cases op <;> simp [Op.on, ObjIn, BlkIn, everything]

theorem grow_everything {P : Part} {m m' : Mem β α} (h : Effect P m m') :
    (everything m).grow m m' = everything m' := by
  have h1 := h.nbufs; have h2 := h.nobjs; have h3 := h.nblks; have h4 := h.ncomms
  apply Part.ext <;> intro i <;> simp only [Part.grow, everything] <;> omega

theorem wf_step [DecidableEq β] (env : Env β α) {m : Mem β α} (h : Wf m) (op : Op β α) :
    Wf (step env m op).1 := by
  have e := (effect_step env ((wf_iff m).1 h) op (on_everything m op)).1
  have := e.closed
  rw [grow_everything e] at this
  exact (wf_iff _).2 this

/-- C93: in every program all references refer to something. -/
theorem C93_wf [DecidableEq β] (env : Env β α) (ops : List (Op β α)) : Wf (run env {} ops) := by
  have key : ∀ (ops : List (Op β α)) (m : Mem β α), Wf m → Wf (run env m ops) := by
    intro ops
    induction ops with
    | nil => exact fun m h => h
    | cons op ops ih => exact fun m h => ih _ (wf_step env h op)
  exact key ops {} ⟨by simp, by simp, by simp⟩

theorem effect_run [DecidableEq β] (env : Env β α) (ops : List (Op β α)) :
    ∀ {P : Part} {m : Mem β α}, Closed m P → Uses env m P ops → Effect P m (run env m ops) := by
  induction ops with
  | nil => intro P m h _; exact Effect.refl h
  | cons op ops ih =>
    intro P m h hu
    have e := (effect_step env h op hu.1).1
    exact e.trans (ih e.closed hu.2)

theorem uses_everything [DecidableEq β] (env : Env β α) (ops : List (Op β α)) :
    ∀ {m : Mem β α}, Wf m → Uses env m (everything m) ops := by
  induction ops with
  | nil => intro m _; trivial
  | cons op ops ih =>
    intro m h
    have e := (effect_step env ((wf_iff m).1 h) op (on_everything m op)).1
    refine ⟨on_everything m op, ?_⟩
    rw [grow_everything e]
    exact ih (wf_step env h op)

/-- C93: an array object keeps its memory for its whole life: if two array objects have their
elements at the same places then they have the same elements, whatever the program does later. -/
theorem C93_linked [DecidableEq β] (env : Env β α) (m : Mem β α) (h : Wf m) (r r' : Nat)
    (o o' : Obj β) (hr : m.objs[r]? = some o) (hr' : m.objs[r']? = some o') (hb : o.buf = o'.buf)
    (hn : o.pos.nd = o'.pos.nd) (ops : List (Op β α)) :
    elems env.junk (run env m ops) r = elems env.junk (run env m ops) r' := by
  have e := effect_run env ops ((wf_iff m).1 h) (uses_everything env ops h)
  obtain ⟨p, p1, p2, p3, -⟩ := e.objs r o hr
  obtain ⟨p', q1, q2, q3, -⟩ := e.objs r' o' hr'
  simp only [elems, p1, q1, Option.map_some, Obj.val, p2, q2, p3, q3, hb, hn]

/-! ### Two parts -/

theorem same_obj {P : Part} {m m' : Mem β α} (junk : α) (e : Effect P m m')
    (hc : Closed m P.compl) (hw : Wf m) (r : Nat) (hr : r < m.objs.length) (hn : ¬ P.obj r) :
    seeObj junk m' r = seeObj junk m r := by
  have hg : m.objs[r]? = some m.objs[r] := List.getElem?_eq_getElem hr
  obtain ⟨o', h1, -, -, h4⟩ := e.objs r _ hg
  have h5 := h4 hn
  subst h5
  have hb := hw.obj r _ hg
  have := e.bufs _ _ (hc.obj r _ hn hg) (List.getElem?_eq_getElem hb)
  simp only [seeObj, h1, hg, Option.map_some, Obj.val, this, List.getElem?_eq_getElem hb]

theorem same_blk {P : Part} {m m' : Mem β α} (junk : α) (e : Effect P m m')
    (hc : Closed m P.compl) (hw : Wf m) (b : Nat) (hb : b < m.blks.length) (hn : ¬ P.blk b) :
    see junk m' b = see junk m b := by
  have hg : m.blks[b]? = some m.blks[b] := List.getElem?_eq_getElem hb
  have h1 := e.blks b _ hn hg
  simp only [see, h1, hg, Option.map_some, Option.some.injEq, Seen.mk.injEq, true_and]
  refine ⟨?_, ?_⟩
  · apply List.map_congr_left
    intro q hq
    rw [same_obj junk e hc hw q.2 (hw.vars b _ hg q hq) (hc.vars b _ hn hg q hq)]
  · cases hcm : m.blks[b].comm with
    | none => rfl
    | some c =>
      have h2 := hw.comm b _ hg c hcm
      have := e.comms c _ (hc.comm b _ hn hg c hcm) (List.getElem?_eq_getElem h2)
      simp only [Option.bind_some, this, List.getElem?_eq_getElem h2]

theorem apart_step [DecidableEq β] (env : Env β α) {m : Mem β α} {P : Part} (h : Apart m P)
    (s : Bool) (op : Op β α) (hop : op.on m (P.side s)) :
    Apart (step env m op).1 (if s then P.grow m (step env m op).1 else P) ∧
      Effect (P.side s) m (step env m op).1 := by
  have hw := wf_step env h.wf op
  cases s with
  | true =>
    have e := (effect_step env h.one op hop).1
    refine ⟨⟨hw, e.closed, ⟨?_, ?_, ?_⟩, ?_⟩, e⟩
    · intro r o hr ho
      simp only [if_true, Part.compl, Part.grow, not_or] at hr ⊢
      have hlt : r < m.objs.length := by
        have := lt_of_getElem? ho; omega
      obtain ⟨o', h1, h2, -, -⟩ := e.objs r _ (List.getElem?_eq_getElem hlt)
      rw [h1] at ho; cases ho
      have hg : m.objs[r]? = some m.objs[r] := List.getElem?_eq_getElem hlt
      have := h.wf.obj r _ hg
      have h3 := h.other.obj r _ hr.1 hg
      rw [h2]
      exact ⟨h3, by omega⟩
    · intro b blk hb hblk q hq
      simp only [if_true, Part.compl, Part.grow, not_or] at hb ⊢
      have hlt : b < m.blks.length := by
        have := lt_of_getElem? hblk; omega
      have hg : m.blks[b]? = some m.blks[b] := List.getElem?_eq_getElem hlt
      have h1 := e.blks b _ hb.1 hg
      rw [h1] at hblk; cases hblk
      have := h.wf.vars b _ hg q hq
      have h3 := h.other.vars b _ hb.1 hg q hq
      exact ⟨h3, by omega⟩
    · intro b blk hb hblk c hc
      simp only [if_true, Part.compl, Part.grow, not_or] at hb ⊢
      have hlt : b < m.blks.length := by
        have := lt_of_getElem? hblk; omega
      have hg : m.blks[b]? = some m.blks[b] := List.getElem?_eq_getElem hlt
      have h1 := e.blks b _ hb.1 hg
      rw [h1] at hblk; cases hblk
      have := h.wf.comm b _ hg c hc
      have h3 := h.other.comm b _ hb.1 hg c hc
      exact ⟨h3, by omega⟩
    · obtain ⟨x1, x2, x3, x4⟩ := h.exist
      have h1 := e.nbufs; have h2 := e.nobjs; have h3 := e.nblks; have h4 := e.ncomms
      refine ⟨fun i hi => ?_, fun i hi => ?_, fun i hi => ?_, fun i hi => ?_⟩
      · rcases hi with hi | hi
        · have := x1 i hi; omega
        · exact hi.2
      · rcases hi with hi | hi
        · have := x2 i hi; omega
        · exact hi.2
      · rcases hi with hi | hi
        · have := x3 i hi; omega
        · exact hi.2
      · rcases hi with hi | hi
        · have := x4 i hi; omega
        · exact hi.2
  | false =>
    have e := (effect_step env h.other op hop).1
    obtain ⟨x1, x2, x3, x4⟩ := h.exist
    have h1 := e.nbufs; have h2 := e.nobjs; have h3 := e.nblks; have h4 := e.ncomms
    have hg : P.compl.grow m (step env m op).1 = P.compl := by
      apply Part.ext <;> intro i <;> simp only [Part.grow, Part.compl] <;> constructor
      all_goals
        intro hi
        first
        | exact Or.inl hi
        | (rcases hi with hi | hi
           · exact hi
           · intro hp
             first
             | (have := x1 i hp; omega)
             | (have := x2 i hp; omega)
             | (have := x3 i hp; omega)
             | (have := x4 i hp; omega))
    have hcl := e.closed
    rw [hg] at hcl
    refine ⟨⟨hw, ⟨?_, ?_, ?_⟩, hcl, ?_⟩, e⟩
    · intro r o hr ho
      simp only [Bool.false_eq_true, if_false] at hr ⊢
      obtain ⟨o', k1, k2, -, -⟩ := e.objs r _ (List.getElem?_eq_getElem (x2 r hr))
      rw [k1] at ho; cases ho
      rw [k2]
      exact h.one.obj r _ hr (List.getElem?_eq_getElem (x2 r hr))
    · intro b blk hb hblk q hq
      simp only [Bool.false_eq_true, if_false] at hb ⊢
      have k1 := e.blks b _ (fun hc => hc hb) (List.getElem?_eq_getElem (x3 b hb))
      rw [k1] at hblk; cases hblk
      exact h.one.vars b _ hb (List.getElem?_eq_getElem (x3 b hb)) q hq
    · intro b blk hb hblk c hc
      simp only [Bool.false_eq_true, if_false] at hb ⊢
      have k1 := e.blks b _ (fun hc => hc hb) (List.getElem?_eq_getElem (x3 b hb))
      rw [k1] at hblk; cases hblk
      exact h.one.comm b _ hb (List.getElem?_eq_getElem (x3 b hb)) c hc
    · simp only [Bool.false_eq_true, if_false]
      exact ⟨fun i hi => by have := x1 i hi; omega, fun i hi => by have := x2 i hi; omega,
        fun i hi => by have := x3 i hi; omega, fun i hi => by have := x4 i hi; omega⟩

theorem apart_run [DecidableEq β] (env : Env β α) (h : List (Bool × Op β α)) :
    ∀ {m : Mem β α} {P : Part}, Apart m P → Sided env m P h →
      Apart (run env m (h.map Prod.snd)) (partAfter env m P h) := by
  induction h with
  | nil => intro m P ha _; exact ha
  | cons x t ih =>
    intro m P ha hs
    obtain ⟨s, op⟩ := x
    exact ih (apart_step env ha s op hs.1).1 hs.2

theorem sided_append [DecidableEq β] (env : Env β α) (h t : List (Bool × Op β α)) :
    ∀ {m : Mem β α} {P : Part}, Sided env m P (h ++ t) →
      Sided env m P h ∧ Sided env (run env m (h.map Prod.snd)) (partAfter env m P h) t := by
  induction h with
  | nil => intro m P hs; exact ⟨trivial, hs⟩
  | cons x h ih =>
    intro m P hs
    obtain ⟨s, op⟩ := x
    obtain ⟨h1, h2⟩ := ih hs.2
    exact ⟨⟨hs.1, h1⟩, h2⟩

theorem not_side_compl {p : Prop} (s : Bool) (P : Part) (f : Part → Nat → Prop)
    (hf : ∀ P i, f P.compl i = ¬ f P i) (i : Nat) (h : f (P.side !s) i) : ¬ f (P.side s) i := by
  cases s with
  | true =>
    simp only [Bool.not_true, Part.side] at h ⊢
    rw [hf] at h; exact h
  | false =>
    simp only [Bool.not_false, Part.side] at h ⊢
    rw [hf]; exact fun hc => hc h

/-- C93: in any interleaving of two programs on two parts of the memory which share nothing, no
step of the one changes what can be seen of the arrays and blocks of the other. -/
theorem C93_sides [DecidableEq β] (env : Env β α) (m : Mem β α) (P : Part) (ha : Apart m P)
    (h : List (Bool × Op β α)) (s : Bool) (op : Op β α) (t : List (Bool × Op β α))
    (hs : Sided env m P (h ++ (s, op) :: t)) :
    let m1 := run env m (h.map Prod.snd)
    let P1 := (partAfter env m P h).side !s
    (∀ b, b < m1.blks.length → P1.blk b →
      see env.junk (step env m1 op).1 b = see env.junk m1 b) ∧
    (∀ r, r < m1.objs.length → P1.obj r →
      seeObj env.junk (step env m1 op).1 r = seeObj env.junk m1 r) := by
  obtain ⟨h1, h2⟩ := sided_append env h _ hs
  have ha1 := apart_run env h ha h1
  have e := (apart_step env ha1 s op h2.1).2
  have hc : Closed (run env m (h.map Prod.snd)) ((partAfter env m P h).side s).compl := by
    cases s with
    | true => exact ha1.other
    | false =>
      have : (partAfter env m P h).compl.compl = partAfter env m P h := by
        apply Part.ext <;> intro i <;> simp [Part.compl]
      simp only [Part.side, this]
      exact ha1.one
  refine ⟨fun b hb hp => same_blk env.junk e hc ha1.wf b hb ?_,
    fun r hr hp => same_obj env.junk e hc ha1.wf r hr ?_⟩
  · exact not_side_compl (p := True) s _ Part.blk (fun _ _ => rfl) b hp
  · exact not_side_compl (p := True) s _ Part.obj (fun _ _ => rfl) r hp

end HF.Share
