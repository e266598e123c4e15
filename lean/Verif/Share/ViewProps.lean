import Verif.Share.CopyProps
import Verif.DataBlock.FilterBlock
/-
C93: views have their own names, dims, units and formats, but the elements and comments of what
they are made from.
-/
namespace HF.Share

open HF.DataDict.Spec
open HF.DataBlock

variable {β α : Type}

theorem viewVars_spec (vars : OMap String Nat) :
    ∀ m : Mem β α, (∀ q ∈ vars, q.2 < m.objs.length) →
      ∃ l, (viewVars m vars).1 = { m with objs := m.objs ++ l } ∧
        List.Forall₂ (fun p q => q.1 = p.1 ∧ m.objs.length ≤ q.2 ∧ q.2 < (m.objs ++ l).length ∧
          (m.objs ++ l)[q.2]? = m.objs[p.2]?) vars (viewVars m vars).2 := by
  induction vars with
  | nil => intro m _; exact ⟨[], by simp [viewVars], List.Forall₂.nil⟩
  | cons p t ih =>
    intro m hv
    obtain ⟨k, r⟩ := p
    have hr : r < m.objs.length := hv (k, r) (by simp)
    have hg : m.objs[r]? = some m.objs[r] := List.getElem?_eq_getElem hr
    have l1 : (addObj m m.objs[r]).objs.length = m.objs.length + 1 := by simp [addObj]
    obtain ⟨l, h1, h2⟩ := ih (addObj m m.objs[r]) (fun q hq => by
      have := hv q (by simp [hq]); omega)
    refine ⟨m.objs[r] :: l, ?_, ?_⟩
    · unfold viewVars
      simp only [hg]
      rw [h1]
      simp [addObj]
    · unfold viewVars
      simp only [hg]
      refine List.Forall₂.cons ⟨rfl, Nat.le_refl _, by simp, ?_⟩ ?_
      · simp
      · refine List.forall₂_iff_zip.2 ⟨(List.forall₂_iff_zip.1 h2).1, ?_⟩
        intro p q hpq
        obtain ⟨j1, j2, j3, j4⟩ := (List.forall₂_iff_zip.1 h2).2 hpq
        have hp := hv p (by
          have := (List.of_mem_zip hpq).1
          simp [this])
        have e : (addObj m m.objs[r]).objs ++ l = m.objs ++ m.objs[r] :: l := by simp [addObj]
        rw [e] at j3 j4
        refine ⟨j1, by omega, j3, j4.trans ?_⟩
        simp only [addObj]
        rw [List.getElem?_append_left hp]

theorem viewBlk_spec (m : Mem β α) (hw : Wf m) (b : Nat) (blk : Blk β)
    (hb : m.blks[b]? = some blk) :
    ∃ l vs, viewBlk m b = (⟨m.bufs, m.objs ++ l, m.blks ++ [⟨vs, blk.ivars, blk.xname, blk.comm⟩], m.comms⟩, .ok (.blk m.blks.length)) ∧
      List.Forall₂ (fun p q => q.1 = p.1 ∧ m.objs.length ≤ q.2 ∧ q.2 < (m.objs ++ l).length ∧
          (m.objs ++ l)[q.2]? = m.objs[p.2]?) blk.vars vs := by
  obtain ⟨l, h1, h2⟩ := viewVars_spec blk.vars m (hw.vars b blk hb)
  refine ⟨l, (viewVars m blk.vars).2, ?_, h2⟩
  simp only [viewBlk, hb, h1]

theorem forall₂_map_eq {δ ε ζ : Type} {R : δ → ε → Prop} {f : δ → ζ} {g : ε → ζ} {l : List δ}
    {k : List ε} (h : List.Forall₂ R l k) (hR : ∀ x y, x ∈ l → R x y → g y = f x) :
    k.map g = l.map f := by
  induction h with
  | nil => rfl
  | cons hr _ ih =>
    rw [List.map_cons, List.map_cons, hR _ _ (by simp) hr, ih fun x y hx => hR x y (by simp [hx])]

/-- C93: a view of a block looks like the block, and making it changes nothing. -/
theorem C93_view [DecidableEq β] (env : Env β α) (m : Mem β α) (hw : Wf m) (b : Nat)
    (hb : b < m.blks.length) :
    let m1 := (step env m (.view b)).1
    (step env m (.view b)).2 = .ok (.blk m.blks.length) ∧
    see env.junk m1 m.blks.length = see env.junk m b ∧
    (∀ b' < m.blks.length, see env.junk m1 b' = see env.junk m b') ∧
    (∀ r < m.objs.length, seeObj env.junk m1 r = seeObj env.junk m r) := by
  have hg : m.blks[b]? = some m.blks[b] := List.getElem?_eq_getElem hb
  obtain ⟨l, vs, h1, h2⟩ := viewBlk_spec m hw b _ hg
  have old : ∀ r, r < m.objs.length → seeObj env.junk (viewBlk m b).1 r = seeObj env.junk m r := by
    intro r hr
    rw [h1]
    simp only [seeObj]
    rw [List.getElem?_append_left hr]
  simp only [step]
  refine ⟨by rw [h1], ?_, ?_, old⟩
  · rw [h1]
    simp only [see, hg, List.getElem?_append_right (Nat.le_refl _), Nat.sub_self,
      List.getElem?_cons_zero, Option.map_some, Option.some.injEq, Seen.mk.injEq, true_and, and_true]
    refine forall₂_map_eq h2 ?_
    rintro p q hp ⟨j1, j2, j3, j4⟩
    rw [j1]
    congr 1
    simp only [seeObj]
    rw [j4]
  · intro b' hb'
    have hg' : m.blks[b']? = some m.blks[b'] := List.getElem?_eq_getElem hb'
    have hb1 : (viewBlk m b).1.blks[b']? = some m.blks[b'] := by
      rw [h1]; exact getElem?_append_some hg'
    have hc1 : (viewBlk m b).1.comms = m.comms := by rw [h1]
    simp only [see, hb1, hg', Option.map_some, hc1]
    congr 2
    apply List.map_congr_left
    intro q hq
    rw [old q.2 (hw.vars b' _ hg' q hq)]

theorem form_kept {P : Part} {m m' : Mem β α} (e : Effect P m m')
    (hv : ∀ b (blk : Blk β), ¬ P.blk b → m.blks[b]? = some blk → ∀ q ∈ blk.vars,
      ¬ P.obj q.2 ∧ q.2 < m.objs.length)
    (b : Nat) (hb : b < m.blks.length) (hn : ¬ P.blk b) : form m' b = form m b := by
  have hg : m.blks[b]? = some m.blks[b] := List.getElem?_eq_getElem hb
  have h1 := e.blks b _ hn hg
  simp only [form, h1, hg, Option.map_some, Option.some.injEq, Prod.mk.injEq, and_true]
  apply List.map_congr_left
  intro q hq
  obtain ⟨q1, q2⟩ := hv b _ hn hg q hq
  obtain ⟨o', k1, -, -, k4⟩ := e.objs q.2 _ (List.getElem?_eq_getElem q2)
  have := k4 q1
  subst this
  simp only [formObj, k1, List.getElem?_eq_getElem q2]

theorem formObj_kept {P : Part} {m m' : Mem β α} (e : Effect P m m') (r : Nat)
    (hr : r < m.objs.length) (hn : ¬ P.obj r) : formObj m' r = formObj m r := by
  obtain ⟨o', k1, -, -, k4⟩ := e.objs r _ (List.getElem?_eq_getElem hr)
  have := k4 hn
  subst this
  simp only [formObj, k1, List.getElem?_eq_getElem hr]

/-- C93: whatever a program does with a view of a block and what it gets from it does not change
names, dimensions, units and formats of anything that was there before; whatever it does with
everything else does not change those of the view. -/
theorem C93_view_form [DecidableEq β] (env : Env β α) (m : Mem β α) (hw : Wf m) (b : Nat)
    (hb : b < m.blks.length) (ops : List (Op β α)) :
    let m1 := (step env m (.view b)).1
    (Uses env m1 (made m m1).loose ops →
      (∀ b' < m.blks.length, form (run env m1 ops) b' = form m b') ∧
      (∀ r < m.objs.length, formObj (run env m1 ops) r = formObj m r)) ∧
    (Uses env m1 (everything m).loose ops →
      form (run env m1 ops) m.blks.length = form m b) := by
  have hg : m.blks[b]? = some m.blks[b] := List.getElem?_eq_getElem hb
  obtain ⟨l, vs, h1, h2⟩ := viewBlk_spec m hw b _ hg
  simp only [step]
  rw [h1]
  have hmade : ∀ i, (made m (⟨m.bufs, m.objs ++ l, m.blks ++ [⟨vs, m.blks[b].ivars, m.blks[b].xname, m.blks[b].comm⟩], m.comms⟩ : Mem β α)).obj i
      ↔ m.objs.length ≤ i ∧ i < (m.objs ++ l).length := by
    intro i; simp [made, Part.grow]
  have hmadeb : ∀ i, (made m (⟨m.bufs, m.objs ++ l, m.blks ++ [⟨vs, m.blks[b].ivars, m.blks[b].xname, m.blks[b].comm⟩], m.comms⟩ : Mem β α)).blk i
      ↔ m.blks.length ≤ i ∧ i < m.blks.length + 1 := by
    intro i; simp [made, Part.grow]
  have hnew : ∀ i (blk : Blk β), m.blks.length ≤ i →
      (m.blks ++ [⟨vs, m.blks[b].ivars, m.blks[b].xname, m.blks[b].comm⟩])[i]? = some blk →
      i = m.blks.length ∧ blk = ⟨vs, m.blks[b].ivars, m.blks[b].xname, m.blks[b].comm⟩ := by
    intro i blk hi hblk
    rw [List.getElem?_append_right hi] at hblk
    have h0 : i - m.blks.length = 0 := by
      have := lt_of_getElem? hblk
      simpa using this
    rw [h0] at hblk
    simp only [List.getElem?_cons_zero, Option.some.injEq] at hblk
    exact ⟨by omega, hblk.symm⟩
  have hvs : ∀ q ∈ vs, m.objs.length ≤ q.2 ∧ q.2 < (m.objs ++ l).length := by
    intro q hq
    obtain ⟨p, _, hp⟩ := forall₂_mem_right h2 hq
    exact ⟨hp.2.1, hp.2.2.1⟩
  refine ⟨fun hu => ?_, fun hu => ?_⟩
  · have hcl : Closed (⟨m.bufs, m.objs ++ l, m.blks ++ [⟨vs, m.blks[b].ivars, m.blks[b].xname, m.blks[b].comm⟩], m.comms⟩ : Mem β α)
        (made m (⟨m.bufs, m.objs ++ l, m.blks ++ [⟨vs, m.blks[b].ivars, m.blks[b].xname, m.blks[b].comm⟩], m.comms⟩ : Mem β α)).loose := by
      refine ⟨fun _ _ _ _ => trivial, fun i blk hi hblk q hq => ?_, fun _ _ _ _ _ _ => trivial⟩
      obtain ⟨_, rfl⟩ := hnew i blk ((hmadeb i).1 hi).1 hblk
      exact (hmade _).2 (hvs q hq)
    have e := effect_run env ops hcl hu
    have ho : ∀ r, r < m.objs.length → formObj (⟨m.bufs, m.objs ++ l, m.blks ++ [⟨vs, m.blks[b].ivars, m.blks[b].xname, m.blks[b].comm⟩], m.comms⟩ : Mem β α) r =
        formObj m r := by
      intro r hr
      simp only [formObj]
      rw [List.getElem?_append_left hr]
    refine ⟨fun b' hb' => ?_, fun r hr => ?_⟩
    · refine (form_kept e ?_ b' (by simp; omega) ?_).trans ?_
      · intro i blk hi hblk q hq
        have hi' : i < m.blks.length := by
          by_contra hc
          have := lt_of_getElem? hblk
          simp only [List.length_append, List.length_cons, List.length_nil] at this
          exact hi ((hmadeb i).2 ⟨by omega, by omega⟩)
        simp only [List.getElem?_append_left hi'] at hblk
        have := hw.vars i blk hblk q hq
        exact ⟨fun hc => by have := ((hmade _).1 hc).1; omega, by simp; omega⟩
      · intro hc
        have := ((hmadeb b').1 hc).1; omega
      · simp only [form]
        rw [List.getElem?_append_left hb', List.getElem?_eq_getElem hb']
        simp only [Option.map_some, Option.some.injEq, Prod.mk.injEq, and_true]
        apply List.map_congr_left
        intro q hq
        rw [ho q.2 (hw.vars b' _ (List.getElem?_eq_getElem hb') q hq)]
    · refine (formObj_kept e r (by simp; omega) ?_).trans (ho r hr)
      intro hc
      have := ((hmade r).1 hc).1; omega
  · have hcl : Closed (⟨m.bufs, m.objs ++ l, m.blks ++ [⟨vs, m.blks[b].ivars, m.blks[b].xname, m.blks[b].comm⟩], m.comms⟩ : Mem β α)
        (everything m).loose := by
      refine ⟨fun _ _ _ _ => trivial, fun i blk hi hblk q hq => ?_, fun _ _ _ _ _ _ => trivial⟩
      have hi' : i < m.blks.length := hi
      simp only [List.getElem?_append_left hi'] at hblk
      exact hw.vars i blk hblk q hq
    have e := effect_run env ops hcl hu
    refine (form_kept e ?_ m.blks.length (by simp) (by simp [Part.loose, everything])).trans ?_
    · intro i blk hi hblk q hq
      have hi' : m.blks.length ≤ i := by
        simpa [Part.loose, everything] using hi
      obtain ⟨_, rfl⟩ := hnew i blk hi' hblk
      have := hvs q hq
      exact ⟨by simp [Part.loose, everything]; omega, this.2⟩
    · simp only [form, hg, List.getElem?_append_right (Nat.le_refl _), Nat.sub_self,
        List.getElem?_cons_zero, Option.map_some, Option.some.injEq, Prod.mk.injEq, and_true]
      refine forall₂_map_eq h2 ?_
      rintro p q hp ⟨j1, j2, j3, j4⟩
      rw [j1]
      congr 1
      simp only [formObj]
      rw [j4]

/-- C93: the variables of a view have at any later time the same elements as those of the block
it was made from, whatever the program does: what is written to one is read in the other. -/
theorem C93_view_values [DecidableEq β] (env : Env β α) (m : Mem β α) (hw : Wf m) (b : Nat)
    (blk : Blk β) (hb : m.blks[b]? = some blk) :
    ∃ blk', (step env m (.view b)).1.blks[m.blks.length]? = some blk' ∧ blk'.comm = blk.comm ∧
      List.Forall₂ (fun p q => q.1 = p.1 ∧ ∀ ops,
        elems env.junk (run env (step env m (.view b)).1 ops) q.2 =
          elems env.junk (run env (step env m (.view b)).1 ops) p.2) blk.vars blk'.vars := by
  have hw1 := wf_step env hw (.view b)
  obtain ⟨l, vs, h1, h2⟩ := viewBlk_spec m hw b _ hb
  simp only [step] at hw1 ⊢
  rw [h1] at hw1 ⊢
  refine ⟨⟨vs, blk.ivars, blk.xname, blk.comm⟩, by simp, rfl, ?_⟩
  refine List.forall₂_iff_zip.2 ⟨(List.forall₂_iff_zip.1 h2).1, ?_⟩
  intro p q hpq
  obtain ⟨j1, j2, j3, j4⟩ := (List.forall₂_iff_zip.1 h2).2 hpq
  refine ⟨j1, fun ops => ?_⟩
  have hp := hw.vars b blk hb p (List.of_mem_zip hpq).1
  have hgp : m.objs[p.2]? = some m.objs[p.2] := List.getElem?_eq_getElem hp
  refine C93_linked env _ hw1 q.2 p.2 m.objs[p.2] m.objs[p.2] ?_ ?_ rfl rfl ops
  · rw [← hgp]; exact j4
  · exact getElem?_append_some hgp

/-- C93: a remark added to the comments of a view is one of the block as well, and the other way
round. -/
theorem C93_view_comments [DecidableEq β] (env : Env β α) (m : Mem β α) (b : Nat) (blk : Blk β)
    (hb : m.blks[b]? = some blk) (v : Nat) (blk' : Blk β) (hv : m.blks[v]? = some blk')
    (hc : blk'.comm = blk.comm) (c : Nat) (lines : List String) (hcc : blk.comm = some c)
    (hl : m.comms[c]? = some lines) (line : String) :
    ∀ x, x = b ∨ x = v → ∀ y, y = b ∨ y = v →
      ((see env.junk (step env m (.comment x line)).1 y).bind Seen.comments) =
        some (lines ++ [line]) := by
  have hlt := lt_of_getElem? hl
  have hs : ∀ x, x = b ∨ x = v → (step env m (.comment x line)).1 =
      { m with comms := m.comms.set c (lines ++ [line]) } := by
    rintro x (rfl | rfl)
    · simp only [step, hb, hcc, hl]
    · simp only [step, hv, hc, hcc, hl]
  intro x hx y hy
  rw [hs x hx]
  rcases hy with rfl | rfl
  · simp only [see, hb, hcc, Option.map_some, Option.bind_some]
    exact List.getElem?_set_self hlt
  · simp only [see, hv, hc, hcc, Option.map_some, Option.bind_some]
    exact List.getElem?_set_self hlt

/-- C93: a block holds the array object which was assigned, not a copy of it: reading the
variable gives the object back. -/
theorem C93_stored [DecidableEq β] (env : Env β α) (m : Mem β α) (b : Nat) (blk : Blk β)
    (hb : m.blks[b]? = some blk) (r : Nat) (o : Obj β) (ho : m.objs[r]? = some o) (key : String)
    (hi : key ∉ blk.ivars.map Prod.fst) (hd : ∀ d ∈ o.pos.dims, d.name ≠ key)
    (he : ∀ x i j, isMatrixName key = some (x, i, j) → x ∉ blk.vars.map Prod.fst) :
    (step env m (.set b key r)).2 = .ok .nothing ∧
    (step env (step env m (.set b key r)).1 (.get b key)).2 = .ok (.obj r) ∧
    (step env (step env m (.set b key r)).1 (.get b key)).1 = (step env m (.set b key r)).1 := by
  have h1 : lookup blk.ivars key = none := (lookup_none_iff' _ _).2 hi
  have h2 : ∀ v : Arr β α, elemTarget (member blk.vars) key v = none := by
    intro v
    unfold elemTarget
    split
    · rename_i x i j hx
      have := he x i j hx
      have hm : member blk.vars x = false := by
        rw [member, List.any_eq_false]
        intro p hp hc
        simp only [decide_eq_true_eq] at hc
        exact this (hc ▸ List.mem_map_of_mem hp)
      simp [hm]
    · rfl
  have hlt := lt_of_getElem? hb
  have hs : setVar env m b key r = (putBlk m b { blk with
      vars := assign blk.vars key r, ivars := addDims blk.ivars o.pos.dims,
      xname := nextXname blk.xname o.pos.dims }, .ok .nothing) := by
    simp only [setVar, hb, ho, h2, h1, Obj.val, putBlk, List.set_set]
  simp only [step, hs, true_and]
  have hg : (putBlk m b { blk with
      vars := assign blk.vars key r, ivars := addDims blk.ivars o.pos.dims,
      xname := nextXname blk.xname o.pos.dims }).blks[b]? = some { blk with
      vars := assign blk.vars key r, ivars := addDims blk.ivars o.pos.dims,
      xname := nextXname blk.xname o.pos.dims } := List.getElem?_set_self hlt
  have h3 : lookup (addDims blk.ivars o.pos.dims) key = none := by
    rw [lookup_none_iff']
    intro hc
    rw [mem_keys_addDims] at hc
    rcases hc with hc | ⟨d, hd1, hd2⟩
    · exact hi hc
    · exact hd d hd1 hd2
  have h4 : lookup (assign blk.vars key r) key = some r := by rw [lookup_assign, if_pos rfl]
  simp only [getVar, hg, h3, h4, and_self]

end HF.Share
