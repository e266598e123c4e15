import Verif.Share.Props
import Verif.HFArray.NdLemmas
/-
C93: copies are independent of what they are made from.
-/
namespace HF.Share

open HF.DataDict.Spec
open HF.DataBlock

variable {β α : Type}

/-- Nothing. -/
def noPart : Part := ⟨fun _ => False, fun _ => False, fun _ => False, fun _ => False⟩

theorem closed_noPart (m : Mem β α) : Closed m noPart :=
  ⟨fun _ _ h => h.elim, fun _ _ h => h.elim, fun _ _ h => h.elim⟩

theorem wf_of_effect {m m' : Mem β α} (e : Effect (everything m) m m') : Wf m' := by
  have := e.closed
  rw [grow_everything e] at this
  exact (wf_iff _).2 this

theorem noPart_compl_closed (m : Mem β α) : Closed m noPart.compl :=
  ⟨fun _ _ _ _ h => h, fun _ _ _ _ _ _ h => h, fun _ _ _ _ _ _ h => h⟩

theorem seeObj_kept (junk : α) {m m' : Mem β α} (hw : Wf m) (e : Effect noPart m m') (r : Nat)
    (hr : r < m.objs.length) : seeObj junk m' r = seeObj junk m r :=
  same_obj junk e (noPart_compl_closed m) hw r hr fun h => h

theorem see_kept (junk : α) {m m' : Mem β α} (hw : Wf m) (e : Effect noPart m m') (b : Nat)
    (hb : b < m.blks.length) : see junk m' b = see junk m b :=
  same_blk junk e (noPart_compl_closed m) hw b hb fun h => h

theorem apart_made {m m' : Mem β α} (hw : Wf m) (hw' : Wf m') (e : Effect noPart m m') :
    Apart m' (made m m') := by
  refine ⟨hw', e.closed, ⟨?_, ?_, ?_⟩, ?_⟩
  · intro r o hr ho
    have hlt : r < m.objs.length := by
      by_contra hc
      exact hr (Or.inr ⟨by omega, lt_of_getElem? ho⟩)
    obtain ⟨o', h1, h2, -, -⟩ := e.objs r _ (List.getElem?_eq_getElem hlt)
    rw [h1] at ho; cases ho
    have := hw.obj r _ (List.getElem?_eq_getElem hlt)
    rintro (hc | hc)
    · exact hc
    · rw [h2] at hc; omega
  · intro b blk hb hblk q hq
    have hlt : b < m.blks.length := by
      by_contra hc
      exact hb (Or.inr ⟨by omega, lt_of_getElem? hblk⟩)
    have h1 := e.blks b _ (fun h => h) (List.getElem?_eq_getElem hlt)
    rw [h1] at hblk; cases hblk
    have := hw.vars b _ (List.getElem?_eq_getElem hlt) q hq
    rintro (hc | hc)
    · exact hc
    · omega
  · intro b blk hb hblk c hcm
    have hlt : b < m.blks.length := by
      by_contra hc
      exact hb (Or.inr ⟨by omega, lt_of_getElem? hblk⟩)
    have h1 := e.blks b _ (fun h => h) (List.getElem?_eq_getElem hlt)
    rw [h1] at hblk; cases hblk
    have := hw.comm b _ (List.getElem?_eq_getElem hlt) c hcm
    rintro (hc | hc)
    · exact hc
    · omega
  · refine ⟨fun i hi => ?_, fun i hi => ?_, fun i hi => ?_, fun i hi => ?_⟩
    all_goals
      rcases hi with hi | hi
      · exact hi.elim
      · exact hi.2

theorem flatOf_fresh (sh : List Nat) (g : List Nat → α) :
    flatOf ⟨sh, fun idx => g (Nd.unravel sh (Nd.ravel sh idx))⟩ = flatOf ⟨sh, g⟩ := by
  unfold flatOf indices
  apply List.map_congr_left
  intro idx hi
  obtain ⟨k, hk, rfl⟩ := List.mem_map.1 hi
  rw [List.mem_range] at hk
  simp only
  rw [Nd.ravel_unravel hk]

theorem seeObj_addArr (junk : α) (m : Mem β α) (v : Arr β α) (u : Option String) (f : String) :
    seeObj junk (addArr m v u f) m.objs.length = some ⟨v.dims, v.nd.shape, flatOf v.nd, u, f⟩ := by
  have h1 : (addArr m v u f).objs[m.objs.length]? =
      some ⟨m.bufs.length, ⟨v.dims, ⟨v.nd.shape, Nd.ravel v.nd.shape⟩⟩, u, f⟩ := by
    simp [addArr]
  have h2 : (addArr m v u f).bufs[m.bufs.length]? =
      some fun p => v.nd.get (Nd.unravel v.nd.shape p) := by simp [addArr]
  simp only [seeObj, h1, Option.map_some, Obj.val, h2]
  rw [flatOf_fresh]

theorem copyVars_see (junk : α) (vars : OMap String Nat) :
    ∀ m : Mem β α, Wf m → (∀ q ∈ vars, q.2 < m.objs.length) →
      (copyVars junk m vars).2.map (fun p => (p.1, seeObj junk (copyVars junk m vars).1 p.2)) =
        vars.map fun p => (p.1, seeObj junk m p.2) := by
  induction vars with
  | nil => intro m _ _; rfl
  | cons p t ih =>
    intro m hw hv
    obtain ⟨k, r⟩ := p
    have hr : r < m.objs.length := hv (k, r) (by simp)
    have hg : m.objs[r]? = some m.objs[r] := List.getElem?_eq_getElem hr
    unfold copyVars
    simp only [hg]
    have e0 := effect_addArr (closed_noPart m) (m.objs[r].val m.bufs junk) m.objs[r].unit
      m.objs[r].fmt
    have w1 : Wf (addArr m (m.objs[r].val m.bufs junk) m.objs[r].unit m.objs[r].fmt) :=
      wf_of_effect (effect_addArr ((wf_iff m).1 hw) _ _ _)
    have l1 := (addArr_last m (m.objs[r].val m.bufs junk) m.objs[r].unit m.objs[r].fmt).1
    have s1 : ∀ s, s < m.objs.length → seeObj junk (addArr m (m.objs[r].val m.bufs junk)
        m.objs[r].unit m.objs[r].fmt) s = seeObj junk m s := fun s hs => seeObj_kept junk hw e0 s hs
    have s2 := seeObj_addArr junk m (m.objs[r].val m.bufs junk) m.objs[r].unit m.objs[r].fmt
    have ih1 := ih _ w1 (fun q hq => by have := hv q (by simp [hq]); omega)
    have e2 := (effect_copyVars junk t (closed_noPart
      (addArr m (m.objs[r].val m.bufs junk) m.objs[r].unit m.objs[r].fmt))).1
    have s3 := seeObj_kept junk w1 e2 m.objs.length (by omega)
    rw [List.map_cons, List.map_cons, ih1]
    congr 1
    · rw [s3, s2]
      simp only [seeObj, hg, Option.map_some, Obj.val]
    · apply List.map_congr_left
      intro q hq
      rw [s1 q.2 (hv q (by simp [hq]))]

theorem copyBlk_blk (env : Env β α) (m : Mem β α) (b : Nat) (blk : Blk β)
    (hb : m.blks[b]? = some blk) :
    (copyBlk env m b).2 = .ok (.blk m.blks.length) ∧
    (copyBlk env m b).1.blks[m.blks.length]? =
      some ⟨(copyVars env.junk (copyComm m blk.comm).1 blk.vars).2, blk.ivars, blk.xname,
        (copyComm m blk.comm).2⟩ ∧
    (copyBlk env m b).1.objs = (copyVars env.junk (copyComm m blk.comm).1 blk.vars).1.objs ∧
    (copyBlk env m b).1.bufs = (copyVars env.junk (copyComm m blk.comm).1 blk.vars).1.bufs ∧
    (copyBlk env m b).1.comms = (copyComm m blk.comm).1.comms ∧
    (copyBlk env m b).1.blks.length = m.blks.length + 1 := by
  obtain ⟨e1, b1, o1, f1, c1⟩ := effect_copyComm (closed_noPart m) blk.comm
  obtain ⟨e2, b2, c2, r2⟩ := effect_copyVars env.junk blk.vars (closed_noPart (copyComm m blk.comm).1)
  simp only [copyBlk, hb, b2, b1, c2]
  simp

/-- C93: a copy of a block looks like the block, and making it changes nothing; it shares nothing
with anything that has existed before. -/
theorem C93_copy [DecidableEq β] (env : Env β α) (m : Mem β α) (hw : Wf m) (b : Nat)
    (hb : b < m.blks.length) :
    let m1 := (step env m (.copy b)).1
    (step env m (.copy b)).2 = .ok (.blk m.blks.length) ∧
    see env.junk m1 m.blks.length = see env.junk m b ∧
    (∀ b' < m.blks.length, see env.junk m1 b' = see env.junk m b') ∧
    (∀ r < m.objs.length, seeObj env.junk m1 r = seeObj env.junk m r) ∧
    Apart m1 (made m m1) ∧ (made m m1).blk m.blks.length := by
  have hg : m.blks[b]? = some m.blks[b] := List.getElem?_eq_getElem hb
  have e := (effect_copyBlk env (closed_noPart m) b).1
  obtain ⟨k1, k2, k3, k4, k5, k6⟩ := copyBlk_blk env m b _ hg
  refine ⟨k1, ?_, fun b' hb' => see_kept env.junk hw e b' hb',
    fun r hr => seeObj_kept env.junk hw e r hr, apart_made hw (wf_step env hw (.copy b)) e, ?_⟩
  · simp only [step, see, k2, hg, Option.map_some, Option.some.injEq, Seen.mk.injEq, true_and]
    obtain ⟨e1, b1, o1, f1, c1⟩ := effect_copyComm (closed_noPart m) m.blks[b].comm
    have w1 : Wf (copyComm m m.blks[b].comm).1 :=
      wf_of_effect (effect_copyComm ((wf_iff m).1 hw) _).1
    refine ⟨?_, ?_⟩
    · have := copyVars_see env.junk m.blks[b].vars (copyComm m m.blks[b].comm).1 w1
        (fun q hq => by rw [o1]; exact hw.vars b _ hg q hq)
      simp only [seeObj, k3, k4, o1, f1] at this ⊢
      exact this
    · rw [k5]
      cases hc : m.blks[b].comm with
      | none => rfl
      | some c =>
        have h2 := hw.comm b _ hg c hc
        simp [copyComm, List.getElem?_eq_getElem h2]
  · exact Or.inr ⟨Nat.le_refl _, by simp only [step]; omega⟩

/-- C93: the steps of a program on one of two parts that share nothing do not change what can be
seen of the other part, however many they are. -/
theorem C93_one_side [DecidableEq β] (env : Env β α) (s : Bool) (h : List (Bool × Op β α))
    (hs : ∀ x ∈ h, x.1 = s) :
    ∀ (m : Mem β α) (P : Part), Apart m P → Sided env m P h →
    (∀ b, b < m.blks.length → (P.side !s).blk b →
      see env.junk (run env m (h.map Prod.snd)) b = see env.junk m b) ∧
    (∀ r, r < m.objs.length → (P.side !s).obj r →
      seeObj env.junk (run env m (h.map Prod.snd)) r = seeObj env.junk m r) := by
  induction h with
  | nil => intro m P _ _; exact ⟨fun _ _ _ => rfl, fun _ _ _ => rfl⟩
  | cons x t ih =>
    intro m P ha hsd
    obtain ⟨s', op⟩ := x
    have : s' = s := hs (s', op) (by simp)
    subst this
    obtain ⟨ha1, e⟩ := apart_step env ha s' op hsd.1
    obtain ⟨i1, i2⟩ := ih (fun x hx => hs x (by simp [hx])) _ _ ha1 hsd.2
    obtain ⟨j1, j2⟩ := C93_sides env m P ha [] s' op t hsd
    have hn3 := e.nblks
    have hn2 := e.nobjs
    refine ⟨fun b hb hp => (i1 b (by omega) ?_).trans (j1 b hb hp),
      fun r hr hp => (i2 r (by omega) ?_).trans (j2 r hr hp)⟩
    · cases s' with
      | false => exact hp
      | true =>
        rintro (hc | hc)
        · exact hp hc
        · omega
    · cases s' with
      | false => exact hp
      | true =>
        rintro (hc | hc)
        · exact hp hc
        · omega

/-- C93: after `c = b.copy()`, whatever a program does with `c`, with what it gets from `c` and
with what it makes itself does not change what can be seen of anything that was there before; and
whatever a program does with everything else does not change what can be seen of `c`. -/
theorem C93_copy_after [DecidableEq β] (env : Env β α) (m : Mem β α) (hw : Wf m) (b : Nat)
    (hb : b < m.blks.length) (h : List (Bool × Op β α))
    (hs : Sided env (step env m (.copy b)).1 (made m (step env m (.copy b)).1) h) :
    ((∀ x ∈ h, x.1 = true) →
      (∀ b' < m.blks.length, see env.junk (run env (step env m (.copy b)).1 (h.map Prod.snd)) b' =
        see env.junk m b') ∧
      (∀ r < m.objs.length, seeObj env.junk (run env (step env m (.copy b)).1 (h.map Prod.snd)) r =
        seeObj env.junk m r)) ∧
    ((∀ x ∈ h, x.1 = false) →
      see env.junk (run env (step env m (.copy b)).1 (h.map Prod.snd)) m.blks.length =
        see env.junk m b) := by
  obtain ⟨k1, k2, k3, k4, k5, k6⟩ := C93_copy env m hw b hb
  have e := (effect_copyBlk env (closed_noPart m) b).1
  have hn3 := e.nblks
  have hn2 := e.nobjs
  refine ⟨fun ht => ?_, fun hf => ?_⟩
  · obtain ⟨i1, i2⟩ := C93_one_side env true h ht _ _ k5 hs
    refine ⟨fun b' hb' => (i1 b' (by simp only [step]; omega) ?_).trans (k3 b' hb'),
      fun r hr => (i2 r (by simp only [step]; omega) ?_).trans (k4 r hr)⟩
    · rintro (hc | hc)
      · exact hc
      · omega
    · rintro (hc | hc)
      · exact hc
      · omega
  · obtain ⟨i1, -⟩ := C93_one_side env false h hf _ _ k5 hs
    refine (i1 _ (k5.exist.2.2.1 _ k6) ?_).trans k2
    exact k6

/-- C93: the same for `a.copy()`, and for the array one gets by reading a dimension of a block. -/
theorem C93_copy_array [DecidableEq β] (env : Env β α) (m : Mem β α) (hw : Wf m) (op : Op β α)
    (hop : (∃ r, op = .copyArr r ∧ r < m.objs.length) ∨
      (∃ b key blk d, op = .get b key ∧ m.blks[b]? = some blk ∧ lookup blk.ivars key = some d)) :
    let m1 := (step env m op).1
    (step env m op).2 = .ok (.obj m.objs.length) ∧
    (∀ b' < m.blks.length, see env.junk m1 b' = see env.junk m b') ∧
    (∀ r < m.objs.length, seeObj env.junk m1 r = seeObj env.junk m r) ∧
    Apart m1 (made m m1) ∧ (made m m1).obj m.objs.length := by
  have key : ∃ v u f, step env m op = (addArr m v u f, .ok (.obj m.objs.length)) := by
    rcases hop with ⟨r, rfl, hr⟩ | ⟨b, key, blk, d, rfl, hb, hd⟩
    · simp only [step, List.getElem?_eq_getElem hr]
      exact ⟨_, _, _, rfl⟩
    · simp only [step, getVar, hb, hd]
      exact ⟨_, _, _, rfl⟩
  have hw' := wf_step env hw op
  obtain ⟨v, u, f, hk⟩ := key
  rw [hk] at hw' ⊢
  have e := effect_addArr (closed_noPart m) v u f
  exact ⟨rfl, fun b' hb' => see_kept env.junk hw e b' hb',
    fun r hr => seeObj_kept env.junk hw e r hr, apart_made hw hw' e,
    Or.inr ⟨Nat.le_refl _, by simp [addArr]⟩⟩

/-- C93: the copy of an array looks like the array. -/
theorem C93_copy_array_same [DecidableEq β] (env : Env β α) (m : Mem β α) (r : Nat)
    (hr : r < m.objs.length) :
    seeObj env.junk (step env m (.copyArr r)).1 m.objs.length = seeObj env.junk m r := by
  simp only [step, List.getElem?_eq_getElem hr]
  rw [seeObj_addArr]
  simp only [seeObj, List.getElem?_eq_getElem hr, Option.map_some, Obj.val]

end HF.Share
