import Verif.Share.Model
/-
What one step of a program can change: nothing but the objects, buffers, blocks and comments
which can be reached from its arguments.
-/
namespace HF.Share

open HF.DataDict.Spec
open HF.DataBlock

variable {β α : Type}

/-- A part of the memory. -/
structure Part where
  buf : Nat → Prop
  obj : Nat → Prop
  blk : Nat → Prop
  comm : Nat → Prop

/-- Everything that can be reached from the part belongs to it. -/
structure Closed (m : Mem β α) (P : Part) : Prop where
  obj : ∀ r o, P.obj r → m.objs[r]? = some o → P.buf o.buf
  vars : ∀ b blk, P.blk b → m.blks[b]? = some blk → ∀ q ∈ blk.vars, P.obj q.2
  comm : ∀ b blk, P.blk b → m.blks[b]? = some blk → ∀ c, blk.comm = some c → P.comm c

/-- The part together with everything made between `m` and `m'`. -/
def Part.grow (P : Part) (m m' : Mem β α) : Part where
  buf i := P.buf i ∨ (m.bufs.length ≤ i ∧ i < m'.bufs.length)
  obj i := P.obj i ∨ (m.objs.length ≤ i ∧ i < m'.objs.length)
  blk i := P.blk i ∨ (m.blks.length ≤ i ∧ i < m'.blks.length)
  comm i := P.comm i ∨ (m.comms.length ≤ i ∧ i < m'.comms.length)

/-- From `m` to `m'` nothing outside of `P` has changed, array objects have kept their memory, and
what can be reached from `P` now is `P` or new. -/
structure Effect (P : Part) (m m' : Mem β α) : Prop where
  nbufs : m.bufs.length ≤ m'.bufs.length
  nobjs : m.objs.length ≤ m'.objs.length
  nblks : m.blks.length ≤ m'.blks.length
  ncomms : m.comms.length ≤ m'.comms.length
  bufs : ∀ i f, ¬ P.buf i → m.bufs[i]? = some f → m'.bufs[i]? = some f
  objs : ∀ r o, m.objs[r]? = some o → ∃ o', m'.objs[r]? = some o' ∧ o'.buf = o.buf ∧
    o'.pos.nd = o.pos.nd ∧ (¬ P.obj r → o' = o)
  blks : ∀ b blk, ¬ P.blk b → m.blks[b]? = some blk → m'.blks[b]? = some blk
  comms : ∀ c l, ¬ P.comm c → m.comms[c]? = some l → m'.comms[c]? = some l
  closed : Closed m' (P.grow m m')

theorem Part.ext {P Q : Part} (h1 : ∀ i, P.buf i ↔ Q.buf i) (h2 : ∀ i, P.obj i ↔ Q.obj i)
    (h3 : ∀ i, P.blk i ↔ Q.blk i) (h4 : ∀ i, P.comm i ↔ Q.comm i) : P = Q := by
  cases P; cases Q
  simp only [Part.mk.injEq]
  exact ⟨funext fun i => propext (h1 i), funext fun i => propext (h2 i),
    funext fun i => propext (h3 i), funext fun i => propext (h4 i)⟩

theorem Part.grow_grow (P : Part) {m m1 m2 : Mem β α} (h1 : m.bufs.length ≤ m1.bufs.length)
    (h2 : m.objs.length ≤ m1.objs.length) (h3 : m.blks.length ≤ m1.blks.length)
    (h4 : m.comms.length ≤ m1.comms.length) (k1 : m1.bufs.length ≤ m2.bufs.length)
    (k2 : m1.objs.length ≤ m2.objs.length) (k3 : m1.blks.length ≤ m2.blks.length)
    (k4 : m1.comms.length ≤ m2.comms.length) :
    (P.grow m m1).grow m1 m2 = P.grow m m2 := by
  apply Part.ext <;> intro i <;> simp only [Part.grow] <;> constructor
  all_goals
    intro h
    first
    | (rcases h with (h | h) | h
       · exact Or.inl h
       · exact Or.inr (by omega)
       · exact Or.inr (by omega))
    | (rcases h with h | h
       · exact Or.inl (Or.inl h)
       · by_cases hh : i < m1.bufs.length
         · exact Or.inl (Or.inr (by omega))
         · exact Or.inr (by omega))
    | (rcases h with h | h
       · exact Or.inl (Or.inl h)
       · by_cases hh : i < m1.objs.length
         · exact Or.inl (Or.inr (by omega))
         · exact Or.inr (by omega))
    | (rcases h with h | h
       · exact Or.inl (Or.inl h)
       · by_cases hh : i < m1.blks.length
         · exact Or.inl (Or.inr (by omega))
         · exact Or.inr (by omega))
    | (rcases h with h | h
       · exact Or.inl (Or.inl h)
       · by_cases hh : i < m1.comms.length
         · exact Or.inl (Or.inr (by omega))
         · exact Or.inr (by omega))

theorem Part.grow_same (P : Part) {m m' : Mem β α} (h1 : m'.bufs.length = m.bufs.length)
    (h2 : m'.objs.length = m.objs.length) (h3 : m'.blks.length = m.blks.length)
    (h4 : m'.comms.length = m.comms.length) : P.grow m m' = P := by
  apply Part.ext <;> intro i <;> simp only [Part.grow] <;> constructor
  all_goals
    intro h
    first
    | exact Or.inl h
    | (rcases h with h | h
       · exact h
       · exfalso; omega)

theorem lt_of_getElem? {γ : Type} {l : List γ} {i : Nat} {x : γ} (h : l[i]? = some x) :
    i < l.length := by
  rw [List.getElem?_eq_some_iff] at h; exact h.1

theorem getElem?_append_some {γ : Type} {l t : List γ} {i : Nat} {x : γ} (h : l[i]? = some x) :
    (l ++ t)[i]? = some x := by
  rw [List.getElem?_append_left (lt_of_getElem? h)]; exact h

theorem Effect.refl {P : Part} {m : Mem β α} (h : Closed m P) : Effect P m m where
  nbufs := Nat.le_refl _
  nobjs := Nat.le_refl _
  nblks := Nat.le_refl _
  ncomms := Nat.le_refl _
  bufs _ _ _ h := h
  objs _ o h := ⟨o, h, rfl, rfl, fun _ => rfl⟩
  blks _ _ _ h := h
  comms _ _ _ h := h
  closed := by rw [Part.grow_same P rfl rfl rfl rfl]; exact h

theorem Effect.trans {P : Part} {m m1 m2 : Mem β α} (h : Effect P m m1)
    (k : Effect (P.grow m m1) m1 m2) : Effect P m m2 where
  nbufs := Nat.le_trans h.nbufs k.nbufs
  nobjs := Nat.le_trans h.nobjs k.nobjs
  nblks := Nat.le_trans h.nblks k.nblks
  ncomms := Nat.le_trans h.ncomms k.ncomms
  bufs i f hn hi := by
    refine k.bufs i f ?_ (h.bufs i f hn hi)
    have := lt_of_getElem? hi
    rintro (hp | hp)
    · exact hn hp
    · omega
  objs r o hr := by
    obtain ⟨o1, h1, h2, h3, h4⟩ := h.objs r o hr
    obtain ⟨o2, k1, k2, k3, k4⟩ := k.objs r o1 h1
    refine ⟨o2, k1, k2.trans h2, k3.trans h3, fun hn => (k4 ?_).trans (h4 hn)⟩
    have := lt_of_getElem? hr
    rintro (hp | hp)
    · exact hn hp
    · omega
  blks b blk hn hb := by
    refine k.blks b blk ?_ (h.blks b blk hn hb)
    have := lt_of_getElem? hb
    rintro (hp | hp)
    · exact hn hp
    · omega
  comms c l hn hc := by
    refine k.comms c l ?_ (h.comms c l hn hc)
    have := lt_of_getElem? hc
    rintro (hp | hp)
    · exact hn hp
    · omega
  closed := by
    have := k.closed
    rwa [Part.grow_grow P h.nbufs h.nobjs h.nblks h.ncomms k.nbufs k.nobjs k.nblks k.ncomms] at this

/-! ### The single changes -/

theorem effect_addArr {P : Part} {m : Mem β α} (h : Closed m P) (v : Arr β α) (u : Option String)
    (f : String) : Effect P m (addArr m v u f) where
  nbufs := by simp [addArr]
  nobjs := by simp [addArr]
  nblks := Nat.le_refl _
  ncomms := Nat.le_refl _
  bufs _ _ _ h := getElem?_append_some h
  objs _ o h := ⟨o, getElem?_append_some h, rfl, rfl, fun _ => rfl⟩
  blks _ _ _ h := h
  comms _ _ _ h := h
  closed := by
    refine ⟨fun r o hr ho => ?_, fun b blk hb hblk q hq => ?_, fun b blk hb hblk c hc => ?_⟩
    · simp only [addArr, List.getElem?_append] at ho
      split at ho
      · rcases hr with hr | hr
        · exact Or.inl (h.obj r o hr ho)
        · omega
      · rename_i hlt
        have : r - m.objs.length = 0 := by
          have := lt_of_getElem? ho
          simpa using this
        rw [this] at ho
        simp only [List.getElem?_cons_zero, Option.some.injEq] at ho
        subst ho
        exact Or.inr ⟨Nat.le_refl _, by simp [addArr]⟩
    · rcases hb with hb | hb
      · exact Or.inl (h.vars b blk hb hblk q hq)
      · simp only [addArr] at hb; omega
    · rcases hb with hb | hb
      · exact Or.inl (h.comm b blk hb hblk c hc)
      · simp only [addArr] at hb; omega

theorem effect_addObj {P : Part} {m : Mem β α} (h : Closed m P) (o' : Obj β) (ho' : P.buf o'.buf) :
    Effect P m (addObj m o') where
  nbufs := Nat.le_refl _
  nobjs := by simp [addObj]
  nblks := Nat.le_refl _
  ncomms := Nat.le_refl _
  bufs _ _ _ h := h
  objs _ o h := ⟨o, getElem?_append_some h, rfl, rfl, fun _ => rfl⟩
  blks _ _ _ h := h
  comms _ _ _ h := h
  closed := by
    refine ⟨fun r o hr ho => ?_, fun b blk hb hblk q hq => ?_, fun b blk hb hblk c hc => ?_⟩
    · simp only [addObj, List.getElem?_append] at ho
      split at ho
      · rcases hr with hr | hr
        · exact Or.inl (h.obj r o hr ho)
        · omega
      · rename_i hlt
        have : r - m.objs.length = 0 := by
          have := lt_of_getElem? ho
          simpa using this
        rw [this] at ho
        simp only [List.getElem?_cons_zero, Option.some.injEq] at ho
        subst ho
        exact Or.inl ho'
    · rcases hb with hb | hb
      · exact Or.inl (h.vars b blk hb hblk q hq)
      · simp only [addObj] at hb; omega
    · rcases hb with hb | hb
      · exact Or.inl (h.comm b blk hb hblk c hc)
      · simp only [addObj] at hb; omega

theorem effect_objs {P : Part} {m : Mem β α} (h : Closed m P) (objs' : List (Obj β))
    (hl : objs'.length = m.objs.length)
    (ho : ∀ r o, m.objs[r]? = some o → ∃ o', objs'[r]? = some o' ∧ o'.buf = o.buf ∧
      o'.pos.nd = o.pos.nd ∧ (¬ P.obj r → o' = o)) :
    Effect P m { m with objs := objs' } where
  nbufs := Nat.le_refl _
  nobjs := by simp [hl]
  nblks := Nat.le_refl _
  ncomms := Nat.le_refl _
  bufs _ _ _ h := h
  objs := ho
  blks _ _ _ h := h
  comms _ _ _ h := h
  closed := by
    rw [Part.grow_same P (by rfl) (by exact hl) (by rfl) (by rfl)]
    refine ⟨fun r o hr hro => ?_, fun b blk hb hblk => h.vars b blk hb hblk,
      fun b blk hb hblk => h.comm b blk hb hblk⟩
    have hlt : r < m.objs.length := by rw [← hl]; exact lt_of_getElem? hro
    obtain ⟨o', h1, h2, -⟩ := ho r m.objs[r] (List.getElem?_eq_getElem hlt)
    have h3 : o' = o := by
      have : some o' = some o := h1.symm.trans hro
      exact Option.some.inj this
    rw [← h3, h2]
    exact h.obj r _ hr (List.getElem?_eq_getElem hlt)

theorem effect_putObj {P : Part} {m : Mem β α} (h : Closed m P) (r : Nat) (o o' : Obj β)
    (hr : P.obj r) (hm : m.objs[r]? = some o) (hb : o'.buf = o.buf) (hn : o'.pos.nd = o.pos.nd) :
    Effect P m (putObj m r o') := by
  refine effect_objs h _ (by simp) fun s os hs => ?_
  by_cases e : r = s
  · subst e
    rw [hm] at hs; cases hs
    exact ⟨o', List.getElem?_set_self (lt_of_getElem? hm), hb, hn, fun hc => absurd hr hc⟩
  · exact ⟨os, by rw [List.getElem?_set_ne e]; exact hs, rfl, rfl, fun _ => rfl⟩

theorem relabel_length (old new : Dim β) (refs : List Nat) :
    ∀ objs : List (Obj β), (relabel old new refs objs).length = objs.length := by
  induction refs with
  | nil => intro objs; rfl
  | cons r refs ih =>
    intro objs
    rw [relabel, List.foldl_cons]
    show (relabel old new refs _).length = _
    rw [ih]
    split <;> simp

/-- `relabel` replaces the dims of the objects in the list, once is enough. -/
theorem relabel_get (old new : Dim β) (refs : List Nat) :
    ∀ (objs : List (Obj β)) (s : Nat) (o : Obj β), objs[s]? = some o →
      ∃ o', (relabel old new refs objs)[s]? = some o' ∧ o'.buf = o.buf ∧
        o'.pos.nd = o.pos.nd ∧ o'.unit = o.unit ∧ o'.fmt = o.fmt ∧
        (s ∉ refs → o' = o) ∧ (s ∈ refs → o'.pos = replaceDimArr old new o.pos) := by
  induction refs with
  | nil => intro objs s o h; exact ⟨o, h, rfl, rfl, rfl, rfl, fun _ => rfl, by simp⟩
  | cons r refs ih =>
    intro objs s o h
    rw [relabel, List.foldl_cons]
    have key : ∃ o1 : Obj β, (match objs[r]? with
        | some o => objs.set r { o with pos := replaceDimArr old new o.pos }
        | none => objs)[s]? = some o1 ∧ o1.buf = o.buf ∧ o1.pos.nd = o.pos.nd ∧
        o1.unit = o.unit ∧ o1.fmt = o.fmt ∧
        (s ≠ r → o1 = o) ∧ (s = r → o1.pos = replaceDimArr old new o.pos) := by
      by_cases e : s = r
      · subst e
        rw [h]
        exact ⟨_, List.getElem?_set_self (lt_of_getElem? h), rfl, rfl, rfl, rfl,
          fun hc => absurd rfl hc, fun _ => rfl⟩
      · refine ⟨o, ?_, rfl, rfl, rfl, rfl, fun _ => rfl, fun hc => absurd hc e⟩
        split
        · rw [List.getElem?_set_ne (Ne.symm e)]; exact h
        · exact h
    obtain ⟨o1, h1, h2, h3, h4, h5, h6, h7⟩ := key
    obtain ⟨o', k1, k2, k3, k4, k5, k6, k7⟩ := ih _ s o1 h1
    refine ⟨o', k1, k2.trans h2, k3.trans h3, k4.trans h4, k5.trans h5, ?_, ?_⟩
    · intro hs
      rw [List.mem_cons, not_or] at hs
      rw [k6 hs.2, h6 hs.1]
    · intro hs
      by_cases hr : s ∈ refs
      · rw [k7 hr]
        by_cases e : s = r
        · rw [h7 e]
          simp only [replaceDimArr, List.map_map]
          congr 1
          apply List.map_congr_left
          intro d _
          simp only [Function.comp]
          split
          · split <;> rfl
          · rfl
        · rw [h6 e]
      · have e : s = r := by
          rcases List.mem_cons.1 hs with e | e
          · exact e
          · exact absurd e hr
        rw [k6 hr, h7 e]

theorem effect_write {P : Part} {m : Mem β α} (h : Closed m P) (r : Nat) (hr : P.obj r)
    (upd : List Nat → Option α) : Effect P m (write m r upd) := by
  unfold write
  split
  · exact Effect.refl h
  · rename_i o ho
    split
    · exact Effect.refl h
    · rename_i f hf
      have hP := h.obj r o hr ho
      refine ⟨by simp, Nat.le_refl _, Nat.le_refl _, Nat.le_refl _, ?_, ?_, fun _ _ _ h => h,
        fun _ _ _ h => h, ?_⟩
      · intro i g hn hi
        have : o.buf ≠ i := fun e => hn (e ▸ hP)
        simp only
        rw [List.getElem?_set_ne this]; exact hi
      · exact fun _ o h => ⟨o, h, rfl, rfl, fun _ => rfl⟩
      · rw [Part.grow_same P (by simp) (by rfl) (by rfl) (by rfl)]
        exact ⟨h.obj, h.vars, h.comm⟩

theorem effect_putBlk {P : Part} {m : Mem β α} (h : Closed m P) (b : Nat) (blk : Blk β)
    (hb : P.blk b) (hv : ∀ q ∈ blk.vars, P.obj q.2) (hc : ∀ c, blk.comm = some c → P.comm c) :
    Effect P m (putBlk m b blk) where
  nbufs := Nat.le_refl _
  nobjs := Nat.le_refl _
  nblks := by simp [putBlk]
  ncomms := Nat.le_refl _
  bufs _ _ _ h := h
  objs _ o h := ⟨o, h, rfl, rfl, fun _ => rfl⟩
  blks b' blk' hn hb' := by
    have : b ≠ b' := fun e => hn (e ▸ hb)
    simp only [putBlk]
    rw [List.getElem?_set_ne this]; exact hb'
  comms _ _ _ h := h
  closed := by
    rw [Part.grow_same P (by rfl) (by rfl) (by simp [putBlk]) (by rfl)]
    have key : ∀ (b' : Nat) (blk' : Blk β), (putBlk m b blk).blks[b']? = some blk' →
        blk' = blk ∨ m.blks[b']? = some blk' := by
      intro b' blk' hb'
      by_cases e : b = b'
      · subst e
        simp only [putBlk, List.getElem?_set, if_true] at hb'
        split at hb'
        · exact Or.inl (Option.some.inj hb').symm
        · cases hb'
      · simp only [putBlk] at hb'
        rw [List.getElem?_set_ne e] at hb'
        exact Or.inr hb'
    refine ⟨h.obj, fun b' blk' hb' hm => ?_, fun b' blk' hb' hm => ?_⟩
    · rcases key b' blk' hm with rfl | hm
      · exact hv
      · exact h.vars b' blk' hb' hm
    · rcases key b' blk' hm with rfl | hm
      · exact hc
      · exact h.comm b' blk' hb' hm

theorem effect_addBlk {P : Part} {m : Mem β α} (h : Closed m P) (blk : Blk β)
    (hv : ∀ q ∈ blk.vars, P.obj q.2) (hc : ∀ c, blk.comm = some c → P.comm c) :
    Effect P m { m with blks := m.blks ++ [blk] } where
  nbufs := Nat.le_refl _
  nobjs := Nat.le_refl _
  nblks := by simp
  ncomms := Nat.le_refl _
  bufs _ _ _ h := h
  objs _ o h := ⟨o, h, rfl, rfl, fun _ => rfl⟩
  blks _ _ _ hb := getElem?_append_some hb
  comms _ _ _ h := h
  closed := by
    have key : ∀ (b' : Nat) (blk' : Blk β), P.blk b' ∨ (m.blks.length ≤ b' ∧ b' < (m.blks ++ [blk]).length) →
        (m.blks ++ [blk])[b']? = some blk' →
        blk' = blk ∨ (P.blk b' ∧ m.blks[b']? = some blk') := by
      intro b' blk' hp hb'
      rw [List.getElem?_append] at hb'
      split at hb'
      · rcases hp with hp | hp
        · exact Or.inr ⟨hp, hb'⟩
        · omega
      · have : b' - m.blks.length = 0 := by
          have := lt_of_getElem? hb'
          simpa using this
        rw [this] at hb'
        simp only [List.getElem?_cons_zero, Option.some.injEq] at hb'
        exact Or.inl hb'.symm
    refine ⟨fun r o hr ho => ?_, fun b' blk' hb' hm q hq => ?_, fun b' blk' hb' hm c hcc => ?_⟩
    · rcases hr with hr | hr
      · exact Or.inl (h.obj r o hr ho)
      · simp only at hr; omega
    · rcases key b' blk' hb' hm with rfl | ⟨hp, hm⟩
      · exact Or.inl (hv q hq)
      · exact Or.inl (h.vars b' blk' hp hm q hq)
    · rcases key b' blk' hb' hm with rfl | ⟨hp, hm⟩
      · exact Or.inl (hc c hcc)
      · exact Or.inl (h.comm b' blk' hp hm c hcc)

theorem effect_addComm {P : Part} {m : Mem β α} (h : Closed m P) (l : List String) :
    Effect P m { m with comms := m.comms ++ [l] } where
  nbufs := Nat.le_refl _
  nobjs := Nat.le_refl _
  nblks := Nat.le_refl _
  ncomms := by simp
  bufs _ _ _ h := h
  objs _ o h := ⟨o, h, rfl, rfl, fun _ => rfl⟩
  blks _ _ _ h := h
  comms _ _ _ hb := getElem?_append_some hb
  closed := by
    refine ⟨fun r o hr ho => ?_, fun b' blk' hb' hm q hq => ?_, fun b' blk' hb' hm c hcc => ?_⟩
    · rcases hr with hr | hr
      · exact Or.inl (h.obj r o hr ho)
      · simp only at hr; omega
    · rcases hb' with hb' | hb'
      · exact Or.inl (h.vars b' blk' hb' hm q hq)
      · simp only at hb'; omega
    · rcases hb' with hb' | hb'
      · exact Or.inl (h.comm b' blk' hb' hm c hcc)
      · simp only at hb'; omega

theorem effect_setComm {P : Part} {m : Mem β α} (h : Closed m P) (c : Nat) (hc : P.comm c)
    (l : List String) : Effect P m { m with comms := m.comms.set c l } where
  nbufs := Nat.le_refl _
  nobjs := Nat.le_refl _
  nblks := Nat.le_refl _
  ncomms := by simp
  bufs _ _ _ h := h
  objs _ o h := ⟨o, h, rfl, rfl, fun _ => rfl⟩
  blks _ _ _ h := h
  comms c' l' hn hb := by
    have : c ≠ c' := fun e => hn (e ▸ hc)
    simp only
    rw [List.getElem?_set_ne this]; exact hb
  closed := by
    rw [Part.grow_same P (by rfl) (by rfl) (by rfl) (by simp)]
    exact ⟨h.obj, h.vars, h.comm⟩

end HF.Share
