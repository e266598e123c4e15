import Verif.DataBlock.Lemmas
/-
C03: a block knows the dimensions of everything it stores.
-/
namespace HF.DataBlock

open HF.DataDict.Spec
open HF.DataDict hiding rename step run Op

variable {β α : Type}

/-! ### Specification -/

/-- A block knows the names of all dimensions of all its variables. -/
def BlockKnows (heap : List (Arr β α)) (blk : RBlock β) : Prop :=
  ∀ p ∈ blk.vars, ∃ x, heap[p.2]? = some x ∧ ∀ d ∈ x.dims, d.name ∈ blk.ivars.map Prod.fst

/-- All blocks do. -/
def Known (w : World β α) : Prop := ∀ blk ∈ w.blocks, BlockKnows w.heap blk

/-- No array object of block `b` is also in another block. -/
def Alone (w : World β α) (b : Nat) : Prop :=
  ∀ blk, w.blocks[b]? = some blk → ∀ b' blk', b' ≠ b → w.blocks[b']? = some blk' →
    ∀ p ∈ blk.vars, ∀ p' ∈ blk'.vars, p.2 ≠ p'.2

/-- The operations that give dimensions of variables a new name. -/
def Renames : Op β α → Option Nat
  | .rename b _ _ => some b
  | .replaceDim b old new => if old.name = new.name then none else some b
  | _ => none

/-- The operations that put an existing array object into a block. -/
def Sharing : Op β α → Prop
  | .share _ _ _ => True
  | .keep _ _ => True
  | _ => False

/-! ### Preservation -/

/-- `heap'` has the arrays of `heap`, with the same dimension names, and maybe more. -/
def NamesSame (heap heap' : List (Arr β α)) : Prop :=
  ∀ (r : Nat) (x : Arr β α), heap[r]? = some x → ∃ x' : Arr β α, heap'[r]? = some x' ∧ x'.dims.map Dim.name = x.dims.map Dim.name

theorem NamesSame.refl (heap : List (Arr β α)) : NamesSame heap heap := fun _ x h => ⟨x, h, rfl⟩

theorem BlockKnows.mono {heap heap' : List (Arr β α)} {blk blk' : RBlock β}
    (h : BlockKnows heap blk) (hs : NamesSame heap heap')
    (hv : ∀ p ∈ blk'.vars, ∃ q ∈ blk.vars, q.2 = p.2)
    (hi : ∀ k ∈ keys blk.ivars, k ∈ keys blk'.ivars) : BlockKnows heap' blk' := by
  intro p hp
  obtain ⟨q, hq, hqp⟩ := hv p hp
  obtain ⟨x, hx, hd⟩ := h q hq
  obtain ⟨x', hx', hn⟩ := hs _ _ hx
  refine ⟨x', hqp ▸ hx', ?_⟩
  intro d hdm
  have : d.name ∈ x.dims.map Dim.name := hn ▸ List.mem_map.2 ⟨d, hdm, rfl⟩
  obtain ⟨e, he, hen⟩ := List.mem_map.1 this
  exact hi _ (hen ▸ hd e he)

theorem mem_set_cases {γ : Type} {l : List γ} {b : Nat} {x y : γ} (h : y ∈ l.set b x) :
    y = x ∨ y ∈ l := by
  rcases List.mem_or_eq_of_mem_set h with h | h
  · exact Or.inr h
  · exact Or.inl h

theorem Known.put {w : World β α} {heap' : List (Arr β α)} {b : Nat} {blk' : RBlock β}
    (h : Known w) (hs : NamesSame w.heap heap') (hb : BlockKnows heap' blk') :
    Known (⟨heap', w.blocks.set b blk'⟩ : World β α) := by
  intro c hc
  rcases mem_set_cases hc with rfl | hc
  · exact hb
  · exact (h c hc).mono hs (fun p hp => ⟨p, hp, rfl⟩) fun _ hk => hk

theorem namesSame_set {heap : List (Arr β α)} {r : Nat} {x x' : Arr β α} (hx : heap[r]? = some x)
    (hd : x'.dims = x.dims) : NamesSame heap (heap.set r x') := by
  intro s y hy
  by_cases e : r = s
  · subst e
    rw [hx] at hy
    simp only [Option.some.injEq] at hy; subst hy
    have hlt : r < heap.length := by
      rw [List.getElem?_eq_some_iff] at hx; exact hx.1
    exact ⟨x', by rw [List.getElem?_set_self hlt], by rw [hd]⟩
  · exact ⟨y, by rw [List.getElem?_set_ne e]; exact hy, rfl⟩

theorem namesSame_relabel (old new : Dim β) (hn : new.name = old.name) (refs : List Nat)
    (heap : List (Arr β α)) : NamesSame heap (relabel old new refs heap) := by
  intro r x hx
  rw [getElem?_relabel]
  split
  · refine ⟨replaceDimArr old new x, by rw [hx]; rfl, ?_⟩
    simp only [replaceDimArr, List.map_map]
    apply List.map_congr_left
    intro d _
    simp only [Function.comp]
    by_cases h : old.name = d.name <;> simp [h, hn]
  · exact ⟨x, hx, rfl⟩

theorem setElem_dims {x x' v : Arr β α} {i j : Int} (h : setElem x i j v = .ok x') :
    x'.dims = x.dims := by
  unfold setElem at h
  repeat' split at h
  all_goals first | simp at h | skip
  rw [← h]

theorem known_setArr (env : Env β α) (w : World β α) (h : Known w) (b : Nat) (key : String)
    (r : Nat) : Known (wSetArr env w b key r).1 := by
  unfold wSetArr
  cases hb : w.blocks[b]? with
  | none => exact h
  | some blk =>
    cases hr : w.heap[r]? with
    | none => exact h
    | some v =>
      have hblk : BlockKnows w.heap blk := h blk (List.mem_of_getElem? hb)
      simp only
      -- the block with the new xname
      have hx : ∀ xn, Known (putBlock w b { blk with xname := xn }) := fun xn =>
        h.put (NamesSame.refl _) (hblk.mono (NamesSame.refl _) (fun p hp => ⟨p, hp, rfl⟩)
          fun _ hk => hk)
      cases elemTarget (member blk.vars) key v with
      | some t =>
        obtain ⟨m, i, j⟩ := t
        simp only
        cases lookup blk.vars m with
        | none => exact hx _
        | some rx =>
          simp only [putBlock]
          cases hrx : w.heap[rx]? with
          | none => exact hx _
          | some x =>
            simp only
            cases hse : setElem x i j v with
            | error e => exact hx _
            | ok x' =>
              have hs := namesSame_set hrx (setElem_dims hse)
              exact h.put hs (hblk.mono hs (fun p hp => ⟨p, hp, rfl⟩) fun _ hk => hk)
      | none =>
        simp only
        cases hiv : lookup blk.ivars key with
        | some old =>
          simp only
          by_cases hl : v.dims.length = 1
          · simp only [hl, if_true]
            cases hri : renameIvar blk.ivars old
                (Dim.copyFrom env.dfltDim old.cls old (data := some (toCoords env v))) with
            | none => exact hx _
            | some iv =>
              have hs := namesSame_relabel old
                (Dim.copyFrom env.dfltDim old.cls old (data := some (toCoords env v))) rfl
                (blk.vars.map Prod.snd) w.heap
              simp only [putBlock, List.set_set]
              refine h.put hs (hblk.mono hs (fun p hp => ⟨p, hp, rfl⟩) ?_)
              intro k hk
              rw [mem_keys_addDims, mem_keys_renameIvar hri]
              by_cases e : k = old.name
              · exact Or.inl (Or.inl e)
              · exact Or.inl (Or.inr ⟨hk, e⟩)
          · simp only [hl, if_false]; exact hx _
        | none =>
          simp only [putBlock, List.set_set]
          refine h.put (NamesSame.refl _) ?_
          intro p hp
          rcases mem_assign hp with hp | rfl
          · obtain ⟨x, h1, h2⟩ := hblk p hp
            exact ⟨x, h1, fun d hd => (mem_keys_addDims _ _ _).2 (Or.inl (h2 d hd))⟩
          · exact ⟨v, hr, fun d hd => (mem_keys_addDims _ _ _).2 (Or.inr ⟨d, hd, rfl⟩)⟩

theorem namesSame_append (heap t : List (Arr β α)) : NamesSame heap (heap ++ t) := by
  intro r x hx
  have hlt : r < heap.length := by
    rw [List.getElem?_eq_some_iff] at hx; exact hx.1
  exact ⟨x, by rw [List.getElem?_append_left hlt]; exact hx, rfl⟩

theorem known_heap {w : World β α} {heap' : List (Arr β α)} (h : Known w)
    (hs : NamesSame w.heap heap') : Known ({ w with heap := heap' } : World β α) := fun c hc =>
  (h c hc).mono hs (fun p hp => ⟨p, hp, rfl⟩) fun _ hk => hk

theorem known_setNew (env : Env β α) (w : World β α) (h : Known w) (b : Nat) (key : String)
    (v : Arr β α) : Known (wSetNew env w b key v).1 :=
  known_setArr env _ (known_heap h (namesSame_append _ _)) b key _

theorem known_newBlock {w : World β α} (h : Known w) (blk : RBlock β)
    (hb : BlockKnows w.heap blk) : Known ({ w with blocks := w.blocks ++ [blk] } : World β α) := by
  intro c hc
  rcases List.mem_append.1 hc with hc | hc
  · exact h c hc
  · rw [List.mem_singleton.1 hc]; exact hb

theorem known_keep (env : Env β α) (src : RBlock β) (b : Nat) (w : World β α) (h : Known w)
    (names : List String) : Known (wKeep env src b w names).1 := by
  induction names generalizing w with
  | nil => exact h
  | cons n ns ih =>
    simp only [wKeep]
    cases lookup src.ivars n with
    | some d =>
      have h1 := known_setNew env w h b n (ofDim env d)
      simp only
      generalize wSetNew env w b n (ofDim env d) = y at h1 ⊢
      obtain ⟨w', e⟩ := y
      cases e with
      | error e => exact h1
      | ok _ => exact ih w' h1
    | none =>
      simp only
      cases lookup src.vars n with
      | none => exact ih w h
      | some r =>
        have h1 := known_setArr env w h b n r
        simp only
        generalize wSetArr env w b n r = y at h1 ⊢
        obtain ⟨w', e⟩ := y
        cases e with
        | error e => exact h1
        | ok _ => exact ih w' h1

/-- What `copyVars` produces: the old heap is a prefix, each new reference is new and points to
an array equal to that of the variable copied. -/
theorem copyVars_spec (heap : List (Arr β α)) (m : OMap String Nat) :
    (∃ t, (copyVars heap m).1 = heap ++ t) ∧
    (∀ p ∈ (copyVars heap m).2, heap.length ≤ p.2) ∧
    (∀ p ∈ (copyVars heap m).2, ∃ q ∈ m, q.1 = p.1 ∧
      (copyVars heap m).1[p.2]? = (copyVars heap m).1[q.2]?
      ∧ ((copyVars heap m).1[p.2]?).isSome) := by
  induction m generalizing heap with
  | nil => exact ⟨⟨[], by simp [copyVars]⟩, by simp [copyVars], by simp [copyVars]⟩
  | cons q t ih =>
    obtain ⟨k, r⟩ := q
    simp only [copyVars]
    cases hr : heap[r]? with
    | none =>
      obtain ⟨h1, h2, h3⟩ := ih heap
      refine ⟨h1, h2, ?_⟩
      intro p hp
      obtain ⟨q, hq, hq'⟩ := h3 p hp
      exact ⟨q, by simp [hq], hq'⟩
    | some x =>
      obtain ⟨⟨t', h1⟩, h2, h3⟩ := ih (heap ++ [x])
      have hlt : r < heap.length := by
        rw [List.getElem?_eq_some_iff] at hr; exact hr.1
      simp only
      refine ⟨⟨[x] ++ t', by rw [h1]; simp⟩, ?_, ?_⟩
      · intro p hp
        rcases List.mem_cons.1 hp with rfl | hp
        · exact Nat.le_refl _
        · have := h2 p hp
          simp at this; omega
      · intro p hp
        rcases List.mem_cons.1 hp with rfl | hp
        · refine ⟨(k, r), by simp, rfl, ?_, ?_⟩
          · rw [h1]
            rw [List.append_assoc, List.getElem?_append_right (by simp),
              List.getElem?_append_left hlt, hr]; simp
          · rw [h1]; simp
        · obtain ⟨q, hq, hq'⟩ := h3 p hp
          exact ⟨q, by simp [hq], hq'⟩

theorem known_replaceDim (w w' : World β α) (h : Known w) (b : Nat) (blk : RBlock β)
    (hb : w.blocks[b]? = some blk) (old new : Dim β) (ha : old.name = new.name ∨ Alone w b)
    (hw : wReplaceDim w b blk old new = some w') : Known w' := by
  unfold wReplaceDim at hw
  cases hri : renameIvar blk.ivars old new with
  | none => rw [hri] at hw; simp at hw
  | some iv =>
    rw [hri] at hw
    simp only [Option.some.injEq] at hw
    subst hw
    have hblk : BlockKnows w.heap blk := h blk (List.mem_of_getElem? hb)
    -- the block itself
    have own : BlockKnows (relabel old new (blk.vars.map Prod.snd) w.heap) { blk with ivars := iv } := by
      intro p hp
      obtain ⟨x, hx, hd⟩ := hblk p hp
      have hm : p.2 ∈ blk.vars.map Prod.snd := List.mem_map.2 ⟨p, hp, rfl⟩
      refine ⟨replaceDimArr old new x, by rw [getElem?_relabel, if_pos hm, hx]; rfl, ?_⟩
      intro d hdm
      refine (mem_keys_renameIvar hri _).2 ?_
      simp only [replaceDimArr, List.mem_map] at hdm
      obtain ⟨e, he, rfl⟩ := hdm
      by_cases hn : old.name = e.name
      · simp [hn]
      · rw [if_neg hn]; exact Or.inr ⟨hd e he, fun h => hn h.symm⟩
    rcases ha with hn | ha
    · exact h.put (namesSame_relabel old new hn.symm _ _) own
    · intro c hc
      obtain ⟨n, hn, hcn⟩ := List.getElem_of_mem hc
      simp only at hn hcn
      by_cases e : b = n
      · subst e
        rw [List.getElem_set_self] at hcn
        rw [← hcn]; exact own
      · rw [List.getElem_set_ne e] at hcn
        have hn' : n < w.blocks.length := by simpa using hn
        have hcn' : w.blocks[n]? = some c := by rw [List.getElem?_eq_getElem hn', hcn]
        intro p hp
        obtain ⟨x, hx, hd⟩ := h c (List.mem_of_getElem? hcn') p hp
        have hm : p.2 ∉ blk.vars.map Prod.snd := by
          intro hm
          obtain ⟨q, hq, hqp⟩ := List.mem_map.1 hm
          exact ha blk hb n c (fun e' => e e'.symm) hcn' q hq p hp hqp
        exact ⟨x, by rw [getElem?_relabel, if_neg hm, hx], hd⟩

/-- C03, one step: every operation keeps the invariant, except that giving a dimension a new name
needs that the block shares no array object with another block. -/
theorem C03_step (env : Env β α) (w : World β α) (h : Known w) (op : Op β α)
    (ha : ∀ b, Renames op = some b → Alone w b) : Known (wstep env w op).1 := by
  cases op with
  | new => exact known_newBlock h _ (by intro p hp; simp at hp)
  | set b key v => exact known_setNew env w h b key v
  | share b key r => exact known_setArr env w h b key r
  | setDim b key d =>
    simp only [wstep]
    cases hb : w.blocks[b]? with
    | none => exact h
    | some blk =>
      refine h.put (NamesSame.refl _) ((h blk (List.mem_of_getElem? hb)).mono (NamesSame.refl _)
        (fun p hp => ⟨p, hp, rfl⟩) fun k hk => (mem_keys_assign _ _ _ _).2 (Or.inr hk))
  | del b key =>
    simp only [wstep]
    cases hb : w.blocks[b]? with
    | none => exact h
    | some blk =>
      simp only
      split
      · exact h.put (NamesSame.refl _) ((h blk (List.mem_of_getElem? hb)).mono (NamesSame.refl _)
          (fun p hp => ⟨p, (List.mem_filter.1 hp).1, rfl⟩) fun k hk => hk)
      · exact h
  | rename b old new =>
    simp only [wstep]
    cases hb : w.blocks[b]? with
    | none => exact h
    | some blk =>
      simp only
      cases hl : lookup blk.ivars old with
      | some d =>
        simp only
        cases hr : wReplaceDim w b blk d (Dim.copyFrom env.dfltDim d.cls d (name := some new)) with
        | none => exact h
        | some w' => exact known_replaceDim w w' h b blk hb d _ (Or.inr (ha b rfl)) hr
      | none =>
        simp only
        cases hv : lookup blk.vars old with
        | none => exact h
        | some r =>
          refine h.put (NamesSame.refl _) ((h blk (List.mem_of_getElem? hb)).mono (NamesSame.refl _)
            (fun p hp => ?_) fun k hk => hk)
          rcases mem_rename hp with hp | hp
          · exact ⟨p, hp, rfl⟩
          · exact ⟨(old, r), lookup_mem hv, hp.symm⟩
  | replaceDim b old new =>
    simp only [wstep]
    cases hb : w.blocks[b]? with
    | none => exact h
    | some blk =>
      simp only
      cases hr : wReplaceDim w b blk old new with
      | none => exact h
      | some w' =>
        refine known_replaceDim w w' h b blk hb old new ?_ hr
        by_cases e : old.name = new.name
        · exact Or.inl e
        · exact Or.inr (ha b (by simp [Renames, e]))
  | copy b =>
    simp only [wstep]
    cases hb : w.blocks[b]? with
    | none => exact h
    | some blk =>
      obtain ⟨⟨t, h1⟩, h2, h3⟩ := copyVars_spec w.heap blk.vars
      have hs : NamesSame w.heap (copyVars w.heap blk.vars).1 := by
        rw [h1]; exact namesSame_append _ _
      refine known_newBlock (known_heap h hs) _ ?_
      intro p hp
      obtain ⟨q, hq, -, hpq, -⟩ := h3 p hp
      obtain ⟨x, hx, hd⟩ := ((h blk (List.mem_of_getElem? hb)).mono hs
        (fun p hp => ⟨p, hp, rfl⟩) (fun k hk => hk) : BlockKnows _ blk) q hq
      exact ⟨x, by rw [hpq]; exact hx, hd⟩
  | keep b names =>
    simp only [wstep]
    cases hb : w.blocks[b]? with
    | none => exact h
    | some blk =>
      exact known_keep env blk _ _ (known_newBlock h _ (by intro p hp; simp at hp)) names

/-- Histories in which a dimension is only given a new name in a block that shares no array
object with another block at that moment. -/
def Careful (env : Env β α) : World β α → List (Op β α) → Prop
  | _, [] => True
  | w, op :: ops => (∀ b, Renames op = some b → Alone w b) ∧ Careful env (wstep env w op).1 ops

/-- C03: for every such history of assignments (of arrays or dimensions), deletions, renames,
copies and selections on any number of initially empty blocks, also failing ones, every
dimension name of every stored variable is a key of the block's `ivardata`. -/
theorem C03_known_careful (env : Env β α) (ops : List (Op β α)) (hc : Careful env {} ops) :
    Known (wrun env {} ops) := by
  have key : ∀ (ops : List (Op β α)) (w : World β α), Known w → Careful env w ops →
      Known (wrun env w ops) := by
    intro ops
    induction ops with
    | nil => intro w h _; exact h
    | cons op ops ih => intro w h hc; exact ih _ (C03_step env w h op hc.1) hc.2
  exact key ops {} (by intro blk hb; simp at hb) hc

/-! ### Histories without sharing -/

/-- Every reference of block `b` after the step is one of block `b` before, or satisfies `F b`. -/
def RefsFrom (F : Nat → Nat → Prop) (w w' : World β α) : Prop :=
  ∀ (b : Nat) (blk' : RBlock β), w'.blocks[b]? = some blk' → ∀ p' ∈ blk'.vars,
    (∃ blk, w.blocks[b]? = some blk ∧ ∃ q ∈ blk.vars, q.2 = p'.2) ∨ F b p'.2

theorem RefsFrom.refl (F : Nat → Nat → Prop) (w : World β α) : RefsFrom F w w :=
  fun _ blk' h p' hp => Or.inl ⟨blk', h, p', hp, rfl⟩

theorem refsFrom_set {F : Nat → Nat → Prop} {w : World β α} {heap' : List (Arr β α)} {b : Nat}
    {blk blk' : RBlock β} (hb : w.blocks[b]? = some blk)
    (hv : ∀ p ∈ blk'.vars, (∃ q ∈ blk.vars, q.2 = p.2) ∨ F b p.2) :
    RefsFrom F w (⟨heap', w.blocks.set b blk'⟩ : World β α) := by
  intro c cb hc p hp
  simp only at hc
  by_cases e : b = c
  · subst e
    have hlt : b < w.blocks.length := by
      rw [List.getElem?_eq_some_iff] at hb; exact hb.1
    rw [List.getElem?_set_self hlt] at hc
    simp only [Option.some.injEq] at hc
    subst hc
    rcases hv p hp with h | h
    · exact Or.inl ⟨blk, hb, h⟩
    · exact Or.inr h
  · rw [List.getElem?_set_ne e] at hc
    exact Or.inl ⟨cb, hc, p, hp, rfl⟩

theorem setArr_refs (env : Env β α) (w : World β α) (b : Nat) (key : String) (r : Nat) :
    RefsFrom (fun c s => c = b ∧ s = r) w (wSetArr env w b key r).1 := by
  unfold wSetArr
  cases hb : w.blocks[b]? with
  | none => exact RefsFrom.refl _ _
  | some blk =>
    cases hr : w.heap[r]? with
    | none => exact RefsFrom.refl _ _
    | some v =>
      have same : ∀ (heap' : List (Arr β α)) (iv : OMap String (Dim β)) (xn : Option String),
          RefsFrom (fun c s => c = b ∧ s = r) w
            (⟨heap', w.blocks.set b ⟨blk.vars, iv, xn⟩⟩ : World β α) := fun heap' iv xn =>
        refsFrom_set hb fun p hp => Or.inl ⟨p, hp, rfl⟩
      simp only
      cases elemTarget (member blk.vars) key v with
      | some t =>
        obtain ⟨m, i, j⟩ := t
        simp only
        cases lookup blk.vars m with
        | none => exact same _ _ _
        | some rx =>
          simp only [putBlock]
          cases hrx : w.heap[rx]? with
          | none => exact same _ _ _
          | some x =>
            simp only
            cases hse : setElem x i j v with
            | error e => exact same _ _ _
            | ok x' => exact same _ _ _
      | none =>
        simp only
        cases hiv : lookup blk.ivars key with
        | some old =>
          simp only
          by_cases hl : v.dims.length = 1
          · simp only [hl, if_true]
            cases hri : renameIvar blk.ivars old
                (Dim.copyFrom env.dfltDim old.cls old (data := some (toCoords env v))) with
            | none => exact same _ _ _
            | some iv => simp only [putBlock, List.set_set]; exact same _ _ _
          · simp only [hl, if_false]; exact same _ _ _
        | none =>
          simp only [putBlock, List.set_set]
          refine refsFrom_set hb ?_
          intro p hp
          rcases mem_assign hp with hp | rfl
          · exact Or.inl ⟨p, hp, rfl⟩
          · exact Or.inr ⟨rfl, rfl⟩

theorem replaceDim_refs (w w' : World β α) (b : Nat) (blk : RBlock β)
    (hb : w.blocks[b]? = some blk) (old new : Dim β) (F : Nat → Nat → Prop)
    (hw : wReplaceDim w b blk old new = some w') : RefsFrom F w w' := by
  unfold wReplaceDim at hw
  cases hri : renameIvar blk.ivars old new with
  | none => rw [hri] at hw; simp at hw
  | some iv =>
    rw [hri] at hw
    simp only [Option.some.injEq] at hw
    subst hw
    exact refsFrom_set hb fun p hp => Or.inl ⟨p, hp, rfl⟩

theorem refsFrom_newBlock {F : Nat → Nat → Prop} {w : World β α} {heap' : List (Arr β α)}
    {blk' : RBlock β} (hv : ∀ p ∈ blk'.vars, F w.blocks.length p.2) :
    RefsFrom F w (⟨heap', w.blocks ++ [blk']⟩ : World β α) := by
  intro c cb hc p hp
  simp only at hc
  by_cases e : c < w.blocks.length
  · rw [List.getElem?_append_left e] at hc
    exact Or.inl ⟨cb, hc, p, hp, rfl⟩
  · rw [List.getElem?_append_right (by omega)] at hc
    have hc' : c - w.blocks.length = 0 := by
      rw [List.getElem?_eq_some_iff] at hc
      have := hc.1
      simp at this
      omega
    rw [hc'] at hc
    simp only [List.getElem?_cons_zero, Option.some.injEq] at hc
    subst hc
    have : c = w.blocks.length := by omega
    rw [this]; exact Or.inr (hv p hp)

/-- New references all belong to one block. -/
theorem nonsharing_refs (env : Env β α) (w : World β α) (op : Op β α) (hs : ¬ Sharing op) :
    ∃ b0, RefsFrom (fun b r => b = b0 ∧ w.heap.length ≤ r) w (wstep env w op).1 := by
  cases op with
  | new => exact ⟨0, refsFrom_newBlock (by simp)⟩
  | set b key v =>
    refine ⟨b, ?_⟩
    intro c blk' hc p hp
    rcases setArr_refs env { w with heap := w.heap ++ [v] } b key w.heap.length c blk' hc p hp
      with h | ⟨h1, h2⟩
    · exact Or.inl h
    · exact Or.inr ⟨h1, by omega⟩
  | share b key r => exact absurd trivial hs
  | keep b names => exact absurd trivial hs
  | setDim b key d =>
    refine ⟨0, ?_⟩
    simp only [wstep]
    cases hb : w.blocks[b]? with
    | none => exact RefsFrom.refl _ _
    | some blk => exact refsFrom_set hb fun p hp => Or.inl ⟨p, hp, rfl⟩
  | del b key =>
    refine ⟨0, ?_⟩
    simp only [wstep]
    cases hb : w.blocks[b]? with
    | none => exact RefsFrom.refl _ _
    | some blk =>
      simp only
      split
      · exact refsFrom_set hb fun p hp => Or.inl ⟨p, (List.mem_filter.1 hp).1, rfl⟩
      · exact RefsFrom.refl _ _
  | rename b old new =>
    refine ⟨0, ?_⟩
    simp only [wstep]
    cases hb : w.blocks[b]? with
    | none => exact RefsFrom.refl _ _
    | some blk =>
      simp only
      cases hl : lookup blk.ivars old with
      | some d =>
        simp only
        cases hr : wReplaceDim w b blk d (Dim.copyFrom env.dfltDim d.cls d (name := some new)) with
        | none => exact RefsFrom.refl _ _
        | some w' => exact replaceDim_refs w w' b blk hb d _ _ hr
      | none =>
        simp only
        cases hv : lookup blk.vars old with
        | none => exact RefsFrom.refl _ _
        | some r =>
          refine refsFrom_set hb fun p hp => Or.inl ?_
          rcases mem_rename hp with hp | hp
          · exact ⟨p, hp, rfl⟩
          · exact ⟨(old, r), lookup_mem hv, hp.symm⟩
  | replaceDim b old new =>
    refine ⟨0, ?_⟩
    simp only [wstep]
    cases hb : w.blocks[b]? with
    | none => exact RefsFrom.refl _ _
    | some blk =>
      simp only
      cases hr : wReplaceDim w b blk old new with
      | none => exact RefsFrom.refl _ _
      | some w' => exact replaceDim_refs w w' b blk hb old new _ hr
  | copy b =>
    refine ⟨w.blocks.length, ?_⟩
    simp only [wstep]
    cases hb : w.blocks[b]? with
    | none => exact RefsFrom.refl _ _
    | some blk =>
      exact refsFrom_newBlock fun p hp => ⟨rfl, (copyVars_spec w.heap blk.vars).2.1 p hp⟩

theorem sep_step {w w' : World β α} (hk : Known w) (hs : ∀ b, Alone w b) (b0 : Nat)
    (hr : RefsFrom (fun b r => b = b0 ∧ w.heap.length ≤ r) w w') : ∀ b, Alone w' b := by
  have old : ∀ (b : Nat) (blk : RBlock β), w.blocks[b]? = some blk → ∀ q ∈ blk.vars,
      q.2 < w.heap.length := by
    intro b blk hb q hq
    obtain ⟨x, hx, _⟩ := hk blk (List.mem_of_getElem? hb) q hq
    rw [List.getElem?_eq_some_iff] at hx; exact hx.1
  intro b blk hb b' blk' hne hb' p hp p' hp' e
  rcases hr b blk hb p hp with ⟨ob, hob, q, hq, hqp⟩ | ⟨h1, h2⟩
  · rcases hr b' blk' hb' p' hp' with ⟨ob', hob', q', hq', hqp'⟩ | ⟨h1', h2'⟩
    · exact hs b ob hob b' ob' hne hob' q hq q' hq' (by omega)
    · have := old b ob hob q hq; omega
  · rcases hr b' blk' hb' p' hp' with ⟨ob', hob', q', hq', hqp'⟩ | ⟨h1', h2'⟩
    · have := old b' ob' hob' q' hq'; omega
    · exact hne (h1'.trans h1.symm)

theorem careful_of_nonsharing (env : Env β α) (ops : List (Op β α))
    (h : ∀ op ∈ ops, ¬ Sharing op) (w : World β α) (hk : Known w) (hs : ∀ b, Alone w b) :
    Careful env w ops := by
  induction ops generalizing w with
  | nil => trivial
  | cons op ops ih =>
    refine ⟨fun b _ => hs b, ih (fun o ho => h o (by simp [ho])) _
      (C03_step env w hk op fun b _ => hs b) ?_⟩
    obtain ⟨b0, hr⟩ := nonsharing_refs env w op (h op (by simp))
    exact sep_step hk hs b0 hr

/-- C03: after any history of assignments of new arrays or of dimensions, deletions, renames,
replacements of dimensions and copies, on any number of blocks, every dimension name of every
stored variable is a key of its block's `ivardata`. -/
theorem C03_known (env : Env β α) (ops : List (Op β α)) (h : ∀ op ∈ ops, ¬ Sharing op) :
    Known (wrun env {} ops) := by
  apply C03_known_careful
  apply careful_of_nonsharing env ops h
  · intro blk hb; simp at hb
  · intro b blk hb; simp at hb

/-! ### Reading back -/

/-- The variable is not redirected: its name is not that of a dimension of the block or of the
array, and not that of an element of a stored variable. -/
structure Plain (blk : RBlock β) (key : String) (v : Arr β α) : Prop where
  ivar : key ∉ blk.ivars.map Prod.fst
  own : ∀ d ∈ v.dims, d.name ≠ key
  elem : ∀ m i j, isMatrixName key = some (m, i, j) → m ∈ blk.vars.map Prod.fst → ismatrix v = true

theorem elemTarget_plain {blk : RBlock β} {key : String} {v : Arr β α} (h : Plain blk key v) :
    elemTarget (member blk.vars) key v = none := by
  unfold elemTarget
  cases hm : isMatrixName key with
  | none => rfl
  | some t =>
    obtain ⟨m, i, j⟩ := t
    simp only
    by_cases hmem : member blk.vars m = true
    · have := h.elem m i j hm ((member_iff blk.vars m).1 hmem)
      simp [this]
    · simp [hmem]

theorem getitem_var (env : Env β α) (b : Block β α) (key : String) (a : Arr β α)
    (hi : key ∉ keys b.ivars) (hv : lookup b.vars key = some a) : getitem env b key = .ok a := by
  have : lookup b.ivars key = none := (lookup_none_iff' _ _).2 hi
  simp [getitem, this, hv]

theorem lookup_filterMap {V W : Type} (f : V → Option W) (m : OMap String V) (k : String) (v : V)
    (w : W) (h : lookup m k = some v) (hf : f v = some w) :
    lookup (m.filterMap fun p => (f p.2).map fun x => (p.1, x)) k = some w := by
  induction m with
  | nil => simp [lookup] at h
  | cons p t ih =>
    rw [lookup_cons] at h
    by_cases e : p.1 = k
    · rw [if_pos e] at h
      simp only [Option.some.injEq] at h
      rw [List.filterMap_cons, h, hf]
      simp only [Option.map_some]
      rw [lookup_cons, if_pos e]
    · rw [if_neg e] at h
      rw [List.filterMap_cons]
      cases f p.2 with
      | none => exact ih h
      | some y => simp only [Option.map_some]; rw [lookup_cons, if_neg e]; exact ih h

/-- C03: reading back a variable just assigned returns it, unless its name is that of a
dimension or of a matrix element. -/
theorem C03_read_back (env : Env β α) (w : World β α) (b : Nat) (blk : RBlock β)
    (hb : w.blocks[b]? = some blk) (key : String) (v : Arr β α) (hp : Plain blk key v) :
    (wstep env w (.set b key v)).2 = .ok () ∧
    wGetitem env (wstep env w (.set b key v)).1 b key = .ok v := by
  have hi : lookup blk.ivars key = none := (lookup_none_iff' _ _).2 hp.ivar
  have hlt : b < w.blocks.length := by
    rw [List.getElem?_eq_some_iff] at hb; exact hb.1
  simp only [wstep, wSetNew, wSetArr, hb]
  rw [List.getElem?_append_right (Nat.le_refl _)]
  simp only [Nat.sub_self, List.getElem?_cons_zero, putBlock, elemTarget_plain hp, hi, List.set_set,
    true_and]
  simp only [wGetitem]
  rw [List.getElem?_set_self hlt]
  simp only
  apply getitem_var
  · simp only [keys, mem_keys_addDims, not_or]
    exact ⟨hp.ivar, fun ⟨d, hd, hn⟩ => hp.own d hd hn⟩
  · apply lookup_filterMap (fun r => (w.heap ++ [v])[r]?) _ _ w.heap.length
    · rw [lookup_assign, if_pos rfl]
    · simp

/-- C03: ... and every other variable reads as before, unless its name is that of a dimension. -/
theorem C03_read_others (env : Env β α) (w : World β α) (b : Nat) (blk : RBlock β)
    (hb : w.blocks[b]? = some blk) (key : String) (v : Arr β α) (hp : Plain blk key v)
    (k : String) (hk : k ≠ key) (r : Nat) (x : Arr β α) (hr : lookup blk.vars k = some r)
    (hx : w.heap[r]? = some x) (hki : k ∉ blk.ivars.map Prod.fst) (hkd : ∀ d ∈ v.dims, d.name ≠ k) :
    wGetitem env w b k = .ok x ∧ wGetitem env (wstep env w (.set b key v)).1 b k = .ok x := by
  have hi : lookup blk.ivars key = none := (lookup_none_iff' _ _).2 hp.ivar
  have hlt : b < w.blocks.length := by
    rw [List.getElem?_eq_some_iff] at hb; exact hb.1
  have hrlt : r < w.heap.length := by
    rw [List.getElem?_eq_some_iff] at hx; exact hx.1
  constructor
  · simp only [wGetitem, hb]
    exact getitem_var _ _ _ _ hki (lookup_filterMap (fun r => w.heap[r]?) _ _ r _ hr hx)
  simp only [wstep, wSetNew, wSetArr, hb]
  rw [List.getElem?_append_right (Nat.le_refl _)]
  simp only [Nat.sub_self, List.getElem?_cons_zero, putBlock, elemTarget_plain hp, hi, List.set_set]
  simp only [wGetitem]
  rw [List.getElem?_set_self hlt]
  simp only
  apply getitem_var
  · simp only [keys, mem_keys_addDims, not_or]
    exact ⟨hki, fun ⟨d, hd, hn⟩ => hkd d hd hn⟩
  · apply lookup_filterMap (fun r => (w.heap ++ [v])[r]?) _ _ r
    · rw [lookup_assign, if_neg hk]; exact hr
    · rw [List.getElem?_append_left hrlt]; exact hx

/-! ### The name of the x axis -/

/-- C45: from an empty block, after assigning any number of new arrays (with at least one
dimension, under any names, even if the assignments fail) the block has an x axis iff their
number is odd. -/
theorem C45_xname_toggles (env : Env β α) (l : List (String × Arr β α))
    (hd : ∀ p ∈ l, p.2.dims ≠ []) :
    ∀ w : World β α, ∀ blk, w.blocks[0]? = some blk →
    ∃ blk', (wrun env w (l.map fun p => .set 0 p.1 p.2)).blocks[0]? = some blk' ∧
      (blk'.xname.isSome ↔ (blk.xname.isSome ↔ l.length % 2 = 0)) := by
  induction l with
  | nil => intro w blk hb; exact ⟨blk, hb, by simp⟩
  | cons p l ih =>
    intro w blk hb
    have hlt : 0 < w.blocks.length := by
      rw [List.getElem?_eq_some_iff] at hb; exact hb.1
    have step : ∃ blk1, (wstep env w (.set 0 p.1 p.2)).1.blocks[0]? = some blk1 ∧
        blk1.xname = nextXname blk.xname p.2.dims := by
      simp only [wstep, wSetNew, wSetArr, hb]
      rw [List.getElem?_append_right (Nat.le_refl _)]
      simp only [Nat.sub_self, List.getElem?_cons_zero, putBlock]
      have g : ∀ c : RBlock β, (w.blocks.set 0 c)[0]? = some c := fun c =>
        List.getElem?_set_self hlt
      repeat' split
      all_goals simp only [putArr, List.set_set, g]
      all_goals exact ⟨_, rfl, rfl⟩
    obtain ⟨blk1, h1, h2⟩ := step
    obtain ⟨blk', h3, h4⟩ := ih (fun q hq => hd q (by simp [hq])) _ blk1 h1
    refine ⟨blk', h3, ?_⟩
    have h5 : blk1.xname.isSome ↔ ¬ blk.xname.isSome := by
      rw [h2]
      have := hd p (by simp)
      cases hx : blk.xname with
      | none =>
        cases hdd : p.2.dims with
        | nil => exact absurd hdd this
        | cons d t => simp [nextXname]
      | some x => simp [nextXname]
    rw [h4, h5]
    simp only [List.length_cons]
    have : (l.length + 1) % 2 = 0 ↔ ¬ l.length % 2 = 0 := by omega
    rw [this]; tauto

end HF.DataBlock
