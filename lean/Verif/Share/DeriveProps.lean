import Verif.Share.ViewProps
/-
C93: `keep_variables` and `filter` leave everything as it is, provided that no variable has the
name of an element of another variable, or of a dimension.
-/
namespace HF.Share

open HF.DataDict.Spec
open HF.DataBlock

variable {β α : Type}

/-- Everything of `m` is in `m'` as it was. -/
structure Ext (m m' : Mem β α) : Prop where
  bufs : m.bufs <+: m'.bufs
  objs : m.objs <+: m'.objs
  comms : m.comms <+: m'.comms
  blks : ∀ i < m.blks.length, m'.blks[i]? = m.blks[i]?

theorem Ext.refl (m : Mem β α) : Ext m m :=
  ⟨List.prefix_refl _, List.prefix_refl _, List.prefix_refl _, fun _ _ => rfl⟩

theorem prefix_get {δ : Type} {l k : List δ} (h : l <+: k) {i : Nat} (hi : i < l.length) :
    k[i]? = l[i]? := by
  obtain ⟨t, rfl⟩ := h
  rw [List.getElem?_append_left hi]

theorem Ext.see {m m' : Mem β α} (h : Ext m m') (hw : Wf m) (junk : α) :
    (∀ b < m.blks.length, see junk m' b = see junk m b) ∧
    (∀ r < m.objs.length, seeObj junk m' r = seeObj junk m r) := by
  have ho : ∀ r < m.objs.length, seeObj junk m' r = seeObj junk m r := by
    intro r hr
    simp only [seeObj, prefix_get h.objs hr, List.getElem?_eq_getElem hr, Option.map_some, Obj.val]
    rw [prefix_get h.bufs (hw.obj r _ (List.getElem?_eq_getElem hr))]
  refine ⟨fun b hb => ?_, ho⟩
  have hg := List.getElem?_eq_getElem hb
  simp only [Share.see, h.blks b hb, hg, Option.map_some, Option.some.injEq, Seen.mk.injEq, true_and]
  constructor
  · apply List.map_congr_left
    intro p hp
    rw [ho p.2 (hw.vars b _ hg p hp)]
  · cases hc : m.blks[b].comm with
    | none => rfl
    | some c => exact prefix_get h.comms (hw.comm b _ hg c hc)

/-- A value stored under a name which is neither that of a dimension nor that of an element of a
variable. -/
theorem setVar_plain (env : Env β α) (m : Mem β α) (b r : Nat) (key : String) (blk : Blk β)
    (o : Obj β) (hb : m.blks[b]? = some blk) (ho : m.objs[r]? = some o)
    (hi : key ∉ keys blk.ivars)
    (he : ∀ x i j, isMatrixName key = some (x, i, j) → x ∉ keys blk.vars) :
    setVar env m b key r =
      (putBlk m b { blk with
        vars := assign blk.vars key r
        ivars := addDims blk.ivars o.pos.dims
        xname := nextXname blk.xname o.pos.dims }, .ok .nothing) := by
  have h1 : lookup blk.ivars key = none := (lookup_none_iff' _ _).2 hi
  have h2 : ∀ v : Arr β α, elemTarget (member blk.vars) key v = none := by
    intro v
    unfold elemTarget
    split
    · rename_i x i j hx
      have := he x i j hx
      have hm : member blk.vars x = false := by
        rw [member, List.any_eq_false]
        intro p hp hc
        simp only [decide_eq_true_eq] at hc
        exact this (hc ▸ List.mem_map_of_mem hp)
      simp [hm]
    · rfl
  have hlt := lt_of_getElem? hb
  simp only [setVar, hb, ho, h2, h1]
  have e : (o.val m.bufs env.junk).dims = o.pos.dims := rfl
  simp [putBlk, e]

theorem ext_putBlk {m0 m : Mem β α} (h : Ext m0 m) (b : Nat) (hb : m0.blks.length ≤ b) (blk : Blk β) :
    Ext m0 (putBlk m b blk) :=
  ⟨h.bufs, h.objs, h.comms, fun i hi => by
    simp only [putBlk]
    rw [List.getElem?_set_ne (by omega), h.blks i hi]⟩

theorem ext_addObj {m0 m : Mem β α} (h : Ext m0 m) (o : Obj β) : Ext m0 (addObj m o) :=
  ⟨h.bufs, h.objs.trans (List.prefix_append _ _), h.comms, h.blks⟩

theorem ext_addArr {m0 m : Mem β α} (h : Ext m0 m) (v : Arr β α) (u : Option String) (f : String) :
    Ext m0 (addArr m v u f) :=
  ⟨h.bufs.trans (List.prefix_append _ _), h.objs.trans (List.prefix_append _ _), h.comms, h.blks⟩

theorem getElem?_putBlk_self {m : Mem β α} {b : Nat} {blk : Blk β} (h : m.blks[b]? = some blk)
    (blk' : Blk β) : (putBlk m b blk').blks[b]? = some blk' := by
  have := lt_of_getElem? h
  simp [putBlk, this]

theorem mem_keys_assign' {δ : Type} {l : OMap String δ} {k n : String} {v : δ}
    (h : n ∈ keys (assign l k v)) : n ∈ keys l ∨ n = k := by
  by_cases e : n = k
  · exact Or.inr e
  · left
    have : (lookup (assign l k v) n).isSome := (lookup_isSome_iff _ _).2 h
    rw [lookup_assign, if_neg (by simpa using e)] at this
    exact (lookup_isSome_iff _ _).1 this

/-- The names of `keep_variables` are plain. -/
structure PlainNames (m : Mem β α) (src : Blk β) (names : List String) : Prop where
  /-- No dimension is asked for. -/
  noDim : ∀ n ∈ names, n ∉ keys src.ivars
  /-- The dims of the variables have other names. -/
  noDims : ∀ (q : String × Nat) (o : Obj β), q ∈ src.vars → m.objs[q.2]? = some o →
    ∀ d ∈ o.pos.dims, d.name ∉ names
  /-- No name is that of an element of another one. -/
  noElem : ∀ n ∈ names, ∀ x i j, isMatrixName n = some (x, i, j) → x ∉ names

theorem keepLoop_plain (env : Env β α) (m0 : Mem β α) (src : Blk β) (hsrc : ∀ q ∈ src.vars, q.2 < m0.objs.length)
    (all : List String) (hp : PlainNames m0 src all) (b : Nat) (hb : m0.blks.length ≤ b) (ns : List String) :
    ∀ (m : Mem β α) (blk : Blk β), Ext m0 m → (∀ n ∈ ns, n ∈ all) → m.blks[b]? = some blk →
      (∀ n ∈ keys blk.vars, n ∈ all) → (∀ n ∈ keys blk.ivars, n ∉ all) →
      Ext m0 (keepLoop env src b m ns).1 ∧ (keepLoop env src b m ns).2 = .ok (.blk b) ∧
      (keepLoop env src b m ns).1.objs = m.objs ∧
      ∃ blk', (keepLoop env src b m ns).1.blks[b]? = some blk' ∧ blk'.comm = blk.comm ∧
        ∀ n, lookup blk'.vars n =
          if n ∈ ns ∧ n ∈ keys src.vars then lookup src.vars n else lookup blk.vars n := by
  induction ns with
  | nil =>
    intro m blk h1 _ h3 _ _
    exact ⟨h1, rfl, rfl, blk, h3, rfl, fun n => by simp⟩
  | cons n ns ih =>
    intro m blk h1 h2 h3 h4 h5
    have hn := h2 n (by simp)
    have hd : lookup src.ivars n = none := (lookup_none_iff' _ _).2 (hp.noDim n hn)
    cases hv : lookup src.vars n with
    | none =>
      obtain ⟨k1, k2, k3, blk', k4, k5, k6⟩ := ih m blk h1 (fun x hx => h2 x (by simp [hx])) h3 h4 h5
      have hnk : n ∉ keys src.vars := (lookup_none_iff' _ _).1 hv
      simp only [keepLoop, keepOne, hd, hv]
      refine ⟨k1, k2, k3, blk', k4, k5, fun x => ?_⟩
      rw [k6]
      by_cases hx : x = n
      · subst hx; simp only [hnk, and_false, if_false]
      · simp only [List.mem_cons, hx, false_or]
    | some r =>
      have hmem : (n, r) ∈ src.vars := lookup_mem hv
      have hr := hsrc _ hmem
      have ho0 : m0.objs[r]? = some m0.objs[r] := List.getElem?_eq_getElem hr
      have ho : m.objs[r]? = some m0.objs[r] := by rw [prefix_get h1.objs hr, ho0]
      have hs := setVar_plain env m b r n blk _ h3 ho (fun hk => h5 n hk hn)
        (fun x i j hx hk => hp.noElem n hn x i j hx (h4 x hk))
      obtain ⟨k1, k2, k3, blk', k4, k5, k6⟩ := ih (putBlk m b _) _ (ext_putBlk h1 b hb _)
        (fun x hx => h2 x (by simp [hx])) (getElem?_putBlk_self h3
          { blk with
            vars := assign blk.vars n r
            ivars := addDims blk.ivars (m0.objs[r]).pos.dims
            xname := nextXname blk.xname (m0.objs[r]).pos.dims })
        (fun x hx => by
          rcases mem_keys_assign' hx with h | h
          · exact h4 x h
          · exact h ▸ hn)
        (fun x hx => by
          rcases (mem_keys_addDims _ _ _).1 hx with h | ⟨d, hd', rfl⟩
          · exact h5 x h
          · exact hp.noDims _ _ hmem ho0 d hd')
      simp only [keepLoop, keepOne, hd, hv, hs]
      refine ⟨k1, k2, k3, blk', k4, k5, fun x => ?_⟩
      rw [k6]
      have hnk : n ∈ keys src.vars := (lookup_isSome_iff _ _).1 (by rw [hv]; rfl)
      by_cases hx : x = n
      · subst hx
        simp only [hnk, List.mem_cons, true_or, and_self, if_true, and_true]
        split
        · rfl
        · rw [lookup_assign]; simp [hv]
      · have : lookup (assign blk.vars n r) x = lookup blk.vars x := by
          rw [lookup_assign, if_neg (by simpa using hx)]
        simp only [List.mem_cons, hx, false_or, this]

/-- C93: `keep_variables` for names which are neither those of dimensions nor of elements of
another of them changes nothing; the new block holds the same array objects. -/
theorem C93_keep [DecidableEq β] (env : Env β α) (m : Mem β α) (hw : Wf m) (b : Nat) (blk : Blk β)
    (hb : m.blks[b]? = some blk) (names : List String) (hp : PlainNames m blk names) :
    let m1 := (step env m (.keep b names)).1
    (step env m (.keep b names)).2 = .ok (.blk m.blks.length) ∧
    (∀ b' < m.blks.length, see env.junk m1 b' = see env.junk m b') ∧
    (∀ r < m.objs.length, seeObj env.junk m1 r = seeObj env.junk m r) ∧
    ∃ blk', m1.blks[m.blks.length]? = some blk' ∧ blk'.comm = none ∧
      ∀ n, lookup blk'.vars n = if n ∈ names then lookup blk.vars n else none := by
  have h := keepLoop_plain env m blk (hw.vars b blk hb) names hp m.blks.length (Nat.le_refl _) names
    { m with blks := m.blks ++ [{}] } {}
    ⟨List.prefix_refl _, List.prefix_refl _, List.prefix_refl _, fun i hi => by
      rw [List.getElem?_append_left hi]⟩ (fun _ h => h) (by simp) (by simp [keys]) (by simp [keys])
  obtain ⟨k1, k2, -, blk', k4, k5, k6⟩ := h
  simp only [step, hb]
  refine ⟨k2, (k1.see hw env.junk).1, (k1.see hw env.junk).2, blk', k4, k5, fun n => ?_⟩
  rw [k6]
  by_cases h1 : n ∈ names <;> by_cases h2 : n ∈ keys blk.vars
  · simp only [h1, h2, and_self, if_true]
  · have := (lookup_none_iff' blk.vars n).2 h2
    simp only [h1, h2, and_false, if_false, if_true, this]
    rfl
  · simp only [h1, false_and, if_false]
    rfl
  · simp only [h1, false_and, if_false]
    rfl

/-! ### filter -/

theorem mapM_some_mem {δ ε : Type} {f : δ → Option ε} : ∀ {l : List δ} {k : List ε},
    l.mapM f = some k → ∀ y ∈ k, ∃ x ∈ l, f x = some y
  | [], k, h => by simp at h; subst h; simp
  | a :: t, k, h => by
    rw [List.mapM_cons] at h
    cases ha : f a with
    | none => rw [ha] at h; cases h
    | some b =>
      rw [ha] at h
      cases ht : t.mapM f with
      | none => rw [ht] at h; cases h
      | some k' =>
        rw [ht] at h
        cases h
        intro y hy
        rcases List.mem_cons.1 hy with rfl | hy
        · exact ⟨a, by simp, ha⟩
        · obtain ⟨x, hx, hxy⟩ := mapM_some_mem ht y hy
          exact ⟨x, by simp [hx], hxy⟩

theorem transpose_dims_mem {x y : Arr β α} {order : List Nat} (h : x.transpose order = .ok y) :
    ∀ d ∈ y.dims, d ∈ x.dims := by
  unfold Arr.transpose at h
  simp only at h
  split at h
  · cases h
  · rename_i nd _
    split at h
    · cases h
    · rename_i dims hd
      unfold Arr.mk? at h
      split at h
      · cases h
        intro d hmem
        obtain ⟨i, -, hi⟩ := mapM_some_mem hd d hmem
        exact List.mem_of_getElem? hi
      · cases h

theorem filterArr_names [DecidableEq β] {lenient : Bool} {d new : Dim β} (hn : new.name = d.name)
    {mask : List Bool} {x u : Arr β α} (h : filterArr lenient d new mask x = .ok u) :
    ∀ e ∈ u.dims, ∃ e' ∈ x.dims, e'.name = e.name := by
  unfold filterArr at h
  split at h
  · cases h; exact fun e he => ⟨e, he, rfl⟩
  · rename_i i hi
    obtain ⟨p, e0, q, hx, -, he0⟩ := dimsIndex_some hi
    split at h
    · cases h
    · split at h
      · cases h
      · split at h
        · cases h
        · rename_i v hv
          have hvd : v.dims = new :: x.dims.eraseIdx i := by
            unfold Arr.mk? at hv
            split at hv <;> cases hv
            rfl
          unfold Arr.reorderDimensions at h
          split at h
          · cases h
          · split at h
            · cases h
            · intro e he
              have := transpose_dims_mem h e he
              rw [hvd] at this
              rcases List.mem_cons.1 this with rfl | hm
              · exact ⟨e0, by rw [hx]; simp, by rw [he0, hn]⟩
              · exact ⟨e, List.mem_of_mem_eraseIdx hm, rfl⟩

theorem filterLoop_plain [DecidableEq β] (env : Env β α) (lenient : Bool) (d new : Dim β)
    (hn : new.name = d.name) (mask : List Bool) (m0 : Mem β α) (src : Blk β)
    (hsrc : ∀ q ∈ src.vars, q.2 < m0.objs.length)
    (hd : ∀ (q : String × Nat) (o : Obj β), q ∈ src.vars → m0.objs[q.2]? = some o →
      ∀ e ∈ o.pos.dims, e.name ∉ keys src.vars)
    (he : ∀ n ∈ keys src.vars, ∀ x i j, isMatrixName n = some (x, i, j) → x ∉ keys src.vars)
    (b : Nat) (hb : m0.blks.length ≤ b) (l : OMap String Nat) :
    ∀ (m : Mem β α) (blk : Blk β), Ext m0 m → (∀ q ∈ l, q ∈ src.vars) → m.blks[b]? = some blk →
      (∀ n ∈ keys blk.vars, n ∈ keys src.vars) → (∀ n ∈ keys blk.ivars, n ∉ keys src.vars) →
      Ext m0 (filterLoop env lenient d new mask b m l).1 := by
  induction l with
  | nil => intro m blk h1 _ _ _ _; exact h1
  | cons q l ih =>
    intro m blk h1 h2 h3 h4 h5
    obtain ⟨k, r⟩ := q
    have hmem := h2 (k, r) (by simp)
    have hk : k ∈ keys src.vars := List.mem_map.2 ⟨_, hmem, rfl⟩
    have hr := hsrc _ hmem
    have ho0 : m0.objs[r]? = some m0.objs[r] := List.getElem?_eq_getElem hr
    have ho : m.objs[r]? = some m0.objs[r] := by rw [prefix_get h1.objs hr, ho0]
    simp only [filterLoop, ho]
    have key : ∀ (m' : Mem β α) (r' : Nat) (o : Obj β), Ext m0 m' → m'.blks = m.blks →
        m'.objs[r']? = some o → (∀ e ∈ o.pos.dims, e.name ∉ keys src.vars) →
        Ext m0 (match setVar env m' b k r' with
          | (m', .ok _) => filterLoop env lenient d new mask b m' l
          | (m', .error e) => (m', .error e)).1 := by
      intro m' r' o hx hb' hr' hdim
      have hs := setVar_plain env m' b r' k blk o (by rw [hb']; exact h3) hr'
        (fun hk' => h5 k hk' hk) (fun x i j hx hk' => he k hk x i j hx (h4 x hk'))
      simp only [hs]
      refine ih _ _ (ext_putBlk hx b hb _) (fun q hq => h2 q (by simp [hq]))
        (getElem?_putBlk_self (by rw [hb']; exact h3) _) ?_ ?_
      · intro x hx
        rcases mem_keys_assign' hx with h | h
        · exact h4 x h
        · exact h ▸ hk
      · intro x hx
        rcases (mem_keys_addDims _ _ _).1 hx with h | ⟨e, he', rfl⟩
        · exact h5 x h
        · exact hdim e he'
    split
    · exact key _ _ _ (ext_addObj h1 _) rfl (by simp [addObj]) (hd _ _ hmem ho0)
    · split
      · exact h1
      · rename_i u hu
        refine key _ _ _ (ext_addArr h1 _ _ _) rfl (by simp [addArr]; rfl) ?_
        intro e hee
        have hu' : filterArr lenient d new mask ((m0.objs[r]).val m.bufs env.junk) = .ok u := by
          unfold ofArr at hu
          split at hu
          · rename_i h; rw [h]; cases hu; rfl
          all_goals cases hu
        obtain ⟨e', he', hne⟩ := filterArr_names hn hu' e hee
        rw [← hne]
        exact hd _ _ hmem ho0 e' he'

/-- C93: `filter` changes nothing, if no variable has the name of a dimension or of an element of
another variable (also when it raises). -/
theorem C93_filter [DecidableEq β] (env : Env β α) (m : Mem β α) (hw : Wf m) (b : Nat) (blk : Blk β)
    (hb : m.blks[b]? = some blk)
    (hd : ∀ (q : String × Nat) (o : Obj β), q ∈ blk.vars → m.objs[q.2]? = some o →
      ∀ e ∈ o.pos.dims, e.name ∉ blk.vars.map Prod.fst)
    (he : ∀ n ∈ blk.vars.map Prod.fst, ∀ x i j, isMatrixName n = some (x, i, j) →
      x ∉ blk.vars.map Prod.fst)
    (lenient : Bool) (d : Dim β) (mask : List Bool) :
    let m1 := (step env m (.filter b lenient d mask)).1
    (∀ b' < m.blks.length, see env.junk m1 b' = see env.junk m b') ∧
    (∀ r < m.objs.length, seeObj env.junk m1 r = seeObj env.junk m r) := by
  have key : Ext m (step env m (.filter b lenient d mask)).1 := by
    simp only [step, filterBlk, hb]
    split
    · exact Ext.refl m
    · split
      · exact Ext.refl m
      · rename_i new hnew
        have hn : new.name = d.name := by
          unfold withData at hnew
          split at hnew
          · cases hnew
          · cases hnew; rfl
        have h := filterLoop_plain env lenient d new hn mask m blk (hw.vars b blk hb) hd he
          m.blks.length (Nat.le_refl _) blk.vars
          { m with blks := m.blks ++ [⟨[], [], blk.xname, blk.comm⟩] } ⟨[], [], blk.xname, blk.comm⟩
          ⟨List.prefix_refl _, List.prefix_refl _, List.prefix_refl _, fun i hi => by
            rw [List.getElem?_append_left hi]⟩ (fun _ h => h) (by simp) (by simp [keys]) (by simp [keys])
        split
        · rename_i m' out hr
          rw [hr] at h
          unfold putXname
          split
          · exact ext_putBlk h _ (Nat.le_refl _) _
          · exact h
        · rename_i m' e hr
          rw [hr] at h
          exact h
  exact key.see hw env.junk

end HF.Share
