import Verif.Hdf5.SaveSpec
import Verif.Hyper.BlockProps
/-
C71, C72: HDF5 files give back what was saved.
-/
namespace HF.H5

open HF.DataDict.Spec HF.DataBlock
open HF.DataDict hiding rename delitem

variable {β α : Type}

/-! ### Names -/

theorem escapeS_plain (n : String) (h : '/' ∉ n.toList) : escapeS n = n := by
  unfold escapeS Hdf5.escape
  have : (n.toList.map fun c => if c = '/' then '\\' else c) = n.toList := by
    conv_rhs => rw [← List.map_id n.toList]
    refine List.map_congr_left fun c hc => ?_
    have : c ≠ '/' := fun e => h (e ▸ hc)
    simp [this]
  rw [this, String.ofList_toList]

theorem unescapeS_plain (n : String) (h : '\\' ∉ n.toList) : unescapeS n = n := by
  unfold unescapeS Hdf5.unescape
  have : (n.toList.map fun c => if c = '\\' then '/' else c) = n.toList := by
    conv_rhs => rw [← List.map_id n.toList]
    refine List.map_congr_left fun c hc => ?_
    have : c ≠ '\\' := fun e => h (e ▸ hc)
    simp [this]
  rw [this, String.ofList_toList]

theorem attr_eq (s : Option String) : attr s = nonempty s := by
  cases s with
  | none => rfl
  | some u => by_cases h : u = "" <;> simp [attr, nonempty, h, Option.filter]

/-! ### Version 0.2: saving -/

/-- The datasets of a block. -/
def dimSet (p : String × Dim β) : String × DSet β α := (p.1, .dim (className p.2.cls) p.2.data (nonempty p.2.unit))

def varSet (info : OMap String Meta) (p : String × Arr β α) : String × DSet β α :=
  (p.1, .var p.2.nd (p.2.dims.map fun d => some d.name)
    ⟨nonempty ((lookup info p.1).getD {}).unit, nonempty ((lookup info p.1).getD {}).fmt⟩)

theorem create_new {γ : Type} (f : OMap String γ) (k : String) (d : γ) (h : k ∉ f.map Prod.fst) :
    create f k d = .ok (f ++ [(k, d)]) := by
  have : member f k = false := by
    rw [Bool.eq_false_iff]; exact fun hc => h ((member_iff _ _).1 hc)
  simp [create, this]

theorem saveDims2_eq : ∀ (l : List (String × Dim β)) (f : File2 β α), (f.map Prod.fst ++ l.map Prod.fst).Nodup →
    (∀ p ∈ l, '/' ∉ p.1.toList) → saveDims2 f l = .ok (f ++ l.map dimSet)
  | [], f, _, _ => by simp [saveDims2]
  | (k, v) :: t, f, hn, hp => by
    have hk : k ∉ f.map Prod.fst := fun hc => (List.nodup_append.1 hn).2.2 k hc k (by simp) rfl
    simp only [saveDims2]
    rw [escapeS_plain k (hp (k, v) (by simp)), create_new f k _ hk]
    simp only
    rw [saveDims2_eq t _ (by simpa using hn) fun p h => hp p (by simp [h])]
    simp [dimSet, attr_eq]

theorem saveVars2_eq (info : OMap String Meta) : ∀ (l : List (String × Arr β α)) (f : File2 β α),
    (f.map Prod.fst ++ l.map Prod.fst).Nodup → (∀ p ∈ l, '/' ∉ p.1.toList) →
    (∀ p ∈ l, ∀ d ∈ p.2.dims, d.name ∈ f.map Prod.fst ∧ '/' ∉ d.name.toList) →
    saveVars2 info f l = .ok (f ++ l.map (varSet info))
  | [], f, _, _, _ => by simp [saveVars2]
  | (k, v) :: t, f, hn, hp, hd => by
    have hk : k ∉ f.map Prod.fst := fun hc => (List.nodup_append.1 hn).2.2 k hc k (by simp) rfl
    simp only [saveVars2]
    rw [escapeS_plain k (hp (k, v) (by simp)), create_new f k _ hk]
    simp only
    have hs : ∀ x : DSet β α, scalesOk (f ++ [(k, x)]) v.dims = true := by
      intro x
      simp only [scalesOk, List.all_eq_true, Bool.and_eq_true]
      intro d hdd
      obtain ⟨h1, h2⟩ := hd (k, v) (by simp) d hdd
      refine ⟨(member_iff _ _).2 ?_, by simpa using h2⟩
      simp only [keys, List.map_append, List.mem_append]
      exact Or.inl h1
    rw [if_pos (hs _), saveVars2_eq info t _ (by simpa using hn) (fun p h => hp p (by simp [h]))
      (fun p h d hdd => ⟨by simp only [List.map_append, List.mem_append]; exact Or.inl (hd p (by simp [h]) d hdd).1,
        (hd p (by simp [h]) d hdd).2⟩)]
    simp [varSet, attr_eq]

theorem keys_dimSet (l : List (String × Dim β)) : (l.map (dimSet (α := α))).map Prod.fst = l.map Prod.fst := by
  rw [List.map_map]; rfl

theorem keys_varSet (info : OMap String Meta) (l : List (String × Arr β α)) : (l.map (varSet info)).map Prod.fst = l.map Prod.fst := by
  rw [List.map_map]; rfl

theorem save2_eq (b : Full β α) (h : Storable2 b.block) :
    save2 b = .ok (b.block.ivars.map dimSet ++ b.block.vars.map (varSet b.info)) := by
  have hn : (b.block.ivars.map Prod.fst ++ b.block.vars.map Prod.fst).Nodup := by
    rw [List.nodup_append]
    refine ⟨h.orderly.ivars, h.orderly.vars, ?_⟩
    rintro n hn _ hv rfl
    obtain ⟨p, hp, rfl⟩ := List.mem_map.1 hv
    exact h.orderly.apart p hp hn
  unfold save2
  rw [saveDims2_eq b.block.ivars [] (by simpa using h.orderly.ivars)
    fun p hp => (h.plain p.1 (List.mem_append_left _ (List.mem_map_of_mem hp))).1]
  simp only [List.nil_append]
  refine saveVars2_eq b.info b.block.vars _ (by rw [keys_dimSet]; exact hn)
    (fun p hp => (h.plain p.1 (List.mem_append_right _ (List.mem_map_of_mem hp))).1) ?_
  intro p hp d hd
  have hl := h.known p hp d hd
  have hm : d.name ∈ b.block.ivars.map Prod.fst := List.mem_map.2 ⟨_, lookup_mem hl, rfl⟩
  rw [keys_dimSet]
  exact ⟨hm, (h.plain d.name (List.mem_append_left _ hm)).1⟩

/-! ### Version 0.2: reading -/

theorem dimrep_className (c : Cls) (h : c ∈ [Cls.dimRep, .dimSweep, .matI, .matJ, .dimPartial]) : dimrep (className c) = some c := by
  revert h; cases c <;> decide

theorem scaleDims_eq (env : Env β α) (f : File2 β α) : ∀ ds : List (Dim β),
    (∀ d ∈ ds, lookup f d.name = some (.dim (className d.cls) d.data (nonempty d.unit)) ∧
      d.cls ∈ [Cls.dimRep, .dimSweep, .matI, .matJ, .dimPartial]) →
    scaleDims env f (ds.map fun d => some d.name) = .ok (ds.map bare)
  | [], _ => rfl
  | d :: ds, h => by
    obtain ⟨h1, h2⟩ := h d (by simp)
    simp only [List.map_cons, scaleDims, scaleDim, h1, dimrep_className _ h2,
      scaleDims_eq env f ds fun e he => h e (by simp [he])]
    rfl

/-- What is assigned for a dataset. -/
def readVar (p : String × Arr β α) : String × Arr β α := (p.1, ⟨p.2.dims.map bare, p.2.nd⟩)

/-- The variables among the datasets, in any order. -/
theorem readLoop2_eq (env : Env β α) (f : File2 β α) (info : OMap String Meta) :
    ∀ (l : List (String × Dim β ⊕ String × Arr β α)) (db : Full β α),
    (∀ p, Sum.inr p ∈ l → '\\' ∉ p.1.toList ∧ p.2.WF ∧ ∀ d ∈ p.2.dims,
      lookup f d.name = some (.dim (className d.cls) d.data (nonempty d.unit)) ∧
      d.cls ∈ [Cls.dimRep, .dimSweep, .matI, .matJ, .dimPartial]) →
    readLoop2 env f db (l.map fun s => s.elim dimSet (varSet info)) =
      match writes env db.block ((l.filterMap Sum.getRight?).map readVar) with
      | .error e => .error (.data e)
      | .ok b => .ok ⟨b, db.info ++ (l.filterMap Sum.getRight?).map fun p =>
          (p.1, ⟨nonempty ((lookup info p.1).getD {}).unit, nonempty ((lookup info p.1).getD {}).fmt⟩)⟩
  | [], db, _ => by simp [readLoop2, writes]
  | .inl p :: t, db, h => by
    simp only [List.map_cons, Sum.elim_inl, dimSet, readLoop2]
    rw [show List.filterMap Sum.getRight? (Sum.inl p :: t) = List.filterMap Sum.getRight? t from rfl]
    exact readLoop2_eq env f info t db fun p hp => h p (by simp [hp])
  | .inr p :: t, db, h => by
    obtain ⟨h1, h2, h3⟩ := h p (by simp)
    rw [show List.filterMap Sum.getRight? (Sum.inr p :: t) = p :: List.filterMap Sum.getRight? t from rfl]
    simp only [List.map_cons, Sum.elim_inr, varSet, readLoop2, getvar, scaleDims_eq env f p.2.dims h3, List.length_map,
      if_true, mkArr]
    have hwf : p.2.dims.length = p.2.nd.shape.length := h2
    rw [if_pos hwf]
    simp only [writes, unescapeS_plain p.1 h1, readVar]
    cases hs : setArr env db.block p.1 ⟨p.2.dims.map bare, p.2.nd⟩ with
    | mk b r =>
      cases r with
      | error e => rfl
      | ok u =>
        simp only
        have ih := readLoop2_eq env f info t ⟨b, db.info ++ [(p.1, ⟨nonempty ((lookup info p.1).getD {}).unit,
          nonempty ((lookup info p.1).getD {}).fmt⟩)]⟩ fun p hp => h p (by simp [hp])
        rw [ih]
        simp [readVar]

theorem writeAll (env : Env β α) (b : Block β α) (iv : OMap String (Dim β)) (hb : Orderly b) (ws : List (String × Arr β α))
    (hk : (ws.map Prod.fst).Perm (b.vars.map Prod.fst)) (hwf : ∀ w ∈ ws, w.2.WF)
    (hd : ∀ w ∈ ws, ∀ d ∈ w.2.dims, ∃ p ∈ b.vars, ∃ e ∈ p.2.dims, d.name = e.name)
    (hi : ∀ n ∈ keys iv, n ∈ b.ivars.map Prod.fst) (hin : (keys iv).Nodup) :
    ∃ r, writes env { ivars := iv } ws = .ok r ∧ r.vars = ws ∧ r.ivars = addDims iv (ws.flatMap fun w => w.2.dims) ∧ Orderly r := by
  have hmem : ∀ w ∈ ws, ∃ p ∈ b.vars, p.1 = w.1 := by
    intro w hw
    obtain ⟨p, hp, he⟩ := List.mem_map.1 (hk.subset (List.mem_map_of_mem hw))
    exact ⟨p, hp, he⟩
  have hfree : ∀ w ∈ ws, ∀ w' ∈ ws, ∀ d ∈ w'.2.dims, d.name ≠ w.1 := by
    intro w hw w' hw' d hdd he
    obtain ⟨p, hp, hpn⟩ := hmem w hw
    obtain ⟨q, hq, e, heq, hen⟩ := hd w' hw' d hdd
    exact hb.dims p hp q hq e heq (by rw [← hen, he, hpn])
  have hel : ∀ w ∈ ws, ∀ m i j, isMatrixName w.1 = some (m, i, j) → m ∉ ws.map Prod.fst := by
    intro w hw m i j hm hc
    obtain ⟨p, hp, hpn⟩ := hmem w hw
    exact hb.elems p hp m i j (hpn ▸ hm) (hk.subset hc)
  have hni : ∀ w ∈ ws, w.1 ∉ keys iv := by
    intro w hw hc
    obtain ⟨p, hp, hpn⟩ := hmem w hw
    exact hb.apart p hp (hpn ▸ hi _ hc)
  obtain ⟨r, h1, h2, h3⟩ := writes_new env ws ({ ivars := iv } : Block β α) hni hfree
    (fun w hw m i j hm => ⟨by simp [keys], hel w hw m i j hm⟩) (by simpa [keys] using (hk.nodup_iff.2 hb.vars))
  have hv : r.vars = ws := by rw [h2]; rfl
  refine ⟨r, h1, hv, h3, ⟨?_, ?_, ?_, ?_, ?_, ?_⟩⟩
  · rw [hv]; exact hwf
  · rw [hv]; exact hk.nodup_iff.2 hb.vars
  · rw [h3]; exact Hyper.keys_addDims_nodup _ _ hin
  · rw [hv, h3]
    intro w hw hc
    rcases (mem_keys_addDims _ _ _).1 hc with hc | ⟨d, hdd, hc⟩
    · exact hni w hw hc
    · obtain ⟨w', hw', hdd⟩ := List.mem_flatMap.1 hdd
      exact hfree w hw w' hw' d hdd hc
  · rw [hv]; exact hfree
  · rw [hv]; exact hel

/-- C71: what was saved with version 0.2 is read, in whatever order the datasets are enumerated: all variables with
their dimensions and elements, and the dimensions used by variables. -/
theorem C71_roundtrip (env : Env β α) (b : Full β α) (h : Storable2 b.block) :
    ∃ f, save2 b = .ok f ∧ ∀ en, ∃ r, read2 env en f = .ok r ∧ Same2 b r := by
  refine ⟨_, save2_eq b h, fun en => ?_⟩
  set f := b.block.ivars.map dimSet ++ b.block.vars.map (varSet b.info) with hf
  have hn : (b.block.ivars.map Prod.fst ++ b.block.vars.map Prod.fst).Nodup := by
    rw [List.nodup_append]
    refine ⟨h.orderly.ivars, h.orderly.vars, ?_⟩
    rintro n hn _ hv rfl
    obtain ⟨p, hp, rfl⟩ := List.mem_map.1 hv
    exact h.orderly.apart p hp hn
  have hfk : (f.map Prod.fst).Nodup := by rw [hf, List.map_append, keys_dimSet, keys_varSet]; exact hn
  -- the datasets in the order in which they are enumerated
  set l0 : List (String × Dim β ⊕ String × Arr β α) := b.block.ivars.map Sum.inl ++ b.block.vars.map Sum.inr with hl0
  have hl0f : l0.map (fun s => s.elim dimSet (varSet b.info)) = f := by
    rw [hl0, hf, List.map_append, List.map_map, List.map_map]
    rfl
  obtain ⟨l, hl, hlp⟩ : ∃ l : List (String × Dim β ⊕ String × Arr β α), l.map (fun s => s.elim dimSet (varSet b.info)) = en.f f ∧ l.Perm l0 := by
    have := en.perm f
    rw [← hl0f] at this ⊢
    rw [← congrFun (congrFun (List.eq_map_comp_perm _) _) _] at this
    obtain ⟨l, h1, h2⟩ := this
    exact ⟨l, h1.symm, h2⟩
  set vs := l.filterMap Sum.getRight? with hvs
  have hvp : vs.Perm b.block.vars := by
    have := hlp.filterMap Sum.getRight?
    rw [hl0, List.filterMap_append] at this
    rw [hvs]
    refine this.trans (List.Perm.of_eq ?_)
    rw [List.filterMap_map, List.filterMap_map]
    have e1 : ∀ l : List (String × Dim β), l.filterMap (Sum.getRight? ∘ (Sum.inl : _ → String × Dim β ⊕ String × Arr β α)) = [] := by
      intro l; induction l with
      | nil => rfl
      | cons a l ih => simpa using ih
    have e2 : ∀ l : List (String × Arr β α), l.filterMap (Sum.getRight? ∘ (Sum.inr : _ → String × Dim β ⊕ String × Arr β α)) = l := by
      intro l; induction l with
      | nil => rfl
      | cons a l ih => simpa using ih
    rw [e1, e2]; rfl
  have hin : ∀ p, Sum.inr p ∈ l → p ∈ b.block.vars := by
    intro p hp
    have := hlp.subset hp
    rw [hl0, List.mem_append] at this
    rcases this with h | h <;> obtain ⟨q, hq, he⟩ := List.mem_map.1 h <;> cases he
    exact hq
  have hloop := readLoop2_eq env f b.info l ⟨{}, []⟩ (by
    intro p hp
    have hpv := hin p hp
    refine ⟨(h.plain p.1 (List.mem_append_right _ (List.mem_map_of_mem hpv))).2, h.orderly.wf p hpv, fun d hd => ⟨?_, h.classes p hpv d hd⟩⟩
    have hl := lookup_mem (h.known p hpv d hd)
    exact mem_lookup (p := (d.name, DSet.dim (className d.cls) d.data (nonempty d.unit))) hfk
      (List.mem_append_left _ (List.mem_map.2 ⟨(d.name, d), hl, rfl⟩)))
  have hmv : ∀ w ∈ vs.map readVar, ∃ p ∈ b.block.vars, w = readVar p := by
    intro w hw
    obtain ⟨p, hp, rfl⟩ := List.mem_map.1 hw
    exact ⟨p, hvp.subset hp, rfl⟩
  have hkw : ((vs.map readVar).map Prod.fst).Perm (b.block.vars.map Prod.fst) := by
    rw [List.map_map]; exact hvp.map _
  obtain ⟨r, h1, h2, h3, h4⟩ := writeAll env b.block [] h.orderly (vs.map readVar) hkw
    (fun w hw => by
      obtain ⟨p, hp, rfl⟩ := hmv w hw
      have : p.2.dims.length = p.2.nd.shape.length := h.orderly.wf p hp
      simpa [readVar, Arr.WF] using this)
    (fun w hw d hd => by
      obtain ⟨p, hp, rfl⟩ := hmv w hw
      obtain ⟨e, he, rfl⟩ := List.mem_map.1 hd
      exact ⟨p, hp, e, he, rfl⟩)
    (by simp [keys]) (by simp [keys])
  refine ⟨⟨r, vs.map fun p => (p.1, ⟨nonempty ((lookup b.info p.1).getD {}).unit, nonempty ((lookup b.info p.1).getD {}).fmt⟩)⟩, ?_, ?_⟩
  · unfold read2
    rw [← hl, hloop, ← hvs, show writes env ({} : Block β α) (vs.map readVar) = .ok r from h1]
    simp
  have hknd : ((vs.map readVar).map Prod.fst).Nodup := hkw.nodup_iff.2 h.orderly.vars
  have hiv : ∀ n, lookup r.ivars n = ((vs.map readVar).flatMap fun w => w.2.dims).find? fun d => d.name == n := by
    intro n; rw [h3, lookup_addDims]; rfl
  refine ⟨h4, by rw [h2]; exact hkw, ?_, ?_, ?_, ?_⟩
  · intro k v hk
    refine ⟨(readVar (k, v)).2, ?_, rfl, rfl⟩
    rw [h2]
    exact mem_lookup (p := readVar (k, v)) hknd (List.mem_map_of_mem (hvp.symm.subset (lookup_mem hk)))
  · intro p hp d hd
    rw [hiv]
    cases hf : ((vs.map readVar).flatMap fun w => w.2.dims).find? fun e => e.name == d.name with
    | some e =>
      have hname : e.name = d.name := by simpa using List.find?_some hf
      obtain ⟨w, hw, hew⟩ := List.mem_flatMap.1 (List.mem_of_find?_eq_some hf)
      obtain ⟨q, hq, rfl⟩ := hmv w hw
      obtain ⟨e', he', rfl⟩ := List.mem_map.1 hew
      have a1 := h.known p hp d hd
      have a2 := h.known q hq e' he'
      rw [show e'.name = d.name from hname, a1] at a2
      cases a2
      rfl
    | none =>
      have := List.find?_eq_none.1 hf (bare d) (List.mem_flatMap.2 ⟨readVar p, List.mem_map_of_mem (hvp.symm.subset hp),
        List.mem_map_of_mem hd⟩)
      simp [bare] at this
  · intro n hn
    show lookup r.ivars n = none
    rw [hiv, List.find?_eq_none]
    intro e he
    obtain ⟨w, hw, hew⟩ := List.mem_flatMap.1 he
    obtain ⟨q, hq, rfl⟩ := hmv w hw
    obtain ⟨e', he', rfl⟩ := List.mem_map.1 hew
    simpa [bare] using hn q hq e' he'
  · intro k v hk m hm
    have := mem_lookup (m := vs.map fun p => (p.1, (⟨nonempty ((lookup b.info p.1).getD {}).unit,
      nonempty ((lookup b.info p.1).getD {}).fmt⟩ : Meta))) (p := (k, ⟨nonempty ((lookup b.info k).getD {}).unit,
      nonempty ((lookup b.info k).getD {}).fmt⟩))
      (by rw [List.map_map] at hknd ⊢; exact hknd)
      (List.mem_map.2 ⟨(k, v), hvp.symm.subset (lookup_mem hk), rfl⟩)
    rw [hm] at this
    exact this

/-! ### Version 0.1 -/

theorem fromNone_orNone (s : Option String) (h : ∀ u, s = some u → u.toLower ≠ "none") : fromNone (orNone s) = s := by
  cases s with
  | none => decide +kernel
  | some u => simp [orNone, fromNone, h u rfl]

theorem dimsDict_className (c : Cls) (h : c ∈ [Cls.dimSweep, .dimRep, .matI, .matJ, .dimMatrix_, .derivAxis, .indepAxis,
    .diagAxis, .complexDeriv, .complexIndep, .complexDiag, .dimPartial, .dimBase]) : dimsDict (className c) = c := by
  revert h; cases c <;> decide

/-- What is recorded for a dim and for a variable. -/
def dimRec (p : String × Dim β) : String × DimRec β := (p.1, ⟨className p.2.cls, p.2.data, orNone p.2.unit⟩)

def varRec (info : OMap String Meta) (p : String × Arr β α) : String × VarRec α :=
  (p.1, ⟨p.2.nd, p.2.dims.map Dim.name, orNone ((lookup info p.1).getD {}).unit⟩)

theorem readDims1_eq : ∀ (l : List (String × Dim β)) (db : Block β α), db.vars = [] →
    (db.ivars.map Prod.fst ++ l.map Prod.fst).Nodup →
    (∀ p ∈ l, '/' ∉ p.1.toList ∧ p.2.name = p.1 ∧ dimsDict (className p.2.cls) = p.2.cls ∧ fromNone (orNone p.2.unit) = p.2.unit) →
    ∃ r, readDims1 db (l.map dimRec) = .ok r ∧ r.vars = [] ∧ r.ivars = db.ivars ++ l.map fun p => (p.1, bare1 p.2)
  | [], db, hv, _, _ => ⟨db, rfl, hv, by simp⟩
  | (k, d) :: t, db, hv, hn, h => by
    obtain ⟨h1, h2, h3, h4⟩ := h (k, d) (by simp)
    have hk : k ∉ db.ivars.map Prod.fst := fun hc => (List.nodup_append.1 hn).2.2 k hc k (by simp) rfl
    simp only [List.map_cons, dimRec, readDims1]
    rw [if_neg (by simpa using h1), h3, h4]
    have h2' : d.name = k := h2
    have hd : (⟨d.cls, k, d.data, d.unit, none⟩ : Dim β) = bare1 d := by rw [bare1, h2']
    rw [hd]
    have ha : (setDim db k (bare1 d)).ivars = db.ivars ++ [(k, bare1 d)] := by
      show assign db.ivars k (bare1 d) = _
      rw [assign, if_neg]
      exact fun hc => hk ((member_iff _ _).1 hc)
    obtain ⟨r, r1, r2, r3⟩ := readDims1_eq t (setDim db k (bare1 d)) hv (by rw [ha]; simpa using hn) fun p hp => h p (by simp [hp])
    exact ⟨r, r1, r2, by rw [r3, ha]; simp⟩

theorem dimsOf1_eq (db : Block β α) : ∀ ds : List (Dim β), (∀ d ∈ ds, lookup db.ivars d.name = some (bare1 d)) →
    dimsOf1 db (ds.map Dim.name) = .ok (ds.map bare1)
  | [], _ => rfl
  | d :: ds, h => by
    simp only [List.map_cons, dimsOf1, h d (by simp), dimsOf1_eq db ds fun e he => h e (by simp [he])]

theorem addDims_known (iv : OMap String (Dim β)) : ∀ ds : List (Dim β), (∀ d ∈ ds, d.name ∈ keys iv) → addDims iv ds = iv
  | [], _ => rfl
  | d :: ds, h => by
    have : member iv d.name = true := (member_iff _ _).2 (h d (by simp))
    rw [addDims, List.foldl_cons, if_pos this]
    exact addDims_known iv ds fun e he => h e (by simp [he])

def readVar1 (p : String × Arr β α) : String × Arr β α := (p.1, ⟨p.2.dims.map bare1, p.2.nd⟩)

theorem readVars1_eq (env : Env β α) (info : OMap String Meta) : ∀ (l : List (String × Arr β α)) (db : Full β α),
    (db.block.vars.map Prod.fst ++ l.map Prod.fst).Nodup →
    (∀ p ∈ l, p.1 ∉ keys db.block.ivars ∧ ∀ m i j, isMatrixName p.1 = some (m, i, j) →
      m ∉ keys db.block.vars ∧ m ∉ l.map Prod.fst) →
    (∀ p ∈ l, '/' ∉ p.1.toList ∧ p.2.WF ∧ (∀ d ∈ p.2.dims, lookup db.block.ivars d.name = some (bare1 d)) ∧
      fromNone (orNone ((lookup info p.1).getD {}).unit) = ((lookup info p.1).getD {}).unit) →
    ∃ r, readVars1 env db (l.map (varRec info)) = .ok r ∧ r.block.vars = db.block.vars ++ l.map readVar1 ∧
      r.block.ivars = db.block.ivars ∧ r.info = db.info ++ l.map fun p => (p.1, ⟨((lookup info p.1).getD {}).unit, none⟩)
  | [], db, _, _, _ => ⟨db, rfl, by simp, rfl, by simp⟩
  | (k, v) :: t, db, hn, hm, h => by
    obtain ⟨h1, h2, h3, h4⟩ := h (k, v) (by simp)
    obtain ⟨m1, m2⟩ := hm (k, v) (by simp)
    have hk : k ∉ db.block.vars.map Prod.fst := fun hc => (List.nodup_append.1 hn).2.2 k hc k (by simp) rfl
    simp only [List.map_cons, varRec, readVars1]
    rw [if_neg (by simpa using h1), dimsOf1_eq db.block v.dims h3]
    have hwf : v.dims.length = v.nd.shape.length := h2
    simp only [mkArr, List.length_map, if_pos hwf]
    rw [setArr_new env db.block k _ m1 hk fun m i j he => (m2 m i j he).1]
    have ha : addDims db.block.ivars (v.dims.map bare1) = db.block.ivars := by
      refine addDims_known _ _ fun d hd => ?_
      obtain ⟨e, he, rfl⟩ := List.mem_map.1 hd
      exact List.mem_map.2 ⟨_, lookup_mem (h3 e he), rfl⟩
    simp only [ha, h4]
    obtain ⟨r, r1, r2, r3, r4⟩ := readVars1_eq env info t
      ⟨⟨db.block.vars ++ [(k, ⟨v.dims.map bare1, v.nd⟩)], db.block.ivars, nextXname db.block.xname (v.dims.map bare1)⟩,
        db.info ++ [(k, ⟨((lookup info k).getD {}).unit, none⟩)]⟩ (by simpa using hn)
      (fun p hp => by
        obtain ⟨a1, a2⟩ := hm p (by simp [hp])
        refine ⟨a1, fun m i j he => ?_⟩
        obtain ⟨b1, b2⟩ := a2 m i j he
        simp only [List.map_cons, List.mem_cons, not_or] at b2
        refine ⟨?_, b2.2⟩
        simp only [keys, List.map_append, List.mem_append, not_or, List.map_cons, List.map_nil, List.mem_singleton]
        exact ⟨b1, b2.1⟩)
      (fun p hp => h p (by simp [hp]))
    exact ⟨r, r1, by rw [r2]; simp [readVar1], r3, by rw [r4]; simp⟩

theorem enum_map {γ δ : Type} (en : Enum δ) (g : γ → δ) (l0 : List γ) : ∃ l : List γ, en.f (l0.map g) = l.map g ∧ l.Perm l0 := by
  have := en.perm (l0.map g)
  rw [← congrFun (congrFun (List.eq_map_comp_perm _) _) _] at this
  exact this

theorem save1_eq (name : Option String) (comments : List (List Char)) (b : Full β α) :
    save1 name comments b = .ok ⟨orNone name, comments, b.block.ivars.map dimRec, b.block.vars.map (varRec b.info)⟩ := rfl

/-- C72: what was saved with version 0.1 is read, in whatever order the two groups are enumerated: all dims, also those
which no variable uses, all variables, units, name and comments. -/
theorem C72_roundtrip (env : Env β α) (name : Option String) (comments : List (List Char)) (b : Full β α) (h : Storable1 b) :
    ∃ f, save1 name comments b = .ok f ∧ ∀ enD enV, ∃ r,
      read1 env enD enV f = .ok ((if name.any fun n => n.toLower == "none" then none else name), comments.map Units.strip, r) ∧
      Same1 b r := by
  refine ⟨_, save1_eq name comments b, fun enD enV => ?_⟩
  obtain ⟨ds, hds, hdp⟩ := enum_map enD dimRec b.block.ivars
  obtain ⟨vs, hvs, hvp⟩ := enum_map enV (varRec b.info) b.block.vars
  have hdn : (ds.map Prod.fst).Nodup := (hdp.map Prod.fst).nodup_iff.2 h.orderly.ivars
  obtain ⟨db, d1, d2, d3⟩ := readDims1_eq ds ({} : Block β α) rfl (by simpa using hdn) (fun p hp => by
    have hp := hdp.subset hp
    exact ⟨h.plain p.1 (List.mem_append_left _ (List.mem_map_of_mem hp)), h.named p hp,
      dimsDict_className _ (h.classes p hp), fromNone_orNone _ (h.units.1 p hp)⟩)
  have d3 : db.ivars = ds.map fun p => (p.1, bare1 p.2) := d3
  have hdk : (db.ivars.map Prod.fst) = ds.map Prod.fst := by rw [d3, List.map_map]; rfl
  have hlook : ∀ n, lookup db.ivars n = (lookup b.block.ivars n).map bare1 := by
    intro n
    cases hl : lookup b.block.ivars n with
    | some d =>
      exact mem_lookup (p := (n, bare1 d)) (by rw [hdk]; exact hdn)
        (by rw [d3]; exact List.mem_map.2 ⟨(n, d), hdp.symm.subset (lookup_mem hl), rfl⟩)
    | none =>
      rw [Option.map_none, lookup_none_iff', keys, hdk]
      rw [lookup_none_iff'] at hl
      exact fun hc => hl ((hdp.map Prod.fst).subset hc)
  obtain ⟨r, r1, r2, r3, r4⟩ := readVars1_eq env b.info vs ⟨db, []⟩
    (by simp only [d2]; simpa using (hvp.map Prod.fst).nodup_iff.2 h.orderly.vars)
    (fun p hp => by
      have hp := hvp.subset hp
      refine ⟨fun hc => h.orderly.apart p hp ((hdp.map Prod.fst).subset (hdk ▸ hc)), fun m i j he => ⟨by simp [d2, keys], ?_⟩⟩
      exact fun hc => h.orderly.elems p hp m i j he ((hvp.map Prod.fst).subset hc))
    (fun p hp => by
      have hp := hvp.subset hp
      refine ⟨h.plain p.1 (List.mem_append_right _ (List.mem_map_of_mem hp)), h.orderly.wf p hp,
        fun d hd => by rw [hlook, h.known p hp d hd]; rfl, fromNone_orNone _ fun u hu => ?_⟩
      cases hl : lookup b.info p.1 with
      | none => rw [hl] at hu; simp at hu
      | some m => rw [hl] at hu; exact h.units.2 _ (lookup_mem hl) u hu)
  have r2 : r.block.vars = vs.map readVar1 := by rw [r2]; simp [d2]
  have r3 : r.block.ivars = db.ivars := r3
  have r4 : r.info = vs.map fun p => (p.1, ⟨((lookup b.info p.1).getD {}).unit, none⟩) := by rw [r4]; simp
  have hkv : (r.block.vars.map Prod.fst) = vs.map Prod.fst := by rw [r2, List.map_map]; rfl
  have hvn : (vs.map Prod.fst).Nodup := (hvp.map Prod.fst).nodup_iff.2 h.orderly.vars
  have hmem : ∀ w ∈ r.block.vars, ∃ p ∈ b.block.vars, w = readVar1 p := by
    intro w hw
    rw [r2] at hw
    obtain ⟨p, hp, rfl⟩ := List.mem_map.1 hw
    exact ⟨p, hvp.subset hp, rfl⟩
  refine ⟨r, ?_, ⟨⟨?_, ?_, ?_, ?_, ?_, ?_⟩, ?_, ?_, ?_, ?_⟩⟩
  · unfold read1
    simp only [hds, hvs, d1, r1]
    have : fromNone (orNone name) = if name.any fun n => n.toLower == "none" then none else name := by
      cases name with
      | none => decide +kernel
      | some n => by_cases e : n.toLower = "none" <;> simp [fromNone, orNone, e]
    rw [this]
  · intro w hw
    obtain ⟨p, hp, rfl⟩ := hmem w hw
    have : p.2.dims.length = p.2.nd.shape.length := h.orderly.wf p hp
    simpa [readVar1, Arr.WF] using this
  · rw [hkv]; exact hvn
  · rw [r3, hdk]; exact hdn
  · intro w hw
    obtain ⟨p, hp, rfl⟩ := hmem w hw
    rw [r3, hdk]
    exact fun hc => h.orderly.apart p hp ((hdp.map Prod.fst).subset hc)
  · intro w hw w' hw' d hd
    obtain ⟨p, hp, rfl⟩ := hmem w hw
    obtain ⟨p', hp', rfl⟩ := hmem w' hw'
    obtain ⟨e, he, rfl⟩ := List.mem_map.1 hd
    exact h.orderly.dims p hp p' hp' e he
  · intro w hw m i j hm
    obtain ⟨p, hp, rfl⟩ := hmem w hw
    rw [hkv]
    exact fun hc => h.orderly.elems p hp m i j hm ((hvp.map Prod.fst).subset hc)
  · rw [hkv]; exact hvp.map _
  · intro k v hk
    refine ⟨(readVar1 (k, v)).2, ?_, rfl, rfl⟩
    exact mem_lookup (p := readVar1 (k, v)) (by rw [hkv]; exact hvn)
      (by rw [r2]; exact List.mem_map_of_mem (hvp.symm.subset (lookup_mem hk)))
  · intro n; rw [r3, hlook]
  · intro k v hk m hm
    have hn : (r.info.map Prod.fst).Nodup := by rw [r4, List.map_map]; exact hvn
    have := mem_lookup (p := (k, (⟨((lookup b.info k).getD {}).unit, none⟩ : Meta))) hn
      (by rw [r4]; exact List.mem_map.2 ⟨(k, v), hvp.symm.subset (lookup_mem hk), rfl⟩)
    rw [this, hm]
    rfl

end HF.H5
