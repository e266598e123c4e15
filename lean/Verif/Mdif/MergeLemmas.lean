import Verif.Mdif.MergeSpec
import Verif.Merge.Index
import Verif.HFArray.ReorderProps
import Verif.Readers.ComplexLemmas
/-
Helper lemmas about putting blocks together.
-/
namespace HF.Mdif

open HF.DataDict.Spec HF.DataBlock
open HF.DataDict hiding rename delitem
open HF.Arr hiding Err ofNd getitem

variable {β α : Type}

theorem exists_coord : ∀ (l : List (Dim β)) (idx : List Nat), (l.map Dim.key).Nodup → idx.length = l.length →
    ∃ c : Coord, l.map (fun d => c d.key) = idx
  | [], idx, _, h => ⟨fun _ => 0, by rw [List.length_eq_zero_iff.1 h]; rfl⟩
  | d :: l, [], _, h => by simp at h
  | d :: l, i :: idx, hn, h => by
    rw [List.map_cons, List.nodup_cons] at hn
    obtain ⟨c, hc⟩ := exists_coord l idx hn.2 (by simpa using h)
    refine ⟨fun k => if k = d.key then i else c k, ?_⟩
    rw [List.map_cons]
    simp only [if_true]
    congr 1
    rw [← hc]
    refine List.map_congr_left fun e he => if_neg fun h => ?_
    exact hn.1 (h ▸ List.mem_map_of_mem he)

theorem axisLen_cons (d : Dim β) (ds : List (Dim β)) (n : Nat) (s : List Nat) (g : List Nat → α) (k : Key) :
    axisLen ⟨d :: ds, ⟨n :: s, g⟩⟩ k = if d.key = k then some n else axisLen ⟨ds, ⟨s, g⟩⟩ k := by
  simp only [axisLen, List.zip_cons_cons, List.find?_cons]
  split <;> simp_all

theorem shape_of_axisLen : ∀ (dims : List (Dim β)) (s : List Nat) (g : List Nat → α), (dims.map Dim.key).Nodup →
    dims.length = s.length → dims.map (fun d => axisLen ⟨dims, ⟨s, g⟩⟩ d.key) = s.map some
  | [], s, _, _, h => by rw [List.length_eq_zero_iff.1 h.symm]; rfl
  | d :: ds, [], _, _, h => by simp at h
  | d :: ds, n :: s, g, hn, h => by
    rw [List.map_cons, List.nodup_cons] at hn
    rw [List.map_cons, List.map_cons, axisLen_cons, if_pos rfl, ← shape_of_axisLen ds s g hn.2 (by simpa using h)]
    congr 1
    refine List.map_congr_left fun e he => ?_
    rw [axisLen_cons, if_neg]
    intro h
    exact hn.1 (h ▸ List.mem_map_of_mem he)

variable [DecidableEq β]

/-- The first two axes are exchanged. -/
theorem turn (ri d : Dim β) (t : List (Dim β)) (y : Arr β α) (hwf : y.WF) (hd : y.dims = ri :: d :: t)
    (hn : (y.dims.map Dim.name).Nodup) :
    ∃ a, y.reorderDimensions [.dim d] = .ok a ∧ a.dims = d :: ri :: t ∧
      (∀ n l ls, y.nd.shape = n :: l :: ls → a.nd.shape = l :: n :: ls) ∧
      ∀ i m idx, idx.length = t.length → a.nd.get (i :: m :: idx) = y.nd.get (m :: i :: idx) := by
  obtain ⟨a, h1, h2, h3, h4, h5⟩ := C07_reorder y hwf hn [d] [.dim d] (.cons (Or.inl rfl) .nil) (by rw [hd]; simp) (by simp)
  have hk := distinct_of_names hn
  rw [hd, List.map_cons, List.map_cons, List.nodup_cons, List.nodup_cons] at hn
  have had : a.dims = d :: ri :: t := by
    rw [h3, hd]
    have hne : ri ≠ d := by
      rintro rfl
      exact hn.1 (by simp)
    have hnt : ∀ e ∈ t, e ≠ d := by
      rintro e he rfl
      exact hn.2.1 (List.mem_map_of_mem he)
    rw [List.filter_cons_of_pos (by simpa using hne), List.filter_cons_of_neg (by simp),
      List.filter_eq_self.2 fun e he => by simpa using hnt e he]
    rfl
  have hka : (a.dims.map Dim.key).Nodup := by
    have hp : a.dims.Perm y.dims := by rw [had, hd]; exact List.Perm.swap ..
    exact ((hp.map Dim.key).nodup_iff).2 hk
  refine ⟨a, h1, had, ?_, ?_⟩
  · intro n l ls hs
    have e1 := shape_of_axisLen a.dims a.nd.shape a.nd.get hka h2
    have e2 := shape_of_axisLen y.dims y.nd.shape y.nd.get hk hwf
    have e3 : a.dims.map (fun d => axisLen a d.key) = a.dims.map fun d => axisLen y d.key :=
      List.map_congr_left fun e _ => h4 e.key
    have e1' : a.dims.map (fun d => axisLen a d.key) = a.nd.shape.map some := e1
    have e2' : y.dims.map (fun d => axisLen y d.key) = y.nd.shape.map some := e2
    rw [e3, had, List.map_cons, List.map_cons] at e1'
    rw [hd, hs, List.map_cons, List.map_cons, List.map_cons, List.map_cons, List.cons.injEq, List.cons.injEq] at e2'
    rw [e2'.1, e2'.2.1, e2'.2.2] at e1'
    have : (l :: n :: ls).map some = a.nd.shape.map some := e1'
    exact (List.map_injective_iff.2 (Option.some_injective _) this).symm
  · intro i m idx hi
    obtain ⟨c, hc⟩ := exists_coord a.dims (i :: m :: idx) hka (by rw [had]; simp [hi])
    have e := h5 c
    unfold at_ at e
    rw [hc] at e
    rw [e, hd]
    rw [had, List.map_cons, List.map_cons, List.cons.injEq, List.cons.injEq] at hc
    rw [List.map_cons, List.map_cons, hc.1, hc.2.1, hc.2.2]

omit [DecidableEq β] in
theorem blocksAt_of (env : Env β α) (n : String) (bs : List (Block β α)) (f : Block β α → Arr β α)
    (h : ∀ b ∈ bs, n ∉ keys b.ivars ∧ lookup b.vars n = some (f b)) : blocksAt env n bs = .ok (bs.map f) := by
  induction bs with
  | nil => rfl
  | cons b t ih =>
    obtain ⟨h1, h2⟩ := h b (by simp)
    have hg : getitem env b n = .ok (f b) := by simp only [getitem, (lookup_none_iff' _ _).2 h1, h2]
    simp only [blocksAt, hg, ih fun b hb => h b (by simp [hb]), List.map_cons]

/-- One step of the loops, as it acts on a block in which the name is new. -/
def Adds {γ : Type} (f : Block β α → γ → Except DataBlock.Err (Block β α)) (nm : γ → String) (ar : γ → Arr β α)
    (ds : γ → List (Dim β)) (g : γ) : Prop :=
  ∀ out : Block β α, nm g ∉ keys out.ivars → nm g ∉ keys out.vars →
    (∀ m i j, isMatrixName (nm g) = some (m, i, j) → m ∉ keys out.vars) →
    ∃ x, f out g = .ok ⟨out.vars ++ [(nm g, ar g)], addDims out.ivars (ds g), x⟩

omit [DecidableEq β] in
theorem fold_adds {γ : Type} (f : Block β α → γ → Except DataBlock.Err (Block β α)) (nm : γ → String) (ar : γ → Arr β α)
    (ds : γ → List (Dim β)) (gs : List γ) :
    ∀ b : Block β α, (∀ g ∈ gs, Adds f nm ar ds g) → (∀ g ∈ gs, nm g ∉ keys b.ivars) →
      (∀ g ∈ gs, ∀ g' ∈ gs, ∀ d ∈ ds g', d.name ≠ nm g) →
      (∀ g ∈ gs, ∀ m i j, isMatrixName (nm g) = some (m, i, j) → m ∉ keys b.vars ∧ m ∉ gs.map nm) →
      (keys b.vars ++ gs.map nm).Nodup →
      ∃ b', gs.foldlM f b = .ok b' ∧ b'.vars = b.vars ++ gs.map (fun g => (nm g, ar g)) ∧
        b'.ivars = addDims b.ivars (gs.flatMap ds) := by
  induction gs with
  | nil => intro b _ _ _ _ _; exact ⟨b, rfl, by simp, by simp [addDims]⟩
  | cons g gs ih =>
    intro b h0 h1 h2 h3 h4
    have hg : g ∈ g :: gs := by simp
    obtain ⟨x, hx⟩ := h0 g hg b (h1 g hg)
      (fun hc => (List.nodup_append.1 h4).2.2 _ hc _ (by simp) rfl) (fun m i j hm => (h3 g hg m i j hm).1)
    obtain ⟨b', e1, e2, e3⟩ := ih ⟨b.vars ++ [(nm g, ar g)], addDims b.ivars (ds g), x⟩
      (fun g' hg' => h0 g' (by simp [hg']))
      (by
        intro g' hg' hc
        rcases (mem_keys_addDims _ _ _).1 hc with hc | ⟨d, hd, hc⟩
        · exact h1 g' (by simp [hg']) hc
        · exact h2 g' (by simp [hg']) g hg d hd hc)
      (fun x hx y hy => h2 x (by simp [hx]) y (by simp [hy]))
      (by
        intro g' hg' m i j hm
        obtain ⟨k1, k2⟩ := h3 g' (by simp [hg']) m i j hm
        simp only [keys, List.map_append, List.map_cons, List.map_nil, List.mem_append,
          List.mem_singleton, List.mem_cons, not_or] at k1 k2 ⊢
        exact ⟨⟨k1, k2.1, by simp⟩, k2.2⟩)
      (by simpa [keys] using h4)
    refine ⟨b', ?_, by rw [e2]; simp, ?_⟩
    · rw [List.foldlM_cons, hx]
      exact e1
    · rw [e3, List.flatMap_cons, addDims, addDims, addDims, List.foldl_append]

/-- What is put into the block for one variable. -/
theorem stackVar_spec (env : Env β α) (ri : Dim β) (b0 : Block β α) (bs : List (Block β α)) (n : String)
    (f : Block β α → Arr β α) (hf : ∀ b ∈ b0 :: bs, n ∉ keys b.ivars ∧ lookup b.vars n = some (f b))
    (hsh : ∀ b ∈ bs, (f b).nd.shape = (f b0).nd.shape) (hwf : (f b0).WF)
    (hn : ((ri :: (f b0).dims).map Dim.name).Nodup) (hri : ∀ d ∈ ri :: (f b0).dims, d.name ≠ n)
    (hel : ∀ m i j, isMatrixName n = some (m, i, j) → m ≠ n) :
    ∃ a : Arr β α,
      ((f b0).dims = [] → a.dims = [ri] ∧ a.nd.shape = [bs.length + 1] ∧
        ∀ (m : Nat) b, (b0 :: bs)[m]? = some b → a.nd.get [m] = (f b).nd.get []) ∧
      (∀ d ds, (f b0).dims = d :: ds → a.dims = d :: ri :: ds ∧
        (∀ l ls, (f b0).nd.shape = l :: ls → a.nd.shape = l :: (bs.length + 1) :: ls) ∧
        ∀ (m : Nat) b, (b0 :: bs)[m]? = some b → ∀ i idx, idx.length = ds.length →
          a.nd.get (i :: m :: idx) = (f b).nd.get (i :: idx)) ∧
      Adds (stackVar env ri (b0 :: bs)) id (fun _ => a) (fun _ => ri :: (f b0).dims) n := by
  have hcol := blocksAt_of env n (b0 :: bs) f hf
  obtain ⟨y, hy⟩ : ∃ y : Arr β α, y = ⟨ri :: (f b0).dims, ⟨(f b0 :: bs.map f).length :: (f b0).nd.shape,
      fun i => ((f b0 :: bs.map f).getD (i.headD 0) (f b0)).nd.get i.tail⟩⟩ := ⟨_, rfl⟩
  have hstack : Merge.stack (ri :: (f b0).dims) (f b0) (bs.map f) = .ok y := by
    rw [Merge.stack, if_pos, mk?, if_pos, hy]
    · simp only [Nd.ndim, List.length_cons]
      have := hwf
      unfold WF at this
      omega
    · rw [List.all_eq_true]
      intro v hv
      rcases List.mem_cons.1 hv with rfl | hv
      · simp
      · obtain ⟨b, hb, rfl⟩ := List.mem_map.1 hv
        simpa using hsh b hb
  have hyd : y.dims = ri :: (f b0).dims := by rw [hy]
  have hys : y.nd.shape = (bs.length + 1) :: (f b0).nd.shape := by rw [hy]; simp
  have hyg : ∀ (m : Nat) b, (b0 :: bs)[m]? = some b → ∀ idx, y.nd.get (m :: idx) = (f b).nd.get idx := by
    intro m b hb idx
    rw [hy]
    simp only [List.headD_cons, List.tail_cons]
    have : (f b0 :: bs.map f) = (b0 :: bs).map f := rfl
    rw [this, List.getD_eq_getElem?_getD, List.getElem?_map, hb]
    rfl
  have hywf : y.WF := by rw [hy]; simp only [WF, List.length_cons]; rw [hwf]
  -- the first assignment
  have hfirst : ∀ out : Block β α, n ∉ keys out.ivars → n ∉ keys out.vars →
      (∀ m i j, isMatrixName n = some (m, i, j) → m ∉ keys out.vars) →
      setArr env out n y = (⟨out.vars ++ [(n, y)], addDims out.ivars y.dims, nextXname out.xname y.dims⟩, .ok ()) :=
    fun out h1 h2 h3 => setArr_new env out n y h1 h2 h3
  cases hdims : (f b0).dims with
  | nil =>
    refine ⟨y, fun _ => ⟨by rw [hyd, hdims], ?_, fun m b hb => hyg m b hb []⟩, by simp, ?_⟩
    · have := hwf
      unfold WF at this
      rw [hdims] at this
      rw [hys, List.length_eq_zero_iff.1 this.symm]
    · intro out h1 h2 h3
      refine ⟨nextXname out.xname y.dims, ?_⟩
      simp only [stackVar, hcol, List.map_cons, hstack, ofArr, id, hfirst out h1 h2 h3]
      rw [hyd, hdims]
  | cons d t =>
    obtain ⟨a, k1, k2, k3, k4⟩ := turn ri d t y hywf (by rw [hyd, hdims]) (by rw [hyd]; exact hn)
    refine ⟨a, by simp, ?_, ?_⟩
    · intro d' ds' he
      rw [List.cons.injEq] at he
      obtain ⟨rfl, rfl⟩ := he
      refine ⟨k2, fun l ls hs => k3 _ l ls (by rw [hys, hs]), fun m b hb i idx hi => ?_⟩
      rw [k4 i m idx hi, hyg m b hb]
    · intro out h1 h2 h3
      simp only [id] at h1 h2 h3
      have hni : n ∉ keys (addDims out.ivars y.dims) := by
        intro hc
        rcases (mem_keys_addDims _ _ _).1 hc with hc | ⟨e, he, hc⟩
        · exact h1 hc
        · exact hri e (by rw [← hyd]; exact he) hc
      have hl : lookup (out.vars ++ [(n, y)]) n = some y := by
        rw [lookup_append, (lookup_none_iff' _ _).2 h2, lookup_singleton, if_pos rfl]
        rfl
      have hget : getitem env ⟨out.vars ++ [(n, y)], addDims out.ivars y.dims, nextXname out.xname y.dims⟩ n = .ok y := by
        simp only [getitem, (lookup_none_iff' _ _).2 hni, hl]
      have hknown : addDims (addDims out.ivars y.dims) a.dims = addDims out.ivars y.dims := by
        refine Readers.Complex.addDims_known _ _ fun e he => ?_
        refine (mem_keys_addDims _ _ _).2 (Or.inr ⟨e, ?_, rfl⟩)
        rw [k2] at he
        rw [hyd, hdims]
        simp only [List.mem_cons] at he ⊢
        tauto
      have het : elemTarget (member (out.vars ++ [(n, y)])) n a = none := by
        unfold elemTarget
        split
        · rename_i m i j hm
          split
          · rename_i hc
            simp only [Bool.and_eq_true, Bool.not_eq_true'] at hc
            have := (member_iff _ _).1 hc.1
            simp only [keys, List.map_append, List.map_cons, List.map_nil, List.mem_append, List.mem_singleton] at this
            rcases this with h | h
            · exact absurd h (h3 m i j hm)
            · exact absurd h (hel m i j hm)
          · rfl
        · rfl
      have hassign : assign (out.vars ++ [(n, y)]) n a = out.vars ++ [(n, a)] := by
        rw [assign, if_pos ((member_iff _ _).2 (by simp [keys])), HF.DataDict.Spec.modify, List.map_append]
        congr 1
        · conv_rhs => rw [← List.map_id out.vars]
          refine List.map_congr_left fun p hp => ?_
          rw [if_neg]
          · rfl
          · intro h
            exact h2 (h ▸ List.mem_map_of_mem hp)
        · simp
      refine ⟨nextXname (nextXname out.xname y.dims) a.dims, ?_⟩
      simp only [stackVar, hcol, List.map_cons, hstack, ofArr, id, hfirst out h1 h2 h3]
      rw [hdims]
      simp only [hget, k1]
      simp only [setArr, het, (lookup_none_iff' _ _).2 hni, hassign, hknown]
      rw [hyd, hdims]

end HF.Mdif
