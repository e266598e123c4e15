import Verif.Share.ViewProps
/-
C93: transposed, squeezed and indexed arrays are views: they always show the elements of the array
they were made from; and what a write changes.
-/
namespace HF.Share

open HF.DataDict.Spec
open HF.DataBlock

variable {β α γ : Type}

/-! ### Views of arrays -/

/-- The same array with other elements. -/
def mapNd (f : α → γ) (a : Nd α) : Nd γ := ⟨a.shape, fun i => f (a.get i)⟩

def mapArr (f : α → γ) (x : Arr β α) : Arr β γ := ⟨x.dims, mapNd f x.nd⟩

theorem ofNd_map {δ ε : Type} (g : δ → ε) (r : Except Nd.Err δ) :
    Arr.ofNd (r.map g) = (Arr.ofNd r).map g := by
  cases r with
  | ok a => rfl
  | error e => cases e <;> rfl

theorem mk?_map (f : α → γ) (nd : Nd α) (dims : List (Dim β)) :
    Arr.mk? (mapNd f nd) dims = (Arr.mk? nd dims).map (mapArr f) := by
  unfold Arr.mk?
  show (if dims.length = nd.ndim then _ else _) = _
  split <;> rfl

theorem transpose_map (f : α → γ) (x : Arr β α) (order : List Nat) :
    (mapArr f x).transpose order = (x.transpose order).map (mapArr f) := by
  have h : ∀ o, (mapNd f x.nd).transpose o = (x.nd.transpose o).map (mapNd f) := by
    intro o
    unfold Nd.transpose
    show (if Nd.isPerm o x.nd.ndim then _ else _) = _
    split <;> rfl
  simp only [Arr.transpose, mapArr, h, ofNd_map]
  show (match (Arr.ofNd (x.nd.transpose (if order.isEmpty then (List.range x.nd.ndim).reverse
    else order))).map (mapNd f) with
    | .error e => _
    | .ok nd => _) = _
  cases Arr.ofNd (x.nd.transpose (if order.isEmpty then (List.range x.nd.ndim).reverse
    else order)) with
  | error e => rfl
  | ok nd =>
    simp only [Except.map]
    have : (mapNd f x.nd).ndim = x.nd.ndim := rfl
    rw [this]
    cases (if order.isEmpty then (List.range x.nd.ndim).reverse else order).mapM
      fun i => x.dims[i]? with
    | none => rfl
    | some dims => exact mk?_map f nd dims

theorem squeeze_map (f : α → γ) (x : Arr β α) (axes : Option (List Int)) :
    (mapArr f x).squeezeIdx axes = (x.squeezeIdx axes).map (mapArr f) := by
  have h : (mapNd f x.nd).squeeze axes = (x.nd.squeeze axes).map (mapNd f) := by
    unfold Nd.squeeze
    have e1 : (mapNd f x.nd).ndim = x.nd.ndim := rfl
    have e2 : (mapNd f x.nd).shape = x.nd.shape := rfl
    rw [e1, e2]
    cases axes with
    | none => rfl
    | some axs =>
      simp only
      cases Nd.normAxes x.nd.ndim axs with
      | error e => rfl
      | ok ks =>
        simp only
        split <;> rfl
  simp only [Arr.squeezeIdx, mapArr, h, ofNd_map]
  cases Arr.ofNd (x.nd.squeeze axes) with
  | error e => rfl
  | ok nd =>
    simp only [Except.map]
    exact mk?_map f nd _

/-- What an index selects, with other elements. -/
def mapOut (f : α → γ) : Arr.Out β α → Arr.Out β γ
  | .arr a => .arr (mapArr f a)
  | .scalar v => .scalar (f v)
  | .plain => .plain

theorem getitem_map (dflt : β → String) (f : α → γ) (x : Arr β α) (ixs : List Ix) :
    (mapArr f x).getitem dflt ixs = (x.getitem dflt ixs).map (mapOut f) := by
  have h : ∀ l, (mapNd f x.nd).getBasic l = (x.nd.getBasic l).map (mapNd f) := by
    intro l
    unfold Nd.getBasic
    have e2 : (mapNd f x.nd).shape = x.nd.shape := rfl
    rw [e2]
    cases Nd.resolve l x.nd.shape <;> rfl
  unfold Arr.getitem
  split
  · rfl
  · split
    · rfl
    · have e2 : (mapArr f x).dims = x.dims := rfl
      have e3 : (mapArr f x).nd = mapNd f x.nd := rfl
      have e5 : (mapNd f x.nd).ndim = x.nd.ndim := rfl
      simp only [e2, e3, e5]
      cases Arr.expandEllipsis x.nd.ndim ixs with
      | error e => rfl
      | ok l =>
        simp only
        cases Arr.indexDims dflt (l ++ List.replicate (x.nd.ndim - l.length) (.slice Slice.full))
            x.dims with
        | error e => rfl
        | ok dims =>
          simp only [h, ofNd_map]
          cases Arr.ofNd (x.nd.getBasic
              (l ++ List.replicate (x.nd.ndim - l.length) (.slice Slice.full))) with
          | error e => rfl
          | ok nd =>
            simp only [Except.map]
            have e4 : (mapNd f nd).shape = nd.shape := rfl
            rw [e4]
            split
            · rfl
            · rw [mk?_map]
              cases Arr.mk? nd dims <;> rfl

theorem on_map (dflt : β → String) (f : α → γ) (x : Arr β α) (mv : Move) :
    mv.on dflt (mapArr f x) = (mv.on dflt x).map (Option.map (mapArr f)) := by
  cases mv with
  | view => rfl
  | transpose order =>
    simp only [Move.on, transpose_map]
    cases x.transpose order <;> rfl
  | squeeze axes =>
    simp only [Move.on, squeeze_map]
    cases x.squeezeIdx axes <;> rfl
  | item ixs =>
    simp only [Move.on, getitem_map]
    cases x.getitem dflt ixs with
    | error e => rfl
    | ok o => cases o <;> rfl

theorem val_map {m : Mem β α} (junk : α) {o : Obj β} {f : Nat → α} (h : m.bufs[o.buf]? = some f) :
    o.val m.bufs junk = mapArr f o.pos := by
  simp only [Obj.val, h, mapArr, mapNd]

/-- C93: a transposed, squeezed or indexed array always shows the elements of the array it was
made from: at any later time, whatever the program has done, its elements are those that the same
operation gives for the array as it is then. -/
theorem C93_moved [DecidableEq β] (env : Env β α) (m : Mem β α) (hw : Wf m) (r : Nat) (o : Obj β)
    (hr : m.objs[r]? = some o) (mv : Move) (p : Arr β Nat)
    (hp : mv.on env.dflt o.pos = .ok (some p)) (ops : List (Op β α)) :
    let m1 := (step env m (.move r mv)).1
    (step env m (.move r mv)).2 = .ok (.obj m.objs.length) ∧
    seeObj env.junk m1 m.objs.length =
      ((mv.on env.dflt (o.val m.bufs env.junk)).toOption.bind id).map (fun y =>
        ⟨y.dims, y.nd.shape, flatOf y.nd, o.unit, o.fmt⟩) ∧
    ∃ x y, elems env.junk (run env m1 ops) r = some x ∧
      elems env.junk (run env m1 ops) m.objs.length = some y ∧
      mv.on env.dflt ⟨o.pos.dims, x⟩ = .ok (some ⟨p.dims, y⟩) := by
  have hs : step env m (.move r mv) = (addObj m ⟨o.buf, p, o.unit, o.fmt⟩, .ok (.obj m.objs.length)) := by
    simp only [step, viewOf, hr, hp, ofArr]
  have hw1 := wf_step env hw (.move r mv)
  have hb := hw.obj r o hr
  rw [hs] at hw1 ⊢
  have hnew : (addObj m ⟨o.buf, p, o.unit, o.fmt⟩ : Mem β α).objs[m.objs.length]? =
      some ⟨o.buf, p, o.unit, o.fmt⟩ := by simp [addObj]
  refine ⟨rfl, ?_, ?_⟩
  · rw [val_map env.junk (List.getElem?_eq_getElem hb), on_map, hp]
    simp only [seeObj, hnew, Option.map_some]
    have : (addObj m ⟨o.buf, p, o.unit, o.fmt⟩ : Mem β α).bufs[o.buf]? = some m.bufs[o.buf] :=
      List.getElem?_eq_getElem hb
    simp [Except.map, Except.toOption, Obj.val, this, mapArr, mapNd]
  · have e := effect_run env ops ((wf_iff _).1 hw1) (uses_everything env ops hw1)
    have hold : (addObj m ⟨o.buf, p, o.unit, o.fmt⟩ : Mem β α).objs[r]? = some o :=
      getElem?_append_some hr
    obtain ⟨o1, a1, a2, a3, -⟩ := e.objs r o hold
    obtain ⟨o2, b1, b2, b3, -⟩ := e.objs _ _ hnew
    have hb' : o.buf < (run env (addObj m ⟨o.buf, p, o.unit, o.fmt⟩) ops).bufs.length :=
      Nat.lt_of_lt_of_le hb e.nbufs
    refine ⟨_, _, by simp only [elems, a1, Option.map_some]; rfl,
      by simp only [elems, b1, Option.map_some]; rfl, ?_⟩
    have h1 : (o1.val (run env (addObj m ⟨o.buf, p, o.unit, o.fmt⟩) ops).bufs env.junk).nd =
        mapNd (run env (addObj m ⟨o.buf, p, o.unit, o.fmt⟩) ops).bufs[o.buf] o.pos.nd := by
      simp only [Obj.val, a2, a3, List.getElem?_eq_getElem hb', mapNd]
    have h2 : (o2.val (run env (addObj m ⟨o.buf, p, o.unit, o.fmt⟩) ops).bufs env.junk).nd =
        mapNd (run env (addObj m ⟨o.buf, p, o.unit, o.fmt⟩) ops).bufs[o.buf] p.nd := by
      simp only [Obj.val, b2, b3, List.getElem?_eq_getElem hb', mapNd]
    rw [h1, h2]
    have := on_map env.dflt (run env (addObj m ⟨o.buf, p, o.unit, o.fmt⟩) ops).bufs[o.buf] o.pos mv
    rw [hp] at this
    exact this

end HF.Share
