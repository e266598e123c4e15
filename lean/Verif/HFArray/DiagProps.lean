import Verif.HFArray.DiagLemmas
/-
C54: expansion of diagonal axes.
-/
namespace HF.Arr

variable {β α : Type} [DecidableEq β]

/-- Every axis has one coordinate value per index. -/
def Sized (x : Arr β α) : Prop := x.nd.shape = x.dims.map fun d => d.data.length

/-- `e` is one of the dimensions, up to its output format, and the only one of its name. -/
def Alone (dims : List (Dim β)) (e : Dim β) : Prop :=
  ∃ A d B, dims = A ++ d :: B ∧ d.key = e.key ∧ d.data = e.data ∧ d.unit = e.unit ∧
    ∀ z ∈ A ++ B, z.name ≠ e.name

/-- Classes that can be expanded: all diagonal ones except for the abstract base class. -/
def Expandable (c : Cls) : Prop := c.isSub .diagAxis_ = true ∧ c ≠ .diagAxis_

/-- Class of the independent axis of a diagonal one. -/
def indepCls (c : Cls) : Cls := c.indepAxisOf.getD c
/-- Class of the derivative axis of a diagonal one. -/
def derivCls (c : Cls) : Cls := c.derivAxisOf.getD c

theorem expandable_axes {c : Cls} (h : Expandable c) :
    c.indepAxisOf = some (indepCls c) ∧ c.derivAxisOf = some (derivCls c) ∧
      indepCls c ≠ derivCls c := by
  obtain ⟨h, h'⟩ := h
  revert h h'
  cases c <;> decide +kernel

/-- The dimensions of the result: the expanded ones give a pair at the same place. -/
def pairDims (dflt : List β → String) (diags : List (Dim β)) (dims : List (Dim β)) :
    List (Dim β) :=
  dims.flatMap fun d =>
    if d.key ∈ diags.map Dim.key then
      [Dim.copyFrom dflt (indepCls d.cls) d, Dim.copyFrom dflt (derivCls d.cls) d]
    else [d]

/-- The coordinate lies on the diagonal of every expanded axis. -/
def OnDiagonal (diags : List (Dim β)) (c : Coord) : Prop :=
  ∀ d ∈ diags, c (d.name, indepCls d.cls) = c (d.name, derivCls d.cls)

/-- The coordinate of the original array that belongs to a coordinate on the diagonal. -/
def collapse (diags : List (Dim β)) (c : Coord) : Coord := fun k =>
  if k ∈ diags.map Dim.key then c (k.1, indepCls k.2) else c k

theorem eqDim_name {z e : Dim β} (h : z.name ≠ e.name) : z.eqDim e = false := by
  rw [← Bool.not_eq_true, Dim.eqDim_iff]
  exact fun q => h q.2.1

theorem containsDim_of {dims : List (Dim β)} {d e : Dim β} (hd : d ∈ dims)
    (hn : d.name = e.name) (hc : d.cls = e.cls) : containsDim dims e = true := by
  unfold containsDim
  rw [List.any_eq_true]
  refine ⟨d, hd, ?_⟩
  unfold matches_ Dim.isa
  rw [hn, hc, Dim.C05_isSub_preorder.1]
  simp

/-- One step, in terms of indices. -/
theorem expandDiagonal_index (dflt : List β → String) (zero : α) (x : Arr β α) (e d : Dim β)
    (A B : List (Dim β)) (hx : Sized x) (hdims : x.dims = A ++ d :: B)
    (hk : d.key = e.key) (hdat : d.data = e.data) (hu : d.unit = e.unit)
    (hothers : ∀ z ∈ A ++ B, z.name ≠ e.name) (he : Expandable e.cls) :
    ∃ y, expandDiagonal dflt zero x e = .ok y ∧
      y.dims = A ++ Dim.copyFrom dflt (indepCls d.cls) d ::
        Dim.copyFrom dflt (derivCls d.cls) d :: B ∧
      Sized y ∧
      ∀ (a b : List Nat) (i j : Nat), a.length = A.length →
        Nd.Valid y.nd.shape (a ++ i :: j :: b) →
        y.nd.get (a ++ i :: j :: b) = if i = j then x.nd.get (a ++ i :: b) else zero := by
  have hn : d.name = e.name := congrArg Prod.fst hk
  have hc : d.cls = e.cls := congrArg Prod.snd hk
  have hed : d.eqDim e = true := (Dim.eqDim_iff d e).2 ⟨hc, hn, hdat, hu⟩
  have hsh : x.nd.shape = A.map (fun d => d.data.length) ++ d.data.length ::
      B.map (fun d => d.data.length) := by rw [hx, hdims]; simp
  obtain ⟨ax1, ax2, ax3⟩ := expandable_axes (hc ▸ he : Expandable d.cls)
  have hidx : indexOf x.dims e = some A.length := by
    rw [hdims]
    exact indexOf_split A d B e (fun z hz => eqDim_name (hothers z (by simp [hz]))) hed
  have hget : x.dims[A.length]? = some d := by rw [hdims]; simp
  have htake : x.dims.take A.length = A := by rw [hdims]; simp
  have hdrop : x.dims.drop (A.length + 1) = B := by
    rw [hdims, List.drop_append]; simp
  have hstake : x.nd.shape.take A.length = A.map fun d => d.data.length := by
    rw [hsh, List.take_append]; simp [List.take_of_length_le]
  have hsdrop : x.nd.shape.drop (A.length + 1) = B.map fun d => d.data.length := by
    rw [hsh, List.drop_append]; simp [List.drop_eq_nil_of_le]
  have hA : ∀ (c : Cls), ∀ z ∈ A, z.eqDim (Dim.copyFrom dflt c d) = false := fun c z hz =>
    eqDim_name (by
      show z.name ≠ (none : Option String).getD d.name
      rw [Option.getD_none, hn]; exact hothers z (by simp [hz]))
  obtain ⟨S, T, s, t, hS, hst, hview⟩ := diagonalView_pair A B
    (Dim.copyFrom dflt (indepCls d.cls) d) (Dim.copyFrom dflt (derivCls d.cls) d)
    (A.map fun d => d.data.length) (B.map fun d => d.data.length) d.data.length (by simp)
    (hA _) (hA _) (by
      rw [← Bool.not_eq_true, Dim.eqDim_iff]
      exact fun q => ax3 q.1)
  obtain ⟨mem, hmem, hval⟩ := assign_diagonal zero x.nd _ _ S T d.data.length s t hsh hS hst
  refine ⟨⟨A ++ Dim.copyFrom dflt (indepCls d.cls) d ::
      Dim.copyFrom dflt (derivCls d.cls) d :: B,
    ⟨A.map (fun d => d.data.length) ++ d.data.length :: d.data.length ::
      B.map (fun d => d.data.length), fun i => mem (position (strides (A.map
        (fun d => d.data.length) ++ d.data.length :: d.data.length ::
      B.map (fun d => d.data.length))) i)⟩⟩, ?_, rfl, ?_, ?_⟩
  · unfold expandDiagonal
    rw [if_neg (by simp [Dim.isa, he.1]), if_neg (by
      simp [containsDim_of (dims := x.dims) (d := d) (by rw [hdims]; simp) hn hc]), hidx]
    simp only [hget, indepDim, derivDim, ax1, ax2, Option.map_some, htake, hdrop, hstake, hsdrop]
    have hdl : (Dim.copyFrom dflt (indepCls d.cls) d).data.length = d.data.length := rfl
    rw [hdl]
    simp only [List.append_assoc, List.cons_append, List.nil_append, hview, hmem]
    rw [if_pos (by simp)]
  · simp [Sized, Dim.copyFrom]
  · intro a b i j ha hv
    exact hval a b i j (by simpa using ha) hv

theorem pairDims_step (dflt : List β → String) (e d : Dim β) (A B t : List (Dim β))
    (hk : d.key = e.key) (hothers : ∀ z ∈ A ++ B, z.name ≠ e.name)
    (ht : ∀ f ∈ t, f.name ≠ e.name) :
    pairDims dflt t (A ++ Dim.copyFrom dflt (indepCls d.cls) d ::
      Dim.copyFrom dflt (derivCls d.cls) d :: B) = pairDims dflt (e :: t) (A ++ d :: B) := by
  have hn : d.name = e.name := congrArg Prod.fst hk
  have hnot : ∀ k : Key, k.1 = e.name → k ∉ t.map Dim.key := by
    intro k h1 h2
    obtain ⟨f, hf, rfl⟩ := List.mem_map.1 h2
    exact ht f hf h1
  have hL : ∀ L : List (Dim β), (∀ z ∈ L, z.name ≠ e.name) →
      pairDims dflt t L = pairDims dflt (e :: t) L := by
    intro L hL
    unfold pairDims
    refine List.flatMap_congr ?_ 
    intro z hz
    have : z.key ≠ e.key := fun q => hL z hz (congrArg Prod.fst q)
    simp [this]
  unfold pairDims at hL ⊢
  simp only [List.flatMap_append, List.flatMap_cons]
  rw [hL A fun z hz => hothers z (by simp [hz]), hL B fun z hz => hothers z (by simp [hz])]
  rw [if_neg (hnot _ (by simpa [Dim.key, Dim.copyFrom] using hn)),
    if_neg (hnot _ (by simpa [Dim.key, Dim.copyFrom] using hn)),
    if_pos (by rw [hk]; simp)]
  simp

/-- C54.  Expansion of diagonal axes: every expanded axis is replaced, in place, by its
independent and its derivative axis; the value at a coordinate is that of the original
array if the two indices of every expanded axis agree and zero otherwise. -/
theorem C54_expand (dflt : List β → String) (zero : α) (x : Arr β α) (diags : List (Dim β))
    (hx : Sized x) (hd : ∀ e ∈ diags, Alone x.dims e ∧ Expandable e.cls)
    (hn : (diags.map Dim.name).Nodup) :
    ∃ y, expandDiagonals dflt zero x (some diags) = .ok y ∧
      y.dims = pairDims dflt diags x.dims ∧ Sized y ∧
      ∀ c : Coord, y.InRange c →
        (OnDiagonal diags c → x.InRange (collapse diags c) ∧ y.at_ c = x.at_ (collapse diags c)) ∧
        (¬ OnDiagonal diags c → y.at_ c = zero) := by
  show ∃ y, expandLoop dflt zero x diags = .ok y ∧ _
  induction diags generalizing x with
  | nil =>
    refine ⟨x, rfl, by simp [pairDims], hx, fun c hc => ⟨fun _ => ?_, fun h => ?_⟩⟩
    · have : collapse ([] : List (Dim β)) c = c := by funext k; simp [collapse]
      rw [this]; exact ⟨hc, rfl⟩
    · exact absurd (fun d hd => by simp at hd) h
  | cons e t ih =>
    obtain ⟨⟨A, d, B, hdims, hk, hdat, hu, hothers⟩, he⟩ := hd e (by simp)
    obtain ⟨y1, hy1, hy1d, hy1s, hy1v⟩ :=
      expandDiagonal_index dflt zero x e d A B hx hdims hk hdat hu hothers he
    have hnd := List.nodup_cons.1 hn
    have ht : ∀ f ∈ t, f.name ≠ e.name := fun f hf q =>
      hnd.1 (List.mem_map.2 ⟨f, hf, q⟩)
    have hnm : d.name = e.name := congrArg Prod.fst hk
    have hcl : d.cls = e.cls := congrArg Prod.snd hk
    -- the remaining axes are still alone
    have hrest : ∀ f ∈ t, Alone y1.dims f ∧ Expandable f.cls := by
      intro f hf
      obtain ⟨⟨A', d', B', hdims', hk', hdat', hu', hothers'⟩, hf'⟩ := hd f (by simp [hf])
      refine ⟨?_, hf'⟩
      have hnm' : d'.name = f.name := congrArg Prod.fst hk'
      have hfe := ht f hf
      have hci : ∀ c, (Dim.copyFrom dflt c d).name ≠ f.name := fun c q =>
        hfe (by rw [← q]; exact hnm)
      rw [hdims] at hdims'
      rw [hy1d]
      rcases List.append_eq_append_iff.1 hdims' with ⟨C, hC1, hC2⟩ | ⟨C, hC1, hC2⟩
      · -- `d'` lies in `d :: B`
        cases C with
        | nil =>
          simp only [List.nil_append, List.cons.injEq] at hC2
          exact absurd (by rw [← hnm, ← hnm', hC2.1]) hfe
        | cons c0 C =>
          simp only [List.cons_append, List.cons.injEq] at hC2
          obtain ⟨rfl, rfl⟩ := hC2
          refine ⟨A ++ Dim.copyFrom dflt (indepCls d.cls) d ::
            Dim.copyFrom dflt (derivCls d.cls) d :: C, d', B', by simp, hk', hdat', hu', ?_⟩
          intro z hz
          simp only [List.mem_append, List.mem_cons] at hz
          rcases hz with (hz | rfl | rfl | hz) | hz
          · exact hothers' z (by rw [hC1]; simp [hz])
          · exact hci _
          · exact hci _
          · exact hothers' z (by rw [hC1]; simp [hz])
          · exact hothers' z (by simp [hz])
      · cases C with
        | nil =>
          simp only [List.nil_append, List.cons.injEq] at hC2
          exact absurd (by rw [← hnm, ← hnm', hC2.1]) hfe
        | cons c0 C =>
          simp only [List.cons_append, List.cons.injEq] at hC2
          obtain ⟨rfl, rfl⟩ := hC2
          refine ⟨A', d', C ++ Dim.copyFrom dflt (indepCls d.cls) d ::
            Dim.copyFrom dflt (derivCls d.cls) d :: B, by rw [hC1]; simp, hk', hdat', hu', ?_⟩
          intro z hz
          simp only [List.mem_append, List.mem_cons] at hz
          rcases hz with hz | hz | rfl | rfl | hz
          · exact hothers' z (by simp [hz])
          · exact hothers' z (by simp [hz])
          · exact hci _
          · exact hci _
          · exact hothers' z (by simp [hz])
    obtain ⟨y, hy, hyd, hys, hyv⟩ := ih y1 hy1s hrest hnd.2
    refine ⟨y, ?_, ?_, hys, ?_⟩
    · rw [expandLoop, hy1]; exact hy
    · rw [hyd, hy1d, hdims]
      exact pairDims_step dflt e d A B t hk hothers ht
    · intro c hc
      obtain ⟨hon, hoff⟩ := hyv c hc
      have hnot : ∀ k : Key, k.1 = e.name → k ∉ t.map Dim.key := by
        intro k h1 h2
        obtain ⟨f, hf, rfl⟩ := List.mem_map.1 h2
        exact ht f hf h1
      have hcons : OnDiagonal (e :: t) c ↔
          c (e.name, indepCls e.cls) = c (e.name, derivCls e.cls) ∧ OnDiagonal t c := by
        simp [OnDiagonal]
      by_cases hot : OnDiagonal t c
      · obtain ⟨hir, hval⟩ := hon hot
        -- the step for `e`
        have hmap : ∀ c : Coord, y1.dims.map (fun d => c d.key) =
            A.map (fun d => c d.key) ++ c (e.name, indepCls e.cls) ::
              c (e.name, derivCls e.cls) :: B.map (fun d => c d.key) := by
          intro c
          rw [hy1d]
          simp [Dim.key, Dim.copyFrom, hnm, hcl]
        have hat : y1.at_ (collapse t c) =
            if c (e.name, indepCls e.cls) = c (e.name, derivCls e.cls) then
              x.nd.get (A.map (fun d => collapse t c d.key) ++ c (e.name, indepCls e.cls) ::
                B.map (fun d => collapse t c d.key)) else zero := by
          have h1 : collapse t c (e.name, indepCls e.cls) = c (e.name, indepCls e.cls) := by
            unfold collapse; rw [if_neg (hnot _ rfl)]
          have h2 : collapse t c (e.name, derivCls e.cls) = c (e.name, derivCls e.cls) := by
            unfold collapse; rw [if_neg (hnot _ rfl)]
          unfold at_
          have := hy1v (A.map fun d => collapse t c d.key) (B.map fun d => collapse t c d.key)
            (c (e.name, indepCls e.cls)) (c (e.name, derivCls e.cls)) (by simp) (by
              have := hir
              unfold InRange at this
              rw [hmap, h1, h2] at this
              exact this)
          rw [hmap, h1, h2, this]
        have hsame : x.dims.map (fun d => collapse (e :: t) c d.key) =
            A.map (fun d => collapse t c d.key) ++ c (e.name, indepCls e.cls) ::
                B.map (fun d => collapse t c d.key) := by
          have hL : ∀ L : List (Dim β), (∀ z ∈ L, z.name ≠ e.name) →
              L.map (fun d => collapse (e :: t) c d.key) =
                L.map (fun d => collapse t c d.key) := by
            intro L hL
            refine List.map_congr_left ?_
            intro z hz
            have : z.key ≠ e.key := fun q => hL z hz (congrArg Prod.fst q)
            simp [collapse, this]
          rw [hdims, List.map_append, List.map_cons,
            hL A fun z hz => hothers z (by simp [hz]),
            hL B fun z hz => hothers z (by simp [hz])]
          congr 2
          rw [hk]
          unfold collapse
          rw [if_pos (by simp)]
          rfl
        refine ⟨fun h => ⟨?_, ?_⟩, fun h => ?_⟩
        · have heq := (hcons.1 h).1
          unfold InRange at hir ⊢
          rw [hsame, hx, hdims]
          rw [hy1s, hmap, hy1d] at hir
          rw [List.map_append, List.map_cons]
          rw [List.map_append, List.map_cons, List.map_cons] at hir
          rw [Nd.valid_append (by simp)] at hir ⊢
          obtain ⟨p, q⟩ := hir
          have q : collapse t c (e.name, indepCls e.cls) < d.data.length ∧ _ < _ ∧
            Nd.Valid (B.map fun d => d.data.length) (B.map fun d => collapse t c d.key) := q
          refine ⟨p, ?_, q.2.2⟩
          have := q.1
          unfold collapse at this
          rwa [if_neg (hnot _ rfl)] at this
        · rw [hval, hat, if_pos (hcons.1 h).1]
          unfold at_
          rw [hsame]
        · rw [hval, hat, if_neg]
          exact fun q => h (hcons.2 ⟨q, hot⟩)
      · refine ⟨fun h => absurd (hcons.1 h).2 hot, fun _ => hoff hot⟩

/-- The diagonal axes of an array. -/
def diagonals (dims : List (Dim β)) : List (Dim β) := dims.filter fun d => d.isa .diagAxis_

/-- No other axis has the name of a diagonal axis. -/
def OwnNames (dims : List (Dim β)) : Prop :=
  dims.Pairwise fun d e => d.name = e.name → d.isa .diagAxis_ = false ∧ e.isa .diagAxis_ = false

theorem alone_of_own {dims : List (Dim β)} (h : OwnNames dims) {e : Dim β}
    (he : e ∈ diagonals dims) : Alone dims e := by
  have hm := List.mem_filter.1 he
  obtain ⟨A, B, rfl⟩ := List.append_of_mem hm.1
  refine ⟨A, e, B, rfl, rfl, rfl, rfl, ?_⟩
  intro z hz q
  have h := List.pairwise_append.1 h
  rcases List.mem_append.1 hz with hz | hz
  · have := (h.2.2 z hz e (by simp) q).2
    rw [this] at hm; simp at hm
  · have := ((List.pairwise_cons.1 h.2.1).1 z hz q.symm).1
    rw [this] at hm; simp at hm

theorem names_of_own {dims : List (Dim β)} (h : OwnNames dims) :
    ((diagonals dims).map Dim.name).Nodup := by
  rw [List.Nodup, List.pairwise_map]
  have h1 : (diagonals dims).Pairwise fun d e =>
      d.name = e.name → d.isa .diagAxis_ = false ∧ e.isa .diagAxis_ = false :=
    List.Pairwise.filter _ h
  refine List.Pairwise.imp_of_mem ?_ h1
  intro a b ha _ hab q
  have := (List.mem_filter.1 ha).2
  rw [(hab q).1] at this
  simp at this

/-- C54.  Without a list of axes all diagonal axes are expanded. -/
theorem C54_expand_all (dflt : List β → String) (zero : α) (x : Arr β α) (hx : Sized x)
    (hn : OwnNames x.dims) (hb : ∀ d ∈ x.dims, d.cls ≠ .diagAxis_) :
    ∃ y, expandDiagonals dflt zero x = .ok y ∧
      y.dims = pairDims dflt (diagonals x.dims) x.dims ∧ Sized y ∧
      ∀ c : Coord, y.InRange c →
        (OnDiagonal (diagonals x.dims) c → x.InRange (collapse (diagonals x.dims) c) ∧
          y.at_ c = x.at_ (collapse (diagonals x.dims) c)) ∧
        (¬ OnDiagonal (diagonals x.dims) c → y.at_ c = zero) :=
  C54_expand dflt zero x (diagonals x.dims) hx
    (fun e he => ⟨alone_of_own hn he, (List.mem_filter.1 he).2,
      hb e (List.mem_filter.1 he).1⟩) (names_of_own hn)

/-- The independent and derivative axes of the classes outside of the matrix dimensions are
not diagonal. -/
theorem axes_not_diagonal {c : Cls} (h : Expandable c) (hm : c.isSub .dimMatrix_ = false) :
    (indepCls c).isSub .diagAxis_ = false ∧ (derivCls c).isSub .diagAxis_ = false := by
  obtain ⟨h, h'⟩ := h
  revert h h' hm
  cases c <;> decide +kernel

/-- C54.  Without matrix dimensions no diagonal axis is left, so expanding once more
changes nothing. -/
theorem C54_expand_twice (dflt : List β → String) (zero : α) (x : Arr β α) (hx : Sized x)
    (hn : OwnNames x.dims) (hb : ∀ d ∈ x.dims, d.cls ≠ .diagAxis_)
    (hm : ∀ d ∈ x.dims, d.isa .dimMatrix_ = false) :
    ∃ y, expandDiagonals dflt zero x = .ok y ∧ (∀ d ∈ y.dims, d.isa .diagAxis_ = false) ∧
      expandDiagonals dflt zero y = .ok y := by
  obtain ⟨y, hy, hyd, -, -⟩ := C54_expand_all dflt zero x hx hn hb
  have hno : ∀ d ∈ y.dims, d.isa .diagAxis_ = false := by
    intro d hd
    rw [hyd] at hd
    obtain ⟨z, hz, hd⟩ := List.mem_flatMap.1 hd
    split at hd
    · next hk =>
      obtain ⟨e, he, hk⟩ := List.mem_map.1 hk
      have hc : e.cls = z.cls := congrArg Prod.snd hk
      have hex : Expandable z.cls := ⟨by rw [← hc]; exact (List.mem_filter.1 he).2, hb z hz⟩
      have := axes_not_diagonal hex (hm z hz)
      simp only [List.mem_cons, List.not_mem_nil, or_false] at hd
      rcases hd with rfl | rfl
      · exact this.1
      · exact this.2
    · next hk =>
      simp only [List.mem_singleton] at hd
      subst hd
      rw [← Bool.not_eq_true]
      exact fun q => hk (List.mem_map.2 ⟨d, List.mem_filter.2 ⟨hz, q⟩, rfl⟩)
  refine ⟨y, hy, hno, ?_⟩
  unfold expandDiagonals
  have : (y.dims.filter fun d => d.isa .diagAxis_) = [] := by
    rw [List.filter_eq_nil_iff]
    intro d hd
    simp [hno d hd]
  rw [Option.getD_none, this]
  rfl

/-- C54.  Axes that are not diagonal, or that the array does not have, or has with other
coordinate values or another unit, are rejected. -/
theorem C54_rejected (dflt : List β → String) (zero : α) (x : Arr β α) (e : Dim β)
    (rest : List (Dim β)) :
    (e.isa .diagAxis_ = false →
      expandDiagonals dflt zero x (some (e :: rest)) = .error .notDiagonal) ∧
    (e.isa .diagAxis_ = true → (∀ d ∈ x.dims, d.name = e.name → d.isa e.cls = false) →
      expandDiagonals dflt zero x (some (e :: rest)) = .error .noSuchAxis) ∧
    (e.isa .diagAxis_ = true → (∃ d ∈ x.dims, d.name = e.name ∧ d.isa e.cls = true) →
      (∀ d ∈ x.dims, d.key = e.key → d.data ≠ e.data ∨ d.unit ≠ e.unit) →
      expandDiagonals dflt zero x (some (e :: rest)) = .error .valueError) := by
  have hrun : ∀ err, expandDiagonal dflt zero x e = .error err →
      expandDiagonals dflt zero x (some (e :: rest)) = .error err := by
    intro err h
    show expandLoop dflt zero x (e :: rest) = _
    rw [expandLoop, h]
  refine ⟨fun h => hrun _ ?_, fun h hno => hrun _ ?_, fun h ⟨d, hd, hdn, hdi⟩ hno => hrun _ ?_⟩
  · unfold expandDiagonal; rw [if_pos (by simp [h])]
  · have hc : containsDim x.dims e = false := by
      rw [← Bool.not_eq_true]
      unfold containsDim
      rw [List.any_eq_true]
      rintro ⟨d, hd, hm⟩
      unfold matches_ at hm
      rw [Bool.and_eq_true, beq_iff_eq] at hm
      rw [hno d hd hm.1] at hm
      simp at hm
    unfold expandDiagonal
    rw [if_neg (by simp [h]), if_pos (by simp [hc])]
  · have hc : containsDim x.dims e = true := by
      unfold containsDim
      rw [List.any_eq_true]
      exact ⟨d, hd, by unfold matches_; rw [Bool.and_eq_true, beq_iff_eq]; exact ⟨hdn, hdi⟩⟩
    unfold expandDiagonal
    rw [if_neg (by simp [h]), if_neg (by simp [hc]), indexOf_none]
    intro z hz
    rw [← Bool.not_eq_true, Dim.eqDim_iff]
    rintro ⟨h1, h2, h3, h4⟩
    rcases hno z hz (by unfold Dim.key; rw [h1, h2]) with q | q
    · exact q h3
    · exact q h4

/-- C54.  Matrix dimensions: the axes of an expanded matrix dimension count as diagonal
again, so that a second expansion is not without effect. -/
theorem C54_matrix_refuted :
    ∃ x y z : Arr Nat Int, Sized x ∧ OwnNames x.dims ∧ (∀ d ∈ x.dims, d.cls ≠ .diagAxis_) ∧
      expandDiagonals (fun _ => "%d") 0 x = .ok y ∧ y.dims.length = 2 ∧
      expandDiagonals (fun _ => "%d") 0 y = .ok z ∧ z.dims.length = 4 := by
  let x : Arr Nat Int := ⟨[⟨.matI, "i", [0, 1], none, none⟩], ⟨[2], fun i => 7 + i.getD 0 0⟩⟩
  have h1 : ((expandDiagonals (fun _ => "%d") 0 x).map fun y => y.dims.length).toOption = some 2 := by
    decide +kernel
  have h2 : ((expandDiagonals (fun _ => "%d") 0 x).bind fun y =>
      (expandDiagonals (fun _ => "%d") 0 y).map fun z => z.dims.length).toOption = some 4 := by
    decide +kernel
  cases hy : expandDiagonals (fun _ => "%d") 0 x with
  | error e => rw [hy] at h1; simp [Except.map, Except.toOption] at h1
  | ok y =>
    rw [hy] at h1 h2
    cases hz : expandDiagonals (fun _ => "%d") 0 y with
    | error e => simp [Except.bind, Except.map, Except.toOption, hz] at h2
    | ok z =>
      simp [Except.bind, Except.map, Except.toOption, hz] at h1 h2
      exact ⟨x, y, z, rfl, by unfold OwnNames; decide +kernel, by decide +kernel, hy, h1, hz, h2⟩

/-- A vector over a sweep and a repetition. -/
def sample : Arr Nat Int :=
  ⟨[⟨.dimSweep, "f", [10, 20], none, none⟩, ⟨.dimRep, "r", [0, 1, 2], none, none⟩],
    ⟨[2, 3], fun i => 5 + 3 * i.getD 0 0 + i.getD 1 0⟩⟩

example : Sized sample ∧ OwnNames sample.dims ∧ (∀ d ∈ sample.dims, d.cls ≠ .diagAxis_) ∧
    (∀ d ∈ sample.dims, d.isa .dimMatrix_ = false) ∧
    Alone sample.dims ⟨.dimRep, "r", [0, 1, 2], none, some "%d"⟩ ∧ Expandable .dimRep := by
  refine ⟨rfl, by unfold OwnNames; decide +kernel, by decide +kernel, by decide +kernel,
    ⟨[⟨.dimSweep, "f", [10, 20], none, none⟩], ⟨.dimRep, "r", [0, 1, 2], none, none⟩, [], rfl, rfl,
      rfl, rfl, by decide +kernel⟩, by decide +kernel, by decide +kernel⟩

end HF.Arr
