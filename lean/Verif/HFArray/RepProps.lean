import Mathlib.Tactic.Ring
import Verif.HFArray.Rep
import Verif.HFArray.IndexProps
/-
C10: removing repetition dimensions.
-/
namespace HF
namespace Arr

variable {β α : Type} [DecidableEq β]

omit [DecidableEq β] in
theorem repAxes_block {p b q : List (Dim β)} (hp : ∀ d ∈ p, d.isa .dimRep = false)
    (hq : ∀ d ∈ q, d.isa .dimRep = false) :
    repAxes (p ++ b ++ q) = (b.zipIdx p.length).filter fun t => t.1.isa .dimRep := by
  unfold repAxes
  rw [List.zipIdx_append, List.zipIdx_append, List.filter_append, List.filter_append]
  have h1 : (p.zipIdx).filter (fun t => t.1.isa .dimRep) = [] := by
    rw [List.filter_eq_nil_iff]
    rintro ⟨d, i⟩ hm
    simp [hp d (by have := List.mem_zipIdx hm; simp [this.2.2])]
  have h2 : ∀ k, (q.zipIdx k).filter (fun t => t.1.isa .dimRep) = [] := by
    intro k
    rw [List.filter_eq_nil_iff]
    rintro ⟨d, i⟩ hm
    simp [hq d (by have := List.mem_zipIdx hm; simp [this.2.2])]
  rw [h1, h2]; simp

omit [DecidableEq β] in
theorem filter_zipIdx_fst (b : List (Dim β)) (k : Nat) :
    ((b.zipIdx k).filter fun t => t.1.isa .dimRep).map Prod.fst = b.filter fun d => d.isa .dimRep := by
  induction b generalizing k with
  | nil => rfl
  | cons d t ih => rw [List.zipIdx_cons]; simp only [List.filter_cons]; split <;> simp [ih]

/-- Lengths of the repetition axes of a block of axes. -/
def repLens (b : List (Dim β)) (sb : List Nat) : List Nat :=
  ((b.zip sb).filter fun t => t.1.isa .dimRep).map Prod.snd

omit [DecidableEq β] in
theorem filter_zipIdx_shape (b : List (Dim β)) (sp sb sq : List Nat)
    (hl : sb.length = b.length) :
    ((b.zipIdx sp.length).filter fun t => t.1.isa .dimRep).map
      (fun t => (sp ++ sb ++ sq).getD t.2 0) = repLens b sb := by
  induction b generalizing sp sb with
  | nil => simp [repLens]
  | cons d t ih =>
    cases sb with
    | nil => simp at hl
    | cons s sb =>
      have := ih (sp ++ [s]) sb (by simpa using hl)
      rw [List.zipIdx_cons]
      simp only [List.filter_cons, repLens, List.zip_cons_cons]
      simp only [List.append_assoc, List.singleton_append, List.length_append, List.length_cons,
        List.length_nil, Nat.zero_add, List.cons_append, List.nil_append, repLens] at this ⊢
      split
      · rw [List.map_cons, this]; simp [List.getD_eq_getElem?_getD]
      · exact this

/-- What `remove_rep` does, with the axes written as `p ++ b ++ q`, where the block `b` begins
and ends with a repetition axis and contains all of them. -/
theorem removeRep_eq (ofIdx : Nat → β) (x : Arr β α) (hwf : x.WF) (name : String)
    (hn : (x.dims.map Dim.name).Nodup) (p q : List (Dim β)) (d0 d1 : Dim β) (b : List (Dim β))
    (hdims : x.dims = p ++ b ++ q)
    (hb0 : b.head? = some d0) (hb1 : b.getLast? = some d1)
    (hd0 : d0.isa .dimRep = true) (hd1 : d1.isa .dimRep = true)
    (hp : ∀ d ∈ p, d.isa .dimRep = false) (hq : ∀ d ∈ q, d.isa .dimRep = false)
    (sp sb sq : List Nat) (hsh : x.nd.shape = sp ++ sb ++ sq)
    (hsp : sp.length = p.length) (hsb : sb.length = b.length) :
    removeRep ofIdx x name =
      match ofNd (x.nd.reshape (sp ++ Nd.size (repLens b sb) :: sq)) with
      | .error e => .error e
      | .ok nd => .ok ⟨p ++ ⟨.dimRep, name, (List.range (Nd.size (repLens b sb))).map ofIdx,
          none, none⟩ :: q, nd⟩ := by
  have hax := repAxes_block (b := b) hp hq
  rw [← hdims] at hax
  -- first
  obtain ⟨rest, hrest⟩ : ∃ rest, repAxes x.dims = (d0, p.length) :: rest := by
    cases b with
    | nil => simp at hb0
    | cons e t =>
      simp at hb0; subst hb0
      rw [hax, List.zipIdx_cons, List.filter_cons]
      simp only [hd0, if_true]
      exact ⟨_, rfl⟩
  -- last
  have hlast : (repAxes x.dims).getLast? = some (d1, p.length + b.length - 1) := by
    rw [hax]
    have hbne : b ≠ [] := by rintro rfl; simp at hb0
    have : b = b.dropLast ++ [d1] := by
      rw [List.getLast?_eq_some_getLast hbne] at hb1
      rw [← Option.some.inj hb1]; exact (List.dropLast_append_getLast hbne).symm
    rw [this, List.zipIdx_append, List.filter_append]
    simp [hd1]
  have hfst : ((repAxes x.dims).map Prod.fst) = b.filter fun d => d.isa .dimRep := by
    rw [hax, filter_zipIdx_fst]
  have hshapes : ((repAxes x.dims).map fun t => x.nd.shape.getD t.2 0) = repLens b sb := by
    rw [hax, hsh, ← hsp]; exact filter_zipIdx_shape b sp sb sq hsb
  have hbne : 0 < b.length := by cases b with
    | nil => simp at hb0
    | cons => simp
  -- reordering succeeds
  have hnd : x.dims.Nodup := List.Nodup.of_map _ hn
  have hre : ∃ y, reorderDimensions x ((x.dims.take p.length ++
      ((d0, p.length) :: rest).map Prod.fst).map .dim) = .ok y := by
    rw [← hrest, hfst]
    have htake : x.dims.take p.length = p := by rw [hdims]; simp
    rw [htake]
    obtain ⟨y, hy, _⟩ := C07_reorder x hwf hn (p ++ b.filter fun d => d.isa .dimRep) _
      (forall₂_refersTo _) (by
        rw [hdims]; intro e he; simp at he ⊢; tauto) (by
        rw [hdims] at hnd
        exact (List.Sublist.append (List.Sublist.refl p) List.filter_sublist).nodup
          (List.nodup_append.1 hnd).1)
    exact ⟨y, hy⟩
  obtain ⟨y, hy⟩ := hre
  unfold removeRep
  rw [hrest] at hlast hshapes ⊢
  simp only [hlast, Option.map_some, Option.getD_some, hshapes, hy]
  have t1 : x.nd.shape.take p.length = sp := by rw [hsh, ← hsp]; simp
  have t2 : x.nd.shape.drop (p.length + b.length - 1 + 1) = sq := by
    rw [hsh, ← hsp, ← hsb]
    have : sp.length + sb.length - 1 + 1 = (sp ++ sb).length := by simp; omega
    rw [this]; simp
  have t3 : x.dims.take p.length = p := by rw [hdims]; simp
  have t4 : x.dims.drop (p.length + b.length - 1 + 1) = q := by
    rw [hdims]
    have : p.length + b.length - 1 + 1 = (p ++ b).length := by simp; omega
    rw [this]; simp
  rw [t1, t2, t3, t4]
  have hlen : p.length + (q.length + 1) = sp.length + (sq.length + 1) := by
    have : x.dims.length = x.nd.shape.length := hwf
    rw [hdims, hsh] at this
    simp at this
    omega
  unfold Nd.reshape
  by_cases hsz : Nd.size (sp ++ Nd.size (repLens b sb) :: sq) = Nd.size x.nd.shape
  · simp only [hsz, if_true, ofNd, mk?, Nd.ndim, List.length_append, List.length_cons, hlen]
  · simp only [hsz, if_false, ofNd]

/-- Set one coordinate. -/
def setCoord (c : Coord) (k : Key) (v : Nat) : Coord := fun q => if q = k then v else c q

omit [DecidableEq β] in
theorem repLens_all {b : List (Dim β)} {sb : List Nat} (hl : sb.length = b.length)
    (h : ∀ d ∈ b, d.isa .dimRep = true) : repLens b sb = sb := by
  induction b generalizing sb with
  | nil => cases sb with
    | nil => rfl
    | cons => simp at hl
  | cons d t ih =>
    cases sb with
    | nil => simp at hl
    | cons s sb =>
      have := ih (sb := sb) (by simpa using hl) fun e he => h e (by simp [he])
      simp only [repLens] at this
      simp [repLens, List.filter_cons, h d (by simp), this]

/-- C10.  `remove_rep` on adjacent repetition dims `reps`: they are replaced by a single
`DimRep` with as many values as there were combinations, all other dims stay where they are,
and the element with repetition indices `(k1, k2, ..)` is found at their row-major number. -/
theorem C10_remove_rep (ofIdx : Nat → β) (x : Arr β α) (hwf : x.WF) (name : String)
    (hn : (x.dims.map Dim.name).Nodup) (p reps q : List (Dim β))
    (hdims : x.dims = p ++ reps ++ q) (hne : reps ≠ [])
    (hr : ∀ d ∈ reps, d.isa .dimRep = true)
    (hp : ∀ d ∈ p, d.isa .dimRep = false) (hq : ∀ d ∈ q, d.isa .dimRep = false)
    (sp sr sq : List Nat) (hsh : x.nd.shape = sp ++ sr ++ sq)
    (hsp : sp.length = p.length) (hsr : sr.length = reps.length) :
    ∃ r, removeRep ofIdx x name = .ok r ∧ r.WF ∧
      r.dims = p ++ ⟨.dimRep, name, (List.range (Nd.size sr)).map ofIdx, none, none⟩ :: q ∧
      r.nd.shape = sp ++ Nd.size sr :: sq ∧
      ∀ c, x.InRange c → (∀ d ∈ p ++ q, d.key ≠ (name, .dimRep)) →
        r.InRange (setCoord c (name, .dimRep) (Nd.ravel sr (reps.map fun d => c d.key))) ∧
        r.at_ (setCoord c (name, .dimRep) (Nd.ravel sr (reps.map fun d => c d.key))) = x.at_ c := by
  obtain ⟨d0, t, rfl⟩ := List.exists_cons_of_ne_nil hne
  have hlast : (d0 :: t).getLast? = some ((d0 :: t).getLast hne) := List.getLast?_eq_some_getLast hne
  have heq := removeRep_eq ofIdx x hwf name hn p q d0 ((d0 :: t).getLast hne) (d0 :: t) hdims rfl hlast
    (hr _ (by simp)) (hr _ (List.getLast_mem hne)) hp hq sp sr sq hsh hsp hsr
  rw [repLens_all hsr hr] at heq
  have hsize : Nd.size (sp ++ Nd.size sr :: sq) = Nd.size x.nd.shape := by
    rw [hsh, Nd.size_append, Nd.size_append, Nd.size_append, Nd.size, Nat.mul_assoc]
  have hlen : p.length + (q.length + 1) = sp.length + (sq.length + 1) := by
    have : x.dims.length = x.nd.shape.length := hwf
    rw [hdims, hsh] at this
    simp only [List.length_append] at this
    omega
  unfold Nd.reshape at heq
  simp only [hsize, if_true, ofNd] at heq
  refine ⟨_, heq, by simp [WF, hlen], rfl, rfl, ?_⟩
  intro c hc hfresh
  have hkey : (⟨.dimRep, name, (List.range (Nd.size sr)).map ofIdx, none, none⟩ : Dim β).key =
      (name, .dimRep) := rfl
  have hother : ∀ l : List (Dim β), l ⊆ p ++ q → ∀ v,
      (l.map fun d => setCoord c (name, .dimRep) v d.key) = l.map fun d => c d.key := by
    intro l hl v
    refine List.map_congr_left fun d hd => ?_
    simp [setCoord, hfresh d (hl hd)]
  have hc' := hc
  unfold InRange at hc'
  rw [hsh, hdims, List.map_append, List.map_append, List.append_assoc, List.append_assoc,
    Nd.valid_append (by simp [hsp]), Nd.valid_append (by simpa using hsr.symm)] at hc'
  obtain ⟨v1, v2, v3⟩ := hc'
  have hix : ((p ++ ⟨.dimRep, name, (List.range (Nd.size sr)).map ofIdx, none, none⟩ :: q).map fun d =>
        setCoord c (name, .dimRep) (Nd.ravel sr ((d0 :: t).map fun d => c d.key)) d.key) =
      (p.map fun d => c d.key) ++ Nd.ravel sr ((d0 :: t).map fun d => c d.key) ::
        q.map fun d => c d.key := by
    rw [List.map_append, hother p (by simp)]
    rw [List.map_cons (l := q), hother q (by simp), hkey]
    simp [setCoord]
  have hval : Nd.Valid (sp ++ Nd.size sr :: sq) ((p.map fun d => c d.key) ++
      Nd.ravel sr ((d0 :: t).map fun d => c d.key) :: q.map fun d => c d.key) := by
    rw [Nd.valid_append (by simp [hsp])]
    exact ⟨v1, Nd.ravel_lt v2, v3⟩
  refine ⟨by unfold InRange; rw [hix]; exact hval, ?_⟩
  simp only [at_]
  rw [hix]
  congr 1
  have hrav : Nd.ravel (sp ++ Nd.size sr :: sq) ((p.map fun d => c d.key) ++
      Nd.ravel sr ((d0 :: t).map fun d => c d.key) :: q.map fun d => c d.key) =
      Nd.ravel x.nd.shape (x.dims.map fun d => c d.key) := by
    rw [hsh, hdims, List.map_append, List.map_append, List.append_assoc, List.append_assoc,
      Nd.ravel_append v1, Nd.ravel_append v1, Nd.ravel_append v2]
    simp only [Nd.ravel, Nd.size, Nd.size_append]
  rw [hrav, Nd.unravel_ravel hc]

/-- C10.  The row-major numbering of the repetitions loses nothing: different combinations get
different numbers below the total, and every number is used. -/
theorem C10_numbering_bijective (sr : List Nat) :
    (∀ i j, Nd.Valid sr i → Nd.Valid sr j → Nd.ravel sr i = Nd.ravel sr j → i = j) ∧
    ∀ k < Nd.size sr, ∃ i, Nd.Valid sr i ∧ Nd.ravel sr i = k :=
  ⟨fun i j hi hj h => by rw [← Nd.unravel_ravel hi, ← Nd.unravel_ravel hj, h],
   fun k hk => ⟨Nd.unravel sr k, Nd.valid_unravel hk, Nd.ravel_unravel hk⟩⟩

/-- C10.  Without repetition dims nothing happens. -/
theorem C10_no_rep (ofIdx : Nat → β) (x : Arr β α) (name : String)
    (h : ∀ d ∈ x.dims, d.isa .dimRep = false) : removeRep ofIdx x name = .ok x := by
  have := repAxes_block (b := []) (p := x.dims) (q := []) h (by simp)
  simp only [List.append_nil, List.zipIdx_nil, List.filter_nil] at this
  simp [removeRep, this]

/-- Lengths of the axes of a block that are no repetition axes. -/
def gapLens (b : List (Dim β)) (sb : List Nat) : List Nat :=
  ((b.zip sb).filter fun t => !t.1.isa .dimRep).map Prod.snd

omit [DecidableEq β] in
theorem size_gap (b : List (Dim β)) (sb : List Nat) (h : sb.length = b.length) :
    Nd.size sb = Nd.size (repLens b sb) * Nd.size (gapLens b sb) := by
  induction b generalizing sb with
  | nil =>
    have : sb = [] := by simpa using h
    subst this
    simp [repLens, gapLens, Nd.size]
  | cons d t ih =>
    cases sb with
    | nil => simp at h
    | cons s sb =>
      have := ih sb (by simpa using h)
      simp only [repLens, gapLens] at this
      simp only [Nd.size, this, repLens, gapLens, List.zip_cons_cons, List.filter_cons]
      by_cases hd : d.isa .dimRep = true
      · simp [hd, Nd.size]; ring
      · simp [hd, Nd.size]; ring

/-- C10.  If the axes of other kinds that lie anywhere between the first and the last repetition axis have
more than one element together (and the array is not empty), `remove_rep` raises `ValueError`. -/
theorem C10_gap_rejected (ofIdx : Nat → β) (x : Arr β α) (hwf : x.WF) (name : String)
    (hn : (x.dims.map Dim.name).Nodup) (p b q : List (Dim β)) (r1 r2 : Dim β)
    (hdims : x.dims = p ++ b ++ q) (hb1 : b.head? = some r1) (hb2 : b.getLast? = some r2)
    (hr1 : r1.isa .dimRep = true) (hr2 : r2.isa .dimRep = true)
    (hp : ∀ d ∈ p, d.isa .dimRep = false) (hq : ∀ d ∈ q, d.isa .dimRep = false)
    (sp sb sq : List Nat) (hsh : x.nd.shape = sp ++ sb ++ sq)
    (hsp : sp.length = p.length) (hsb : sb.length = b.length)
    (hne : Nd.size x.nd.shape ≠ 0) (hgap : Nd.size (gapLens b sb) ≠ 1) :
    removeRep ofIdx x name = .error .valueError := by
  have heq := removeRep_eq ofIdx x hwf name hn p q r1 r2 b hdims hb1 hb2 hr1 hr2 hp hq sp sb sq hsh hsp hsb
  have hsz : Nd.size (sp ++ Nd.size (repLens b sb) :: sq) ≠ Nd.size x.nd.shape := by
    rw [hsh] at hne ⊢
    simp only [Nd.size_append, Nd.size, size_gap b sb hsb] at hne ⊢
    intro h
    apply hgap
    have h0 : 0 < Nd.size sp * Nd.size (repLens b sb) * Nd.size sq := by
      apply Nat.pos_of_ne_zero
      intro h1
      apply hne
      have : Nd.size sp * (Nd.size (repLens b sb) * Nd.size (gapLens b sb)) * Nd.size sq =
        Nd.size sp * Nd.size (repLens b sb) * Nd.size sq * Nd.size (gapLens b sb) := by ring
      rw [this, h1, Nat.zero_mul]
    have h2 : Nd.size sp * Nd.size (repLens b sb) * Nd.size sq * Nd.size (gapLens b sb) =
        Nd.size sp * Nd.size (repLens b sb) * Nd.size sq * 1 := by
      calc _ = Nd.size sp * (Nd.size (repLens b sb) * Nd.size (gapLens b sb)) * Nd.size sq := by ring
        _ = Nd.size sp * (Nd.size (repLens b sb) * Nd.size sq) := h.symm
        _ = _ := by ring
    exact Nat.eq_of_mul_eq_mul_left h0 h2
  unfold Nd.reshape at heq
  simpa only [hsz, if_false, ofNd] using heq

/-- C10.  If all axes between the repetition axes have length one, they vanish from the
result together with their coordinate value. -/
theorem C10_gap_dropped (ofIdx : Nat → β) (x : Arr β α) (hwf : x.WF) (name : String)
    (hn : (x.dims.map Dim.name).Nodup) (p b q : List (Dim β)) (r1 r2 : Dim β)
    (hdims : x.dims = p ++ b ++ q) (hb1 : b.head? = some r1) (hb2 : b.getLast? = some r2)
    (hr1 : r1.isa .dimRep = true) (hr2 : r2.isa .dimRep = true)
    (hp : ∀ d ∈ p, d.isa .dimRep = false) (hq : ∀ d ∈ q, d.isa .dimRep = false)
    (sp sb sq : List Nat) (hsh : x.nd.shape = sp ++ sb ++ sq)
    (hsp : sp.length = p.length) (hsb : sb.length = b.length)
    (hgap : Nd.size (gapLens b sb) = 1) :
    ∃ r, removeRep ofIdx x name = .ok r ∧
      r.dims.map Dim.key = p.map Dim.key ++ (name, .dimRep) :: q.map Dim.key ∧
      r.nd.shape = sp ++ Nd.size sb :: sq ∧
      ∀ ip ib iq, Nd.Valid sp ip → Nd.Valid sb ib → Nd.Valid sq iq →
        r.nd.get (ip ++ Nd.ravel sb ib :: iq) = x.nd.get (ip ++ ib ++ iq) := by
  have heq := removeRep_eq ofIdx x hwf name hn p q r1 r2 b hdims hb1 hb2 hr1 hr2 hp hq sp sb sq hsh hsp hsb
  have hs : Nd.size (repLens b sb) = Nd.size sb := by rw [size_gap b sb hsb, hgap, Nat.mul_one]
  rw [hs] at heq
  have hsz : Nd.size (sp ++ Nd.size sb :: sq) = Nd.size x.nd.shape := by
    rw [hsh]
    simp only [Nd.size_append, Nd.size]
    ring
  unfold Nd.reshape at heq
  simp only [hsz, if_true, ofNd] at heq
  refine ⟨_, heq, by simp [Dim.key], rfl, ?_⟩
  intro ip ib iq v1 v2 v3
  simp only
  congr 1
  have hval : Nd.Valid x.nd.shape (ip ++ ib ++ iq) := by
    rw [hsh, List.append_assoc, List.append_assoc, Nd.valid_append (Nd.valid_iff.1 v1).1,
      Nd.valid_append (Nd.valid_iff.1 v2).1]
    exact ⟨v1, v2, v3⟩
  have hrav : Nd.ravel (sp ++ Nd.size sb :: sq) (ip ++ Nd.ravel sb ib :: iq) =
      Nd.ravel x.nd.shape (ip ++ ib ++ iq) := by
    rw [hsh, List.append_assoc, List.append_assoc, Nd.ravel_append v1, Nd.ravel_append v1,
      Nd.ravel_append v2]
    simp only [Nd.ravel, Nd.size, Nd.size_append]
  rw [hrav, Nd.unravel_ravel hval]

/-- C10.  In any case `remove_rep` either fails or returns an array from which all axes between the
first and the last repetition axis are gone. -/
theorem C10_gap (ofIdx : Nat → β) (x : Arr β α) (hwf : x.WF) (name : String)
    (hn : (x.dims.map Dim.name).Nodup) (p b q : List (Dim β)) (r1 r2 : Dim β)
    (hdims : x.dims = p ++ b ++ q) (hb1 : b.head? = some r1) (hb2 : b.getLast? = some r2)
    (hr1 : r1.isa .dimRep = true) (hr2 : r2.isa .dimRep = true)
    (hp : ∀ d ∈ p, d.isa .dimRep = false) (hq : ∀ d ∈ q, d.isa .dimRep = false) :
    removeRep ofIdx x name = .error .valueError ∨
    ∃ r, removeRep ofIdx x name = .ok r ∧
      r.dims.map Dim.key = p.map Dim.key ++ (name, .dimRep) :: q.map Dim.key := by
  have hw : p.length + b.length + q.length = x.nd.shape.length := by
    have : x.dims.length = x.nd.shape.length := hwf
    rw [hdims] at this
    simpa [Nat.add_assoc] using this
  have heq := removeRep_eq ofIdx x hwf name hn p q r1 r2 b hdims hb1 hb2 hr1 hr2 hp hq
    (x.nd.shape.take p.length) ((x.nd.shape.drop p.length).take b.length)
    ((x.nd.shape.drop p.length).drop b.length)
    (by rw [List.append_assoc, List.take_append_drop, List.take_append_drop])
    (by rw [List.length_take]; omega) (by rw [List.length_take, List.length_drop]; omega)
  unfold Nd.reshape at heq
  split at heq
  · rename_i e he
    split at he
    · cases he
    · rw [heq]
      simp only [ofNd] at he
      injection he with he
      subst he
      exact .inl rfl
  · rename_i nd he
    exact .inr ⟨_, heq, by simp [Dim.key]⟩

omit [DecidableEq β] in
/-- C10.  `remove_tail` keeps the first axis and numbers the rest in row-major order. -/
theorem C10_remove_tail (ofIdx : Nat → β) (x : Arr β α) (d : Dim β) (ds : List (Dim β)) (n : Nat)
    (ns : List Nat) (hd : x.dims = d :: ds) (hsh : x.nd.shape = n :: ns) :
    ∃ r, removeTail ofIdx x = .ok r ∧ r.WF ∧ r.nd.shape = [n, Nd.size ns] ∧
      r.dims.map Dim.key = [d.key, ("Tail", .dimRep)] ∧
      ∀ i is, i < n → Nd.Valid ns is → r.nd.get [i, Nd.ravel ns is] = x.nd.get (i :: is) := by
  have hsz : Nd.size [n, Nd.size ns] = Nd.size x.nd.shape := by rw [hsh]; simp [Nd.size]
  refine ⟨⟨[d, ⟨.dimRep, "Tail", (List.range (Nd.size ns)).map ofIdx, none, none⟩],
    ⟨[n, Nd.size ns], fun idx => x.nd.get (Nd.unravel x.nd.shape (Nd.ravel [n, Nd.size ns] idx))⟩⟩,
    ?_, rfl, rfl, rfl, ?_⟩
  · unfold removeTail
    rw [hsh] at hsz
    simp only [hsh, hd, Nd.reshape, hsz, if_true, ofNd, mk?, Nd.ndim]
    rfl
  · intro i is hi hv
    have : Nd.ravel [n, Nd.size ns] [i, Nd.ravel ns is] = Nd.ravel x.nd.shape (i :: is) := by
      rw [hsh]; simp [Nd.ravel, Nd.size]
    simp only [this]
    rw [Nd.unravel_ravel]
    rw [hsh]; exact ⟨hi, hv⟩

/-! Non-vacuity -/

section Examples

/-- `f` (2), repetitions `m` (3) and `r` (2). -/
def exRep : Arr Nat Nat :=
  ⟨[⟨.dimSweep, "f", [10, 20], none, none⟩, ⟨.dimRep, "m", [0, 1, 2], none, none⟩,
    ⟨.dimRep, "r", [0, 1], none, none⟩],
   ⟨[2, 3, 2], fun idx => 100 * idx.getD 0 0 + 10 * idx.getD 1 0 + idx.getD 2 0⟩⟩

example : exRep.WF ∧ (exRep.dims.map Dim.name).Nodup ∧
    exRep.dims = [(⟨.dimSweep, "f", [10, 20], none, none⟩ : Dim Nat)] ++
      [⟨.dimRep, "m", [0, 1, 2], none, none⟩, ⟨.dimRep, "r", [0, 1], none, none⟩] ++ [] ∧
    exRep.nd.shape = [2] ++ [3, 2] ++ [] ∧ exRep.InRange (fun _ => 1) :=
  ⟨rfl, by decide, rfl, rfl, by simp [InRange, exRep, Nd.Valid]⟩

example : (removeRep id exRep).toOption.map (fun r => (r.nd.shape, r.nd.get [1, 5])) =
    some ([2, 6], 121) := by decide +kernel

/-- A sweep between two repetition axes. -/
def exGap : Arr Nat Nat :=
  ⟨[⟨.dimRep, "m", [0, 1, 2], none, none⟩, ⟨.dimSweep, "f", [10, 20], none, none⟩,
    ⟨.dimRep, "r", [0, 1], none, none⟩],
   ⟨[3, 2, 2], fun idx => 100 * idx.getD 0 0 + 10 * idx.getD 1 0 + idx.getD 2 0⟩⟩

/-- The hypotheses of `C10_gap_rejected` are met. -/
example : removeRep id exGap "all" = .error .valueError :=
  C10_gap_rejected id exGap rfl "all" (by decide) [] exGap.dims [] _ _ (by simp) rfl rfl (by decide +kernel)
    (by decide +kernel) (by simp) (by simp) [] [3, 2, 2] [] rfl rfl rfl (by decide) (by decide +kernel)

/-- Three repetition axes, with an axis of length one and another repetition axis between the first and
the last. -/
def exGap1 : Arr Nat Nat :=
  ⟨[⟨.dimRep, "m", [0, 1, 2], none, none⟩, ⟨.dimSweep, "f", [10], none, none⟩,
    ⟨.dimRep, "r", [0, 1], none, none⟩, ⟨.dimRep, "s", [0, 1], none, none⟩, ⟨.dimSweep, "g", [5, 6], none, none⟩],
   ⟨[3, 1, 2, 2, 2], fun idx => idx.foldl (fun a i => 10 * a + i) 0⟩⟩

/-- The hypotheses of `C10_gap_dropped` are met: the axis `f` is lost. -/
example : ∃ r, removeRep id exGap1 "all" = .ok r ∧ r.dims.map Dim.name = ["all", "g"] ∧
    r.nd.get [7, 1] = exGap1.nd.get [1, 0, 1, 1, 1] := by
  obtain ⟨r, h1, h2, -, h4⟩ := C10_gap_dropped id exGap1 rfl "all" (by decide) [] (exGap1.dims.take 4)
    [⟨.dimSweep, "g", [5, 6], none, none⟩] _ _ rfl rfl rfl (by decide +kernel) (by decide +kernel) (by simp)
    (by simp; decide +kernel) [] [3, 1, 2, 2] [2] rfl rfl rfl (by decide +kernel)
  refine ⟨r, h1, ?_, ?_⟩
  · have := congrArg (List.map Prod.fst) h2
    simpa [Dim.key, Function.comp_def] using this
  · exact h4 [] [1, 0, 1, 1] [1] (by simp [Nd.Valid]) (by simp [Nd.Valid]) (by simp [Nd.Valid])

end Examples

end Arr
end HF
