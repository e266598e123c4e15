import Mathlib.Algebra.BigOperators.Group.List.Basic
import Mathlib.Data.List.InsertIdx
import Verif.HFArray.Axis
import Verif.HFArray.Spec
import Verif.HFArray.NdLemmas
import Verif.HFArray.ReduceProps
import Verif.HFArray.RepProps
import Verif.HFArray.DiagProps
/-
C55: cumulative operations along an axis and new axes.
-/
namespace HF.Arr

variable {β α : Type}

/-- `ax` means the dimension at position `i`: by its number (also counted from the end), its
name, the object, or a class that only this dimension belongs to. -/
def Means (dims : List (Dim β)) (i : Nat) (d : Dim β) (ax : Axis β) : Prop :=
  dims[i]? = some d ∧
  (ax = .int i ∨ ax = .int ((i : Int) - dims.length) ∨ ax = .name d.name ∨ ax = .dim d ∨
    ∃ c, ax = .cls c ∧ d.isa c = true ∧ ∀ k e, dims[k]? = some e → e.isa c = true → k = i)

/-- No axis before position `i` has the same name as the one at `i`. -/
def FirstOfName (dims : List (Dim β)) (i : Nat) : Prop :=
  ∀ k d e, k < i → dims[k]? = some e → dims[i]? = some d → e.name ≠ d.name

theorem dimsIndex_first {dims : List (Dim β)} {i : Nat} {d : Dim β} (hd : dims[i]? = some d)
    (hf : FirstOfName dims i) : dimsIndex dims d.name = some i := by
  induction dims generalizing i with
  | nil => simp at hd
  | cons x t ih =>
    cases i with
    | zero => simp at hd; subst hd; simp [dimsIndex]
    | succ i =>
      simp only [List.getElem?_cons_succ] at hd
      have : x.name ≠ d.name := hf 0 d x (by omega) (by simp) (by simpa using hd)
      rw [dimsIndex, if_neg this, ih hd fun k d' e hk h1 h2 =>
        hf (k + 1) d' e (by omega) (by simpa using h1) (by simpa using h2)]
      rfl

theorem containsDim_mem {dims : List (Dim β)} {d : Dim β} (h : d ∈ dims) :
    containsDim dims d = true := by
  unfold containsDim
  rw [List.any_eq_true]
  refine ⟨d, h, ?_⟩
  unfold matches_ Dim.isa
  rw [Dim.C05_isSub_preorder.1]
  simp

theorem filter_unique {δ : Type} (p : δ → Bool) (l : List δ) (i : Nat) (d : δ)
    (hd : l[i]? = some d) (hp : p d = true)
    (hu : ∀ (k : Nat) e, l[k]? = some e → p e = true → k = i) : l.filter p = [d] := by
  induction l generalizing i with
  | nil => simp at hd
  | cons x t ih =>
    cases i with
    | zero =>
      simp only [List.getElem?_cons_zero, Option.some.injEq] at hd
      subst hd
      rw [List.filter_cons_of_pos hp]
      congr 1
      rw [List.filter_eq_nil_iff]
      intro e he hpe
      obtain ⟨k, hk, hke⟩ := List.getElem_of_mem he
      have := hu (k + 1) e (by simp [hk, hke]) hpe
      omega
    | succ i =>
      have hx : p x = false := by
        rw [← Bool.not_eq_true]
        intro q
        have := hu 0 x (by simp) q
        omega
      rw [List.filter_cons_of_neg (by simp [hx])]
      exact ih i (by simpa using hd) fun k e h1 h2 => by
        have := hu (k + 1) e (by simpa using h1) h2
        omega

theorem axisHandler_means {dims : List (Dim β)} {i : Nat} {d : Dim β} {ax : Axis β}
    (h : Means dims i d ax) (hf : FirstOfName dims i) : axisHandler dims ax = .ok d := by
  obtain ⟨hd, h⟩ := h
  have hi : i < dims.length := (List.getElem?_eq_some_iff.1 hd).1
  have hmem : d ∈ dims := List.mem_of_getElem? hd
  rcases h with rfl | rfl | rfl | rfl | ⟨c, rfl, hc, hu⟩
  · have : Nd.normAxis dims.length (i : Int) = some i := by
      unfold Nd.normAxis; rw [if_pos ⟨by omega, by omega⟩]; simp
    simp [axisHandler, this, hd]
  · have : Nd.normAxis dims.length ((i : Int) - dims.length) = some i := by
      unfold Nd.normAxis
      rw [if_neg (by omega), if_pos ⟨by omega, by omega⟩]
      congr 1; omega
    simp [axisHandler, this, hd]
  · simp [axisHandler, dimsIndex_first hd hf, hd, containsDim_mem hmem]
  · simp [axisHandler, containsDim_mem hmem]
  · simp [axisHandler, filter_unique (fun d => d.isa c) dims i d hd hc hu]

theorem cumAt_foldl (op : α → α → α) (f : Nat → α) (n : Nat) :
    Nd.cumAt op f n = ((List.range n).map fun k => f (k + 1)).foldl op (f 0) := by
  induction n with
  | zero => rfl
  | succ n ih => rw [Nd.cumAt, ih, List.range_succ, List.map_append, List.foldl_append]; rfl

theorem set_coord {dims : List (Dim β)} (hk : Distinct dims) {i : Nat} {d : Dim β}
    (hd : dims[i]? = some d) (c : Coord) (v : Nat) :
    (dims.map fun e => c e.key).set i v = dims.map fun e => setCoord c d.key v e.key := by
  obtain ⟨hi, hd⟩ := List.getElem?_eq_some_iff.1 hd
  apply List.ext_getElem (by simp)
  intro j h1 h2
  simp only [List.length_map] at h2
  rw [List.getElem_set, List.getElem_map, List.getElem_map]
  unfold setCoord
  by_cases hij : i = j
  · subst hij; rw [if_pos rfl, if_pos (by rw [hd])]
  · rw [if_neg hij, if_neg]
    intro q
    unfold Distinct at hk
    have := (List.Nodup.getElem_inj_iff hk (hi := by simpa using h2) (hj := by simpa using hi)).1
      (by simpa [hd] using q)
    exact hij this.symm

/-- C55.  A cumulative operation along an axis, given in any way: shape and axes stay, and
the element at a coordinate combines, from the left, the elements from the beginning of the
axis up to that coordinate.  No axis before the one that is meant may have the same name. -/
theorem C55_cumulate (op : α → α → α) (x : Arr β α) (hwf : x.WF) (hk : Distinct x.dims)
    (i : Nat) (d : Dim β) (ax : Axis β) (h : Means x.dims i d ax) (hf : FirstOfName x.dims i) :
    ∃ y, cumulate op x (some ax) = .ok y ∧ y.dims = x.dims ∧ y.nd.shape = x.nd.shape ∧
      ∀ c : Coord, y.at_ c = ((List.range (c d.key)).map fun k =>
        x.at_ (setCoord c d.key (k + 1))).foldl op (x.at_ (setCoord c d.key 0)) := by
  refine ⟨⟨x.dims, x.nd.cumulate op i⟩, ?_, rfl, rfl, ?_⟩
  · unfold cumulate
    simp only [axisHandler_means h hf, dimsIndex_first h.1 hf]
    unfold mk?
    rw [if_pos (show x.dims.length = (Nd.cumulate op x.nd i).ndim from hwf)]
  · intro c
    show Nd.cumAt op (fun k => x.nd.get ((x.dims.map fun e => c e.key).set i k))
      ((x.dims.map fun e => c e.key).getD i 0) = _
    have hg : (x.dims.map fun e => c e.key).getD i 0 = c d.key := by
      simp [List.getD, List.getElem?_map, h.1]
    rw [hg, cumAt_foldl]
    simp only [set_coord hk h.1]
    rfl

/-- C55.  `cumsum`: the sum of the elements up to the coordinate. -/
theorem C55_cumsum [AddMonoid α] (x : Arr β α) (hwf : x.WF) (hk : Distinct x.dims)
    (i : Nat) (d : Dim β) (ax : Axis β) (h : Means x.dims i d ax) (hf : FirstOfName x.dims i) :
    ∃ y, cumulate (· + ·) x (some ax) = .ok y ∧ y.dims = x.dims ∧ y.nd.shape = x.nd.shape ∧
      ∀ c : Coord, y.at_ c = ((List.range (c d.key + 1)).map fun k =>
        x.at_ (setCoord c d.key k)).sum := by
  obtain ⟨y, h1, h2, h3, h4⟩ := C55_cumulate (· + ·) x hwf hk i d ax h hf
  refine ⟨y, h1, h2, h3, fun c => ?_⟩
  rw [h4, List.range_succ_eq_map, List.map_cons, List.sum_cons, List.map_map]
  have : ∀ (l : List α) (a : α), l.foldl (· + ·) a = a + l.sum := by
    intro l
    induction l with
    | nil => intro a; simp
    | cons b l ih => intro a; rw [List.foldl_cons, ih, List.sum_cons, add_assoc]
  rw [this]
  rfl

/-- C55.  An axis that is not there, and a class with no or with several axes, are rejected;
so is a missing axis argument. -/
theorem C55_rejected (op : α → α → α) (x : Arr β α) :
    cumulate op x none = .error .valueError ∧
    (∀ s, s ∉ x.dims.map Dim.name → cumulate op x (some (.name s)) = .error .indexError) ∧
    (∀ i : Int, ¬ (-(x.dims.length : Int) ≤ i ∧ i < x.dims.length) →
      cumulate op x (some (.int i)) = .error .indexError) ∧
    (∀ c, (x.dims.countP fun d => d.isa c) ≠ 1 →
      cumulate op x (some (.cls c)) = .error .indexError) := by
  refine ⟨rfl, ?_, ?_, ?_⟩
  · intro s hs
    have : dimsIndex x.dims s = none := by
      generalize x.dims = l at hs
      induction l with
      | nil => rfl
      | cons a l ih =>
        simp only [List.map_cons, List.mem_cons, not_or] at hs
        rw [dimsIndex, if_neg (Ne.symm hs.1), ih hs.2]; rfl
    simp [cumulate, axisHandler, this]
  · intro i hi
    have : Nd.normAxis x.dims.length i = none := by
      unfold Nd.normAxis
      rw [if_neg (by omega), if_neg (by omega)]
    simp [cumulate, axisHandler, this]
  · intro c hc
    rw [List.countP_eq_length_filter] at hc
    have : axisHandler x.dims (.cls c) = .error .indexError := by
      show (match x.dims.filter fun d => d.isa c with
        | [d] => (.ok d : Except Err (Dim β))
        | _ => .error .indexError) = _
      match h : x.dims.filter fun d => d.isa c with
      | [] => rw [h]
      | [_] => rw [h] at hc; simp at hc
      | _ :: _ :: _ => rw [h]
    simp [cumulate, this]

/-- C55.  Two axes of the same name, as they come from an expanded diagonal: the second one
is given by its number, but the operation runs along the first one. -/
theorem C55_same_name_refuted :
    ∃ (x y : Arr Nat Int) (d : Dim Nat), x.WF ∧ Distinct x.dims ∧ Means x.dims 1 d (.int 1) ∧
      cumulate (· + ·) x (some (.int 1)) = .ok y ∧
      y.nd.get [0, 1] = x.nd.get [0, 1] ∧ y.nd.get [0, 1] ≠ x.nd.get [0, 0] + x.nd.get [0, 1] ∧
      y.nd.get [1, 0] = x.nd.get [0, 0] + x.nd.get [1, 0] :=
  ⟨⟨[⟨.indepAxis, "f", [1, 2], none, none⟩, ⟨.derivAxis, "f", [1, 2], none, none⟩],
      ⟨[2, 2], fun i => 1 + i.getD 0 0 + 2 * i.getD 1 0⟩⟩, _,
    ⟨.derivAxis, "f", [1, 2], none, none⟩, by unfold WF; decide, by unfold Distinct; decide +kernel,
    ⟨rfl, Or.inl rfl⟩, rfl, by decide, by decide, by decide⟩

/-- C55.  A new axis: it is put in at the given place (at most at the end) with one index per
coordinate value, and the elements do not depend on it. -/
theorem C55_add_dim (x : Arr β α) (hx : Sized x) (dim : Dim β) (hnew : containsDim x.dims dim = false)
    (hdata : dim.data ≠ []) (axis : Nat) :
    ∃ y, addDim x (some dim) axis = .ok y ∧
      y.dims = x.dims.insertIdx (min axis x.dims.length) dim ∧ Sized y ∧
      ∀ c : Coord, y.InRange c → x.InRange c ∧ y.at_ c = x.at_ c := by
  have hlen : x.nd.shape.length = x.dims.length := by rw [hx]; simp
  generalize hm : min axis x.dims.length = m
  have hml : m ≤ x.dims.length := by omega
  have hins : ∀ c : Coord, (x.dims.insertIdx m dim).map (fun d => c d.key) =
      (x.dims.map fun d => c d.key).insertIdx m (c dim.key) := by
    intro c; rw [List.map_insertIdx]
  have hax : min (axis : Int) (x.nd.ndim : Int) = (m : Int) := by unfold Nd.ndim; omega
  have hpy : pyInsert x.dims (m : Int) dim = x.dims.insertIdx m dim := by
    unfold pyInsert
    rw [if_neg (by omega)]
    congr 1
    omega
  have hsz : ((x.dims.insertIdx m dim).map fun d => d.data.length) =
      x.nd.shape.insertIdx m dim.data.length := by rw [List.map_insertIdx, hx]
  have hset : (x.nd.shape.insertIdx m 1).set m dim.data.length =
      x.nd.shape.insertIdx m dim.data.length := by
    rw [← hlen] at hml
    clear hx hins hax hpy hsz hm hlen
    generalize x.nd.shape = l at hml
    induction l generalizing m with
    | nil => simp at hml; subst hml; rfl
    | cons a l ih =>
      cases m with
      | zero => rfl
      | succ m =>
        rw [List.insertIdx_succ_cons, List.insertIdx_succ_cons, List.set_cons_succ,
          ih m (by simpa using hml)]
  have hgetD : ∀ (l : List Nat) v, l.length = x.dims.length → (l.insertIdx m v).getD m 0 = v := by
    intro l v hl
    rw [List.getD, List.getElem?_insertIdx_self, if_pos (by omega)]
    rfl
  have hvalid : ∀ (v : Nat) (l : List Nat), l.length = x.dims.length →
      Nd.Valid (x.nd.shape.insertIdx m dim.data.length) (l.insertIdx m v) →
      Nd.Valid x.nd.shape l := by
    intro v l hl
    rw [← hlen] at hml hl
    clear hx hins hax hpy hsz hm hlen hset hgetD
    generalize x.nd.shape = s at hml hl
    induction s generalizing m l with
    | nil => cases l <;> simp_all [Nd.Valid]
    | cons a s ih =>
      cases l with
      | nil => simp at hl
      | cons b l =>
        cases m with
        | zero => intro h; exact h.2
        | succ m =>
          rw [List.insertIdx_succ_cons, List.insertIdx_succ_cons]
          intro h
          exact ⟨h.1, ih m l (by simpa using hml) (by simpa using hl) h.2⟩
  unfold addDim
  simp only [hnew, hax, hpy]
  by_cases hd : dim.data.length > 1
  · have hnorm : Nd.normAxis (x.nd.newaxis m).ndim (m : Int) = some m := by
      unfold Nd.normAxis
      rw [if_pos]
      · simp
      · refine ⟨by omega, ?_⟩
        show (m : Int) < ((x.nd.shape.insertIdx m 1).length : Int)
        rw [List.length_insertIdx, if_pos (by omega)]; omega
    have hshape : ((x.nd.newaxis m).repeat_ dim.data.length m).shape =
        x.nd.shape.insertIdx m dim.data.length := by
      show (x.nd.shape.insertIdx m 1).set m ((x.nd.shape.insertIdx m 1).getD m 0 * _) = _
      rw [hgetD _ _ hlen, Nat.one_mul, hset]
    refine ⟨⟨x.dims.insertIdx m dim, (x.nd.newaxis m).repeat_ dim.data.length m⟩, ?_, rfl, ?_, ?_⟩
    · simp only [Int.toNat_natCast, hnorm, hd, if_true, Bool.false_eq_true, if_false]
      unfold mk?
      rw [if_pos]
      unfold Nd.ndim
      rw [hshape, List.length_insertIdx, List.length_insertIdx, hlen]
    · unfold Sized; rw [hsz, hshape]
    · intro c hc
      unfold InRange at hc
      simp only [hins, hshape] at hc
      refine ⟨hvalid _ _ (by simp) hc, ?_⟩
      unfold at_
      show x.nd.get (List.eraseIdx (List.set _ m _) m) = _
      rw [List.eraseIdx_set_eq, hins, List.eraseIdx_insertIdx_self]
  · have h1 : dim.data.length = 1 := by
      have : 0 < dim.data.length := List.length_pos_iff.2 hdata
      omega
    refine ⟨⟨x.dims.insertIdx m dim, x.nd.newaxis m⟩, ?_, rfl, ?_, ?_⟩
    · simp only [Int.toNat_natCast, hd, if_false, Bool.false_eq_true]
      unfold mk?
      rw [if_pos]
      show _ = (x.nd.shape.insertIdx m 1).length
      rw [List.length_insertIdx, List.length_insertIdx, hlen]
    · unfold Sized; rw [hsz, h1]; rfl
    · intro c hc
      unfold InRange at hc
      simp only [hins] at hc
      have hc : Nd.Valid (x.nd.shape.insertIdx m 1) _ := hc
      rw [← h1] at hc
      refine ⟨hvalid _ _ (by simp) hc, ?_⟩
      unfold at_
      show x.nd.get (List.eraseIdx _ m) = _
      rw [hins, List.eraseIdx_insertIdx_self]

/-- C55.  Nothing happens if there is an axis with that name and class already. -/
theorem C55_add_dim_known (x : Arr β α) (dim : Dim β) (axis : Int) (d : Dim β) (hd : d ∈ x.dims)
    (hn : d.name = dim.name) (hc : d.isa dim.cls = true) :
    addDim x (some dim) axis = .ok x := by
  have : containsDim x.dims dim = true := by
    unfold containsDim
    rw [List.any_eq_true]
    exact ⟨d, hd, by unfold matches_; rw [hn, hc]; simp⟩
  show (if containsDim x.dims dim = true then _ else _) = _
  rw [if_pos this]

/-- C55.  A place counted from the end and a dimension without values give arrays whose
shape does not fit to their axes. -/
theorem C55_add_dim_refuted :
    (∃ (x y : Arr Nat Int) (dim : Dim Nat), Sized x ∧ containsDim x.dims dim = false ∧
      dim.data ≠ [] ∧ addDim x (some dim) (-1) = .ok y ∧ ¬ Sized y) ∧
    (∃ (x y : Arr Nat Int) (dim : Dim Nat), Sized x ∧ containsDim x.dims dim = false ∧
      addDim x (some dim) 0 = .ok y ∧ ¬ Sized y) := by
  refine ⟨⟨⟨[⟨.dimSweep, "f", [1, 2, 3], none, none⟩], ⟨[3], fun i => i.getD 0 0⟩⟩, _,
    ⟨.dimSweep, "g", [1, 2], none, none⟩, rfl, by decide +kernel, by decide, rfl, ?_⟩,
    ⟨⟨[⟨.dimSweep, "f", [1, 2, 3], none, none⟩], ⟨[3], fun i => i.getD 0 0⟩⟩, _,
    ⟨.dimSweep, "g", [], none, none⟩, rfl, by decide +kernel, rfl, ?_⟩⟩
  · unfold Sized; decide +kernel
  · unfold Sized; decide +kernel

example : sample.WF ∧ Distinct sample.dims ∧
    Means sample.dims 1 ⟨.dimRep, "r", [0, 1, 2], none, none⟩ (.cls .dimRep) ∧
    FirstOfName sample.dims 1 := by
  refine ⟨by unfold WF; decide, by unfold Distinct; decide +kernel, ⟨rfl, ?_⟩, ?_⟩
  · refine Or.inr (Or.inr (Or.inr (Or.inr ⟨_, rfl, by decide +kernel, ?_⟩)))
    intro k e h1 h2
    match k, h1 with
    | 0, h1 =>
      have : e = ⟨.dimSweep, "f", [10, 20], none, none⟩ := by simpa [sample] using h1.symm
      subst this; exact absurd h2 (by decide +kernel)
    | 1, _ => rfl
    | k + 2, h1 => simp [sample] at h1
  · intro k d e hk h1 h2
    obtain rfl : k = 0 := by omega
    simp [sample] at h1 h2
    subst h1; subst h2
    decide

example : containsDim sample.dims ⟨.dimSweep, "g", [1, 2], none, none⟩ = false := by decide +kernel

end HF.Arr
