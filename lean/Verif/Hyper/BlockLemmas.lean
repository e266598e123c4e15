import Verif.Hyper.Block
import Verif.Hyper.BlockSpec
import Verif.HFArray.AxisProps
import Verif.HFArray.NdLemmas
/-
Lemmas for `hyper` on blocks.
-/
namespace HF.Hyper

open HF.DataDict.Spec HF.DataBlock

variable {β α : Type}

theorem size_prod (l : List Nat) : Nd.size l = l.prod := by
  induction l with
  | nil => rfl
  | cons a l ih => rw [Nd.size, ih, List.prod_cons]

theorem ravel_nd : ∀ l k : List Nat, Nd.ravel l k = ravel l k
  | [], _ => by unfold Nd.ravel ravel; rfl
  | _ :: _, [] => by unfold Nd.ravel ravel; rfl
  | _ :: l, _ :: k => by rw [Nd.ravel, ravel, size_prod, ravel_nd l k]

theorem valid_nd : ∀ l k : List Nat, Valid l k ↔ Nd.Valid l k
  | [], [] => by simp [Valid, Nd.Valid]
  | [], _ :: _ => by simp [Valid, Nd.Valid]
  | _ :: _, [] => by simp [Valid, Nd.Valid]
  | s :: l, i :: k => by
    have := valid_nd l k
    unfold Valid at this ⊢
    rw [List.forall₂_cons, Nd.Valid, this]

theorem mapM_some {γ δ : Type} {f : γ → Option δ} {g : γ → δ} : ∀ (l : List γ), (∀ a ∈ l, f a = some (g a)) →
    l.mapM f = some (l.map g)
  | [], _ => rfl
  | a :: l, h => by
    rw [List.mapM_cons, h a (by simp), mapM_some l fun b hb => h b (by simp [hb])]
    rfl

/-- The axis is taken apart. -/
theorem spread_eq (order : List Nat) (dims : List (Dim β)) (rd : Dim β) (v : Arr β α) (pre post : List (Dim β))
    (sp sq : List Nat) (n : Nat) (hd : v.dims = pre ++ rd :: post) (hn : (v.dims.map Dim.name).Nodup)
    (hs : v.nd.shape = sp ++ n :: sq) (hl : sp.length = pre.length) (ho : ∀ i ∈ order, i < n) (hon : order.length = n) :
    (Nd.size (dims.map fun d => d.data.length) = n → ∃ a, spread order dims rd v = .ok a ∧ a.dims = pre ++ dims ++ post ∧
      a.nd.shape = sp ++ dims.map (fun d => d.data.length) ++ sq ∧
      ∀ is ks js i, Nd.Valid sp is → Nd.Valid (dims.map fun d => d.data.length) ks → Nd.Valid sq js →
        order[Nd.ravel (dims.map fun d => d.data.length) ks]? = some i →
        a.nd.get (is ++ ks ++ js) = v.nd.get (is ++ i :: js)) ∧
    (Nd.size (dims.map fun d => d.data.length) ≠ n → 0 < Nd.size sp → 0 < Nd.size sq →
      spread order dims rd v = .error .valueError) := by
  obtain ⟨lens, hlens⟩ : ∃ lens, lens = dims.map fun d => d.data.length := ⟨_, rfl⟩
  have hi : Arr.dimsIndex v.dims rd.name = some pre.length := by
    rw [hd] at hn ⊢
    clear hd hl
    induction pre with
    | nil => simp [Arr.dimsIndex]
    | cons p pre ih =>
      simp only [List.cons_append, List.map_cons, List.nodup_cons] at hn
      have hne : p.name ≠ rd.name := fun e => hn.1 (by rw [e]; simp)
      simp only [List.cons_append, Arr.dimsIndex, hne, if_false, ih hn.2, Option.map_some, List.length_cons]
  have hm : (order.map Int.ofNat).mapM (Nd.normAxis n) = some order := by
    have := mapM_some (f := Nd.normAxis n) (g := Int.toNat) (order.map Int.ofNat) (by
      intro a ha
      obtain ⟨i, hi, rfl⟩ := List.mem_map.1 ha
      have := ho i hi
      simp [Nd.normAxis, this])
    rw [this, List.map_map]
    congr 1
    conv_rhs => rw [← List.map_id order]
    exact List.map_congr_left fun _ _ => rfl
  have hg : v.nd.shape.getD pre.length 0 = n := by rw [hs, ← hl]; simp
  have hset : v.nd.shape.set pre.length order.length = sp ++ n :: sq := by
    rw [hs, hon, ← hl]; simp
  have ht : v.nd.take (order.map Int.ofNat) pre.length = .ok ⟨sp ++ n :: sq, fun idx =>
      v.nd.get (idx.set pre.length (order.getD (idx.getD pre.length 0) 0))⟩ := by
    simp only [Nd.take, hg, hm, hset]
  have hdt : v.dims.take pre.length ++ dims ++ v.dims.drop (pre.length + 1) = pre ++ dims ++ post := by
    rw [hd]; simp
  have hst : (sp ++ n :: sq).take pre.length ++ lens ++ (sp ++ n :: sq).drop (pre.length + 1) = sp ++ lens ++ sq := by
    rw [← hl]; simp
  have hsz : Nd.size (sp ++ lens ++ sq) = Nd.size sp * (Nd.size lens * Nd.size sq) := by
    rw [Nd.size_append, Nd.size_append, Nat.mul_assoc]
  have hsz' : Nd.size (sp ++ n :: sq) = Nd.size sp * (n * Nd.size sq) := by
    rw [Nd.size_append, Nd.size]
  rw [← hlens]
  constructor
  · intro hsize
    have hr : Nd.size (sp ++ lens ++ sq) = Nd.size (sp ++ n :: sq) := by rw [hsz, hsz', hsize]
    refine ⟨⟨pre ++ dims ++ post, ⟨sp ++ lens ++ sq, fun idx => v.nd.get
      (List.set (Nd.unravel (sp ++ n :: sq) (Nd.ravel (sp ++ lens ++ sq) idx)) pre.length
        (order.getD ((Nd.unravel (sp ++ n :: sq) (Nd.ravel (sp ++ lens ++ sq) idx)).getD pre.length 0) 0))⟩⟩, ?_, rfl, rfl, ?_⟩
    · simp only [spread, hi, ht, Arr.ofNd, ofArr, ← hlens, hst, Nd.reshape, hr, if_true, hdt]
    · intro is ks js i h1 h2 h3 h4
      have hk := Nd.ravel_lt h2
      have hv : Nd.Valid (sp ++ n :: sq) (is ++ Nd.ravel lens ks :: js) := by
        rw [Nd.valid_append h1.length]
        exact ⟨h1, hsize ▸ hk, h3⟩
      have hrav : Nd.ravel (sp ++ lens ++ sq) (is ++ ks ++ js) = Nd.ravel (sp ++ n :: sq) (is ++ Nd.ravel lens ks :: js) := by
        have h12 : Nd.Valid (sp ++ lens) (is ++ ks) := (Nd.valid_append h1.length).2 ⟨h1, h2⟩
        rw [Nd.ravel_append h12, Nd.ravel_append h1, Nd.ravel_append h1]
        simp only [Nd.ravel, Nd.size, hsize]
        rw [Nat.add_mul, Nat.mul_assoc, Nat.add_assoc]
      simp only [hrav, Nd.unravel_ravel hv]
      have hl' : pre.length = is.length := by rw [← hl, h1.length]
      rw [hl']
      have e1 : (is ++ Nd.ravel lens ks :: js).getD is.length 0 = Nd.ravel lens ks := by simp
      have e2 : order.getD (Nd.ravel lens ks) 0 = i := by rw [List.getD_eq_getElem?_getD, h4]; rfl
      rw [e1, e2]
      simp
  · intro hsize h1 h2
    have hr : Nd.size (sp ++ lens ++ sq) ≠ Nd.size (sp ++ n :: sq) := by
      rw [hsz, hsz']
      intro e
      exact hsize (Nat.eq_of_mul_eq_mul_right h2 (Nat.eq_of_mul_eq_mul_left h1 e))
    simp only [spread, hi, ht, Arr.ofNd, ofArr, ← hlens, hst, Nd.reshape, hr, if_false]

/-- The order of the rows. -/
theorem order_get [LinearOrder α] (cols vals : List (List α)) (n : Nat) (h : FullGrid cols n)
    (hvals : List.Forall₂ (fun c w => Ascending w ∧ ∀ a, a ∈ w ↔ a ∈ c) cols vals) :
    n = ((newDims cols).map List.length).prod ∧
    ∀ ks i, Valid ((newDims cols).map List.length) ks → i < n → RowAt cols vals ks i →
      (sortOrder cols)[ravel ((newDims cols).map List.length) ks]? = some i := by
  obtain ⟨r, h1, h2⟩ := C12_order cols vals n (List.range n) h (by simp) hvals
  have hp := order_perm cols n h.nonempty h.length
  obtain ⟨r', hr1, hr2, hr3⟩ := mapM_get (v := List.range n) (sortOrder cols) (fun i hi => by
    simpa using hp.mem_iff.1 hi)
  have hn : n = ((newDims cols).map List.length).prod := by
    by_contra hc
    have := (C12_permutation cols n (List.range n) h.nonempty h.length (by simp)).2 hc
    rw [this] at h1
    cases h1
  have hh : r = r' := by
    obtain ⟨c, cs, hc⟩ := List.exists_cons_of_ne_nil h.nonempty
    unfold hyper at h1
    rw [hc] at h1
    simp only at h1
    rw [← hc, hr1] at h1
    simp only at h1
    split at h1
    · injection h1 with h1
      injection h1 with _ h1
      exact h1.symm
    · cases h1
  subst hh
  refine ⟨hn, fun ks i hks hi hrow => ?_⟩
  have e := h2 ks i hks hi hrow
  rw [List.getElem?_range hi] at e
  have hlt : ravel ((newDims cols).map List.length) ks < (sortOrder cols).length := by
    rw [hp.length_eq, List.length_range, hn]
    exact ravel_lt _ _ hks
  have e2 := List.getElem?_eq_getElem hlt
  have e3 := hr3 _ _ e2
  have hj : (sortOrder cols)[ravel ((newDims cols).map List.length) ks] < n := by
    simpa using hp.mem_iff.1 (List.mem_of_getElem? e2)
  rw [e, List.getElem?_range hj] at e3
  rw [e2]
  exact e3.symm

theorem columns_ok (env : Env β α) (b : Block β α) (hb : Orderly b) (rd : Dim β) (n : Nat) {names : List String}
    {cols : List (List α)}
    (h : List.Forall₂ (fun x c => ∃ a, lookup b.vars x = some a ∧ a.dims = [rd] ∧ a.nd.shape = [n] ∧ c.length = n ∧
      ∀ i < n, c[i]? = some (a.nd.get [i])) names cols) : columns env b names = .ok cols := by
  induction h with
  | nil => rfl
  | @cons x c xs cs hx _ ih =>
    obtain ⟨a, h1, -, h2, h3, h4⟩ := hx
    have hni : lookup b.ivars x = none := (lookup_none_iff' _ _).2 (hb.apart _ (lookup_mem h1))
    have hg : getitem env b x = .ok a := by simp only [getitem, hni, h1]
    have hc : column a = .ok c := by
      unfold column
      rw [h2]
      simp only
      congr 1
      apply List.ext_getElem?
      intro i
      by_cases hi : i < n
      · rw [h4 i hi, List.getElem?_map, List.getElem?_range hi]; rfl
      · rw [List.getElem?_eq_none (by simpa using hi), List.getElem?_eq_none (by omega)]
    simp only [columns, hg, hc, ih]

theorem cubeDims_eq [LinearOrder α] (env : Env β α) (indexed : Bool) (names : List String) (cols : List (List α)) :
    cubeDims env indexed names cols = cubeAxes env (labels indexed names) cols := by
  unfold cubeDims cubeAxes labels newDims
  cases indexed
  · simp [List.zipWith_map_right]
  · simp [List.zipWith_map_right, List.zipWith_map_left]

theorem cubeAxes_names [LinearOrder α] (env : Env β α) : ∀ (ls : List String) (cols : List (List α)),
    ls.length = cols.length → (cubeAxes env ls cols).map Dim.name = ls ∧
      (cubeAxes env ls cols).map (fun d => d.data.length) = (newDims cols).map List.length
  | [], [], _ => ⟨rfl, rfl⟩
  | [], _ :: _, h => by simp at h
  | _ :: _, [], h => by simp at h
  | x :: ls, c :: cols, h => by
    have := cubeAxes_names env ls cols (by simpa using h)
    unfold cubeAxes newDims at this ⊢
    simp only [List.map_cons, List.zipWith_cons_cons, this.1, this.2, List.length_map, and_self]

end HF.Hyper
