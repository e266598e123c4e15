import Verif.Share.MoveProps
import Verif.HFArray.IndexLemmas
import Verif.HFArray.ReduceLemmas
/-
The elements of every array object of a program are at different positions of its buffer.
-/
namespace HF.Share

open HF.DataDict.Spec
open HF.DataBlock

variable {β α γ : Type}

/-- No two elements are the same. -/
def Inj (a : Nd γ) : Prop :=
  ∀ i j, Nd.Valid a.shape i → Nd.Valid a.shape j → a.get i = a.get j → i = j

theorem inj_of_map {a : Nd γ} (h : Inj a) {sh : List Nat} {g : List Nat → List Nat}
    (hv : ∀ i, Nd.Valid sh i → Nd.Valid a.shape (g i))
    (hi : ∀ i j, Nd.Valid sh i → Nd.Valid sh j → g i = g j → i = j) :
    Inj (⟨sh, fun idx => a.get (g idx)⟩ : Nd γ) :=
  fun i j vi vj e => hi i j vi vj (h _ _ (hv i vi) (hv j vj) e)

theorem inj_transpose {a b : Nd γ} (h : Inj a) {order : List Nat} (ht : a.transpose order = .ok b) :
    Inj b := by
  unfold Nd.transpose at ht
  split at ht
  · rename_i hp
    cases ht
    have hperm := Nd.perm_of_isPerm hp
    have hnd : order.Nodup := hperm.symm.nodup List.nodup_range
    have hlen : order.length = a.ndim := by simpa using hperm.length_eq
    have hmem : ∀ k, k ∈ order ↔ k < a.ndim := fun k => by rw [hperm.mem_iff]; simp
    refine inj_of_map h ?_ ?_
    · intro i hi
      rw [Nd.valid_iff] at hi ⊢
      obtain ⟨h1, h2⟩ := hi
      simp only [List.length_map] at h1 h2
      refine ⟨by simp [Nd.ndim], fun k hk => ?_⟩
      have hk' : k ∈ order := (hmem k).2 hk
      have hx := List.idxOf_lt_length_of_mem hk'
      have := h2 (order.idxOf k) hx
      rw [List.getD_eq_getElem?_getD (l := List.map _ order), List.getElem?_map,
        List.getElem?_eq_getElem hx, List.getElem_idxOf] at this
      rw [List.getD_eq_getElem?_getD (l := List.map _ (List.range a.ndim)), List.getElem?_map,
        List.getElem?_range (show k < a.ndim from hk)]
      simpa using this
    · intro i j hi hj e
      have li : i.length = order.length := by simpa using hi.length
      have lj : j.length = order.length := by simpa using hj.length
      apply List.ext_getElem (by omega)
      intro p hp1 hp2
      have hpo : p < order.length := by omega
      have hk : order[p] < a.ndim := (hmem _).1 (List.getElem_mem hpo)
      have e1 := congrArg (fun l => l[order[p]]?) e
      simp only [List.getElem?_map, List.getElem?_range hk, Option.map_some, Option.some.injEq,
        hnd.idxOf_getElem p hpo] at e1
      simpa [List.getD_eq_getElem?_getD, List.getElem?_eq_getElem hp1,
        List.getElem?_eq_getElem hp2] using e1
  · cases ht

theorem valid_cons_inv {s : Nat} {ss i : List Nat} (h : Nd.Valid (s :: ss) i) :
    ∃ a t, i = a :: t ∧ a < s ∧ Nd.Valid ss t := by
  cases i with
  | nil => simp [Nd.Valid] at h
  | cons a t => exact ⟨a, t, rfl, h.1, h.2⟩

theorem dropFrom_cons (ks : List Nat) (j : Nat) (s : Nat) (sh : List Nat) :
    ((s :: sh).zipIdx j |>.filter fun p => p.2 ∉ ks).map Prod.fst =
      if j ∈ ks then ((sh.zipIdx (j + 1)).filter fun p => p.2 ∉ ks).map Prod.fst
      else s :: ((sh.zipIdx (j + 1)).filter fun p => p.2 ∉ ks).map Prod.fst := by
  rw [List.zipIdx_cons, List.filter_cons]
  by_cases h : j ∈ ks <;> simp [h]

theorem insertZeros_valid (ks : List Nat) : ∀ (sh : List Nat) (j : Nat) (i : List Nat),
    (∀ k, j ≤ k → k < j + sh.length → k ∈ ks → sh.getD (k - j) 0 = 1) →
    Nd.Valid (((sh.zipIdx j).filter fun p => p.2 ∉ ks).map Prod.fst) i →
    Nd.Valid sh (Nd.insertZeros ks j sh.length i)
  | [], j, i, _, _ => by simp [Nd.insertZeros, Nd.Valid]
  | s :: sh, j, i, h1, h2 => by
    have hrest : ∀ k, j + 1 ≤ k → k < j + 1 + sh.length → k ∈ ks → sh.getD (k - (j + 1)) 0 = 1 := by
      intro k hk1 hk2 hk3
      have := h1 k (by omega) (by simp; omega) hk3
      rw [show k - j = (k - (j + 1)) + 1 by omega] at this
      simpa using this
    rw [dropFrom_cons] at h2
    simp only [List.length_cons, Nd.insertZeros]
    by_cases h : j ∈ ks
    · rw [if_pos h] at h2 ⊢
      have hs := h1 j (Nat.le_refl _) (by simp) h
      simp at hs
      exact ⟨by omega, insertZeros_valid ks sh (j + 1) i hrest h2⟩
    · rw [if_neg h] at h2 ⊢
      obtain ⟨a, t, rfl, ha, ht⟩ := valid_cons_inv h2
      exact ⟨by simpa using ha, insertZeros_valid ks sh (j + 1) t hrest ht⟩

theorem insertZeros_inj (ks : List Nat) : ∀ (sh : List Nat) (j : Nat) (i i' : List Nat),
    Nd.Valid (((sh.zipIdx j).filter fun p => p.2 ∉ ks).map Prod.fst) i →
    Nd.Valid (((sh.zipIdx j).filter fun p => p.2 ∉ ks).map Prod.fst) i' →
    Nd.insertZeros ks j sh.length i = Nd.insertZeros ks j sh.length i' → i = i'
  | [], j, i, i', h1, h2, _ => by
    have l1 := h1.length
    have l2 := h2.length
    simp at l1 l2
    rw [l1, l2]
  | s :: sh, j, i, i', h1, h2, e => by
    rw [dropFrom_cons] at h1 h2
    simp only [List.length_cons, Nd.insertZeros] at e
    by_cases h : j ∈ ks
    · rw [if_pos h] at h1 h2
      rw [if_pos h, if_pos h] at e
      exact insertZeros_inj ks sh (j + 1) i i' h1 h2 (List.cons.inj e).2
    · rw [if_neg h] at h1 h2
      rw [if_neg h, if_neg h] at e
      obtain ⟨a, t, rfl, -, ht⟩ := valid_cons_inv h1
      obtain ⟨a', t', rfl, -, ht'⟩ := valid_cons_inv h2
      obtain ⟨e1, e2⟩ := List.cons.inj e
      rw [insertZeros_inj ks sh (j + 1) t t' ht ht' e2]
      simpa using e1

theorem inj_squeeze {a b : Nd γ} (h : Inj a) {axes : Option (List Int)} (ht : a.squeeze axes = .ok b) :
    Inj b := by
  have key : ∀ ks : List Nat, (∀ k < a.ndim, k ∈ ks → a.shape.getD k 0 = 1) →
      Inj (⟨Nd.dropAt ks a.shape, fun idx => a.get (Nd.insertZeros ks 0 a.ndim idx)⟩ : Nd γ) := by
    intro ks hks
    refine inj_of_map h (fun i hi => ?_) (fun i j hi hj e => insertZeros_inj ks a.shape 0 i j hi hj e)
    exact insertZeros_valid ks a.shape 0 i
      (fun k _ hk2 hk3 => by simpa using hks k (by simpa [Nd.ndim] using hk2) hk3) hi
  unfold Nd.squeeze at ht
  cases axes with
  | none =>
    simp only at ht
    cases ht
    exact key _ fun k _ hk => by simpa using (List.mem_filter.1 hk).2
  | some axs =>
    simp only at ht
    split at ht
    · cases ht
    · rename_i ks _
      split at ht
      · rename_i hall
        cases ht
        exact key ks fun k _ hk => by simpa using List.all_eq_true.1 hall k hk
      · cases ht

theorem indices_nodup {s : Slice} {n : Nat} {l : List Nat} (h : s.indices n = some l) : l.Nodup := by
  unfold Slice.indices at h
  simp only at h
  split at h
  · cases h
  · rename_i h0
    cases h
    rw [List.nodup_map_iff_inj_on List.nodup_range]
    intro x hx y hy e
    simp only [List.mem_range] at hx hy
    have b1 := (Slice.position_bounds s n h0 hx).1
    have b2 := (Slice.position_bounds s n h0 hy).1
    have : (x : Int) * s.step.getD 1 = (y : Int) * s.step.getD 1 := by omega
    have := Int.eq_of_mul_eq_mul_right h0 this
    omega

/-- The selections are inside of the shape and without repetitions. -/
def GoodSels : List Sel → List Nat → Prop
  | [], [] => True
  | .one k :: t, n :: ns => k < n ∧ GoodSels t ns
  | .many l :: t, n :: ns => (l.Nodup ∧ ∀ k ∈ l, k < n) ∧ GoodSels t ns
  | _, _ => False

theorem normAxis_lt {n k : Nat} {i : Int} (h : Nd.normAxis n i = some k) : k < n := by
  unfold Nd.normAxis at h
  split at h
  · cases h; omega
  · split at h
    · cases h; omega
    · cases h

theorem resolve_good : ∀ {ixs : List Ix} {ns : List Nat} {sels : List Sel},
    Nd.resolve ixs ns = .ok sels → GoodSels sels ns
  | [], [], sels, h => by simp [Nd.resolve] at h; subst h; trivial
  | [], _ :: _, sels, h => by simp [Nd.resolve] at h
  | _ :: _, [], sels, h => by simp [Nd.resolve] at h
  | ix :: ixs, n :: ns, sels, h => by
    unfold Nd.resolve at h
    split at h
    · rename_i i
      split at h
      · rename_i k r hk hr
        cases h
        exact ⟨normAxis_lt hk, resolve_good hr⟩
      · cases h
      · cases h
    · rename_i s
      split at h
      · rename_i l r hl hr
        cases h
        exact ⟨⟨indices_nodup hl, Slice.indices_lt hl⟩, resolve_good hr⟩
      · cases h
      · cases h
    · cases h

theorem selIdx_valid : ∀ {sels : List Sel} {ns : List Nat} {i : List Nat}, GoodSels sels ns →
    Nd.Valid (Nd.selShape sels) i → Nd.Valid ns (Nd.selIdx sels i)
  | [], [], i, _, _ => by simp [Nd.selIdx, Nd.Valid]
  | [], _ :: _, i, h, _ => by simp [GoodSels] at h
  | .one k :: t, [], i, h, _ => by simp [GoodSels] at h
  | .many l :: t, [], i, h, _ => by simp [GoodSels] at h
  | .one k :: t, n :: ns, i, h, hv => ⟨h.1, selIdx_valid h.2 hv⟩
  | .many l :: t, n :: ns, i, h, hv => by
    obtain ⟨a, r, rfl, ha, hr⟩ := valid_cons_inv hv
    refine ⟨?_, selIdx_valid h.2 hr⟩
    simp only [List.headD_cons, List.getD_eq_getElem?_getD, List.getElem?_eq_getElem ha, Option.getD_some]
    exact h.1.2 _ (List.getElem_mem ha)

theorem selIdx_inj : ∀ {sels : List Sel} {ns : List Nat} {i j : List Nat}, GoodSels sels ns →
    Nd.Valid (Nd.selShape sels) i → Nd.Valid (Nd.selShape sels) j →
    Nd.selIdx sels i = Nd.selIdx sels j → i = j
  | [], _, i, j, _, h1, h2, _ => by
    have l1 := h1.length
    have l2 := h2.length
    simp [Nd.selShape] at l1 l2
    rw [l1, l2]
  | .one k :: t, [], i, j, h, _, _, _ => by simp [GoodSels] at h
  | .many l :: t, [], i, j, h, _, _, _ => by simp [GoodSels] at h
  | .one k :: t, n :: ns, i, j, h, h1, h2, e => selIdx_inj h.2 h1 h2 (List.cons.inj e).2
  | .many l :: t, n :: ns, i, j, h, h1, h2, e => by
    obtain ⟨a, r, rfl, ha, hr⟩ := valid_cons_inv h1
    obtain ⟨a', r', rfl, ha', hr'⟩ := valid_cons_inv h2
    obtain ⟨e1, e2⟩ := List.cons.inj e
    simp only [List.headD_cons, List.getD_eq_getElem?_getD, List.getElem?_eq_getElem ha,
      List.getElem?_eq_getElem ha', Option.getD_some] at e1
    rw [selIdx_inj h.2 hr hr' e2, (h.1.1.getElem_inj_iff).1 e1]

theorem inj_getBasic {a b : Nd γ} (h : Inj a) {ixs : List Ix} (ht : a.getBasic ixs = .ok b) :
    Inj b := by
  unfold Nd.getBasic at ht
  split at ht
  · cases ht
  · rename_i sels hs
    cases ht
    exact inj_of_map h (fun i hi => selIdx_valid (resolve_good hs) hi)
      (fun i j hi hj e => selIdx_inj (resolve_good hs) hi hj e)

theorem ofNd_ok {δ : Type} {r : Except Nd.Err δ} {a : δ} (h : Arr.ofNd r = .ok a) : r = .ok a := by
  cases r with
  | ok b => cases h; rfl
  | error e => cases e <;> cases h

theorem mk?_nd {nd : Nd γ} {dims : List (Dim β)} {y : Arr β γ} (h : Arr.mk? nd dims = .ok y) :
    y.nd = nd := by
  unfold Arr.mk? at h
  split at h
  · cases h; rfl
  · cases h

theorem inj_move (dflt : β → String) {x y : Arr β γ} (h : Inj x.nd) (mv : Move)
    (hm : mv.on dflt x = .ok (some y)) : Inj y.nd := by
  cases mv with
  | view => cases hm; exact h
  | transpose order =>
    simp only [Move.on] at hm
    split at hm
    · rename_i z hz
      cases hm
      unfold Arr.transpose at hz
      simp only at hz
      split at hz
      · cases hz
      · rename_i nd hnd
        split at hz
        · cases hz
        · rw [mk?_nd hz]
          exact inj_transpose h (ofNd_ok hnd)
    · cases hm
  | squeeze axes =>
    simp only [Move.on] at hm
    split at hm
    · rename_i z hz
      cases hm
      unfold Arr.squeezeIdx at hz
      simp only at hz
      split at hz
      · cases hz
      · rename_i nd hnd
        rw [mk?_nd hz]
        exact inj_squeeze h (ofNd_ok hnd)
    · cases hm
  | item ixs =>
    simp only [Move.on] at hm
    split at hm
    · rename_i z hz
      cases hm
      unfold Arr.getitem at hz
      split at hz
      · cases hz
      · split at hz
        · cases hz; exact h
        · split at hz
          · cases hz
          · simp only at hz
            split at hz
            · cases hz
            · split at hz
              · cases hz
              · rename_i nd hnd
                split at hz
                · cases hz
                · split at hz
                  · rename_i r hr
                    cases hz
                    rw [mk?_nd hr]
                    exact inj_getBasic h (ofNd_ok hnd)
                  · cases hz
    · cases hm
    · cases hm

theorem inj_ravel (sh : List Nat) : Inj (⟨sh, Nd.ravel sh⟩ : Nd Nat) := by
  intro i j hi hj e
  rw [← Nd.unravel_ravel hi, ← Nd.unravel_ravel hj]
  exact congrArg _ e

end HF.Share
