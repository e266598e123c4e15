import Verif.Hyper.Model
import Verif.Utils.Props
import Mathlib.Data.List.Nodup
import Mathlib.Data.List.Perm.Basic
import Mathlib.Data.List.Forall2
import Mathlib.Data.List.Pairwise
import Mathlib.Data.List.GetD
import Mathlib.Order.Defs.LinearOrder
import Mathlib.Data.Nat.Basic
import Mathlib.Order.Nat
/-
C12: `hyper` puts every row where its coordinates say, if the coordinates first appear in ascending
order.
-/

namespace HF.Hyper

variable {K α : Type} [LinearOrder K]

/-! ### Specification -/

/-- Position in C order of the element with the indices `ks`. -/
def ravel : List Nat → List Nat → Nat
  | _ :: ns, k :: ks => k * ns.prod + ravel ns ks
  | _, _ => 0

/-- `ks` are indices of an array of these sizes. -/
def Valid (sizes ks : List Nat) : Prop := List.Forall₂ (fun n k => k < n) sizes ks

/-- Row `i` has the coordinates `vals[0][ks[0]], vals[1][ks[1]], ...`. -/
def RowAt (cols vals : List (List K)) (ks : List Nat) (i : Nat) : Prop :=
  List.Forall₂ (fun (cv : List K × List K) k => ∃ a, cv.1[i]? = some a ∧ cv.2[k]? = some a) (cols.zip vals) ks

/-- Every combination of coordinate values occurs in exactly one row. -/
structure FullGrid (cols : List (List K)) (n : Nat) : Prop where
  nonempty : cols ≠ []
  length : ∀ c ∈ cols, c.length = n
  once : ∀ i j, i < n → j < n → (∀ c ∈ cols, c[i]? = c[j]?) → i = j
  all : ∀ r : List K, List.Forall₂ (fun a c => a ∈ c) r cols →
    ∃ i, i < n ∧ List.Forall₂ (fun (a : K) (c : List K) => c[i]? = some a) r cols

def Ascending (l : List K) : Prop := l.Pairwise (· < ·)

/-! ### Rows -/

theorem rows_length {n : Nat} : ∀ (cols : List (List K)), cols ≠ [] → (∀ c ∈ cols, c.length = n) →
    (rows cols).length = n
  | [c], _, h => by simpa [rows] using h c (by simp)
  | c :: d :: cs, _, h => by
    have := rows_length (d :: cs) (by simp) fun c hc => h c (by simp [hc])
    rw [rows, List.length_zipWith, this, h c (by simp), Nat.min_self]
    simp

theorem rows_get {n : Nat} (i : Nat) (hi : i < n) : ∀ (cols : List (List K)), cols ≠ [] →
    (∀ c ∈ cols, c.length = n) → ∀ r : List K, (rows cols)[i]? = some r ↔
      List.Forall₂ (fun (a : K) (c : List K) => c[i]? = some a) r cols
  | [c], _, h, r => by
    have hc := h c (by simp)
    simp only [rows, List.getElem?_map, Option.map_eq_some_iff]
    constructor
    · rintro ⟨a, h1, rfl⟩
      exact List.Forall₂.cons h1 List.Forall₂.nil
    · intro h1
      cases h1 with
      | cons h1 h2 =>
        cases h2
        exact ⟨_, h1, rfl⟩
  | c :: d :: cs, _, h, r => by
    have ih := rows_get i hi (d :: cs) (by simp) fun c hc => h c (by simp [hc])
    rw [rows, List.getElem?_zipWith]
    · constructor
      · intro h1
        cases ha : c[i]? with
        | none => rw [ha] at h1; simp at h1
        | some a =>
          cases hr : (rows (d :: cs))[i]? with
          | none => rw [ha, hr] at h1; simp at h1
          | some r' =>
            rw [ha, hr] at h1
            simp at h1
            rw [← h1]
            exact List.Forall₂.cons ha ((ih r').1 hr)
      · intro h1
        cases h1 with
        | cons h1 h2 =>
          rw [h1, (ih _).2 h2]
    · simp

/-! ### The product of the coordinate values -/

def grid : List (List K) → List (List K)
  | [] => [[]]
  | v :: vs => v.flatMap fun a => (grid vs).map (a :: ·)

theorem grid_length : ∀ vals : List (List K), (grid vals).length = (vals.map List.length).prod
  | [] => rfl
  | v :: vs => by
    rw [grid, List.length_flatMap]
    simp [grid_length vs]

theorem mem_grid : ∀ (vals : List (List K)) (r : List K), r ∈ grid vals ↔ List.Forall₂ (fun a v => a ∈ v) r vals
  | [], r => by simp [grid]
  | v :: vs, r => by
    simp only [grid, List.mem_flatMap, List.mem_map]
    constructor
    · rintro ⟨a, ha, r', hr, rfl⟩
      exact List.Forall₂.cons ha ((mem_grid vs r').1 hr)
    · intro h
      cases h with
      | cons h1 h2 => exact ⟨_, h1, _, (mem_grid vs _).2 h2, rfl⟩

abbrev ltK (x y : K) : Bool := decide (x < y)

theorem ltK_total : Py.StrictTotal (fun _ : K => True) (ltK (K := K)) where
  irrefl a _ := by simp
  trans a b c _ _ _ h1 h2 := by
    simp only [ltK, decide_eq_true_eq] at *
    exact lt_trans h1 h2
  tri a b _ _ h := by
    simp only [ltK, decide_eq_true_eq]
    exact lt_or_gt_of_ne h

theorem lex_total : Py.StrictTotal (fun _ : List K => True) (Py.lexLt (ltK (K := K))) := by
  have := Py.lexLt_total (ltK_total (K := K))
  exact ⟨fun a _ => this.irrefl a (by simp), fun a b c _ _ _ => this.trans a b c (by simp) (by simp) (by simp),
    fun a b _ _ => this.tri a b (by simp) (by simp)⟩

theorem grid_sorted : ∀ vals : List (List K), (∀ v ∈ vals, Ascending v) →
    (grid vals).Pairwise fun a b => Py.lexLt ltK a b = true
  | [], _ => by simp [grid]
  | v :: vs, h => by
    have ih := grid_sorted vs fun w hw => h w (by simp [hw])
    rw [grid, List.pairwise_flatMap]
    refine ⟨fun a _ => ?_, ?_⟩
    · rw [List.pairwise_map]
      refine ih.imp fun {x y} hxy => ?_
      simpa [Py.lexLt] using hxy
    · refine (h v (by simp)).imp fun {a b} hab x hx y hy => ?_
      obtain ⟨x', -, rfl⟩ := List.mem_map.1 hx
      obtain ⟨y', -, rfl⟩ := List.mem_map.1 hy
      simp [Py.lexLt, ltK, hab, hab.ne]

theorem ravel_lt : ∀ (sizes ks : List Nat), Valid sizes ks → ravel sizes ks < sizes.prod
  | _, _, .nil => by simp [ravel]
  | _, _, .cons (a := n) (b := k) (l₁ := ns) (l₂ := ks) h1 h2 => by
    have := ravel_lt ns ks h2
    simp only [ravel, List.prod_cons]
    calc k * ns.prod + ravel ns ks < k * ns.prod + ns.prod := by omega
      _ = (k + 1) * ns.prod := by rw [Nat.add_mul, Nat.one_mul]
      _ ≤ n * ns.prod := Nat.mul_le_mul_right _ h1

theorem flatMap_get {β γ : Type} (f : β → List γ) (m : Nat) (hf : ∀ b, (f b).length = m) :
    ∀ (l : List β) (k j : Nat) (b : β), l[k]? = some b → j < m → (l.flatMap f)[k * m + j]? = (f b)[j]?
  | [], k, j, b, h, _ => by simp at h
  | x :: l, 0, j, b, h, hj => by
    simp at h
    subst h
    rw [List.flatMap_cons, List.getElem?_append_left (by rw [hf]; omega)]
    simp
  | x :: l, k + 1, j, b, h, hj => by
    simp at h
    rw [List.flatMap_cons, List.getElem?_append_right (by rw [hf, Nat.add_mul]; omega), hf]
    rw [← flatMap_get f m hf l k j b h hj]
    congr 1
    rw [Nat.add_mul]
    omega

theorem grid_get : ∀ (vals : List (List K)) (ks : List Nat), Valid (vals.map List.length) ks →
    ∃ r, (grid vals)[ravel (vals.map List.length) ks]? = some r ∧
      List.Forall₂ (fun (a : K) (vk : List K × Nat) => vk.1[vk.2]? = some a) r (vals.zip ks)
  | [], ks, h => by
    cases h
    exact ⟨[], rfl, List.Forall₂.nil⟩
  | v :: vs, ks, h => by
    cases h with
    | cons h1 h2 =>
      rename_i k ks
      obtain ⟨r, hr, hf⟩ := grid_get vs ks h2
      refine ⟨v[k] :: r, ?_, List.Forall₂.cons (List.getElem?_eq_getElem h1) hf⟩
      simp only [List.map_cons, ravel, grid]
      rw [flatMap_get _ (vs.map List.length).prod (by simp [grid_length]) v k _ v[k]
        (List.getElem?_eq_getElem h1) (ravel_lt _ _ h2), List.getElem?_map, hr]
      rfl

/-! ### Sorting the rows -/

theorem rowLt_total : Py.StrictTotal (fun _ : List K × Nat => True) (rowLt (K := K)) where
  irrefl a _ := by simp [rowLt]
  trans a b c _ _ _ h1 h2 := by
    obtain ⟨a, i⟩ := a
    obtain ⟨b, j⟩ := b
    obtain ⟨c, k⟩ := c
    simp only [rowLt] at *
    by_cases hab : a = b
    · subst hab
      simp only [if_true, decide_eq_true_eq] at h1
      by_cases hac : a = c
      · subst hac
        simp only [if_true, decide_eq_true_eq] at h2 ⊢
        omega
      · simpa only [hac, if_false] using h2
    · simp only [hab, if_false] at h1
      by_cases hbc : b = c
      · subst hbc
        simpa only [hab, if_false] using h1
      · simp only [hbc, if_false] at h2
        have h3 := lex_total.trans a b c trivial trivial trivial h1 h2
        have hac : a ≠ c := by
          rintro rfl
          have := lex_total.irrefl a trivial
          rw [this] at h3
          cases h3
        simpa only [hac, if_false] using h3
  tri a b _ _ h := by
    obtain ⟨a, i⟩ := a
    obtain ⟨b, j⟩ := b
    simp only [rowLt]
    by_cases hab : a = b
    · subst hab
      simp only [if_true, decide_eq_true_eq]
      have : i ≠ j := fun e => h (by rw [e])
      omega
    · have hba : b ≠ a := fun e => hab e.symm
      simp only [hab, hba, if_false]
      exact lex_total.tri a b trivial trivial hab

theorem sorted_rows (l : List (List K × Nat)) (vals : List (List K)) (hv : ∀ v ∈ vals, Ascending v)
    (hnd : (l.map Prod.fst).Nodup) (hmem : ∀ r, r ∈ l.map Prod.fst ↔ r ∈ grid vals) :
    (Py.sortBy rowLt l).map Prod.fst = grid vals := by
  have hp := Py.sortBy_perm rowLt l
  have hs := Py.sortBy_sorted_total rowLt_total (l := l) (fun _ _ => trivial)
  have hgs := grid_sorted vals hv
  have hgn : (grid vals).Nodup := hgs.imp fun {a b} h e => by
    subst e
    rw [lex_total.irrefl a trivial] at h
    cases h
  apply Py.sorted_unique lex_total (fun _ _ => trivial) (fun _ _ => trivial)
  · exact (hp.map Prod.fst).trans ((List.perm_ext_iff_of_nodup hnd hgn).2 hmem)
  · rw [List.pairwise_map]
    refine hs.imp fun {x y} h => ?_
    unfold rowLt at h
    by_cases e : y.1 = x.1
    · rw [e]
      exact lex_total.irrefl _ trivial
    · rwa [if_neg e] at h
  · refine hgs.imp fun {x y} h => lex_total.asymm trivial trivial h

theorem mapM_get {v : List α} : ∀ (l : List Nat), (∀ i ∈ l, i < v.length) →
    ∃ r : List α, l.mapM (v[·]?) = some r ∧
      r.length = l.length ∧ ∀ k i : Nat, l[k]? = some i → r[k]? = v[i]?
  | [], _ => ⟨[], rfl, rfl, by simp⟩
  | i :: l, h => by
    obtain ⟨r, h1, h2, h3⟩ := mapM_get (v := v) l fun j hj => h j (by simp [hj])
    have hi := h i (by simp)
    refine ⟨v[i] :: r, ?_, by simp [h2], ?_⟩
    · rw [List.mapM_cons, List.getElem?_eq_getElem hi, h1]
      rfl
    · intro k j hk
      cases k with
      | zero =>
        simp at hk
        subst hk
        simp [List.getElem?_eq_getElem hi]
      | succ k => simpa using h3 k j (by simpa using hk)

theorem uniq_length {c v : List K} (hv : Ascending v) (hm : ∀ a, a ∈ v ↔ a ∈ c) :
    (Utils.stableUniq c).length = v.length := by
  obtain ⟨h1, h2, -⟩ := Utils.C15_stable_uniq c
  have hvn : v.Nodup := hv.imp fun h => h.ne
  exact ((List.perm_ext_iff_of_nodup h1 hvn).2 fun a => by rw [h2, hm]).length_eq

theorem forall₂_zip_right {cols : List (List K)} {vals : List (List K)} :
    ∀ (ks : List Nat) (r : List K) (i : Nat), cols.length = vals.length →
      List.Forall₂ (fun (a : K) (vk : List K × Nat) => vk.1[vk.2]? = some a) r (vals.zip ks) →
      vals.length = ks.length →
      (RowAt cols vals ks i ↔ List.Forall₂ (fun (a : K) (c : List K) => c[i]? = some a) r cols) := by
  unfold RowAt
  induction cols generalizing vals with
  | nil =>
    intro ks r i h1 h2 h3
    have : vals = [] := List.length_eq_zero_iff.1 h1.symm
    subst this
    have : ks = [] := List.length_eq_zero_iff.1 h3.symm
    subst this
    cases h2
    simp
  | cons c cols ih =>
    intro ks r i h1 h2 h3
    cases vals with
    | nil => simp at h1
    | cons v vals =>
      cases ks with
      | nil => simp at h3
      | cons k ks =>
        rw [List.zip_cons_cons] at h2
        cases h2 with
        | cons h4 h5 =>
          rename_i a r
          have := ih ks r i (by simpa using h1) h5 (by simpa using h3)
          rw [List.zip_cons_cons, List.forall₂_cons, List.forall₂_cons, this]
          simp only at h4 ⊢
          rw [h4]
          simp

theorem same_row {r : List K} {cols : List (List K)} {i j : Nat}
    (e1 : List.Forall₂ (fun (a : K) (c : List K) => c[i]? = some a) r cols)
    (e2 : List.Forall₂ (fun (a : K) (c : List K) => c[j]? = some a) r cols) :
    ∀ c ∈ cols, c[i]? = c[j]? := by
  induction e1 with
  | nil => simp
  | cons a1 _ ih =>
    cases e2 with
    | cons b1 b2 =>
      intro c hc
      rcases List.mem_cons.1 hc with rfl | hc
      · rw [a1, b1]
      · exact ih b2 c hc

/-- C12: the element with the indices `ks` is the row whose coordinates are the `ks`-th values *in
ascending order*.  (`vals` are these values.)  -/
theorem C12_order (cols vals : List (List K)) (n : Nat) (v : List α) (h : FullGrid cols n) (hv : v.length = n)
    (hvals : List.Forall₂ (fun c w => Ascending w ∧ ∀ a, a ∈ w ↔ a ∈ c) cols vals) :
    ∃ r, hyper cols v = .ok (newDims cols, r) ∧ ∀ ks i, Valid ((newDims cols).map List.length) ks → i < n →
      RowAt cols vals ks i → r[ravel ((newDims cols).map List.length) ks]? = v[i]? := by
  have hlen : (newDims cols).map List.length = vals.map List.length := by
    unfold newDims
    rw [List.map_map]
    clear h
    induction hvals with
    | nil => rfl
    | cons h1 _ ih => rw [List.map_cons, List.map_cons, ih, Function.comp_apply, uniq_length h1.1 h1.2]
  have hrl := rows_length cols h.nonempty h.length
  obtain ⟨L, hL⟩ : ∃ L, L = (rows cols).zip (List.range (rows cols).length) := ⟨_, rfl⟩
  have hfst : L.map Prod.fst = rows cols := by
    rw [hL]
    exact List.map_fst_zip (by simp)
  have hLi : ∀ p ∈ L, p.2 < n ∧ (rows cols)[p.2]? = some p.1 := by
    intro p hp
    rw [hL] at hp
    obtain ⟨i, hi, rfl⟩ := List.mem_iff_getElem.1 hp
    simp only [List.length_zip, List.length_range, Nat.min_self] at hi
    refine ⟨?_, ?_⟩
    · simp only [List.getElem_zip, List.getElem_range]
      omega
    · simp only [List.getElem_zip, List.getElem_range]
      exact List.getElem?_eq_getElem hi
  have hnd : (rows cols).Nodup := by
    rw [List.nodup_iff_getElem?_ne_getElem?]
    intro i j hij hj e
    rw [hrl] at hj
    obtain ⟨r, hr⟩ : ∃ r, (rows cols)[j]? = some r := ⟨_, List.getElem?_eq_getElem (by omega)⟩
    rw [hr] at e
    have e1 := (rows_get i (by omega) cols h.nonempty h.length r).1 e
    have e2 := (rows_get j hj cols h.nonempty h.length r).1 hr
    have : i = j := h.once i j (by omega) hj (same_row e1 e2)
    omega
  have hmem : ∀ r, r ∈ L.map Prod.fst ↔ r ∈ grid vals := by
    intro r
    rw [hfst, mem_grid]
    have hiff : List.Forall₂ (fun a v => a ∈ v) r vals ↔ List.Forall₂ (fun a c => a ∈ c) r cols := by
      clear hlen hnd hLi hfst hL hrl h
      induction hvals generalizing r with
      | nil => rfl
      | cons h1 _ ih =>
        cases r with
        | nil => simp
        | cons a r => rw [List.forall₂_cons, List.forall₂_cons, ih r, h1.2 a]
    rw [hiff]
    constructor
    · intro hr
      obtain ⟨i, hi, rfl⟩ := List.mem_iff_getElem.1 hr
      have := (rows_get i (by omega) cols h.nonempty h.length _).1 (List.getElem?_eq_getElem hi)
      exact this.imp fun a c hac => List.mem_of_getElem? hac
    · intro hr
      obtain ⟨i, hi, hf⟩ := h.all r hr
      exact List.mem_of_getElem? ((rows_get i hi cols h.nonempty h.length r).2 hf)
  have hsort := sorted_rows L vals (by
    intro w hw
    clear hlen hnd hLi hfst hL hrl h hmem
    induction hvals with
    | nil => simp at hw
    | cons h1 _ ih =>
      rcases List.mem_cons.1 hw with rfl | hw
      · exact h1.1
      · exact ih hw) (by rw [hfst]; exact hnd) hmem
  obtain ⟨r, hr1, hr2, hr3⟩ := mapM_get (v := v) (sortOrder cols) (by
    intro i hi
    unfold sortOrder at hi
    rw [← hL] at hi
    obtain ⟨p, hp, rfl⟩ := List.mem_map.1 hi
    rw [hv]
    exact (hLi p ((Py.sortBy_perm rowLt L).mem_iff.1 hp)).1)
  have hso : (sortOrder cols).length = (vals.map List.length).prod := by
    unfold sortOrder
    rw [← hL, List.length_map, ← grid_length, ← hsort, List.length_map]
  refine ⟨r, ?_, fun ks i hks hi hrow => ?_⟩
  · obtain ⟨c, cs, hc⟩ := List.exists_cons_of_ne_nil h.nonempty
    unfold hyper
    rw [hc]
    simp only
    rw [← hc, hr1]
    simp only
    rw [if_pos (by rw [hr2, hso, hlen])]
  · rw [hlen] at hks ⊢
    obtain ⟨q, hq, hqf⟩ := grid_get vals ks hks
    have hkl : vals.length = ks.length := by simpa using hks.length_eq
    rw [forall₂_zip_right ks q i hvals.length_eq hqf hkl] at hrow
    have hqi := (rows_get i hi cols h.nonempty h.length q).2 hrow
    rw [← hsort, List.getElem?_map, Option.map_eq_some_iff] at hq
    obtain ⟨p, hp, rfl⟩ := hq
    have hpL := hLi p ((Py.sortBy_perm rowLt L).mem_iff.1 (List.mem_of_getElem? hp))
    have hpi : p.2 = i := by
      have h1 := hpL.2
      rw [← hqi] at h1
      exact (List.getElem?_inj (by rw [hrl]; exact hpL.1) hnd).1 h1
    rw [← hpi]
    apply hr3
    unfold sortOrder
    rw [← hL, List.getElem?_map, hp]
    rfl

/-! ### Whatever the coordinates -/

theorem order_perm (cols : List (List K)) (n : Nat) (h0 : cols ≠ []) (hl : ∀ c ∈ cols, c.length = n) :
    (sortOrder cols).Perm (List.range n) := by
  have hrl := rows_length cols h0 hl
  unfold sortOrder
  refine ((Py.sortBy_perm rowLt _).map Prod.snd).trans (List.Perm.of_eq ?_)
  rw [List.map_snd_zip (by simp), hrl]

/-- C12: with columns as long as the variable, `hyper` works exactly if the number of rows is the
product of the numbers of different values, and only permutes the elements. -/
theorem C12_permutation (cols : List (List K)) (n : Nat) (v : List α) (h0 : cols ≠ [])
    (hl : ∀ c ∈ cols, c.length = n) (hv : v.length = n) :
    (n = ((newDims cols).map List.length).prod → ∃ r, hyper cols v = .ok (newDims cols, r) ∧ r.Perm v) ∧
    (n ≠ ((newDims cols).map List.length).prod → hyper cols v = .error .value) := by
  have hp := order_perm cols n h0 hl
  obtain ⟨r, hr1, hr2, hr3⟩ := mapM_get (v := v) (sortOrder cols) (fun i hi => by
    have := hp.mem_iff.1 hi
    rw [hv]
    simpa using this)
  have hrn : r.length = n := by rw [hr2, hp.length_eq, List.length_range]
  obtain ⟨c, cs, hc⟩ := List.exists_cons_of_ne_nil h0
  have hh : hyper cols v =
      if r.length = ((newDims cols).map List.length).prod then .ok (newDims cols, r) else .error .value := by
    unfold hyper
    rw [hc]
    simp only
    rw [← hc, hr1]
  refine ⟨fun hn => ⟨r, ?_, ?_⟩, fun hn => ?_⟩
  · rw [hh, if_pos (hrn.trans hn)]
  · have h1 : r.map some = (sortOrder cols).map (v[·]?) := by
      apply List.ext_getElem?
      intro k
      rw [List.getElem?_map, List.getElem?_map]
      cases hk : (sortOrder cols)[k]? with
      | none =>
        rw [List.getElem?_eq_none_iff] at hk
        rw [List.getElem?_eq_none (by omega)]
        rfl
      | some i =>
        rw [hr3 k i hk]
        have hi : i < v.length := by
          have := hp.mem_iff.1 (List.mem_of_getElem? hk)
          rw [hv]
          simpa using this
        simp [List.getElem?_eq_getElem hi]
    have h2 : (List.range n).map (v[·]?) = v.map some := by
      apply List.ext_getElem?
      intro k
      rw [List.getElem?_map, List.getElem?_map]
      by_cases hk : k < n
      · rw [List.getElem?_range hk]
        simp [List.getElem?_eq_getElem (show k < v.length by omega)]
      · rw [List.getElem?_eq_none (by simpa using hk), List.getElem?_eq_none (by omega)]
        rfl
    have h3 : (r.map some).Perm (v.map some) := by
      rw [h1, ← h2]
      exact hp.map _
    exact (List.map_perm_map_iff (fun _ _ e => Option.some.inj e)).1 h3
  · rw [hh, if_neg (by rw [hrn]; exact hn)]

/-- C12: if the values of every coordinate first appear in ascending order, every element is the row with
the coordinates that the new dimensions give it. -/
theorem C12_labels (cols : List (List K)) (n : Nat) (v : List α) (h : FullGrid cols n) (hv : v.length = n)
    (hasc : ∀ d ∈ newDims cols, Ascending d) :
    ∃ r, hyper cols v = .ok (newDims cols, r) ∧
      ∀ ks i, Valid ((newDims cols).map List.length) ks → i < n →
        RowAt cols (newDims cols) ks i → r[ravel ((newDims cols).map List.length) ks]? = v[i]? := by
  refine C12_order cols (newDims cols) n v h hv ?_
  unfold newDims at hasc ⊢
  rw [List.forall₂_map_right_iff, List.forall₂_same]
  exact fun c hc => ⟨hasc _ (List.mem_map_of_mem hc), (Utils.C15_stable_uniq c).2.1⟩

theorem exists_row (cols : List (List K)) (n : Nat) (h : FullGrid cols n) (vals : List (List K))
    (hm : List.Forall₂ (fun c w => ∀ a, a ∈ w ↔ a ∈ c) cols vals) (ks : List Nat)
    (hks : Valid (vals.map List.length) ks) : ∃ i, i < n ∧ RowAt cols vals ks i := by
  obtain ⟨q, -, hqf⟩ := grid_get vals ks hks
  have hkl : vals.length = ks.length := by simpa using hks.length_eq
  have hq : List.Forall₂ (fun a c => a ∈ c) q cols := by
    clear h hks
    induction hm generalizing q ks with
    | nil =>
      cases ks with
      | nil => simpa using hqf
      | cons => simp at hkl
    | cons h1 _ ih =>
      cases ks with
      | nil => simp at hkl
      | cons k ks =>
        rw [List.zip_cons_cons] at hqf
        cases hqf with
        | cons h2 h3 =>
          exact List.Forall₂.cons ((h1 _).1 (List.mem_of_getElem? h2)) (ih ks _ h3 (by simpa using hkl))
  obtain ⟨i, hi, hf⟩ := h.all q hq
  exact ⟨i, hi, (forall₂_zip_right ks q i hm.length_eq hqf hkl).2 hf⟩

/-- Indices that are 0 except for the dimension `j`. -/
theorem valid_single (sizes : List Nat) (hpos : ∀ s ∈ sizes, 0 < s) (j k : Nat) (hk : ∃ s, sizes[j]? = some s ∧ k < s) :
    ∃ ks, Valid sizes ks ∧ ks[j]? = some k := by
  induction sizes generalizing j with
  | nil => simp at hk
  | cons s sizes ih =>
    cases j with
    | zero =>
      obtain ⟨s', h1, h2⟩ := hk
      simp at h1
      subst h1
      refine ⟨k :: List.replicate sizes.length 0, List.Forall₂.cons h2 ?_, rfl⟩
      rw [List.forall₂_iff_get]
      refine ⟨by simp, fun i h1 h2 => ?_⟩
      simpa using hpos _ (List.mem_cons_of_mem _ (List.get_mem sizes ⟨i, h1⟩))
    | succ j =>
      obtain ⟨ks, h1, h2⟩ := ih (fun s hs => hpos s (by simp [hs])) j (by simpa using hk)
      exact ⟨0 :: ks, List.Forall₂.cons (hpos s (by simp)) h1, by simpa using h2⟩

theorem rowAt_get {cols vals : List (List K)} {ks : List Nat} {i : Nat} (h : RowAt cols vals ks i) (j : Nat)
    (c w : List K) (k : Nat) (hc : cols[j]? = some c) (hw : vals[j]? = some w) (hk : ks[j]? = some k) :
    ∃ a, c[i]? = some a ∧ w[k]? = some a := by
  unfold RowAt at h
  rw [List.forall₂_iff_get] at h
  obtain ⟨h1, h2⟩ := h
  obtain ⟨hj, rfl⟩ := List.getElem?_eq_some_iff.1 hk
  have hz : (cols.zip vals)[j]? = some (c, w) := by
    rw [List.getElem?_zip_eq_some]
    exact ⟨hc, hw⟩
  obtain ⟨hj', hz⟩ := List.getElem?_eq_some_iff.1 hz
  have := h2 j hj' hj
  simp only [List.get_eq_getElem, hz] at this
  exact this

/-- C12: the condition is needed as well: every variable is labelled correctly only if the values of every
coordinate first appear in ascending order. -/
theorem C12_labels_iff (cols : List (List K)) (n : Nat) (h : FullGrid cols n) :
    (∃ r, hyper cols (List.range n) = .ok (newDims cols, r) ∧
      ∀ ks i, Valid ((newDims cols).map List.length) ks → i < n →
        RowAt cols (newDims cols) ks i → r[ravel ((newDims cols).map List.length) ks]? = some i) ↔
    ∀ d ∈ newDims cols, Ascending d := by
  constructor
  · rintro ⟨r, hr, hlab⟩ d hd
    obtain ⟨vals, hvd⟩ : ∃ vals, vals = cols.map fun c => Py.sortBy ltK (Utils.stableUniq c) := ⟨_, rfl⟩
    have hsp : ∀ c : List K, (Py.sortBy ltK (Utils.stableUniq c)).Perm (Utils.stableUniq c) :=
      fun c => Py.sortBy_perm _ _
    have hvals : List.Forall₂ (fun c w => Ascending w ∧ ∀ a, a ∈ w ↔ a ∈ c) cols vals := by
      rw [hvd, List.forall₂_map_right_iff, List.forall₂_same]
      intro c _
      have hc := Utils.C15_stable_uniq c
      refine ⟨?_, fun a => by rw [(hsp c).mem_iff, hc.2.1]⟩
      have hs := Py.sortBy_sorted_total ltK_total (l := Utils.stableUniq c) (fun _ _ => trivial)
      have hn : (Py.sortBy ltK (Utils.stableUniq c)).Nodup := (hsp c).nodup_iff.2 hc.1
      refine (hs.and hn).imp fun {a b} hab => ?_
      have h1 : ¬ b < a := by simpa [ltK] using hab.1
      exact lt_of_le_of_ne (not_lt.1 h1) hab.2
    obtain ⟨r', hr', hord⟩ := C12_order cols vals n (List.range n) h (by simp) hvals
    have hrr : r' = r := by
      rw [hr] at hr'
      injection hr' with e
      injection e with _ e
      exact e.symm
    subst hrr
    unfold newDims at hd
    obtain ⟨c, hc, rfl⟩ := List.mem_map.1 hd
    obtain ⟨j, hj, hcj⟩ := List.mem_iff_getElem.1 hc
    have hcj' : cols[j]? = some c := by rw [List.getElem?_eq_getElem hj, hcj]
    have hdj : (newDims cols)[j]? = some (Utils.stableUniq c) := by rw [newDims, List.getElem?_map, hcj']; rfl
    have hvj : vals[j]? = some (Py.sortBy ltK (Utils.stableUniq c)) := by
      rw [hvd, List.getElem?_map, hcj']; rfl
    have hsame : Utils.stableUniq c = Py.sortBy ltK (Utils.stableUniq c) := by
      apply List.ext_getElem (hsp c).length_eq.symm
      intro k hk1 hk2
      have hpos : ∀ s ∈ (newDims cols).map List.length, 0 < s := by
        intro s hs
        obtain ⟨e, he, rfl⟩ := List.mem_map.1 hs
        obtain ⟨b, hb, rfl⟩ := List.mem_map.1 he
        have hcl := h.length c hc
        have hn : 0 < n := by
          rw [← hcl]
          exact Nat.lt_of_lt_of_le (Nat.lt_of_le_of_lt (Nat.zero_le k) hk1) (Utils.C15_stable_uniq c).2.2.length_le
        have hbl := h.length b hb
        cases b with
        | nil => simp at hbl; omega
        | cons a b => exact List.length_pos_of_mem (((Utils.C15_stable_uniq (a :: b)).2.1 a).2 (by simp))
      obtain ⟨ks, hks, hkj⟩ := valid_single ((newDims cols).map List.length) hpos j k
        ⟨_, by rw [List.getElem?_map, hdj]; rfl, hk1⟩
      have hlen : (newDims cols).map List.length = vals.map List.length := by
        rw [hvd, newDims, List.map_map, List.map_map]
        exact List.map_congr_left fun c _ => (hsp c).length_eq.symm
      obtain ⟨i1, hi1, hrow1⟩ := exists_row cols n h (newDims cols) (by
        unfold newDims
        rw [List.forall₂_map_right_iff, List.forall₂_same]
        exact fun c _ => (Utils.C15_stable_uniq c).2.1) ks hks
      obtain ⟨i2, hi2, hrow2⟩ := exists_row cols n h vals (hvals.imp fun _ _ h => h.2) ks (by rw [← hlen]; exact hks)
      have e1 := hlab ks i1 hks hi1 hrow1
      have e2 := hord ks i2 hks hi2 hrow2
      rw [e1, List.getElem?_range hi2] at e2
      injection e2 with e2
      subst e2
      obtain ⟨a, ha1, ha2⟩ := rowAt_get hrow1 j c _ k hcj' hdj hkj
      obtain ⟨b, hb1, hb2⟩ := rowAt_get hrow2 j c _ k hcj' hvj hkj
      rw [ha1] at hb1
      injection hb1 with hab
      subst hab
      rw [List.getElem?_eq_getElem hk1] at ha2
      rw [List.getElem?_eq_getElem hk2] at hb2
      rw [← hb2] at ha2
      exact Option.some.inj ha2
    rw [hsame]
    have : ∀ {l m : List (List K)} , List.Forall₂ (fun c w => Ascending w ∧ ∀ a, a ∈ w ↔ a ∈ c) l m →
        ∀ w ∈ m, Ascending w := by
      intro l m hf
      induction hf with
      | nil => simp
      | cons h1 _ ih =>
        intro w hw
        rcases List.mem_cons.1 hw with rfl | hw
        · exact h1.1
        · exact ih w hw
    exact this hvals _ (List.mem_of_getElem? hvj)
  · intro hasc
    obtain ⟨r, h1, h2⟩ := C12_labels cols n (List.range n) h (by simp) hasc
    refine ⟨r, h1, fun ks i hks hi hrow => ?_⟩
    rw [h2 ks i hks hi hrow, List.getElem?_range hi]

/-- C12, violated: with coordinates that first appear in descending order the elements are exchanged. -/
theorem C12_labels_refuted :
    hyper [[2, 2, 1, 1], [5, 6, 5, 6]] ["(2,5)", "(2,6)", "(1,5)", "(1,6)"] =
      .ok ([[2, 1], [5, 6]], ["(1,5)", "(1,6)", "(2,5)", "(2,6)"]) := by
  decide +kernel

/-- C12, violated: a table that lacks a combination but repeats another is accepted if only the number of
rows is right. -/
theorem C12_repeated_refuted :
    hyper [[1, 1, 2, 2], [5, 5, 5, 6]] ["(1,5)", "(1,5) again", "(2,5)", "(2,6)"] =
      .ok ([[1, 2], [5, 6]], ["(1,5)", "(1,5) again", "(2,5)", "(2,6)"]) ∧
    ravel [2, 2] [0, 1] = 1 := by
  decide +kernel

/-- The hypotheses are met by a table with its rows in any order, here with different sizes. -/
example : FullGrid [[1, 1, 2, 1, 2, 2], [5, 6, 7, 7, 6, 5]] 6 ∧
    (∀ d ∈ newDims [[1, 1, 2, 1, 2, 2], [5, 6, 7, 7, 6, 5]], Ascending d) ∧
    hyper [[1, 1, 2, 1, 2, 2], [5, 6, 7, 7, 6, 5]] [15, 16, 27, 17, 26, 25] =
      .ok ([[1, 2], [5, 6, 7]], [15, 16, 17, 25, 26, 27]) := by
  refine ⟨⟨by simp, by simp, ?_, ?_⟩, by unfold Ascending; decide +kernel, by decide +kernel⟩
  · have : ∀ i : Fin 6, ∀ j : Fin 6, (∀ c ∈ [[1, 1, 2, 1, 2, 2], [5, 6, 7, 7, 6, 5]], c[i.val]? = c[j.val]?) → i = j := by
      decide +kernel
    intro i j hi hj h
    exact congrArg Fin.val (this ⟨i, hi⟩ ⟨j, hj⟩ h)
  intro r hr
  cases hr with
  | cons h1 h2 =>
    cases h2 with
    | cons h2 h3 =>
      cases h3
      rename_i a b
      have h1' : a = 1 ∨ a = 2 := by simp at h1; omega
      have h2' : b = 5 ∨ b = 6 ∨ b = 7 := by simp at h2; omega
      rcases h1' with rfl | rfl <;> rcases h2' with rfl | rfl | rfl
      · exact ⟨0, by decide, by simp⟩
      · exact ⟨1, by decide, by simp⟩
      · exact ⟨3, by decide, by simp⟩
      · exact ⟨5, by decide, by simp⟩
      · exact ⟨4, by decide, by simp⟩
      · exact ⟨2, by decide, by simp⟩

end HF.Hyper
