import Verif.Readers.AssembleLemmas
import Verif.DataBlock.Writes
/-
C21: assembling matrices from columns.
-/
namespace HF.Readers.Assemble

open HF.DataDict.Spec HF.DataBlock
open HF.DataDict hiding rename delitem

variable {β α : Type}

/-! ### Specification -/

/-- The names contain exactly the elements of `v` with row digits `I` and column digits `J`, and
more than one. -/
structure CompleteF (f : Form) (names : List String) (v : String) (I J : List Nat) : Prop where
  base : IsBase v
  rows : I.Pairwise (· < ·)
  cols : J.Pairwise (· < ·)
  digits : (∀ i ∈ I, i < 10) ∧ ∀ j ∈ J, j < 10
  mem : ∀ i j, i < 10 → j < 10 → (elemNmF f v i j ∈ names ↔ i ∈ I ∧ j ∈ J)
  many : 1 < I.length * J.length

abbrev Complete : List String → String → List Nat → List Nat → Prop := CompleteF .digits

/-- The columns of `v` can be put together: they have the same dimensions and element type and
there is no clash between the names of variables and dimensions. -/
structure FitF (f : Form) (cast : Arr β α → α → α) (b : Block β α) (v : String) (I J : List Nat)
    (D : List (Dim β)) (sh : List Nat) : Prop where
  len : D.length = sh.length
  known : ∀ d ∈ D, d.name ∈ keys b.ivars
  name : v ∉ keys b.ivars ∧ v ≠ "i" ∧ v ≠ "j"
  elem : ∀ i ∈ I, ∀ j ∈ J, elemNmF f v i j ∉ keys b.ivars
  cols : ∀ i ∈ I, ∀ j ∈ J, ∃ c, lookup b.vars (elemNmF f v i j) = some c ∧ c.dims = D ∧ c.nd.shape = sh
  type : ∀ i ∈ I, ∀ j ∈ J, ∀ k ∈ I, ∀ l ∈ J, ∀ c c' : Arr β α,
    lookup b.vars (elemNmF f v i j) = some c → lookup b.vars (elemNmF f v k l) = some c' →
    ∀ idx, Nd.Valid sh idx → cast c (c'.nd.get idx) = c'.nd.get idx

abbrev Fit (cast : Arr β α → α → α) (b : Block β α) (v : String) (I J : List Nat) (D : List (Dim β)) (sh : List Nat) : Prop :=
  FitF .digits cast b v I J D sh

/-- `m` is the matrix of the columns of `v`: the column with the `a`-th row digit and the `c`-th
column digit is its element `(a,c)`. -/
structure AssembledF (f : Form) (b : Block β α) (v : String) (I J : List Nat) (D : List (Dim β)) (sh : List Nat)
    (m : Arr β α) : Prop where
  shape : ∃ di dj, MatStack m D di dj sh I.length J.length ∧ di.name = "i" ∧ dj.name = "j"
  get : ∀ a c (ha : a < I.length) (hc : c < J.length), ∃ col,
    lookup b.vars (elemNmF f v I[a] J[c]) = some col ∧
    ∀ idx, Nd.Valid sh idx → m.nd.get (idx ++ [a, c]) = col.nd.get idx

abbrev Assembled (b : Block β α) (v : String) (I J : List Nat) (D : List (Dim β)) (sh : List Nat) (m : Arr β α) : Prop :=
  AssembledF .digits b v I J D sh m

/-- The collection of `v` that counts: it is complete, and there is none in the forms that come later. -/
def Wins (names : List String) (forms : List Form) (f : Form) (v : String) (I J : List Nat) : Prop :=
  ∃ before after, forms = before ++ f :: after ∧ f ∉ after ∧ CompleteF f names v I J ∧
    ∀ g ∈ after, ∀ I' J', ¬ CompleteF g names v I' J'

/-! ### Recognition -/

/-- A matrix is found exactly for the complete collections, with all the elements in row-major order. -/
theorem groups_form (f : Form) (names : List String) (hn : names.Nodup) (g : Group) :
    g ∈ matchElements f names ↔ g.form = f ∧
      CompleteF f names g.name g.rows g.cols ∧ g.elems = (grid f g.name g.rows g.cols).map fun t => t.2.2 := by
  simp only [matchElements, List.mem_filterMap]
  constructor
  · rintro ⟨⟨v, ts⟩, hm, hg⟩
    obtain ⟨rfl, hne⟩ := (mem_possibles f names v ts).1 hm
    simp only [toGroup] at hg
    split at hg
    · rename_i e I J hme
      split at hg
      · rename_i hlen
        simp only [Option.some.injEq] at hg
        subst hg
        obtain ⟨hI, hJ, hmem, rfl⟩ := matrixElements_some f v _ (nodup_hits f v names hn)
          (by rintro ⟨i, j, s⟩ ht; exact ((mem_hits _ _ _ _ _ _).1 ht).2.2.2.1) hme
        have hmem' : ∀ i j, i ∈ I → j ∈ J → IsBase v ∧ i < 10 ∧ j < 10 ∧ elemNmF f v i j ∈ names := by
          intro i j hi hj
          have := (hmem i j (elemNmF f v i j)).2 ((mem_grid _ _ _ _ _ _ _).2 ⟨hi, hj, rfl⟩)
          obtain ⟨h1, h2, h3, _, h5⟩ := (mem_hits _ _ _ _ _ _).1 this
          exact ⟨h1, h2, h3, h5⟩
        rw [List.length_map, length_grid] at hlen
        have hpos : 0 < I.length ∧ 0 < J.length := by
          constructor <;> refine Nat.pos_of_ne_zero ?_ <;> intro h <;> rw [h] at hlen <;> simp at hlen
        obtain ⟨i0, hi0⟩ := List.exists_mem_of_length_pos hpos.1
        obtain ⟨j0, hj0⟩ := List.exists_mem_of_length_pos hpos.2
        refine ⟨rfl, ⟨(hmem' i0 j0 hi0 hj0).1, hI, hJ, ⟨fun i hi => (hmem' i j0 hi hj0).2.1,
          fun j hj => (hmem' i0 j hi0 hj).2.2.1⟩, ?_, hlen⟩, rfl⟩
        intro i j hi hj
        constructor
        · intro h
          have := (hmem i j _).1 ((mem_hits _ _ _ _ _ _).2 ⟨(hmem' i0 j0 hi0 hj0).1, hi, hj, rfl, h⟩)
          have := (mem_grid _ _ _ _ _ _ _).1 this
          exact ⟨this.1, this.2.1⟩
        · intro h; exact (hmem' i j h.1 h.2).2.2.2
      · simp at hg
    · simp at hg
  · rintro ⟨hf, hc, he⟩
    obtain ⟨v, e, I, J, f'⟩ := g
    simp only at hc he hf
    have hf := hf.symm
    subst he hf
    have hpos : I ≠ [] ∧ J ≠ [] := by
      have := hc.many
      constructor <;> rintro rfl <;> simp at this
    have hmem : ∀ t, t ∈ hits f v names ↔ t ∈ grid f v I J := by
      rintro ⟨i, j, s⟩
      rw [mem_hits, mem_grid]
      constructor
      · rintro ⟨_, h2, h3, rfl, h5⟩
        have := (hc.mem i j h2 h3).1 h5
        exact ⟨this.1, this.2, rfl⟩
      · rintro ⟨h1, h2, rfl⟩
        exact ⟨hc.base, hc.digits.1 i h1, hc.digits.2 j h2, rfl,
          (hc.mem i j (hc.digits.1 i h1) (hc.digits.2 j h2)).2 ⟨h1, h2⟩⟩
    have hme := matrixElements_of_grid f v _ (nodup_hits f v names hn) hc.rows hc.cols hpos.1 hpos.2 hmem
    refine ⟨(v, hits f v names), (mem_possibles _ _ _ _).2 ⟨rfl, ?_⟩, ?_⟩
    · intro h0
      obtain ⟨i0, hi0⟩ := List.exists_mem_of_ne_nil I hpos.1
      obtain ⟨j0, hj0⟩ := List.exists_mem_of_ne_nil J hpos.2
      have := (hmem (i0, j0, elemNmF f v i0 j0)).2 ((mem_grid _ _ _ _ _ _ _).2 ⟨hi0, hj0, rfl⟩)
      rw [h0] at this
      simp at this
    · have : (grid f v I J).length > 1 := by rw [length_grid]; exact hc.many
      simp only [toGroup, hme, List.length_map, this, if_true]

theorem groups_nodup (f : Form) (names : List String) : ((matchElements f names).map Group.name).Nodup := by
  have h := keys_nodup_possibles f names [] (by simp)
  unfold matchElements
  have hs : ∀ l : OMap String (List Tup), List.Sublist ((l.filterMap (toGroup f)).map Group.name) (l.map Prod.fst) := by
    intro l
    induction l with
    | nil => simp
    | cons p t ih =>
      rw [List.filterMap_cons]
      split
      · exact ih.trans (by simp)
      · rename_i g hg
        have : g.name = p.1 := by
          simp only [toGroup] at hg
          split at hg
          · split at hg
            · simp only [Option.some.injEq] at hg; rw [← hg]
            · simp at hg
          · simp at hg
        rw [List.map_cons, List.map_cons, this]
        exact ih.cons_cons _
  exact h.sublist (hs _)

/-! ### One matrix -/

theorem delitem_eq (b : Block β α) (e : String) (h : e ∈ keys b.vars) :
    delitem b e = { b with vars := remove b.vars e } := by
  simp [delitem, (member_iff _ _).2 h]

theorem takeCols_ok (env : Env β α) (sh : List Nat) (col : String → Arr β α) (es : List String)
    (hn : es.Nodup) : ∀ b : Block β α, (∀ e ∈ es, e ∉ keys b.ivars) →
    (∀ e ∈ es, lookup b.vars e = some (col e)) → (∀ e ∈ es, (col e).nd.shape = sh) →
    ∃ b', takeCols env sh b es = .ok (b', es.map col) ∧ b'.ivars = b.ivars ∧ b'.xname = b.xname ∧
      ∀ n, lookup b'.vars n = if n ∈ es then none else lookup b.vars n := by
  induction es with
  | nil => intro b _ _ _; exact ⟨b, rfl, rfl, rfl, by simp⟩
  | cons e es ih =>
    intro b h1 h2 h3
    rw [List.nodup_cons] at hn
    have hl := h2 e (by simp)
    have hg : getitem env b e = .ok (col e) := by
      have : lookup b.ivars e = none := (lookup_none_iff' _ _).2 (h1 e (by simp))
      simp only [getitem, this, hl]
    have hd := delitem_eq b e (lookup_key hl)
    obtain ⟨b', t1, t2, t3, t4⟩ := ih hn.2 (delitem b e) (by rw [hd]; exact fun x hx => h1 x (by simp [hx]))
      (by
        intro x hx
        rw [hd]
        simp only
        rw [lookup_remove, if_neg (by rintro rfl; exact hn.1 hx)]
        exact h2 x (by simp [hx]))
      (fun x hx => h3 x (by simp [hx]))
    refine ⟨b', ?_, by rw [t2, hd], by rw [t3, hd], ?_⟩
    · simp only [takeCols, hg, h3 e (by simp), bcastOk_refl, if_true, t1, List.map_cons]
    · intro n
      rw [t4, hd]
      simp only
      rw [lookup_remove]
      by_cases e1 : n = e
      · subst e1; simp
      · by_cases e2 : n ∈ es
        · simp [e2]
        · simp [e1, e2, Ne.symm e1]

theorem getLastD_append (l : List Nat) (a d : Nat) : (l ++ [a]).getLastD d = a := by
  rw [List.getLastD_eq_getLast?]; simp

/-- Reading from the reshaped stack. -/
theorem reshape_stack (env : Env β α) (cast : α → α) (sh : List Nat) (p q : Nat)
    (vs : List (Arr β α)) :
    ∃ nd, (stack env cast sh (p * q) vs).reshape (sh ++ [p, q]) = .ok nd ∧ nd.shape = sh ++ [p, q] ∧
      ∀ idx a c, Nd.Valid sh idx → a < p → c < q → ∀ v, vs[a * q + c]? = some v → v.nd.shape = sh →
        nd.get (idx ++ [a, c]) = cast (v.nd.get idx) := by
  have hsz : Nd.size (sh ++ [p, q]) = Nd.size (stack env cast sh (p * q) vs).shape := by
    simp [stack, Nd.size_append, Nd.size]
  refine ⟨⟨sh ++ [p, q], fun idx => (stack env cast sh (p * q) vs).get
    (Nd.unravel (sh ++ [p * q]) (Nd.ravel (sh ++ [p, q]) idx))⟩, ?_, rfl, ?_⟩
  · simp only [Nd.reshape, hsz, if_true]; rfl
  · intro idx a c hv ha hc v hvs hsh
    have hlt : a * q + c < p * q := by
      have := Nat.mul_le_mul_right q (Nat.succ_le_of_lt ha)
      rw [Nat.succ_mul] at this
      omega
    have hvalid : Nd.Valid (sh ++ [p * q]) (idx ++ [a * q + c]) :=
      (Nd.valid_append hv.length).2 ⟨hv, ⟨hlt, trivial⟩⟩
    have hr : Nd.ravel (sh ++ [p, q]) (idx ++ [a, c]) = Nd.ravel (sh ++ [p * q]) (idx ++ [a * q + c]) := by
      rw [Nd.ravel_append hv, Nd.ravel_append hv]
      simp [Nd.size, Nd.ravel]
    simp only
    rw [hr, Nd.unravel_ravel hvalid]
    simp only [stack, getLastD_append, hvs, List.dropLast_concat, hsh]
    rw [bcastIdx_valid (DataBlock.valid_reverse hv), List.reverse_reverse]

theorem grid_names_nodup {f : Form} {v : String} {I J : List Nat} (hv : IsBase v) (hI : I.Pairwise (· < ·))
    (hJ : J.Pairwise (· < ·)) (hd : (∀ i ∈ I, i < 10) ∧ ∀ j ∈ J, j < 10) :
    ((grid f v I J).map fun t => t.2.2).Nodup := by
  refine List.Nodup.map_on ?_ ((grid_sorted f v hI hJ).imp fun h => h.2)
  rintro ⟨i, j, s⟩ h1 ⟨k, l, t⟩ h2 e
  obtain ⟨a1, a2, rfl⟩ := (mem_grid _ _ _ _ _ _ _).1 h1
  obtain ⟨b1, b2, rfl⟩ := (mem_grid _ _ _ _ _ _ _).1 h2
  obtain ⟨_, rfl, rfl⟩ := elemNmF_inj hv (hd.1 i a1) (hd.2 j a2) hv (hd.1 k b1) (hd.2 l b2) e
  rfl

theorem mem_grid_names {f : Form} {v : String} {I J : List Nat} {n : String} :
    n ∈ (grid f v I J).map (fun t => t.2.2) ↔ ∃ i ∈ I, ∃ j ∈ J, n = elemNmF f v i j := by
  rw [List.mem_map]
  constructor
  · rintro ⟨⟨i, j, s⟩, h, rfl⟩
    obtain ⟨h1, h2, rfl⟩ := (mem_grid _ _ _ _ _ _ _).1 h
    exact ⟨i, h1, j, h2, rfl⟩
  · rintro ⟨i, hi, j, hj, rfl⟩
    exact ⟨(i, j, _), (mem_grid _ _ _ _ _ _ _).2 ⟨hi, hj, rfl⟩, rfl⟩

theorem assemble_ok (f : Form) (env : Env β α) (num : Nat → β) (cast : Arr β α → α → α) (b : Block β α)
    (v : String) (I J : List Nat) (hb : IsBase v) (hI : I.Pairwise (· < ·)) (hJ : J.Pairwise (· < ·))
    (hd : (∀ i ∈ I, i < 10) ∧ ∀ j ∈ J, j < 10) (hmany : 1 < I.length * J.length)
    {D : List (Dim β)} {sh : List Nat} (hf : FitF f cast b v I J D sh) :
    ∃ b' m, assemble env num cast b ⟨v, (grid f v I J).map fun t => t.2.2, I, J, f⟩ = .ok b' ∧
      lookup b'.vars v = some m ∧ AssembledF f b v I J D sh m ∧
      (∀ n, n ≠ v → lookup b'.vars n =
        if n ∈ (grid f v I J).map (fun t => t.2.2) then none else lookup b.vars n) ∧
      (∀ n, n ∈ keys b'.ivars ↔ n ∈ keys b.ivars ∨ n = "i" ∨ n = "j") ∧
      (∀ n d, lookup b.ivars n = some d → lookup b'.ivars n = some d) := by
  have hlenG : ((grid f v I J).map fun t : Tup => t.2.2).length = I.length * J.length := by
    rw [List.length_map, length_grid]
  -- first element
  obtain ⟨e, es, hes⟩ : ∃ e es, (grid f v I J).map (fun t => t.2.2) = e :: es := by
    cases h : (grid f v I J).map fun t => t.2.2 with
    | nil => rw [h, List.length_nil] at hlenG; omega
    | cons e es => exact ⟨e, es, rfl⟩
  obtain ⟨i0, hi0, j0, hj0, he0⟩ := mem_grid_names.1 (show e ∈ (grid f v I J).map (fun t => t.2.2) by
    rw [hes]; simp)
  obtain ⟨ex, hex, hexD, hexS⟩ := hf.cols i0 hi0 j0 hj0
  rw [← he0] at hex
  have hgex : getitem env b e = .ok ex := by
    have : lookup b.ivars e = none := (lookup_none_iff' _ _).2 (by rw [he0]; exact hf.elem i0 hi0 j0 hj0)
    simp only [getitem, this, hex]
  -- columns
  let col : String → Arr β α := fun n => (lookup b.vars n).getD ex
  have hcol : ∀ n ∈ (grid f v I J).map (fun t => t.2.2), lookup b.vars n = some (col n) ∧
      (col n).nd.shape = sh := by
    intro n hn
    obtain ⟨i, hi, j, hj, rfl⟩ := mem_grid_names.1 hn
    obtain ⟨c, h1, h2, h3⟩ := hf.cols i hi j hj
    simp only [col, h1, Option.getD_some, true_and]
    exact h3
  obtain ⟨b1, t1, t2, t3, t4⟩ := takeCols_ok env sh col _ (grid_names_nodup hb hI hJ hd) b
    (by
      intro n hn
      obtain ⟨i, hi, j, hj, rfl⟩ := mem_grid_names.1 hn
      exact hf.elem i hi j hj)
    (fun n hn => (hcol n hn).1) (fun n hn => (hcol n hn).2)
  obtain ⟨nd, r1, r2, r3⟩ := reshape_stack env (cast ex) sh I.length J.length
    (((grid f v I J).map fun t => t.2.2).map col)
  have hmk : Arr.mk? nd (D ++ matDims num I.length J.length) =
      .ok ⟨D ++ matDims num I.length J.length, nd⟩ := by
    have : (D ++ matDims num I.length J.length).length = nd.ndim := by
      simp [Nd.ndim, r2, matDims, hf.len]
    simp [Arr.mk?, this]
  let m : Arr β α := ⟨D ++ matDims num I.length J.length, nd⟩
  have hni : lookup b1.ivars v = none := (lookup_none_iff' _ _).2 (by rw [t2]; exact hf.name.1)
  have hset : setArr env b1 v m =
      (⟨assign b1.vars v m, addDims b1.ivars m.dims, nextXname b1.xname m.dims⟩, .ok ()) := by
    simp only [setArr, elemTarget, isMatrixName_base hb, hni]
  refine ⟨⟨assign b1.vars v m, addDims b1.ivars m.dims, nextXname b1.xname m.dims⟩, m,
    ?_, ?_, ?_, ?_, ?_, ?_⟩
  · unfold assemble
    rw [hes] at t1 r1
    simp only [hes, hgex, hexS, hexD, t1, r1, hmk]
    have := hset
    simp only [m] at this ⊢
    rw [this]
  · simp [lookup_assign]
  · refine ⟨⟨_, _, ⟨rfl, r2, by unfold Dim.isa Cls.isSub; simp, by unfold Dim.isa Cls.isSub; simp, hf.len⟩, rfl, rfl⟩, ?_⟩
    intro a c ha hc
    have hgi := grid_getElem f v I J a c ha hc
    have hIa := List.getElem_mem ha
    have hJc := List.getElem_mem hc
    have hin : elemNmF f v I[a] J[c] ∈ (grid f v I J).map (fun t => t.2.2) :=
      mem_grid_names.2 ⟨_, hIa, _, hJc, rfl⟩
    refine ⟨col (elemNmF f v I[a] J[c]), (hcol _ hin).1, ?_⟩
    intro idx hv
    rw [r3 idx a c hv ha hc (col (elemNmF f v I[a] J[c])) (by simp [hgi]) (hcol _ hin).2]
    exact hf.type i0 hi0 j0 hj0 _ hIa _ hJc ex _ (he0 ▸ hex) (hcol _ hin).1 idx hv
  · intro n hn
    simp only [lookup_assign, hn, if_false, t4]
  · intro n
    rw [mem_keys_addDims, t2]
    simp only [m, matDims, List.mem_append, List.mem_cons, List.not_mem_nil, or_false]
    constructor
    · rintro (h | ⟨d, (h | rfl | rfl), rfl⟩)
      · exact Or.inl h
      · exact Or.inl (hf.known d h)
      · exact Or.inr (Or.inl rfl)
      · exact Or.inr (Or.inr rfl)
    · rintro (h | rfl | rfl)
      · exact Or.inl h
      · exact Or.inr ⟨_, Or.inr (Or.inl rfl), rfl⟩
      · exact Or.inr ⟨_, Or.inr (Or.inr rfl), rfl⟩
  · intro n d hd
    show lookup (addDims b1.ivars m.dims) n = some d
    rw [lookup_addDims, t2, hd]; rfl

/-! ### All matrices -/

/-- A group as produced from names. -/
structure Good (g : Group) : Prop where
  base : IsBase g.name
  rows : g.rows.Pairwise (· < ·)
  cols : g.cols.Pairwise (· < ·)
  digits : (∀ i ∈ g.rows, i < 10) ∧ ∀ j ∈ g.cols, j < 10
  many : 1 < g.rows.length * g.cols.length
  elems : g.elems = (grid g.form g.name g.rows g.cols).map fun t => t.2.2

theorem isBase_i : IsBase "i" ∧ IsBase "j" := by
  refine ⟨⟨by decide +kernel, by decide +kernel⟩, by decide +kernel, by decide +kernel⟩

theorem assembleAll_ok (env : Env β α) (num : Nat → β) (cast : Arr β α → α → α) (gs : List Group)
    (hn : (gs.map Group.name).Nodup) (hg : ∀ g ∈ gs, Good g) : ∀ b : Block β α,
    (∀ g ∈ gs, ∃ D sh, FitF g.form cast b g.name g.rows g.cols D sh) →
    ∃ b', assembleAll env num cast b gs = .ok b' ∧
      (∀ g ∈ gs, ∃ m D sh, lookup b'.vars g.name = some m ∧ FitF g.form cast b g.name g.rows g.cols D sh ∧
        AssembledF g.form b g.name g.rows g.cols D sh m) ∧
      (∀ n, n ∉ gs.map Group.name → lookup b'.vars n =
        if ∃ g ∈ gs, n ∈ g.elems then none else lookup b.vars n) ∧
      (∀ n, n ∈ keys b'.ivars → n ∈ keys b.ivars ∨ n = "i" ∨ n = "j") ∧
      (∀ n d, lookup b.ivars n = some d → lookup b'.ivars n = some d) := by
  induction gs with
  | nil => intro b _; exact ⟨b, rfl, by simp, by simp, fun n h => Or.inl h, fun _ _ h => h⟩
  | cons g gs ih =>
    intro b hf
    rw [List.map_cons, List.nodup_cons] at hn
    obtain ⟨D, sh, hfit⟩ := hf g (by simp)
    have G := hg g (by simp)
    obtain ⟨b1, m, a1, a2, a3, a4, a5, a6⟩ := assemble_ok g.form env num cast b g.name g.rows g.cols G.base
      G.rows G.cols G.digits G.many hfit
    rw [← G.elems] at a1 a4
    -- other groups do not notice
    have hne : ∀ g' ∈ gs, g'.name ≠ g.name := by
      intro g' hg' e
      exact hn.1 (e ▸ List.mem_map.2 ⟨g', hg', rfl⟩)
    have hkeep : ∀ g' ∈ gs, ∀ i ∈ g'.rows, ∀ j ∈ g'.cols,
        lookup b1.vars (elemNmF g'.form g'.name i j) = lookup b.vars (elemNmF g'.form g'.name i j) := by
      intro g' hg' i hi j hj
      have G' := hg g' (by simp [hg'])
      rw [a4 _ (Ne.symm (base_ne_elemF G.base (G'.digits.1 i hi))), if_neg]
      rw [G.elems, mem_grid_names]
      rintro ⟨k, hk, l, hl, e⟩
      have hfm := elemNmF_form G'.base (G'.digits.1 i hi) (G'.digits.2 j hj) G.base (G.digits.1 k hk) (G.digits.2 l hl) e
      rw [hfm] at e
      exact hne g' hg' (elemNmF_inj G'.base (G'.digits.1 i hi) (G'.digits.2 j hj) G.base
        (G.digits.1 k hk) (G.digits.2 l hl) e).1
    have hfitEq : ∀ g' ∈ gs, ∀ D sh, FitF g'.form cast b g'.name g'.rows g'.cols D sh →
        FitF g'.form cast b1 g'.name g'.rows g'.cols D sh := by
      intro g' hg' D sh h
      have G' := hg g' (by simp [hg'])
      refine ⟨h.len, fun d hd => (a5 _).2 (Or.inl (h.known d hd)), ⟨?_, h.name.2⟩, ?_, ?_, ?_⟩
      · rw [a5]
        rintro (h1 | h1 | h1)
        · exact h.name.1 h1
        · exact h.name.2.1 h1
        · exact h.name.2.2 h1
      · intro i hi j hj
        rw [a5]
        rintro (h1 | h1 | h1)
        · exact h.elem i hi j hj h1
        · exact base_ne_elemF isBase_i.1 (G'.digits.1 i hi) h1.symm
        · exact base_ne_elemF isBase_i.2 (G'.digits.1 i hi) h1.symm
      · intro i hi j hj
        rw [hkeep g' hg' i hi j hj]
        exact h.cols i hi j hj
      · intro i hi j hj k hk l hl
        rw [hkeep g' hg' i hi j hj, hkeep g' hg' k hk l hl]
        exact h.type i hi j hj k hk l hl
    obtain ⟨b', c1, c2, c3, c4, c5⟩ := ih hn.2 (fun g' hg' => hg g' (by simp [hg'])) b1 (by
      intro g' hg'
      obtain ⟨D', sh', h'⟩ := hf g' (by simp [hg'])
      exact ⟨D', sh', hfitEq g' hg' D' sh' h'⟩)
    refine ⟨b', by simp only [assembleAll, a1]; exact c1, ?_, ?_, ?_, fun n d h => c5 n d (a6 n d h)⟩
    · intro g' hg'
      rcases List.mem_cons.1 hg' with rfl | hg'
      · refine ⟨m, D, sh, ?_, hfit, a3⟩
        rw [c3 _ hn.1, if_neg]
        · exact a2
        · rintro ⟨g'', hg'', hm⟩
          have G'' := hg g'' (by simp [hg''])
          rw [G''.elems, mem_grid_names] at hm
          obtain ⟨i, hi, j, hj, e⟩ := hm
          exact base_ne_elemF G.base (G''.digits.1 i hi) e
      · obtain ⟨m', D', sh', h1, h2, h3⟩ := c2 g' hg'
        obtain ⟨D2, sh2, hfit2⟩ := hf g' (by simp [hg'])
        refine ⟨m', D', sh', h1, ?_, h3.1, ?_⟩
        · -- the fit in the original block
          have G' := hg g' (by simp [hg'])
          obtain ⟨i0, hi0⟩ : ∃ i, i ∈ g'.rows := by
            cases e : g'.rows with
            | nil => have := G'.many; rw [e] at this; simp at this
            | cons i t => exact ⟨i, by simp⟩
          obtain ⟨j0, hj0⟩ : ∃ j, j ∈ g'.cols := by
            cases e : g'.cols with
            | nil => have := G'.many; rw [e] at this; simp at this
            | cons j t => exact ⟨j, by simp⟩
          obtain ⟨x, x1, x2, x3⟩ := h2.cols i0 hi0 j0 hj0
          obtain ⟨y, y1, y2, y3⟩ := (hfitEq g' hg' D2 sh2 hfit2).cols i0 hi0 j0 hj0
          rw [x1] at y1
          simp only [Option.some.injEq] at y1
          subst y1
          rw [← x2, ← x3, y2, y3]
          exact hfit2
        · intro a c ha hc
          obtain ⟨col, e1, e2⟩ := h3.2 a c ha hc
          rw [hkeep g' hg' _ (List.getElem_mem ha) _ (List.getElem_mem hc)] at e1
          exact ⟨col, e1, e2⟩
    · intro n hnn
      simp only [List.map_cons, List.mem_cons, not_or] at hnn
      rw [c3 n hnn.2, a4 n hnn.1]
      simp only [List.mem_cons, exists_eq_or_imp]
      by_cases h1 : ∃ g' ∈ gs, n ∈ g'.elems
      · simp [h1]
      · by_cases h2 : n ∈ g.elems
        · simp [h1, h2]
        · simp [h1, h2]
    · intro n h
      rcases c4 n h with h | h
      · rcases (a5 n).1 h with h | h
        · exact Or.inl h
        · exact Or.inr h
      · exact Or.inr h

/-- Replacing or adding entries one after the other. -/
theorem mem_putGroups (l : List Group) (hl : (l.map Group.name).Nodup) : ∀ gs : List Group, (gs.map Group.name).Nodup →
    ((l.foldl putGroup gs).map Group.name).Nodup ∧
    ∀ g, g ∈ l.foldl putGroup gs ↔ g ∈ l ∨ g ∈ gs ∧ g.name ∉ l.map Group.name := by
  induction l with
  | nil => intro gs h; exact ⟨h, by simp⟩
  | cons x l ih =>
    intro gs h
    rw [List.map_cons, List.nodup_cons] at hl
    have hput : ((putGroup gs x).map Group.name).Nodup ∧ ∀ g, g ∈ putGroup gs x ↔ g = x ∨ g ∈ gs ∧ g.name ≠ x.name := by
      unfold putGroup
      split
      · rename_i hx
        obtain ⟨y, hy, hyx⟩ := List.mem_map.1 hx
        have hk : (gs.map fun y => if y.name = x.name then x else y).map Group.name = gs.map Group.name := by
          rw [List.map_map]
          refine List.map_congr_left fun y _ => ?_
          simp only [Function.comp]
          split
          · rename_i e; exact e.symm
          · rfl
        refine ⟨by rw [hk]; exact h, fun g => ?_⟩
        rw [List.mem_map]
        constructor
        · rintro ⟨z, hz, rfl⟩
          split
          · exact Or.inl rfl
          · rename_i e; exact Or.inr ⟨hz, e⟩
        · rintro (rfl | ⟨h1, h2⟩)
          · exact ⟨y, hy, by rw [if_pos hyx]⟩
          · exact ⟨g, h1, by rw [if_neg h2]⟩
      · rename_i hx
        refine ⟨?_, fun g => ?_⟩
        · rw [List.map_append, List.nodup_append]
          refine ⟨h, by simp, ?_⟩
          intro a ha b hb e
          simp only [List.map_cons, List.map_nil, List.mem_singleton] at hb
          subst hb; subst e
          exact hx ha
        · rw [List.mem_append, List.mem_singleton]
          constructor
          · rintro (h1 | rfl)
            · exact Or.inr ⟨h1, fun e => hx (e ▸ List.mem_map_of_mem h1)⟩
            · exact Or.inl rfl
          · rintro (rfl | ⟨h1, -⟩)
            · exact Or.inr rfl
            · exact Or.inl h1
    obtain ⟨i1, i2⟩ := ih hl.2 (putGroup gs x) hput.1
    refine ⟨i1, fun g => ?_⟩
    rw [List.foldl_cons, i2, hput.2]
    simp only [List.mem_cons, List.map_cons, not_or]
    constructor
    · rintro (h1 | ⟨rfl | ⟨h1, h2⟩, h3⟩)
      · exact Or.inl (Or.inr h1)
      · exact Or.inl (Or.inl rfl)
      · exact Or.inr ⟨h1, h2, h3⟩
    · rintro ((rfl | h1) | ⟨h1, h2, h3⟩)
      · exact Or.inr ⟨Or.inl rfl, hl.1⟩
      · exact Or.inl h1
      · exact Or.inr ⟨Or.inr ⟨h1, h2⟩, h3⟩

theorem mem_matrices (names : List String) (hn : names.Nodup) (forms : List Form) : ∀ gs : List Group, (gs.map Group.name).Nodup →
    ((matrices names forms gs).map Group.name).Nodup ∧
    ∀ g, g ∈ matrices names forms gs ↔
      (Wins names forms g.form g.name g.rows g.cols ∧ g.elems = (grid g.form g.name g.rows g.cols).map fun t => t.2.2) ∨
      g ∈ gs ∧ ∀ f ∈ forms, ∀ I J, ¬ CompleteF f names g.name I J := by
  induction forms with
  | nil =>
    intro gs h
    refine ⟨h, fun g => ?_⟩
    simp [matrices, Wins]
  | cons f fs ih =>
    intro gs h
    obtain ⟨p1, p2⟩ := mem_putGroups (matchElements f names) (groups_nodup f names) gs h
    obtain ⟨i1, i2⟩ := ih _ p1
    refine ⟨i1, fun g => ?_⟩
    have hname : ∀ n, n ∉ (matchElements f names).map Group.name ↔ ∀ I J, ¬ CompleteF f names n I J := by
      intro n
      rw [← not_iff_not]
      push Not
      rw [List.mem_map]
      constructor
      · rintro ⟨x, hx, rfl⟩
        exact ⟨_, _, ((groups_form f names hn x).1 hx).2.1⟩
      · rintro ⟨I, J, hc⟩
        exact ⟨⟨n, (grid f n I J).map fun t => t.2.2, I, J, f⟩, (groups_form f names hn _).2 ⟨rfl, hc, rfl⟩, rfl⟩
    rw [matrices, i2, p2, groups_form f names hn, hname]
    constructor
    · rintro (⟨⟨bf, af, rfl, h1, h2, h3⟩, h4⟩ | ⟨⟨h1, h2, h3⟩ | ⟨h1, h2⟩, h4⟩)
      · exact Or.inl ⟨⟨f :: bf, af, rfl, h1, h2, h3⟩, h4⟩
      · subst h1
        refine Or.inl ⟨⟨[], fs, rfl, ?_, h2, fun x hx => h4 x hx⟩, h3⟩
        intro hm
        exact h4 _ hm _ _ h2
      · refine Or.inr ⟨h1, fun x hx => ?_⟩
        rcases List.mem_cons.1 hx with rfl | hx
        · exact h2
        · exact h4 x hx
    · rintro (⟨⟨bf, af, he, h1, h2, h3⟩, h4⟩ | ⟨h1, h2⟩)
      · cases bf with
        | nil =>
          simp only [List.nil_append, List.cons.injEq] at he
          obtain ⟨rfl, rfl⟩ := he
          exact Or.inr ⟨Or.inl ⟨rfl, h2, h4⟩, h3⟩
        | cons x bf =>
          simp only [List.cons_append, List.cons.injEq] at he
          obtain ⟨rfl, rfl⟩ := he
          exact Or.inl ⟨⟨bf, af, rfl, h1, h2, h3⟩, h4⟩
      · exact Or.inr ⟨Or.inr ⟨h1, h2 f (by simp)⟩, fun x hx => h2 x (by simp [hx])⟩

/-- Which matrices are built: for every name the complete collection that counts, with all its elements in
row-major order. -/
theorem matrices_iff (names : List String) (hn : names.Nodup) (forms : List Form) (g : Group) :
    g ∈ matrices names forms [] ↔
      Wins names forms g.form g.name g.rows g.cols ∧ g.elems = (grid g.form g.name g.rows g.cols).map fun t => t.2.2 := by
  rw [(mem_matrices names hn forms [] (by simp)).2]
  simp

theorem wins_digits {names : List String} {f : Form} {v : String} {I J : List Nat} :
    Wins names [.digits] f v I J ↔ f = .digits ∧ Complete names v I J := by
  constructor
  · rintro ⟨bf, af, he, -, h, -⟩
    cases bf with
    | nil => simp only [List.nil_append, List.cons.injEq] at he; obtain ⟨rfl, -⟩ := he; exact ⟨rfl, h⟩
    | cons x bf => simp at he
  · rintro ⟨rfl, h⟩
    exact ⟨[], [], rfl, by simp, h, by simp⟩

/-- C21: a matrix is built exactly for the complete collections, from all the elements in row-major
order. -/
theorem C21_groups (names : List String) (hn : names.Nodup) (g : Group) :
    g ∈ matchMatrixElements names ↔ g.form = .digits ∧
      Complete names g.name g.rows g.cols ∧ g.elems = (grid .digits g.name g.rows g.cols).map fun t => t.2.2 :=
  groups_form .digits names hn g

/-- C21, with any forms of the names: let the columns of every collection that counts fit together.  Then the
matrices are built: each of them replaces its columns, which are at the places given by the ranks of their digits,
and every other variable stays as it is. -/
theorem C21_forms (forms : List Form) (env : Env β α) (num : Nat → β) (cast : Arr β α → α → α) (b : Block β α)
    (hn : (keys b.vars).Nodup)
    (hf : ∀ f v I J, Wins (keys b.vars) forms f v I J → ∃ D sh, FitF f cast b v I J D sh) :
    ∃ b', makeMatricesBy forms env num cast b = .ok b' ∧
      (∀ f v I J, Wins (keys b.vars) forms f v I J → ∃ m D sh, lookup b'.vars v = some m ∧
        FitF f cast b v I J D sh ∧ AssembledF f b v I J D sh m) ∧
      (∀ f v I J, Wins (keys b.vars) forms f v I J → ∀ i ∈ I, ∀ j ∈ J,
        lookup b'.vars (elemNmF f v i j) = none) ∧
      (∀ n, (∀ f v I J, Wins (keys b.vars) forms f v I J → n ≠ v ∧ ∀ i ∈ I, ∀ j ∈ J, n ≠ elemNmF f v i j) →
        lookup b'.vars n = lookup b.vars n) ∧
      (∀ n, n ∈ keys b'.ivars → n ∈ keys b.ivars ∨ n = "i" ∨ n = "j") ∧
      (∀ n d, lookup b.ivars n = some d → lookup b'.ivars n = some d) := by
  have hmem := matrices_iff (keys b.vars) hn forms
  have hwin : ∀ {f v I J}, Wins (keys b.vars) forms f v I J → CompleteF f (keys b.vars) v I J := by
    rintro f v I J ⟨_, _, _, _, h, _⟩
    exact h
  have hgood : ∀ g ∈ matrices (keys b.vars) forms [], Good g := by
    intro g hg
    obtain ⟨h1, h2⟩ := (hmem g).1 hg
    have h1 := hwin h1
    exact ⟨h1.base, h1.rows, h1.cols, h1.digits, h1.many, h2⟩
  obtain ⟨b', c1, c2, c3, c4, c5⟩ := assembleAll_ok env num cast _ (mem_matrices (keys b.vars) hn forms [] (by simp)).1 hgood b
    (fun g hg => hf _ _ _ _ ((hmem g).1 hg).1)
  refine ⟨b', c1, ?_, ?_, ?_, c4, c5⟩
  · intro f v I J hc
    exact c2 ⟨v, (grid f v I J).map fun t => t.2.2, I, J, f⟩ ((hmem _).2 ⟨hc, rfl⟩)
  · intro f v I J hc i hi j hj
    have hg := (hmem ⟨v, (grid f v I J).map fun t => t.2.2, I, J, f⟩).2 ⟨hc, rfl⟩
    rw [c3, if_pos ⟨_, hg, mem_grid_names.2 ⟨i, hi, j, hj, rfl⟩⟩]
    intro hm
    obtain ⟨g, h1, h2⟩ := List.mem_map.1 hm
    exact base_ne_elemF (hgood g h1).base ((hwin hc).digits.1 i hi) h2
  · intro n hnn
    rw [c3, if_neg]
    · rintro ⟨g, hg, hm⟩
      obtain ⟨h1, h2⟩ := (hmem g).1 hg
      rw [h2, mem_grid_names] at hm
      obtain ⟨i, hi, j, hj, rfl⟩ := hm
      exact (hnn _ _ _ _ h1).2 i hi j hj rfl
    · intro hm
      obtain ⟨g, h1, h2⟩ := List.mem_map.1 hm
      exact (hnn _ _ _ _ ((hmem g).1 h1).1).1 h2.symm

/-- C21: let the columns of every complete collection fit together.  Then the matrices are built:
each complete collection is replaced by its matrix, with the columns at the places given by the
ranks of their digits, and every other variable stays as it is. -/
theorem C21_assembled (env : Env β α) (num : Nat → β) (cast : Arr β α → α → α) (b : Block β α)
    (hn : (keys b.vars).Nodup)
    (hf : ∀ v I J, Complete (keys b.vars) v I J → ∃ D sh, Fit cast b v I J D sh) :
    ∃ b', makeMatrices env num cast b = .ok b' ∧
      (∀ v I J, Complete (keys b.vars) v I J → ∃ m D sh, lookup b'.vars v = some m ∧
        Fit cast b v I J D sh ∧ Assembled b v I J D sh m) ∧
      (∀ v I J, Complete (keys b.vars) v I J → ∀ i ∈ I, ∀ j ∈ J,
        lookup b'.vars (elemNm v i j) = none) ∧
      (∀ n, (∀ v I J, Complete (keys b.vars) v I J → n ≠ v ∧ ∀ i ∈ I, ∀ j ∈ J, n ≠ elemNm v i j) →
        lookup b'.vars n = lookup b.vars n) ∧
      (∀ n, n ∈ keys b'.ivars → n ∈ keys b.ivars ∨ n = "i" ∨ n = "j") ∧
      (∀ n d, lookup b.ivars n = some d → lookup b'.ivars n = some d) := by
  obtain ⟨b', c1, c2, c3, c4, c5, c6⟩ := C21_forms [.digits] env num cast b hn fun f v I J h => by
    obtain ⟨rfl, h'⟩ := wins_digits.1 h
    exact hf v I J h'
  refine ⟨b', c1, fun v I J h => c2 _ v I J (wins_digits.2 ⟨rfl, h⟩), fun v I J h => c3 _ v I J (wins_digits.2 ⟨rfl, h⟩),
    fun n h => c4 n fun f v I J hw => ?_, c5, c6⟩
  obtain ⟨rfl, hw'⟩ := wins_digits.1 hw
  exact h v I J hw'

/-- C21: an incomplete collection is left alone: if no complete collection has the base name `v`,
all variables named like elements of `v` stay. -/
theorem C21_incomplete (env : Env β α) (num : Nat → β) (cast : Arr β α → α → α) (b b' : Block β α)
    (hn : (keys b.vars).Nodup)
    (hf : ∀ v I J, Complete (keys b.vars) v I J → ∃ D sh, Fit cast b v I J D sh)
    (hb : makeMatrices env num cast b = .ok b') (v : String) (hv : IsBase v)
    (hc : ∀ I J, ¬ Complete (keys b.vars) v I J) (i j : Nat) (hi : i < 10) (hj : j < 10) :
    lookup b'.vars (elemNm v i j) = lookup b.vars (elemNm v i j) := by
  obtain ⟨b'', c1, _, _, c4, _⟩ := C21_assembled env num cast b hn hf
  rw [hb] at c1
  simp only [Except.ok.injEq] at c1
  subst c1
  refine c4 _ fun w I J hw => ⟨Ne.symm (base_ne_elem hw.base hi), ?_⟩
  intro k hk l hl e
  obtain ⟨rfl, _⟩ := elemNm_inj hv hi hj hw.base (hw.digits.1 k hk) (hw.digits.2 l hl) e
  exact hc _ _ hw

theorem elemNm_eq (v : String) (i j : Nat) : elemNm v i j = elemName v (digit i) (digit j) := rfl

theorem baseName_of_isBase {v : String} (h : IsBase v) : BaseName v.toList where
  word := fun c hc => Or.inl (h.2 c hc)
  first := by
    cases e : v.toList with
    | nil => exact absurd e h.1
    | cons c t => exact ⟨c, rfl, h.2 c (by simp [e])⟩
  last := by
    refine ⟨v.toList.getLast h.1, List.getLast?_eq_getLast_of_ne_nil h.1, h.2 _ (List.getLast_mem h.1)⟩

/-- C21: if the digits of a complete collection are `1..p` and `1..q`, every column can be read after
assembly under the name it had before, with the same dimensions and elements. -/
theorem C21_readback (env : Env β α) (num : Nat → β) (cast : Arr β α → α → α) (b b' : Block β α)
    (hn : (keys b.vars).Nodup)
    (hf : ∀ v I J, Complete (keys b.vars) v I J → ∃ D sh, Fit cast b v I J D sh)
    (hb : makeMatrices env num cast b = .ok b') (v : String) (p q : Nat)
    (hc : Complete (keys b.vars) v (List.range' 1 p) (List.range' 1 q))
    (i j : Nat) (hi : 1 ≤ i ∧ i ≤ p) (hj : 1 ≤ j ∧ j ≤ q) :
    ∃ c r, lookup b.vars (elemNm v i j) = some c ∧ getitem env b' (elemNm v i j) = .ok r ∧
      r.dims = c.dims ∧ r.nd.shape = c.nd.shape ∧
      ∀ idx, Nd.Valid c.nd.shape idx → r.nd.get idx = c.nd.get idx := by
  obtain ⟨b'', c1, c2, c3, _, c5, _⟩ := C21_assembled env num cast b hn hf
  rw [hb] at c1
  simp only [Except.ok.injEq] at c1
  subst c1
  obtain ⟨m, D, sh, h1, h2, ⟨di, dj, h3, _⟩, h4⟩ := c2 v _ _ hc
  have hmi : i ∈ List.range' 1 p := by rw [List.mem_range'_1]; omega
  have hmj : j ∈ List.range' 1 q := by rw [List.mem_range'_1]; omega
  have di10 := hc.digits.1 i hmi
  have dj10 := hc.digits.2 j hmj
  obtain ⟨col, k1, k2, k3⟩ := h2.cols i hmi j hmj
  rw [List.length_range', List.length_range'] at h3
  have hr := C04_read env b' v (baseName_of_isBase hc.base) m h1 h3 (digit i) (digit j)
    (digit_lt i di10).1 (digit_lt j dj10).1
    (by rw [(digit_lt i di10).2]; omega) (by rw [(digit_lt i di10).2]; omega)
    (by rw [(digit_lt j dj10).2]; omega) (by rw [(digit_lt j dj10).2]; omega)
    (by
      intro h
      rcases c5 _ h with h | h | h
      · exact h2.elem i hmi j hmj h
      · exact base_ne_elem isBase_i.1 di10 h.symm
      · exact base_ne_elem isBase_i.2 di10 h.symm)
    ((lookup_none_iff' _ _).1 (c3 v _ _ hc i hmi j hmj))
  obtain ⟨r, r1, r2, r3, r4⟩ := hr
  refine ⟨col, r, k1, r1, by rw [r2, k2], by rw [r3, k3], ?_⟩
  intro idx hv
  rw [k3] at hv
  rw [r4 idx hv, (digit_lt i di10).2, (digit_lt j dj10).2]
  obtain ⟨col', e1, e2⟩ := h4 (i - 1) (j - 1) (by rw [List.length_range']; omega)
    (by rw [List.length_range']; omega)
  rw [e2 idx hv]
  have a1 : (List.range' 1 p)[i - 1]'(by rw [List.length_range']; omega) = i := by
    rw [List.getElem_range']; omega
  have a2 : (List.range' 1 q)[j - 1]'(by rw [List.length_range']; omega) = j := by
    rw [List.getElem_range']; omega
  rw [a1, a2, k1] at e1
  simp only [Option.some.injEq] at e1
  rw [e1]

/-! ### Concrete cases -/

def colOf (k : Nat) : Arr Nat Nat := ⟨[sweep "f"], ⟨[3], fun idx => 100 * k + idx.headD 0⟩⟩

def blk (names : List (String × Nat)) : Block Nat Nat :=
  { vars := names.map fun p => (p.1, colOf p.2), ivars := [("f", sweep "f")] }

/-- What is in the block afterwards: names and elements. -/
def view (b : Except DataBlock.Err (Block Nat Nat)) : Option (List (String × List Nat)) :=
  match b with
  | .ok b => some (b.vars.map fun p => (p.1, elems p.2))
  | .error _ => none

theorem complete_parse {names : List String} {v : String} {I J : List Nat}
    (h : Complete names v I J) {i j : Nat} (hi : i ∈ I) (hj : j ∈ J) :
    elemNm v i j ∈ names ∧ parseName .digits (elemNm v i j) = some (v, i, j, elemNm v i j) :=
  ⟨(h.mem i j (h.digits.1 i hi) (h.digits.2 j hj)).2 ⟨hi, hj⟩,
    (parseName_iff _ _ _ _ _ _).2 ⟨h.base, h.digits.1 i hi, h.digits.2 j hj, rfl, rfl⟩⟩

/-- The hypotheses of `C21_assembled` and `C21_readback` are met by a block with a 1x2 matrix. -/
example : (∀ v I J, Complete (keys (blk [("X12", 2), ("X11", 1)]).vars) v I J →
      ∃ D sh, Fit (fun _ x => x) (blk [("X12", 2), ("X11", 1)]) v I J D sh) ∧
    Complete (keys (blk [("X12", 2), ("X11", 1)]).vars) "X" (List.range' 1 1) (List.range' 1 2) := by
  constructor
  · intro v I J h
    have hpos : (∃ i, i ∈ I) ∧ ∃ j, j ∈ J := by
      have := h.many
      constructor
      · cases I with
        | nil => simp at this
        | cons a t => exact ⟨a, by simp⟩
      · cases J with
        | nil => simp at this
        | cons a t => exact ⟨a, by simp⟩
    obtain ⟨⟨i0, hi0⟩, j0, hj0⟩ := hpos
    have key : ∀ n ∈ keys (blk [("X12", 2), ("X11", 1)]).vars,
        (parseName .digits n).map Prod.fst = some "X" ∧ n ∉ keys (blk [("X12", 2), ("X11", 1)]).ivars := by
      decide +kernel
    have hv : v = "X" := by
      obtain ⟨h1, h2⟩ := complete_parse h hi0 hj0
      have := (key _ h1).1
      rw [h2] at this
      simpa using this
    subst hv
    have hcol : ∀ n ∈ keys (blk [("X12", 2), ("X11", 1)]).vars, ∃ c,
        lookup (blk [("X12", 2), ("X11", 1)]).vars n = some c ∧ c.dims = [sweep "f"] ∧
        c.nd.shape = [3] := by
      intro n hn
      simp only [keys, blk, List.map_cons, List.map_nil, List.mem_cons, List.not_mem_nil, or_false] at hn
      rcases hn with rfl | rfl
      · exact ⟨colOf 2, rfl, rfl, rfl⟩
      · exact ⟨colOf 1, rfl, rfl, rfl⟩
    refine ⟨[sweep "f"], [3], rfl, by decide +kernel, by decide +kernel, ?_, ?_, ?_⟩
    · intro i hi j hj; exact (key _ (complete_parse h hi hj).1).2
    · intro i hi j hj; exact hcol _ (complete_parse h hi hj).1
    · intros; rfl
  · refine ⟨⟨by decide +kernel, by decide +kernel⟩, by decide, by decide, by decide, ?_, by decide⟩
    have : ∀ i < 10, ∀ j < 10, (elemNm "X" i j ∈ keys (blk [("X12", 2), ("X11", 1)]).vars ↔
        i ∈ List.range' 1 1 ∧ j ∈ List.range' 1 2) := by decide +kernel
    intro i j hi hj
    exact this i hi j hj

/-- columns in any order, one variable in between and an incomplete collection -/
example : view (makeMatrices envN id (fun _ x => x)
    (blk [("S21", 3), ("P", 9), ("S11", 1), ("T11", 7), ("S22", 4), ("S12", 2)])) =
    some [("P", [900, 901, 902]), ("T11", [700, 701, 702]),
      ("S", [100, 200, 300, 400, 101, 201, 301, 401, 102, 202, 302, 402])] := by decide +kernel

/-- names with brackets, as in CITI files; without brackets they count first -/
example : view (makeMatricesBy [.brackets, .digits] envN id (fun _ x => x)
    (blk [("S[2,1]", 3), ("P", 9), ("T[1,2]", 6), ("S[1,1]", 1), ("T11", 7), ("T[1,1]", 8), ("T12", 5)])) =
    some [("P", [900, 901, 902]), ("T[1,2]", [600, 601, 602]), ("T[1,1]", [800, 801, 802]),
      ("S", [100, 300, 101, 301, 102, 302]), ("T", [700, 500, 701, 501, 702, 502])] := by decide +kernel

/-- C21: with gaps in the digits the names change: `X23` and `X24` become the elements `X11` and `X12`. -/
theorem C21_gap_refuted :
    let r := (makeMatrices envN id (fun _ x => x) (blk [("X23", 1), ("X24", 2)])).toOption
    r.bind (fun b => (getitem envN b "X11").toOption.map elems) = some [100, 101, 102] ∧
    r.bind (fun b => (getitem envN b "X23").toOption.map elems) = none := by decide +kernel

/-- C21: a variable with the base name is overwritten. -/
theorem C21_overwrite_refuted :
    view (makeMatrices envN id (fun _ x => x) (blk [("X", 5), ("X11", 1), ("X12", 2)])) =
      some [("X", [100, 200, 101, 201, 102, 202])] := by decide +kernel

/-- C21: a matrix cannot be called `i` (or `j`) if there is another one. -/
theorem C21_named_i_refuted :
    view (makeMatrices envN id (fun _ x => x)
      (blk [("S11", 1), ("S12", 2), ("i11", 3), ("i12", 4)])) = none := by decide +kernel

/-- C21: the element type is that of the first element: if it is real the imaginary parts of the
others are lost.  Here elements are pairs, and the array is real if it is marked by its unit. -/
theorem C21_type_refuted :
    let re : Arr Nat (Nat × Nat) := ⟨[⟨.dimSweep, "f", [1], none, none⟩], ⟨[1], fun _ => (7, 0)⟩⟩
    let cx : Arr Nat (Nat × Nat) := ⟨[⟨.dimSweep, "f", [1], none, none⟩], ⟨[1], fun _ => (7, 3)⟩⟩
    let b : Block Nat (Nat × Nat) := { vars := [("S11", re), ("S12", cx)], ivars := [("f", ⟨.dimSweep, "f", [1], none, none⟩)] }
    let env : Env Nat (Nat × Nat) := ⟨fun n => (n, 0), fun p => p.1, (0, 0), fun _ => "", fun _ => ""⟩
    let cast := fun (ex : Arr Nat (Nat × Nat)) (x : Nat × Nat) => if (ex.nd.get [0]).2 = 0 then (x.1, 0) else x
    ((makeMatrices env id cast b).toOption.bind fun b => (getitem env b "S12").toOption.map fun r => r.nd.get [0])
      = some (7, 0) := by decide +kernel

end HF.Readers.Assemble
