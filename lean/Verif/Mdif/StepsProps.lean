import Verif.Mdif.StepsLemmas
import Verif.Readers.Beside
import Verif.Readers.NoCalls
import Verif.Sp.CommentProps
/-
C85: MDIF files with all steps of the reader.
-/
namespace HF.Mdif

open HF.DataDict.Spec HF.DataBlock
open HF.DataDict hiding rename delitem
open HF.Readers.FixUnit (UBlock)
open HF.Readers.Treat
open HF.Readers.Assemble (Form Wins Complete CompleteF elemNm elemNmF matDims)
open HF.Readers.Normalize (trtable Label label)
open HF.Comments (PVal)

variable {β α : Type}

/-! ### Specification -/

/-- The titles of all columns. -/
def Sheet.titles (s : Sheet) : List (List Char) := (s.header.map Text.words).flatten

/-- The columns and the attributes of a block. -/
def Content.vals (c : Content α) : OMap (List Char) (Val α) :=
  (c.cols.map fun p => (p.1, .column p.2)) ++ c.attribs.map fun p => (p.1, .scalar p.2)

/-- The names of the sweep and of the partial sweeps. -/
def Content.settings (c : Content α) : List String :=
  ((if c.cols = [] then [] else [c.name]) ++ c.vars.map Prod.fst).map String.ofList

/-- The names of the variables when the elements are put together: matrices, vectors, and all columns and attributes that
are no elements. -/
def Left (titles : List (List Char)) (c : Content α) (vs : List String) : Prop :=
  ∀ s, s ∈ vs ↔ ∃ n, s = String.ofList n ∧ ((∃ p q, IsMat titles n p q) ∨ (∃ k, IsVec titles n k) ∨
    n ∈ c.names ∧ ¬ Touched titles n)

/-- Names and columns are as they should be; `vs` are the names of the variables. -/
structure Regular (S : Steps β α) (s : Sheet) (c : Content α) (vs : List String) : Prop where
  left : Left s.titles c vs
  ready : ∃ N, Ready c.vals s.titles N
  var : c.name ∉ c.vars.map Prod.fst
  calm : CalmNames S.ofProp vs c.settings (Comments.properties s.comments)

/-- No title is that of an element with brackets that becomes part of a matrix or vector. -/
def NoBrackets (titles : List (List Char)) : Prop := (∀ n p q, ¬ IsMat titles n p q) ∧ ∀ n k, ¬ IsVec titles n k

/-- The elements of the matrix `v` are columns of the same type, and its name is not in use for a dimension. -/
structure Elements (env : Env β α) (S : Steps β α) (c : Content α) (names : List String) (v : String) (I J : List Nat) : Prop where
  name : v ∉ c.settings.map (canon names) ∧ v ≠ "i" ∧ v ≠ "j"
  cols : ∀ i ∈ I, ∀ j ∈ J, ∃ n l, (n, l) ∈ c.cols ∧ canon names (String.ofList n) = elemNm v i j
  type : ∀ i ∈ I, ∀ j ∈ J, ∀ i' ∈ I, ∀ j' ∈ J, ∀ n l n' l', (n, l) ∈ c.cols → (n', l') ∈ c.cols →
    canon names (String.ofList n) = elemNm v i j → canon names (String.ofList n') = elemNm v i' j' →
    ∀ a, IsColumn (c.dim env) l a → ∀ x ∈ l', S.cast a x = x

/-- Either no names of elements with digits, or none with brackets. -/
def OneWay (env : Env β α) (S : Steps β α) (s : Sheet) (c : Content α) (vs : List String) : Prop :=
  (∀ v I J, ¬ Complete (colsOf S.ofProp vs c.settings (Comments.properties s.comments)) v I J) ∧
    "i" ∉ c.settings ∧ "j" ∉ c.settings ∨
  NoBrackets s.titles ∧ ∀ v I J, Complete (colsOf S.ofProp vs c.settings (Comments.properties s.comments)) v I J →
    Elements env S c (namesOf S.ofProp vs c.settings (Comments.properties s.comments)) v I J

/-- What comes out of a block of the file: the sweep and the partial sweeps with guessed units; matrices and vectors from
elements with brackets, matrices from elements with digits; the other columns, the attributes, and the properties; nothing
else. -/
structure Gives (env : Env β α) (S : Steps β α) (titles : List (List Char)) (c : Content α) (props : List (String × PVal))
    (vs names cols : List String) (D : Dim β) (u : UBlock β α) : Prop where
  sweep : c.cols ≠ [] → lookup u.blk.ivars D.name = some D ∧
    label D = ⟨canon names (String.ofList c.name), .dimSweep, c.sweep.map env.toCoord, S.guess (String.ofList c.name)⟩
  partials : ∀ n x, (n, x) ∈ c.vars → ∃ d, lookup u.blk.ivars (canon names (String.ofList n)) = some d ∧
    label d = ⟨canon names (String.ofList n), .dimPartial, [env.toCoord x], S.guess (String.ofList n)⟩
  noDims : ∀ n ∈ keys u.blk.ivars, n ∈ c.settings.map (canon names) ∨ (∃ v I J, Complete cols v I J) ∧ (n = "i" ∨ n = "j")
  matrix : ∀ n p q, IsMat titles n p q → ∃ a di dj, lookup u.blk.vars (canon names (String.ofList n)) = some a ∧
    u.units (canon names (String.ofList n)) = S.guess (String.ofList n) ∧
    MatStack a [D] di dj [c.sweep.length] p q ∧ di.name = "i" ∧ dj.name = "j" ∧
    ∀ i j, i < p → j < q → ∃ l, (matName n (i + 1) (j + 1), l) ∈ c.cols ∧ ∀ (r : Nat) x, l[r]? = some x → a.nd.get [r, i, j] = x
  vector : ∀ n k, IsVec titles n k → ∃ a dj, lookup u.blk.vars (canon names (String.ofList n)) = some a ∧
    u.units (canon names (String.ofList n)) = S.guess (String.ofList n) ∧
    a.dims = [D, dj] ∧ dj.name = "j" ∧ dj.isa .matJ = true ∧ a.nd.shape = [c.sweep.length, k] ∧
    ∀ i, i < k → ∃ l, (vecName n (i + 1), l) ∈ c.cols ∧ ∀ (r : Nat) x, l[r]? = some x → a.nd.get [r, i] = x
  digits : ∀ v I J, Complete cols v I J → ∃ a di dj, lookup u.blk.vars v = some a ∧ u.units v = none ∧
    MatStack a [D] di dj [c.sweep.length] I.length J.length ∧ di.name = "i" ∧ dj.name = "j" ∧
    ∀ i j (hi : i < I.length) (hj : j < J.length) n l, (n, l) ∈ c.cols → canon names (String.ofList n) = elemNm v I[i] J[j] →
      ∀ (r : Nat) x, l[r]? = some x → a.nd.get [r, i, j] = x
  gone : ∀ v I J, Complete cols v I J → ∀ i ∈ I, ∀ j ∈ J, lookup u.blk.vars (elemNm v i j) = none
  column : ∀ n l, (n, l) ∈ c.cols → ¬ Touched titles n → (∀ v I J, Complete cols v I J → canon names (String.ofList n) ≠ v ∧
      ∀ i ∈ I, ∀ j ∈ J, canon names (String.ofList n) ≠ elemNm v i j) →
    ∃ a, lookup u.blk.vars (canon names (String.ofList n)) = some a ∧ IsColumn D l a ∧
      u.units (canon names (String.ofList n)) = S.guess (String.ofList n)
  attrib : ∀ n x, (n, x) ∈ c.attribs → ¬ Touched titles n → (∀ v I J, Complete cols v I J → canon names (String.ofList n) ≠ v ∧
      ∀ i ∈ I, ∀ j ∈ J, canon names (String.ofList n) ≠ elemNm v i j) →
    ∃ a, lookup u.blk.vars (canon names (String.ofList n)) = some a ∧ IsScalar x a ∧
      u.units (canon names (String.ofList n)) = S.guess (String.ofList n)
  property : ∀ p ∈ givenOf S.ofProp (vs ++ c.settings) props, (∀ v I J, Complete cols v I J → canon names p.1 ≠ v ∧
      ∀ i ∈ I, ∀ j ∈ J, canon names p.1 ≠ elemNm v i j) →
    ∃ x a, S.ofProp p.2 = some x ∧ lookup u.blk.vars (canon names p.1) = some a ∧ IsScalar x a ∧
      u.units (canon names p.1) = (unitOfProp p.2).or (S.guess p.1)
  nothing : ∀ n ∈ keys u.blk.vars, (∃ I J, Complete cols n I J) ∨ n ∈ cols

/-! ### Names in another order -/

theorem canon_congr {a b : List String} (h : ∀ x, x ∈ a ↔ x ∈ b) : canon a = canon b := by
  funext k
  unfold canon
  split
  · rename_i e _
    by_cases hm : e.2 ∈ a
    · rw [if_pos hm, if_pos ((h _).1 hm)]
    · rw [if_neg hm, if_neg fun h' => hm ((h _).2 h')]
  · rfl

theorem givenOf_congr (f : PVal → Option α) {u u' : List String} (h : ∀ x, x ∈ u ↔ x ∈ u') (props : List (String × PVal)) :
    givenOf f u props = givenOf f u' props := by
  unfold givenOf
  refine List.filter_congr fun p _ => ?_
  congr 1
  exact decide_eq_decide.2 (not_congr (h p.1))

section

variable {vs vs' ds ds' : List String} (hv : ∀ x, x ∈ vs ↔ x ∈ vs') (hd : ∀ x, x ∈ ds ↔ x ∈ ds')

include hv hd

theorem used_congr (x : String) : x ∈ vs ++ ds ↔ x ∈ vs' ++ ds' := by rw [List.mem_append, List.mem_append, hv, hd]

theorem namesOf_congr (f : PVal → Option α) (props : List (String × PVal)) (x : String) :
    x ∈ namesOf f vs ds props ↔ x ∈ namesOf f vs' ds' props := by
  unfold namesOf
  rw [givenOf_congr f (used_congr hv hd)]
  simp only [List.mem_append, hv, hd]

theorem colsOf_congr (f : PVal → Option α) (props : List (String × PVal)) (x : String) :
    x ∈ colsOf f vs ds props ↔ x ∈ colsOf f vs' ds' props := by
  unfold colsOf
  rw [givenOf_congr f (used_congr hv hd), canon_congr (namesOf_congr hv hd f props)]
  simp only [List.mem_map, List.mem_append, hv]

theorem calm_congr (f : PVal → Option α) (props : List (String × PVal)) (hn : (vs' ++ ds').Nodup)
    (h : CalmNames f vs ds props) : CalmNames f vs' ds' props := by
  have hN := namesOf_congr hv hd f props
  refine ⟨hn, fun k hk => h.title k ((hN k).2 hk), fun k hk => h.calls k ((hN k).2 hk), ?_, ?_⟩
  · intro e he e' he' h1 h2 h3
    exact h.clash e he e' he' ((hN _).2 h1) ((hN _).2 h2) fun h' => h3 ((hN _).1 h')
  · intro p hp m i j hm
    obtain ⟨h1, h2⟩ := h.props p hp m i j hm
    exact ⟨fun h' => h1 ((hv _).2 h'), h2⟩

theorem complete_congr (f : PVal → Option α) (props : List (String × PVal)) (v : String) (I J : List Nat) :
    Complete (colsOf f vs ds props) v I J ↔ Complete (colsOf f vs' ds' props) v I J := by
  have h := colsOf_congr hv hd f props
  constructor
  · rintro ⟨a, b, c, d, e, g⟩
    exact ⟨a, b, c, d, fun i j hi hj => by rw [← h]; exact e i j hi hj, g⟩
  · rintro ⟨a, b, c, d, e, g⟩
    exact ⟨a, b, c, d, fun i j hi hj => by rw [h]; exact e i j hi hj, g⟩

end

theorem wins_digits (cols : List String) (fm : Form) (v : String) (I J : List Nat) :
    Wins cols [.digits] fm v I J ↔ fm = .digits ∧ Complete cols v I J := by
  constructor
  · rintro ⟨b, a, e, -, h, -⟩
    have : fm ∈ ([.digits] : List Form) := by rw [e]; simp
    simp only [List.mem_singleton] at this
    subst this
    exact ⟨rfl, h⟩
  · rintro ⟨rfl, h⟩
    exact ⟨[], [], rfl, by simp, h, by simp⟩

/-! ### One block -/

theorem nonempty_ofComplete {cols : List String} {v : String} {I J : List Nat} (h : Complete cols v I J) :
    ∃ i ∈ I, ∃ j ∈ J, True := by
  have := h.many
  have hI : 0 < I.length := by
    refine Nat.pos_of_ne_zero ?_
    intro e; rw [e] at this; simp at this
  have hJ : 0 < J.length := by
    refine Nat.pos_of_ne_zero ?_
    intro e; rw [e] at this; simp at this
  obtain ⟨i, hi⟩ := List.exists_mem_of_length_pos hI
  obtain ⟨j, hj⟩ := List.exists_mem_of_length_pos hJ
  exact ⟨i, hi, j, hj, trivial⟩

theorem arrays_eq (env : Env β α) (num : Nat → β) (c : Content α) : c.arrays env = toVars env num (c.dim env) c.vals := by
  simp [Content.arrays, toVars, Content.vals, toArr, Function.comp_def]

theorem fst_vals (c : Content α) : c.vals.map Prod.fst = c.names := by
  simp [Content.vals, Content.names, Function.comp_def]

theorem mem_settings {env : Env β α} {s : Sheet} {c : Content α} {p : Parsed β α} (hb : IsBlock env s c p) (x : String) :
    x ∈ keys p.block.ivars ↔ x ∈ c.settings := by
  have hx : x = String.ofList x.toList := by simp
  generalize x.toList = n at hx
  subst hx
  rw [← lookup_isSome_iff, hb.dims n]
  unfold Content.settings
  rw [List.mem_map]
  cases hl : lookup c.vars n with
  | some v =>
    simp only [Option.isSome_some, true_iff]
    refine ⟨n, List.mem_append_right _ ?_, rfl⟩
    by_contra hno
    rw [lookup_none.2 hno] at hl
    cases hl
  | none =>
    simp only
    rw [lookup_none] at hl
    constructor
    · intro h
      split at h
      · rename_i hc
        refine ⟨n, List.mem_append_left _ ?_, rfl⟩
        rw [if_neg hc.1, hc.2]
        simp
      · cases h
    · rintro ⟨k, hk, e⟩
      rw [ofList_inj e] at hk
      rcases List.mem_append.1 hk with h | h
      · split at h
        · cases h
        · rename_i hc
          rw [if_pos ⟨hc, by simpa using h⟩]
          rfl
      · exact absurd h hl

/-- The variables after the elements are put together. -/
theorem entry_cases {c : Content α} {titles : List (List Char)} {m : OMap (List Char) (Val α)} (hA : Assembled c.vals m titles)
    {s : List Char} {v : Val α} (h : lookup m s = some v) :
    (∃ p q cols, IsMat titles s p q ∧ v = .matrix p q cols) ∨ (∃ k cols, IsVec titles s k ∧ v = .vector cols) ∨
      ¬ Touched titles s ∧ lookup c.vals s = some v := by
  by_cases ht : Touched titles s
  · rcases ht with ⟨n, p, q, hm, rfl | ⟨i, j, hij, rfl⟩⟩ | ⟨n, k, hk, rfl | ⟨i, hi, rfl⟩⟩
    · obtain ⟨cols, h1, -⟩ := hA.mats _ p q hm
      rw [h] at h1
      exact Or.inl ⟨p, q, cols, hm, Option.some.inj h1⟩
    · rw [hA.matGone n p q hm i j hij] at h
      cases h
    · obtain ⟨cols, h1, -⟩ := hA.vecs _ k hk
      rw [h] at h1
      exact Or.inr (Or.inl ⟨k, cols, hk, Option.some.inj h1⟩)
    · rw [hA.vecGone n k hk i hi] at h
      cases h
  · rw [hA.kept s ht] at h
    exact Or.inr (Or.inr ⟨ht, h⟩)

theorem mem_left {c : Content α} {titles : List (List Char)} {m : OMap (List Char) (Val α)} (hA : Assembled c.vals m titles)
    {vs : List String} (hL : Left titles c vs) (x : String) : x ∈ (m.map Prod.fst).map String.ofList ↔ x ∈ vs := by
  rw [hL x, List.mem_map]
  constructor
  · rintro ⟨n, hn, rfl⟩
    refine ⟨n, rfl, ?_⟩
    cases hl : lookup m n with
    | none => exact absurd hn (lookup_none.1 hl)
    | some v =>
      rcases entry_cases hA hl with ⟨p, q, _, h, -⟩ | ⟨k, _, h, -⟩ | ⟨h1, h2⟩
      · exact Or.inl ⟨p, q, h⟩
      · exact Or.inr (Or.inl ⟨k, h⟩)
      · refine Or.inr (Or.inr ⟨?_, h1⟩)
        rw [← fst_vals]
        by_contra hno
        rw [lookup_none.2 hno] at h2
        cases h2
  · rintro ⟨n, rfl, h⟩
    refine ⟨n, ?_, rfl⟩
    by_contra hno
    rw [← lookup_none] at hno
    rcases h with ⟨p, q, h⟩ | ⟨k, h⟩ | ⟨h1, h2⟩
    · obtain ⟨_, e, -⟩ := hA.mats n p q h
      rw [hno] at e
      cases e
    · obtain ⟨_, e, -⟩ := hA.vecs n k h
      rw [hno] at e
      cases e
    · rw [hA.kept n h2, lookup_none, fst_vals] at hno
      exact hno h1

/-- The array without the axes of a matrix. -/
def bare (a : Arr β α) : Arr β α := ⟨a.dims.take 1, a.nd⟩

/-- The axes of a matrix or vector. -/
def axesOf (num : Nat → β) (nd : Nd α) : List (Dim β) :=
  match nd.shape with
  | [_, p, q] => matDims num p q
  | [_, k] => [⟨.matJ, "j", (List.range k).map num, none, none⟩]
  | _ => []

theorem matrixOf_cols (env : Env β α) (num : Nat → β) (d : Dim β) (p q N : Nat) (cols : List (List α)) (hc : cols ≠ [])
    (hl : ∀ l ∈ cols, l.length = N) :
    (matrixOf env num p q (cols.map (colArr env d))).dims = d :: matDims num p q ∧
    (matrixOf env num p q (cols.map (colArr env d))).nd.shape = [N, p, q] ∧
    ∀ (r i j : Nat) l x, cols[i * q + j]? = some l → l[r]? = some x →
      (matrixOf env num p q (cols.map (colArr env d))).nd.get [r, i, j] = x := by
  refine ⟨?_, ?_, ?_⟩
  · unfold matrixOf
    simp only [List.getLast?_map]
    rw [List.getLast?_eq_some_getLast hc]
    rfl
  · unfold matrixOf
    cases cols with
    | nil => exact absurd rfl hc
    | cons l t => simp [colArr, hl l (by simp)]
  · intro r i j l x h1 h2
    unfold matrixOf
    simp only [List.getElem?_map, h1, Option.map_some, Option.elim_some, colArr, List.headD_cons, List.getD, h2, Option.getD_some]

theorem vectorOf_cols (env : Env β α) (num : Nat → β) (d : Dim β) (N : Nat) (cols : List (List α)) (hc : cols ≠ [])
    (hl : ∀ l ∈ cols, l.length = N) :
    (vectorOf env num (cols.map (colArr env d))).dims = [d, ⟨.matJ, "j", (List.range cols.length).map num, none, none⟩] ∧
    (vectorOf env num (cols.map (colArr env d))).nd.shape = [N, cols.length] ∧
    ∀ (r i : Nat) l x, cols[i]? = some l → l[r]? = some x →
      (vectorOf env num (cols.map (colArr env d))).nd.get [r, i] = x := by
  refine ⟨?_, ?_, ?_⟩
  · unfold vectorOf
    simp only [List.getLast?_map]
    rw [List.getLast?_eq_some_getLast hc]
    simp [colArr]
  · unfold vectorOf
    cases cols with
    | nil => exact absurd rfl hc
    | cons l t => simp [colArr, hl l (by simp)]
  · intro r i l x h1 h2
    unfold vectorOf
    simp only [List.getElem?_map, h1, Option.map_some, Option.elim_some, colArr, List.headD_cons, List.getD, h2, Option.getD_some]

theorem vals_nodup {c : Content α} (hs : Separate c) : (c.vals.map Prod.fst).Nodup := by rw [fst_vals]; exact hs.nodup

theorem lookup_column {c : Content α} (hs : Separate c) (n : List Char) (l : List α) :
    lookup c.vals n = some (.column l) ↔ (n, l) ∈ c.cols := by
  rw [← mem_iff_lookup (vals_nodup hs)]
  unfold Content.vals
  rw [List.mem_append, List.mem_map, List.mem_map]
  constructor
  · rintro (⟨p, hp, e⟩ | ⟨p, hp, e⟩)
    · cases e
      exact hp
    · cases e
  · exact fun h => Or.inl ⟨(n, l), h, rfl⟩

theorem lookup_scalar {c : Content α} (hs : Separate c) (n : List Char) (x : α) :
    lookup c.vals n = some (.scalar x) ↔ (n, x) ∈ c.attribs := by
  rw [← mem_iff_lookup (vals_nodup hs)]
  unfold Content.vals
  rw [List.mem_append, List.mem_map, List.mem_map]
  constructor
  · rintro (⟨p, hp, e⟩ | ⟨p, hp, e⟩)
    · cases e
    · cases e
      exact hp
  · exact fun h => Or.inr ⟨(n, x), h, rfl⟩

section

variable {c : Content α} {titles : List (List Char)} {m : OMap (List Char) (Val α)} (hs : Separate c)
  (hA : Assembled c.vals m titles) {N : Nat} (hlen : ∀ n l, (n, l) ∈ c.cols → l.length = N)

include hs hA hlen

theorem mat_facts {n : List Char} {p q : Nat} (h : IsMat titles n p q) : ∃ cols, lookup m n = some (.matrix p q cols) ∧
    cols ≠ [] ∧ (∀ l ∈ cols, l.length = N) ∧
    ∀ i j, i < p → j < q → ∃ l, (matName n (i + 1) (j + 1), l) ∈ c.cols ∧ cols[i * q + j]? = some l := by
  obtain ⟨cols, h1, h2, h3⟩ := hA.mats n p q h
  have h4 : ∀ i j, i < p → j < q → ∃ l, (matName n (i + 1) (j + 1), l) ∈ c.cols ∧ cols[i * q + j]? = some l := by
    intro i j hi hj
    obtain ⟨l, k1, k2⟩ := h3 i j hi hj
    exact ⟨l, (lookup_column hs _ _).1 k1, k2⟩
  refine ⟨cols, h1, ?_, ?_, h4⟩
  · rintro rfl
    have := Nat.mul_pos h.1 h.2.1
    rw [List.length_nil] at h2
    omega
  · intro l hl
    obtain ⟨k, hk, rfl⟩ := List.getElem_of_mem hl
    have hq := h.2.1
    have hk' : k < p * q := by omega
    obtain ⟨l', k1, k2⟩ := h4 (k / q) (k % q) ((Nat.div_lt_iff_lt_mul hq).2 hk') (Nat.mod_lt _ hq)
    have e : k / q * q + k % q = k := by rw [Nat.mul_comm]; exact Nat.div_add_mod k q
    rw [e, List.getElem?_eq_getElem hk] at k2
    rw [Option.some.inj k2]
    exact hlen _ _ k1

theorem vec_facts {n : List Char} {k : Nat} (h : IsVec titles n k) : ∃ cols, lookup m n = some (.vector cols) ∧
    cols ≠ [] ∧ cols.length = k ∧ (∀ l ∈ cols, l.length = N) ∧
    ∀ i, i < k → ∃ l, (vecName n (i + 1), l) ∈ c.cols ∧ cols[i]? = some l := by
  obtain ⟨cols, h1, h2, h3⟩ := hA.vecs n k h
  have h4 : ∀ i, i < k → ∃ l, (vecName n (i + 1), l) ∈ c.cols ∧ cols[i]? = some l := by
    intro i hi
    obtain ⟨l, k1, k2⟩ := h3 i hi
    exact ⟨l, (lookup_column hs _ _).1 k1, k2⟩
  refine ⟨cols, h1, ?_, h2, ?_, h4⟩
  · rintro rfl
    have := h.1
    simp at h2
    omega
  · intro l hl
    obtain ⟨i, hi, rfl⟩ := List.getElem_of_mem hl
    obtain ⟨l', k1, k2⟩ := h4 i (by omega)
    rw [List.getElem?_eq_getElem hi] at k2
    rw [Option.some.inj k2]
    exact hlen _ _ k1

/-- The arrays are those without the axes of matrices, with these axes. -/
theorem extend_bare (env : Env β α) (num : Nat → β) (d : Dim β) (ext : Nd α → List (Dim β))
    (hext : ext = axesOf num ∨ ext = (fun _ => []) ∧ NoBrackets titles) {s : List Char} {v : Val α} (hl : lookup m s = some v) :
    extend ext (bare (toArr env num d v)) = toArr env num d v ∧ (∀ e ∈ (bare (toArr env num d v)).dims, e = d ∧ c.cols ≠ []) := by
  rcases entry_cases hA hl with ⟨p, q, cols, h, rfl⟩ | ⟨k, cols, h, rfl⟩ | ⟨h1, h2⟩
  · obtain ⟨cols', k1, k2, k3, k4⟩ := mat_facts hs hA hlen h
    rw [hl] at k1
    cases k1
    obtain ⟨m1, m2, -⟩ := matrixOf_cols env num d p q N cols k2 k3
    rcases hext with rfl | ⟨-, hno⟩
    · refine ⟨?_, ?_⟩
      · unfold extend bare
        simp only [toArr]
        rw [m1]
        have : axesOf num (matrixOf env num p q (cols.map (colArr env d))).nd = matDims num p q := by
          unfold axesOf
          rw [m2]
        simp only [this, List.take_succ_cons, List.take_zero, List.cons_append, List.nil_append]
        rw [← m1]
      · intro e he
        simp only [bare, toArr] at he
        rw [m1] at he
        simp only [List.take_succ_cons, List.take_zero, List.mem_singleton] at he
        obtain ⟨l, hm, -⟩ := k4 0 0 h.1 h.2.1
        exact ⟨he, List.ne_nil_of_mem hm⟩
    · exact absurd h (hno.1 s p q)
  · obtain ⟨cols', k1, k2, k5, k3, k4⟩ := vec_facts hs hA hlen h
    rw [hl] at k1
    cases k1
    obtain ⟨m1, m2, -⟩ := vectorOf_cols env num d N cols k2 k3
    rcases hext with rfl | ⟨-, hno⟩
    · refine ⟨?_, ?_⟩
      · unfold extend bare
        simp only [toArr]
        rw [m1]
        have : axesOf num (vectorOf env num (cols.map (colArr env d))).nd =
            [⟨.matJ, "j", (List.range cols.length).map num, none, none⟩] := by
          unfold axesOf
          rw [m2]
        simp only [this, List.take_succ_cons, List.take_zero, List.cons_append, List.nil_append]
        rw [← m1]
      · intro e he
        simp only [bare, toArr] at he
        rw [m1] at he
        simp only [List.take_succ_cons, List.take_zero, List.mem_singleton] at he
        obtain ⟨l, hm, -⟩ := k4 0 h.1
        exact ⟨he, List.ne_nil_of_mem hm⟩
    · exact absurd h (hno.2 s k)
  · have hv := (mem_iff_lookup (vals_nodup hs) _ _).2 h2
    unfold Content.vals at hv
    rcases List.mem_append.1 hv with hv | hv
    · obtain ⟨x, hx, e⟩ := List.mem_map.1 hv
      cases e
      refine ⟨?_, ?_⟩
      · rcases hext with rfl | ⟨rfl, -⟩
        · simp [extend, bare, toArr, colArr, axesOf]
        · simp [extend, bare, toArr, colArr]
      · intro e he
        simp only [bare, toArr, colArr, List.take_succ_cons, List.take_zero, List.mem_singleton] at he
        exact ⟨he, List.ne_nil_of_mem hx⟩
    · obtain ⟨x, hx, e⟩ := List.mem_map.1 hv
      cases e
      refine ⟨?_, ?_⟩
      · rcases hext with rfl | ⟨rfl, -⟩
        · simp [extend, bare, toArr, axesOf]
        · simp [extend, bare, toArr]
      · intro e he
        simp [bare, toArr] at he

end

/-- C85: one block of a file with all steps of the reader. -/
theorem block_steps (env : Env β α) (S : Steps β α) (htab : S.table.Perm trtable)
    (hcast : ∀ c c' : Arr β α, c.nd = c'.nd → S.cast c = S.cast c') (s : Sheet) (c : Content α) (p : Parsed β α)
    (hb : IsBlock env s c p) (hv : p.block.vars = c.arrays env) (hs : Separate c)
    (hlen : ∀ n l, (n, l) ∈ c.cols → l.length = c.sweep.length) (vs : List String) (hr : Regular S s c vs)
    (hw : OneWay env S s c vs) :
    ∃ u D, treatBlock env S s.titles p = .ok u ∧ Gives env S s.titles c (Comments.properties s.comments) vs
      (namesOf S.ofProp vs c.settings (Comments.properties s.comments))
      (colsOf S.ofProp vs c.settings (Comments.properties s.comments)) D u := by
  obtain ⟨hL, ⟨M, hready⟩, hvar, hcalm⟩ := hr
  unfold OneWay at hw
  have hpn := Comments.properties_nodup s.comments
  unfold treatBlock
  rw [hb.comments]
  generalize Comments.properties s.comments = props at hw hcalm hpn
  obtain ⟨m, hm, hA⟩ := C23_assembled c.vals s.titles M hready
  rw [assemble_toVars env S.num (c.dim env) s.titles p.block c.vals m (by rw [hv]; exact arrays_eq env S.num c) hm]
  simp only
  have hmn : (m.map Prod.fst).Nodup := hA.nodup (vals_nodup hs)
  have hvs := mem_left hA hL
  have hds := mem_settings hb
  -- the block without axes of matrices
  obtain ⟨b0, hb0⟩ : ∃ b0 : Block β α, b0 = { p.block with
      vars := m.map fun x => (String.ofList x.1, bare (toArr env S.num (c.dim env) x.2)) } := ⟨_, rfl⟩
  have hk0 : keys b0.vars = (m.map Prod.fst).map String.ofList := by rw [hb0]; simp [keys, Function.comp_def]
  have hi0 : b0.ivars = p.block.ivars := by rw [hb0]
  have hV : ∀ x, x ∈ keys b0.vars ↔ x ∈ vs := by rw [hk0]; exact hvs
  have hD : ∀ x, x ∈ keys b0.ivars ↔ x ∈ c.settings := by rw [hi0]; exact hds
  have hn0 : (keys b0.vars).Nodup := by rw [hk0]; exact nodup_ofList hmn
  have hl0 : ∀ n v, lookup m n = some v → lookup b0.vars (String.ofList n) = some (bare (toArr env S.num (c.dim env) v)) := by
    intro n v h
    have : (String.ofList n, bare (toArr env S.num (c.dim env) v)) ∈ b0.vars := by
      rw [hb0]
      exact List.mem_map.2 ⟨(n, v), (mem_iff_lookup hmn n v).2 h, rfl⟩
    exact mem_lookup hn0 this
  have hdim : c.cols ≠ [] → lookup b0.ivars (String.ofList c.name) = some (c.dim env) := by
    intro h
    rw [hi0, hb.dims, lookup_none.2 hvar]
    simp [h]
  obtain ⟨ext, hext, hfree, hx, hdis⟩ : ∃ ext : Nd α → List (Dim β),
      (ext = axesOf S.num ∨ ext = (fun _ => []) ∧ NoBrackets s.titles) ∧
      (∀ nd, ∀ e ∈ ext nd, e.name ∉ keys b0.ivars ∧ e.name ∉ trtable.map Prod.snd) ∧
      (∀ x, ext ⟨[], fun _ => x⟩ = []) ∧
      ((∀ v I J, ¬ Complete (colsOf S.ofProp vs c.settings props) v I J) ∧ ext = axesOf S.num ∨
        ext = (fun _ => []) ∧ NoBrackets s.titles ∧ ∀ v I J, Complete (colsOf S.ofProp vs c.settings props) v I J →
          Elements env S c (namesOf S.ofProp vs c.settings props) v I J) := by
    rcases hw with ⟨h1, h2, h3⟩ | ⟨h1, h2⟩
    · refine ⟨axesOf S.num, Or.inl rfl, ?_, fun _ => rfl, Or.inl ⟨h1, rfl⟩⟩
      intro nd e he
      have : e.name = "i" ∨ e.name = "j" := by
        unfold axesOf at he
        split at he
        · simp only [Readers.Assemble.matDims, List.mem_cons, List.not_mem_nil, or_false] at he
          rcases he with rfl | rfl
          · exact Or.inl rfl
          · exact Or.inr rfl
        · simp only [List.mem_singleton] at he
          subst he
          exact Or.inr rfl
        · cases he
      rcases this with e | e
      · rw [e]
        exact ⟨fun h => h2 ((hD _).1 h), by decide +kernel⟩
      · rw [e]
        exact ⟨fun h => h3 ((hD _).1 h), by decide +kernel⟩
    · exact ⟨fun _ => [], Or.inr ⟨rfl, h1⟩, by simp, fun _ => rfl, Or.inr ⟨rfl, h1, h2⟩⟩
  have hbe : beside ext b0 = { p.block with vars := toVars env S.num (c.dim env) m } := by
    unfold beside
    rw [hb0]
    simp only [toVars, List.map_map]
    congr 1
    refine List.map_congr_left fun x hx => ?_
    simp only [Function.comp_apply]
    rw [(extend_bare hs hA hlen env S.num (c.dim env) ext hext ((mem_iff_lookup hmn x.1 x.2).1 hx)).1]
  have hlink : Linked b0 := by
    refine ⟨by rw [hi0]; exact hb.once, ?_, ?_⟩
    · intro w hw
      have hl : lookup b0.ivars w.1 = some w.2 := mem_lookup (by rw [hi0]; exact hb.once) hw
      have hx : w.1 = String.ofList w.1.toList := by simp
      rw [hi0, hx, hb.dims] at hl
      split at hl
      · rw [← Option.some.inj hl]
        exact hx.symm
      · split at hl
        · rename_i hc
          rw [← Option.some.inj hl, hx, hc.2]
          rfl
        · cases hl
    · intro w hw d hd
      rw [hb0] at hw
      obtain ⟨x, hx, rfl⟩ := List.mem_map.1 hw
      obtain ⟨h1, h2⟩ := (extend_bare hs hA hlen env S.num (c.dim env) ext hext ((mem_iff_lookup hmn x.1 x.2).1 hx)).2 d hd
      rw [h1]
      exact hdim h2
  have hnd0 : (keys b0.vars ++ keys b0.ivars).Nodup := by
    have := hcalm.nodup
    rw [List.nodup_append] at this ⊢
    refine ⟨hn0, by rw [hi0]; exact hb.once, ?_⟩
    intro a ha b hb'
    exact this.2.2 a ((hV a).1 ha) b ((hD b).1 hb')
  have hV' := fun x => (hV x).symm
  have hD' := fun x => (hD x).symm
  have hcalm0 := calm_congr hV' hD' S.ofProp props hnd0 hcalm
  have hcan : canon (namesOf S.ofProp (keys b0.vars) (keys b0.ivars) props) = canon (namesOf S.ofProp vs c.settings props) :=
    canon_congr (namesOf_congr hV hD S.ofProp props)
  have hW : ∀ fm v I J, Wins (colsOf S.ofProp (keys b0.vars) (keys b0.ivars) props) [.digits] fm v I J ↔
      fm = .digits ∧ Complete (colsOf S.ofProp vs c.settings props) v I J := by
    intro fm v I J
    rw [wins_digits, complete_congr hV hD S.ofProp props]
  -- the steps
  have hcx : Readers.Complex.makeCplx env S.full S.rect S.polar (beside ext b0) = .ok (beside ext b0) := by
    refine Readers.Complex.makeCplx_plain env S.full S.rect S.polar _ ?_
    intro k hk
    rw [keys_beside] at hk
    refine hcalm0.calls k ?_
    unfold namesOf
    rcases List.mem_append.1 hk with h | h
    · exact List.mem_append_left _ (List.mem_append_left _ h)
    · exact List.mem_append_right _ h
  have hcolm : ∀ n l, (n, l) ∈ c.cols → ¬ Touched s.titles n → lookup m n = some (.column l) := by
    intro n l h ht
    rw [hA.kept n ht]
    exact (lookup_column hs n l).2 h
  have hmain : ∃ r H, laterOn [.digits] env S props (besideU ext ⟨b0, fun _ => none⟩) = .ok (besideU ext r) ∧
      Comes S [.digits] props ⟨b0, fun _ => none⟩ (namesOf S.ofProp (keys b0.vars) (keys b0.ivars) props)
      (colsOf S.ofProp (keys b0.vars) (keys b0.ivars) props) H r := by
    rcases hdis with ⟨hno, -⟩ | ⟨rfl, hnb, hel⟩
    · exact laterOn_beside [.digits] env S htab hcast props ⟨b0, fun _ => none⟩ hpn hlink hcalm0
        (fun fm v I J h => hno v I J ((hW fm v I J).1 h).2) hx hfree
    · have hid : ∀ b : UBlock β α, besideU (fun _ => []) b = b := by
        intro b
        have : ∀ l : List (String × Arr β α), l.map (fun p => (p.1, extend (fun _ => ([] : List (Dim β))) p.2)) = l := by
          intro l
          induction l with
          | nil => rfl
          | cons p t ih =>
            rw [List.map_cons, ih]
            simp [extend]
        unfold besideU beside
        rw [this]
      simp only [hid]
      refine laterOn_given [.digits] env S htab hcast props ⟨b0, fun _ => none⟩ hpn hlink hcalm0 ?_
      intro fm v I J hwin
      obtain ⟨rfl, hcp⟩ := (hW fm v I J).1 hwin
      have hE := hel v I J hcp
      have htn : ∀ n, ¬ Touched s.titles n := by
        rintro n (⟨k, p, q, h, -⟩ | ⟨k, q, h, -⟩)
        · exact hnb.1 _ _ _ h
        · exact hnb.2 _ _ h
      have hlc : ∀ n l, (n, l) ∈ c.cols → lookup b0.vars (String.ofList n) = some (colArr env (c.dim env) l) := by
        intro n l h
        rw [hl0 n _ (hcolm n l h (htn n))]
        rfl
      -- no other column has the name of an element
      refine ⟨[c.dim env], [c.sweep.length], rfl, ?_, ?_, ?_⟩
      · rw [hcan]
        refine ⟨?_, hE.name.2⟩
        intro hm'
        obtain ⟨k, hk, e⟩ := List.mem_map.1 hm'
        exact hE.name.1 (List.mem_map.2 ⟨k, (hD k).1 hk, e⟩)
      · intro i hi j hj
        obtain ⟨n, l, h1, h2⟩ := hE.cols i hi j hj
        refine ⟨String.ofList n, _, by rw [hcan]; exact h2, hlc n l h1, rfl, ?_⟩
        show [l.length] = _
        rw [hlen n l h1]
      · rw [hcan]
        intro i hi j hj k hk l hl n n' x x' e1 e2 hx1 hx2 idx hidx
        obtain ⟨n1, l1, a1, a2⟩ := hE.cols i hi j hj
        obtain ⟨n2, l2, b1, b2⟩ := hE.cols k hk l hl
        have hcn := canon_nodup (names_nodup hpn hcalm0.nodup) hcalm0.clash
        rw [hcan] at hcn
        have hinj : ∀ a b, a ∈ namesOf S.ofProp (keys b0.vars) (keys b0.ivars) props →
            b ∈ namesOf S.ofProp (keys b0.vars) (keys b0.ivars) props →
            canon (namesOf S.ofProp vs c.settings props) a = canon (namesOf S.ofProp vs c.settings props) b → a = b :=
          fun a b ha hb e => List.inj_on_of_nodup_map hcn ha hb e
        have hin : ∀ a y, lookup b0.vars a = some y → a ∈ namesOf S.ofProp (keys b0.vars) (keys b0.ivars) props := by
          intro a y h
          unfold namesOf
          exact List.mem_append_left _ (List.mem_append_left _ (lookup_key h))
        have q1 := hinj n (String.ofList n1) (hin _ _ hx1) (hin _ _ (hlc _ _ a1)) (e1.trans a2.symm)
        have q2 := hinj n' (String.ofList n2) (hin _ _ hx2) (hin _ _ (hlc _ _ b1)) (e2.trans b2.symm)
        subst q1; subst q2
        rw [hlc _ _ a1] at hx1
        rw [hlc _ _ b1] at hx2
        cases hx1
        cases hx2
        cases idx with
        | nil => exact absurd hidx (by simp [Nd.Valid])
        | cons r t =>
          obtain ⟨hr, ht⟩ := hidx
          cases t with
          | cons _ _ => exact absurd ht (by simp [Nd.Valid])
          | nil =>
            have hr' : r < l2.length := by rw [hlen _ _ b1]; exact hr
            have : (colArr env (c.dim env) l2).nd.get [r] = l2[r] := by
              simp [colArr, List.getD, List.getElem?_eq_getElem hr']
            rw [this]
            exact hE.type i hi j hj k hk l hl n1 l1 n2 l2 a1 b1 a2 b2 _ (isColumn_colArr env _ l1) _ (List.getElem_mem hr')
  obtain ⟨r, H, h1, h2⟩ := hmain
  refine ⟨besideU ext r, H (c.dim env), ?_, ?_⟩
  · rw [← hbe]
    unfold treat
    rw [hcx]
    exact h1
  · obtain ⟨k1, k2, k3, k4, k5, k6, k7⟩ := h2
    simp only [hcan] at k1 k2 k3 k5 k6
    have hcomp : ∀ v I J, Complete (colsOf S.ofProp vs c.settings props) v I J →
        Wins (colsOf S.ofProp (keys b0.vars) (keys b0.ivars) props) [.digits] .digits v I J :=
      fun v I J h => (hW _ _ _ _).2 ⟨rfl, h⟩
    have hgv : givenOf S.ofProp (keys b0.vars ++ keys b0.ivars) props = givenOf S.ofProp (vs ++ c.settings) props :=
      givenOf_congr S.ofProp (used_congr hV hD) props
    have hxv : ∀ k a, lookup r.blk.vars k = some a → lookup (besideU ext r).blk.vars k = some (extend ext a) := by
      intro k a h
      show lookup (beside ext r.blk).vars k = _
      rw [lookup_beside, h]
      rfl
    have hplain : ∀ n v, lookup m n = some v → (∀ v I J, Complete (colsOf S.ofProp vs c.settings props) v I J →
        canon (namesOf S.ofProp vs c.settings props) (String.ofList n) ≠ v ∧
        ∀ i ∈ I, ∀ j ∈ J, canon (namesOf S.ofProp vs c.settings props) (String.ofList n) ≠ elemNm v i j) →
        lookup (besideU ext r).blk.vars (canon (namesOf S.ofProp vs c.settings props) (String.ofList n)) =
          some (extend ext ⟨(bare (toArr env S.num (c.dim env) v)).dims.map H, (toArr env S.num (c.dim env) v).nd⟩) ∧
        (besideU ext r).units (canon (namesOf S.ofProp vs c.settings props) (String.ofList n)) = S.guess (String.ofList n) := by
      intro n v hl hne
      obtain ⟨h3, h4⟩ := k5 (String.ofList n) _ (hl0 n v hl) (by
        intro fm w I J hw
        obtain ⟨rfl, hc⟩ := (hW fm w I J).1 hw
        exact hne w I J hc)
      exact ⟨hxv _ _ h3, h4⟩
    have hside : ∀ n p q, IsMat s.titles n p q → ext = axesOf S.num ∧
        ∀ v I J, ¬ Complete (colsOf S.ofProp vs c.settings props) v I J := by
      intro n p q h
      rcases hdis with ⟨h3, h4⟩ | ⟨-, h3, -⟩
      · exact ⟨h4, h3⟩
      · exact absurd h (h3.1 n p q)
    have hside' : ∀ n k, IsVec s.titles n k → ext = axesOf S.num ∧
        ∀ v I J, ¬ Complete (colsOf S.ofProp vs c.settings props) v I J := by
      intro n k h
      rcases hdis with ⟨h3, h4⟩ | ⟨-, h3, -⟩
      · exact ⟨h4, h3⟩
      · exact absurd h (h3.2 n k)
    have hext1 : ∀ (nd : Nd α) k, nd.shape = [k] → ext nd = [] := by
      intro nd k h
      rcases hext with rfl | ⟨rfl, -⟩
      · unfold axesOf
        rw [h]
      · rfl
    have hext0 : ∀ (nd : Nd α), nd.shape = [] → ext nd = [] := by
      intro nd h
      rcases hext with rfl | ⟨rfl, -⟩
      · unfold axesOf
        rw [h]
      · rfl
    refine ⟨?_, ?_, ?_, ?_, ?_, ?_, ?_, ?_, ?_, ?_, ?_⟩
    · intro h
      obtain ⟨h3, h4⟩ := k1 _ _ (hdim h)
      have h5 : (H (c.dim env)).name = canon (namesOf S.ofProp vs c.settings props) (String.ofList c.name) :=
        congrArg Label.name h4
      exact ⟨by rw [h5]; exact h3, h4⟩
    · intro n x hnx
      have hl : lookup b0.ivars (String.ofList n) = some ⟨.dimPartial, String.ofList n, [env.toCoord x], none, none⟩ := by
        rw [hi0, hb.dims, (mem_iff_lookup hs.vars n x).1 hnx]
      obtain ⟨h3, h4⟩ := k1 _ _ hl
      exact ⟨_, h3, h4⟩
    · intro n hn
      rcases k2 n hn with h | ⟨⟨fm, v, I, J, h⟩, h'⟩
      · obtain ⟨k, hk, e⟩ := List.mem_map.1 h
        exact Or.inl (List.mem_map.2 ⟨k, (hD k).1 hk, e⟩)
      · exact Or.inr ⟨⟨v, I, J, ((hW fm v I J).1 h).2⟩, h'⟩
    · intro n p' q h
      obtain ⟨rfl, hno⟩ := hside n p' q h
      obtain ⟨cols, f1, f2, f3, f4⟩ := mat_facts hs hA hlen h
      obtain ⟨m1, m2, m3⟩ := matrixOf_cols env S.num (c.dim env) p' q _ cols f2 f3
      obtain ⟨g1, g2⟩ := hplain n _ f1 fun v I J hc => absurd hc (hno v I J)
      refine ⟨_, ⟨.matI, "i", (List.range p').map S.num, none, none⟩, ⟨.matJ, "j", (List.range q).map S.num, none, none⟩,
        g1, g2, ⟨?_, m2, by show Cls.isSub .matI .matI = true; decide +kernel, by show Cls.isSub .matJ .matJ = true; decide +kernel, rfl⟩,
        rfl, rfl, ?_⟩
      · show (bare (toArr env S.num (c.dim env) (.matrix p' q cols))).dims.map H ++ axesOf S.num _ = _
        have : axesOf S.num (toArr env S.num (c.dim env) (.matrix p' q cols)).nd = Readers.Assemble.matDims S.num p' q := by
          unfold axesOf
          simp only [toArr]
          rw [m2]
        rw [this]
        unfold bare
        simp only [toArr]
        rw [m1]
        rfl
      · intro i j hi hj
        obtain ⟨l, e1, e2⟩ := f4 i j hi hj
        exact ⟨l, e1, fun r x hx => m3 r i j l x e2 hx⟩
    · intro n k h
      obtain ⟨rfl, hno⟩ := hside' n k h
      obtain ⟨cols, f1, f2, f5, f3, f4⟩ := vec_facts hs hA hlen h
      obtain ⟨m1, m2, m3⟩ := vectorOf_cols env S.num (c.dim env) _ cols f2 f3
      obtain ⟨g1, g2⟩ := hplain n _ f1 fun v I J hc => absurd hc (hno v I J)
      refine ⟨_, ⟨.matJ, "j", (List.range cols.length).map S.num, none, none⟩, g1, g2, ?_, rfl,
        by show Cls.isSub .matJ .matJ = true; decide +kernel, by rw [← f5]; exact m2, ?_⟩
      · show (bare (toArr env S.num (c.dim env) (.vector cols))).dims.map H ++ axesOf S.num _ = _
        have : axesOf S.num (toArr env S.num (c.dim env) (.vector cols)).nd =
            [⟨.matJ, "j", (List.range cols.length).map S.num, none, none⟩] := by
          unfold axesOf
          simp only [toArr]
          rw [m2]
        rw [this]
        unfold bare
        simp only [toArr]
        rw [m1]
        rfl
      · intro i hi
        obtain ⟨l, e1, e2⟩ := f4 i hi
        exact ⟨l, e1, fun r x hx => m3 r i l x e2 hx⟩
    · intro v I J hc
      rcases hdis with ⟨hno, -⟩ | ⟨rfl, hnb, hel⟩
      · exact absurd hc (hno v I J)
      · obtain ⟨a, D, sh, di, dj, e1, e2, e3, e4, e5, e6, e7⟩ := k3 .digits v I J (hcomp v I J hc)
        have htn : ∀ n, ¬ Touched s.titles n := by
          rintro n (⟨k, p, q, h, -⟩ | ⟨k, q, h, -⟩)
          · exact hnb.1 _ _ _ h
          · exact hnb.2 _ _ h
        have hlc : ∀ n l, (n, l) ∈ c.cols → lookup b0.vars (String.ofList n) = some (colArr env (c.dim env) l) := by
          intro n l h
          rw [hl0 n _ (hcolm n l h (htn n))]
          rfl
        have hDs : D = [c.dim env] ∧ sh = [c.sweep.length] := by
          obtain ⟨i, hi, j, hj, -⟩ := nonempty_ofComplete hc
          obtain ⟨n, l, q1, q2⟩ := (hel v I J hc).cols i hi j hj
          obtain ⟨k, x, x1, x2, x3, x4⟩ := e3.cols i hi j hj
          have hcn := canon_nodup (names_nodup hpn hcalm0.nodup) hcalm0.clash
          have hin : ∀ a y, lookup b0.vars a = some y → a ∈ namesOf S.ofProp (keys b0.vars) (keys b0.ivars) props := by
            intro a y h
            unfold namesOf
            exact List.mem_append_left _ (List.mem_append_left _ (lookup_key h))
          rw [← hcan] at q2
          have : k = String.ofList n := List.inj_on_of_nodup_map hcn (hin _ _ x2) (hin _ _ (hlc _ _ q1)) (x1.trans q2.symm)
          subst this
          have x2 : lookup b0.vars (String.ofList n) = some x := x2
          rw [hlc n l q1] at x2
          cases x2
          refine ⟨x3.symm, ?_⟩
          rw [← x4]
          show [l.length] = _
          rw [hlen n l q1]
        obtain ⟨rfl, rfl⟩ := hDs
        have hid : extend (fun _ => ([] : List (Dim β))) a = a := by simp [extend]
        refine ⟨a, di, dj, by rw [hxv _ _ e1, hid], e2, e4, e5, e6, ?_⟩
        intro i j hi hj n l hn he r x hx
        have := e7 i j hi hj (String.ofList n) _ he (hlc n l hn) [r] ⟨by
          rw [← hlen n l hn]
          exact (List.getElem?_eq_some_iff.1 hx).1, trivial⟩
        rw [show [r, i, j] = [r] ++ [i, j] from rfl, this]
        exact (isColumn_colArr env (c.dim env) l).2.2 r x hx
    · intro v I J hc i hi j hj
      show lookup (beside ext r.blk).vars _ = none
      rw [lookup_beside, k4 .digits v I J (hcomp v I J hc) i hi j hj]
      rfl
    · intro n l hn ht hne
      obtain ⟨g1, g2⟩ := hplain n _ (hcolm n l hn ht) hne
      refine ⟨_, g1, ?_, g2⟩
      refine ⟨?_, rfl, (isColumn_colArr env (c.dim env) l).2.2⟩
      show (bare (toArr env S.num (c.dim env) (.column l))).dims.map H ++ ext _ = _
      rw [hext1 _ l.length rfl]
      rfl
    · intro n x hn ht hne
      obtain ⟨g1, g2⟩ := hplain n (.scalar x) (by rw [hA.kept n ht]; exact (lookup_scalar hs n x).2 hn) hne
      refine ⟨_, g1, ?_, g2⟩
      refine ⟨?_, rfl, rfl⟩
      show (bare (toArr env S.num (c.dim env) (.scalar x))).dims.map H ++ ext _ = _
      rw [hext0 _ rfl]
      rfl
    · intro q hq hne
      rw [← hgv] at hq
      obtain ⟨x, g1, g2, g3⟩ := k6 q hq (by
        intro fm w I J hw
        obtain ⟨rfl, hc⟩ := (hW fm w I J).1 hw
        exact hne w I J hc)
      refine ⟨x, _, g1, hxv _ _ g2, ⟨?_, rfl, rfl⟩, g3⟩
      show [] ++ ext _ = []
      rw [hext0 _ rfl]
      rfl
    · intro n hn
      have hn' : n ∈ keys r.blk.vars := by
        have : n ∈ keys (beside ext r.blk).vars := hn
        rwa [keys_beside] at this
      rcases k7 n hn' with ⟨fm, I, J, h⟩ | h
      · exact Or.inl ⟨I, J, ((hW fm n I J).1 h).2⟩
      · exact Or.inr ((colsOf_congr hV hD S.ofProp props n).1 h)

/-! ### Files -/

/-- All columns of a table have as many rows as the sweep. -/
theorem columns_length {num : Num α} {s : Sheet} {c : Content α} (hd : Describes num s c) (n : List Char) (l : List α)
    (h : (n, l) ∈ c.cols) : l.length = c.sweep.length := by
  obtain ⟨pss, -, hnd, -, N, -, -, hc, hrow⟩ := hd.table
  have hnd' : (((c.first, c.sweep) :: c.cols).map Prod.fst).Nodup := by
    rw [List.map_cons, ← hc]
    exact hnd
  have key : ∀ n l, (n, l) ∈ (c.first, c.sweep) :: c.cols → l.length = N := by
    intro n l hm
    have : n ∈ columns pss := by
      rw [hc]
      exact List.mem_map_of_mem (f := Prod.fst) hm
    unfold columns at this
    obtain ⟨x, hx, rfl⟩ := List.mem_map.1 this
    obtain ⟨ps, hps, hx⟩ := List.mem_flatten.1 hx
    obtain ⟨i, hi, e1⟩ := List.getElem_of_mem hps
    obtain ⟨k, hk, e2⟩ := List.getElem_of_mem hx
    obtain ⟨l', h1, h2, -⟩ := hrow i k ps x.1 x.2 (by rw [List.getElem?_eq_getElem hi, e1])
      (by rw [List.getElem?_eq_getElem hk, e2])
    have e := (mem_iff_lookup hnd' _ _).1 hm
    rw [(mem_iff_lookup hnd' _ _).1 h1] at e
    cases e
    exact h2
  rw [key n l (List.mem_cons_of_mem _ h), key c.first c.sweep (List.mem_cons_self ..)]

/-- A block of the file and what comes out of it; the third component are the names of its variables. -/
structure IsTreated (env : Env β α) (S : Steps β α) (x : Sheet × Content α × List String) (t : Treated β α) : Prop where
  name : t.name = x.1.name
  comments : t.comments = x.1.comments
  blk : ∃ D, Gives env S x.1.titles x.2.1 (Comments.properties x.1.comments) x.2.2
    (namesOf S.ofProp x.2.2 x.2.1.settings (Comments.properties x.1.comments))
    (colsOf S.ofProp x.2.2 x.2.1.settings (Comments.properties x.1.comments)) D t.blk

/-- C85: an MDIF file with all steps of the reader: every block becomes a block with the sweep and the partial sweeps of the
file, with units that belong to their names; complete collections of columns `S[1,1]`, ... and `V[1]`, ... become matrices
and vectors, and so do columns `S11`, ...; all other columns, attributes, and comments with values become variables, and
there is nothing else. -/
theorem C85_read (env : Env β α) (num : Num α) (S : Steps β α) (htab : S.table.Perm trtable)
    (hcast : ∀ c c' : Arr β α, c.nd = c'.nd → S.cast c = S.cast c') (lines : List (List Char))
    (scs : List (Sheet × Content α × List String)) (rest : List Tok)
    (said : List.Forall₂ Says (lines.filter nonblank) (scs.flatMap (fun x => x.1.toks) ++ rest)) (hr : Cut rest)
    (hne : scs ≠ []) (hd : ∀ x ∈ scs, Describes num x.1 x.2.1) (hs : ∀ x ∈ scs, Separate x.2.1)
    (hreg : ∀ x ∈ scs, Regular S x.1 x.2.1 x.2.2) (hway : ∀ x ∈ scs, OneWay env S x.1 x.2.1 x.2.2) :
    ∃ ts, treatAll env num S false lines = .ok ts ∧ List.Forall₂ (IsTreated env S) scs ts := by
  have e : tokenize lines = (scs.map Prod.fst).flatMap Sheet.toks ++ rest := by
    rw [tokenize_says said, List.flatMap_map]
  have g : groupBlocks false (tokenize lines) = (scs.map fun x => x.1.raw, none) := by
    rw [e, C63_blocks false _ rest hr]
    simp [atEnd, Function.comp_def]
  have hall : ∃ ps ts, (scs.map fun x => x.1.raw).mapM (parseBlock env num) = .ok ps ∧ ps.length = scs.length ∧
      ((scs.map fun x => x.1.raw).zip ps).mapM (treatOne env S) = .ok ts ∧
      List.Forall₂ (IsTreated env S) scs ts := by
    clear said hne e g
    induction scs with
    | nil => exact ⟨[], [], rfl, rfl, rfl, .nil⟩
    | cons x scs ih =>
      obtain ⟨ps, ts, i1, i2, i3, i4⟩ := ih (fun y hy => hd y (List.mem_cons_of_mem _ hy)) (fun y hy => hs y (List.mem_cons_of_mem _ hy))
        (fun y hy => hreg y (List.mem_cons_of_mem _ hy)) (fun y hy => hway y (List.mem_cons_of_mem _ hy))
      have hx : x ∈ x :: scs := List.mem_cons_self ..
      obtain ⟨p, p1, p2, p3⟩ := block_exact env num x.1 x.2.1 (hd x hx) (hs x hx)
      obtain ⟨u, D, u1, u2⟩ := block_steps env S htab hcast x.1 x.2.1 p p2 p3 (hs x hx) (columns_length (hd x hx)) x.2.2
        (hreg x hx) (hway x hx)
      refine ⟨p :: ps, ⟨p.name, u, p.comments⟩ :: ts, ?_, by simp [i2], ?_, .cons ⟨p2.name, p2.comments, D, u2⟩ i4⟩
      · rw [List.map_cons, List.mapM_cons, p1, i1]
        rfl
      · rw [List.map_cons, List.zip_cons_cons, List.mapM_cons, i3]
        have : treatOne env S (x.1.raw, p) = .ok ⟨p.name, u, p.comments⟩ := by
          unfold treatOne
          rw [show (x.1.raw, p).1.header.flatten = x.1.titles from rfl, u1]
        rw [this]
        rfl
  obtain ⟨ps, ts, h1, h2, h3, h4⟩ := hall
  refine ⟨ts, ?_, h4⟩
  have hps : ps.isEmpty = false := by
    cases ps with
    | nil =>
      cases scs with
      | nil => exact absurd rfl hne
      | cons _ _ => simp at h2
    | cons _ _ => rfl
  have hread : read env num false lines = .ok ps := by
    unfold read
    simp only [g, h1, hps]
    rfl
  unfold treatAll
  rw [hread, g]
  exact h3

/-- C85: for a file with elements in brackets the axes of the matrices are no dimensions of the block, unless the file has
columns or settings of this name: `db.i` and `db.j` are unknown although there is a variable that has them. -/
theorem C85_axes_refuted (env : Env β α) (S : Steps β α) (titles : List (List Char)) (c : Content α) (props : List (String × PVal))
    (vs names cols : List String) (D : Dim β) (u : UBlock β α) (h : Gives env S titles c props vs names cols D u)
    (n : List Char) (p q : Nat) (hm : IsMat titles n p q) (hno : ∀ v I J, ¬ Complete cols v I J)
    (hi : "i" ∉ c.settings.map (canon names) ∧ "j" ∉ c.settings.map (canon names)) :
    ∃ a di dj, lookup u.blk.vars (canon names (String.ofList n)) = some a ∧ di ∈ a.dims ∧ dj ∈ a.dims ∧ di.name = "i" ∧ dj.name = "j" ∧
      lookup u.blk.ivars "i" = none ∧ lookup u.blk.ivars "j" = none := by
  obtain ⟨a, di, dj, h1, -, h3, h4, h5, -⟩ := h.matrix n p q hm
  have key : ∀ x, x ∉ c.settings.map (canon names) → lookup u.blk.ivars x = none := by
    intro x hx
    rw [lookup_none]
    intro hk
    rcases h.noDims x hk with h' | ⟨⟨v, I, J, h'⟩, -⟩
    · exact hx h'
    · exact hno v I J h'
  exact ⟨a, di, dj, h1, by rw [h3.dims]; simp, by rw [h3.dims]; simp, h4, h5, key _ hi.1, key _ hi.2⟩

end HF.Mdif
