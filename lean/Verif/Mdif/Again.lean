import Verif.Mdif.SavedText
import Verif.Readers.Elements
import Verif.DataBlock.ConvertProps
/-
C85: saving a block as an MDIF file and reading it with all steps of the reader.
-/
namespace HF.Mdif

open HF.DataDict.Spec HF.DataBlock
open HF.DataDict hiding rename delitem
open HF.Readers.FixUnit (UBlock)
open HF.Readers HF.Readers.Treat
open HF.Readers.Assemble (Complete CompleteF elemNm elemNmF IsBase digit MatsOf complete_iff elemNmF_inj base_ne_elemF)
open HF.Readers.Normalize (trtable Label label)
open HF.Comments (PVal)

variable {β α : Type} [DecidableEq β]

/-! ### Specification -/

/-- The column of the matrix `w` at a position of the sweeps but the first. -/
def ColumnAt (d : Dim β) (w : String × Arr β α) (p q : Nat) (idx : List Nat) (a : Arr β α) : Prop :=
  a.nd.shape = [d.data.length] ∧ ∃ i < p, ∃ j < q, ∀ r < d.data.length, a.nd.get [r] = w.2.nd.get (r :: idx ++ [i, j])

/-- Blocks that come back: a variable that is no matrix is not called like an element; a matrix has the first sweep, a
name of letters, at most nine rows and columns and more than one element, and its columns have one type.  No step
changes the names. -/
structure Returns (S : Steps β α) (d : Dim β) (ds : List (Dim β)) (b b1 : Block β α) : Prop where
  plain : ∀ w ∈ b.vars, ismatrix w.2 = false → ∀ v i j, IsBase v → i < 10 → j < 10 → w.1 ≠ elemNm v i j
  matrix : ∀ w ∈ b.vars, ∀ D di dj sh p q, MatVar w D di dj sh p q →
    D = d :: ds ∧ sh = (d :: ds).map (fun x => x.data.length) ∧ IsBase w.1 ∧ p ≤ 9 ∧ q ≤ 9 ∧ 1 < p * q
  type : ∀ w ∈ b.vars, ∀ D di dj sh p q, MatVar w D di dj sh p q → ∀ idx a a', ColumnAt d w p q idx a → ColumnAt d w p q idx a' →
    ∀ r < d.data.length, S.cast a (a'.nd.get [r]) = a'.nd.get [r]
  title : ∀ k ∈ b1.vars.map Prod.fst ++ (d :: ds).map Dim.name, FixUnit.title k = none
  table : ∀ e ∈ trtable, e.1 ∉ b1.vars.map Prod.fst ++ (d :: ds).map Dim.name
  brackets : ∀ k ∈ b1.vars.map Prod.fst ++ (d :: ds).map Dim.name, '[' ∉ k.toList
  created : "Created" ∉ b1.vars.map Prod.fst ++ b.vars.map Prod.fst ++ (d :: ds).map Dim.name

/-- What comes back at a position: the first sweep and the coordinates of the others as partial sweeps; matrices, columns
and attributes with their values at the position; the time of saving `cr`; nothing else. -/
structure ComesBack (env : Env β α) (S : Steps β α) (d : Dim β) (ds : List (Dim β)) (b : Block β α) (cr : Option PVal)
    (idx : List Nat) (D : Dim β) (u : UBlock β α) : Prop where
  sweep : lookup u.blk.ivars d.name = some D ∧
    label D = ⟨d.name, .dimSweep, d.data.map fun c => env.toCoord (env.toVal c), S.guess d.name⟩
  settings : ∀ (k : Nat) x i c, ds[k]? = some x → idx[k]? = some i → x.data[i]? = some c →
    ∃ e, lookup u.blk.ivars x.name = some e ∧ label e = ⟨x.name, .dimPartial, [env.toCoord (env.toVal c)], S.guess x.name⟩
  matrix : ∀ w ∈ b.vars, ∀ di dj sh p q, MatVar w (d :: ds) di dj sh p q → ∃ a di' dj', lookup u.blk.vars w.1 = some a ∧
    u.units w.1 = none ∧ MatStack a [D] di' dj' [d.data.length] p q ∧ di'.name = "i" ∧ dj'.name = "j" ∧
    ∀ r < d.data.length, ∀ i < p, ∀ j < q, a.nd.get [r, i, j] = w.2.nd.get (r :: idx ++ [i, j])
  column : ∀ w ∈ b.vars, ismatrix w.2 = false → w.2.dims = d :: ds → ∃ a, lookup u.blk.vars w.1 = some a ∧
    u.units w.1 = S.guess w.1 ∧ a.dims = [D] ∧ a.nd.shape = [d.data.length] ∧
    ∀ r < d.data.length, a.nd.get [r] = w.2.nd.get (r :: idx)
  attrib : ∀ w ∈ b.vars, ismatrix w.2 = false → w.2.dims = ds → ∃ a, lookup u.blk.vars w.1 = some a ∧
    u.units w.1 = S.guess w.1 ∧ IsScalar (w.2.nd.get idx) a
  created : ∀ v x, cr = some v → S.ofProp v = some x → ∃ a, lookup u.blk.vars "Created" = some a ∧ IsScalar x a ∧
    u.units "Created" = (unitOfProp v).or (S.guess "Created")
  nothing : ∀ n ∈ keys u.blk.vars, n ∈ keys b.vars ∨ n = "Created" ∧ ∃ v x, cr = some v ∧ S.ofProp v = some x
  noDims : ∀ n ∈ keys u.blk.ivars, n ∈ (d :: ds).map Dim.name ∨ (∃ w ∈ b.vars, ismatrix w.2 = true) ∧ (n = "i" ∨ n = "j")

/-! ### Proof -/

theorem canon_quiet' {names : List String} (h : ∀ e ∈ trtable, e.1 ∉ names) {ns : List String} {k : String} (hk : k ∈ names) :
    canon ns k = k := by
  unfold canon
  split
  · rename_i e he
    have h1 := List.mem_of_find?_eq_some he
    have h2 := List.find?_some he
    simp only [decide_eq_true_eq] at h2
    exact absurd (h2 ▸ hk) (h e h1)
  · rfl

theorem element_nm (n : String) {i j : Nat} (hi : i < 9) (hj : j < 9) : elementName n (i + 1) (j + 1) = elemNm n (i + 1) (j + 1) := by
  have hd : ∀ k, k < 10 → dec k = [digit k] := by
    intro k hk
    rw [dec, if_pos hk]
    rfl
  unfold elementName
  rw [hd _ (by omega), hd _ (by omega)]
  simp [elemNm, elemNmF]

/-- The matrices of a block with the numbers of rows and columns. -/
def matsOf (b : Block β α) : List (String × Nat × Nat) :=
  (b.vars.filter fun w => ismatrix w.2).map fun w =>
    match w.2.nd.shape.reverse with
    | q :: p :: _ => (w.1, p, q)
    | _ => (w.1, 0, 0)

omit [DecidableEq β] in
theorem mem_matsOf {b : Block β α} (hb : Convertible b) (m : String × Nat × Nat) : m ∈ matsOf b ↔
    ∃ w ∈ b.vars, ∃ D di dj sh p q, MatVar w D di dj sh p q ∧ m = (w.1, p, q) := by
  unfold matsOf
  rw [List.mem_map]
  constructor
  · rintro ⟨w, hw, rfl⟩
    obtain ⟨h1, h2⟩ := List.mem_filter.1 hw
    obtain ⟨D, di, dj, sh, p, q, hm, -⟩ := hb.mats w h1 h2
    refine ⟨w, h1, D, di, dj, sh, p, q, hm, ?_⟩
    rw [hm.shape]
    simp
  · rintro ⟨w, hw, D, di, dj, sh, p, q, hm, rfl⟩
    refine ⟨w, List.mem_filter.2 ⟨hw, hm.toMatStack.ismatrix⟩, ?_⟩
    rw [hm.shape]
    simp

omit [DecidableEq β] in
theorem matsOf_nodup {b : Block β α} (hb : Convertible b) : ((matsOf b).map Prod.fst).Nodup := by
  have : (matsOf b).map Prod.fst = (b.vars.filter fun w => ismatrix w.2).map Prod.fst := by
    unfold matsOf
    rw [List.map_map]
    refine List.map_congr_left fun w _ => ?_
    simp only [Function.comp_apply]
    split <;> rfl
  rw [this]
  exact hb.nodup.sublist (List.filter_sublist.map _)

theorem no_pairs {titles : List (List Char)} (h : ∀ w ∈ titles, '[' ∉ w) (n : List Char) : pairsOf titles n = [] ∧ indsOf titles n = [] := by
  have key : ∀ w ∈ titles, ∀ m i t, parseHead w = some (m, i, t) → i = .scalar := by
    intro w hw m i t hp
    obtain ⟨-, -, r, hl, e⟩ := (C23_head w m t i).1 hp
    cases i with
    | scalar => rfl
    | vec k =>
      obtain ⟨a, -, e'⟩ := hl
      exact absurd (by rw [e, e']; simp) (h w hw)
    | mat k l =>
      obtain ⟨a, b, -, -, e'⟩ := hl
      exact absurd (by rw [e, e']; simp) (h w hw)
  constructor
  · unfold pairsOf
    rw [List.filterMap_eq_nil_iff]
    intro w hw
    split
    · rename_i hp
      cases key w hw _ _ _ hp
    · rfl
  · unfold indsOf
    rw [List.filterMap_eq_nil_iff]
    intro w hw
    split
    · rename_i hp
      cases key w hw _ _ _ hp
    · rfl

/-- C85: a block is saved and read with all steps of the reader: there is one block for each position of the sweeps but the
first, with every variable under its name, matrices as matrices, with its values at the position; units are those that
belong to the names. -/
theorem C85_roundtrip (env : Env β α) (pr : Printer α β) (num : Num α) (S : Steps β α) (htab : S.table.Perm trtable)
    (hcast : ∀ c c' : Arr β α, c.nd = c'.nd → S.cast c = S.cast c') (en : Enum (List (Dim β))) (time : List Char)
    (b b1 : Block β α) (hb : Convertible b) (hc : convert env b = .ok b1) (d : Dim β) (ds : List (Dim β))
    (hs : Savable env pr num d ds b1.vars) (hr : Returns S d ds b b1) :
    ∃ lines, save env pr en time b = (lines, none) ∧ ∃ ts, treatAll env num S false lines = .ok ts ∧
      ts.length = (positions (ds.map fun x => x.data.length)).length ∧
      ∀ (k : Nat) t, ts[k]? = some t → ∃ idx D, (positions (ds.map fun x => x.data.length))[k]? = some idx ∧
        t.name = "DATABLOCK".toList ∧
        ComesBack env S d ds b (if k = 0 then createdAt time else none) idx D t.blk := by
  obtain ⟨lines, xs, h1, h2, h3, h4, h5⟩ := saved_parts env pr num en time b b1 hc d ds hs
  obtain ⟨b1', c1, c2, c3, c4, c5⟩ := C14_convert env b hb
  rw [hc] at c1
  cases c1
  -- names
  have hcat : ∀ idx cs n, n ∈ ((contentAt env d ds b1.vars idx cs).names.map String.ofList) ↔ n ∈ b1.vars.map Prod.fst := by
    intro idx cs n
    rw [contentAt_names, List.map_map]
    have : (String.ofList ∘ String.toList) = id := by funext s; simp
    rw [this, List.map_id, List.mem_append]
    constructor
    · rintro (h | h)
      · obtain ⟨v, hv, rfl⟩ := List.mem_map.1 h
        exact List.mem_map_of_mem (List.mem_filter.1 hv).1
      · obtain ⟨v, hv, rfl⟩ := List.mem_map.1 h
        exact List.mem_map_of_mem (List.mem_filter.1 hv).1
    · intro h
      obtain ⟨v, hv, rfl⟩ := List.mem_map.1 h
      rcases hs.dims v hv with e | e
      · exact Or.inl (List.mem_map_of_mem (List.mem_filter.2 ⟨hv, by simpa using e⟩))
      · exact Or.inr (List.mem_map_of_mem (List.mem_filter.2 ⟨hv, by simpa using e⟩))
  have hset : ∀ idx cs, Picks ds idx cs → (contentAt env d ds b1.vars idx cs).settings = (d :: ds).map Dim.name := by
    intro idx cs hp
    unfold Content.settings
    have hne : (contentAt env d ds b1.vars idx cs).cols ≠ [] := by
      obtain ⟨v, hv, hd⟩ := hs.column
      simp only [contentAt, ne_eq, List.map_eq_nil_iff]
      exact List.ne_nil_of_mem (List.mem_filter.2 ⟨hv, by simpa using hd⟩)
    rw [if_neg hne]
    show ([d.name.toList] ++ (settingsOf env ds cs).map Prod.fst).map String.ofList = _
    rw [settingsOf_names env hp]
    simp [Function.comp_def]
  have hcolm : ∀ idx cs n l, (n, l) ∈ (contentAt env d ds b1.vars idx cs).cols ↔ ∃ v ∈ b1.vars, v.2.dims = d :: ds ∧
      n = v.1.toList ∧ l = (List.range d.data.length).map fun r => v.2.nd.get (r :: idx) := by
    intro idx cs n l
    simp only [contentAt, List.mem_map, List.mem_filter, decide_eq_true_eq, colAt]
    constructor
    · rintro ⟨_, ⟨v, ⟨hv, hd⟩, rfl⟩, e⟩
      cases e
      exact ⟨v, hv, hd, rfl, rfl⟩
    · rintro ⟨v, hv, hd, rfl, rfl⟩
      exact ⟨_, ⟨v, ⟨hv, hd⟩, rfl⟩, rfl⟩
  -- the properties
  have hprops : ∀ (k : Nat) x, xs[k]? = some x → Comments.properties x.2.2.comments =
      match (if k = 0 then createdAt time else none) with
      | none => []
      | some v => [("Created", v)] := by
    intro k x hk
    rw [(h5 k x hk).comments]
    split
    · exact created_property time
    · rfl
  have hpn : ∀ (k : Nat) x, xs[k]? = some x → ∀ p ∈ Comments.properties x.2.2.comments, p.1 = "Created" ∧
      (if k = 0 then createdAt time else none) = some p.2 := by
    intro k x hk p hp
    rw [hprops k x hk] at hp
    split at hp
    · cases hp
    · rename_i v hv
      rw [List.mem_singleton.1 hp]
      exact ⟨rfl, hv⟩
  -- names that no step changes
  have hquiet : ∀ e ∈ trtable, e.1 ∉ b1.vars.map Prod.fst ++ (d :: ds).map Dim.name ++ ["Created"] := by
    intro e he hm
    rcases List.mem_append.1 hm with h | h
    · exact hr.table e he h
    · revert h
      have : ∀ e ∈ trtable, e.1 ∉ ["Created"] := by decide +kernel
      exact this e he
  have hcan : ∀ ns k, k ∈ b1.vars.map Prod.fst ++ (d :: ds).map Dim.name ++ ["Created"] → canon ns k = k :=
    fun ns k hk => canon_quiet' hquiet hk
  -- the names in a part
  obtain ⟨V, hV⟩ : ∃ V : List Nat × List β × Sheet → List String,
      V = fun x => (contentAt env d ds b1.vars x.1 x.2.1).names.map String.ofList := ⟨_, rfl⟩
  have hgiven : ∀ (k : Nat) x, xs[k]? = some x → ∀ p ∈ givenOf S.ofProp (V x ++ (d :: ds).map Dim.name)
      (Comments.properties x.2.2.comments), p.1 = "Created" ∧ ∃ y, (if k = 0 then createdAt time else none) = some p.2 ∧
        S.ofProp p.2 = some y := by
    intro k x hk p hp
    obtain ⟨p1, p2⟩ := List.mem_filter.1 hp
    simp only [Bool.and_eq_true] at p2
    obtain ⟨q1, q2⟩ := hpn k x hk p p1
    obtain ⟨y, hy⟩ := Option.isSome_iff_exists.1 p2.2
    exact ⟨q1, y, q2, hy⟩
  have hnames : ∀ (k : Nat) x, xs[k]? = some x → ∀ n ∈ namesOf S.ofProp (V x) ((d :: ds).map Dim.name)
      (Comments.properties x.2.2.comments), n ∈ b1.vars.map Prod.fst ++ (d :: ds).map Dim.name ++ ["Created"] := by
    intro k x hk n hn
    unfold namesOf at hn
    rcases List.mem_append.1 hn with hn | hn
    · rcases List.mem_append.1 hn with hn | hn
      · rw [hV] at hn
        exact List.mem_append_left _ (List.mem_append_left _ ((hcat _ _ n).1 hn))
      · obtain ⟨p, hp, rfl⟩ := List.mem_map.1 hn
        rw [(hgiven k x hk p hp).1]
        simp
    · exact List.mem_append_left _ (List.mem_append_right _ hn)
  have hcols : ∀ (k : Nat) x, xs[k]? = some x → ∀ n, n ∈ colsOf S.ofProp (V x) ((d :: ds).map Dim.name)
      (Comments.properties x.2.2.comments) ↔ n ∈ b1.vars.map Prod.fst ∨
        n ∈ (givenOf S.ofProp (V x ++ (d :: ds).map Dim.name) (Comments.properties x.2.2.comments)).map Prod.fst := by
    intro k x hk n
    unfold colsOf
    have : (V x ++ (givenOf S.ofProp (V x ++ (d :: ds).map Dim.name) (Comments.properties x.2.2.comments)).map Prod.fst).map
        (canon (namesOf S.ofProp (V x) ((d :: ds).map Dim.name) (Comments.properties x.2.2.comments))) =
        V x ++ (givenOf S.ofProp (V x ++ (d :: ds).map Dim.name) (Comments.properties x.2.2.comments)).map Prod.fst := by
      conv_rhs => rw [← List.map_id (V x ++ _)]
      refine List.map_congr_left fun a ha => ?_
      refine hcan _ a (hnames k x hk a ?_)
      unfold namesOf
      exact List.mem_append_left _ ha
    rw [this, List.mem_append, hV]
    simp only [hcat]
  -- elements of matrices
  have hel : ∀ w ∈ b.vars, ∀ D di dj sh p q, MatVar w D di dj sh p q → ∀ i < p, ∀ j < q, ∃ a,
      lookup b1.vars (elemNm w.1 (i + 1) (j + 1)) = some a ∧ a.dims = d :: ds ∧
      ∀ idx, Nd.Valid sh idx → a.nd.get idx = w.2.nd.get (idx ++ [i, j]) := by
    intro w hw D di dj sh p q hm i hi j hj
    obtain ⟨g1, -, -, g2, g3, -⟩ := hr.matrix w hw D di dj sh p q hm
    obtain ⟨a, a1, a2, -, a4⟩ := c4 w hw D di dj sh p q hm i hi j hj
    rw [element_nm w.1 (by omega) (by omega)] at a1
    exact ⟨a, a1, by rw [a2, g1], a4⟩
  have helname : ∀ n ∈ b1.vars.map Prod.fst, (∃ w ∈ b.vars, ismatrix w.2 = false ∧ w.1 = n) ∨
      ∃ w ∈ b.vars, ∃ D di dj sh p q, MatVar w D di dj sh p q ∧ ∃ i < p, ∃ j < q, elemNm w.1 (i + 1) (j + 1) = n := by
    intro n hn
    rcases c5 n hn with h | ⟨w, hw, D, di, dj, sh, p, q, hm, i, hi, j, hj, rfl⟩
    · exact Or.inl h
    · obtain ⟨-, -, -, g2, g3, -⟩ := hr.matrix w hw D di dj sh p q hm
      exact Or.inr ⟨w, hw, D, di, dj, sh, p, q, hm, i, hi, j, hj, (element_nm w.1 (by omega) (by omega)).symm⟩
  have hcreated : ∀ v i j, i < 10 → j < 10 → "Created" ≠ elemNm v i j := by
    intro v i j hi hj
    exact base_ne_elemF (f := .digits) (by
      have : IsBase "Created" := ⟨by decide, by decide +kernel⟩
      exact this) hi
  have hmats : ∀ (k : Nat) x, xs[k]? = some x → MatsOf (colsOf S.ofProp (V x) ((d :: ds).map Dim.name)
      (Comments.properties x.2.2.comments)) (matsOf b) := by
    intro k x hk
    refine ⟨matsOf_nodup hb, ?_, ?_⟩
    · intro m hm
      obtain ⟨w, hw, D, di, dj, sh, p, q, hmv, rfl⟩ := (mem_matsOf hb m).1 hm
      obtain ⟨-, -, g1, g2, g3, g4⟩ := hr.matrix w hw D di dj sh p q hmv
      exact ⟨g1, g2, g3, g4⟩
    · intro v i j hv hi hj
      rw [hcols k x hk]
      constructor
      · rintro (h | h)
        · rcases helname _ h with ⟨w, hw, hf, e⟩ | ⟨w, hw, D, di, dj, sh, p, q, hmv, i', hi', j', hj', e⟩
          · exact absurd e (hr.plain w hw hf v i j hv hi hj)
          · obtain ⟨-, -, g1, g2, g3, -⟩ := hr.matrix w hw D di dj sh p q hmv
            obtain ⟨rfl, rfl, rfl⟩ := elemNmF_inj (f := .digits) g1 (by omega) (by omega) hv hi hj e
            refine ⟨(w.1, p, q), (mem_matsOf hb _).2 ⟨w, hw, D, di, dj, sh, p, q, hmv, rfl⟩, rfl, ?_, ?_⟩
            · rw [List.mem_range'_1]; simp only; omega
            · rw [List.mem_range'_1]; simp only; omega
        · obtain ⟨p, hp, e⟩ := List.mem_map.1 h
          rw [(hgiven k x hk p hp).1] at e
          exact absurd e (hcreated v i j hi hj)
      · rintro ⟨m, hm, rfl, h6, h7⟩
        obtain ⟨w, hw, D, di, dj, sh, p, q, hmv, rfl⟩ := (mem_matsOf hb m).1 hm
        rw [List.mem_range'_1] at h6 h7
        simp only at h6 h7
        obtain ⟨a, a1, -⟩ := hel w hw D di dj sh p q hmv (i - 1) (by omega) (j - 1) (by omega)
        rw [Nat.sub_add_cancel h6.1, Nat.sub_add_cancel h7.1] at a1
        exact Or.inl (lookup_key a1)
  have hcomp : ∀ (k : Nat) x, xs[k]? = some x → ∀ v I J, Complete (colsOf S.ofProp (V x) ((d :: ds).map Dim.name)
      (Comments.properties x.2.2.comments)) v I J ↔ ∃ w ∈ b.vars, w.1 = v ∧ ∃ D di dj sh p q, MatVar w D di dj sh p q ∧
        I = List.range' 1 p ∧ J = List.range' 1 q := by
    intro k x hk v I J
    rw [complete_iff (hmats k x hk)]
    constructor
    · rintro ⟨m, hm, rfl, rfl, rfl⟩
      obtain ⟨w, hw, D, di, dj, sh, p, q, hmv, rfl⟩ := (mem_matsOf hb m).1 hm
      exact ⟨w, hw, rfl, D, di, dj, sh, p, q, hmv, rfl, rfl⟩
    · rintro ⟨w, hw, rfl, D, di, dj, sh, p, q, hmv, rfl, rfl⟩
      exact ⟨(w.1, p, q), (mem_matsOf hb _).2 ⟨w, hw, D, di, dj, sh, p, q, hmv, rfl⟩, rfl, rfl, rfl⟩
  have hnot : ∀ x ∈ xs, ∀ n, pairsOf x.2.2.titles n = [] ∧ indsOf x.2.2.titles n = [] := by
    intro x hx n
    obtain ⟨k, hk⟩ := List.getElem?_of_mem hx
    refine no_pairs ?_ n
    intro w hw
    unfold Sheet.titles at hw
    obtain ⟨l, hl, hw⟩ := List.mem_flatten.1 hw
    obtain ⟨text, ht, rfl⟩ := List.mem_map.1 hl
    obtain ⟨n, hn, t, h6, rfl⟩ := (h5 k x hk).titles text ht w hw
    intro hm
    rcases List.mem_append.1 hm with hm | hm
    · refine hr.brackets n ?_ hm
      rcases List.mem_cons.1 hn with rfl | hn
      · exact List.mem_append_right _ (by simp)
      · exact List.mem_append_left _ hn
    · exact h6 hm
  have hnomat : ∀ x ∈ xs, NoBrackets x.2.2.titles := by
    intro x hx
    constructor
    · intro n p q h
      have := (h.2.2 1 1).2 ⟨⟨Nat.le_refl 1, h.1⟩, Nat.le_refl 1, h.2.1⟩
      rw [(hnot x hx n).1] at this
      cases this
    · intro n k h
      have := (h.2.mem_iff (a := 1)).2 (by rw [List.mem_range'_1]; have := h.1; omega)
      rw [(hnot x hx n).2] at this
      cases this
  have htouch : ∀ x ∈ xs, ∀ n, ¬ Touched x.2.2.titles n := by
    rintro x hx n (⟨k, p, q, h, -⟩ | ⟨k, q, h, -⟩)
    · exact (hnomat x hx).1 _ _ _ h
    · exact (hnomat x hx).2 _ _ h
  have hsep : ∀ (k : Nat) x, xs[k]? = some x → Separate (contentAt env d ds b1.vars x.1 x.2.1) :=
    fun k x hk => separate_at env pr num hs (h5 k x hk).picks
  have hnd1 : ∀ (k : Nat) x, xs[k]? = some x → (V x ++ (d :: ds).map Dim.name).Nodup := by
    intro k x hk
    rw [List.nodup_append]
    refine ⟨?_, hs.nodupDims, ?_⟩
    · rw [hV]
      exact (hsep k x hk).nodup.map fun _ _ e => ofList_inj e
    · intro a ha c hc e
      subst e
      rw [hV] at ha
      obtain ⟨v, hv, rfl⟩ := List.mem_map.1 ((hcat _ _ a).1 ha)
      exact hs.disjoint v hv hc
  -- the steps
  obtain ⟨ts, r1, r2⟩ := C85_read env num S htab hcast lines
    (xs.map fun x => (x.2.2, contentAt env d ds b1.vars x.1 x.2.1, V x)) [] (by rw [List.flatMap_map]; exact h2) cut_nil
    (by simpa using h3)
    (by
      intro y hy
      obtain ⟨x, hx, rfl⟩ := List.mem_map.1 hy
      obtain ⟨k, hk⟩ := List.getElem?_of_mem hx
      exact (h5 k x hk).describes)
    (by
      intro y hy
      obtain ⟨x, hx, rfl⟩ := List.mem_map.1 hy
      obtain ⟨k, hk⟩ := List.getElem?_of_mem hx
      exact hsep k x hk)
    (by
      intro y hy
      obtain ⟨x, hx, rfl⟩ := List.mem_map.1 hy
      obtain ⟨k, hk⟩ := List.getElem?_of_mem hx
      refine ⟨?_, ⟨0, ?_, ?_, ?_, ?_⟩, ?_, ?_⟩
      · intro s
        rw [hV]
        simp only [List.mem_map]
        constructor
        · rintro ⟨n, hn, rfl⟩
          exact ⟨n, rfl, Or.inr (Or.inr ⟨hn, htouch x hx n⟩)⟩
        · rintro ⟨n, rfl, ⟨p, q, h⟩ | ⟨q, h⟩ | ⟨h, -⟩⟩
          · exact absurd h ((hnomat x hx).1 _ _ _)
          · exact absurd h ((hnomat x hx).2 _ _)
          · exact ⟨n, h, rfl⟩
      · intro n
        rw [(hnot x hx n).1]
        exact List.nodup_nil
      · intro n i j h
        rw [(hnot x hx n).1] at h
        cases h
      · intro n i h
        rw [(hnot x hx n).2] at h
        cases h
      · intro n p q k' h
        exact absurd h ((hnomat x hx).1 _ _ _)
      · show d.name.toList ∉ (settingsOf env ds x.2.1).map Prod.fst
        rw [settingsOf_names env (h5 k x hk).picks]
        intro hm
        obtain ⟨e, he, h⟩ := List.mem_map.1 hm
        have := hs.nodupDims
        rw [List.map_cons, List.nodup_cons] at this
        exact this.1 (List.mem_map.2 ⟨e, he, String.toList_inj.1 h⟩)
      · show CalmNames S.ofProp (V x) (contentAt env d ds b1.vars x.1 x.2.1).settings _
        rw [hset _ _ (h5 k x hk).picks]
        refine ⟨hnd1 k x hk, ?_, ?_, ?_, ?_⟩
        · intro n hn
          rcases List.mem_append.1 (hnames k x hk n hn) with h | h
          · exact hr.title n h
          · rw [List.mem_singleton.1 h]
            decide +kernel
        · intro n hn
          rcases List.mem_append.1 (hnames k x hk n hn) with h | h
          · exact (hs.plain n h).noPar
          · rw [List.mem_singleton.1 h]
            decide
        · intro e he e' _ h
          exact absurd (hnames k x hk _ h) (hquiet e he)
        · intro p hp m i j hm
          rw [(hpn k x hk p hp).1] at hm
          have : isMatrixName "Created" = none := by decide +kernel
          rw [this] at hm
          cases hm)
    (by
      intro y hy
      obtain ⟨x, hx, rfl⟩ := List.mem_map.1 hy
      obtain ⟨k, hk⟩ := List.getElem?_of_mem hx
      refine Or.inr ⟨hnomat x hx, ?_⟩
      show ∀ v I J, Complete (colsOf S.ofProp (V x) (contentAt env d ds b1.vars x.1 x.2.1).settings _) v I J → _
      simp only
      rw [hset _ _ (h5 k x hk).picks]
      intro v I J hcp
      obtain ⟨w, hw, rfl, D, di, dj, sh, p, q, hmv, rfl, rfl⟩ := (hcomp k x hk v I J).1 hcp
      obtain ⟨g0, g5, g1, g2, g3, -⟩ := hr.matrix w hw D di dj sh p q hmv
      have hid : ∀ a, lookup b1.vars a ≠ none → canon (namesOf S.ofProp (V x) ((d :: ds).map Dim.name)
          (Comments.properties x.2.2.comments)) a = a := by
        intro a ha
        refine hcan _ a (List.mem_append_left _ (List.mem_append_left _ ?_))
        by_contra hno
        exact ha (lookup_none.2 hno)
      have hcan1 : ∀ v ∈ b1.vars, canon (namesOf S.ofProp (V x) ((d :: ds).map Dim.name)
          (Comments.properties x.2.2.comments)) (String.ofList v.1.toList) = v.1 := by
        intro v hv
        rw [String.ofList_toList]
        exact hcan _ _ (List.mem_append_left _ (List.mem_append_left _ (List.mem_map_of_mem hv)))
      have hvalid : ∀ r < d.data.length, Nd.Valid sh (r :: x.1) := by
        intro r hr'
        rw [g5, List.map_cons]
        exact ⟨hr', (h5 k x hk).picks.valid⟩
      have hcolat : ∀ i ∈ List.range' 1 p, ∀ j ∈ List.range' 1 q, ∀ n l, (n, l) ∈ (contentAt env d ds b1.vars x.1 x.2.1).cols →
          canon (namesOf S.ofProp (V x) ((d :: ds).map Dim.name) (Comments.properties x.2.2.comments)) (String.ofList n) =
            elemNm w.1 i j → l = (List.range d.data.length).map fun r => w.2.nd.get (r :: x.1 ++ [i - 1, j - 1]) := by
        intro i hi j hj n l hn e
        rw [List.mem_range'_1] at hi hj
        obtain ⟨v, hv, hvd, rfl, rfl⟩ := (hcolm _ _ n l).1 hn
        rw [hcan1 v hv] at e
        obtain ⟨a, a1, -, a3⟩ := hel w hw D di dj sh p q hmv (i - 1) (by omega) (j - 1) (by omega)
        rw [Nat.sub_add_cancel hi.1, Nat.sub_add_cancel hj.1, ← e] at a1
        have := mem_lookup c2 hv
        rw [this] at a1
        cases a1
        refine List.map_congr_left fun r hr' => ?_
        exact a3 _ (hvalid r (List.mem_range.1 hr'))
      refine ⟨⟨?_, ?_, ?_⟩, ?_, ?_⟩
      · intro hm
        have : (contentAt env d ds b1.vars x.1 x.2.1).settings = (d :: ds).map Dim.name := hset _ _ (h5 k x hk).picks
        rw [this] at hm
        obtain ⟨a, ha, e⟩ := List.mem_map.1 hm
        rw [hcan _ a (List.mem_append_left _ (List.mem_append_right _ ha))] at e
        obtain ⟨z, hz, hz'⟩ := List.mem_map.1 ha
        refine (hb.dims w hw w hw z ?_).1 (hz'.trans e)
        rw [hmv.dims, g0]
        exact List.mem_append_left _ hz
      · intro e
        exact (hb.dims w hw w hw di (by rw [hmv.dims]; simp)).1 (hmv.nameI.trans e.symm)
      · intro e
        exact (hb.dims w hw w hw dj (by rw [hmv.dims]; simp)).1 (hmv.nameJ.trans e.symm)
      · intro i hi j hj
        rw [List.mem_range'_1] at hi hj
        obtain ⟨a, a1, a2, -⟩ := hel w hw D di dj sh p q hmv (i - 1) (by omega) (j - 1) (by omega)
        rw [Nat.sub_add_cancel hi.1, Nat.sub_add_cancel hj.1] at a1
        refine ⟨(elemNm w.1 i j).toList, _, (hcolm _ _ _ _).2 ⟨_, lookup_mem a1, a2, rfl, rfl⟩, ?_⟩
        rw [String.ofList_toList]
        exact hid _ (by rw [a1]; simp)
      · intro i hi j hj i' hi' j' hj' n l n' l' hn hn' e e' a ha y hy
        have e1 := hcolat i hi j hj n l hn e
        have e2 := hcolat i' hi' j' hj' n' l' hn' e'
        subst e1; subst e2
        obtain ⟨r, hr', rfl⟩ := List.mem_map.1 hy
        rw [List.mem_range] at hr'
        rw [List.mem_range'_1] at hi hj hi' hj'
        have hcol2 : ColumnAt d w p q x.1 (⟨[], ⟨[d.data.length], fun z =>
            match z with
            | [r] => w.2.nd.get (r :: x.1 ++ [i' - 1, j' - 1])
            | _ => env.junk⟩⟩ : Arr β α) := ⟨rfl, i' - 1, by omega, j' - 1, by omega, fun _ _ => rfl⟩
        have := hr.type w hw D di dj sh p q hmv x.1 a _ ⟨by rw [ha.2.1]; simp, i - 1, by omega, j - 1, by omega, by
          intro s hs'
          exact ha.2.2 s _ (by simp [hs'])⟩ hcol2 r hr'
        exact this)
  have hlen : ts.length = xs.length := by
    have := r2.length_eq
    simpa using this.symm
  refine ⟨lines, h1, ts, r1, ?_, ?_⟩
  · rw [hlen, ← h4, List.length_map]
  · intro k t ht
    have hk : k < xs.length := by
      rw [← hlen]
      exact (List.getElem?_eq_some_iff.1 ht).1
    obtain ⟨x, hx⟩ : ∃ x, xs[k]? = some x := ⟨_, List.getElem?_eq_getElem hk⟩
    have hxm : x ∈ xs := List.mem_of_getElem? hx
    have hT : IsTreated env S (x.2.2, contentAt env d ds b1.vars x.1 x.2.1, V x) t := by
      rw [List.forall₂_map_left_iff] at r2
      have := List.forall₂_iff_get.1 r2
      have hkt : k < ts.length := by omega
      have h6 := this.2 k hk hkt
      rw [List.getElem?_eq_getElem hk] at hx
      rw [List.getElem?_eq_getElem hkt] at ht
      cases hx
      cases ht
      exact h6
    obtain ⟨t1, -, D, hg⟩ := hT
    simp only at t1 hg
    rw [hset _ _ (h5 k x hx).picks] at hg
    have hcan1 : ∀ a ∈ b1.vars.map Prod.fst, canon (namesOf S.ofProp (V x) ((d :: ds).map Dim.name)
        (Comments.properties x.2.2.comments)) (String.ofList a.toList) = a := by
      intro a ha
      rw [String.ofList_toList]
      exact hcan _ _ (List.mem_append_left _ (List.mem_append_left _ ha))
    have hcand : ∀ a ∈ (d :: ds).map Dim.name, canon (namesOf S.ofProp (V x) ((d :: ds).map Dim.name)
        (Comments.properties x.2.2.comments)) (String.ofList a.toList) = a := by
      intro a ha
      rw [String.ofList_toList]
      exact hcan _ _ (List.mem_append_left _ (List.mem_append_right _ ha))
    have hC := hcomp k x hx
    have hvalid : ∀ r < d.data.length, Nd.Valid ((d :: ds).map fun x => x.data.length) (r :: x.1) := by
      intro r hr'
      rw [List.map_cons]
      exact ⟨hr', (h5 k x hx).picks.valid⟩
    have hfree : ∀ w ∈ b.vars, ismatrix w.2 = false → ∀ v I J, Complete (colsOf S.ofProp (V x) ((d :: ds).map Dim.name)
        (Comments.properties x.2.2.comments)) v I J → w.1 ≠ v ∧ ∀ i ∈ I, ∀ j ∈ J, w.1 ≠ elemNm v i j := by
      intro w hw hf v I J hcp
      obtain ⟨w', hw', rfl, D', di, dj, sh, p, q, hmv, rfl, rfl⟩ := (hC v I J).1 hcp
      obtain ⟨-, -, g1, g2, g3, -⟩ := hr.matrix w' hw' D' di dj sh p q hmv
      refine ⟨?_, ?_⟩
      · intro e
        have := List.inj_on_of_nodup_map hb.nodup hw hw' e
        subst this
        rw [hmv.toMatStack.ismatrix] at hf
        cases hf
      · intro i hi j hj
        rw [List.mem_range'_1] at hi hj
        exact hr.plain w hw hf w'.1 i j g1 (by omega) (by omega)
    refine ⟨x.1, D, ?_, by rw [t1, (h5 k x hx).name], ?_⟩
    · rw [← h4, List.getElem?_map, hx]
      rfl
    · refine ⟨?_, ?_, ?_, ?_, ?_, ?_, ?_, ?_⟩
      · have hne : (contentAt env d ds b1.vars x.1 x.2.1).cols ≠ [] := by
          obtain ⟨v, hv, hd⟩ := hs.column
          exact List.ne_nil_of_mem ((hcolm _ _ _ _).2 ⟨v, hv, hd, rfl, rfl⟩)
        obtain ⟨s1, s2⟩ := hg.sweep hne
        have e : String.ofList (contentAt env d ds b1.vars x.1 x.2.1).name = d.name := by simp [contentAt]
        have e' : canon (namesOf S.ofProp (V x) ((d :: ds).map Dim.name) (Comments.properties x.2.2.comments)) d.name = d.name := by
          have := hcand d.name (by simp)
          rwa [String.ofList_toList] at this
        rw [e, e'] at s2
        have s3 : D.name = d.name := congrArg Label.name s2
        rw [s3] at s1
        refine ⟨s1, ?_⟩
        rw [s2]
        simp [contentAt, Function.comp_def]
      · intro k' y i c q1 q2 q3
        obtain ⟨e, e1, e2⟩ := hg.partials _ _ (settingsOf_get env (h5 k x hx).picks k' y i c q1 q2 q3)
        rw [hcand y.name (List.mem_map_of_mem (List.mem_cons_of_mem _ (List.mem_of_getElem? q1)))] at e1 e2
        rw [String.ofList_toList] at e2
        exact ⟨e, e1, e2⟩
      · intro w hw di dj sh p q hmv
        obtain ⟨-, g5, g1, g2, g3, -⟩ := hr.matrix w hw _ di dj sh p q hmv
        obtain ⟨a, di', dj', a1, a2, a3, a4, a5, a6⟩ := hg.digits w.1 _ _ ((hC w.1 _ _).2 ⟨w, hw, rfl, _, di, dj, sh, p, q, hmv, rfl, rfl⟩)
        have hl : (contentAt env d ds b1.vars x.1 x.2.1).sweep.length = d.data.length := by simp [contentAt]
        rw [hl, List.length_range', List.length_range'] at a3
        refine ⟨a, di', dj', a1, a2, a3, a4, a5, ?_⟩
        intro r hr' i hi j hj
        obtain ⟨y, y1, y2, y3⟩ := hel w hw _ di dj sh p q hmv i hi j hj
        have hcv : ((elemNm w.1 (i + 1) (j + 1)).toList, (List.range d.data.length).map fun r => y.nd.get (r :: x.1)) ∈
            (contentAt env d ds b1.vars x.1 x.2.1).cols := (hcolm _ _ _ _).2 ⟨_, lookup_mem y1, y2, rfl, rfl⟩
        rw [← y3 (r :: x.1) (by rw [g5]; exact hvalid r hr')]
        refine a6 i j (by simpa using hi) (by simpa using hj) _ _ hcv ?_ r _ (by simp [hr'])
        rw [hcan1 _ (lookup_key y1), List.getElem_range', List.getElem_range']
        simp [Nat.add_comm]
      · intro w hw hf hd
        have hl := c3 w hw hf
        have hcv : (w.1.toList, (List.range d.data.length).map fun r => w.2.nd.get (r :: x.1)) ∈
            (contentAt env d ds b1.vars x.1 x.2.1).cols := (hcolm _ _ _ _).2 ⟨_, lookup_mem hl, hd, rfl, rfl⟩
        obtain ⟨a, a1, a2, a3⟩ := hg.column _ _ hcv (htouch x hxm _) (by
          rw [hcan1 w.1 (lookup_key hl)]
          exact hfree w hw hf)
        rw [hcan1 w.1 (lookup_key hl)] at a1 a3
        rw [String.ofList_toList] at a3
        refine ⟨a, a1, a3, a2.1, by rw [a2.2.1]; simp, ?_⟩
        intro r hr'
        exact a2.2.2 r _ (by simp [hr'])
      · intro w hw hf hd
        have hl := c3 w hw hf
        have hcv : (w.1.toList, w.2.nd.get x.1) ∈ (contentAt env d ds b1.vars x.1 x.2.1).attribs := by
          simp only [contentAt, List.mem_map, List.mem_filter, decide_eq_true_eq]
          exact ⟨(w.1, w.2), ⟨lookup_mem hl, hd⟩, rfl⟩
        obtain ⟨a, a1, a2, a3⟩ := hg.attrib _ _ hcv (htouch x hxm _) (by
          rw [hcan1 w.1 (lookup_key hl)]
          exact hfree w hw hf)
        rw [hcan1 w.1 (lookup_key hl)] at a1 a3
        rw [String.ofList_toList] at a3
        exact ⟨a, a1, a3, a2⟩
      · intro v y hv hy
        have hcr : canon (namesOf S.ofProp (V x) ((d :: ds).map Dim.name) (Comments.properties x.2.2.comments)) "Created" = "Created" :=
          hcan _ _ (by simp)
        have hm : ("Created", v) ∈ givenOf S.ofProp (V x ++ (d :: ds).map Dim.name) (Comments.properties x.2.2.comments) := by
          refine List.mem_filter.2 ⟨?_, ?_⟩
          · rw [hprops k x hx, hv]
            simp
          · simp only [hy, Option.isSome_some, Bool.and_true, decide_eq_true_eq]
            intro h
            refine hr.created ?_
            rcases List.mem_append.1 h with h | h
            · rw [hV] at h
              exact List.mem_append_left _ (List.mem_append_left _ ((hcat _ _ _).1 h))
            · exact List.mem_append_right _ h
        have hm' : ("Created", v) ∈ givenOf S.ofProp (V x ++ (contentAt env d ds b1.vars x.1 x.2.1).settings)
            (Comments.properties x.2.2.comments) := by
          rw [hset _ _ (h5 k x hx).picks]
          exact hm
        obtain ⟨y', a, a1, a2, a3, a4⟩ := hg.property ("Created", v) hm' (by
          simp only
          rw [hcr]
          intro v' I J hcp
          obtain ⟨w', hw', rfl, D', di, dj, sh, p, q, hmv, rfl, rfl⟩ := (hC v' I J).1 hcp
          obtain ⟨-, -, g1, g2, g3, -⟩ := hr.matrix w' hw' D' di dj sh p q hmv
          refine ⟨?_, ?_⟩
          · intro e
            exact hr.created (List.mem_append_left _ (List.mem_append_right _ (e ▸ List.mem_map_of_mem hw')))
          · intro i hi j hj
            rw [List.mem_range'_1] at hi hj
            exact hcreated _ i j (by omega) (by omega))
        simp only at a1 a2 a4
        rw [hcr] at a2 a4
        rw [hy] at a1
        cases a1
        exact ⟨a, a2, a3, a4⟩
      · intro n hn
        rcases hg.nothing n hn with ⟨I, J, h⟩ | h
        · obtain ⟨w, hw, rfl, -⟩ := (hC n I J).1 h
          exact Or.inl (List.mem_map_of_mem hw)
        · rcases (hcols k x hx n).1 h with h | h
          · rcases helname n h with ⟨w, hw, -, rfl⟩ | ⟨w, hw, D', di, dj, sh, p, q, hmv, i, hi, j, hj, rfl⟩
            · exact Or.inl (List.mem_map_of_mem hw)
            · have := hg.gone w.1 _ _ ((hC w.1 _ _).2 ⟨w, hw, rfl, _, di, dj, sh, p, q, hmv, rfl, rfl⟩) (i + 1)
                (by rw [List.mem_range'_1]; omega) (j + 1) (by rw [List.mem_range'_1]; omega)
              exact absurd hn (lookup_none.1 this)
          · obtain ⟨p, hp, rfl⟩ := List.mem_map.1 h
            obtain ⟨q1, y, q2, q3⟩ := hgiven k x hx p hp
            exact Or.inr ⟨q1, p.2, y, q2, q3⟩
      · intro n hn
        rcases hg.noDims n hn with h | ⟨⟨v, I, J, h⟩, h'⟩
        · left
          have : (contentAt env d ds b1.vars x.1 x.2.1).settings = (d :: ds).map Dim.name := hset _ _ (h5 k x hx).picks
          rw [this] at h
          obtain ⟨a, ha, rfl⟩ := List.mem_map.1 h
          rw [hcan _ a (List.mem_append_left _ (List.mem_append_right _ ha))]
          exact ha
        · obtain ⟨w, hw, -, D', di, dj, sh, p, q, hmv, -, -⟩ := (hC v I J).1 h
          exact Or.inr ⟨⟨w, hw, hmv.toMatStack.ismatrix⟩, h'⟩

end HF.Mdif
