import Verif.Citi.Saved
/-
C83: saving a block as a CITI file and reading it with all steps of the reader.
-/
namespace HF.Citi

open Units (isWs strip)
open Text DataBlock
open HF.DataDict.Spec
open HF.DataDict hiding rename delitem
open HF.Readers HF.Readers.Treat
open HF.Readers.FixUnit (UBlock)
open HF.Readers.Assemble (Form CompleteF Wins elemNmF IsBase digit elemNmF_inj elemNmF_form sortedLt_unique base_ne_elemF)
open HF.Readers.Normalize (trtable label)

/-! ### Specification -/

/-- The name of no element of a matrix, in neither form. -/
def NoElement (n : String) : Prop := ∀ fm w i j, IsBase w → i < 10 → j < 10 → n ≠ elemNmF fm w i j

/-- A variable that is found again in a file: a plain one is not called like an element; a matrix has a name of letters,
at most nine rows and columns, and more than one element. -/
def Kind.Found (n : String) : Kind → Prop
  | .plain => NoElement n
  | .matrix _ _ p q => IsBase n ∧ p ≤ 9 ∧ q ≤ 9 ∧ 1 < p * q ∧ n ≠ "i" ∧ n ≠ "j"

/-- Names that no step changes. -/
structure QuietNames (names : List String) : Prop where
  title : ∀ k ∈ names, FixUnit.title k = none
  calls : ∀ k ∈ names, '(' ∉ k.toList
  table : ∀ e ∈ trtable, e.1 ∉ names

/-- A column of the matrix `v`. -/
def Column (D : List (Dim Cplx)) (v : Var) (c : Arr Cplx Cplx) : Prop :=
  ∃ di dj p q, v.kind = .matrix di dj p q ∧ ∃ i < p, ∃ j < q, c.nd.shape = D.map (fun d => d.data.length) ∧
    ∀ idx, Nd.Valid (D.map fun d => d.data.length) idx → c.nd.get idx = v.arr.nd.get (idx ++ [i, j])

/-! ### Proof -/

theorem valid_positions : ∀ {sh idx : List Nat}, Nd.Valid sh idx → idx ∈ positions sh
  | [], [], _ => by simp [positions]
  | [], _ :: _, h => h.elim
  | _ :: _, [], h => h.elim
  | n :: ns, i :: l, h => by
    simp only [positions, List.mem_flatMap, List.mem_range, List.mem_map]
    exact ⟨i, h.1, l, valid_positions h.2, rfl⟩

theorem valid_two : ∀ {sh idx : List Nat} {p q : Nat}, Nd.Valid (sh ++ [p, q]) idx →
    ∃ l i j, idx = l ++ [i, j] ∧ Nd.Valid sh l ∧ i < p ∧ j < q
  | [], [i, j], _, _, h => ⟨[], i, j, rfl, trivial, h.1, h.2.1⟩
  | [], [], _, _, h => h.elim
  | [], [_], _, _, h => h.2.elim
  | [], _ :: _ :: _ :: _, _, _, h => h.2.2.elim
  | _ :: _, [], _, _, h => h.elim
  | _ :: _, a :: _, _, _, h => by
    obtain ⟨l, i, j, rfl, h1, h2⟩ := valid_two h.2
    exact ⟨a :: l, i, j, rfl, ⟨h.1, h1⟩, h2⟩

theorem flat_positions (a : Arr Cplx Cplx) : flat a = (positions a.nd.shape).map a.nd.get := by
  rw [positions_eq, List.map_map]
  rfl

/-- The numbers written are the numbers at their places. -/
theorem at_get {env : Env} {D : List (Dim Cplx)} {c : Col} (hc : GoodCol env D c) {name : List Char} {comments : List (List Char)}
    {cols : List Col} {get : List Nat → Cplx} (h : (dataOf env c).At env (saved env name comments D cols) get) :
    ∀ idx, Nd.Valid (D.map fun d => d.data.length) idx → get idx = c.arr.nd.get idx := by
  intro idx hv
  have e1 : (saved env name comments D cols).sweeps.map (fun v => v.coords.length) = D.map fun d => d.data.length := by
    simp only [saved, List.map_map]
    rfl
  unfold Data.At at h
  rw [e1] at h
  have h : List.Forall₂ (fun t idx => Number env (typeOf c.cplx) t (get idx)) ((flat c.arr).map (fmtDatum env c.cplx))
    (positions (D.map fun d => d.data.length)) := h
  rw [flat_positions, hc.shape, List.map_map, List.forall₂_map_left_iff, List.forall₂_same] at h
  have hm := valid_positions hv
  have hz : c.arr.nd.get idx ∈ flat c.arr := by
    rw [flat_positions, hc.shape]
    exact List.mem_map_of_mem hm
  obtain ⟨s1, s2, s3⟩ := hc.values _ hz
  exact number_unique (h idx hm) (datum_says_number s1 s2 s3)

theorem elemCol_nm {env : Env} (hdig : ∀ n < 10, env.fmtNat n = [digit n]) (n : String) {i j : Nat} (hi : i < 9) (hj : j < 9) :
    String.ofList (elemCol env n i j) = elemNmF .digits n (i + 1) (j + 1) := by
  unfold elemCol elemNmF
  rw [hdig (i + 1) (by omega), hdig (j + 1) (by omega)]
  simp

/-- All names of columns. -/
def colNames (env : Env) (vs : List Var) : List String := (vs.flatMap fun v => v.kind.names env v.name).map String.ofList

theorem mem_colNames {env : Env} (hdig : ∀ n < 10, env.fmtNat n = [digit n]) {vs : List Var}
    (hf : ∀ v ∈ vs, v.kind.Found v.name) (n : String) : n ∈ colNames env vs ↔
      (∃ v ∈ vs, v.kind = .plain ∧ n = v.name) ∨
      ∃ v ∈ vs, ∃ di dj p q, v.kind = .matrix di dj p q ∧ ∃ i < p, ∃ j < q, n = elemNmF .digits v.name (i + 1) (j + 1) := by
  simp only [colNames, List.mem_map, List.mem_flatMap]
  constructor
  · rintro ⟨l, ⟨v, hv, hl⟩, rfl⟩
    have hfv := hf v hv
    cases hk : v.kind with
    | plain =>
      rw [hk] at hl
      simp only [Kind.names, List.mem_singleton] at hl
      subst hl
      exact Or.inl ⟨v, hv, hk, by simp⟩
    | matrix di dj p q =>
      rw [hk] at hl hfv
      simp only [Kind.names, List.mem_flatMap, List.mem_range, List.mem_map] at hl
      obtain ⟨i, hi, j, hj, rfl⟩ := hl
      have h2 : p ≤ 9 := hfv.2.1
      have h3 : q ≤ 9 := hfv.2.2.1
      exact Or.inr ⟨v, hv, di, dj, p, q, hk, i, hi, j, hj, elemCol_nm hdig v.name (by omega) (by omega)⟩
  · rintro (⟨v, hv, hk, rfl⟩ | ⟨v, hv, di, dj, p, q, hk, i, hi, j, hj, rfl⟩)
    · exact ⟨v.name.toList, ⟨v, hv, by rw [hk]; simp [Kind.names]⟩, by simp⟩
    · have hfv := hf v hv
      rw [hk] at hfv
      have h2 : p ≤ 9 := hfv.2.1
      have h3 : q ≤ 9 := hfv.2.2.1
      refine ⟨elemCol env v.name i j, ⟨v, hv, ?_⟩, elemCol_nm hdig v.name (by omega) (by omega)⟩
      rw [hk]
      simp only [Kind.names, List.mem_flatMap, List.mem_range, List.mem_map]
      exact ⟨i, hi, j, hj, rfl⟩

theorem elem_mem {env : Env} (hdig : ∀ n < 10, env.fmtNat n = [digit n]) {vs : List Var}
    (hf : ∀ v ∈ vs, v.kind.Found v.name) (hnd : (vs.map Var.name).Nodup) {v : Var} (hv : v ∈ vs) {di dj : Dim Cplx} {p q : Nat}
    (hk : v.kind = .matrix di dj p q) (i j : Nat) (hi : i < 10) (hj : j < 10) :
    elemNmF .digits v.name i j ∈ colNames env vs ↔ i ∈ List.range' 1 p ∧ j ∈ List.range' 1 q := by
  have hfv := hf v hv
  rw [hk] at hfv
  have h2 : p ≤ 9 := hfv.2.1
  have h3 : q ≤ 9 := hfv.2.2.1
  rw [mem_colNames hdig hf, List.mem_range'_1, List.mem_range'_1]
  constructor
  · rintro (⟨w, hw, hkw, e⟩ | ⟨w, hw, di', dj', p', q', hkw, i', hi', j', hj', e⟩)
    · have hfw := hf w hw
      rw [hkw] at hfw
      exact absurd e.symm (hfw .digits v.name i j hfv.1 hi hj)
    · have hfw := hf w hw
      rw [hkw] at hfw
      have g2 : p' ≤ 9 := hfw.2.1
      have g3 : q' ≤ 9 := hfw.2.2.1
      obtain ⟨e1, e2, e3⟩ := elemNmF_inj hfv.1 hi hj hfw.1 (by omega) (by omega) e
      have := List.inj_on_of_nodup_map hnd hv hw e1
      subst this
      rw [hk] at hkw
      cases hkw
      omega
  · rintro ⟨h4, h5⟩
    refine Or.inr ⟨v, hv, di, dj, p, q, hk, i - 1, by omega, j - 1, by omega, ?_⟩
    rw [Nat.sub_add_cancel h4.1, Nat.sub_add_cancel h5.1]

/-- The matrices found in a saved file are the matrices saved. -/
theorem wins_iff {env : Env} (hdig : ∀ n < 10, env.fmtNat n = [digit n]) {vs : List Var}
    (hf : ∀ v ∈ vs, v.kind.Found v.name) (hnd : (vs.map Var.name).Nodup) (fm : Form) (w : String) (I J : List Nat) :
    Wins (colNames env vs) forms fm w I J ↔ fm = .digits ∧ ∃ v ∈ vs, v.name = w ∧ ∃ di dj p q, v.kind = .matrix di dj p q ∧
      I = List.range' 1 p ∧ J = List.range' 1 q := by
  constructor
  · rintro ⟨bef, aft, h1, h2, h3, -⟩
    have hpos : 0 < I.length ∧ 0 < J.length := by
      have := h3.many
      constructor <;> refine Nat.pos_of_ne_zero ?_ <;> intro e <;> rw [e] at this <;> simp at this
    obtain ⟨i0, hi0⟩ := List.exists_mem_of_length_pos hpos.1
    obtain ⟨j0, hj0⟩ := List.exists_mem_of_length_pos hpos.2
    have hi := h3.digits.1 i0 hi0
    have hj := h3.digits.2 j0 hj0
    have hm := (h3.mem i0 j0 hi hj).2 ⟨hi0, hj0⟩
    rw [mem_colNames hdig hf] at hm
    rcases hm with ⟨v, hv, hk, e⟩ | ⟨v, hv, di, dj, p, q, hk, i, hi', j, hj', e⟩
    · have := hf v hv
      rw [hk] at this
      exact absurd e.symm (this fm w i0 j0 h3.base hi hj)
    · have hfv := hf v hv
      rw [hk] at hfv
      have g2 : p ≤ 9 := hfv.2.1
      have g3 : q ≤ 9 := hfv.2.2.1
      have g4 : 1 < p * q := hfv.2.2.2.1
      have hfm := elemNmF_form h3.base hi hj hfv.1 (by omega) (by omega) e
      subst hfm
      obtain ⟨e1, -, -⟩ := elemNmF_inj h3.base hi hj hfv.1 (by omega) (by omega) e
      subst e1
      have hall : ∀ a b, a < 10 → b < 10 → ((a ∈ I ∧ b ∈ J) ↔ (a ∈ List.range' 1 p ∧ b ∈ List.range' 1 q)) := by
        intro a b ha hb
        rw [← h3.mem a b ha hb, elem_mem hdig hf hnd hv hk a b ha hb]
      have hr : ∀ (n a : Nat), n ≤ 9 → a ∈ List.range' 1 n → a < 10 := by
        intro n a hn ha
        rw [List.mem_range'_1] at ha
        omega
      have ho : 1 ∈ List.range' 1 p ∧ 1 ∈ List.range' 1 q := by
        rw [List.mem_range'_1, List.mem_range'_1]
        have : p ≠ 0 := by rintro rfl; simp at g4
        have : q ≠ 0 := by rintro rfl; simp at g4
        omega
      refine ⟨rfl, v, hv, rfl, di, dj, p, q, hk, ?_, ?_⟩
      · refine sortedLt_unique h3.rows List.pairwise_lt_range' fun a => ⟨fun ha => ?_, fun ha => ?_⟩
        · exact ((hall a j0 (h3.digits.1 a ha) hj).1 ⟨ha, hj0⟩).1
        · exact ((hall a 1 (hr p a g2 ha) (by omega)).2 ⟨ha, ho.2⟩).1
      · refine sortedLt_unique h3.cols List.pairwise_lt_range' fun a => ⟨fun ha => ?_, fun ha => ?_⟩
        · exact ((hall i0 a hi (h3.digits.2 a ha)).1 ⟨hi0, ha⟩).2
        · exact ((hall 1 a (by omega) (hr q a g3 ha)).2 ⟨ho.1, ha⟩).2
  · rintro ⟨rfl, v, hv, rfl, di, dj, p, q, hk, rfl, rfl⟩
    have hfv := hf v hv
    rw [hk] at hfv
    have g2 : p ≤ 9 := hfv.2.1
    have g3 : q ≤ 9 := hfv.2.2.1
    refine ⟨[.brackets], [], rfl, by simp, ⟨hfv.1, List.pairwise_lt_range', List.pairwise_lt_range', ⟨?_, ?_⟩, ?_, ?_⟩, by simp⟩
    · intro a ha; rw [List.mem_range'_1] at ha; omega
    · intro a ha; rw [List.mem_range'_1] at ha; omega
    · intro i j hi hj
      exact elem_mem hdig hf hnd hv hk i j hi hj
    · simpa using hfv.2.2.2.1

theorem canon_quiet {names : List String} (h : ∀ e ∈ trtable, e.1 ∉ names) {ns : List String} {k : String} (hk : k ∈ names) :
    canon ns k = k := by
  rcases canon_cases ns k with h1 | ⟨e, he, h1, -, -⟩
  · exact h1
  · exact absurd (h1 ▸ hk) (h e he)

/-- C83: a block of which all variables have the same sweeps is saved, and read with all steps of the reader: every
variable comes back under its name with its numbers, matrices as matrices, over the sweeps saved, and there is no other
variable; units are those that belong to the names. -/
theorem C83_roundtrip {env : Env} (hn : NatSurvives env) (hdig : ∀ n < 10, env.fmtNat n = [digit n])
    (S : Steps Cplx Cplx) (htab : S.table.Perm trtable) (hcast : ∀ c c' : Arr Cplx Cplx, c.nd = c'.nd → S.cast c = S.cast c')
    (name : List Char) (comments : List (List Char)) (cplx : String → Bool) (D : List (Dim Cplx)) (vs : List Var)
    (b : Block Cplx Cplx) (hb : b.vars = vs.map fun v => (v.name, v.arr)) (hD : GoodSweeps env D) (hv : GoodVars D vs)
    (hk : ∀ v ∈ vs, v.kind.Is D v.arr ∧ GoodValues env (cplx v.name) v.arr)
    (hN : GoodNames D (vs.flatMap fun v => v.kind.names env v.name)) (ht : NoTime comments)
    (hprop : Comments.properties (comments.map asRead) = []) (hq : QuietNames (colNames env vs ++ D.map Dim.name))
    (hf : ∀ v ∈ vs, v.kind.Found v.name)
    (htype : ∀ v ∈ vs, ∀ c c', Column D v c → Column D v c' → ∀ idx, Nd.Valid (D.map fun d => d.data.length) idx →
      S.cast c (c'.nd.get idx) = c'.nd.get idx) :
    ∃ lines r D', save env name comments cplx b = .ok lines ∧ block env S lines = .ok r ∧
      List.Forall₂ (fun d d' => label d' = ⟨d.name, .dimSweep, d.data, S.guess d.name⟩ ∧ lookup r.blk.ivars d.name = some d') D D' ∧
      (∀ n, n ∈ keys r.blk.vars ↔ n ∈ vs.map Var.name) ∧
      (∀ v ∈ vs, v.kind = .plain → ∃ a, lookup r.blk.vars v.name = some a ∧ a.dims = D' ∧ r.units v.name = S.guess v.name ∧
        a.nd.shape = v.arr.nd.shape ∧ ∀ idx, Nd.Valid v.arr.nd.shape idx → a.nd.get idx = v.arr.nd.get idx) ∧
      ∀ v ∈ vs, ∀ di dj p q, v.kind = .matrix di dj p q → ∃ a di' dj', lookup r.blk.vars v.name = some a ∧
        di'.name = "i" ∧ dj'.name = "j" ∧ MatStack a D' di' dj' (D.map fun d => d.data.length) p q ∧ r.units v.name = none ∧
        a.nd.shape = v.arr.nd.shape ∧ ∀ idx, Nd.Valid v.arr.nd.shape idx → a.nd.get idx = v.arr.nd.get idx := by
  have hne : vs ≠ [] := by
    rintro rfl
    exact hN.nonempty rfl
  obtain ⟨bc, c1, c2, c3⟩ := copyVars_ok hD vs hv (fun v h => (hk v h).1) vs [] {} rfl rfl (by simp) (by simp) (by simp)
  obtain ⟨css, d1, d2⟩ := forall2_mapM (fun v : Var => columns env v.name (cplx v.name) v.arr) (ColsFor env D) vs
    (fun v h => columns_ok hD (cplx v.name) v (hk v h).1 (hk v h).2)
  have hnames : css.flatten.map Col.name = vs.flatMap fun v => v.kind.names env v.name := by
    rw [forall2_flatMap (fun v : Var => v.kind.names env v.name) (fun cs => cs.map Col.name)
      (fun x y h => h.names.symm) d2]
    rw [List.map_flatten, List.flatMap_def]
  have hgood : ∀ c ∈ css.flatten, GoodCol env D c := by
    intro c hc
    obtain ⟨cs, h1, h2⟩ := List.mem_flatten.mp hc
    obtain ⟨v, _, h⟩ := forall2_right d2 cs h1
    exact h.good c h2
  have hN' : GoodNames D (css.flatten.map Col.name) := by rw [hnames]; exact hN
  generalize hcols : css.flatten = cols at *
  have hlines : save env name comments cplx b = .ok (format env name comments (D.map fun d => (d.name, d)) cols) := by
    unfold save
    rw [hb, c1]
    simp only
    rw [c2, List.mapM_map]
    have : ((fun p : String × Arr Cplx Cplx => columns env p.1 (cplx p.1) p.2) ∘ fun v : Var => (v.name, v.arr)) =
        fun v : Var => columns env v.name (cplx v.name) v.arr := rfl
    rw [this, d1]
    simp only
    unfold sweeps
    rw [(c3 hne).sweeps, hcols]
  obtain ⟨f, hfdef⟩ : ∃ f, f = saved env name comments D cols := ⟨_, rfl⟩
  have fdat : f.data = cols.map (dataOf env) := by rw [hfdef]; rfl
  have fsw : f.sweeps = D.map (sweepOf env) := by rw [hfdef]; rfl
  have fsh : f.sweeps.map (fun v => v.coords.length) = D.map fun d => d.data.length := by rw [fsw, List.map_map]; rfl
  have kdat : f.data.map Data.key = colNames env vs := by
    rw [fdat, colNames, ← hnames, List.map_map, List.map_map]
    rfl
  have skey : ∀ d, (sweepOf env d).key = d.name := by intro d; simp [sweepOf, Sweep.key]
  have ksw : f.sweeps.map Sweep.key = D.map Dim.name := by
    rw [fsw, List.map_map]
    exact List.map_congr_left fun d _ => skey d
  have hgiven : f.given S [] = [] := rfl
  have hfn : f.names S [] = colNames env vs ++ D.map Dim.name := by
    unfold Content.names
    rw [hgiven, kdat, ksw]
    simp
  have hcan : ∀ k ∈ colNames env vs ++ D.map Dim.name, canon (f.names S []) k = k := fun k hk' => canon_quiet hq.table hk'
  have hfc : f.cols S [] = colNames env vs := by
    unfold Content.cols
    rw [hgiven, kdat]
    simp only [List.map_nil, List.append_nil]
    conv_rhs => rw [← List.map_id (colNames env vs)]
    exact List.map_congr_left fun k hk' => hcan k (List.mem_append_left _ hk')
  have hM : ∀ fm w I J, f.Matrix S [] fm w I J ↔ fm = .digits ∧ ∃ v ∈ vs, v.name = w ∧ ∃ di dj p q, v.kind = .matrix di dj p q ∧
      I = List.range' 1 p ∧ J = List.range' 1 q := by
    intro fm w I J
    unfold Content.Matrix
    rw [hfc]
    exact wins_iff hdig hf hv.nodup fm w I J
  have hdkey : ∀ d ∈ f.data, canon (f.names S []) d.key = d.key := fun d hd => hcan _ (List.mem_append_left _ (by
    rw [← kdat]; exact List.mem_map_of_mem hd))
  -- the columns of a variable
  have hcolm : ∀ v ∈ vs, ∀ di dj p q, v.kind = .matrix di dj p q → ∀ i < p, ∀ j < q, ∃ c ∈ cols,
      (dataOf env c).key = elemNmF .digits v.name (i + 1) (j + 1) ∧
      ∀ idx, Nd.Valid (D.map fun d => d.data.length) idx → c.arr.nd.get idx = v.arr.nd.get (idx ++ [i, j]) := by
    intro v hv' di dj p q e i hi j hj
    obtain ⟨cs, h1, h2⟩ := forall2_left d2 v hv'
    obtain ⟨c, k1, k2, k3⟩ := h2.matrix di dj p q e i hi j hj
    have hfv := hf v hv'
    rw [e] at hfv
    have g2 : p ≤ 9 := hfv.2.1
    have g3 : q ≤ 9 := hfv.2.2.1
    refine ⟨c, by rw [← hcols]; exact List.mem_flatten.mpr ⟨cs, h1, k1⟩, ?_, k3⟩
    show String.ofList c.name = _
    rw [k2]
    exact elemCol_nm hdig v.name (by omega) (by omega)
  have hkd : (f.data.map Data.key).Nodup := by
    rw [kdat]
    exact hN.nodup.map fun _ _ e => ofList_inj e
  have huniq : ∀ d ∈ f.data, ∀ d' ∈ f.data, d.key = d'.key → d = d' := fun d hd d' hd' e => List.inj_on_of_nodup_map hkd hd hd' e
  have hmemd : ∀ c ∈ cols, dataOf env c ∈ f.data := fun c hc => by rw [fdat]; exact List.mem_map_of_mem hc
  have hsays := saved_says hn name comments D cols hD (fun c hc => hN'.word _ (List.mem_map_of_mem hc)) hgood
  have hcom := saved_kept env name comments D cols ht
  have hcne : cols ≠ [] := by
    rintro rfl
    exact hN'.nonempty rfl
  have hhead := saved_head hn name comments D cols hD hcne
  have hfnames := saved_names env name comments D cols hN'
  have hshown := items_shown env name comments D cols
  have hdok := saved_data name comments D cols hgood
  rw [← hfdef] at hsays hcom hhead hfnames hshown hdok
  have hcalm : f.Calm S [] := by
    refine ⟨?_, ?_, ?_, by simp⟩
    · rw [hfn]; exact hq.title
    · rw [hfn]; exact hq.calls
    · rw [hfn]
      intro e he e' _ h1
      exact absurd h1 (hq.table e he)
  have hfit : f.Fits S [] := by
    constructor
    · intro fm w I J hw
      obtain ⟨-, v, hv', rfl, di, dj, p, q, e, -, -⟩ := (hM fm w I J).1 hw
      have hfv := hf v hv'
      rw [e] at hfv
      refine ⟨?_, hfv.2.2.2.2.1, hfv.2.2.2.2.2⟩
      intro hm
      refine (hv.dims v hv').1 ?_
      obtain ⟨s, hs, e'⟩ := List.mem_map.1 hm
      have : s.key ∈ D.map Dim.name := by rw [← ksw]; exact List.mem_map_of_mem hs
      rw [hcan _ (List.mem_append_right _ this)] at e'
      rw [← e']
      exact this
    · intro fm w I J hw i hi j hj
      obtain ⟨rfl, v, hv', rfl, di, dj, p, q, e, rfl, rfl⟩ := (hM fm w I J).1 hw
      rw [List.mem_range'_1] at hi hj
      obtain ⟨c, k1, k2, -⟩ := hcolm v hv' di dj p q e (i - 1) (by omega) (j - 1) (by omega)
      rw [Nat.sub_add_cancel hi.1, Nat.sub_add_cancel hj.1] at k2
      refine ⟨_, hmemd c k1, ?_⟩
      rw [hdkey _ (hmemd c k1)]
      exact k2
  have hread := C65_read env _ f.items [] hsays f hhead hfnames (by rw [hshown]) (comments.map asRead) hcom hdok
  obtain ⟨r, D', h1, h2⟩ := C83_read env S htab hcast (format env name comments (D.map fun d => (d.name, d)) cols) f.items []
    hsays f hhead hfnames (by rw [hshown]) (comments.map asRead) hcom hdok (by rw [hprop]; exact hcalm) (by rw [hprop]; exact hfit)
    (by
      rw [hprop]
      intro bb hbb
      obtain ⟨b', r1, -, -, r4⟩ := hread
      rw [hbb] at r1
      cases r1
      intro fm w I J hw i hi j hj k hk' l hl d hd d' hd' e e' c c' hc hc' idx hidx
      obtain ⟨rfl, v, hv', rfl, di, dj, p, q, ek, rfl, rfl⟩ := (hM fm w I J).1 hw
      rw [fsh] at hidx
      rw [hdkey _ hd] at e
      rw [hdkey _ hd'] at e'
      have hcol : ∀ i j, i ∈ List.range' 1 p → j ∈ List.range' 1 q → ∀ d ∈ f.data, d.key = elemNmF .digits v.name i j →
          ∀ c, lookup bb.vars d.key = some c → Column D v c := by
        intro i j hi hj d hd e c hc
        rw [List.mem_range'_1] at hi hj
        obtain ⟨cc, k1, k2, k3⟩ := hcolm v hv' di dj p q ek (i - 1) (by omega) (j - 1) (by omega)
        rw [Nat.sub_add_cancel hi.1, Nat.sub_add_cancel hj.1] at k2
        have hdd := huniq d hd _ (hmemd cc k1) (by rw [e, k2])
        obtain ⟨a, a1, -, a3, a4⟩ := r4 d hd
        rw [show String.ofList d.name = d.key from rfl, hc] at a1
        cases a1
        refine ⟨di, dj, p, q, ek, i - 1, by omega, j - 1, by omega, by rw [a3, fsh], fun idx hv2 => ?_⟩
        rw [← k3 idx hv2]
        refine at_get (hgood cc k1) (name := name) (comments := comments) (cols := cols) ?_ idx hv2
        rw [← hfdef, ← hdd]
        exact a4
      exact htype v hv' c c' (hcol i j hi hj d hd e c hc) (hcol k l hk' hl d' hd' e' c' hc') idx hidx)
  rw [hprop] at h2
  have hplain : ∀ v ∈ vs, v.kind = .plain → ∃ c ∈ cols, (dataOf env c).key = v.name ∧ c.arr = v.arr ∧
      ∃ a, lookup r.blk.vars v.name = some a ∧ a.dims = D' ∧
      a.nd.shape = D.map (fun d => d.data.length) ∧ (dataOf env c).At env f a.nd.get ∧ r.units v.name = S.guess v.name := by
    intro v hv' e
    obtain ⟨cs, k1, k2⟩ := forall2_left d2 v hv'
    obtain ⟨c, l1, l2, l3⟩ := k2.plain e
    have hc : c ∈ cols := by rw [← hcols]; exact List.mem_flatten.mpr ⟨cs, k1, l1⟩
    have ek : (dataOf env c).key = v.name := by
      show String.ofList c.name = _
      rw [l2]
      simp
    have hfv := hf v hv'
    rw [e] at hfv
    have := h2.plain (dataOf env c) (hmemd c hc) (by
      intro fm w I J hw
      obtain ⟨rfl, w', hw', rfl, di, dj, p, q, e', rfl, rfl⟩ := (hM fm w I J).1 hw
      have hfw := hf w' hw'
      rw [e'] at hfw
      have g2 : p ≤ 9 := hfw.2.1
      have g3 : q ≤ 9 := hfw.2.2.1
      rw [hdkey _ (hmemd c hc), ek]
      refine ⟨?_, ?_⟩
      · intro en
        have := List.inj_on_of_nodup_map hv.nodup hv' hw' en
        subst this
        rw [e] at e'
        cases e'
      · intro i hi j hj
        rw [List.mem_range'_1] at hi hj
        exact hfv .digits w'.name i j hfw.1 (by omega) (by omega))
    rw [hdkey _ (hmemd c hc), ek, fsh] at this
    exact ⟨c, hc, ek, l3, this⟩
  refine ⟨_, r, D', hlines, h1, ?_, ?_, ?_, ?_⟩
  · have := h2.sweeps
    rw [fsw, List.forall₂_map_left_iff] at this
    have h3 : ∀ d ∈ D, canon (f.names S []) (sweepOf env d).key = d.name := by
      intro d hd
      rw [skey, hcan _ (List.mem_append_right _ (List.mem_map_of_mem hd))]
    clear hfit hcalm hcan
    revert h3
    generalize D' = DD at this
    generalize hDD : D = D0 at this
    clear hDD
    intro h3
    induction this with
    | nil => exact .nil
    | cons hh _ ih =>
      refine .cons ⟨?_, ?_⟩ (ih fun d hd => h3 d (by simp [hd]))
      · rw [hh.1, h3 _ (by simp), skey]
        rfl
      · have e := congrArg Normalize.Label.name hh.1
        have e : _ = canon (f.names S []) (sweepOf env _).key := e
        rw [h3 _ (by simp)] at e
        rw [← e]
        exact hh.2
  · intro n
    constructor
    · intro hn'
      rcases h2.nothing n hn' with ⟨fm, I, J, hw⟩ | hm
      · obtain ⟨-, v, hv', rfl, -⟩ := (hM fm n I J).1 hw
        exact List.mem_map_of_mem hv'
      · rw [hfc, mem_colNames hdig hf] at hm
        rcases hm with ⟨v, hv', -, rfl⟩ | ⟨v, hv', di, dj, p, q, e, i, hi, j, hj, rfl⟩
        · exact List.mem_map_of_mem hv'
        · have := h2.gone .digits v.name _ _ ((hM _ _ _ _).2 ⟨rfl, v, hv', rfl, di, dj, p, q, e, rfl, rfl⟩) (i + 1)
            (by rw [List.mem_range'_1]; omega) (j + 1) (by rw [List.mem_range'_1]; omega)
          exact absurd hn' ((lookup_none_iff' _ _).1 this)
    · intro hn'
      obtain ⟨v, hv', rfl⟩ := List.mem_map.1 hn'
      cases e : v.kind with
      | plain =>
        obtain ⟨_, _, _, _, a, ha, -⟩ := hplain v hv' e
        exact lookup_key ha
      | matrix di dj p q =>
        obtain ⟨m, _, _, ha, -⟩ := h2.matrix .digits v.name _ _ ((hM _ _ _ _).2 ⟨rfl, v, hv', rfl, di, dj, p, q, e, rfl, rfl⟩)
        exact lookup_key ha
  · intro v hv' e
    obtain ⟨c, hc, -, l3, a, a1, a2, a3, a4, a5⟩ := hplain v hv' e
    have hkv := (hk v hv').1
    rw [e] at hkv
    refine ⟨a, a1, a2, a5, by rw [a3, hkv.2], fun idx hidx => ?_⟩
    rw [hkv.2] at hidx
    rw [← l3]
    rw [hfdef] at a4
    exact at_get (hgood c hc) a4 idx hidx
  · intro v hv' di dj p q e
    obtain ⟨m, di', dj', m1, m2, m3, m4, m5, m6⟩ := h2.matrix .digits v.name _ _
      ((hM _ _ _ _).2 ⟨rfl, v, hv', rfl, di, dj, p, q, e, rfl, rfl⟩)
    simp only [List.length_range'] at m3 m6
    rw [fsh] at m3
    have hkv := (hk v hv').1
    rw [e] at hkv
    refine ⟨m, di', dj', m1, m4, m5, m3, m2, by rw [m3.shape, hkv.1.shape], ?_⟩
    intro idx hidx
    rw [hkv.1.shape] at hidx
    obtain ⟨id1, i, j, rfl, hid1, hi, hj⟩ : ∃ id1 i j, idx = id1 ++ [i, j] ∧ Nd.Valid (D.map fun d => d.data.length) id1 ∧
        i < p ∧ j < q := valid_two hidx
    obtain ⟨c, k1, k2, k3⟩ := hcolm v hv' di dj p q e i hi j hj
    have := m6 i j hi hj (dataOf env c) (hmemd c k1) (by
      rw [hdkey _ (hmemd c k1), k2]
      simp [Nat.add_comm])
    rw [hfdef] at this
    rw [← k3 id1 hid1]
    exact at_get (hgood c k1) this id1 hid1

end HF.Citi
