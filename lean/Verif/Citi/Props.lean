import Verif.Citi.Lemmas
import Verif.DataBlock.ElemProps
/-
C22: saving a block in CITI format and reading it back.
-/

namespace HF.Citi

open Units (isWs strip)
open Text DataBlock
open HF.DataDict.Spec

/-! ### Specification -/

/-- The array read is the array written: same sweeps (class and unit are not kept), same elements. -/
structure Same (D : List (Dim Cplx)) (get : List Nat → Cplx) (r : Arr Cplx Cplx) : Prop where
  dims : r.dims.map (fun d => (d.name, d.data)) = D.map fun d => (d.name, d.data)
  shape : r.nd.shape = D.map fun d => d.data.length
  get : ∀ idx, Nd.Valid (D.map fun d => d.data.length) idx → r.nd.get idx = get idx

/-- Sweeps that can be written. -/
structure GoodSweeps (env : Env) (D : List (Dim Cplx)) : Prop where
  nodup : (D.map Dim.name).Nodup
  word : ∀ d ∈ D, IsWord d.name.toList
  values : ∀ d ∈ D, ∀ z ∈ d.data, Survives env z.1 ∧ z.2 = 0
  notMatrix : ∀ d ∈ D, d.isa .matI = false ∧ d.isa .matJ = false

/-- The names of the columns can be told apart from each other and from the sweeps, and none of them is
the name of a matrix of which another would be an element. -/
structure GoodNames (D : List (Dim Cplx)) (names : List (List Char)) : Prop where
  nonempty : names ≠ []
  word : ∀ n ∈ names, IsWord n
  nodup : names.Nodup
  sweeps : ∀ n ∈ names, String.ofList n ∉ D.map Dim.name
  elems : ∀ n ∈ names, ∀ m i j, isMatrixName (String.ofList n) = some (m, i, j) → m.toList ∉ names

/-- A comment as it is read again: exclamation marks in front and white space around are lost. -/
def asRead (c : List Char) : List Char := strip (c.dropWhile (· = '!'))

/-- No comment is the time of a measurement, which would be rewritten. -/
def NoTime (comments : List (List Char)) : Prop := ∀ c ∈ comments, ¬ "CONSTANT TIME".toList <+: asRead c

theorem ofList_inj {a b : List Char} (h : String.ofList a = String.ofList b) : a = b := by
  have := congrArg String.toList h
  simpa using this

/-- C22 for columns: everything comes back. -/
theorem C22_columns {env : Env} (hn : NatSurvives env) (name : List Char) (comments : List (List Char))
    (D : List (Dim Cplx)) (cols : List Col) (hD : GoodSweeps env D) (hN : GoodNames D (cols.map Col.name))
    (hc : ∀ c ∈ cols, GoodCol env D c) (ht : NoTime comments) :
    ∃ b, read env (format env name comments (D.map fun d => (d.name, d)) cols) =
        .ok (strip name, comments.map asRead, b) ∧
      b.ivars.map (fun p => (p.1, p.2.name, p.2.data)) = D.map (fun d => (d.name, d.name, d.data)) ∧
      b.vars.map Prod.fst = cols.map (fun c => String.ofList c.name) ∧
      ∀ c ∈ cols, ∃ r, lookup b.vars (String.ofList c.name) = some r ∧ Same D c.arr.nd.get r := by
  have hnd : (cols.map fun c => String.ofList c.name).Nodup := by
    have := hN.nodup.map (f := String.ofList) fun _ _ e => ofList_inj e
    simpa [List.map_map, Function.comp_def] using this
  have hmem : ∀ c ∈ cols, c.name ∈ cols.map Col.name := fun c h => List.mem_map_of_mem h
  obtain ⟨b, h1, h2, h3⟩ := parse_toks hn name comments D cols (fun h => hN.nonempty (by simp [h])) hD.nodup hnd
    (fun c h => hN.sweeps _ (hmem c h))
    (fun c h m i j e he => by
      refine hN.elems _ (hmem c h) m i j e ?_
      obtain ⟨c', hc', e'⟩ := List.mem_map.mp he
      rw [← e']
      simpa using ⟨c', hc', rfl⟩)
    hD.values hc (fun c h => by
      rw [Bool.eq_false_iff]
      exact fun h' => ht c h (List.isPrefixOf_iff_prefix.1 h'))
  refine ⟨b, ?_, ?_, ?_, ?_⟩
  · unfold read
    rw [tokenize_format hn name comments D cols (fun d hd => ⟨hD.word d hd, fun z hz => (hD.values d hd z hz).1⟩)
      (fun c h => ⟨hN.word _ (hmem c h), fun z hz => ((hc c h).values z hz).1⟩)]
    exact h1
  · rw [h2]; simp [plain]
  · rw [h3]; simp
  · intro c h
    refine ⟨arrRead D c, ?_, ?_, rfl, ?_⟩
    · rw [h3]
      exact lookup_map_of (fun c : Col => String.ofList c.name) (arrRead D) cols hnd c h
    · simp [arrRead, plain]
    · intro idx hv
      exact arrRead_get D c (hc c h).shape idx hv

/-! ### Blocks -/

/-- The name of the column for an element of a matrix. -/
def elemCol (env : Env) (n : String) (i j : Nat) : List Char := n.toList ++ env.fmtNat (i + 1) ++ env.fmtNat (j + 1)

/-- A variable as it can be saved: it has exactly the sweeps, possibly followed by the dimensions of a
matrix with `p` rows and `q` columns. -/
inductive Kind where
  | plain
  | matrix (di dj : Dim Cplx) (p q : Nat)

def Kind.Is (D : List (Dim Cplx)) (a : Arr Cplx Cplx) : Kind → Prop
  | .plain => a.dims = D ∧ a.nd.shape = D.map fun d => d.data.length
  | .matrix di dj p q => MatStack a D di dj (D.map fun d => d.data.length) p q ∧
      di.name ∉ D.map Dim.name ∧ dj.name ∉ D.map Dim.name

def Kind.names (env : Env) (n : String) : Kind → List (List Char)
  | .plain => [n.toList]
  | .matrix _ _ p q => (List.range p).flatMap fun i => (List.range q).map fun j => elemCol env n i j

def Kind.extra : Kind → List (Dim Cplx)
  | .plain => []
  | .matrix di dj _ _ => [di, dj]

/-- A variable to be saved. -/
structure Var where
  name : String
  arr : Arr Cplx Cplx
  kind : Kind

theorem forall2_mapM {δ ε ζ : Type} (f : δ → Except ε ζ) (P : δ → ζ → Prop) : ∀ l : List δ,
    (∀ x ∈ l, ∃ y, f x = .ok y ∧ P x y) → ∃ ys, l.mapM f = .ok ys ∧ List.Forall₂ P l ys
  | [], _ => ⟨[], rfl, .nil⟩
  | x :: l, h => by
    obtain ⟨y, h1, h2⟩ := h x (by simp)
    obtain ⟨ys, h3, h4⟩ := forall2_mapM f P l fun x hx => h x (by simp [hx])
    exact ⟨y :: ys, by rw [List.mapM_cons, h1, h3]; rfl, .cons h2 h4⟩

theorem forall2_left {δ ζ : Type} {P : δ → ζ → Prop} {l : List δ} {m : List ζ} (h : List.Forall₂ P l m) :
    ∀ x ∈ l, ∃ y ∈ m, P x y := by
  induction h with
  | nil => simp
  | cons hp _ ih =>
    intro x hx
    rcases List.mem_cons.mp hx with rfl | hx
    · exact ⟨_, by simp, hp⟩
    · obtain ⟨y, h1, h2⟩ := ih x hx
      exact ⟨y, by simp [h1], h2⟩

theorem forall2_right {δ ζ : Type} {P : δ → ζ → Prop} {l : List δ} {m : List ζ} (h : List.Forall₂ P l m) :
    ∀ y ∈ m, ∃ x ∈ l, P x y := by
  induction h with
  | nil => simp
  | cons hp _ ih =>
    intro x hx
    rcases List.mem_cons.mp hx with rfl | hx
    · exact ⟨_, by simp, hp⟩
    · obtain ⟨y, h1, h2⟩ := ih x hx
      exact ⟨y, by simp [h1], h2⟩

theorem forall2_flatMap {δ ζ η : Type} {P : δ → ζ → Prop} (f : δ → List η) (g : ζ → List η)
    (hfg : ∀ x y, P x y → f x = g y) {l : List δ} {m : List ζ} (h : List.Forall₂ P l m) :
    l.flatMap f = m.flatMap g := by
  induction h with
  | nil => rfl
  | cons hp _ ih => rw [List.flatMap_cons, List.flatMap_cons, ih, hfg _ _ hp]

theorem mem_flat {a : Arr Cplx Cplx} {z : Cplx} (h : z ∈ flat a) : ∃ idx, Nd.Valid a.nd.shape idx ∧ a.nd.get idx = z := by
  unfold flat at h
  obtain ⟨k, hk, e⟩ := List.mem_map.mp h
  exact ⟨_, Nd.valid_unravel (List.mem_range.mp hk), e⟩

theorem valid_append {sh idx sh' idx' : List Nat} (h : Nd.Valid sh idx) (h' : Nd.Valid sh' idx') :
    Nd.Valid (sh ++ sh') (idx ++ idx') := by
  induction sh generalizing idx with
  | nil => cases idx with
    | nil => exact h'
    | cons => cases h
  | cons s sh ih => cases idx with
    | nil => cases h
    | cons i idx => exact ⟨h.1, ih h.2⟩

/-- The numbers of an array survive. -/
def GoodValues (env : Env) (c : Bool) (a : Arr Cplx Cplx) : Prop :=
  ∀ idx, Nd.Valid a.nd.shape idx → Survives env (a.nd.get idx).1 ∧ (c = true → Survives env (a.nd.get idx).2) ∧
    (c = false → (a.nd.get idx).2 = 0)

theorem ismatrix_plain {D : List (Dim Cplx)} {a : Arr Cplx Cplx} (h : a.dims = D)
    (hD : ∀ d ∈ D, d.isa .matI = false ∧ d.isa .matJ = false) : ismatrix a = false := by
  unfold ismatrix
  rw [h]
  have : D.any (fun d => d.isa .matI) = false := by
    rw [List.any_eq_false]
    intro d hd
    simp [(hD d hd).1]
  rw [this]
  rfl

/-- The columns for one variable. -/
structure ColsFor (env : Env) (D : List (Dim Cplx)) (v : Var) (cs : List Col) : Prop where
  names : cs.map Col.name = v.kind.names env v.name
  good : ∀ c ∈ cs, GoodCol env D c
  plain : v.kind = .plain → ∃ c ∈ cs, c.name = v.name.toList ∧ c.arr = v.arr
  matrix : ∀ di dj p q, v.kind = .matrix di dj p q → ∀ i < p, ∀ j < q, ∃ c ∈ cs, c.name = elemCol env v.name i j ∧
    ∀ idx, Nd.Valid (D.map fun d => d.data.length) idx → c.arr.nd.get idx = v.arr.nd.get (idx ++ [i, j])

theorem columns_ok {env : Env} {D : List (Dim Cplx)} (hD : GoodSweeps env D) (c : Bool) (v : Var)
    (hk : v.kind.Is D v.arr) (hv : GoodValues env c v.arr) :
    ∃ cs, columns env v.name c v.arr = .ok cs ∧ ColsFor env D v cs := by
  obtain ⟨n, a, k⟩ := v
  cases k with
  | plain =>
    have hm := ismatrix_plain hk.1 hD.notMatrix
    refine ⟨[⟨n.toList, c, a⟩], ?_, ?_⟩
    · unfold columns
      rw [hm]
      rfl
    · refine ⟨rfl, ?_, fun _ => ⟨⟨n.toList, c, a⟩, by simp, rfl, rfl⟩, by simp⟩
      intro c' hc'
      simp at hc'
      subst hc'
      refine ⟨hk.2, fun z hz => ?_⟩
      obtain ⟨idx, h1, rfl⟩ := mem_flat hz
      exact hv idx h1
  | matrix di dj p q =>
    obtain ⟨hs, _, _⟩ := hk
    simp only at hs hv
    have hm : ismatrix a = true := by
      unfold ismatrix
      rw [hs.dims]
      simp [hs.isI, hs.isJ]
    obtain ⟨cs, h1, h2⟩ := forall2_mapM
      (elemColumn env n c a)
      (fun ij col => col.name = elemCol env n ij.1 ij.2 ∧ col.cplx = c ∧ GoodCol env D col ∧
        ∀ idx, Nd.Valid (D.map fun d => d.data.length) idx → col.arr.nd.get idx = a.nd.get (idx ++ [ij.1, ij.2]))
      ((List.range p).flatMap fun i => (List.range q).map fun j => (i, j))
      (fun ij hij => by
        obtain ⟨i, j⟩ := ij
        simp only [List.mem_flatMap, List.mem_range, List.mem_map, Prod.mk.injEq] at hij
        obtain ⟨i', hi, j', hj, rfl, rfl⟩ := hij
        have ni : Nd.normAxis p (i' : Int) = some i' := by unfold Nd.normAxis; simp [hi]
        have nj : Nd.normAxis q (j' : Int) = some j' := by unfold Nd.normAxis; simp [hj]
        obtain ⟨r, e1, e2, e3, e4⟩ := getElem_mat benv hs i' j' i' j' ni nj
        refine ⟨⟨n.toList ++ env.fmtNat (i' + 1) ++ env.fmtNat (j' + 1), c, r⟩, by simp only [elemColumn, e1], rfl, rfl, ⟨e3, ?_⟩, e4⟩
        intro z hz
        obtain ⟨idx, k1, rfl⟩ := mem_flat hz
        simp only at k1 ⊢
        rw [e3] at k1
        rw [e4 idx k1]
        refine hv _ ?_
        rw [hs.shape]
        exact valid_append k1 ⟨hi, hj, trivial⟩)
    refine ⟨cs, ?_, ?_, ?_, by simp, ?_⟩
    · unfold columns
      rw [hm, if_pos rfl, hs.shape]
      simpa using h1
    · have := forall2_flatMap (fun ij : Nat × Nat => [elemCol env n ij.1 ij.2]) (fun c : Col => [c.name])
        (fun x y h => by simp [h.1]) h2
      rw [← List.map_eq_flatMap, ← List.map_eq_flatMap] at this
      rw [← this]
      simp only [Kind.names, List.map_flatMap, List.map_map, Function.comp_def]
    · intro col hcol
      obtain ⟨_, _, h⟩ := forall2_right h2 col hcol
      exact h.2.2.1
    · rintro di' dj' p' q' e i hi j hj
      simp only [Kind.matrix.injEq] at e
      obtain ⟨_, _, rfl, rfl⟩ := e
      obtain ⟨col, m1, m2⟩ := forall2_left h2 (i, j) (by
        simp only [List.mem_flatMap, List.mem_range, List.mem_map, Prod.mk.injEq]
        exact ⟨i, hi, j, hj, rfl, rfl⟩)
      exact ⟨col, m1, m2.1, m2.2.2.2⟩

/-! #### The copy of the block -/

theorem assign_keys_new (iv : OMap String (Dim Cplx)) (k : String) (d : Dim Cplx) (h : member iv k = false) :
    assign iv k d = iv ++ [(k, d)] := by
  unfold assign
  simp [h]

theorem addDims_fresh : ∀ (D : List (Dim Cplx)) (iv : OMap String (Dim Cplx)),
    (iv.map Prod.fst ++ D.map Dim.name).Nodup → addDims iv D = iv ++ D.map fun d => (d.name, d)
  | [], iv, _ => by simp [addDims]
  | d :: D, iv, h => by
    have hd : d.name ∉ iv.map Prod.fst := fun hm => (List.nodup_append.mp h).2.2 _ hm d.name (by simp) rfl
    have hm : member iv d.name = false := by
      unfold member
      rw [List.any_eq_false]
      intro p hp
      simp only [decide_eq_true_eq]
      rintro e
      exact hd (e ▸ List.mem_map_of_mem hp)
    have := addDims_fresh D (iv ++ [(d.name, d)]) (by simpa using h)
    unfold addDims at this ⊢
    rw [List.foldl_cons, hm]
    simp only [Bool.false_eq_true, if_false]
    rw [assign_keys_new _ _ _ hm, this]
    simp

/-- The sweeps of a copy, while it is being made. -/
structure Swept (D : List (Dim Cplx)) (iv : OMap String (Dim Cplx)) : Prop where
  known : ∀ d ∈ D, d.name ∈ iv.map Prod.fst
  sweeps : (iv.filter fun p => !(p.2.isa .matI || p.2.isa .matJ)) = D.map fun d => (d.name, d)

theorem swept_extra {D : List (Dim Cplx)} : ∀ (E : List (Dim Cplx)) (iv : OMap String (Dim Cplx)), Swept D iv →
    (∀ d ∈ E, d.isa .matI = true ∨ d.isa .matJ = true) → Swept D (addDims iv E)
  | [], _, h, _ => h
  | d :: E, iv, h, hE => by
    have key : Swept D (if member iv d.name then iv else assign iv d.name d) := by
      split
      · exact h
      · rename_i hm
        rw [assign_keys_new _ _ _ (by simpa using hm)]
        refine ⟨fun d' hd' => by simpa using Or.inl (by simpa using h.known d' hd'), ?_⟩
        rw [List.filter_append, h.sweeps]
        have : (d.isa .matI || d.isa .matJ) = true := by
          rcases hE d (by simp) with h | h <;> simp [h]
        rw [List.filter_cons]
        simp only [this]
        simp
    have := swept_extra E _ key fun d hd => hE d (by simp [hd])
    unfold addDims at this ⊢
    rw [List.foldl_cons]
    exact this

theorem addDims_append (iv : OMap String (Dim Cplx)) (D E : List (Dim Cplx)) :
    addDims iv (D ++ E) = addDims (addDims iv D) E := by
  unfold addDims
  rw [List.foldl_append]

theorem swept_first {env : Env} {D : List (Dim Cplx)} (hD : GoodSweeps env D) : Swept D (addDims [] D) := by
  rw [addDims_fresh D [] (by simpa using hD.nodup)]
  refine ⟨fun d hd => ?_, ?_⟩
  · simp only [List.nil_append, List.map_map]
    exact List.mem_map.mpr ⟨d, hd, rfl⟩
  · rw [List.nil_append, List.filter_eq_self]
    intro p hp
    obtain ⟨d, hd, rfl⟩ := List.mem_map.mp hp
    simp [hD.notMatrix d hd]

theorem kind_dims {D : List (Dim Cplx)} {a : Arr Cplx Cplx} {k : Kind} (h : k.Is D a) : a.dims = D ++ k.extra := by
  cases k with
  | plain => simpa [Kind.extra] using h.1
  | matrix => exact h.1.dims

theorem kind_extra {D : List (Dim Cplx)} {a : Arr Cplx Cplx} {k : Kind} (h : k.Is D a) :
    ∀ d ∈ k.extra, d.isa .matI = true ∨ d.isa .matJ = true := by
  cases k with
  | plain => simp [Kind.extra]
  | matrix di dj p q =>
    intro d hd
    simp [Kind.extra] at hd
    rcases hd with rfl | rfl
    · exact Or.inl h.1.isI
    · exact Or.inr h.1.isJ

/-- The names of the variables can be told apart from each other and from all dimensions, and none is
the name of an element of another. -/
structure GoodVars (D : List (Dim Cplx)) (vs : List Var) : Prop where
  nodup : (vs.map Var.name).Nodup
  dims : ∀ v ∈ vs, v.name ∉ D.map Dim.name ∧ ∀ w ∈ vs, v.name ∉ w.kind.extra.map Dim.name
  elems : ∀ v ∈ vs, ∀ m i j, isMatrixName v.name = some (m, i, j) → m ∉ vs.map Var.name

theorem copyVars_ok {env : Env} {D : List (Dim Cplx)} (hD : GoodSweeps env D) (all : List Var)
    (hg : GoodVars D all) (hk : ∀ v ∈ all, v.kind.Is D v.arr) : ∀ (todo done : List Var) (b : Block Cplx Cplx),
    done ++ todo = all → b.vars = done.map (fun v => (v.name, v.arr)) →
    (done ≠ [] → Swept D b.ivars) → (done = [] → b.ivars = []) →
    (∀ k ∈ b.ivars.map Prod.fst, k ∈ D.map Dim.name ∨ ∃ w ∈ all, k ∈ w.kind.extra.map Dim.name) →
    ∃ b', copyVars (todo.map fun v => (v.name, v.arr)) b = .ok b' ∧ b'.vars = all.map (fun v => (v.name, v.arr)) ∧
      (all ≠ [] → Swept D b'.ivars)
  | [], done, b, he, hb, hs, _, _ => by
    rw [List.append_nil] at he
    subst he
    exact ⟨b, rfl, hb, hs⟩
  | v :: todo, done, b, he, hb, hs, h0, hkeys => by
    have hv : v ∈ all := by rw [← he]; simp
    have hkeys' : b.vars.map Prod.fst = done.map Var.name := by rw [hb]; simp
    have hsub : ∀ n ∈ done.map Var.name, n ∈ all.map Var.name := by
      intro n hn
      rw [← he, List.map_append]
      exact List.mem_append_left _ hn
    have hnew : v.name ∉ done.map Var.name := by
      have := hg.nodup
      rw [← he, List.map_append] at this
      intro h
      exact (List.nodup_append.mp this).2.2 _ h v.name (by simp) rfl
    obtain ⟨b1, e1, e2, e3⟩ := setArr_new b v.name v.arr (by rw [hkeys']; exact hnew)
      (by
        intro h
        rcases hkeys _ h with h | ⟨w, hw, h⟩
        · exact (hg.dims v hv).1 h
        · exact (hg.dims v hv).2 w hw h)
      (fun m i j h => Or.inr fun hm => hg.elems v hv m i j h (hsub m (by rw [← hkeys']; exact hm)))
    have hsw : Swept D b1.ivars := by
      rw [e3, kind_dims (hk v hv), addDims_append]
      apply swept_extra _ _ _ (kind_extra (hk v hv))
      by_cases hdone : done = []
      · rw [h0 hdone]
        exact swept_first hD
      · have := hs hdone
        rw [addDims_known _ D this.known]
        exact this
    obtain ⟨b', f1, f2, f3⟩ := copyVars_ok hD all hg hk todo (done ++ [v]) b1 (by simpa using he)
      (by rw [e2, hb]; simp) (fun _ => hsw) (by simp) (by
        intro k hk'
        rw [e3] at hk'
        have := (mem_keys_addDims b.ivars v.arr.dims k).mp hk'
        rcases this with h | h
        · exact hkeys k h
        · rw [kind_dims (hk v hv)] at h
          obtain ⟨d, hd, rfl⟩ := h
          rcases List.mem_append.mp hd with hd | hd
          · exact Or.inl (List.mem_map_of_mem hd)
          · exact Or.inr ⟨v, hv, List.mem_map_of_mem hd⟩)
    refine ⟨b', ?_, f2, f3⟩
    rw [List.map_cons]
    simp only [copyVars, e1]
    exact f1

/-- C22: a block of which all variables have the same sweeps, with real coordinates, survives saving and
reading: a variable comes back as it is, a matrix as one variable for each element. -/
theorem C22_roundtrip {env : Env} (hn : NatSurvives env) (name : List Char) (comments : List (List Char))
    (cplx : String → Bool) (D : List (Dim Cplx)) (vs : List Var) (b : Block Cplx Cplx)
    (hb : b.vars = vs.map fun v => (v.name, v.arr)) (hD : GoodSweeps env D) (hv : GoodVars D vs)
    (hk : ∀ v ∈ vs, v.kind.Is D v.arr ∧ GoodValues env (cplx v.name) v.arr)
    (hN : GoodNames D (vs.flatMap fun v => v.kind.names env v.name)) (ht : NoTime comments) :
    ∃ lines b', save env name comments cplx b = .ok lines ∧
      read env lines = .ok (strip name, comments.map asRead, b') ∧
      b'.ivars.map (fun p => (p.1, p.2.name, p.2.data)) = D.map (fun d => (d.name, d.name, d.data)) ∧
      b'.vars.map Prod.fst = (vs.flatMap fun v => v.kind.names env v.name).map String.ofList ∧
      (∀ v ∈ vs, v.kind = .plain → ∃ r, lookup b'.vars v.name = some r ∧ Same D v.arr.nd.get r) ∧
      ∀ v ∈ vs, ∀ di dj p q, v.kind = .matrix di dj p q → ∀ i < p, ∀ j < q,
        ∃ r, lookup b'.vars (String.ofList (elemCol env v.name i j)) = some r ∧
          Same D (fun idx => v.arr.nd.get (idx ++ [i, j])) r := by
  have hne : vs ≠ [] := by
    rintro rfl
    exact hN.nonempty rfl
  obtain ⟨bc, c1, c2, c3⟩ := copyVars_ok hD vs hv (fun v h => (hk v h).1) vs [] {} rfl rfl (by simp) (by simp) (by simp)
  obtain ⟨css, d1, d2⟩ := forall2_mapM (fun v : Var => columns env v.name (cplx v.name) v.arr) (ColsFor env D) vs
    (fun v h => columns_ok hD (cplx v.name) v (hk v h).1 (hk v h).2)
  have hnames : css.flatten.map Col.name = vs.flatMap fun v => v.kind.names env v.name := by
    rw [forall2_flatMap (fun v : Var => v.kind.names env v.name) (fun cs => cs.map Col.name)
      (fun x y h => h.names.symm) d2]
    rw [List.map_flatten, List.flatMap_def]
  obtain ⟨b', r1, r2, r3, r4⟩ := C22_columns hn name comments D css.flatten hD (by rw [hnames]; exact hN)
    (by
      intro c hc
      obtain ⟨cs, h1, h2⟩ := List.mem_flatten.mp hc
      obtain ⟨v, _, h⟩ := forall2_right d2 cs h1
      exact h.good c h2) ht
  refine ⟨_, b', ?_, r1, r2, ?_, ?_, ?_⟩
  · unfold save
    rw [hb, c1]
    simp only
    rw [c2, List.mapM_map]
    have : ((fun p : String × Arr Cplx Cplx => columns env p.1 (cplx p.1) p.2) ∘ fun v : Var => (v.name, v.arr)) =
        fun v : Var => columns env v.name (cplx v.name) v.arr := rfl
    rw [this, d1]
    simp only
    unfold sweeps
    rw [(c3 hne).sweeps]
  · rw [r3, ← hnames, List.map_map]
    rfl
  · intro v h e
    obtain ⟨cs, h1, h2⟩ := forall2_left d2 v h
    obtain ⟨c, k1, k2, k3⟩ := h2.plain e
    obtain ⟨r, q1, q2⟩ := r4 c (List.mem_flatten.mpr ⟨cs, h1, k1⟩)
    rw [k2] at q1
    rw [k3] at q2
    exact ⟨r, by simpa using q1, q2⟩
  · intro v h di dj p q e i hi j hj
    obtain ⟨cs, h1, h2⟩ := forall2_left d2 v h
    obtain ⟨c, k1, k2, k3⟩ := h2.matrix di dj p q e i hi j hj
    obtain ⟨r, q1, q2⟩ := r4 c (List.mem_flatten.mpr ⟨cs, h1, k1⟩)
    rw [k2] at q1
    exact ⟨r, q1, q2.dims, q2.shape, fun idx hv' => by rw [q2.get idx hv', k3 idx hv']⟩

end HF.Citi
