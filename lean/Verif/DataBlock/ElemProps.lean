import Verif.DataBlock.Lemmas
import Verif.DataBlock.Examples
import Verif.HFArray.NdLemmas
import Verif.HFArray.IndexLemmas
/-
C04: matrix elements by name.
-/
namespace HF.DataBlock

open HF.DataDict.Spec
open HF.DataDict hiding rename

variable {β α : Type}

/-! ### Names -/

/-- A name that can be the base of element names: letters, digits and underscores, beginning and
ending with a letter or underscore. -/
structure BaseName (x : List Char) : Prop where
  word : ∀ c ∈ x, isLetter c = true ∨ isDig c = true
  first : ∃ c, x.head? = some c ∧ isLetter c = true
  last : ∃ c, x.getLast? = some c ∧ isLetter c = true

theorem letter_not_digit {c : Char} (h : isDig c = true) : isLetter c = false := by
  simp only [isDig, isLetter, Bool.and_eq_true, decide_eq_true_eq, Char.le_def, Bool.or_eq_false_iff,
    beq_eq_false_iff_ne, ne_eq, Bool.and_eq_false_iff, decide_eq_false_iff_not] at h ⊢
  obtain ⟨h1, h2⟩ := h
  have e0 : ('0' : Char).val = 48 := rfl
  have e9 : ('9' : Char).val = 57 := rfl
  have eA : ('A' : Char).val = 65 := rfl
  have ea : ('a' : Char).val = 97 := rfl
  rw [e0] at h1; rw [e9] at h2; rw [eA, ea]
  rw [UInt32.le_iff_toNat_le] at *
  refine ⟨⟨?_, Or.inl ?_⟩, Or.inl ?_⟩
  · rintro rfl; revert h2; decide
  · intro h
    have a : (65 : UInt32).toNat = 65 := rfl
    have b : (57 : UInt32).toNat = 57 := rfl
    omega
  · intro h
    have a : (97 : UInt32).toNat = 97 := rfl
    have b : (57 : UInt32).toNat = 57 := rfl
    rw [UInt32.le_iff_toNat_le] at h
    omega

theorem find_range_reverse (p : Nat → Bool) (n k : Nat) (hk : k < n) (hp : p k = true)
    (hmax : ∀ k', k < k' → p k' = false) : (List.range n).reverse.find? p = some k := by
  induction n with
  | zero => omega
  | succ n ih =>
    rw [List.range_succ, List.reverse_append, List.reverse_singleton, List.singleton_append,
      List.find?_cons]
    by_cases e : k = n
    · subst e; simp [hp]
    · rw [hmax n (by omega)]; exact ih (by omega)

/-- C04: a base name followed by two digits and possibly further digits is the element given by
the first two digits. -/
theorem C04_name (x : List Char) (hx : BaseName x) (d1 d2 : Char) (t : List Char)
    (h1 : isDig d1 = true) (h2 : isDig d2 = true) (ht : ∀ c ∈ t, isDig c = true) :
    matrixName (x ++ d1 :: d2 :: t) = some (x, (digVal d1 : Int) - 1, (digVal d2 : Int) - 1) := by
  have hne : x ≠ [] := by
    obtain ⟨c, hc, _⟩ := hx.first
    rintro rfl; simp at hc
  have hlen : 1 ≤ x.length := List.length_pos_iff.2 hne
  have hat : matAt (x ++ d1 :: d2 :: t) x.length = true := by
    obtain ⟨c, hc, hcl⟩ := hx.first
    obtain ⟨e, he, hel⟩ := hx.last
    have g0 : (x ++ d1 :: d2 :: t)[0]? = some c := by
      rw [List.getElem?_append_left (by omega)]
      rw [← List.head?_eq_getElem?]; exact hc
    have gl : (x ++ d1 :: d2 :: t)[x.length - 1]? = some e := by
      rw [List.getElem?_append_left (by omega)]
      rw [← List.getLast?_eq_getElem?]; exact he
    have g1 : (x ++ d1 :: d2 :: t)[x.length]? = some d1 := by
      rw [List.getElem?_append_right (Nat.le_refl _)]; simp
    have g2 : (x ++ d1 :: d2 :: t)[x.length + 1]? = some d2 := by
      rw [List.getElem?_append_right (by omega)]; simp
    simp only [matAt, g0, gl, g1, g2, Option.any_some, h1, h2, hcl, hel, Bool.and_true,
      Bool.and_eq_true, decide_eq_true_eq, List.all_eq_true, Bool.or_eq_true]
    refine ⟨hlen, ?_⟩
    intro c hc
    rw [List.take_left] at hc
    exact hx.word c hc
  have hmax : ∀ k', x.length < k' → matAt (x ++ d1 :: d2 :: t) k' = false := by
    intro k' hk'
    have : ((x ++ d1 :: d2 :: t)[k' - 1]?).any isLetter = false := by
      rw [List.getElem?_append_right (by omega)]
      cases hg : (d1 :: d2 :: t)[k' - 1 - x.length]? with
      | none => rfl
      | some c =>
        have hm := List.mem_of_getElem? hg
        have hd : isDig c = true := by
          rcases List.mem_cons.1 hm with rfl | hm
          · exact h1
          rcases List.mem_cons.1 hm with rfl | hm
          · exact h2
          · exact ht c hm
        simp [letter_not_digit hd]
    simp [matAt, this]
  unfold matrixName
  rw [find_range_reverse _ _ x.length (by simp) hat hmax]
  simp

/-- The name of an element as the user writes it. -/
def elemName (x : String) (i j : Char) : String := String.ofList (x.toList ++ [i, j])

theorem isMatrixName_elem (x : String) (hx : BaseName x.toList) (i j : Char)
    (hi : isDig i = true) (hj : isDig j = true) :
    isMatrixName (elemName x i j) = some (x, (digVal i : Int) - 1, (digVal j : Int) - 1) := by
  have := C04_name x.toList hx i j [] hi hj (by simp)
  simp [isMatrixName, elemName, String.toList_ofList, this, String.ofList_toList]

/-! ### Reading and writing an element of an array -/

/-- A stack of `p` times `q` matrices: the matrix dimensions are the last two.  `sh` are the other
lengths. -/
structure MatStack (m : Arr β α) (ds : List (Dim β)) (di dj : Dim β) (sh : List Nat) (p q : Nat) :
    Prop where
  dims : m.dims = ds ++ [di, dj]
  shape : m.nd.shape = sh ++ [p, q]
  isI : di.isa .matI = true
  isJ : dj.isa .matJ = true
  len : ds.length = sh.length

theorem MatStack.ismatrix {m : Arr β α} {ds : List (Dim β)} {di dj : Dim β} {sh : List Nat}
    {p q : Nat} (h : MatStack m ds di dj sh p q) : ismatrix m = true := by
  simp [DataBlock.ismatrix, h.dims, h.isI, h.isJ]

theorem indexDims_mat (dflt : β → String) (ds : List (Dim β)) (di dj : Dim β) (i j : Int) :
    Arr.indexDims dflt (List.replicate ds.length (.slice Slice.full) ++ [.int i, .int j])
      (ds ++ [di, dj]) = .ok ds := by
  induction ds with
  | nil => simp [Arr.indexDims]
  | cons d t ih =>
    simp only [List.length_cons, List.replicate_succ, List.cons_append, Arr.indexDims, ih,
      Arr.dimSlice, if_true]

theorem resolve_mat (sh : List Nat) (p q : Nat) (i j : Int) (a b : Nat)
    (ha : Nd.normAxis p i = some a) (hb : Nd.normAxis q j = some b) :
    Nd.resolve (List.replicate sh.length (.slice Slice.full) ++ [.int i, .int j]) (sh ++ [p, q]) =
      .ok (sh.map (fun n => Sel.many (List.range n)) ++ [.one a, .one b]) := by
  induction sh with
  | nil => simp [Nd.resolve, ha, hb]
  | cons n t ih =>
    simp only [List.length_cons, List.replicate_succ, List.cons_append, Nd.resolve, ih,
      Slice.indices_full, List.map_cons]

theorem selShape_mat (sh : List Nat) (a b : Nat) :
    Nd.selShape (sh.map (fun n => Sel.many (List.range n)) ++ [.one a, .one b]) = sh := by
  induction sh with
  | nil => simp [Nd.selShape]
  | cons n t ih => simp [Nd.selShape, ih]

theorem selIdx_mat (sh idx : List Nat) (a b : Nat) (hv : Nd.Valid sh idx) :
    Nd.selIdx (sh.map (fun n => Sel.many (List.range n)) ++ [.one a, .one b]) idx =
      idx ++ [a, b] := by
  induction sh generalizing idx with
  | nil => cases idx <;> simp [Nd.Valid] at hv; simp [Nd.selIdx]
  | cons n t ih =>
    cases idx with
    | nil => simp [Nd.Valid] at hv
    | cons k idx =>
      simp only [Nd.Valid] at hv
      simp [Nd.selIdx, ih idx hv.2, hv.1]

/-- Reading `m[..., i, j]` of a stack of matrices. -/
theorem getElem_mat (env : Env β α) {m : Arr β α} {ds : List (Dim β)} {di dj : Dim β}
    {sh : List Nat} {p q : Nat} (h : MatStack m ds di dj sh p q) (i j : Int) (a b : Nat)
    (ha : Nd.normAxis p i = some a) (hb : Nd.normAxis q j = some b) :
    ∃ r, getElem env m i j = .ok r ∧ r.dims = ds ∧ r.nd.shape = sh ∧
      ∀ idx, Nd.Valid sh idx → r.nd.get idx = m.nd.get (idx ++ [a, b]) := by
  have hnd : m.nd.ndim = sh.length + 2 := by simp [Nd.ndim, h.shape]
  refine ⟨⟨ds, ⟨sh, fun idx => m.nd.get (Nd.selIdx (sh.map (fun n => Sel.many (List.range n)) ++
    [.one a, .one b]) idx)⟩⟩, ?_, rfl, rfl, fun idx hv => by simp only; rw [selIdx_mat _ _ _ _ hv]⟩
  have he : Arr.expandEllipsis m.nd.ndim [.ellipsis, .int i, .int j] =
      .ok (List.replicate sh.length (.slice Slice.full) ++ [.int i, .int j]) := by
    simp [Arr.expandEllipsis, hnd]
  have hpad : m.nd.ndim - (List.replicate sh.length (Ix.slice Slice.full) ++
      [Ix.int i, Ix.int j]).length = 0 := by simp [hnd]
  have hid : Arr.indexDims env.dflt (List.replicate sh.length (.slice Slice.full) ++
      [.int i, .int j]) m.dims = .ok ds := by
    rw [h.dims, ← h.len]; exact indexDims_mat _ _ _ _ _ _
  have hg : m.nd.getBasic (List.replicate sh.length (.slice Slice.full) ++ [.int i, .int j]) =
      .ok ⟨sh, fun idx => m.nd.get (Nd.selIdx (sh.map (fun n => Sel.many (List.range n)) ++
        [.one a, .one b]) idx)⟩ := by
    simp only [Nd.getBasic, h.shape, resolve_mat sh p q i j a b ha hb, selShape_mat]
  have hmk : ds.length = (⟨sh, fun idx => m.nd.get (Nd.selIdx (sh.map (fun n => Sel.many
      (List.range n)) ++ [.one a, .one b]) idx)⟩ : Nd α).ndim := by simp [Nd.ndim, h.len]
  have hgi : m.getitem env.dflt [.ellipsis, .int i, .int j] = .ok (.arr ⟨ds, ⟨sh, fun idx =>
      m.nd.get (Nd.selIdx (sh.map (fun n => Sel.many (List.range n)) ++
        [.one a, .one b]) idx)⟩⟩) := by
    simp only [Arr.getitem, he, hpad, List.replicate_zero, List.append_nil, hid, hg, Arr.ofNd,
      Arr.mk?, hmk, if_true]
    simp
  simp only [getElem, hgi, ofArr]

theorem bcastOk_refl (sh : List Nat) : bcastOk sh sh = true := by
  induction sh with
  | nil => rfl
  | cons n t ih => simp [bcastOk, ih]

theorem valid_append {a b i j : List Nat} (h : Nd.Valid a i) (h' : Nd.Valid b j) :
    Nd.Valid (a ++ b) (i ++ j) := by
  induction a generalizing i with
  | nil => cases i <;> simp [Nd.Valid] at h; simpa using h'
  | cons n t ih =>
    cases i with
    | nil => simp [Nd.Valid] at h
    | cons k idx => simp only [Nd.Valid] at h; exact ⟨h.1, ih h.2⟩

theorem valid_reverse {sh idx : List Nat} (h : Nd.Valid sh idx) : Nd.Valid sh.reverse idx.reverse := by
  induction sh generalizing idx with
  | nil => cases idx <;> simp [Nd.Valid] at h ⊢
  | cons n t ih =>
    cases idx with
    | nil => simp [Nd.Valid] at h
    | cons k idx =>
      simp only [Nd.Valid] at h
      simp only [List.reverse_cons]
      exact valid_append (ih h.2) ⟨h.1, trivial⟩

theorem bcastIdx_valid {sh idx : List Nat} (h : Nd.Valid sh idx) : bcastIdx sh idx = idx := by
  induction sh generalizing idx with
  | nil => cases idx <;> simp [Nd.Valid] at h; rfl
  | cons n t ih =>
    cases idx with
    | nil => simp [Nd.Valid] at h
    | cons k idx =>
      simp only [Nd.Valid] at h
      simp only [bcastIdx, ih h.2]
      by_cases e : n = 1
      · have : k = 0 := by omega
        simp [e, this]
      · simp [e]

/-- The value to write: an array with the lengths of the stack, or a single number. -/
inductive Fits (sh : List Nat) (v : Arr β α) : (List Nat → α) → Prop where
  | same (h : v.nd.shape = sh) : Fits sh v v.nd.get
  | scalar (h : v.nd.shape = []) : Fits sh v (fun _ => v.nd.get [])

/-- Writing `m[..., i, j] = v`. -/
theorem setElem_mat {m v : Arr β α} {ds : List (Dim β)} {di dj : Dim β} {sh : List Nat} {p q : Nat}
    (h : MatStack m ds di dj sh p q) (i j : Int) (a b : Nat) (ha : Nd.normAxis p i = some a)
    (hb : Nd.normAxis q j = some b) (val : List Nat → α) (hv : Fits sh v val) :
    ∃ m', setElem m i j v = .ok m' ∧ m'.dims = m.dims ∧ m'.nd.shape = m.nd.shape ∧
      ∀ idx, Nd.Valid sh idx → ∀ k l, m'.nd.get (idx ++ [k, l]) =
        if k = a ∧ l = b then val idx else m.nd.get (idx ++ [k, l]) := by
  have hrev : m.nd.shape.reverse = q :: p :: sh.reverse := by rw [h.shape]; simp
  have hok : bcastOk v.nd.shape.reverse sh.reverse = true := by
    cases hv with
    | same h => rw [h]; exact bcastOk_refl _
    | scalar h => rw [h]; rfl
  refine ⟨⟨m.dims, ⟨m.nd.shape, fun idx =>
    if idx.drop sh.reverse.length = [a, b] then
      v.nd.get (bcastIdx v.nd.shape.reverse (idx.take sh.reverse.length).reverse).reverse
    else m.nd.get idx⟩⟩, ?_, rfl, rfl, ?_⟩
  · simp only [setElem, hrev, ha, hb, hok, if_true]
  · intro idx hidx k l
    have hl : idx.length = sh.reverse.length := by rw [List.length_reverse]; exact hidx.length
    simp only
    rw [← hl, List.drop_left, List.take_left]
    by_cases e : k = a ∧ l = b
    · obtain ⟨rfl, rfl⟩ := e
      simp only [and_self, if_true]
      cases hv with
      | same h => rw [h, bcastIdx_valid (valid_reverse hidx), List.reverse_reverse]
      | scalar h => rw [h]; rfl
    · have : ¬ ([k, l] = [a, b]) := by simpa using e
      simp [this, e]

/-! ### C04 -/

theorem normAxis_pred {n i : Nat} (h1 : 1 ≤ i) (h2 : i ≤ n) :
    Nd.normAxis n ((i : Int) - 1) = some (i - 1) := by
  have : 0 ≤ (i : Int) - 1 ∧ (i : Int) - 1 < n := by omega
  simp only [Nd.normAxis, this, and_self, if_true, Option.some.injEq]
  omega

/-- C04, reading: for a stored matrix `x` the name `xij` with digits in range reads the elements
in row `i`, column `j` (counted from one), with the remaining dimensions.  (Unless the name is also
that of a stored variable or dimension.) -/
theorem C04_read (env : Env β α) (b : Block β α) (x : String) (hx : BaseName x.toList)
    (m : Arr β α) (hm : lookup b.vars x = some m) {ds : List (Dim β)} {di dj : Dim β}
    {sh : List Nat} {p q : Nat} (h : MatStack m ds di dj sh p q) (i j : Char)
    (hi : isDig i = true) (hj : isDig j = true) (hi1 : 1 ≤ digVal i) (hip : digVal i ≤ p)
    (hj1 : 1 ≤ digVal j) (hjq : digVal j ≤ q)
    (hiv : elemName x i j ∉ b.ivars.map Prod.fst) (hvn : elemName x i j ∉ b.vars.map Prod.fst) :
    ∃ r, getitem env b (elemName x i j) = .ok r ∧ r.dims = ds ∧ r.nd.shape = sh ∧
      ∀ idx, Nd.Valid sh idx → r.nd.get idx = m.nd.get (idx ++ [digVal i - 1, digVal j - 1]) := by
  obtain ⟨r, h1, h2⟩ := getElem_mat env h _ _ _ _ (normAxis_pred hi1 hip) (normAxis_pred hj1 hjq)
  refine ⟨r, ?_, h2⟩
  have e1 : lookup b.ivars (elemName x i j) = none := (lookup_none_iff' _ _).2 hiv
  have e2 : lookup b.vars (elemName x i j) = none := (lookup_none_iff' _ _).2 hvn
  simp only [getitem, e1, e2, isMatrixName_elem x hx i j hi hj, hm, h.ismatrix, if_true]
  exact h1

/-- C04, writing: assigning to `xij` changes exactly the elements in row `i`, column `j`, to the
value given, and no other variable, dimension or element. -/
theorem C04_write (env : Env β α) (b : Block β α) (x : String) (hx : BaseName x.toList)
    (m : Arr β α) (hm : lookup b.vars x = some m) {ds : List (Dim β)} {di dj : Dim β}
    {sh : List Nat} {p q : Nat} (h : MatStack m ds di dj sh p q) (i j : Char)
    (hi : isDig i = true) (hj : isDig j = true) (hi1 : 1 ≤ digVal i) (hip : digVal i ≤ p)
    (hj1 : 1 ≤ digVal j) (hjq : digVal j ≤ q) (v : Arr β α) (hmv : ismatrix v = false)
    (val : List Nat → α) (hv : Fits sh v val) :
    ∃ b', setArr env b (elemName x i j) v = (b', .ok ()) ∧ b'.ivars = b.ivars ∧
      (∀ y, y ≠ x → lookup b'.vars y = lookup b.vars y) ∧
      b'.vars.map Prod.fst = b.vars.map Prod.fst ∧
      ∃ m', lookup b'.vars x = some m' ∧ MatStack m' ds di dj sh p q ∧
        ∀ idx, Nd.Valid sh idx → ∀ k l, m'.nd.get (idx ++ [k, l]) =
          if k = digVal i - 1 ∧ l = digVal j - 1 then val idx else m.nd.get (idx ++ [k, l]) := by
  obtain ⟨m', h1, h2, h3, h4⟩ := setElem_mat h _ _ _ _ (normAxis_pred hi1 hip)
    (normAxis_pred hj1 hjq) val hv
  have hmem : member b.vars x = true := (member_iff _ _).2 (lookup_key hm)
  refine ⟨{ b with xname := nextXname b.xname v.dims, vars := assign b.vars x m' }, ?_, rfl, ?_, ?_,
    m', ?_, ?_, h4⟩
  · simp only [setArr, elemTarget, isMatrixName_elem x hx i j hi hj, hmem, hmv, Bool.not_false,
      Bool.and_self, if_true, hm, h1]
  · intro y hy; simp [lookup_assign, hy]
  · simp only [assign, hmem, if_true, keys_modify]
  · simp [lookup_assign]
  · exact ⟨h2.trans h.dims, h3.trans h.shape, h.isI, h.isJ, h.len⟩

/-- C04: after writing element `(i,j)` a read of the same element returns the value written, and
a read of any other element of the matrix returns what it did before. -/
theorem C04_write_read (env : Env β α) (b : Block β α) (x : String) (hx : BaseName x.toList)
    (m : Arr β α) (hm : lookup b.vars x = some m) {ds : List (Dim β)} {di dj : Dim β}
    {sh : List Nat} {p q : Nat} (h : MatStack m ds di dj sh p q) (i j i' j' : Char)
    (hi : isDig i = true) (hj : isDig j = true) (hi1 : 1 ≤ digVal i) (hip : digVal i ≤ p)
    (hj1 : 1 ≤ digVal j) (hjq : digVal j ≤ q)
    (hi' : isDig i' = true) (hj' : isDig j' = true) (hi1' : 1 ≤ digVal i') (hip' : digVal i' ≤ p)
    (hj1' : 1 ≤ digVal j') (hjq' : digVal j' ≤ q)
    (v : Arr β α) (hmv : ismatrix v = false)
    (val : List Nat → α) (hv : Fits sh v val)
    (hiv : elemName x i' j' ∉ b.ivars.map Prod.fst) (hvn : elemName x i' j' ∉ b.vars.map Prod.fst) :
    ∃ r r', getitem env b (elemName x i' j') = .ok r ∧
      getitem env (setArr env b (elemName x i j) v).1 (elemName x i' j') = .ok r' ∧
      r'.dims = r.dims ∧ r'.nd.shape = r.nd.shape ∧
      ∀ idx, Nd.Valid sh idx → r'.nd.get idx =
        if digVal i' = digVal i ∧ digVal j' = digVal j then val idx else r.nd.get idx := by
  obtain ⟨b', e1, e2, e3, e4, m', e5, e6, e7⟩ := C04_write env b x hx m hm h i j hi hj hi1 hip hj1
    hjq v hmv val hv
  obtain ⟨r, r1, r2, r3, r4⟩ := C04_read env b x hx m hm h i' j' hi' hj' hi1' hip' hj1' hjq' hiv hvn
  obtain ⟨r', s1, s2, s3, s4⟩ := C04_read env b' x hx m' e5 e6 i' j' hi' hj' hi1' hip' hj1' hjq'
    (e2 ▸ hiv) (e4 ▸ hvn)
  refine ⟨r, r', r1, by rw [e1]; exact s1, by rw [r2, s2], by rw [r3, s3], ?_⟩
  intro idx hidx
  rw [s4 idx hidx, e7 idx hidx, r4 idx hidx]
  have : (digVal i' - 1 = digVal i - 1 ∧ digVal j' - 1 = digVal j - 1) ↔
      (digVal i' = digVal i ∧ digVal j' = digVal j) := by omega
  simp only [this]

/-- C04: index zero addresses the last row (and likewise the last column). -/
theorem C04_zero_refuted (env : Env β α) (b : Block β α) (x : String) (hx : BaseName x.toList)
    (m : Arr β α) (hm : lookup b.vars x = some m) {ds : List (Dim β)} {di dj : Dim β}
    {sh : List Nat} {p q : Nat} (h : MatStack m ds di dj sh p q) (j : Char) (hp : 1 ≤ p)
    (hj : isDig j = true) (hj1 : 1 ≤ digVal j) (hjq : digVal j ≤ q)
    (hiv : elemName x '0' j ∉ b.ivars.map Prod.fst) (hvn : elemName x '0' j ∉ b.vars.map Prod.fst) :
    ∃ r, getitem env b (elemName x '0' j) = .ok r ∧
      ∀ idx, Nd.Valid sh idx → r.nd.get idx = m.nd.get (idx ++ [p - 1, digVal j - 1]) := by
  have hn : Nd.normAxis p ((digVal '0' : Int) - 1) = some (p - 1) := by
    have : (digVal '0' : Int) - 1 = -1 := by decide
    have h2 : -(p : Int) ≤ -1 := by omega
    simp only [this, Nd.normAxis]
    simp [h2]; omega
  obtain ⟨r, h1, h2, h3, h4⟩ := getElem_mat env h _ _ _ _ hn (normAxis_pred hj1 hjq)
  refine ⟨r, ?_, h4⟩
  have e1 : lookup b.ivars (elemName x '0' j) = none := (lookup_none_iff' _ _).2 hiv
  have e2 : lookup b.vars (elemName x '0' j) = none := (lookup_none_iff' _ _).2 hvn
  simp only [getitem, e1, e2, isMatrixName_elem x hx '0' j (by decide) hj, hm, h.ismatrix, if_true]
  exact h1

/-! ### Concrete cases -/

def matDims : List (Dim Nat) := [sweep "f", ⟨.matI, "i", [0, 1], none, none⟩, ⟨.matJ, "j", [0, 1], none, none⟩]

/-- Three 2x2 matrices; the element is the number formed by the index. -/
def matS : Arr Nat Nat := ⟨matDims, ⟨[3, 2, 2], fun idx => idx.foldl (fun a k => 10 * a + k) 0⟩⟩

def blkS : Block Nat Nat := { vars := [("S", matS)], ivars := matDims.map fun d => (d.name, d) }

theorem baseName_S : BaseName "S".toList where
  word := by decide +kernel
  first := ⟨'S', by decide +kernel, by decide +kernel⟩
  last := ⟨'S', by decide +kernel, by decide +kernel⟩

theorem matStack_S : MatStack matS [sweep "f"] ⟨.matI, "i", [0, 1], none, none⟩
    ⟨.matJ, "j", [0, 1], none, none⟩ [3] 2 2 where
  dims := rfl
  shape := rfl
  isI := by decide +kernel
  isJ := by decide +kernel
  len := rfl

/-- The hypotheses of `C04_write_read` are met. -/
example : ∃ r r', getitem envN blkS (elemName "S" '2' '1') = .ok r ∧
      getitem envN (setArr envN blkS (elemName "S" '2' '1') (sweepArr "f")).1 (elemName "S" '2' '1') = .ok r' ∧
      r'.dims = r.dims ∧ r'.nd.shape = r.nd.shape ∧
      ∀ idx, Nd.Valid [3] idx → r'.nd.get idx =
        if digVal '2' = digVal '2' ∧ digVal '1' = digVal '1' then (sweepArr "f").nd.get idx
        else r.nd.get idx :=
  C04_write_read envN blkS "S" baseName_S matS rfl matStack_S '2' '1' '2' '1' (by decide) (by decide)
    (by decide) (by decide) (by decide) (by decide) (by decide) (by decide) (by decide) (by decide)
    (by decide) (by decide) (sweepArr "f") (by decide +kernel) _ (.same rfl) (by decide +kernel)
    (by decide +kernel)

/-- All elements of a variable in row-major order. -/
def elems (x : Arr Nat Nat) : List Nat :=
  (List.range (Nd.size x.nd.shape)).map fun k => x.nd.get (Nd.unravel x.nd.shape k)

/-- C04: what follows the two digits need not be digits: assigning a new variable `S11_abs`
overwrites element (1,1) of the matrix `S`, and no variable `S11_abs` is stored. -/
theorem C04_suffix_refuted :
    let b := (setArr envN blkS "S11_abs" (sweepArr "f")).1
    b.vars.map Prod.fst = ["S"] ∧
    (lookup b.vars "S").map elems = some [100, 1, 10, 11, 101, 101, 110, 111, 102, 201, 210, 211] := by
  decide +kernel

/-- C04: the base variable need not be a matrix: storing `A11` beside a two-dimensional variable `A`
overwrites an element of `A`. -/
theorem C04_not_a_matrix_refuted :
    let a : Arr Nat Nat := ⟨[sweep "f", sweep "t"], ⟨[3, 3], fun _ => 7⟩⟩
    let b : Block Nat Nat := { vars := [("A", a)], ivars := [("f", sweep "f"), ("t", sweep "t")] }
    let v : Arr Nat Nat := ⟨[], ⟨[], fun _ => 1⟩⟩
    let b' := (setArr envN b "A11" v).1
    b'.vars.map Prod.fst = ["A"] ∧ (lookup b'.vars "A").map elems = some [1, 7, 7, 7, 7, 7, 7, 7, 7] ∧
    (getitem envN b' "A11").toOption.map elems = none := by
  decide +kernel

/-- C04: if a variable `S11` was stored before the matrix `S`, an assignment to `S11` goes to the
matrix and reading `S11` still gives the old variable. -/
theorem C04_stale_refuted :
    let b : Block Nat Nat := { vars := [("S11", sweepArr "f"), ("S", matS)], ivars := blkS.ivars }
    let v : Arr Nat Nat := ⟨[sweep "f"], ⟨[3], fun _ => 5⟩⟩
    let b' := (setArr envN b "S11" v).1
    ((getitem envN b' "S11").toOption.map elems) = some [100, 101, 102] ∧
    (lookup b'.vars "S").map elems = some [5, 1, 10, 11, 5, 101, 110, 111, 5, 201, 210, 211] := by
  decide +kernel

/-- C04: the value is written by position: with the dimensions in another order than those of
the matrix it ends up at the wrong coordinates. -/
theorem C04_write_order_refuted :
    let md : List (Dim Nat) := [⟨.dimSweep, "f", [1, 2], none, none⟩, ⟨.dimSweep, "t", [1, 2], none, none⟩]
    let x : Arr Nat Nat := ⟨md ++ [⟨.matI, "i", [0], none, none⟩, ⟨.matJ, "j", [0], none, none⟩],
      ⟨[2, 2, 1, 1], fun _ => 0⟩⟩
    let b : Block Nat Nat := { vars := [("S", x)], ivars := x.dims.map fun d => (d.name, d) }
    -- the value at (t, f) is `10 t + f`
    let v : Arr Nat Nat := ⟨md.reverse, ⟨[2, 2], fun idx => 10 * idx.getD 0 0 + idx.getD 1 0⟩⟩
    let r := (getitem envN (setArr envN b "S11" v).1 "S11").toOption
    r.map (fun r => r.dims.map Dim.name) = some ["f", "t"] ∧
    -- at f = 0, t = 1 there should be 10
    r.map (fun r => r.nd.get [0, 1]) = some 1 := by
  decide +kernel

end HF.DataBlock
