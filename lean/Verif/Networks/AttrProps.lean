import Verif.Networks.Attr
/-
C62: elements of port parameters as attributes.
-/
namespace HF.Networks

open HF.DataBlock HF.DataDict.Spec
open HF.DataDict hiding rename delitem

variable {β α : Type}

/-- The ways to write the name of a class. -/
def Spelling : Rep → List (List Char)
  | .Z => [['Z'], ['z']] | .Y => [['Y'], ['y']] | .S => [['S'], ['s']] | .G => [['G'], ['g']]
  | .H => [['H'], ['h']] | .ABCD => [['A'], ['a']] | .T => [['T'], ['t']]
  | .Tp => [['T', 'p'], ['t', 'p'], ['T', 'P']]

/-- Name and numbers of row and column, counted from one. -/
def attrText (name : List Char) (r c : Nat) : String := String.ofList (name ++ dec r ++ dec c)

theorem mem_attrNames (rep : Rep) (name : List Char) : name ∈ attrNames rep ↔ name ∈ Spelling rep := by
  cases rep <;> simp [attrNames, Spelling, shortname] <;> tauto

theorem spelling_letters (rep : Rep) (name : List Char) (h : name ∈ Spelling rep) :
    ∀ c ∈ name, isDig c = false := by
  have : ∀ n ∈ Spelling rep, n.all (fun c => !isDig c) = true := by cases rep <;> decide
  intro c hc
  have := List.all_eq_true.1 (this name h) c hc
  simpa using this

/-- A text of letters followed by digits can be taken apart in one way. -/
theorem letters_digits {a b x y : List Char} (ha : ∀ c ∈ a, isDig c = false) (hb : ∀ c ∈ b, isDig c = false)
    (hx : ∀ c ∈ x, isDig c = true) (hy : ∀ c ∈ y, isDig c = true) (h : a ++ x = b ++ y) : a = b ∧ x = y := by
  induction a generalizing b with
  | nil =>
    cases b with
    | nil => exact ⟨rfl, h⟩
    | cons c t =>
      exfalso
      have h1 := hb c (by simp)
      have h2 := hx c (by simp at h; rw [h]; simp)
      rw [h1] at h2; cases h2
  | cons d s ih =>
    cases b with
    | nil =>
      exfalso
      have h1 := ha d (by simp)
      have h2 := hy d (by simp at h; rw [← h]; simp)
      rw [h1] at h2; cases h2
    | cons c t =>
      simp only [List.cons_append, List.cons.injEq] at h
      obtain ⟨e1, e2⟩ := ih (fun c hc => ha c (by simp [hc])) (fun c hc => hb c (by simp [hc])) h.2
      exact ⟨by rw [h.1, e1], e2⟩

theorem attrText_inj {rep : Rep} {a b : List Char} (ha : a ∈ Spelling rep) (hb : b ∈ Spelling rep)
    {r c r' c' : Nat} (h : attrText a r c = attrText b r' c') : a = b ∧ dec r ++ dec c = dec r' ++ dec c' := by
  have h' := congrArg String.toList h
  simp only [attrText, String.toList_ofList, List.append_assoc] at h'
  refine letters_digits (spelling_letters rep a ha) (spelling_letters rep b hb) ?_ ?_ h' <;>
  · intro x hx
    rcases List.mem_append.1 hx with hx | hx <;> exact dec_digits _ x hx

theorem lookup_reverse_last {V : Type} (l : List (String × V)) (k : String) (v : V)
    (h : ∃ a b, l = a ++ (k, v) :: b ∧ ∀ w, (k, w) ∉ b) : lookup l.reverse k = some v := by
  obtain ⟨a, b, rfl, hb⟩ := h
  rw [List.reverse_append, List.reverse_cons, lookup_append, lookup_append]
  have : lookup b.reverse k = none := by
    rw [lookup_none_iff']
    intro hc
    obtain ⟨p, hp, hpk⟩ := List.mem_map.1 hc
    exact hb p.2 (by rw [← hpk]; exact List.mem_reverse.1 hp)
  rw [this]
  simp [lookup]

/-- The entries for one name: row by row. -/
def square (name : List Char) (n : Nat) : List (String × Nat × Nat) :=
  (List.range n).flatMap fun i => (List.range n).map fun j => (attrLabel name i j, i, j)

theorem mem_square {name : List Char} {n : Nat} {e : String × Nat × Nat} :
    e ∈ square name n ↔ e.2.1 < n ∧ e.2.2 < n ∧ e.1 = attrText name (e.2.1 + 1) (e.2.2 + 1) := by
  obtain ⟨k, i, j⟩ := e
  simp only [square, List.mem_flatMap, List.mem_range, List.mem_map, Prod.mk.injEq]
  constructor
  · rintro ⟨i', hi, j', hj, rfl, rfl, rfl⟩
    exact ⟨hi, hj, rfl⟩
  · rintro ⟨hi, hj, rfl⟩
    exact ⟨i, hi, j, hj, rfl, rfl, rfl⟩

/-- Rows, and columns in a row, in increasing order. -/
theorem square_sorted (name : List Char) (n : Nat) :
    (square name n).Pairwise fun e e' => e.2.1 < e'.2.1 ∨ (e.2.1 = e'.2.1 ∧ e.2.2 < e'.2.2) := by
  unfold square
  rw [List.pairwise_flatMap]
  refine ⟨fun i _ => ?_, ?_⟩
  · rw [List.pairwise_map]
    exact List.pairwise_lt_range.imp fun h => Or.inr ⟨rfl, h⟩
  · refine List.pairwise_lt_range.imp fun {i i'} h e he e' he' => ?_
    obtain ⟨_, _, rfl⟩ := List.mem_map.1 he
    obtain ⟨_, _, rfl⟩ := List.mem_map.1 he'
    exact Or.inl h

theorem lookup_square {name : List Char} {n i j : Nat} (hi : i < n) (hj : j < n)
    (hlast : ∀ i' j', i' < n → j' < n → attrText name (i' + 1) (j' + 1) = attrText name (i + 1) (j + 1) →
      i' ≤ i) :
    lookup (square name n).reverse (attrText name (i + 1) (j + 1)) = some (i, j) := by
  apply lookup_reverse_last
  have hmem : (attrText name (i + 1) (j + 1), i, j) ∈ square name n := mem_square.2 ⟨hi, hj, rfl⟩
  obtain ⟨a, b, h⟩ := List.append_of_mem hmem
  refine ⟨a, b, h, fun w hw => ?_⟩
  have hs := square_sorted name n
  rw [h, List.pairwise_append, List.pairwise_cons] at hs
  have h1 := hs.2.1.1 _ hw
  obtain ⟨h2, h3, h4⟩ := mem_square.1 (by rw [h]; simp [hw] : (attrText name (i + 1) (j + 1), w) ∈ square name n)
  simp only at h1 h2 h3 h4
  have h5 := hlast w.1 w.2 h2 h3 h4.symm
  rcases h1 with h1 | ⟨h1, h1'⟩
  · omega
  · have e := congrArg String.toList h4
    simp only [attrText, String.toList_ofList, ← h1] at e
    have := dec_inj (List.append_cancel_left e)
    omega

theorem lookup_square_other {rep : Rep} {name name' : List Char} (h : name ∈ Spelling rep)
    (h' : name' ∈ Spelling rep) (hne : name' ≠ name) (n r c : Nat) :
    lookup (square name' n).reverse (attrText name r c) = none := by
  rw [lookup_none_iff']
  intro hc
  obtain ⟨p, hp, hpk⟩ := List.mem_map.1 hc
  obtain ⟨-, -, h3⟩ := mem_square.1 (List.mem_reverse.1 hp)
  rw [hpk] at h3
  exact hne (attrText_inj h h' h3).1.symm

theorem attrEntries_eq (rep : Rep) (n : Nat) : attrEntries rep n =
    square ((shortname rep).map Char.toLower) n ++ (square ((shortname rep).map Char.toUpper) n ++
      square (shortname rep) n) := by
  simp [attrEntries, attrNames, square]

theorem lookup_entries {rep : Rep} {name : List Char} (h : name ∈ Spelling rep) {n i j : Nat}
    (hi : i < n) (hj : j < n)
    (hlast : ∀ i' j', i' < n → j' < n → dec (i' + 1) ++ dec (j' + 1) = dec (i + 1) ++ dec (j + 1) → i' ≤ i) :
    lookup (assigns [] (attrEntries rep n)) (attrText name (i + 1) (j + 1)) = some (i, j) := by
  have e1 := lookup_square (name := name) hi hj fun i' j' hi' hj' he =>
    hlast i' j' hi' hj' (attrText_inj h h he).2
  have e2 : ∀ name' ∈ attrNames rep, lookup (square name' n).reverse (attrText name (i + 1) (j + 1)) =
      if name' = name then some (i, j) else none := by
    intro name' hn
    by_cases e : name' = name
    · subst e; simpa using e1
    · rw [if_neg e]
      exact lookup_square_other h ((mem_attrNames rep name').1 hn) e n _ _
  have hm := (mem_attrNames rep name).2 h
  rw [lookup_assigns, attrEntries_eq, List.reverse_append, List.reverse_append, lookup_append, lookup_append,
    e2 _ (by simp [attrNames]), e2 _ (by simp [attrNames]), e2 _ (by simp [attrNames])]
  simp only [attrNames, List.mem_cons, List.not_mem_nil, or_false] at hm
  rcases hm with rfl | rfl | rfl
  · by_cases a : shortname rep = (shortname rep).map Char.toLower
    · simp [← a]
    · by_cases b : (shortname rep).map Char.toUpper = (shortname rep).map Char.toLower <;> simp [a, b]
  · by_cases a : shortname rep = (shortname rep).map Char.toUpper
    · simp [← a]
    · simp [a]
  · simp

theorem mem_entries {rep : Rep} {n : Nat} {key : String} {v : Nat × Nat}
    (h : lookup (assigns [] (attrEntries rep n)) key = some v) :
    v.1 < n ∧ v.2 < n ∧ ∃ name ∈ Spelling rep, key = attrText name (v.1 + 1) (v.2 + 1) := by
  rw [lookup_assigns] at h
  have h' : lookup (attrEntries rep n).reverse key = some v := by simpa [lookup] using h
  have hm := List.mem_reverse.1 (lookup_mem h')
  simp only [attrEntries, List.mem_flatMap] at hm
  obtain ⟨name, hn, hm⟩ := hm
  have := (mem_square (name := name) (n := n) (e := (key, v))).1
    (by simp only [square, List.mem_flatMap]; exact hm)
  exact ⟨this.1, this.2.1, name, (mem_attrNames rep name).1 hn, this.2.2⟩

/-! ### The property -/

/-- A stack of `n` times `n` matrices as an object made by the constructor. -/
def Stack (x : PArr β α) (ds : List (Dim β)) (di dj : Dim β) (sh : List Nat) (n : Nat) : Prop :=
  ∃ y : Arr β α, x.attrs = (PArr.init x.rep y).attrs ∧ MatStack y ds di dj sh n n ∧ MatStack x.arr ds di dj sh n n

theorem Stack.attrs {x : PArr β α} {ds : List (Dim β)} {di dj : Dim β} {sh : List Nat} {n : Nat}
    (h : Stack x ds di dj sh n) : x.attrs = assigns [] (attrEntries x.rep n) := by
  obtain ⟨y, h1, h2, -⟩ := h
  rw [h1]
  simp [PArr.init, h2.shape]

/-- Row `r` and column `c` can be named: among all rows and columns spelled with the same digits the
row is the last. -/
def Named (n r c : Nat) : Prop := 1 ≤ r ∧ r ≤ n ∧ 1 ≤ c ∧ c ≤ n ∧
  ∀ r' c', 1 ≤ r' → r' ≤ n → 1 ≤ c' → c' ≤ n → dec r' ++ dec c' = dec r ++ dec c → r' ≤ r

theorem Named.lookup {n r c : Nat} (hN : Named n r c) {rep : Rep} {name : List Char} (h : name ∈ Spelling rep) :
    DataDict.Spec.lookup (assigns [] (attrEntries rep n)) (attrText name r c) = some (r - 1, c - 1) := by
  obtain ⟨h1, h2, h3, h4, h5⟩ := hN
  obtain ⟨i, rfl⟩ : ∃ i, r = i + 1 := ⟨r - 1, by omega⟩
  obtain ⟨j, rfl⟩ : ∃ j, c = j + 1 := ⟨c - 1, by omega⟩
  exact lookup_entries h (by omega) (by omega) fun i' j' hi hj he => by
    have := h5 (i' + 1) (j' + 1) (by omega) (by omega) (by omega) (by omega) he
    omega

/-- C62: up to ten ports every element has a name. -/
theorem C62_named (n r c : Nat) (hn : n ≤ 10) (hr : 1 ≤ r) (hrn : r ≤ n) (hc : 1 ≤ c) (hcn : c ≤ n) :
    Named n r c :=
  ⟨hr, hrn, hc, hcn, fun r' c' h1 h2 h3 h4 h =>
    (dec_pair_left h1 hr h3 hc (by omega) (by omega) h).1.le⟩

/-- C62: for any number of ports the elements in the first nine rows and columns have names. -/
theorem C62_named_digits (n r c : Nat) (hr : 1 ≤ r) (hrn : r ≤ n) (hc : 1 ≤ c) (hcn : c ≤ n) (hr9 : r ≤ 9)
    (hc9 : c ≤ 9) : Named n r c := by
  refine ⟨hr, hrn, hc, hcn, fun r' c' h1 h2 h3 h4 h => ?_⟩
  rw [dec_lt (n := r) (by omega), dec_lt (n := c) (by omega)] at h
  have hl := congrArg List.length h
  have l1 := List.length_pos_iff.2 (dec_ne_nil r')
  have l2 := List.length_pos_iff.2 (dec_ne_nil c')
  simp at hl
  obtain ⟨d, hd⟩ := List.length_eq_one_iff.1 (show (dec r').length = 1 by omega)
  rw [hd] at h
  simp at h
  have : dec r' = dec r := by rw [hd, h.1, dec_lt (n := r) (by omega)]
  exact (dec_inj this).le

/-- C62, reading: the name of the class, in capital or small letters, with the numbers of row and column
counted from one gives the elements in this row and column, with the other dimensions. -/
theorem C62_read (env : Env β α) (x : PArr β α) {ds : List (Dim β)} {di dj : Dim β} {sh : List Nat} {n : Nat}
    (hx : Stack x ds di dj sh n) (name : List Char) (hname : name ∈ Spelling x.rep) (r c : Nat)
    (hN : Named n r c) :
    ∃ a, x.getattr env (attrText name r c) = .ok a ∧ a.dims = ds ∧ a.nd.shape = sh ∧
      ∀ idx, Nd.Valid sh idx → a.nd.get idx = x.arr.nd.get (idx ++ [r - 1, c - 1]) := by
  have hl := hN.lookup hname
  obtain ⟨h1, h2, h3, h4, -⟩ := hN
  obtain ⟨y, -, -, hm⟩ := id hx
  have e : ∀ {k : Nat}, 1 ≤ k → k ≤ n → Nd.normAxis n ((k - 1 : Nat) : Int) = some (k - 1) := by
    intro k hk hk'
    have := normAxis_pred hk hk'
    rwa [show (k : Int) - 1 = ((k - 1 : Nat) : Int) by omega] at this
  obtain ⟨a, ha, hd⟩ := getElem_mat env hm _ _ _ _ (e h1 h2) (e h3 h4)
  refine ⟨a, ?_, hd⟩
  simp only [PArr.getattr, hx.attrs, hl, ha]

/-- C62, writing: assigning to such a name changes exactly the elements in this row and column. -/
theorem C62_write (x : PArr β α) {ds : List (Dim β)} {di dj : Dim β} {sh : List Nat} {n : Nat}
    (hx : Stack x ds di dj sh n) (name : List Char) (hname : name ∈ Spelling x.rep) (r c : Nat)
    (hN : Named n r c) (v : Arr β α) (val : List Nat → α) (hv : Fits sh v val) :
    ∃ x', x.setattr (attrText name r c) v = .ok x' ∧ x'.rep = x.rep ∧ Stack x' ds di dj sh n ∧
      ∀ idx, Nd.Valid sh idx → ∀ k l, x'.arr.nd.get (idx ++ [k, l]) =
        if k + 1 = r ∧ l + 1 = c then val idx else x.arr.nd.get (idx ++ [k, l]) := by
  have hl := hN.lookup hname
  obtain ⟨h1, h2, h3, h4, -⟩ := hN
  obtain ⟨y, hy, hym, hm⟩ := id hx
  have e : ∀ {k : Nat}, 1 ≤ k → k ≤ n → Nd.normAxis n ((k - 1 : Nat) : Int) = some (k - 1) := by
    intro k hk hk'
    have := normAxis_pred hk hk'
    rwa [show (k : Int) - 1 = ((k - 1 : Nat) : Int) by omega] at this
  obtain ⟨m', g1, g2, g3, g4⟩ := setElem_mat hm _ _ _ _ (e h1 h2) (e h3 h4) val hv
  refine ⟨{ x with arr := m' }, ?_, rfl,
    ⟨y, hy, hym, ⟨g2.trans hm.dims, g3.trans hm.shape, hm.isI, hm.isJ, hm.len⟩⟩, ?_⟩
  · simp only [PArr.setattr, hx.attrs, hl, g1]
  · intro idx hidx k l
    rw [g4 idx hidx]
    have : (k = r - 1 ∧ l = c - 1) ↔ (k + 1 = r ∧ l + 1 = c) := by omega
    simp only [this]

/-- C62: reading after writing, under any spelling of the name. -/
theorem C62_write_read (env : Env β α) (x : PArr β α) {ds : List (Dim β)} {di dj : Dim β} {sh : List Nat}
    {n : Nat} (hx : Stack x ds di dj sh n) (name name' : List Char) (hname : name ∈ Spelling x.rep)
    (hname' : name' ∈ Spelling x.rep) (r c r' c' : Nat) (hN : Named n r c) (hN' : Named n r' c')
    (v : Arr β α) (val : List Nat → α) (hv : Fits sh v val) :
    ∃ x' a a', x.setattr (attrText name r c) v = .ok x' ∧ x.getattr env (attrText name' r' c') = .ok a ∧
      x'.getattr env (attrText name' r' c') = .ok a' ∧ a'.dims = a.dims ∧ a'.nd.shape = a.nd.shape ∧
      ∀ idx, Nd.Valid sh idx → a'.nd.get idx = if r' = r ∧ c' = c then val idx else a.nd.get idx := by
  obtain ⟨x', w1, w2, w3, w4⟩ := C62_write x hx name hname r c hN v val hv
  obtain ⟨a, a1, a2, a3, a4⟩ := C62_read env x hx name' hname' r' c' hN'
  obtain ⟨a', b1, b2, b3, b4⟩ := C62_read env x' w3 name' (by rw [w2]; exact hname') r' c' hN'
  refine ⟨x', a, a', w1, a1, b1, by rw [a2, b2], by rw [a3, b3], fun idx hidx => ?_⟩
  rw [b4 idx hidx, w4 idx hidx, a4 idx hidx]
  have : (r' - 1 + 1 = r ∧ c' - 1 + 1 = c) ↔ (r' = r ∧ c' = c) := by
    have := hN'.1; have := hN'.2.2.1
    omega
  simp only [this]

/-- C62: every other name is refused, for reading and for writing. -/
theorem C62_unknown (env : Env β α) (x : PArr β α) {ds : List (Dim β)} {di dj : Dim β} {sh : List Nat} {n : Nat}
    (hx : Stack x ds di dj sh n) (key : String)
    (hk : ∀ name ∈ Spelling x.rep, ∀ r c, 1 ≤ r → r ≤ n → 1 ≤ c → c ≤ n → key ≠ attrText name r c)
    (v : Arr β α) :
    x.getattr env key = .error .attributeError ∧ x.setattr key v = .error .attributeError := by
  have : DataDict.Spec.lookup x.attrs key = none := by
    cases h : DataDict.Spec.lookup x.attrs key with
    | none => rfl
    | some p =>
      rw [hx.attrs] at h
      obtain ⟨h1, h2, name, hn, hkey⟩ := mem_entries h
      exact absurd hkey (hk name hn _ _ (by omega) (by omega) (by omega) (by omega))
  simp [PArr.getattr, PArr.setattr, this]

/-! ### What does not hold -/

theorem dec_11 : dec 11 = ['1', '1'] := by
  rw [dec_ge (by omega), dec_lt (by omega)]; rfl

theorem dec_1 : dec 1 = ['1'] := by
  rw [dec_lt (by omega)]; rfl

/-- C62 fails for more than ten ports: `S111` is the element in row 11, column 1, and no name gives the
element in row 1, column 11. -/
theorem C62_ports_refuted (env : Env β α) (x : PArr β α) {ds : List (Dim β)} {di dj : Dim β} {sh : List Nat}
    {n : Nat} (hx : Stack x ds di dj sh n) (h11 : 11 ≤ n) (name : List Char) (hname : name ∈ Spelling x.rep) :
    attrText name 1 11 = attrText name 11 1 ∧
    (∃ a, x.getattr env (attrText name 1 11) = .ok a ∧
      ∀ idx, Nd.Valid sh idx → a.nd.get idx = x.arr.nd.get (idx ++ [10, 0])) ∧
    ∀ key, DataDict.Spec.lookup x.attrs key ≠ some (0, 10) := by
  have e : dec 1 ++ dec 11 = dec 11 ++ dec 1 := by rw [dec_1, dec_11]; rfl
  have et : ∀ name : List Char, attrText name 1 11 = attrText name 11 1 := fun name => by
    simp only [attrText, List.append_assoc, e]
  have hN : Named n 11 1 := by
    refine ⟨by omega, h11, by omega, by omega, fun r' c' h1 h2 h3 h4 h => ?_⟩
    by_contra hgt
    rw [dec_11, dec_1] at h
    have hl := congrArg List.length h
    have l2 := List.length_pos_iff.2 (dec_ne_nil c')
    simp at hl
    have l1 : (dec r').length ≤ 2 := by omega
    have hr : dec r' = (dec r' ++ dec c').take (dec r').length := by simp
    have l0 := List.length_pos_iff.2 (dec_ne_nil r')
    have hd : dec r' = dec 1 ∨ dec r' = dec 11 := by
      rw [h] at hr
      rw [dec_1, dec_11]
      rcases (show (dec r').length = 1 ∨ (dec r').length = 2 by omega) with hh | hh <;> rw [hh] at hr <;>
        simp at hr <;> tauto
    rcases hd with hd | hd <;> have := dec_inj hd <;> omega
  refine ⟨et name, ?_, fun key hk => ?_⟩
  · obtain ⟨a, h1, -, -, h4⟩ := C62_read env x hx name hname 11 1 hN
    exact ⟨a, by rw [et]; exact h1, h4⟩
  · rw [hx.attrs] at hk
    obtain ⟨-, -, name', hn, hkey⟩ := mem_entries hk
    have := hN.lookup (rep := x.rep) hn
    simp only at hkey
    rw [← et, show attrText name' 1 11 = key from hkey.symm, hk] at this
    simp at this

/-- C62 fails for results of arithmetic: they have the class, but no element has a name. -/
theorem C62_computed_refuted (env : Env β α) (rep : Rep) (x v : Arr β α) (key : String) :
    (PArr.computed rep x).getattr env key = .error .attributeError ∧
      (PArr.computed rep x).setattr key v = .error .attributeError := by
  simp [PArr.computed, PArr.getattr, PArr.setattr, DataDict.Spec.lookup]

/-! ### Non-vacuity -/

/-- Three frequencies, two ports. -/
example : Stack (PArr.init .S matS) [sweep "f"] ⟨.matI, "i", [0, 1], none, none⟩
    ⟨.matJ, "j", [0, 1], none, none⟩ [3] 2 := ⟨matS, rfl, matStack_S, matStack_S⟩

example : ['s'] ∈ Spelling .S ∧ attrText ['s'] 2 1 = "s21" := by
  refine ⟨by decide, ?_⟩
  have : dec 2 = ['2'] := by rw [dec_lt (by omega)]; rfl
  rw [attrText, dec_1, this]
  rfl

/-- Eleven ports. -/
def eleven : Arr Nat Nat :=
  ⟨[⟨.matI, "i", List.range 11, none, none⟩, ⟨.matJ, "j", List.range 11, none, none⟩], ⟨[11, 11], fun _ => 0⟩⟩

example : Stack (PArr.init .Y eleven) [] ⟨.matI, "i", List.range 11, none, none⟩
    ⟨.matJ, "j", List.range 11, none, none⟩ [] 11 := by
  have : MatStack eleven [] ⟨.matI, "i", List.range 11, none, none⟩
    ⟨.matJ, "j", List.range 11, none, none⟩ [] 11 11 := ⟨rfl, rfl, by decide +kernel, by decide +kernel, rfl⟩
  exact ⟨eleven, rfl, this, this⟩

end HF.Networks
