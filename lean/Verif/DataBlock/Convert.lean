import Verif.DataBlock.ElemProps
import Verif.DataBlock.Writes
/-
Conversion of matrices to one variable per element.

repo: hftools/dataset/dataset.py:71-85
-/
namespace HF.DataBlock

variable {β α : Type}

/-- The character of a digit. -/
def digitChar (n : Nat) : Char := Char.ofNat (48 + n)

/-- `"%s" % n` of a natural number: decimal notation. -/
def dec (n : Nat) : List Char :=
  if n < 10 then [digitChar n] else dec (n / 10) ++ [digitChar (n % 10)]
  termination_by n
  decreasing_by omega

/-- `"%s%s%s" % (varname, i, j)`.  repo: hftools/dataset/dataset.py:75-76 -/
def elementName (x : String) (i j : Nat) : String := String.ofList (x.toList ++ dec i ++ dec j)

/-- The assignments made for one variable, each with the outcome of computing the value.
`v.dims_index` raises `IndexError` if no dimension has the name.
repo: hftools/dataset/dataset.py:78-84 -/
def tasks (env : Env β α) (w : String × Arr β α) : List (String × Except Err (Arr β α)) :=
  if ismatrix w.2 then
    match Arr.dimsIndex w.2.dims "i" with
    | none => [(w.1, .error .indexError)]
    | some ii =>
      (List.range ((w.2.dims[ii]?).elim 0 fun d : Dim β => d.data.length)).flatMap fun i =>
        match Arr.dimsIndex w.2.dims "j" with
        | none => [(w.1, .error .indexError)]
        | some jj =>
          (List.range ((w.2.dims[jj]?).elim 0 fun d : Dim β => d.data.length)).map fun j =>
            (elementName w.1 (i + 1) (j + 1), getElem env w.2 i j)
  else [(w.1, .ok w.2)]

/-- Run the assignments one after the other. -/
def runTasks (env : Env β α) : Block β α → List (String × Except Err (Arr β α)) →
    Except Err (Block β α)
  | b, [] => .ok b
  | _, (_, .error e) :: _ => .error e
  | b, (n, .ok v) :: ts =>
    match setArr env b n v with
    | (b', .ok _) => runTasks env b' ts
    | (_, .error e) => .error e

/-- `convert_matrices_to_elements(db)`, with the default names.
repo: hftools/dataset/dataset.py:71-85 -/
def convert (env : Env β α) (b : Block β α) : Except Err (Block β α) :=
  runTasks env {} (b.vars.flatMap (tasks env))

theorem runTasks_ok (env : Env β α) (ws : List (String × Arr β α)) (b : Block β α) :
    runTasks env b (ws.map fun w => (w.1, .ok w.2)) = writes env b ws := by
  induction ws generalizing b with
  | nil => rfl
  | cons w ws ih =>
    simp only [List.map_cons, runTasks, writes]
    split <;> simp_all

/-! ### Decimal notation -/

theorem digitChar_lt : ∀ n < 10, isDig (digitChar n) = true ∧ digVal (digitChar n) = n := by decide

theorem dec_lt {n : Nat} (h : n < 10) : dec n = [digitChar n] := by
  rw [dec]; simp [h]

theorem dec_ge {n : Nat} (h : 10 ≤ n) : dec n = dec (n / 10) ++ [digitChar (n % 10)] := by
  rw [dec]; simp [Nat.not_lt.2 h]

theorem dec_digits (n : Nat) : ∀ c ∈ dec n, isDig c = true := by
  induction n using Nat.strongRecOn with
  | ind n ih =>
    by_cases h : n < 10
    · rw [dec_lt h]; simpa using (digitChar_lt n h).1
    · rw [dec_ge (by omega)]
      intro c hc
      rcases List.mem_append.1 hc with hc | hc
      · exact ih (n / 10) (by omega) c hc
      · simp only [List.mem_singleton] at hc
        rw [hc]; exact (digitChar_lt _ (by omega)).1

theorem dec_ne_nil (n : Nat) : dec n ≠ [] := by
  by_cases h : n < 10
  · rw [dec_lt h]; simp
  · rw [dec_ge (by omega)]; simp

/-- Value of a string of digits. -/
def decVal (l : List Char) : Nat := l.foldl (fun v c => 10 * v + digVal c) 0

theorem decVal_dec (n : Nat) : decVal (dec n) = n := by
  induction n using Nat.strongRecOn with
  | ind n ih =>
    by_cases h : n < 10
    · rw [dec_lt h]; simp [decVal, (digitChar_lt n h).2]
    · rw [dec_ge (by omega)]
      have := ih (n / 10) (by omega)
      unfold decVal at this ⊢
      rw [List.foldl_append, this]
      simp only [List.foldl_cons, List.foldl_nil]
      rw [(digitChar_lt (n % 10) (by omega)).2]
      omega

theorem dec_inj {m n : Nat} (h : dec m = dec n) : m = n := by
  rw [← decVal_dec m, h, decVal_dec]

/-- No leading zero. -/
theorem dec_head (n : Nat) (h : 1 ≤ n) : ∃ c, (dec n).head? = some c ∧ digVal c ≠ 0 := by
  induction n using Nat.strongRecOn with
  | ind n ih =>
    by_cases h' : n < 10
    · exact ⟨digitChar n, by rw [dec_lt h']; simp, by rw [(digitChar_lt n h').2]; omega⟩
    · obtain ⟨c, h1, h2⟩ := ih (n / 10) (by omega) (by omega)
      refine ⟨c, ?_, h2⟩
      rw [dec_ge (by omega), List.head?_append, h1]; rfl

/-- At most ten rows: the names of the elements are all different. -/
theorem dec_pair_left {i j i' j' : Nat} (hi : 1 ≤ i) (hi' : 1 ≤ i') (hj : 1 ≤ j) (hj' : 1 ≤ j')
    (h10 : i ≤ 10) (h10' : i' ≤ 10) (h : dec i ++ dec j = dec i' ++ dec j') : i = i' ∧ j = j' := by
  have d10 : dec 10 = [digitChar 1, digitChar 0] := by
    rw [dec_ge (by omega), dec_lt (by omega)]; rfl
  -- a single digit against ten
  have key : ∀ {i j j' : Nat}, 1 ≤ j' → i < 10 → dec i ++ dec j' = dec 10 ++ dec j → False := by
    intro i j j' hj' hi h
    rw [dec_lt hi, d10] at h
    simp only [List.cons_append, List.nil_append, List.cons.injEq] at h
    obtain ⟨c, hc, hc'⟩ := dec_head j' hj'
    rw [h.2] at hc
    simp only [List.head?_cons, Option.some.injEq] at hc
    rw [← hc, (digitChar_lt 0 (by omega)).2] at hc'
    exact hc' rfl
  by_cases e : i < 10 <;> by_cases e' : i' < 10
  · rw [dec_lt e, dec_lt e'] at h
    simp only [List.singleton_append, List.cons.injEq] at h
    have := congrArg digVal h.1
    rw [(digitChar_lt i e).2, (digitChar_lt i' e').2] at this
    exact ⟨this, dec_inj h.2⟩
  · have : i' = 10 := by omega
    subst this
    exact (key hj e h).elim
  · have : i = 10 := by omega
    subst this
    exact (key hj' e' h.symm).elim
  · have : i = 10 := by omega
    have : i' = 10 := by omega
    subst i; subst i'
    exact ⟨rfl, dec_inj (List.append_cancel_left h)⟩

/-- At most ten columns: likewise. -/
theorem dec_pair_right {i j i' j' : Nat} (hj : 1 ≤ j) (hj' : 1 ≤ j')
    (h10 : j ≤ 10) (h10' : j' ≤ 10) (h : dec i ++ dec j = dec i' ++ dec j') : i = i' ∧ j = j' := by
  have d10 : dec 10 = [digitChar 1] ++ [digitChar 0] := by
    rw [dec_ge (by omega), dec_lt (by omega)]
  have key : ∀ {i i' j : Nat}, 1 ≤ j → j < 10 → dec i ++ dec j = dec i' ++ dec 10 → False := by
    intro i i' j hj1 hj h
    rw [dec_lt hj, d10, ← List.append_assoc] at h
    have := (List.append_inj' h rfl).2
    simp only [List.cons.injEq, and_true] at this
    have := congrArg digVal this
    rw [(digitChar_lt j hj).2, (digitChar_lt 0 (by omega)).2] at this
    omega
  by_cases e : j < 10 <;> by_cases e' : j' < 10
  · rw [dec_lt e, dec_lt e'] at h
    obtain ⟨h1, h2⟩ := List.append_inj' h rfl
    simp only [List.cons.injEq, and_true] at h2
    have := congrArg digVal h2
    rw [(digitChar_lt j e).2, (digitChar_lt j' e').2] at this
    exact ⟨dec_inj h1, this⟩
  · have : j' = 10 := by omega
    subst this
    exact (key hj e h).elim
  · have : j = 10 := by omega
    subst this
    exact (key hj' e' h.symm).elim
  · have : j = 10 := by omega
    have : j' = 10 := by omega
    subst j; subst j'
    exact ⟨dec_inj (List.append_cancel_right h), rfl⟩

/-! ### Names of elements -/

/-- A name ending with a letter or underscore, followed by digits: both parts are determined. -/
theorem base_digits {x y : List Char} {s t : List Char}
    (hx : ∃ c, x.getLast? = some c ∧ isLetter c = true)
    (hy : ∃ c, y.getLast? = some c ∧ isLetter c = true)
    (hs : ∀ c ∈ s, isDig c = true) (ht : ∀ c ∈ t, isDig c = true) (h : x ++ s = y ++ t) :
    x = y ∧ s = t := by
  have key : ∀ {x y s t : List Char}, (∃ c, x.getLast? = some c ∧ isLetter c = true) →
      (∀ c ∈ t, isDig c = true) → x ++ s = y ++ t → x.length ≤ y.length := by
    rintro x y s t ⟨c, hc, hl⟩ ht h
    by_contra hlt
    have hx : 1 ≤ x.length := by omega
    have e1 : (x ++ s)[x.length - 1]? = some c := by
      rw [List.getElem?_append_left (by omega), ← List.getLast?_eq_getElem?]; exact hc
    rw [h, List.getElem?_append_right (by omega)] at e1
    have := ht c (List.mem_of_getElem? e1)
    rw [letter_not_digit this] at hl
    exact Bool.false_ne_true hl
  exact List.append_inj h (Nat.le_antisymm (key hx ht h) (key hy hs h.symm))

theorem elementName_base {x y : String} (hx : BaseName x.toList) (hy : BaseName y.toList)
    {i j i' j' : Nat} (h : elementName x i j = elementName y i' j') :
    x = y ∧ dec i ++ dec j = dec i' ++ dec j' := by
  unfold elementName at h
  have := String.ofList_injective h
  rw [List.append_assoc, List.append_assoc] at this
  have hd : ∀ a b : Nat, ∀ c ∈ dec a ++ dec b, isDig c = true := by
    intro a b c hc
    rcases List.mem_append.1 hc with hc | hc
    · exact dec_digits _ c hc
    · exact dec_digits _ c hc
  obtain ⟨h1, h2⟩ := base_digits hx.last hy.last (hd _ _) (hd _ _) this
  exact ⟨String.toList_inj.1 h1, h2⟩

/-- All names of elements are read as names of elements of the same matrix. -/
theorem isMatrixName_elementName (x : String) (hx : BaseName x.toList) (i j : Nat) :
    ∃ a b, isMatrixName (elementName x i j) = some (x, a, b) := by
  have hl : 2 ≤ (dec i ++ dec j).length := by
    have h1 := List.length_pos_iff.2 (dec_ne_nil i)
    have h2 := List.length_pos_iff.2 (dec_ne_nil j)
    rw [List.length_append]; omega
  have hd : ∀ c ∈ dec i ++ dec j, isDig c = true := by
    intro c hc
    rcases List.mem_append.1 hc with hc | hc
    · exact dec_digits _ c hc
    · exact dec_digits _ c hc
  rcases he : dec i ++ dec j with _ | ⟨d1, _ | ⟨d2, t⟩⟩
  · rw [he] at hl; simp at hl
  · rw [he] at hl; simp at hl
  · rw [he] at hd
    have := C04_name x.toList hx d1 d2 t (hd _ (by simp)) (hd _ (by simp))
      (fun c hc => hd c (by simp [hc]))
    refine ⟨(digVal d1 : Int) - 1, (digVal d2 : Int) - 1, ?_⟩
    simp only [isMatrixName, elementName, String.toList_ofList, List.append_assoc, he, this,
      String.ofList_toList]

/-- An element name does not end with a letter. -/
theorem elementName_ne_base {x y : String} (hy : BaseName y.toList) (i j : Nat) :
    elementName x i j ≠ y := by
  intro h
  obtain ⟨c, hc, hl⟩ := hy.last
  rw [← h, elementName, String.toList_ofList] at hc
  have hne := dec_ne_nil j
  rw [List.getLast?_append, List.getLast?_eq_some_getLast hne] at hc
  simp only [Option.some_or, Option.some.injEq] at hc
  have := dec_digits j _ (List.getLast_mem hne)
  rw [hc] at this
  rw [letter_not_digit this] at hl
  exact Bool.false_ne_true hl

end HF.DataBlock
