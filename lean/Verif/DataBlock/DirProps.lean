import Verif.DataBlock.Dir
import Verif.DataBlock.ElemProps
/-
C104: names offered for completion are the names that can be read.
-/
namespace HF.DataBlock

open HF.DataDict.Spec
open HF.DataDict hiding rename

variable {β α : Type}

/-! ### Helpers -/

theorem fold_names (l : OMap String (Arr β α)) (acc : List String) :
    ∀ n, n ∈ l.foldl (fun out kv => if out.contains kv.1 then out else out ++ [kv.1]) acc ↔
      n ∈ acc ∨ n ∈ l.map Prod.fst := by
  induction l generalizing acc with
  | nil => simp
  | cons kv t ih =>
    intro n
    rw [List.foldl_cons, ih]
    by_cases h : acc.contains kv.1
    · rw [if_pos h]
      have : kv.1 ∈ acc := by simpa using h
      simp only [List.map_cons, List.mem_cons]
      constructor
      · rintro (q | q)
        · exact Or.inl q
        · exact Or.inr (Or.inr q)
      · rintro (q | rfl | q)
        · exact Or.inl q
        · exact Or.inl this
        · exact Or.inr q
    · rw [if_neg h]
      simp only [List.mem_append, List.map_cons, List.mem_cons, List.not_mem_nil, or_false]
      tauto

theorem fold_nodup (l : OMap String (Arr β α)) (acc : List String) (h : acc.Nodup) :
    (l.foldl (fun out kv => if out.contains kv.1 then out else out ++ [kv.1]) acc).Nodup := by
  induction l generalizing acc with
  | nil => exact h
  | cons kv t ih =>
    rw [List.foldl_cons]
    refine ih _ ?_
    split
    · exact h
    · rename_i hc
      have : kv.1 ∉ acc := by simpa using hc
      rw [List.nodup_append]
      refine ⟨h, by simp, ?_⟩
      intro a ha b hb
      simp only [List.mem_singleton] at hb
      subst hb
      rintro rfl
      exact this ha

theorem lookup_of_mem {V : Type} {l : OMap String V} {k : String} {v : V} (hd : (l.map Prod.fst).Nodup) (h : (k, v) ∈ l) :
    lookup l k = some v := by
  induction l with
  | nil => cases h
  | cons kv t ih =>
    rw [lookup_cons]
    rw [List.map_cons, List.nodup_cons] at hd
    rcases List.mem_cons.1 h with rfl | h
    · simp
    · have : kv.1 ≠ k := fun e => hd.1 (by rw [e]; exact List.mem_map_of_mem h)
      simp [this, ih hd.2 h]

/-- The character of a digit. -/
def digit (n : Nat) : Char := Char.ofNat (48 + n)

theorem digit_spec (n : Nat) (h : n ≤ 9) : (toString n).toList = [digit n] ∧ isDig (digit n) = true ∧ digVal (digit n) = n := by
  have : ∀ n : Fin 10, (toString n.1).toList = [digit n.1] ∧ isDig (digit n.1) = true ∧ digVal (digit n.1) = n.1 := by
    decide +kernel
  exact this ⟨n, by omega⟩

theorem name_eq (x : String) {i j : Nat} (hi : i ≤ 9) (hj : j ≤ 9) :
    x ++ toString i ++ toString j = elemName x (digit i) (digit j) := by
  apply String.toList_inj.1
  simp only [String.toList_append, (digit_spec i hi).1, (digit_spec j hj).1, elemName, String.toList_ofList]
  simp

theorem elemNamesOf_stack {x : String} {m : Arr β α} {ds : List (Dim β)} {di dj : Dim β} {sh : List Nat} {p q : Nat}
    (h : MatStack m ds di dj sh p q) : elemNamesOf x m = if p ≤ 10 ∧ q ≤ 10 then
      (List.range p).flatMap fun i => (List.range q).map fun j => x ++ toString (i + 1) ++ toString (j + 1)
      else [] := by
  unfold elemNamesOf
  rw [h.ismatrix, h.shape]
  simp

/-! ### The property -/

/-- C104.  Every axis and every variable is offered, each once among the names of the block, and can be
read under its name. -/
theorem C104_variables (env : Env β α) (attrs : List String) (b : Block β α) (hi : (b.ivars.map Prod.fst).Nodup) :
    (∀ n, n ∈ b.ivars.map Prod.fst ∨ n ∈ b.vars.map Prod.fst →
      n ∈ dirNames attrs b ∧ (allVarNames b).count n = 1 ∧ ∃ r, getitem env b n = .ok r) := by
  intro n hn
  have hm : n ∈ allVarNames b := (fold_names _ _ n).2 hn
  refine ⟨by simp [dirNames, hm], List.count_eq_one_of_mem (fold_nodup _ _ hi) hm, ?_⟩
  unfold getitem
  cases e1 : lookup b.ivars n with
  | some d => exact ⟨_, rfl⟩
  | none =>
    cases e2 : lookup b.vars n with
    | some d => exact ⟨d, rfl⟩
    | none =>
      have h1 := (lookup_none_iff' _ _).1 e1
      have h2 := (lookup_none_iff' _ _).1 e2
      exact absurd hn (by tauto)

/-- C104.  For a matrix of at most nine rows and columns, `name` followed by row and column is offered
for every element, and it reads just this element (unless a variable or axis has this name). -/
theorem C104_elements (env : Env β α) (attrs : List String) (b : Block β α) (x : String) (hx : BaseName x.toList)
    (m : Arr β α) (hm : lookup b.vars x = some m) {ds : List (Dim β)} {di dj : Dim β} {sh : List Nat} {p q : Nat}
    (h : MatStack m ds di dj sh p q) (hp : p ≤ 9) (hq : q ≤ 9) (i j : Nat) (hi : i < p) (hj : j < q) :
    x ++ toString (i + 1) ++ toString (j + 1) ∈ dirNames attrs b ∧
      (x ++ toString (i + 1) ++ toString (j + 1) ∉ b.ivars.map Prod.fst →
       x ++ toString (i + 1) ++ toString (j + 1) ∉ b.vars.map Prod.fst →
      ∃ r, getitem env b (x ++ toString (i + 1) ++ toString (j + 1)) = .ok r ∧ r.dims = ds ∧ r.nd.shape = sh ∧
        ∀ idx, Nd.Valid sh idx → r.nd.get idx = m.nd.get (idx ++ [i, j])) := by
  constructor
  · unfold dirNames
    refine List.mem_append_left _ (List.mem_append_right _ (List.mem_flatMap.2 ⟨(x, m), lookup_mem hm, ?_⟩))
    show _ ∈ elemNamesOf x m
    rw [elemNamesOf_stack h, if_pos ⟨by omega, by omega⟩]
    exact List.mem_flatMap.2 ⟨i, List.mem_range.2 hi, List.mem_map.2 ⟨j, List.mem_range.2 hj, rfl⟩⟩
  · intro h1 h2
    rw [name_eq x (by omega) (by omega)] at h1 h2 ⊢
    obtain ⟨-, a1, a2⟩ := digit_spec (i + 1) (by omega)
    obtain ⟨-, b1, b2⟩ := digit_spec (j + 1) (by omega)
    obtain ⟨r, e1, e2, e3, e4⟩ := C04_read env b x hx m hm h (digit (i + 1)) (digit (j + 1)) a1 b1 (by omega) (by omega)
      (by omega) (by omega) h1 h2
    refine ⟨r, e1, e2, e3, fun idx hv => ?_⟩
    rw [e4 idx hv, a2, b2]
    simp

/-- C104.  If every matrix is of at most nine rows and columns and has the name of a matrix, every name
offered can be read (those of the class apart). -/
theorem C104_all (env : Env β α) (b : Block β α) (hi : (b.ivars.map Prod.fst).Nodup) (hv : (b.vars.map Prod.fst).Nodup)
    (hall : ∀ kv ∈ b.vars, ismatrix kv.2 = true → BaseName kv.1.toList ∧
      ∃ ds di dj sh p q, MatStack kv.2 ds di dj sh p q ∧ p ≤ 9 ∧ q ≤ 9) (n : String) (hn : n ∈ dirNames [] b) :
    ∃ r, getitem env b n = .ok r := by
  by_cases h0 : n ∈ b.ivars.map Prod.fst ∨ n ∈ b.vars.map Prod.fst
  · exact (C104_variables env [] b hi n h0).2.2
  · unfold dirNames at hn
    rw [List.append_nil, List.mem_append] at hn
    rcases hn with hn | hn
    · exact absurd ((fold_names _ _ n).1 hn) h0
    · obtain ⟨⟨k, v⟩, hkv, hn⟩ := List.mem_flatMap.1 hn
      simp only at hn
      have hmat : ismatrix v = true := by
        by_contra hc
        unfold elemNamesOf at hn
        rw [if_neg hc] at hn
        cases hn
      obtain ⟨hb, ds, di, dj, sh, p, q, hs, hp, hq⟩ := hall _ hkv hmat
      rw [elemNamesOf_stack hs, if_pos ⟨by omega, by omega⟩] at hn
      obtain ⟨i, hi', hn⟩ := List.mem_flatMap.1 hn
      obtain ⟨j, hj', rfl⟩ := List.mem_map.1 hn
      obtain ⟨r, hr, -⟩ := (C104_elements env [] b k hb v (lookup_of_mem hv hkv) hs hp hq i j
        (List.mem_range.1 hi') (List.mem_range.1 hj')).2 (fun h => h0 (Or.inl h)) (fun h => h0 (Or.inr h))
      exact ⟨r, hr⟩

/-- C104, not as expected.  Names are offered for matrices of ten columns, too: the one for the tenth
column reads the first column. -/
theorem C104_ten_refuted (env : Env β α) (attrs : List String) (b : Block β α) (x : String) (hx : BaseName x.toList)
    (m : Arr β α) (hm : lookup b.vars x = some m) {ds : List (Dim β)} {di dj : Dim β} {sh : List Nat} {p : Nat}
    (h : MatStack m ds di dj sh p 10) (hp : p ≤ 10) (i : Nat) (hi : i < p) (hi9 : i < 9)
    (h1 : x ++ toString (i + 1) ++ toString 10 ∉ b.ivars.map Prod.fst)
    (h2 : x ++ toString (i + 1) ++ toString 10 ∉ b.vars.map Prod.fst) :
    x ++ toString (i + 1) ++ toString 10 ∈ dirNames attrs b ∧
      ∃ r, getitem env b (x ++ toString (i + 1) ++ toString 10) = .ok r ∧ r.dims = ds ∧ r.nd.shape = sh ∧
        ∀ idx, Nd.Valid sh idx → r.nd.get idx = m.nd.get (idx ++ [i, 0]) := by
  constructor
  · unfold dirNames
    refine List.mem_append_left _ (List.mem_append_right _ (List.mem_flatMap.2 ⟨(x, m), lookup_mem hm, ?_⟩))
    show _ ∈ elemNamesOf x m
    rw [elemNamesOf_stack h, if_pos ⟨by omega, by omega⟩]
    exact List.mem_flatMap.2 ⟨i, List.mem_range.2 hi, List.mem_map.2 ⟨9, List.mem_range.2 (by omega), rfl⟩⟩
  · obtain ⟨a0, a1, a2⟩ := digit_spec (i + 1) (by omega)
    have hname : isMatrixName (x ++ toString (i + 1) ++ toString 10) = some (x, (i : Int), 0) := by
      have := C04_name x.toList hx (digit (i + 1)) '1' ['0'] a1 (by decide) (by decide)
      have e : (x ++ toString (i + 1) ++ toString 10).toList = x.toList ++ digit (i + 1) :: '1' :: ['0'] := by
        have t : (toString 10).toList = ['1', '0'] := by decide +kernel
        simp only [String.toList_append, a0, t]
        simp
      have d1 : ((digVal '1' : Nat) : Int) - 1 = 0 := by decide
      unfold isMatrixName
      rw [e, this, a2]
      simp [String.ofList_toList, d1]
    obtain ⟨r, e1, e2⟩ := getElem_mat env h (i : Int) 0 i 0 (by unfold Nd.normAxis; simp; omega) (by decide)
    refine ⟨r, ?_, e2⟩
    have l1 : lookup b.ivars (x ++ toString (i + 1) ++ toString 10) = none := (lookup_none_iff' _ _).2 h1
    have l2 : lookup b.vars (x ++ toString (i + 1) ++ toString 10) = none := (lookup_none_iff' _ _).2 h2
    simp only [getitem, l1, l2, hname, hm, h.ismatrix, if_true]
    exact e1

/-- C104, not as expected.  The names offered for the elements of a matrix whose name ends with a digit
cannot be read. -/
theorem C104_digit_refuted (env : Env β α) (attrs : List String) (b : Block β α) (x : String) (hx : BaseName x.toList)
    (d : Nat) (hd : d ≤ 9) (m : Arr β α) (hm : lookup b.vars (x ++ toString d) = some m) (hno : x ∉ b.vars.map Prod.fst)
    {ds : List (Dim β)} {di dj : Dim β} {sh : List Nat} {p q : Nat}
    (h : MatStack m ds di dj sh p q) (hp : p ≤ 9) (hq : q ≤ 9) (i j : Nat) (hi : i < p) (hj : j < q)
    (h1 : x ++ toString d ++ toString (i + 1) ++ toString (j + 1) ∉ b.ivars.map Prod.fst)
    (h2 : x ++ toString d ++ toString (i + 1) ++ toString (j + 1) ∉ b.vars.map Prod.fst) :
    x ++ toString d ++ toString (i + 1) ++ toString (j + 1) ∈ dirNames attrs b ∧
      getitem env b (x ++ toString d ++ toString (i + 1) ++ toString (j + 1)) = .error .keyError := by
  constructor
  · unfold dirNames
    refine List.mem_append_left _ (List.mem_append_right _ (List.mem_flatMap.2 ⟨(_, m), lookup_mem hm, ?_⟩))
    show _ ∈ elemNamesOf _ m
    rw [elemNamesOf_stack h, if_pos ⟨by omega, by omega⟩]
    exact List.mem_flatMap.2 ⟨i, List.mem_range.2 hi, List.mem_map.2 ⟨j, List.mem_range.2 hj, rfl⟩⟩
  · obtain ⟨a0, a1, a2⟩ := digit_spec (i + 1) (by omega)
    obtain ⟨b0, b1, b2⟩ := digit_spec (j + 1) (by omega)
    obtain ⟨d0, d1, d2⟩ := digit_spec d hd
    have hname : ∃ r c, isMatrixName (x ++ toString d ++ toString (i + 1) ++ toString (j + 1)) = some (x, r, c) := by
      have := C04_name x.toList hx (digit d) (digit (i + 1)) [digit (j + 1)] d1 a1 (by simpa using b1)
      have e : (x ++ toString d ++ toString (i + 1) ++ toString (j + 1)).toList =
          x.toList ++ digit d :: digit (i + 1) :: [digit (j + 1)] := by
        simp only [String.toList_append, a0, b0, d0]
        simp
      unfold isMatrixName
      rw [e, this]
      exact ⟨(digVal (digit d) : Int) - 1, (digVal (digit (i + 1)) : Int) - 1, by simp only [String.ofList_toList]⟩
    obtain ⟨r, c, hname⟩ := hname
    have l1 := (lookup_none_iff' b.ivars _).2 h1
    have l2 := (lookup_none_iff' b.vars _).2 h2
    have l3 := (lookup_none_iff' b.vars x).2 hno
    simp only [getitem, l1, l2, hname, l3]

/-- C104, not as expected.  No element of a matrix with more than ten rows or columns is offered,
although those of the first nine rows and columns can be read (`C04_read`). -/
theorem C104_large_refuted (b : Block β α)
    (hall : ∀ kv ∈ b.vars, ismatrix kv.2 = true →
      ∃ ds di dj sh p q, MatStack kv.2 ds di dj sh p q ∧ (10 < p ∨ 10 < q)) (n : String) (hn : n ∈ dirNames [] b) :
    n ∈ b.ivars.map Prod.fst ∨ n ∈ b.vars.map Prod.fst := by
  unfold dirNames at hn
  rw [List.append_nil, List.mem_append] at hn
  rcases hn with hn | hn
  · exact (fold_names _ _ n).1 hn
  · obtain ⟨⟨k, v⟩, hkv, hn⟩ := List.mem_flatMap.1 hn
    simp only at hn
    exfalso
    by_cases hmat : ismatrix v = true
    · obtain ⟨ds, di, dj, sh, p, q, hs, hp⟩ := hall _ hkv hmat
      rw [elemNamesOf_stack hs, if_neg (by omega)] at hn
      cases hn
    · unfold elemNamesOf at hn
      rw [if_neg hmat] at hn
      cases hn

/-! ### Non-vacuity -/

/-- A sweep of two by two matrices called `S`. -/
example : dirNames [] (⟨[("S", ⟨[⟨.dimSweep, "f", [1, 2, 3], none, none⟩, ⟨.matI, "i", [0, 1], none, none⟩,
    ⟨.matJ, "j", [0, 1], none, none⟩], ⟨[3, 2, 2], fun _ => 0⟩⟩)],
    [("f", ⟨.dimSweep, "f", [1, 2, 3], none, none⟩)], none⟩ : Block Nat Nat) =
    ["f", "S", "S11", "S12", "S21", "S22"] := by decide +kernel

/-- The hypotheses on it are met. -/
example : BaseName "S".toList ∧ MatStack (⟨[⟨.dimSweep, "f", [1, 2, 3], none, none⟩, ⟨.matI, "i", [0, 1], none, none⟩,
    ⟨.matJ, "j", [0, 1], none, none⟩], ⟨[3, 2, 2], fun _ => 0⟩⟩ : Arr Nat Nat)
    [⟨.dimSweep, "f", [1, 2, 3], none, none⟩] ⟨.matI, "i", [0, 1], none, none⟩ ⟨.matJ, "j", [0, 1], none, none⟩ [3] 2 2 :=
  ⟨⟨by decide, ⟨'S', by decide, by decide⟩, ⟨'S', by decide, by decide⟩⟩, ⟨rfl, rfl, by decide +kernel, by decide +kernel, rfl⟩⟩

end HF.DataBlock
