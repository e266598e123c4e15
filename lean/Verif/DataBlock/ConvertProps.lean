import Verif.DataBlock.Convert
import Mathlib.Data.List.Nodup
import Mathlib.Data.List.Dedup
/-
C14: matrices to elements.
-/
namespace HF.DataBlock

open HF.DataDict.Spec
open HF.DataDict hiding rename delitem

variable {β α : Type}

/-- A variable that is a stack of `p` times `q` matrices, with the usual names `i` and `j` for the
matrix dimensions, and a name that ends with a letter or underscore. -/
structure MatVar (w : String × Arr β α) (ds : List (Dim β)) (di dj : Dim β) (sh : List Nat) (p q : Nat) :
    Prop extends MatStack w.2 ds di dj sh p q where
  base : BaseName w.1.toList
  nameI : di.name = "i"
  nameJ : dj.name = "j"
  others : ∀ d ∈ ds, d.name ≠ "i" ∧ d.name ≠ "j"
  lenI : di.data.length = p
  lenJ : dj.data.length = q

theorem dimsIndex_append (ds : List (Dim β)) (d : Dim β) (t : List (Dim β)) (n : String)
    (h : ∀ e ∈ ds, e.name ≠ n) (hd : d.name = n) :
    Arr.dimsIndex (ds ++ d :: t) n = some ds.length := by
  induction ds with
  | nil => simp [Arr.dimsIndex, hd]
  | cons a ds ih =>
    simp [Arr.dimsIndex, h a (by simp), ih fun e he => h e (by simp [he])]

theorem MatVar.indexI {w : String × Arr β α} {ds : List (Dim β)} {di dj : Dim β} {sh : List Nat}
    {p q : Nat} (h : MatVar w ds di dj sh p q) :
    Arr.dimsIndex w.2.dims "i" = some ds.length ∧
      (w.2.dims[ds.length]?).elim 0 (fun d : Dim β => d.data.length) = p := by
  rw [h.dims]
  refine ⟨dimsIndex_append ds di [dj] "i" (fun d hd => (h.others d hd).1) h.nameI, ?_⟩
  rw [List.getElem?_append_right (Nat.le_refl _)]
  simp [h.lenI]

theorem MatVar.indexJ {w : String × Arr β α} {ds : List (Dim β)} {di dj : Dim β} {sh : List Nat}
    {p q : Nat} (h : MatVar w ds di dj sh p q) :
    Arr.dimsIndex w.2.dims "j" = some (ds.length + 1) ∧
      (w.2.dims[ds.length + 1]?).elim 0 (fun d : Dim β => d.data.length) = q := by
  rw [h.dims]
  have e : ds ++ [di, dj] = (ds ++ [di]) ++ dj :: [] := by simp
  refine ⟨?_, ?_⟩
  · rw [e, dimsIndex_append (ds ++ [di]) dj [] "j" ?_ h.nameJ]
    · simp
    · intro d hd
      rcases List.mem_append.1 hd with hd | hd
      · exact (h.others d hd).2
      · simp only [List.mem_singleton] at hd
        rw [hd, h.nameI]; decide
  · rw [List.getElem?_append_right (by omega)]
    simp [h.lenJ]

/-- The value of an element. -/
def value (env : Env β α) (v : Arr β α) (i j : Nat) : Arr β α :=
  match getElem env v i j with
  | .ok r => r
  | .error _ => v

/-- What is assigned for a matrix. -/
def pieces (env : Env β α) (w : String × Arr β α) (p q : Nat) : List (String × Arr β α) :=
  (List.range p).flatMap fun i => (List.range q).map fun j =>
    (elementName w.1 (i + 1) (j + 1), value env w.2 i j)

theorem mem_pieces (env : Env β α) (w o : String × Arr β α) (p q : Nat) :
    o ∈ pieces env w p q ↔ ∃ i < p, ∃ j < q, o = (elementName w.1 (i + 1) (j + 1), value env w.2 i j) := by
  simp only [pieces, List.mem_flatMap, List.mem_range, List.mem_map]
  constructor
  · rintro ⟨i, hi, j, hj, rfl⟩; exact ⟨i, hi, j, hj, rfl⟩
  · rintro ⟨i, hi, j, hj, rfl⟩; exact ⟨i, hi, j, hj, rfl⟩

theorem normAxis_nat {n i : Nat} (h : i < n) : Nd.normAxis n (i : Int) = some i := by
  have : 0 ≤ (i : Int) ∧ (i : Int) < n := by omega
  simp only [Nd.normAxis, this, and_self, if_true, Option.some.injEq]
  omega

theorem MatVar.value {w : String × Arr β α} {ds : List (Dim β)} {di dj : Dim β} {sh : List Nat}
    {p q : Nat} (env : Env β α) (h : MatVar w ds di dj sh p q) {i j : Nat} (hi : i < p) (hj : j < q) :
    getElem env w.2 i j = .ok (value env w.2 i j) ∧ (value env w.2 i j).dims = ds ∧
      (value env w.2 i j).nd.shape = sh ∧
      ∀ idx, Nd.Valid sh idx → (value env w.2 i j).nd.get idx = w.2.nd.get (idx ++ [i, j]) := by
  obtain ⟨r, h1, h2, h3, h4⟩ := getElem_mat env h.toMatStack i j i j (normAxis_nat hi) (normAxis_nat hj)
  have : DataBlock.value env w.2 i j = r := by simp [DataBlock.value, h1]
  rw [this]
  exact ⟨h1, h2, h3, h4⟩

theorem MatVar.tasks {w : String × Arr β α} {ds : List (Dim β)} {di dj : Dim β} {sh : List Nat}
    {p q : Nat} (env : Env β α) (h : MatVar w ds di dj sh p q) :
    tasks env w = (pieces env w p q).map fun w => (w.1, .ok w.2) := by
  unfold DataBlock.tasks
  rw [if_pos h.ismatrix]
  simp only [h.indexI.1, h.indexI.2, h.indexJ.1, h.indexJ.2, pieces, List.map_flatMap, List.map_map]
  refine List.flatMap_congr fun i hi => List.map_congr_left fun j hj => ?_
  simp only [Function.comp, (h.value env (List.mem_range.1 hi) (List.mem_range.1 hj)).1]

/-- The names of one matrix are all different exactly if it has at most ten rows or at most ten
columns. -/
theorem C14_names (x : String) (p q : Nat) :
    (∀ i < p, ∀ j < q, ∀ i' < p, ∀ j' < q,
      elementName x (i + 1) (j + 1) = elementName x (i' + 1) (j' + 1) → i = i' ∧ j = j') ↔
    (p ≤ 10 ∨ q ≤ 10) := by
  have cancel : ∀ i j i' j', elementName x i j = elementName x i' j' ↔
      dec i ++ dec j = dec i' ++ dec j' := by
    intro i j i' j'
    unfold elementName
    constructor
    · intro h
      have := String.ofList_injective h
      rw [List.append_assoc, List.append_assoc] at this
      exact List.append_cancel_left this
    · intro h
      rw [List.append_assoc, List.append_assoc, h]
  constructor
  · intro h
    by_contra hc
    have := h 0 (by omega) 10 (by omega) 10 (by omega) 0 (by omega)
      ((cancel _ _ _ _).2 (by decide +kernel))
    omega
  · rintro (hp | hq) i hi j hj i' hi' j' hj' h
    · have := dec_pair_left (by omega) (by omega) (by omega) (by omega) (by omega) (by omega)
        ((cancel _ _ _ _).1 h)
      omega
    · have := dec_pair_right (by omega) (by omega) (by omega) (by omega) ((cancel _ _ _ _).1 h)
      omega

theorem pieces_nodup (env : Env β α) (w : String × Arr β α) (p q : Nat) (h : p ≤ 10 ∨ q ≤ 10) :
    ((pieces env w p q).map Prod.fst).Nodup := by
  have inj := (C14_names w.1 p q).2 h
  rw [pieces, List.map_flatMap, List.nodup_flatMap]
  refine ⟨?_, ?_⟩
  · intro i hi
    rw [List.map_map]
    refine (List.nodup_map_iff_inj_on List.nodup_range).2 ?_
    intro j hj j' hj' e
    rw [List.mem_range] at hi hj hj'
    exact (inj i hi j hj i hi j' hj' e).2
  · refine (List.nodup_range (n := p)).imp_of_mem ?_
    intro i i' hi hi' hne
    simp only [List.mem_range] at hi hi'
    intro n hn hn'
    simp only [List.map_map, List.mem_map, List.mem_range, Function.comp] at hn hn'
    obtain ⟨j, hj, rfl⟩ := hn
    obtain ⟨j', hj', e⟩ := hn'
    exact hne (inj i hi j hj i' hi' j' hj' e.symm).1

/-- Blocks for which names do not get into conflict. -/
structure Convertible (b : Block β α) : Prop where
  nodup : (b.vars.map Prod.fst).Nodup
  mats : ∀ w ∈ b.vars, ismatrix w.2 = true → ∃ ds di dj sh p q, MatVar w ds di dj sh p q ∧ (p ≤ 10 ∨ q ≤ 10)
  /-- no other variable has the name of an element -/
  plain : ∀ w ∈ b.vars, ismatrix w.2 = false → ∀ w' ∈ b.vars, ismatrix w'.2 = true →
    ∀ i j, w.1 ≠ elementName w'.1 i j
  elems : ∀ w ∈ b.vars, ismatrix w.2 = false → ∀ w' ∈ b.vars, ismatrix w'.2 = false →
    ∀ m i j, isMatrixName w.1 = some (m, i, j) → m ≠ w'.1
  /-- no dimension has the name of a variable or of an element -/
  dims : ∀ w ∈ b.vars, ∀ w' ∈ b.vars, ∀ d ∈ w'.2.dims, d.name ≠ w.1 ∧ ∀ i j, d.name ≠ elementName w.1 i j

/-- What is assigned for a variable. -/
def outputs (env : Env β α) (w : String × Arr β α) : List (String × Arr β α) :=
  if ismatrix w.2 then
    match w.2.nd.shape.reverse with
    | q :: p :: _ => pieces env w p q
    | _ => [w]
  else [w]

theorem outputs_mat (env : Env β α) {w : String × Arr β α} {ds : List (Dim β)} {di dj : Dim β}
    {sh : List Nat} {p q : Nat} (h : MatVar w ds di dj sh p q) : outputs env w = pieces env w p q := by
  have : w.2.nd.shape.reverse = q :: p :: sh.reverse := by rw [h.shape]; simp
  simp only [outputs, h.ismatrix, if_true, this]

theorem outputs_plain (env : Env β α) {w : String × Arr β α} (h : ismatrix w.2 = false) :
    outputs env w = [w] := by
  simp [outputs, h]

/-- What an output is. -/
theorem Convertible.output {b : Block β α} (hb : Convertible b) (env : Env β α)
    {w o : String × Arr β α} (hw : w ∈ b.vars) (ho : o ∈ outputs env w) :
    (ismatrix w.2 = false ∧ o = w) ∨
      (ismatrix w.2 = true ∧ BaseName w.1.toList ∧ (∃ i j, o.1 = elementName w.1 i j) ∧
        ∀ d ∈ o.2.dims, d ∈ w.2.dims) := by
  cases h : ismatrix w.2 with
  | false =>
    rw [outputs_plain env h] at ho
    exact Or.inl ⟨rfl, by simpa using ho⟩
  | true =>
    obtain ⟨ds, di, dj, sh, p, q, hm, hpq⟩ := hb.mats w hw h
    rw [outputs_mat env hm, mem_pieces] at ho
    obtain ⟨i, hi, j, hj, rfl⟩ := ho
    refine Or.inr ⟨rfl, hm.base, ⟨_, _, rfl⟩, ?_⟩
    intro d hd
    rw [(hm.value env hi hj).2.1] at hd
    rw [hm.dims]; simp [hd]

theorem Convertible.quiet {b : Block β α} (hb : Convertible b) (env : Env β α) :
    Quiet (b.vars.flatMap (outputs env)) where
  dims := by
    intro o ho o' ho' d hd
    obtain ⟨w, hw, ho⟩ := List.mem_flatMap.1 ho
    obtain ⟨w', hw', ho'⟩ := List.mem_flatMap.1 ho'
    have hd' : d ∈ w'.2.dims := by
      rcases hb.output env hw' ho' with ⟨_, rfl⟩ | ⟨_, _, _, h⟩
      · exact hd
      · exact h d hd
    rcases hb.output env hw ho with ⟨_, rfl⟩ | ⟨_, _, ⟨i, j, e⟩, _⟩
    · exact (hb.dims _ hw w' hw' d hd').1
    · rw [e]; exact (hb.dims _ hw w' hw' d hd').2 i j
  elems := by
    intro o ho o' ho' m a c hm _ he
    obtain ⟨w, hw, ho⟩ := List.mem_flatMap.1 ho
    obtain ⟨w', hw', ho'⟩ := List.mem_flatMap.1 ho'
    rcases hb.output env hw ho with ⟨hp, rfl⟩ | ⟨hp, hbn, ⟨i, j, e⟩, _⟩
    · rcases hb.output env hw' ho' with ⟨hp', rfl⟩ | ⟨hp', hbn', ⟨i', j', e'⟩, _⟩
      · exact hb.elems _ hw hp _ hw' hp' m a c hm he
      · -- the base of a name ends with a letter
        have hl : ∃ c, m.toList.getLast? = some c ∧ isLetter c = true := by
          unfold isMatrixName matrixName at hm
          cases hf : (List.range o.1.toList.length).reverse.find? (matAt o.1.toList) with
          | none => rw [hf] at hm; simp at hm
          | some k =>
            rw [hf] at hm
            simp only [Option.some.injEq, Prod.mk.injEq] at hm
            have hk := List.find?_some hf
            have hlt := List.mem_of_find?_eq_some hf
            simp only [List.mem_reverse, List.mem_range] at hlt
            simp only [matAt, Bool.and_eq_true, decide_eq_true_eq] at hk
            obtain ⟨⟨⟨⟨⟨h1, _⟩, _⟩, h4⟩, _⟩, _⟩ := hk
            cases hg : o.1.toList[k - 1]? with
            | none => rw [hg] at h4; simp at h4
            | some ch =>
              rw [hg] at h4
              refine ⟨ch, ?_, by simpa using h4⟩
              rw [← hm.1, String.toList_ofList, List.getLast?_eq_getElem?, List.length_take,
                List.getElem?_take]
              have : min k o.1.toList.length = k := by omega
              rw [this, if_pos (by omega)]
              exact hg
        obtain ⟨ch, h1, h2⟩ := hl
        rw [he, e'] at h1
        unfold elementName at h1
        rw [String.toList_ofList, List.getLast?_append,
          List.getLast?_eq_some_getLast (dec_ne_nil j')] at h1
        simp only [Option.some_or, Option.some.injEq] at h1
        have := dec_digits j' _ (List.getLast_mem (dec_ne_nil j'))
        rw [h1] at this
        rw [letter_not_digit this] at h2
        exact Bool.false_ne_true h2
    · obtain ⟨a', c', hm'⟩ := isMatrixName_elementName w.1 hbn i j
      rw [e, hm'] at hm
      simp only [Option.some.injEq, Prod.mk.injEq] at hm
      have hmw : w.1 = o'.1 := hm.1.trans he
      rcases hb.output env hw' ho' with ⟨hp', rfl⟩ | ⟨hp', hbn', ⟨i', j', e'⟩, _⟩
      · -- two variables with the same name
        have := List.inj_on_of_nodup_map hb.nodup hw hw' hmw
        rw [this, hp'] at hp
        exact Bool.false_ne_true hp
      · exact elementName_ne_base hbn i' j' (e' ▸ hmw.symm)
  nodup := by
    rw [List.map_flatMap, List.nodup_flatMap]
    refine ⟨?_, ?_⟩
    · intro w hw
      cases h : ismatrix w.2 with
      | false => rw [outputs_plain env h]; simp
      | true =>
        obtain ⟨ds, di, dj, sh, p, q, hm, hpq⟩ := hb.mats w hw h
        rw [outputs_mat env hm]; exact pieces_nodup env w p q hpq
    · have hn := hb.nodup
      rw [List.Nodup, List.pairwise_map] at hn
      refine hn.imp_of_mem ?_
      intro w w' hw hw' hne n h h'
      obtain ⟨o, ho, rfl⟩ := List.mem_map.1 h
      obtain ⟨o', ho', he⟩ := List.mem_map.1 h'
      rcases hb.output env hw ho with ⟨hp, rfl⟩ | ⟨hp, hbn, ⟨i, j, e⟩, _⟩ <;>
      rcases hb.output env hw' ho' with ⟨hp', rfl⟩ | ⟨hp', hbn', ⟨i', j', e'⟩, _⟩
      · exact hne he.symm
      · exact hb.plain _ hw hp w' hw' hp' i' j' (he.symm.trans e')
      · exact hb.plain _ hw' hp' w hw hp i j (he.trans e)
      · rw [e, e'] at he
        exact hne (elementName_base hbn hbn' he.symm).1

theorem Convertible.tasks {b : Block β α} (hb : Convertible b) (env : Env β α) :
    b.vars.flatMap (tasks env) = (b.vars.flatMap (outputs env)).map fun w => (w.1, .ok w.2) := by
  rw [List.map_flatMap]
  refine List.flatMap_congr fun w hw => ?_
  cases h : ismatrix w.2 with
  | false => simp [DataBlock.tasks, h, outputs_plain env h]
  | true =>
    obtain ⟨ds, di, dj, sh, p, q, hm, hpq⟩ := hb.mats w hw h
    rw [outputs_mat env hm, hm.tasks env]

theorem mem_lookup {V : Type} {m : OMap String V} (hn : (m.map Prod.fst).Nodup) {p : String × V}
    (h : p ∈ m) : lookup m p.1 = some p.2 := by
  cases hl : lookup m p.1 with
  | none =>
    rw [lookup_none_iff'] at hl
    exact absurd (List.mem_map.2 ⟨p, h, rfl⟩) hl
  | some v =>
    have := List.inj_on_of_nodup_map hn (lookup_mem hl) h rfl
    rw [← this]

/-- C14: the conversion keeps every other variable, and for every matrix and every row and column
there is a variable with the elements in this row and column; and there is nothing else. -/
theorem C14_convert (env : Env β α) (b : Block β α) (hb : Convertible b) :
    ∃ b', convert env b = .ok b' ∧ (b'.vars.map Prod.fst).Nodup ∧
      (∀ w ∈ b.vars, ismatrix w.2 = false → lookup b'.vars w.1 = some w.2) ∧
      (∀ w ∈ b.vars, ∀ ds di dj sh p q, MatVar w ds di dj sh p q → ∀ i < p, ∀ j < q,
        ∃ r, lookup b'.vars (elementName w.1 (i + 1) (j + 1)) = some r ∧ r.dims = ds ∧ r.nd.shape = sh ∧
          ∀ idx, Nd.Valid sh idx → r.nd.get idx = w.2.nd.get (idx ++ [i, j])) ∧
      (∀ n ∈ b'.vars.map Prod.fst, (∃ w ∈ b.vars, ismatrix w.2 = false ∧ w.1 = n) ∨
        ∃ w ∈ b.vars, ∃ ds di dj sh p q, MatVar w ds di dj sh p q ∧ ∃ i < p, ∃ j < q,
          elementName w.1 (i + 1) (j + 1) = n) := by
  have hq := hb.quiet env
  obtain ⟨b', h1, h2, _⟩ := writes_empty env _ hq
  refine ⟨b', ?_, by rw [h2]; exact hq.nodup, ?_, ?_, ?_⟩
  · rw [convert, hb.tasks env, runTasks_ok, h1]
  · intro w hw h
    rw [h2]
    exact mem_lookup hq.nodup (List.mem_flatMap.2 ⟨w, hw, by rw [outputs_plain env h]; simp⟩)
  · intro w hw ds di dj sh p q hm i hi j hj
    obtain ⟨_, e2, e3, e4⟩ := hm.value env hi hj
    refine ⟨value env w.2 i j, ?_, e2, e3, e4⟩
    rw [h2]
    exact mem_lookup (p := (elementName w.1 (i + 1) (j + 1), value env w.2 i j)) hq.nodup
      (List.mem_flatMap.2 ⟨w, hw, by rw [outputs_mat env hm, mem_pieces]; exact ⟨i, hi, j, hj, rfl⟩⟩)
  · intro n hn
    rw [h2] at hn
    obtain ⟨o, ho, rfl⟩ := List.mem_map.1 hn
    obtain ⟨w, hw, ho⟩ := List.mem_flatMap.1 ho
    cases h : ismatrix w.2 with
    | false =>
      rw [outputs_plain env h] at ho
      simp only [List.mem_singleton] at ho
      subst ho
      exact Or.inl ⟨_, hw, h, rfl⟩
    | true =>
      obtain ⟨ds, di, dj, sh, p, q, hm, hpq⟩ := hb.mats w hw h
      rw [outputs_mat env hm, mem_pieces] at ho
      obtain ⟨i, hi, j, hj, rfl⟩ := ho
      exact Or.inr ⟨w, hw, ds, di, dj, sh, p, q, hm, i, hi, j, hj, rfl⟩

/-- C14: up to nine rows and columns the names are those under which the elements are read. -/
theorem C14_readable (x : String) (hx : BaseName x.toList) (i j : Nat) (hi : i < 9) (hj : j < 9) :
    isMatrixName (elementName x (i + 1) (j + 1)) = some (x, (i : Int), (j : Int)) := by
  have h1 := digitChar_lt (i + 1) (by omega)
  have h2 := digitChar_lt (j + 1) (by omega)
  have e : elementName x (i + 1) (j + 1) = elemName x (digitChar (i + 1)) (digitChar (j + 1)) := by
    unfold elementName elemName
    rw [dec_lt (by omega), dec_lt (by omega), List.append_assoc]
    rfl
  rw [e, isMatrixName_elem x hx _ _ h1.1 h2.1, h1.2, h2.2]
  simp

/-- C14: from the tenth row or column on the names are those of other elements: element (10, 1) is
read as row one, column zero. -/
theorem C14_misread_refuted (x : String) (hx : BaseName x.toList) :
    isMatrixName (elementName x 10 1) = some (x, 0, -1) := by
  have := C04_name x.toList hx '1' '0' ['1'] (by decide) (by decide) (by decide)
  have e : dec 10 ++ dec 1 = ['1', '0', '1'] := by decide +kernel
  simp only [isMatrixName, elementName, String.toList_ofList, List.append_assoc, e, this,
    String.ofList_toList]
  rfl

/-- The pieces from row `a` on. -/
def rest (env : Env β α) (w : String × Arr β α) (a p' q : Nat) : List (String × Arr β α) :=
  (List.range p').flatMap fun i => (List.range q).map fun j =>
    (elementName w.1 (a + i + 1) (j + 1), value env w.2 (a + i) j)

theorem mem_rest (env : Env β α) (w o : String × Arr β α) (a p' q : Nat) :
    o ∈ rest env w a p' q ↔ ∃ i < p', ∃ j < q,
      o = (elementName w.1 (a + i + 1) (j + 1), value env w.2 (a + i) j) := by
  simp only [rest, List.mem_flatMap, List.mem_range, List.mem_map]
  constructor
  · rintro ⟨i, hi, j, hj, rfl⟩; exact ⟨i, hi, j, hj, rfl⟩
  · rintro ⟨i, hi, j, hj, rfl⟩; exact ⟨i, hi, j, hj, rfl⟩

theorem pieces_split (env : Env β α) (w : String × Arr β α) (a p' q p : Nat) (h : p = a + p') :
    pieces env w p q = pieces env w a q ++ rest env w a p' q := by
  subst h
  simp only [pieces, rest, List.range_add, List.flatMap_append, List.flatMap_map]

theorem lookup_unique {V : Type} {m : OMap String V} {n : String} {v : V} (h : (n, v) ∈ m)
    (hu : ∀ o ∈ m, o.1 = n → o.2 = v) : lookup m n = some v := by
  cases hl : lookup m n with
  | none =>
    rw [lookup_none_iff'] at hl
    exact absurd (List.mem_map.2 ⟨(n, v), h, rfl⟩) hl
  | some v' =>
    have := hu _ (lookup_mem hl) rfl
    simp only at this
    rw [this]

/-- C14: a matrix with at least eleven rows and columns: element (1, 11) is lost, the variable
with its name is element (11, 1), and there are fewer variables than elements. -/
theorem C14_lost_refuted (env : Env β α) (b : Block β α) (w : String × Arr β α) (hb : b.vars = [w])
    {ds : List (Dim β)} {di dj : Dim β} {sh : List Nat} {p q : Nat} (hm : MatVar w ds di dj sh p q)
    (hd : ∀ d ∈ ds, ∀ i j, d.name ≠ elementName w.1 i j) (hp : 11 ≤ p) (hq : 11 ≤ q) :
    ∃ b' r, convert env b = .ok b' ∧ b'.vars.length < p * q ∧
      lookup b'.vars (elementName w.1 1 11) = some r ∧
      ∀ idx, Nd.Valid sh idx → r.nd.get idx = w.2.nd.get (idx ++ [10, 0]) := by
  have hc : Calm (pieces env w p q) := by
    constructor
    · intro o ho o' ho' d hd'
      rw [mem_pieces] at ho ho'
      obtain ⟨i, hi, j, hj, rfl⟩ := ho
      obtain ⟨i', hi', j', hj', rfl⟩ := ho'
      rw [(hm.value env hi' hj').2.1] at hd'
      exact hd d hd' _ _
    · intro o ho o' ho' m a c he _ h
      rw [mem_pieces] at ho ho'
      obtain ⟨i, hi, j, hj, rfl⟩ := ho
      obtain ⟨i', hi', j', hj', rfl⟩ := ho'
      obtain ⟨a', c', he'⟩ := isMatrixName_elementName w.1 hm.base (i + 1) (j + 1)
      rw [he'] at he
      simp only [Option.some.injEq, Prod.mk.injEq] at he
      exact elementName_ne_base hm.base _ _ (h.symm.trans he.1.symm)
  obtain ⟨b', h1, h2, _⟩ := writes_assigns env _ hc
  have hconv : convert env b = .ok b' := by
    rw [convert, hb, List.flatMap_singleton, hm.tasks env, runTasks_ok, h1]
  have hsame : elementName w.1 1 11 = elementName w.1 11 1 := by
    unfold elementName
    rw [List.append_assoc, List.append_assoc]
    have : dec 1 ++ dec 11 = dec 11 ++ dec 1 := by decide +kernel
    rw [this]
  -- only these two indices have the name
  have hdec : ∀ i j, 1 ≤ i → 1 ≤ j → dec i ++ dec j = ['1', '1', '1'] →
      (i = 1 ∧ j = 11) ∨ (i = 11 ∧ j = 1) := by
    intro i j hi hj h
    have hl := congrArg List.length h
    rw [List.length_append] at hl
    have p1 := List.length_pos_iff.2 (dec_ne_nil i)
    have p2 := List.length_pos_iff.2 (dec_ne_nil j)
    have e1 : dec 1 = ['1'] := by decide +kernel
    have e11 : dec 11 = ['1', '1'] := by decide +kernel
    simp only [List.length_cons, List.length_nil] at hl
    by_cases hlen : (dec i).length = 1
    · obtain ⟨a, b⟩ := List.append_inj (s₂ := ['1']) (t₂ := ['1', '1']) h (by simp [hlen])
      exact Or.inl ⟨dec_inj (a.trans e1.symm), dec_inj (b.trans e11.symm)⟩
    · obtain ⟨a, b⟩ := List.append_inj (s₂ := ['1', '1']) (t₂ := ['1']) h (by simp; omega)
      exact Or.inr ⟨dec_inj (a.trans e11.symm), dec_inj (b.trans e1.symm)⟩
  have hname : ∀ i j, elementName w.1 (i + 1) (j + 1) = elementName w.1 1 11 →
      (i = 0 ∧ j = 10) ∨ (i = 10 ∧ j = 0) := by
    intro i j h
    have := (elementName_base hm.base hm.base h).2
    rw [show dec 1 ++ dec 11 = ['1', '1', '1'] by decide +kernel] at this
    have := hdec _ _ (by omega) (by omega) this
    omega
  refine ⟨b', value env w.2 10 0, hconv, ?_, ?_, (hm.value env (by omega) (by omega)).2.2.2⟩
  · -- fewer names than elements
    have hk : (keys b'.vars).Nodup := by
      rw [h2]; exact keys_assigns_nodup _ _ (by simp [keys])
    have hlen : ((pieces env w p q).map Prod.fst).length = p * q := by
      rw [List.length_map, pieces, List.length_flatMap]
      simp
    have hsub : keys b'.vars ⊆ (pieces env w p q).map Prod.fst := by
      intro n hn
      rw [h2, mem_keys_assigns] at hn
      rcases hn with hn | hn
      · simp [keys] at hn
      · exact hn
    have hnd : ¬ ((pieces env w p q).map Prod.fst).Nodup := by
      intro hnd
      have m1 : (elementName w.1 1 11, value env w.2 0 10) ∈ pieces env w p q :=
        (mem_pieces _ _ _ _ _).2 ⟨0, by omega, 10, by omega, rfl⟩
      -- the two entries are at different places
      obtain ⟨p', hp'⟩ : ∃ p', p = 10 + p' := ⟨p - 10, by omega⟩
      rw [pieces_split env w 10 p' q p hp', List.map_append, List.nodup_append] at hnd
      refine hnd.2.2 (elementName w.1 1 11) ?_ (elementName w.1 11 1) ?_ hsame
      · exact List.mem_map.2 ⟨(elementName w.1 1 11, value env w.2 0 10),
          (mem_pieces _ _ _ _ _).2 ⟨0, by omega, 10, by omega, rfl⟩, rfl⟩
      · exact List.mem_map.2 ⟨(elementName w.1 11 1, value env w.2 10 0),
          (mem_rest _ _ _ _ _ _).2 ⟨0, by omega, 0, by omega, rfl⟩, rfl⟩
    have hle := (List.subperm_of_subset hk (fun n hn => List.mem_dedup.2 (hsub hn))).length_le
    have hsl := List.dedup_sublist ((pieces env w p q).map Prod.fst)
    have hlt : ((pieces env w p q).map Prod.fst).dedup.length < ((pieces env w p q).map Prod.fst).length := by
      refine Nat.lt_of_le_of_ne hsl.length_le fun e => hnd ?_
      rw [← hsl.eq_of_length e]
      exact List.nodup_dedup _
    rw [List.length_map] at hle
    omega
  · rw [h2, lookup_assigns]
    obtain ⟨p', hp'⟩ : ∃ p', p = 10 + p' := ⟨p - 10, by omega⟩
    rw [pieces_split env w 10 p' q p hp', List.reverse_append, lookup_append]
    have : lookup (rest env w 10 p' q).reverse (elementName w.1 1 11) = some (value env w.2 10 0) := by
      refine lookup_unique ?_ ?_
      · rw [List.mem_reverse, mem_rest, hsame]
        exact ⟨0, by omega, 0, by omega, rfl⟩
      · intro o ho hn
        rw [List.mem_reverse, mem_rest] at ho
        obtain ⟨i, hi, j, hj, rfl⟩ := ho
        have := hname _ _ hn
        have e : i = 0 ∧ j = 0 := by omega
        rw [e.1, e.2]
    rw [this]; rfl

/-! ### Concrete cases -/

def convEx : Block Nat Nat := { vars := [("S", matS), ("x", sweepArr "f")], ivars := blkS.ivars }

theorem matVar_S : MatVar ("S", matS) [sweep "f"] ⟨.matI, "i", [0, 1], none, none⟩
    ⟨.matJ, "j", [0, 1], none, none⟩ [3] 2 2 where
  toMatStack := matStack_S
  base := baseName_S
  nameI := rfl
  nameJ := rfl
  others := by decide +kernel
  lenI := rfl
  lenJ := rfl

theorem elementName_two (x : String) (i j : Nat) : 2 ≤ (elementName x i j).toList.length := by
  unfold elementName
  have h1 := List.length_pos_iff.2 (dec_ne_nil i)
  have h2 := List.length_pos_iff.2 (dec_ne_nil j)
  rw [String.toList_ofList, List.length_append, List.length_append]
  omega

/-- The hypotheses of `C14_convert` are met. -/
example : Convertible convEx where
  nodup := by decide +kernel
  mats := by
    intro w hw h
    simp only [convEx, List.mem_cons, List.not_mem_nil, or_false] at hw
    rcases hw with rfl | rfl
    · exact ⟨_, _, _, _, _, _, matVar_S, by omega⟩
    · exact absurd h (by decide +kernel)
  plain := by
    intro w hw h w' hw' h' i j e
    simp only [convEx, List.mem_cons, List.not_mem_nil, or_false] at hw
    rcases hw with rfl | rfl
    · exact absurd h (by decide +kernel)
    · have := elementName_two w'.1 i j
      rw [← e] at this
      revert this; decide +kernel
  elems := by
    intro w hw h w' hw' h' m i j e
    simp only [convEx, List.mem_cons, List.not_mem_nil, or_false] at hw
    rcases hw with rfl | rfl
    · exact absurd h (by decide +kernel)
    · have : isMatrixName "x" = none := by decide +kernel
      rw [this] at e; simp at e
  dims := by
    intro w hw w' hw' d hd
    have h1 : d.name ∈ ["f", "i", "j"] := by
      revert d
      revert w'
      decide +kernel
    refine ⟨?_, ?_⟩
    · have h2 : w.1 ∈ ["S", "x"] := by revert w; decide +kernel
      intro e
      rw [e] at h1
      revert h1 h2
      generalize w.1 = n
      intro h1 h2
      simp only [List.mem_cons, List.not_mem_nil, or_false] at h1 h2
      rcases h2 with rfl | rfl <;> revert h1 <;> decide +kernel
    · intro i j e
      have := elementName_two w.1 i j
      rw [← e] at this
      have h3 : ∀ n ∈ ["f", "i", "j"], n.toList.length < 2 := by decide +kernel
      have := h3 _ h1
      omega

example : (convert envN convEx).toOption.map (fun b => b.vars.map fun w => (w.1, elems w.2)) =
    some [("S11", [0, 100, 200]), ("S12", [1, 101, 201]), ("S21", [10, 110, 210]), ("S22", [11, 111, 211]),
      ("x", [100, 101, 102])] := by
  decide +kernel

/-- C14: a variable that has the name of an element is lost. -/
theorem C14_element_name_refuted :
    (convert envN { vars := [("S11", sweepArr "f"), ("S", matS)] }).toOption.map
      (fun b => b.vars.map fun w => (w.1, elems w.2)) =
    some [("S11", [0, 100, 200]), ("S12", [1, 101, 201]), ("S21", [10, 110, 210]), ("S22", [11, 111, 211])] := by
  decide +kernel

end HF.DataBlock
