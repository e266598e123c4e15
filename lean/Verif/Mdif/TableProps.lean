import Verif.Mdif.Read
import Verif.Mdif.NamesProps
/-
C63: the values in the table of a block of an MDIF file.
-/
namespace HF.Mdif

open HF.DataDict.Spec
open Units (isWs strip)

variable {α : Type}

/-! ### Titles of columns -/

/-- How a title is written: the name, the type in parentheses, and perhaps something more in which no
type is mentioned again. -/
def Titled (s n : List Char) (t : Ty) : Prop :=
  n ≠ [] ∧ (∃ r, s = n ++ '(' :: t.text ++ ')' :: r) ∧
    ∀ (n' : List Char) (t' : Ty) (r' : List Char), s = n' ++ '(' :: t'.text ++ ')' :: r' → n'.length ≤ n.length

theorem typeAt_iff (s : List Char) (t : Ty) : typeAt s = some t ↔ ∃ r, s = '(' :: t.text ++ ')' :: r := by
  have pre : ∀ t : Ty, ('(' :: t.text ++ [')']).isPrefixOf s = true ↔ ∃ r, s = '(' :: t.text ++ ')' :: r := by
    intro t
    rw [List.isPrefixOf_iff_prefix]
    constructor
    · rintro ⟨r, rfl⟩; exact ⟨r, by simp⟩
    · rintro ⟨r, rfl⟩; exact ⟨r, by simp⟩
  constructor
  · intro h
    have := List.find?_some h
    exact (pre t).1 this
  · rintro ⟨r, rfl⟩
    unfold typeAt
    cases t <;> simp [Ty.text, List.find?_cons]

/-- C63: the name and the type of a column. -/
theorem C63_title (s n : List Char) (t : Ty) : parseHeader s = some (n, t) ↔ Titled s n t := by
  have at_iff : ∀ k t, typeAt (s.drop k) = some t → ∃ r, s = s.take k ++ '(' :: t.text ++ ')' :: r := by
    intro k t h
    obtain ⟨r, hr⟩ := (typeAt_iff _ _).1 h
    refine ⟨r, ?_⟩
    rw [List.append_assoc, ← List.take_append_drop k s]
    simp only [List.take_append_drop]
    rw [show ('(' :: t.text ++ ')' :: r) = s.drop k from hr.symm, List.take_append_drop]
  have of_split : ∀ n t r, s = n ++ '(' :: t.text ++ ')' :: r → typeAt (s.drop n.length) = some t ∧
      n.length < s.length ∧ s.take n.length = n := by
    rintro n t r rfl
    refine ⟨(typeAt_iff _ _).2 ⟨r, by rw [List.append_assoc, List.drop_left]⟩, by simp, by
      rw [List.append_assoc, List.take_left]⟩
  unfold parseHeader
  constructor
  · intro h
    split at h
    · rename_i k hk
      obtain ⟨hk1, as, bs, e, hb⟩ := List.find?_eq_some_iff_append.1 hk
      simp only [Bool.and_eq_true, decide_eq_true_eq] at hk1
      simp only [Option.map_eq_some_iff, Prod.mk.injEq] at h
      obtain ⟨t', h1, rfl, rfl⟩ := h
      have hks : k < s.length := by
        have : k ∈ (List.range s.length).reverse := by rw [e]; simp
        simpa using this
      refine ⟨?_, at_iff k t' h1, ?_⟩
      · intro h
        rw [List.take_eq_nil_iff] at h
        rcases h with h | h
        · omega
        · rw [h] at hks; simp at hks
      · intro n' t'' r' hs
        obtain ⟨g1, g2, -⟩ := of_split n' t'' r' hs
        rw [List.length_take, Nat.min_eq_left hks.le]
        by_contra hlt
        rw [not_le] at hlt
        -- `n'.length` comes before `k` in the reversed range
        have hmem : n'.length ∈ as := by
          have : n'.length ∈ (List.range s.length).reverse := by simpa using g2
          rw [e, List.mem_append, List.mem_cons] at this
          rcases this with h | h | h
          · exact h
          · omega
          · exfalso
            have hp : (List.range s.length).reverse.Pairwise (· > ·) := by
              rw [List.pairwise_reverse]; exact List.pairwise_lt_range
            rw [e, List.pairwise_append] at hp
            have := (List.pairwise_cons.1 hp.2.1).1 _ h
            omega
        have := hb _ hmem
        simp only [g1, Option.isSome_some, Bool.and_true, Bool.not_eq_true', decide_eq_false_iff_not] at this
        omega
    · cases h
  · rintro ⟨hne, ⟨r, hs⟩, hmax⟩
    obtain ⟨g1, g2, g3⟩ := of_split n t r hs
    have hlen : 1 ≤ n.length := List.length_pos_of_ne_nil hne
    have hfind : ((List.range s.length).reverse.find? fun k => decide (1 ≤ k) && (typeAt (s.drop k)).isSome) =
        some n.length := by
      cases hf : (List.range s.length).reverse.find? fun k => decide (1 ≤ k) && (typeAt (s.drop k)).isSome with
      | none =>
        have := List.find?_eq_none.1 hf n.length (by simpa using g2)
        simp only [g1, Option.isSome_some, Bool.and_true, decide_eq_true_eq] at this
        omega
      | some k =>
        obtain ⟨hk1, as, bs, e, hb⟩ := List.find?_eq_some_iff_append.1 hf
        simp only [Bool.and_eq_true, decide_eq_true_eq] at hk1
        obtain ⟨t', ht'⟩ := Option.isSome_iff_exists.1 hk1.2
        obtain ⟨r', hr'⟩ := at_iff k t' ht'
        have hks : k < s.length := by
          have : k ∈ (List.range s.length).reverse := by rw [e]; simp
          simpa using this
        have hle := hmax _ _ _ hr'
        rw [List.length_take, Nat.min_eq_left hks.le] at hle
        congr 1
        by_contra hne'
        have hmem : n.length ∈ as := by
          have : n.length ∈ (List.range s.length).reverse := by simpa using g2
          rw [e, List.mem_append, List.mem_cons] at this
          rcases this with h | h | h
          · exact h
          · omega
          · exfalso
            have hp : (List.range s.length).reverse.Pairwise (· > ·) := by
              rw [List.pairwise_reverse]; exact List.pairwise_lt_range
            rw [e, List.pairwise_append] at hp
            have := (List.pairwise_cons.1 hp.2.1).1 _ h
            omega
        have := hb _ hmem
        simp only [g1, Option.isSome_some, Bool.and_true, Bool.not_eq_true', decide_eq_false_iff_not] at this
        omega
    rw [hfind]
    simp [g1, g3]

/-- A plain title. -/
theorem titled_plain (n : List Char) (t : Ty) (hn : n ≠ []) (hp : '(' ∉ n) : Titled (n ++ '(' :: t.text ++ [')']) n t := by
  refine ⟨hn, ⟨[], by simp⟩, ?_⟩
  intro n' t' r' h
  by_contra hlt
  rw [not_le] at hlt
  have hc : ∀ t : Ty, '(' ∉ t.text ++ [')'] := by intro t; cases t <;> decide
  have h1 : (n ++ '(' :: t.text ++ [')'])[n'.length]? = some '(' := by
    rw [h, List.append_assoc, List.getElem?_append_right (le_refl _)]; simp
  rw [List.append_assoc, List.getElem?_append_right hlt.le] at h1
  cases hd : n'.length - n.length with
  | zero => omega
  | succ k =>
    rw [hd] at h1
    have : ('(' :: t.text ++ [')'])[k + 1]? = (t.text ++ [')'])[k]? := by simp
    rw [this] at h1
    exact hc t (List.mem_of_getElem? h1)

/-! ### Words of a line -/

/-- How many words a value takes. -/
def Ty.width : Ty → Nat
  | .complex => 2
  | _ => 1

/-- The number at a word. -/
def numAt (num : Num α) (ws : List (List Char)) (o : Nat) : Option α := ws[o]?.bind fun w => num.real (stripQ w)

/-- The value of a type that begins at a word. -/
def valAt (num : Num α) (t : Ty) (ws : List (List Char)) (o : Nat) : Option α :=
  match t with
  | .real => numAt num ws o
  | .complex => (numAt num ws o).bind fun x => (numAt num ws (o + 1)).map (num.cplx x)
  | .string => ws[o]?.map fun w => num.str (stripQ w)
  | .integer => ws[o]?.bind fun w => num.int (stripQ w)

/-- The word at which column `k` begins. -/
def offset (ps : List (List Char × Ty)) (k : Nat) : Nat := ((ps.take k).map fun p => p.2.width).sum

/-- The values of a line. -/
def Cells (num : Num α) (ps : List (List Char × Ty)) (ws : List (List Char)) (xs : List α) : Prop :=
  xs.length = ps.length ∧ ∀ (k : Nat) p, ps[k]? = some p → valAt num p.2 ws (offset ps k) = xs[k]?

theorem takeReal_iff (num : Num α) (ws ws' : List (List Char)) (x : α) :
    takeReal num ws = .ok (x, ws') ↔ numAt num ws 0 = some x ∧ ws' = ws.drop 1 := by
  cases ws with
  | nil => simp [takeReal, numAt]
  | cons w ws =>
    simp only [takeReal, numAt, List.getElem?_cons_zero, Option.bind_some, List.drop_succ_cons, List.drop_zero]
    cases num.real (stripQ w) with
    | none => simp
    | some y => simp [eq_comm]

theorem numAt_drop (num : Num α) (ws : List (List Char)) (d o : Nat) : numAt num (ws.drop d) o = numAt num ws (d + o) := by
  simp [numAt, List.getElem?_drop]

theorem takeVal_iff (num : Num α) (t : Ty) (ws ws' : List (List Char)) (x : α) :
    takeVal num t ws = .ok (x, ws') ↔ valAt num t ws 0 = some x ∧ ws' = ws.drop t.width := by
  cases t with
  | real => exact takeReal_iff num ws ws' x
  | complex =>
    simp only [takeVal, valAt, Ty.width]
    constructor
    · intro h
      split at h
      · cases h
      rename_i y r h1
      split at h
      · cases h
      rename_i z r' h2
      obtain ⟨a1, rfl⟩ := (takeReal_iff _ _ _ _).1 h1
      obtain ⟨a2, rfl⟩ := (takeReal_iff _ _ _ _).1 h2
      cases h
      rw [numAt_drop] at a2
      refine ⟨?_, by rw [List.drop_drop]⟩
      rw [a1]
      simp only [Option.bind_some]
      rw [show 0 + 1 = 1 + 0 by rfl, a2]
      rfl
    · rintro ⟨h, rfl⟩
      simp only [Option.bind_eq_some_iff, Option.map_eq_some_iff] at h
      obtain ⟨y, h1, z, h2, rfl⟩ := h
      have e1 := (takeReal_iff num ws (ws.drop 1) y).2 ⟨h1, rfl⟩
      have e2 := (takeReal_iff num (ws.drop 1) ((ws.drop 1).drop 1) z).2 ⟨by rw [numAt_drop]; exact h2, rfl⟩
      simp only [e1, e2, List.drop_drop]
  | string =>
    cases ws with
    | nil => simp [takeVal, valAt]
    | cons w ws => simp [takeVal, valAt, Ty.width, eq_comm]
  | integer =>
    cases ws with
    | nil => simp [takeVal, valAt]
    | cons w ws =>
      simp only [takeVal, valAt, Ty.width, List.getElem?_cons_zero, Option.bind_some, List.drop_succ_cons, List.drop_zero]
      cases num.int (stripQ w) with
      | none => simp
      | some y => simp [eq_comm]

theorem valAt_drop (num : Num α) (t : Ty) (ws : List (List Char)) (d o : Nat) :
    valAt num t (ws.drop d) o = valAt num t ws (d + o) := by
  cases t <;> simp [valAt, numAt_drop, List.getElem?_drop, Nat.add_assoc]

theorem cells_cons (num : Num α) (p : List Char × Ty) (ps : List (List Char × Ty)) (ws : List (List Char)) (x : α)
    (xs : List α) : Cells num (p :: ps) ws (x :: xs) ↔ valAt num p.2 ws 0 = some x ∧ Cells num ps (ws.drop p.2.width) xs := by
  have off : ∀ k, offset (p :: ps) (k + 1) = p.2.width + offset ps k := by intro k; simp [offset]
  unfold Cells
  constructor
  · rintro ⟨h1, h2⟩
    refine ⟨by simpa [offset] using h2 0 p rfl, by simpa using h1, fun k q hk => ?_⟩
    have := h2 (k + 1) q (by simpa using hk)
    rw [off] at this
    rw [valAt_drop, this]
    simp
  · rintro ⟨h1, h2, h3⟩
    refine ⟨by simp [h2], fun k q hk => ?_⟩
    cases k with
    | zero =>
      simp only [List.getElem?_cons_zero, Option.some.injEq] at hk
      subst hk
      simpa [offset] using h1
    | succ k =>
      rw [off, ← valAt_drop]
      simpa using h3 k q (by simpa using hk)

/-- What is added by a line. -/
theorem parseLine_iff (num : Num α) (ps : List (List Char × Ty)) : ∀ (ws : List (List Char))
    (m m' : OMap (List Char) (List α)), parseLine num ps ws m = .ok m' ↔
      ∃ xs, Cells num ps ws xs ∧ m' = ((ps.map Prod.fst).zip xs).foldl (fun m p => push m p.1 p.2) m := by
  induction ps with
  | nil =>
    intro ws m m'
    simp only [parseLine, Except.ok.injEq]
    constructor
    · rintro rfl; exact ⟨[], ⟨rfl, by simp⟩, rfl⟩
    · rintro ⟨xs, -, h⟩; rw [h]; rfl
  | cons p ps ih =>
    intro ws m m'
    obtain ⟨n, t⟩ := p
    simp only [parseLine]
    constructor
    · intro h
      split at h
      · cases h
      rename_i x ws' h1
      obtain ⟨a1, rfl⟩ := (takeVal_iff _ _ _ _ _).1 h1
      obtain ⟨xs, b1, rfl⟩ := (ih _ _ _).1 h
      exact ⟨x :: xs, (cells_cons _ _ _ _ _ _).2 ⟨a1, b1⟩, by simp⟩
    · rintro ⟨xs, h1, rfl⟩
      cases xs with
      | nil => simp [Cells] at h1
      | cons x xs =>
        obtain ⟨a1, a2⟩ := (cells_cons _ _ _ _ _ _).1 h1
        have e := (takeVal_iff num t ws (ws.drop t.width) x).2 ⟨a1, rfl⟩
        simp only [e]
        rw [(ih _ _ _).2 ⟨xs, a2, rfl⟩]
        simp

/-! ### Lines of a table -/

/-- The values of a table: for every pass through the lines of the header, for each of these, those of its
columns. -/
structure Grid (num : Num α) (pss : List (List (List Char × Ty))) (data : List (List Char))
    (rows : List (List (List α))) : Prop where
  lines : data.length = rows.length * pss.length
  shape : ∀ xss ∈ rows, xss.length = pss.length
  cells : ∀ (r i : Nat) xss xs ps, rows[r]? = some xss → xss[i]? = some xs → pss[i]? = some ps →
    ∃ line, data[r * pss.length + i]? = some line ∧ Cells num ps (Text.words line) xs

/-- The values with the names of their columns, in the order of the file. -/
def named (pss : List (List (List Char × Ty))) (rows : List (List (List α))) : List (List Char × α) :=
  rows.flatMap fun xss => (pss.zip xss).flatMap fun p => (p.1.map Prod.fst).zip p.2

theorem parseRound_iff (num : Num α) (pss : List (List (List Char × Ty))) : ∀ (data rest : List (List Char))
    (m m' : OMap (List Char) (List α)), parseRound num pss data m = .ok (m', rest) ↔
      ∃ xss lines, data = lines ++ rest ∧ lines.length = pss.length ∧ xss.length = pss.length ∧
        (∀ (i : Nat) xs ps, xss[i]? = some xs → pss[i]? = some ps →
          ∃ line, lines[i]? = some line ∧ Cells num ps (Text.words line) xs) ∧
        m' = ((pss.zip xss).flatMap fun p => (p.1.map Prod.fst).zip p.2).foldl (fun m p => push m p.1 p.2) m := by
  induction pss with
  | nil =>
    intro data rest m m'
    simp only [parseRound, Except.ok.injEq, Prod.mk.injEq]
    constructor
    · rintro ⟨rfl, rfl⟩; exact ⟨[], [], by simp, by simp, by simp, by simp, by simp⟩
    · rintro ⟨xss, lines, h1, h2, h3, -, h4⟩
      rw [List.length_nil, List.length_eq_zero_iff] at h2
      subst h2
      simp at h4
      exact ⟨h4.symm, by simpa using h1⟩
  | cons ps pss ih =>
    intro data rest m m'
    cases data with
    | nil =>
      simp only [parseRound, reduceCtorEq, false_iff]
      rintro ⟨xss, lines, h1, h2, -⟩
      rw [eq_comm, List.append_eq_nil_iff] at h1
      rw [h1.1] at h2
      simp at h2
    | cons l data =>
      simp only [parseRound]
      constructor
      · intro h
        split at h
        · cases h
        rename_i m1 h1
        obtain ⟨xs, a1, rfl⟩ := (parseLine_iff _ _ _ _ _).1 h1
        obtain ⟨xss, lines, b1, b2, b3, b4, b5⟩ := (ih _ _ _ _).1 h
        refine ⟨xs :: xss, l :: lines, by rw [b1]; rfl, by simp [b2], by simp [b3], ?_, ?_⟩
        · intro i xs' ps' h1 h2
          cases i with
          | zero => simp at h1 h2; subst h1; subst h2; exact ⟨l, rfl, a1⟩
          | succ i => exact b4 i xs' ps' (by simpa using h1) (by simpa using h2)
        · rw [b5, List.zip_cons_cons, List.flatMap_cons, List.foldl_append]
      · rintro ⟨xss, lines, b1, b2, b3, b4, b5⟩
        cases xss with
        | nil => simp at b3
        | cons xs xss =>
        cases lines with
        | nil => simp at b2
        | cons l' lines =>
        simp only [List.cons_append, List.cons.injEq] at b1
        obtain ⟨rfl, b1⟩ := b1
        obtain ⟨line, c1, c2⟩ := b4 0 xs ps rfl rfl
        simp at c1
        subst c1
        have e := (parseLine_iff num ps (Text.words l) m _).2 ⟨xs, c2, rfl⟩
        simp only [e]
        refine (ih _ _ _ _).2 ⟨xss, lines, b1, by simpa using b2, by simpa using b3, ?_, ?_⟩
        · intro i xs' ps' h1 h2
          obtain ⟨line, d1, d2⟩ := b4 (i + 1) xs' ps' (by simpa using h1) (by simpa using h2)
          exact ⟨line, by simpa using d1, d2⟩
        · rw [b5, List.zip_cons_cons, List.flatMap_cons, List.foldl_append]

theorem parseLoop_eq (num : Num α) (ps : List (List Char × Ty)) (pss : List (List (List Char × Ty)))
    (data : List (List Char)) (m : OMap (List Char) (List α)) : parseLoop num ps pss data m =
      match parseRound num (ps :: pss) data m with
      | .error e => .error e
      | .ok (m', data') => if data' = [] then .ok m' else parseLoop num ps pss data' m' := by
  rw [parseLoop]
  split <;> rename_i h <;> simp only [h]

theorem grid_cons (num : Num α) (pss : List (List (List Char × Ty))) (lines rest : List (List Char))
    (xss : List (List α)) (rows : List (List (List α))) (h1 : lines.length = pss.length) (h2 : xss.length = pss.length)
    (h3 : ∀ (i : Nat) xs ps, xss[i]? = some xs → pss[i]? = some ps →
          ∃ line, lines[i]? = some line ∧ Cells num ps (Text.words line) xs) (h : Grid num pss rest rows) :
    Grid num pss (lines ++ rest) (xss :: rows) := by
  constructor
  · rw [List.length_append, h1, h.lines, List.length_cons, Nat.succ_mul, Nat.add_comm]
  · intro x hx
    rcases List.mem_cons.1 hx with rfl | hx
    · exact h2
    · exact h.shape x hx
  · intro r i x xs ps hr hi hp
    have hil : i < pss.length := (List.getElem?_eq_some_iff.1 hp).1
    cases r with
    | zero =>
      simp at hr
      subst hr
      obtain ⟨line, a, b⟩ := h3 i xs ps hi hp
      refine ⟨line, ?_, b⟩
      rw [Nat.zero_mul, Nat.zero_add, List.getElem?_append_left (by omega)]
      exact a
    | succ r =>
      obtain ⟨line, a, b⟩ := h.cells r i x xs ps (by simpa using hr) hi hp
      refine ⟨line, ?_, b⟩
      rw [List.getElem?_append_right (by rw [h1, Nat.succ_mul]; omega)]
      rw [← a]
      congr 1
      rw [h1, Nat.succ_mul]
      omega

theorem grid_tail (num : Num α) (pss : List (List (List Char × Ty))) (data : List (List Char))
    (xss : List (List α)) (rows : List (List (List α))) (h : Grid num pss data (xss :: rows)) :
    (data.take pss.length).length = pss.length ∧ xss.length = pss.length ∧
    (∀ (i : Nat) xs ps, xss[i]? = some xs → pss[i]? = some ps →
          ∃ line, (data.take pss.length)[i]? = some line ∧ Cells num ps (Text.words line) xs) ∧
    Grid num pss (data.drop pss.length) rows := by
  have hl := h.lines
  rw [List.length_cons, Nat.succ_mul] at hl
  refine ⟨by rw [List.length_take]; omega, h.shape _ (by simp), ?_, ?_⟩
  · intro i xs ps hi hp
    have hil : i < pss.length := (List.getElem?_eq_some_iff.1 hp).1
    obtain ⟨line, a, b⟩ := h.cells 0 i xss xs ps rfl hi hp
    refine ⟨line, ?_, b⟩
    rw [List.getElem?_take_of_lt hil]
    simpa using a
  · constructor
    · rw [List.length_drop]; omega
    · exact fun x hx => h.shape x (by simp [hx])
    · intro r i x xs ps hr hi hp
      obtain ⟨line, a, b⟩ := h.cells (r + 1) i x xs ps (by simpa using hr) hi hp
      refine ⟨line, ?_, b⟩
      rw [List.getElem?_drop, ← a]
      congr 1
      rw [Nat.succ_mul]
      omega

theorem parseLoop_iff (num : Num α) (ps : List (List Char × Ty)) (pss : List (List (List Char × Ty)))
    (data : List (List Char)) (m m' : OMap (List Char) (List α)) : parseLoop num ps pss data m = .ok m' ↔
      ∃ rows, rows ≠ [] ∧ Grid num (ps :: pss) data rows ∧
        m' = (named (ps :: pss) rows).foldl (fun m p => push m p.1 p.2) m := by
  obtain ⟨n, hn⟩ : ∃ n, data.length = n := ⟨_, rfl⟩
  induction n using Nat.strongRecOn generalizing data m with
  | ind n ih =>
    rw [parseLoop_eq]
    constructor
    · intro h
      split at h
      · cases h
      rename_i m1 rest h1
      obtain ⟨xss, lines, a1, a2, a3, a4, a5⟩ := (parseRound_iff _ _ _ _ _ _).1 h1
      split at h
      · rename_i hr
        subst hr
        cases h
        refine ⟨[xss], by simp, ?_, by simp [named, a5]⟩
        rw [a1]
        exact grid_cons num _ _ _ _ _ a2 a3 a4 ⟨by simp, by simp, by simp⟩
      · have hlt : rest.length < n := by
          rw [← hn, a1, List.length_append, a2]; simp
        obtain ⟨rows, b1, b2, b3⟩ := (ih _ hlt rest m1 rfl).1 h
        refine ⟨xss :: rows, by simp, ?_, ?_⟩
        · rw [a1]; exact grid_cons num _ _ _ _ _ a2 a3 a4 b2
        · rw [b3, a5]; simp only [named, List.flatMap_cons, List.foldl_append]
    · rintro ⟨rows, h1, h2, rfl⟩
      obtain ⟨xss, rows, rfl⟩ := List.exists_cons_of_ne_nil h1
      obtain ⟨b1, b2, b3, b4⟩ := grid_tail num _ _ _ _ h2
      have e := (parseRound_iff num (ps :: pss) data (data.drop (ps :: pss).length) m _).2
        ⟨xss, data.take (ps :: pss).length, (List.take_append_drop _ _).symm, b1, b2, b3, rfl⟩
      simp only [e]
      have hl := b4.lines
      split
      · rename_i hd
        rw [hd] at hl
        have : rows = [] := by
          rw [← List.length_eq_zero_iff]
          by_contra hne
          have : 0 < rows.length * (ps :: pss).length := Nat.mul_pos (Nat.pos_of_ne_zero hne) (by simp)
          simp only [List.length_nil] at hl
          omega
        subst this
        simp [named]
      · rename_i hd
        have hlt : (data.drop (ps :: pss).length).length < n := by
          rw [List.length_drop, ← hn]
          have := h2.lines
          rw [List.length_cons, Nat.succ_mul] at this
          simp only [List.length_cons] at this ⊢
          omega
        refine (ih _ hlt _ _ rfl).2 ⟨rows, ?_, b4, ?_⟩
        · rintro rfl
          simp at hl
          exact hd (by simp; omega)
        · simp only [named, List.flatMap_cons, List.foldl_append]

theorem parseData_iff (num : Num α) (pss : List (List (List Char × Ty))) (hne : pss ≠ []) (data : List (List Char))
    (m : OMap (List Char) (List α)) : parseData num pss data = .ok m ↔
      ∃ rows, rows ≠ [] ∧ Grid num pss data rows ∧ m = collect (named pss rows) := by
  obtain ⟨ps, pss, rfl⟩ := List.exists_cons_of_ne_nil hne
  exact parseLoop_iff num ps pss data [] m

/-! ### Columns -/

/-- All columns, in the order of the header. -/
def columns (pss : List (List (List Char × Ty))) : List (List Char) := pss.flatten.map Prod.fst

theorem zip_flatten {X Y : Type} (f : List (List X)) (g : List (List Y)) (h : List.Forall₂ (fun a b => a.length = b.length) f g) :
    ((f.zip g).flatMap fun p => p.1.zip p.2) = f.flatten.zip g.flatten := by
  induction h with
  | nil => rfl
  | cons h _ ih =>
    rw [List.zip_cons_cons, List.flatMap_cons, ih, List.flatten_cons, List.flatten_cons, List.zip_append h]

theorem under_append {K X : Type} [DecidableEq K] (a b : List (K × X)) (k : K) : under (a ++ b) k = under a k ++ under b k := by
  simp [under]

theorem under_zip {K X : Type} [DecidableEq K] (ks : List K) (xs : List X) (hn : ks.Nodup) (h : ks.length = xs.length)
    (j : Nat) (k : K) (x : X) (hk : ks[j]? = some k) (hx : xs[j]? = some x) : under (ks.zip xs) k = [x] := by
  induction ks generalizing xs j with
  | nil => simp at hk
  | cons a ks ih =>
    cases xs with
    | nil => simp at h
    | cons y xs =>
      rw [List.nodup_cons] at hn
      rw [List.zip_cons_cons]
      cases j with
      | zero =>
        simp at hk hx
        subst hk hx
        have : (ks.zip xs).filter (fun p => decide (p.1 = a)) = [] := by
          rw [List.filter_eq_nil_iff]
          rintro ⟨b, z⟩ hb hc
          simp at hc
          subst hc
          exact hn.1 (List.of_mem_zip hb).1
        simp [under, this]
      | succ j =>
        simp only [List.getElem?_cons_succ] at hk hx
        have hne : a ≠ k := fun e => hn.1 (e ▸ List.mem_of_getElem? hk)
        have := ih xs hn.2 (by simpa using h) j hk hx
        unfold under at this ⊢
        rw [List.filter_cons_of_neg (by simpa using hne)]
        exact this

/-- A round: columns with their values. -/
theorem round_zip (pss : List (List (List Char × Ty))) (xss : List (List α))
    (h : List.Forall₂ (fun ps xs => xs.length = ps.length) pss xss) :
    ((pss.zip xss).flatMap fun p => (p.1.map Prod.fst).zip p.2) = (columns pss).zip xss.flatten := by
  have := zip_flatten (pss.map fun ps => ps.map Prod.fst) xss (by
    rw [List.forall₂_map_left_iff]
    exact h.imp fun a b h => by simp [h])
  rw [columns, List.map_flatten, ← this, List.zip_map_left, List.flatMap_map]
  rfl

theorem grid_round {num : Num α} {pss : List (List (List Char × Ty))} {data : List (List Char)}
    {rows : List (List (List α))} (h : Grid num pss data rows) {xss : List (List α)} (hx : xss ∈ rows) :
    List.Forall₂ (fun ps xs => xs.length = ps.length) pss xss := by
  obtain ⟨r, hr⟩ := List.getElem?_of_mem hx
  rw [List.forall₂_iff_get]
  refine ⟨(h.shape _ hx).symm, fun i h1 h2 => ?_⟩
  obtain ⟨line, -, hc⟩ := h.cells r i xss _ _ hr (List.getElem?_eq_getElem h2) (List.getElem?_eq_getElem h1)
  exact hc.1

/-- The position of a value among all those of a round. -/
theorem flatten_pos {X : Type} (f : List (List X)) (i k : Nat) (xs : List X) (x : X) (hi : f[i]? = some xs)
    (hk : xs[k]? = some x) : f.flatten[((f.take i).map List.length).sum + k]? = some x := by
  induction f generalizing i with
  | nil => simp at hi
  | cons a f ih =>
    cases i with
    | zero =>
      simp at hi
      subst hi
      have := (List.getElem?_eq_some_iff.1 hk).1
      rw [List.flatten_cons, List.take_zero, List.map_nil, List.sum_nil, Nat.zero_add, List.getElem?_append_left this, hk]
    | succ i =>
      rw [List.flatten_cons, List.take_succ_cons, List.map_cons, List.sum_cons, Nat.add_assoc,
        List.getElem?_append_right (by omega), Nat.add_sub_cancel_left]
      exact ih i (by simpa using hi)

theorem forall₂_lengths {X Y : Type} {f : List (List X)} {g : List (List Y)}
    (h : List.Forall₂ (fun a b => b.length = a.length) f g) : f.map List.length = g.map List.length := by
  induction h with
  | nil => rfl
  | cons h _ ih => simp [h, ih]

theorem under_rows (num : Num α) (pss : List (List (List Char × Ty))) (data : List (List Char))
    (rows : List (List (List α))) (hg : Grid num pss data rows) (hn : (columns pss).Nodup)
    (i k : Nat) (ps : List (List Char × Ty)) (n : List Char) (t : Ty) (hi : pss[i]? = some ps) (hk : ps[k]? = some (n, t)) :
    under (named pss rows) n = rows.filterMap fun xss => xss[i]?.bind (·[k]?) := by
  have key : ∀ rs : List (List (List α)), (∀ x ∈ rs, x ∈ rows) →
      under (named pss rs) n = rs.filterMap fun xss => xss[i]?.bind (·[k]?) := by
    intro rs
    induction rs with
    | nil => intro _; rfl
    | cons xss rs ih =>
      intro hm
      have hf := grid_round hg (hm xss (by simp))
      have e : named pss (xss :: rs) = (columns pss).zip xss.flatten ++ named pss rs := by
        rw [← round_zip pss xss hf]; simp [named]
      have hl := hf.length_eq
      have hix : i < xss.length := by rw [← hl]; exact (List.getElem?_eq_some_iff.1 hi).1
      have hlen : (xss[i]).length = ps.length := by
        have := (List.forall₂_iff_get.1 hf).2 i (by omega) hix
        rw [List.get_eq_getElem, List.get_eq_getElem] at this
        rw [this]
        congr 1
        have := (List.getElem?_eq_some_iff.1 hi).2
        exact this
      have hkx : k < (xss[i]).length := by rw [hlen]; exact (List.getElem?_eq_some_iff.1 hk).1
      have h1 : xss[i]? = some xss[i] := List.getElem?_eq_getElem hix
      have h2 : (xss[i])[k]? = some (xss[i])[k] := List.getElem?_eq_getElem hkx
      have hpos := flatten_pos xss i k _ _ h1 h2
      have hposc : (columns pss)[((xss.take i).map List.length).sum + k]? = some n := by
        have := flatten_pos pss i k ps (n, t) hi hk
        have hs : (xss.take i).map List.length = (pss.take i).map List.length := by
          rw [List.map_take, List.map_take, forall₂_lengths hf]
        rw [columns, List.getElem?_map, hs, this]
        rfl
      have hlc : (columns pss).length = xss.flatten.length := by
        rw [columns, List.length_map, List.length_flatten, List.length_flatten, forall₂_lengths hf]
      rw [e, under_append, under_zip _ _ hn hlc _ _ _ hposc hpos, ih fun x hx => hm x (by simp [hx]),
        List.filterMap_cons, h1]
      simp only [Option.bind_some, h2]
      rfl
  exact key rows fun x h => h

theorem keys_foldl_push {K X : Type} [DecidableEq K] (l : List (K × X)) : ∀ m : OMap K (List X),
    (∀ p ∈ l, p.1 ∈ m.map Prod.fst) → (l.foldl (fun m p => push m p.1 p.2) m).map Prod.fst = m.map Prod.fst := by
  induction l with
  | nil => intro m _; rfl
  | cons p l ih =>
    intro m h
    have hk : (push m p.1 p.2).map Prod.fst = m.map Prod.fst := by
      unfold push
      split
      · rename_i hn
        exact absurd (h p (by simp)) (lookup_none.1 hn)
      · exact modify_fst _ _ _
    rw [List.foldl_cons, ih _ (by rw [hk]; exact fun q hq => h q (by simp [hq])), hk]

theorem keys_first_push {K X : Type} [DecidableEq K] (ks : List K) (xs : List X) (h : ks.length = xs.length) :
    ∀ m : OMap K (List X), (m.map Prod.fst ++ ks).Nodup →
      ((ks.zip xs).foldl (fun m p => push m p.1 p.2) m).map Prod.fst = m.map Prod.fst ++ ks := by
  induction ks generalizing xs with
  | nil => intro m _; simp
  | cons k ks ih =>
    intro m hn
    cases xs with
    | nil => simp at h
    | cons x xs =>
      have hk : (push m k x).map Prod.fst = m.map Prod.fst ++ [k] := by
        unfold push
        split
        · simp
        · rename_i l hl
          exfalso
          have : k ∈ m.map Prod.fst := by
            by_contra hc
            rw [lookup_none.2 hc] at hl
            cases hl
          rw [List.nodup_append] at hn
          exact hn.2.2 k this k (by simp) rfl
      rw [List.zip_cons_cons, List.foldl_cons, ih xs (by simpa using h) _ (by rw [hk]; simpa using hn), hk]
      simp

theorem keys_named (num : Num α) (pss : List (List (List Char × Ty))) (data : List (List Char))
    (rows : List (List (List α))) (hg : Grid num pss data rows) (hr : rows ≠ []) (hn : (columns pss).Nodup) :
    (collect (named pss rows)).map Prod.fst = columns pss := by
  obtain ⟨xss, rs, rfl⟩ := List.exists_cons_of_ne_nil hr
  have hlc : ∀ x ∈ xss :: rs, (columns pss).length = x.flatten.length := by
    intro x hx
    rw [columns, List.length_map, List.length_flatten, List.length_flatten, forall₂_lengths (grid_round hg hx)]
  have e : named pss (xss :: rs) = (columns pss).zip xss.flatten ++ named pss rs := by
    rw [← round_zip pss xss (grid_round hg (by simp))]; simp [named]
  have h0 := keys_first_push (columns pss) xss.flatten (hlc xss (by simp)) [] (by simpa using hn)
  rw [collect, e, List.foldl_append, keys_foldl_push, h0]
  · simp
  · rw [h0]
    intro p hp
    obtain ⟨x, hx, hp⟩ := List.mem_flatMap.1 hp
    rw [round_zip pss x (grid_round hg (by simp [hx]))] at hp
    simpa using (List.of_mem_zip hp).1

theorem filterMap_all {X Y : Type} (f : X → Option Y) (l : List X) (h : ∀ x ∈ l, (f x).isSome) :
    (l.filterMap f).length = l.length ∧ ∀ r : Nat, (l.filterMap f)[r]? = l[r]?.bind f := by
  induction l with
  | nil => simp
  | cons a l ih =>
    obtain ⟨y, hy⟩ := Option.isSome_iff_exists.1 (h a (by simp))
    obtain ⟨h1, h2⟩ := ih fun x hx => h x (by simp [hx])
    rw [List.filterMap_cons, hy]
    refine ⟨by simp [h1], fun r => ?_⟩
    cases r with
    | zero => simp [hy]
    | succ r => simpa using h2 r

theorem cells_exists (num : Num α) (ps : List (List Char × Ty)) : ∀ ws : List (List Char),
    (∀ (k : Nat) p, ps[k]? = some p → (valAt num p.2 ws (offset ps k)).isSome) → ∃ xs, Cells num ps ws xs := by
  induction ps with
  | nil => intro ws _; exact ⟨[], rfl, by simp⟩
  | cons p ps ih =>
    intro ws h
    obtain ⟨x, hx⟩ := Option.isSome_iff_exists.1 (h 0 p rfl)
    obtain ⟨xs, hxs⟩ := ih (ws.drop p.2.width) fun k q hk => by
      have := h (k + 1) q (by simpa using hk)
      rw [valAt_drop]
      simpa [offset] using this
    exact ⟨x :: xs, (cells_cons _ _ _ _ _ _).2 ⟨by simpa [offset] using hx, hxs⟩⟩

theorem omap_ext {K V : Type} [DecidableEq K] {m m' : OMap K V} (hk : m.map Prod.fst = m'.map Prod.fst)
    (hn : (m.map Prod.fst).Nodup) (h : ∀ k ∈ m.map Prod.fst, lookup m k = lookup m' k) : m = m' := by
  have hlen : m.length = m'.length := by simpa using congrArg List.length hk
  apply List.ext_getElem hlen
  intro j h1 h2
  have hj : (m[j]).1 = (m'[j]).1 := by
    have := congrArg (fun l => l[j]?) hk
    simpa [List.getElem?_eq_getElem h1, List.getElem?_eq_getElem h2] using this
  have a1 := (mem_iff_lookup hn (m[j]).1 (m[j]).2).1 (List.getElem_mem h1)
  have a2 := (mem_iff_lookup (hk ▸ hn) (m'[j]).1 (m'[j]).2).1 (List.getElem_mem h2)
  rw [h _ (List.mem_map_of_mem (List.getElem_mem h1)), hj, a2] at a1
  cases hm : m[j] with
  | mk a b =>
    cases hm' : m'[j] with
    | mk c d => rw [hm, hm'] at hj a1; simp at hj a1; rw [hj, a1]

/-- C63: the columns of a table.  It is read if its lines come in complete sets, one line for each line of the
header, and all the words needed can be converted; then each column has, for each set of lines, the value at
its place in its line. -/
theorem C63_columns (num : Num α) (pss : List (List (List Char × Ty))) (hne : pss ≠ []) (hn : (columns pss).Nodup)
    (data : List (List Char)) (m : OMap (List Char) (List α)) : parseData num pss data = .ok m ↔
      ∃ N, 0 < N ∧ data.length = N * pss.length ∧ m.map Prod.fst = columns pss ∧
        ∀ (i k : Nat) ps n t, pss[i]? = some ps → ps[k]? = some (n, t) → ∃ l, lookup m n = some l ∧ l.length = N ∧
          ∀ r < N, ∃ line, data[r * pss.length + i]? = some line ∧
            (valAt num t (Text.words line) (offset ps k)).isSome ∧
            valAt num t (Text.words line) (offset ps k) = l[r]? := by
  have fwd : ∀ m, parseData num pss data = .ok m → ∃ N, 0 < N ∧ data.length = N * pss.length ∧ m.map Prod.fst = columns pss ∧
        ∀ (i k : Nat) ps n t, pss[i]? = some ps → ps[k]? = some (n, t) → ∃ l, lookup m n = some l ∧ l.length = N ∧
          ∀ r < N, ∃ line, data[r * pss.length + i]? = some line ∧
            (valAt num t (Text.words line) (offset ps k)).isSome ∧
            valAt num t (Text.words line) (offset ps k) = l[r]? := by
    intro m h
    obtain ⟨rows, h1, h2, rfl⟩ := (parseData_iff num pss hne data m).1 h
    refine ⟨rows.length, List.length_pos_of_ne_nil h1, h2.lines, keys_named num pss data rows h2 h1 hn, ?_⟩
    intro i k ps n t hi hk
    have hu := under_rows num pss data rows h2 hn i k ps n t hi hk
    have hval : ∀ r, ∀ h : r < rows.length, ∃ xs x line, rows[r][i]? = some xs ∧ xs[k]? = some x ∧
        data[r * pss.length + i]? = some line ∧ valAt num t (Text.words line) (offset ps k) = some x := by
      intro r hr
      have hil : i < (rows[r]).length := by
        rw [h2.shape _ (List.getElem_mem hr)]; exact (List.getElem?_eq_some_iff.1 hi).1
      obtain ⟨line, c1, c2, c3⟩ := h2.cells r i rows[r] (rows[r])[i] ps (List.getElem?_eq_getElem hr)
        (List.getElem?_eq_getElem hil) hi
      have hkl : k < (rows[r][i]).length := by rw [c2]; exact (List.getElem?_eq_some_iff.1 hk).1
      refine ⟨_, _, line, List.getElem?_eq_getElem hil, List.getElem?_eq_getElem hkl, c1, ?_⟩
      rw [c3 k (n, t) hk, List.getElem?_eq_getElem hkl]
    have hall : ∀ xss ∈ rows, (xss[i]?.bind fun xs : List α => xs[k]?).isSome := by
      intro xss hx
      obtain ⟨r, hr, rfl⟩ := List.getElem_of_mem hx
      obtain ⟨xs, x, line, a1, a2, -⟩ := hval r hr
      rw [a1]; simp [a2]
    obtain ⟨f1, f2⟩ := filterMap_all _ _ hall
    refine ⟨_, ?_, f1, ?_⟩
    · rw [lookup_collect, hu, if_neg]
      intro hc
      rw [hc] at f1
      have := List.length_pos_of_ne_nil h1
      simp at f1
      omega
    · intro r hr
      obtain ⟨xs, x, line, a1, a2, a3, a4⟩ := hval r hr
      refine ⟨line, a3, by rw [a4]; rfl, ?_⟩
      rw [f2, List.getElem?_eq_getElem hr, Option.bind_some, a1, a4]
      exact a2.symm
  refine ⟨fwd m, ?_⟩
  rintro ⟨N, hN, hlen, hkeys, hcol⟩
  have hcells : ∀ r i, ∃ xs, ∀ ps, r < N → pss[i]? = some ps →
      ∃ line, data[r * pss.length + i]? = some line ∧ Cells num ps (Text.words line) xs := by
    intro r i
    cases hi : pss[i]? with
    | none => exact ⟨[], by simp⟩
    | some ps =>
      by_cases hr : r < N
      · have hil := (List.getElem?_eq_some_iff.1 hi).1
        have hd : r * pss.length + i < data.length := by
          rw [hlen]
          calc r * pss.length + i < r * pss.length + pss.length := by omega
            _ = (r + 1) * pss.length := by rw [Nat.succ_mul]
            _ ≤ N * pss.length := Nat.mul_le_mul_right _ hr
        obtain ⟨xs, hxs⟩ := cells_exists num ps (Text.words data[r * pss.length + i]) fun k p hk => by
          obtain ⟨l, -, -, h3⟩ := hcol i k ps p.1 p.2 hi hk
          obtain ⟨line, b1, b2, -⟩ := h3 r hr
          rw [List.getElem?_eq_getElem hd] at b1
          cases b1
          exact b2
        refine ⟨xs, fun ps' _ e => ?_⟩
        cases e
        exact ⟨_, List.getElem?_eq_getElem hd, hxs⟩
      · exact ⟨[], fun _ h => absurd h hr⟩
  choose g hg using hcells
  have hgrid : Grid num pss data ((List.range N).map fun r => (List.range pss.length).map fun i => g r i) := by
    constructor
    · simpa using hlen
    · intro xss hx
      obtain ⟨r, -, rfl⟩ := List.mem_map.1 hx
      simp
    · intro r i xss xs ps hr hi hp
      rw [List.getElem?_map] at hr
      obtain ⟨r', h1, rfl⟩ := Option.map_eq_some_iff.1 hr
      rw [List.getElem?_eq_some_iff] at h1
      obtain ⟨h1, h1'⟩ := h1
      simp at h1 h1'
      subst h1'
      rw [List.getElem?_map] at hi
      obtain ⟨i', h2, rfl⟩ := Option.map_eq_some_iff.1 hi
      rw [List.getElem?_eq_some_iff] at h2
      obtain ⟨h2, h2'⟩ := h2
      simp at h2 h2'
      subst h2'
      exact hg r i ps h1 hp
  have hok := (parseData_iff num pss hne data _).2 ⟨_, by
    intro h
    have := congrArg List.length h
    simp at this
    omega, hgrid, rfl⟩
  obtain ⟨N', -, hlen', hkeys', hcol'⟩ := fwd _ hok
  have hpos : 0 < pss.length := List.length_pos_of_ne_nil hne
  have hNN : N' = N := by
    rw [hlen] at hlen'
    exact (Nat.eq_of_mul_eq_mul_right hpos hlen').symm
  subst hNN
  rw [hok]
  congr 1
  refine omap_ext (hkeys'.trans hkeys.symm) (hkeys' ▸ hn) ?_
  intro c hc
  rw [hkeys', columns, List.mem_map] at hc
  obtain ⟨⟨c, t⟩, hc, rfl⟩ := hc
  obtain ⟨ps, hps, hc⟩ := List.mem_flatten.1 hc
  obtain ⟨i, hi⟩ := List.getElem?_of_mem hps
  obtain ⟨k, hk⟩ := List.getElem?_of_mem hc
  obtain ⟨l, a1, a2, a3⟩ := hcol i k ps c t hi hk
  obtain ⟨l', b1, b2, b3⟩ := hcol' i k ps c t hi hk
  rw [a1, b1]
  congr 1
  apply List.ext_getElem?
  intro r
  by_cases hr : r < N'
  · obtain ⟨line, c1, -, c3⟩ := a3 r hr
    obtain ⟨line', d1, -, d3⟩ := b3 r hr
    rw [c1] at d1
    cases d1
    rw [← c3, ← d3]
  · rw [List.getElem?_eq_none (by omega), List.getElem?_eq_none (by omega)]

/-- C63 fails for lines with more words than there are values: what is left over is not noticed. -/
theorem C63_surplus_refuted (num : Num α) (pss : List (List (List Char × Ty))) (data data' : List (List Char))
    (more : List (List Char)) (h : List.Forall₂ (fun l l' => Text.words l' = Text.words l ++ more) data data')
    (m : OMap (List Char) (List α)) (hm : parseData num pss data = .ok m) : parseData num pss data' = .ok m := by
  cases pss with
  | nil =>
    simp only [parseData] at hm ⊢
    split at hm
    · rename_i e; subst e; cases h; simpa using hm
    · cases hm
  | cons ps pss =>
    obtain ⟨rows, h1, h2, h3⟩ := (parseData_iff num _ (by simp) data m).1 hm
    refine (parseData_iff num _ (by simp) data' m).2 ⟨rows, h1, ⟨by rw [← h.length_eq, h2.lines], h2.shape, ?_⟩, h3⟩
    intro r i xss xs qs hr hi hp
    obtain ⟨line, c1, c2, c3⟩ := h2.cells r i xss xs qs hr hi hp
    obtain ⟨hd, hd'⟩ := List.getElem?_eq_some_iff.1 c1
    have hlt : r * (ps :: pss).length + i < data'.length := by rw [← h.length_eq]; exact hd
    refine ⟨_, List.getElem?_eq_getElem hlt, c2, ?_⟩
    intro k p hk
    have hw := (List.forall₂_iff_get.1 h).2 _ hd hlt
    rw [List.get_eq_getElem, List.get_eq_getElem, hd'] at hw
    have hkx : k < xs.length := by rw [c2]; exact (List.getElem?_eq_some_iff.1 hk).1
    have hv := c3 k p hk
    rw [List.getElem?_eq_getElem hkx] at hv ⊢
    have app : ∀ (o : Nat) (w : List Char), (Text.words line)[o]? = some w → (Text.words line ++ more)[o]? = some w := by
      intro o w ho
      rw [List.getElem?_append_left (List.getElem?_eq_some_iff.1 ho).1]; exact ho
    have napp : ∀ (o : Nat) (x : α), numAt num (Text.words line) o = some x →
        numAt num (Text.words line ++ more) o = some x := by
      intro o x ho
      obtain ⟨w, w1, w2⟩ := Option.bind_eq_some_iff.1 ho
      exact Option.bind_eq_some_iff.2 ⟨w, app o w w1, w2⟩
    rw [hw]
    cases ht : p.2 with
    | real => rw [ht] at hv; exact napp _ _ hv
    | complex =>
      rw [ht] at hv
      obtain ⟨x, x1, x2⟩ := Option.bind_eq_some_iff.1 hv
      obtain ⟨y, y1, y2⟩ := Option.map_eq_some_iff.1 x2
      exact Option.bind_eq_some_iff.2 ⟨x, napp _ _ x1, Option.map_eq_some_iff.2 ⟨y, napp _ _ y1, y2⟩⟩
    | string =>
      rw [ht] at hv
      obtain ⟨x, x1, x2⟩ := Option.map_eq_some_iff.1 hv
      exact Option.map_eq_some_iff.2 ⟨x, app _ _ x1, x2⟩
    | integer =>
      rw [ht] at hv
      obtain ⟨x, x1, x2⟩ := Option.bind_eq_some_iff.1 hv
      exact Option.bind_eq_some_iff.2 ⟨x, app _ _ x1, x2⟩

/-- C63 fails for names that occur twice: their values are mixed into one column, which then is longer than the
sweep. -/
theorem C63_twice_refuted (num : Num α) (n f : List Char) (hf : f ≠ n) (x y z : List Char) (a b c : α)
    (hx : num.real (stripQ x) = some a) (hy : num.real (stripQ y) = some b) (hz : num.real (stripQ z) = some c)
    (line : List Char) (hl : Text.words line = [x, y, z]) :
    ∃ m, parseData num [[(f, .real), (n, .real), (n, .real)]] [line] = .ok m ∧
      lookup m f = some [a] ∧ lookup m n = some [b, c] := by
  refine ⟨[(f, [a]), (n, [b, c])], ?_, by simp [lookup], by simp [lookup, hf]⟩
  simp [parseData, parseLoop_eq, parseRound, parseLine, takeVal, takeReal, hl, hx, hy, hz, push, lookup,
    DataDict.Spec.modify, hf]

/-- C63 fails for blocks with data but without titles of columns: reading does not end. -/
theorem C63_no_header_refuted (num : Num α) (data : List (List Char)) (h : data ≠ []) :
    parseData num [] data = .error .hangs := by simp [parseData, h]

/-! ### Examples -/

example : parseHeader ['S', '[', '1', ',', '1', ']', '(', 'c', 'o', 'm', 'p', 'l', 'e', 'x', ')'] =
    some (['S', '[', '1', ',', '1', ']'], .complex) :=
  (C63_title _ _ _).2 (titled_plain _ .complex (by decide) (by decide))

/-- Numbers for examples: the length of the word. -/
def num1 : Num Nat := ⟨fun w => some w.length, fun _ => none, fun w => w.length, fun x y => 100 * x + y⟩

def header1' : List (List (List Char × Ty)) := [[(['f'], .real), (['S'], .complex)], [(['t'], .string)]]
def data1 : List (List Char) := [['1', ' ', '2', '2', '\t', '3', '3', '3'], ['"', 'x', '"'], ['4', ' ', '5', ' ', '6'], ['y']]

example : (columns header1').Nodup ∧ parseData num1 header1' data1 =
    .ok [(['f'], [1, 1]), (['S'], [203, 101]), (['t'], [1, 1])] := by
  refine ⟨by decide, ?_⟩
  simp [parseData, header1', data1, parseLoop_eq, parseRound, parseLine, takeVal, takeReal, Text.words, Text.wordsAux, isWs,
    num1, stripQ, push, lookup, DataDict.Spec.modify]

end HF.Mdif
