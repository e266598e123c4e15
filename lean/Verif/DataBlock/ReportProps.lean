import Verif.DataBlock.Report
import Mathlib.Order.Bounds.Basic
import Mathlib.Order.Lattice
import Mathlib.Data.List.Forall2
/-
C89: the report of a block shows every dimension and every variable once, in aligned tables.
-/
namespace HF
namespace DataBlock
namespace Report

open Sp (splitOn)
open HF.Text (join)

variable {α : Type} [LinearOrder α]

/-! ### Specification -/

/-- A text in a column: filled up with blanks at one side. -/
def Fits (atLeft : Bool) (w : Nat) (field cell : Text) : Prop :=
  cell.length = w ∧ ∃ n, cell = if atLeft then field ++ List.replicate n ' ' else List.replicate n ' ' ++ field

/-- One cell for every column. -/
inductive Cells : List (Bool × Nat) → List Text → List Text → Prop
  | nil : Cells [] [] []
  | cons {b w f c cols fs cs} : Fits b w f c → Cells cols fs cs → Cells ((b, w) :: cols) (f :: fs) (c :: cs)

/-- A table with columns at the left and at the right: each column is as wide as its longest text, and there is one blank
between columns. -/
def Table (sides : List Bool) (fields : List (List Text)) (rows : List Text) : Prop :=
  ∃ ws : List Nat, ws.length = sides.length ∧
    List.Forall₂ (fun fs row => ∃ cs, Cells (sides.zip ws) fs cs ∧ row = join ' ' cs) fields rows ∧
    ∀ (k w : Nat), ws[k]? = some w → w = 0 ∨ ∃ fs ∈ fields, ∃ f : Text, fs[k]? = some f ∧ f.length = w

/-- The texts of a dimension. -/
inductive Shows (p : Printer α) (v : View α) (name : Text) (u : Option Text) : Values α → List Text → Prop
  | ints (xs : List Int) (lo hi : Int) (hm : v.minmax = true) (hlo : IsLeast {x | x ∈ xs} lo)
      (hhi : IsGreatest {x | x ∈ xs} hi) :
      Shows p v name u (.ints xs)
        [name, [], angle (Nat.toDigits 10 xs.length), (toString lo).toList, [], (toString hi).toList, [], []]
  | dates (xs : List Int) (lo hi : Int) (hm : v.minmax = true) (hlo : IsLeast {x | x ∈ xs} lo)
      (hhi : IsGreatest {x | x ∈ xs} hi) :
      Shows p v name u (.dates xs)
        [name, [], angle (Nat.toDigits 10 xs.length), p.date lo, [], p.date hi, [], []]
  | nums (xs : List α) (lo hi : α) (a b q r : Text) (hm : v.minmax = true) (hlo : IsLeast {x | x ∈ xs} lo)
      (hhi : IsGreatest {x | x ∈ xs} hi) (ha : p.num lo = some (a, q)) (hb : p.num hi = some (b, r)) :
      Shows p v name u (.nums xs)
        [name, [], angle (Nat.toDigits 10 xs.length), a, q ++ u.getD [], b, r ++ u.getD [], []]
  | intsUnit (xs : List Int) (hm : v.minmax = false) :
      Shows p v name u (.ints xs)
        [name, if v.units then bracket u else [], angle (Nat.toDigits 10 xs.length), [], [], [], [], []]
  | datesUnit (xs : List Int) (hm : v.minmax = false) :
      Shows p v name u (.dates xs)
        [name, if v.units then bracket u else [], angle (Nat.toDigits 10 xs.length), [], [], [], [], []]
  | numsUnit (xs : List α) (hm : v.minmax = false) :
      Shows p v name u (.nums xs)
        [name, if v.units then bracket u else [], angle (Nat.toDigits 10 xs.length), [], [], [], [], []]
  | other (dtype : Text) :
      Shows p v name u (.other dtype) [name, [], [], [], [], [], [], '{' :: (ljust 5 dtype ++ ['}'])]

/-- The texts of a variable. -/
def varFields (v : View α) (d : Text × Var) : List Text :=
  [d.1, if v.units then bracket d.2.unit else [], angle (join 'x' (d.2.shape.map (Nat.toDigits 10)))]

/-- The lines of a table with its title; nothing if there is nothing to show. -/
def Titled (title : Text) (rows lines : List Text) : Prop := lines = if rows = [] then [] else title :: rows

/-- The two tables below each other, if they are too wide, and else side by side, the variables at the left. -/
def Body (maxwidth : Nat) (vars dims body : List Text) : Prop :=
  ∃ m n : Nat, (∀ l ∈ vars, l.length ≤ m) ∧ (∀ l ∈ dims, l.length ≤ n) ∧
    (m = 0 ∨ ∃ l ∈ vars, l.length = m) ∧ (n = 0 ∨ ∃ l ∈ dims, l.length = n) ∧
    (maxwidth < n + m → body = dims ++ [] :: vars) ∧
    (n + m ≤ maxwidth → body.length = max vars.length dims.length ∧
      ∀ i l, body[i]? = some l → ∃ a b, l = vars.getD i [] ++ List.replicate a ' ' ++ " - ".toList ++
        dims.getD i [] ++ List.replicate b ' ' ∧ (vars.getD i []).length + a = m ∧ (dims.getD i []).length + b = n)

/-- Smallest and greatest value can be shown. -/
def Showable (p : Printer α) (s : Sweep α) : Prop :=
  match s.values with
  | .ints xs => xs ≠ []
  | .dates xs => xs ≠ []
  | .nums xs => ' ' ∉ s.unit.getD [] ∧
      ∃ lo hi, IsLeast {x | x ∈ xs} lo ∧ IsGreatest {x | x ∈ xs} hi ∧ p.num lo ≠ none ∧ p.num hi ≠ none
  | .other _ => True

/-- Numbers, prefixes and dates are printed without blanks. -/
structure Printer.Ok (p : Printer α) : Prop where
  num : ∀ x n q, p.num x = some (n, q) → ' ' ∉ n ∧ ' ' ∉ q
  date : ∀ x, ' ' ∉ p.date x

/-! ### Lemmas -/

theorem digits_blank (n : Nat) (c : Char) (h : c ∈ Nat.toDigits 10 n) : c ≠ ' ' ∧ c ≠ '\n' := by
  have := Nat.isDigit_of_mem_toDigits (by decide) (by decide) h
  constructor <;> rintro rfl <;> exact absurd this (by decide)

theorem intText_eq (n : Int) : intText n = (toString n).toList := by
  cases n with
  | ofNat m =>
    show Nat.toDigits 10 m = (Nat.repr m).toList
    simp [Nat.repr]
  | negSucc m =>
    show _ = ("-" ++ Nat.repr (m + 1)).toList
    simp [intText, Nat.repr]

theorem intText_blank (n : Int) : ' ' ∉ intText n := by
  cases n with
  | ofNat n => exact fun h => (digits_blank n _ h).1 rfl
  | negSucc n =>
    intro h
    rcases List.mem_cons.1 h with h | h
    · exact absurd h (by decide)
    · exact (digits_blank _ _ h).1 rfl

theorem split2_ok {a b : Text} (ha : ' ' ∉ a) (hb : ' ' ∉ b) : split2 (a ++ ' ' :: b) = .ok (a, b) := by
  rw [split2, Sp.splitOn_append _ _ _ ha, Sp.splitOn_field _ _ hb]

theorem splitOn_long (c : Char) : ∀ s : Text, c ∈ s → 2 ≤ (splitOn c s).length
  | [], h => by cases h
  | d :: t, h => by
    rw [splitOn]
    split
    · have := List.length_pos_of_ne_nil (Sp.splitOn_ne c t)
      simp only [List.length_cons]
      omega
    · rename_i hd
      have := splitOn_long c t ((List.mem_cons.1 h).resolve_left fun e => hd e.symm)
      split
      · rename_i e
        rw [e] at this
        simpa using this
      · rename_i e
        exact absurd e (Sp.splitOn_ne c t)

theorem split2_bad {a b : Text} (ha : ' ' ∉ a) (hb : ' ' ∈ b) : split2 (a ++ ' ' :: b) = .error .valueError := by
  rw [split2, Sp.splitOn_append _ _ _ ha]
  have := splitOn_long ' ' b hb
  match h : splitOn ' ' b, this with
  | x :: y :: r, _ => rfl

theorem max?_greatest {β : Type} [LinearOrder β] {xs : List β} (h : xs ≠ []) :
    ∃ m, xs.max? = some m ∧ IsGreatest {x | x ∈ xs} m := by
  cases hm : xs.max? with
  | none => exact absurd (List.max?_eq_none_iff.1 hm) h
  | some m =>
    obtain ⟨h1, h2⟩ := List.max?_eq_some_iff.1 hm
    exact ⟨m, rfl, h1, fun x hx => h2 x hx⟩

theorem min?_least {β : Type} [LinearOrder β] {xs : List β} (h : xs ≠ []) :
    ∃ m, xs.min? = some m ∧ IsLeast {x | x ∈ xs} m := by
  cases hm : xs.min? with
  | none => exact absurd (List.min?_eq_none_iff.1 hm) h
  | some m =>
    obtain ⟨h1, h2⟩ := List.min?_eq_some_iff.1 hm
    exact ⟨m, rfl, h1, fun x hx => h2 x hx⟩

/-- The texts of a row. -/
def fieldsOf (heads : List Head) (r : Row) : List Text := heads.map r.get

theorem extremes_ok {β : Type} [LinearOrder β] {text : β → Except Err Text} {xs : List β} {lo hi : β}
    (hlo : IsLeast {x | x ∈ xs} lo) (hhi : IsGreatest {x | x ∈ xs} hi) {a b a' b' : Text}
    (h1 : text hi = .ok (a ++ ' ' :: b)) (h2 : text lo = .ok (a' ++ ' ' :: b')) (ha : ' ' ∉ a) (hb : ' ' ∉ b)
    (ha' : ' ' ∉ a') (hb' : ' ' ∉ b') :
    extremes text xs = .ok [(.maxvalue, a), (.maxunit, b), (.minvalue, a'), (.minunit, b')] := by
  have hne : xs ≠ [] := by
    rintro rfl
    cases hlo.1
  obtain ⟨m, e1, g1⟩ := max?_greatest hne
  obtain ⟨n, e2, g2⟩ := min?_least hne
  rw [g1.unique hhi] at e1
  rw [g2.unique hlo] at e2
  simp only [extremes, e1, e2, h1, h2, split2_ok ha hb, split2_ok ha' hb']

theorem extremes_nil {β : Type} [LinearOrder β] (text : β → Except Err Text) :
    extremes text [] = .error .valueError := rfl

/-- The row of a dimension that can be shown. -/
theorem ivar_shows (p : Printer α) (hp : p.Ok) (v : View α) (d : Text × Sweep α)
    (h : v.minmax = true → Showable p d.2) :
    ∃ r, ivarReport p v d = .ok r ∧ Shows p v d.1 d.2.unit d.2.values (fieldsOf dimHeads r) := by
  obtain ⟨name, u, vals⟩ := d
  cases hm : v.minmax with
  | false =>
    cases vals with
    | ints xs =>
      have := Shows.intsUnit (p := p) (v := v) (name := name) (u := u) xs hm
      cases hu : v.units <;> rw [hu] at this <;>
        refine ⟨_, by simp only [ivarReport, numberRow, hm, hu, Bool.false_eq_true, if_false, if_true]; rfl, ?_⟩ <;>
        exact this
    | dates xs =>
      have := Shows.datesUnit (p := p) (v := v) (name := name) (u := u) xs hm
      cases hu : v.units <;> rw [hu] at this <;>
        refine ⟨_, by simp only [ivarReport, numberRow, hm, hu, Bool.false_eq_true, if_false, if_true]; rfl, ?_⟩ <;>
        exact this
    | nums xs =>
      have := Shows.numsUnit (p := p) (v := v) (name := name) (u := u) xs hm
      cases hu : v.units <;> rw [hu] at this <;>
        refine ⟨_, by simp only [ivarReport, numberRow, hm, hu, Bool.false_eq_true, if_false, if_true]; rfl, ?_⟩ <;>
        exact this
    | other t => exact ⟨_, rfl, .other t⟩
  | true =>
    have h := h hm
    cases vals with
    | ints xs =>
      obtain ⟨hi, -, hhi⟩ := max?_greatest (h : xs ≠ [])
      obtain ⟨lo, -, hlo⟩ := min?_least (h : xs ≠ [])
      have := extremes_ok (text := fun n => .ok (intText n ++ [' '])) hlo hhi rfl rfl (intText_blank hi) (by simp)
        (intText_blank lo) (by simp)
      refine ⟨_, by simp only [ivarReport, numberRow, hm, if_true, this]; rfl, ?_⟩
      rw [intText_eq, intText_eq]
      exact .ints xs lo hi hm hlo hhi
    | dates xs =>
      obtain ⟨hi, -, hhi⟩ := max?_greatest (h : xs ≠ [])
      obtain ⟨lo, -, hlo⟩ := min?_least (h : xs ≠ [])
      have := extremes_ok (text := fun n => .ok (p.date n ++ [' '])) hlo hhi rfl rfl (hp.date hi) (by simp)
        (hp.date lo) (by simp)
      refine ⟨_, by simp only [ivarReport, numberRow, hm, if_true, this]; rfl, ?_⟩
      exact .dates xs lo hi hm hlo hhi
    | nums xs =>
      obtain ⟨hu, lo, hi, hlo, hhi, k1, k2⟩ := (h : _ ∧ _)
      obtain ⟨⟨a, q⟩, e1⟩ := Option.ne_none_iff_exists'.1 k1
      obtain ⟨⟨b, r⟩, e2⟩ := Option.ne_none_iff_exists'.1 k2
      obtain ⟨ha, hq⟩ := hp.num _ _ _ e1
      obtain ⟨hb, hr⟩ := hp.num _ _ _ e2
      have t1 : numText p u hi = .ok (b ++ ' ' :: (r ++ u.getD [])) := by simp only [numText, e2]
      have t2 : numText p u lo = .ok (a ++ ' ' :: (q ++ u.getD [])) := by simp only [numText, e1]
      have := extremes_ok hlo hhi t1 t2 hb (by simp only [List.mem_append, not_or]; exact ⟨hr, hu⟩) ha
        (by simp only [List.mem_append, not_or]; exact ⟨hq, hu⟩)
      refine ⟨_, by simp only [ivarReport, numberRow, hm, if_true, this]; rfl, ?_⟩
      exact .nums xs lo hi a b q r hm hlo hhi e1 e2
    | other t => exact ⟨_, rfl, .other t⟩

/-- Otherwise there is an error. -/
theorem ivar_fails (p : Printer α) (hp : p.Ok) (v : View α) (d : Text × Sweep α) (hm : v.minmax = true)
    (h : ¬ Showable p d.2) : ∃ e, ivarReport p v d = .error e := by
  obtain ⟨name, u, vals⟩ := d
  cases vals with
  | ints xs =>
    have : xs = [] := not_not.1 h
    subst this
    exact ⟨.valueError, by simp only [ivarReport, numberRow, hm, if_true, extremes_nil]⟩
  | dates xs =>
    have : xs = [] := not_not.1 h
    subst this
    exact ⟨.valueError, by simp only [ivarReport, numberRow, hm, if_true, extremes_nil]⟩
  | nums xs =>
    by_cases hne : xs = []
    · subst hne
      exact ⟨.valueError, by simp only [ivarReport, numberRow, hm, if_true, extremes_nil]⟩
    · obtain ⟨hi, e1, hhi⟩ := max?_greatest hne
      obtain ⟨lo, e2, hlo⟩ := min?_least hne
      have key : ∃ e, extremes (numText p u) xs = .error e := by
        cases k2 : p.num hi with
        | none => exact ⟨.keyError, by simp only [extremes, e1, e2, numText, k2]⟩
        | some q =>
          obtain ⟨b, r⟩ := q
          obtain ⟨hb, hr⟩ := hp.num _ _ _ k2
          by_cases hu : ' ' ∈ u.getD []
          · have := split2_bad hb (List.mem_append.2 (.inr hu) : ' ' ∈ r ++ u.getD [])
            exact ⟨.valueError, by simp only [extremes, e1, e2, numText, k2, this]⟩
          · have s1 := split2_ok hb (b := r ++ u.getD []) (by simp only [List.mem_append, not_or]; exact ⟨hr, hu⟩)
            cases k1 : p.num lo with
            | none => exact ⟨.keyError, by simp only [extremes, e1, e2, numText, k2, s1, k1]⟩
            | some q => exact absurd ⟨hu, lo, hi, hlo, hhi, by rw [k1]; simp, by rw [k2]; simp⟩ h
      obtain ⟨e, he⟩ := key
      exact ⟨e, by simp only [ivarReport, numberRow, hm, if_true, he]⟩
  | other t => exact absurd trivial h

theorem rowsOf_ok {β : Type} {f : β → Except Err Row} {P : β → Row → Prop} :
    ∀ (bs : List β), (∀ b ∈ bs, ∃ r, f b = .ok r ∧ P b r) → ∃ rs, rowsOf f bs = .ok rs ∧ List.Forall₂ P bs rs
  | [], _ => ⟨[], rfl, .nil⟩
  | b :: bs, h => by
    obtain ⟨r, e1, hr⟩ := h b (by simp)
    obtain ⟨rs, e2, hrs⟩ := rowsOf_ok bs fun b hb => h b (by simp [hb])
    exact ⟨r :: rs, by simp only [rowsOf, e1, e2], .cons hr hrs⟩

theorem rowsOf_fails {β : Type} {f : β → Except Err Row} :
    ∀ (bs : List β) (b : β), b ∈ bs → (∃ e, f b = .error e) → ∃ e, rowsOf f bs = .error e
  | [], _, h, _ => by cases h
  | b :: bs, c, h, ⟨e, he⟩ => by
    cases hb : f b with
    | error e => exact ⟨e, by simp only [rowsOf, hb]⟩
    | ok r =>
      rcases List.mem_cons.1 h with rfl | h
      · rw [hb] at he; cases he
      · obtain ⟨e', he'⟩ := rowsOf_fails bs c h ⟨e, he⟩
        exact ⟨e', by simp only [rowsOf, hb, he']⟩

theorem foldl_max_le {β : Type} (f : β → Nat) : ∀ (xs : List β) (w : Nat),
    w ≤ xs.foldl (fun w x => max (f x) w) w ∧ (∀ x ∈ xs, f x ≤ xs.foldl (fun w x => max (f x) w) w) ∧
      (xs.foldl (fun w x => max (f x) w) w = w ∨ ∃ x ∈ xs, f x = xs.foldl (fun w x => max (f x) w) w)
  | [], w => ⟨le_rfl, by simp, .inl rfl⟩
  | x :: xs, w => by
    obtain ⟨h1, h2, h3⟩ := foldl_max_le f xs (max (f x) w)
    rw [List.foldl_cons]
    refine ⟨le_trans (le_max_right _ _) h1, ?_, ?_⟩
    · intro y hy
      rcases List.mem_cons.1 hy with rfl | hy
      · exact le_trans (le_max_left _ _) h1
      · exact h2 y hy
    · rcases h3 with h3 | ⟨y, hy, h3⟩
      · rw [h3]
        rcases le_total (f x) w with h | h
        · exact .inl (max_eq_right h)
        · exact .inr ⟨x, by simp, (max_eq_left h).symm⟩
      · exact .inr ⟨y, by simp [hy], h3⟩

theorem fits_just (b : Bool) (w : Nat) (t : Text) (h : t.length ≤ w) :
    Fits b w t (if b then ljust w t else rjust w t) := by
  cases b
  · exact ⟨by simp [rjust]; omega, w - t.length, by simp [rjust]⟩
  · exact ⟨by simp [ljust]; omega, w - t.length, by simp [ljust]⟩

theorem cells_heads (rows : List Row) (r : Row) (hr : r ∈ rows) : ∀ heads : List Head,
    Cells ((heads.map left).zip (heads.map (colwidth rows))) (fieldsOf heads r)
      (heads.map fun h => if left h then ljust (colwidth rows h) (r.get h) else rjust (colwidth rows h) (r.get h))
  | [] => .nil
  | h :: heads => by
    refine .cons ?_ (cells_heads rows r hr heads)
    exact fits_just _ _ _ ((foldl_max_le (fun r : Row => (r.get h).length) rows 0).2.1 r hr)

theorem formatTable_table (rows : List Row) (heads : List Head) :
    Table (heads.map left) (rows.map (fieldsOf heads)) (formatTable rows heads) := by
  refine ⟨heads.map (colwidth rows), by simp, ?_, ?_⟩
  · rw [formatTable, List.forall₂_map_left_iff, List.forall₂_map_right_iff, List.forall₂_same]
    intro r hr
    exact ⟨_, cells_heads rows r hr heads, rfl⟩
  · intro k w hk
    rw [List.getElem?_map] at hk
    obtain ⟨h, e, rfl⟩ := Option.map_eq_some_iff.1 hk
    rcases (foldl_max_le (fun r : Row => (r.get h).length) rows 0).2.2 with h0 | ⟨r, hr, e'⟩
    · exact .inl h0
    · refine .inr ⟨fieldsOf heads r, List.mem_map.2 ⟨r, hr, rfl⟩, r.get h, ?_, e'⟩
      rw [fieldsOf, List.getElem?_map, e]
      rfl

theorem zipLongest_length : ∀ a b : List Text, (zipLongest a b).length = max a.length b.length
  | [], b => by simp [zipLongest]
  | a :: as, b => by
    rw [zipLongest, List.length_cons, zipLongest_length as b.tail, List.length_tail, List.length_cons]
    omega

theorem zipLongest_get : ∀ (a b : List Text) (i : Nat) (q : Text × Text), (zipLongest a b)[i]? = some q →
    q = (a.getD i [], b.getD i [])
  | [], b, i, q, h => by
    rw [zipLongest, List.getElem?_map] at h
    obtain ⟨t, ht, rfl⟩ := Option.map_eq_some_iff.1 h
    simp [List.getD_eq_getElem?_getD, ht]
  | a :: as, b, 0, q, h => by
    rw [zipLongest, List.getElem?_cons_zero] at h
    cases h
    cases b <;> rfl
  | a :: as, b, i + 1, q, h => by
    rw [zipLongest, List.getElem?_cons_succ] at h
    rw [zipLongest_get as b.tail i q h]
    cases b <;> simp

theorem getD_width (rows : List Text) (i : Nat) : (rows.getD i []).length ≤ width rows := by
  rw [List.getD_eq_getElem?_getD]
  cases h : rows[i]? with
  | none => simp
  | some r =>
    simp only [Option.getD_some]
    exact (foldl_max_le List.length rows 0).2.1 r (List.mem_of_getElem? h)

theorem formatTable_nil (rows : List Row) (heads : List Head) : formatTable rows heads = [] ↔ rows = [] := by
  simp [formatTable]

theorem body_layout (maxwidth : Nat) (vars dims : List Text) :
    Body maxwidth vars dims (if maxwidth < width dims + width vars then dims ++ [] :: vars
      else (zipLongest vars dims).map fun q => ljust (width vars) q.1 ++ " - ".toList ++ ljust (width dims) q.2) := by
  refine ⟨width vars, width dims, fun l hl => (foldl_max_le List.length vars 0).2.1 l hl,
    fun l hl => (foldl_max_le List.length dims 0).2.1 l hl, (foldl_max_le List.length vars 0).2.2,
    (foldl_max_le List.length dims 0).2.2, ?_, ?_⟩
  · intro hw
    rw [if_pos hw]
  · intro hw
    rw [if_neg (by omega)]
    refine ⟨by rw [List.length_map, zipLongest_length], ?_⟩
    intro i l hl
    rw [List.getElem?_map] at hl
    obtain ⟨q, hq, rfl⟩ := Option.map_eq_some_iff.1 hl
    rw [zipLongest_get _ _ _ _ hq]
    have h1 := getD_width vars i
    have h2 := getD_width dims i
    exact ⟨width vars - (vars.getD i []).length, width dims - (dims.getD i []).length, by simp [ljust], by omega, by omega⟩

/-! ### C89 -/

/-- C89: the report of a block can be made if its smallest and greatest values can be shown or need not be shown.  It
then has the name, one row for each dimension and one for each variable, in their order, with the texts that belong to
them, in aligned tables. -/
theorem C89_report (p : Printer α) (hp : p.Ok) (v : View α)
    (h : v.minmax = true → ∀ d ∈ v.dims, Showable p d.2) :
    ∃ body dimFields dimRows varRows dims vars,
      reportLines p v = .ok (("Blockname: ".toList ++ v.name) :: body) ∧
      List.Forall₂ (fun d fs => Shows p v d.1 d.2.unit d.2.values fs) v.dims dimFields ∧
      Table [true, false, false, false, true, false, true, true] dimFields dimRows ∧
      Table [true, false, false] (v.vars.map (varFields v)) varRows ∧
      Titled "Dimensions:".toList dimRows dims ∧ Titled "Variables:".toList varRows vars ∧
      Body v.maxwidth vars dims body := by
  obtain ⟨rows, e, hrows⟩ := rowsOf_ok (f := ivarReport p v)
    (P := fun d r => Shows p v d.1 d.2.unit d.2.values (fieldsOf dimHeads r)) v.dims
    fun d hd => ivar_shows p hp v d fun hm => h hm d hd
  have hv : v.vars.map (varFields v) = (v.vars.map (depvarReport v)).map (fieldsOf varHeads) := by
    rw [List.map_map]
    apply List.map_congr_left
    intro d _
    simp only [Function.comp_apply, varFields, depvarReport]
    cases v.units <;> rfl
  have hlen := hrows.length_eq
  have hnil : v.dims = [] ↔ formatTable rows dimHeads = [] := by
    rw [formatTable_nil, ← List.length_eq_zero_iff, ← List.length_eq_zero_iff, hlen]
  have vnil : v.vars = [] ↔ formatTable (v.vars.map (depvarReport v)) varHeads = [] := by
    rw [formatTable_nil, List.map_eq_nil_iff]
  refine ⟨_, rows.map (fieldsOf dimHeads), formatTable rows dimHeads,
    formatTable (v.vars.map (depvarReport v)) varHeads,
    if v.dims = [] then [] else "Dimensions:".toList :: formatTable rows dimHeads,
    if v.vars = [] then [] else "Variables:".toList :: formatTable (v.vars.map (depvarReport v)) varHeads, ?_, ?_,
    formatTable_table rows dimHeads, hv ▸ formatTable_table _ varHeads, ?_, ?_, body_layout _ _ _⟩
  · simp only [reportLines, e]
    rw [← apply_ite Except.ok, ← apply_ite (List.cons _)]
  · rw [List.forall₂_map_right_iff]
    exact hrows
  · simp only [Titled, hnil]
  · simp only [Titled, vnil]

/-- C89: otherwise there is an error, and the block cannot be printed at all. -/
theorem C89_fails_refuted (p : Printer α) (hp : p.Ok) (v : View α) (hm : v.minmax = true) (d : Text × Sweep α)
    (hd : d ∈ v.dims) (h : ¬ Showable p d.2) : ∃ e, report p v = .error e := by
  obtain ⟨e, he⟩ := rowsOf_fails v.dims d hd (ivar_fails p hp v d hm h)
  exact ⟨e, by simp only [report, reportLines, he]⟩

theorem join_cons_eq (c : Char) (a : Text) (as : List Text) :
    join c (a :: as) = a ++ if as = [] then [] else c :: join c as := by
  cases as <;> simp [join]

/-- Where a column begins. -/
def start (ws : List Nat) (k : Nat) : Nat := (ws.take k).sum + k

theorem cells_at : ∀ {sides : List Bool} {ws : List Nat} {fs cs : List Text}, sides.length = ws.length →
    Cells (sides.zip ws) fs cs →
    (join ' ' cs).length = ws.sum + (ws.length - 1) ∧
    ∀ (k : Nat) (b : Bool) (w : Nat), sides[k]? = some b → ws[k]? = some w →
      ∃ f, fs[k]? = some f ∧ Fits b w f (((join ' ' cs).drop (start ws k)).take w)
  | [], [], _, _, _, .nil => ⟨rfl, by simp⟩
  | [], _ :: _, _, _, h, _ => by simp at h
  | _ :: _, [], _, _, h, _ => by simp at h
  | b :: sides, w :: ws, f :: fs, c :: cs, h, .cons hf hc => by
    obtain ⟨h1, h2⟩ := cells_at (by simpa using h) hc
    have hcs : cs = [] ↔ ws = [] := by
      have h : sides.length = ws.length := by simpa using h
      cases ws with
      | nil =>
        have : sides = [] := List.length_eq_zero_iff.1 h
        subst this
        cases hc
        simp
      | cons w ws =>
        cases sides with
        | nil => simp at h
        | cons b sides => cases hc; simp
    rw [join_cons_eq]
    constructor
    · by_cases hn : cs = []
      · rw [if_pos hn, hcs.1 hn]
        simp [hf.1]
      · rw [if_neg hn]
        have : ws.length ≠ 0 := fun e => hn (hcs.2 (List.length_eq_zero_iff.1 e))
        simp only [List.length_append, List.length_cons, hf.1, h1, List.sum_cons]
        omega
    · intro k b' w' hb hw
      cases k with
      | zero =>
        simp only [List.getElem?_cons_zero, Option.some.injEq] at hb hw
        subst hb hw
        refine ⟨f, rfl, ?_⟩
        simp only [start, List.take_zero, List.sum_nil, Nat.add_zero, List.drop_zero]
        rw [List.take_left' hf.1]
        exact hf
      | succ k =>
        simp only [List.getElem?_cons_succ] at hb hw ⊢
        have hn : cs ≠ [] := by
          intro e
          rw [hcs.1 e] at hw
          cases hw
        obtain ⟨f', e1, e2⟩ := h2 k b' w' hb hw
        refine ⟨f', e1, ?_⟩
        rw [if_neg hn]
        have hd : (c ++ ' ' :: join ' ' cs).drop (start (w :: ws) (k + 1)) = (join ' ' cs).drop (start ws k) := by
          have : start (w :: ws) (k + 1) = c.length + (start ws k + 1) := by
            simp only [start, List.take_succ_cons, List.sum_cons, hf.1]
            omega
          rw [this, ← List.drop_drop, List.drop_left, List.drop_succ_cons]
        rw [hd]
        exact e2

/-- C89: the rows of a table are equally wide, and every column stands at the same place in all rows. -/
theorem C89_columns (sides : List Bool) (fields : List (List Text)) (rows : List Text) (h : Table sides fields rows) :
    rows.length = fields.length ∧ ∃ (total : Nat) (cols : List (Nat × Nat)), cols.length = sides.length ∧
      ∀ (i : Nat) (row : Text), rows[i]? = some row → row.length = total ∧
        ∃ fs, fields[i]? = some fs ∧ ∀ (k : Nat) (b : Bool) (c : Nat × Nat), sides[k]? = some b → cols[k]? = some c →
          ∃ f, fs[k]? = some f ∧ Fits b c.2 f ((row.drop c.1).take c.2) := by
  obtain ⟨ws, hl, hr, -⟩ := h
  refine ⟨hr.length_eq.symm, ws.sum + (ws.length - 1), (List.range ws.length).map fun k => (start ws k, ws.getD k 0),
    by simp [hl], ?_⟩
  intro i row hi
  obtain ⟨hi', rfl⟩ := List.getElem?_eq_some_iff.1 hi
  have hif : i < fields.length := by rw [hr.length_eq]; exact hi'
  obtain ⟨cs, hc, e⟩ := hr.get (i := i) hif hi'
  simp only [List.get_eq_getElem] at hc e
  obtain ⟨h1, h2⟩ := cells_at hl.symm hc
  rw [e]
  refine ⟨h1, fields[i], List.getElem?_eq_getElem hif, ?_⟩
  intro k b c hb hk
  rw [List.getElem?_map] at hk
  obtain ⟨j, hj, rfl⟩ := Option.map_eq_some_iff.1 hk
  obtain ⟨hj1, hj2⟩ := List.getElem?_eq_some_iff.1 hj
  rw [List.getElem_range] at hj2
  subst hj2
  rw [List.length_range] at hj1
  have hw : ws[k]? = some (ws.getD k 0) := by
    rw [List.getD_eq_getElem?_getD, List.getElem?_eq_getElem hj1]
    rfl
  exact h2 k b _ hb hw

/-- C89: texts without line ends give the lines of the report back. -/
theorem C89_lines (p : Printer α) (v : View α) (ls : List Text) (h : reportLines p v = .ok ls)
    (hn : ∀ l ∈ ls, '\n' ∉ l) (t : Text) (ht : report p v = .ok t) : splitOn '\n' t = ls := by
  have hne : ls ≠ [] := by
    rintro rfl
    unfold reportLines at h
    split at h
    · cases h
    · simp only at h
      rw [← apply_ite Except.ok, ← apply_ite (List.cons _)] at h
      exact List.cons_ne_nil _ _ (Except.ok.inj h)
  simp only [report, h, Except.ok.injEq] at ht
  rw [← ht, Sp.splitOn_join _ _ hne hn]

/-- C89: side by side all lines but the first have one width, which exceeds the width asked for by at most three. -/
theorem C89_width (maxwidth : Nat) (vars dims body : List Text) (h : Body maxwidth vars dims body) :
    body = dims ++ [] :: vars ∨ ∃ w ≤ maxwidth + 3, ∀ l ∈ body, l.length = w := by
  obtain ⟨m, n, -, -, -, -, h1, h2⟩ := h
  rcases Nat.lt_or_ge maxwidth (n + m) with hw | hw
  · exact .inl (h1 hw)
  · refine .inr ⟨m + 3 + n, by omega, ?_⟩
    intro l hl
    obtain ⟨i, hi⟩ := List.getElem?_of_mem hl
    obtain ⟨a, b, rfl, e1, e2⟩ := (h2 hw).2 i l hi
    simp only [List.length_append, List.length_replicate]
    have : " - ".toList.length = 3 := rfl
    omega

end Report
end DataBlock
end HF
