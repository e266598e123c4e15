import Verif.Plot.Positions
import Mathlib.Data.List.Chain
/-
C95: positions of windows read and set again.
-/
namespace HF.Plot.Positions

open Arrange

/-! ### Specification -/

namespace Spec

/-- The coordinates `get_current_figure_position` reports for a window. -/
def position (f : Fig) : Except Err (Int × Int) :=
  if f.right = false ∧ f.bottom = false then .ok (f.x, f.y) else .error .valueError

/-- `z` is the coordinate nearest to `x` where a window of this size is inside a screen of size `W`; a window that is larger
than the screen begins at its edge. -/
structure Nearest (W size x z : Int) : Prop where
  large : W < size → z = 0
  inside : size ≤ W → 0 ≤ z ∧ z + size ≤ W
  near : ∀ z', 0 ≤ z' → z' + size ≤ W → (z - x).natAbs ≤ (z' - x).natAbs

/-- `g` is the window `f` brought to `x`, `y` as far as the screen permits. -/
structure Brought (s : Screens) (f g : Fig) (x y : Int) : Prop where
  size : g.win = f.win
  left : Nearest s.W f.win.w x g.x
  top : Nearest s.H f.win.h y g.y
  corner : g.right = false ∧ g.bottom = false

/-- The last position given for a figure. -/
def lastFor (l : List (Nat × Int × Int)) (i : Nat) : Option (Int × Int) := ((l.filter fun e => e.1 = i).getLast?).map Prod.snd

/-- The entries that are carried out: those before the first one of a figure that is not open. -/
def done (figs : Figs) (l : List (Nat × Int × Int)) : List (Nat × Int × Int) :=
  l.takeWhile fun e => e.1 ∈ figs.map Prod.fst

/-- The window stays where it is when it is moved to where it is. -/
def Stays (s : Screens) (f : Fig) : Prop :=
  0 ≤ f.x ∧ (f.x + f.win.w ≤ s.W ∨ f.x = 0) ∧ 0 ≤ f.y ∧ (f.y + f.win.h ≤ s.H ∨ f.y = 0)

end Spec

open Spec

/-! ### Texts of numbers -/

theorem toDigits_digit {n : Nat} {c : Char} (h : c ∈ Nat.toDigits 10 n) : c.isDigit = true :=
  Nat.isDigit_of_mem_toDigits (by decide) (by decide) h

theorem toDigits_all (n : Nat) : (Nat.toDigits 10 n).all Char.isDigit = true := by
  rw [List.all_eq_true]
  exact fun c hc => toDigits_digit hc

theorem not_digit : ('-').isDigit = false ∧ ('+').isDigit = false ∧ ('x').isDigit = false := by decide

theorem intOf_text (n : Int) : intOf (intText n) = .ok n := by
  cases n with
  | ofNat n =>
    have ht : intText (.ofNat n) = Nat.toDigits 10 n := rfl
    rw [ht]
    unfold intOf
    have hne : Nat.toDigits 10 n ≠ [] := Nat.toDigits_ne_nil
    have hall := toDigits_all n
    have hv : Nat.ofDigitChars 10 (Nat.toDigits 10 n) 0 = n := Nat.ofDigitChars_toDigits (by decide) (by decide)
    split
    · next r h => exact absurd (toDigits_digit (n := n) (c := '-') (by rw [h]; simp)) (by decide)
    · next r h => exact absurd (toDigits_digit (n := n) (c := '+') (by rw [h]; simp)) (by decide)
    · rw [if_pos ⟨hne, hall⟩, hv]; rfl
  | negSucc n =>
    unfold intText intOf
    simp only
    rw [if_pos ⟨Nat.toDigits_ne_nil, toDigits_all (n + 1)⟩, Nat.ofDigitChars_toDigits (by decide) (by decide)]
    rfl

theorem intText_chars {n : Int} {c : Char} (h : c ∈ intText n) : c.isDigit = true ∨ c = '-' := by
  cases n with
  | ofNat n => exact .inl (toDigits_digit h)
  | negSucc n =>
    rcases List.mem_cons.1 h with h | h
    · exact .inr h
    · exact .inl (toDigits_digit h)

theorem intText_ne (n : Int) : intText n ≠ [] := by
  cases n with
  | ofNat n => exact Nat.toDigits_ne_nil
  | negSucc n => simp [intText]

theorem intText_plain (n : Int) : ∀ c ∈ intText n, ¬ (c = 'x' ∨ c = '+') := by
  intro c hc h
  rcases intText_chars hc with h' | h' <;> rcases h with rfl | rfl <;> revert h' <;> decide

/-- A minus sign after the first character is not a number. -/
theorem intOf_minus {a b : List Char} (ha : a ≠ []) : intOf (a ++ '-' :: b) = .error .valueError := by
  obtain ⟨c, t, rfl⟩ := List.exists_cons_of_ne_nil ha
  have hno : ∀ r : List Char, r.all Char.isDigit = true → '-' ∈ r → False := by
    intro r hr hm
    exact absurd (List.all_eq_true.1 hr _ hm) (by decide)
  unfold intOf
  split
  · next r h =>
    have : '-' ∈ r := by
      have := (List.cons.inj h).2
      rw [← this]; simp
    rw [if_neg fun hh => hno r hh.2 this]
  · next r h =>
    have : '-' ∈ r := by
      have := (List.cons.inj h).2
      rw [← this]; simp
    rw [if_neg fun hh => hno r hh.2 this]
  · rw [if_neg fun hh => hno _ hh.2 (by simp)]

theorem pieces_ne (t : List Char) : pieces t ≠ [] := by
  cases t with
  | nil => simp [pieces]
  | cons c t =>
    unfold pieces
    split
    · simp
    · split <;> simp

theorem pieces_text {a : List Char} (ha : ∀ c ∈ a, ¬ (c = 'x' ∨ c = '+')) (t : List Char) :
    ∃ p ps, pieces t = p :: ps ∧ pieces (a ++ t) = (a ++ p) :: ps := by
  induction a with
  | nil =>
    obtain ⟨p, ps, h⟩ := List.exists_cons_of_ne_nil (pieces_ne t)
    exact ⟨p, ps, h, h⟩
  | cons c a ih =>
    obtain ⟨p, ps, h, h'⟩ := ih fun d hd => ha d (List.mem_cons_of_mem _ hd)
    refine ⟨p, ps, h, ?_⟩
    rw [List.cons_append, pieces, if_neg (ha c (by simp)), h']
    rfl

theorem pieces_end {a : List Char} (ha : ∀ c ∈ a, ¬ (c = 'x' ∨ c = '+')) : pieces a = [a] := by
  obtain ⟨p, ps, h, h'⟩ := pieces_text ha []
  obtain ⟨rfl, rfl⟩ : p = [] ∧ ps = [] := by
    have : [[]] = p :: ps := h
    simpa [eq_comm] using this
  simpa using h'

theorem pieces_sep {a : List Char} (ha : ∀ c ∈ a, ¬ (c = 'x' ∨ c = '+')) {d : Char} (hd : d = 'x' ∨ d = '+')
    (t : List Char) : pieces (a ++ d :: t) = a :: pieces t := by
  obtain ⟨p, ps, h, h'⟩ := pieces_text ha (d :: t)
  rw [pieces, if_pos hd] at h
  obtain ⟨rfl, rfl⟩ := List.cons.inj h
  simpa using h'

theorem ints_error {p : List Char} (hp : intOf p = .error .valueError) (ns : List Int) (ps : List (List Char)) :
    ints (ns.map intText ++ p :: ps) = .error .valueError := by
  induction ns with
  | nil => simp [ints, hp]
  | cons n ns ih =>
    simp only [List.map_cons, List.cons_append]
    rw [ints, intOf_text]
    simp only [ih]

theorem coordinates_eq (f : Fig) : coordinates (geometry f) = position f := by
  obtain ⟨⟨w, h⟩, x, y, r, b⟩ := f
  unfold coordinates geometry position
  simp only [List.append_assoc, List.cons_append]
  rw [pieces_sep (intText_plain w) (.inl rfl)]
  cases r with
  | true =>
    obtain ⟨p, ps, -, h2⟩ := pieces_text (a := intText h ++ '-' :: intText x)
      (by
        intro c hc
        rcases List.mem_append.1 hc with hc | hc
        · exact intText_plain h c hc
        · rcases List.mem_cons.1 hc with rfl | hc
          · decide
          · exact intText_plain x c hc) ((if b = true then '-' else '+') :: intText y)
    simp only [List.append_assoc, List.cons_append] at h2
    simp only [if_true, h2]
    have := ints_error (p := intText h ++ '-' :: (intText x ++ p)) (intOf_minus (intText_ne h)) [w] ps
    simp only [List.map_cons, List.map_nil, List.cons_append, List.nil_append] at this
    simp [this]
  | false =>
    simp only [Bool.false_eq_true, if_false]
    rw [pieces_sep (intText_plain h) (.inr rfl)]
    cases b with
    | true =>
      simp only [if_true]
      rw [pieces_end (a := intText x ++ '-' :: intText y)
        (by
          intro c hc
          rcases List.mem_append.1 hc with hc | hc
          · exact intText_plain x c hc
          · rcases List.mem_cons.1 hc with rfl | hc
            · decide
            · exact intText_plain y c hc)]
      have := ints_error (p := intText x ++ '-' :: intText y) (intOf_minus (intText_ne x)) [w, h] []
      simp only [List.map_cons, List.map_nil, List.cons_append, List.nil_append] at this
      simp [this]
    | false =>
      simp only [Bool.false_eq_true, if_false]
      rw [pieces_sep (intText_plain x) (.inr rfl), pieces_end (intText_plain y)]
      simp [ints, intOf_text]

/-! ### The table of figures -/

theorem find_some {figs : Figs} {i : Nat} {f : Fig} (h : find figs i = some f) : (i, f) ∈ figs := by
  induction figs with
  | nil => simp [find] at h
  | cons e figs ih =>
    obtain ⟨j, g⟩ := e
    rw [find] at h
    split at h
    · next hj => subst hj; simp_all
    · exact List.mem_cons_of_mem _ (ih h)

theorem find_mem {figs : Figs} (hn : (figs.map Prod.fst).Nodup) : ∀ e ∈ figs, find figs e.1 = some e.2 := by
  induction figs with
  | nil => simp
  | cons a figs ih =>
    intro e he
    obtain ⟨j, g⟩ := a
    rw [List.map_cons, List.nodup_cons] at hn
    rw [find]
    rcases List.mem_cons.1 he with rfl | hm
    · simp
    · rw [if_neg, ih hn.2 e hm]
      intro h
      exact hn.1 (List.mem_map.2 ⟨e, hm, h.symm⟩)

theorem find_none {figs : Figs} {i : Nat} : find figs i = none ↔ i ∉ figs.map Prod.fst := by
  induction figs with
  | nil => simp [find]
  | cons e figs ih =>
    obtain ⟨j, g⟩ := e
    rw [find]
    split
    · next hj => simp [hj]
    · next hj => simp [ih, Ne.symm hj]

theorem find_put (figs : Figs) (i j : Nat) (g : Fig) :
    find (put i g figs) j = if j = i then (find figs i).map fun _ => g else find figs j := by
  induction figs with
  | nil => simp [put, find]
  | cons e figs ih =>
    obtain ⟨k, f⟩ := e
    have hput : put i g ((k, f) :: figs) = (if k = i then (i, g) else (k, f)) :: put i g figs := rfl
    rw [hput]
    by_cases hk : k = i
    · subst hk
      rw [if_pos rfl, find, find, find, ih]
      by_cases hj : j = k
      · subst hj; simp
      · simp [hj, Ne.symm hj]
    · rw [if_neg hk, find, find, find, ih]
      by_cases hj : j = i
      · subst hj; simp [hk]
      · simp only [if_neg hj]

theorem keys_put (figs : Figs) (i : Nat) (g : Fig) : (put i g figs).map Prod.fst = figs.map Prod.fst := by
  unfold put
  rw [List.map_map]
  refine List.map_congr_left fun e _ => ?_
  simp only [Function.comp]
  split
  · next h => exact h.symm
  · rfl

theorem nearest (W size x : Int) : Nearest W size x (max 0 (min x (W - size))) :=
  ⟨fun h => by omega, fun h => by omega, fun z' h1 h2 => by omega⟩

theorem brought_move (s : Screens) (f : Fig) (x y : Int) : Brought s f (move s f x y) x y :=
  ⟨rfl, nearest _ _ _, nearest _ _ _, rfl, rfl⟩

theorem move_again (s : Screens) (f : Fig) (x y x' y' : Int) : move s (move s f x y) x' y' = move s f x' y' := rfl

theorem nearest_self {W size x z : Int} (h : Nearest W size x z) : z = x ↔ 0 ≤ x ∧ (x + size ≤ W ∨ x = 0 ) := by
  obtain ⟨h1, h2, h3⟩ := h
  by_cases hs : W < size
  · have := h1 hs
    omega
  · have h2' := h2 (by omega)
    constructor
    · intro e; subst e; exact ⟨h2'.1, .inl h2'.2⟩
    · rintro ⟨h4, h5⟩
      have := h3 x h4 (by omega)
      omega

/-- What `set_figure_positions` makes of every figure. -/
theorem setAll_eq (s : Screens) (l : List (Nat × Int × Int)) : ∀ figs : Figs,
    (setAll s figs l).1.map Prod.fst = figs.map Prod.fst ∧
    (setAll s figs l).2 = (if ∀ e ∈ l, e.1 ∈ figs.map Prod.fst then none else some Err.keyError) ∧
    ∀ j, find (setAll s figs l).1 j =
      match lastFor (done figs l) j with
      | none => find figs j
      | some p => (find figs j).map fun f => move s f p.1 p.2 := by
  induction l with
  | nil => intro figs; simp [setAll, lastFor, done]
  | cons e l ih =>
    intro figs
    obtain ⟨i, x, y⟩ := e
    rw [setAll]
    cases hf : find figs i with
    | none =>
      have hi := find_none.1 hf
      refine ⟨rfl, ?_, ?_⟩
      · rw [if_neg fun h => hi (h (i, x, y) (by simp))]
      · intro j
        have : done figs ((i, x, y) :: l) = [] := by simp only [done, List.takeWhile_cons]; simp [hi]
        rw [this]; rfl
    | some f =>
      have hi : i ∈ figs.map Prod.fst := by
        by_contra hh
        rw [find_none.2 hh] at hf; cases hf
      obtain ⟨h1, h2, h3⟩ := ih (put i (move s f x y) figs)
      refine ⟨h1.trans (keys_put ..), ?_, ?_⟩
      · rw [h2, keys_put]
        by_cases ha : ∀ e ∈ l, e.1 ∈ figs.map Prod.fst
        · rw [if_pos ha, if_pos]
          intro e he
          rcases List.mem_cons.1 he with rfl | he
          · exact hi
          · exact ha e he
        · rw [if_neg ha, if_neg fun hh => ha fun e he => hh e (List.mem_cons_of_mem _ he)]
      · intro j
        have hd : done (put i (move s f x y) figs) l = done figs l := by unfold done; rw [keys_put]
        have hd' : done figs ((i, x, y) :: l) = (i, x, y) :: done figs l := by
          simp only [done, List.takeWhile_cons, hi, decide_true, if_true]
        rw [h3 j, hd, hd', find_put]
        by_cases hj : j = i
        · subst hj
          have : lastFor ((j, x, y) :: done figs l) j = some ((lastFor (done figs l) j).getD (x, y)) := by
            unfold lastFor
            simp only [List.filter_cons, decide_true, if_true, List.getLast?_cons, Option.map_some]
            cases ((done figs l).filter fun e => decide (e.1 = j)).getLast? <;> rfl
          rw [this, hf]
          cases lastFor (done figs l) j with
          | none => simp
          | some p => simp [move_again]
        · have : lastFor ((i, x, y) :: done figs l) j = lastFor (done figs l) j := by
            unfold lastFor
            simp [Ne.symm hj]
          rw [this]
          simp [hj]

theorem getEach_ok (figs : Figs) (g : Nat → Int × Int) (is : List Nat) (h : ∀ i ∈ is, get figs i = .ok (g i)) :
    getEach figs is = .ok (is.map fun i => (i, g i)) := by
  induction is with
  | nil => rfl
  | cons i is ih =>
    rw [getEach, h i (by simp), ih fun j hj => h j (List.mem_cons_of_mem _ hj)]
    rfl

theorem getEach_error (figs : Figs) (is : List Nat) (hv : ∀ i ∈ is, get figs i ≠ .error .keyError)
    (h : ∃ i ∈ is, get figs i = .error .valueError) : getEach figs is = .error .valueError := by
  induction is with
  | nil => simp at h
  | cons i is ih =>
    rw [getEach]
    cases hg : get figs i with
    | error e =>
      cases e with
      | keyError => exact absurd hg (hv i (by simp))
      | valueError => rfl
    | ok p =>
      have : ∃ j ∈ is, get figs j = .error .valueError := by
        obtain ⟨j, hj, hj'⟩ := h
        rcases List.mem_cons.1 hj with rfl | hj
        · rw [hg] at hj'; cases hj'
        · exact ⟨j, hj, hj'⟩
      simp only
      rw [ih (fun j hj => hv j (List.mem_cons_of_mem _ hj)) this]

theorem lastFor_keys {g : Nat → Int × Int} {ks : List Nat} {i : Nat} :
    lastFor (ks.map fun k => (k, g k)) i = if i ∈ ks then some (g i) else none := by
  unfold lastFor
  induction ks with
  | nil => simp
  | cons k ks ih =>
    rw [List.map_cons, List.filter_cons]
    by_cases hk : k = i
    · subst hk
      simp only [decide_true, if_true, List.mem_cons, true_or, List.getLast?_cons, Option.map_some, Option.some.injEq]
      split at ih
      · cases hl : ((ks.map fun k => (k, g k)).filter fun e => decide (e.1 = k)).getLast? with
        | none => rw [hl] at ih; cases ih
        | some e => rw [hl] at ih; simpa using ih
      · cases hl : ((ks.map fun k => (k, g k)).filter fun e => decide (e.1 = k)).getLast? with
        | none => rfl
        | some e => rw [hl] at ih; cases ih
    · simp only [hk, decide_false, Bool.false_eq_true, if_false, List.mem_cons, Ne.symm hk, false_or]
      exact ih

theorem takeWhile_self {X : Type} {p : X → Bool} {l : List X} (h : ∀ e ∈ l, p e = true) : l.takeWhile p = l := by
  induction l with
  | nil => rfl
  | cons a l ih =>
    rw [List.takeWhile_cons, if_pos (h a (by simp)), ih fun e he => h e (List.mem_cons_of_mem _ he)]

/-! ### Theorems -/

/-- The position read for an open figure is the one of its window, of whatever size and sign; the call raises exactly for
figures that are not open (`KeyError`) and for windows placed by their right or lower edge (`ValueError`). -/
theorem C95_get (figs : Figs) (i : Nat) :
    get figs i = match find figs i with
      | none => .error .keyError
      | some f => position f := by
  unfold get
  cases find figs i with
  | none => rfl
  | some f => exact coordinates_eq f

/-- The positions of all figures: one entry for every figure, in the order of the figures. -/
theorem C95_all (figs : Figs) (hn : (figs.map Prod.fst).Nodup) :
    getAll figs = if ∀ e ∈ figs, e.2.right = false ∧ e.2.bottom = false
      then .ok (figs.map fun e => (e.1, e.2.x, e.2.y)) else .error .valueError := by
  have hfind := find_mem hn
  unfold getAll
  split
  · next h =>
    have hg : ∀ i ∈ figs.map Prod.fst, get figs i = .ok (((find figs i).map fun f => (f.x, f.y)).getD (0, 0)) := by
      intro i hi
      obtain ⟨e, he, rfl⟩ := List.mem_map.1 hi
      rw [C95_get, hfind e he]
      simp [position, h e he]
    rw [getEach_ok figs _ _ hg, List.map_map]
    congr 1
    refine List.map_congr_left fun e he => ?_
    simp [hfind e he]
  · next h =>
    apply getEach_error
    · intro i hi
      obtain ⟨e, he, rfl⟩ := List.mem_map.1 hi
      rw [C95_get, hfind e he]
      simp only [position]
      split <;> simp
    · have : ∃ e ∈ figs, ¬ (e.2.right = false ∧ e.2.bottom = false) := by
        by_contra hh
        exact h fun e he => by
          by_contra h3
          exact hh ⟨e, he, h3⟩
      obtain ⟨e, he, hne⟩ := this
      refine ⟨e.1, List.mem_map_of_mem he, ?_⟩
      rw [C95_get, hfind e he]
      simp only [position, if_neg hne]

/-- Setting positions: every figure named before the first figure that is not open is brought to the last position given for
it there, all others stay as they are; it raises a `KeyError` exactly if a figure that is not open is named. -/
theorem C95_set (s : Screens) (figs : Figs) (l : List (Nat × Int × Int)) :
    (setAll s figs l).1.map Prod.fst = figs.map Prod.fst ∧
    ((setAll s figs l).2 = none ↔ ∀ e ∈ l, e.1 ∈ figs.map Prod.fst) ∧
    ((setAll s figs l).2 ≠ none → (setAll s figs l).2 = some .keyError) ∧
    ∀ i f, find figs i = some f → ∃ g, find (setAll s figs l).1 i = some g ∧
      (lastFor (done figs l) i = none → g = f) ∧
      ∀ p, lastFor (done figs l) i = some p → Brought s f g p.1 p.2 := by
  obtain ⟨h1, h2, h3⟩ := setAll_eq s l figs
  refine ⟨h1, ?_, ?_, ?_⟩
  · rw [h2]
    split
    · next h => exact ⟨fun _ => h, fun _ => rfl⟩
    · next h => exact ⟨nofun, fun hh => absurd hh h⟩
  · rw [h2]; split <;> simp
  · intro i f hf
    rw [h3 i, hf]
    cases hl : lastFor (done figs l) i with
    | none => exact ⟨f, rfl, fun _ => rfl, nofun⟩
    | some p => exact ⟨move s f p.1 p.2, rfl, nofun, fun q hq => by
        obtain rfl := Option.some.inj hq
        exact brought_move ..⟩

/-- Positions saved with `get_figure_positions` and set again later, after the windows were moved, resized or placed by other
edges and figures were opened: all windows of that time are brought to where they were, all others stay. -/
theorem C95_restore (s : Screens) (figs later : Figs) (l : List (Nat × Int × Int)) (hn : (figs.map Prod.fst).Nodup)
    (hl : getAll figs = .ok l) (hopen : ∀ i ∈ figs.map Prod.fst, i ∈ later.map Prod.fst) :
    (setAll s later l).2 = none ∧
    (∀ i f f', find figs i = some f → find later i = some f' → ∃ g, find (setAll s later l).1 i = some g ∧
      Brought s f' g f.x f.y) ∧
    (∀ i, i ∉ figs.map Prod.fst → find (setAll s later l).1 i = find later i) := by
  rw [C95_all figs hn] at hl
  split at hl
  · obtain rfl := Except.ok.inj hl
    have hall : ∀ e ∈ figs.map fun e => (e.1, e.2.x, e.2.y), e.1 ∈ later.map Prod.fst := by
      intro e he
      obtain ⟨e', he', rfl⟩ := List.mem_map.1 he
      exact hopen _ (List.mem_map_of_mem he')
    have hd : done later (figs.map fun e => (e.1, e.2.x, e.2.y)) = figs.map fun e => (e.1, e.2.x, e.2.y) := by
      unfold done
      apply takeWhile_self
      exact fun e he => decide_eq_true (hall e he)
    have hlast : ∀ i, lastFor (figs.map fun e => (e.1, e.2.x, e.2.y)) i = (find figs i).map fun f => (f.x, f.y) := by
      intro i
      have := lastFor_keys (g := fun k => ((find figs k).map fun f => (f.x, f.y)).getD (0, 0))
        (ks := figs.map Prod.fst) (i := i)
      rw [List.map_map] at this
      have he : figs.map (fun e => (e.1, e.2.x, e.2.y)) = figs.map ((fun k => (k, ((find figs k).map fun f =>
          (f.x, f.y)).getD (0, 0))) ∘ Prod.fst) := by
        refine List.map_congr_left fun e he => ?_
        have := find_mem hn e he
        simp [this]
      rw [he, this]
      cases hf : find figs i with
      | none => rw [if_neg (find_none.1 hf)]; rfl
      | some f =>
        rw [if_pos]
        · rfl
        · by_contra hh
          rw [find_none.2 hh] at hf; cases hf
    obtain ⟨-, h2, h3⟩ := setAll_eq s (figs.map fun e => (e.1, e.2.x, e.2.y)) later
    refine ⟨by rw [h2, if_pos hall], ?_, ?_⟩
    · intro i f f' hf hf'
      rw [h3 i, hd, hlast i, hf, hf']
      exact ⟨_, rfl, brought_move ..⟩
    · intro i hi
      rw [h3 i, hd, hlast i, find_none.2 hi]
      rfl
  · cases hl

/-- A window moved to a position comes to it exactly if it is wholly inside the screens there, or begins at their edge. -/
theorem C95_exact (s : Screens) (f g : Fig) (x y : Int) (h : Brought s f g x y) :
    (g.x = x ∧ g.y = y) ↔ Stays s ⟨f.win, x, y, false, false⟩ := by
  unfold Stays
  rw [nearest_self h.left, nearest_self h.top]
  simp only [and_assoc]

/-- Saved and set at once, nothing happens exactly if all windows are wholly inside the screens or begin at their edge. -/
theorem C95_at_once (s : Screens) (figs : Figs) (l : List (Nat × Int × Int)) (hn : (figs.map Prod.fst).Nodup)
    (hl : getAll figs = .ok l) : (∀ i, find (setAll s figs l).1 i = find figs i) ↔ ∀ e ∈ figs, Stays s e.2 := by
  obtain ⟨-, h2, h3⟩ := C95_restore s figs figs l hn hl fun i hi => hi
  have hco : ∀ e ∈ figs, e.2.right = false ∧ e.2.bottom = false := by
    rw [C95_all figs hn] at hl
    split at hl
    · assumption
    · cases hl
  have hfind := find_mem hn
  constructor
  · intro h e he
    obtain ⟨g, hg, hb⟩ := h2 e.1 e.2 e.2 (hfind e he) (hfind e he)
    rw [h e.1, hfind e he] at hg
    obtain rfl := Option.some.inj hg
    exact (C95_exact s _ _ _ _ hb).1 ⟨rfl, rfl⟩
  · intro h i
    cases hf : find figs i with
    | none => rw [h3 i (find_none.1 hf), hf]
    | some f =>
      obtain ⟨g, hg, hb⟩ := h2 i f f hf hf
      rw [hg]
      have hm := find_some hf
      obtain ⟨hx, hy⟩ := (C95_exact s f g f.x f.y hb).2 (h _ hm)
      have hc := hco _ hm
      have hc' := hb.corner
      obtain ⟨w, x, y, r, b⟩ := g
      obtain ⟨w', x', y', r', b'⟩ := f
      simp only at hx hy hc hc' ⊢
      have hw : w = w' := hb.size
      rw [hx, hy, hw, hc.1, hc.2, hc'.1, hc'.2]

end HF.Plot.Positions
