import Verif.Plot.Arrange
import Mathlib.Data.List.Chain
/-
C86: arranging the windows of the figures.
-/
namespace HF.Plot.Arrange

/-! ### Specification -/

/-- The windows have these gaps between them, in one of the directions. -/
def Apart (xgap ygap : Int) (p q : Placed) : Prop :=
  p.x + p.win.w + xgap ≤ q.x ∨ q.x + q.win.w + xgap ≤ p.x ∨ p.y + p.win.h + ygap ≤ q.y ∨ q.y + q.win.h + ygap ≤ p.y

/-- There is room for the window `f` beside `p`. -/
def Beside (s : Screens) (xgap : Int) (p : Placed) (f : Win) : Prop := p.x + p.win.w + xgap + f.w < s.W

/-- There is room for the window `f` below `p`. -/
def Below (s : Screens) (ygap : Int) (p : Placed) (f : Win) : Prop := p.y + p.win.h + ygap + f.h < s.H

/-- `q` comes after `p`: beside it if there is room, else below it at the left edge `X`. -/
def Next (s : Screens) (xgap ygap X : Int) (p q : Placed) : Prop :=
  Beside s xgap p q.win ∧ q.x = p.x + p.win.w + xgap ∧ q.y = p.y ∨
  ¬ Beside s xgap p q.win ∧ Below s ygap p q.win ∧ q.x = X ∧ q.y = p.y + p.win.h + ygap

/-- One layer of windows with the upper left corner `X`, `Y`. -/
structure Layer (s : Screens) (xgap ygap X Y : Int) (ps : List Placed) : Prop where
  first : ∃ p, ps.head? = some p ∧ p.x = X ∧ p.y = Y
  next : ps.IsChain (Next s xgap ygap X)
  apart : ps.Pairwise (Apart xgap ygap)

/-- A layer is full: there is no room for the first window of the next one. -/
def Full (s : Screens) (xgap ygap : Int) (ps qs : List Placed) : Prop :=
  ∃ p q, ps.getLast? = some p ∧ qs.head? = some q ∧ ¬ Beside s xgap p q.win ∧ ¬ Below s ygap p q.win

/-- The left edge of the screen asked for (the second one begins where the first one ends) with an offset. -/
def edge (s : Screens) (screen : Nat) (offset : Int) : Int := (if screen = 2 then s.first else 0) + offset

/-- There is room for the windows `fs` with this offset: they have one height, which fits, and any two of them fit beside
each other. -/
structure Room (s : Screens) (screen : Nat) (xgap offset h : Int) (fs : List Win) : Prop where
  size : ∀ f ∈ fs, f.h = h ∧ 0 ≤ f.w
  high : offset + h ≤ s.H
  two : ∀ f ∈ fs, ∀ g ∈ fs, edge s screen offset + f.w + xgap + g.w < s.W
  corner : 0 ≤ edge s screen offset ∧ 0 ≤ offset

/-! ### Proof -/

theorem startX_eq (s : Screens) (screen : Nat) (offset : Int) : startX s screen offset = edge s screen offset := by
  unfold startX edge
  split <;> rfl

theorem moveFig_eq {s : Screens} {f : Win} {x y : Int} (hx : 0 ≤ x) (hy : 0 ≤ y) (hw : x + f.w ≤ s.W) (hh : y + f.h ≤ s.H) :
    moveFig s f x y = ⟨f, x, y⟩ := by
  unfold moveFig
  have h1 : max 0 (min x (s.W - f.w)) = x := by omega
  have h2 : max 0 (min y (s.H - f.h)) = y := by omega
  rw [h1, h2]

theorem loop_wins (s : Screens) (xgap ygap x0 : Int) (fs : List Win) : ∀ x y m,
    (loop s xgap ygap x0 x y m fs).1.map Placed.win ++ (loop s xgap ygap x0 x y m fs).2 = fs := by
  induction fs with
  | nil => intros; rfl
  | cons f fs ih =>
    intro x y m
    rw [loop]
    split
    · simp [moveFig, ih]
    · split
      · simp [moveFig, ih]
      · rfl

theorem arrange_eq (s : Screens) (screen : Nat) (xgap ygap offset : Int) (fs : List Win) :
    arrange s screen xgap ygap offset fs =
      if (onePass s screen xgap ygap offset fs).2 = [] then some (onePass s screen xgap ygap offset fs).1
      else if (onePass s screen xgap ygap offset fs).1 = [] ∧ offset = 10 then none
      else (arrange s screen xgap ygap 10 (onePass s screen xgap ygap offset fs).2).map ((onePass s screen xgap ygap offset fs).1 ++ ·) := by
  rw [arrange]
  split
  · rename_i ps h
    rw [h]
    simp
  · rename_i ps r rs h
    rw [h]
    simp only [reduceCtorEq, if_false]

/-- What holds for the calls, by the calls they make. -/
theorem arrange_ind {s : Screens} {screen : Nat} {xgap ygap : Int} {motive : Int → List Win → Prop}
    (step : ∀ offset fs, ((onePass s screen xgap ygap offset fs).2 ≠ [] →
      ¬ ((onePass s screen xgap ygap offset fs).1 = [] ∧ offset = 10) → motive 10 (onePass s screen xgap ygap offset fs).2) →
      motive offset fs) (offset : Int) (fs : List Win) : motive offset fs := by
  have key : ∀ n, ∀ offset fs, 2 * fs.length + (if offset = 10 then 0 else 1) < n → motive offset fs := by
    intro n
    induction n with
    | zero => intro _ _ h; omega
    | succ n ih =>
      intro offset fs hlt
      refine step offset fs fun _ h2 => ih _ _ ?_
      have hl := loop_length s xgap ygap (startX s screen offset) fs (startX s screen offset) (0 + offset) 0
      change (onePass s screen xgap ygap offset fs).1.length + (onePass s screen xgap ygap offset fs).2.length = _ at hl
      simp only [if_true]
      by_cases ho : offset = 10
      · have : (onePass s screen xgap ygap offset fs).1 ≠ [] := fun e => h2 ⟨e, ho⟩
        have := List.length_pos_iff.2 this
        simp only [ho, if_true] at hlt this hl ⊢
        omega
      · simp only [if_neg ho] at hlt
        omega
  exact key _ offset fs (Nat.lt_succ_self _)

/-- C86: every window is moved once, in the order of the figures. -/
theorem C86_every (s : Screens) (screen : Nat) (xgap ygap offset : Int) (fs : List Win) (ps : List Placed)
    (h : arrange s screen xgap ygap offset fs = some ps) : ps.map Placed.win = fs := by
  revert ps
  refine arrange_ind (s := s) (screen := screen) (xgap := xgap) (ygap := ygap)
    (motive := fun offset fs => ∀ ps, arrange s screen xgap ygap offset fs = some ps → ps.map Placed.win = fs) ?_ offset fs
  intro offset fs ih ps h
  have hw := loop_wins s xgap ygap (startX s screen offset) fs (startX s screen offset) (0 + offset) 0
  change (onePass s screen xgap ygap offset fs).1.map Placed.win ++ (onePass s screen xgap ygap offset fs).2 = fs at hw
  rw [arrange_eq] at h
  split at h
  · rename_i hr
    cases h
    rw [hr, List.append_nil] at hw
    exact hw
  · rename_i hr
    split at h
    · cases h
    · rename_i hn
      obtain ⟨qs, h1, rfl⟩ := Option.map_eq_some_iff.1 h
      rw [List.map_append, ih hr hn qs h1, hw]

/-- C86: a window that is not larger than the screen is inside of it; a larger one begins at its edge. -/
theorem C86_inside (s : Screens) (screen : Nat) (xgap ygap offset : Int) (fs : List Win) (ps : List Placed)
    (h : arrange s screen xgap ygap offset fs = some ps) : ∀ p ∈ ps,
    (0 ≤ p.x ∧ (p.win.w ≤ s.W → p.x + p.win.w ≤ s.W) ∧ (s.W ≤ p.win.w → p.x = 0)) ∧
    0 ≤ p.y ∧ (p.win.h ≤ s.H → p.y + p.win.h ≤ s.H) ∧ (s.H ≤ p.win.h → p.y = 0) := by
  have hm : ∀ f x y, (0 ≤ (moveFig s f x y).x ∧ ((moveFig s f x y).win.w ≤ s.W → (moveFig s f x y).x + (moveFig s f x y).win.w ≤ s.W) ∧
      (s.W ≤ (moveFig s f x y).win.w → (moveFig s f x y).x = 0)) ∧
      0 ≤ (moveFig s f x y).y ∧ ((moveFig s f x y).win.h ≤ s.H → (moveFig s f x y).y + (moveFig s f x y).win.h ≤ s.H) ∧
      (s.H ≤ (moveFig s f x y).win.h → (moveFig s f x y).y = 0) := by
    intro f x y
    simp only [moveFig]
    omega
  have hl : ∀ x0 fs x y m, ∀ p ∈ (loop s xgap ygap x0 x y m fs).1, ∃ f x y, p = moveFig s f x y := by
    intro x0 fs
    induction fs with
    | nil => intro x y m p hp; cases hp
    | cons f fs ih =>
      intro x y m p hp
      rw [loop] at hp
      split at hp
      · rcases List.mem_cons.1 hp with rfl | hp
        · exact ⟨_, _, _, rfl⟩
        · exact ih _ _ _ p hp
      · split at hp
        · rcases List.mem_cons.1 hp with rfl | hp
          · exact ⟨_, _, _, rfl⟩
          · exact ih _ _ _ p hp
        · cases hp
  revert ps
  refine arrange_ind (s := s) (screen := screen) (xgap := xgap) (ygap := ygap)
    (motive := fun offset fs => ∀ ps, arrange s screen xgap ygap offset fs = some ps → ∀ p ∈ ps,
    (0 ≤ p.x ∧ (p.win.w ≤ s.W → p.x + p.win.w ≤ s.W) ∧ (s.W ≤ p.win.w → p.x = 0)) ∧
    0 ≤ p.y ∧ (p.win.h ≤ s.H → p.y + p.win.h ≤ s.H) ∧ (s.H ≤ p.win.h → p.y = 0)) ?_ offset fs
  intro offset fs ih ps h p hp
  rw [arrange_eq] at h
  split at h
  · cases h
    obtain ⟨f, x, y, rfl⟩ := hl _ _ _ _ _ p hp
    exact hm f x y
  · rename_i hr
    split at h
    · cases h
    · rename_i hn
      obtain ⟨qs, h1, rfl⟩ := Option.map_eq_some_iff.1 h
      rcases List.mem_append.1 hp with hp | hp
      · obtain ⟨f, x, y, rfl⟩ := hl _ _ _ _ _ p hp
        exact hm f x y
      · exact ih hr hn qs h1 p hp

/-- A window that has a place at the beginning of a layer with the offset of later layers. -/
def HasPlace (s : Screens) (screen : Nat) (ygap : Int) (f : Win) : Prop :=
  edge s screen 10 + f.w < s.W ∨ 10 + ygap + f.h < s.H

theorem pass_none {s : Screens} {screen : Nat} {xgap ygap offset : Int} {f : Win} {fs : List Win} :
    (onePass s screen xgap ygap offset (f :: fs)).1 = [] ↔
      ¬ (startX s screen offset + f.w < s.W ∨ offset + ygap + f.h < s.H) := by
  unfold onePass
  rw [loop]
  simp only [fitsW, fitsH, decide_eq_true_eq]
  split
  · rename_i h
    simp [h]
  · rename_i h
    split
    · rename_i h'
      simp only [reduceCtorEq, false_iff, not_not]
      right; omega
    · rename_i h'
      simp only [true_iff]
      omega

/-- C86: all windows are arranged if each of them fits at the offset 10 by its width or, below the gap, by its height. -/
theorem C86_ends (s : Screens) (screen : Nat) (xgap ygap offset : Int) (fs : List Win)
    (h : ∀ f ∈ fs, HasPlace s screen ygap f) : ∃ ps, arrange s screen xgap ygap offset fs = some ps := by
  revert h
  refine arrange_ind (s := s) (screen := screen) (xgap := xgap) (ygap := ygap)
    (motive := fun offset fs => (∀ f ∈ fs, HasPlace s screen ygap f) → ∃ ps, arrange s screen xgap ygap offset fs = some ps)
    ?_ offset fs
  intro offset fs ih h
  rw [arrange_eq]
  split
  · exact ⟨_, rfl⟩
  · rename_i hr
    split
    · rename_i hn
      obtain ⟨h1, rfl⟩ := hn
      cases fs with
      | nil => exact absurd rfl hr
      | cons f fs =>
        rw [pass_none] at h1
        rw [startX_eq] at h1
        exact absurd (h f (List.mem_cons_self ..)) h1
    · rename_i hn
      have hw := loop_wins s xgap ygap (startX s screen offset) fs (startX s screen offset) (0 + offset) 0
      change (onePass s screen xgap ygap offset fs).1.map Placed.win ++ (onePass s screen xgap ygap offset fs).2 = fs at hw
      obtain ⟨qs, h1⟩ := ih hr hn fun f hf => h f (by rw [← hw]; exact List.mem_append_right _ hf)
      rw [h1]
      exact ⟨_, rfl⟩

/-- Later windows of a layer have the coordinates of its corner or larger ones. -/
theorem loop_placeable {s : Screens} {xgap ygap x0 y0 : Int} (hx : 0 ≤ xgap) (hy : 0 ≤ ygap) (fs : List Win)
    (hpos : ∀ f ∈ fs, 0 ≤ f.w ∧ 0 ≤ f.h) : ∀ x y m, x0 ≤ x → y0 ≤ y → 0 ≤ m → ∀ p ∈ (loop s xgap ygap x0 x y m fs).1,
    x0 + p.win.w < s.W ∨ y0 + ygap + p.win.h < s.H := by
  induction fs with
  | nil => intro x y m _ _ _ p hp; cases hp
  | cons f fs ih =>
    intro x y m h1 h2 h3 p hp
    have hf := hpos f (List.mem_cons_self ..)
    rw [loop] at hp
    simp only [fitsW, fitsH, decide_eq_true_eq] at hp
    split at hp
    · rcases List.mem_cons.1 hp with rfl | hp
      · left; simp only [moveFig]; omega
      · exact ih (fun g hg => hpos g (List.mem_cons_of_mem _ hg)) _ _ _ (by omega) (by omega) (by omega) p hp
    · split at hp
      · rcases List.mem_cons.1 hp with rfl | hp
        · right; simp only [moveFig]; omega
        · exact ih (fun g hg => hpos g (List.mem_cons_of_mem _ hg)) _ _ _ (by omega) (by omega) (by omega) p hp
      · cases hp

/-- C86: a call with the offset of later layers ends exactly when every window has such a place; else it calls itself for
ever. -/
theorem C86_ends_iff (s : Screens) (screen : Nat) (xgap ygap : Int) (hx : 0 ≤ xgap) (hy : 0 ≤ ygap) (fs : List Win)
    (hpos : ∀ f ∈ fs, 0 ≤ f.w ∧ 0 ≤ f.h) :
    (∃ ps, arrange s screen xgap ygap 10 fs = some ps) ↔ ∀ f ∈ fs, HasPlace s screen ygap f := by
  refine ⟨?_, C86_ends s screen xgap ygap 10 fs⟩
  have key : ∀ offset fs, offset = 10 → (∀ f ∈ fs, 0 ≤ f.w ∧ 0 ≤ f.h) → (∃ ps, arrange s screen xgap ygap offset fs = some ps) →
      ∀ f ∈ fs, HasPlace s screen ygap f := by
    refine arrange_ind (s := s) (screen := screen) (xgap := xgap) (ygap := ygap) ?_
    rintro offset fs ih rfl hpos ⟨ps, h⟩ f hf
    have hw := loop_wins s xgap ygap (startX s screen 10) fs (startX s screen 10) (0 + 10) 0
    change (onePass s screen xgap ygap 10 fs).1.map Placed.win ++ (onePass s screen xgap ygap 10 fs).2 = fs at hw
    have hp : ∀ p ∈ (onePass s screen xgap ygap 10 fs).1, HasPlace s screen ygap p.win := fun p hp => by
      rw [HasPlace, ← startX_eq]
      exact loop_placeable (y0 := 10) hx hy fs hpos _ _ _ (Int.le_refl _) (by omega) (Int.le_refl _) p hp
    rw [← hw] at hf
    rcases List.mem_append.1 hf with hf | hf
    · obtain ⟨p, hp', rfl⟩ := List.mem_map.1 hf
      exact hp p hp'
    · rw [arrange_eq] at h
      split at h
      · rename_i hr
        rw [hr] at hf
        cases hf
      · rename_i hr
        split at h
        · cases h
        · rename_i hn
          obtain ⟨qs, h1, -⟩ := Option.map_eq_some_iff.1 h
          exact ih hr hn rfl (fun g hg => hpos g (by rw [← hw]; exact List.mem_append_right _ hg)) ⟨qs, h1⟩ f hf
  exact key 10 fs rfl hpos

/-- In a row with a gap, or in a later row. -/
def Later (xgap ygap h : Int) (p q : Placed) : Prop :=
  (p.win.h = h ∧ 0 ≤ p.win.w ∧ q.win.h = h ∧ 0 ≤ q.win.w) ∧
  (q.y = p.y ∧ p.x + p.win.w + xgap ≤ q.x ∨ p.y + h + ygap ≤ q.y)

theorem later_trans {xgap ygap h : Int} (hx : 0 ≤ xgap) (hy : 0 ≤ ygap) (hh : 0 ≤ h) {p q r : Placed}
    (h1 : Later xgap ygap h p q) (h2 : Later xgap ygap h q r) : Later xgap ygap h p r := by
  obtain ⟨a, b⟩ := h1
  obtain ⟨c, d⟩ := h2
  refine ⟨⟨a.1, a.2.1, c.2.2⟩, ?_⟩
  omega

theorem chain_pairwise {γ : Type} {R : γ → γ → Prop} (ht : ∀ a b c, R a b → R b c → R a c) : ∀ l : List γ, l.IsChain R → l.Pairwise R
  | [], _ => .nil
  | [a], _ => by simp
  | a :: b :: l, h => by
    rw [List.isChain_cons_cons] at h
    have ih := chain_pairwise ht (b :: l) h.2
    rw [List.pairwise_cons]
    refine ⟨?_, ih⟩
    intro c hc
    rcases List.mem_cons.1 hc with rfl | hc
    · exact h.1
    · exact ht _ _ _ h.1 ((List.pairwise_cons.1 ih).1 c hc)

theorem chain_apart {s : Screens} {xgap ygap X h : Int} (hx : 0 ≤ xgap) (hy : 0 ≤ ygap) (hh : 0 ≤ h) {ps : List Placed}
    (hs : ∀ p ∈ ps, p.win.h = h ∧ 0 ≤ p.win.w) (hc : ps.IsChain (Next s xgap ygap X)) : ps.Pairwise (Apart xgap ygap) := by
  have h1 : ps.IsChain (Later xgap ygap h) := by
    refine List.IsChain.imp_of_mem_imp ?_ hc
    intro p q hp hq hn
    refine ⟨⟨(hs p hp).1, (hs p hp).2, hs q hq⟩, ?_⟩
    rcases hn with ⟨-, h1, h2⟩ | ⟨-, -, -, h2⟩
    · exact Or.inl ⟨h2, by omega⟩
    · rw [(hs p hp).1] at h2
      exact Or.inr (by omega)
  refine (chain_pairwise (R := Later xgap ygap h) (fun _ _ _ => later_trans hx hy hh) ps h1).imp ?_
  rintro p q ⟨⟨a, -, -, -⟩, b⟩
  unfold Apart
  rw [a]
  omega

/-- The windows after `p` in a layer. -/
theorem loop_chain {s : Screens} {xgap ygap X h : Int} (hx : 0 ≤ xgap) (hy : 0 ≤ ygap) (hh : 0 ≤ h) (hX : 0 ≤ X) (fs : List Win) :
    ∀ (p : Placed) (m : Int), (∀ f ∈ fs, f.h = h ∧ 0 ≤ f.w) → p.win.h = h → 0 ≤ p.win.w →
    (∀ f ∈ p.win :: fs, ∀ g ∈ p.win :: fs, X + f.w + xgap + g.w < s.W) → X ≤ p.x → 0 ≤ p.y → p.y + h ≤ s.H →
    (m = h ∨ p.x = X ∧ m = 0) →
    (p :: (loop s xgap ygap X (p.x + p.win.w + xgap) p.y m fs).1).IsChain (Next s xgap ygap X) ∧
    ∀ r rs, (loop s xgap ygap X (p.x + p.win.w + xgap) p.y m fs).2 = r :: rs → ∃ q,
      (p :: (loop s xgap ygap X (p.x + p.win.w + xgap) p.y m fs).1).getLast? = some q ∧ ¬ Beside s xgap q r ∧ ¬ Below s ygap q r := by
  induction fs with
  | nil =>
    intro p m _ _ _ _ _ _ _ _
    refine ⟨by simp [loop], ?_⟩
    intro r rs h
    cases h
  | cons f fs ih =>
    intro p m hs hp hw h2 h3 h4 h5 hm
    obtain ⟨f1, f2⟩ := hs f (List.mem_cons_self ..)
    have hff := h2 f (by simp) f (by simp)
    have hpf := h2 p.win (by simp) f (by simp)
    rw [loop]
    simp only [fitsW, fitsH, decide_eq_true_eq]
    by_cases hb : p.x + p.win.w + xgap + f.w < s.W
    · rw [if_pos hb]
      have e : moveFig s f (p.x + p.win.w + xgap) p.y = ⟨f, p.x + p.win.w + xgap, p.y⟩ :=
        moveFig_eq (by omega) h4 (by omega) (by omega)
      have em : max m f.h = h := by omega
      obtain ⟨i1, i2⟩ := ih ⟨f, p.x + p.win.w + xgap, p.y⟩ h (fun g hg => hs g (List.mem_cons_of_mem _ hg)) f1 f2
        (fun a ha b hb => h2 a (List.mem_cons_of_mem _ ha) b (List.mem_cons_of_mem _ hb)) (by simp only; omega) h4 h5 (Or.inl rfl)
      rw [em]
      simp only [e]
      refine ⟨?_, ?_⟩
      · rw [List.isChain_cons_cons]
        exact ⟨Or.inl ⟨hb, rfl, rfl⟩, i1⟩
      · intro r rs hr
        rw [List.getLast?_cons_cons]
        exact i2 r rs hr
    · rw [if_neg hb]
      have hmh : m = h := by
        rcases hm with hm | ⟨hm, -⟩
        · exact hm
        · rw [hm] at hb
          exact absurd hpf hb
      by_cases hl : p.y + m + ygap + f.h < s.H
      · rw [if_pos hl]
        have e : moveFig s f X (p.y + m + ygap) = ⟨f, X, p.y + m + ygap⟩ := moveFig_eq hX (by omega) (by omega) (by omega)
        obtain ⟨i1, i2⟩ := ih ⟨f, X, p.y + m + ygap⟩ 0 (fun g hg => hs g (List.mem_cons_of_mem _ hg)) f1 f2
          (fun a ha b hb => h2 a (List.mem_cons_of_mem _ ha) b (List.mem_cons_of_mem _ hb)) (Int.le_refl _) (by simp only; omega)
          (by simp only; omega) (Or.inr ⟨rfl, rfl⟩)
        simp only [e]
        refine ⟨?_, ?_⟩
        · rw [List.isChain_cons_cons]
          refine ⟨Or.inr ⟨hb, ?_, rfl, ?_⟩, i1⟩
          · unfold Below
            simp only
            omega
          · simp only; omega
        · intro r rs hr
          rw [List.getLast?_cons_cons]
          exact i2 r rs hr
      · rw [if_neg hl]
        refine ⟨by simp, ?_⟩
        intro r rs hr
        simp only [List.cons.injEq] at hr
        obtain ⟨rfl, -⟩ := hr
        refine ⟨p, rfl, hb, ?_⟩
        unfold Below
        omega

theorem pass_layer {s : Screens} {screen : Nat} {xgap ygap offset h : Int} (hx : 0 ≤ xgap) (hy : 0 ≤ ygap) (hh : 0 ≤ h)
    {fs : List Win} (hne : fs ≠ []) (hr : Room s screen xgap offset h fs) :
    Layer s xgap ygap (startX s screen offset) offset (onePass s screen xgap ygap offset fs).1 ∧
    ∀ r rs, (onePass s screen xgap ygap offset fs).2 = r :: rs → ∃ q, (onePass s screen xgap ygap offset fs).1.getLast? = some q ∧
      ¬ Beside s xgap q r ∧ ¬ Below s ygap q r := by
  cases fs with
  | nil => exact absurd rfl hne
  | cons f fs =>
    obtain ⟨f1, f2⟩ := hr.size f (List.mem_cons_self ..)
    have htwo := hr.two
    have hX := hr.corner.1
    rw [← startX_eq] at hX
    simp only [← startX_eq] at htwo
    have hff := htwo f (by simp) f (by simp)
    have hY := hr.corner.2
    have hH := hr.high
    have hw := loop_wins s xgap ygap (startX s screen offset) (f :: fs) (startX s screen offset) (0 + offset) 0
    change (onePass s screen xgap ygap offset (f :: fs)).1.map Placed.win ++ (onePass s screen xgap ygap offset (f :: fs)).2 = _ at hw
    have hsz : ∀ p ∈ (onePass s screen xgap ygap offset (f :: fs)).1, p.win.h = h ∧ 0 ≤ p.win.w := by
      intro p hp
      refine hr.size p.win ?_
      rw [← hw]
      exact List.mem_append_left _ (List.mem_map_of_mem hp)
    have e0 : onePass s screen xgap ygap offset (f :: fs) =
        (⟨f, startX s screen offset, offset⟩ :: (loop s xgap ygap (startX s screen offset) (startX s screen offset + f.w + xgap) offset h fs).1,
          (loop s xgap ygap (startX s screen offset) (startX s screen offset + f.w + xgap) offset h fs).2) := by
      unfold onePass
      rw [loop]
      simp only [fitsW, decide_eq_true_eq, Int.zero_add]
      rw [if_pos (by omega), moveFig_eq hX hY (by omega) (by omega)]
      have : max 0 f.h = h := by omega
      rw [this]
    obtain ⟨i1, i2⟩ := loop_chain (ygap := ygap) hx hy hh hX fs ⟨f, startX s screen offset, offset⟩ h
      (fun g hg => hr.size g (List.mem_cons_of_mem _ hg)) f1 f2 htwo (Int.le_refl _) hY hH (Or.inl rfl)
    simp only at i1 i2
    rw [e0] at hsz ⊢
    exact ⟨⟨⟨_, rfl, rfl, rfl⟩, i1, chain_apart hx hy hh hsz i1⟩, i2⟩

/-- C86: windows of one height of which any two fit beside each other are laid in layers: beside the one before if there
is room, else below it at the left edge, else in a new layer with the offset 10; no two windows of a layer overlap, and a
layer is begun only when the one before is full. -/
theorem C86_layers (s : Screens) (screen : Nat) (xgap ygap offset h : Int) (hx : 0 ≤ xgap) (hy : 0 ≤ ygap) (hh : 0 ≤ h)
    (fs : List Win) (hne : fs ≠ []) (hr : Room s screen xgap offset h fs) (h10 : Room s screen xgap 10 h fs) :
    ∃ ps qss, arrange s screen xgap ygap offset fs = some (ps ++ qss.flatten) ∧ (ps ++ qss.flatten).map Placed.win = fs ∧
      Layer s xgap ygap (edge s screen offset) offset ps ∧
      (∀ qs ∈ qss, Layer s xgap ygap (edge s screen 10) 10 qs) ∧
      (ps :: qss).IsChain (Full s xgap ygap) := by
  simp only [← startX_eq]
  have key : ∀ offset fs, fs ≠ [] → Room s screen xgap offset h fs → Room s screen xgap 10 h fs →
      ∃ ps qss, arrange s screen xgap ygap offset fs = some (ps ++ qss.flatten) ∧
      Layer s xgap ygap (startX s screen offset) offset ps ∧
      (∀ qs ∈ qss, Layer s xgap ygap (startX s screen 10) 10 qs) ∧
      (ps :: qss).IsChain (Full s xgap ygap) := by
    refine arrange_ind (s := s) (screen := screen) (xgap := xgap) (ygap := ygap) ?_
    intro offset fs ih hne hr h10
    obtain ⟨l1, l2⟩ := pass_layer (ygap := ygap) hx hy hh hne hr
    rw [arrange_eq]
    have hw := loop_wins s xgap ygap (startX s screen offset) fs (startX s screen offset) (0 + offset) 0
    change (onePass s screen xgap ygap offset fs).1.map Placed.win ++ (onePass s screen xgap ygap offset fs).2 = _ at hw
    by_cases he : (onePass s screen xgap ygap offset fs).2 = []
    · rw [if_pos he]
      exact ⟨_, [], by simp, l1, by simp, by simp⟩
    · have hn : ¬ ((onePass s screen xgap ygap offset fs).1 = [] ∧ offset = 10) := by
        rintro ⟨e, -⟩
        obtain ⟨p, hp, -⟩ := l1.first
        rw [e] at hp
        cases hp
      rw [if_neg he, if_neg hn]
      have hsub : ∀ f ∈ (onePass s screen xgap ygap offset fs).2, f ∈ fs := fun f hf => by
        rw [← hw]; exact List.mem_append_right _ hf
      have h10' : Room s screen xgap 10 h (onePass s screen xgap ygap offset fs).2 :=
        ⟨fun f hf => h10.size f (hsub f hf), h10.high, fun f hf g hg => h10.two f (hsub f hf) g (hsub g hg), h10.corner⟩
      obtain ⟨ps, qss, k1, k2, k3, k4⟩ := ih he hn he h10' h10'
      refine ⟨(onePass s screen xgap ygap offset fs).1, ps :: qss, by rw [k1]; simp, l1, ?_, ?_⟩
      · intro qs hq
        rcases List.mem_cons.1 hq with rfl | hq
        · exact k2
        · exact k3 qs hq
      · rw [List.isChain_cons_cons]
        refine ⟨?_, k4⟩
        obtain ⟨q, q1, -, -⟩ := k2.first
        obtain ⟨r, rs, hrs⟩ := List.exists_cons_of_ne_nil he
        obtain ⟨p, p1, p2, p3⟩ := l2 r rs hrs
        have hall := C86_every s screen xgap ygap 10 _ _ k1
        have hq : q.win = r := by
          rw [hrs] at hall
          have : ((ps ++ qss.flatten).map Placed.win).head? = some r := by rw [hall]; rfl
          rw [List.head?_map, List.head?_append, q1] at this
          simpa using this
        refine ⟨p, q, p1, q1, ?_, ?_⟩
        · rw [hq]; exact p2
        · rw [hq]; exact p3
  obtain ⟨ps, qss, k1, k2, k3, k4⟩ := key offset fs hne hr h10
  exact ⟨ps, qss, k1, C86_every s screen xgap ygap offset fs _ k1, k2, k3, k4⟩

end HF.Plot.Arrange
