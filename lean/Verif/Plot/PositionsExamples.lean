import Verif.Plot.PositionsProps
/-
C95: positions that do not come back, and examples.
-/
namespace HF.Plot.Positions

open Arrange Spec

/-- One window placed by its right or lower edge is enough that no positions can be read at all. -/
theorem C95_edge_refuted (figs : Figs) (hn : (figs.map Prod.fst).Nodup) (e : Nat × Fig) (he : e ∈ figs)
    (h : e.2.right = true ∨ e.2.bottom = true) : getAll figs = .error .valueError := by
  rw [C95_all figs hn, if_neg]
  intro hh
  have := hh e he
  rcases h with h | h <;> simp_all

/-- A window on a screen to the left of the first one (negative coordinate) is not put back. -/
theorem C95_left_refuted (s : Screens) (figs : Figs) (l : List (Nat × Int × Int)) (hn : (figs.map Prod.fst).Nodup)
    (hl : getAll figs = .ok l) (e : Nat × Fig) (he : e ∈ figs) (hx : e.2.x < 0) :
    ¬ ∀ i, find (setAll s figs l).1 i = find figs i := by
  rw [C95_at_once s figs l hn hl]
  intro h
  have := (h e he).1
  omega

/-- A figure closed in between: the figures after it in the list stay where they are. -/
theorem C95_closed_refuted (s : Screens) (figs : Figs) (i : Nat) (p : Int × Int) (l : List (Nat × Int × Int))
    (hi : i ∉ figs.map Prod.fst) : setAll s figs ((i, p) :: l) = (figs, some .keyError) := by
  rw [setAll, find_none.2 hi]

def screens : Screens := ⟨1000, 800, 1000⟩

def two : Figs := [(1, ⟨⟨200, 100⟩, 10, 20, false, false⟩), (3, ⟨⟨300, 100⟩, -5, 700, false, false⟩)]

example : getAll two = .ok [(1, 10, 20), (3, -5, 700)] := by decide +kernel

example : (setAll screens [(3, ⟨⟨300, 100⟩, 0, 0, true, false⟩), (2, ⟨⟨10, 10⟩, 5, 5, false, false⟩),
    (1, ⟨⟨995, 100⟩, 0, 0, false, false⟩)] [(1, 10, 20), (3, -5, 700)]) =
    ([(3, ⟨⟨300, 100⟩, 0, 700, false, false⟩), (2, ⟨⟨10, 10⟩, 5, 5, false, false⟩),
      (1, ⟨⟨995, 100⟩, 5, 20, false, false⟩)], none) := by decide +kernel

example : (two.map Prod.fst).Nodup := by decide

example : String.ofList (geometry ⟨⟨200, 100⟩, -5, 20, false, true⟩) = "200x100+-5-20" := by decide +kernel

end HF.Plot.Positions
