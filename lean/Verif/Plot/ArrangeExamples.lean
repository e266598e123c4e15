import Verif.Plot.ArrangeProps
/-
C86: arranged windows that overlap, and a case of the hypotheses.
-/
namespace HF.Plot.Arrange

/-- The windows have a common point inside of both. -/
def Overlap (p q : Placed) : Prop :=
  p.x < q.x + q.win.w ∧ q.x < p.x + p.win.w ∧ p.y < q.y + q.win.h ∧ q.y < p.y + p.win.h

instance : DecidableRel Overlap := fun _ _ => by unfold Overlap; exact inferInstance

/-- Windows that are apart do not overlap. -/
theorem apart_not_overlap {xgap ygap : Int} (hx : 0 ≤ xgap) (hy : 0 ≤ ygap) {p q : Placed} (h : Apart xgap ygap p q) : ¬ Overlap p q := by
  unfold Overlap Apart at *
  omega

/-- One screen. -/
def sc (W H : Int) : Screens := ⟨W, H, W⟩

theorem arrange_one {s : Screens} {screen : Nat} {xgap ygap offset : Int} {fs : List Win} {ps : List Placed}
    (h : onePass s screen xgap ygap offset fs = (ps, [])) : arrange s screen xgap ygap offset fs = some ps := by
  rw [arrange_eq, h]
  rfl

theorem arrange_more {s : Screens} {screen : Nat} {xgap ygap offset : Int} {fs rs : List Win} {p : Placed} {ps qs : List Placed}
    (h : onePass s screen xgap ygap offset fs = (p :: ps, rs)) (hr : rs ≠ []) (h' : arrange s screen xgap ygap 10 rs = some qs) :
    arrange s screen xgap ygap offset fs = some (p :: ps ++ qs) := by
  rw [arrange_eq, h]
  simp only [hr, if_false, reduceCtorEq, false_and, h', Option.map_some]

/-- The hypotheses of `C86_layers` are met: five windows, two in a row and two rows in a layer. -/
example : Room (sc 200 200) 1 10 0 60 (List.replicate 5 ⟨60, 60⟩) ∧ Room (sc 200 200) 1 10 10 60 (List.replicate 5 ⟨60, 60⟩) ∧
    arrange (sc 200 200) 1 10 30 0 (List.replicate 5 ⟨60, 60⟩) = some [⟨⟨60, 60⟩, 0, 0⟩, ⟨⟨60, 60⟩, 70, 0⟩,
      ⟨⟨60, 60⟩, 0, 90⟩, ⟨⟨60, 60⟩, 70, 90⟩, ⟨⟨60, 60⟩, 10, 10⟩] := by
  refine ⟨⟨?_, by decide, ?_, by decide⟩, ⟨?_, by decide, ?_, by decide⟩, ?_⟩
  · intro f hf; rw [(List.mem_replicate.1 hf).2]; decide
  · intro f hf g hg; rw [(List.mem_replicate.1 hf).2, (List.mem_replicate.1 hg).2]; decide
  · intro f hf; rw [(List.mem_replicate.1 hf).2]; decide
  · intro f hf g hg; rw [(List.mem_replicate.1 hf).2, (List.mem_replicate.1 hg).2]; decide
  · exact arrange_more (s := sc 200 200) (screen := 1) (xgap := 10) (ygap := 30) (offset := 0) (fs := List.replicate 5 ⟨60, 60⟩)
      (rs := [⟨60, 60⟩]) (p := ⟨⟨60, 60⟩, 0, 0⟩) (ps := [⟨⟨60, 60⟩, 70, 0⟩, ⟨⟨60, 60⟩, 0, 90⟩, ⟨⟨60, 60⟩, 70, 90⟩])
      (qs := [⟨⟨60, 60⟩, 10, 10⟩]) (by decide +kernel) (by decide) (arrange_one (by decide +kernel))

/-- C86: `in a pattern without overlap` does not hold: of three equal windows, one in a row, the third is put over the
second although there is room below. -/
theorem C86_single_refuted : ∃ p q r, arrange (sc 100 1000) 1 10 30 0 [⟨60, 50⟩, ⟨60, 50⟩, ⟨60, 50⟩] = some [p, q, r] ∧ Overlap q r :=
  ⟨⟨⟨60, 50⟩, 0, 0⟩, ⟨⟨60, 50⟩, 0, 80⟩, ⟨⟨60, 50⟩, 0, 110⟩, arrange_one (by decide +kernel), by decide⟩

/-- C86: the first window of a row is not counted for the height of the row: a higher one is covered by the next row. -/
theorem C86_heights_refuted : ∃ ps p q, arrange (sc 200 1000) 1 10 30 0 [⟨60, 50⟩, ⟨60, 50⟩, ⟨60, 100⟩, ⟨60, 20⟩, ⟨60, 50⟩] = some ps ∧
    ps[2]? = some p ∧ ps[4]? = some q ∧ Overlap p q :=
  ⟨_, _, _, arrange_one (ps := [⟨⟨60, 50⟩, 0, 0⟩, ⟨⟨60, 50⟩, 70, 0⟩, ⟨⟨60, 100⟩, 0, 80⟩, ⟨⟨60, 20⟩, 70, 80⟩, ⟨⟨60, 50⟩, 0, 130⟩])
    (by decide +kernel), rfl, rfl, by decide⟩

/-- C86: only the first window of a row is checked for its height: a later one that is too high is moved up over the row
above. -/
theorem C86_high_refuted : ∃ ps p q, arrange (sc 200 200) 1 10 30 0 [⟨60, 50⟩, ⟨60, 50⟩, ⟨60, 50⟩, ⟨60, 190⟩] = some ps ∧
    ps[1]? = some p ∧ ps[3]? = some q ∧ Overlap p q :=
  ⟨_, _, _, arrange_one (ps := [⟨⟨60, 50⟩, 0, 0⟩, ⟨⟨60, 50⟩, 70, 0⟩, ⟨⟨60, 50⟩, 0, 80⟩, ⟨⟨60, 190⟩, 70, 10⟩])
    (by decide +kernel), rfl, rfl, by decide⟩

/-- C86: the third layer has the offset of the second: its windows hide those of the second. -/
theorem C86_hidden_refuted : ∃ ps p q, arrange (sc 200 100) 1 10 30 0 (List.replicate 6 ⟨60, 60⟩) = some ps ∧
    ps[2]? = some p ∧ ps[4]? = some q ∧ p = q :=
  ⟨_, _, _, arrange_more (rs := List.replicate 4 ⟨60, 60⟩) (ps := [⟨⟨60, 60⟩, 70, 0⟩]) (p := ⟨⟨60, 60⟩, 0, 0⟩) (by decide +kernel) (by decide)
    (arrange_more (rs := List.replicate 2 ⟨60, 60⟩) (ps := [⟨⟨60, 60⟩, 80, 10⟩]) (p := ⟨⟨60, 60⟩, 10, 10⟩) (by decide +kernel) (by decide)
      (arrange_one (ps := [⟨⟨60, 60⟩, 10, 10⟩, ⟨⟨60, 60⟩, 80, 10⟩]) (by decide +kernel))), rfl, rfl, by decide⟩

/-- C86: with a window as large as the screen the call does not end. -/
theorem C86_large_refuted (fs : List Win) (hpos : ∀ f ∈ fs, 0 ≤ f.w ∧ 0 ≤ f.h) (h : ⟨200, 200⟩ ∈ fs) :
    arrange (sc 200 200) 1 10 30 10 fs = none := by
  cases e : arrange (sc 200 200) 1 10 30 10 fs with
  | none => rfl
  | some ps =>
    have := (C86_ends_iff (sc 200 200) 1 10 30 (by decide) (by decide) fs hpos).1 ⟨ps, e⟩ _ h
    exact absurd this (by unfold HasPlace; decide)

end HF.Plot.Arrange
