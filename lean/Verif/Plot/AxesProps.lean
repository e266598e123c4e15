import Verif.Plot.AxesLemmas
/-
C94: labels of the axes of all projections.
-/
namespace HF.Plot.Ax

open Spec (Kind Look Usable)
open HF.Units

/-! ### What one knows of both axes -/

namespace Spec

/-- Both axes, and whether the x axis has got its name. -/
structure Pair where
  x : Look
  y : Look
  named : Bool := false

/-- The part `[]` and text before it. -/
def boxAfter (s : List Char) : List Piece := [.text s, .box]

/-- How the axes look when they are new. -/
def start (p : Proj) : Pair where
  x := if p = .rectilinear then { kind := .none }
    else if p = .cplx then { kind := .prefixed, fmt := boxAfter "Real ".toList }
    else { kind := .prefixed, fmt := [.name, .text [' '], .box] }
  y := if p = .rectilinear ∨ p = .xSi then { kind := .none }
    else if p = .db ∨ p = .db10 then { kind := .plain, fmt := [.box], unit := some ['d', 'B'] }
    else if p = .cplx then { kind := .prefixed, fmt := boxAfter "Imaginary ".toList }
    else if p = .groupDelay then { kind := .prefixed, fmt := boxAfter "$\\tau$ ".toList }
    else if p ∈ [.deg, .unwrapDeg, .wrapUnwrapDeg] then { kind := .prefixed, fmt := [.box], unit := some ['°'] }
    else if p ∈ [.rad, .unwrapRad] then { kind := .prefixed, fmt := [.box], unit := some ['r', 'a', 'd'] }
    else { kind := .prefixed, fmt := [.box] }

/-- What the user does. -/
inductive LOp where
  | xfmt (fmt : List Piece) (unit : Option (List Char))
  | yfmt (fmt : List Piece) (unit : Option (Option (List Char)))
  | xunit (unit : Option (List Char))
  | yunit (unit : Option (List Char))
  | plot (name : Option (List Char)) (as_ : Option (Option String)) (drawn cplx : Bool) (xu yu : Option (List Char))
  | draw (xlocs ylocs : List ℝ)

/-- Axes on which angles are drawn have their unit with every format. -/
def angleUnit (p : Proj) : Option (List Char) :=
  if p = .deg ∨ p = .unwrapDeg ∨ p = .wrapUnwrapDeg then some ['°']
  else if p = .rad ∨ p = .unwrapRad then some ['r', 'a', 'd']
  else none

/-- Projections that draw the imaginary against the real part of complex numbers: all that are not one of these. -/
def drawsParts (name : Option String) : Bool :=
  name ∉ [none, some "x-si", some "db", some "db10", some "mag", some "mag_square", some "real", some "imag", some "rad",
    some "deg", some "unwraprad", some "unwrapdeg", some "groupdelay", some "cplxpolar"]

/-- A text that is not empty. -/
def filled (u : Option (List Char)) : Option (List Char) := if u = some [] then none else u

/-- The first dimension plotted names the x axis. -/
def Pair.naming (l : Pair) (n : Option (List Char)) : Pair :=
  match l.named, n with
  | false, some n => { l with x := { l.x with name := n }, named := true }
  | _, _ => l

def Pair.step (p : Proj) (l : Pair) : LOp → Pair
  | .xfmt fmt u => { l with x := { l.x.newUnit u with fmt := fmt } }
  | .yfmt fmt u => { l with y := { l.y.newUnit (u.getD (angleUnit p)) with fmt := fmt } }
  | .xunit u => { l with x := l.x.newUnit u }
  | .yunit u => { l with y := l.y.newUnit u }
  | .plot n as_ drawn cplx xu yu =>
    let l := l.naming n
    if drawn then
      { l with
        x := l.x.newUnit (filled (if drawsParts (as_.getD (some p.name)) = true ∧ cplx = true then yu else xu))
        y := l.y.newUnit (filled yu) }
    else l
  | .draw _ _ => l

/-- Formats can be used, and units and names have no percent sign. -/
def LOp.Fine (p : Proj) : LOp → Prop
  | .xfmt fmt u => Usable (start p).x.kind fmt ∧ '%' ∉ u.getD []
  | .yfmt fmt u => Usable (start p).y.kind fmt ∧ '%' ∉ (u.getD none).getD []
  | .xunit u => '%' ∉ u.getD []
  | .yunit u => '%' ∉ u.getD []
  | .plot n _ _ _ xu yu => '%' ∉ n.getD [] ∧ '%' ∉ xu.getD [] ∧ '%' ∉ yu.getD []
  | .draw _ _ => True

/-- As it is written. -/
def LOp.raw (p : Proj) : LOp → AOp
  | .xfmt fmt u => .xfmt (some (written (start p).x.kind fmt)) u
  | .yfmt fmt u => .yfmt (some (written (start p).y.kind fmt)) u
  | .xunit u => .xunit u
  | .yunit u => .yunit u
  | .plot n as_ drawn cplx xu yu => .plot n as_ drawn cplx xu yu
  | .draw xlocs ylocs => .draw xlocs ylocs

/-- The label that is shown after drawing: the one that is known, with the prefix of the ticks; the old one if it would be
empty, or if the ticks are more than four decades apart. -/
def Labelled (l : Look) (locs : List ℝ) (old new : List Char) : Prop :=
  match l.kind with
  | .none => new = old
  | .plain => new = if locs = [] ∨ l.label [] = [] then old else l.label []
  | .prefixed =>
    (Narrow locs → (∃ m ∈ locs, (10 : ℝ) ^ (-24 : ℤ) ≤ |m|) → (∀ m ∈ locs, |m| < (10 : ℝ) ^ (24 : ℤ)) →
      ∃ (p : String) (e : ℤ), siPower p = some e ∧ (∀ m ∈ locs, |m| < 1000 * 10 ^ e) ∧ (∃ m ∈ locs, 10 ^ e ≤ |m|) ∧
        new = if l.label p.toList = [] then old else l.label p.toList) ∧
    (Narrow locs → ((∃ m ∈ locs, (10 : ℝ) ^ (24 : ℤ) ≤ |m|) ∨ ∀ m ∈ locs, |m| < (10 : ℝ) ^ (-24 : ℤ)) →
      new = if l.label [] = [] then old else l.label []) ∧
    (¬ Narrow locs → new = old)

end Spec

open Spec (Pair LOp Labelled)

/-! ### Steps -/

/-- The axes show what one knows. -/
structure Inv (p : Proj) (a : Axes) (l : Pair) : Prop where
  proj : a.proj = p
  x : Agree .x a.x l.x
  y : Agree .y a.y l.y
  gx : Good l.x
  gy : Good l.y
  kx : l.x.kind = (Spec.start p).x.kind
  ky : l.y.kind = (Spec.start p).y.kind
  named : a.xname.isSome = l.named

theorem good_newUnit {l : Look} (h : Good l) (u : Option Txt) (hu : '%' ∉ u.getD []) : Good (l.newUnit u) := by
  refine ⟨h.1, ?_, h.2.2⟩
  cases u with
  | none => exact h.2.1
  | some u => exact hu

theorem good_fmt {l : Look} (h : Good l) (ps : List Piece) (hp : Usable l.kind ps) : Good { l with fmt := ps } := ⟨hp, h.2⟩

theorem after_agree {side : Side} {a : Axis} {l l' : Look} {r : Axis × Except Err Unit} (h : Agree side a l)
    (ha : After a r l') (hk : l'.kind = l.kind) : r.2 = .ok () ∧ Agree side r.1 l' :=
  ⟨ha.1, ha.2.2.1, ha.2.2.2, fun hn => ha.2.1.trans (h.2.2 (by rw [← hk]; exact hn))⟩

theorem angleUnit_eq (p : Proj) : p.defaultUnit = Spec.angleUnit p := by cases p <;> rfl

theorem angleUnit_plain (p : Proj) : '%' ∉ (Spec.angleUnit p).getD [] := by cases p <;> decide

theorem inTable_eq (n : Option String) : (!inTable n) = Spec.drawsParts n := by
  cases n with
  | none => rfl
  | some s =>
    unfold inTable Spec.drawsParts
    rw [← decide_not]
    simp only [List.mem_cons, Option.some.injEq, List.not_mem_nil, or_false, reduceCtorEq, false_or]
    rw [decide_eq_decide]
    tauto

theorem filled_eq (u : Option Txt) : Spec.filled u = if u.getD [] ≠ [] then u else none := by
  unfold Spec.filled
  rcases u with _ | (_ | ⟨c, t⟩) <;> simp

theorem newUnit_none (l : Look) : l.newUnit none = l := rfl

theorem set_filled {side : Side} {a : Axis} {l : Look} (h : Agree side a l) (hg : Good l) (u : Option Txt) (hu : '%' ∉ u.getD []) :
    (a.take u).2 = .ok () ∧ Agree side (a.take u).1 (l.newUnit (Spec.filled u)) ∧ Good (l.newUnit (Spec.filled u)) := by
  rw [filled_eq]
  unfold Axis.take
  split
  · have hg' := good_newUnit hg u hu
    obtain ⟨h1, h2⟩ := after_agree h (after_setUnit h.1 u hg') rfl
    exact ⟨h1, h2, hg'⟩
  · exact ⟨rfl, h, hg⟩

theorem ok_pair {α : Type} {r : α × Except Err Unit} (h : r.2 = .ok ()) : r = (r.1, .ok ()) := by
  cases r; simp only at h; subst h; rfl

/-! ### Drawing -/

theorem call_agree {side : Side} {a : Axis} {l : Look} (h : Agree side a l) (hg : Good l) (locs : List ℝ) (x : ℝ) (hx : x ∈ locs) :
    ∃ r, a.call locs x = .ok r := by
  obtain ⟨h1, h2, h3⟩ := h
  unfold Shape at h1
  unfold Axis.call
  split at h1
  · rw [h1]; exact ⟨_, rfl⟩
  · rename_i hk
    obtain ⟨s, e0, e1, e2, e3⟩ := h1
    unfold Ready at h2
    rw [e0] at h2 ⊢
    obtain ⟨t, t1, t2⟩ := h2
    have hl : locs ≠ [] := by rintro rfl; simp at hx
    have htt := simple_template (hk ▸ hg.1) s.unit
    rw [← e3, t2] at htt
    have htt : t = l.fmt.flatMap (templ s.unit []) := by simpa using htt
    have hu : '%' ∉ s.unit := by rw [simple_unit hk e1 e2]; exact shown_plain hg
    have hpc := pc_templ_simple s.unit [] hu (by simp) l.fmt hg.1.1
    rw [← htt] at hpc
    simp only [SF.call, if_neg hl]
    split
    · rename_i hte
      rw [t1] at hte
      cases hte
      rw [hpc]
      exact ⟨_, rfl⟩
    · exact ⟨_, rfl⟩
  · rename_i hk
    obtain ⟨s, e0, e1, e2, e3, e4⟩ := h1
    unfold Ready at h2
    rw [e0] at h2 ⊢
    obtain ⟨t, t1, t2⟩ := h2
    have htt := template_eq l.fmt hg.1.1 s.unit s.defaultLabel
    rw [← written_prefixed, ← e3, t2] at htt
    have hu : '%' ∉ s.unit := by rw [unit_unit hk e1 e2]; exact shown_plain hg
    obtain ⟨tick, lab, hc⟩ := call_unit s l.fmt hg.1.1 t t1 (by simpa using htt) hu (by rw [e4]; exact hg.2.2) a.link.isSome 3 locs x
    simp only [hc]
    exact ⟨_, rfl⟩

/-- Only a label is new. -/
def Relabelled (side : Side) (a a' : Axes) : Prop := a' = a ∨ ∃ t, a' = a.setLabel side t

theorem relabel_trans {side : Side} {a b c : Axes} {t : Txt} (hb : b = a.setLabel side t) (h : Relabelled side b c) : Relabelled side a c := by
  subst hb
  rcases h with rfl | ⟨t', rfl⟩
  · exact Or.inr ⟨t, rfl⟩
  · exact Or.inr ⟨t', by cases side <;> rfl⟩

theorem drawAxis_ok {side : Side} {ax : Axis} {l : Look} (h : Agree side ax l) (hg : Good l) (locs : List ℝ) :
    ∀ (rest : List ℝ) (a : Axes), (∀ x ∈ rest, x ∈ locs) → ∃ a', Axes.drawAxis ax locs a rest = (a', .ok ()) ∧ Relabelled side a a'
  | [], a, _ => ⟨a, rfl, Or.inl rfl⟩
  | x :: rest, a, hr => by
    obtain ⟨⟨tick, lab⟩, hc⟩ := call_agree h hg locs x (hr x (by simp))
    have ih := drawAxis_ok h hg locs rest
    unfold Axes.drawAxis
    rw [hc]
    cases lab with
    | none => exact ih a fun y hy => hr y (by simp [hy])
    | some t =>
      by_cases hk : l.kind = .none
      · have h1 := h.1
        unfold Shape at h1
        rw [hk] at h1
        unfold Axis.call at hc
        rw [h1] at hc
        simp at hc
      · simp only [h.2.2 hk]
        obtain ⟨a', h1, h2⟩ := ih (a.setLabel side t) fun y hy => hr y (by simp [hy])
        exact ⟨a', h1, relabel_trans rfl h2⟩

theorem draw_inv {p : Proj} {a : Axes} {l : Pair} (h : Inv p a l) (xlocs ylocs : List ℝ) :
    ∃ a1 a2, Axes.drawAxis a.x xlocs a xlocs = (a1, .ok ()) ∧ Relabelled .x a a1 ∧
      Axes.drawAxis a.y ylocs a1 ylocs = (a2, .ok ()) ∧ Relabelled .y a1 a2 ∧
      a.draw xlocs ylocs = (a2, .ok ()) ∧ Inv p a2 l := by
  obtain ⟨a1, h1, r1⟩ := drawAxis_ok h.x h.gx xlocs xlocs a fun _ hx => hx
  have hs : a1.y = a.y ∧ a1.x = a.x ∧ a1.proj = a.proj ∧ a1.xname = a.xname := by
    rcases r1 with rfl | ⟨t, rfl⟩ <;> exact ⟨rfl, rfl, rfl, rfl⟩
  obtain ⟨a2, h2, r2⟩ := drawAxis_ok h.y h.gy ylocs ylocs a1 fun _ hx => hx
  have hs2 : a2.y = a1.y ∧ a2.x = a1.x ∧ a2.proj = a1.proj ∧ a2.xname = a1.xname := by
    rcases r2 with rfl | ⟨t, rfl⟩ <;> exact ⟨rfl, rfl, rfl, rfl⟩
  refine ⟨a1, a2, h1, r1, h2, r2, ?_, ?_⟩
  · unfold Axes.draw
    rw [h1]
    simp only [hs.1, h2]
  · obtain ⟨i1, i2, i3, i4, i5, i6, i7, i8⟩ := h
    exact ⟨by rw [hs2.2.2.1, hs.2.2.1, i1], by rw [hs2.2.1, hs.2.1]; exact i2, by rw [hs2.1, hs.1]; exact i3, i4, i5, i6, i7,
      by rw [hs2.2.2.2, hs.2.2.2]; exact i8⟩

theorem step_inv {p : Proj} {a : Axes} {l : Pair} (h : Inv p a l) (o : LOp) (ho : o.Fine p) :
    ∃ a', a.step (o.raw p) = (a', .ok ()) ∧ Inv p a' (l.step p o) := by
  cases o with
  | xfmt fmt u =>
    obtain ⟨o1, o2⟩ := ho
    have hg := good_newUnit h.gx u o2
    have hg2 : Good { l.x.newUnit u with fmt := fmt } := good_fmt hg fmt (by rw [show (l.x.newUnit u).kind = l.x.kind from rfl, h.kx]; exact o1)
    obtain ⟨k1, k2⟩ := setFmt_agree h.x.1 .x fmt u hg hg2
    rw [h.kx] at k1 k2
    refine ⟨_, ok_pair k1, ?_⟩
    exact ⟨h.proj, k2, h.y, hg2, h.gy, h.kx, h.ky, h.named⟩
  | yfmt fmt u =>
    obtain ⟨o1, o2⟩ := ho
    have o3 : '%' ∉ (u.getD (Spec.angleUnit p)).getD [] := by
      cases u with
      | none => exact angleUnit_plain p
      | some u => exact o2
    have hg := good_newUnit h.gy _ o3
    have hg2 : Good { l.y.newUnit (u.getD (Spec.angleUnit p)) with fmt := fmt } :=
      good_fmt hg fmt (by rw [show (l.y.newUnit (u.getD (Spec.angleUnit p))).kind = l.y.kind from rfl, h.ky]; exact o1)
    obtain ⟨k1, k2⟩ := setFmt_agree h.y.1 .y fmt _ hg hg2
    have hu : u.getD a.proj.defaultUnit = u.getD (Spec.angleUnit p) := by rw [h.proj, angleUnit_eq]
    rw [h.ky, ← hu] at k1 k2
    refine ⟨_, ok_pair k1, ?_⟩
    refine ⟨h.proj, h.x, ?_, h.gx, hg2, h.kx, h.ky, h.named⟩
    simp only [Pair.step]
    rw [← hu]
    exact k2
  | xunit u =>
    have hg := good_newUnit h.gx u ho
    obtain ⟨k1, k2⟩ := after_agree h.x (after_setUnit h.x.1 u hg) rfl
    exact ⟨_, ok_pair k1, h.proj, k2, h.y, hg, h.gy, h.kx, h.ky, h.named⟩
  | yunit u =>
    have hg := good_newUnit h.gy u ho
    obtain ⟨k1, k2⟩ := after_agree h.y (after_setUnit h.y.1 u hg) rfl
    exact ⟨_, ok_pair k1, h.proj, h.x, k2, h.gx, hg, h.kx, h.ky, h.named⟩
  | draw xlocs ylocs =>
    obtain ⟨_, a2, _, _, _, _, h1, h2⟩ := draw_inv h xlocs ylocs
    exact ⟨a2, h1, h2⟩
  | plot n as_ drawn cplx xu yu =>
    obtain ⟨o1, o2, o3⟩ := ho
    -- the name
    obtain ⟨a1, e1, i1⟩ : ∃ a1, a.naming n = (a1, .ok ()) ∧ Inv p a1 (l.naming n) := by
      have hn := h.named
      unfold Axes.naming
      cases hx : a.xname with
      | some m =>
        rw [hx] at hn
        refine ⟨a, rfl, ?_⟩
        have : l.naming n = l := by
          unfold Pair.naming
          rw [show l.named = true from hn.symm]
        rw [this]
        exact h
      | none =>
        rw [hx] at hn
        cases n with
        | none =>
          refine ⟨a, rfl, ?_⟩
          have : l.naming none = l := by
            unfold Pair.naming
            rw [show l.named = false from hn.symm]
          rw [this]
          exact h
        | some n =>
          have hg : Good { l.x with name := n } := ⟨h.gx.1, h.gx.2.1, o1⟩
          obtain ⟨k1, k2⟩ := after_agree h.x (after_setName h.x.1 n hg) rfl
          refine ⟨_, ok_pair k1, ?_⟩
          have : l.naming (some n) = { l with x := { l.x with name := n }, named := true } := by
            unfold Pair.naming
            rw [show l.named = false from hn.symm]
          rw [this]
          exact ⟨h.proj, k2, h.y, hg, h.gy, h.kx, h.ky, rfl⟩
    simp only [LOp.raw, Axes.step, Axes.plot]
    rw [e1]
    simp only [Pair.step]
    cases drawn with
    | false => exact ⟨a1, rfl, i1⟩
    | true =>
      simp only [if_true]
      rw [i1.proj, inTable_eq]
      have hc : (if (Spec.drawsParts (as_.getD (some p.name)) && cplx) = true then yu else xu) =
          if Spec.drawsParts (as_.getD (some p.name)) = true ∧ cplx = true then yu else xu := by
        simp only [Bool.and_eq_true]
      rw [hc]
      have hu : '%' ∉ (if Spec.drawsParts (as_.getD (some p.name)) = true ∧ cplx = true then yu else xu).getD [] := by
        split
        · exact o3
        · exact o2
      generalize (if Spec.drawsParts (as_.getD (some p.name)) = true ∧ cplx = true then yu else xu) = xu' at hu ⊢
      obtain ⟨x1, x2, x3⟩ := set_filled i1.x i1.gx xu' hu
      obtain ⟨y1, y2, y3⟩ := set_filled i1.y i1.gy yu o3
      rw [ok_pair x1]
      simp only
      rw [ok_pair y1]
      exact ⟨_, rfl, rfl, x2, y2, x3, y3, i1.kx, i1.ky, i1.named⟩

/-! ### New axes -/

theorem usable_box (k : Kind) : Usable k [.box] := ⟨by simp [Piece.Plain], fun _ => by simp⟩

theorem init_inv (p : Proj) : ∃ a, Axes.init p = (a, .ok ()) ∧ Inv p a (Spec.start p) ∧ a.xlabel = [] ∧ a.ylabel = [] := by
  have key : ∀ (a : Axis) (l : Look) (side : Side) (fmt : Txt) (u : Option Txt), (a.setFmt side (some fmt) u).2 = .ok () →
      a.setFmt side (some fmt) u = ((a.setFmt side (some fmt) u).1, .ok ()) := fun _ _ _ _ _ h => ok_pair h
  have gd : ∀ p, Good (Spec.start p).x ∧ Good (Spec.start p).y := by
    intro p
    have q : ∀ s : List Char, (∀ c ∈ s, c ≠ '%' ∧ c ≠ '{' ∧ c ≠ '}' ∧ c ≠ '[' ∧ c ≠ ']') → ∀ r ∈ Spec.boxAfter s, r.Plain := by
      intro s hs r hr
      simp only [Spec.boxAfter, List.mem_cons, List.not_mem_nil, or_false] at hr
      rcases hr with rfl | rfl
      · exact hs
      · trivial
    have q2 : ∀ r ∈ [Piece.name, .text [' '], .box], r.Plain := by
      intro r hr
      simp only [List.mem_cons, List.not_mem_nil, or_false] at hr
      rcases hr with rfl | rfl | rfl
      · trivial
      · intro c hc; simp only [List.mem_singleton] at hc; subst hc; decide
      · trivial
    cases p <;>
      exact ⟨⟨⟨by first | exact q2 | exact q _ (by decide) | (intro r hr; simp [Spec.start] at hr), by simp [Spec.start]⟩, by decide, by decide⟩,
        ⟨⟨by first | exact q _ (by decide) | exact (usable_box .none).1 | (intro r hr; simp [Spec.start] at hr), by simp [Spec.start]⟩, by decide, by decide⟩⟩
  cases p <;> refine ⟨_, rfl, ⟨rfl, ?_, ?_, (gd _).1, (gd _).2, rfl, rfl, rfl⟩, rfl, rfl⟩ <;>
    first
      | exact ⟨rfl, trivial, fun h => absurd rfl h⟩
      | exact ⟨⟨_, rfl, rfl, rfl, rfl⟩, ⟨_, rfl, rfl⟩, fun _ => rfl⟩
      | exact ⟨⟨_, rfl, rfl, rfl, rfl, rfl⟩, ⟨_, rfl, rfl⟩, fun _ => rfl⟩

theorem run_inv (p : Proj) : ∀ (ops : List LOp) (a : Axes) (l : Pair), Inv p a l → (∀ o ∈ ops, o.Fine p) →
    ∃ a', Axes.run (a, .ok ()) (ops.map (LOp.raw p)) = (a', .ok ()) ∧ Inv p a' (ops.foldl (Pair.step p) l)
  | [], a, _, h, _ => ⟨a, rfl, h⟩
  | o :: ops, a, l, h, ho => by
    obtain ⟨a1, e1, i1⟩ := step_inv h o (ho o (by simp))
    obtain ⟨a2, e2, i2⟩ := run_inv p ops a1 _ i1 fun o hm => ho o (by simp [hm])
    refine ⟨a2, ?_, i2⟩
    rw [List.map_cons]
    unfold Axes.run
    simp only [Axes.andThen]
    rw [e1]
    exact e2

/-! ### What is shown -/

theorem drawAxis_none {ax : Axis} {locs : List ℝ} (hc : ∀ x, ∃ k, ax.call locs x = .ok (k, none)) :
    ∀ (rest : List ℝ) (a : Axes), Axes.drawAxis ax locs a rest = (a, .ok ())
  | [], a => rfl
  | x :: rest, a => by
    obtain ⟨k, hk⟩ := hc x
    unfold Axes.drawAxis
    rw [hk]
    exact drawAxis_none hc rest a

theorem drawAxis_some {ax : Axis} {locs : List ℝ} {side : Side} {t : Txt} (hl : ax.link = some side)
    (hc : ∀ x, ∃ k, ax.call locs x = .ok (k, some t)) :
    ∀ (rest : List ℝ) (a : Axes), rest ≠ [] → Axes.drawAxis ax locs a rest = (a.setLabel side t, .ok ())
  | [], a, h => absurd rfl h
  | [x], a, _ => by
    obtain ⟨k, hk⟩ := hc x
    unfold Axes.drawAxis
    rw [hk]
    simp only [hl]
    rfl
  | x :: y :: rest, a, _ => by
    obtain ⟨k, hk⟩ := hc x
    unfold Axes.drawAxis
    rw [hk]
    simp only [hl]
    rw [drawAxis_some hl hc (y :: rest) _ (by simp)]
    cases side <;> rfl

def labelOf (side : Side) (a : Axes) : Txt :=
  match side with
  | .x => a.xlabel
  | .y => a.ylabel

theorem labelOf_set (side : Side) (a : Axes) (t : Txt) : labelOf side (a.setLabel side t) = t := by cases side <;> rfl

theorem prefix_exists (locs : List ℝ) (hN : Narrow locs) (hr1 : ∃ l ∈ locs, (10 : ℝ) ^ (-24 : ℤ) ≤ |l|)
    (hr2 : ∀ l ∈ locs, |l| < (10 : ℝ) ^ (24 : ℤ)) :
    ∃ (p : String) (e : ℤ), siPower p = some e ∧ (∀ l ∈ locs, |l| < 1000 * 10 ^ e) ∧ ∃ l ∈ locs, 10 ^ e ≤ |l| := by
  obtain ⟨p, e, d, q1, _, q3, q4, _⟩ := ticks_ne { labelFmt := tBox, template := some tBoxU } [.box] (usable_box .none).1 rfl tBoxU rfl rfl
    (by decide) (by decide) (by decide) 3 locs hN hr1 hr2
  exact ⟨p, e, q1, q3, q4⟩

open Classical in
theorem call_wide (s : UF) (b : Bool) (digs : Nat) (locs : List ℝ) (x : ℝ) (h : ¬ Narrow locs) :
    ∃ tick, s.call b digs locs x = .ok (tick, none) := by
  unfold UF.call
  simp only
  split
  · rename_i hi lo h1 h2
    rw [if_neg]
    · exact ⟨_, rfl⟩
    · intro hle
      apply h
      obtain ⟨m1, n1⟩ := List.max?_eq_some_iff.1 h1
      obtain ⟨m2, n2⟩ := List.min?_eq_some_iff.1 h2
      obtain ⟨v, hv, hv'⟩ := List.mem_map.1 m2
      have hv0 : v ≠ 0 := by simpa using (List.mem_filter.1 hv).2
      have hlo : 0 < lo := by rw [← hv']; exact abs_pos.2 hv0
      refine ⟨⟨v, (List.mem_filter.1 hv).1, hv0⟩, fun l hl m hm hm0 => ?_⟩
      have hm' : lo ≤ |m| := (n2 _ (List.mem_map.2 ⟨m, List.mem_filter.2 ⟨hm, by simpa using hm0⟩, rfl⟩))
      have hl' : |l| ≤ hi := by
        by_cases hl0 : l = 0
        · rw [hl0, abs_zero]
          obtain ⟨w, hw, hw'⟩ := List.mem_map.1 m1
          rw [← hw']; exact abs_nonneg _
        · exact n1 _ (List.mem_map.2 ⟨l, List.mem_filter.2 ⟨hl, by simpa using hl0⟩, rfl⟩)
      rw [div_le_iff₀ hlo] at hle
      linarith
  · exact ⟨_, rfl⟩

theorem drawAxis_labelled {side : Side} {ax : Axis} {l : Look} (h : Agree side ax l) (hg : Good l) (locs : List ℝ) (a a' : Axes)
    (hd : Axes.drawAxis ax locs a locs = (a', .ok ())) : Labelled l locs (labelOf side a) (labelOf side a') := by
  obtain ⟨h1, h2, h3⟩ := h
  unfold Shape at h1
  unfold Labelled
  have fin_none : (∀ x, ∃ k, ax.call locs x = .ok (k, none)) → labelOf side a' = labelOf side a := by
    intro hc
    rw [drawAxis_none hc] at hd
    cases hd; rfl
  have fin_some : ∀ t, l.kind ≠ .none → locs ≠ [] → (∀ x, ∃ k, ax.call locs x = .ok (k, some t)) → labelOf side a' = t := by
    intro t hk hl hc
    rw [drawAxis_some (h3 hk) hc locs a hl] at hd
    cases hd
    exact labelOf_set side a t
  split at h1
  · rename_i hk
    simp only [hk]
    exact fin_none fun x => ⟨none, by unfold Axis.call; rw [h1]⟩
  · rename_i hk
    obtain ⟨s, e0, e1, e2, e3⟩ := h1
    simp only [hk]
    unfold Ready at h2
    rw [e0] at h2
    obtain ⟨t, t1, t2⟩ := h2
    have hsu := simple_unit hk e1 e2
    have htt := simple_template (hk ▸ hg.1) s.unit
    rw [← e3, t2, hsu] at htt
    have htt : t = l.fmt.flatMap (templ l.shownUnit []) := by simpa using htt
    have hn : Piece.name ∉ l.fmt := (hg.1.2 hk).1
    have hname : l.label [] = l.fmt.flatMap (Piece.reads [] l.shownUnit []) := by
      unfold Look.label
      refine List.flatMap_congr fun q hq => ?_
      cases q with
      | name => exact absurd hq hn
      | text _ => rfl
      | unit => rfl
      | box => simp [Piece.reads]
    have hpc := pc_templ_simple l.shownUnit [] (shown_plain hg) (by simp) l.fmt hg.1.1
    rw [← htt, ← hname] at hpc
    have hnil : t = [] ↔ l.label [] = [] := by rw [htt, hname]; exact templ_nil _ _ _ _
    have hlink := h3 (by rw [hk]; decide)
    by_cases hl : locs = []
    · subst hl
      rw [if_pos (Or.inl rfl)]
      have : Axes.drawAxis ax [] a [] = (a, .ok ()) := rfl
      rw [this] at hd
      cases hd; rfl
    · by_cases ht : t = []
      · rw [if_pos (Or.inr (hnil.1 ht))]
        refine fin_none fun x => ?_
        unfold Axis.call
        rw [e0]
        simp only [SF.call, if_neg hl, t1, ht]
        split
        · rename_i hc; simp at hc
        · exact ⟨_, rfl⟩
      · rw [if_neg (by rw [not_or]; exact ⟨hl, fun hc => ht (hnil.2 hc)⟩)]
        refine fin_some _ (by rw [hk]; decide) hl fun x => ?_
        obtain ⟨c, t', rfl⟩ := List.exists_cons_of_ne_nil ht
        unfold Axis.call
        rw [e0]
        simp only [SF.call, if_neg hl, t1, hlink, Option.isSome_some, hpc]
        exact ⟨_, rfl⟩
  · rename_i hk
    obtain ⟨s, e0, e1, e2, e3, e4⟩ := h1
    simp only [hk]
    unfold Ready at h2
    rw [e0] at h2
    obtain ⟨t, t1, t2⟩ := h2
    have hsu := unit_unit hk e1 e2
    have htt := template_eq l.fmt hg.1.1 s.unit s.defaultLabel
    rw [← written_prefixed, ← e3, t2, hsu, e4] at htt
    have htt : t = l.fmt.flatMap (templ l.shownUnit (axisName l.shownUnit l.name)) := by simpa using htt
    have hlab : ∀ pre, l.label pre = l.fmt.flatMap (Piece.reads pre s.unit (axisName s.unit s.defaultLabel)) := by
      intro pre
      unfold Look.label
      rw [hsu, e4, if_pos hk]
    have hnil : ∀ pre, t = [] ↔ l.label pre = [] := by
      intro pre
      rw [hlab, hsu, e4, htt]
      exact templ_nil _ _ _ _
    have hlink := h3 (by rw [hk]; decide)
    have hu : '%' ∉ s.unit := by rw [hsu]; exact shown_plain hg
    have hdl : '%' ∉ s.defaultLabel := by rw [e4]; exact hg.2.2
    have nonempty : Narrow locs → locs ≠ [] := by
      rintro ⟨⟨m, hm, _⟩, _⟩ rfl
      simp at hm
    have empty : t = [] → labelOf side a' = labelOf side a := by
      intro ht
      refine fin_none fun x => ?_
      obtain ⟨tick, hc⟩ := call_nil s (ht ▸ t1) ax.link.isSome 3 locs x
      unfold Axis.call
      rw [e0]
      simp only [hc]
      exact ⟨_, rfl⟩
    refine ⟨fun hN hr1 hr2 => ?_, fun hN hr => ?_, fun hN => ?_⟩
    · by_cases ht : t = []
      · obtain ⟨p, e, q1, q2, q3⟩ := prefix_exists locs hN hr1 hr2
        refine ⟨p, e, q1, q2, q3, ?_⟩
        rw [if_pos ((hnil _).1 ht)]
        exact empty ht
      · obtain ⟨p, e, d, q1, q2, q3, q4, _⟩ := ticks_ne s l.fmt hg.1.1 (by rw [e3, written_prefixed]) t t1 t2 ht hu hdl 3 locs hN hr1 hr2
        refine ⟨p, e, q1, q3, q4, ?_⟩
        rw [if_neg fun hc => ht ((hnil _).2 hc)]
        refine fin_some _ (by rw [hk]; decide) (nonempty hN) fun x => ?_
        obtain ⟨v, hv, _⟩ := q2 x
        unfold Axis.call
        rw [e0]
        simp only [hlink, Option.isSome_some, hv, hlab]
        exact ⟨_, rfl⟩
    · by_cases ht : t = []
      · rw [if_pos ((hnil _).1 ht)]
        exact empty ht
      · rw [if_neg fun hc => ht ((hnil _).2 hc)]
        refine fin_some _ (by rw [hk]; decide) (nonempty hN) fun x => ?_
        have hv := far_ne s l.fmt hg.1.1 (by rw [e3, written_prefixed]) t t1 t2 ht hu hdl 3 locs hN hr x
        unfold Axis.call
        rw [e0]
        simp only [hlink, Option.isSome_some, hv, hlab]
        exact ⟨_, rfl⟩
    · refine fin_none fun x => ?_
      obtain ⟨tick, hc⟩ := call_wide s ax.link.isSome 3 locs x hN
      unfold Axis.call
      rw [e0]
      simp only [hc]
      exact ⟨_, rfl⟩

/-- C94: the labels of axes.  For every projection and every sequence of formats, units, plots and drawings, nothing
fails, and drawing shows on each axis the last format with the last unit and name known to that axis, whatever was done to
the other. -/
theorem C94_labels (p : Proj) (ops : List LOp) (hf : ∀ o ∈ ops, o.Fine p) (xlocs ylocs : List ℝ) :
    ∃ a a', Axes.run (Axes.init p) (ops.map (LOp.raw p)) = (a, .ok ()) ∧ a.draw xlocs ylocs = (a', .ok ()) ∧
      Labelled (ops.foldl (Pair.step p) (Spec.start p)).x xlocs a.xlabel a'.xlabel ∧
      Labelled (ops.foldl (Pair.step p) (Spec.start p)).y ylocs a.ylabel a'.ylabel := by
  obtain ⟨a0, e0, i0, _⟩ := init_inv p
  obtain ⟨a, e, i⟩ := run_inv p ops a0 _ i0 hf
  obtain ⟨a1, a2, d1, r1, d2, r2, hd, _⟩ := draw_inv i xlocs ylocs
  refine ⟨a, a2, by rw [e0]; exact e, hd, ?_, ?_⟩
  · have h1 := drawAxis_labelled i.x i.gx xlocs a a1 d1
    have : a2.xlabel = a1.xlabel := by rcases r2 with rfl | ⟨t, rfl⟩ <;> rfl
    rw [this]
    exact h1
  · have h1 := drawAxis_labelled i.y i.gy ylocs a1 a2 d2
    have : a1.ylabel = a.ylabel := by rcases r1 with rfl | ⟨t, rfl⟩ <;> rfl
    rw [← this]
    exact h1

/-- C94: the functions for the current axes do what the axes do; without unit, axes for angles take theirs. -/
theorem C94_functions (a : Axes) (fmt unit : Option Txt) :
    a.xlabelFmt fmt unit = a.step (.xfmt fmt unit) ∧ a.ylabelFmt fmt unit = a.step (.yfmt fmt (unit.map some)) := by
  cases unit <;> exact ⟨rfl, rfl⟩

/-- C94: what is shown changes only by drawing. -/
theorem C94_kept (a : Axes) (o : AOp) (ho : ∀ xlocs ylocs, o ≠ .draw xlocs ylocs) :
    (a.step o).1.xlabel = a.xlabel ∧ (a.step o).1.ylabel = a.ylabel := by
  cases o with
  | draw xlocs ylocs => exact absurd rfl (ho _ _)
  | xfmt _ _ => exact ⟨rfl, rfl⟩
  | yfmt _ _ => exact ⟨rfl, rfl⟩
  | xunit _ => exact ⟨rfl, rfl⟩
  | yunit _ => exact ⟨rfl, rfl⟩
  | plot n as_ drawn cplx xu yu =>
    have h1 : (a.naming n).1.xlabel = a.xlabel ∧ (a.naming n).1.ylabel = a.ylabel := by
      unfold Axes.naming
      split <;> exact ⟨rfl, rfl⟩
    simp only [Axes.step, Axes.plot]
    split
    · rename_i b e hb
      rw [hb] at h1
      exact h1
    · rename_i b hb
      rw [hb] at h1
      split
      · split <;> exact h1
      · exact h1

/-- C94: the settings that are read back are the last ones. -/
theorem C94_get (p : Proj) (ops : List LOp) (hf : ∀ o ∈ ops, o.Fine p) :
    ∃ a, Axes.run (Axes.init p) (ops.map (LOp.raw p)) = (a, .ok ()) ∧
      ∀ ax l, (ax = a.x ∧ l = (ops.foldl (Pair.step p) (Spec.start p)).x) ∨ (ax = a.y ∧ l = (ops.foldl (Pair.step p) (Spec.start p)).y) →
        ax.getUnit = (if l.kind = .none then none else some l.shownUnit) ∧
        ax.getFmt = (if l.kind = .none then none else some (Spec.written l.kind l.fmt)) := by
  obtain ⟨a0, e0, i0, _⟩ := init_inv p
  obtain ⟨a, e, i⟩ := run_inv p ops a0 _ i0 hf
  refine ⟨a, by rw [e0]; exact e, ?_⟩
  have key : ∀ (ax : Axis) (l : Look), Shape ax l →
      ax.getUnit = (if l.kind = .none then none else some l.shownUnit) ∧
        ax.getFmt = (if l.kind = .none then none else some (Spec.written l.kind l.fmt)) := by
    intro ax l h
    unfold Shape at h
    unfold Axis.getUnit Axis.getFmt
    split at h
    · rename_i hk
      rw [h]
      simp [hk]
    · rename_i hk
      obtain ⟨s, e0, e1, e2, e3⟩ := h
      rw [e0]
      simp [hk, simple_unit hk e1 e2, e3]
    · rename_i hk
      obtain ⟨s, e0, e1, e2, e3, _⟩ := h
      rw [e0]
      simp [hk, unit_unit hk e1 e2, e3]
  rintro ax l (⟨rfl, rfl⟩ | ⟨rfl, rfl⟩)
  · exact key _ _ i.x.1
  · exact key _ _ i.y.1

end HF.Plot.Ax
