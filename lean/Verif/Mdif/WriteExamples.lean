import Verif.Mdif.WriteErrors
import Verif.DataBlock.Examples
/-
C66: a block that can be saved, and witnesses.
-/
namespace HF.Mdif

open HF.DataDict.Spec HF.DataBlock
open HF.DataDict hiding rename delitem
open Text (IsWord)

/-- Numbers are printed as so many strokes and one more. -/
def prS : Printer Nat Nat where
  cplx := fun n => n == "z"
  num := fun _ x => some (List.replicate (x + 1) '1')
  re := fun x => x / 10
  im := fun x => x % 10
  index := fun c => some c

def numS : Num Nat := ⟨fun w => some (w.length - 1), fun _ => none, fun w => w.length, fun x y => 10 * x + y⟩

theorem stripQ_strokes (x : Nat) : stripQ (List.replicate (x + 1) '1') = List.replicate (x + 1) '1' := by
  unfold stripQ
  rw [List.replicate_succ, List.dropWhile_cons_of_neg (by decide), ← List.replicate_succ, List.reverse_replicate,
    List.replicate_succ, List.dropWhile_cons_of_neg (by decide), ← List.replicate_succ, List.reverse_replicate]

theorem back_strokes (n : String) (x : Nat) : ∃ w, Back prS numS n x w := by
  refine ⟨List.replicate (x + 1) '1', rfl, ⟨by simp, ?_⟩, stripQ_strokes x, ?_, ?_, by simp [numS]⟩
  · intro c hc
    rw [(List.mem_replicate.1 hc).2]
    decide
  · intro h
    exact absurd (List.mem_replicate.1 h).2 (by decide)
  · intro c hc
    rw [List.replicate_succ] at hc
    simp only [List.head?_cons, Option.mem_def, Option.some.injEq] at hc
    subst hc
    decide

theorem survives_strokes (n : String) (x : Nat) : Survives prS numS n x := by
  unfold Survives
  split
  · obtain ⟨u, hu⟩ := back_strokes n (prS.re x)
    obtain ⟨v, hv⟩ := back_strokes n (prS.im x)
    exact ⟨u, v, hu, hv, Nat.div_add_mod x 10⟩
  · exact back_strokes n x

def dimF : Dim Nat := ⟨.dimSweep, "f", [3, 4], none, none⟩

/-- A real and a complex variable over `f` and `t`, and a variable over `t`. -/
def saveB (f t : Dim Nat) : Block Nat Nat :=
  { vars := [("x", ⟨[f, t], ⟨[2, 2], fun i => i.getD 0 0 + 5 * i.getD 1 0⟩⟩),
      ("z", ⟨[f, t], ⟨[2, 2], fun i => i.getD 0 0 + 10 * i.getD 1 0⟩⟩),
      ("a", ⟨[t], ⟨[2], fun i => 7 + i.getD 0 0⟩⟩)] }

/-- The block with other coordinates of the second sweep. -/
def dimT (l : List Nat) : Dim Nat := ⟨.dimSweep, "t", l, none, none⟩

theorem saveB_quiet (l : List Nat) : Quiet (saveB dimF (dimT l)).vars where
  dims := by
    intro w hw w' hw' x hx
    simp only [saveB, List.mem_cons, List.not_mem_nil, or_false] at hw hw'
    have hx' : x = dimF ∨ x = dimT l := by
      rcases hw' with rfl | rfl | rfl <;> simp only [List.mem_cons, List.not_mem_nil, or_false] at hx <;> tauto
    rcases hx' with rfl | rfl <;> rcases hw with rfl | rfl | rfl <;> simp [dimF, dimT]
  elems := by
    intro v hv _ _ m i j h
    simp only [saveB, List.mem_cons, List.not_mem_nil, or_false] at hv
    have h0 : isMatrixName v.1 = none := by rcases hv with rfl | rfl | rfl <;> simp only <;> decide +kernel
    rw [h0] at h
    cases h
  nodup := by
    show ["x", "z", "a"].Nodup
    decide +kernel

theorem convert_plain {β α : Type} [DecidableEq β] (env : Env β α) (b : Block β α) (hq : Quiet b.vars)
    (hm : ∀ v ∈ b.vars, ismatrix v.2 = false) : ∃ b1, convert env b = .ok b1 ∧ b1.vars = b.vars := by
  obtain ⟨b', h1, h2, -⟩ := writes_empty env b.vars hq
  refine ⟨b', ?_, h2⟩
  have e : b.vars.flatMap (tasks env) = b.vars.map fun w => (w.1, .ok w.2) := by
    rw [List.map_eq_flatMap]
    refine List.flatMap_congr fun v hv => ?_
    simp [tasks, hm v hv]
  rw [convert, e, runTasks_ok, h1]

theorem saveB_convert (l : List Nat) :
    ∃ b1, convert envN (saveB dimF (dimT l)) = .ok b1 ∧ b1.vars = (saveB dimF (dimT l)).vars := by
  refine convert_plain _ _ (saveB_quiet l) fun v hv => ?_
  simp only [saveB, List.mem_cons, List.not_mem_nil, or_false] at hv
  have h1 : (dimT l).isa .matI = false := by show Cls.isSub .dimSweep .matI = false; decide +kernel
  have h2 : dimF.isa .matI = false := by decide +kernel
  rcases hv with rfl | rfl | rfl <;> simp [ismatrix, h1, h2]

theorem saveB_savable : Savable envN prS numS dimF [dimT [0, 1]] (saveB dimF (dimT [0, 1])).vars where
  dims := by decide
  column := by decide
  attrib := by decide
  shape := by decide
  counted := by
    intro x hx k c hc
    rw [List.mem_singleton.1 hx] at hc
    match k with
    | 0 => cases hc; rfl
    | 1 => cases hc; rfl
    | k + 2 => simp [dimT] at hc
  nonempty := by decide
  coords := fun c _ => survives_strokes _ _
  settings := fun x _ c _ => back_strokes _ _
  values := fun v _ idx _ => survives_strokes _ _
  real := by decide +kernel
  nodup := by decide +kernel
  nodupDims := by decide +kernel
  disjoint := by decide +kernel
  elems := by
    intro v hv m i j h
    simp only [saveB, List.mem_cons, List.not_mem_nil, or_false] at hv
    rcases hv with rfl | rfl | rfl <;> exact absurd h (by
      rw [show isMatrixName _ = none from by decide +kernel]
      simp)
  plain := by
    intro n hn
    simp only [saveB, dimF, dimT, List.map_cons, List.map_nil, List.cons_append, List.nil_append, List.mem_cons,
      List.not_mem_nil, or_false] at hn
    rcases hn with rfl | rfl | rfl | rfl | rfl <;> exact ⟨⟨by decide, by decide⟩, by decide, by decide⟩
  sweepAttrib := by decide +kernel
  sweepDim := by decide +kernel

/-- `C66_roundtrip` applies. -/
example (en : Enum (List (Dim Nat))) (time : List Char) : ∃ lines ps p, save envN prS en time (saveB dimF (dimT [0, 1])) = (lines, none) ∧
    read envN numS false lines = .ok ps ∧ ps.length = 2 ∧ ps[1]? = some p ∧
    ∃ a, lookup p.block.vars "z" = some a ∧ a.nd.shape = [2] ∧ a.nd.get [1] = 11 := by
  obtain ⟨b1, h1, h2⟩ := saveB_convert [0, 1]
  obtain ⟨lines, k1, ps, k2, k3, -⟩ := C66_roundtrip envN prS numS en time _ b1 h1 dimF [dimT [0, 1]] (by
    rw [h2]; exact saveB_savable)
  rw [h2] at k3
  have hpos : positions ([dimT [0, 1]].map fun x => x.data.length) = [[0], [1]] := by decide +kernel
  rw [hpos] at k3
  match ps, k3 with
  | [p0, p1], .cons _ (.cons hp .nil) =>
    refine ⟨lines, _, p1, k1, k2, rfl, rfl, ?_⟩
    obtain ⟨a, ha, -, hs, hg⟩ := hp.columns _ (List.mem_cons_of_mem _ (List.mem_cons_self ..)) rfl
    exact ⟨a, ha, hs, hg 1 (by decide)⟩

theorem saveB_lines (pr : Printer Nat Nat) (en : Enum (List (Dim Nat))) (time : List Char) (l : List Nat) :
    save envN pr en time (saveB dimF (dimT l)) =
      Out.andThen ([['!', 'C', 'r', 'e', 'a', 't', 'e', 'd', ':', ' '] ++ time], none)
        (Out.andThen (fmtBlock envN pr none dimF [dimT l] (saveB dimF (dimT l))) ([], none)) := by
  obtain ⟨b1, h1, h2⟩ := saveB_convert l
  obtain ⟨sub, k1, k2⟩ := loop_eq (b := b1) envN pr en (d := dimF) (ds := [dimT l]) (by rw [h2]; exact saveB_quiet l)
    (by simp [dimF, dimT]) (by rw [h2]; simp [saveB]) (by rw [h2]; simp [saveB])
  have e : sub.vars = (saveB dimF (dimT l)).vars := by
    rw [k1, h2, List.filter_eq_self]
    intro v hv
    simp only [saveB, List.mem_cons, List.not_mem_nil, or_false] at hv
    rcases hv with rfl | rfl | rfl <;> simp [fitsDims, setEq_self]
  unfold save
  rw [h1]
  simp only [k2, fmtBlock, fmtCoord_congr envN pr none dimF [dimT l] sub _ e]

/-- C66, violated: coordinates 1, 0 of the second sweep are taken as indices, and what belongs to 0 is saved for 1. -/
theorem C66_swapped_refuted (en : Enum (List (Dim Nat))) :
    ∃ lines, save envN prS en "now".toList (saveB dimF (dimT [1, 0])) = (lines, none) ∧
      (read envN numS false lines).toOption.map (List.map fun p =>
        ((lookup p.block.ivars "t").map Dim.data, (lookup p.block.vars "x").map fun a => a.nd.get [0])) =
        some [(some [1], some 5), (some [0], some 0)] ∧
      (lookup (saveB dimF (dimT [1, 0])).vars "x").map (fun a => (a.nd.get [0, 0], a.nd.get [0, 1])) = some (0, 5) := by
  refine ⟨_, saveB_lines prS en _ [1, 0], ?_⟩
  decide +kernel

/-- C66, violated: coordinates 1, 2 of the second sweep cannot be saved, and the file is left with the part of the
data at the wrong coordinate. -/
theorem C66_counted_refuted (en : Enum (List (Dim Nat))) (time : List Char) :
    (save envN prS en time (saveB dimF (dimT [1, 2]))).2 = some .indexError ∧
      "END".toList ∈ (save envN prS en time (saveB dimF (dimT [1, 2]))).1 := by
  rw [saveB_lines]
  constructor
  · show (fmtBlock envN prS none dimF [dimT [1, 2]] (saveB dimF (dimT [1, 2]))).2 = some .indexError
    decide +kernel
  · refine List.mem_append_right _ ?_
    decide +kernel

/-- C66, violated: a complex variable over all sweeps but the first cannot be saved. -/
theorem C66_complex_refuted (en : Enum (List (Dim Nat))) (time : List Char) :
    (save envN { prS with cplx := fun n => n == "a" } en time (saveB dimF (dimT [0, 1]))).2 = some .typeError := by
  rw [saveB_lines]
  show (fmtBlock envN { prS with cplx := fun n => n == "a" } none dimF [dimT [0, 1]] (saveB dimF (dimT [0, 1]))).2 = _
  decide +kernel

/-- The hypotheses of `C66_no_attribute_refuted` are met by a sweep with one variable. -/
example (en : Enum (List (Dim Nat))) (time : List Char) :
    (save envN prS en time { vars := [("x", ⟨[dimF], ⟨[2], fun i => i.getD 0 0⟩⟩)] }).2 = some .valueError := by
  have hq : Quiet [("x", (⟨[dimF], ⟨[2], fun i => i.getD 0 0⟩⟩ : Arr Nat Nat))] := by
    refine ⟨⟨by decide +kernel, ?_⟩, by decide⟩
    intro v hv _ _ m i j h
    rw [List.mem_singleton.1 hv, show isMatrixName _ = none from by decide +kernel] at h
    cases h
  obtain ⟨b1, h1, h2⟩ := convert_plain envN { vars := [("x", ⟨[dimF], ⟨[2], fun i => i.getD 0 0⟩⟩)] } hq (by decide +kernel)
  exact C66_no_attribute_refuted envN prS en time _ b1 h1 (by rw [h2]; exact hq) dimF [] (by simp) (by rw [h2]; simp)
    (by rw [h2]; simp) (by simp) (by simp)

/-- The hypotheses of `C66_coordinates_refuted` are met. -/
example (en : Enum (List (Dim Nat))) (time : List Char) :
    (save envN { prS with index := fun c => if c = 5 then none else some c } en time (saveB dimF (dimT [5, 6]))).2 =
      some .indexError := by
  obtain ⟨b1, h1, h2⟩ := saveB_convert [5, 6]
  refine C66_coordinates_refuted envN _ en time _ b1 h1 (by rw [h2]; exact saveB_quiet _) dimF (dimT [5, 6]) [] (by decide)
    (by rw [h2]; decide) (by rw [h2]; decide) (by decide) (by rw [h2]; decide) ?_ (by rw [h2]; decide) (by decide)
  intro x _ c _
  rfl

/-- The hypotheses of `C66_scalars_refuted` are met: the number 9 is not saved. -/
example (en : Enum (List (Dim Nat))) (time : List Char) :
    save envN prS en time { vars := (saveB dimF (dimT [0, 1])).vars ++ [("c", ⟨[], ⟨[], fun _ => 9⟩⟩)] } =
      save envN prS en time (saveB dimF (dimT [0, 1])) := by
  have hq : Quiet ((saveB dimF (dimT [0, 1])).vars ++ [("c", ⟨[], ⟨[], fun _ => 9⟩⟩)]) := by
    refine ⟨⟨by decide +kernel, ?_⟩, by decide +kernel⟩
    intro v hv _ _ m i j h
    simp only [saveB, List.cons_append, List.nil_append, List.mem_cons, List.not_mem_nil, or_false] at hv
    have h0 : isMatrixName v.1 = none := by rcases hv with rfl | rfl | rfl | rfl <;> simp only <;> decide +kernel
    rw [h0] at h
    cases h
  obtain ⟨b1, h1, h2⟩ := convert_plain envN { vars := (saveB dimF (dimT [0, 1])).vars ++ [("c", ⟨[], ⟨[], fun _ => 9⟩⟩)] } hq
    (by decide +kernel)
  obtain ⟨b1', h1', h2'⟩ := saveB_convert [0, 1]
  refine C66_scalars_refuted envN prS en time _ _ b1 b1' h1 h1' (by rw [h2]; exact hq) dimF [dimT [0, 1]] (by simp)
    (by decide) (by rw [h2]; decide) (by rw [h2]; decide) ?_
  rw [h2, h2']
  rfl

end HF.Mdif
