import Verif.Readers.SavedProps
import Verif.Mdif.WriteExamples
import Verif.Sp.WriteExamples
/-
C96: the hypotheses are met, and files that are taken for something else.
-/
namespace HF.Readers.Dispatch

open HF.DataDict.Spec HF.DataBlock
open HF.DataDict hiding rename delitem

instance (l : List Char) : Decidable (OneLine l) := inferInstanceAs (Decidable (_ ∧ _))
instance (l : List Char) : Decidable (Harmless l) := inferInstanceAs (Decidable (_ ∧ _))
instance (l : List Char) : Decidable (PlainName l) := inferInstanceAs (Decidable (∀ _ ∈ _, _))

/-- A comment may hold the sign of another format. -/
example (env : Touchstone.Env) (rows : List (ℚ × (Nat → Nat → Touchstone.Cplx))) :
    takenFor (Touchstone.save env ["CITIFILE A.01.00".toList, "VAR x(real)".toList] 2 rows) = .touchstone :=
  (C96_touchstone env _ 2 rows (by decide +kernel)).1

/-- C96, violated: a comment with a line break can make a Touchstone file look like a CITI file. -/
theorem C96_comment_refuted (env : Touchstone.Env) (n : Nat) (rows : List (ℚ × (Nat → Nat → Touchstone.Cplx))) :
    takenFor (Touchstone.save env ["from\nCITIFILE".toList] n rows) = .citi := by
  have e : textOf (Touchstone.save env ["from\nCITIFILE".toList] n rows) =
      textOf (["!from".toList] ++ "CITIFILE".toList :: (Touchstone.save env [] n rows)) := by
    simp [textOf, Touchstone.save]
  have : takenFor (["!from".toList] ++ "CITIFILE".toList :: (Touchstone.save env [] n rows)) = .citi := by
    refine taken_line _ _ _ (by decide +kernel) (by decide +kernel) ?_ _ fun f => .citi (by decide +kernel)
    intro f h5 l hl
    rw [List.mem_singleton.1 hl]
    exact quiet_cons h5 '!' _ (by decide) (by decide)
  unfold takenFor at this ⊢
  rw [e]
  exact this

/-! ### CITI -/

example (env : Citi.Env) (comments : List (List Char)) :
    ∃ ls, Citi.save env "x".toList comments (fun _ => false) {} = .ok ls ∧ takenFor ls = .citi := by
  obtain ⟨ls, h⟩ : ∃ ls, Citi.save env "x".toList comments (fun _ => false) {} = .ok ls := ⟨_, rfl⟩
  exact ⟨ls, h, C96_citi env _ comments _ _ ls h⟩

/-! ### MDIF -/

theorem strokes_oneLine (x : Nat) : OneLine (List.replicate x '1') := by
  constructor <;> intro h <;> have := (List.mem_replicate.1 h).2 <;> revert this <;> decide

example (en : Enum (List (Dim Nat))) :
    takenFor (Mdif.save envN Mdif.prS en "Mon Nov 16".toList (Mdif.saveB Mdif.dimF (Mdif.dimT [0, 1]))).1 = .mdif := by
  obtain ⟨b1, h1, h2⟩ := Mdif.saveB_convert [0, 1]
  refine C96_mdif envN Mdif.prS en _ _ b1 h1 (by rw [h2]; exact Mdif.saveB_quiet _) (by decide +kernel)
    (by rw [h2]; decide +kernel) ?_ (by rw [h2]; decide +kernel)
  rw [h2]
  have hd : ∀ v ∈ (Mdif.saveB Mdif.dimF (Mdif.dimT [0, 1])).vars, ∀ d ∈ v.2.dims, d.data ≠ [] ∧ PlainName d.name.toList := by
    decide +kernel
  intro v hv d hdd
  exact ⟨(hd v hv d hdd).1, (hd v hv d hdd).2, fun c _ => ⟨_, rfl, strokes_oneLine _⟩⟩

/-- The block with one sweep: a variable over `f` and a number. -/
def flatB : Block Nat Nat :=
  { vars := [("x", ⟨[Mdif.dimF], ⟨[2], fun i => i.getD 0 0⟩⟩), ("a", ⟨[], ⟨[], fun _ => 7⟩⟩)] }

def oneEnum : Enum (List (Dim Nat)) := ⟨id, fun _ => List.Perm.refl _⟩

/-- It is saved without error, and `read_mdif` would read it. -/
theorem flatB_saved : Mdif.save envN Mdif.prS oneEnum "now".toList flatB =
    (["!Created: now", "BEGIN DATABLOCK", "# a(real) = 11111111", "% f(real) x(real)", "1111\t1", "11111\t11", "END"].map
      String.toList, none) := by decide +kernel

/-- C96, violated: `read_data` takes it for SP data. -/
theorem C96_flat_refuted : (Mdif.save envN Mdif.prS oneEnum "now".toList flatB).2 = none ∧
    takenFor (Mdif.save envN Mdif.prS oneEnum "now".toList flatB).1 = .sp := by
  rw [flatB_saved]
  exact ⟨rfl, by decide +kernel⟩

theorem strokes_harmless (x : Nat) : Harmless (List.replicate (x + 1) '1') := by
  rw [Harmless, List.replicate_succ, List.dropWhile_cons_of_neg (by decide)]
  refine ⟨by simp, ?_⟩
  intro p hp h
  simp only [List.mem_cons, List.not_mem_nil, or_false] at hp
  rcases hp with rfl | rfl | rfl | rfl <;> simp [List.cons_prefix_cons] at h

/-- The hypotheses of the general theorem are met. -/
example : takenFor (Mdif.save envN Mdif.prS oneEnum "now".toList flatB).1 = .sp := by
  have hm : ∀ v ∈ flatB.vars, isMatrixName v.1 = none := by decide +kernel
  have hq : Quiet flatB.vars := ⟨⟨by decide +kernel, by
    intro v hv _ _ m i j h
    rw [hm v hv] at h
    cases h⟩, by decide +kernel⟩
  obtain ⟨b1, h1, h2⟩ := Mdif.convert_plain envN flatB hq (by decide +kernel)
  refine C96_mdif_flat_refuted envN Mdif.prS oneEnum _ flatB b1 h1 (by rw [h2]; exact hq) (by rw [h2]; decide +kernel)
    (by rw [h2]; decide +kernel) ?_ (by rw [flatB_saved]; decide +kernel)
  intro n x w hw
  cases hw
  exact strokes_harmless x

/-- C96, violated: the name of a sweep with another character hides the format too. -/
theorem C96_name_refuted :
    takenFor (Mdif.save envN Mdif.prS oneEnum "now".toList
      (Mdif.saveB Mdif.dimF ⟨.dimSweep, "V-g", [0, 1], none, none⟩)).1 = .sp ∧
    (Mdif.save envN Mdif.prS oneEnum "now".toList
      (Mdif.saveB Mdif.dimF ⟨.dimSweep, "V-g", [0, 1], none, none⟩)).2 = none := by
  constructor <;> decide +kernel

/-! ### SP data -/

example : takenFor (Sp.save Sp.wenv Sp.wstyle Sp.wcomments Sp.wblock).1 = .sp := by
  have hd : ∀ d ∈ [Sp.wf, Sp.wv, Sp.wi, Sp.wj], HarmlessDim Sp.wstyle d := by
    have : ∀ d ∈ [Sp.wf, Sp.wv, Sp.wi, Sp.wj], Harmless d.name.toList ∧ ∀ x ∈ d.data, Harmless (Sp.wstyle.coordText d x) := by
      decide +kernel
    exact this
  refine C96_sp _ _ _ _ Sp.wblock_writable.quiet ?_ ?_ (by rw [Sp.wblock_lines]; decide +kernel)
  · have : ∀ w ∈ Sp.wblock.vars, ∀ d ∈ w.2.dims, d ∈ [Sp.wf, Sp.wv, Sp.wi, Sp.wj] := by decide +kernel
    exact fun w hw d h => hd d (this w hw d h)
  · have : ∀ p ∈ Sp.wblock.ivars, p.2 ∈ [Sp.wf, Sp.wv, Sp.wi, Sp.wj] := by decide +kernel
    exact fun p hp => hd _ (this p hp)

/-- A voltage over the sweep `VAR` and the variable `x(V)`. -/
def varB : Block ℚ Bool where
  vars := [("x(V)", ⟨[⟨.dimSweep, "VAR", [0, 1], none, none⟩], ⟨[2], fun p => p == [1]⟩⟩)]
  ivars := [("VAR", ⟨.dimSweep, "VAR", [0, 1], none, none⟩)]

/-- C96, violated: SP data that are taken for an MDIF file and for a CITI file. -/
theorem C96_sp_refuted :
    takenFor (Sp.save Sp.wenv Sp.wstyle [] varB).1 = .mdif ∧
    takenFor (Sp.save Sp.wenv Sp.wstyle [] ⟨[("x", ⟨[⟨.dimSweep, "CITIFILE", [0, 1], none, none⟩], ⟨[2], fun p => p == [1]⟩⟩)],
      [("CITIFILE", ⟨.dimSweep, "CITIFILE", [0, 1], none, none⟩)], none⟩).1 = .citi := by
  constructor <;> decide +kernel

end HF.Readers.Dispatch
