import Verif.Readers.WholeProps
import Verif.Readers.SavedExamples
import Verif.Readers.TreatExamples
import Verif.Touchstone.StepsExamples
import Verif.Citi.StepsExamples
import Verif.Mdif.AgainExamples
/-
C98: the hypotheses are met, and a file that is read as something else.
-/
namespace HF.Readers.Dispatch

open HF.DataDict.Spec HF.DataBlock
open HF.DataDict hiding rename delitem
open HF.Readers HF.Readers.Treat
open HF.Readers.FixUnit (UBlock)

/-- Readers of which one is known. -/
def others {δ : Type} (x : δ) : Readers δ := ⟨fun _ => x, fun _ => x, fun _ => x, fun _ => x, fun _ => x, fun _ => x⟩

/-- A file of three ports: the matrix comes back transposed. -/
example : ∃ r a d di dj,
    readText { others (.error .keyError) with touchstone := (Touchstone.block Touchstone.exEnv Touchstone.exBenv
        Touchstone.exVals Touchstone.exSteps) }
      (textOf (Touchstone.save Touchstone.exEnv ["Temp: 3".toList] 3 [Touchstone.exRow 1, Touchstone.exRow 2])) = .ok r ∧
    lookup r.blk.vars "S" = some a ∧ MatStack a [d] di dj [2] 3 3 ∧
    a.nd.get [1, 0, 2] = Touchstone.exVals.cplx ((Touchstone.exRow 2).2 2 0) := by
  have hp : Comments.properties ["Temp: 3".toList] = Touchstone.exProps := by decide +kernel
  obtain ⟨r, a, d, di, dj, h1, h2, -, -, h5, h6⟩ := C98_touchstone Touchstone.exEnv (by decide +kernel) Touchstone.exBenv
    Touchstone.exVals Touchstone.exSteps (List.Perm.refl _) (fun _ _ _ => rfl) ["Temp: 3".toList] ["Temp: 3".toList]
    (by decide +kernel) (.cons ((Text.strip_iff _ _).1 (by decide +kernel)) .nil) 3 (by decide)
    [Touchstone.exRow 1, Touchstone.exRow 2] (by simp) Touchstone.ex_inc (Touchstone.ex_survives 3)
    (by rw [hp]; exact Touchstone.exQuiet _ (by simp [Touchstone.kindsOfPar]) _ _)
  exact ⟨r, a, d, di, dj, h1 _ rfl, h2, h5, h6 1 0 2 _ rfl (by decide) (by decide)⟩

/-- A CITI file with a matrix. -/
example : ∃ lines r m, Citi.save Citi.exEnv ['x'] [['c']] (· == "S") { vars := Citi.exVars.map fun v => (v.name, v.arr) } =
      .ok lines ∧
    readText { others (.error .keyError) with citi := Citi.block Citi.exEnv Citi.exSteps } (textOf lines) = .ok r ∧
    lookup r.blk.vars "S" = some m ∧ m.nd.get [1, 0, 0] = (5, 6) := by
  obtain ⟨lines, r, D', h1, h2, -, -, -, h3⟩ := C98_citi Citi.exEnv_nat (by decide +kernel) Citi.exSteps (List.Perm.refl _) (by
      intro c c' h
      simp only [Citi.exSteps, Citi.flat, h]
      rfl) ['x'] [['c']] (· == "S") [Citi.swp "f"] Citi.exVars
    { vars := Citi.exVars.map fun v => (v.name, v.arr) } rfl Citi.exSweeps Citi.exGoodVars Citi.exKinds Citi.exGoodNames
    Citi.exNoTime (by decide +kernel)
    (by
      have : Citi.colNames Citi.exEnv Citi.exVars ++ [Citi.swp "f"].map Dim.name = ["V", "S11", "S21", "f"] := by decide +kernel
      rw [this]
      exact ⟨by decide +kernel, by decide +kernel, by decide +kernel⟩)
    (by
      intro v hv
      simp only [Citi.exVars, List.mem_cons, List.not_mem_nil, or_false] at hv
      rcases hv with rfl | rfl
      · exact Citi.isBase_noElement ⟨by decide +kernel, by decide +kernel⟩
      · exact ⟨⟨by decide +kernel, by decide +kernel⟩, by decide, by decide, by decide, by decide, by decide⟩)
    (by
      intro v hv c c' hc hc' idx _
      simp only [Citi.exVars, List.mem_cons, List.not_mem_nil, or_false] at hv
      rcases hv with rfl | rfl
      · obtain ⟨_, _, _, _, e, _⟩ := hc
        cases e
      · obtain ⟨_, _, _, _, e, i, hi, j, hj, h1, h2⟩ := hc
        have : (Citi.flat c).all (fun z => z.2 = 0) = false := by
          rw [List.all_eq_false]
          refine ⟨c.nd.get [0], ?_, ?_⟩
          · rw [Citi.flat_positions, h1]
            exact List.mem_map_of_mem (by decide +kernel)
          · rw [h2 [0] ⟨by decide, trivial⟩]
            simp
        simp only [Citi.exSteps, this]
        rfl)
    (by
      have : ∀ ls ∈ (Citi.save Citi.exEnv ['x'] [['c']] (· == "S")
          { vars := Citi.exVars.map fun v => (v.name, v.arr) }).toOption, ∀ l ∈ ls, OneLine l := by decide +kernel
      intro ls h
      exact this ls (by rw [h]; rfl))
  obtain ⟨m, _, _, m1, -, -, m6⟩ := h3 _ (List.mem_cons_of_mem _ (List.mem_cons_self ..)) _ _ 2 1 rfl
  exact ⟨lines, r, m, h1, h2 _ rfl, m1, by rw [m6 [1, 0, 0] ⟨by decide, by decide, by decide, trivial⟩]; decide +kernel⟩

/-- An MDIF file with a matrix over two sweeps. -/
example : ∃ ts t, readText { others (.error .ioError) with mdif := (Mdif.treatAll envN Mdif.numS Mdif.stepsN false) }
      (textOf (Mdif.save envN Mdif.prS oneEnum "now".toList Mdif.matB).1) = .ok ts ∧ ts.length = 2 ∧ ts[1]? = some t ∧
    ∃ a, lookup t.blk.blk.vars "Z" = some a ∧ a.nd.get [1, 0, 1] = 13 := by
  obtain ⟨b1, h1, h2⟩ := Mdif.matB_view
  obtain ⟨ts, -, k2, k3, k4⟩ := C98_mdif envN Mdif.prS Mdif.numS Mdif.stepsN (List.Perm.refl _) (fun _ _ _ => rfl) oneEnum
    "now".toList Mdif.matB b1 Mdif.matB_convertible h1 Mdif.dimF [Mdif.dT] (by simp) (Mdif.matB_savable h2) (Mdif.matB_returns h2)
    (fun c _ => ⟨_, rfl, strokes_oneLine _⟩) (by decide +kernel) (by decide +kernel) (by decide +kernel)
  have hpos : Mdif.positions ([Mdif.dT].map fun x => x.data.length) = [[0], [1]] := by decide +kernel
  rw [hpos] at k3 k4
  obtain ⟨t, ht⟩ : ∃ t, ts[1]? = some t := ⟨_, List.getElem?_eq_getElem (by rw [k3]; decide)⟩
  obtain ⟨idx, D, g1, g2⟩ := k4 1 t ht
  cases g1
  obtain ⟨a, _, _, a1, -, -, -, -, a2⟩ := g2.matrix _ (List.mem_cons_of_mem _ (List.mem_cons_self ..)) _ _ _ _ _ Mdif.matB_mat
  exact ⟨ts, t, k2 _ rfl, k3, ht, a, a1, a2 1 (by decide) 0 (by decide) 1 (by decide)⟩

/-- SP data with a matrix, a complex and a real variable. -/
example : ∃ r, readText { others (.error .keyError) with sp := spBlocks tenv tsteps id unbits }
      (textOf (Sp.save tenv tstyle [['a']] tblock).1) = .ok [r] ∧ Again tsteps tstyle tblock tf r := by
  have hd : ∀ w ∈ tblock.vars, ∀ d ∈ w.2.dims, Harmless d.name.toList ∧ ∀ x ∈ d.data, Harmless (tstyle.coordText d x) := by
    decide +kernel
  have hi : ∀ p ∈ tblock.ivars, Harmless p.2.name.toList ∧ ∀ x ∈ p.2.data, Harmless (tstyle.coordText p.2 x) := by
    decide +kernel
  obtain ⟨r, -, h1, h2⟩ := C98_sp (S := tsteps) tblock_writable tblock_tame (fun _ => rfl)
    (fun _ _ _ => ⟨fun _ => True, by simp, by simp, fun _ _ _ _ => rfl⟩) (List.Perm.refl _) (by decide +kernel) hd hi
    (by rw [tblock_lines]; decide +kernel)
  exact ⟨r, h1 _ rfl, h2⟩

/-- C98, violated: the MDIF file of a block with one sweep is read back by `read_mdif`; `read_data` hands it to the reader
of SP data. -/
theorem C98_flat_refuted {δ : Type} (R : Readers δ) :
    (Mdif.save envN Mdif.prS oneEnum "now".toList flatB).2 = none ∧
    readText R (textOf (Mdif.save envN Mdif.prS oneEnum "now".toList flatB).1) =
      R.sp (Mdif.save envN Mdif.prS oneEnum "now".toList flatB).1 := by
  have h := C96_flat_refuted
  refine ⟨h.1, ?_⟩
  rw [readText_saved R _ (by rw [flatB_saved]; decide +kernel), h.2]

end HF.Readers.Dispatch
