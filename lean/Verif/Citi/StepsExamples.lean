import Verif.Citi.Again
import Verif.Citi.Examples
import Verif.Citi.ReadErrors
/-
C83: the hypotheses are met; what does not come back.
-/
namespace HF.Citi

open Units (isWs strip)
open Text DataBlock
open HF.DataDict.Spec
open HF.Readers HF.Readers.Treat
open HF.Readers.FixUnit (UBlock)
open HF.Readers.Assemble (Form CompleteF Wins elemNmF IsBase digit)
open HF.Readers.Normalize (trtable)

/-- Frequencies are in hertz; text is no value; a column all of whose elements are real is of a real type. -/
def exSteps : Steps Cplx Cplx where
  full := id
  rect x y := (x.1, y.1)
  polar x y := (x.1, y.1)
  mul m x := (m * x.1, m * x.2)
  cmul m x := (m * x.1, m * x.2)
  guess n := if n = "Freq" then some "Hz" else none
  table := trtable
  num n := (n, 0)
  cast c x := if (flat c).all (fun z => z.2 = 0) then (x.1, 0) else x
  ofProp v := match v with
    | .arr x _ => some (x, 0)
    | .other _ => none

abbrev ViewU := Option (List (String × List String × List Cplx) × List (String × Option String))

instance : DecidableEq (List (String × List String × List Cplx)) := inferInstance
instance : DecidableEq (List (String × Option String)) := inferInstance
instance : DecidableEq ViewU := inferInstance

/-- Names and elements of all variables, names and units of the sweeps. -/
def viewU (r : Except DataBlock.Err (UBlock Cplx Cplx)) : ViewU :=
  match r with
  | .ok u => some (u.blk.vars.map (fun p => (p.1, p.2.dims.map Dim.name, flat p.2)), u.blk.ivars.map fun p => (p.1, p.2.unit))
  | .error _ => none

/-- A file with elements in brackets in any order, a frequency under another name and a temperature. -/
def qLines : List (List Char) :=
  ["NAME A", "! Temp [K]: 3", "VAR Freq MAG 2", "DATA S[2,1] RI", "DATA S[1,1] RI", "DATA V MAG", "VAR_LIST_BEGIN", "1", "2",
   "VAR_LIST_END", "BEGIN", "1,2", "2,3", "END", "BEGIN", "3,4", "4,5", "END", "BEGIN", "5", "6", "END"].map String.toList

def qItems : List Item :=
  [.name ['A'], .comment "Temp [K]: 3".toList, .var ["Freq".toList, "MAG".toList, ['2']], .data ["S[2,1]".toList, "RI".toList],
   .data ["S[1,1]".toList, "RI".toList], .data [['V'], "MAG".toList], .varBegin, .number ['1'], .number ['2'], .varEnd,
   .begin_, .number "1,2".toList, .number "2,3".toList, .end_, .begin_, .number "3,4".toList, .number "4,5".toList, .end_,
   .begin_, .number ['5'], .number ['6'], .end_]

def qContent : Content where
  c1 := []
  version := false
  c2 := []
  name := ['A']
  c3 := ["Temp [K]: 3".toList]
  sweeps := [⟨"Freq".toList, ['M', 'A', 'G'], ['2'], .list [['1'], ['2']], [(1, 0), (2, 0)]⟩]
  c4 := []
  data := [⟨"S[2,1]".toList, ['R', 'I'], ["1,2", "2,3"].map String.toList⟩,
    ⟨"S[1,1]".toList, ['R', 'I'], ["3,4", "4,5"].map String.toList⟩, ⟨['V'], ['M', 'A', 'G'], [['5'], ['6']]⟩]
  c5 := []
  c6 := []

theorem qSays : List.Forall₂ Says qLines qItems := by
  have hb : Blank [] := by simp [Blank]
  have text : ∀ {r it}, Says' r it → Says r it := fun {r it} h => Says.text [] r it hb h
  have num : ∀ (s : List Char) (c : Char) (r : List Char), s = c :: r → c ∈ "-.0123456789eE".toList → ¬ kwEND <+: c :: r →
      Says s (.number s) := by
    rintro s c r rfl h1 h2
    exact text (.number c r h1 h2)
  unfold qLines qItems
  repeat' (first | apply List.Forall₂.cons | exact List.Forall₂.nil)
  · exact text (.name " A".toList _ (trim_of (by decide +kernel)))
  · exact text (.exclam _ _ (trim_of (by decide +kernel)))
  · exact text (.var "Freq MAG 2".toList _ ((words_iff _ _).1 (by decide +kernel)))
  · exact text (.data " S[2,1] RI".toList _ ((words_iff _ _).1 (by decide +kernel)))
  · exact text (.data " S[1,1] RI".toList _ ((words_iff _ _).1 (by decide +kernel)))
  · exact text (.data " V MAG".toList _ ((words_iff _ _).1 (by decide +kernel)))
  · exact text (.varBegin [])
  · exact num _ '1' _ rfl (by decide +kernel) (by decide +kernel)
  · exact num _ '2' _ rfl (by decide +kernel) (by decide +kernel)
  · exact text (.varEnd [])
  · exact text (.begin_ [])
  · exact num _ '1' _ rfl (by decide +kernel) (by decide +kernel)
  · exact num _ '2' _ rfl (by decide +kernel) (by decide +kernel)
  · exact text (.end_ [])
  · exact text (.begin_ [])
  · exact num _ '3' _ rfl (by decide +kernel) (by decide +kernel)
  · exact num _ '4' _ rfl (by decide +kernel) (by decide +kernel)
  · exact text (.end_ [])
  · exact text (.begin_ [])
  · exact num _ '5' _ rfl (by decide +kernel) (by decide +kernel)
  · exact num _ '6' _ rfl (by decide +kernel) (by decide +kernel)
  · exact text (.end_ [])

theorem qHead : qContent.Head exEnv where
  version := by simp [qContent]
  noSweeps := by simp [qContent]
  data := by simp [qContent]
  nodupSweeps := by decide +kernel
  sweeps := by
    intro v hv
    simp only [qContent, List.mem_cons, List.not_mem_nil, or_false] at hv
    subst hv
    exact ⟨by decide +kernel, Or.inl rfl, .cons (.mag _ 1 (by decide +kernel)) (.cons (.mag _ 2 (by decide +kernel)) .nil)⟩

theorem qNames : qContent.Names where
  nodupData := by decide +kernel
  disjoint := by decide +kernel
  elems := by
    intro d hd m i j e
    have : ∀ d ∈ qContent.data, isMatrixName (String.ofList d.name) = none := by decide +kernel
    rw [this d hd] at e
    cases e

def qProps : List (String × Comments.PVal) := [("Temp", .arr 3 (some ['K']))]

theorem qCols : qContent.cols exSteps qProps = ["S[2,1]", "S[1,1]", "V", "Temp"] ∧
    qContent.names exSteps qProps = ["S[2,1]", "S[1,1]", "V", "Temp", "Freq"] := by decide +kernel

/-- The only matrix. -/
theorem qMatrix {fm : Form} {v : String} {I J : List Nat} (h : qContent.Matrix exSteps qProps fm v I J) :
    fm = .brackets ∧ v = "S" ∧ I = [1, 2] ∧ J = [1] := by
  unfold Content.Matrix at h
  have hn : (qContent.cols exSteps qProps).Nodup := by decide +kernel
  have hm := (Assemble.matrices_iff _ hn forms ⟨v, (Assemble.grid fm v I J).map fun t => t.2.2, I, J, fm⟩).2 ⟨h, rfl⟩
  have : ∀ g ∈ Assemble.matrices (qContent.cols exSteps qProps) forms [], g.form = .brackets ∧ g.name = "S" ∧ g.rows = [1, 2] ∧ g.cols = [1] := by
    decide +kernel
  exact this _ hm

theorem qWins : qContent.Matrix exSteps qProps .brackets "S" [1, 2] [1] := by
  have hn : (qContent.cols exSteps qProps).Nodup := by decide +kernel
  have : ∃ g ∈ Assemble.matrices (qContent.cols exSteps qProps) forms [], g.form = .brackets ∧ g.name = "S" ∧ g.rows = [1, 2] ∧ g.cols = [1] := by
    decide +kernel
  obtain ⟨g, hg, h1, h2, h3, h4⟩ := this
  have := ((Assemble.matrices_iff _ hn forms g).1 hg).1
  rw [h1, h2, h3, h4] at this
  exact this

/-- The hypotheses of `C83_read` and `C83_file` are met: the lower element of the matrix is the column that comes first. -/
example : ∃ r r' m, block exEnv exSteps qLines = .ok r ∧ lookup r.blk.vars "S" = some m ∧ m.nd.get [0, 1, 0] = (1, 2) ∧
    (∃ d, lookup r.blk.ivars "freq" = some d ∧ d.unit = some "Hz") ∧ r.units "Temp" = some "K" ∧
    readCiti exEnv exSteps (fun n => (n, 0)) ⟨id, fun _ => List.Perm.refl _⟩ (fun _ => (0, 0)) "a.citi" qLines = .ok r' ∧
    lookup r'.vars "S" = some m := by
  have hp : Comments.properties ["Temp [K]: 3".toList] = qProps := by decide +kernel
  obtain ⟨r, D, h1, h2⟩ := C83_read exEnv exSteps (List.Perm.refl _) (by
      intro c c' h
      simp only [exSteps, flat, h]
      rfl) qLines qItems [] qSays qContent qHead qNames rfl ["Temp [K]: 3".toList]
    (.cons (.same _ (by decide +kernel)) .nil)
    (by
      intro d hd
      simp only [qContent, List.mem_cons, List.not_mem_nil, or_false] at hd
      rcases hd with rfl | rfl | rfl
      · refine ⟨Or.inr (Or.inl rfl), fun t ht => exRi t ?_, by decide +kernel⟩
        revert t
        decide +kernel
      · refine ⟨Or.inr (Or.inl rfl), fun t ht => exRi t ?_, by decide +kernel⟩
        revert t
        decide +kernel
      · refine ⟨Or.inl rfl, fun t ht => exMag t ?_, by decide +kernel⟩
        revert t
        decide +kernel)
    (by
      rw [hp]
      exact ⟨by decide +kernel, by decide +kernel, by decide +kernel, by
        intro p hp m i j hm
        simp only [qProps, List.mem_singleton] at hp
        subst hp
        have : isMatrixName "Temp" = none := by decide +kernel
        rw [this] at hm
        cases hm⟩)
    (by
      rw [hp]
      refine ⟨?_, ?_⟩
      · intro fm v I J h
        obtain ⟨rfl, rfl, rfl, rfl⟩ := qMatrix h
        decide +kernel
      · intro fm v I J h
        obtain ⟨rfl, rfl, rfl, rfl⟩ := qMatrix h
        decide +kernel)
    (by
      rw [hp]
      intro b hb fm v I J h i hi j hj k hk l hl d hd d' hd' e e' c c' hc hc' idx hidx
      obtain ⟨rfl, rfl, rfl, rfl⟩ := qMatrix h
      have hb2 : b = ((read exEnv qLines).toOption.map fun x => x.2.2).getD {} := by rw [hb]; rfl
      have key : ∀ d ∈ qContent.data, ∀ c, lookup b.vars d.key = some c → d.key ≠ "V" → (flat c).all (fun z => z.2 = 0) = false := by
        rw [hb2]
        decide +kernel
      have hne : d.key ≠ "V" := by
        have : ∀ d ∈ qContent.data, ∀ i ∈ [1, 2], ∀ j ∈ [1], canon (qContent.names exSteps qProps) d.key = elemNmF .brackets "S" i j →
          d.key ≠ "V" := by decide +kernel
        exact this d hd i hi j hj e
      simp only [exSteps, key d hd c hc hne]
      rfl)
  rw [hp] at h2
  obtain ⟨m, di, dj, m1, -, -, -, -, m6⟩ := h2.matrix _ _ _ _ qWins
  have hat := m6 1 0 (by decide) (by decide) ⟨"S[2,1]".toList, ['R', 'I'], ["1,2", "2,3"].map String.toList⟩
    (by simp [qContent]) (by decide +kernel)
  obtain ⟨r', f1, f2, -⟩ := C83_file exEnv exSteps (fun n => (n, 0)) ⟨id, fun _ => List.Perm.refl _⟩ (fun _ => (0, 0)) "a.citi" qLines
    qContent qProps D r h1 h2 (by
      intro n hn
      refine ⟨?_, ?_, ?_⟩
      · revert n; decide +kernel
      · revert n; decide +kernel
      · intro fm I J h
        obtain ⟨-, rfl, -⟩ := qMatrix h
        simp at hn)
  refine ⟨r, r', m, h1, m1, ?_, ?_, ?_, f1, ?_⟩
  · unfold Data.At at hat
    have hpos : positions (qContent.sweeps.map fun v => v.coords.length) = [[0], [1]] := by decide +kernel
    rw [hpos] at hat
    cases hat with
    | cons k _ =>
      have hd := number_ok exEnv _ _ _ k
      have : datum exEnv ['R', 'I'] "1,2".toList = .ok (1, 2) := by decide +kernel
      have e : Except.ok (1, 2) = Except.ok (m.nd.get [0, 1, 0]) := this.symm.trans hd
      injection e with e
      exact e.symm
  · have := h2.sweeps
    cases this with
    | cons hh _ =>
      rename_i d _ _
      have e1 : d.name = canon (qContent.names exSteps qProps) "Freq" := congrArg Normalize.Label.name hh.1
      have e2 : canon (qContent.names exSteps qProps) "Freq" = "freq" := by decide +kernel
      refine ⟨d, ?_, congrArg Normalize.Label.unit hh.1⟩
      rw [← e2, ← e1]
      exact hh.2
  · have hg : qContent.given exSteps qProps = qProps := by decide +kernel
    obtain ⟨a, -, -, -, -, h⟩ := h2.property ("Temp", .arr 3 (some ['K'])) (by rw [hg]; simp [qProps]) (by
      intro fm v I J h
      obtain ⟨rfl, rfl, rfl, rfl⟩ := qMatrix h
      decide +kernel)
    have e2 : canon (qContent.names exSteps qProps) "Temp" = "Temp" := by decide +kernel
    rw [e2] at h
    rw [h]
    rfl
  · rw [f2, if_neg (by decide), m1]

theorem isBase_noElement {n : String} (h : IsBase n) : NoElement n := by
  intro fm w i j _ hi _
  exact Assemble.base_ne_elemF h hi

/-- The hypotheses of the round trip are met. -/
example : ∃ lines r m, save exEnv ['x'] [['c']] (· == "S") { vars := exVars.map fun v => (v.name, v.arr) } = .ok lines ∧
    block exEnv exSteps lines = .ok r ∧ lookup r.blk.vars "S" = some m ∧ m.nd.get [1, 0, 0] = (5, 6) := by
  obtain ⟨lines, r, D', h1, h2, -, -, -, h3⟩ := C83_roundtrip exEnv_nat (by decide +kernel) exSteps (List.Perm.refl _) (by
      intro c c' h
      simp only [exSteps, flat, h]
      rfl) ['x'] [['c']] (· == "S") [swp "f"] exVars
    { vars := exVars.map fun v => (v.name, v.arr) } rfl exSweeps exGoodVars exKinds exGoodNames exNoTime (by decide +kernel)
    (by
      have : colNames exEnv exVars ++ [swp "f"].map Dim.name = ["V", "S11", "S21", "f"] := by decide +kernel
      rw [this]
      exact ⟨by decide +kernel, by decide +kernel, by decide +kernel⟩)
    (by
      intro v hv
      simp only [exVars, List.mem_cons, List.not_mem_nil, or_false] at hv
      rcases hv with rfl | rfl
      · exact isBase_noElement ⟨by decide +kernel, by decide +kernel⟩
      · exact ⟨⟨by decide +kernel, by decide +kernel⟩, by decide, by decide, by decide, by decide, by decide⟩)
    (by
      intro v hv c c' hc hc' idx _
      simp only [exVars, List.mem_cons, List.not_mem_nil, or_false] at hv
      rcases hv with rfl | rfl
      · obtain ⟨_, _, _, _, e, _⟩ := hc
        cases e
      · obtain ⟨_, _, _, _, e, i, hi, j, hj, h1, h2⟩ := hc
        have : (flat c).all (fun z => z.2 = 0) = false := by
          rw [List.all_eq_false]
          refine ⟨c.nd.get [0], ?_, ?_⟩
          · rw [flat_positions, h1]
            exact List.mem_map_of_mem (by decide +kernel)
          · rw [h2 [0] ⟨by decide, trivial⟩]
            simp
        simp only [exSteps, this]
        rfl)
  obtain ⟨m, _, _, m1, -, -, -, -, m5, m6⟩ := h3 _ (List.mem_cons_of_mem _ (List.mem_cons_self ..)) _ _ 2 1 rfl
  exact ⟨lines, r, m, h1, h2, m1, by rw [m6 [1, 0, 0] ⟨by decide, by decide, by decide, trivial⟩]; decide +kernel⟩

/-! ### What does not come back -/

/-- C83, violated: names of elements in both forms. Only the columns without brackets become a matrix, whatever
is in the others. -/
theorem C83_both_refuted : viewU (block exEnv exSteps (["NAME A", "DATA S[2,1] RI", "DATA S[1,1] RI", "DATA S11 MAG", "DATA S21 MAG",
      "BEGIN", "1,2", "END", "BEGIN", "3,4", "END", "BEGIN", "5", "END", "BEGIN", "6", "END"].map String.toList)) =
    some ([("S[2,1]", [], [(1, 2)]), ("S[1,1]", [], [(3, 4)]), ("S", ["i", "j"], [(5, 0), (6, 0)])], [("i", none), ("j", none)]) := by
  decide +kernel

/-- C83, violated: columns of different types. If the first element is real then the imaginary parts of the others are
lost. -/
theorem C83_types_refuted : viewU (block exEnv exSteps (["NAME A", "DATA S[1,1] MAG", "DATA S[2,1] RI", "BEGIN", "1", "END",
      "BEGIN", "3,4", "END"].map String.toList)) =
    some ([("S", ["i", "j"], [(1, 0), (3, 0)])], [("i", none), ("j", none)]) := by
  decide +kernel

/-- C83, violated: a matrix with one element is not found again. -/
theorem C83_one_port_refuted : viewU (block exEnv exSteps (["NAME A", "DATA S[1,1] RI", "BEGIN", "1,2", "END"].map String.toList)) =
    some ([("S[1,1]", [], [(1, 2)])], []) := by
  decide +kernel

end HF.Citi
