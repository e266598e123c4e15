import Verif.Mdif.StepsProps
import Verif.Mdif.PartitionProps
import Verif.Mdif.TableProps
/-
C85: the hypotheses are met.
-/
namespace HF.Mdif

open HF.DataDict.Spec HF.DataBlock
open HF.Readers.Treat
open HF.Readers.Assemble (Complete CompleteF)
open HF.Readers.Normalize (trtable)

/-- Texts are no values. -/
def stepsN : Steps Nat Nat where
  full := id
  rect x _ := x
  polar x _ := x
  mul _ x := x
  cmul _ x := x
  guess n := if n = "f" then some "Hz" else none
  table := trtable
  num n := n
  cast _ x := x
  ofProp v := match v with
    | .arr x _ => some x.num.toNat
    | .other _ => none

def envNat : Env Nat Nat := ⟨id, id, 0, fun _ => "", fun _ => ""⟩

/-- A block with a matrix and a vector. -/
def sheet2 : Sheet := ⟨["Temp: 3".toList], ["SWEEP.T(real) = 27".toList], "B".toList, ["n(real)=5".toList],
  ["f(real) S[1,2](complex) S[1,1](real) V[1](real)".toList], ["1 333 4444 22 55555".toList, "22 1 1 1 1".toList], []⟩

def content2 : Content Nat := ⟨['f'], ['f'], [1, 2], [("S[1,2]".toList, [304, 101]), ("S[1,1]".toList, [2, 1]),
  ("V[1]".toList, [5, 1])], [(['T'], 2)], [(['n'], 1)]⟩

def vs2 : List String := ["S", "V", "n"]

theorem describes2 : Describes num1 sheet2 content2 := by
  refine ⟨⟨[[(['f'], .real), ("S[1,2]".toList, .complex), ("S[1,1]".toList, .real), ("V[1]".toList, .real)]], ?_, by decide +kernel,
    by simp, 2, by decide, rfl, by decide, ?_⟩, (cutSweep_iff _ _).1 (by decide), ?_, ?_⟩
  · refine .cons ?_ .nil
    have : Text.words "f(real) S[1,2](complex) S[1,1](real) V[1](real)".toList =
        ["f(real)".toList, "S[1,2](complex)".toList, "S[1,1](real)".toList, "V[1](real)".toList] := by decide +kernel
    rw [this]
    exact .cons ((C63_title _ _ _).1 (by decide +kernel)) (.cons ((C63_title _ _ _).1 (by decide +kernel))
      (.cons ((C63_title _ _ _).1 (by decide +kernel)) (.cons ((C63_title _ _ _).1 (by decide +kernel)) .nil)))
  · intro i k ps n t hi hk
    match i, hi with
    | 0, hi =>
      simp only [List.getElem?_cons_zero, Option.some.injEq] at hi
      subst hi
      have key : ∀ k n t l, ([(['f'], Ty.real), ("S[1,2]".toList, .complex), ("S[1,1]".toList, .real), ("V[1]".toList, .real)] :
          List (List Char × Ty))[k]? = some (n, t) → (n, l) ∈ (content2.first, content2.sweep) :: content2.cols → l.length = 2 →
          valAt num1 t (Text.words "1 333 4444 22 55555".toList) (offset [(['f'], Ty.real), ("S[1,2]".toList, .complex), ("S[1,1]".toList, .real), ("V[1]".toList, .real)] k) = l[0]? →
          valAt num1 t (Text.words "22 1 1 1 1".toList) (offset [(['f'], Ty.real), ("S[1,2]".toList, .complex), ("S[1,1]".toList, .real), ("V[1]".toList, .real)] k) = l[1]? →
          ∃ l, (n, l) ∈ (content2.first, content2.sweep) :: content2.cols ∧ l.length = 2 ∧
          ∀ r < 2, ∃ line, sheet2.data[r * 1 + 0]? = some line ∧
            (valAt num1 t (Text.words line) (offset [(['f'], Ty.real), ("S[1,2]".toList, .complex), ("S[1,1]".toList, .real), ("V[1]".toList, .real)] k)).isSome ∧
            valAt num1 t (Text.words line) (offset [(['f'], Ty.real), ("S[1,2]".toList, .complex), ("S[1,1]".toList, .real), ("V[1]".toList, .real)] k) = l[r]? := by
        intro k n t l _ h1 h2 h3 h4
        refine ⟨l, h1, h2, ?_⟩
        intro r hr
        match r, hr with
        | 0, _ =>
          refine ⟨_, rfl, ?_, h3⟩
          rw [h3, List.getElem?_eq_getElem (by omega)]
          rfl
        | 1, _ =>
          refine ⟨_, rfl, ?_, h4⟩
          rw [h4, List.getElem?_eq_getElem (by omega)]
          rfl
      match k, hk with
      | 0, hk => cases hk; exact key 0 _ _ [1, 2] rfl (by decide +kernel) rfl (by decide +kernel) (by decide +kernel)
      | 1, hk => cases hk; exact key 1 _ _ [304, 101] rfl (by decide +kernel) rfl (by decide +kernel) (by decide +kernel)
      | 2, hk => cases hk; exact key 2 _ _ [2, 1] rfl (by decide +kernel) rfl (by decide +kernel) (by decide +kernel)
      | 3, hk => cases hk; exact key 3 _ _ [5, 1] rfl (by decide +kernel) rfl (by decide +kernel) (by decide +kernel)
      | k + 4, hk => simp at hk
    | i + 1, hi => simp at hi
  · exact .cons ⟨"SWEEP.T(real) ".toList, " 27".toList, "SWEEP.T".toList, by decide, by decide, by decide, by decide, by decide,
      Or.inl (by decide), by decide⟩ .nil
  · exact .cons ⟨"n(real)".toList, "5".toList, "n".toList, by decide, by decide, by decide, by decide, by decide,
      Or.inr (by decide), by decide⟩ .nil

theorem separate2 : Separate content2 := by
  refine ⟨by decide +kernel, by decide +kernel, ?_, by decide, by decide⟩
  intro n hn m i j h
  have : ∀ n ∈ content2.names, isMatrixName (String.ofList n) = none := by decide +kernel
  rw [this n hn] at h
  cases h

theorem titles2 : sheet2.titles = ["f(real)".toList, "S[1,2](complex)".toList, "S[1,1](real)".toList, "V[1](real)".toList] := by
  decide +kernel

theorem pairs2 (n : List Char) : pairsOf sheet2.titles n = if n = ['S'] then [(1, 2), (1, 1)] else [] := by
  have hn : ∀ s ∈ sheet2.titles, ∀ r, parseHead s = some r → r.1 ∈ [['S'], ['f'], ['V']] := by
    have : (sheet2.titles.all fun s => match parseHead s with | some r => decide (r.1 ∈ [['S'], ['f'], ['V']]) | none => true) = true := by
      decide +kernel
    intro s hs r hr
    have := List.all_eq_true.1 this s hs
    rw [hr] at this
    simpa using this
  by_cases h2 : n ∈ [['S'], ['f'], ['V']]
  · simp only [List.mem_cons, List.not_mem_nil, or_false] at h2
    rcases h2 with rfl | rfl | rfl <;> decide +kernel
  · rw [(pairs_name _ hn h2).1, if_neg]
    rintro rfl; exact h2 (by decide)

theorem inds2 (n : List Char) : indsOf sheet2.titles n = if n = ['V'] then [1] else [] := by
  have hn : ∀ s ∈ sheet2.titles, ∀ r, parseHead s = some r → r.1 ∈ [['S'], ['f'], ['V']] := by
    have : (sheet2.titles.all fun s => match parseHead s with | some r => decide (r.1 ∈ [['S'], ['f'], ['V']]) | none => true) = true := by
      decide +kernel
    intro s hs r hr
    have := List.all_eq_true.1 this s hs
    rw [hr] at this
    simpa using this
  by_cases h2 : n ∈ [['S'], ['f'], ['V']]
  · simp only [List.mem_cons, List.not_mem_nil, or_false] at h2
    rcases h2 with rfl | rfl | rfl <;> decide +kernel
  · rw [(pairs_name _ hn h2).2, if_neg]
    rintro rfl; exact h2 (by decide)

theorem isMat2 {n : List Char} {p q : Nat} (h : IsMat sheet2.titles n p q) : n = ['S'] := by
  have := (h.2.2 1 1).2 ⟨⟨Nat.le_refl 1, h.1⟩, Nat.le_refl 1, h.2.1⟩
  rw [pairs2] at this
  by_contra hne
  rw [if_neg hne] at this
  cases this

theorem mat2 : IsMat sheet2.titles ['S'] 1 2 := by
  refine ⟨by omega, by omega, fun i j => ?_⟩
  rw [pairs2, if_pos rfl]
  simp only [List.mem_cons, Prod.mk.injEq, List.not_mem_nil, or_false]
  omega

theorem isVec2 {n : List Char} {k : Nat} (h : IsVec sheet2.titles n k) : n = ['V'] := by
  have := (h.2.mem_iff (a := 1)).2 (by rw [List.mem_range'_1]; have := h.1; omega)
  rw [inds2] at this
  by_contra hne
  rw [if_neg hne] at this
  cases this

theorem vec2 : IsVec sheet2.titles ['V'] 1 := ⟨by omega, by rw [inds2, if_pos rfl]; exact List.Perm.refl _⟩

theorem touched2 (n : List Char) : Touched sheet2.titles n ↔ n ∈ [['S'], ['V'], "S[1,1]".toList, "S[1,2]".toList, "V[1]".toList] := by
  constructor
  · rintro (⟨m, p, q, h, h'⟩ | ⟨m, k, h, h'⟩)
    · have := isMat2 h
      subst this
      rcases h' with rfl | ⟨i, j, hij, rfl⟩
      · simp
      · rw [pairs2, if_pos rfl] at hij
        simp only [List.mem_cons, Prod.mk.injEq, List.not_mem_nil, or_false] at hij
        rcases hij with ⟨rfl, rfl⟩ | ⟨rfl, rfl⟩ <;> decide +kernel
    · have := isVec2 h
      subst this
      rcases h' with rfl | ⟨i, hi, rfl⟩
      · simp
      · rw [inds2, if_pos rfl] at hi
        simp only [List.mem_cons, List.not_mem_nil, or_false] at hi
        subst hi
        decide +kernel
  · intro h
    simp only [List.mem_cons, List.not_mem_nil, or_false] at h
    rcases h with rfl | rfl | rfl | rfl | rfl
    · exact Or.inl ⟨_, _, _, mat2, Or.inl rfl⟩
    · exact Or.inr ⟨_, _, vec2, Or.inl rfl⟩
    · exact Or.inl ⟨_, _, _, mat2, Or.inr ⟨1, 1, by rw [pairs2]; decide, by decide +kernel⟩⟩
    · exact Or.inl ⟨_, _, _, mat2, Or.inr ⟨1, 2, by rw [pairs2]; decide, by decide +kernel⟩⟩
    · exact Or.inr ⟨_, _, vec2, Or.inr ⟨1, by rw [inds2]; decide, by decide +kernel⟩⟩

theorem left2 : Left sheet2.titles content2 vs2 := by
  intro s
  constructor
  · intro h
    simp only [vs2, List.mem_cons, List.not_mem_nil, or_false] at h
    rcases h with rfl | rfl | rfl
    · exact ⟨['S'], by decide, Or.inl ⟨_, _, mat2⟩⟩
    · exact ⟨['V'], by decide, Or.inr (Or.inl ⟨_, vec2⟩)⟩
    · exact ⟨['n'], by decide, Or.inr (Or.inr ⟨by decide +kernel, by rw [touched2]; decide +kernel⟩)⟩
  · rintro ⟨n, rfl, ⟨p, q, h⟩ | ⟨k, h⟩ | ⟨h1, h2⟩⟩
    · rw [isMat2 h]; decide
    · rw [isVec2 h]; decide
    · rw [touched2] at h2
      have : ∀ n ∈ content2.names, n ∉ [['S'], ['V'], "S[1,1]".toList, "S[1,2]".toList, "V[1]".toList] → String.ofList n ∈ vs2 := by
        decide +kernel
      exact this n h1 h2

theorem regular2 : Regular stepsN sheet2 content2 vs2 := by
  refine ⟨left2, ⟨2, ?_, ?_, ?_, ?_⟩, by decide, ?_⟩
  · intro n
    rw [pairs2]
    split <;> decide
  · intro n i j h
    rw [pairs2] at h
    split at h
    · rename_i e
      subst e
      simp only [List.mem_cons, Prod.mk.injEq, List.not_mem_nil, or_false] at h
      rcases h with ⟨rfl, rfl⟩ | ⟨rfl, rfl⟩
      · exact ⟨[304, 101], by decide +kernel, rfl⟩
      · exact ⟨[2, 1], by decide +kernel, rfl⟩
    · cases h
  · intro n i h
    rw [inds2] at h
    split at h
    · rename_i e
      subst e
      simp only [List.mem_cons, List.not_mem_nil, or_false] at h
      subst h
      exact ⟨[5, 1], by decide +kernel, rfl⟩
    · cases h
  · intro n p q k h h'
    have := (isMat2 h).symm.trans (isVec2 h')
    cases this
  · refine ⟨by decide +kernel, by decide +kernel, by decide +kernel, by decide +kernel, ?_⟩
    intro p hp m i j h
    have : ∀ p ∈ Comments.properties sheet2.comments, isMatrixName p.1 = none := by decide +kernel
    rw [this p hp] at h
    cases h

theorem noDigits {names : List String} (hn : names.Nodup) (h : Readers.Assemble.matchElements .digits names = []) :
    ∀ v I J, ¬ Complete names v I J := by
  intro v I J hc
  have := (Readers.Assemble.groups_form .digits names hn
    ⟨v, (Readers.Assemble.grid .digits v I J).map fun t => t.2.2, I, J, .digits⟩).2 ⟨rfl, hc, rfl⟩
  rw [h] at this
  cases this

theorem oneWay2 : OneWay envNat stepsN sheet2 content2 vs2 :=
  Or.inl ⟨noDigits (by decide +kernel) (by decide +kernel), by decide +kernel, by decide +kernel⟩

def lines2 : List (List Char) := ["! Temp: 3".toList, [], "VAR SWEEP.T(real) = 27".toList, "BEGIN B".toList, "# n(real)=5".toList,
  "% f(real) S[1,2](complex) S[1,1](real) V[1](real)".toList, "1 333 4444 22 55555".toList, "22 1 1 1 1".toList, "END".toList]

/-- The hypotheses of `C85_read` and `C85_axes_refuted` are met: a file with a matrix, a vector and a property. -/
example : ∃ t a v, treatAll envNat num1 stepsN false lines2 = .ok [t] ∧
    lookup t.blk.blk.vars "S" = some a ∧ a.nd.shape = [2, 1, 2] ∧ a.nd.get [1, 0, 0] = 1 ∧ a.nd.get [0, 0, 1] = 304 ∧
    lookup t.blk.blk.vars "V" = some v ∧ v.nd.get [0, 0] = 5 ∧ (lookup t.blk.blk.vars "Temp").isSome ∧
    (∃ e ∈ a.dims, e.name = "i") ∧ lookup t.blk.blk.ivars "i" = none := by
  obtain ⟨ts, h1, h2⟩ := C85_read envNat num1 stepsN (List.Perm.refl _) (fun _ _ _ => rfl) lines2 [(sheet2, content2, vs2)] [] (by
      rw [show lines2.filter nonblank = ["! Temp: 3".toList, "VAR SWEEP.T(real) = 27".toList, "BEGIN B".toList, "# n(real)=5".toList,
        "% f(real) S[1,2](complex) S[1,1](real) V[1](real)".toList, "1 333 4444 22 55555".toList, "22 1 1 1 1".toList,
        "END".toList] by decide]
      simp only [List.flatMap_cons, List.flatMap_nil, List.append_nil, sheet2, Sheet.toks, toks, List.map_cons, List.map_nil,
        List.singleton_append, List.cons_append, List.nil_append]
      repeat' first | exact List.Forall₂.nil | refine List.Forall₂.cons ((C63_line _ _).1 (by decide)) ?_) cut_nil (by simp)
    (by simpa using describes2) (by simpa using separate2) (by simpa using regular2) (by simpa using oneWay2)
  obtain ⟨t, rfl⟩ : ∃ t, ts = [t] := by
    cases h2 with
    | cons _ h => cases h with | nil => exact ⟨_, rfl⟩
  obtain ⟨-, -, D, hg⟩ : IsTreated envNat stepsN (sheet2, content2, vs2) t := by
    cases h2 with | cons h _ => exact h
  simp only at hg
  have hno : ∀ v I J, ¬ Complete (colsOf stepsN.ofProp vs2 content2.settings (Comments.properties sheet2.comments)) v I J :=
    noDigits (by decide +kernel) (by decide +kernel)
  have hcan : ∀ k ∈ ["S", "V", "Temp"], canon (namesOf stepsN.ofProp vs2 content2.settings (Comments.properties sheet2.comments)) k = k := by
    decide +kernel
  obtain ⟨a, di, dj, a1, -, a2, -, -, a3⟩ := hg.matrix ['S'] 1 2 mat2
  obtain ⟨v, ej, v1, -, -, -, -, -, v3⟩ := hg.vector ['V'] 1 vec2
  obtain ⟨-, y, -, y1, -, -⟩ := hg.property ("Temp", .arr 3 none) (by decide +kernel) (fun v I J h => absurd h (hno v I J))
  obtain ⟨a', di', dj', x1, x2, -, x3, -, x4, -⟩ := C85_axes_refuted envNat stepsN _ _ _ _ _ _ D t.blk hg ['S'] 1 2 mat2 hno
    (by decide +kernel)
  have e1 : canon (namesOf stepsN.ofProp vs2 content2.settings (Comments.properties sheet2.comments)) (String.ofList ['S']) = "S" :=
    hcan "S" (by decide)
  have e2 : canon (namesOf stepsN.ofProp vs2 content2.settings (Comments.properties sheet2.comments)) (String.ofList ['V']) = "V" :=
    hcan "V" (by decide)
  rw [e1] at a1 x1
  rw [e2] at v1
  rw [hcan "Temp" (by decide)] at y1
  rw [a1] at x1
  cases x1
  have only : ∀ n l l', (n, l) ∈ content2.cols → (n, l') ∈ content2.cols → l = l' := by
    intro n l l' h h'
    have hn : (content2.cols.map Prod.fst).Nodup := by decide +kernel
    have := (mem_iff_lookup hn n l).1 h
    rw [(mem_iff_lookup hn n l').1 h'] at this
    exact (Option.some.inj this).symm
  refine ⟨t, a, v, h1, a1, a2.shape, ?_, ?_, v1, ?_, by rw [y1]; rfl, ⟨di', x2, x3⟩, x4⟩
  · obtain ⟨l, l1, l2⟩ := a3 0 0 (by omega) (by omega)
    have := only _ _ [2, 1] l1 (by decide +kernel)
    subst this
    exact l2 1 1 rfl
  · obtain ⟨l, l1, l2⟩ := a3 0 1 (by omega) (by omega)
    have := only _ _ [304, 101] l1 (by decide +kernel)
    subst this
    exact l2 0 304 rfl
  · obtain ⟨l, l1, l2⟩ := v3 0 (by omega)
    have := only _ _ [5, 1] l1 (by decide +kernel)
    subst this
    exact l2 0 5 rfl

end HF.Mdif
