import Verif.Readers.TreatUnits
import Verif.Readers.OneFile
import Verif.Sp.WriteProps
/-
C77: a block saved as SP data file and read again.
-/
namespace HF.Readers.Treat

open HF.DataDict.Spec HF.DataBlock
open HF.DataDict hiding rename delitem
open HF.Readers.FixUnit (UBlock UnitWord title nameOf relabelled guessed unitOf)
open HF.Readers.Assemble (IsBase elemNm Complete digit elemNm_inj)
open HF.Readers.Normalize (label Label)
open HF.Sp (Style Writable Restored entries elements titles varsOver axesOf sweepTitle)

variable {β α : Type}

/-- The items of a variable. -/
def itemsOf (st : Style β α) (w : String × Arr β α) : List (Item α) :=
  (elements w).map fun e => ⟨String.ofList e.1, st.cplx w.1, st.unit w.1, fun k => e.2 [k]⟩

theorem toDigits_digit : ∀ n < 10, Nat.toDigits 10 n = [digit n] := by decide

theorem elements_plain {w : String × Arr β α} (h : ismatrix w.2 = false) : elements w = [(w.1.toList, w.2.nd.get)] := by
  unfold elements
  rw [if_neg (by simp [h])]

theorem elements_matrix {w : String × Arr β α} {d di dj : Dim β} (h : ismatrix w.2 = true) (hd : w.2.dims = [d, di, dj])
    (hi : di.data.length < 10) (hj : dj.data.length < 10) (e : List Char × (List Nat → α)) :
    e ∈ elements w ↔ ∃ i < di.data.length, ∃ j < dj.data.length,
      e = ((elemNm w.1 (i + 1) (j + 1)).toList, fun p => w.2.nd.get (p ++ [i, j])) := by
  unfold elements
  rw [if_pos h, hd]
  simp only [List.reverse_cons, List.reverse_nil, List.nil_append, List.cons_append, List.map_cons, List.map_nil,
    List.getD_cons_succ, List.getD_cons_zero, List.mem_flatMap, List.mem_map, List.mem_range]
  constructor
  · rintro ⟨i, h1, j, h2, rfl⟩
    refine ⟨i, h1, j, h2, ?_⟩
    rw [toDigits_digit _ (by omega), toDigits_digit _ (by omega)]
    simp [elemNm, Assemble.elemNmF]
  · rintro ⟨i, h1, j, h2, rfl⟩
    refine ⟨i, h1, j, h2, ?_⟩
    rw [toDigits_digit _ (by omega), toDigits_digit _ (by omega)]
    simp [elemNm, Assemble.elemNmF]

theorem range_digits (v : String) {p q : Nat} (hp : p < 10) (hq : q < 10) (g : Nat → Nat → List Nat → α) :
    (((List.range p).flatMap fun i => (List.range q).map fun j =>
      (v.toList ++ Nat.toDigits 10 (i + 1) ++ Nat.toDigits 10 (j + 1), g i j)).map fun e => String.ofList e.1) =
    (List.range p).flatMap fun i => (List.range q).map fun j => elemNm v (i + 1) (j + 1) := by
  rw [List.map_flatMap]
  refine List.flatMap_congr ?_
  intro i hi
  rw [List.map_map]
  refine List.map_congr_left fun j hj => ?_
  rw [List.mem_range] at hi hj
  simp only [Function.comp]
  rw [toDigits_digit _ (by omega), toDigits_digit _ (by omega)]
  simp [elemNm, Assemble.elemNmF]

theorem names_items {st : Style β α} {b : Block β α} {d : Dim β} (h : Tame st b d) :
    (b.vars.flatMap (itemsOf st)).map Item.name = b.vars.flatMap columns := by
  rw [List.map_flatMap]
  refine List.flatMap_congr fun w hw => ?_
  unfold itemsOf columns
  rw [List.map_map]
  cases hm : ismatrix w.2
  · rw [elements_plain hm, (h.plain w hw hm).1]
    simp
  · obtain ⟨di, dj, hd, hi, hj, -⟩ := h.matrix w hw hm
    rw [hd]
    unfold elements
    rw [if_pos hm, hd]
    exact range_digits w.1 hi hj _

theorem mem_columns {st : Style β α} {b : Block β α} {d : Dim β} (h : Tame st b d) (n : String) :
    n ∈ b.vars.flatMap columns ↔ ∃ w ∈ b.vars, (ismatrix w.2 = false ∧ n = w.1) ∨
      (ismatrix w.2 = true ∧ ∃ di dj, w.2.dims = [d, di, dj] ∧ ∃ i < di.data.length, ∃ j < dj.data.length,
        n = elemNm w.1 (i + 1) (j + 1)) := by
  rw [List.mem_flatMap]
  refine exists_congr fun w => and_congr_right fun hw => ?_
  cases hm : ismatrix w.2
  · rw [columns, (h.plain w hw hm).1]
    simp
  · obtain ⟨di, dj, hd, hi, hj, -⟩ := h.matrix w hw hm
    rw [columns, hd]
    simp only [List.mem_flatMap, List.mem_map, List.mem_range, Bool.true_eq_false, false_and, true_and, false_or]
    constructor
    · rintro ⟨i, h1, j, h2, rfl⟩; exact ⟨di, dj, rfl, i, h1, j, h2, rfl⟩
    · rintro ⟨di', dj', e, i, h1, j, h2, rfl⟩
      simp only [List.cons.injEq, and_true, true_and] at e
      obtain ⟨rfl, rfl⟩ := e
      exact ⟨i, h1, j, h2, rfl⟩

theorem ident_elem {v : String} (hv : IsBase v) {i j : Nat} (hi : i < 10) (hj : j < 10) : Ident (elemNm v i j).toList := by
  obtain ⟨c, g, e⟩ := List.exists_cons_of_ne_nil hv.1
  have hall := hv.2
  rw [e] at hall
  refine ⟨c, g ++ [digit i, digit j], by simp [elemNm, Assemble.elemNmF, e], hall c (by simp), ?_⟩
  intro x hx
  rcases List.mem_append.1 hx with h | h
  · exact Or.inl (hall x (by simp [h]))
  · simp only [List.mem_cons, List.not_mem_nil, or_false] at h
    rcases h with rfl | rfl
    · exact Or.inr (Assemble.digit_lt i hi).1
    · exact Or.inr (Assemble.digit_lt j hj).1

theorem ident_columns {st : Style β α} {b : Block β α} {d : Dim β} (h : Tame st b d) {n : String}
    (hn : n ∈ b.vars.flatMap columns) : Ident n.toList := by
  obtain ⟨w, hw, ⟨-, rfl⟩ | ⟨hm, di, dj, hd, i, hi, j, hj, rfl⟩⟩ := (mem_columns h n).1 hn
  · exact (h.names w hw).1
  · obtain ⟨di', dj', hd', h1, h2, -, hb⟩ := h.matrix w hw hm
    rw [hd] at hd'
    simp only [List.cons.injEq, and_true, true_and] at hd'
    obtain ⟨rfl, rfl⟩ := hd'
    exact ident_elem hb (by omega) (by omega)

/-- No column name occurs twice. -/
theorem nodup_columns {st : Style β α} {b : Block β α} {d : Dim β} (h : Tame st b d) (hk : (keys b.vars).Nodup) :
    (b.vars.flatMap columns).Nodup := by
  rw [List.nodup_flatMap]
  constructor
  · intro w hw
    cases hm : ismatrix w.2
    · rw [columns, (h.plain w hw hm).1]
      simp
    · obtain ⟨di, dj, hd, hi, hj, -, hb⟩ := h.matrix w hw hm
      rw [columns, hd]
      simp only
      rw [List.nodup_flatMap]
      constructor
      · intro i hi'
        rw [List.mem_range] at hi'
        refine List.Nodup.map_on ?_ List.nodup_range
        intro x hx y hy e
        rw [List.mem_range] at hx hy
        have := (elemNm_inj hb (by omega) (by omega) hb (by omega) (by omega) e).2.2
        omega
      · refine (List.nodup_range (n := di.data.length)).imp_of_mem ?_
        intro x y hx hy hne
        rw [List.mem_range] at hx hy
        simp only [Function.onFun, List.disjoint_left]
        intro n h1 h2
        obtain ⟨j, hj1, rfl⟩ := List.mem_map.1 h1
        obtain ⟨j', hj2, e⟩ := List.mem_map.1 h2
        rw [List.mem_range] at hj1 hj2
        have := (elemNm_inj hb (by omega) (by omega) hb (by omega) (by omega) e).2.1
        omega
  · have hp : b.vars.Pairwise fun w w' => w.1 ≠ w'.1 := List.pairwise_map.1 hk
    refine hp.imp_of_mem ?_
    intro w w' hw hw' hne
    simp only [Function.onFun, List.disjoint_left]
    intro n h1 h2
    have k1 : ∀ v ∈ b.vars, n ∈ columns v → (ismatrix v.2 = false ∧ n = v.1) ∨ (IsBase v.1 ∧ ∃ i < 10, ∃ j < 10, n = elemNm v.1 i j) := by
      intro v hv hn
      cases hm : ismatrix v.2
      · rw [columns, (h.plain v hv hm).1] at hn
        exact Or.inl ⟨rfl, by simpa using hn⟩
      · obtain ⟨di, dj, hd, hi, hj, -, hb⟩ := h.matrix v hv hm
        rw [columns, hd] at hn
        simp only [List.mem_flatMap, List.mem_map, List.mem_range] at hn
        obtain ⟨i, h1, j, h2, rfl⟩ := hn
        exact Or.inr ⟨hb, i + 1, by omega, j + 1, by omega, rfl⟩
    rcases k1 w hw h1 with ⟨m1, e1⟩ | ⟨b1, i, hi, j, hj, e1⟩ <;> rcases k1 w' hw' h2 with ⟨m2, e2⟩ | ⟨b2, i', hi', j', hj', e2⟩
    · exact hne (e1.symm.trans e2)
    · exact (h.plain w hw m1).2 _ _ _ b2 hi' hj' (e1.symm.trans e2)
    · exact (h.plain w' hw' m2).2 _ _ _ b1 hi hj (e2.symm.trans e1)
    · exact hne (elemNm_inj b1 hi hj b2 hi' hj' (e1.symm.trans e2)).1

theorem mem_items {st : Style β α} {b : Block β α} {it : Item α} (h : it ∈ b.vars.flatMap (itemsOf st)) :
    ∃ w ∈ b.vars, ∃ e ∈ elements w, it = ⟨String.ofList e.1, st.cplx w.1, st.unit w.1, fun k => e.2 [k]⟩ := by
  obtain ⟨w, hw, hi⟩ := List.mem_flatMap.1 h
  obtain ⟨e, he, rfl⟩ := List.mem_map.1 hi
  exact ⟨w, hw, e, he, rfl⟩

theorem sober_items {st : Style β α} {b : Block β α} {d : Dim β} (h : Tame st b d) (hk : (keys b.vars).Nodup) :
    Sober (b.vars.flatMap (itemsOf st)) := by
  have hn := names_items h
  have hmem : ∀ it ∈ b.vars.flatMap (itemsOf st), it.name ∈ b.vars.flatMap columns := by
    intro it hi; rw [← hn]; exact List.mem_map_of_mem hi
  refine ⟨fun it hi => ident_columns h (hmem it hi), ?_, by rw [hn]; exact nodup_columns h hk,
    fun it hi it' hi' => (h.column _ (hmem it hi)).2 _ (hmem it' hi')⟩
  intro it hi
  obtain ⟨w, hw, e, -, rfl⟩ := mem_items hi
  exact (h.names w hw).2.1

/-- The columns of the items are those written to the file. -/
theorem cols_items (st : Style β α) (re im : α → α) (w : String × Arr β α) :
    (itemsOf st w).flatMap (Item.cols re im) = (entries st re im w).map fun e => (String.ofList e.1, fun k => e.2 [k]) := by
  unfold itemsOf entries
  rw [List.flatMap_map, List.map_flatMap]
  refine List.flatMap_congr fun e _ => ?_
  unfold Item.cols
  cases hc : st.cplx w.1
  · simp [Item.title]
  · simp only [Item.part, String.toList_ofList, if_true, List.map_cons, List.map_nil]
    rfl

theorem axes_tame {st : Style β α} {b : Block β α} {d : Dim β} (h : Tame st b d) : ∀ w ∈ b.vars, axesOf w.2 = [d] := by
  intro w hw
  unfold axesOf
  cases hm : ismatrix w.2
  · simp [(h.plain w hw hm).1]
  · obtain ⟨di, dj, hd, -⟩ := h.matrix w hw hm
    simp [hd]

/-- The sweep as it is read first. -/
def sweep0 (d : Dim β) : Dim β := ⟨.dimSweep, String.ofList (sweepTitle d), d.data, none, none⟩

theorem tab_restored {env : Env β α} {ofRat : ℚ → β} {conv : List Char → α} {st : Style β α} {re im : α → α}
    {comments : List (List Char)} {b : Block β α} {d : Dim β} (hw : Writable env ofRat conv st re im comments b)
    (h : Tame st b d) {p : Sp.Parsed β α} (hr : Restored st re im b [d] [] p) :
    Tab p.block (sweep0 d) d.data.length ((b.vars.flatMap (itemsOf st)).flatMap (Item.cols re im)) := by
  obtain ⟨w0, hw0⟩ := List.exists_mem_of_ne_nil _ hw.ne
  have hax := axes_tame h
  have hover : varsOver b [d] = b.vars := by
    unfold varsOver
    rw [List.filter_eq_self]
    intro w hwm
    rw [hax w hwm]
    simp
  have hcols : (b.vars.flatMap (itemsOf st)).flatMap (Item.cols re im) =
      b.vars.flatMap fun w => (entries st re im w).map fun e => (String.ofList e.1, fun k => e.2 [k]) := by
    rw [List.flatMap_assoc]
    exact List.flatMap_congr fun w _ => cols_items st re im w
  have htit : ((b.vars.flatMap (itemsOf st)).flatMap (Item.cols re im)).map Prod.fst = titles st re im b [d] := by
    rw [hcols, titles, hover, List.map_flatMap]
    refine List.flatMap_congr fun w _ => ?_
    rw [List.map_map]
    rfl
  have hsw := hr.sweep d [] rfl
  refine ⟨?_, rfl, ?_, ?_, ?_, ?_⟩
  · have hall : ∀ q ∈ p.block.ivars, q = ((sweep0 d).name, sweep0 d) := by
      intro q hq
      have hk : q.1 = String.ofList (sweepTitle d) := by
        rcases hr.dims q.1 (List.mem_map_of_mem hq) with ⟨d', hd', e⟩ | ⟨e, he, -⟩
        · simp only [List.head?_cons, Option.mem_def, Option.some.injEq] at hd'
          rw [e, hd']
        · simp at he
      have hl := mem_lookup hr.nodup hq
      rw [hk, hsw] at hl
      exact Prod.ext hk (Option.some.inj hl).symm
    have hne := lookup_mem hsw
    have hnd := hr.nodup
    cases hiv : p.block.ivars with
    | nil => rw [hiv] at hne; simp at hne
    | cons a t =>
      cases t with
      | nil => rw [hall a (by rw [hiv]; simp)]
      | cons c t =>
        rw [hiv] at hall hnd
        simp only [keys, List.map_cons, hall a (by simp), hall c (by simp)] at hnd
        simp at hnd
  · rw [hr.vars]
    have := hw.differ w0 hw0
    rwa [hax w0 hw0] at this
  · intro k; rw [hr.vars, htit]
  · rw [htit]
    have := (hw.titled w0 hw0 d (by rw [hax w0 hw0]; rfl)).2.2.2.1
    rwa [hax w0 hw0] at this
  · intro e he
    rw [hcols] at he
    obtain ⟨w, hwm, he⟩ := List.mem_flatMap.1 he
    obtain ⟨e', he', rfl⟩ := List.mem_map.1 he
    obtain ⟨a, h1, h2, h3, h4⟩ := hr.var d [] rfl w (by rw [hover]; exact hwm) e' he'
    exact ⟨a, h1, h2, h3, h4⟩

theorem rescaled_title (mul : ℚ → α → α) (guess : String → Option String) {n : String} {u : Option (List Char)}
    (hn : Ident n.toList) (hu : Word u) :
    Rescaled mul u (guess n) (scaleBy mul (String.ofList (Sp.titled n.toList u)))
      (unitOf (String.ofList (Sp.titled n.toList u)) (guess (String.ofList (Sp.titled n.toList u)))) := by
  unfold Rescaled
  by_cases h : u.getD [] = []
  · rw [if_pos h, titled_none h, String.ofList_toList]
    unfold scaleBy unitOf
    rw [title_no_bracket (hn.none (by decide))]
    exact ⟨rfl, rfl⟩
  · rw [if_neg h]
    obtain ⟨m, base, hw, ht⟩ := title_titled hn hu h
    unfold scaleBy unitOf
    rw [ht]
    exact ⟨m, base, hw, rfl, rfl⟩

theorem rescaled_sweep (cmul : ℚ → β → β) (guess : String → Option String) {d sw : Dim β} (hn : Ident d.name.toList)
    (hu : Word (d.unit.map String.toList)) (h : label sw = relabelled cmul (guessed guess (label (sweep0 d)))) :
    ∃ g, sw.name = d.name ∧ Rescaled cmul (d.unit.map String.toList) (guess d.name) g sw.unit ∧ sw.data = d.data.map g := by
  unfold Rescaled
  by_cases hh : (d.unit.map String.toList).getD [] = []
  · have e : sweepTitle d = d.name.toList := titled_none hh
    refine ⟨id, ?_⟩
    rw [if_pos hh]
    simp only [label, sweep0, guessed, relabelled, e, String.ofList_toList, title_no_bracket (hn.none (by decide))] at h
    simp only [Label.mk.injEq] at h
    obtain ⟨h1, -, h3, h4⟩ := h
    exact ⟨h1, ⟨rfl, by rw [h4]; rfl⟩, by rw [h3]; simp⟩
  · obtain ⟨m, base, hw, ht⟩ := title_titled hn hu hh
    have e : sweepTitle d = Sp.titled d.name.toList (d.unit.map String.toList) := rfl
    simp only [label, sweep0, guessed, relabelled, e, ht, String.ofList_toList] at h
    simp only [Label.mk.injEq] at h
    obtain ⟨h1, -, h3, h4⟩ := h
    exact ⟨cmul m, h1, by rw [if_neg hh]; exact ⟨m, base, hw, rfl, h4⟩, h3⟩

theorem settled_names {k : String} (h : Ident k.toList) (h' : k ∉ ["a1", "a2", "Freq", "Frequency"]) : Settled k := by
  refine ⟨h.none (by decide), ?_⟩
  rintro e he rfl
  have key : ∀ e ∈ Normalize.trtable, e.1 ∈ ["a1", "a2", "Freq", "Frequency"] ∨ ∃ c ∈ e.1.toList, (isLetter c || isDig c) = false := by
    decide
  rcases key e he with h1 | ⟨c, h1, h2⟩
  · exact h' h1
  · exact h.none h2 h1

theorem carry_same (u : String → Option String) (l : List String) {k : String} (h : k ∈ l) : carry u l l k = u k := by
  unfold carry
  have hz : ∀ l : List String, l.zip l = l.map fun x => (x, x) := by
    intro l
    induction l with
    | nil => rfl
    | cons a t ih => rw [List.zip_cons_cons, ih, List.map_cons]
  cases hf : (l.zip l).find? (fun p => p.1 = k) with
  | none =>
    rw [List.find?_eq_none] at hf
    exact absurd (by simp) (hf (k, k) (by rw [hz]; exact List.mem_map.2 ⟨k, h, rfl⟩))
  | some p =>
    have h1 := List.find?_some hf
    have h2 := List.mem_of_find?_eq_some hf
    rw [hz] at h2
    obtain ⟨x, -, rfl⟩ := List.mem_map.1 h2
    simp only [decide_eq_true_eq] at h1
    simp only [h1]

theorem dims_unique {w : String × Arr β α} {d di dj di' dj' : Dim β} (h : w.2.dims = [d, di, dj]) (h' : w.2.dims = [d, di', dj']) :
    di = di' ∧ dj = dj' := by
  rw [h] at h'
  simpa using h'

/-- The columns of a matrix are complete. -/
theorem complete_matrix {st : Style β α} {b : Block β α} {d : Dim β} (h : Tame st b d) (hk : (keys b.vars).Nodup)
    {names : List String} (hn : ∀ n, n ∈ names ↔ n ∈ b.vars.flatMap columns) {w : String × Arr β α} (hw : w ∈ b.vars)
    {di dj : Dim β} (hm : ismatrix w.2 = true) (hd : w.2.dims = [d, di, dj]) :
    Complete names w.1 ((List.range di.data.length).map Nat.succ) ((List.range dj.data.length).map Nat.succ) := by
  obtain ⟨di', dj', hd', hi, hj, hmany, hb⟩ := h.matrix w hw hm
  obtain ⟨rfl, rfl⟩ := dims_unique hd hd'
  have hs : ∀ n i, i ∈ (List.range n).map Nat.succ ↔ 0 < i ∧ i ≤ n := by
    intro n i
    simp only [List.mem_map, List.mem_range]
    constructor
    · rintro ⟨a, ha, rfl⟩; omega
    · intro h; exact ⟨i - 1, by omega, by omega⟩
  refine ⟨hb, ?_, ?_, ⟨?_, ?_⟩, ?_, by simpa using hmany⟩
  · exact List.pairwise_map.2 (List.pairwise_lt_range.imp fun h => Nat.succ_lt_succ h)
  · exact List.pairwise_map.2 (List.pairwise_lt_range.imp fun h => Nat.succ_lt_succ h)
  · intro i hi'; rw [hs] at hi'; omega
  · intro i hi'; rw [hs] at hi'; omega
  · intro i j hi' hj'
    rw [hn, mem_columns h, hs, hs]
    constructor
    · rintro ⟨w', hw', ⟨m', e⟩ | ⟨m', ei, ej, hd2, x, hx, y, hy, e⟩⟩
      · exact absurd e.symm ((h.plain w' hw' m').2 _ _ _ hb hi' hj')
      · obtain ⟨di2, dj2, hd3, g1, g2, -, hb'⟩ := h.matrix w' hw' m'
        obtain ⟨rfl, rfl⟩ := dims_unique hd2 hd3
        obtain ⟨e1, e2, e3⟩ := elemNm_inj hb hi' hj' hb' (by omega) (by omega) e
        have : w' = w := List.inj_on_of_nodup_map hk hw' hw e1.symm
        subst this
        obtain ⟨rfl, rfl⟩ := dims_unique hd hd2
        omega
    · rintro ⟨h1, h2⟩
      exact ⟨w, hw, Or.inr ⟨hm, di, dj, hd, i - 1, by omega, j - 1, by omega, by congr 1 <;> omega⟩⟩

/-- Every complete collection belongs to a matrix. -/
theorem matrix_complete {st : Style β α} {b : Block β α} {d : Dim β} (h : Tame st b d)
    {names : List String} (hn : ∀ n, n ∈ names ↔ n ∈ b.vars.flatMap columns) {v : String} {I J : List Nat}
    (hc : Complete names v I J) : ∃ w ∈ b.vars, ismatrix w.2 = true ∧ v = w.1 := by
  have hI : I ≠ [] := by rintro rfl; simpa using hc.many
  have hJ : J ≠ [] := by rintro rfl; simpa using hc.many
  obtain ⟨i, hi⟩ := List.exists_mem_of_ne_nil _ hI
  obtain ⟨j, hj⟩ := List.exists_mem_of_ne_nil _ hJ
  have hi' := hc.digits.1 i hi
  have hj' := hc.digits.2 j hj
  have := (hc.mem i j hi' hj').2 ⟨hi, hj⟩
  rw [hn, mem_columns h] at this
  obtain ⟨w, hw, ⟨m', e⟩ | ⟨m', ei, ej, hd2, x, hx, y, hy, e⟩⟩ := this
  · exact absurd e.symm ((h.plain w hw m').2 _ _ _ hc.base hi' hj')
  · obtain ⟨di2, dj2, hd3, g1, g2, -, hb'⟩ := h.matrix w hw m'
    obtain ⟨rfl, rfl⟩ := dims_unique hd2 hd3
    exact ⟨w, hw, m', (elemNm_inj hc.base hi' hj' hb' (by omega) (by omega) e).1⟩

/-- Conversions to the element type of a column of `w` leave the elements of `w` alone: they are all of one
kind, as are multiples of them. -/
def OneKind (S : Steps β α) (n : Nat) (w : String × Arr β α) : Prop :=
  ∃ P : α → Prop, (∀ idx, Nd.Valid w.2.nd.shape idx → P (w.2.nd.get idx)) ∧ (∀ m x, P x → P (S.mul m x)) ∧
    ∀ c : Arr β α, (∀ k < n, P (c.nd.get [k])) → ∀ x, P x → S.cast c x = x

/-- C77, for the steps after reading the columns. -/
theorem treat_tab (env : Env β α) (S : Steps β α) (st : Style β α) (re im : α → α) (hri : ∀ x, S.rect (re x) (im x) = x)
    (htab : S.table.Perm Normalize.trtable) {b p : Block β α} {d : Dim β} (h : Tame st b d) (hk : (keys b.vars).Nodup)
    (hsize : ∀ w ∈ b.vars, w.2.nd.shape = w.2.dims.map fun d => d.data.length)
    (hkind : ∀ w ∈ b.vars, ismatrix w.2 = true → OneKind S d.data.length w)
    (ht : Tab p (sweep0 d) d.data.length ((b.vars.flatMap (itemsOf st)).flatMap (Item.cols re im))) :
    ∃ r, treat env S [] p = .ok r ∧ Again S st b d r := by
  obtain ⟨items, hitems⟩ : ∃ l, l = b.vars.flatMap (itemsOf st) := ⟨_, rfl⟩
  have hs := sober_items h hk
  have hnm := names_items h
  rw [← hitems] at hs hnm ht
  have hdn : d.name ∉ items.map Item.name := by rw [hnm]; exact h.sweep.2.2.2.1
  have hswn : (sweep0 d).name = String.ofList (Sp.titled d.name.toList (d.unit.map String.toList)) := rfl
  obtain ⟨b1, c1, t1⟩ := cplx_step env S.full S.rect S.polar re im hri ht hs
    (by rw [hswn, outer_titled h.sweep.1 h.sweep.2.1])
    (by
      rw [hswn]
      intro hm
      by_cases hu : (d.unit.map String.toList).getD [] = []
      · rw [titled_none hu, String.ofList_toList] at hm
        exact hdn hm
      · obtain ⟨it, hi, e⟩ := List.mem_map.1 hm
        have := bracket_titled (n := d.name.toList) hu
        rw [← String.toList_ofList (l := Sp.titled d.name.toList (d.unit.map String.toList)), ← e] at this
        exact (hs.ident it hi).none (by decide) this)
  obtain ⟨b3, sw, c3, l3, t3, u3⟩ := unit_step env S.mul S.cmul S.guess t1 hs h.sweep.1 h.sweep.2.1 hswn hdn
  obtain ⟨g, s1, s2, s3⟩ := rescaled_sweep S.cmul S.guess h.sweep.1 h.sweep.2.1 l3
  have hkeys : ∀ n, n ∈ keys b3.blk.vars ↔ n ∈ b.vars.flatMap columns := by
    intro n
    rw [t3.keys, ← hnm, List.map_map]
    rfl
  have c4 : Normalize.normalize env S.table b3.blk = .ok b3.blk := by
    refine normalize_plain env S.table htab b3.blk fun k hc => ?_
    unfold contains at hc
    rw [Bool.or_eq_true, member_iff, member_iff] at hc
    rcases hc with hc | hc
    · have hc' := (hkeys k).1 hc
      exact settled_names (ident_columns h hc') (h.column k hc').1
    · rw [t3.ivars] at hc
      have e : k = d.name := by simpa [keys, s1] using hc
      rw [e]
      refine settled_names h.sweep.1 fun hm => h.sweep.2.2.1 ?_
      simp only [List.mem_cons, List.not_mem_nil, or_false] at hm ⊢
      tauto
  -- the columns
  have hcol : ∀ w ∈ b.vars, ∀ e ∈ elements w, ∃ a, lookup b3.blk.vars (String.ofList e.1) = some a ∧ a.dims = [sw] ∧
      a.nd.shape = [d.data.length] ∧ (∀ k < d.data.length, a.nd.get [k] =
        scaleBy S.mul (if st.cplx w.1 then String.ofList e.1 else String.ofList (Sp.titled e.1 (st.unit w.1))) (e.2 [k])) ∧
      b3.units (String.ofList e.1) =
        unitOf (if st.cplx w.1 then String.ofList e.1 else String.ofList (Sp.titled e.1 (st.unit w.1)))
          (S.guess (if st.cplx w.1 then String.ofList e.1 else String.ofList (Sp.titled e.1 (st.unit w.1)))) := by
    intro w hw e he
    have hit : (⟨String.ofList e.1, st.cplx w.1, st.unit w.1, fun k => e.2 [k]⟩ : Item α) ∈ items := by
      rw [hitems]
      exact List.mem_flatMap.2 ⟨w, hw, List.mem_map.2 ⟨e, he, rfl⟩⟩
    obtain ⟨a, a1, a2, a3, a4⟩ := t3.col _ (List.mem_map_of_mem hit)
    have a5 := u3 _ hit
    simp only [Item.mid, Item.title, String.toList_ofList] at a5
    refine ⟨a, a1, a2, a3, ?_, a5⟩
    intro k hk
    rw [a4 k hk]
    simp only [Item.fin, Item.mid, Item.title, String.toList_ofList]
  have hivk : ∀ n, n ∈ keys b3.blk.ivars ↔ n = d.name := by
    intro n; rw [t3.ivars]; simp [keys, s1]
  have hmat : ∀ w ∈ b.vars, ismatrix w.2 = true → ∀ di dj, w.2.dims = [d, di, dj] → ∀ i < di.data.length, ∀ j < dj.data.length,
      ((elemNm w.1 (i + 1) (j + 1)).toList, fun p => w.2.nd.get (p ++ [i, j])) ∈ elements w := by
    intro w hw hm di dj hd i hi j hj
    obtain ⟨di', dj', hd', h1, h2, -⟩ := h.matrix w hw hm
    obtain ⟨rfl, rfl⟩ := dims_unique hd hd'
    exact (elements_matrix hm hd h1 h2 _).2 ⟨i, hi, j, hj, rfl⟩
  have hfit : ∀ v I J, Complete (keys b3.blk.vars) v I J → Assemble.Fit S.cast b3.blk v I J [sw] [d.data.length] := by
    intro v I J hc
    obtain ⟨w, hw, hm, rfl⟩ := matrix_complete h hkeys hc
    have hmem : ∀ i ∈ I, ∀ j ∈ J, elemNm w.1 i j ∈ b.vars.flatMap columns := by
      intro i hi j hj
      exact (hkeys _).1 ((hc.mem i j (hc.digits.1 i hi) (hc.digits.2 j hj)).2 ⟨hi, hj⟩)
    have hcols : ∀ i ∈ I, ∀ j ∈ J, ∃ c, lookup b3.blk.vars (elemNm w.1 i j) = some c ∧ c.dims = [sw] ∧
        c.nd.shape = [d.data.length] := by
      intro i hi j hj
      have := (hkeys _).2 (hmem i hi j hj)
      rw [t3.keys] at this
      obtain ⟨e, he, e1⟩ := List.mem_map.1 this
      obtain ⟨a, a1, a2, a3, -⟩ := t3.col e he
      exact ⟨a, by rw [← e1]; exact a1, a2, a3⟩
    refine ⟨rfl, ?_, ⟨?_, ?_, ?_⟩, ?_, hcols, ?_⟩
    · intro e he
      rw [List.mem_singleton.1 he, hivk, s1]
    · rw [hivk]
      intro e
      exact h.sweep.2.2.2.2 (e ▸ List.mem_map_of_mem hw)
    · intro e; have := (h.names w hw).2.2; rw [e] at this; simp at this
    · intro e; have := (h.names w hw).2.2; rw [e] at this; simp at this
    · intro i hi j hj hm'
      rw [hivk] at hm'
      exact h.sweep.2.2.2.1 (hm' ▸ hmem i hi j hj)
    · obtain ⟨P, p1, p2, p3⟩ := hkind w hw hm
      have hP : ∀ i ∈ I, ∀ j ∈ J, ∀ c, lookup b3.blk.vars (elemNm w.1 i j) = some c → ∀ k < d.data.length, P (c.nd.get [k]) := by
        intro i hi j hj c hl k hk'
        obtain ⟨w', hw', ⟨m', e⟩ | ⟨m', ei, ej, hd2, x, hx, y, hy, e⟩⟩ := (mem_columns h _).1 (hmem i hi j hj)
        · exact absurd e.symm ((h.plain w' hw' m').2 _ _ _ hc.base (hc.digits.1 i hi) (hc.digits.2 j hj))
        · obtain ⟨di2, dj2, hd3, g1, g2, -, hb'⟩ := h.matrix w' hw' m'
          obtain ⟨rfl, rfl⟩ := dims_unique hd2 hd3
          have e1 := (elemNm_inj hc.base (hc.digits.1 i hi) (hc.digits.2 j hj) hb' (by omega) (by omega) e).1
          have : w' = w := List.inj_on_of_nodup_map hk hw' hw e1.symm
          subst this
          obtain ⟨a, a1, -, -, a4, -⟩ := hcol w' hw' _ (hmat w' hw' hm ei ej hd2 x hx y hy)
          simp only [String.ofList_toList] at a1 a4
          rw [← e, hl] at a1
          cases a1
          rw [a4 k hk']
          have hv : P (w'.2.nd.get ([k] ++ [x, y])) := by
            refine p1 _ ?_
            rw [hsize w' hw', hd2]
            simp [Nd.Valid, hk', hx, hy]
          have hsc : ∀ t x, P x → P (scaleBy S.mul t x) := by
            intro t x hx
            unfold scaleBy
            cases title t with
            | none => exact hx
            | some q => exact p2 _ _ hx
          exact hsc _ _ hv
      intro i hi j hj k hk' l hl c c' hc1 hc2 idx hv
      obtain ⟨x, rfl, hx⟩ : ∃ x, idx = [x] ∧ x < d.data.length := by
        match idx, hv with
        | [x], hv => exact ⟨x, rfl, by simpa [Nd.Valid] using hv⟩
        | [], hv => simp [Nd.Valid] at hv
        | _ :: _ :: _, hv => simp [Nd.Valid] at hv
      exact p3 c (hP i hi j hj c hc1) _ (hP k hk' l hl c' hc2 x hx)
  obtain ⟨b5, c5, m1, m2, m3, m4, m5⟩ := Assemble.C21_assembled env S.num S.cast b3.blk t3.nodup
    (fun v I J hc => ⟨_, _, hfit v I J hc⟩)
  refine ⟨⟨b5, fun k => if k ∈ (Assemble.matrices (b3.blk.vars.map Prod.fst) [.digits] []).map Assemble.Group.name then none
      else carry b3.units (b3.blk.vars.map Prod.fst) (b3.blk.vars.map Prod.fst) k⟩, ?_, sw, g, ?_, s1, t3.cls, s2, s3, ?_, ?_, ?_⟩
  · simp only [treat, later, laterOn, c1, valuesFromProperty, c3, c4]
    simp only [Assemble.makeMatrices] at c5
    rw [c5]
  · exact m5 _ _ (by rw [t3.ivars, ← s1, lookup_single, if_pos rfl])
  · intro w hw
    cases hm : ismatrix w.2
    · have hel : (w.1.toList, w.2.nd.get) ∈ elements w := by rw [elements_plain hm]; simp
      obtain ⟨a, a1, a2, a3, a4, a5⟩ := hcol w hw _ hel
      simp only [String.ofList_toList] at a1 a4 a5
      have hnot : ∀ v I J, Complete (keys b3.blk.vars) v I J → w.1 ≠ v ∧ ∀ i ∈ I, ∀ j ∈ J, w.1 ≠ elemNm v i j := by
        intro v I J hc
        constructor
        · rintro rfl
          obtain ⟨w', hw', m', e⟩ := matrix_complete h hkeys hc
          have := List.inj_on_of_nodup_map hk hw hw' e
          rw [this, m'] at hm
          cases hm
        · intro i hi j hj
          exact (h.plain w hw hm).2 _ _ _ hc.base (hc.digits.1 i hi) (hc.digits.2 j hj)
      have hngroup : w.1 ∉ (Assemble.matrices (b3.blk.vars.map Prod.fst) [.digits] []).map Assemble.Group.name := by
        intro hg
        obtain ⟨g, hg, e⟩ := List.mem_map.1 hg
        exact (hnot _ _ _ (Assemble.wins_digits.1 ((Assemble.matrices_iff _ t3.nodup _ g).1 hg).1).2).1 e.symm
      have hunit : carry b3.units (b3.blk.vars.map Prod.fst) (b3.blk.vars.map Prod.fst) w.1 = b3.units w.1 := by
        refine carry_same _ _ ((hkeys w.1).2 ((mem_columns h _).2 ⟨w, hw, Or.inl ⟨hm, rfl⟩⟩))
      obtain ⟨tt, htt⟩ : ∃ tt, tt = if st.cplx w.1 then w.1 else String.ofList (Sp.titled w.1.toList (st.unit w.1)) := ⟨_, rfl⟩
      rw [← htt] at a4 a5
      refine ⟨a, scaleBy S.mul tt, unitOf tt (S.guess tt), by rw [← a1]; exact m3 w.1 hnot, ?_, ?_⟩
      rotate_left
      · rw [if_neg (by simp)]
        refine ⟨a2, ?_, ?_, ?_⟩
        · rw [a3, hsize w hw, (h.plain w hw hm).1]; rfl
        · show (if _ then _ else _) = _
          rw [if_neg hngroup, hunit]
          exact a5
        · intro k hv
          rw [hsize w hw, (h.plain w hw hm).1] at hv
          have hk' : k < d.data.length := by simpa [Nd.Valid] using hv
          exact a4 k hk'
      · rw [htt]
        cases hc : st.cplx w.1
        · simp only [Bool.false_eq_true, if_false]
          exact rescaled_title S.mul S.guess (h.names w hw).1 (h.names w hw).2.1
        · simp only [if_true]
          unfold scaleBy unitOf
          rw [title_no_bracket ((h.names w hw).1.none (by decide))]
          exact ⟨rfl, rfl⟩
    · obtain ⟨di, dj, hd, hi, hj, hmany, hb⟩ := h.matrix w hw hm
      have hc := complete_matrix h hk hkeys hw hm hd
      obtain ⟨a, D, sh, a1, a2, a3⟩ := m1 _ _ _ hc
      obtain ⟨di', dj', a4, n1, n2⟩ := a3.shape
      have hI : 0 < di.data.length ∧ 0 < dj.data.length := by
        constructor <;> refine Nat.pos_of_ne_zero ?_ <;> intro h0 <;> rw [h0] at hmany <;> simp at hmany
      have hone : (1 : Nat) ∈ (List.range di.data.length).map Nat.succ ∧ (1 : Nat) ∈ (List.range dj.data.length).map Nat.succ :=
        ⟨List.mem_map.2 ⟨0, List.mem_range.2 hI.1, rfl⟩, List.mem_map.2 ⟨0, List.mem_range.2 hI.2, rfl⟩⟩
      obtain ⟨c, k1, k2, k3⟩ := a2.cols 1 hone.1 1 hone.2
      obtain ⟨c', k1', k2', k3'⟩ := (hfit _ _ _ hc).cols 1 hone.1 1 hone.2
      rw [k1] at k1'
      cases k1'
      rw [k2] at k2'
      rw [k3] at k3'
      subst k2' k3'
      have hgroup : w.1 ∈ (Assemble.matrices (b3.blk.vars.map Prod.fst) [.digits] []).map Assemble.Group.name :=
        List.mem_map.2 ⟨⟨w.1, (Assemble.grid .digits w.1 _ _).map fun t => t.2.2, _, _, .digits⟩,
          (Assemble.matrices_iff _ t3.nodup _ _).2 ⟨Assemble.wins_digits.2 ⟨rfl, hc⟩, rfl⟩, rfl⟩
      have hst : ∀ (i j : Nat), (if st.cplx w.1 then elemNm w.1 i j else String.ofList (Sp.titled (elemNm w.1 i j).toList (st.unit w.1))) =
          if st.cplx w.1 then elemNm w.1 i j else String.ofList (Sp.titled (elemNm w.1 i j).toList (st.unit w.1)) := fun _ _ => rfl
      have hf : ∃ f unit, (if st.cplx w.1 = true then f = id ∧ unit = S.guess w.1 else Rescaled S.mul (st.unit w.1) (S.guess w.1) f unit) ∧
          ∀ i j, i < 10 → j < 10 → scaleBy S.mul (if st.cplx w.1 then elemNm w.1 i j else
            String.ofList (Sp.titled (elemNm w.1 i j).toList (st.unit w.1))) = f := by
        cases hcx : st.cplx w.1
        · simp only [Bool.false_eq_true, if_false]
          refine ⟨_, _, rescaled_title S.mul S.guess (h.names w hw).1 (h.names w hw).2.1, fun i j hi hj => ?_⟩
          have r1 := rescaled_title S.mul S.guess (h.names w hw).1 (h.names w hw).2.1
          have r2 := rescaled_title S.mul S.guess (ident_elem hb hi hj) (h.names w hw).2.1
          unfold Rescaled at r1 r2
          split at r1
          · rename_i hu
            rw [if_pos hu] at r2
            rw [r1.1, r2.1]
          · rename_i hu
            rw [if_neg hu] at r2
            obtain ⟨x1, y1, z1, z2, -⟩ := r1
            obtain ⟨x2, y2, z3, z4, -⟩ := r2
            rw [z2, z4, (z1.unique z3).1]
        · simp only [if_true]
          refine ⟨id, _, ⟨rfl, rfl⟩, fun i j hi hj => ?_⟩
          unfold scaleBy
          rw [title_no_bracket ((ident_elem hb hi hj).none (by decide))]
      obtain ⟨f, unit, hf1, hf2⟩ := hf
      refine ⟨a, f, unit, a1, hf1, ?_⟩
      rw [if_pos rfl]
      refine ⟨⟨di', dj', a4.dims, n1, n2, a4.isI, a4.isJ⟩, ?_, ?_, ?_⟩
      · rw [a4.shape, hsize w hw, hd]
        simp
      · show (if _ then _ else _) = _
        rw [if_pos hgroup]
      · intro k i j hv
        rw [hsize w hw, hd] at hv
        have hv' : k < d.data.length ∧ i < di.data.length ∧ j < dj.data.length := by simpa [Nd.Valid] using hv
        obtain ⟨col, g1, g2⟩ := a3.get i j (by simpa using hv'.2.1) (by simpa using hv'.2.2)
        have := g2 [k] (by simp [Nd.Valid, hv'.1])
        simp only [List.cons_append, List.nil_append] at this
        rw [this]
        simp only [List.getElem_map, List.getElem_range, Nat.succ_eq_add_one] at g1
        obtain ⟨a', b1, -, -, b4, -⟩ := hcol w hw _ (hmat w hw hm di dj hd i hv'.2.1 j hv'.2.2)
        simp only [String.ofList_toList] at b1 b4
        rw [g1] at b1
        cases b1
        rw [b4 k hv'.1, hf2 _ _ (by omega) (by omega)]
        rfl
  · intro n hn
    by_cases hcase : ∀ v I J, Complete (keys b3.blk.vars) v I J → n ≠ v ∧ ∀ i ∈ I, ∀ j ∈ J, n ≠ elemNm v i j
    · have hl := m3 n hcase
      have hn' : n ∈ keys b3.blk.vars := by
        rw [← lookup_isSome_iff, ← hl, lookup_isSome_iff]; exact hn
      obtain ⟨w, hw, ⟨m', rfl⟩ | ⟨m', ei, ej, hd2, x, hx, y, hy, e⟩⟩ := (mem_columns h _).1 ((hkeys n).1 hn')
      · exact List.mem_map_of_mem hw
      · exfalso
        have hc := complete_matrix h hk hkeys hw m' hd2
        exact (hcase _ _ _ hc).2 (x + 1) (List.mem_map.2 ⟨x, List.mem_range.2 hx, rfl⟩) (y + 1)
          (List.mem_map.2 ⟨y, List.mem_range.2 hy, rfl⟩) e
    · push_neg at hcase
      obtain ⟨v, I, J, hc, hor⟩ := hcase
      by_cases e : n = v
      · obtain ⟨w, hw, -, e'⟩ := matrix_complete h hkeys hc
        rw [e, e']
        exact List.mem_map_of_mem hw
      · obtain ⟨i, hi, j, hj, e'⟩ := hor e
        have := m2 v I J hc i hi j hj
        rw [← e', lookup_none_iff'] at this
        exact absurd hn this
  · intro n hn
    rcases m4 n hn with h' | h' | h'
    · exact Or.inl ((hivk n).1 h')
    · exact Or.inr (Or.inl h')
    · exact Or.inr (Or.inr h')

/-! ### Files -/

/-- C77: a block that is saved as an SP file and read is the block again: all its variables and its sweep,
matrices included, with complex numbers as they were and real numbers in units without prefix. -/
theorem C77_roundtrip {env : Env β α} {S : Steps β α} {ofRat : ℚ → β} {conv : List Char → α} {st : Style β α} {re im : α → α}
    {comments : List (List Char)} {b : Block β α} {d : Dim β} (hw : Writable env ofRat conv st re im comments b)
    (h : Tame st b d) (hri : ∀ x, S.rect (re x) (im x) = x) (hkind : ∀ w ∈ b.vars, ismatrix w.2 = true → OneKind S d.data.length w)
    (htab : S.table.Perm Normalize.trtable) (hc : Comments.properties comments = []) :
    ∃ ls r, Sp.save env st comments b = (ls, none) ∧ spBlocks env S ofRat conv ls = .ok [r] ∧ Again S st b d r := by
  obtain ⟨ls, spots, p, ps, c1, c2, c3, c4, c5, c6, -⟩ := Sp.C56_roundtrip (S.num) hw
  have hspot : ∀ s ∈ spots, s = ([d], []) := by
    rintro ⟨D, idx⟩ hs
    obtain ⟨⟨w, hwm, e⟩, hidx⟩ := (c5 D idx).1 hs
    rw [axes_tame h w hwm] at e
    subst e
    simp only [List.tail_cons] at hidx
    cases hidx
    rfl
  have hsp : spots = [([d], [])] := by
    cases spots with
    | nil => cases c3
    | cons s t =>
      cases t with
      | nil => rw [hspot s (by simp)]
      | cons s' t' =>
        rw [hspot s (by simp), hspot s' (by simp)] at c4
        simp at c4
  subst hsp
  cases c3 with
  | cons hr ht =>
    cases ht
    have hprop : p.property = [] := by
      cases hp : p.property with
      | nil => rfl
      | cons x t =>
        have := c6.2.1 x.1
        rw [hp, hc] at this
        simp [lookup] at this
    obtain ⟨r, r1, r2⟩ := treat_tab env S st re im hri htab h hw.quiet.nodup hw.sized hkind (tab_restored hw h hr)
    refine ⟨ls, r, c1, ?_, r2⟩
    simp only [spBlocks, c2, List.mapM_cons, List.mapM_nil, hprop, r1]
    rfl

/-- C77: `read_spdata` of the saved file gives these, the name of the file and its index. -/
theorem C77_file [DecidableEq β] {env : Env β α} {S : Steps β α} {ofRat : ℚ → β} {conv : List Char → α} {st : Style β α} {re im : α → α}
    {comments : List (List Char)} {b : Block β α} {d : Dim β} (ofIdx : Nat → β) (en : Enum String) (ofName : String → α)
    (name : String) (hw : Writable env ofRat conv st re im comments b)
    (h : Tame st b d) (hri : ∀ x, S.rect (re x) (im x) = x) (hkind : ∀ w ∈ b.vars, ismatrix w.2 = true → OneKind S d.data.length w)
    (htab : S.table.Perm Normalize.trtable) (hc : Comments.properties comments = []) :
    ∃ ls r r', Sp.save env st comments b = (ls, none) ∧ readSp env S ofRat conv ofIdx en ofName name ls = .ok r' ∧
      Again S st b d r ∧
      (∀ k, lookup r'.vars k = if k = "FILENAME" then some ⟨[], ⟨[], fun _ => ofName name⟩⟩ else lookup r.blk.vars k) ∧
      ∀ k, lookup r'.ivars k = if k = "FILEINDEX" then some ⟨.dimPartial, "FILEINDEX", [ofIdx 0], none, none⟩
        else lookup r.blk.ivars k := by
  obtain ⟨ls, r, c1, c2, c3⟩ := C77_roundtrip hw h hri hkind htab hc
  obtain ⟨sw, g, -, -, -, -, -, -, hv, hi⟩ := id c3
  have hv' : ∀ n ∈ ["FILEINDEX", "FILENAME"], n ∉ keys r.blk.vars := by
    intro n hn hm
    obtain ⟨w, hwm, e⟩ := List.mem_map.1 (hv n hm)
    have := (h.names w hwm).2.2
    rw [e] at this
    simp only [List.mem_cons, List.not_mem_nil, or_false] at hn this
    tauto
  have hi' : ∀ n ∈ ["FILEINDEX", "FILENAME"], n ∉ keys r.blk.ivars := by
    intro n hn hm
    have hd := h.sweep.2.2.1
    rcases hi n hm with rfl | rfl | rfl
    · simp only [List.mem_cons, List.not_mem_nil, or_false] at hn hd
      tauto
    · simp at hn
    · simp at hn
  obtain ⟨r', f1, f2, f3⟩ := Files.single_file env ofIdx en ofName
    (fun ls => match spBlocks env S ofRat conv ls with
      | .error e => .error e
      | .ok us => .ok (us.map fun u => u.blk)) name ls r.blk (by simp only [c2, List.map_cons, List.map_nil]) hv' hi'
  exact ⟨ls, r, r', c1, f1, c3, f2, f3⟩

end HF.Readers.Treat
