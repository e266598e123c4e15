import Verif.Readers.Treat
import Verif.DataBlock.Writes
import Verif.DataBlock.Lemmas
import Verif.DataBlock.ConvertProps
import Mathlib.Data.List.Perm.Basic
/-
C78: properties of a file as variables.
-/
namespace HF.Readers.Treat

open HF.DataDict.Spec HF.DataBlock
open HF.DataDict hiding rename delitem
open HF.Readers.FixUnit (UBlock setUnit)
open HF.Comments (PVal)

variable {β α : Type}

/-- A property that becomes a variable: it has a value and its name is not in use. -/
def New (b : Block β α) (ofProp : PVal → Option α) (p : String × PVal) : Option (String × Arr β α) :=
  if p.1 ∈ keys b.vars ∨ p.1 ∈ keys b.ivars then none
  else match ofProp p.2 with
    | none => none
    | some x => some (p.1, ⟨[], ⟨[], fun _ => x⟩⟩)

/-- No property has the name of an element of a variable or of another property. -/
def Separate (b : Block β α) (props : List (String × PVal)) : Prop :=
  ∀ p ∈ props, ∀ m i j, isMatrixName p.1 = some (m, i, j) → m ∉ keys b.vars ∧ m ∉ props.map Prod.fst

/-- C78: the new variables come after the others, in the order of the properties; variables and dimensions
that were there are not touched. -/
theorem C78_values (env : Env β α) (ofProp : PVal → Option α) (b : UBlock β α) (props : List (String × PVal))
    (hn : (props.map Prod.fst).Nodup) (hs : Separate b.blk props) :
    ∃ r, valuesFromProperty env ofProp b props = .ok r ∧
      r.blk.vars = b.blk.vars ++ props.filterMap (New b.blk ofProp) ∧ r.blk.ivars = b.blk.ivars ∧
      r.blk.xname = (if props.filterMap (New b.blk ofProp) = [] then b.blk.xname else none) ∧
      (∀ n, n ∉ (props.filterMap (New b.blk ofProp)).map Prod.fst → r.units n = b.units n) ∧
      ∀ p ∈ props, New b.blk ofProp p ≠ none → r.units p.1 = unitOfProp p.2 := by
  induction props generalizing b with
  | nil => exact ⟨b, rfl, by simp, rfl, by simp, by simp, by simp⟩
  | cons p t ih =>
    obtain ⟨k, v⟩ := p
    rw [List.map_cons, List.nodup_cons] at hn
    have hs' : Separate b.blk t := by
      intro q hq m i j hm
      obtain ⟨h1, h2⟩ := hs q (List.mem_cons_of_mem _ hq) m i j hm
      exact ⟨h1, fun h => h2 (by rw [List.map_cons]; exact List.mem_cons_of_mem _ h)⟩
    have hskip : New b.blk ofProp (k, v) = none →
        valuesFromProperty env ofProp b ((k, v) :: t) = valuesFromProperty env ofProp b t := by
      intro h
      rw [valuesFromProperty]
      cases hx : ofProp v with
      | none => rfl
      | some x =>
        simp only
        rw [if_pos]
        by_contra hc
        unfold New at h
        rw [if_neg, hx] at h
        · simp at h
        · unfold contains at hc
          rw [Bool.or_eq_true, member_iff, member_iff] at hc
          exact hc
    cases hnew : New b.blk ofProp (k, v) with
    | none =>
      obtain ⟨r, c1, c2, c3, c4, c5, c6⟩ := ih b hn.2 hs'
      rw [hskip hnew]
      have hf : List.filterMap (New b.blk ofProp) ((k, v) :: t) = t.filterMap (New b.blk ofProp) := by
        rw [List.filterMap_cons, hnew]
      rw [hf]
      refine ⟨r, c1, c2, c3, c4, c5, ?_⟩
      intro q hq hne
      rcases List.mem_cons.1 hq with rfl | hq
      · exact absurd hnew hne
      · exact c6 q hq hne
    | some e =>
      have hnew' := hnew
      unfold New at hnew'
      simp only at hnew'
      split at hnew'
      · cases hnew'
      rename_i hk
      push Not at hk
      cases hx : ofProp v with
      | none => rw [hx] at hnew'; cases hnew'
      | some x =>
        rw [hx] at hnew'
        cases hnew'
        have hset := setArr_new env b.blk k (⟨[], ⟨[], fun _ => x⟩⟩ : Arr β α) hk.2 hk.1
          (fun m i j hm => (hs (k, v) (by simp) m i j hm).1)
        have hx' : nextXname b.blk.xname ([] : List (Dim β)) = none := by
          cases b.blk.xname <;> rfl
        obtain ⟨b1, hb1⟩ : ∃ b1 : UBlock β α, b1 = setUnit ⟨⟨b.blk.vars ++ [(k, ⟨[], ⟨[], fun _ => x⟩⟩)], b.blk.ivars, none⟩, b.units⟩ k (unitOfProp v) :=
          ⟨_, rfl⟩
        have hg : setUnit ⟨⟨b.blk.vars ++ [(k, ⟨[], ⟨[], fun _ => x⟩⟩)], b.blk.ivars, none⟩, b.units⟩ k (unitOfProp v) =
            ⟨⟨b.blk.vars ++ [(k, ⟨[], ⟨[], fun _ => x⟩⟩)], b.blk.ivars, none⟩, fun n => if n = k then unitOfProp v else b.units n⟩ := by
          unfold setUnit
          rw [if_neg (by rw [member_iff]; exact hk.2), if_pos (by rw [member_iff]; simp [keys])]
        rw [hg] at hb1
        have hb1v : b1.blk = ⟨b.blk.vars ++ [(k, ⟨[], ⟨[], fun _ => x⟩⟩)], b.blk.ivars, none⟩ := by rw [hb1]
        have hb1u : ∀ n, b1.units n = if n = k then unitOfProp v else b.units n := by
          intro n; rw [hb1]
        have hkeys : ∀ n, n ∈ keys b1.blk.vars ↔ n ∈ keys b.blk.vars ∨ n = k := by
          intro n; rw [hb1v]; simp [keys]
        have hs1 : Separate b1.blk t := by
          intro q hq m i j hm
          obtain ⟨h1, h2⟩ := hs q (List.mem_cons_of_mem _ hq) m i j hm
          rw [List.map_cons, List.mem_cons, not_or] at h2
          refine ⟨?_, h2.2⟩
          rw [hkeys]
          rintro (h | h)
          · exact h1 h
          · exact h2.1 h
        have hsame : t.filterMap (New b1.blk ofProp) = t.filterMap (New b.blk ofProp) := by
          refine List.filterMap_congr fun q hq => ?_
          have hne : q.1 ≠ k := fun e => hn.1 (List.mem_map.2 ⟨q, hq, e⟩)
          unfold New
          have : (q.1 ∈ keys b1.blk.vars ∨ q.1 ∈ keys b1.blk.ivars) ↔ (q.1 ∈ keys b.blk.vars ∨ q.1 ∈ keys b.blk.ivars) := by
            rw [hkeys, show b1.blk.ivars = b.blk.ivars by rw [hb1v]]
            simp [hne]
          simp only [this]
        have hsame' : ∀ q ∈ t, New b1.blk ofProp q = New b.blk ofProp q := by
          intro q hq
          have hne : q.1 ≠ k := fun e => hn.1 (List.mem_map.2 ⟨q, hq, e⟩)
          unfold New
          have : (q.1 ∈ keys b1.blk.vars ∨ q.1 ∈ keys b1.blk.ivars) ↔ (q.1 ∈ keys b.blk.vars ∨ q.1 ∈ keys b.blk.ivars) := by
            rw [hkeys, show b1.blk.ivars = b.blk.ivars by rw [hb1v]]
            simp [hne]
          simp only [this]
        obtain ⟨r, c1, c2, c3, c4, c5, c6⟩ := ih b1 hn.2 hs1
        rw [hsame] at c2 c4 c5
        have hf : List.filterMap (New b.blk ofProp) ((k, v) :: t) = (k, ⟨[], ⟨[], fun _ => x⟩⟩) :: t.filterMap (New b.blk ofProp) := by
          rw [List.filterMap_cons, hnew]
        have hkt : k ∉ (t.filterMap (New b.blk ofProp)).map Prod.fst := by
          intro hm
          obtain ⟨e, he, e1⟩ := List.mem_map.1 hm
          obtain ⟨q, hq, e2⟩ := List.mem_filterMap.1 he
          have : e.1 = q.1 := by
            unfold New at e2
            split at e2
            · cases e2
            · cases hq' : ofProp q.2 with
              | none => rw [hq'] at e2; cases e2
              | some y => rw [hq'] at e2; cases e2; rfl
          exact hn.1 (by rw [← e1, this]; exact List.mem_map_of_mem hq)
        rw [hf]
        refine ⟨r, ?_, ?_, ?_, ?_, ?_, ?_⟩
        · rw [valuesFromProperty, hx]
          simp only
          rw [if_neg, hset]
          · simp only [hx']
            rw [← c1, hb1, ← hg]
            rfl
          · unfold contains
            rw [Bool.or_eq_true, member_iff, member_iff, not_or]
            exact hk
        · rw [c2, hb1v]; simp
        · rw [c3, hb1v]
        · rw [c4, hb1v]; simp
        · intro n hm
          rw [List.map_cons, List.mem_cons, not_or] at hm
          rw [c5 n hm.2, hb1u, if_neg hm.1]
        · intro q hq hne
          rcases List.mem_cons.1 hq with rfl | hq
          · rw [c5 k hkt, hb1u, if_pos rfl]
          · exact c6 q hq (by rw [hsame' q hq]; exact hne)

theorem new_name {b : Block β α} {ofProp : PVal → Option α} {p : String × PVal} {e : String × Arr β α}
    (h : New b ofProp p = some e) : e.1 = p.1 := by
  unfold New at h
  split at h
  · cases h
  · cases hq : ofProp p.2 with
    | none => rw [hq] at h; cases h
    | some y => rw [hq] at h; cases h; rfl

/-- C78: the order of the properties, which is arbitrary, has no influence on the variables. -/
theorem C78_order (env : Env β α) (ofProp : PVal → Option α) (b : UBlock β α) (props props' : List (String × PVal))
    (hp : props.Perm props') (hn : (props.map Prod.fst).Nodup) (hb : (keys b.blk.vars).Nodup) (hs : Separate b.blk props) :
    ∃ r r', valuesFromProperty env ofProp b props = .ok r ∧ valuesFromProperty env ofProp b props' = .ok r' ∧
      r.blk.vars.Perm r'.blk.vars ∧ (∀ n, lookup r.blk.vars n = lookup r'.blk.vars n) ∧ r.blk.ivars = r'.blk.ivars ∧
      r.blk.xname = r'.blk.xname ∧ ∀ n, r.units n = r'.units n := by
  have hn' : (props'.map Prod.fst).Nodup := (hp.map Prod.fst).nodup_iff.1 hn
  have hs' : Separate b.blk props' := by
    intro q hq m i j hm
    obtain ⟨h1, h2⟩ := hs q (hp.mem_iff.2 hq) m i j hm
    exact ⟨h1, fun h => h2 ((hp.map Prod.fst).mem_iff.2 h)⟩
  obtain ⟨r, c1, c2, c3, c4, c5, c6⟩ := C78_values env ofProp b props hn hs
  obtain ⟨r', d1, d2, d3, d4, d5, d6⟩ := C78_values env ofProp b props' hn' hs'
  have hf : (props.filterMap (New b.blk ofProp)).Perm (props'.filterMap (New b.blk ofProp)) := hp.filterMap _
  have hv : r.blk.vars.Perm r'.blk.vars := by rw [c2, d2]; exact hf.append_left _
  refine ⟨r, r', c1, d1, hv, ?_, by rw [c3, d3], ?_, ?_⟩
  · have hnd : (keys r.blk.vars).Nodup := by
      rw [c2]
      unfold keys
      rw [List.map_append, List.nodup_append]
      refine ⟨hb, ?_, ?_⟩
      · have hsub : ((props.filterMap (New b.blk ofProp)).map Prod.fst).Sublist (props.map Prod.fst) := by
          clear hs c1 c2 c4 c5 c6 hf hn hp
          induction props with
          | nil => exact List.Sublist.slnil
          | cons p t ih =>
            rw [List.filterMap_cons]
            cases hnew : New b.blk ofProp p with
            | none => exact ih.cons _
            | some e =>
              simp only [List.map_cons]
              rw [new_name hnew]
              exact ih.cons_cons _
        exact hsub.nodup hn
      · intro a ha c hc e
        subst e
        obtain ⟨e, he, rfl⟩ := List.mem_map.1 hc
        obtain ⟨q, hq, hnew⟩ := List.mem_filterMap.1 he
        rw [new_name hnew] at ha
        unfold New at hnew
        rw [if_pos (Or.inl ha)] at hnew
        cases hnew
    intro n
    have hnd' : (keys r'.blk.vars).Nodup := (hv.map Prod.fst).nodup_iff.1 hnd
    cases h1 : lookup r.blk.vars n with
    | none =>
      symm
      rw [lookup_none_iff'] at h1 ⊢
      exact fun h => h1 ((hv.map Prod.fst).mem_iff.2 h)
    | some a => exact (mem_lookup hnd' (hv.mem_iff.1 (lookup_mem h1))).symm
  · rw [c4, d4]
    have : props.filterMap (New b.blk ofProp) = [] ↔ props'.filterMap (New b.blk ofProp) = [] :=
      ⟨fun h => List.Perm.nil_eq (h ▸ hf) |>.symm, fun h => List.Perm.eq_nil (h ▸ hf)⟩
    simp only [this]
  · intro n
    by_cases h : n ∈ (props.filterMap (New b.blk ofProp)).map Prod.fst
    · obtain ⟨e, he, rfl⟩ := List.mem_map.1 h
      obtain ⟨q, hq, hnew⟩ := List.mem_filterMap.1 he
      rw [new_name hnew, c6 q hq (by rw [hnew]; simp), d6 q (hp.mem_iff.1 hq) (by rw [hnew]; simp)]
    · rw [c5 n h, d5 n (fun h' => h ((hf.map Prod.fst).mem_iff.2 h'))]

/-! ### Examples -/

def vof : PVal → Option ℚ
  | .arr q _ => some q
  | .other _ => none

def venv : Env ℚ ℚ := ⟨fun _ => 0, id, 0, fun _ => "", fun _ => ""⟩

def vblock : UBlock ℚ ℚ :=
  ⟨⟨[("Id", ⟨[], ⟨[], fun _ => 7⟩⟩)], [("freq", ⟨.dimSweep, "freq", [1], none, none⟩)], some "freq"⟩, fun _ => none⟩

def vprops : List (String × PVal) :=
  [("Id", .arr 1 none), ("T", .arr 300 (some ['K'])), ("freq", .arr 2 none), ("Vg", .arr 3 none), ("Date", .other ['x'])]

theorem vseparate : Separate vblock.blk vprops := by
  have h : ∀ p ∈ vprops, isMatrixName p.1 = none := by decide +kernel
  intro p hp m i j hm
  rw [h p hp] at hm
  cases hm

/-- Names that are in use are left out. -/
example : (vprops.filterMap (New vblock.blk vof)).map (fun p => (p.1, p.2.nd.get [])) = [("T", 300), ("Vg", 3)] ∧
    ∃ r, valuesFromProperty venv vof vblock vprops = .ok r ∧
      r.blk.vars = vblock.blk.vars ++ vprops.filterMap (New vblock.blk vof) := by
  obtain ⟨r, h1, h2, -⟩ := C78_values venv vof vblock vprops (by decide +kernel) vseparate
  exact ⟨by decide +kernel, r, h1, h2⟩

example : ∃ r r', valuesFromProperty venv vof vblock vprops = .ok r ∧ valuesFromProperty venv vof vblock vprops.reverse = .ok r' ∧
    ∀ n, lookup r.blk.vars n = lookup r'.blk.vars n := by
  obtain ⟨r, r', h1, h2, -, h3, -⟩ := C78_order venv vof vblock vprops vprops.reverse (List.reverse_perm _).symm
    (by decide +kernel) (by decide +kernel) vseparate
  exact ⟨r, r', h1, h2, h3⟩

/-- A matrix. -/
def vmatrix : UBlock ℚ ℚ :=
  ⟨⟨[("S", ⟨[⟨.matI, "i", [0, 1], none, none⟩, ⟨.matJ, "j", [0, 1], none, none⟩], ⟨[2, 2], fun _ => 0⟩⟩)],
    [("i", ⟨.matI, "i", [0, 1], none, none⟩), ("j", ⟨.matJ, "j", [0, 1], none, none⟩)], none⟩, fun _ => none⟩

/-- C78 fails for a property with the name of an element of a matrix: the element is overwritten and there is
no variable with the name of the property. -/
theorem C78_element_refuted :
    (valuesFromProperty venv vof vmatrix [("S12", .arr 5 none)]).toOption.map (fun r =>
      (r.blk.vars.map Prod.fst, (lookup r.blk.vars "S").map fun a => (a.nd.get [0, 0], a.nd.get [0, 1]))) =
    some (["S"], some (0, 5)) := by decide +kernel

end HF.Readers.Treat
