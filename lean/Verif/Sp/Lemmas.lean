import Verif.Sp.Text
import Verif.DataBlock.Writes
import Verif.HFArray.SqueezeProps
/-
Helper lemmas: columns of a table and how they become variables.
-/
namespace HF.Sp

open HF.DataDict.Spec HF.DataBlock
open HF.DataDict hiding rename delitem
open Units (isWs strip)
open Text (join)

variable {β α : Type}

/-! ### `collect` -/

theorem collect_snoc {X : Type} (l : List (String × X)) (c : String × X) :
    collect (l ++ [c]) = assign (collect l) c.1 ((lookup (collect l) c.1).getD [] ++ [c.2]) := by
  simp [collect, List.foldl_append]

theorem eraseDups_snoc (l : List String) (a : String) :
    (l ++ [a]).eraseDups = if a ∈ l then l.eraseDups else l.eraseDups ++ [a] := by
  rw [List.eraseDups_append]
  by_cases h : a ∈ l
  · rw [if_pos h]; simp [List.removeAll, h]
  · rw [if_neg h]; simp [List.removeAll, h, List.eraseDups_cons]

theorem keys_collect {X : Type} (l : List (String × X)) : keys (collect l) = (l.map Prod.fst).eraseDups := by
  induction l using List.reverseRecOn with
  | nil => rfl
  | append_singleton l c ih =>
    rw [collect_snoc, List.map_append, List.map_cons, List.map_nil, eraseDups_snoc, assign]
    have hm : member (collect l) c.1 = true ↔ c.1 ∈ l.map Prod.fst := by
      rw [member_iff, show (collect l).map Prod.fst = keys (collect l) from rfl, ih, List.mem_eraseDups]
    by_cases h : c.1 ∈ l.map Prod.fst
    · rw [if_pos h, if_pos (hm.2 h), keys, keys_modify]; exact ih
    · rw [if_neg h, if_neg (fun hc => h (hm.1 hc)), keys, List.map_append, ← ih]; rfl

theorem lookup_collect {X : Type} (l : List (String × X)) (n : String) :
    lookup (collect l) n =
      if n ∈ l.map Prod.fst then some ((l.filter fun c => c.1 = n).map Prod.snd) else none := by
  induction l using List.reverseRecOn with
  | nil => rfl
  | append_singleton l c ih =>
    rw [collect_snoc, lookup_assign]
    by_cases hn : n = c.1
    · subst hn
      rw [if_pos rfl, if_pos (by simp), ih]
      by_cases h : c.1 ∈ l.map Prod.fst
      · rw [if_pos h]; simp
      · rw [if_neg h]
        have : l.filter (fun x => decide (x.1 = c.1)) = [] := by
          rw [List.filter_eq_nil_iff]
          intro x hx
          simp only [decide_eq_true_eq]
          exact fun e => h (e ▸ List.mem_map_of_mem hx)
        rw [List.filter_append, this]; simp
    · rw [if_neg hn, ih]
      have hmem : n ∈ (l ++ [c]).map Prod.fst ↔ n ∈ l.map Prod.fst := by simp [hn]
      simp only [hmem]
      simp [List.filter_append, Ne.symm hn]

/-! ### Columns -/

theorem zipStar_cols {X : Type} (d : X) (rows : List (List X)) (m : Nat)
    (hm : (rows.map List.length).min? = some m) :
    zipStar d rows = (List.range m).map fun j => rows.map fun r => r.getD j d := by
  rw [zipStar, hm]; rfl

/-- The columns of a name are those at its positions. -/
theorem cols_of {X : Type} (ns : List String) (m : Nat) (hm : m ≤ ns.length) (f : Nat → X) (n : String) :
    ((ns.zip ((List.range m).map f)).filter fun c => c.1 = n).map Prod.snd =
      ((List.range m).filter fun j => ns[j]? = some n).map f := by
  have e : ns.zip ((List.range m).map f) = (List.range m).map fun j => (ns.getD j "", f j) := by
    apply List.ext_getElem
    · simp [hm]
    · intro i h1 h2
      have h3 : i < m := by simpa using h2
      have h4 : i < ns.length := lt_of_lt_of_le h3 hm
      simp [h4]
  rw [e, List.filter_map, List.map_map]
  rw [show (Prod.snd ∘ fun j => (ns.getD j "", f j)) = f from rfl]
  congr 1
  apply List.filter_congr
  intro j hj
  have h4 : j < ns.length := lt_of_lt_of_le (List.mem_range.1 hj) hm
  simp [h4]

theorem zip_fst {X : Type} (ns : List String) (m : Nat) (f : Nat → X) :
    (ns.zip ((List.range m).map f)).map Prod.fst = ns.take m := by
  induction ns generalizing m f with
  | nil => simp
  | cons n ns ih =>
    cases m with
    | zero => simp
    | succ m =>
      rw [List.range_succ_eq_map, List.map_cons, List.map_map, List.zip_cons_cons, List.map_cons, ih]
      rfl

/-! ### Variables -/

/-- `(freq, rep)`: the rep dimension with `k` values. -/
def repDim (num : Nat → β) (k : Nat) : Dim β := ⟨.dimRep, "rep", (List.range k).map num, none, none⟩

theorem toVar_one (env : Env β α) (num : Nat → β) (freq : Dim β) (c : List α) :
    toVar env num freq [c] = .ok ⟨[freq], ⟨[c.length], fun idx => c.getD (idx.headD 0) env.junk⟩⟩ := rfl

theorem squeeze_two (d e : Dim β) (a b : Nat) (g : List Nat → α) (ha : a ≠ 1) :
    Arr.squeezeIdx ⟨[d, e], ⟨[a, b + 2], g⟩⟩ none =
      .ok ⟨[d, e], ⟨[a, b + 2], fun idx => g (Nd.insertZeros [] 0 2 idx)⟩⟩ := by
  have hr : (List.range 2).filter (fun k => decide ([a, b + 2].getD k 0 = 1)) = [] := by
    simp [List.range_succ, ha]
  simp only [Arr.squeezeIdx, Nd.squeeze, Arr.ofNd, Arr.mk?, Nd.ndim, List.length_cons, List.length_nil,
    Nat.zero_add, Nat.reduceAdd, hr]
  simp [Nd.dropAt, ha]

theorem squeeze_single (d e : Dim β) (b : Nat) (g : List Nat → α) :
    Arr.squeezeIdx ⟨[d, e], ⟨[1, b + 2], g⟩⟩ none =
      .ok ⟨[e], ⟨[b + 2], fun idx => g (Nd.insertZeros [0] 0 2 idx)⟩⟩ := by
  have hr : (List.range 2).filter (fun k => decide ([1, b + 2].getD k 0 = 1)) = [0] := by
    simp [List.range_succ]
  simp only [Arr.squeezeIdx, Nd.squeeze, Arr.ofNd, Arr.mk?, Nd.ndim, List.length_cons, List.length_nil,
    Nat.zero_add, Nat.reduceAdd, hr]
  simp [Nd.dropAt]

theorem toVar_many (env : Env β α) (num : Nat → β) (freq : Dim β) (c c' : List α) (cs : List (List α))
    (h : c.length ≠ 1) :
    ∃ g, toVar env num freq (c :: c' :: cs) =
        .ok ⟨[freq, repDim num (cs.length + 2)], ⟨[c.length, cs.length + 2], g⟩⟩ ∧
      ∀ i k, g [i, k] = ((c :: c' :: cs).getD k []).getD i env.junk := by
  refine ⟨_, squeeze_two _ _ _ _ _ h, fun i k => ?_⟩
  simp [Nd.insertZeros]

theorem toVar_single (env : Env β α) (num : Nat → β) (freq : Dim β) (c c' : List α) (cs : List (List α))
    (h : c.length = 1) :
    ∃ g, toVar env num freq (c :: c' :: cs) =
        .ok ⟨[repDim num (cs.length + 2)], ⟨[cs.length + 2], g⟩⟩ ∧
      ∀ k, g [k] = ((c :: c' :: cs).getD k []).getD 0 env.junk := by
  have e : toVar env num freq (c :: c' :: cs) = Arr.squeezeIdx ⟨[freq, repDim num (cs.length + 2)],
      ⟨[1, cs.length + 2], fun idx => ((c :: c' :: cs).getD (idx.getD 1 0) []).getD (idx.getD 0 0) env.junk⟩⟩ none := by
    simp only [toVar, List.headD_cons, h]; rfl
  refine ⟨_, e.trans (squeeze_single _ _ _ _), fun k => ?_⟩
  simp [Nd.insertZeros]

/-! ### Blocks -/

theorem putVars_writes (env : Env β α) (num : Nat → β) (freq : Dim β)
    (l : List (String × List (List α))) (ws : List (String × Arr β α))
    (h : List.Forall₂ (fun p w => p.1 = w.1 ∧ toVar env num freq p.2 = .ok w.2) l ws) (b b' : Block β α)
    (hw : writes env b ws = .ok b') : putVars env num freq b l = .ok b' := by
  induction h generalizing b with
  | nil => simpa [putVars, writes] using hw
  | @cons p w l ws hpw _ ih =>
    obtain ⟨n, cs⟩ := p
    obtain ⟨rfl, h2⟩ := hpw
    simp only [putVars, h2, ofArr]
    simp only [writes] at hw
    split at hw
    · rename_i b1 u e
      rw [e]
      exact ih b1 hw
    · simp at hw

/-- What a property becomes if its name begins with `@`. -/
def part (ofRat : ℚ → β) (p : String × Comments.PVal) : Option (String × Dim β) :=
  match p.1.toList, p.2 with
  | '@' :: r, .arr x u => some (String.ofList r, ⟨.dimPartial, String.ofList r, [ofRat x], u.map String.ofList, none⟩)
  | _, _ => none

def parts (ofRat : ℚ → β) (props : List (String × Comments.PVal)) : List (String × Dim β) :=
  props.filterMap (part ofRat)

theorem putPartials_ok (ofRat : ℚ → β) (props : List (String × Comments.PVal))
    (h : ∀ p ∈ props, ∀ r, p.1.toList = '@' :: r → ∃ x u, p.2 = .arr x u) (b : Block β α) :
    ∃ b', putPartials ofRat b props = .ok b' ∧ b'.vars = b.vars ∧
      b'.ivars = assigns b.ivars (parts ofRat props) := by
  induction props generalizing b with
  | nil => exact ⟨b, rfl, rfl, rfl⟩
  | cons p t ih =>
    obtain ⟨n, v⟩ := p
    have ih' := ih fun q hq => h q (by simp [hq])
    have h0 := h (n, v) (by simp)
    simp only at h0
    cases hn : n.toList with
    | nil =>
      obtain ⟨b', h1, h2, h3⟩ := ih' b
      refine ⟨b', ?_, h2, ?_⟩
      · simp only [putPartials, hn]; exact h1
      · rw [h3]; simp [parts, part, hn]
    | cons c r =>
      by_cases hc : c = '@'
      · subst hc
        obtain ⟨x, u, rfl⟩ := h0 r hn
        obtain ⟨b', h1, h2, h3⟩ := ih' (setDim b (String.ofList r)
          ⟨.dimPartial, String.ofList r, [ofRat x], u.map String.ofList, none⟩)
        refine ⟨b', ?_, h2, ?_⟩
        · simp only [putPartials, hn]; exact h1
        · rw [h3]; simp [parts, part, hn, assigns, setDim]
      · obtain ⟨b', h1, h2, h3⟩ := ih' b
        refine ⟨b', ?_, h2, ?_⟩
        · simp only [putPartials, hn]
          split
          · rename_i r' e; simp at e; exact absurd e.1 hc
          · exact h1
        · rw [h3]
          have : part ofRat (n, v) = none := by
            unfold part
            split
            · rename_i e _
              simp only [hn, List.cons.injEq] at e
              exact absurd e.1 hc
            · rfl
          rw [parts, parts, List.filterMap_cons, this]

theorem putPartials_error (ofRat : ℚ → β) (props : List (String × Comments.PVal)) (n s : _) (r : List Char)
    (hn : n.toList = '@' :: r) (h : (n, .other s) ∈ props) (b : Block β α) :
    putPartials ofRat b props = .error .attributeError := by
  induction props generalizing b with
  | nil => simp at h
  | cons p t ih =>
    obtain ⟨m, v⟩ := p
    rcases List.mem_cons.1 h with h | h
    · rw [Prod.mk.injEq] at h
      obtain ⟨rfl, rfl⟩ := h
      simp only [putPartials, hn]
    · have ih' := fun b => ih h b
      simp only [putPartials]
      split
      · cases v with
        | arr x u => exact ih' _
        | other s => rfl
      · exact ih' _

theorem mem_parts (ofRat : ℚ → β) (props : List (String × Comments.PVal)) (n : String) (d : Dim β) :
    (n, d) ∈ parts ofRat props ↔ ∃ x u, (String.ofList ('@' :: n.toList), .arr x u) ∈ props ∧
      d = ⟨.dimPartial, n, [ofRat x], u.map String.ofList, none⟩ := by
  unfold parts
  rw [List.mem_filterMap]
  constructor
  · rintro ⟨⟨m, v⟩, hm, h⟩
    cases hl : m.toList with
    | nil => simp [part, hl] at h
    | cons c r =>
      by_cases hc : c = '@'
      · subst hc
        cases v with
        | other s => simp [part, hl] at h
        | arr x u =>
          simp only [part, hl, Option.some.injEq, Prod.mk.injEq] at h
          obtain ⟨rfl, rfl⟩ := h
          refine ⟨x, u, ?_, rfl⟩
          rw [String.toList_ofList, ← hl, String.ofList_toList]
          exact hm
      · unfold part at h
        split at h
        · rename_i e _
          simp only [hl, List.cons.injEq] at e
          exact absurd e.1 hc
        · simp at h
  · rintro ⟨x, u, hm, rfl⟩
    refine ⟨_, hm, ?_⟩
    simp [part]

end HF.Sp
