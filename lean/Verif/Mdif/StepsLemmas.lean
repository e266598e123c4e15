import Verif.Mdif.Steps
import Verif.Mdif.MakeProps
import Verif.Mdif.ReadProps
/-
MDIF files: matrices of arrays as matrices of lists.
-/
namespace HF.Mdif

open HF.DataDict.Spec HF.DataBlock
open HF.DataDict hiding rename delitem

variable {β α : Type}

/-- The array for a variable: a function of the sweep `d`, and for matrices and vectors of their indices. -/
def toArr (env : Env β α) (num : Nat → β) (d : Dim β) : Val α → Arr β α
  | .column l => colArr env d l
  | .scalar x => ⟨[], ⟨[], fun _ => x⟩⟩
  | .matrix p q cols => matrixOf env num p q (cols.map (colArr env d))
  | .vector cols => vectorOf env num (cols.map (colArr env d))

def toVars (env : Env β α) (num : Nat → β) (d : Dim β) (m : OMap (List Char) (Val α)) : OMap String (Arr β α) :=
  m.map fun p => (String.ofList p.1, toArr env num d p.2)

section

variable (env : Env β α) (num : Nat → β) (d : Dim β)

theorem fst_toVars (m : OMap (List Char) (Val α)) : (toVars env num d m).map Prod.fst = (m.map Prod.fst).map String.ofList := by
  simp [toVars]

theorem lookup_toVars (m : OMap (List Char) (Val α)) (n : List Char) :
    lookup (toVars env num d m) (String.ofList n) = (lookup m n).map (toArr env num d) := by
  unfold lookup toVars
  induction m with
  | nil => rfl
  | cons p m ih =>
    rw [List.map_cons, List.find?_cons, List.find?_cons]
    by_cases h : p.1 = n
    · simp [h]
    · have : String.ofList p.1 ≠ String.ofList n := fun e => h (ofList_inj e)
      simp only [h, this, decide_false]
      exact ih

theorem member_toVars (m : OMap (List Char) (Val α)) (n : List Char) :
    member (toVars env num d m) (String.ofList n) = member m n := by
  rw [Bool.eq_iff_iff, member_iff, member_iff, fst_toVars, List.mem_map]
  constructor
  · rintro ⟨k, hk, e⟩
    exact ofList_inj e ▸ hk
  · exact fun h => ⟨n, h, rfl⟩

theorem remove_toVars (m : OMap (List Char) (Val α)) (n : List Char) :
    remove (toVars env num d m) (String.ofList n) = toVars env num d (remove m n) := by
  unfold remove toVars
  rw [List.filter_map]
  congr 1
  refine List.filter_congr fun p _ => ?_
  simp only [Function.comp_apply, decide_not, Bool.not_eq_eq_eq_not, Bool.not_not, decide_eq_decide]
  exact ⟨fun e => ofList_inj e, fun e => by rw [e]⟩

theorem assign_toVars (m : OMap (List Char) (Val α)) (n : List Char) (v : Val α) :
    assign (toVars env num d m) (String.ofList n) (toArr env num d v) = toVars env num d (assign m n v) := by
  unfold assign
  rw [member_toVars]
  split
  · unfold DataDict.Spec.modify toVars
    rw [List.map_map, List.map_map]
    refine List.map_congr_left fun p _ => ?_
    by_cases h : p.1 = n
    · simp [h]
    · have : String.ofList p.1 ≠ String.ofList n := fun e => h (ofList_inj e)
      simp [h, this]
  · simp [toVars]

theorem delAll_toVars (ks : List (List Char)) : ∀ (m : OMap (List Char) (Val α)),
    delAll (toVars env num d m) (ks.map String.ofList) = (delAll m ks).map (toVars env num d) := by
  induction ks with
  | nil => intro m; rfl
  | cons k ks ih =>
    intro m
    rw [List.map_cons, delAll, delAll, member_toVars, remove_toVars]
    split
    · exact ih _
    · rfl

theorem idxOf_map {K L : Type} [DecidableEq K] [DecidableEq L] (f : K → L) (hf : ∀ a b, f a = f b → a = b) (l : List K) (a : K) :
    (l.map f).idxOf (f a) = l.idxOf a := by
  induction l with
  | nil => rfl
  | cons x l ih =>
    rw [List.map_cons, List.idxOf_cons, List.idxOf_cons, ih]
    by_cases h : x = a
    · rw [h, beq_self_eq_true, beq_self_eq_true]
    · rw [beq_false_of_ne h, beq_false_of_ne fun e => h (hf _ _ e)]

theorem place_toVars (m : OMap (List Char) (Val α)) (n : List Char) (v : Val α) (elems : List (List Char)) :
    place (toVars env num d m) (String.ofList n) (toArr env num d v) (elems.map String.ofList) =
      (place m n v elems).map (toVars env num d) := by
  unfold place
  simp only
  rw [assign_toVars, delAll_toVars]
  cases h : delAll (assign m n v) elems with
  | error e => rfl
  | ok vars' =>
    simp only [Except.map]
    rw [remove_toVars]
    have e1 : (elems.map String.ofList).map (fun e => ((toVars env num d (assign m n v)).map Prod.fst).idxOf e) =
        elems.map fun e => @List.idxOf _ instBEqOfDecidableEq e ((assign m n v).map Prod.fst) := by
      rw [List.map_map]
      refine List.map_congr_left fun e _ => ?_
      simp only [Function.comp_apply]
      rw [fst_toVars]
      exact idxOf_map String.ofList (fun _ _ => ofList_inj) _ _
    have e2 : (toVars env num d (assign m n v)).length = (assign m n v).length := by simp [toVars]
    rw [e1, e2]
    unfold toVars
    rw [List.map_append, List.map_cons, List.map_take, List.map_drop]

theorem mapM_axes (m : OMap (List Char) (Val α)) (ns : List (List Char)) (cols : List (List α))
    (h : ns.mapM (column? m) = .ok cols) :
    ns.mapM (axisOf (toVars env num d m)) = .ok (cols.map (colArr env d)) := by
  induction ns generalizing cols with
  | nil =>
    simp only [List.mapM_nil] at h
    cases h
    rfl
  | cons n ns ih =>
    rw [List.mapM_cons] at h ⊢
    cases hc : column? m n with
    | error e => rw [hc] at h; cases h
    | ok l =>
      rw [hc] at h
      cases hr : ns.mapM (column? m) with
      | error e => rw [hr] at h; cases h
      | ok ls =>
        rw [hr] at h
        cases h
        rw [ih _ hr]
        have : axisOf (toVars env num d m) n = .ok (colArr env d l) := by
          unfold axisOf
          rw [lookup_toVars]
          unfold column? at hc
          split at hc
          · rename_i l' hl
            cases hc
            rw [hl]
            rfl
          · cases hc
          · cases hc
        rw [this]
        rfl

theorem sameRows_cols (cols : List (List α)) (h : sameLength cols = true) : sameRows (cols.map (colArr env d)) = true := by
  cases cols with
  | nil => rfl
  | cons c t =>
    unfold sameLength at h
    unfold sameRows
    rw [List.all_eq_true] at h ⊢
    intro a ha
    obtain ⟨l, hl, rfl⟩ := List.mem_map.1 ha
    have := h l hl
    simp only [List.headD_cons, beq_iff_eq] at this
    simp [colArr, this]

theorem makeMatrixB_toVars (m m' : OMap (List Char) (Val α)) (n : List Char) (l : List MatEntry)
    (h : makeMatrix m n l = .ok m') : makeMatrixB env num (toVars env num d m) n l = .ok (toVars env num d m') := by
  unfold makeMatrix at h
  unfold makeMatrixB
  simp only at h ⊢
  cases hc : (List.map (fun e => matName n e.1 e.2) (Py.sortBy pairLt (List.map (fun e => (e.2.1, e.2.2.1)) l))).mapM (column? m) with
  | error e => rw [hc] at h; cases h
  | ok cols =>
    rw [hc] at h
    rw [mapM_axes env num d m _ _ hc]
    simp only at h ⊢
    split at h
    · rename_i hs
      rw [if_pos (sameRows_cols env d cols hs)]
      have := place_toVars env num d m n (.matrix ((Py.sortBy pairLt (List.map (fun e => (e.2.1, e.2.2.1)) l)).map Prod.fst).dedup.length
        ((Py.sortBy pairLt (List.map (fun e => (e.2.1, e.2.2.1)) l)).map Prod.snd).dedup.length cols)
        ((Py.sortBy pairLt (List.map (fun e => (e.2.1, e.2.2.1)) l)).map fun e => matName n e.1 e.2)
      rw [h] at this
      exact this
    · cases h

theorem makeVectorB_toVars (m m' : OMap (List Char) (Val α)) (n : List Char) (l : List VecEntry)
    (h : makeVector m n l = .ok m') : makeVectorB env num (toVars env num d m) n l = .ok (toVars env num d m') := by
  unfold makeVector at h
  unfold makeVectorB
  simp only at h ⊢
  cases hc : (List.map (vecName n) (Py.sortBy (fun a b => decide (a < b)) (List.map (fun e => e.2.1) l))).mapM (column? m) with
  | error e => rw [hc] at h; cases h
  | ok cols =>
    rw [hc] at h
    rw [mapM_axes env num d m _ _ hc]
    simp only at h ⊢
    split at h
    · rename_i hs
      rw [if_pos (sameRows_cols env d cols hs)]
      have := place_toVars env num d m n (.vector cols)
        ((Py.sortBy (fun a b => decide (a < b)) (List.map (fun e => e.2.1) l)).map (vecName n))
      rw [h] at this
      exact this
    · cases h

theorem makeAll_toVars {E : Type} {f : OMap (List Char) (Val α) → List Char → List E → Except Err (OMap (List Char) (Val α))}
    {g : OMap String (Arr β α) → List Char → List E → Except Err (OMap String (Arr β α))}
    (hfg : ∀ m m' n l, f m n l = .ok m' → g (toVars env num d m) n l = .ok (toVars env num d m')) (L : List (List Char × List E)) :
    ∀ m m', makeAll f L m = .ok m' → makeAll g L (toVars env num d m) = .ok (toVars env num d m') := by
  induction L with
  | nil => intro m m' h; cases h; rfl
  | cons x L ih =>
    intro m m' h
    rw [makeAll] at h ⊢
    cases hf : f m x.1 x.2 with
    | error e => rw [hf] at h; cases h
    | ok m1 =>
      rw [hf] at h
      rw [hfg _ _ _ _ hf]
      exact ih m1 m' h

/-- The arrays of the block are put together as the lists are. -/
theorem assemble_toVars (header : List (List Char)) (b : Block β α) (m m' : OMap (List Char) (Val α))
    (hb : b.vars = toVars env num d m) (h : makeMatrices m header = .ok m') :
    assemble env num header b = .ok { b with vars := toVars env num d m' } := by
  unfold makeMatrices at h
  cases h1 : makeAll makeMatrix (matchNames header).matrix m with
  | error e => rw [h1] at h; cases h
  | ok m1 =>
    rw [h1] at h
    unfold assemble
    rw [hb, makeAll_toVars env num d (makeMatrixB_toVars env num d) _ _ _ h1]
    simp only
    rw [makeAll_toVars env num d (makeVectorB_toVars env num d) _ _ _ h]

end

end HF.Mdif
