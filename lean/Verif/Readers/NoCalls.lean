import Verif.Readers.Complex
import Verif.DataBlock.Writes
import Verif.DataBlock.ConvertProps
/-
Blocks without names that are calls of functions stay as they are.
-/
namespace HF.Readers.Complex

open HF.DataBlock
open HF.DataDict.Spec
open HF.DataDict hiding rename delitem

variable {β α : Type}

theorem outer_plain {s : String} (h : '(' ∉ s.toList) : outer s = ("", s) := by
  unfold outer
  have : parseCall s.toList = none := by
    unfold parseCall
    simp only
    split
    · rename_i hr
      exfalso
      refine h ?_
      have h1 : '(' ∈ List.dropWhile (· = ' ') (List.dropWhile (fun c => isLetter c || isDig c) (s.toList.takeWhile (· ≠ '\n'))) := by
        rw [hr]; simp
      exact (List.takeWhile_subset _) ((List.dropWhile_suffix _).subset ((List.dropWhile_suffix _).subset h1))
    · rfl
  rw [this]

/-- No name is that of a part of a number. -/
def Whole (m : OMap String (OMap String String)) : Prop :=
  ∀ v alt, lookup m v = some alt → lookup alt "Re" = none ∧ lookup alt "Mag" = none

theorem addName_whole {m : OMap String (OMap String String)} (hm : Whole m) {s : String} (h : '(' ∉ s.toList) :
    Whole (addName m s) := by
  intro v alt hl
  unfold addName at hl
  rw [outer_plain h, lookup_assign] at hl
  simp only at hl
  split at hl
  · cases hl
    rw [lookup_assign, lookup_assign, if_neg (by decide), if_neg (by decide)]
    cases hs : lookup m s with
    | none => exact ⟨rfl, rfl⟩
    | some alt => exact hm s alt hs
  · exact hm v alt hl

theorem loop_whole (env : Env β α) (full : Arr β α → Arr β α) (rect polar : α → α → α) (b : Block β α)
    (l : List (String × OMap String String)) (h : ∀ p ∈ l, lookup p.2 "Re" = none ∧ lookup p.2 "Mag" = none) :
    loop env full rect polar b l = .ok b := by
  induction l with
  | nil => rfl
  | cons p t ih =>
    obtain ⟨h1, h2⟩ := h p (by simp)
    rw [loop]
    simp only [step, h1, h2]
    exact ih fun q hq => h q (by simp [hq])

theorem makeCplx_plain (env : Env β α) (full : Arr β α → Arr β α) (rect polar : α → α → α) (b : Block β α)
    (h : ∀ k ∈ keys b.vars ++ keys b.ivars, '(' ∉ k.toList) : makeCplx env full rect polar b = .ok b := by
  unfold makeCplx
  have key : ∀ (l : List String) (m : OMap String (OMap String String)), (keys m).Nodup → Whole m → (∀ k ∈ l, '(' ∉ k.toList) →
      (keys (l.foldl addName m)).Nodup ∧ Whole (l.foldl addName m) := by
    intro l
    induction l with
    | nil => exact fun m h1 h2 _ => ⟨h1, h2⟩
    | cons k t ih =>
      intro m h1 h2 h3
      refine ih _ ?_ (addName_whole h2 (h3 k (by simp))) fun k' hk' => h3 k' (by simp [hk'])
      unfold addName
      exact keys_assigns_nodup [(_, _)] m h1
  obtain ⟨h1, h2⟩ := key (allNames b) [] (by simp [keys]) (by intro v alt h; cases h) (by
    intro k hk
    refine h k ?_
    unfold allNames at hk
    rcases List.mem_append.1 hk with hk | hk
    · exact List.mem_append_right _ hk
    · exact List.mem_append_left _ (List.mem_filter.1 hk).1)
  refine loop_whole env full rect polar b _ fun p hp => ?_
  exact h2 p.1 p.2 (mem_lookup h1 hp)

end HF.Readers.Complex
