import Verif.Readers.Files
import Verif.DataBlock.Writes
/-
Reading one file: what is added to its block.
-/
namespace HF.Readers.Files

open HF.DataDict.Spec HF.DataBlock
open HF.DataDict hiding rename delitem

variable {β α σ : Type}

/-- A file with one block, without variables for the name and the index of the file, which are added. -/
theorem single_file [DecidableEq β] (env : Env β α) (ofIdx : Nat → β) (en : Enum String) (ofName : String → α)
    (blocksOf : σ → Except DataBlock.Err (List (Block β α))) (name : String) (text : σ) (b : Block β α)
    (hb : blocksOf text = .ok [b]) (hv : ∀ n ∈ ["FILEINDEX", "FILENAME"], n ∉ keys b.vars)
    (hi : ∀ n ∈ ["FILEINDEX", "FILENAME"], n ∉ keys b.ivars) :
    ∃ r, readFiles env ofIdx en ofName true blocksOf [(name, text)] = .ok r ∧
      (∀ k, lookup r.vars k = if k = "FILENAME" then some ⟨[], ⟨[], fun _ => ofName name⟩⟩ else lookup b.vars k) ∧
      ∀ k, lookup r.ivars k = if k = "FILEINDEX" then some ⟨.dimPartial, "FILEINDEX", [ofIdx 0], none, none⟩
        else lookup b.ivars k := by
  have hidx : addIndex ofIdx 0 b = setDim b "FILEINDEX" (fileIndex ofIdx 0) := by
    unfold addIndex
    rw [if_neg]
    unfold contains
    rw [Bool.or_eq_true, member_iff, member_iff]
    rintro (h' | h')
    · exact hv _ (by simp) h'
    · exact hi _ (by simp) h'
  obtain ⟨b1, hb1⟩ : ∃ b1, b1 = setDim b "FILEINDEX" (fileIndex ofIdx 0) := ⟨_, rfl⟩
  have hl1 : b1.vars = b.vars := by rw [hb1]; rfl
  have hl2 : ∀ k, lookup b1.ivars k = if k = "FILEINDEX" then some (fileIndex ofIdx 0) else lookup b.ivars k := by
    intro k
    rw [hb1]
    show lookup (assign b.ivars _ _) k = _
    rw [lookup_assign]
  have hk2 : "FILENAME" ∉ keys b1.ivars := by
    rw [← lookup_none_iff', hl2, if_neg (by decide), lookup_none_iff']
    exact hi _ (by simp)
  have hname := setArr_new env b1 "FILENAME" (⟨[], ⟨[], fun _ => ofName name⟩⟩ : Arr β α) hk2
    (by rw [hl1]; exact hv _ (by simp)) (by
      intro m i j hm
      have : isMatrixName "FILENAME" = none := by decide
      rw [this] at hm
      cases hm)
  refine ⟨⟨b1.vars ++ [("FILENAME", ⟨[], ⟨[], fun _ => ofName name⟩⟩)], b1.ivars, nextXname b1.xname ([] : List (Dim β))⟩, ?_, ?_, ?_⟩
  · have hadd : addName env ofName name b1 = .ok ⟨b1.vars ++ [("FILENAME", ⟨[], ⟨[], fun _ => ofName name⟩⟩)],
        b1.ivars, nextXname b1.xname ([] : List (Dim β))⟩ := by
      unfold addName
      rw [if_neg, hname]
      · rfl
      · unfold contains
        rw [Bool.or_eq_true, member_iff, member_iff]
        rintro (h' | h')
        · rw [hl1] at h'; exact hv _ (by simp) h'
        · exact hk2 h'
    simp only [readFiles, readEach, doFile, hb, mergeOf, hidx, ← hb1, hadd, List.isEmpty_cons, Bool.false_eq_true, if_false, if_true]
  · intro k
    show lookup (b1.vars ++ [_]) k = _
    rw [DataDict.lookup_append, hl1, DataDict.lookup_singleton]
    by_cases hk : k = "FILENAME"
    · subst hk
      rw [(lookup_none_iff' _ _).2 (hv "FILENAME" (by simp))]
      simp
    · rw [if_neg hk, if_neg (Ne.symm hk)]
      simp
  · exact hl2

/-- C60: a block that has `FILEINDEX` of its own keeps it, as a dim or as a variable, and if it has
`FILENAME` too, it is returned as it is. -/
theorem C60_own [DecidableEq β] (env : Env β α) (ofIdx : Nat → β) (en : Enum String) (ofName : String → α)
    (blocksOf : σ → Except DataBlock.Err (List (Block β α))) (name : String) (text : σ) (b : Block β α)
    (hb : blocksOf text = .ok [b]) (hi : "FILEINDEX" ∈ keys b.vars ∨ "FILEINDEX" ∈ keys b.ivars) :
    ∃ r, readFiles env ofIdx en ofName true blocksOf [(name, text)] = .ok r ∧
      (∀ k, k ≠ "FILENAME" → lookup r.vars k = lookup b.vars k) ∧
      (∀ k, lookup r.ivars k = lookup b.ivars k) ∧
      ("FILENAME" ∈ keys b.vars ∨ "FILENAME" ∈ keys b.ivars → r = b) := by
  have hidx : addIndex ofIdx 0 b = b := by
    unfold addIndex
    rw [if_pos]
    unfold contains
    rw [Bool.or_eq_true, member_iff, member_iff]
    exact hi
  have step : ∀ r, addName env ofName name b = .ok r →
      readFiles env ofIdx en ofName true blocksOf [(name, text)] = .ok r := by
    intro r hr
    simp only [readFiles, readEach, doFile, hb, mergeOf, hidx, hr, List.isEmpty_cons, Bool.false_eq_true,
      if_false, if_true]
  by_cases hn : "FILENAME" ∈ keys b.vars ∨ "FILENAME" ∈ keys b.ivars
  · refine ⟨b, step b ?_, fun _ _ => rfl, fun _ => rfl, fun _ => rfl⟩
    unfold addName
    rw [if_pos]
    unfold contains
    rw [Bool.or_eq_true, member_iff, member_iff]
    exact hn
  · rw [not_or] at hn
    have hname := setArr_new env b "FILENAME" (⟨[], ⟨[], fun _ => ofName name⟩⟩ : Arr β α) hn.2 hn.1 (by
      intro m i j hm
      have : isMatrixName "FILENAME" = none := by decide
      rw [this] at hm
      cases hm)
    refine ⟨⟨b.vars ++ [("FILENAME", ⟨[], ⟨[], fun _ => ofName name⟩⟩)], b.ivars,
      nextXname b.xname ([] : List (Dim β))⟩, step _ (by
      unfold addName
      rw [if_neg, hname]
      · rfl
      · unfold contains
        rw [Bool.or_eq_true, member_iff, member_iff, not_or]
        exact hn), fun k hk => ?_, fun k => rfl, fun h => absurd h (not_or.2 hn)⟩
    show lookup (b.vars ++ [_]) k = _
    rw [DataDict.lookup_append, DataDict.lookup_singleton, if_neg (Ne.symm hk)]
    simp

end HF.Readers.Files
