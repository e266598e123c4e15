import Verif.Mdif.WriteProps
import Verif.Mdif.StepsProps
/-
What a saved MDIF file says.
-/
namespace HF.Mdif

open HF.DataDict.Spec HF.DataBlock
open HF.DataDict hiding rename delitem
open Units (isWs strip)
open Text (IsWord join words)
open HF.Comments (PVal)

variable {β α : Type} [DecidableEq β]

/-- The comment of a saved file, in front of its first block. -/
def createdLine (time : List Char) : List Char := strip ("Created: ".toList ++ time)

/-- The text of the part at a position. -/
structure SavedPart (env : Env β α) (num : Num α) (d : Dim β) (ds : List (Dim β)) (vs : List (String × Arr β α))
    (time : List Char) (k : Nat) (idx : List Nat) (cs : List β) (s : Sheet) : Prop where
  picks : Picks ds idx cs
  comments : s.comments = if k = 0 then [createdLine time] else []
  name : s.name = "DATABLOCK".toList
  describes : Describes num s (contentAt env d ds vs idx cs)
  titles : TitlesOf d vs s

theorem saved_parts (env : Env β α) (pr : Printer α β) (num : Num α) (en : Enum (List (Dim β))) (time : List Char)
    (b b1 : Block β α) (hc : convert env b = .ok b1) (d : Dim β) (ds : List (Dim β))
    (hs : Savable env pr num d ds b1.vars) :
    ∃ (lines : List (List Char)) (xs : List (List Nat × List β × Sheet)), save env pr en time b = (lines, none) ∧
      List.Forall₂ Says (lines.filter nonblank) (xs.flatMap (fun x => x.2.2.toks) ++ []) ∧ xs ≠ [] ∧
      xs.map (fun x => x.1) = positions (ds.map fun x => x.data.length) ∧
      ∀ (k : Nat) x, xs[k]? = some x → SavedPart env num d ds b1.vars time k x.1 x.2.1 x.2.2 := by
  obtain ⟨sub, e1, e2⟩ := savable_split env pr num en hs
  rw [← e1] at hs ⊢
  obtain ⟨parts, f1, f2⟩ := block_lines env pr num hs
  have hne : parts ≠ [] := by
    rintro rfl
    refine positions_ne (ds.map fun x => x.data.length) ?_ f2.symm
    intro n hn h0
    obtain ⟨x, hx, rfl⟩ := List.mem_map.1 hn
    exact hs.nonempty x (List.mem_cons_of_mem _ hx) (List.length_eq_zero_iff.1 h0)
  obtain ⟨p0, parts, rfl⟩ := List.exists_cons_of_ne_nil hne
  have hsave : save env pr en time b = (("!Created: ".toList ++ time) :: (p0 :: parts).flatMap Part.lines, none) := by
    unfold save
    rw [hc]
    simp only [e2, f1, andThen_ok]
    simp
  obtain ⟨s0, hs0⟩ : ∃ s0 : Sheet, s0 = { p0.sheet with comments := [createdLine time] } := ⟨_, rfl⟩
  refine ⟨_, (p0.idx, p0.cs, s0) :: parts.map fun p => (p.idx, p.cs, p.sheet), hsave, ?_, by simp, ?_, ?_⟩
  · have hsays : List.Forall₂ Says (("!Created: ".toList ++ time) :: (p0 :: parts).flatMap Part.lines)
        (((p0.idx, p0.cs, s0) :: parts.map fun p => (p.idx, p.cs, p.sheet)).flatMap (fun x => x.2.2.toks) ++ []) := by
      have h0 : Says ("!Created: ".toList ++ time) ⟨.comment, createdLine time⟩ :=
        Says.comment [] ("Created: ".toList ++ time) (by simp)
      have h1 : s0.toks = ⟨.comment, createdLine time⟩ :: p0.sheet.toks := by
        rw [hs0]
        simp [Sheet.toks, p0.comments, toks]
      rw [List.append_nil, List.flatMap_cons, List.flatMap_cons, h1, List.cons_append]
      refine .cons h0 (List.rel_append p0.said ?_)
      rw [List.flatMap_map]
      clear * -
      induction parts with
      | nil => exact .nil
      | cons p parts ih =>
        rw [List.flatMap_cons, List.flatMap_cons]
        exact List.rel_append p.said ih
    rw [all_nonblank hsays]
    exact hsays
  · rw [← f2]
    simp [Function.comp_def]
  · intro k x hk
    cases k with
    | zero =>
      simp only [List.getElem?_cons_zero, Option.some.injEq] at hk
      subst hk
      simp only [hs0]
      exact ⟨p0.picks, by simp, p0.name, ⟨p0.describes.table, p0.describes.name, p0.describes.vars, p0.describes.attribs⟩, p0.titles⟩
    | succ k =>
      rw [List.getElem?_cons_succ, List.getElem?_map] at hk
      cases hp : parts[k]? with
      | none => rw [hp] at hk; cases hk
      | some p =>
        rw [hp] at hk
        simp only [Option.map_some, Option.some.injEq] at hk
        subst hk
        exact ⟨p.picks, by simp [p.comments], p.name, p.describes, p.titles⟩

/-- The time of saving as the value of a property; a blank text is none. -/
def createdAt (time : List Char) : Option PVal := if strip time = [] then none else some (Comments.value none (strip time))

theorem strip_created (time : List Char) : ∃ w, Comments.Blank w ∧
    createdLine time = if strip time = [] then "Created:".toList else "Created:".toList ++ (w ++ strip time) := by
  obtain ⟨a, b, h1, h2, h3, h4, h5⟩ := (Text.strip_iff time (strip time)).1 rfl
  refine ⟨' ' :: a, ?_, ?_⟩
  · intro c hc
    rcases List.mem_cons.1 hc with rfl | hc
    · decide
    · exact h2 c hc
  · unfold createdLine
    rw [Text.strip_iff]
    by_cases he : strip time = []
    · rw [if_pos he]
      refine ⟨[], ' ' :: (a ++ b), ?_, by simp [Text.Blank], ?_, by decide, by decide⟩
      · conv_lhs => rw [h1, he]
        simp
      · intro c hc
        rcases List.mem_cons.1 hc with rfl | hc
        · decide
        · rcases List.mem_append.1 hc with hc | hc
          · exact h2 c hc
          · exact h3 c hc
    · rw [if_neg he]
      refine ⟨[], b, ?_, by simp [Text.Blank], h3, ?_, ?_⟩
      · conv_lhs => rw [h1]
        simp
      · intro c hc
        have : c = 'C' := by simpa using hc.symm
        subst this
        decide
      · intro c hc
        refine h5 c ?_
        rw [List.getLast?_append, List.getLast?_append] at hc
        rw [List.getLast?_eq_some_getLast he] at hc ⊢
        simpa using hc

theorem created_property (time : List Char) : Comments.properties [createdLine time] =
    match createdAt time with
    | none => []
    | some v => [("Created", v)] := by
  obtain ⟨w, hw, h⟩ := strip_created time
  obtain ⟨a, b, -, -, -, h4, h5⟩ := (Text.strip_iff time (strip time)).1 rfl
  unfold createdAt
  by_cases he : strip time = []
  · rw [if_pos he]
    rw [if_pos he] at h
    rw [h]
    decide +kernel
  · rw [if_neg he] at h ⊢
    have hn : Comments.Name "Created".toList := ⟨⟨by decide, by decide⟩, by decide⟩
    have hp := Comments.C53_plain "Created".toList [] w (strip time) ':' hn (by decide) (by simp [Comments.Blank]) hw (Or.inl rfl) he ⟨h4, h5⟩
    have e : "Created".toList ++ [] ++ ':' :: (w ++ strip time) = createdLine time := by
      rw [h]
      simp
    rw [e] at hp
    have hc : Comments.clean (createdLine time) = createdLine time := by
      have := Comments.clean_text 0 [] [] (createdLine time) (by simp [Comments.Blank]) (by simp [Comments.Blank])
        (by rw [h]; simp) (by
          rw [h]
          refine ⟨?_, ?_⟩
          · intro c hc
            have : c = 'C' := by simpa using hc.symm
            subst this
            decide
          · intro c hc
            refine h5 c ?_
            rw [List.getLast?_append, List.getLast?_append] at hc
            rw [List.getLast?_eq_some_getLast he] at hc ⊢
            simpa using hc) (Or.inr (by rw [h]; simp))
      simpa using this
    unfold Comments.properties
    simp only [List.foldl_cons, List.foldl_nil, Comments.add]
    rw [hc]
    split
    · rename_i e'
      rw [h] at e'
      simp at e'
    · rw [hp]
      simp only [assign]
      rfl

end HF.Mdif
