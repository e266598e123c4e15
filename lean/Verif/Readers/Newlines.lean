import Verif.Readers.WholeProps
/-
C98: files from other systems, with other ends of lines.
-/
namespace HF.Readers.Dispatch

/-- The ends of lines of Unix, of Windows and of old Macintosh computers. -/
def LineEnd (e : List Char) : Prop := e = ['\n'] ∨ e = ['\r', '\n'] ∨ e = ['\r']

theorem fileLines_crlf (l rest : List Char) (h : OneLine l) :
    fileLines (l ++ '\r' :: '\n' :: rest) = (l ++ ['\n']) :: fileLines rest := by
  induction l with
  | nil => simp [fileLines]
  | cons c l ih =>
    have h1 : c ≠ '\n' := fun e => h.1 (by simp [e])
    have h2 : c ≠ '\r' := fun e => h.2 (by simp [e])
    have ih := ih ⟨fun e => h.1 (by simp [e]), fun e => h.2 (by simp [e])⟩
    rw [List.cons_append, fileLines]
    · rw [ih]; rfl
    · exact h1
    · intro t e; exact absurd e h2
    · exact h2

theorem fileLines_cr (l rest : List Char) (h : OneLine l) (hr : rest.head? ≠ some '\n') :
    fileLines (l ++ '\r' :: rest) = (l ++ ['\n']) :: fileLines rest := by
  induction l with
  | nil =>
    cases rest with
    | nil => simp [fileLines]
    | cons c rest =>
      have hc : c ≠ '\n' := fun e => hr (by simp [e])
      rw [List.nil_append, fileLines]
      · rfl
      · intro t e; exact hc (List.cons.inj e).1
  | cons c l ih =>
    have h1 : c ≠ '\n' := fun e => h.1 (by simp [e])
    have h2 : c ≠ '\r' := fun e => h.2 (by simp [e])
    have ih := ih ⟨fun e => h.1 (by simp [e]), fun e => h.2 (by simp [e])⟩
    rw [List.cons_append, fileLines]
    · rw [ih]; rfl
    · exact h1
    · intro t e; exact absurd e h2
    · exact h2

theorem fileLines_last (l : List Char) (h : OneLine l) : fileLines l = if l = [] then [] else [l] := by
  induction l with
  | nil => simp [fileLines]
  | cons c l ih =>
    have h1 : c ≠ '\n' := fun e => h.1 (by simp [e])
    have h2 : c ≠ '\r' := fun e => h.2 (by simp [e])
    have ih := ih ⟨fun e => h.1 (by simp [e]), fun e => h.2 (by simp [e])⟩
    rw [fileLines]
    · rw [ih]
      by_cases hl : l = []
      · simp [hl]
      · simp [hl]
    · exact h1
    · intro t e; exact absurd e h2
    · exact h2

theorem fileLines_ends (e : List Char) (he : LineEnd e) (last : List Char) (hl : OneLine last) :
    ∀ ls : List (List Char), (∀ l ∈ ls, OneLine l) →
      fileLines (ls.flatMap (· ++ e) ++ last) = ls.map (· ++ ['\n']) ++ if last = [] then [] else [last]
  | [], _ => by simpa using fileLines_last last hl
  | l :: ls, h => by
    have ih := fileLines_ends e he last hl ls fun l hl => h l (by simp [hl])
    have h1 := h l (by simp)
    rw [List.flatMap_cons, List.append_assoc, List.append_assoc, List.map_cons, List.cons_append, ← ih]
    rcases he with rfl | rfl | rfl
    · exact fileLines_line l _ h1
    · exact fileLines_crlf l _ h1
    · refine fileLines_cr l _ h1 ?_
      have hh : ∀ ls : List (List Char), (∀ l ∈ ls, OneLine l) →
          (ls.flatMap (· ++ ['\r']) ++ last).head? ≠ some '\n' := by
        intro ls h
        cases ls with
        | nil =>
          cases last with
          | nil => simp
          | cons c t => intro e; simp at e; exact hl.1 (by simp [e])
        | cons k ls =>
          have hk := h k (by simp)
          cases k with
          | nil => simp
          | cons c t => intro e; simp at e; exact hk.1 (by simp [e])
      exact hh ls fun l hl => h l (by simp [hl])

/-- C98: the ends of lines do not matter: a file gives the same with those of Windows or of Macintosh as with those of
Unix, whatever its lines are; and the readers get the same lines if the last line has no end. -/
theorem C98_newlines {δ : Type} (R : Readers δ) (e : List Char) (he : LineEnd e) (ls : List (List Char))
    (h : ∀ l ∈ ls, OneLine l) :
    readText R (ls.flatMap (· ++ e)) = readText R (ls.flatMap (· ++ ['\n'])) ∧
    ∀ last, OneLine last → last ≠ [] →
      (fileLines (ls.flatMap (· ++ e) ++ last)).map chomp = ls ++ [last] := by
  constructor
  · have h0 : OneLine [] := by simp [OneLine]
    have a := fileLines_ends e he [] h0 ls h
    have b := fileLines_ends ['\n'] (Or.inl rfl) [] h0 ls h
    rw [List.append_nil] at a b
    unfold readText
    rw [a, b]
  · intro last hl hne
    rw [fileLines_ends e he last hl ls h, if_neg hne, List.map_append, List.map_map]
    have h2 : chomp last = last := by
      unfold chomp
      rw [if_neg]
      intro e
      exact hl.1 (List.mem_of_getLast? e)
    simp [Function.comp_def, chomp_line, h2]

/-- The hypotheses hold for a short Touchstone file from Windows. -/
example {δ : Type} (R : Readers δ) : readText R "# MHz S MA R 50\r\n\r\n1 0.5 90\r\n".toList =
    readText R "# MHz S MA R 50\n\n1 0.5 90\n".toList :=
  (C98_newlines R ['\r', '\n'] (Or.inr (Or.inl rfl)) ["# MHz S MA R 50".toList, [], "1 0.5 90".toList]
    (by unfold OneLine; decide +kernel)).1

end HF.Readers.Dispatch
