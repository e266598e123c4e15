import Verif.Readers.Saved
import Verif.Readers.DispatchProps
/-
C96: lemmas about lines.
-/
namespace HF.Readers.Dispatch

/-- Text without line breaks. -/
def OneLine (l : List Char) : Prop := '\n' ∉ l ∧ '\r' ∉ l

/-- Text that begins, after blanks, with something that is not the beginning of one of the formats. -/
def Harmless (l : List Char) : Prop :=
  l.dropWhile isSpace ≠ [] ∧
    ∀ p ∈ ["VAR".toList, "CITIFILE".toList, "MATLAB".toList, "#".toList], ¬ p <+: l.dropWhile isSpace

theorem fileLines_line (l rest : List Char) (h : OneLine l) : fileLines (l ++ '\n' :: rest) = (l ++ ['\n']) :: fileLines rest := by
  induction l with
  | nil => simp [fileLines]
  | cons c l ih =>
    have h1 : c ≠ '\n' := fun e => h.1 (by simp [e])
    have h2 : c ≠ '\r' := fun e => h.2 (by simp [e])
    have ih := ih ⟨fun e => h.1 (by simp [e]), fun e => h.2 (by simp [e])⟩
    rw [List.cons_append, fileLines]
    · rw [ih]; rfl
    · exact h1
    · intro t e; exact absurd e h2
    · exact h2

theorem fileLines_text (pre post : List (List Char)) (h : ∀ l ∈ pre, OneLine l) :
    fileLines (textOf (pre ++ post)) = pre.map (· ++ ['\n']) ++ fileLines (textOf post) := by
  induction pre with
  | nil => rfl
  | cons l pre ih =>
    have e : textOf (l :: pre ++ post) = l ++ '\n' :: textOf (pre ++ post) := by simp [textOf]
    rw [e, fileLines_line l _ (h l (by simp)), ih fun l hl => h l (by simp [hl])]
    rfl

theorem shows_sign {f : File} (h5 : f.hdf5 = false) {l : List Char} {a : Format} (h : Shows f l a) :
    firstSign l = some 'V' ∨ firstSign l = some 'C' ∨ firstSign l = some '#' ∨ firstSign l = some 'M' := by
  cases h with
  | mdif h => exact .inl (isMdif_sign h)
  | hdf5 h => rw [h5] at h; cases h
  | citi h => exact .inr (.inl (isCiti_sign h))
  | touchstone h => exact .inr (.inr (.inl (isTouchstone_sign h)))
  | muwave h => exact .inr (.inr (.inr (isMuwave_sign h)))

/-- A line that begins with another character shows nothing. -/
theorem quiet_sign {f : File} (h5 : f.hdf5 = false) {l : List Char}
    (h : ∀ c, firstSign l = some c → c ∉ ['V', 'C', '#', 'M']) (a : Format) : ¬ Shows f l a := by
  intro hs
  rcases shows_sign h5 hs with e | e | e | e <;> exact h _ e (by decide)

theorem dropWhile_append_ne {p : Char → Bool} : ∀ {l : List Char} (r : List Char), l.dropWhile p ≠ [] →
    (l ++ r).dropWhile p = l.dropWhile p ++ r
  | [], r, h => absurd rfl h
  | c :: l, r, h => by
    rw [List.cons_append, List.dropWhile_cons, List.dropWhile_cons]
    rw [List.dropWhile_cons] at h
    split
    · rename_i e
      rw [if_pos e] at h
      exact dropWhile_append_ne r h
    · rfl

theorem prefix_append {p w r : List Char} (hp : ∀ c ∈ p, isSpace c = false) (hr : ∀ c ∈ r.head?, isSpace c = true)
    (h : p <+: w ++ r) : p <+: w := by
  induction p generalizing w with
  | nil => exact List.nil_prefix
  | cons a p ih =>
    cases w with
    | nil =>
      cases r with
      | nil => simpa using h
      | cons b r =>
        have := (List.cons_prefix_cons.1 (by simpa using h)).1
        subst this
        have h1 := hp a (by simp)
        rw [hr a rfl] at h1
        cases h1
    | cons b w =>
      rw [List.cons_append, List.cons_prefix_cons] at h
      exact List.cons_prefix_cons.2 ⟨h.1, ih (fun c hc => hp c (by simp [hc])) h.2⟩

theorem isPrefix_iff : ∀ p l : List Char, isPrefix p l = true ↔ p <+: l
  | [], l => by simp [isPrefix]
  | a :: p, [] => by simp [isPrefix]
  | a :: p, c :: t => by
    rw [isPrefix, Bool.and_eq_true, decide_eq_true_eq, isPrefix_iff p t, List.cons_prefix_cons]

theorem isMdif_prefix {l : List Char} (h : isMdif l = true) : "VAR".toList <+: l.dropWhile isSpace := by
  unfold isMdif at h
  split at h
  · rename_i t e
    obtain ⟨w, h1, h2⟩ := dropWhile_head e
    have hs : ∀ x ∈ w, isSpace x = true := by
      intro x hx
      have := h2 x hx
      simp only [isTab, Bool.or_eq_true, decide_eq_true_eq] at this
      rcases this with rfl | rfl <;> rfl
    rw [h1, dropWhile_of_append hs (by decide)]
    exact ⟨t, rfl⟩
  · cases h

theorem dropWhile_of_prefix {p : List Char} {a : Char} {l : List Char} (h : a :: p <+: l) (ha : isSpace a = false) :
    l.dropWhile isSpace = l := by
  obtain ⟨t, rfl⟩ := h
  simp [List.dropWhile_cons, ha]

/-- A harmless word, with blanks and other words after it, shows nothing. -/
theorem quiet_word {f : File} (h5 : f.hdf5 = false) {w r : List Char} (hw : Harmless w)
    (hr : ∀ c ∈ r.head?, isSpace c = true) (a : Format) : ¬ Shows f (w ++ r) a := by
  have hd := dropWhile_append_ne r hw.1
  have key : ∀ p ∈ ["VAR".toList, "CITIFILE".toList, "MATLAB".toList, "#".toList],
      ¬ p <+: (w ++ r).dropWhile isSpace := by
    intro p hp hpre
    rw [hd] at hpre
    refine hw.2 p hp (prefix_append ?_ hr hpre)
    clear hpre
    revert p
    decide
  intro hs
  cases hs with
  | mdif h => exact key _ (by simp) (isMdif_prefix h)
  | hdf5 h => rw [h5] at h; cases h
  | citi h =>
    have h := (isPrefix_iff _ _).1 h
    refine key "CITIFILE".toList (by decide) ?_
    rw [dropWhile_of_prefix h (by decide)]
    exact h
  | touchstone h =>
    refine key "#".toList (by decide) ?_
    unfold isTouchstone at h
    split at h
    · rename_i t e
      rw [e]
      exact ⟨t, rfl⟩
    · cases h
  | muwave h =>
    have h := (isPrefix_iff _ _).1 h
    refine key "MATLAB".toList (by decide) ?_
    rw [dropWhile_of_prefix h (by decide)]
    exact List.IsPrefix.trans (by decide) h

theorem firstSign_cons (c : Char) (l : List Char) (h : isSpace c = false) : firstSign (c :: l) = some c := by
  simp [firstSign, List.dropWhile_cons, h]

/-- A line with another sign at its beginning. -/
theorem quiet_cons {f : File} (h5 : f.hdf5 = false) (c : Char) (l : List Char) (h : isSpace c = false)
    (hc : c ∉ ['V', 'C', '#', 'M']) (a : Format) : ¬ Shows f (c :: l) a := by
  refine quiet_sign h5 ?_ a
  intro c' e
  rw [firstSign_cons c l h] at e
  cases e
  exact hc

/-- The line that decides. -/
theorem taken_line (pre : List (List Char)) (l : List Char) (post : List (List Char))
    (h1 : ∀ l ∈ pre, OneLine l) (hl : OneLine l)
    (hq : ∀ (f : File), f.hdf5 = false → ∀ l ∈ pre, ∀ a, ¬ Shows f (l ++ ['\n']) a) (a : Format)
    (ha : ∀ f : File, Shows f (l ++ ['\n']) a) : takenFor (pre ++ l :: post) = a := by
  unfold takenFor
  have e : fileLines (textOf (pre ++ l :: post)) =
      pre.map (· ++ ['\n']) ++ (l ++ ['\n']) :: fileLines (textOf post) := by
    rw [fileLines_text pre _ h1]
    congr 1
    exact fileLines_text [l] post (by simpa using hl)
  rw [e]
  refine C38_first_line isfile (List.Perm.refl _) _ rfl _ _ _ ?_ a (ha _)
  intro l' hl'
  obtain ⟨l, hl, rfl⟩ := List.mem_map.1 hl'
  exact hq _ rfl l hl

/-- No line decides. -/
theorem taken_sp (ls : List (List Char)) (h1 : ∀ l ∈ ls, OneLine l)
    (hq : ∀ (f : File), f.hdf5 = false → ∀ l ∈ ls, ∀ a, ¬ Shows f (l ++ ['\n']) a) : takenFor ls = .sp := by
  unfold takenFor
  have e := fileLines_text ls [] h1
  rw [List.append_nil] at e
  rw [e]
  refine C38_none ⟨_, false⟩ ?_
  intro l' hl'
  simp only [textOf, List.flatMap_nil, fileLines, List.append_nil] at hl' ⊢
  obtain ⟨l, hl, rfl⟩ := List.mem_map.1 hl'
  exact hq _ rfl l hl

end HF.Readers.Dispatch
