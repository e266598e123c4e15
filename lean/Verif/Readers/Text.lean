import Verif.Units.Model
/-
Lines of text and the words in them, as python's `str` methods treat them.
-/
namespace HF.Text

open Units (isWs strip)

/-- `str.split()` -/
def wordsAux : List Char → List Char → List (List Char)
  | cur, [] => if cur = [] then [] else [cur]
  | cur, c :: r =>
    if isWs c then (if cur = [] then wordsAux [] r else cur :: wordsAux [] r) else wordsAux (cur ++ [c]) r

def words (s : List Char) : List (List Char) := wordsAux [] s

/-- `sep.join(fields)` for a single character. -/
def join (sep : Char) : List (List Char) → List Char
  | [] => []
  | [f] => f
  | f :: g :: fs => f ++ sep :: join sep (g :: fs)

/-- A word: not empty, no white space. -/
def IsWord (w : List Char) : Prop := w ≠ [] ∧ ∀ c ∈ w, isWs c = false

theorem wordsAux_word (w : List Char) (hw : ∀ c ∈ w, isWs c = false) (cur rest : List Char) :
    wordsAux cur (w ++ rest) = wordsAux (cur ++ w) rest := by
  induction w generalizing cur with
  | nil => simp
  | cons c w ih =>
    rw [List.cons_append, wordsAux, hw c (by simp)]
    simp only [Bool.false_eq_true, if_false]
    rw [ih (fun c hc => hw c (by simp [hc]))]
    simp

theorem words_join (sep : Char) (hs : isWs sep = true) : ∀ fs : List (List Char), (∀ f ∈ fs, IsWord f) →
    words (join sep fs) = fs
  | [], _ => rfl
  | [f], h => by
    obtain ⟨h1, h2⟩ := h f (by simp)
    rw [join, words, ← List.append_nil f, wordsAux_word f h2]
    simp [wordsAux, h1]
  | f :: g :: fs, h => by
    obtain ⟨h1, h2⟩ := h f (by simp)
    rw [join, words, wordsAux_word f h2, wordsAux, hs]
    simp only [List.nil_append, h1, if_false, if_true]
    have := words_join sep hs (g :: fs) fun f hf => h f (by simp [hf])
    rw [words] at this
    rw [this]

theorem join_cons (sep : Char) (f : List Char) (fs : List (List Char)) :
    ∃ r, join sep (f :: fs) = f ++ r := by
  cases fs with
  | nil => exact ⟨[], by simp [join]⟩
  | cons g fs => exact ⟨_, by rw [join]⟩

theorem join_snoc (sep : Char) (f : List Char) : ∀ fs : List (List Char),
    ∃ r, join sep (fs ++ [f]) = r ++ f
  | [] => ⟨[], by simp [join]⟩
  | [g] => ⟨g ++ [sep], by simp [join]⟩
  | g :: h :: fs => by
    obtain ⟨r, hr⟩ := join_snoc sep f (h :: fs)
    refine ⟨g ++ sep :: r, ?_⟩
    rw [List.cons_append, List.cons_append, join, ← List.cons_append, hr]
    simp

/-- Nothing is stripped if the first and the last character are no white space. -/
theorem strip_id (s : List Char) (h1 : ∀ c ∈ s.head?, isWs c = false) (h2 : ∀ c ∈ s.getLast?, isWs c = false) :
    strip s = s := by
  have key : ∀ l : List Char, (∀ c ∈ l.head?, isWs c = false) → l.dropWhile isWs = l := by
    intro l hl
    cases l with
    | nil => rfl
    | cons c l => rw [List.dropWhile_cons, hl c (by simp)]; simp
  unfold strip
  rw [key s h1, key s.reverse (by rw [List.head?_reverse]; exact h2), List.reverse_reverse]

theorem strip_join (sep : Char) (fs : List (List Char)) (h : ∀ f ∈ fs, IsWord f) :
    strip (join sep fs) = join sep fs := by
  apply strip_id
  · cases fs with
    | nil => simp [join]
    | cons f fs =>
      obtain ⟨r, hr⟩ := join_cons sep f fs
      obtain ⟨h1, h2⟩ := h f (by simp)
      rw [hr]
      cases f with
      | nil => exact absurd rfl h1
      | cons c f => simpa using h2 c (by simp)
  · rcases List.eq_nil_or_concat fs with rfl | ⟨gs, f, rfl⟩
    · simp [join]
    · rw [List.concat_eq_append] at *
      obtain ⟨r, hr⟩ := join_snoc sep f gs
      obtain ⟨h1, h2⟩ := h f (by simp)
      rw [hr]
      intro c hc
      rw [List.getLast?_append, List.getLast?_eq_some_getLast h1] at hc
      simp at hc
      rw [← hc]
      exact h2 _ (List.getLast_mem h1)

theorem mem_join (sep : Char) : ∀ (fs : List (List Char)) (c : Char), c ∈ join sep fs →
    c = sep ∨ ∃ f ∈ fs, c ∈ f
  | [], c, h => by simp [join] at h
  | [f], c, h => Or.inr ⟨f, by simp, by simpa [join] using h⟩
  | f :: g :: fs, c, h => by
    rw [join, List.mem_append, List.mem_cons] at h
    rcases h with h | h | h
    · exact Or.inr ⟨f, by simp, h⟩
    · exact Or.inl h
    · rcases mem_join sep (g :: fs) c h with h | ⟨k, hk, hc⟩
      · exact Or.inl h
      · exact Or.inr ⟨k, by simp only [List.mem_cons] at hk ⊢; exact Or.inr hk, hc⟩

end HF.Text
