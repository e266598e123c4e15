import Verif.Readers.Text
/-
What `str.split()` and `str.strip()` do, stated without following their loops.
-/
namespace HF.Text

open Units (isWs strip)

/-- White space only. -/
def Blank (w : List Char) : Prop := ∀ c ∈ w, isWs c = true

/-- The words of a text. -/
inductive Spaced : List Char → List (List Char) → Prop where
  | none (w : List Char) (hw : Blank w) : Spaced w []
  | last (w u : List Char) (hw : Blank w) (hu : IsWord u) : Spaced (w ++ u) [u]
  | cons (w u : List Char) (c : Char) (r : List Char) (us : List (List Char)) (hw : Blank w) (hu : IsWord u)
      (hc : isWs c = true) (h : Spaced r us) : Spaced (w ++ u ++ c :: r) (u :: us)

theorem wordsAux_blank : ∀ (w : List Char), Blank w → ∀ r, wordsAux [] (w ++ r) = wordsAux [] r
  | [], _, r => rfl
  | c :: w, h, r => by
    rw [List.cons_append, wordsAux, if_pos (h c (by simp)), if_pos rfl]
    exact wordsAux_blank w (fun c hc => h c (by simp [hc])) r

theorem words_blank (w r : List Char) (h : Blank w) : words (w ++ r) = words r := wordsAux_blank w h r

theorem words_word (u : List Char) (c : Char) (r : List Char) (hu : IsWord u) (hc : isWs c = true) :
    words (u ++ c :: r) = u :: words r := by
  unfold words
  rw [wordsAux_word u hu.2, List.nil_append, wordsAux, if_pos hc, if_neg hu.1]

theorem words_last (u : List Char) (hu : IsWord u) : words u = [u] := by
  have := wordsAux_word u hu.2 [] []
  rw [List.append_nil] at this
  unfold words
  rw [this, List.nil_append, wordsAux, if_neg hu.1]

theorem spaced_words {s : List Char} {us : List (List Char)} (h : Spaced s us) : words s = us := by
  induction h with
  | none w hw =>
    have := words_blank w [] hw
    rw [List.append_nil] at this
    rw [this]; rfl
  | last w u hw hu => rw [words_blank w u hw, words_last u hu]
  | cons w u c r us hw hu hc _ ih => rw [List.append_assoc, words_blank w _ hw, words_word u c r hu hc, ih]

theorem spaced_prepend {s : List Char} {us : List (List Char)} (h : Spaced s us) (c : Char) (hc : isWs c = true) :
    Spaced (c :: s) us := by
  have hb : ∀ w, Blank w → Blank (c :: w) := by
    intro w hw d hd
    rcases List.mem_cons.1 hd with rfl | hd
    · exact hc
    · exact hw d hd
  cases h with
  | none w hw => exact .none _ (hb _ hw)
  | last w u hw hu => exact .last (c :: w) u (hb _ hw) hu
  | cons w u d r us hw hu hd h => exact .cons (c :: w) u d r us (hb _ hw) hu hd h

theorem exists_spaced (s : List Char) : ∃ us, Spaced s us ∧ ∀ cur, IsWord cur → ∃ us', Spaced (cur ++ s) us' := by
  induction s with
  | nil => exact ⟨[], .none [] (by simp [Blank]), fun cur h => ⟨[cur], by simpa using Spaced.last [] cur (by simp [Blank]) h⟩⟩
  | cons c s ih =>
    obtain ⟨us, h1, h2⟩ := ih
    by_cases hc : isWs c = true
    · refine ⟨us, spaced_prepend h1 c hc, fun cur h => ⟨cur :: us, ?_⟩⟩
      simpa using Spaced.cons [] cur c s us (by simp [Blank]) h hc h1
    · have hw : ∀ cur, (∀ d ∈ cur, isWs d = false) → IsWord (cur ++ [c]) := by
        intro cur h
        refine ⟨by simp, ?_⟩
        intro d hd
        rcases List.mem_append.1 hd with hd | hd
        · exact h d hd
        · rw [List.mem_singleton.1 hd]; simpa using hc
      obtain ⟨us', h'⟩ := h2 [c] (hw [] (by simp))
      refine ⟨us', h', fun cur h => ?_⟩
      obtain ⟨us'', h''⟩ := h2 (cur ++ [c]) (hw cur h.2)
      exact ⟨us'', by simpa using h''⟩

/-- `str.split()` -/
theorem words_iff (s : List Char) (us : List (List Char)) : words s = us ↔ Spaced s us := by
  constructor
  · rintro rfl
    obtain ⟨us, h, -⟩ := exists_spaced s
    rw [spaced_words h]
    exact h
  · exact spaced_words

theorem drop_blank (w r : List Char) (hw : Blank w) (hr : ∀ c ∈ r.head?, isWs c = false) :
    (w ++ r).dropWhile isWs = r := by
  rw [List.dropWhile_append_of_pos hw]
  cases r with
  | nil => rfl
  | cons c r => rw [List.dropWhile_cons, hr c rfl]; rfl

theorem blank_reverse {w : List Char} (h : Blank w) : Blank w.reverse := fun c hc => h c (by simpa using hc)

theorem takeWhile_blank : ∀ s : List Char, Blank (s.takeWhile isWs)
  | [] => by simp [Blank]
  | c :: s => by
    rw [List.takeWhile_cons]
    split
    · rename_i h
      intro d hd
      rcases List.mem_cons.1 hd with rfl | hd
      · exact h
      · exact takeWhile_blank s d hd
    · simp [Blank]

/-- `str.strip()` -/
theorem strip_iff (s t : List Char) : strip s = t ↔ ∃ a b, s = a ++ t ++ b ∧ Blank a ∧ Blank b ∧
    (∀ c ∈ t.head?, isWs c = false) ∧ ∀ c ∈ t.getLast?, isWs c = false := by
  have fwd : ∀ s a t b, s = a ++ t ++ b → Blank a → Blank b → (∀ c ∈ t.head?, isWs c = false) →
      (∀ c ∈ t.getLast?, isWs c = false) → strip s = t := by
    rintro s a t b rfl ha hb h1 h2
    unfold strip
    cases t with
    | nil =>
      rw [List.append_nil]
      have : (a ++ b).dropWhile isWs = [] := by
        have := drop_blank (a ++ b) [] (by
          intro c hc
          rcases List.mem_append.1 hc with hc | hc
          · exact ha c hc
          · exact hb c hc) (by simp)
        simpa using this
      rw [this]
      rfl
    | cons c t =>
      rw [List.append_assoc, drop_blank a _ ha (by simpa using h1), List.reverse_append,
        drop_blank b.reverse _ (blank_reverse hb) (by
          rw [List.head?_reverse]
          exact h2), List.reverse_reverse]
  constructor
  · rintro rfl
    refine ⟨s.takeWhile isWs, ((s.dropWhile isWs).reverse.takeWhile isWs).reverse, ?_, ?_, ?_, ?_, ?_⟩
    · have e1 := List.takeWhile_append_dropWhile (p := isWs) (l := (s.dropWhile isWs).reverse)
      have e2 : s.dropWhile isWs = strip s ++ ((s.dropWhile isWs).reverse.takeWhile isWs).reverse := by
        unfold strip
        rw [← List.reverse_append, e1, List.reverse_reverse]
      rw [List.append_assoc, ← e2, List.takeWhile_append_dropWhile]
    · exact takeWhile_blank s
    · exact blank_reverse (takeWhile_blank _)
    · intro c hc
      have e1 := List.takeWhile_append_dropWhile (p := isWs) (l := (s.dropWhile isWs).reverse)
      have e2 : s.dropWhile isWs = strip s ++ ((s.dropWhile isWs).reverse.takeWhile isWs).reverse := by
        unfold strip
        rw [← List.reverse_append, e1, List.reverse_reverse]
      have hh : (s.dropWhile isWs).head? = some c := by
        rw [e2, List.head?_append]
        rw [Option.mem_def] at hc
        rw [hc]; rfl
      have := List.head?_dropWhile_not isWs s
      rw [hh] at this
      simpa using this
    · intro c hc
      have : (((s.dropWhile isWs).reverse).dropWhile isWs).head? = some c := by
        rw [← List.getLast?_reverse]
        exact hc
      have h2 := List.head?_dropWhile_not isWs (s.dropWhile isWs).reverse
      rw [this] at h2
      simpa using h2
  · rintro ⟨a, b, h, ha, hb, h1, h2⟩
    exact fwd s a t b h ha hb h1 h2

theorem words_trail (b : List Char) (hb : Blank b) : ∀ s, words (s ++ b) = words s := by
  intro s
  have : Spaced s (words s) := (words_iff s _).1 rfl
  rw [words_iff]
  have hbb : ∀ w, Blank w → Blank (w ++ b) := by
    intro w hw c hc
    rcases List.mem_append.1 hc with hc | hc
    · exact hw c hc
    · exact hb c hc
  generalize words s = us at this
  induction this with
  | none w hw => exact .none _ (hbb w hw)
  | last w u hw hu =>
    cases b with
    | nil => rw [List.append_nil]; exact .last w u hw hu
    | cons c b => exact .cons w u c b [] hw hu (hb c (by simp)) (.none b fun d hd => hb d (by simp [hd]))
  | cons w u c r us hw hu hc _ ih =>
    rw [List.append_assoc, List.cons_append]
    exact .cons w u c _ us hw hu hc ih

theorem words_strip (s : List Char) : words (strip s) = words s := by
  obtain ⟨a, b, h, ha, hb, -⟩ := (strip_iff s (strip s)).1 rfl
  conv_rhs => rw [h, List.append_assoc, words_blank a _ ha, words_trail b hb]

end HF.Text
