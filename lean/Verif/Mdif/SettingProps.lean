import Verif.Mdif.ReadProps
/-
C63: a block with a setting that cannot be understood is not read.
-/
namespace HF.Mdif

open HF.DataBlock
open Units (isWs strip)

variable {β α : Type}

/-- `name(real) = value`, with any number of closing brackets around the type. -/
def Understood (num : Num α) (text : List Char) : Prop :=
  ∃ l r full a b x, text = l ++ '=' :: r ∧ '=' ∉ l ∧ '=' ∉ r ∧ '(' ∉ full ∧
    strip l = full ++ '(' :: (List.replicate a ')' ++ ['r', 'e', 'a', 'l'] ++ List.replicate b ')') ∧
    num.real (strip r) = some x

theorem splitOn_pair {sep : Char} {s a b : List Char} (h : Sp.splitOn sep s = [a, b]) :
    s = a ++ sep :: b ∧ sep ∉ a ∧ sep ∉ b := by
  by_cases h1 : sep ∈ s
  · obtain ⟨f, r, rfl, hf⟩ := List.eq_append_cons_of_mem h1
    rw [Sp.splitOn_append _ _ _ hf, List.cons.injEq] at h
    obtain ⟨rfl, h⟩ := h
    by_cases h2 : sep ∈ r
    · obtain ⟨g, q, rfl, hg⟩ := List.eq_append_cons_of_mem h2
      rw [Sp.splitOn_append _ _ _ hg, List.cons.injEq] at h
      exact absurd h.2 (Sp.splitOn_ne _ _)
    · rw [Sp.splitOn_field _ _ h2, List.cons.injEq] at h
      obtain ⟨rfl, -⟩ := h
      exact ⟨rfl, hf, h2⟩
  · rw [Sp.splitOn_field _ _ h1] at h
    simp at h

theorem dropWhile_eq (c : Char) (s : List Char) :
    ∃ n, s = List.replicate n c ++ s.dropWhile (· = c) := by
  induction s with
  | nil => exact ⟨0, rfl⟩
  | cons d s ih =>
    by_cases h : d = c
    · obtain ⟨n, hn⟩ := ih
      refine ⟨n + 1, ?_⟩
      rw [List.dropWhile_cons_of_pos (by simpa using h), List.replicate_succ, List.cons_append, ← hn, h]
    · exact ⟨0, by rw [List.dropWhile_cons_of_neg (by simpa using h)]; rfl⟩

theorem stripP_eq (s : List Char) :
    ∃ a b, s = List.replicate a ')' ++ stripP s ++ List.replicate b ')' := by
  obtain ⟨a, ha⟩ := dropWhile_eq ')' s
  obtain ⟨b, hb⟩ := dropWhile_eq ')' (s.dropWhile (· = ')')).reverse
  refine ⟨a, b, ?_⟩
  have e := congrArg List.reverse hb
  rw [List.reverse_reverse, List.reverse_append, List.reverse_replicate] at e
  rw [List.append_assoc]
  unfold stripP
  rw [← e, ← ha]

theorem understood {num : Num α} {text : List Char} {p : List Char × α} (h : procPair num (splitEq text) = .ok p) :
    Understood num text := by
  unfold splitEq at h
  rcases hs : Sp.splitOn '=' text with _ | ⟨l, _ | ⟨r, _ | ⟨q, t⟩⟩⟩
  · exact absurd hs (Sp.splitOn_ne _ _)
  · rw [hs] at h; simp [procPair] at h
  · rw [hs] at h
    simp only [List.map_cons, List.map_nil, procPair] at h
    obtain ⟨h1, h2, h3⟩ := splitOn_pair hs
    rcases hn : Sp.splitOn '(' (strip l) with _ | ⟨n, _ | ⟨t, _ | ⟨q, t'⟩⟩⟩
    · exact absurd hn (Sp.splitOn_ne _ _)
    · rw [hn] at h; simp at h
    · rw [hn] at h
      simp only at h
      split at h
      case isTrue ht =>
        rcases hx : num.real (strip r) with _ | x
        · rw [hx] at h; simp at h
        · obtain ⟨k1, k2, -⟩ := splitOn_pair hn
          obtain ⟨a, b, e⟩ := stripP_eq t
          rw [ht] at e
          refine ⟨l, r, n, a, b, x, h1, h2, h3, k2, ?_, hx⟩
          rw [k1, e]
          rfl
      case isFalse => simp at h
    · rw [hn] at h; simp at h
  · rw [hs] at h; simp [procPair] at h

theorem vars_understood (env : Env β α) (num : Num α) (ts : List (List Char)) (b b' : Block β α)
    (h : (ts.map splitEq).foldlM (putVar env num) b = .ok b') : ∀ t ∈ ts, Understood num t := by
  induction ts generalizing b with
  | nil => simp
  | cons t ts ih =>
    rw [List.map_cons, List.foldlM_cons] at h
    rcases hp : procPair num (splitEq t) with e | p
    · simp only [putVar, hp] at h
      cases h
    · intro t' ht'
      rcases List.mem_cons.1 ht' with rfl | ht'
      · exact understood hp
      · simp only [putVar, hp] at h
        exact ih _ h t' ht'

theorem attribs_understood (env : Env β α) (num : Num α) (ts : List (List Char)) (b b' : Block β α)
    (h : (ts.map splitEq).foldlM (putAttrib env num) b = .ok b') : ∀ t ∈ ts, Understood num t := by
  induction ts generalizing b with
  | nil => simp
  | cons t ts ih =>
    rw [List.map_cons, List.foldlM_cons] at h
    rcases hp : procPair num (splitEq t) with e | p
    · simp only [putAttrib, hp] at h
      cases h
    · intro t' ht'
      rcases List.mem_cons.1 ht' with rfl | ht'
      · exact understood hp
      · rcases hq : putAttrib env num b (splitEq t) with e | b1
        · rw [hq] at h; cases h
        · rw [hq] at h
          exact ih _ h t' ht'

/-- C63: if a block is read, all its settings have been understood: they have the type `real`, one equals sign
and a number after it. -/
theorem C63_settings (env : Env β α) (num : Num α) (s : Sheet) (p : Parsed β α)
    (h : parseBlock env num s.raw = .ok p) : ∀ t ∈ s.vars ++ s.attribs, Understood num t := by
  simp only [parseBlock, Sheet.raw] at h
  split at h
  · cases h
  · split at h
    · cases h
    · split at h
      · cases h
      · rename_i hv
        split at h
        · cases h
        · rename_i ha
          intro t ht
          rcases List.mem_append.1 ht with ht | ht
          · exact vars_understood env num _ _ _ hv t ht
          · exact attribs_understood env num _ _ _ ha t ht

/-- C63: settings of any other type, settings without type or with words that are no numbers make the block an
error. -/
theorem C63_settings_wrong (env : Env β α) (num : Num α) (s : Sheet) (t : List Char) (ht : t ∈ s.vars ++ s.attribs)
    (hn : ¬ Understood num t) : ∃ e, parseBlock env num s.raw = .error e := by
  rcases h : parseBlock env num s.raw with e | p
  · exact ⟨e, rfl⟩
  · exact absurd (C63_settings env num s p h t ht) hn

/-- A setting of type `int`. -/
theorem not_understood_int (num : Num α) (full v : List Char) (h1 : '(' ∉ full) (h2 : '=' ∉ full)
    (h3 : strip (full ++ "(int)".toList) = full ++ "(int)".toList) :
    ¬ Understood num (full ++ "(int)".toList ++ '=' :: v) := by
  rintro ⟨l, r, f, a, b, x, e, hl, hr, hf, hs, -⟩
  have h2' : '=' ∉ full ++ "(int)".toList := by simp [h2]
  have hh := congrArg (Sp.splitOn '=') e
  rw [Sp.splitOn_append _ _ _ h2', Sp.splitOn_append _ _ _ hl, List.cons.injEq] at hh
  rw [← hh.1, h3] at hs
  have hk := congrArg (Sp.splitOn '(') hs
  rw [show full ++ "(int)".toList = full ++ '(' :: ['i', 'n', 't', ')'] from rfl, Sp.splitOn_append _ _ _ h1,
    Sp.splitOn_append _ _ _ hf, Sp.splitOn_field _ _ (by decide), Sp.splitOn_field _ _ (by simp)] at hk
  rw [List.cons.injEq, List.cons.injEq] at hk
  have := congrArg (fun l => 'i' ∈ l) hk.2.1
  simp at this

example (env : Env β α) (num : Num α) : ∃ e, parseBlock env num
    (Sheet.raw ⟨[], ["T(int)=27".toList], "S".toList, [], ["f(real) g(real)".toList], ["1 2".toList], []⟩) = .error e :=
  C63_settings_wrong env num _ "T(int)=27".toList (by simp)
    (not_understood_int num ['T'] "27".toList (by decide) (by decide) (by decide))

example (env : Env β Nat) : ∃ p, parseBlock env num1 sheet1.raw = .ok p ∧ ∀ t ∈ sheet1.vars ++ sheet1.attribs, Understood num1 t := by
  obtain ⟨p, hp, -⟩ := C63_block env num1 sheet1 content1 describes1 separate1
  exact ⟨p, hp, C63_settings env num1 sheet1 p hp⟩

end HF.Mdif
