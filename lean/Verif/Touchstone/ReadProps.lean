import Verif.Touchstone.FileProps
import Verif.Readers.Words
/-
C64: what the lines of a Touchstone file mean.
-/
namespace HF.Touchstone

open Units (isWs strip)
open Text

/-! ### Specification -/

/-- The text without white space around it. -/
def Trim (s t : List Char) : Prop := ∃ a b, s = a ++ t ++ b ∧ Blank a ∧ Blank b ∧
  (∀ c ∈ t.head?, isWs c = false) ∧ ∀ c ∈ t.getLast?, isWs c = false

/-- The word `d` in upper or lower case. -/
def AnyCase (u d : List Char) : Prop := List.Forall₂ (fun c e => c = e ∨ c = e.toUpper) u d

/-- Prefixes of units. -/
def prefixes : List (List Char × ℚ) :=
  [([], 1), (['k'], 1000), (['m'], 1000000), (['g'], 1000000000), (['t'], 1000000000000), (['p'], 1000000000000000)]

/-- An option line (after `#`): unit of frequency, kind of parameters, kind of numbers, and perhaps the
resistance. -/
def IsOption (env : Env) (text : List Char) (m : ℚ) (par : List Char) (f : ℚ → ℚ → Cplx) (z0 : ℚ) : Prop :=
  ∃ U P F rest, Spaced text (U :: P :: F :: rest) ∧
    (∃ pre, (pre, m) ∈ prefixes ∧ AnyCase U (pre ++ ['h', 'z'])) ∧
    (∃ p ∈ ['s', 'z', 'y', 'g', 'h'], AnyCase P [p] ∧ par = [p.toUpper]) ∧
    (AnyCase F ['r', 'i'] ∧ f = (fun a b => (a, b)) ∨ AnyCase F ['d', 'b'] ∧ f = env.dbAngle ∨
      AnyCase F ['m', 'a'] ∧ f = env.magAngle) ∧
    (rest = [] ∧ z0 = 1 ∨ ∃ R Z, rest = [R, Z] ∧ env.parse (Z.map Char.toUpper) = some z0)

inductive Item where
  | blank
  | comment (c : List Char)
  | option (text : List Char)
  | data (l : Line ℚ)

/-- The part of a line before a comment. -/
def Before (rad d : List Char) : Prop := '!' ∉ d ∧ (rad = d ∨ ∃ r, rad = d ++ '!' :: r)

/-- What a line says. -/
inductive Says (env : Env) : List Char → Item → Prop where
  | blank (w : List Char) (h : Blank w) : Says env w .blank
  | comment (a r c : List Char) (ha : Blank a) (h : Trim r c) : Says env (a ++ '!' :: r) (.comment c)
  | option (a r text : List Char) (m : ℚ) (par : List Char) (f : ℚ → ℚ → Cplx) (z0 : ℚ) (ha : Blank a) (h : Trim r text)
      (ho : IsOption env text m par f z0) : Says env (a ++ '#' :: r) (.option text)
  | data (a : List Char) (c : Char) (r d : List Char) (ws : List (List Char)) (x : ℚ) (l : List ℚ) (ha : Blank a)
      (hc : isWs c = false) (h1 : c ≠ '!') (h2 : c ≠ '#') (hd : Before (a ++ c :: r) d) (hs : Spaced d ws)
      (hp : List.Forall₂ (fun w y => env.parse w = some y) ws (x :: l)) : Says env (a ++ c :: r) (.data (x, l))

def comments (its : List Item) : List (List Char) := its.filterMap fun | .comment c => some c | _ => none
def options (its : List Item) : List (List Char) := its.filterMap fun | .option t => some t | _ => none
def dataLines (its : List Item) : List (Line ℚ) := its.filterMap fun | .data l => some l | _ => none

/-! ### Option lines -/

theorem lower_blank {w : List Char} (h : Blank w) : w.map lower = w := by
  conv_rhs => rw [← List.map_id w]
  refine List.map_congr_left fun c hc => ?_
  have := h c hc
  simp only [isWs, Bool.or_eq_true, decide_eq_true_eq] at this
  rcases this with ((((rfl | rfl) | rfl) | rfl) | rfl) | rfl <;> decide

theorem lower_ws {c : Char} (h : isWs c = true) : lower c = c := by
  have := lower_blank (w := [c]) (by simpa [Blank] using h)
  simpa using this

theorem upper_ws {c : Char} (h : isWs c = true) : c.toUpper = c := by
  simp only [isWs, Bool.or_eq_true, decide_eq_true_eq] at h
  rcases h with ((((rfl | rfl) | rfl) | rfl) | rfl) | rfl <;> decide

/-- Letters that occur in option lines. -/
def letters : List Char := ['h', 'z', 'k', 'm', 'g', 't', 'p', 's', 'y', 'r', 'i', 'd', 'b', 'a']

theorem letter (e : Char) (he : e ∈ letters) : e.toLower = e ∧ e.toUpper.toLower = e ∧ e.toUpper.toUpper = e.toUpper ∧
    isWs e = false := by
  revert e; decide

theorem kinds : ∀ p ∈ ['s', 'z', 'y', 'g', 'h'], p ∈ letters := by decide

theorem anyCase_lower {u d : List Char} (h : AnyCase u d) (hd : ∀ e ∈ d, e ∈ letters) : u.map lower = d := by
  induction h with
  | nil => rfl
  | cons h _ ih =>
    rename_i c e u d _
    obtain ⟨h1, h2, -, -⟩ := letter e (hd e (by simp))
    rw [List.map_cons, ih fun e he => hd e (by simp [he])]
    rcases h with rfl | rfl
    · simp [lower, h1]
    · simp [lower, h2]

theorem anyCase_upper {u d : List Char} (h : AnyCase u d) (hd : ∀ e ∈ d, e ∈ letters) :
    u.map Char.toUpper = d.map Char.toUpper := by
  induction h with
  | nil => rfl
  | cons h _ ih =>
    rename_i c e u d _
    obtain ⟨-, -, h3, -⟩ := letter e (hd e (by simp))
    rw [List.map_cons, List.map_cons, ih fun e he => hd e (by simp [he])]
    rcases h with rfl | rfl
    · rfl
    · rw [h3]

theorem upper_isWs (c : Char) : isWs c.toUpper = isWs c := by
  unfold Char.toUpper
  split
  · rename_i h
    have g : ∀ d : Char, isWs d = true → d.val.toNat < 33 := by
      intro d hd
      simp only [isWs, Bool.or_eq_true, decide_eq_true_eq] at hd
      rcases hd with ((((rfl | rfl) | rfl) | rfl) | rfl) | rfl <;> decide
    have h1 : isWs c = false := by
      rw [Bool.eq_false_iff]
      intro hc
      have := g c hc
      have h2 := UInt32.le_iff_toNat_le.1 h.1
      have h3 : 'a'.val.toNat = 97 := rfl
      omega
    rw [h1, Bool.eq_false_iff]
    intro hc
    have := g _ hc
    have h2 := UInt32.le_iff_toNat_le.1 h.1
    have h4 := UInt32.le_iff_toNat_le.1 h.2
    have h3 : 'a'.val.toNat = 97 := rfl
    have h5 : 'z'.val.toNat = 122 := rfl
    have h6 : ('A'.val - 'a'.val).toNat = 4294967264 := rfl
    simp only [UInt32.toNat_add] at this
    omega
  · rfl

theorem spaced_upper {s : List Char} {us : List (List Char)} (h : Spaced s us) :
    Spaced (s.map Char.toUpper) (us.map fun u => u.map Char.toUpper) := by
  have hb : ∀ w, Blank w → Blank (w.map Char.toUpper) := by
    intro w hw c hc
    obtain ⟨d, hd, rfl⟩ := List.mem_map.1 hc
    rw [upper_isWs]; exact hw d hd
  have hi : ∀ w, IsWord w → IsWord (w.map Char.toUpper) := by
    intro w hw
    refine ⟨by simpa using hw.1, fun c hc => ?_⟩
    obtain ⟨d, hd, rfl⟩ := List.mem_map.1 hc
    rw [upper_isWs]; exact hw.2 d hd
  induction h with
  | none w hw => exact .none _ (hb w hw)
  | last w u hw hu => rw [List.map_append]; exact .last _ _ (hb w hw) (hi u hu)
  | cons w u c r us hw hu hc _ ih =>
    rw [List.map_append, List.map_append, List.map_cons, List.map_cons]
    exact .cons _ _ _ _ _ (hb w hw) (hi u hu) (by rw [upper_isWs]; exact hc) ih

theorem spaced_two {s u v : List Char} {us : List (List Char)} (h : Spaced s (u :: v :: us)) :
    ∃ w c r, s = w ++ u ++ c :: r ∧ Blank w ∧ isWs c = true ∧ Spaced r (v :: us) := by
  cases h with
  | cons w _ c r _ hw hu hc h => exact ⟨w, c, r, rfl, hw, hc, h⟩

theorem spaced_one {s u : List Char} {us : List (List Char)} (h : Spaced s (u :: us)) :
    ∃ w r, s = w ++ u ++ r ∧ Blank w := by
  cases h with
  | last w _ hw hu => exact ⟨w, [], by simp, hw⟩
  | cons w _ c r _ hw hu hc h => exact ⟨w, c :: r, rfl, hw⟩

theorem isInfo_ok (env : Env) (x text : List Char) (m : ℚ) (par : List Char) (f : ℚ → ℚ → Cplx) (z0 : ℚ) (hx : Blank x)
    (ho : IsOption env text m par f z0) : isInfo ('#' :: (x ++ text)) = true := by
  obtain ⟨U, P, F, rest, hsp, ⟨pre, hpre, hU⟩, ⟨p, hp, hP, -⟩, hF, -⟩ := ho
  have hsp' : Spaced (x ++ text) (U :: P :: F :: rest) := by
    rw [← words_iff, words_blank x text hx]; exact spaced_words hsp
  obtain ⟨w1, c1, r1, h1, hw1, hc1, hsp1⟩ := spaced_two hsp'
  obtain ⟨w2, c2, r2, rfl, hw2, hc2, hsp2⟩ := spaced_two hsp1
  obtain ⟨w3, r3, rfl, hw3⟩ := spaced_one hsp2
  have hpl : ∀ e ∈ pre ++ ['h', 'z'], e ∈ letters := by
    revert pre; intro pre hpre _
    simp only [prefixes, List.mem_cons, Prod.mk.injEq, List.not_mem_nil, or_false] at hpre
    rcases hpre with ⟨rfl, -⟩ | ⟨rfl, -⟩ | ⟨rfl, -⟩ | ⟨rfl, -⟩ | ⟨rfl, -⟩ | ⟨rfl, -⟩ <;> decide
  have eU := anyCase_lower hU hpl
  have hpp : ∀ e ∈ [p], e ∈ letters := by
    intro e he
    rw [List.mem_singleton.1 he]
    exact kinds p hp
  have eP := anyCase_lower hP hpp
  have hpw : isWs p = false := (letter p (hpp p (by simp))).2.2.2
  obtain ⟨a, b, eF, hab⟩ : ∃ a b, F.map lower = [a, b] ∧ (isWs a = false ∧ (decide ('a' ≤ a) && decide (a ≤ 'z')) = true ∧
      (decide ('a' ≤ b) && decide (b ≤ 'z')) = true) := by
    rcases hF with ⟨hF, -⟩ | ⟨hF, -⟩ | ⟨hF, -⟩
    · exact ⟨'r', 'i', anyCase_lower hF (by decide), by decide⟩
    · exact ⟨'d', 'b', anyCase_lower hF (by decide), by decide⟩
    · exact ⟨'m', 'a', anyCase_lower hF (by decide), by decide⟩
  have e0 : (('#' :: (x ++ text)).map lower).dropWhile isWs =
      '#' :: (w1 ++ (pre ++ ['h', 'z'] ++ c1 :: (w2 ++ (p :: c2 :: (w3 ++ (a :: b :: r3.map lower)))))) := by
    rw [h1]
    simp only [List.map_cons, List.map_append, lower_blank hw1, lower_blank hw2, lower_blank hw3, eU, eP, eF, lower_ws hc1,
      lower_ws hc2]
    rw [List.dropWhile_cons, show isWs (lower '#') = false by decide]
    simp [show lower '#' = '#' by decide]
  unfold isInfo
  rw [e0]
  have hend : ∀ q : Bool, q = true → (isWs c1 &&
        match (w2 ++ (p :: c2 :: (w3 ++ (a :: b :: r3.map lower)))).dropWhile isWs with
        | p :: w :: r =>
          decide (p ∈ ['s', 'z', 'y', 'g', 'h']) && isWs w &&
            match r.dropWhile isWs with
            | a :: b :: _ => (decide ('a' ≤ a) && decide (a ≤ 'z')) && (decide ('a' ≤ b) && decide (b ≤ 'z'))
            | _ => false
        | _ => false) = q := by
    rintro q rfl
    rw [drop_blank w2 _ hw2 (by simpa using hpw)]
    simp only
    rw [drop_blank w3 _ hw3 (by simpa using hab.1)]
    simp only [hab.2.1, hab.2.2, hc1, hc2, decide_eq_true hp, Bool.and_true]
  have hne : ∀ t, (∀ c ∈ t.head?, isWs c = false) → (w1 ++ t).dropWhile isWs = t := fun t ht => drop_blank w1 t hw1 ht
  simp only [prefixes, List.mem_cons, Prod.mk.injEq, List.not_mem_nil, or_false] at hpre
  rcases hpre with ⟨rfl, -⟩ | ⟨rfl, -⟩ | ⟨rfl, -⟩ | ⟨rfl, -⟩ | ⟨rfl, -⟩ | ⟨rfl, -⟩ <;>
  · simp only [List.nil_append, List.cons_append]
    rw [hne _ (by simp; decide)]
    exact hend true rfl

/-! ### Lines -/

theorem strip_lead (a : List Char) (c : Char) (r : List Char) (ha : Blank a) (hc : isWs c = false) :
    ∃ r' b, strip (a ++ c :: r) = c :: r' ∧ r = r' ++ b ∧ Blank b := by
  obtain ⟨a', b, h, ha', hb, h1, h2⟩ := (strip_iff (a ++ c :: r) _).1 rfl
  have e : (a ++ c :: r).dropWhile isWs = c :: r := drop_blank a _ ha (by simpa using hc)
  cases ht : strip (a ++ c :: r) with
  | nil =>
    rw [ht, List.append_nil] at h
    have : isWs c = true := by
      have hm : c ∈ a' ++ b := by rw [← h]; simp
      rcases List.mem_append.1 hm with hm | hm
      · exact ha' c hm
      · exact hb c hm
    rw [hc] at this
    cases this
  | cons d t =>
    rw [ht] at h h1
    have e2 : (a' ++ (d :: t ++ b)).dropWhile isWs = d :: t ++ b := drop_blank a' _ ha' (by simpa using h1)
    rw [← List.append_assoc, ← h, e] at e2
    simp only [List.cons_append, List.cons.injEq] at e2
    exact ⟨t, b, by rw [e2.1], e2.2, hb⟩

theorem takeWhile_before {rad d : List Char} (h : Before rad d) : rad.takeWhile (· ≠ '!') = d := by
  obtain ⟨hd, rfl | ⟨r, rfl⟩⟩ := h
  · exact takeWhile_all _ fun c hc => by
      simp only [decide_eq_true_eq]; rintro rfl; exact hd hc
  · induction d with
    | nil => simp
    | cons c d ih =>
      rw [List.cons_append, List.takeWhile_cons, if_pos (by
        simp only [decide_eq_true_eq]; rintro rfl; exact hd (by simp)), ih fun h => hd (by simp [h])]

theorem words_uncomment (rad : List Char) :
    words ((strip rad).takeWhile (· ≠ '!')) = words (rad.takeWhile (· ≠ '!')) := by
  obtain ⟨a, b, h, ha, hb, -⟩ := (strip_iff rad _).1 rfl
  have hn : ∀ w, Blank w → ∀ c ∈ w, (decide (c ≠ '!')) = true := by
    intro w hw c hc
    simp only [decide_eq_true_eq]
    rintro rfl
    have := hw _ hc
    revert this; decide
  conv_rhs => rw [h, List.append_assoc, List.takeWhile_append_of_pos (hn a ha), words_blank a _ ha]
  by_cases hm : '!' ∈ strip rad
  · obtain ⟨s, t, hst, hns⟩ : ∃ s t, strip rad = s ++ '!' :: t ∧ '!' ∉ s := by
      obtain ⟨s, t, h1, h2⟩ := List.eq_append_cons_of_mem hm
      exact ⟨s, t, h1, h2⟩
    rw [hst, List.append_assoc, List.cons_append, takeWhile_before (d := s) ⟨hns, Or.inr ⟨_, rfl⟩⟩,
      takeWhile_before (d := s) ⟨hns, Or.inr ⟨_, rfl⟩⟩]
  · have ha : ∀ c ∈ strip rad, (decide (c ≠ '!')) = true := by
      intro c hc
      simp only [decide_eq_true_eq]
      rintro rfl
      exact hm hc
    rw [takeWhile_all _ ha, List.takeWhile_append_of_pos ha, takeWhile_all b (hn b hb), words_trail b hb]

theorem mapM_forall {env : Env} {ws : List (List Char)} {ys : List ℚ}
    (h : List.Forall₂ (fun w y => env.parse w = some y) ws ys) : ws.mapM env.parse = some ys := by
  induction h with
  | nil => rfl
  | cons h _ ih => rw [List.mapM_cons, h, ih]; rfl

/-- A line is added to what has been read. -/
def Parsed.add (p : Parsed) : Item → Parsed
  | .blank => p
  | .comment c => { p with comments := p.comments ++ [c] }
  | .option t => { p with info := some t }
  | .data l => { p with data := p.data ++ [l] }

theorem addLine_data (env : Env) (p : Parsed) (a : List Char) (c : Char) (r : List Char) (ha : Blank a) (hc : isWs c = false)
    (h1 : c ≠ '!') (h2 : c ≠ '#') : addLine env p (a ++ c :: r) =
      match numbersOf env (strip (a ++ c :: r)) with
      | .error e => .error e
      | .ok l => .ok { p with data := p.data ++ [l] } := by
  obtain ⟨r', b, e, -⟩ := strip_lead a c r ha hc
  unfold addLine
  rw [e]
  split
  · rename_i e; cases e
  · rename_i e; injection e with e _; exact absurd e h1
  · rename_i e; injection e with e _; exact absurd e h2
  · rfl

theorem addLine_option (env : Env) (p : Parsed) (a r text : List Char) (m : ℚ) (par : List Char) (f : ℚ → ℚ → Cplx) (z0 : ℚ)
    (ha : Blank a) (h : Trim r text) (ho : IsOption env text m par f z0) : addLine env p (a ++ '#' :: r) =
      match p.info with
      | none => .ok { p with info := some text }
      | some _ => .error .touchstone := by
  obtain ⟨x, y, rfl, hx, hy, h1, h2⟩ := h
  have hne : text ≠ [] := by
    rintro rfl
    obtain ⟨U, P, F, rest, hsp, -⟩ := ho
    have := spaced_words hsp
    simp [words, wordsAux] at this
  have e1 : strip (a ++ '#' :: (x ++ text ++ y)) = '#' :: (x ++ text) := by
    refine (strip_iff _ _).2 ⟨a, y, by simp, ha, hy, by simp; decide, ?_⟩
    intro c hc
    refine h2 c ?_
    rw [← List.cons_append, List.getLast?_append_of_ne_nil _ hne] at hc
    exact hc
  have e2 : strip (x ++ text) = text := (strip_iff _ _).2 ⟨x, [], by simp, hx, by simp [Blank], h1, h2⟩
  unfold addLine
  rw [e1]
  simp only
  rw [if_pos (isInfo_ok env x text m par f z0 hx ho), e2]
  cases p.info <;> rfl

theorem addLine_says (env : Env) (p : Parsed) (rad : List Char) (it : Item) (h : Says env rad it)
    (hi : ∀ t, it = .option t → p.info = none) : addLine env p rad = .ok (p.add it) := by
  cases h with
  | blank w hw =>
    have : strip rad = [] := (strip_iff _ _).2 ⟨rad, [], by simp, hw, by simp [Blank], by simp, by simp⟩
    unfold addLine
    rw [this]; rfl
  | comment a r c ha ht =>
    have hc : strip r = c := (strip_iff r c).2 ht
    obtain ⟨r', b, e, rfl, hb⟩ := strip_lead a '!' r ha (by decide)
    have : strip r' = c := by
      obtain ⟨x, y, h1, hx, hy, h3, h4⟩ := (strip_iff r' (strip r')).1 rfl
      rw [← hc]
      refine ((strip_iff _ _).2 ⟨x, y ++ b, ?_, hx, ?_, h3, h4⟩).symm
      · conv_lhs => rw [h1]
        simp
      · intro c hc
        rcases List.mem_append.1 hc with hc | hc
        · exact hy c hc
        · exact hb c hc
    unfold addLine
    rw [e]
    simp only [this]
    rfl
  | option a r text m par f z0 ha ht ho =>
    rw [addLine_option env p a r text m par f z0 ha ht ho, hi text rfl]
    rfl
  | data a c r d ws x l ha hc h1 h2 hd hs hp =>
    rw [addLine_data env p a c r ha hc h1 h2]
    have : numbersOf env (strip (a ++ c :: r)) = .ok (x, l) := by
      unfold numbersOf
      rw [words_strip, words_uncomment, takeWhile_before hd, spaced_words hs, mapM_forall hp]
    rw [this]
    rfl

theorem addLines_says (env : Env) {ls : List (List Char)} {its : List Item} (h : List.Forall₂ (Says env) ls its) :
    ∀ p : Parsed, (p.info = none ∧ (options its).length ≤ 1 ∨ options its = []) → ∀ ls',
      addLines env p (ls ++ ls') = addLines env ⟨p.comments ++ comments its, p.info <|> (options its).head?,
        p.data ++ dataLines its⟩ ls' := by
  induction h with
  | nil =>
    intro p _ ls'
    obtain ⟨c, i, d⟩ := p
    cases i <;> simp [comments, options, dataLines]
  | cons h _ ih =>
    rename_i l it ls its _
    intro p hp ls'
    have hi : ∀ t, it = .option t → p.info = none := by
      rintro t rfl
      rcases hp with ⟨hp, -⟩ | hp
      · exact hp
      · simp [options] at hp
    rw [List.cons_append, addLines, addLine_says env p l it h hi]
    simp only
    cases it with
    | blank =>
      rw [ih _ (by simpa [options, Parsed.add] using hp)]
      simp [comments, options, dataLines, Parsed.add]
    | comment c =>
      rw [ih _ (by simpa [options, Parsed.add] using hp)]
      simp [comments, options, dataLines, Parsed.add]
    | option t =>
      have hn := hi t rfl
      have ho : options its = [] := by
        rcases hp with ⟨-, hp⟩ | hp
        · simpa [options] using hp
        · simp [options] at hp
      rw [ih _ (Or.inr ho)]
      simp only [options] at ho
      simp [comments, options, dataLines, Parsed.add, hn, ho]
    | data d =>
      rw [ih _ (by simpa [options, Parsed.add] using hp)]
      simp [comments, options, dataLines, Parsed.add]

/-- C64: comments, options and numbers of a file with one option line, in order. -/
theorem C64_lines (env : Env) (ls : List (List Char)) (its : List Item) (h : List.Forall₂ (Says env) ls its)
    (text : List Char) (ho : options its = [text]) :
    addLines env ⟨[], none, []⟩ ls = .ok ⟨comments its, some text, dataLines its⟩ := by
  have := addLines_says env h ⟨[], none, []⟩ (Or.inl ⟨rfl, by rw [ho]; simp⟩) []
  rw [List.append_nil] at this
  rw [this, ho]
  rfl

/-- C64: a file without option line is an error. -/
theorem C64_no_option (env : Env) (ls : List (List Char)) (its : List Item) (h : List.Forall₂ (Says env) ls its)
    (ho : options its = []) : read env ls = .error .touchstone := by
  have := addLines_says env h ⟨[], none, []⟩ (Or.inr ho) []
  rw [List.append_nil] at this
  unfold read
  rw [this, ho]
  rfl

theorem addLines_many (env : Env) {ls : List (List Char)} {its : List Item} (h : List.Forall₂ (Says env) ls its) :
    ∀ p : Parsed, (p.info ≠ none ∧ 1 ≤ (options its).length ∨ 2 ≤ (options its).length) →
      addLines env p ls = .error .touchstone := by
  induction h with
  | nil => intro p hp; simp [options] at hp
  | cons h _ ih =>
    rename_i l it ls its _
    intro p hp
    rw [addLines]
    by_cases hi : ∀ t, it = .option t → p.info = none
    · rw [addLine_says env p l it h hi]
      simp only
      refine ih _ ?_
      cases it with
      | option t => exact Or.inl ⟨by simp [Parsed.add], by simp [options, hi t rfl] at hp ⊢; omega⟩
      | blank => simpa [options, Parsed.add] using hp
      | comment => simpa [options, Parsed.add] using hp
      | data => simpa [options, Parsed.add] using hp
    · obtain ⟨t, rfl, hn⟩ : ∃ t, it = .option t ∧ p.info ≠ none := by
        by_contra hc
        exact hi fun t ht => by
          by_contra hn
          exact hc ⟨t, ht, hn⟩
      cases h with
      | option a r text m par f z0 ha ht ho =>
        rw [addLine_option env p a r t m par f z0 ha ht ho]
        cases hpi : p.info with
        | none => exact absurd hpi hn
        | some _ => rfl

/-- C64: a second option line is an error. -/
theorem C64_second_option (env : Env) (ls : List (List Char)) (its : List Item) (h : List.Forall₂ (Says env) ls its)
    (ho : 2 ≤ (options its).length) : read env ls = .error .touchstone := by
  unfold read
  rw [addLines_many env h _ (Or.inr ho)]

/-- C64: a word that is not a number makes the file an error. -/
theorem C64_no_number (env : Env) (ls : List (List Char)) (its : List Item) (h : List.Forall₂ (Says env) ls its)
    (ho : (options its).length ≤ 1) (a : List Char) (c : Char) (r d : List Char) (ws : List (List Char)) (ha : Blank a)
    (hc : isWs c = false) (h1 : c ≠ '!') (h2 : c ≠ '#') (hd : Before (a ++ c :: r) d) (hs : Spaced d ws)
    (w : List Char) (hw : w ∈ ws) (hn : env.parse w = none) (rest : List (List Char)) :
    read env (ls ++ (a ++ c :: r) :: rest) = .error .value := by
  have hm : ∀ ws : List (List Char), w ∈ ws → ws.mapM env.parse = none := by
    intro ws
    induction ws with
    | nil => intro h; simp at h
    | cons v ws ih =>
      intro hv
      rw [List.mapM_cons]
      rcases List.mem_cons.1 hv with rfl | hv
      · rw [hn]; rfl
      · cases env.parse v with
        | none => rfl
        | some y => rw [ih hv]; rfl
  have hnum : numbersOf env (strip (a ++ c :: r)) = .error .value := by
    unfold numbersOf
    rw [words_strip, words_uncomment, takeWhile_before hd, spaced_words hs, hm ws hw]
  unfold read
  rw [addLines_says env h _ (Or.inl ⟨rfl, ho⟩), addLines, addLine_data env _ a c r ha hc h1 h2, hnum]

/-! ### Numbers -/

theorem pairUp_get (f : ℚ → ℚ → Cplx) : ∀ (l : List ℚ) (k : Nat) (x y : ℚ), l[2 * k]? = some x → l[2 * k + 1]? = some y →
    (pairUp f l)[k]? = some (f x y)
  | [], k, x, y, h, _ => by simp at h
  | [a], 0, x, y, _, h => by simp at h
  | [a], k + 1, x, y, h, _ => by simp [Nat.mul_succ] at h
  | a :: b :: l, 0, x, y, hx, hy => by
    simp only [Nat.mul_zero, List.getElem?_cons_zero, Option.some.injEq, Nat.zero_add, List.getElem?_cons_succ] at hx hy
    rw [pairUp, List.getElem?_cons_zero, hx, hy]
  | a :: b :: l, k + 1, x, y, hx, hy => by
    rw [pairUp, List.getElem?_cons_succ]
    exact pairUp_get f l k x y (by simpa [Nat.mul_succ] using hx) (by simpa [Nat.mul_succ] using hy)

/-- What the option line gives for the rows. -/
theorem procInfo_option (env : Env) (text : List Char) (m : ℚ) (par : List Char) (f : ℚ → ℚ → Cplx) (z0 : ℚ)
    (ho : IsOption env text m par f z0) (n : Nat) (rows nz : List (Line ℚ)) (hne : rows ≠ [])
    (hl : ∀ r ∈ rows, r.2.length = 2 * (n * n)) :
    ∃ b, procInfo env text rows nz = .ok b ∧ b.par = par ∧ b.freq = rows.map (fun r => r.1 * m) ∧ b.ports = n ∧ b.z0 = z0 ∧
      (∀ k r i j x y, rows[k]? = some r → i < n → j < n →
        r.2[2 * (if n = 2 then j * n + i else i * n + j)]? = some x →
        r.2[2 * (if n = 2 then j * n + i else i * n + j) + 1]? = some y → b.elem k i j = some (f x y)) ∧
      b.noise = if nz = [] then none else some (nz.map fun r =>
        (r.1 * m, r.2.getD 0 0, f (r.2.getD 1 0) (r.2.getD 2 0), r.2.getLastD 0 * z0)) := by
  obtain ⟨U, P, F, rest, hsp, ⟨pre, hpre, hU⟩, ⟨p, hp, hP, rfl⟩, hF, hz⟩ := ho
  have hw := spaced_words (spaced_upper hsp)
  have hm : freqMult.lookup (U.map Char.toUpper) = some m := by
    simp only [prefixes, List.mem_cons, Prod.mk.injEq, List.not_mem_nil, or_false] at hpre
    rcases hpre with ⟨rfl, rfl⟩ | ⟨rfl, rfl⟩ | ⟨rfl, rfl⟩ | ⟨rfl, rfl⟩ | ⟨rfl, rfl⟩ | ⟨rfl, rfl⟩ <;>
    · rw [anyCase_upper hU (by decide)]
      decide +kernel
  have hf : convFunc env (F.map Char.toUpper) = some f := by
    rcases hF with ⟨hF, rfl⟩ | ⟨hF, rfl⟩ | ⟨hF, rfl⟩
    · rw [anyCase_upper hF (by decide)]; rfl
    · rw [anyCase_upper hF (by decide)]; rfl
    · rw [anyCase_upper hF (by decide)]; rfl
  have hP' : P.map Char.toUpper = [p.toUpper] := by
    rw [anyCase_upper hP (by
      intro e he
      rw [List.mem_singleton.1 he]
      exact kinds p hp)]
    rfl
  have hcols : width rows / 2 = n * n := by
    cases rows with
    | nil => exact absurd rfl hne
    | cons r rs => rw [width, hl r (by simp)]; omega
  have hfour : (n * n = 4) = (n = 2) := by
    refine propext ⟨fun h => ?_, fun h => by subst h; rfl⟩
    have h1 : n < 3 := by
      by_contra hc
      have : 3 * 3 ≤ n * n := Nat.mul_le_mul (by omega) (by omega)
      omega
    interval_cases n <;> omega
  unfold procInfo
  rw [hw]
  rcases hz with ⟨rfl, rfl⟩ | ⟨R, Z, rfl, hZ⟩
  · simp only [List.map_cons, List.map_nil, hm, hf, hcols, hP']
    rw [ports_eq]
    refine ⟨_, rfl, rfl, rfl, rfl, rfl, ?_, rfl⟩
    intro k r i j x y hk hi hj hx hy
    have := pairUp_get f r.2 _ x y hx hy
    simp only [List.getElem?_map, hk, Option.map_some, if_pos (And.intro hi hj), hfour]
    split at this
    · rw [if_pos (by assumption)]; exact this
    · rw [if_neg (by assumption)]; exact this
  · simp only [List.map_cons, List.map_nil, hm, hf, hcols, hP', hZ]
    rw [ports_eq]
    refine ⟨_, rfl, rfl, rfl, rfl, rfl, ?_, rfl⟩
    intro k r i j x y hk hi hj hx hy
    have := pairUp_get f r.2 _ x y hx hy
    simp only [List.getElem?_map, hk, Option.map_some, if_pos (And.intro hi hj), hfour]
    split at this
    · rw [if_pos (by assumption)]; exact this
    · rw [if_neg (by assumption)]; exact this

theorem numbers_length {N : Nat} {r : Line ℚ × List (Line ℚ)} (h : IsRecord (N + 1) r) : (numbers r).2.length = N := by
  have := h.size
  have e : (numbers r).2.length + 1 = Line.len r.1 + total r.2 := by
    unfold numbers Line.len total
    simp only [List.length_append, List.length_flatMap, List.length_cons]
    unfold Line.len
    omega
  omega

/-- C64: a file with an option line and the records of an `n`-port at two or more increasing frequencies, however
they are broken into lines and whatever comments there are: the frequencies in the unit of the option line, the
numbers in pairs interpreted as the option line says, row by row, for a two-port column by column. -/
theorem C64_read (env : Env) (ls : List (List Char)) (its : List Item) (h : List.Forall₂ (Says env) ls its)
    (text : List Char) (ho : options its = [text]) (m : ℚ) (par : List Char) (f : ℚ → ℚ → Cplx) (z0 : ℚ)
    (hopt : IsOption env text m par f z0) (n : Nat) (hn : 1 ≤ n) (rs : List (Line ℚ × List (Line ℚ)))
    (hd : dataLines its = lines rs) (hF : 2 ≤ rs.length) (hr : ∀ r ∈ rs, IsRecord (2 * n ^ 2 + 1) r)
    (hinc : rs.Pairwise fun a b => a.1.1 < b.1.1) :
    ∃ b, read env ls = .ok b ∧ b.par = par ∧ b.freq = rs.map (fun r => r.1.1 * m) ∧ b.ports = n ∧ b.z0 = z0 ∧
      b.noise = none ∧
      ∀ k r i j, rs[k]? = some r → i < n → j < n →
        ∃ x y, (numbers r).2[2 * (if n = 2 then j * n + i else i * n + j)]? = some x ∧
          (numbers r).2[2 * (if n = 2 then j * n + i else i * n + j) + 1]? = some y ∧ b.elem k i j = some (f x y) := by
  have hlen : ∀ r ∈ rs, (numbers r).2.length = 2 * (n * n) := fun r h => by
    have := numbers_length (hr r h)
    rw [this, Nat.pow_two]
  obtain ⟨b, h1, h2, h3, h4, h5, h6, h7⟩ := procInfo_option env text m par f z0 hopt n (rs.map numbers) [] (by
    rintro e
    rw [List.map_eq_nil_iff] at e
    subst e
    simp at hF) (by
    intro q hq
    obtain ⟨r, hr', rfl⟩ := List.mem_map.1 hq
    exact hlen r hr')
  refine ⟨b, ?_, h2, ?_, h4, h5, h7, ?_⟩
  · unfold read
    rw [C64_lines env ls its h text ho]
    simp only
    rw [hd, C18_records n hn rs hF hr hinc]
    exact h1
  · rw [h3, List.map_map]; rfl
  · intro k r i j hk hi hj
    have hmem : r ∈ rs := List.mem_of_getElem? hk
    have hb : (if n = 2 then j * n + i else i * n + j) < n * n := by
      have g : ∀ a b, a < n → b < n → a * n + b < n * n := by
        intro a b ha hb
        have : a * n + n ≤ n * n := by rw [← Nat.succ_mul]; exact Nat.mul_le_mul_right n ha
        omega
      split
      · exact g j i hj hi
      · exact g i j hi hj
    have hL := hlen r hmem
    refine ⟨_, _, List.getElem?_eq_getElem (by omega), List.getElem?_eq_getElem (by omega), ?_⟩
    exact h6 k (numbers r) i j _ _ (by rw [List.getElem?_map, hk]; rfl) hi hj
      (List.getElem?_eq_getElem (by omega)) (List.getElem?_eq_getElem (by omega))

/-- C64: noise parameters after the records of a two-port: frequency in the unit of the option line, minimal noise
figure, optimal reflection factor, noise resistance relative to the resistance of the option line; the records of the
two-port as without noise parameters. -/
theorem C64_noise (env : Env) (ls : List (List Char)) (its : List Item) (h : List.Forall₂ (Says env) ls its)
    (text : List Char) (ho : options its = [text]) (m : ℚ) (par : List Char) (f : ℚ → ℚ → Cplx) (z0 : ℚ)
    (hopt : IsOption env text m par f z0) (rs ns : List (Line ℚ × List (Line ℚ)))
    (hd : dataLines its = lines rs ++ lines ns) (hF : 1 ≤ rs.length) (hG : 1 ≤ ns.length) (hFG : 3 ≤ rs.length + ns.length)
    (hr : ∀ r ∈ rs, IsRecord 9 r) (hn : ∀ r ∈ ns, IsRecord 5 r) (hinc : rs.Pairwise fun a b => a.1.1 < b.1.1)
    (hinc' : ns.Pairwise fun a b => a.1.1 < b.1.1) (hle : ∀ r ∈ rs.getLast?, ∀ s ∈ ns.head?, s.1.1 ≤ r.1.1) :
    ∃ b nz, read env ls = .ok b ∧ b.par = par ∧ b.freq = rs.map (fun r => r.1.1 * m) ∧ b.ports = 2 ∧ b.z0 = z0 ∧
      b.noise = some nz ∧ nz.length = ns.length ∧
      (∀ (k : Nat) s, ns[k]? = some s → ∃ nf re im rn, (numbers s).2 = [nf, re, im, rn] ∧
        nz[k]? = some (s.1.1 * m, nf, f re im, rn * z0)) ∧
      ∀ k r i j, rs[k]? = some r → i < 2 → j < 2 →
        ∃ x y, (numbers r).2[2 * (j * 2 + i)]? = some x ∧ (numbers r).2[2 * (j * 2 + i) + 1]? = some y ∧
          b.elem k i j = some (f x y) := by
  obtain ⟨b, h1, h2, h3, h4, h5, h6, h7⟩ := procInfo_option env text m par f z0 hopt 2 (rs.map numbers) (ns.map numbers) (by
    rintro e
    rw [List.map_eq_nil_iff] at e
    subst e
    simp at hF) (by
    intro q hq
    obtain ⟨r, hr', rfl⟩ := List.mem_map.1 hq
    exact numbers_length (N := 8) (hr r hr'))
  rw [if_neg (by
    intro e
    rw [List.map_eq_nil_iff] at e
    subst e
    simp at hG)] at h7
  refine ⟨b, _, ?_, h2, ?_, h4, h5, h7, by simp, ?_, ?_⟩
  · unfold read
    rw [C64_lines env ls its h text ho]
    simp only
    rw [hd, C18_noise rs ns hF hG hFG hr hn hinc hinc' hle]
    exact h1
  · rw [h3, List.map_map]; rfl
  · intro k s hk
    have hL := numbers_length (N := 4) (hn s (List.mem_of_getElem? hk))
    match hq : (numbers s).2, hL with
    | [nf, re, im, rn], _ =>
      refine ⟨nf, re, im, rn, rfl, ?_⟩
      rw [List.getElem?_map, List.getElem?_map, hk]
      simp only [Option.map_some, hq]
      rfl
  · intro k r i j hk hi hj
    have hL := numbers_length (N := 8) (hr r (List.mem_of_getElem? hk))
    refine ⟨_, _, List.getElem?_eq_getElem (by omega), List.getElem?_eq_getElem (by omega), ?_⟩
    exact h6 k (numbers r) i j _ _ (by rw [List.getElem?_map, hk]; rfl) hi hj
      (by rw [if_pos rfl]; exact List.getElem?_eq_getElem (by omega)) (by rw [if_pos rfl]; exact List.getElem?_eq_getElem (by omega))

/-! ### A file -/

def exLines : List (List Char) := [" ! a one-port".toList, "#  gHz s\tMa r 50 ".toList, [], " 1 2 3 ! first".toList, "2 4 5".toList]

def exItems : List Item := [.comment "a one-port".toList, .option "gHz s\tMa r 50".toList, .blank, .data (1, [2, 3]),
  .data (2, [4, 5])]

theorem exOption : IsOption exEnv "gHz s\tMa r 50".toList 1000000000 ['S'] exEnv.magAngle 50 := by
  refine ⟨"gHz".toList, "s".toList, "Ma".toList, ["r".toList, "50".toList], (words_iff _ _).1 (by decide), ⟨['g'], ?_, ?_⟩,
    ⟨'s', by decide, ?_, by decide⟩, Or.inr (Or.inr ⟨?_, rfl⟩), Or.inr ⟨_, _, rfl, by decide +kernel⟩⟩
  · simp [prefixes]
  · exact .cons (Or.inl (by decide)) (.cons (Or.inr (by decide)) (.cons (Or.inl (by decide)) .nil))
  · exact .cons (Or.inl (by decide)) .nil
  · exact .cons (Or.inr (by decide)) (.cons (Or.inl (by decide)) .nil)

theorem exSays : List.Forall₂ (Says exEnv) exLines exItems := by
  refine .cons ?_ (.cons ?_ (.cons ?_ (.cons ?_ (.cons ?_ .nil))))
  · exact .comment [' '] _ _ (by simp [Blank]; decide) ((strip_iff _ _).1 (by decide))
  · exact .option [] _ _ _ _ _ _ (by simp [Blank]) ((strip_iff _ _).1 (by decide)) exOption
  · exact .blank [] (by simp [Blank])
  · exact .data [' '] '1' " 2 3 ! first".toList " 1 2 3 ".toList [['1'], ['2'], ['3']] 1 [2, 3] (by simp [Blank]; decide)
      (by decide) (by decide) (by decide) ⟨by decide, Or.inr ⟨" first".toList, by decide⟩⟩ ((words_iff _ _).1 (by decide))
      (.cons (by decide +kernel) (.cons (by decide +kernel) (.cons (by decide +kernel) .nil)))
  · exact .data [] '2' " 4 5".toList "2 4 5".toList [['2'], ['4'], ['5']] 2 [4, 5] (by simp [Blank])
      (by decide) (by decide) (by decide) ⟨by decide, Or.inl rfl⟩ ((words_iff _ _).1 (by decide))
      (.cons (by decide +kernel) (.cons (by decide +kernel) (.cons (by decide +kernel) .nil)))

example : ∃ b, read exEnv exLines = .ok b ∧ b.freq = [1 * 1000000000, 2 * 1000000000] ∧ b.elem 1 0 0 = some (4, 5) := by
  obtain ⟨b, h1, -, h3, -, -, -, h7⟩ := C64_read exEnv exLines exItems exSays _ rfl _ _ _ _ exOption 1 (le_refl _)
    [((1, [2, 3]), []), ((2, [4, 5]), [])] rfl (by simp) (by
      intro r hr
      rcases List.mem_cons.1 hr with rfl | hr
      · exact ⟨by decide, by simp, by decide⟩
      · rw [List.mem_singleton.1 hr]; exact ⟨by decide, by simp, by decide⟩) (by
      simp)
  refine ⟨b, h1, h3, ?_⟩
  obtain ⟨x, y, hx, hy, e⟩ := h7 1 ((2, [4, 5]), []) 0 0 rfl (by decide) (by decide)
  simp [numbers] at hx hy
  subst hx hy
  exact e

/-- Lines as they are written. -/
theorem says_row (env : Env) (x : ℚ) (l : List ℚ) (h : ∀ y ∈ x :: l, Survives env y) :
    Says env (join '\t' ((x :: l).map env.fmt)) (.data (x, l)) := by
  have hw : ∀ f ∈ (x :: l).map env.fmt, IsWord f := by
    intro f hf
    obtain ⟨y, hy, rfl⟩ := List.mem_map.1 hf
    exact (h y hy).word
  have hx := h x (by simp)
  obtain ⟨r, hr⟩ := join_cons '\t' (env.fmt x) (l.map env.fmt)
  rw [← List.map_cons] at hr
  obtain ⟨c, t, hct⟩ := List.exists_cons_of_ne_nil hx.word.1
  have hj : join '\t' ((x :: l).map env.fmt) = [] ++ c :: (t ++ r) := by rw [hr, hct]; rfl
  have hs : Spaced (join '\t' ((x :: l).map env.fmt)) ((x :: l).map env.fmt) :=
    (words_iff _ _).1 (words_join _ (by decide) _ hw)
  have hn : '!' ∉ join '\t' ((x :: l).map env.fmt) := by
    intro hc
    rcases mem_join _ _ _ hc with hc | ⟨f, hf, hcf⟩
    · revert hc; decide
    · obtain ⟨y, hy, rfl⟩ := List.mem_map.1 hf
      exact (h y hy).noComment hcf
  have hp : List.Forall₂ (fun w y => env.parse w = some y) ((x :: l).map env.fmt) (x :: l) := by
    rw [List.forall₂_map_left_iff, List.forall₂_same]
    exact fun y hy => (h y hy).same
  rw [hj] at hs hn ⊢
  refine .data [] c (t ++ r) _ _ x l (by simp [Blank]) ?_ ?_ ?_ ⟨hn, Or.inl rfl⟩ hs hp
  · exact hx.word.2 c (by rw [hct]; simp)
  · rintro rfl; exact hx.noComment (by rw [hct]; simp)
  · rintro rfl; exact hx.noInfo (by rw [hct]; rfl)

/-- A two-port with noise parameters. -/
example : ∃ b nz, read exEnv ("#gHz s\tMa r 50".toList :: [[1, 2, 3, 4, 5, 6, 1, 2, 3], [1, 4, 5, 6, 2], [2, 4, 5, 6, 3]].map
    fun l => join '\t' (l.map exEnv.fmt)) = .ok b ∧ b.noise = some nz ∧
    nz[1]? = some (2 * 1000000000, 4, (5, 6), 3 * 50) := by
  have h : List.Forall₂ (Says exEnv) ("#gHz s\tMa r 50".toList :: [[1, 2, 3, 4, 5, 6, 1, 2, 3], [1, 4, 5, 6, 2], [2, 4, 5, 6, 3]].map
      fun l => join '\t' (l.map exEnv.fmt))
      [.option "gHz s\tMa r 50".toList, .data (1, [2, 3, 4, 5, 6, 1, 2, 3]), .data (1, [4, 5, 6, 2]), .data (2, [4, 5, 6, 3])] := by
    refine .cons (.option [] _ _ _ _ _ _ (by simp [Blank]) ((strip_iff _ _).1 (by decide)) exOption)
      (.cons (says_row _ _ _ ?_) (.cons (says_row _ _ _ ?_) (.cons (says_row _ _ _ ?_) .nil)))
    all_goals
      intro y hy
      refine exEnv_survives y ?_
      simp only [List.mem_cons, List.not_mem_nil, or_false] at hy ⊢
      tauto
  obtain ⟨b, nz, h1, -, -, -, -, h6, -, h8, -⟩ := C64_noise exEnv _ _ h _ rfl _ _ _ _ exOption
    [((1, [2, 3, 4, 5, 6, 1, 2, 3]), [])] [((1, [4, 5, 6, 2]), []), ((2, [4, 5, 6, 3]), [])] rfl (by simp) (by simp) (by simp)
    (by
      intro r hr
      rw [List.mem_singleton.1 hr]; exact ⟨by decide, by simp, by decide⟩)
    (by
      intro r hr
      rcases List.mem_cons.1 hr with rfl | hr
      · exact ⟨by decide, by simp, by decide⟩
      · rw [List.mem_singleton.1 hr]; exact ⟨by decide, by simp, by decide⟩)
    (by simp) (by simp) (by simp)
  refine ⟨b, nz, h1, h6, ?_⟩
  obtain ⟨nf, re, im, rn, e, hz⟩ := h8 1 ((2, [4, 5, 6, 3]), []) rfl
  simp only [numbers, List.flatMap_nil, List.append_nil, List.cons.injEq, and_true] at e
  obtain ⟨rfl, rfl, rfl, rfl⟩ := e
  exact hz

end HF.Touchstone
