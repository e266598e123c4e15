import Verif.Readers.Table
import Verif.Utils.LexProps
import Mathlib.Data.List.Forall2
/-
C106: printing comments shows every property, in order, and nothing is cut off.
-/
namespace HF.Readers.Table

/-! ### Specification -/

/-- White space of python. -/
def Blank (c : Char) : Prop := c = ' ' ∨ c = '\t' ∨ c = '\n' ∨ c = '\r' ∨ c = '\x0b' ∨ c = '\x0c'

/-- The text `s` without the white space around it is `t`. -/
def Stripped (s t : List Char) : Prop :=
  ∃ a b, s = a ++ t ++ b ∧ (∀ c ∈ a, Blank c) ∧ (∀ c ∈ b, Blank c) ∧
    (∀ c, t.head? = some c → ¬ Blank c) ∧ ∀ c, t.getLast? = some c → ¬ Blank c

/-- What stands in the table for a value. -/
def Shows : Val → List Char → Prop
  | .text s, t => Stripped s t
  | .other s, t => t = s

/-- A line of the table with the key and the value that it shows in a column of width `kw` and the one behind it. -/
def Row (kw : Nat) (l k v : List Char) : Prop :=
  ∃ m n, l = k ++ List.replicate m ' ' ++ [' '] ++ v ++ List.replicate n ' ' ∧ k.length + m = kw

/-- `kw` is the length of the longest key. -/
def Longest (prop : List (List Char × Val)) (kw : Nat) : Prop :=
  (∀ p ∈ prop, p.1.length ≤ kw) ∧ ∃ p ∈ prop, p.1.length = kw

/-! ### Lemmas -/

theorem foldl_max (l : List Nat) (a : Nat) : (∀ x ∈ l, x ≤ l.foldl max a) ∧ a ≤ l.foldl max a ∧
    (l.foldl max a = a ∨ l.foldl max a ∈ l) := by
  induction l generalizing a with
  | nil => simp
  | cons x t ih =>
    obtain ⟨h1, h2, h3⟩ := ih (max a x)
    simp only [List.foldl_cons, List.mem_cons, forall_eq_or_imp]
    refine ⟨⟨by omega, h1⟩, by omega, ?_⟩
    rcases h3 with h3 | h3
    · rcases Nat.le_total a x with h | h
      · right; left; rw [h3, Nat.max_eq_right h]
      · left; rw [h3, Nat.max_eq_left h]
    · exact Or.inr (Or.inr h3)

theorem longest_keyWidth (prop : List (List Char × Val)) (h : prop ≠ []) : Longest prop (keyWidth prop) := by
  obtain ⟨h1, -, h3⟩ := foldl_max (prop.map fun p => p.1.length) 0
  refine ⟨fun p hp => h1 _ (List.mem_map.2 ⟨p, hp, rfl⟩), ?_⟩
  rcases h3 with h3 | h3
  · cases prop with
    | nil => exact absurd rfl h
    | cons p t =>
      refine ⟨p, by simp, ?_⟩
      have := h1 p.1.length (by simp)
      unfold keyWidth
      rw [h3] at this ⊢
      omega
  · obtain ⟨p, hp, e⟩ := List.mem_map.1 h3
    exact ⟨p, hp, e⟩

theorem longest_unique {prop : List (List Char × Val)} {a b : Nat} (ha : Longest prop a) (hb : Longest prop b) : a = b := by
  obtain ⟨p, hp, e⟩ := ha.2
  obtain ⟨q, hq, e'⟩ := hb.2
  have := ha.1 q hq
  have := hb.1 p hp
  omega

theorem strLt_iff (a b : List Char) : Utils.strLt a b = true ↔ a < b := by
  unfold Utils.strLt
  induction a generalizing b with
  | nil => cases b <;> simp [Py.lexLt]
  | cons c s ih =>
    cases b with
    | nil => simp [Py.lexLt]
    | cons d t =>
      rw [List.cons_lt_cons_iff, Py.lexLt]
      by_cases h : c = d
      · subst h
        simp [ih, Char.lt_irrefl]
      · simp [h]

theorem blank_iff (c : Char) : Units.isWs c = true ↔ Blank c := by
  simp [Units.isWs, Blank, or_assoc]

theorem stripped_strip (s : List Char) : Stripped s (Units.strip s) := by
  refine ⟨s.takeWhile Units.isWs, ((s.dropWhile Units.isWs).reverse.takeWhile Units.isWs).reverse, ?_, ?_, ?_, ?_, ?_⟩
  · have h := List.takeWhile_append_dropWhile (p := Units.isWs) (l := (s.dropWhile Units.isWs).reverse)
    have h' := congrArg List.reverse h
    rw [List.reverse_append, List.reverse_reverse] at h'
    unfold Units.strip
    rw [List.append_assoc, h', List.takeWhile_append_dropWhile]
  · intro c hc; exact (blank_iff c).1 (List.all_eq_true.1 List.all_takeWhile c hc)
  · intro c hc; exact (blank_iff c).1 (List.all_eq_true.1 List.all_takeWhile c (List.mem_reverse.1 hc))
  · intro c hc hb
    have hpre : Units.strip s <+: s.dropWhile Units.isWs := by
      unfold Units.strip
      have := List.dropWhile_suffix (l := (s.dropWhile Units.isWs).reverse) Units.isWs
      rw [← List.reverse_prefix] at this
      simpa using this
    have : (s.dropWhile Units.isWs).head? = some c := by
      obtain ⟨r, hr⟩ := hpre
      rw [← hr]
      cases hs : Units.strip s with
      | nil => rw [hs] at hc; cases hc
      | cons a t => rw [hs] at hc; simpa using hc
    have := List.head?_dropWhile_not Units.isWs s
    simp_all [(blank_iff c).2 hb]
  · intro c hc hb
    unfold Units.strip at hc
    rw [List.getLast?_reverse] at hc
    have := List.head?_dropWhile_not Units.isWs (s.dropWhile Units.isWs).reverse
    simp_all [(blank_iff c).2 hb]

theorem shows_shown (v : Val) : Shows v (shown v) := by
  cases v with
  | text s => exact stripped_strip s
  | other s => rfl

theorem center_length (w : Int) (c : Char) (s : List Char) : (center w c s).length = max w.toNat s.length := by
  unfold center
  simp only [List.length_append, List.length_replicate]
  split <;> omega

theorem ljust_length (w : Int) (s : List Char) : (ljust w s).length = max w.natAbs s.length := by
  unfold ljust
  simp only [List.length_append, List.length_replicate]
  omega

/-! ### Properties -/

/-- C106.  Nothing is printed exactly if there are no properties; otherwise there are three lines of heading and one line
for each property. -/
theorem C106_count (w : Nat) (prop : List (List Char × Val)) :
    (table w prop = [] ↔ prop = []) ∧ (prop ≠ [] → (table w prop).length = 3 + prop.length) := by
  cases prop with
  | nil => simp [table]
  | cons p t => simp [table, (Py.sortBy_perm _ _).length_eq]; omega

/-- C106.  The lines behind the heading show the properties sorted by key, each exactly once, with its whole key, a blank,
and its whole value, without the white space around it if it is a text.  All values begin in the same column, one behind the
longest key. -/
theorem C106_rows (w : Nat) (prop : List (List Char × Val)) (hn : (prop.map Prod.fst).Nodup) (kw : Nat)
    (hk : Longest prop kw) :
    ∃ ps : List (List Char × Val), ps.Perm prop ∧ ps.Pairwise (fun a b => a.1 < b.1) ∧
      List.Forall₂ (fun l p => ∃ v, Shows p.2 v ∧ Row kw l p.1 v) ((table w prop).drop 3) ps := by
  have hne : prop ≠ [] := by
    rintro rfl
    obtain ⟨p, hp, -⟩ := hk.2
    cases hp
  have hkw : keyWidth prop = kw := longest_unique (longest_keyWidth prop hne) hk
  refine ⟨Py.sortBy (fun a b => Utils.strLt a.1 b.1) prop, Py.sortBy_perm _ _, ?_, ?_⟩
  · have hs : (Py.sortBy (fun a b => Utils.strLt a.1 b.1) prop).Pairwise (fun a b => Utils.strLt b.1 a.1 = false) :=
      Py.sortBy_sorted (fun x _ y _ z _ => Utils.strLt_total.negTrans trivial trivial trivial)
        (fun x _ y _ => Utils.strLt_total.asymm trivial trivial)
    have hd : (Py.sortBy (fun a b => Utils.strLt a.1 b.1) prop).Pairwise (fun a b => a.1 ≠ b.1) := by
      have : ((Py.sortBy (fun a b => Utils.strLt a.1 b.1) prop).map Prod.fst).Nodup :=
        ((Py.sortBy_perm _ prop).map Prod.fst).nodup_iff.2 hn
      exact List.pairwise_map.1 this
    refine (hs.and hd).imp fun {a b} h => (strLt_iff _ _).1 ?_
    rcases Utils.strLt_total.tri a.1 b.1 trivial trivial h.2 with h' | h'
    · exact h'
    · rw [h.1] at h'; cases h'
  · have he : (table w prop).drop 3 = (Py.sortBy (fun a b => Utils.strLt a.1 b.1) prop).map fun p =>
        ljust kw p.1 ++ [' '] ++ ljust (w - kw) (shown p.2) := by
      unfold table
      rw [if_neg (by simpa using hne)]
      simp [hkw]
    rw [he, List.forall₂_map_left_iff]
    have hmem : ∀ p ∈ Py.sortBy (fun a b => Utils.strLt a.1 b.1) prop, p.1.length ≤ kw :=
      fun p hp => hk.1 p ((Py.sortBy_perm _ _).mem_iff.1 hp)
    rw [List.forall₂_same]
    intro p hp
    have := hmem p hp
    refine ⟨shown p.2, shows_shown _, kw - p.1.length, ((w : Int) - kw).natAbs - (shown p.2).length, ?_, by omega⟩
    simp [ljust, List.append_assoc]

/-- C106.  If the longest key has at least three characters and the values fit into the rest of the width, all lines,
heading included, have one character more than the width. -/
theorem C106_aligned (w : Nat) (prop : List (List Char × Val)) (kw : Nat) (hk : Longest prop kw) (h3 : 3 ≤ kw) (h5 : kw + 5 ≤ w) (h9 : 9 ≤ w)
    (hv : ∀ p ∈ prop, ∀ v, Shows p.2 v → kw + v.length ≤ w) (l : List Char) (hl : l ∈ table w prop) : l.length = w + 1 := by
  have hne : prop ≠ [] := by
    rintro rfl
    obtain ⟨p, hp, -⟩ := hk.2
    cases hp
  have hkw : keyWidth prop = kw := longest_unique (longest_keyWidth prop hne) hk
  unfold table at hl
  rw [if_neg (by simpa using hne), hkw] at hl
  simp only [List.mem_cons, List.mem_map] at hl
  have e1 : " Comments ".toList.length = 10 := rfl
  have e2 : "Key".toList.length = 3 := rfl
  have e3 : "Value".toList.length = 5 := rfl
  rcases hl with rfl | rfl | rfl | ⟨p, hp, rfl⟩
  · rw [center_length, e1]; omega
  · simp only [List.length_append, ljust_length, center_length, e2, e3, List.length_singleton]; omega
  · simp only [List.length_append, rule, List.length_replicate, List.length_singleton]; omega
  · have hp' := (Py.sortBy_perm _ _).mem_iff.1 hp
    have := hk.1 p hp'
    have := hv p hp' _ (shows_shown _)
    simp only [List.length_append, ljust_length, List.length_singleton]; omega

/-- C106.  With keys shorter than three characters the lines are not aligned: the heading is longer than the rule below it. -/
theorem C106_short_refuted (w : Nat) (prop : List (List Char × Val)) (kw : Nat) (hk : Longest prop kw) (h3 : kw < 3) (h5 : kw + 5 ≤ w) :
    ∃ a b, (table w prop)[1]? = some a ∧ (table w prop)[2]? = some b ∧ b.length = w + 1 ∧ a.length = w + 4 - kw := by
  have hne : prop ≠ [] := by
    rintro rfl
    obtain ⟨p, hp, -⟩ := hk.2
    cases hp
  have hkw : keyWidth prop = kw := longest_unique (longest_keyWidth prop hne) hk
  unfold table
  rw [if_neg (by simpa using hne), hkw]
  have e2 : "Key".toList.length = 3 := rfl
  have e3 : "Value".toList.length = 5 := rfl
  refine ⟨_, _, rfl, rfl, ?_, ?_⟩
  · simp only [List.length_append, rule, List.length_replicate, List.length_singleton]; omega
  · simp only [List.length_append, ljust_length, center_length, e2, e3, List.length_singleton]; omega

theorem count_intercalate (ls : List (List Char)) (h : ∀ l ∈ ls, '\n' ∉ l) :
    (['\n'].intercalate ls).count '\n' = ls.length - 1 := by
  induction ls with
  | nil => rfl
  | cons a t ih =>
    cases t with
    | nil => simpa [List.intercalate] using List.count_eq_zero.2 (h a (by simp))
    | cons b t =>
      have h1 := ih fun l hl => h l (by simp [hl])
      have e : ['\n'].intercalate (a :: b :: t) = a ++ '\n' :: ['\n'].intercalate (b :: t) := by
        simp [List.intercalate]
      rw [e, List.count_append, List.count_cons_self, h1, List.count_eq_zero.2 (h a (by simp))]
      simp

/-- C106.  What is printed has one line for each line of the table, if no key and no value contains the end of a line. -/
theorem C106_printed (w : Nat) (prop : List (List Char × Val)) (hne : prop ≠ [])
    (hk : ∀ p ∈ prop, '\n' ∉ p.1 ∧ ∀ v, Shows p.2 v → '\n' ∉ v) : (repr w prop).count '\n' = 2 + prop.length := by
  unfold repr
  rw [count_intercalate, (C106_count w prop).2 hne]
  · omega
  · intro l hl
    unfold table at hl
    rw [if_neg (by simpa using hne)] at hl
    simp only [List.mem_cons, List.mem_map] at hl
    have hl' : ∀ (w : Int) (s : List Char), '\n' ∉ s → '\n' ∉ ljust w s := by
      intro w s h; simp [ljust, h]
    have hc : ∀ (w : Int) (c : Char) (s : List Char), c ≠ '\n' → '\n' ∉ s → '\n' ∉ center w c s := by
      intro w c s h h'; simp [center, h', h.symm]
    rcases hl with rfl | rfl | rfl | ⟨p, hp, rfl⟩
    · exact hc _ _ _ (by decide) (by decide)
    · simp only [List.mem_append, List.mem_singleton, not_or]
      exact ⟨⟨hl' _ _ (hc _ _ _ (by decide) (by decide)), by decide⟩, hl' _ _ (hc _ _ _ (by decide) (by decide))⟩
    · simp [rule]
    · have hp' := hk p ((Py.sortBy_perm _ _).mem_iff.1 hp)
      simp [hl' _ _ hp'.1, hl' _ _ (hp'.2 _ (shows_shown _))]

/-! ### A concrete case -/

def exProps : List (List Char × Val) := [("Temp".toList, .other "300.0 K".toList), ("By".toList, .text " me ".toList)]

example : Longest exProps 4 := by unfold Longest exProps; decide

/-- The hypotheses on the values are met: what is shown is no longer than the value. -/
example (l : List Char) (hl : l ∈ table stdWidth exProps) : l.length = 77 := by
  refine C106_aligned stdWidth exProps 4 (by unfold Longest exProps; decide) (by decide) (by decide) (by decide) ?_ l hl
  intro p hp v hv
  simp only [exProps, List.mem_cons, List.not_mem_nil, or_false] at hp
  rcases hp with rfl | rfl
  · subst hv; decide
  · obtain ⟨a, b, e, -⟩ := hv
    have := congrArg List.length e
    simp only [List.length_append] at this
    have e4 : " me ".toList.length = 4 := rfl
    unfold stdWidth
    omega

example : (exProps.map Prod.fst).Nodup := by decide

example : table stdWidth exProps = ["---------------------------------- Comments ---------------------------------".toList,
    "Key                                   Value                                  ".toList,
    "---- ------------------------------------------------------------------------".toList,
    "By   me                                                                      ".toList,
    "Temp 300.0 K                                                                 ".toList] := by decide +kernel

end HF.Readers.Table
