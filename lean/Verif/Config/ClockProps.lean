import Verif.Config.Clock
/-
C82: a clock time in the settings is the next moment at which the clock shows it.
-/
namespace HF
namespace Config
namespace Clock

/-! ### Specification -/

/-- A number below 100 as two digits. -/
def digits (n : Nat) : List Char := [Char.ofNat (48 + n / 10), Char.ofNat (48 + n % 10)]

/-- `hh:mm`, or `hh:mm:ss` -/
def text (h m : Nat) : Option Nat → List Char
  | none => digits h ++ ':' :: digits m
  | some s => digits h ++ ':' :: digits m ++ ':' :: digits s

/-- What the clock shows, as microseconds since midnight. -/
def shown (t : Nat) : Nat := t % day

/-- The first moment from `now` on at which the clock shows `c`. -/
def IsNext (now c r : Nat) : Prop := now ≤ r ∧ shown r = c ∧ ∀ t, now ≤ t → shown t = c → r ≤ t

/-! ### Lemmas -/

theorem digit_ofNat (n : Nat) (h : n < 10) : digit (Char.ofNat (48 + n)) = some n := by
  have : ∀ n : Fin 10, digit (Char.ofNat (48 + n.1)) = some n.1 := by decide +kernel
  exact this ⟨n, h⟩

theorem two_digits (n : Nat) (h : n < 100) : two (Char.ofNat (48 + n / 10)) (Char.ofNat (48 + n % 10)) = some n := by
  unfold two
  rw [digit_ofNat _ (by omega), digit_ofNat _ (by omega)]
  simp only [Option.some.injEq]
  omega

theorem matchTime_text (h m : Nat) (s : Option Nat) (hh : h < 100) (hm : m < 100) (hs : ∀ x, s = some x → x < 100)
    (rest : List Char) (hr : s = none → seconds rest = none) : matchTime (text h m s ++ rest) = some (h, m, s) := by
  cases s with
  | none =>
    simp only [text, digits, List.cons_append, List.nil_append, matchTime, two_digits h hh, two_digits m hm, hr rfl]
  | some x =>
    simp only [text, digits, List.cons_append, List.nil_append, matchTime, two_digits h hh, two_digits m hm, seconds,
      two_digits x (hs x rfl)]

theorem next_ok (now c : Nat) (hc : c < day) :
    let d2 := now / day * day + c
    IsNext now c (if d2 < now then d2 + day else d2) ∧ (if d2 < now then d2 + day else d2) < now + day := by
  simp only
  unfold IsNext shown
  have hd : 0 < day := by unfold day; omega
  have hdm := Nat.div_add_mod now day
  have hml := Nat.mod_lt now hd
  have hmul : now / day * day = day * (now / day) := Nat.mul_comm _ _
  have e1 : (now / day * day + c) % day = c := by
    rw [hmul, Nat.mul_add_mod, Nat.mod_eq_of_lt hc]
  have hdiv : ∀ t, now ≤ t → now / day ≤ t / day := fun t ht => Nat.div_le_div_right ht
  split
  · rename_i hlt
    refine ⟨⟨by omega, by rw [Nat.add_mod_right, e1], ?_⟩, by omega⟩
    intro t h1 h2
    have h3 := hdiv t h1
    have h4 := Nat.div_add_mod t day
    rcases Nat.lt_or_ge (now / day) (t / day) with h5 | h5
    · have : day * (now / day + 1) ≤ day * (t / day) := Nat.mul_le_mul_left _ h5
      rw [Nat.mul_add, Nat.mul_one] at this
      omega
    · have h6 : t / day = now / day := by omega
      rw [h2, h6] at h4
      omega
  · rename_i hlt
    refine ⟨⟨by omega, e1, ?_⟩, by omega⟩
    intro t h1 h2
    have h3 := hdiv t h1
    have h4 := Nat.div_add_mod t day
    have : day * (now / day) ≤ day * (t / day) := Nat.mul_le_mul_left _ h3
    omega

/-- What a successful reading gives. -/
theorem construct_next (t : List Char) : ∀ now r, timeConstructor now t = .ok r →
    ∃ h m s, matchTime t = some (h, m, s) ∧ IsNext now ((h * 3600 + m * 60 + s.getD 0) * 1000000) r ∧ r < now + day := by
  intro now r h
  unfold timeConstructor at h
  cases e : matchTime t with
  | none => rw [e] at h; cases h
  | some q =>
    obtain ⟨hh, m, s⟩ := q
    rw [e] at h
    simp only at h
    split at h
    · rename_i hb
      simp only [Bool.and_eq_true, decide_eq_true_eq] at hb
      cases h
      exact ⟨hh, m, s, rfl, next_ok now _ (by unfold day; omega)⟩
    · cases h

/-! ### C82 -/

/-- C82.  A text that begins with a clock time is read as the next moment at which the clock shows that time, this
moment included: today if it is not past, else tomorrow.  What follows in the text has no influence. -/
theorem C82_next (now h m : Nat) (s : Option Nat) (hh : h < 24) (hm : m < 60) (hs : s.getD 0 < 60) (rest : List Char)
    (hr : s = none → seconds rest = none) :
    ∃ r, timeConstructor now (text h m s ++ rest) = .ok r ∧
      IsNext now ((h * 3600 + m * 60 + s.getD 0) * 1000000) r ∧ r < now + day := by
  have hmt := matchTime_text h m s (by omega) (by omega) (by rintro x rfl; simp at hs; omega) rest hr
  have hok : ∃ r, timeConstructor now (text h m s ++ rest) = .ok r := by
    unfold timeConstructor
    rw [hmt]
    simp only [hh, hm, hs, decide_true, Bool.and_self, if_true]
    exact ⟨_, rfl⟩
  obtain ⟨r, hr⟩ := hok
  obtain ⟨h', m', s', e, hn⟩ := construct_next _ now r hr
  rw [hmt] at e
  cases e
  exact ⟨r, hr, hn⟩

/-- C82.  There is only one such moment. -/
theorem C82_unique (now c r r' : Nat) (h : IsNext now c r) (h' : IsNext now c r') : r = r' :=
  Nat.le_antisymm (h.2.2 r' h'.1 h'.2.1) (h'.2.2 r h.1 h.2.1)

/-- C82.  Loading the settings again later gives no earlier moment, and the same moment as long as it is not past. -/
theorem C82_reload (now now' : Nat) (hn : now ≤ now') (t : List Char) (r r' : Nat) (h : timeConstructor now t = .ok r)
    (h' : timeConstructor now' t = .ok r') : r ≤ r' ∧ (now' ≤ r → r' = r) ∧ (r < now' → r + day ≤ r') := by
  have key : ∃ c, IsNext now c r ∧ IsNext now' c r' := by
    obtain ⟨a, b, c, e, g, _⟩ := construct_next t now r h
    obtain ⟨a', b', c', e', g', _⟩ := construct_next t now' r' h'
    rw [e] at e'
    cases e'
    exact ⟨_, g, g'⟩
  obtain ⟨c, h1, h2⟩ := key
  refine ⟨h1.2.2 r' (by have := h2.1; omega) h2.2.1, ?_, ?_⟩
  · intro h3
    exact Nat.le_antisymm (h2.2.2 r h3 h1.2.1) (h1.2.2 r' (by have := h2.1; omega) h2.2.1)
  · intro h3
    have a := h1.2.1
    have b := h2.2.1
    have c := h2.1
    unfold shown day at *
    omega

/-- C82.  Hours from 24, minutes and seconds from 60 are refused. -/
theorem C82_range (now h m : Nat) (s : Option Nat) (hh : h < 100) (hm : m < 100) (hs : ∀ x, s = some x → x < 100)
    (hbad : 24 ≤ h ∨ 60 ≤ m ∨ 60 ≤ s.getD 0) (rest : List Char) (hr : s = none → seconds rest = none) :
    timeConstructor now (text h m s ++ rest) = .error .valueError := by
  unfold timeConstructor
  rw [matchTime_text h m s hh hm hs rest hr]
  simp only
  rw [if_neg]
  simp only [Bool.and_eq_true, decide_eq_true_eq]
  omega

/-- C82.  Whole numbers are read as numbers: a text without a colon is no time. -/
theorem C82_int {V : Type} (now : Nat) (moment : Nat → V) (yamlInt : List Char → Except Err V) (t : List Char)
    (ht : ':' ∉ t) : overrideInt now moment yamlInt t = yamlInt t := by
  unfold overrideInt
  have : matchTime t = none := by
    unfold matchTime
    split
    · simp at ht
    · rfl
  rw [this]

/-- C82.  Where PyYAML takes a clock time for a number (`12:30`, base 60), it is a time all the same. -/
theorem C82_sexagesimal {V : Type} (now h m : Nat) (s : Option Nat) (moment : Nat → V)
    (yamlInt : List Char → Except Err V) (hh : h < 100) (hm : m < 100) (hs : ∀ x, s = some x → x < 100)
    (rest : List Char) (hr : s = none → seconds rest = none) :
    overrideInt now moment yamlInt (text h m s ++ rest) = (timeConstructor now (text h m s ++ rest)).map moment := by
  unfold overrideInt
  rw [matchTime_text h m s hh hm hs rest hr]

/-! Non-vacuity -/
example : text 8 30 none = ['0', '8', ':', '3', '0'] ∧ text 23 59 (some 7) = ['2', '3', ':', '5', '9', ':', '0', '7'] := by
  decide +kernel
example : (timeConstructor (3 * day + 7) (text 0 0 none)).toOption = some (4 * day) ∧
    (timeConstructor (3 * day) (text 0 0 none)).toOption = some (3 * day) ∧
    (timeConstructor (3 * day + 7) (text 23 59 (some 59) ++ [' ', 'x'])).toOption = some (3 * day + 86399000000) ∧
    (timeConstructor 0 (text 24 0 none)).toOption = none ∧
    (timeConstructor 0 ['8', ':', '3', '0']).toOption = none := by
  decide +kernel
example : seconds [':', '5'] = none ∧ seconds [' ', 'x'] = none ∧ seconds [] = none := by decide +kernel

end Clock
end Config
end HF
