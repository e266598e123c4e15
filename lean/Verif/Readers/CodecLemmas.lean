import Verif.Readers.Codec
import Verif.Readers.WholeProps
/-
Lemmas: encodings.
-/
namespace HF.Readers.Codec

open HF.Readers.Dispatch

/-! ### Windows-1252 -/

theorem cpTable_range : ∀ k < 32, ∀ n ∈ cpTable.getD k none, n.isValidChar ∧ 0x100 ≤ n ∧ cpTable.idxOf (some n) = k := by
  decide +kernel

theorem toNat_ofNat {n : Nat} (h : n.isValidChar) : (Char.ofNat n).toNat = n := by
  unfold Char.ofNat
  rw [dif_pos h]
  rfl

theorem small_valid {n : Nat} (h : n < 0xd800) : n.isValidChar := Or.inl h

theorem ofNat_toNat (c : Char) : Char.ofNat c.toNat = c := Char.ofNat_toNat c

theorem cpByte_char {b : Nat} {c : Char} (h : cpChar b = some c) : cpByte c = some b := by
  unfold cpChar at h
  split at h
  · rename_i hb
    cases h
    have hv : (Char.ofNat b).toNat = b := toNat_ofNat (small_valid (by omega))
    rw [cpByte, hv, if_pos hb]
  · split at h
    · rename_i h1 h2
      obtain ⟨n, hn, rfl⟩ := Option.map_eq_some_iff.1 h
      obtain ⟨v, r, e⟩ := cpTable_range (b - 0x80) (by omega) n hn
      have hv := toNat_ofNat v
      rw [cpByte, hv, if_neg (by omega), e, if_pos, show 0x80 + (b - 0x80) = b by omega]
      rw [List.getD_eq_getElem?_getD] at hn
      cases hg : cpTable[b - 0x80]? with
      | none => rw [hg] at hn; cases hn
      | some o => rw [hg] at hn; cases hn; exact List.mem_of_getElem? hg
    · cases h

theorem cpChar_byte {b : Nat} {c : Char} (h : cpByte c = some b) : cpChar b = some c := by
  unfold cpByte at h
  split at h
  · rename_i hc
    cases h
    rw [cpChar, if_pos hc, ofNat_toNat]
  · split at h
    · rename_i hm
      have hl := List.idxOf_lt_length_of_mem hm
      cases h
      have hl' : cpTable.idxOf (some c.toNat) < 32 := hl
      rw [cpChar, if_neg (by omega), if_pos (by omega), show 0x80 + cpTable.idxOf (some c.toNat) - 0x80 =
        cpTable.idxOf (some c.toNat) by omega, List.getD_eq_getElem _ _ hl, List.getElem_idxOf hl, Option.map_some, ofNat_toNat]
    · cases h

theorem mapM_option_cons {α γ : Type} (f : α → Option γ) (a : α) (t : List α) :
    (a :: t).mapM f = (match f a, t.mapM f with | some b, some bs => some (b :: bs) | _, _ => none) := by
  rw [List.mapM_cons]
  cases f a with
  | none => rfl
  | some b => cases h : t.mapM f <;> rfl

/-- Encoding and decoding are inverse to each other. -/
theorem cp_encode_dec (t : List Char) : ∀ bs, cp1252.encode t = some bs ↔ cp1252.dec bs = some t := by
  induction t with
  | nil =>
    intro bs
    cases bs with
    | nil => simp [Codec.encode, cp1252]
    | cons b bs =>
      simp only [Codec.encode, cp1252, mapM_option_cons]
      constructor
      · intro h; cases h
      · intro h; split at h <;> cases h
  | cons c t ih =>
    intro bs
    cases bs with
    | nil =>
      constructor
      · intro h
        rw [Codec.encode] at h
        cases hb : cpByte c with
        | none => simp [cp1252, hb] at h
        | some b =>
          cases ht : cp1252.encode t with
          | none => rw [ht] at h; simp [cp1252, hb] at h
          | some b' => rw [ht] at h; simp [cp1252, hb] at h
      · intro h; cases h
    | cons b bs =>
      have e1 : cp1252.dec (b :: bs) = (match cpChar b, cp1252.dec bs with | some b, some bs => some (b :: bs) | _, _ => none) := by
        have := mapM_option_cons cpChar b bs
        have e : cp1252.dec bs = bs.mapM cpChar := rfl
        rw [e, show cp1252.dec (b :: bs) = (b :: bs).mapM cpChar from rfl, this]
        cases cpChar b <;> cases bs.mapM cpChar <;> rfl
      rw [e1, Codec.encode]
      constructor
      · intro h
        cases hb : cpByte c with
        | none => simp [cp1252, hb] at h
        | some b' =>
          cases ht : cp1252.encode t with
          | none => rw [ht] at h; simp [cp1252, hb] at h
          | some bs' =>
            rw [ht] at h
            have h' : some (b' :: bs') = some (b :: bs) := by simpa [cp1252, hb] using h
            cases h'
            rw [cpChar_byte hb, (ih bs).1 ht]
      · intro h
        cases hb : cpChar b with
        | none => rw [hb] at h; cases h
        | some c' =>
          cases ht : cp1252.dec bs with
          | none => rw [hb, ht] at h; cases h
          | some t' =>
            rw [hb, ht] at h
            cases h
            have := cpByte_char hb
            rw [(ih bs).2 ht]
            simp [cp1252, this]

/-! ### UTF-8 -/

theorem char_range (c : Char) : c.toNat < 0xd800 ∨ 0xdfff < c.toNat ∧ c.toNat < 0x110000 := c.valid

theorem utf8Dec_char (c : Char) (bs : List Nat) : utf8Dec (utf8Char c ++ bs) = (utf8Dec bs).map (c :: ·) := by
  have hr := char_range c
  have ho := ofNat_toNat c
  generalize hn : c.toNat = n at hr ho
  unfold utf8Char
  simp only [hn]
  split
  · rename_i h
    rw [List.singleton_append, utf8Dec.eq_def]
    simp only [if_pos h, ho]
  · split
    · rename_i h1 h2
      simp only [List.cons_append, List.nil_append]
      rw [utf8Dec.eq_def]
      simp only
      rw [if_neg (by omega), if_neg (by simp [isCont]; omega), if_pos (by omega),
        show (0xc0 + n / 64 - 0xc0) * 64 + (0x80 + n % 64 - 0x80) = n by omega, if_pos (by omega), ho]
    · split
      · simp only [List.cons_append, List.nil_append]
        rw [utf8Dec.eq_def]
        simp only
        rw [if_neg (by omega), if_neg (by simp [isCont]; omega), if_neg (by omega), if_neg (by simp [isCont]; omega),
          if_pos (by omega),
          show (0xe0 + n / 4096 - 0xe0) * 4096 + (0x80 + n / 64 % 64 - 0x80) * 64 + (0x80 + n % 64 - 0x80) = n by omega,
          if_pos (by omega), ho]
      · simp only [List.cons_append, List.nil_append]
        rw [utf8Dec.eq_def]
        simp only
        rw [if_neg (by omega), if_neg (by simp [isCont]; omega), if_neg (by omega), if_neg (by simp [isCont]; omega),
          if_neg (by omega), if_neg (by simp [isCont]; omega), if_pos (by omega),
          show (0xf0 + n / 262144 - 0xf0) * 262144 + (0x80 + n / 4096 % 64 - 0x80) * 4096 + (0x80 + n / 64 % 64 - 0x80) * 64 +
            (0x80 + n % 64 - 0x80) = n by omega,
          if_pos (by omega), ho]

theorem utf8_encode_cons (c : Char) (t : List Char) : ∃ bs, utf8.encode (c :: t) = some (utf8Char c ++ bs) ∧ utf8.encode t = some bs := by
  have : ∀ t, ∃ bs, utf8.encode t = some bs := by
    intro t
    induction t with
    | nil => exact ⟨[], rfl⟩
    | cons c t ih =>
      obtain ⟨bs, h⟩ := ih
      exact ⟨utf8Char c ++ bs, by rw [Codec.encode, h]; rfl⟩
  obtain ⟨bs, h⟩ := this t
  exact ⟨bs, by rw [Codec.encode, h]; rfl, h⟩

theorem utf8_dec_encode (t : List Char) : ∃ bs, utf8.encode t = some bs ∧ utf8.dec bs = some t := by
  induction t with
  | nil => exact ⟨[], rfl, by simp [utf8, utf8Dec]⟩
  | cons c t ih =>
    obtain ⟨bs, h1, h2⟩ := ih
    obtain ⟨bs', h3, h4⟩ := utf8_encode_cons c t
    rw [h1] at h4
    cases h4
    refine ⟨_, h3, ?_⟩
    show utf8Dec _ = _
    have h2' : utf8Dec bs = some t := h2
    rw [utf8Dec_char, h2']
    rfl

theorem utf8Char_ofNat {n : Nat} (h : n.isValidChar) : utf8Char (Char.ofNat n) =
    if n < 0x80 then [n]
    else if n < 0x800 then [0xc0 + n / 64, 0x80 + n % 64]
    else if n < 0x10000 then [0xe0 + n / 4096, 0x80 + n / 64 % 64, 0x80 + n % 64]
    else [0xf0 + n / 262144, 0x80 + n / 4096 % 64, 0x80 + n / 64 % 64, 0x80 + n % 64] := by
  unfold utf8Char
  simp only [toNat_ofNat h]

/-- The strict decoder accepts only what encoding gives. -/
theorem utf8_encode_dec : ∀ (n : Nat) (bs : List Nat), bs.length ≤ n → ∀ t, utf8Dec bs = some t → utf8.encode t = some bs := by
  intro n
  induction n with
  | zero =>
    intro bs hl t h
    cases bs with
    | nil => simp only [utf8Dec, Option.some.injEq] at h; rw [← h]; rfl
    | cons => simp at hl
  | succ n ih =>
    intro bs hl t h
    have step : ∀ (m : Nat) (bs' : List Nat), bs'.length ≤ n → m.isValidChar → (utf8Dec bs').map (Char.ofNat m :: ·) = some t →
        utf8.encode t = some (utf8Char (Char.ofNat m) ++ bs') := by
      intro m bs' hl' hv h
      obtain ⟨t', ht, rfl⟩ := Option.map_eq_some_iff.1 h
      obtain ⟨x, h1, h2⟩ := utf8_encode_cons (Char.ofNat m) t'
      rw [ih bs' hl' t' ht] at h2
      cases h2
      exact h1
    rw [utf8Dec.eq_def] at h
    cases bs with
    | nil => simp only [Option.some.injEq] at h; rw [← h]; rfl
    | cons a t1 =>
      simp only [List.length_cons] at hl
      simp only at h
      split at h
      · rename_i ha
        have hv := small_valid (n := a) (by omega)
        rw [step a t1 (by omega) hv h, utf8Char_ofNat hv, if_pos ha]
        rfl
      · cases t1 with
        | nil => cases h
        | cons b t2 =>
          simp only [List.length_cons] at hl
          simp only at h
          split at h
          · cases h
          · rename_i ha hb
            have hb' : 0x80 ≤ b ∧ b < 0xc0 := by simpa [isCont] using hb
            split at h
            · rename_i ha2
              split at h
              · rename_i hn
                have hv := small_valid (n := (a - 0xc0) * 64 + (b - 0x80)) (by omega)
                rw [step _ t2 (by omega) hv h, utf8Char_ofNat hv, if_neg (by omega), if_pos (by omega),
                  show 0xc0 + ((a - 0xc0) * 64 + (b - 0x80)) / 64 = a by omega,
                  show 0x80 + ((a - 0xc0) * 64 + (b - 0x80)) % 64 = b by omega]
                rfl
              · cases h
            · cases t2 with
              | nil => cases h
              | cons c t3 =>
                simp only [List.length_cons] at hl
                simp only at h
                split at h
                · cases h
                · rename_i hc
                  have hc' : 0x80 ≤ c ∧ c < 0xc0 := by simpa [isCont] using hc
                  split at h
                  · rename_i ha3
                    split at h
                    · rename_i hn
                      have hv : ((a - 0xe0) * 4096 + (b - 0x80) * 64 + (c - 0x80)).isValidChar := by
                        unfold Nat.isValidChar; omega
                      rw [step _ t3 (by omega) hv h, utf8Char_ofNat hv, if_neg (by omega), if_neg (by omega), if_pos (by omega),
                        show 0xe0 + ((a - 0xe0) * 4096 + (b - 0x80) * 64 + (c - 0x80)) / 4096 = a by omega,
                        show 0x80 + ((a - 0xe0) * 4096 + (b - 0x80) * 64 + (c - 0x80)) / 64 % 64 = b by omega,
                        show 0x80 + ((a - 0xe0) * 4096 + (b - 0x80) * 64 + (c - 0x80)) % 64 = c by omega]
                      rfl
                    · cases h
                  · cases t3 with
                    | nil => cases h
                    | cons d t4 =>
                      simp only [List.length_cons] at hl
                      simp only at h
                      split at h
                      · cases h
                      · rename_i hd
                        have hd' : 0x80 ≤ d ∧ d < 0xc0 := by simpa [isCont] using hd
                        split at h
                        · rename_i ha4
                          split at h
                          · rename_i hn
                            have hv : ((a - 0xf0) * 262144 + (b - 0x80) * 4096 + (c - 0x80) * 64 + (d - 0x80)).isValidChar := by
                              unfold Nat.isValidChar; omega
                            rw [step _ t4 (by omega) hv h, utf8Char_ofNat hv, if_neg (by omega), if_neg (by omega),
                              if_neg (by omega),
                              show 0xf0 + ((a - 0xf0) * 262144 + (b - 0x80) * 4096 + (c - 0x80) * 64 + (d - 0x80)) / 262144 = a by
                                omega,
                              show 0x80 + ((a - 0xf0) * 262144 + (b - 0x80) * 4096 + (c - 0x80) * 64 + (d - 0x80)) / 4096 % 64 = b by
                                omega,
                              show 0x80 + ((a - 0xf0) * 262144 + (b - 0x80) * 4096 + (c - 0x80) * 64 + (d - 0x80)) / 64 % 64 = c by
                                omega,
                              show 0x80 + ((a - 0xf0) * 262144 + (b - 0x80) * 4096 + (c - 0x80) * 64 + (d - 0x80)) % 64 = d by
                                omega]
                            rfl
                          · cases h
                        · cases h

theorem utf8_iff (t : List Char) (bs : List Nat) : utf8.encode t = some bs ↔ utf8.dec bs = some t := by
  constructor
  · intro h
    obtain ⟨bs', h1, h2⟩ := utf8_dec_encode t
    rw [h] at h1
    cases h1
    exact h2
  · exact utf8_encode_dec bs.length bs (Nat.le_refl _) t

end HF.Readers.Codec
