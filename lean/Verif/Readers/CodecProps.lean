import Verif.Readers.CodecLemmas
/-
C99: characters outside of ASCII in files.
-/
namespace HF.Readers.Codec

open HF.Readers.Dispatch

/-! ### Specification -/

def Ascii (c : Char) : Prop := c.toNat < 0x80

instance (c : Char) : Decidable (Ascii c) := inferInstanceAs (Decidable (_ < _))

/-- The characters of Windows-1252. -/
def Western (c : Char) : Prop :=
  Ascii c ∨ 0xa0 ≤ c.toNat ∧ c.toNat ≤ 0xff ∨ c ∈ "€‚ƒ„…†‡ˆ‰Š‹ŒŽ‘’“”•–—˜™š›œžŸ".toList

instance (c : Char) : Decidable (Western c) := inferInstanceAs (Decidable (_ ∨ _))

/-- An encoding of a locale: decoding undoes encoding and accepts nothing else, and ASCII characters are single bytes. -/
structure Locale (K : Codec) : Prop where
  exact : ∀ t bs, K.encode t = some bs ↔ K.dec bs = some t
  ascii : ∀ c, Ascii c → K.enc c = some [c.toNat]

/-- The lines as readers get them. -/
def ended (ls : List (List Char)) : List (List Char) := ls.map (· ++ ['\n'])

/-- The number of characters that are not ASCII. -/
def foreign (ls : List (List Char)) : Nat := (ls.flatten.filter fun c => !decide (Ascii c)).length

/-- The characters of Windows-1252 that are neither ASCII nor Latin-1, by code point, each with its byte. -/
def windowsPairs : List (Nat × Nat) :=
  [(0x152, 0x8c), (0x153, 0x9c), (0x160, 0x8a), (0x161, 0x9a), (0x178, 0x9f), (0x17d, 0x8e), (0x17e, 0x9e), (0x192, 0x83),
    (0x2c6, 0x88), (0x2dc, 0x98), (0x2013, 0x96), (0x2014, 0x97), (0x2018, 0x91), (0x2019, 0x92), (0x201a, 0x82), (0x201c, 0x93),
    (0x201d, 0x94), (0x201e, 0x84), (0x2020, 0x86), (0x2021, 0x87), (0x2022, 0x95), (0x2026, 0x85), (0x2030, 0x89),
    (0x2039, 0x8b), (0x203a, 0x9b), (0x20ac, 0x80), (0x2122, 0x99)]

/-! ### Lemmas -/

theorem western_iff (c : Char) : (cpByte c).isSome ↔ Western c := by
  have ht : ∀ n, some n ∈ cpTable ↔ n ∈ "€‚ƒ„…†‡ˆ‰Š‹ŒŽ‘’“”•–—˜™š›œžŸ".toList.map Char.toNat := by
    intro n
    have h1 : ∀ o ∈ cpTable, ∀ n ∈ o, n ∈ "€‚ƒ„…†‡ˆ‰Š‹ŒŽ‘’“”•–—˜™š›œžŸ".toList.map Char.toNat := by decide +kernel
    have h2 : ∀ n ∈ "€‚ƒ„…†‡ˆ‰Š‹ŒŽ‘’“”•–—˜™š›œžŸ".toList.map Char.toNat, some n ∈ cpTable := by decide +kernel
    exact ⟨fun h => h1 _ h n rfl, h2 n⟩
  have hm : some c.toNat ∈ cpTable ↔ c ∈ "€‚ƒ„…†‡ˆ‰Š‹ŒŽ‘’“”•–—˜™š›œžŸ".toList := by
    rw [ht, List.mem_map]
    constructor
    · rintro ⟨d, hd, e⟩
      rwa [← ofNat_toNat c, ← e, ofNat_toNat]
    · exact fun h => ⟨c, h, rfl⟩
  unfold cpByte Western Ascii
  rw [← hm]
  split
  · rename_i h
    simp only [Option.isSome_some, true_iff]
    rcases h with h | h
    · exact Or.inl h
    · exact Or.inr (Or.inl ⟨h.1, by omega⟩)
  · rename_i h
    split
    · rename_i h'
      simp [h']
    · rename_i h'
      simp only [Option.isSome_none, Bool.false_eq_true, h', or_false, false_iff]
      omega

theorem locale_cp1252 : Locale cp1252 where
  exact t bs := cp_encode_dec t bs
  ascii c h := by
    have h' : c.toNat < 0x80 := h
    show (cpByte c).map _ = _
    rw [cpByte, if_pos (Or.inl h')]
    rfl

theorem locale_utf8 : Locale utf8 where
  exact := utf8_iff
  ascii c h := by
    have : c.toNat < 0x80 := h
    simp [utf8, utf8Char, this]

theorem encode_append (K : Codec) (a b : List Char) :
    K.encode (a ++ b) = (match K.encode a, K.encode b with | some x, some y => some (x ++ y) | _, _ => none) := by
  induction a with
  | nil =>
    simp only [List.nil_append, Codec.encode]
    cases K.encode b <;> rfl
  | cons c a ih =>
    simp only [List.cons_append, Codec.encode, ih]
    cases K.enc c <;> cases K.encode a <;> cases K.encode b <;> simp

theorem encode_isSome (K : Codec) (t : List Char) : (K.encode t).isSome ↔ ∀ c ∈ t, (K.enc c).isSome := by
  induction t with
  | nil => simp [Codec.encode]
  | cons c t ih =>
    simp only [Codec.encode, List.mem_cons, forall_eq_or_imp, ← ih]
    cases K.enc c <;> cases K.encode t <;> simp

theorem encode_ascii {K : Codec} (hK : Locale K) (t : List Char) (h : ∀ c ∈ t, Ascii c) : K.encode t = some (t.map Char.toNat) := by
  induction t with
  | nil => rfl
  | cons c t ih =>
    rw [Codec.encode, hK.ascii c (h c (by simp)), ih fun c hc => h c (by simp [hc])]
    rfl

/-- All lines are written. -/
theorem writeLines_all (K : Codec) : ∀ (ls : List (List Char)) (bs : List Nat),
    K.encode (textOf ls) = some bs → writeLines K ls = (bs, true)
  | [], bs, h => by cases h; rfl
  | l :: ls, bs, h => by
    have e : textOf (l :: ls) = (l ++ ['\n']) ++ textOf ls := by simp [textOf]
    rw [e, encode_append] at h
    cases h1 : K.encode (l ++ ['\n']) with
    | none => rw [h1] at h; cases h
    | some x =>
      cases h2 : K.encode (textOf ls) with
      | none => rw [h1, h2] at h; cases h
      | some y =>
        rw [h1, h2] at h
        cases h
        rw [writeLines, h1]
        simp only [writeLines_all K ls y h2]

theorem writeLines_true (K : Codec) : ∀ (ls : List (List Char)), (writeLines K ls).2 = true →
    K.encode (textOf ls) = some (writeLines K ls).1
  | [], _ => rfl
  | l :: ls, h => by
    have e : textOf (l :: ls) = (l ++ ['\n']) ++ textOf ls := by simp [textOf]
    rw [e, encode_append]
    rw [writeLines] at h ⊢
    cases h1 : K.encode (l ++ ['\n']) with
    | none => rw [h1] at h; cases h
    | some x =>
      rw [h1] at h
      simp only [writeLines_true K ls h]

theorem writeLines_fail (K : Codec) (l : List Char) (post : List (List Char)) (hl : K.encode (l ++ ['\n']) = none) :
    ∀ (pre : List (List Char)) (bs : List Nat), K.encode (textOf pre) = some bs → writeLines K (pre ++ l :: post) = (bs, false)
  | [], bs, h => by
    cases h
    rw [List.nil_append, writeLines, hl]
  | x :: pre, bs, h => by
    have e : textOf (x :: pre) = (x ++ ['\n']) ++ textOf pre := by simp [textOf]
    rw [e, encode_append] at h
    cases h1 : K.encode (x ++ ['\n']) with
    | none => rw [h1] at h; cases h
    | some y =>
      cases h2 : K.encode (textOf pre) with
      | none => rw [h1, h2] at h; cases h
      | some z =>
        rw [h1, h2] at h
        cases h
        rw [List.cons_append, writeLines, h1]
        simp only [writeLines_fail K l post hl pre z h2]

theorem lines_ended (ls : List (List Char)) (h : ∀ l ∈ ls, OneLine l) : fileLines (textOf ls) = ended ls := by
  have e := fileLines_text ls [] h
  rw [List.append_nil] at e
  rw [e]
  simp [textOf, fileLines, ended]

theorem newline_enc {K : Codec} (hK : Locale K) : (K.enc '\n').isSome := by
  rw [hK.ascii '\n' (by decide)]; rfl

theorem text_some {K : Codec} (hK : Locale K) (ls : List (List Char)) :
    (K.encode (textOf ls)).isSome ↔ ∀ l ∈ ls, ∀ c ∈ l, (K.enc c).isSome := by
  rw [encode_isSome]
  simp only [textOf, List.mem_flatMap, List.mem_append, List.mem_singleton]
  constructor
  · intro h l hl c hc
    exact h c ⟨l, hl, Or.inl hc⟩
  · rintro h c ⟨l, hl, hc | rfl⟩
    · exact h l hl c hc
    · exact newline_enc hK

theorem cp_enc_some (c : Char) : (cp1252.enc c).isSome ↔ Western c := by
  rw [← western_iff]
  simp [cp1252]

theorem locale_writes {loc : Codec} (hl : Locale loc) (k : Kind) : Locale (writes loc k) := by
  cases k <;> first | exact hl | exact locale_cp1252

theorem locale_reads {loc : Codec} (hl : Locale loc) (k : Kind) : Locale (reads loc k) := by
  cases k <;> first | exact hl | exact locale_cp1252

/-! ### What comes back -/

/-- C99: in a file of Windows-1252, ASCII and Latin-1 characters are the byte of their code point, twenty-seven further
characters have the bytes of the standard table, and no others can be written. -/
theorem C99_bytes (c : Char) (bs : List Nat) :
    cp1252.enc c = some bs ↔
      (c.toNat < 0x80 ∨ 0xa0 ≤ c.toNat ∧ c.toNat < 0x100) ∧ bs = [c.toNat] ∨ ∃ b, (c.toNat, b) ∈ windowsPairs ∧ bs = [b] := by
  have h1 : ∀ o ∈ cpTable, ∀ n ∈ o, (n, 0x80 + cpTable.idxOf (some n)) ∈ windowsPairs := by decide +kernel
  have h2 : ∀ p ∈ windowsPairs, some p.1 ∈ cpTable ∧ p.2 = 0x80 + cpTable.idxOf (some p.1) ∧ 0x100 ≤ p.1 := by decide +kernel
  show (cpByte c).map _ = some bs ↔ _
  unfold cpByte
  split
  · rename_i h
    simp only [Option.map_some, Option.some.injEq, h, true_and]
    constructor
    · rintro rfl; exact Or.inl rfl
    · rintro (rfl | ⟨b, hb, _⟩)
      · rfl
      · have := (h2 _ hb).2.2
        simp only at this
        omega
  · rename_i h
    split
    · rename_i h'
      simp only [Option.map_some, Option.some.injEq, h, false_and, false_or]
      constructor
      · rintro rfl; exact ⟨_, h1 _ h' _ rfl, rfl⟩
      · rintro ⟨b, hb, rfl⟩
        exact congrArg (fun x => [x]) (h2 _ hb).2.1.symm
    · rename_i h'
      simp only [Option.map_none, reduceCtorEq, h, false_and, false_or, false_iff, not_exists, not_and]
      intro b hb
      exact absurd (h2 _ hb).1 h'

example : cp1252.enc 'ž' = some [0x9e] := (C99_bytes _ _).2 (Or.inr ⟨0x9e, by decide +kernel, rfl⟩)

/-- C99: text is written completely exactly if the encoding has all its characters; for SP data these are the characters of
Windows-1252, in a locale with UTF-8 all characters for the other formats. -/
theorem C99_complete (ls : List (List Char)) :
    ((save utf8 .sp ls).2 = true ↔ ∀ l ∈ ls, ∀ c ∈ l, Western c) ∧
    (∀ k, k ≠ .sp → (save utf8 k ls).2 = true) ∧
    ∀ k, ((save cp1252 k ls).2 = true ↔ ∀ l ∈ ls, ∀ c ∈ l, Western c) := by
  have key : (writeLines cp1252 ls).2 = true ↔ ∀ l ∈ ls, ∀ c ∈ l, Western c := by
    simp only [← cp_enc_some]
    rw [← text_some locale_cp1252]
    constructor
    · intro h
      rw [writeLines_true _ _ h]; rfl
    · intro h
      obtain ⟨bs, hb⟩ := Option.isSome_iff_exists.1 h
      rw [writeLines_all _ _ _ hb]
  refine ⟨key, fun k hk => ?_, fun k => ?_⟩
  · obtain ⟨bs, hb, -⟩ := utf8_dec_encode (textOf ls)
    cases k with
    | sp => exact absurd rfl hk
    | _ => exact congrArg Prod.snd (writeLines_all utf8 ls bs hb)
  · cases k <;> exact key

/-- C99: MDIF files and SP data come back character by character from their own readers, in all locales. -/
theorem C99_own {loc : Codec} (hloc : Locale loc) (k : Kind) (hk : k = .mdif ∨ k = .sp) (ls : List (List Char))
    (h1 : ∀ l ∈ ls, OneLine l) (hs : (save loc k ls).2 = true) : read loc k (save loc k ls).1 = some (ended ls) := by
  have e : reads loc k = writes loc k := by rcases hk with rfl | rfl <;> rfl
  unfold save at hs ⊢
  unfold read
  rw [e, ((locale_writes hloc k).exact _ _).1 (writeLines_true _ _ hs), Option.map_some, lines_ended ls h1]

/-- C99: where the locale has Windows-1252, everything that can be written comes back, also from `read_data`, which takes it
for what it takes the text for. -/
theorem C99_windows (k k' : Kind) (ls : List (List Char)) (h1 : ∀ l ∈ ls, OneLine l) (hs : (save cp1252 k ls).2 = true) :
    read cp1252 k' (save cp1252 k ls).1 = some (ended ls) ∧
    ∀ q, kindOf (takenFor ls) = some q → readData cp1252 (save cp1252 k ls).1 = some (takenFor ls, ended ls) := by
  have ew : ∀ k, writes cp1252 k = cp1252 := by intro k; cases k <;> rfl
  have er : ∀ k, reads cp1252 k = cp1252 := by intro k; cases k <;> rfl
  unfold save at hs ⊢
  rw [ew] at hs ⊢
  have hd := (locale_cp1252.exact _ _).1 (writeLines_true _ _ hs)
  have hr : ∀ k', read cp1252 k' (writeLines cp1252 ls).1 = some (ended ls) := by
    intro k'
    unfold read
    rw [er, hd, Option.map_some, lines_ended ls h1]
  refine ⟨hr k', fun q hq => ?_⟩
  unfold readData
  rw [hd]
  show (match kindOf (takenFor ls) with | none => none | some k => _) = _
  rw [hq]
  simp only [hr, Option.map_some]
  rfl

/-- C99: text in ASCII is written to the same bytes in all locales and formats, and comes back from all readers and from
`read_data`. -/
theorem C99_ascii {loc : Codec} (hloc : Locale loc) (k k' : Kind) (ls : List (List Char)) (h1 : ∀ l ∈ ls, OneLine l)
    (ha : ∀ l ∈ ls, ∀ c ∈ l, Ascii c) :
    save loc k ls = ((ended ls).flatten.map Char.toNat, true) ∧
    read loc k' (save loc k ls).1 = some (ended ls) ∧
    ∀ q, kindOf (takenFor ls) = some q → readData loc (save loc k ls).1 = some (takenFor ls, ended ls) := by
  have ht : textOf ls = (ended ls).flatten := by simp [textOf, ended, List.flatMap_def]
  have hta : ∀ c ∈ textOf ls, Ascii c := by
    intro c hc
    simp only [textOf, List.mem_flatMap, List.mem_append, List.mem_singleton] at hc
    rcases hc with ⟨l, hl, hc | rfl⟩
    · exact ha l hl c hc
    · decide
  have hs : save loc k ls = ((ended ls).flatten.map Char.toNat, true) := by
    rw [← ht]
    exact writeLines_all _ _ _ (encode_ascii (locale_writes hloc k) _ hta)
  have hd : ∀ {K : Codec}, Locale K → K.dec ((ended ls).flatten.map Char.toNat) = some (textOf ls) := by
    intro K hK
    rw [← ht]
    exact (hK.exact _ _).1 (encode_ascii hK _ hta)
  have hr : ∀ k', read loc k' ((ended ls).flatten.map Char.toNat) = some (ended ls) := by
    intro k'
    unfold read
    rw [hd (locale_reads hloc k'), Option.map_some, lines_ended ls h1]
  refine ⟨hs, by rw [hs]; exact hr k', fun q hq => ?_⟩
  rw [hs]
  unfold readData
  simp only [hd hloc]
  show (match kindOf (takenFor ls) with | none => none | some k => _) = _
  rw [hq]
  simp only [hr, Option.map_some]
  rfl

/-- C99: if a line has a character that cannot be encoded, an exception is raised; what was in the file before is gone, and
the file holds exactly the lines before that line. -/
theorem C99_failed {loc : Codec} (hloc : Locale loc) (k : Kind) (pre post : List (List Char)) (l : List Char) (c : Char)
    (hc : c ∈ l) (hn : (writes loc k).enc c = none) (hp : ∀ x ∈ pre, ∀ c ∈ x, ((writes loc k).enc c).isSome) :
    (save loc k (pre ++ l :: post)).2 = false ∧ save loc k pre = ((save loc k (pre ++ l :: post)).1, true) ∧
    (writes loc k).dec (save loc k (pre ++ l :: post)).1 = some (textOf pre) := by
  have hl : (writes loc k).encode (l ++ ['\n']) = none := by
    cases h : (writes loc k).encode (l ++ ['\n']) with
    | none => rfl
    | some b =>
      have := (encode_isSome _ _).1 (by rw [h]; rfl) c (by simp [hc])
      rw [hn] at this
      cases this
  obtain ⟨bs, hb⟩ := Option.isSome_iff_exists.1 ((text_some (locale_writes hloc k) pre).2 hp)
  unfold save
  rw [writeLines_fail _ l post hl pre bs hb, writeLines_all _ _ _ hb]
  exact ⟨rfl, rfl, ((locale_writes hloc k).exact _ _).1 hb⟩

/-- C99: files of settings come back in all locales. -/
theorem C99_config (text : List Char) : ∃ bs, configSave text = some bs ∧ configRead bs = some text := utf8_dec_encode text

/-- C99: texts converted to bytes and back have a question mark for each character that is not in Windows-1252, and are
otherwise the same; texts are not changed by being converted to texts, bytes not by being converted to bytes. -/
theorem C99_replace (s : List Char) (b : List Nat) :
    castUnicode (castBytes (.str s)) = .str (s.map fun c => if Western c then c else '?') ∧
    castUnicode (.str s) = .str s ∧ castBytes (.bytes b) = .bytes b := by
  refine ⟨?_, rfl, rfl⟩
  simp only [castBytes, castUnicode, encodeR, decodeR, List.map_map, PyText.str.injEq]
  apply List.map_congr_left
  intro c _
  simp only [Function.comp_apply]
  cases h : cpByte c with
  | none =>
    rw [if_neg]
    · decide
    · rw [← western_iff, h]; simp
  | some x =>
    rw [if_pos ((western_iff c).1 (by rw [h]; rfl)), Option.getD_some, cpChar_byte h, Option.getD_some]

/-! ### What does not -/

theorem fileLines_filter (p : Char → Bool) (hn : p '\n' = false) (hr : p '\r' = false) (t : List Char) :
    (fileLines t).flatten.filter p = t.filter p := by
  induction t using fileLines.induct with
  | case1 => rfl
  | case2 t ih => rw [fileLines]; simp [hn, ih]
  | case3 t ih => rw [fileLines]; simp [hn, hr, ih]
  | case4 t h ih =>
    rw [fileLines]
    · simp [hn, hr, ih]
    · exact h
  | case5 c t h1 h2 h3 he ih =>
    rw [fileLines] <;> try assumption
    rw [he] at ih ⊢
    simp only [List.flatten_nil, List.filter_nil] at ih
    rw [List.filter_cons, ← ih]
    simp [List.filter_cons]
  | case6 c t h1 h2 h3 l ls he ih =>
    rw [fileLines] <;> try assumption
    rw [he] at ih ⊢
    simp only [List.flatten_cons, List.cons_append, List.filter_cons] at ih ⊢
    rw [ih]

theorem cpChar_ascii {b : Nat} {c : Char} (h : cpChar b = some c) : Ascii c ↔ b < 0x80 := by
  have hb := cpByte_char h
  unfold cpByte at hb
  split at hb
  · cases hb; rfl
  · rename_i h1
    split at hb
    · cases hb
      unfold Ascii
      omega
    · cases hb

theorem dec_filter (t : List Char) : ∀ bs, cp1252.dec bs = some t →
    (t.filter fun c => !decide (Ascii c)).length = (bs.filter fun b => !decide (b < 0x80)).length := by
  induction t with
  | nil =>
    intro bs h
    have := (cp_encode_dec [] bs).2 h
    cases this
    rfl
  | cons c t ih =>
    intro bs h
    have h' := (cp_encode_dec (c :: t) bs).2 h
    rw [Codec.encode] at h'
    cases hb : cpByte c with
    | none => simp [cp1252, hb] at h'
    | some b =>
      cases ht : cp1252.encode t with
      | none => rw [ht] at h'; simp [cp1252, hb] at h'
      | some bs' =>
        rw [ht] at h'
        have h2 : some (b :: bs') = some bs := by simpa [cp1252, hb] using h'
        cases h2
        have i := ih bs' ((cp_encode_dec t bs').1 ht)
        have a := cpChar_ascii (cpChar_byte hb)
        rw [List.filter_cons, List.filter_cons]
        by_cases hx : b < 0x80
        · simp only [a.2 hx, hx, decide_true, Bool.not_true, Bool.false_eq_true, if_false]; exact i
        · have : ¬Ascii c := fun e => hx (a.1 e)
          simp only [this, hx, decide_false, Bool.not_false, if_true, List.length_cons, i]

theorem utf8Char_bytes (c : Char) : (Ascii c ∧ utf8Char c = [c.toNat]) ∨
    (¬Ascii c ∧ 2 ≤ (utf8Char c).length ∧ ∀ b ∈ utf8Char c, 0x80 ≤ b) := by
  unfold Ascii utf8Char
  simp only
  split
  · rename_i h; exact Or.inl ⟨h, rfl⟩
  · rename_i h
    refine Or.inr ⟨h, ?_⟩
    split
    · refine ⟨by simp, ?_⟩
      simp only [List.mem_cons, List.not_mem_nil, or_false]
      rintro b (rfl | rfl) <;> omega
    · split
      · refine ⟨by simp, ?_⟩
        simp only [List.mem_cons, List.not_mem_nil, or_false]
        rintro b (rfl | rfl | rfl) <;> omega
      · refine ⟨by simp, ?_⟩
        simp only [List.mem_cons, List.not_mem_nil, or_false]
        rintro b (rfl | rfl | rfl | rfl) <;> omega

theorem utf8_filter (t : List Char) : ∀ bs, utf8.encode t = some bs →
    2 * (t.filter fun c => !decide (Ascii c)).length ≤ (bs.filter fun b => !decide (b < 0x80)).length := by
  induction t with
  | nil => intro bs h; cases h; simp
  | cons c t ih =>
    intro bs h
    obtain ⟨bs', h1, h2⟩ := utf8_encode_cons c t
    rw [h1] at h
    cases h
    have i := ih bs' h2
    rw [List.filter_cons, List.filter_append, List.length_append]
    rcases utf8Char_bytes c with ⟨ha, hb⟩ | ⟨ha, hl, hb⟩
    · simp only [ha, decide_true, Bool.not_true, Bool.false_eq_true, if_false]
      omega
    · have e : (utf8Char c).filter (fun b => !decide (b < 0x80)) = utf8Char c := by
        rw [List.filter_eq_self]
        intro b hb'
        have := hb b hb'
        simp only [Bool.not_eq_true', decide_eq_false_iff_not]
        omega
      rw [e]
      simp only [ha, decide_false, Bool.not_false, if_true, List.length_cons]
      omega

theorem foreign_ended (ls : List (List Char)) : foreign (ended ls) = foreign ls := by
  have h0 : ([('\n' : Char)].filter fun c => !decide (Ascii c)) = [] := by decide
  unfold foreign ended
  congr 1
  induction ls with
  | nil => rfl
  | cons l ls ih =>
    simp only [List.map_cons, List.flatten_cons, List.filter_append, h0, List.append_nil, ih]

/-- C99 fails for Touchstone and CITI files in a locale with UTF-8: they are written completely, but what their readers and
`read_data` find, if they do not raise an exception, has at least twice as many characters outside of ASCII, so it is the text
that was saved only if that was ASCII. -/
theorem C99_utf8_refuted (k : Kind) (hk : k = .touchstone ∨ k = .citi) (ls : List (List Char)) (h1 : ∀ l ∈ ls, OneLine l) :
    (save utf8 k ls).2 = true ∧
    (∀ r, read utf8 k (save utf8 k ls).1 = some r →
      2 * foreign ls ≤ foreign r ∧ (r = ended ls ↔ ∀ l ∈ ls, ∀ c ∈ l, Ascii c)) ∧
    (kindOf (takenFor ls) = some k →
      readData utf8 (save utf8 k ls).1 = (read utf8 k (save utf8 k ls).1).map fun r => (takenFor ls, r)) := by
  have hw : writes utf8 k = utf8 := by rcases hk with rfl | rfl <;> rfl
  have hrd : reads utf8 k = cp1252 := by rcases hk with rfl | rfl <;> rfl
  obtain ⟨bs, hb, hdec⟩ := utf8_dec_encode (textOf ls)
  have hs : save utf8 k ls = (bs, true) := by unfold save; rw [hw]; exact writeLines_all utf8 ls bs hb
  rw [hs]
  refine ⟨rfl, fun r hr => ?_, fun hk => ?_⟩
  on_goal 2 =>
    unfold readData
    simp only [hdec]
    show (match kindOf (takenFor ls) with | none => none | some k => _) = _
    rw [hk]
    rfl
  have hforE := foreign_ended ls
  unfold read at hr
  rw [hrd] at hr
  obtain ⟨t, ht, rfl⟩ := Option.map_eq_some_iff.1 hr
  have hle : 2 * foreign ls ≤ foreign (fileLines t) := by
    unfold foreign at *
    rw [fileLines_filter _ (by decide) (by decide), dec_filter t bs ht, ← hforE]
    have := utf8_filter _ _ hb
    rw [show (ended ls).flatten = textOf ls by simp [textOf, ended, List.flatMap_def]]
    exact this
  refine ⟨hle, fun e => ?_, fun ha => ?_⟩
  · rw [e, hforE] at hle
    have h0 : foreign ls = 0 := by omega
    intro l hl c hc
    unfold foreign at h0
    have := List.filter_eq_nil_iff.1 (List.length_eq_zero_iff.1 h0) c (List.mem_flatten.2 ⟨l, hl, hc⟩)
    simpa using this
  · have := (C99_ascii locale_utf8 k k ls h1 ha).2.1
    rw [hs] at this
    unfold read at this
    rw [hrd, ht] at this
    exact Option.some.inj this

/-- C99: a Touchstone or CITI file with a character one of whose bytes in UTF-8 is not in Windows-1252 cannot be read. -/
theorem C99_unreadable_refuted (k : Kind) (hk : k = .touchstone ∨ k = .citi) (ls : List (List Char)) (l : List Char)
    (hl : l ∈ ls) (c : Char) (hc : c ∈ l) (b : Nat) (hb : b ∈ utf8Char c) (hn : b ∈ [0x81, 0x8d, 0x8f, 0x90, 0x9d]) :
    (save utf8 k ls).2 = true ∧ read utf8 k (save utf8 k ls).1 = none := by
  have hw : writes utf8 k = utf8 := by rcases hk with rfl | rfl <;> rfl
  have hrd : reads utf8 k = cp1252 := by rcases hk with rfl | rfl <;> rfl
  obtain ⟨bs, hbs, -⟩ := utf8_dec_encode (textOf ls)
  have hs : save utf8 k ls = (bs, true) := by unfold save; rw [hw]; exact writeLines_all utf8 ls bs hbs
  rw [hs]
  refine ⟨rfl, ?_⟩
  have hmem : ∀ (t : List Char) bs, utf8.encode t = some bs → c ∈ t → b ∈ bs := by
    intro t
    induction t with
    | nil => intro _ _ h; cases h
    | cons d t ih =>
      intro bs h hct
      obtain ⟨bs', e1, e2⟩ := utf8_encode_cons d t
      rw [e1] at h
      cases h
      rcases List.mem_cons.1 hct with rfl | hct
      · exact List.mem_append_left _ hb
      · exact List.mem_append_right _ (ih _ e2 hct)
  have hbin := hmem _ _ hbs (by
    unfold textOf
    exact List.mem_flatMap.2 ⟨l, hl, by simp [hc]⟩)
  have hnone : cpChar b = none := by
    have : ∀ b ∈ [0x81, 0x8d, 0x8f, 0x90, 0x9d], cpChar b = none := by decide +kernel
    exact this b hn
  unfold read
  rw [hrd]
  cases h : cp1252.dec bs with
  | none => rfl
  | some t =>
    exfalso
    have hall : ∀ (bs : List Nat) t, cp1252.dec bs = some t → ∀ b ∈ bs, (cpChar b).isSome := by
      intro bs
      induction bs with
      | nil => intro _ _ b hb; cases hb
      | cons x bs ih =>
        intro t h b hb
        have h' : (x :: bs).mapM cpChar = some t := h
        rw [mapM_option_cons] at h'
        cases hx : cpChar x with
        | none => rw [hx] at h'; cases h'
        | some y =>
          cases hm : bs.mapM cpChar with
          | none => rw [hx, hm] at h'; cases h'
          | some ys =>
            rcases List.mem_cons.1 hb with rfl | hb
            · rw [hx]; rfl
            · exact ih ys hm b hb
    have := hall bs t h b hbin
    rw [hnone] at this
    cases this

/-- In UTF-8 no byte outside of ASCII stands alone. -/
theorem utf8_not_alone (t : List Char) : ∀ (p q : List Nat) (b : Nat), utf8.encode t = some (p ++ b :: q) → 0x80 ≤ b →
    (∃ x ∈ p.getLast?, 0x80 ≤ x) ∨ ∃ x ∈ q.head?, 0x80 ≤ x := by
  induction t with
  | nil => intro p q b h; simp [Codec.encode] at h
  | cons c t ih =>
    intro p q b h hb
    obtain ⟨bs', h1, h2⟩ := utf8_encode_cons c t
    rw [h1] at h
    have h : utf8Char c ++ bs' = p ++ b :: q := Option.some.inj h
    rcases List.append_eq_append_iff.1 h with ⟨a', e1, e2⟩ | ⟨c', e1, e2⟩
    · rcases ih a' q b (by rw [h2, e2]) hb with ⟨x, hx, h8⟩ | h8
      · left
        refine ⟨x, ?_, h8⟩
        rw [e1]
        have : a' ≠ [] := by rintro rfl; cases hx
        rw [List.getLast?_append_of_ne_nil _ this]
        exact hx
      · exact Or.inr h8
    · rcases utf8Char_bytes c with ⟨ha, hb'⟩ | ⟨ha, hl, hb'⟩
      · rw [hb'] at e1
        cases c' with
        | nil =>
          simp only [List.nil_append] at e2
          rcases ih [] q b (by rw [h2, ← e2]; rfl) hb with ⟨x, hx, -⟩ | h8
          · cases hx
          · exact Or.inr h8
        | cons y c' =>
          have hy : b = y := by simpa using (List.cons.inj e2).1
          have : y ∈ [c.toNat] := by rw [e1]; simp
          have hlt : c.toNat < 0x80 := ha
          rw [List.mem_singleton.1 this] at hy
          omega
      · cases c' with
        | nil =>
          left
          rw [List.append_nil] at e1
          rw [← e1]
          cases hg : (utf8Char c).getLast? with
          | none =>
            rw [List.getLast?_eq_none_iff] at hg
            rw [hg] at hl
            simp at hl
          | some x => exact ⟨x, rfl, hb' x (List.mem_of_getLast? hg)⟩
        | cons y c' =>
          obtain ⟨rfl, e3⟩ := List.cons.inj e2
          cases c' with
          | cons z c' =>
            right
            rw [e3]
            exact ⟨z, rfl, hb' z (by rw [e1]; simp)⟩
          | nil =>
            left
            cases hg : p.getLast? with
            | none =>
              rw [List.getLast?_eq_none_iff] at hg
              rw [e1, hg] at hl
              simp at hl
            | some x => exact ⟨x, rfl, hb' x (by rw [e1]; exact List.mem_append_left _ (List.mem_of_getLast? hg))⟩

/-- C99 fails for SP data in a locale with UTF-8: a character outside of ASCII between ASCII characters is written and read by
the functions for SP data, but `read_data` raises an exception. -/
theorem C99_sp_refuted (ls : List (List Char)) (h1 : ∀ l ∈ ls, OneLine l) (hw : ∀ l ∈ ls, ∀ c ∈ l, Western c)
    (l : List Char) (hl : l ∈ ls) (p q : List Char) (c : Char) (hc : l = p ++ c :: q) (hn : ¬Ascii c)
    (hp : ∀ x ∈ p.getLast?, Ascii x) (hq : ∀ x ∈ q.head?, Ascii x) :
    (save utf8 .sp ls).2 = true ∧ read utf8 .sp (save utf8 .sp ls).1 = some (ended ls) ∧
    readData utf8 (save utf8 .sp ls).1 = none := by
  have hs := (C99_complete ls).1.2 hw
  refine ⟨hs, C99_own locale_utf8 .sp (Or.inr rfl) ls h1 hs, ?_⟩
  have henc : cp1252.encode (textOf ls) = some (save utf8 .sp ls).1 := writeLines_true cp1252 ls hs
  obtain ⟨pre, post, rfl⟩ := List.append_of_mem hl
  have ht : textOf (pre ++ l :: post) = (textOf pre ++ p) ++ c :: (q ++ '\n' :: textOf post) := by
    simp [textOf, hc]
  rw [ht, encode_append] at henc
  cases hA : cp1252.encode (textOf pre ++ p) with
  | none => rw [hA] at henc; cases henc
  | some A =>
    cases hB : cp1252.encode (c :: (q ++ '\n' :: textOf post)) with
    | none => rw [hA, hB] at henc; cases henc
    | some B =>
      rw [hA, hB] at henc
      have hbs := Option.some.inj henc
      have hcons : ∀ (c : Char) t B, cp1252.encode (c :: t) = some B → ∃ b B', cpByte c = some b ∧ cp1252.encode t = some B' ∧
          B = b :: B' := by
        intro c t B h
        rw [Codec.encode] at h
        cases hb : cpByte c with
        | none => simp [cp1252, hb] at h
        | some b =>
          cases ht : cp1252.encode t with
          | none => rw [ht] at h; simp [cp1252, hb] at h
          | some bs' =>
            rw [ht] at h
            have h2 : some (b :: bs') = some B := by simpa [cp1252, hb] using h
            exact ⟨b, bs', rfl, rfl, (Option.some.inj h2).symm⟩
      obtain ⟨b, B', b1, b2, rfl⟩ := hcons _ _ _ hB
      have hb80 : 0x80 ≤ b := by
        have := cpChar_ascii (cpChar_byte b1)
        have : ¬b < 0x80 := fun h => hn (this.2 h)
        omega
      have hhead : ∀ x ∈ B'.head?, x < 0x80 := by
        cases q with
        | nil =>
          obtain ⟨y, Y, y1, -, rfl⟩ := hcons _ _ _ b2
          intro x hx
          cases hx
          exact (cpChar_ascii (cpChar_byte y1)).1 (by decide)
        | cons d q =>
          obtain ⟨y, Y, y1, -, rfl⟩ := hcons _ _ _ b2
          intro x hx
          cases hx
          exact (cpChar_ascii (cpChar_byte y1)).1 (hq d rfl)
      have hlastc : ∀ x ∈ (textOf pre ++ p).getLast?, Ascii x := by
        cases p with
        | nil =>
          rw [List.append_nil]
          intro x hx
          rcases List.eq_nil_or_concat pre with rfl | ⟨pre', m, rfl⟩
          · cases hx
          · have e : textOf (pre'.concat m) = (textOf pre' ++ m) ++ ['\n'] := by simp [textOf]
            rw [e, List.getLast?_append_of_ne_nil _ (by simp)] at hx
            cases hx
            decide
        | cons d p =>
          rw [List.getLast?_append_of_ne_nil _ (by simp)]
          exact hp
      have hlast : ∀ x ∈ A.getLast?, x < 0x80 := by
        rcases List.eq_nil_or_concat (textOf pre ++ p) with h0 | ⟨u, d, h0⟩
        · rw [h0] at hA
          cases hA
          intro x hx; cases hx
        · rw [h0, List.concat_eq_append, encode_append] at hA
          rw [h0] at hlastc
          cases hU : cp1252.encode u with
          | none => rw [hU] at hA; cases hA
          | some U =>
            cases hD : cp1252.encode [d] with
            | none => rw [hU, hD] at hA; cases hA
            | some D =>
              rw [hU, hD] at hA
              cases hA
              obtain ⟨y, Y, y1, y2, rfl⟩ := hcons _ _ _ hD
              cases y2
              intro x hx
              rw [List.getLast?_append_of_ne_nil _ (by simp)] at hx
              cases hx
              exact (cpChar_ascii (cpChar_byte y1)).1 (hlastc d (by simp))
      unfold readData
      cases hd : utf8.dec (save utf8 .sp (pre ++ l :: post)).1 with
      | none => rfl
      | some t =>
        exfalso
        have := (utf8_iff _ _).2 hd
        rw [← hbs] at this
        rcases utf8_not_alone t A B' b this hb80 with ⟨x, hx, h8⟩ | ⟨x, hx, h8⟩
        · have := hlast x hx; omega
        · have := hhead x hx; omega

end HF.Readers.Codec
