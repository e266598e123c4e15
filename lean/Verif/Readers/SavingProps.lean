import Verif.Readers.Saving
/-
C116: what is in a file after saving did not go well.
-/
namespace HF
namespace Saving

/-! ### Specification -/

/-- A text that can be made and encoded. -/
def Good (has : Char → Bool) (i : Except Nat Text) : Prop := ∃ s, i = .ok s ∧ ∀ c ∈ s, has c = true

/-- All texts one behind the other. -/
def textOf (items : List (Except Nat Text)) : Text := items.flatMap fun i => match i with | .ok s => s | .error _ => []

/-- The first item that does not go well is `bad`, behind `before`. -/
def FailsAt (has : Char → Bool) (items before : List (Except Nat Text)) (bad : Except Nat Text) : Prop :=
  (∃ after, items = before ++ bad :: after) ∧ (∀ i ∈ before, Good has i) ∧ ¬ Good has bad

/-- The exception for an item. -/
def reason : Except Nat Text → Err
  | .ok _ => .encode
  | .error n => .other n

/-! ### Lemmas -/

theorem write_all (f : File) (s : Text) (n : Nat) : (f.write s n).disk ++ (f.write s n).buf = f.disk ++ f.buf ++ s := by
  simp [File.write]

theorem loop_good (has : Char → Bool) (items rest : List (Except Nat Text)) (ns : List Nat) (f : File)
    (h : ∀ i ∈ items, Good has i) :
    ∃ f' ns', loop has (items ++ rest) ns f = loop has rest ns' f' ∧ f'.disk ++ f'.buf = f.disk ++ f.buf ++ textOf items ∧
      f.disk <+: f'.disk := by
  induction items generalizing ns f with
  | nil => exact ⟨f, ns, rfl, by simp [textOf], List.prefix_refl _⟩
  | cons i t ih =>
    obtain ⟨s, rfl, hs⟩ := h i (by simp)
    have ha : s.all has = true := List.all_eq_true.2 hs
    obtain ⟨f', ns', h1, h2, h3⟩ := ih ns.tail (f.write s (ns.headD 0)) fun j hj => h j (by simp [hj])
    refine ⟨f', ns', ?_, ?_, ?_⟩
    · rw [List.cons_append, loop, if_pos ha, h1]
    · rw [h2, write_all]
      simp [textOf]
    · exact List.IsPrefix.trans ⟨_, rfl⟩ h3

theorem loop_all (has : Char → Bool) (items : List (Except Nat Text)) (ns : List Nat) (f : File) (h : ∀ i ∈ items, Good has i) :
    ∃ f', loop has items ns f = (f', none) ∧ f'.disk ++ f'.buf = f.disk ++ f.buf ++ textOf items := by
  obtain ⟨f', ns', h1, h2, -⟩ := loop_good has items [] ns f h
  rw [List.append_nil] at h1
  exact ⟨f', h1, h2⟩

theorem loop_fails (has : Char → Bool) {items before : List (Except Nat Text)} {bad : Except Nat Text} (ns : List Nat) (f : File)
    (h : FailsAt has items before bad) :
    ∃ f', loop has items ns f = (f', some (reason bad)) ∧ f'.disk ++ f'.buf = f.disk ++ f.buf ++ textOf before := by
  obtain ⟨⟨after, rfl⟩, hg, hb⟩ := h
  obtain ⟨f', ns', h1, h2, -⟩ := loop_good has before (bad :: after) ns f hg
  refine ⟨f', ?_, h2⟩
  rw [h1]
  cases bad with
  | error n => rfl
  | ok s =>
    rw [loop, if_neg]
    · rfl
    · intro ha
      exact hb ⟨s, rfl, List.all_eq_true.1 ha⟩

/-- Either all goes well, or there is a first item that does not. -/
theorem all_or_fails (has : Char → Bool) (items : List (Except Nat Text)) :
    (∀ i ∈ items, Good has i) ∨ ∃ before bad, FailsAt has items before bad := by
  induction items with
  | nil => exact .inl (by simp)
  | cons i t ih =>
    by_cases hi : Good has i
    · rcases ih with ih | ⟨before, bad, ⟨after, h1⟩, h2, h3⟩
      · refine .inl fun j hj => ?_
        rcases List.mem_cons.1 hj with rfl | hj
        · exact hi
        · exact ih j hj
      · refine .inr ⟨i :: before, bad, ⟨after, by rw [h1]; rfl⟩, fun j hj => ?_, h3⟩
        rcases List.mem_cons.1 hj with rfl | hj
        · exact hi
        · exact h2 j hj
    · exact .inr ⟨[], i, ⟨t, rfl⟩, by simp, hi⟩

/-! ### Theorems -/

/-- C116: if all goes well the file holds the whole text, is closed, and there is no exception. -/
theorem C116_saved (fmt : Format) (has : Char → Bool) (items : List (Except Nat Text)) (ns : List Nat)
    (h : ∀ i ∈ items, Good has i) : save fmt has items ns = ⟨textOf items, none, none⟩ := by
  obtain ⟨f, h1, h2⟩ := loop_all has items ns ⟨[], []⟩ h
  unfold save
  rw [h1]
  simp only
  rw [h2]
  rfl

/-- C116: if something does not go well there is an exception.  CITI and Touchstone files then hold the text up to there. -/
theorem C116_raised (fmt : Format) (has : Char → Bool) {items before : List (Except Nat Text)} {bad : Except Nat Text}
    (ns : List Nat) (h : FailsAt has items before bad) :
    (save fmt has items ns).raised = some (reason bad) ∧
    (fmt = .citi ∨ fmt = .touchstone → save fmt has items ns = ⟨textOf before, none, some (reason bad)⟩) ∧
    (fmt = .mdif ∨ fmt = .spdata → ∃ buf, (save fmt has items ns).left = some buf ∧
      (save fmt has items ns).disk ++ buf = textOf before) := by
  obtain ⟨f, h1, h2⟩ := loop_fails has ns ⟨[], []⟩ h
  have h2' : f.disk ++ f.buf = textOf before := h2
  unfold save
  rw [h1]
  cases fmt
  · refine ⟨rfl, fun _ => ?_, fun h => by rcases h with h | h <;> cases h⟩
    simp only [Format.kind]
    rw [h2']
  · refine ⟨rfl, fun _ => ?_, fun h => by rcases h with h | h <;> cases h⟩
    simp only [Format.kind]
    rw [h2']
  · exact ⟨rfl, fun h => (by rcases h with h | h <;> cases h), fun _ => ⟨f.buf, rfl, h2'⟩⟩
  · exact ⟨rfl, fun h => (by rcases h with h | h <;> cases h), fun _ => ⟨f.buf, rfl, h2'⟩⟩

/-- C116: if the program is ended at any moment the file is as it was before, or it holds a beginning of the text. -/
theorem C116_killed (has : Char → Bool) (items : List (Except Nat Text)) (ns : List Nat) (old : Text) (k : Nat) :
    (k = 0 ∧ killed has items ns old k = old) ∨ (0 < k ∧ killed has items ns old k <+: textOf items) := by
  cases k with
  | zero => exact .inl ⟨rfl, rfl⟩
  | succ k =>
    refine .inr ⟨by omega, ?_⟩
    have hp : textOf (items.take k) <+: textOf items := by
      refine ⟨textOf (items.drop k), ?_⟩
      unfold textOf
      rw [← List.flatMap_append, List.take_append_drop]
    show (loop has (items.take k) ns ⟨[], []⟩).1.disk <+: _
    rcases all_or_fails has (items.take k) with h | ⟨before, bad, h⟩
    · obtain ⟨f, h1, h2⟩ := loop_all has (items.take k) ns ⟨[], []⟩ h
      rw [h1]
      have h2' : f.disk ++ f.buf = textOf (items.take k) := h2
      exact List.IsPrefix.trans ⟨f.buf, h2'⟩ hp
    · obtain ⟨f, h1, h2⟩ := loop_fails has ns ⟨[], []⟩ h
      rw [h1]
      have h2' : f.disk ++ f.buf = textOf before := h2
      obtain ⟨⟨after, ha⟩, -, -⟩ := h
      refine List.IsPrefix.trans ⟨f.buf, h2'⟩ (List.IsPrefix.trans ?_ hp)
      rw [ha]
      exact ⟨textOf (bad :: after), by simp [textOf]⟩

/-- C116: a save that fails does not leave what was in the file: even if nothing could be written it is empty. -/
theorem C116_old_refuted (fmt : Format) (has : Char → Bool) (n : Nat) (t : List (Except Nat Text)) (ns : List Nat) (old : Text) :
    (save fmt has (.error n :: t) ns).disk = [] ∧ (save fmt has (.error n :: t) ns).raised = some (.other n) ∧
    killed has (.error n :: t) ns old 1 = [] := by
  cases fmt <;> exact ⟨rfl, rfl, rfl⟩

/-- C116: a Touchstone file of a block without S is the comments, the scalars and the option line. -/
theorem C116_touchstone (has : Char → Bool) (comments scalars : List Text) (e : Nat) (ns : List Nat)
    (hc : ∀ c ∈ comments, ∀ x ∈ c, has x = true) (hs : ∀ s ∈ scalars, ∀ x ∈ s, has x = true)
    (ha : ∀ x ∈ "!#HZ S RI R 50\n".toList, has x = true) :
    save .touchstone has (touchstoneItems comments (scalars.map .ok) (.error e)) ns =
      ⟨comments.flatMap (fun c => '!' :: c ++ ['\n']) ++ scalars.flatMap (fun s => '!' :: s ++ ['\n']) ++
        "#HZ S RI R 50\n".toList, none, some (.other e)⟩ := by
  have hbang : has '!' = true := ha _ (by decide)
  have hnl : has '\n' = true := ha _ (by decide)
  have hf : FailsAt has (touchstoneItems comments (scalars.map .ok) (.error e))
      (comments.flatMap (fun c => [.ok ('!' :: c), .ok ['\n']]) ++
        (scalars.map Except.ok).map (fun s => s.map fun s => '!' :: s ++ ['\n']) ++ [.ok "#HZ S RI R 50\n".toList]) (.error e) := by
    refine ⟨⟨[], rfl⟩, ?_, ?_⟩
    · intro i hi
      rcases List.mem_append.1 hi with hi | hi
      · rcases List.mem_append.1 hi with hi | hi
        · obtain ⟨c, hc', hi⟩ := List.mem_flatMap.1 hi
          simp only [List.mem_cons, List.not_mem_nil, or_false] at hi
          rcases hi with rfl | rfl
          · refine ⟨_, rfl, fun x hx => ?_⟩
            rcases List.mem_cons.1 hx with rfl | hx
            · exact hbang
            · exact hc c hc' x hx
          · refine ⟨_, rfl, fun x hx => ?_⟩
            rw [List.mem_singleton] at hx
            rw [hx, hnl]
        · rw [List.map_map] at hi
          obtain ⟨s, hs', rfl⟩ := List.mem_map.1 hi
          refine ⟨'!' :: s ++ ['\n'], rfl, fun x hx => ?_⟩
          rcases List.mem_append.1 hx with hx | hx
          · rcases List.mem_cons.1 hx with rfl | hx
            · exact hbang
            · exact hs s hs' x hx
          · rw [List.mem_singleton] at hx
            rw [hx, hnl]
      · rw [List.mem_singleton] at hi
        subst hi
        exact ⟨_, rfl, fun x hx => ha x (List.mem_cons_of_mem _ hx)⟩
    · rintro ⟨s, h, -⟩
      cases h
  rw [((C116_raised .touchstone has ns hf).2.1 (.inr rfl))]
  unfold textOf reason
  rw [List.flatMap_append, List.flatMap_append, List.flatMap_assoc, List.map_map, List.flatMap_map]
  simp [Except.map]

/-- C116: after CITI and Touchstone files nothing is written any more.  After an exception an MDIF or SP file stays open,
and when it is thrown away the rest of its buffer overwrites what has been saved under this name in the meantime: all from
the place `d` up to which it had been written to the disk before, `0` if nothing had been. -/
theorem C116_late_refuted (fmt : Format) (has : Char → Bool) {items before : List (Except Nat Text)} {bad : Except Nat Text}
    (ns : List Nat) (h : FailsAt has items before bad) (now : Text) :
    (fmt = .citi ∨ fmt = .touchstone → throwAway (save fmt has items ns) now = now) ∧
    (fmt = .mdif ∨ fmt = .spdata → (textOf before).length ≤ now.length →
      ∃ d ≤ (textOf before).length, (ns = [] → d = 0) ∧
        throwAway (save fmt has items ns) now = now.take d ++ (textOf before).drop d ++ now.drop (textOf before).length) := by
  obtain ⟨-, h1, h2⟩ := C116_raised fmt has ns h
  constructor
  · intro hf
    rw [h1 hf]
    rfl
  · intro hf hl
    obtain ⟨buf, h3, h4⟩ := h2 hf
    have h5 : ns = [] → (save fmt has items ns).disk = [] := by
      rintro rfl
      have key : ∀ (l : List (Except Nat Text)) (f : File), (loop has l [] f).1.disk = f.disk := by
        intro l
        induction l with
        | nil => intro f; rfl
        | cons i t ih =>
          intro f
          cases i with
          | error n => rfl
          | ok s =>
            unfold loop
            split
            · rw [List.tail_nil, ih]
              simp [File.write]
            · rfl
      obtain ⟨f, h6, -⟩ := loop_fails has [] ⟨[], []⟩ h
      have h7 := key items ⟨[], []⟩
      rw [h6] at h7
      unfold save
      rw [h6]
      rcases hf with rfl | rfl <;> exact h7
    have hlen : (textOf before).length = (save fmt has items ns).disk.length + buf.length := by
      rw [← h4, List.length_append]
    refine ⟨(save fmt has items ns).disk.length, by omega, fun hn => by rw [h5 hn]; rfl, ?_⟩
    have hd : (textOf before).drop (save fmt has items ns).disk.length = buf := by
      rw [← h4, List.drop_left]
    rw [hd, hlen]
    unfold throwAway
    rw [h3]
    cases buf with
    | nil => simp
    | cons c t =>
      simp only
      rw [Nat.sub_eq_zero_of_le (by omega)]
      simp

/-- C116: if nothing has happened to the file in the meantime, it holds the text up to the exception, in all formats. -/
theorem C116_thrown (fmt : Format) (has : Char → Bool) {items before : List (Except Nat Text)} {bad : Except Nat Text}
    (ns : List Nat) (h : FailsAt has items before bad) :
    throwAway (save fmt has items ns) (save fmt has items ns).disk = textOf before := by
  obtain ⟨-, h1, h2⟩ := C116_raised fmt has ns h
  have hp : fmt = .mdif ∨ fmt = .spdata → throwAway (save fmt has items ns) (save fmt has items ns).disk = textOf before := by
    intro hf
    obtain ⟨buf, h3, h4⟩ := h2 hf
    unfold throwAway
    rw [h3]
    cases buf with
    | nil => simpa using h4
    | cons c t =>
      simp only
      rw [List.take_length, Nat.sub_self, List.drop_of_length_le (Nat.le_add_right _ _), ← h4]
      simp
  cases fmt with
  | citi => rw [h1 (.inl rfl)]; rfl
  | touchstone => rw [h1 (.inr rfl)]; rfl
  | mdif => exact hp (.inl rfl)
  | spdata => exact hp (.inr rfl)

/-! ### Concrete cases -/

/-- Two good lines, then an exception, meet the hypothesis of `C116_raised`. -/
theorem example_fails : FailsAt (fun c => c.toNat < 128) [.ok ['a'], .ok ['\n'], .error 7, .ok ['b']] [.ok ['a'], .ok ['\n']] (.error 7) := by
  refine ⟨⟨[.ok ['b']], rfl⟩, ?_, ?_⟩
  · intro i hi
    simp only [List.mem_cons, List.not_mem_nil, or_false] at hi
    rcases hi with rfl | rfl <;> exact ⟨_, rfl, by decide⟩
  · rintro ⟨s, h, -⟩
    cases h

/-- A file saved in the meantime is spoilt by the buffer of the failed MDIF file. -/
example : throwAway (save .mdif (fun c => c.toNat < 128) [.ok ['a'], .ok ['\n'], .error 7, .ok ['b']] []) ['x', 'y', 'z'] =
    ['a', '\n', 'z'] := by
  obtain ⟨d, -, h1, h2⟩ := (C116_late_refuted .mdif _ [] example_fails ['x', 'y', 'z']).2 (.inl rfl) (by decide)
  rw [h2, h1 rfl]
  rfl

/-- A character that the file can not hold. -/
example : (save .citi (fun c => c.toNat < 128) [.ok ['a'], .ok ['\n', 'ö'], .ok ['b']] [1]) = ⟨['a'], none, some .encode⟩ := by
  decide

/-- All goes well. -/
example : save .spdata (fun c => c.toNat < 128) [.ok ['a'], .ok ['b']] [0, 1] = ⟨['a', 'b'], none, none⟩ :=
  C116_saved .spdata _ _ _ (by
    intro i hi
    simp only [List.mem_cons, List.not_mem_nil, or_false] at hi
    rcases hi with rfl | rfl <;> exact ⟨_, rfl, by decide⟩)

end Saving
end HF
