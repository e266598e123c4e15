import Verif.Hdf5.Handles
/-
C119: HDF5 files that the library opens are closed, those of the program stay open.
-/
namespace HF
namespace Handles

/-! ### Specification -/

/-- The files that a program has opened itself and not closed again, by what its operations gave. -/
def held : List Handle → List (Op × Out) → List Handle
  | acc, [] => acc
  | acc, (.openUser _ _, .handle h) :: t => held (h :: acc) t
  | acc, (.closeUser h, _) :: t => held (acc.filter fun k => k.id != h.id) t
  | acc, _ :: t => held acc t

/-- A function of the old version, called directly with the name of a file, that raises an exception. -/
def OldFails : Op × Out → Prop
  | (.read01 (.name _) _, .raised _) => True
  | (.save01 (.name _) _ _, .raised _) => True
  | _ => False

/-- All names can be made ready. -/
def allOk (ks : List Nat) : List (Except Nat Nat) := ks.map .ok

/-! ### Lemmas -/

def WF (s : State) : Prop := ∀ h ∈ s.opens, h.id < s.next

def Keeps (body : State → Handle → State × Except Err Unit) : Prop :=
  ∀ s h, (body s h).1.opens = s.opens ∧ (body s h).1.next = s.next

theorem reading_keeps (r : Option Nat) : Keeps (reading r) := by
  intro s h
  unfold reading
  split
  · cases r <;> exact ⟨rfl, rfl⟩
  · exact ⟨rfl, rfl⟩

theorem writeAll_keeps (items : List (Except Nat Nat)) : Keeps (writeAll items) := by
  induction items with
  | nil => intro s h; exact ⟨rfl, rfl⟩
  | cons x t ih =>
    intro s h
    cases x with
    | error e => exact ⟨rfl, rfl⟩
    | ok k =>
      simp only [writeAll]
      split
      · exact ⟨rfl, rfl⟩
      · exact ih _ h

theorem writing_keeps (items : List (Except Nat Nat)) : Keeps (writing items) := by
  intro s h
  unfold writing
  split
  · split
    · exact writeAll_keeps items s h
    · exact ⟨rfl, rfl⟩
  · exact ⟨rfl, rfl⟩

/-- Opening gives one more open file, with a new number, or an exception and nothing. -/
theorem openFile_cases (s : State) (n : Nat) (m : Mode) :
    (∃ e, (openFile s n m) = (s, .error e)) ∨
    (∃ h s', openFile s n m = (s', .ok h) ∧ s'.opens = h :: s.opens ∧ s'.next = s.next + 1 ∧ h.id = s.next ∧ h.name = n) := by
  cases m with
  | r =>
    simp only [openFile]
    split
    · exact Or.inl ⟨_, rfl⟩
    · exact Or.inr ⟨_, _, rfl, rfl, rfl, rfl, rfl⟩
  | w =>
    simp only [openFile]
    split
    · exact Or.inl ⟨_, rfl⟩
    · exact Or.inr ⟨_, _, rfl, rfl, rfl, rfl, rfl⟩
  | a =>
    simp only [openFile]
    split
    · exact Or.inl ⟨_, rfl⟩
    · exact Or.inr ⟨_, _, rfl, rfl, rfl, rfl, rfl⟩

theorem filter_new (s : State) (hw : WF s) (h : Handle) (hid : h.id = s.next) :
    (h :: s.opens).filter (fun k => k.id != h.id) = s.opens := by
  simp only [List.filter, bne_self_eq_false]
  apply List.filter_eq_self.mpr
  intro k hk
  have := hw k hk
  simp only [bne_iff_ne, ne_eq]
  omega

theorem context_keeps (s : State) (hw : WF s) (arg : Arg) (m : Mode) (body : State → Handle → State × Except Err Unit)
    (hb : Keeps body) : (context s arg m body).1.opens = s.opens ∧ s.next ≤ (context s arg m body).1.next := by
  cases arg with
  | handle h => exact ⟨(hb s h).1, Nat.le_of_eq (hb s h).2.symm⟩
  | name n =>
    rcases openFile_cases s n m with ⟨e, he⟩ | ⟨h, s', he, ho, hn, hid, _⟩
    · simp only [context, he]; exact ⟨trivial, Nat.le_refl _⟩
    · simp only [context, he, closeFile, (hb s' h).1, (hb s' h).2, ho, hn]
      exact ⟨filter_new s hw h hid, Nat.le_succ _⟩

theorem plain_next (s : State) (arg : Arg) (m : Mode) (body : State → Handle → State × Except Err Unit)
    (hb : Keeps body) (hw : WF s) : WF (plain s arg m body).1 ∧
      ((∃ h, arg = .handle h) ∨ (plain s arg m body).2 = .ok () → (plain s arg m body).1.opens = s.opens) := by
  cases arg with
  | handle h =>
    refine ⟨?_, fun _ => (hb s h).1⟩
    intro k hk
    simp only [plain, (hb s h).1, (hb s h).2] at hk ⊢
    exact hw k hk
  | name n =>
    rcases openFile_cases s n m with ⟨e, he⟩ | ⟨h, s', he, ho, hn, hid, _⟩
    · simp only [plain, he]; exact ⟨hw, fun _ => trivial⟩
    · have hb' := hb s' h
      simp only [plain, he]
      rcases hc : body s' h with ⟨s'', r⟩
      rw [hc] at hb'
      cases r with
      | ok u =>
        have h1 : s''.opens = s'.opens := hb'.1
        have h2 : s''.next = s'.next := hb'.2
        have h3 : (closeFile s'' h).opens = s.opens := by
          show s''.opens.filter _ = _
          rw [h1, ho]; exact filter_new s hw h hid
        refine ⟨?_, fun _ => h3⟩
        intro k hk
        have hk' : k ∈ (closeFile s'' h).opens := hk
        rw [h3] at hk'
        have := hw k hk'
        show k.id < s''.next
        omega
      | error e =>
        refine ⟨?_, ?_⟩
        · intro k hk
          have h1 : s''.opens = s'.opens := hb'.1
          have h2 : s''.next = s'.next := hb'.2
          have hk' : k ∈ s''.opens := hk
          show k.id < s''.next
          rw [h1, ho] at hk'
          rcases List.mem_cons.mp hk' with rfl | hk'
          · omega
          · have := hw k hk'; omega
        · rintro (⟨_, h0⟩ | h0) <;> cases h0

theorem readBody_keeps (v : Version) (r : Option Nat) : Keeps fun s h => match v with
    | .v02 => read02 s (.handle h) r
    | .v01 => read01 s (.handle h) r := by
  intro s h; cases v <;> exact reading_keeps r s h

theorem saveBody_keeps (v : Version) (items : List (Except Nat Nat)) : Keeps fun s h => match v with
    | .v02 => save02 s (.handle h) items
    | .v01 => save01 s (.handle h) .w items := by
  intro s h; cases v <;> exact writing_keeps items s h

theorem out_state (x : State × Except Err Unit) : (out x).1 = x.1 := by
  rcases x with ⟨s, (e | u)⟩ <;> rfl

theorem out_raised (x : State × Except Err Unit) (h : ¬ ∃ e, (out x).2 = .raised e) : x.2 = .ok () := by
  rcases x with ⟨s, (e | u)⟩
  · exact absurd ⟨e, rfl⟩ h
  · rfl

theorem wf_of (s s' : State) (hw : WF s) (h : s'.opens = s.opens ∧ s.next ≤ s'.next) : WF s' := by
  intro k hk
  rw [h.1] at hk
  exact Nat.lt_of_lt_of_le (hw k hk) h.2

/-- One operation: the open files are followed by `held`. -/
theorem step_held (s : State) (hw : WF s) (op : Op) :
    WF (step s op).1 ∧ (¬ OldFails (op, (step s op).2) → (step s op).1.opens = held s.opens [(op, (step s op).2)]) := by
  cases op with
  | openUser n m =>
    rcases openFile_cases s n m with ⟨e, he⟩ | ⟨h, s', he, ho, hn, hid, _⟩
    · simp only [step, he]; exact ⟨hw, fun _ => rfl⟩
    · simp only [step, he]
      refine ⟨?_, fun _ => ho⟩
      intro k hk
      rw [ho] at hk
      rcases List.mem_cons.mp hk with rfl | hk
      · omega
      · have := hw k hk; omega
  | closeUser h =>
    refine ⟨?_, fun _ => rfl⟩
    intro k hk
    exact hw k (List.mem_filter.mp hk).1
  | read arg v r =>
    have h := context_keeps s hw arg .r _ (readBody_keeps v r)
    simp only [step, out_state]
    exact ⟨wf_of s _ hw h, fun _ => h.1⟩
  | save arg v items =>
    have h := context_keeps s hw arg .w _ (saveBody_keeps v items)
    simp only [step, out_state]
    exact ⟨wf_of s _ hw h, fun _ => h.1⟩
  | read02 arg r =>
    have h := context_keeps s hw arg .r _ (reading_keeps r)
    simp only [step, out_state]
    exact ⟨wf_of s _ hw h, fun _ => h.1⟩
  | save02 arg items =>
    have h := context_keeps s hw arg .w _ (writing_keeps items)
    simp only [step, out_state]
    exact ⟨wf_of s _ hw h, fun _ => h.1⟩
  | read01 arg r =>
    have h := plain_next s arg .r _ (reading_keeps r) hw
    simp only [step, out_state]
    refine ⟨h.1, fun hn => h.2 ?_⟩
    cases arg with
    | handle k => exact Or.inl ⟨k, rfl⟩
    | name n =>
      refine Or.inr (out_raised _ ?_)
      rintro ⟨e, he⟩
      apply hn
      show OldFails (_, (out (read01 s (.name n) r)).2)
      have he' : (out (read01 s (.name n) r)).2 = .raised e := he
      rw [he']; trivial
  | save01 arg m items =>
    have h := plain_next s arg m _ (writing_keeps items) hw
    simp only [step, out_state]
    refine ⟨h.1, fun hn => h.2 ?_⟩
    cases arg with
    | handle k => exact Or.inl ⟨k, rfl⟩
    | name n =>
      refine Or.inr (out_raised _ ?_)
      rintro ⟨e, he⟩
      apply hn
      show OldFails (_, (out (save01 s (.name n) m items)).2)
      have he' : (out (save01 s (.name n) m items)).2 = .raised e := he
      rw [he']; trivial

theorem held_cons (acc : List Handle) (x : Op × Out) (t : List (Op × Out)) : held acc (x :: t) = held (held acc [x]) t := by
  rcases x with ⟨op, o⟩
  cases op <;> cases o <;> rfl

theorem run_held (ops : List Op) : ∀ s, WF s → (∀ x ∈ (run s ops).2, ¬ OldFails x) →
    WF (run s ops).1 ∧ (run s ops).1.opens = held s.opens (run s ops).2 := by
  induction ops with
  | nil => intro s hw _; exact ⟨hw, rfl⟩
  | cons op t ih =>
    intro s hw hf
    have h1 := step_held s hw op
    have h2 := ih (step s op).1 h1.1 (fun x hx => hf x (List.mem_cons_of_mem _ hx))
    refine ⟨h2.1, ?_⟩
    show (run (step s op).1 t).1.opens = held s.opens ((op, (step s op).2) :: (run (step s op).1 t).2)
    rw [h2.2, held_cons, h1.2 (hf _ (List.mem_cons_self ..))]

/-! ### Theorems -/

/-- C119: after any program, whatever its reads and saves raise, exactly those files are open that the program has opened
itself and not closed, as long as no function of the old version called directly with a name has failed. -/
theorem C119_open (c : Nat → Option (List Nat)) (ops : List Op) (hf : ∀ x ∈ (run (start c) ops).2, ¬ OldFails x) :
    (run (start c) ops).1.opens = held [] (run (start c) ops).2 :=
  (run_held ops (start c) (fun h hh => by cases hh) hf).2

/-- C119: so a file of which the program has no open one can be saved after any such program: it then has exactly the names
of the block, whatever was in it and whatever happened to it. -/
theorem C119_saved (c : Nat → Option (List Nat)) (ops : List Op) (hf : ∀ x ∈ (run (start c) ops).2, ¬ OldFails x) (n : Nat)
    (hn : ∀ h ∈ held [] (run (start c) ops).2, h.name ≠ n) (v : Version) (ks : List Nat) (hk : ks.Nodup) :
    (step (run (start c) ops).1 (.save (.name n) v (allOk ks))).2 = .done ∧
    (step (run (start c) ops).1 (.save (.name n) v (allOk ks))).1.cont n = some ks := by
  have ho := C119_open c ops hf
  generalize (run (start c) ops).1 = s at ho ⊢
  rw [← ho] at hn
  have hb : s.opens.any (fun h => h.name == n) = false := by
    rw [List.any_eq_false]
    intro h hh
    simpa using hn h hh
  have key : ∀ (l pre : List Nat) (s' : State) (h : Handle), s'.cont h.name = some pre → (pre ++ l).Nodup →
      (writeAll (allOk l) s' h).2 = .ok () ∧ (writeAll (allOk l) s' h).1.cont h.name = some (pre ++ l) := by
    intro l
    induction l with
    | nil => intro pre s' h h1 _; exact ⟨rfl, by rw [List.append_nil]; exact h1⟩
    | cons k t ih =>
      intro pre s' h h1 h2
      have hnot : ¬ k ∈ pre := by
        intro hk
        exact (List.nodup_append.mp h2).2.2 k hk k (List.mem_cons_self ..) rfl
      have := ih (pre ++ [k]) { s' with cont := setCont s'.cont h.name (pre ++ [k]) } h (by simp [setCont])
        (by rw [List.append_assoc]; exact h2)
      simp only [allOk, List.map_cons, writeAll, h1, Option.getD_some, if_neg hnot]
      rw [List.append_assoc] at this
      exact this
  have h3 := key ks [] { opens := ⟨s.next, n, true⟩ :: s.opens, next := s.next + 1, cont := setCont s.cont n [] }
    ⟨s.next, n, true⟩ (by simp [setCont]) (by simpa using hk)
  cases v <;>
    simp only [step, save, context, openFile, hb, add, save02, save01, plain, writing, List.mem_cons, true_or, if_true,
      out, closeFile, Bool.false_eq_true, if_false] <;>
    (rcases hw : writeAll (allOk ks) { opens := ⟨s.next, n, true⟩ :: s.opens, next := s.next + 1, cont := setCont s.cont n [] } ⟨s.next, n, true⟩ with ⟨s2, r2⟩
     rw [hw] at h3
     obtain ⟨h4, h5⟩ := h3
     simp only at h4 h5
     subst h4
     exact ⟨rfl, h5⟩)

/-- C119: an open file of the program stays open whatever is done with it. -/
theorem C119_given (s : State) (hw : ∀ h ∈ s.opens, h.id < s.next) (h : Handle) (hh : h ∈ s.opens) (op : Op)
    (ho : (∃ v r, op = .read (.handle h) v r) ∨ (∃ v i, op = .save (.handle h) v i) ∨ (∃ r, op = .read01 (.handle h) r) ∨
      (∃ m i, op = .save01 (.handle h) m i) ∨ (∃ r, op = .read02 (.handle h) r) ∨ (∃ i, op = .save02 (.handle h) i)) :
    h ∈ (step s op).1.opens := by
  have h1 := (step_held s hw op).2
  rcases ho with ⟨v, r, rfl⟩ | ⟨v, i, rfl⟩ | ⟨r, rfl⟩ | ⟨m, i, rfl⟩ | ⟨r, rfl⟩ | ⟨i, rfl⟩ <;>
    (rw [h1 (by intro hf; exact hf)]; exact hh)

/-- C119: saving to an open file does not empty it, for no version and mode: a block that has a name which is in the file
already raises an exception, after the names before it have been added. -/
theorem C119_mode_refuted (s : State) (h : Handle) (hh : h ∈ s.opens) (hw : h.write = true) (old ks : List Nat) (k : Nat)
    (hc : s.cont h.name = some old) (hk : k ∈ old) (hd : (old ++ ks).Nodup) (v : Version) (rest : List (Except Nat Nat)) :
    (step s (.save (.handle h) v (allOk ks ++ .ok k :: rest))).2 = .raised .nameExists ∧
    (step s (.save (.handle h) v (allOk ks ++ .ok k :: rest))).1.cont h.name = some (old ++ ks) := by
  have key : ∀ (l pre : List Nat) (s' : State), s'.cont h.name = some pre → k ∈ pre → (pre ++ l).Nodup →
      (writeAll (allOk l ++ .ok k :: rest) s' h).2 = .error .nameExists ∧
      (writeAll (allOk l ++ .ok k :: rest) s' h).1.cont h.name = some (pre ++ l) := by
    intro l
    induction l with
    | nil =>
      intro pre s' h1 h2 _
      simp only [allOk, List.map_nil, List.nil_append, writeAll, h1, Option.getD_some, if_pos h2, List.append_nil]
      exact ⟨trivial, trivial⟩
    | cons x t ih =>
      intro pre s' h1 h2 h3
      have hnot : ¬ x ∈ pre := fun hx => (List.nodup_append.mp h3).2.2 x hx x (List.mem_cons_self ..) rfl
      have := ih (pre ++ [x]) { s' with cont := setCont s'.cont h.name (pre ++ [x]) } (by simp [setCont])
        (List.mem_append_left _ h2) (by rw [List.append_assoc]; exact h3)
      simp only [allOk, List.map_cons, List.cons_append, writeAll, h1, Option.getD_some, if_neg hnot]
      rw [List.append_assoc] at this
      exact this
  have h3 := key ks old s hc hk hd
  cases v <;>
    simp only [step, save, context, save02, save01, plain, writing, if_pos hh, hw, if_true, out] <;>
    (rcases hx : writeAll (allOk ks ++ .ok k :: rest) s h with ⟨s2, r2⟩
     rw [hx] at h3
     obtain ⟨h4, h5⟩ := h3
     simp only at h4 h5
     subst h4
     exact ⟨rfl, h5⟩)

/-- C119: saving under the name of a file that the program has open raises an exception, and nothing is changed. -/
theorem C119_held_refuted (s : State) (h : Handle) (hh : h ∈ s.opens) (v : Version) (items : List (Except Nat Nat)) :
    step s (.save (.name h.name) v items) = (s, .raised .busy) := by
  have hb : s.opens.any (fun k => k.name == h.name) = true := List.any_eq_true.mpr ⟨h, hh, by simp⟩
  simp only [step, save, context, openFile, hb, if_true, out]

/-- C119: after `v_01.read_hdf5(name)` has raised an exception while it reads, the file is still open, and can not be saved;
after `read_hdf5(name)` has, it can. -/
theorem C119_old_refuted (c : Nat → Option (List Nat)) (n e : Nat) (l : List Nat) (hc : c n = some l) (v : Version)
    (items : List (Except Nat Nat)) :
    (run (start c) [.read01 (.name n) (some e), .save (.name n) v items]).2.map Prod.snd =
      [.raised (.other e), .raised .busy] ∧
    (run (start c) [.read (.name n) v (some e)]).1.opens = [] := by
  constructor
  · simp [run, step, start, read01, plain, openFile, hc, add, reading, out, save, context]
  · cases v <;>
      simp [run, step, start, read, read02, read01, plain, openFile, hc, add, reading, out, context, closeFile]

/-- C119: reading changes no file, and by name it is done or raises what reading raises as soon as there is such a file,
also if it is open already. -/
theorem C119_read (s : State) (v : Version) (r : Option Nat) (n : Nat) (arg : Arg) :
    (step s (.read arg v r)).1.cont = s.cont ∧
    (step s (.read (.name n) v r)).2 = (match s.cont n, r with
      | none, _ => .raised .missing
      | some _, none => .done
      | some _, some e => .raised (.other e)) := by
  constructor
  · cases arg with
    | handle h =>
      by_cases hh : h ∈ s.opens <;> cases v <;> cases r <;>
        simp [step, read, context, read02, read01, plain, reading, hh, out]
    | name n =>
      cases hc : s.cont n <;> cases v <;> cases r <;>
        simp [step, read, context, openFile, hc, add, read02, read01, plain, reading, closeFile, out]
  · cases hc : s.cont n <;> cases v <;> cases r <;>
      simp [step, read, context, openFile, hc, add, read02, read01, plain, reading, closeFile, out]

/-- C119: saving, whatever it raises, leaves all other files as they are. -/
theorem C119_others (s : State) (v : Version) (items : List (Except Nat Nat)) (arg : Arg) (k : Nat)
    (hk : (∀ n, arg = .name n → k ≠ n) ∧ ∀ h, arg = .handle h → k ≠ h.name) :
    (step s (.save arg v items)).1.cont k = s.cont k := by
  have key : ∀ (l : List (Except Nat Nat)) (s' : State) (h : Handle), k ≠ h.name → (writeAll l s' h).1.cont k = s'.cont k := by
    intro l
    induction l with
    | nil => intro s' h _; rfl
    | cons x t ih =>
      intro s' h hn
      cases x with
      | error e => rfl
      | ok y =>
        simp only [writeAll]
        split
        · rfl
        · rw [ih _ h hn]; simp [setCont, hn]
  have key2 : ∀ (s' : State) (h : Handle), k ≠ h.name → (writing items s' h).1.cont k = s'.cont k := by
    intro s' h hn
    unfold writing
    split
    · split
      · exact key items s' h hn
      · rfl
    · rfl
  simp only [step, out_state]
  cases arg with
  | handle h => cases v <;> exact key2 s h (hk.2 h rfl)
  | name n =>
    have hn := hk.1 n rfl
    simp only [save, context, openFile]
    split
    · rename_i h1; split at h1 <;> cases h1; rfl
    · rename_i h1
      split at h1
      · cases h1
      · cases h1
        have h2 : ∀ s' : State, s'.cont k = s.cont k → (writing items s' ⟨s.next, n, true⟩).1.cont k = s.cont k :=
          fun s' h3 => (key2 s' _ hn).trans h3
        cases v <;> exact h2 _ (by simp [setCont, hn])

/-! ### Concrete cases -/

/-- Two files, the first with two data sets. -/
def disk : Nat → Option (List Nat)
  | 0 => some [7, 8]
  | 1 => some []
  | _ => none

def program : List Op :=
  [.read (.name 0) .v02 (some 3), .openUser 1 .r, .save (.name 0) .v01 [.ok 4, .error 9], .save (.name 2) .v02 [.ok 1, .ok 1],
   .read01 (.name 0) none, .save (.name 1) .v02 [.ok 5]]

/-- The hypothesis of `C119_open` is met by a program with four exceptions. -/
theorem program_outs : (run (start disk) program).2.map Prod.snd =
    [.raised (.other 3), .handle ⟨1, 1, false⟩, .raised (.other 9), .raised .nameExists, .done, .raised .busy] := by
  decide +kernel

theorem program_fine : ∀ x ∈ (run (start disk) program).2, ¬ OldFails x := by
  intro x hx
  simp only [program, run, List.mem_cons, List.not_mem_nil, or_false] at hx
  have h5 : (run (start disk) program).2.map Prod.snd = _ := program_outs
  simp only [program, run, List.map_cons, List.map_nil, List.cons.injEq] at h5
  rcases hx with rfl | rfl | rfl | rfl | rfl | rfl
  · exact id
  · exact id
  · exact id
  · exact id
  · rw [h5.2.2.2.2.1]; exact id
  · exact id

/-- Only the file of the program is open afterwards. -/
example : (run (start disk) program).1.opens = [⟨1, 1, false⟩] := by
  rw [C119_open disk program program_fine]
  decide +kernel

/-- File 0 can be saved again, in spite of the exceptions. -/
example : (step (run (start disk) program).1 (.save (.name 0) .v02 (allOk [3, 4]))).1.cont 0 = some [3, 4] :=
  (C119_saved disk program program_fine 0 (by decide +kernel) .v02 [3, 4] (by decide)).2

/-- Appending to an open file with a name that is there. -/
example : (step ⟨[⟨0, 0, true⟩], 1, disk⟩ (.save (.handle ⟨0, 0, true⟩) .v02 (allOk [3] ++ .ok 8 :: []))).2 = .raised .nameExists :=
  (C119_mode_refuted _ _ (by decide) rfl [7, 8] [3] 8 rfl (by decide) (by decide) .v02 []).1

/-- Saving file 2, with an exception, leaves file 0. -/
example : (step (start disk) (.save (.name 2) .v01 [.ok 1, .error 2])).1.cont 0 = some [7, 8] :=
  C119_others _ _ _ _ 0 ⟨fun n h => by cases h; decide, fun h h' => by cases h'⟩

end Handles
end HF
