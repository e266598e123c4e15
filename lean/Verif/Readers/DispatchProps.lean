import Verif.Readers.Dispatch
import Mathlib.Data.List.Perm.Basic
/-
C38: which reader is chosen.
-/
namespace HF.Readers.Dispatch

/-! ### Specification -/

/-- A line shows a format: one of the four textual signs, or the file is an HDF5 file. -/
inductive Shows (f : File) (l : List Char) : Format → Prop where
  | mdif : isMdif l = true → Shows f l .mdif
  | hdf5 : f.hdf5 = true → Shows f l .hdf5
  | citi : isCiti l = true → Shows f l .citi
  | touchstone : isTouchstone l = true → Shows f l .touchstone
  | muwave : isMuwave l = true → Shows f l .muwave

/-- The first character after blanks. -/
def firstSign (l : List Char) : Option Char := (l.dropWhile isSpace).head?

theorem dropWhile_head {p : Char → Bool} : ∀ {l : List Char} {c : Char} {t : List Char},
    l.dropWhile p = c :: t → ∃ w, l = w ++ c :: t ∧ ∀ x ∈ w, p x = true
  | [], c, t, h => by simp at h
  | a :: l, c, t, h => by
    rw [List.dropWhile_cons] at h
    by_cases e : p a = true
    · rw [if_pos e] at h
      obtain ⟨w, h1, h2⟩ := dropWhile_head h
      exact ⟨a :: w, by simp [h1], by simpa [e] using h2⟩
    · rw [if_neg e] at h
      exact ⟨[], by simp [h], by simp⟩

theorem dropWhile_of_append {p : Char → Bool} {w : List Char} {c : Char} {t : List Char}
    (hw : ∀ x ∈ w, p x = true) (hc : p c = false) : (w ++ c :: t).dropWhile p = c :: t := by
  induction w with
  | nil => simp [List.dropWhile_cons, hc]
  | cons a w ih =>
    simp only [List.cons_append, List.dropWhile_cons, hw a (by simp), if_true]
    exact ih fun x hx => hw x (by simp [hx])

theorem isMdif_sign {l : List Char} (h : isMdif l = true) : firstSign l = some 'V' := by
  unfold isMdif at h
  split at h
  · rename_i t e
    obtain ⟨w, h1, h2⟩ := dropWhile_head e
    have hs : ∀ x ∈ w, isSpace x = true := by
      intro x hx
      have := h2 x hx
      simp only [isTab, Bool.or_eq_true, decide_eq_true_eq] at this
      rcases this with rfl | rfl <;> rfl
    rw [firstSign, h1, dropWhile_of_append hs (by decide)]
    rfl
  · simp at h

theorem isTouchstone_sign {l : List Char} (h : isTouchstone l = true) : firstSign l = some '#' := by
  unfold isTouchstone at h
  split at h
  · rename_i t e
    simp [firstSign, e]
  · simp at h

theorem isPrefix_cons {a : Char} {p l : List Char} (h : isPrefix (a :: p) l = true)
    (ha : isSpace a = false) : firstSign l = some a := by
  cases l with
  | nil => simp [isPrefix] at h
  | cons c t =>
    simp only [isPrefix, Bool.and_eq_true, decide_eq_true_eq] at h
    obtain ⟨rfl, _⟩ := h
    simp [firstSign, List.dropWhile_cons, ha]

theorem isCiti_sign {l : List Char} (h : isCiti l = true) : firstSign l = some 'C' :=
  isPrefix_cons h (by decide)

theorem isMuwave_sign {l : List Char} (h : isMuwave l = true) : firstSign l = some 'M' :=
  isPrefix_cons h (by decide)

/-- C38: a line shows at most one format besides HDF5, so that the order of the recognisers
matters for HDF5 only. -/
theorem C38_exclusive (f : File) (l : List Char) (a b : Format) (ha : Shows f l a)
    (hb : Shows f l b) (ha5 : a ≠ .hdf5) (hb5 : b ≠ .hdf5) : a = b := by
  cases ha <;> cases hb <;> first
    | rfl
    | exact absurd rfl ha5
    | exact absurd rfl hb5
    | (exfalso
       rename_i h1 h2
       have := (by first
          | exact isMdif_sign h1 | exact isCiti_sign h1 | exact isTouchstone_sign h1
          | exact isMuwave_sign h1 : firstSign l = some _)
       have h := (by first
          | exact isMdif_sign h2 | exact isCiti_sign h2 | exact isTouchstone_sign h2
          | exact isMuwave_sign h2 : firstSign l = some _)
       rw [this] at h
       revert h; decide)

theorem lineFormat_none (f : File) (l : List Char) :
    lineFormat isfile f l = none ↔ ∀ a, ¬ Shows f l a := by
  simp only [lineFormat, isfile, Option.map_eq_none_iff, List.find?_eq_none, List.mem_cons,
    List.not_mem_nil, or_false, forall_eq_or_imp, forall_eq]
  constructor
  · rintro ⟨h1, h2, h3, h4, h5⟩ a ha
    cases ha <;> contradiction
  · intro h
    exact ⟨fun e => h _ (.mdif e), fun e => h _ (.hdf5 e), fun e => h _ (.citi e),
      fun e => h _ (.touchstone e), fun e => h _ (.muwave e)⟩

theorem lineFormat_shows (table : List (Recogniser × Format)) (hp : table.Perm isfile) (f : File)
    (l : List Char) (a : Format) (h : lineFormat table f l = some a) : Shows f l a := by
  simp only [lineFormat, Option.map_eq_some_iff] at h
  obtain ⟨r, h1, h2⟩ := h
  have hm := hp.mem_iff.1 (List.mem_of_find?_eq_some h1)
  have hr := List.find?_some h1
  simp only [isfile, List.mem_cons, List.not_mem_nil, or_false] at hm
  subst h2
  rcases hm with rfl | rfl | rfl | rfl | rfl
  · exact .mdif hr
  · exact .hdf5 hr
  · exact .citi hr
  · exact .touchstone hr
  · exact .muwave hr

theorem lineFormat_some (table : List (Recogniser × Format)) (hp : table.Perm isfile) (f : File)
    (l : List Char) (a : Format) (h : Shows f l a) : ∃ b, lineFormat table f l = some b := by
  cases e : lineFormat table f l with
  | some b => exact ⟨b, rfl⟩
  | none =>
    exfalso
    simp only [lineFormat, Option.map_eq_none_iff, List.find?_eq_none] at e
    have hm : ∀ r ∈ isfile, ¬ r.1 f l = true := fun r hr => e r (hp.mem_iff.2 hr)
    have : lineFormat isfile f l = none := by
      simp only [lineFormat, Option.map_eq_none_iff, List.find?_eq_none]; exact hm
    exact (lineFormat_none f l).1 this a h

/-- C38: lines that show no format are passed over. -/
theorem guess_skip (table : List (Recogniser × Format)) (hp : table.Perm isfile) (f : File)
    (pre rest : List (List Char)) (hn : ∀ l ∈ pre, ∀ a, ¬ Shows f l a) :
    guess table f (pre ++ rest) = guess table f rest := by
  induction pre with
  | nil => rfl
  | cons l t ih =>
    have : lineFormat table f l = none := by
      cases e : lineFormat table f l with
      | none => rfl
      | some b => exact absurd (lineFormat_shows table hp f l b e) (hn l (by simp) b)
    simp only [List.cons_append, guess, this]
    exact ih fun l hl => hn l (by simp [hl])

/-- C38: the first line that shows a (textual) format decides, in any order of the recognisers. -/
theorem C38_first_line (table : List (Recogniser × Format)) (hp : table.Perm isfile) (f : File)
    (h5 : f.hdf5 = false) (pre : List (List Char)) (l : List Char) (post : List (List Char))
    (hn : ∀ l ∈ pre, ∀ a, ¬ Shows f l a) (a : Format) (ha : Shows f l a) :
    guess table f (pre ++ l :: post) = a := by
  rw [guess_skip table hp f pre _ hn]
  obtain ⟨b, hb⟩ := lineFormat_some table hp f l a ha
  simp only [guess, hb]
  have hs := lineFormat_shows table hp f l b hb
  have n5 : ∀ c, Shows f l c → c ≠ .hdf5 := by
    rintro _ h rfl; cases h; simp_all
  exact C38_exclusive f l b a hs ha (n5 _ hs) (n5 _ ha)

/-- C38: if no line shows a format the file is read in SP format. -/
theorem C38_none (f : File) (hn : ∀ l ∈ f.lines, ∀ a, ¬ Shows f l a) :
    guess isfile f f.lines = .sp := by
  have := guess_skip isfile (List.Perm.refl _) f f.lines [] hn
  simpa [guess] using this

/-- C38: and only then. -/
theorem C38_sp_iff (f : File) :
    guess isfile f f.lines = .sp ↔ ∀ l ∈ f.lines, ∀ a, ¬ Shows f l a := by
  refine ⟨?_, C38_none f⟩
  have key : ∀ ls : List (List Char), guess isfile f ls = .sp → ∀ l ∈ ls, ∀ a, ¬ Shows f l a := by
    intro ls
    induction ls with
    | nil => intro _ l hl; simp at hl
    | cons l t ih =>
      intro h
      cases e : lineFormat isfile f l with
      | some b =>
        simp only [guess, e] at h
        subst h
        exact absurd (lineFormat_shows _ (List.Perm.refl _) f l _ e) (by rintro ⟨⟩)
      | none =>
        simp only [guess, e] at h
        intro l' hl'
        rcases List.mem_cons.1 hl' with rfl | hl'
        · exact (lineFormat_none f _).1 e
        · exact ih h l' hl'
  exact key f.lines

/-- C38: an HDF5 file is read as such, if it has a line at all and the first is not that of an
MDIF block. -/
theorem C38_hdf5 (f : File) (h5 : f.hdf5 = true) (l : List Char) (t : List (List Char))
    (hl : f.lines = l :: t) (hm : isMdif l = false) : guess isfile f f.lines = .hdf5 := by
  have : lineFormat isfile f l = some .hdf5 := by
    simp [lineFormat, isfile, List.find?_cons, hm, h5]
  rw [hl]
  simp only [guess, this]

/-- C38: the reader gets all patterns but is chosen by the first file of the first pattern with
files; no further file is looked at. -/
theorem C38_first_file {ν : Type} (glob : ν → List File) (pre : List ν) (p : ν) (post : List ν)
    (hn : ∀ q ∈ pre, glob q = []) (f : File) (fs : List File) (hp : glob p = f :: fs) :
    readData glob (pre ++ p :: post) = .reads (guess isfile f f.lines) (pre ++ p :: post) := by
  have : (pre ++ p :: post).findSome? (fun p => (glob p).head?) = some f := by
    induction pre with
    | nil => simp [List.findSome?_cons, hp]
    | cons q t ih =>
      simp only [List.cons_append, List.findSome?_cons, hn q (by simp), List.head?_nil]
      exact ih fun q hq => hn q (by simp [hq])
  simp only [readData, this]

/-- C38: reading fails at this stage exactly if no pattern has a file. -/
theorem C38_no_file {ν : Type} (glob : ν → List File) (ps : List ν) :
    readData glob ps = .ioError ↔ ∀ p ∈ ps, glob p = [] := by
  unfold readData
  split
  · rename_i h
    rw [List.findSome?_eq_none_iff] at h
    simpa [List.head?_eq_none_iff] using h
  · rename_i f h
    simp only [reduceCtorEq, false_iff]
    obtain ⟨p, hp, hf⟩ := List.exists_of_findSome?_eq_some h
    intro hall
    simp [hall p hp] at hf

/-! ### Concrete cases -/

def citiFile : File := ⟨["! some comment".toList, "CITIFILE A.01.01".toList,
  "VAR x(real)".toList], false⟩

/-- C38: the position in the list of recognisers does not decide: MDIF is tried first but the file
is read as CITI, because its CITI line comes first. -/
theorem C38_priority_refuted : guess isfile citiFile citiFile.lines = .citi ∧
    ∃ l ∈ citiFile.lines, isMdif l = true := by decide +kernel

/-- C38: with two files of different format the second is given to the reader of the first. -/
theorem C38_mixed_refuted :
    let touch : File := ⟨["# GHz S MA R 50".toList], false⟩
    guess isfile touch touch.lines = .touchstone ∧
    readData (fun b : Bool => if b then [citiFile] else [touch]) [true, false] =
      .reads .citi [true, false] := by decide +kernel

example : guess isfile citiFile citiFile.lines = .citi :=
  C38_first_line isfile (List.Perm.refl _) citiFile rfl ["! some comment".toList] _
    ["VAR x(real)".toList]
    (by
      intro l hl a ha
      simp only [List.mem_singleton] at hl
      subst hl
      cases ha with
      | mdif h => exact absurd h (by decide +kernel)
      | hdf5 h => exact absurd h (by decide +kernel)
      | citi h => exact absurd h (by decide +kernel)
      | touchstone h => exact absurd h (by decide +kernel)
      | muwave h => exact absurd h (by decide +kernel)) .citi (.citi (by decide +kernel))

example : isMdif "\t VAR freq(real) = 1".toList = true ∧ isTouchstone " # MHZ z RI".toList = true ∧
    isTouchstone "# hz s db r 50".toList = true ∧ isTouchstone "# THz K db".toList = false := by
  decide +kernel

end HF.Readers.Dispatch
