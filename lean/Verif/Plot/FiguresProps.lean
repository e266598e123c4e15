import Verif.Plot.Figures
import Mathlib.Algebra.Module.Basic
import Mathlib.Tactic.Abel
import Mathlib.Tactic.SplitIfs
/-
C109: legends, saving of figures, width and ticks of axes.
-/
namespace HF.Plot.Figures

/-! ### Specification -/

/-- The label begins with an underscore. -/
def Hidden (l : Line) : Prop := ∃ rest, l.label.toList = '_' :: rest

/-- `.pdf` in capital or small letters. -/
def IsPdf (e : List Char) : Prop :=
  ∃ p d f, e = ['.', p, d, f] ∧ (p = 'p' ∨ p = 'P') ∧ (d = 'd' ∨ d = 'D') ∧ (f = 'f' ∨ f = 'F')

/-- The name of a file: a directory, something that is not only dots, and `.pdf`. -/
def PdfName (name : List Char) : Prop :=
  ∃ dir stem e, name = dir ++ stem ++ e ∧ IsPdf e ∧ '/' ∉ stem ∧ (∃ c ∈ stem, c ≠ '.') ∧
    (dir = [] ∨ ∃ d, dir = d ++ ['/'])

/-! ### Helpers -/

theorem underscored_iff (l : Line) : underscored l.label = true ↔ Hidden l := by
  unfold underscored Hidden
  cases l.label.toList with
  | nil => simp
  | cons c t =>
    constructor
    · intro h
      split at h
      · rename_i h'; exact ⟨t, by rw [(List.cons.inj h').1]⟩
      · cases h
    · rintro ⟨r, hr⟩
      rw [(List.cons.inj hr).1]
      rfl

theorem legendAxes_eq (ls : List Line) (acc : List Line × List String) :
    legendAxes ls acc = (acc.1 ++ ls.filter (fun l => !underscored l.label),
      acc.2 ++ (ls.filter fun l => !underscored l.label).map Line.label) := by
  induction ls generalizing acc with
  | nil => simp [legendAxes]
  | cons l t ih =>
    obtain ⟨a, b⟩ := acc
    unfold legendAxes
    by_cases h : underscored l.label = true
    · rw [if_pos h, ih]; simp [h]
    · rw [if_neg h, ih]; simp [h]

theorem legend_eq (axes : List (List Line)) (acc : List Line × List String) :
    axes.foldl (fun acc ax => legendAxes ax acc) acc = (acc.1 ++ axes.flatten.filter (fun l => !underscored l.label),
      acc.2 ++ (axes.flatten.filter fun l => !underscored l.label).map Line.label) := by
  induction axes generalizing acc with
  | nil => simp
  | cons a t ih =>
    rw [List.foldl_cons, ih, legendAxes_eq]
    simp

theorem takeWhile_append_stop {α : Type} {p : α → Bool} {a : α} {l r : List α} (h : ∀ x ∈ l, p x = true)
    (ha : p a = false) : (l ++ a :: r).takeWhile p = l := by
  induction l with
  | nil => simp [ha]
  | cons x t ih =>
    simp only [List.cons_append, List.takeWhile_cons, h x (by simp), if_true]
    rw [ih fun y hy => h y (by simp [hy])]

theorem takeWhile_all {α : Type} {p : α → Bool} {l : List α} (h : ∀ x ∈ l, p x = true) : l.takeWhile p = l := by
  induction l with
  | nil => rfl
  | cons x t ih =>
    simp only [List.takeWhile_cons, h x (by simp), if_true]
    rw [ih fun y hy => h y (by simp [hy])]

/-- The last component of a name. -/
theorem last_component {dir base : List Char} (hb : '/' ∉ base) (hd : dir = [] ∨ ∃ d, dir = d ++ ['/']) :
    ((dir ++ base).reverse.takeWhile (· ≠ '/')).reverse = base := by
  have hall : ∀ x ∈ base.reverse, decide (x ≠ '/') = true := by
    intro x hx
    rw [decide_eq_true_iff]
    rintro rfl
    exact hb (List.mem_reverse.1 hx)
  rcases hd with rfl | ⟨d, rfl⟩
  · rw [List.nil_append, takeWhile_all hall, List.reverse_reverse]
  · rw [List.reverse_append, List.reverse_append]
    show ((base.reverse ++ '/' :: d.reverse).takeWhile _).reverse = _
    rw [takeWhile_append_stop hall (by decide), List.reverse_reverse]

/-- Every name has a directory and a last component. -/
theorem split_name (sep : Char) (name : List Char) : ∃ dir base, name = dir ++ base ∧ sep ∉ base ∧
    (dir = [] ∨ ∃ d, dir = d ++ [sep]) := by
  induction name with
  | nil => exact ⟨[], [], rfl, by simp, Or.inl rfl⟩
  | cons c t ih =>
    obtain ⟨dir, base, h1, h2, h3⟩ := ih
    rcases h3 with rfl | ⟨d, rfl⟩
    · by_cases hc : c = sep
      · subst hc
        exact ⟨[c], t, rfl, by rw [h1]; simpa using h2, Or.inr ⟨[], rfl⟩⟩
      · exact ⟨[], c :: t, rfl, by rw [h1]; simp [h2, Ne.symm hc], Or.inl rfl⟩
    · exact ⟨c :: (d ++ [sep]), base, by rw [h1]; rfl, h2, Or.inr ⟨c :: d, rfl⟩⟩

theorem extension_eq {dir stem tail : List Char} (hs : '/' ∉ stem) (ht : '/' ∉ tail) (hdot : '.' ∉ tail)
    (hd : dir = [] ∨ ∃ d, dir = d ++ ['/']) :
    extension (dir ++ (stem ++ '.' :: tail)) = if stem.any (· ≠ '.') then '.' :: tail else [] := by
  unfold extension
  have h1 : '/' ∉ stem ++ '.' :: tail := by
    simp only [List.mem_append, List.mem_cons, not_or]
    exact ⟨hs, by decide, ht⟩
  have h2 : ((stem ++ '.' :: tail).reverse.takeWhile (· ≠ '.')).reverse = tail := by
    rw [show stem ++ '.' :: tail = (stem ++ ['.']) ++ tail by simp, List.reverse_append, List.reverse_append]
    show ((tail.reverse ++ '.' :: stem.reverse).takeWhile _).reverse = _
    rw [takeWhile_append_stop, List.reverse_reverse]
    · intro x hx
      rw [decide_eq_true_iff]
      rintro rfl
      exact hdot (List.mem_reverse.1 hx)
    · decide
  simp only [last_component h1 hd, h2]
  rw [if_pos (by simp)]
  have h3 : (stem ++ '.' :: tail).take ((stem ++ '.' :: tail).length - tail.length - 1) = stem := by
    have : (stem ++ '.' :: tail).length - tail.length - 1 = stem.length := by simp; omega
    rw [this]; simp
  rw [h3]

theorem lowered_iff (c : Char) : (lowered c = 'p' ↔ c = 'p' ∨ c = 'P') ∧ (lowered c = 'd' ↔ c = 'd' ∨ c = 'D') ∧
    (lowered c = 'f' ↔ c = 'f' ∨ c = 'F') ∧ (lowered c = '.' ↔ c = '.') := by
  by_cases h : 'A' ≤ c ∧ c ≤ 'Z'
  · have hn : 65 ≤ c.toNat ∧ c.toNat ≤ 90 := ⟨h.1, h.2⟩
    have key : ∀ n, 65 ≤ n → n ≤ 90 → ((lowered (Char.ofNat n) = 'p' ↔ Char.ofNat n = 'p' ∨ Char.ofNat n = 'P') ∧
      (lowered (Char.ofNat n) = 'd' ↔ Char.ofNat n = 'd' ∨ Char.ofNat n = 'D') ∧
      (lowered (Char.ofNat n) = 'f' ↔ Char.ofNat n = 'f' ∨ Char.ofNat n = 'F') ∧
      (lowered (Char.ofNat n) = '.' ↔ Char.ofNat n = '.')) := by
      intro n h1 h2
      have : ∀ n : Fin 91, 65 ≤ n.1 → ((lowered (Char.ofNat n) = 'p' ↔ Char.ofNat n = 'p' ∨ Char.ofNat n = 'P') ∧
      (lowered (Char.ofNat n) = 'd' ↔ Char.ofNat n = 'd' ∨ Char.ofNat n = 'D') ∧
      (lowered (Char.ofNat n) = 'f' ↔ Char.ofNat n = 'f' ∨ Char.ofNat n = 'F') ∧
      (lowered (Char.ofNat n) = '.' ↔ Char.ofNat n = '.')) := by decide +kernel
      exact this ⟨n, by omega⟩ h1
    have := key c.toNat hn.1 hn.2
    rwa [Char.ofNat_toNat] at this
  · have e : lowered c = c := by unfold lowered; rw [if_neg h]
    rw [e]
    have big : ∀ x ∈ ['P', 'D', 'F'], c ≠ x := by
      rintro x hx rfl
      apply h
      have : ∀ x ∈ ['P', 'D', 'F'], 'A' ≤ x ∧ x ≤ 'Z' := by decide
      exact this c hx
    refine ⟨⟨Or.inl, ?_⟩, ⟨Or.inl, ?_⟩, ⟨Or.inl, ?_⟩, Iff.rfl⟩ <;> rintro (h | h)
    · exact h
    · exact absurd h (big _ (by simp))
    · exact h
    · exact absurd h (big _ (by simp))
    · exact h
    · exact absurd h (big _ (by simp))

theorem isPdf_iff (e : List Char) : e.map lowered = ['.', 'p', 'd', 'f'] ↔ IsPdf e := by
  constructor
  · intro h
    have hl : e.length = 4 := by simpa using congrArg List.length h
    match e, hl with
    | [a, p, d, f], _ =>
      simp only [List.map_cons, List.map_nil, List.cons.injEq, and_true] at h
      obtain ⟨h1, h2, h3, h4⟩ := h
      rw [(lowered_iff a).2.2.2] at h1
      exact ⟨p, d, f, by rw [h1], (lowered_iff p).1.1 h2, (lowered_iff d).2.1.1 h3, (lowered_iff f).2.2.1.1 h4⟩
  · rintro ⟨p, d, f, rfl, hp, hd, hf⟩
    simp only [List.map_cons, List.map_nil, List.cons.injEq, and_true]
    exact ⟨rfl, (lowered_iff p).1.2 hp, (lowered_iff d).2.1.2 hd, (lowered_iff f).2.2.1.2 hf⟩

theorem pdfName_iff (name : List Char) : (extension name).map lowered = ['.', 'p', 'd', 'f'] ↔ PdfName name := by
  rw [isPdf_iff]
  constructor
  · intro h
    obtain ⟨dir, base, rfl, hb, hd⟩ := split_name '/' name
    obtain ⟨st, tail, rfl, ht, hs⟩ := split_name '.' base
    rcases hs with rfl | ⟨stem, rfl⟩
    · exfalso
      simp only [List.nil_append] at hb ht h
      unfold extension at h
      rw [last_component hb hd] at h
      simp only [if_neg ht] at h
      obtain ⟨p, d, f, h, -⟩ := h
      cases h
    · simp only [List.mem_append, List.mem_cons, not_or] at hb
      rw [show dir ++ (stem ++ ['.'] ++ tail) = dir ++ (stem ++ '.' :: tail) by simp,
        extension_eq hb.1.1 hb.2 ht hd] at h
      split at h
      · rename_i ha
        refine ⟨dir, stem, '.' :: tail, by simp, h, hb.1.1, ?_, hd⟩
        simpa using ha
      · obtain ⟨p, d, f, h, -⟩ := h
        cases h
  · rintro ⟨dir, stem, e, rfl, he, hs, ⟨c, hc, hne⟩, hd⟩
    have he' := he
    obtain ⟨p, d, f, rfl, hp, hdd, hf⟩ := he'
    have no : ∀ x ∈ [p, d, f], x ≠ '.' ∧ x ≠ '/' := by
      rcases hp with rfl | rfl <;> rcases hdd with rfl | rfl <;> rcases hf with rfl | rfl <;> decide
    rw [List.append_assoc, extension_eq hs (fun h => (no _ h).2 rfl) (fun h => (no _ h).1 rfl) hd,
      if_pos (by simpa using ⟨c, hc, hne⟩)]
    exact he

theorem writePages_ok {fails : Fig → Bool} {l done : List Fig} (h : ∀ f ∈ l, fails f = false) :
    writePages fails l done = (⟨done ++ l, true⟩, true) := by
  induction l generalizing done with
  | nil => simp [writePages]
  | cons f t ih =>
    unfold writePages
    rw [h f (by simp), ih fun g hg => h g (by simp [hg])]
    simp

theorem writePages_fail {fails : Fig → Bool} {a b done : List Fig} {f : Fig} (h : ∀ g ∈ a, fails g = false)
    (hf : fails f = true) : writePages fails (a ++ f :: b) done = (⟨done ++ a, false⟩, false) := by
  induction a generalizing done with
  | nil => simp [writePages, hf]
  | cons g t ih =>
    simp only [List.cons_append]
    unfold writePages
    rw [h g (by simp), ih fun g hg => h g (by simp [hg])]
    simp

theorem allFigures_sorted (figs : List Fig) (hd : (figs.map Fig.num).Nodup) :
    (allFigures figs).Perm figs ∧ (allFigures figs).Pairwise fun a b => a.num < b.num := by
  have hp := Py.sortBy_perm (fun a b : Fig => decide (a.num < b.num)) figs
  refine ⟨hp, ?_⟩
  have h1 : (allFigures figs).Pairwise fun x y => decide (y.num < x.num) = false :=
    Py.sortBy_sorted (by simp; intros; omega) (by simp; intros; omega)
  have h2 : ((allFigures figs).map Fig.num).Nodup := (hp.map _).nodup_iff.2 hd
  rw [List.Nodup, List.pairwise_map] at h2
  refine (h1.and h2).imp ?_
  rintro a b ⟨h3, h4⟩
  simp only [decide_eq_false_iff_not] at h3
  have : a.num ≠ b.num := h4
  omega

/-! ### Properties -/

/-- C109.  The legend lists, in the order of the axes and of their lines, exactly the lines whose labels
do not begin with an underscore, and with every line its own label. -/
theorem C109_legend (axes : List (List Line)) :
    (∀ l, l ∈ (buildFiglegend axes).1 ↔ (∃ ax ∈ axes, l ∈ ax) ∧ ¬ Hidden l) ∧
    (buildFiglegend axes).1.Sublist axes.flatten ∧
    (∀ l, ¬ Hidden l → (buildFiglegend axes).1.count l = axes.flatten.count l) ∧
    (buildFiglegend axes).2 = (buildFiglegend axes).1.map Line.label := by
  unfold buildFiglegend
  rw [legend_eq]
  simp only [List.nil_append]
  refine ⟨fun l => ?_, List.filter_sublist, fun l hl => ?_, trivial⟩
  · rw [List.mem_filter, List.mem_flatten, ← underscored_iff]
    simp
  · rw [List.count_filter]
    rw [← underscored_iff] at hl
    simpa using hl

/-- C109.  After saving, the transparency of the figure is what it was; the file was written with a
transparent face if that was asked for, otherwise with the transparency of the figure. -/
theorem C109_save {α ε : Type} (zero alpha : α) (transparent : Bool) :
    (savefig (ε := ε) zero transparent none alpha).after = alpha ∧
    (savefig (ε := ε) zero transparent none alpha).written = .ok (if transparent then zero else alpha) := by
  cases transparent <;> exact ⟨rfl, rfl⟩

/-- C109 is false if the file can not be written: the figure on the screen stays transparent. -/
theorem C109_save_refuted {α ε : Type} (zero alpha : α) (e : ε) (h : alpha ≠ zero) :
    (savefig zero true (some e) alpha).written = .error e ∧ (savefig zero true (some e) alpha).after ≠ alpha ∧
    (savefig zero false (some e) alpha).after = alpha :=
  ⟨rfl, fun h' => h h'.symm, rfl⟩

/-- C109.  All open figures are written, one page for each, in the order of their numbers, and the file
is finished. -/
theorem C109_pdf (fails : Fig → Bool) (name : List Char) (figs : List Fig) (hn : PdfName name)
    (hd : (figs.map Fig.num).Nodup) (hf : ∀ f ∈ figs, fails f = false) :
    ∃ pages, savePdf fails name figs = (some ⟨pages, true⟩, true) ∧ pages.Perm figs ∧
      pages.Pairwise fun a b => a.num < b.num := by
  obtain ⟨h1, h2⟩ := allFigures_sorted figs hd
  refine ⟨allFigures figs, ?_, h1, h2⟩
  unfold savePdf
  rw [if_neg (not_not.2 ((pdfName_iff name).2 hn)), writePages_ok fun f h => hf f (h1.mem_iff.1 h)]
  rfl

/-- C109.  Other names are refused before anything is written. -/
theorem C109_name (fails : Fig → Bool) (name : List Char) (figs : List Fig) :
    savePdf fails name figs = (none, false) ↔ ¬ PdfName name := by
  unfold savePdf
  rw [← pdfName_iff]
  split
  · rename_i h; simp [h]
  · rename_i h; simp only [ne_eq, not_not] at h; simp [h]

/-- C109 is false if one of the figures can not be drawn: the pages before it are written, the pages
after it are missing and the file is not finished. -/
theorem C109_unfinished_refuted (fails : Fig → Bool) (name : List Char) (figs : List Fig) (hn : PdfName name)
    (hd : (figs.map Fig.num).Nodup) (f : Fig) (hm : f ∈ figs) (hf : fails f = true)
    (ho : ∀ g ∈ figs, g ≠ f → fails g = false) :
    ∃ pages, savePdf fails name figs = (some ⟨pages, false⟩, false) ∧
      ∀ g, g ∈ pages ↔ g ∈ figs ∧ g.num < f.num := by
  obtain ⟨h1, h2⟩ := allFigures_sorted figs hd
  obtain ⟨a, b, hab⟩ := List.append_of_mem (h1.mem_iff.2 hm)
  rw [hab, List.pairwise_append, List.pairwise_cons] at h2
  have ha : ∀ g ∈ a, g.num < f.num := fun g hg => h2.2.2 g hg f (by simp)
  have hb : ∀ g ∈ b, f.num < g.num := h2.2.1.1
  refine ⟨a, ?_, fun g => ⟨fun hg => ⟨h1.mem_iff.1 (by rw [hab]; simp [hg]), ha g hg⟩, ?_⟩⟩
  · unfold savePdf
    rw [if_neg (not_not.2 ((pdfName_iff name).2 hn)), hab, writePages_fail (fun g hg => ?_) hf]
    · rfl
    · refine ho g (h1.mem_iff.1 (by rw [hab]; simp [hg])) ?_
      rintro rfl
      exact absurd (ha g hg) (by omega)
  · rintro ⟨hg, hlt⟩
    have := h1.mem_iff.2 hg
    rw [hab] at this
    rcases List.mem_append.1 this with h | h
    · exact h
    · rcases List.mem_cons.1 h with rfl | h
      · omega
      · have := hb g h; omega

/-- C109.  Every one of the axes gets wider by `dw` as many times as it is listed, at its right edge; the
others stay as they are. -/
theorem C109_width {R : Type} [AddCommGroup R] (dw : R) (axes : List Nat) (pos : Nat → Box R) (k : Nat) :
    (adjustAxwidth dw axes pos k).x0 = (pos k).x0 ∧ (adjustAxwidth dw axes pos k).y0 = (pos k).y0 ∧
    (adjustAxwidth dw axes pos k).y1 = (pos k).y1 ∧
    (adjustAxwidth dw axes pos k).x1 = (pos k).x1 + axes.count k • dw := by
  unfold adjustAxwidth
  induction axes generalizing pos with
  | nil => simp
  | cons a t ih =>
    obtain ⟨h1, h2, h3, h4⟩ := ih fun k => if k = a then { pos a with x1 := (pos a).x1 + dw } else pos k
    rw [List.foldl_cons, h1, h2, h3, h4]
    by_cases h : k = a
    · subst h
      simp only [if_true, List.count_cons_self, succ_nsmul]
      exact ⟨trivial, trivial, trivial, by abel⟩
    · simp [h, Ne.symm h]

/-- C109.  Taking the change back gives the positions there were. -/
theorem C109_width_back {R : Type} [AddCommGroup R] (dw : R) (axes : List Nat) (pos : Nat → Box R) :
    adjustAxwidth (-dw) axes (adjustAxwidth dw axes pos) = pos := by
  funext k
  have h1 := C109_width (-dw) axes (adjustAxwidth dw axes pos) k
  have h2 := C109_width dw axes pos k
  have e : ∀ a b : Box R, a.x0 = b.x0 → a.y0 = b.y0 → a.x1 = b.x1 → a.y1 = b.y1 → a = b := by
    rintro ⟨a, b, c, d⟩ ⟨a', b', c', d'⟩ h1 h2 h3 h4
    simp only at h1 h2 h3 h4
    rw [h1, h2, h3, h4]
  apply e
  · rw [h1.1, h2.1]
  · rw [h1.2.1, h2.2.1]
  · rw [h1.2.2.2, h2.2.2.2]; simp
  · rw [h1.2.2.1, h2.2.2.1]

/-- C109.  Ticks of the x axis: those listed get the distances asked for, nothing else changes. -/
theorem C109_xtick {R : Type} (major minor : R) (axes : List Nat) (t : Nat → Ticks R) (k : Nat) :
    setXtick major minor axes t k = if k ∈ axes then ⟨major, minor, (t k).ymajor, (t k).yminor⟩ else t k := by
  unfold setXtick
  induction axes generalizing t with
  | nil => simp
  | cons a s ih =>
    rw [List.foldl_cons, ih]
    by_cases h : k = a
    · subst h; simp
    · simp [h]

/-- C109.  The same for the y axis. -/
theorem C109_ytick {R : Type} (major minor : R) (axes : List Nat) (t : Nat → Ticks R) (k : Nat) :
    setYtick major minor axes t k = if k ∈ axes then ⟨(t k).xmajor, (t k).xminor, major, minor⟩ else t k := by
  unfold setYtick
  induction axes generalizing t with
  | nil => simp
  | cons a s ih =>
    rw [List.foldl_cons, ih]
    by_cases h : k = a
    · subst h; simp
    · simp [h]

/-! ### Examples -/

example : buildFiglegend [[⟨1, "gain"⟩, ⟨2, "_child0"⟩], [⟨3, "noise"⟩, ⟨4, ""⟩]] =
    ([⟨1, "gain"⟩, ⟨3, "noise"⟩, ⟨4, ""⟩], ["gain", "noise", ""]) := by decide +kernel

example : PdfName "out.d/all.figures.PDF".toList :=
  ⟨"out.d/".toList, "all.figures".toList, ".PDF".toList, by decide +kernel, ⟨'P', 'D', 'F', by decide +kernel, by decide, by decide, by decide⟩,
    by decide +kernel, ⟨'a', by decide +kernel, by decide⟩, Or.inr ⟨"out.d".toList, by decide +kernel⟩⟩

/-- `.pdf` alone is a hidden file without an extension. -/
example : ¬ PdfName ".pdf".toList := by
  rw [← pdfName_iff]; decide +kernel

/-- Three figures, the second of which can not be drawn. -/
example : savePdf (fun f => f.id = 7) "a.pdf".toList [⟨3, 5⟩, ⟨1, 6⟩, ⟨2, 7⟩] = (some ⟨[⟨1, 6⟩], false⟩, false) ∧
    (([⟨3, 5⟩, ⟨1, 6⟩, ⟨2, 7⟩] : List Fig).map Fig.num).Nodup := by decide +kernel

end HF.Plot.Figures
