import Verif.Citi.Steps
import Verif.Citi.Props
/-
What a saved CITI file says.
-/
namespace HF.Citi

open Units (isWs strip)
open Text DataBlock
open HF.DataDict.Spec

/-- The sweep written for a dimension. -/
def sweepOf (env : Env) (d : Dim Cplx) : Sweep :=
  ⟨d.name.toList, ['M', 'A', 'G'], env.fmtNat d.data.length, .list (d.data.map fun z => env.fmt z.1), d.data⟩

/-- The data written for a column. -/
def dataOf (env : Env) (c : Col) : Data := ⟨c.name, typeOf c.cplx, (flat c.arr).map (fmtDatum env c.cplx)⟩

/-- The content of a saved file. -/
def saved (env : Env) (name : List Char) (comments : List (List Char)) (D : List (Dim Cplx)) (cols : List Col) : Content where
  c1 := []
  version := true
  c2 := comments.map asRead
  name := strip name
  c3 := []
  sweeps := D.map (sweepOf env)
  c4 := []
  data := cols.map (dataOf env)
  c5 := []
  c6 := []

theorem says_of {l : List Char} {it : Item} (h : Says' l it) : Says l it := Says.text [] l it (by intro c hc; simp at hc) h

theorem says_num {env : Env} {x : ℚ} (h : Survives env x) (t : List Char) : Says (env.fmt x ++ t) (.number (env.fmt x ++ t)) := by
  obtain ⟨c, r, h1, h2⟩ := h.first
  rw [h1]
  have hc : c ∈ "-.0123456789eE".toList := by
    rcases h2 with h2 | rfl | rfl
    · exact dig_mem c h2
    · decide +kernel
    · decide +kernel
  refine says_of (Says'.number c (r ++ t) hc ?_)
  rintro ⟨u, hu⟩
  have : c = 'E' := by
    have := congrArg List.head? hu
    simpa [kwEND] using this.symm
  subst this
  rcases h2 with h2 | h2 | h2 <;> revert h2 <;> decide

theorem datum_says {env : Env} {c : Bool} {z : Cplx} (h1 : Survives env z.1) (h2 : c = true → Survives env z.2) :
    Says (fmtDatum env c z) (.number (fmtDatum env c z)) := by
  unfold fmtDatum
  cases c with
  | false => simpa using says_num h1 []
  | true => simpa using says_num h1 (',' :: env.fmt z.2)

theorem trim_survives {env : Env} {x y : ℚ} (hx : Survives env x) (hy : Survives env y) :
    Trim (env.fmt x ++ ',' :: env.fmt y) (env.fmt x ++ ',' :: env.fmt y) := by
  refine ⟨[], [], by simp, by intro c hc; simp at hc, by intro c hc; simp at hc, ?_, ?_⟩
  · obtain ⟨c, r, h1, h2⟩ := hx.first
    rw [h1]
    intro c' hc'
    simp only [List.cons_append, List.head?_cons, Option.mem_some] at hc'
    subst hc'
    have hc : c ∈ "-.0123456789eE".toList := by
      rcases h2 with h2 | rfl | rfl
      · exact dig_mem c h2
      · decide +kernel
      · decide +kernel
    exact (data_chars c hc).1
  · obtain ⟨c, r, h1, -⟩ := hy.first
    intro c' hc'
    refine hy.last c' ?_
    rw [List.getLast?_append] at hc'
    rw [h1] at hc' ⊢
    simpa using hc'

theorem datum_says_number {env : Env} {c : Bool} {z : Cplx} (h1 : Survives env z.1) (h2 : c = true → Survives env z.2)
    (h3 : c = false → z.2 = 0) : Number env (typeOf c) (fmtDatum env c z) z := by
  unfold fmtDatum typeOf
  cases c with
  | false =>
    have := Number.mag (env := env) (env.fmt z.1) z.1 h1.same
    rw [show z = (z.1, 0) from Prod.ext rfl (h3 rfl)]
    exact this
  | true => exact Number.ri _ (env.fmt z.1) (env.fmt z.2) z.1 z.2 (trim_survives h1 (h2 rfl)) h1.noComma (h2 rfl).noComma h1.same (h2 rfl).same

/-- A number written says one thing. -/
theorem number_unique {env : Env} {typ t : List Char} {z w : Cplx} (h : Number env typ t z) (h' : Number env typ t w) : z = w := by
  have h1 := number_ok env typ t z h
  have h2 := number_ok env typ t w h'
  rw [h1] at h2
  exact Except.ok.inj h2

theorem forall₂_append {γ δ : Type} {R : γ → δ → Prop} {a b : List γ} {c d : List δ} (h : List.Forall₂ R a c)
    (h' : List.Forall₂ R b d) : List.Forall₂ R (a ++ b) (c ++ d) := List.rel_append h h'

theorem forall₂_maps {γ δ ε : Type} {R : γ → δ → Prop} (l : List ε) (f : ε → γ) (g : ε → δ) (h : ∀ x ∈ l, R (f x) (g x)) :
    List.Forall₂ R (l.map f) (l.map g) := by
  induction l with
  | nil => exact .nil
  | cons x l ih => exact .cons (h x (by simp)) (ih fun y hy => h y (by simp [hy]))

theorem forall₂_flatMaps {γ δ ε : Type} {R : γ → δ → Prop} (l : List ε) (f : ε → List γ) (g : ε → List δ)
    (h : ∀ x ∈ l, List.Forall₂ R (f x) (g x)) : List.Forall₂ R (l.flatMap f) (l.flatMap g) := by
  induction l with
  | nil => exact .nil
  | cons x l ih =>
    rw [List.flatMap_cons, List.flatMap_cons]
    exact forall₂_append (h x (by simp)) (ih fun y hy => h y (by simp [hy]))

/-- The lines of a saved file say what was saved. -/
theorem saved_says {env : Env} (hn : NatSurvives env) (name : List Char) (comments : List (List Char))
    (D : List (Dim Cplx)) (cols : List Col) (hD : GoodSweeps env D) (hw : ∀ c ∈ cols, IsWord c.name)
    (hc : ∀ c ∈ cols, GoodCol env D c) :
    List.Forall₂ Says (format env name comments (D.map fun d => (d.name, d)) cols) (saved env name comments D cols).items := by
  unfold format Content.items saved
  simp only [List.map_nil, List.nil_append, if_true, List.append_assoc, List.cons_append, List.flatMap_map, List.map_map]
  refine .cons ?_ (forall₂_append ?_ (.cons ?_ (forall₂_append ?_ (forall₂_append ?_ (forall₂_append ?_ ?_)))))
  · exact says_of (Says'.version [' ', 'A', '.', '0', '1', '.', '0', '1'])
  · refine forall₂_maps _ _ _ fun c _ => ?_
    exact says_of (Says'.exclam _ _ (strip_trim _))
  · have h := strip_trim (' ' :: name)
    rw [strip_sp] at h
    exact says_of (Says'.name (' ' :: name) _ h)
  · refine forall₂_maps _ _ _ fun d hd => ?_
    have hws : ∀ f ∈ [d.name.toList, ['M', 'A', 'G'], env.fmtNat d.data.length], IsWord f := by
      intro f hf
      simp at hf
      rcases hf with rfl | rfl | rfl
      · exact hD.word d hd
      · exact ⟨by simp, by decide⟩
      · exact (hn _).1
    have hsp := (words_iff _ _).1 (words_join ' ' (by decide) _ hws)
    have := says_of (Says'.var _ _ hsp)
    simpa [kwVAR, join, sweepOf] using this
  · refine forall₂_maps _ _ _ fun c hcm => ?_
    have hws : ∀ f ∈ [c.name, typeOf c.cplx], IsWord f := by
      intro f hf
      simp at hf
      rcases hf with rfl | rfl
      · exact hw c hcm
      · unfold typeOf
        split
        · exact ⟨by simp, by decide⟩
        · exact ⟨by simp, by decide⟩
    have hsp : Spaced (' ' :: join ' ' [c.name, typeOf c.cplx]) [c.name, typeOf c.cplx] := by
      rw [← words_iff]
      have := words_blank [' '] (join ' ' [c.name, typeOf c.cplx]) (by intro x hx; simp at hx; subst hx; decide)
      rw [List.singleton_append] at this
      rw [this, words_join ' ' (by decide) _ hws]
    have := says_of (Says'.data _ _ hsp)
    simpa [kwDATA, join, dataOf] using this
  · refine forall₂_flatMaps _ _ _ fun d hd => ?_
    refine .cons (says_of (Says'.varBegin [])) (forall₂_append ?_ (.cons (says_of (Says'.varEnd [])) .nil))
    simp only [sweepOf, List.map_map]
    refine forall₂_maps _ _ _ fun z hz => ?_
    simpa using says_num (hD.values d hd z hz).1 []
  · refine forall₂_flatMaps _ _ _ fun c hcm => ?_
    refine .cons (says_of (Says'.begin_ [])) (forall₂_append ?_ (.cons (says_of (Says'.end_ [])) .nil))
    simp only [dataOf, List.map_map]
    refine forall₂_maps _ _ _ fun z hz => ?_
    obtain ⟨h1, h2, -⟩ := (hc c hcm).values z hz
    exact datum_says h1 h2

theorem items_shown (env : Env) (name : List Char) (comments : List (List Char)) (D : List (Dim Cplx)) (cols : List Col) :
    (saved env name comments D cols).items.filter Item.shown = (saved env name comments D cols).items ++ [] := by
  rw [List.append_nil, List.filter_eq_self]
  intro it hit
  simp only [Content.items, saved, List.map_nil, List.nil_append, if_true, List.map_map, List.mem_append, List.mem_cons,
    List.mem_map, List.mem_flatMap, List.not_mem_nil, or_false] at hit
  rcases hit with rfl | ⟨_, _, rfl⟩ | rfl | ⟨_, _, rfl⟩ | ⟨_, _, rfl⟩ | ⟨v, ⟨d, _, rfl⟩, h⟩ | ⟨v, ⟨d, _, rfl⟩, h⟩
  · rfl
  · rfl
  · rfl
  · rfl
  · rfl
  · simp only [Sweep.items, sweepOf, List.mem_cons, List.mem_append, List.mem_map, List.not_mem_nil, or_false] at h
    rcases h with rfl | ⟨_, _, rfl⟩ | rfl <;> rfl
  · simp only [Data.items, List.mem_cons, List.mem_append, List.mem_map, List.not_mem_nil, or_false] at h
    rcases h with rfl | ⟨_, _, rfl⟩ | rfl <;> rfl

theorem saved_head {env : Env} (hn : NatSurvives env) (name : List Char) (comments : List (List Char))
    (D : List (Dim Cplx)) (cols : List Col) (hD : GoodSweeps env D) (hne : cols ≠ []) :
    (saved env name comments D cols).Head env := by
  refine ⟨by simp [saved], by simp [saved], by simpa [saved] using hne, ?_, ?_⟩
  · simp only [saved, List.map_map]
    have : (D.map (Sweep.name ∘ sweepOf env)) = (D.map Dim.name).map String.toList := by simp [sweepOf, Function.comp_def]
    rw [this]
    refine hD.nodup.map fun a b e => ?_
    exact String.toList_injective e
  · intro v hv
    simp only [saved, List.mem_map] at hv
    obtain ⟨d, hd, rfl⟩ := hv
    refine ⟨?_, Or.inl rfl, ?_⟩
    · show (env.parseNat (env.fmtNat _)).isSome = true
      rw [(hn _).2]
      rfl
    · show List.Forall₂ (Number env ['M', 'A', 'G']) (d.data.map fun z => env.fmt z.1) d.data
      have := forall₂_maps (R := Number env ['M', 'A', 'G']) d.data (fun z => env.fmt z.1) id (by
        intro z hz
        obtain ⟨h1, h2⟩ := hD.values d hd z hz
        have := Number.mag (env := env) (env.fmt z.1) z.1 h1.same
        rw [show id z = (z.1, 0) from Prod.ext rfl h2]
        exact this)
      simpa using this

theorem saved_data {env : Env} (name : List Char) (comments : List (List Char)) (D : List (Dim Cplx)) (cols : List Col)
    (hc : ∀ c ∈ cols, GoodCol env D c) :
    ∀ d ∈ (saved env name comments D cols).data, d.Ok env (saved env name comments D cols).size := by
  intro d hd
  simp only [saved, List.mem_map] at hd
  obtain ⟨c, hcm, rfl⟩ := hd
  refine ⟨?_, ?_, ?_⟩
  · unfold dataOf typeOf
    cases c.cplx
    · exact Or.inl rfl
    · exact Or.inr (Or.inl rfl)
  · intro t ht
    simp only [dataOf, List.mem_map] at ht
    obtain ⟨z, hz, rfl⟩ := ht
    obtain ⟨h1, h2, h3⟩ := (hc c hcm).values z hz
    exact ⟨z, datum_says_number h1 h2 h3⟩
  · simp only [dataOf, List.length_map, flat, List.length_range, Content.size, saved, List.map_map]
    rw [(hc c hcm).shape, size_prod]
    rfl

theorem saved_kept (env : Env) (name : List Char) (comments : List (List Char)) (D : List (Dim Cplx)) (cols : List Col)
    (ht : NoTime comments) : List.Forall₂ Kept (saved env name comments D cols).comments (comments.map asRead) := by
  simp only [Content.comments, saved, List.nil_append, List.append_nil]
  exact forall₂_maps comments asRead asRead fun c hc => Kept.same _ (ht c hc)

theorem saved_names (env : Env) (name : List Char) (comments : List (List Char)) (D : List (Dim Cplx)) (cols : List Col)
    (hN : GoodNames D (cols.map Col.name)) : (saved env name comments D cols).Names := by
  have e1 : (saved env name comments D cols).data.map Data.name = cols.map Col.name := by
    simp only [saved, List.map_map]
    rfl
  refine ⟨by rw [e1]; exact hN.nodup, ?_, ?_⟩
  · intro d hd hm
    have : d.name ∈ cols.map Col.name := by rw [← e1]; exact List.mem_map_of_mem hd
    refine hN.sweeps d.name this ?_
    simp only [saved, List.map_map, List.mem_map, Function.comp] at hm
    obtain ⟨x, hx, e⟩ := hm
    refine List.mem_map.2 ⟨x, hx, ?_⟩
    rw [← e]
    simp [sweepOf]
  · intro d hd m i j hm
    rw [e1]
    exact hN.elems d.name (by rw [← e1]; exact List.mem_map_of_mem hd) m i j hm

end HF.Citi
