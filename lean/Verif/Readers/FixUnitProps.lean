import Verif.Readers.FixUnit
import Verif.Readers.NormalizeProps
import Verif.Readers.ComplexLemmas
import Verif.Units.Props
import Verif.DataBlock.ConvertProps
/-
C57: the unit in the title of a column.
-/
namespace HF.Readers.FixUnit

open HF.DataBlock
open HF.DataDict.Spec
open HF.DataDict hiding rename delitem
open HF.Readers.Normalize (Label label varView dimView vnames dnames WF swap swap_nodup vnames_view dnames_view)

variable {β α : Type}

/-! ### Titles -/

/-- `t` is the name `n` followed by the unit `u` in brackets; the closing bracket may be missing or be
repeated, blanks before the opening one do not belong to the name. -/
structure Entitled (t n u : List Char) : Prop where
  text : ∃ (ws nl : List Char) (k : Nat), t = n ++ (ws ++ '[' :: (u ++ (List.replicate k ']' ++ nl))) ∧
    (∀ c ∈ ws, c = ' ' ∨ c = '\t') ∧ (nl = [] ∨ nl = ['\n'])
  name : (∀ c ∈ n, c ≠ '\n') ∧ ∀ c, n.getLast? = some c → c ≠ ' ' ∧ c ≠ '\t'
  unit : u ≠ [] ∧ ∀ c ∈ u, ('A' ≤ c ∧ c ≤ 'Z') ∨ ('a' ≤ c ∧ c ≤ 'z')

/-- The word `u` stands for `m` times the unit `base`: an SI prefix before one of the known units, or
else a unit of its own. -/
def UnitWord (u : List Char) (m : ℚ) (base : List Char) : Prop :=
  (∃ c e, Units.prefixPower c = some e ∧ Units.BaseUnit base ∧ u = c :: base ∧ m = (10 : ℚ) ^ e) ∨
  ((∀ c e b, Units.prefixPower c = some e → Units.BaseUnit b → u ≠ c :: b) ∧ m = 1 ∧ base = u)

theorem isBlank_iff (c : Char) : isBlank c = true ↔ c = ' ' ∨ c = '\t' := by simp [isBlank]

theorem isAlpha_iff (c : Char) : isAlpha c = true ↔ ('A' ≤ c ∧ c ≤ 'Z') ∨ ('a' ≤ c ∧ c ≤ 'z') := by
  simp [isAlpha]

theorem takeWhile_cut {p : Char → Bool} (a : List Char) (b : List Char) (ha : ∀ c ∈ a, p c = true)
    (hb : ∀ c, b.head? = some c → p c = false) :
    (a ++ b).takeWhile p = a ∧ (a ++ b).dropWhile p = b := by
  induction a with
  | nil =>
    cases b with
    | nil => simp
    | cons c b => simp [hb c rfl]
  | cons c a ih =>
    obtain ⟨h1, h2⟩ := ih fun x hx => ha x (by simp [hx])
    simp [ha c (by simp), h1, h2]

theorem dropWhile_head {p : Char → Bool} (l : List Char) (c : Char) (t : List Char)
    (h : l.dropWhile p = c :: t) : p c = false := by
  induction l with
  | nil => cases h
  | cons a l ih =>
    rw [List.dropWhile_cons] at h
    split at h
    · exact ih h
    · rename_i ha
      cases h
      simpa using ha

theorem unitTail_iff (s u : List Char) : unitTail s = some u ↔
    ∃ k nl, s = u ++ (List.replicate k ']' ++ nl) ∧ (nl = [] ∨ nl = ['\n']) ∧ u ≠ [] ∧
      ∀ c ∈ u, isAlpha c = true := by
  unfold unitTail
  simp only
  constructor
  · intro h
    split at h
    · rename_i hc
      cases h
      refine ⟨((s.dropWhile isAlpha).takeWhile (· = ']')).length,
        (s.dropWhile isAlpha).dropWhile (· = ']'), ?_, hc.2, hc.1, ?_⟩
      · have e : List.replicate ((s.dropWhile isAlpha).takeWhile (· = ']')).length ']'
            = (s.dropWhile isAlpha).takeWhile (· = ']') := by
          symm
          rw [List.eq_replicate_iff]
          refine ⟨rfl, fun c hc => ?_⟩
          simpa using List.mem_takeWhile_imp hc
        rw [e, List.takeWhile_append_dropWhile, List.takeWhile_append_dropWhile]
      · intro c hc'
        exact List.mem_takeWhile_imp hc'
    · cases h
  · rintro ⟨k, nl, rfl, hnl, hu, ha⟩
    have hh : ∀ c, (List.replicate k ']' ++ nl).head? = some c → isAlpha c = false := by
      intro c hc
      cases k with
      | zero =>
        rcases hnl with rfl | rfl
        · simp at hc
        · simp at hc; subst hc; decide
      | succ k => simp [List.replicate_succ] at hc; subst hc; decide
    obtain ⟨h1, h2⟩ := takeWhile_cut u (List.replicate k ']' ++ nl) ha hh
    have h3 : (List.replicate k ']' ++ nl).dropWhile (· = ']') = nl := by
      refine (takeWhile_cut (p := fun c => decide (c = ']')) _ _ ?_ ?_).2
      · intro c hc; simpa using (List.mem_replicate.1 hc).2
      · intro c hc
        rcases hnl with rfl | rfl
        · simp at hc
        · simp at hc; subst hc; decide
    rw [h1, h2, h3, if_pos ⟨hu, hnl⟩]

theorem unitPart_iff (s u : List Char) : unitPart s = some u ↔
    ∃ ws t, s = ws ++ '[' :: t ∧ (∀ c ∈ ws, isBlank c = true) ∧ unitTail t = some u := by
  unfold unitPart
  constructor
  · intro h
    split at h
    · rename_i t ht
      refine ⟨s.takeWhile isBlank, t, ?_, ?_, h⟩
      · rw [← ht, List.takeWhile_append_dropWhile]
      · intro c hc; exact List.mem_takeWhile_imp hc
    · cases h
  · rintro ⟨ws, t, rfl, hw, h⟩
    rw [(takeWhile_cut ws ('[' :: t) hw (by intro c hc; simp at hc; subst hc; decide)).2]
    exact h

/-- No `[` after the one of the unit. -/
theorem unitTail_no_bracket {t u : List Char} (h : unitTail t = some u) : '[' ∉ t := by
  obtain ⟨k, nl, rfl, hnl, -, ha⟩ := (unitTail_iff t u).1 h
  intro hc
  rcases List.mem_append.1 hc with hc | hc
  · exact absurd (ha _ hc) (by decide)
  rcases List.mem_append.1 hc with hc | hc
  · exact absurd (List.mem_replicate.1 hc).2 (by decide)
  · rcases hnl with rfl | rfl <;> simp at hc

/-- The cut at the last `[` is unique. -/
theorem cut_unique {a b t t' : List Char} (h : a ++ '[' :: t = b ++ '[' :: t') (ht : '[' ∉ t)
    (ht' : '[' ∉ t') : a = b ∧ t = t' := by
  induction a generalizing b with
  | nil =>
    cases b with
    | nil => simpa using h
    | cons c b =>
      exfalso
      simp only [List.nil_append, List.cons_append, List.cons.injEq] at h
      exact ht (by rw [h.2]; simp)
  | cons c a ih =>
    cases b with
    | nil =>
      exfalso
      simp only [List.nil_append, List.cons_append, List.cons.injEq] at h
      exact ht' (by rw [← h.2]; simp)
    | cons d b =>
      simp only [List.cons_append, List.cons.injEq] at h
      obtain ⟨h1, h2⟩ := ih h.2
      exact ⟨by rw [h.1, h1], h2⟩

theorem varunit_iff (s n u : List Char) : varunit s = some (n, u) ↔
    ∃ ws t, s = n ++ (ws ++ '[' :: t) ∧ (∀ c ∈ ws, isBlank c = true) ∧ unitTail t = some u ∧
      (∀ c ∈ n, c ≠ '\n') ∧ ∀ c, n.getLast? = some c → isBlank c = false := by
  induction s generalizing n with
  | nil =>
    constructor
    · intro h; cases h
    · rintro ⟨ws, t, h, -⟩; simp at h
  | cons c s ih =>
    unfold varunit
    constructor
    · intro h
      split at h
      · rename_i u' hu'
        cases h
        obtain ⟨ws, t, h1, h2, h3⟩ := (unitPart_iff _ _).1 hu'
        exact ⟨ws, t, by simpa using h1, h2, h3, by simp, by simp⟩
      · rename_i hno
        split at h
        · cases h
        rename_i hc
        obtain ⟨⟨n', u'⟩, h1, h2⟩ := Option.map_eq_some_iff.1 h
        cases h2
        obtain ⟨ws, t, h3, h4, h5, h6, h7⟩ := (ih n').1 h1
        refine ⟨ws, t, by rw [h3]; rfl, h4, h5, ?_, ?_⟩
        · intro x hx
          rcases List.mem_cons.1 hx with rfl | hx
          · exact hc
          · exact h6 x hx
        · intro x hx
          cases n' with
          | nil =>
            simp only [List.getLast?_singleton, Option.some.injEq] at hx
            subst hx
            cases hb : isBlank c with
            | false => rfl
            | true =>
              exfalso
              have := (unitPart_iff (c :: s) u').2 ⟨c :: ws, t, by rw [h3]; rfl, ?_, h5⟩
              · rw [this] at hno; cases hno
              · intro y hy
                rcases List.mem_cons.1 hy with rfl | hy
                · exact hb
                · exact h4 y hy
          | cons a n' => exact h7 x (by simpa using hx)
    · rintro ⟨ws, t, h1, h2, h3, h4, h5⟩
      cases n with
      | nil =>
        have := (unitPart_iff (c :: s) u).2 ⟨ws, t, by simpa using h1, h2, h3⟩
        rw [this]
      | cons a n' =>
        simp only [List.cons_append, List.cons.injEq] at h1
        obtain ⟨rfl, h1⟩ := h1
        have hno : unitPart (c :: s) = none := by
          cases hu : unitPart (c :: s) with
          | none => rfl
          | some u' =>
            exfalso
            obtain ⟨ws', t', g1, g2, g3⟩ := (unitPart_iff _ _).1 hu
            have g4 : (c :: n' ++ ws) ++ '[' :: t = ws' ++ '[' :: t' := by
              rw [← g1, h1]; simp
            obtain ⟨g5, -⟩ := cut_unique g4 (unitTail_no_bracket h3) (unitTail_no_bracket g3)
            have hl := h5 ((c :: n').getLast (by simp)) (List.getLast?_eq_some_getLast _)
            have := g2 ((c :: n').getLast (by simp)) (by
              rw [← g5]; exact List.mem_append_left _ (List.getLast_mem _))
            rw [hl] at this
            cases this
        rw [hno]
        have := (ih n').2 ⟨ws, t, h1, h2, h3, fun x hx => h4 x (by simp [hx]), ?_⟩
        · rw [if_neg (h4 c (by simp)), this]; rfl
        · intro x hx
          refine h5 x ?_
          cases n' with
          | nil => simp at hx
          | cons b n' => simpa using hx

theorem varunit_entitled (s n u : List Char) : varunit s = some (n, u) ↔ Entitled s n u := by
  rw [varunit_iff]
  constructor
  · rintro ⟨ws, t, h1, h2, h3, h4, h5⟩
    obtain ⟨k, nl, h6, h7, h8, h9⟩ := (unitTail_iff _ _).1 h3
    refine ⟨⟨ws, nl, k, by rw [h1, h6], fun c hc => (isBlank_iff c).1 (h2 c hc), h7⟩, ⟨h4, ?_⟩, h8,
      fun c hc => (isAlpha_iff c).1 (h9 c hc)⟩
    intro c hc
    have := h5 c hc
    simpa [isBlank] using this
  · rintro ⟨⟨ws, nl, k, h1, h2, h3⟩, ⟨h4, h5⟩, h6, h7⟩
    refine ⟨ws, _, h1, fun c hc => (isBlank_iff c).2 (h2 c hc), ?_, h4, ?_⟩
    · exact (unitTail_iff _ _).2 ⟨k, nl, rfl, h3, h6, fun c hc => (isAlpha_iff c).2 (h7 c hc)⟩
    · intro c hc
      have := h5 c hc
      simpa [isBlank] using this

theorem alpha_not_ws {c : Char} (h : isAlpha c = true) : Units.isWs c = false := by
  cases hw : Units.isWs c with
  | false => rfl
  | true =>
    exfalso
    unfold Units.isWs at hw
    simp only [Bool.or_eq_true, decide_eq_true_eq] at hw
    rcases hw with ((((rfl | rfl) | rfl) | rfl) | rfl) | rfl <;> exact absurd h (by decide)

theorem unitWord_total (w : List Char) (hw : w ≠ []) (ha : ∀ c ∈ w, isAlpha c = true) :
    ∃ m base, Units.unitToMultiplier w = (m, some base) ∧ UnitWord w m base := by
  by_cases h : ∃ c e b, Units.prefixPower c = some e ∧ Units.BaseUnit b ∧ w = c :: b
  · obtain ⟨c, e, b, h1, h2, rfl⟩ := h
    refine ⟨_, b, by simpa using Units.C17_prefixed [] [] b c e rfl rfl h1 h2, Or.inl ⟨c, e, h1, h2, rfl, rfl⟩⟩
  · have h' : ∀ c e b, Units.prefixPower c = some e → Units.BaseUnit b → w ≠ c :: b :=
      fun c e b h1 h2 h3 => h ⟨c, e, b, h1, h2, h3⟩
    have ht : Units.Trimmed w := by
      refine ⟨fun c hc => alpha_not_ws (ha c ?_), fun c hc => alpha_not_ws (ha c ?_)⟩
      · exact List.mem_of_mem_head? hc
      · exact List.mem_of_mem_getLast? hc
    have hs := Units.strip_trimmed w ht hw
    have hsym : ∀ c, isAlpha c = false → w ≠ [c] := by
      rintro c hc rfl
      rw [ha c (by simp)] at hc
      cases hc
    refine ⟨1, w, ?_, Or.inr ⟨h', rfl, rfl⟩⟩
    have := Units.C17_plain w (by rw [hs]; exact hsym _ (by decide)) (by rw [hs]; exact hsym _ (by decide))
      (by rw [hs]; exact h')
    rwa [hs] at this

theorem UnitWord.unique {w : List Char} {m m' : ℚ} {b b' : List Char} (h : UnitWord w m b)
    (h' : UnitWord w m' b') : m = m' ∧ b = b' := by
  rcases h with ⟨c, e, h1, h2, h3, h4⟩ | ⟨h1, h2, h3⟩ <;>
    rcases h' with ⟨c', e', g1, g2, g3, g4⟩ | ⟨g1, g2, g3⟩
  · rw [h3] at g3
    cases g3
    rw [h1] at g1
    cases g1
    exact ⟨by rw [h4, g4], rfl⟩
  · exact absurd h3 (g1 c e b h1 h2)
  · exact absurd g3 (h1 c' e' b' g1 g2)
  · exact ⟨by rw [h2, g2], by rw [h3, g3]⟩

/-- C57: exactly the titles of this form carry a unit; it gives the factor, and what is before it the
name. -/
theorem C57_title (t n : String) (m : ℚ) (u : Option String) : title t = some (n, m, u) ↔
    ∃ w base, Entitled t.toList n.toList w ∧ UnitWord w m base ∧ u = some (String.ofList base) := by
  unfold title
  constructor
  · intro h
    split at h
    · cases h
    rename_i n' w hw
    have he := (varunit_entitled _ _ _).1 hw
    obtain ⟨m', base, h1, h2⟩ := unitWord_total w he.unit.1 fun c hc => (isAlpha_iff c).2 (he.unit.2 c hc)
    rw [h1] at h
    cases h
    exact ⟨w, base, by simpa using he, h2, rfl⟩
  · rintro ⟨w, base, he, hm, rfl⟩
    rw [(varunit_entitled _ _ _).2 he]
    obtain ⟨m', base', h1, h2⟩ := unitWord_total w he.unit.1 fun c hc => (isAlpha_iff c).2 (he.unit.2 c hc)
    obtain ⟨rfl, rfl⟩ := h2.unique hm
    simp only [h1, Option.map_some]
    rw [String.ofList_toList]

/-! ### Blocks -/

/-- `b'` is `b` with the names replaced by `F`, the data of the variable `k` by `S k`, and the
dimensions by `G`; number and order of variables and dimensions are the same. -/
structure Mapped (F : String → String) (S : String → Nd α → Nd α) (G : Label β → Label β)
    (b b' : Block β α) : Prop where
  vars : varView b' = (varView b).map fun p => (F p.1, S p.1 p.2.1, p.2.2.map G)
  dims : dimView b' = (dimView b).map fun p => (F p.1, G p.2)

theorem Mapped.vnames {F : String → String} {S : String → Nd α → Nd α} {G : Label β → Label β}
    {b b' : Block β α} (h : Mapped F S G b b') : vnames b' = (vnames b).map F := by
  rw [vnames_view, vnames_view, h.vars]; simp [Function.comp_def]

theorem Mapped.dnames {F : String → String} {S : String → Nd α → Nd α} {G : Label β → Label β}
    {b b' : Block β α} (h : Mapped F S G b b') : dnames b' = (dnames b).map F := by
  rw [dnames_view, dnames_view, h.dims]; simp [Function.comp_def]

theorem Mapped.refl (b : Block β α) : Mapped id (fun _ x => x) id b b :=
  ⟨by simp, by simp⟩

theorem Mapped.trans {F F' : String → String} {S S' : String → Nd α → Nd α} {G G' : Label β → Label β}
    {b b' b'' : Block β α} (h : Mapped F S G b b') (h' : Mapped F' S' G' b' b'') :
    Mapped (F' ∘ F) (fun k x => S' (F k) (S k x)) (G' ∘ G) b b'' := by
  refine ⟨?_, ?_⟩
  · rw [h'.vars, h.vars, List.map_map]
    refine List.map_congr_left fun p _ => ?_
    simp [Function.comp]
  · rw [h'.dims, h.dims, List.map_map]; rfl

theorem Mapped.congr {F F' : String → String} {S S' : String → Nd α → Nd α} {G G' : Label β → Label β}
    {b b' : Block β α} (hw : WF b) (h : Mapped F S G b b') (hF : ∀ k ∈ Normalize.vnames b ++ Normalize.dnames b, F k = F' k)
    (hS : ∀ k ∈ Normalize.vnames b, S k = S' k) (hG : ∀ l : Label β, l.name ∈ Normalize.dnames b → (∃ p ∈ dimView b, p.2 = l) → G l = G' l) :
    Mapped F' S' G' b b' := by
  refine ⟨?_, ?_⟩
  · rw [h.vars]
    refine List.map_congr_left fun p hp => ?_
    have hk : p.1 ∈ Normalize.vnames b := by rw [vnames_view]; exact List.mem_map_of_mem hp
    rw [hF p.1 (by simp [hk]), hS p.1 hk]
    have : p.2.2.map G = p.2.2.map G' := List.map_congr_left fun l hl => hG l (hw.label_mem hp hl) (hw.known p hp l hl)
    rw [this]
  · rw [h.dims]
    refine List.map_congr_left fun p hp => ?_
    have e := hw.named p hp
    have hk : p.1 ∈ Normalize.dnames b := by rw [dnames_view]; exact List.mem_map_of_mem hp
    rw [hF p.1 (by simp [hk]), hG p.2 (by rw [e]; exact hk) ⟨p, hp, rfl⟩]

theorem Mapped.wf {F : String → String} {S : String → Nd α → Nd α} {G : Label β → Label β}
    {b b' : Block β α} (hw : WF b) (h : Mapped F S G b b')
    (hn : (Normalize.vnames b' ++ Normalize.dnames b').Nodup)
    (hG : ∀ l : Label β, l.name ∈ Normalize.dnames b → (G l).name = F l.name) : WF b' where
  names := hn
  named := by
    rw [h.dims]
    intro p hp
    obtain ⟨q, hq, rfl⟩ := List.mem_map.1 hp
    have e := hw.named q hq
    have hk : q.1 ∈ Normalize.dnames b := by rw [dnames_view]; exact List.mem_map_of_mem hq
    simp only [hG q.2 (by rw [e]; exact hk), e]
  known := by
    rw [h.vars, h.dims]
    intro p hp l hl
    obtain ⟨q, hq, rfl⟩ := List.mem_map.1 hp
    simp only [List.mem_map] at hl
    obtain ⟨l', hl', rfl⟩ := hl
    obtain ⟨r, hr, rfl⟩ := hw.known q hq l' hl'
    exact ⟨_, List.mem_map.2 ⟨r, hr, rfl⟩, rfl⟩

/-- Replacing a dimension by one with a new name. -/
theorem replace_dim {b : Block β α} (hw : WF b) {o : String} {d d' : Dim β} (hd : lookup b.ivars o = some d)
    (hn : d'.name ∉ vnames b ∧ d'.name ∉ dnames b) :
    ∃ b', replaceDim b d d' = some b' ∧ WF b' ∧
      Mapped (swap o d'.name) (fun _ x => x) (fun l => if l.name = o then label d' else l) b b' := by
  have ho : o ∈ dnames b := (lookup_isSome_iff b.ivars o).1 (by rw [hd]; rfl)
  have hov : o ∉ vnames b := fun h => (List.nodup_append.1 hw.names).2.2 o h o ho rfl
  have hdn : d.name = o := hw.named (o, label d) (List.mem_map.2 ⟨(o, d), lookup_mem hd, rfl⟩)
  have huniq : ∀ p ∈ b.ivars, p.1 = o → p = (o, d) := by
    intro p hp e
    have hnd : (b.ivars.map Prod.fst).Nodup := (List.nodup_append.1 hw.names).2.1
    exact List.inj_on_of_nodup_map hnd hp (lookup_mem hd) e
  generalize hnn : d'.name = n at *
  have hri : renameIvar b.ivars d d' = some (b.ivars.map fun p => if p.1 = o then (n, d') else p) := by
    unfold renameIvar
    rw [hdn, hd]
    simp only [hnn, Option.some.injEq]
    obtain ⟨-, hn'⟩ := hn
    have hon : o ≠ n := fun e => hn' (e ▸ ho)
    have hmem : member b.ivars n = false := by
      rw [Bool.eq_false_iff]; intro h; exact hn' ((member_iff _ _).1 h)
    simp only [Spec.rename, hon, if_false, hmem, Bool.false_eq_true]
    unfold assign
    have hm2 : member (b.ivars.map fun p => if p.1 = o then (n, d) else p) n = true := by
      rw [member_iff]
      simp only [List.map_map, List.mem_map, Function.comp]
      exact ⟨(o, d), lookup_mem hd, by simp⟩
    rw [if_pos hm2]
    unfold Spec.modify
    rw [List.map_map]
    refine List.map_congr_left fun p hp => ?_
    simp only [Function.comp]
    by_cases e : p.1 = o
    · simp [e]
    · have e2 : p.1 ≠ n := fun e2 => hn' (e2 ▸ List.mem_map_of_mem hp)
      simp [e, e2]
  refine ⟨{ b with ivars := b.ivars.map fun p => if p.1 = o then (n, d') else p, vars := b.vars.map fun p => (p.1, replaceDimArr d d' p.2) }, ?_, ?_⟩
  · simp only [replaceDim, hri]
  · have hM : Mapped (swap o n) (fun _ x => x) (fun l : Label β => if l.name = o then label d' else l) b
        { b with ivars := b.ivars.map fun p => if p.1 = o then (n, d') else p, vars := b.vars.map fun p => (p.1, replaceDimArr d d' p.2) } := by
      refine ⟨?_, ?_⟩
      · simp only [varView, List.map_map]
        refine List.map_congr_left fun p hp => ?_
        have e1 : swap o n p.1 = p.1 := by
          have : p.1 ≠ o := fun e => hov (e ▸ List.mem_map_of_mem hp)
          simp [swap, this]
        simp only [Function.comp, e1, replaceDimArr, List.map_map, Prod.mk.injEq, true_and]
        refine List.map_congr_left fun c hc => ?_
        simp only [Function.comp, hdn]
        by_cases e : c.name = o
        · rw [if_pos e.symm, if_pos (show (label c).name = o from e)]
        · rw [if_neg (fun h => e h.symm), if_neg (show ¬ (label c).name = o from e)]
      · simp only [dimView, List.map_map]
        refine List.map_congr_left fun p hp => ?_
        have hpn : p.2.name = p.1 := hw.named (p.1, label p.2) (List.mem_map.2 ⟨p, hp, rfl⟩)
        simp only [Function.comp]
        by_cases e : p.1 = o
        · have e2 : (label p.2).name = o := hpn.trans e
          simp [swap, e, e2]
        · have e2 : (label p.2).name ≠ o := fun h => e (hpn.symm.trans h)
          simp [swap, e, e2]
    refine ⟨hM.wf hw ?_ ?_, hM⟩
    · rw [hM.vnames, hM.dnames, ← List.map_append]
      exact swap_nodup hw.names o n (by simp [hn])
    · intro l hl
      by_cases e : l.name = o
      · simp [e, swap, label, hnn]
      · simp [e, swap]

/-- The name of a column by its title. -/
def nameOf (t : String) : String :=
  match title t with
  | none => t
  | some (n, _, _) => n

/-- The data of a column by its title. -/
def scaled (mul : ℚ → α → α) (t : String) (x : Nd α) : Nd α :=
  match title t with
  | none => x
  | some (_, m, _) => ⟨x.shape, fun i => mul m (x.get i)⟩

/-- The dimension for a column of coordinates by its title. -/
def relabelled (cmul : ℚ → β → β) (l : Label β) : Label β :=
  match title l.name with
  | none => l
  | some (n, m, u) => ⟨n, l.cls, l.data.map (cmul m), u⟩

/-- The unit of a variable by its title. -/
def unitOf (t : String) (old : Option String) : Option String :=
  match title t with
  | none => old
  | some (_, _, u) => u

theorem title_unit {t n : String} {m : ℚ} {u : Option String} (h : title t = some (n, m, u)) :
    ∃ w, u = some w := by
  obtain ⟨_, base, _, _, h⟩ := (C57_title t n m u).1 h
  exact ⟨_, h⟩

theorem title_ne {t n : String} {m : ℚ} {u : Option String} (h : title t = some (n, m, u)) : n ≠ t := by
  obtain ⟨w, base, h, _, _⟩ := (C57_title t n m u).1 h
  rintro rfl
  obtain ⟨ws, nl, k, h, _⟩ := h.text
  have := congrArg List.length h
  simp at this

/-- Multiplying the variable `v` and giving it a new name. -/
theorem fix_var (env : Env β α) (mul : ℚ → α → α) (cmul : ℚ → β → β) {c : UBlock β α} (hw : WF c.blk)
    {v n : String} {m : ℚ} {u : Option String} (ht : title v = some (n, m, u)) (hv : v ∈ vnames c.blk)
    (hn : n ∉ vnames c.blk) (hn' : n ∉ dnames c.blk)
    (hel : ∀ q i j, isMatrixName n = some (q, i, j) → q ∉ vnames c.blk ∧ q ≠ n) :
    ∃ c', fixUnit env mul cmul c v = .ok c' ∧ WF c'.blk ∧
      Mapped (swap v n) (fun k x => if k = v then ⟨x.shape, fun i => mul m (x.get i)⟩ else x) id c.blk c'.blk ∧
      ∀ k, c'.units k = if k = n then u else c.units k := by
  have hvn : v ≠ n := fun e => hn (e ▸ hv)
  have hvd : v ∉ dnames c.blk := fun h => (List.nodup_append.1 hw.names).2.2 v hv v h rfl
  obtain ⟨x, hx⟩ : ∃ x, lookup c.blk.vars v = some x :=
    Option.isSome_iff_exists.1 ((lookup_isSome_iff c.blk.vars v).2 hv)
  have hmem : member c.blk.vars n = false := by
    rw [Bool.eq_false_iff]; intro h; exact hn ((member_iff _ _).1 h)
  have hmv : member c.blk.vars v = true := (member_iff _ _).2 hv
  have hi0 : lookup c.blk.ivars v = none := (lookup_none_iff' c.blk.ivars v).2 hvd
  have hi1 : lookup c.blk.ivars n = none := (lookup_none_iff' c.blk.ivars n).2 hn'
  have hmi : member c.blk.ivars n = false := by
    rw [Bool.eq_false_iff]; intro h; exact hn' ((member_iff _ _).1 h)
  have huniq : ∀ p ∈ c.blk.vars, p.1 = v → p = (v, x) := by
    intro p hp e
    have hnd : (c.blk.vars.map Prod.fst).Nodup := (List.nodup_append.1 hw.names).1
    exact List.inj_on_of_nodup_map hnd hp (lookup_mem hx) e
  have hren : Spec.rename c.blk.vars v n x = c.blk.vars.map fun p => if p.1 = v then (n, x) else p := by
    simp [Spec.rename, hvn, hmem]
  have hmem1 : ∀ q, member (c.blk.vars.map fun p => if p.1 = v then (n, x) else p) q = true →
      q ∈ vnames c.blk ∨ q = n := by
    intro q hq
    have := (member_iff _ _).1 hq
    rw [List.map_map] at this
    obtain ⟨p, hp, e⟩ := List.mem_map.1 this
    simp only [Function.comp] at e
    split at e
    · exact Or.inr e.symm
    · exact Or.inl (e ▸ List.mem_map_of_mem hp)
  have hlk : lookup (c.blk.vars.map fun p => if p.1 = v then (n, x) else p) n = some x := by
    have hn1 : ∀ p ∈ c.blk.vars, p.1 ≠ n := fun p hp e => hn (e ▸ List.mem_map_of_mem hp)
    have hmx := lookup_mem hx
    clear hx hmv hren hmem1 hmem hv huniq hw hel hn hn' hvd hi0 hi1 hmi
    generalize c.blk.vars = l at *
    induction l with
    | nil => cases hmx
    | cons p t ih =>
      by_cases e : p.1 = v
      · simp [lookup, e]
      · have hp : p.1 ≠ n := hn1 p (by simp)
        have hmt : (v, x) ∈ t := by
          rcases List.mem_cons.1 hmx with h | h
          · exact absurd (by rw [← h]) e
          · exact h
        have := ih (fun q hq => hn1 q (by simp [hq])) hmt
        simpa [lookup, e, hp] using this
  have hdims : ∀ d ∈ (times mul m x).dims, d.name ∈ DataBlock.keys c.blk.ivars := by
    intro d hd
    exact hw.label_mem (p := (v, x.nd, x.dims.map label)) (List.mem_map.2 ⟨(v, x), lookup_mem hx, rfl⟩)
      (l := label d) (List.mem_map_of_mem hd)
  have hass : assign (c.blk.vars.map fun p => if p.1 = v then (n, x) else p) n (times mul m x) =
      c.blk.vars.map fun p => if p.1 = v then (n, times mul m x) else p := by
    unfold assign
    rw [if_pos ((member_iff _ _).2 (lookup_key hlk))]
    unfold Spec.modify
    rw [List.map_map]
    refine List.map_congr_left fun p hp => ?_
    simp only [Function.comp]
    by_cases e : p.1 = v
    · simp [e]
    · have e2 : p.1 ≠ n := fun e2 => hn (e2 ▸ List.mem_map_of_mem hp)
      simp [e, e2]
  have hset : setArr env { c.blk with vars := c.blk.vars.map fun p => if p.1 = v then (n, x) else p } n
      (times mul m x) = (⟨c.blk.vars.map fun p => if p.1 = v then (n, times mul m x) else p, c.blk.ivars,
        nextXname c.blk.xname x.dims⟩, .ok ()) := by
    unfold setArr
    have hno : elemTarget (member (c.blk.vars.map fun p => if p.1 = v then (n, x) else p)) n
        (times mul m x) = none := by
      unfold elemTarget
      cases hq : isMatrixName n with
      | none => rfl
      | some q =>
        obtain ⟨q, i, j⟩ := q
        obtain ⟨g1, g2⟩ := hel q i j hq
        have : member (c.blk.vars.map fun p => if p.1 = v then (n, x) else p) q = false := by
          rw [Bool.eq_false_iff]
          intro h
          rcases hmem1 q h with h | h
          · exact g1 h
          · exact g2 h
        simp [this]
    simp only [hno, hi1, hass, Complex.addDims_known _ _ hdims]
    rfl
  refine ⟨⟨⟨c.blk.vars.map fun p => if p.1 = v then (n, times mul m x) else p, c.blk.ivars,
        nextXname c.blk.xname x.dims⟩, fun k => if k = n then u else
          if k = n ∧ member c.blk.vars v = true then c.units v else c.units k⟩, ?_, ?_⟩
  · have hmf : member (c.blk.vars.map fun p => if p.1 = v then (n, times mul m x) else p) n = true := by
      rw [member_iff, List.map_map, List.mem_map]
      exact ⟨(v, x), lookup_mem hx, by simp⟩
    have hren' : renameVar env c.blk v n =
        ({ c.blk with vars := c.blk.vars.map fun p => if p.1 = v then (n, x) else p }, .ok ()) := by
      simp only [renameVar, hi0, hx, hren]
    have hget : getitem env { c.blk with vars := c.blk.vars.map fun p => if p.1 = v then (n, x) else p } n
        = .ok x := by
      simp only [getitem, hi1, hlk]
    simp only [fixUnit, ht, hi0, hren', hget, hset, setUnit, hmi, hmf, Bool.false_eq_true, if_false, if_true]
  · have hM : Mapped (swap v n) (fun k x => if k = v then ⟨x.shape, fun i => mul m (x.get i)⟩ else x) id
        c.blk ⟨c.blk.vars.map fun p => if p.1 = v then (n, times mul m x) else p, c.blk.ivars,
          nextXname c.blk.xname x.dims⟩ := by
      refine ⟨?_, ?_⟩
      · simp only [varView, List.map_map]
        refine List.map_congr_left fun p hp => ?_
        simp only [Function.comp, List.map_id]
        by_cases e : p.1 = v
        · have := huniq p hp e
          subst this
          simp [swap, times]
        · simp [swap, e]
      · refine (List.map_congr_left fun p hp => ?_).trans (List.map_id _) |>.symm
        have : p.1 ≠ v := by
          intro e
          have h1 : p.1 ∈ dnames c.blk := by rw [dnames_view]; exact List.mem_map_of_mem hp
          exact hvd (e ▸ h1)
        simp [swap, this]
    refine ⟨hM.wf hw ?_ ?_, hM, ?_⟩
    · rw [hM.vnames, hM.dnames, ← List.map_append]
      exact swap_nodup hw.names v n (by simp [hn, hn'])
    · intro l hl
      have : l.name ≠ v := fun e => hvd (e ▸ hl)
      simp [swap, this]
    · intro k
      simp only
      by_cases e : k = n <;> simp [e]

/-- Multiplying the dimension `v` and giving it a new name. -/
theorem fix_dim (env : Env β α) (mul : ℚ → α → α) (cmul : ℚ → β → β) {c : UBlock β α} (hw : WF c.blk)
    {v n : String} {m : ℚ} {u : Option String} (ht : title v = some (n, m, u)) (hv : v ∈ dnames c.blk)
    (hn : n ∉ vnames c.blk) (hn' : n ∉ dnames c.blk) :
    ∃ c', fixUnit env mul cmul c v = .ok c' ∧ WF c'.blk ∧ c'.units = c.units ∧
      ∀ l : Label β, (∃ p ∈ dimView c.blk, p.2 = l) → l.name = v →
      Mapped (swap v n) (fun _ x => x)
        (fun k => if k.name = v then ⟨n, l.cls, l.data.map (cmul m), u⟩ else k) c.blk c'.blk := by
  obtain ⟨d, hd⟩ : ∃ d, lookup c.blk.ivars v = some d :=
    Option.isSome_iff_exists.1 ((lookup_isSome_iff c.blk.ivars v).2 hv)
  obtain ⟨w, rfl⟩ := title_unit ht
  obtain ⟨d', hd'⟩ : ∃ d', d' = Dim.copyFrom env.dfltDim d.cls d (data := some (d.data.map (cmul m)))
    (unit := some w) (name := some n) := ⟨_, rfl⟩
  have hl' : label d' = ⟨n, d.cls, d.data.map (cmul m), some w⟩ := by subst hd'; simp [label, Dim.copyFrom]
  have hn2 : d'.name = n := congrArg Label.name hl'
  obtain ⟨b', h1, h2, h3⟩ := replace_dim hw (d' := d') hd (by rw [hn2]; exact ⟨hn, hn'⟩)
  refine ⟨⟨b', c.units⟩, ?_, h2, rfl, ?_⟩
  · simp only [fixUnit, ht, hd, ← hd', h1]
  · rintro l ⟨p, hp, rfl⟩ hl
    obtain ⟨q, hq, rfl⟩ := List.mem_map.1 hp
    have e : q.1 = v := (hw.named _ hp).symm.trans hl
    have hnd : (c.blk.ivars.map Prod.fst).Nodup := (List.nodup_append.1 hw.names).2.1
    have := List.inj_on_of_nodup_map hnd hq (lookup_mem hd) e
    subst this
    rw [hn2, hl'] at h3
    exact h3

/-! ### All names -/

/-- All names in use. -/
def names (b : Block β α) : List String := vnames b ++ dnames b

/-- The names which the titles give are all different, and none of them is already in use; none of
them is understood as that of an element of a matrix of the block. -/
structure Clear (b : Block β α) : Prop where
  fresh : ∀ k ∈ names b, ∀ n m u, title k = some (n, m, u) → n ∉ names b
  distinct : ((names b).map nameOf).Nodup
  noelem : ∀ k ∈ vnames b, ∀ n m u, title k = some (n, m, u) → ∀ q i j, isMatrixName n = some (q, i, j) →
    q ∉ vnames b ∧ q ∉ (vnames b).map nameOf

theorem fix_loop (env : Env β α) (mul : ℚ → α → α) (cmul : ℚ → β → β) (b : UBlock β α) (hb : WF b.blk)
    (hc : Clear b.blk) (todo : List String) : ∀ (done : List String) (c : UBlock β α),
    (done ++ todo).Nodup → (∀ k, k ∈ done ++ todo ↔ k ∈ names b.blk) → WF c.blk →
    Mapped (fun k => if k ∈ done then nameOf k else k)
      (fun k x => if k ∈ done then scaled mul k x else x)
      (fun l => if l.name ∈ done then relabelled cmul l else l) b.blk c.blk →
    (∀ k ∈ vnames b.blk, c.units (if k ∈ done then nameOf k else k) =
      if k ∈ done then unitOf k (b.units k) else b.units k) →
    ∃ c', each (fixUnit env mul cmul) c todo = .ok c' ∧ WF c'.blk ∧
      Mapped nameOf (scaled mul) (relabelled cmul) b.blk c'.blk ∧
      ∀ k ∈ vnames b.blk, c'.units (nameOf k) = unitOf k (b.units k) := by
  induction todo with
  | nil =>
    intro done c _ hall hw hM hu
    simp only [List.append_nil] at hall
    refine ⟨c, rfl, hw, hM.congr hb ?_ ?_ ?_, ?_⟩
    · intro k hk; simp [(hall k).2 hk]
    · intro k hk; simp [(hall k).2 (List.mem_append_left _ hk)]
    · intro l hl _; simp [(hall l.name).2 (List.mem_append_right _ hl)]
    · intro k hk
      simpa [(hall k).2 (List.mem_append_left _ hk)] using hu k hk
  | cons v t ih =>
    intro done c hnd hall hw hM hu
    have happ : done ++ v :: t = (done ++ [v]) ++ t := by simp
    have hvd : v ∉ done := by
      intro h
      exact (List.nodup_append.1 hnd).2.2 v h v (by simp) rfl
    have hvb : v ∈ names b.blk := (hall v).1 (by simp)
    -- which names are there now
    have hcn : names c.blk = (names b.blk).map fun k => if k ∈ done then nameOf k else k := by
      rw [names, names, hM.vnames, hM.dnames, List.map_append]
    cases ht : title v with
    | none =>
      have e1 : nameOf v = v := by simp [nameOf, ht]
      have hstep : fixUnit env mul cmul c v = .ok c := by simp [fixUnit, ht]
      simp only [each, hstep]
      refine ih (done ++ [v]) c (happ ▸ hnd) (fun k => by rw [← happ]; exact hall k) hw
        (hM.congr hb ?_ ?_ ?_) ?_
      · intro k _
        by_cases h : k = v
        · subst h; simp [hvd, e1]
        · simp [h]
      · intro k _
        funext x
        by_cases h : k = v
        · subst h; simp [hvd, scaled, ht]
        · simp [h]
      · intro l _ _
        by_cases h : l.name = v
        · simp [h, hvd, relabelled, ht]
        · simp [h]
      · intro k hk
        have := hu k hk
        by_cases h : k = v
        · subst h; simpa [hvd, e1, unitOf, ht] using this
        · simpa [h] using this
    | some r =>
      obtain ⟨n, m, u⟩ := r
      have e1 : nameOf v = n := by simp [nameOf, ht]
      have hnb : n ∉ names b.blk := hc.fresh v hvb n m u ht
      have hinj := hc.distinct
      have hbn : (names b.blk).Nodup := hb.names
      have hinj' := (List.nodup_map_iff_inj_on hbn).1 hinj
      -- the new name is not there yet
      have hnc : n ∉ names c.blk := by
        rw [hcn, List.mem_map]
        rintro ⟨k, hk, e⟩
        split at e
        · rename_i hkd
          have := hinj' k hk v hvb (by rw [e, e1])
          exact hvd (this ▸ hkd)
        · exact hnb (e ▸ hk)
      have hnc1 : n ∉ vnames c.blk := fun h => hnc (List.mem_append_left _ h)
      have hnc2 : n ∉ dnames c.blk := fun h => hnc (List.mem_append_right _ h)
      -- only `v` itself is called `v` now
      have honly : ∀ k ∈ names b.blk, (if k ∈ done then nameOf k else k) = v ↔ k = v := by
        intro k hk
        constructor
        · intro e
          split at e
          · rename_i hkd
            cases hk2 : title k with
            | none =>
              have : nameOf k = k := by simp [nameOf, hk2]
              rw [this] at e; exact e
            | some r =>
              obtain ⟨n', m', u'⟩ := r
              have : nameOf k = n' := by simp [nameOf, hk2]
              exact absurd hvb (e ▸ this ▸ hc.fresh k hk n' m' u' hk2)
          · exact e
        · rintro rfl
          rw [if_neg hvd]
      have hF : ∀ k ∈ names b.blk, (swap v n) (if k ∈ done then nameOf k else k) =
          if k ∈ done ++ [v] then nameOf k else k := by
        intro k hk
        unfold swap
        by_cases h : k = v
        · subst h; simp [hvd, e1]
        · rw [if_neg fun e => h ((honly k hk).1 e)]
          simp [h]
      rcases List.mem_append.1 hvb with hvv | hvd'
      · have hvc : v ∈ vnames c.blk := by
          rw [hM.vnames, List.mem_map]
          exact ⟨v, hvv, by simp [hvd]⟩
        have hvnd : v ∉ dnames b.blk := fun h => (List.nodup_append.1 hb.names).2.2 v hvv v h rfl
        obtain ⟨c', g1, g2, g3, g4⟩ := fix_var env mul cmul hw ht hvc hnc1 hnc2 (by
          intro q i j hq
          obtain ⟨a1, a2⟩ := hc.noelem v hvv n m u ht q i j hq
          refine ⟨?_, ?_⟩
          · rw [hM.vnames, List.mem_map]
            rintro ⟨k, hk, e⟩
            split at e
            · exact a2 (e ▸ List.mem_map_of_mem hk)
            · exact a1 (e ▸ hk)
          · rintro rfl
            exact a2 (e1 ▸ List.mem_map_of_mem hvv))
        simp only [each, g1]
        refine ih (done ++ [v]) c' (happ ▸ hnd) (fun k => by rw [← happ]; exact hall k) g2
          ((hM.trans g3).congr hb ?_ ?_ ?_) ?_
        · intro k hk; exact hF k hk
        · intro k hk
          funext x
          have h1 := honly k (List.mem_append_left _ hk)
          by_cases h : k = v
          · subst h
            simp [hvd, scaled, ht]
          · have h2 : ¬ (if k ∈ done then nameOf k else k) = v := fun e => h (h1.1 e)
            simp [h2, h]
        · intro l hl _
          have : l.name ≠ v := fun e => hvnd (e ▸ hl)
          simp [this]
        · intro k hk
          rw [← hF k (List.mem_append_left _ hk), g4]
          by_cases h : k = v
          · subst h
            simp [hvd, swap, unitOf, ht]
          · have h1 : (if k ∈ done then nameOf k else k) ≠ v := fun e => h ((honly k (List.mem_append_left _ hk)).1 e)
            have h2 : (if k ∈ done then nameOf k else k) ≠ n := by
              intro e
              apply hnc1
              rw [hM.vnames, List.mem_map]
              exact ⟨k, hk, e⟩
            simp only [swap, h1, if_false, h2]
            rw [hu k hk]
            simp [h]
      · have hvc : v ∈ dnames c.blk := by
          rw [hM.dnames, List.mem_map]
          exact ⟨v, hvd', by simp [hvd]⟩
        have hvnv : v ∉ vnames b.blk := fun h => (List.nodup_append.1 hb.names).2.2 v h v hvd' rfl
        obtain ⟨c', g1, g2, g3, g4⟩ := fix_dim env mul cmul hw ht hvc hnc1 hnc2
        obtain ⟨p0, hp0, hp1⟩ : ∃ p ∈ dimView b.blk, p.1 = v := by
          rw [dnames_view] at hvd'
          exact List.mem_map.1 hvd'
        have hname := hb.named p0 hp0
        have hl0 : (∃ p ∈ dimView c.blk, p.2 = p0.2) := by
          rw [hM.dims]
          refine ⟨_, List.mem_map_of_mem hp0, ?_⟩
          simp [hname, hp1, hvd]
        have g5 := g4 p0.2 hl0 (hname.trans hp1)
        simp only [each, g1]
        refine ih (done ++ [v]) c' (happ ▸ hnd) (fun k => by rw [← happ]; exact hall k) g2
          ((hM.trans g5).congr hb ?_ ?_ ?_) ?_
        · intro k hk; exact hF k hk
        · intro k hk
          funext x
          have h : k ≠ v := fun e => hvnv (e ▸ hk)
          simp [h]
        · intro l hl hlp
          by_cases h : l.name = v
          · have hll : l = p0.2 := by
              obtain ⟨q, hq, rfl⟩ := hlp
              have hnd2 : ((dimView b.blk).map Prod.fst).Nodup := by
                rw [← dnames_view]; exact (List.nodup_append.1 hb.names).2.1
              have : q = p0 := List.inj_on_of_nodup_map hnd2 hq hp0
                (by rw [← hb.named q hq, hp1]; exact h)
              rw [this]
            subst hll
            simp [h, hvd, relabelled, ht]
          · by_cases hd : l.name ∈ done
            · have hcase : (relabelled cmul l).name = nameOf l.name := by
                cases ht2 : title l.name with
                | none => simp [relabelled, nameOf, ht2]
                | some r => obtain ⟨n', m', u'⟩ := r; simp [relabelled, nameOf, ht2]
              have h2 := (honly l.name (List.mem_append_right _ hl)).not.2 h
              rw [if_pos hd] at h2
              simp [hd, hcase, h2]
            · simp [hd, h]
        · intro k hk
          have h : k ≠ v := fun e => hvnv (e ▸ hk)
          rw [g3]
          simpa [h] using hu k hk

/-- C57: the titles of all columns of a block. -/
theorem C57_fix (env : Env β α) (mul : ℚ → α → α) (cmul : ℚ → β → β) (b : UBlock β α) (hb : WF b.blk)
    (hc : Clear b.blk) :
    ∃ b', each (fixUnit env mul cmul) b (Complex.allNames b.blk) = .ok b' ∧ WF b'.blk ∧
      Mapped nameOf (scaled mul) (relabelled cmul) b.blk b'.blk ∧
      ∀ k ∈ vnames b.blk, b'.units (nameOf k) = unitOf k (b.units k) := by
  have hdis := List.nodup_append.1 hb.names
  have hall : Complex.allNames b.blk = dnames b.blk ++ vnames b.blk := by
    unfold Complex.allNames
    rw [List.filter_eq_self.2]
    · rfl
    · intro k hk
      simp only [Bool.not_eq_true']
      rw [Bool.eq_false_iff]
      intro h
      exact hdis.2.2 k hk k ((member_iff _ _).1 h) rfl
  refine fix_loop env mul cmul b hb hc (Complex.allNames b.blk) [] b ?_ ?_ hb ?_ ?_
  · rw [List.nil_append, hall]
    exact List.nodup_append.2 ⟨hdis.2.1, hdis.1, fun a ha c hc e => hdis.2.2 c hc a ha e.symm⟩
  · intro k
    rw [List.nil_append, hall, names, List.mem_append, List.mem_append, or_comm]
  · refine (Mapped.refl b.blk).congr hb ?_ ?_ ?_ <;> intros <;> simp
  · intro k _; simp

/-! ### Guessed units -/

/-- The dimension with the unit guessed from its name, if it has none. -/
def guessed (guess : String → Option String) (l : Label β) : Label β :=
  ⟨l.name, l.cls, l.data, l.unit.or (guess l.name)⟩

/-- Replacing a dimension by one of the same name moves it to the end. -/
theorem replace_same {b : Block β α} {o : String} {d d' : Dim β} (hd : lookup b.ivars o = some d)
    (hdn : d.name = o) (hn : d'.name = o) :
    ∃ b', replaceDim b d d' = some b' ∧
      dimView b' = ((dimView b).filter fun p => p.1 ≠ o) ++ [(o, label d')] ∧
      varView b' = (varView b).map fun p => (p.1, p.2.1, p.2.2.map fun l => if l.name = o then label d' else l) := by
  have hri : renameIvar b.ivars d d' = some ((b.ivars.filter fun p => p.1 ≠ o) ++ [(o, d')]) := by
    unfold renameIvar
    rw [hdn, hd]
    simp only [hn, Spec.rename, if_true, Option.some.injEq, Spec.remove, assign]
    rw [if_pos ((member_iff _ _).2 (by simp))]
    unfold Spec.modify
    rw [List.map_append]
    congr 1
    · refine (List.map_congr_left fun p hp => ?_).trans (List.map_id _)
      have : p.1 ≠ o := by simpa using (List.mem_filter.1 hp).2
      simp [this]
    · simp
  refine ⟨{ b with ivars := (b.ivars.filter fun p => p.1 ≠ o) ++ [(o, d')], vars := b.vars.map fun p => (p.1, replaceDimArr d d' p.2) }, ?_, ?_, ?_⟩
  · simp only [replaceDim, hri]
  · simp only [dimView, List.map_append, List.map_cons, List.map_nil, List.filter_map]
    rfl
  · simp only [varView, List.map_map]
    refine List.map_congr_left fun p hp => ?_
    simp only [Function.comp, replaceDimArr, List.map_map, Prod.mk.injEq, true_and]
    refine List.map_congr_left fun c hc => ?_
    simp only [Function.comp, hdn]
    by_cases e : c.name = o
    · rw [if_pos e.symm, if_pos (show (label c).name = o from e)]
    · rw [if_neg (fun h => e h.symm), if_neg (show ¬ (label c).name = o from e)]

/-- Dimensions with a unit. -/
def hasUnit (p : String × Label β) : Bool := p.2.unit.isSome

theorem each_append (f : UBlock β α → String → Except DataBlock.Err (UBlock β α)) (l m : List String) (b : UBlock β α) :
    each f b (l ++ m) = match each f b l with | .error e => .error e | .ok c => each f c m := by
  induction l generalizing b with
  | nil => rfl
  | cons v t ih =>
    simp only [List.cons_append, each]
    cases f b v with
    | error e => rfl
    | ok c => exact ih c

theorem filter_perm (l : List (String × Label β)) (g : String × Label β → String × Label β)
    (hg : ∀ p, (g p).1 = p.1) :
    ((l.filter hasUnit ++ (l.filter fun p => !hasUnit p).map g).map Prod.fst).Perm (l.map Prod.fst) := by
  rw [List.map_append, List.map_map]
  have : Prod.fst ∘ g = Prod.fst := by funext p; exact hg p
  rw [this, ← List.map_append]
  exact (List.filter_append_perm hasUnit l).map _

theorem lookup_view {c : Block β α} {o : String} {l : Label β} (hn : (dnames c).Nodup)
    (h : (o, l) ∈ dimView c) : ∃ d, lookup c.ivars o = some d ∧ label d = l := by
  obtain ⟨q, hq, e⟩ := List.mem_map.1 h
  cases e
  exact ⟨q.2, mem_lookup hn hq, rfl⟩

theorem guess_dims (env : Env β α) (guess : String → Option String) (b : UBlock β α) (hb : WF b.blk)
    (todo : List (String × Label β)) : ∀ (done : List (String × Label β)) (c : UBlock β α),
    done ++ todo = dimView b.blk → c.units = b.units →
    dimView c.blk = done.filter hasUnit ++ todo ++
      (done.filter fun p => !hasUnit p).map (fun p => (p.1, guessed guess p.2)) →
    varView c.blk = (varView b.blk).map (fun p => (p.1, p.2.1, p.2.2.map fun l =>
      if l.name ∈ done.map Prod.fst then guessed guess l else l)) →
    ∃ c', each (guessOne env guess) c (todo.map Prod.fst) = .ok c' ∧ c'.units = b.units ∧
      dimView c'.blk = (dimView b.blk).filter hasUnit ++
        ((dimView b.blk).filter fun p => !hasUnit p).map (fun p => (p.1, guessed guess p.2)) ∧
      varView c'.blk = (varView b.blk).map fun p => (p.1, p.2.1, p.2.2.map (guessed guess)) := by
  have hnd : ((dimView b.blk).map Prod.fst).Nodup := by
    rw [← dnames_view]; exact (List.nodup_append.1 hb.names).2.1
  induction todo with
  | nil =>
    intro done c hd hu hdim hvar
    simp only [List.append_nil] at hd hdim
    subst hd
    refine ⟨c, rfl, hu, hdim, ?_⟩
    rw [hvar]
    refine List.map_congr_left fun p hp => ?_
    have : (p.2.2.map fun l => if l.name ∈ (dimView b.blk).map Prod.fst then guessed guess l else l)
        = p.2.2.map (guessed guess) := by
      refine List.map_congr_left fun l hl => ?_
      rw [if_pos]
      rw [← dnames_view]
      exact hb.label_mem hp hl
    rw [this]
  | cons a t ih =>
    obtain ⟨o, l0⟩ := a
    intro done c hd hu hdim hvar
    have happ : (done ++ [(o, l0)]) ++ t = dimView b.blk := by simpa using hd
    have hmem : (o, l0) ∈ dimView b.blk := by rw [← hd]; simp
    have hl0 : l0.name = o := hb.named _ hmem
    rw [← hd, List.map_append, List.map_cons, List.nodup_append] at hnd
    obtain ⟨n1, n2, n3⟩ := hnd
    have hod : o ∉ done.map Prod.fst := fun h => n3 o h o (by simp) rfl
    have hot : o ∉ t.map Prod.fst := (List.nodup_cons.1 n2).1
    have hcn : (dnames c.blk).Nodup := by
      rw [dnames_view, hdim]
      have hp : (done.filter hasUnit ++ (o, l0) :: t ++
          (done.filter fun p => !hasUnit p).map (fun p => (p.1, guessed guess p.2))).map Prod.fst
          |>.Perm ((done ++ (o, l0) :: t).map Prod.fst) := by
        have h1 := filter_perm done (fun p => (p.1, guessed guess p.2)) fun _ => rfl
        simp only [List.map_append] at h1 ⊢
        refine List.Perm.trans ?_ (h1.append_right _)
        simp only [List.append_assoc]
        refine List.Perm.append_left _ ?_
        exact List.perm_append_comm
      refine hp.nodup_iff.2 ?_
      rw [hd, ← dnames_view]
      exact (List.nodup_append.1 hb.names).2.1
    obtain ⟨d, hlk, hld⟩ := lookup_view hcn (o := o) (l := l0) (by rw [hdim]; simp)
    have hdn : d.name = o := (congrArg Label.name hld).trans hl0
    have hdu : d.unit = l0.unit := congrArg Label.unit hld
    have hmap : ∀ x, x ∈ (done ++ [(o, l0)]).map Prod.fst ↔ x ∈ done.map Prod.fst ∨ x = o := by
      intro x
      rw [List.map_append, List.mem_append, List.map_cons, List.map_nil, List.mem_singleton]
    simp only [List.map_cons, each]
    cases hun : l0.unit with
    | some w =>
      have hstep : guessOne env guess c o = .ok c := by
        simp [guessOne, hlk, hdu, hun]
      rw [hstep]
      refine ih (done ++ [(o, l0)]) c happ hu ?_ ?_
      · rw [hdim]
        have h1 : hasUnit (o, l0) = true := by simp [hasUnit, hun]
        simp [List.filter_append, h1]
      · rw [hvar]
        refine List.map_congr_left fun p hp => ?_
        have : (p.2.2.map fun l => if l.name ∈ done.map Prod.fst then guessed guess l else l)
            = p.2.2.map fun l => if l.name ∈ (done ++ [(o, l0)]).map Prod.fst then guessed guess l else l := by
          refine List.map_congr_left fun l hl => ?_
          by_cases h : l.name = o
          · have hll : l = l0 := by
              obtain ⟨q, hq, rfl⟩ := hb.known p hp l hl
              have hq1 : q.1 = o := (hb.named q hq).symm.trans h
              have := List.inj_on_of_nodup_map (by rw [← dnames_view]; exact (List.nodup_append.1 hb.names).2.1) hq hmem hq1
              rw [this]
            subst hll
            have : guessed guess l = l := by
              obtain ⟨a1, a2, a3, a4⟩ := l
              simp only at hun
              subst hun
              rfl
            rw [if_neg (fun h' => hod (h ▸ h')), if_pos ((hmap _).2 (Or.inr h)), this]
          · have : l.name ∈ (done ++ [(o, l0)]).map Prod.fst ↔ l.name ∈ done.map Prod.fst := by
              rw [hmap]; exact ⟨fun h' => h'.resolve_right h, Or.inl⟩
            simp only [this]
        rw [this]
    | none =>
      obtain ⟨d', hd'⟩ : ∃ d', d' = Dim.copyFrom env.dfltDim d.cls d (unit := guess o) := ⟨_, rfl⟩
      have hl' : label d' = guessed guess l0 := by
        subst hd'
        rw [← hld]
        have : (label d).name = o := hdn
        simp [label, Dim.copyFrom, guessed, hdn, hdu, hun]
      have hn' : d'.name = o := by
        have := congrArg Label.name hl'
        exact this.trans hl0
      obtain ⟨b', g1, g2, g3⟩ := replace_same hlk hdn hn'
      have hstep : guessOne env guess c o = .ok ⟨b', c.units⟩ := by
        simp [guessOne, hlk, hdu, hun, ← hd', g1]
      rw [hstep]
      have h1 : hasUnit (o, l0) = false := by simp [hasUnit, hun]
      refine ih (done ++ [(o, l0)]) ⟨b', c.units⟩ happ hu ?_ ?_
      · rw [g2, hdim, hl']
        have f1 : ∀ l : List (String × Label β), o ∉ l.map Prod.fst → l.filter (fun p => decide (p.1 ≠ o)) = l := by
          intro l hl
          rw [List.filter_eq_self]
          intro p hp
          simp only [ne_eq, decide_eq_true_eq]
          exact fun e => hl (e ▸ List.mem_map_of_mem hp)
        have f2 : ∀ (l : List (String × Label β)) (q : String × Label β → Bool), o ∉ l.map Prod.fst →
            o ∉ (l.filter q).map Prod.fst := by
          intro l q hl h
          obtain ⟨p, hp, e⟩ := List.mem_map.1 h
          exact hl (e ▸ List.mem_map_of_mem (List.mem_filter.1 hp).1)
        rw [List.filter_append, List.filter_append, f1 _ (f2 _ _ hod), List.filter_cons_of_neg (by simp), f1 _ hot,
          f1 _ (by rw [List.map_map]; exact f2 _ _ hod)]
        simp [List.filter_append, h1]
      · rw [g3, hvar, List.map_map]
        refine List.map_congr_left fun p hp => ?_
        simp only [Function.comp, List.map_map, Prod.mk.injEq, true_and]
        refine List.map_congr_left fun l hl => ?_
        simp only [Function.comp]
        by_cases h : l.name = o
        · have hll : l = l0 := by
            obtain ⟨q, hq, rfl⟩ := hb.known p hp l hl
            have hq1 : q.1 = o := (hb.named q hq).symm.trans h
            have := List.inj_on_of_nodup_map (by rw [← dnames_view]; exact (List.nodup_append.1 hb.names).2.1) hq hmem hq1
            rw [this]
          subst hll
          have e1 : (if l.name ∈ done.map Prod.fst then guessed guess l else l) = l :=
            if_neg (fun h' => hod (h ▸ h'))
          rw [e1, if_pos h, hl', if_pos ((hmap _).2 (Or.inr h))]
        · have h2 : (if l.name ∈ done.map Prod.fst then guessed guess l else l).name ≠ o := by
            split
            · exact h
            · exact h
          rw [if_neg h2]
          have : l.name ∈ (done ++ [(o, l0)]).map Prod.fst ↔ l.name ∈ done.map Prod.fst := by
            rw [hmap]; exact ⟨fun h' => h'.resolve_right h, Or.inl⟩
          simp only [this]

theorem guess_vars (env : Env β α) (guess : String → Option String) (blk : Block β α)
    (u0 : String → Option String) (todo : List String) : ∀ (done : List String) (u : String → Option String),
    (done ++ todo).Nodup → (∀ k ∈ todo, k ∈ vnames blk ∧ k ∉ dnames blk) →
    (∀ k, u k = if k ∈ done then (u0 k).or (guess k) else u0 k) →
    ∃ u', each (guessOne env guess) ⟨blk, u⟩ todo = .ok ⟨blk, u'⟩ ∧
      ∀ k, u' k = if k ∈ done ++ todo then (u0 k).or (guess k) else u0 k := by
  induction todo with
  | nil => intro done u _ _ hu; exact ⟨u, rfl, by simpa using hu⟩
  | cons v t ih =>
    intro done u hnd hv hu
    obtain ⟨h1, h2⟩ := hv v (by simp)
    have hm : member blk.vars v = true := (member_iff _ _).2 h1
    have hl : lookup blk.ivars v = none := (lookup_none_iff' blk.ivars v).2 h2
    have hvd : v ∉ done := fun h => (List.nodup_append.1 hnd).2.2 v h v (by simp) rfl
    have huv : u v = u0 v := by rw [hu, if_neg hvd]
    have happ : done ++ v :: t = (done ++ [v]) ++ t := by simp
    have hstep : ∃ u1, guessOne env guess ⟨blk, u⟩ v = .ok ⟨blk, u1⟩ ∧
        ∀ k, u1 k = if k ∈ done ++ [v] then (u0 k).or (guess k) else u0 k := by
      cases hun : u0 v with
      | none =>
        refine ⟨fun k => if k = v then guess v else u k, ?_, ?_⟩
        · simp [guessOne, hl, hm, huv, hun]
        · intro k
          by_cases h : k = v
          · subst h; simp [hun]
          · simp [h, hu]
      | some w =>
        refine ⟨u, ?_, ?_⟩
        · simp [guessOne, hl, huv, hun]
        · intro k
          rw [hu]
          by_cases h : k = v
          · subst h; simp [hvd, hun]
          · simp [h]
    obtain ⟨u1, g1, g2⟩ := hstep
    simp only [each, g1]
    obtain ⟨u', g3, g4⟩ := ih (done ++ [v]) u1 (happ ▸ hnd) (fun k hk => hv k (by simp [hk])) g2
    exact ⟨u', g3, by rw [happ]; exact g4⟩

theorem allNames_eq {b : Block β α} (hb : WF b) : Complex.allNames b = dnames b ++ vnames b := by
  unfold Complex.allNames
  rw [List.filter_eq_self.2]
  · rfl
  · intro k hk
    simp only [Bool.not_eq_true']
    rw [Bool.eq_false_iff]
    intro h
    exact (List.nodup_append.1 hb.names).2.2 k hk k ((member_iff _ _).1 h) rfl

/-- C57: units guessed from the names.  Values and names stay; a unit which is there already stays.
The dimensions without a unit move behind the others. -/
theorem C57_guess (env : Env β α) (guess : String → Option String) (b : UBlock β α) (hb : WF b.blk) :
    ∃ b', each (guessOne env guess) b (Complex.allNames b.blk) = .ok b' ∧ WF b'.blk ∧
      varView b'.blk = (varView b.blk).map (fun p => (p.1, p.2.1, p.2.2.map (guessed guess))) ∧
      dimView b'.blk = (dimView b.blk).filter hasUnit ++
        ((dimView b.blk).filter fun p => !hasUnit p).map (fun p => (p.1, guessed guess p.2)) ∧
      ∀ k ∈ vnames b.blk, b'.units k = (b.units k).or (guess k) := by
  have hdis := List.nodup_append.1 hb.names
  rw [allNames_eq hb, each_append]
  obtain ⟨c, g1, g2, g3, g4⟩ := guess_dims env guess b hb (dimView b.blk) [] b (by simp) rfl (by simp)
    (by
      refine ((List.map_congr_left fun p hp => ?_).trans (List.map_id _)).symm
      simp)
  rw [← dnames_view] at g1
  rw [g1]
  simp only
  have hv : vnames c.blk = vnames b.blk := by
    rw [vnames_view, vnames_view, g4]; simp [Function.comp_def]
  have hd : (dnames c.blk).Perm (dnames b.blk) := by
    rw [dnames_view, dnames_view, g3]
    exact filter_perm _ _ fun _ => rfl
  obtain ⟨u', g5, g6⟩ := guess_vars env guess c.blk c.units (vnames b.blk) [] c.units
    (by simpa using hdis.1) (fun k hk => ⟨hv ▸ hk, fun h => hdis.2.2 k hk k (hd.mem_iff.1 h) rfl⟩) (by simp)
  refine ⟨⟨c.blk, u'⟩, g5, ⟨?_, ?_, ?_⟩, g4, g3, ?_⟩
  · show (vnames c.blk ++ dnames c.blk).Nodup
    rw [hv]
    exact (hd.append_left _).nodup_iff.2 hb.names
  · intro p hp
    rw [g3] at hp
    rcases List.mem_append.1 hp with h | h
    · exact hb.named p (List.mem_filter.1 h).1
    · obtain ⟨q, hq, rfl⟩ := List.mem_map.1 h
      exact hb.named q (List.mem_filter.1 hq).1
  · intro p hp l hl
    show ∃ q ∈ dimView c.blk, q.2 = l
    rw [g4] at hp
    obtain ⟨p', hp', rfl⟩ := List.mem_map.1 hp
    obtain ⟨l', hl', rfl⟩ := List.mem_map.1 hl
    obtain ⟨q, hq, rfl⟩ := hb.known p' hp' l' hl'
    rw [g3]
    cases h : hasUnit q with
    | true =>
      refine ⟨q, List.mem_append_left _ (List.mem_filter.2 ⟨hq, h⟩), ?_⟩
      obtain ⟨w, hw⟩ := Option.isSome_iff_exists.1 h
      obtain ⟨qn, ⟨a1, a2, a3, a4⟩⟩ := q
      simp only at hw
      subst hw
      rfl
    | false =>
      exact ⟨_, List.mem_append_right _ (List.mem_map_of_mem (List.mem_filter.2 ⟨hq, by simp [h]⟩)), rfl⟩
  · intro k hk
    show u' k = _
    rw [g6, if_pos (by simpa using hk), g2]

/-- C57: units of the columns of a block.  A column whose title has a unit is found under the name
before it, in multiples of the unit without prefix, with that unit; any other keeps name and values
and, unless it has a unit, gets the one guessed from its name.  This holds for variables as well as for
dimensions, and for the dimensions at the variables. -/
theorem C57_units (env : Env β α) (mul : ℚ → α → α) (cmul : ℚ → β → β) (guess : String → Option String)
    (b : UBlock β α) (hb : WF b.blk) (hc : Clear b.blk) :
    ∃ b', guessUnit env mul cmul guess b = .ok b' ∧ WF b'.blk ∧
      varView b'.blk = (varView b.blk).map (fun p =>
        (nameOf p.1, scaled mul p.1 p.2.1, p.2.2.map fun l => relabelled cmul (guessed guess l))) ∧
      (dimView b'.blk).Perm ((dimView b.blk).map fun p =>
        (nameOf p.1, relabelled cmul (guessed guess p.2))) ∧
      ∀ k ∈ vnames b.blk, b'.units (nameOf k) = unitOf k ((b.units k).or (guess k)) := by
  obtain ⟨c, g1, g2, g3, g4, g5⟩ := C57_guess env guess b hb
  have hv : vnames c.blk = vnames b.blk := by
    rw [vnames_view, vnames_view, g3]; simp [Function.comp_def]
  have hd : (dnames c.blk).Perm (dnames b.blk) := by
    rw [dnames_view, dnames_view, g4]
    exact filter_perm _ _ fun _ => rfl
  have hn : (names c.blk).Perm (names b.blk) := by
    unfold names; rw [hv]; exact hd.append_left _
  have hc' : Clear c.blk := by
    refine ⟨?_, (hn.map _).nodup_iff.2 hc.distinct, ?_⟩
    · intro k hk n m u ht h
      exact hc.fresh k (hn.mem_iff.1 hk) n m u ht (hn.mem_iff.1 h)
    · rw [hv]; exact hc.noelem
  obtain ⟨b', f1, f2, f3, f4⟩ := C57_fix env mul cmul c g2 hc'
  refine ⟨b', by simp only [guessUnit, g1, f1], f2, ?_, ?_, ?_⟩
  · rw [f3.vars, g3, List.map_map]
    refine List.map_congr_left fun p _ => ?_
    simp [Function.comp]
  · rw [f3.dims, g4, List.map_append, List.map_map]
    have e : ((dimView b.blk).filter hasUnit).map (fun p => (nameOf p.1, relabelled cmul p.2)) =
        ((dimView b.blk).filter hasUnit).map fun p => (nameOf p.1, relabelled cmul (guessed guess p.2)) := by
      refine List.map_congr_left fun p hp => ?_
      obtain ⟨w, hw⟩ := Option.isSome_iff_exists.1 (List.mem_filter.1 hp).2
      obtain ⟨pn, ⟨a1, a2, a3, a4⟩⟩ := p
      simp only at hw
      subst hw
      rfl
    rw [e]
    have := (List.filter_append_perm hasUnit (dimView b.blk)).map
      fun p => (nameOf p.1, relabelled cmul (guessed guess p.2))
    rw [List.map_append] at this
    exact this
  · intro k hk
    rw [f4 k (hv ▸ hk), g5 k hk]

end HF.Readers.FixUnit
