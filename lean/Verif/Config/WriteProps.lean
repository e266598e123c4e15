import Verif.Config.Write
import Verif.Config.LoadProps
/-
C81: settings that are written to a file and read back.
-/
namespace HF
namespace Config

variable {F D T K A B C : Type}

/-! ### Specification -/

/-- Two documents say the same about every key and every element, up to the relation between scalars. -/
inductive Same [DecidableEq K] (R : A → B → Prop) : Yaml K A → Yaml K B → Prop
  | atom (a : A) (b : B) : R a b → Same R (.atom a) (.atom b)
  | anchor (n : Nat) (y : Yaml K A) (z : Yaml K B) : Same R y z → Same R (.anchor n y) z
  | map (es : List (K × Yaml K A)) (fs : List (K × Yaml K B)) : (∀ k, last es k = none ↔ last fs k = none) →
      (∀ k y z, last es k = some y → last fs k = some z → Same R y z) → Same R (.map es) (.map fs)
  | seq (l : List (Yaml K A)) (m : List (Yaml K B)) : l.length = m.length →
      (∀ (n : Nat) y z, l[n]? = some y → m[n]? = some z → Same R y z) → Same R (.seq l) (.seq m)

/-- All scalars of a document have a property. -/
inductive Atoms [DecidableEq K] (P : A → Prop) : Yaml K A → Prop
  | atom (a : A) : P a → Atoms P (.atom a)
  | anchor (n : Nat) (y : Yaml K A) : Atoms P y → Atoms P (.anchor n y)
  | map (es : List (K × Yaml K A)) : (∀ k y, last es k = some y → Atoms P y) → Atoms P (.map es)
  | seq (l : List (Yaml K A)) : (∀ (n : Nat) y, l[n]? = some y → Atoms P y) → Atoms P (.seq l)

/-- What comes back for a scalar: `b` is read where `a` was written. -/
def Back (c : Codec F D T) (detect : T → Tag) (allowed : T → Bool) (a b : Scalar F D T) : Prop :=
  readScalar c detect (emit detect allowed (represent c a)) = some b

/-- Texts of python's own scalars are read as what was written. -/
structure Codec.Faithful (c : Codec F D T) : Prop where
  bool : ∀ b, c.parseBool (c.boolText b) = some b
  int : ∀ n, c.parseInt (c.intText n) = some n
  noTime : ∀ n, c.timeLike (c.intText n) = false
  float : ∀ x, c.parseFloat (c.floatText x) = some x
  strFloat : ∀ x, c.parseFloat (c.strText x) = some x

/-! ### Scalars -/

/-- C81.  Whatever the resolvers make of a text: it is read with the tag it was written with. -/
theorem C81_tag (c : Codec F D T) (detect : T → Tag) (allowed : T → Bool) (g : Tag) (t : T) :
    readScalar c detect (emit detect allowed (g, t)) = constructScalar c g t := by
  rw [emit]
  by_cases h : (decide (detect t = g) && allowed t) = true
  · rw [if_pos h]
    rw [Bool.and_eq_true, decide_eq_true_eq] at h
    rw [readScalar, h.1]
  · rw [if_neg h]
    by_cases h2 : g = .str
    · rw [if_pos h2, h2]; rfl
    · rw [if_neg h2]; rfl

/-- C81.  Python's own scalars come back as they were.  A value of the kind SIValue without unit comes back as a plain
number. -/
theorem C81_scalar (c : Codec F D T) (hc : c.Faithful) (detect : T → Tag) (allowed : T → Bool) :
    Back c detect allowed .null .null ∧ (∀ b, Back c detect allowed (.bool b) (.bool b)) ∧
    (∀ n, Back c detect allowed (.int n) (.int n)) ∧ (∀ x, Back c detect allowed (.float x) (.float x)) ∧
    (∀ t, Back c detect allowed (.str t) (.str t)) ∧ (∀ x, Back c detect allowed (.si x none) (.float x)) := by
  refine ⟨?_, ?_, ?_, ?_, ?_, ?_⟩ <;> intros <;> unfold Back <;> rw [represent, C81_tag, constructScalar]
  · rw [hc.bool]; rfl
  · rw [hc.noTime, hc.int]; rfl
  · rw [hc.float]; rfl
  · rw [hc.strFloat]; rfl

/-- C81, the violations: values with unit, intervals and dates come back as text, whatever the resolvers are and even
if the text is one that they would recognise. -/
theorem C81_text_refuted (c : Codec F D T) (detect : T → Tag) (allowed : T → Bool) (b : Scalar F D T) :
    (∀ x u, Back c detect allowed (.si x (some u)) b ↔ b = .str (c.cat (c.strText x) u)) ∧
    (∀ us, Back c detect allowed (.interval us) b ↔ b = .str (c.intervalText us)) ∧
    (∀ d, Back c detect allowed (.date d) b ↔ b = .str (c.dateText d)) := by
  refine ⟨?_, ?_, ?_⟩ <;> intros <;> unfold Back <;> rw [represent, C81_tag, constructScalar] <;>
    exact ⟨fun h => (Option.some.inj h).symm, fun h => by rw [h]⟩

/-! ### Documents -/

variable [DecidableEq K]

/-- A document as `dump` writes it: no anchors, each key once. -/
inductive Clean : Yaml K A → Prop
  | atom (a : A) : Clean (.atom a)
  | map (es : List (K × Yaml K A)) : (es.map Prod.fst).Nodup → (∀ p, p ∈ es → Clean p.2) → Clean (.map es)
  | seq (l : List (Yaml K A)) : (∀ y, y ∈ l → Clean y) → Clean (.seq l)

theorem mem_of_lookup {V : Type} (es : List (K × V)) (k : K) (v : V) (h : es.lookup k = some v) : (k, v) ∈ es := by
  induction es with
  | nil => cases h
  | cons p es ih =>
    obtain ⟨k', v'⟩ := p
    rw [List.lookup_cons] at h
    by_cases hk : k = k'
    · subst hk; simp at h; subst h; exact List.mem_cons_self
    · have : (k == k') = false := by simpa using hk
      rw [this] at h
      exact List.mem_cons_of_mem _ (ih h)

theorem lookup_of_mem {V : Type} (es : List (K × V)) (hn : (es.map Prod.fst).Nodup) (k : K) (v : V)
    (h : (k, v) ∈ es) : es.lookup k = some v := by
  induction es with
  | nil => cases h
  | cons p es ih =>
    obtain ⟨k', v'⟩ := p
    rw [List.map_cons, List.nodup_cons] at hn
    rw [List.lookup_cons]
    rcases List.mem_cons.1 h with h' | h'
    · cases h'; simp
    · have hk : k ≠ k' := by
        rintro rfl
        exact hn.1 (List.mem_map.2 ⟨_, h', rfl⟩)
      have : (k == k') = false := by simpa using hk
      rw [this]
      exact ih hn.2 h'

theorem last_mem (es : List (K × Yaml K A)) (k : K) (y : Yaml K A) (h : last es k = some y) : (k, y) ∈ es :=
  List.mem_reverse.1 (mem_of_lookup _ _ _ h)

theorem last_of_mem (es : List (K × Yaml K A)) (hn : (es.map Prod.fst).Nodup) (k : K) (y : Yaml K A)
    (h : (k, y) ∈ es) : last es k = some y :=
  lookup_of_mem _ (by rw [List.map_reverse]; exact List.nodup_reverse.2 hn) _ _ (List.mem_reverse.2 h)

theorem mem_forall₂ {X Y : Type} {R : X → Y → Prop} {l : List X} {m : List Y} (h : List.Forall₂ R l m) :
    (∀ x ∈ l, ∃ y ∈ m, R x y) ∧ (∀ y ∈ m, ∃ x ∈ l, R x y) := by
  induction h with
  | nil => exact ⟨nofun, nofun⟩
  | cons a _ ih =>
    constructor
    · intro x hx
      rcases List.mem_cons.1 hx with rfl | hx
      · exact ⟨_, List.mem_cons_self, a⟩
      · obtain ⟨y, hy, r⟩ := ih.1 x hx; exact ⟨y, List.mem_cons_of_mem _ hy, r⟩
    · intro y hy
      rcases List.mem_cons.1 hy with rfl | hy
      · exact ⟨_, List.mem_cons_self, a⟩
      · obtain ⟨x, hx, r⟩ := ih.2 y hy; exact ⟨x, List.mem_cons_of_mem _ hx, r⟩

theorem get_forall₂ {X Y : Type} {R : X → Y → Prop} {l : List X} {m : List Y} (h : List.Forall₂ R l m) :
    l.length = m.length ∧ ∀ (n : Nat) x y, l[n]? = some x → m[n]? = some y → R x y := by
  induction h with
  | nil => exact ⟨rfl, fun n x y h => by cases h⟩
  | cons a _ ih =>
    refine ⟨by simp [ih.1], ?_⟩
    intro n x y h1 h2
    cases n with
    | zero => cases h1; cases h2; exact a
    | succ n => exact ih.2 n x y h1 h2

/-- Mappings with the same keys, each once, and related values. -/
theorem same_map {R : A → B → Prop} {es : List (K × Yaml K A)} {r fs : List (K × Yaml K B)}
    (hn : (es.map Prod.fst).Nodup) (hr : List.Forall₂ (fun p q => p.1 = q.1 ∧ Same R p.2 q.2) es r)
    (hp : fs.Perm r) : Same R (.map es) (.map fs) ∧ (fs.map Prod.fst).Nodup := by
  have hk : r.map Prod.fst = es.map Prod.fst := by
    clear hn hp
    induction hr with
    | nil => rfl
    | cons a _ ih => rw [List.map_cons, List.map_cons, ih, a.1]
  have hkp : (fs.map Prod.fst).Perm (es.map Prod.fst) := by
    rw [← hk]; exact hp.map _
  have hnf : (fs.map Prod.fst).Nodup := hkp.nodup_iff.2 hn
  refine ⟨.map _ _ ?_ ?_, hnf⟩
  · intro k
    rw [last_none_iff, last_none_iff, hkp.mem_iff]
  · intro k y z h1 h2
    have m1 := last_mem _ _ _ h1
    have m2 := hp.mem_iff.1 (last_mem _ _ _ h2)
    obtain ⟨⟨k', y'⟩, m3, e, s⟩ := (mem_forall₂ hr).2 _ m2
    simp only at e s
    subst e
    have := last_of_mem _ hn _ _ m3
    rw [h1] at this
    cases this
    exact s

theorem dumpMap_forall₂ (arr : {Z : Type} → List (K × Z) → List (K × Z)) (f : A → Option B)
    (es : List (K × Yaml K A)) (r : List (K × Yaml K B)) (h : dumpMap arr f es = some r) :
    List.Forall₂ (fun p q => p.1 = q.1 ∧ dump arr f p.2 = some q.2) es r := by
  induction es generalizing r with
  | nil => rw [dumpMap] at h; cases h; exact .nil
  | cons p es ih =>
    obtain ⟨k, y⟩ := p
    rw [dumpMap] at h
    cases e1 : dump arr f y with
    | none => rw [e1] at h; cases h
    | some z =>
      cases e2 : dumpMap arr f es with
      | none => rw [e1, e2] at h; cases h
      | some r' => rw [e1, e2] at h; cases h; exact .cons ⟨rfl, e1⟩ (ih _ e2)

theorem dumpSeq_forall₂ (arr : {Z : Type} → List (K × Z) → List (K × Z)) (f : A → Option B)
    (l : List (Yaml K A)) (r : List (Yaml K B)) (h : dumpSeq arr f l = some r) :
    List.Forall₂ (fun p q => dump arr f p = some q) l r := by
  induction l generalizing r with
  | nil => rw [dumpSeq] at h; cases h; exact .nil
  | cons y l ih =>
    rw [dumpSeq] at h
    cases e1 : dump arr f y with
    | none => rw [e1] at h; cases h
    | some z =>
      cases e2 : dumpSeq arr f l with
      | none => rw [e1, e2] at h; cases h
      | some r' => rw [e1, e2] at h; cases h; exact .cons e1 (ih _ e2)

theorem dump_same (arr : {Z : Type} → List (K × Z) → List (K × Z)) (harr : ∀ {Z : Type} (l : List (K × Z)), (arr l).Perm l)
    (f : A → Option B) (y : Yaml K A) (hy : Clean y) : ∀ w, dump arr f y = some w →
    Same (fun a b => f a = some b) y w ∧ Clean w := by
  induction hy with
  | atom a =>
    intro w h
    rw [dump] at h
    cases e : f a with
    | none => rw [e] at h; cases h
    | some b => rw [e] at h; cases h; exact ⟨.atom _ _ e, .atom _⟩
  | map es hn hcl ih =>
    intro w h
    rw [dump] at h
    cases e : dumpMap arr f es with
    | none => rw [e] at h; cases h
    | some r =>
      rw [e] at h; cases h
      have h2 := dumpMap_forall₂ arr f es r e
      have h3 : List.Forall₂ (fun p q => p.1 = q.1 ∧ Same (fun a b => f a = some b) p.2 q.2) es r := by
        clear e hn
        induction h2 with
        | nil => exact .nil
        | cons a _ ih2 =>
          exact .cons ⟨a.1, (ih _ List.mem_cons_self _ a.2).1⟩ (ih2 (fun p hp => hcl p (List.mem_cons_of_mem _ hp))
            fun p hp => ih p (List.mem_cons_of_mem _ hp))
      obtain ⟨g1, g2⟩ := same_map hn h3 (harr r)
      refine ⟨g1, .map _ g2 ?_⟩
      intro q hq
      obtain ⟨p, hp, _, e2⟩ := (mem_forall₂ h2).2 q ((harr r).mem_iff.1 hq)
      exact (ih p hp _ e2).2
  | seq l _ ih =>
    intro w h
    rw [dump] at h
    cases e : dumpSeq arr f l with
    | none => rw [e] at h; cases h
    | some r =>
      rw [e] at h; cases h
      have h2 := dumpSeq_forall₂ arr f l r e
      obtain ⟨g1, g2⟩ := get_forall₂ h2
      refine ⟨.seq _ _ g1 ?_, .seq _ ?_⟩
      · intro n y z e1 e2
        exact (ih y (List.mem_of_getElem? e1) _ (g2 n y z e1 e2)).1
      · intro z hz
        obtain ⟨y, hy, e2⟩ := (mem_forall₂ h2).2 z hz
        exact (ih y hy _ e2).2

theorem dump_total (arr : {Z : Type} → List (K × Z) → List (K × Z)) (f : A → Option B) (y : Yaml K A) (hy : Clean y) :
    Atoms (fun a => (f a).isSome) y → (dump arr f y).isSome := by
  induction hy with
  | atom a =>
    intro h
    cases h with
    | atom _ h => rw [dump, Option.isSome_map]; exact h
  | map es hn _ ih =>
    intro h
    cases h with
    | map _ h =>
      rw [dump, Option.isSome_map]
      have h1 : ∀ p ∈ es, (dump arr f p.2).isSome := fun p hp => ih p hp (h p.1 p.2 (last_of_mem es hn _ _ hp))
      clear ih h hn
      induction es with
      | nil => rw [dumpMap]; rfl
      | cons p es ih =>
        obtain ⟨k, y⟩ := p
        obtain ⟨z, hz⟩ := Option.isSome_iff_exists.1 (h1 (k, y) List.mem_cons_self)
        obtain ⟨r, hr⟩ := Option.isSome_iff_exists.1 (ih (fun q hq => by rename_i hc; exact hc q (List.mem_cons_of_mem _ hq))
          fun q hq => h1 q (List.mem_cons_of_mem _ hq))
        rw [dumpMap, hz, hr]; rfl
  | seq l _ ih =>
    intro h
    cases h with
    | seq _ h =>
      rw [dump, Option.isSome_map]
      have h1 : ∀ y ∈ l, (dump arr f y).isSome := by
        intro y hy
        obtain ⟨n, hn⟩ := List.mem_iff_getElem?.1 hy
        exact ih y hy (h n y hn)
      clear ih h
      induction l with
      | nil => rw [dumpSeq]; rfl
      | cons y l ih =>
        obtain ⟨z, hz⟩ := Option.isSome_iff_exists.1 (h1 y List.mem_cons_self)
        obtain ⟨r, hr⟩ := Option.isSome_iff_exists.1 (ih (fun q hq => by rename_i hc; exact hc q (List.mem_cons_of_mem _ hq))
          fun q hq => h1 q (List.mem_cons_of_mem _ hq))
        rw [dumpSeq, hz, hr]; rfl

theorem Same.trans {R : A → B → Prop} {S : B → C → Prop} {y : Yaml K A} {z : Yaml K B} (h1 : Same R y z) :
    ∀ {w : Yaml K C}, Same S z w → Same (fun a c => ∃ b, R a b ∧ S b c) y w := by
  induction h1 with
  | atom a b r => intro w h2; cases h2 with | atom _ c s => exact .atom _ _ ⟨b, r, s⟩
  | anchor n y z _ ih => intro w h2; exact .anchor _ _ _ (ih h2)
  | map es fs e1 _ ih =>
    intro w h2
    cases h2 with
    | map _ gs e2 g2 =>
      refine .map _ _ (fun k => (e1 k).trans (e2 k)) ?_
      intro k y w a b
      cases e : last fs k with
      | none => rw [(e1 k).2 e] at a; cases a
      | some z => exact ih k y z a e (g2 k z w e b)
  | seq l m e1 _ ih =>
    intro w h2
    cases h2 with
    | seq _ q e2 g2 =>
      refine .seq _ _ (e1.trans e2) ?_
      intro n y w a b
      have hn : n < m.length := by rw [← e1]; exact lt_of_get a
      have e : m[n]? = some m[n] := List.getElem?_eq_getElem hn
      exact ih n y _ a e (g2 n _ w e b)

theorem Same.mono {R S : A → B → Prop} (hRS : ∀ a b, R a b → S a b) {y : Yaml K A} {z : Yaml K B} (h : Same R y z) :
    Same S y z := by
  induction h with
  | atom a b r => exact .atom _ _ (hRS _ _ r)
  | anchor n y z _ ih => exact .anchor _ _ _ ih
  | map es fs e _ ih => exact .map _ _ e ih
  | seq l m e _ ih => exact .seq _ _ e ih

theorem Same.atoms {R : A → B → Prop} {P : A → Prop} {Q : B → Prop} (hPQ : ∀ a b, R a b → P a → Q b)
    {y : Yaml K A} {z : Yaml K B} (h : Same R y z) : Atoms P y → Atoms Q z := by
  induction h with
  | atom a b r => intro h; cases h with | atom _ h => exact .atom _ (hPQ _ _ r h)
  | anchor n y z _ ih => intro h; cases h with | anchor _ _ h => exact ih h
  | map es fs e _ ih =>
    intro h
    cases h with
    | map _ h =>
      refine .map _ ?_
      intro k z hz
      cases e' : last es k with
      | none => rw [(e k).1 e'] at hz; cases hz
      | some y => exact ih k y z e' hz (h k y e')
  | seq l m e _ ih =>
    intro h
    cases h with
    | seq _ h =>
      refine .seq _ ?_
      intro n z hz
      have hn : n < l.length := by rw [e]; exact lt_of_get hz
      have e' : l[n]? = some l[n] := List.getElem?_eq_getElem hn
      exact ih n _ z e' hz (h n _ e')

theorem mapM_forall₂ {X Y : Type} (f : X → Option Y) (l : List X) (h : ∀ x ∈ l, (f x).isSome) :
    ∃ r, l.mapM f = some r ∧ List.Forall₂ (fun x y => f x = some y) l r := by
  induction l with
  | nil => exact ⟨[], rfl, .nil⟩
  | cons x l ih =>
    obtain ⟨y, hy⟩ := Option.isSome_iff_exists.1 (h x List.mem_cons_self)
    obtain ⟨r, hr, hf⟩ := ih fun z hz => h z (List.mem_cons_of_mem _ hz)
    exact ⟨y :: r, by rw [List.mapM_cons, hy, hr]; rfl, .cons hy hf⟩

/-- The tree of a dictionary, given those of its values. -/
theorem standard_dict {h : List (Obj K A)} {n i : Nat} {p : Option Nat} {ents : List (K × Val A)}
    {es : List (K × Yaml K A)} (ho : h[i]? = some ⟨.dict ents, p⟩)
    (hk : ∀ k, ents.lookup k = none ↔ last es k = none) (hn : (ents.map Prod.fst).Nodup)
    (hv : ∀ k v y, ents.lookup k = some v → last es k = some y →
      ∃ z, standard h n v = some z ∧ Same Eq y z ∧ Clean z) :
    ∃ z, standard h (n + 1) (.ref i) = some z ∧ Same Eq (.map es) z ∧ Clean z ∧ ∃ fs, z = .map fs := by
  have hv' : ∀ q ∈ ents, ∃ y z, last es q.1 = some y ∧ standard h n q.2 = some z ∧ Same Eq y z ∧ Clean z := by
    intro q hq
    have e1 := lookup_of_mem ents hn q.1 q.2 hq
    cases e2 : last es q.1 with
    | none => rw [(hk q.1).2 e2] at e1; cases e1
    | some y => obtain ⟨z, hz⟩ := hv _ _ _ e1 e2; exact ⟨y, z, rfl, hz⟩
  obtain ⟨r, hr, hf⟩ := mapM_forall₂ (fun p : K × Val A => (standard h n p.2).map fun z => (p.1, z)) ents (by
    intro q hq
    obtain ⟨y, z, _, hz, _⟩ := hv' q hq
    rw [hz]; rfl)
  have hkr : r.map Prod.fst = ents.map Prod.fst := by
    clear hv' hr hv hn hk ho
    induction hf with
    | nil => rfl
    | cons a _ ih =>
      rename_i x y _ _ _
      cases e : standard h n x.2 with
      | none => rw [e] at a; cases a
      | some z => rw [e] at a; cases a; rw [List.map_cons, List.map_cons, ih]
  have hnr : (r.map Prod.fst).Nodup := by rw [hkr]; exact hn
  refine ⟨.map r, by rw [standard, ho]; simp only [hr]; rfl, .map _ _ ?_ ?_, .map _ hnr ?_, r, rfl⟩
  · intro k
    rw [← hk k, last_none_iff, hkr, lookup_none_iff]
  · intro k y z e1 e2
    obtain ⟨x, hx, e3⟩ := (mem_forall₂ hf).2 _ (last_mem _ _ _ e2)
    obtain ⟨y', z', e4, e5, e6, _⟩ := hv' x hx
    rw [e5] at e3
    cases e3
    rw [e4] at e1
    cases e1
    exact e6
  · intro q hq
    obtain ⟨x, hx, e3⟩ := (mem_forall₂ hf).2 _ hq
    obtain ⟨y', z', e4, e5, e6, e7⟩ := hv' x hx
    rw [e5] at e3
    cases e3
    exact e7

theorem standard_ok {h : List (Obj K A)} {hi lo : Nat} {p : Option Nat} {v : Val A} {y : Yaml K A}
    (H : Loaded h hi lo p v y) : ∀ n, hi < n + lo → ∃ z, standard h n v = some z ∧ Same Eq y z ∧ Clean z := by
  induction H with
  | atom lo p a => intro n _; exact ⟨.atom a, by cases n <;> rfl, .atom _ _ rfl, .atom _⟩
  | anchor lo p n v y _ ih =>
    intro m hm
    obtain ⟨z, h1, h2, h3⟩ := ih m hm
    exact ⟨z, h1, .anchor _ _ _ h2, h3⟩
  | map lo i p ents es h1 h2 h3 h4 _ ih =>
    intro n hn
    cases n with
    | zero => omega
    | succ n =>
      obtain ⟨z, g1, g2, g3, _⟩ := standard_dict h3 (n := n) (es := es)
        (fun k => by rw [lookup_none_iff, last_none_iff, h4, List.mem_eraseDups])
        (by rw [h4]; exact nodup_eraseDups _ _ (Nat.le_refl _))
        fun k v y e1 e2 => ih k v y e1 e2 n (by omega)
      exact ⟨z, g1, g2, g3⟩
  | seq lo i p vs ys h1 h2 h3 h4 _ ih =>
    intro n hn
    cases n with
    | zero => omega
    | succ n =>
      have hv' : ∀ (m : Nat) v, vs[m]? = some v → ∃ y z, ys[m]? = some y ∧ standard h n v = some z ∧ Same Eq y z ∧ Clean z := by
        intro m v hm
        have hl : m < ys.length := by rw [← h4]; exact lt_of_get hm
        have e : ys[m]? = some ys[m] := List.getElem?_eq_getElem hl
        obtain ⟨z, hz⟩ := ih m v _ hm e n (by omega)
        exact ⟨_, z, e, hz⟩
      obtain ⟨r, hr, hf⟩ := mapM_forall₂ (standard h n) vs (by
        intro v hv
        obtain ⟨m, hm⟩ := List.mem_iff_getElem?.1 hv
        obtain ⟨y, z, _, hz, _⟩ := hv' m v hm
        rw [hz]; rfl)
      obtain ⟨g1, g2⟩ := get_forall₂ hf
      refine ⟨.seq r, by rw [standard, h3]; simp only [hr]; rfl, .seq _ _ (h4.symm.trans g1) ?_, .seq _ ?_⟩
      · intro m y z e1 e2
        have hl : m < vs.length := by rw [h4]; exact lt_of_get e1
        have e : vs[m]? = some vs[m] := List.getElem?_eq_getElem hl
        obtain ⟨y', z', a1, a2, a3, _⟩ := hv' m _ e
        rw [e1] at a1; cases a1
        rw [g2 m _ _ e e2] at a2; cases a2
        exact a3
      · intro z hz
        obtain ⟨v, hv, e⟩ := (mem_forall₂ hf).2 z hz
        obtain ⟨m, hm⟩ := List.mem_iff_getElem?.1 hv
        obtain ⟨y', z', a1, a2, a3, a4⟩ := hv' m _ hm
        rw [e] at a2; cases a2
        exact a4

theorem Same.of_node {R : A → B → Prop} : ∀ (y : Yaml K A) {z : Yaml K B}, Same R (node y) z → Same R y z
  | .atom _, _, h => h
  | .map _, _, h => h
  | .seq _, _, h => h
  | .aliased _, _, h => h
  | .anchor _ y, _, h => .anchor _ _ _ (Same.of_node y (by rw [node] at h; exact h))

theorem Same.node {R : A → B → Prop} {y : Yaml K A} {z : Yaml K B} (h : Same R y z) : Same R (Config.node y) z := by
  induction h with
  | atom a b r => exact .atom _ _ r
  | anchor n y z _ ih => exact ih
  | map es fs e g _ => exact .map _ _ e g
  | seq l m e g _ => exact .seq _ _ e g

theorem Same.node_right {R : A → B → Prop} {y : Yaml K A} {z : Yaml K B} (h : Same R y z) : Config.node z = z := by
  induction h with
  | atom a b r => rfl
  | anchor n y z _ ih => exact ih
  | map es fs e g _ => rfl
  | seq l m e g _ => rfl

theorem same_walk (R : A → B → Prop) : ∀ (p : List (Step K)) (s : List (List (K × Yaml K A)))
    (t : List (List (K × Yaml K B))) (y : Yaml K A) (z : Yaml K B) (s' : List (List (K × Yaml K A))) (y' : Yaml K A),
    List.Forall₂ (fun es fs => Same R (.map es) (.map fs)) s t → Same R y z → walk p s y = some (s', y') →
    ∃ t' z', walk p t z = some (t', z') ∧ List.Forall₂ (fun es fs => Same R (.map es) (.map fs)) s' t' ∧ Same R y' z'
  | [], s, t, y, z, s', y', hs, H, hw => by
    simp only [walk, Option.some.injEq, Prod.mk.injEq] at hw
    obtain ⟨rfl, rfl⟩ := hw
    exact ⟨t, z, by rw [walk, H.node_right], hs, H.node⟩
  | .key k :: p, s, t, y, z, s', y', hs, H, hw => by
    have H' := H.node
    rw [walk] at hw
    rw [walk, H.node_right]
    generalize Config.node y = u at H' hw
    cases H' with
    | atom => cases hw
    | anchor => cases hw
    | seq => cases hw
    | map es fs e g =>
      simp only at hw ⊢
      cases e1 : last es k with
      | none => rw [e1] at hw; cases hw
      | some y1 =>
        rw [e1] at hw
        cases e2 : last fs k with
        | none => rw [(e k).2 e2] at e1; cases e1
        | some z1 =>
          exact same_walk R p _ _ y1 z1 s' y' (.cons (.map es fs e g) hs) (g k y1 z1 e1 e2) hw
  | .idx n :: p, s, t, y, z, s', y', hs, H, hw => by
    have H' := H.node
    rw [walk] at hw
    rw [walk, H.node_right]
    generalize Config.node y = u at H' hw
    cases H' with
    | atom => cases hw
    | anchor => cases hw
    | map => cases hw
    | seq l m e g =>
      simp only at hw ⊢
      cases e1 : l[n]? with
      | none => rw [e1] at hw; cases hw
      | some y1 =>
        rw [e1] at hw
        have hn : n < m.length := by rw [← e]; exact lt_of_get e1
        have e2 : m[n]? = some m[n] := List.getElem?_eq_getElem hn
        rw [e2]
        exact same_walk R p _ _ y1 _ s' y' hs (g n y1 _ e1 e2) hw

theorem same_find (R : A → B → Prop) {s : List (List (K × Yaml K A))} {t : List (List (K × Yaml K B))}
    (h : List.Forall₂ (fun es fs => Same R (.map es) (.map fs)) s t) (k : K) :
    (s.findSome? (last · k) = none ∧ t.findSome? (last · k) = none) ∨
    ∃ y z, s.findSome? (last · k) = some y ∧ t.findSome? (last · k) = some z ∧ Same R y z := by
  induction h with
  | nil => exact Or.inl ⟨rfl, rfl⟩
  | cons a _ ih =>
    rename_i es fs _ _ _
    rw [List.findSome?_cons, List.findSome?_cons]
    cases a with
    | map _ _ e g =>
      cases e1 : last es k with
      | none =>
        rw [(e k).1 e1]
        exact ih
      | some y =>
        cases e2 : last fs k with
        | none => rw [(e k).2 e2] at e1; cases e1
        | some z => exact Or.inr ⟨y, z, rfl, rfl, g k y z e1 e2⟩

mutual
theorem noAlias_clean : ∀ (y : Yaml K A), Clean y → noAlias y = true
  | .atom _, _ => rfl
  | .map es, h => by cases h with | map _ _ h => rw [noAlias]; exact noAliasMap_clean es h
  | .seq l, h => by cases h with | seq _ h => rw [noAlias]; exact noAliasSeq_clean l h
  | .anchor _ _, h => nomatch h
  | .aliased _, h => nomatch h

theorem noAliasMap_clean : ∀ (es : List (K × Yaml K A)), (∀ p, p ∈ es → Clean p.2) → noAliasMap es = true
  | [], _ => rfl
  | (k, y) :: es, h => by
    rw [noAliasMap, noAlias_clean y (h (k, y) List.mem_cons_self),
      noAliasMap_clean es fun p hp => h p (List.mem_cons_of_mem _ hp)]
    rfl

theorem noAliasSeq_clean : ∀ (l : List (Yaml K A)), (∀ y, y ∈ l → Clean y) → noAliasSeq l = true
  | [], _ => rfl
  | y :: l, h => by
    rw [noAliasSeq, noAlias_clean y (h y List.mem_cons_self),
      noAliasSeq_clean l fun p hp => h p (List.mem_cons_of_mem _ hp)]
    rfl
end

/-- What `convert_to_standard` makes of a configuration that was loaded. -/
theorem load_standard (y : Yaml K A) (es : List (K × Yaml K A)) (hy : node y = .map es) (hn : noAlias y = true)
    (h : List (Obj K A)) (hl : load y = .ok h) :
    ∃ z fs, standard h (h.length + 1) (.ref 0) = some z ∧ Same Eq y z ∧ Clean z ∧ z = .map fs := by
  obtain ⟨h', r, e0, ents, h1, h2, h3, h4, h5, h6, h7⟩ := load_ok y es hy hn
  rw [hl] at h1
  cases h1
  subst h5
  obtain ⟨z, g1, g2, g3, fs, g4⟩ := standard_dict h2 (n := h.length) (es := es)
    (fun k => by rw [lookup_none_iff, last_none_iff, h6, List.mem_eraseDups])
    (by rw [h6]; exact nodup_eraseDups _ _ (Nat.le_refl _))
    fun k v y e1 e2 => standard_ok (h7 k v y e1 e2) h.length (by omega)
  exact ⟨z, fs, g1, Same.of_node y (by rw [hy]; exact g2), g3, g4⟩

/-! ### C81 -/

/-- C81.  A configuration that was loaded from a file without aliases is written and loaded again, the scalars being of
kinds that can be read back.  Both configurations have dictionaries at the same places, lookups of a key in these fail
in both or in none, and what they give is the same in both, up to what has become of the scalars (`Back`, see
`C81_scalar`, `C81_text_refuted`).  The order in which the keys are written does not matter. -/
theorem C81_roundtrip (c : Codec F D T) (detect : T → Tag) (allowed : T → Bool)
    (arr : {Z : Type} → List (K × Z) → List (K × Z)) (harr : ∀ {Z : Type} (l : List (K × Z)), (arr l).Perm l)
    (y : Yaml K (Scalar F D T)) (es : List (K × Yaml K (Scalar F D T))) (hy : node y = .map es) (hn : noAlias y = true)
    (ha : Atoms (fun a => ∃ b, Back c detect allowed a b) y) :
    ∃ h w h', load y = .ok h ∧ write c detect allowed arr h = some w ∧ loadFile c detect w = .ok h' ∧
      ∀ (p : List (Step K)) s es', walk p [] y = some (s, .map es') →
        ∃ i j, follow h p (.ref 0) = some (.ref i) ∧ follow h' p (.ref 0) = some (.ref j) ∧ ∀ k,
          (lookupAt h i k = none ∧ lookupAt h' j k = none) ∨
          ∃ v v' z z', lookupAt h i k = some v ∧ lookupAt h' j k = some v' ∧ Means h v z ∧ Means h' v' z' ∧
            Same (Back c detect allowed) z z' ∧
            ∀ a, v = .atom a → ∃ b, v' = .atom b ∧ Back c detect allowed a b := by
  obtain ⟨h, hl, hlook⟩ := C80_lookup y es hy hn
  obtain ⟨z, fs, g1, g2, g3, g4⟩ := load_standard y es hy hn h hl
  have ha' : Atoms (fun a => ∃ b, Back c detect allowed a b) z := g2.atoms (fun a b e h => by rw [← e]; exact h) ha
  obtain ⟨w, hw⟩ := Option.isSome_iff_exists.1 (dump_total arr (fun a => some (emit detect allowed (represent c a))) z g3
    (g2.atoms (P := fun a => ∃ b, Back c detect allowed a b) (fun _ _ _ _ => rfl) ha))
  obtain ⟨w1, w2⟩ := dump_same arr harr _ z g3 w hw
  have hat : Atoms (fun e => (readScalar c detect e).isSome) w := by
    refine w1.atoms (P := fun a => ∃ b, Back c detect allowed a b) ?_ ha'
    rintro a e he ⟨b, hb⟩
    cases he
    rw [show readScalar c detect (emit detect allowed (represent c a)) = some b from hb]; rfl
  obtain ⟨u, hu⟩ := Option.isSome_iff_exists.1 (dump_total (fun l => l) (readScalar c detect) w w2 hat)
  obtain ⟨u1, u2⟩ := dump_same (fun l => l) (fun l => .refl l) _ w w2 u hu
  have hS : Same (Back c detect allowed) y u := by
    refine ((g2.trans w1).trans u1).mono ?_
    rintro a b ⟨e, ⟨a', rfl, he⟩, hr⟩
    cases he
    exact hr
  have hum : ∃ us, node u = .map us := by
    have := hS.node
    rw [hy] at this
    rw [hS.node_right]
    cases this with
    | map _ us => exact ⟨us, rfl⟩
  obtain ⟨us, hus⟩ := hum
  obtain ⟨h', hl', hlook'⟩ := C80_lookup u us hus (noAlias_clean u u2)
  refine ⟨h, w, h', hl, by unfold write; rw [g1]; exact hw, by unfold loadFile; rw [hu]; exact hl', ?_⟩
  intro p s es' hp
  obtain ⟨t', z', hp', hf, hz⟩ := same_walk _ p [] [] y u s (.map es') .nil hS hp
  cases hz with
  | map _ fs' e g =>
    obtain ⟨i, hi, hki⟩ := hlook p s es' hp
    obtain ⟨j, hj, hkj⟩ := hlook' p t' fs' hp'
    refine ⟨i, j, hi, hj, ?_⟩
    intro k
    have hi' := hki k
    have hj' := hkj k
    rcases same_find _ (.cons (.map es' fs' e g) hf : List.Forall₂ (fun es fs => Same (Back c detect allowed) (.map es) (.map fs)) (es' :: s) (fs' :: t')) k with ⟨e1, e2⟩ | ⟨y1, z1, e1, e2, hs⟩
    · rw [e1] at hi'; rw [e2] at hj'
      exact Or.inl ⟨hi', hj'⟩
    · rw [e1] at hi'; rw [e2] at hj'
      obtain ⟨v, hv, hm⟩ := hi'
      obtain ⟨v', hv', hm'⟩ := hj'
      refine Or.inr ⟨v, v', y1, z1, hv, hv', hm, hm', hs, ?_⟩
      rintro a rfl
      have hy1 : node y1 = .atom a := by
        obtain ⟨_, _, hm⟩ := hm
        have := hm.node
        have hne := node_ne_anchor y1
        generalize node y1 = q at this hne
        cases this with
        | atom => rfl
        | anchor => exact absurd rfl (hne _ _)
      have hs' := hs.node
      rw [hy1] at hs'
      cases hs' with
      | atom _ b hb =>
        obtain ⟨_, _, hm'⟩ := hm'
        cases hm'
        exact ⟨b, rfl, hb⟩

theorem atoms_clean {P : A → Prop} (hP : ∀ a, P a) {y : Yaml K A} (hy : Clean y) : Atoms P y := by
  induction hy with
  | atom a => exact .atom _ (hP a)
  | map es _ _ ih => exact .map _ fun k y h => ih _ (last_mem _ _ _ h)
  | seq l _ ih => exact .seq _ fun n y h => ih _ (List.mem_of_getElem? h)

/-- C81 for settings however they came about, also by assignments: `z` is what the configuration contains, as a tree of
dictionaries, lists and scalars.  Lookups in the configuration that is read back give what `z` says from the inside
out, up to what has become of the scalars. -/
theorem C81_written (c : Codec F D T) (detect : T → Tag) (allowed : T → Bool)
    (arr : {Z : Type} → List (K × Z) → List (K × Z)) (harr : ∀ {Z : Type} (l : List (K × Z)), (arr l).Perm l)
    (h : List (Obj K (Scalar F D T))) (fs : List (K × Yaml K (Scalar F D T)))
    (hz : standard h (h.length + 1) (.ref 0) = some (.map fs)) (hc : Clean (.map fs))
    (ha : Atoms (fun a => ∃ b, Back c detect allowed a b) (.map fs)) :
    ∃ w h', write c detect allowed arr h = some w ∧ loadFile c detect w = .ok h' ∧
      ∀ (p : List (Step K)) s es', walk p [] (.map fs) = some (s, .map es') →
        ∃ j, follow h' p (.ref 0) = some (.ref j) ∧ ∀ k,
          match (es' :: s).findSome? (last · k) with
          | none => lookupAt h' j k = none
          | some z => ∃ v' z', lookupAt h' j k = some v' ∧ Means h' v' z' ∧ Same (Back c detect allowed) z z' := by
  obtain ⟨w, hw⟩ := Option.isSome_iff_exists.1 (dump_total arr (fun a => some (emit detect allowed (represent c a))) _ hc
    (atoms_clean (fun _ => rfl) hc))
  obtain ⟨w1, w2⟩ := dump_same arr harr _ _ hc w hw
  have hat : Atoms (fun e => (readScalar c detect e).isSome) w := by
    refine w1.atoms (P := fun a => ∃ b, Back c detect allowed a b) ?_ ha
    rintro a e he ⟨b, hb⟩
    cases he
    rw [show readScalar c detect (emit detect allowed (represent c a)) = some b from hb]; rfl
  obtain ⟨u, hu⟩ := Option.isSome_iff_exists.1 (dump_total (fun l => l) (readScalar c detect) w w2 hat)
  obtain ⟨u1, u2⟩ := dump_same (fun l => l) (fun l => .refl l) _ w w2 u hu
  have hS : Same (Back c detect allowed) (.map fs) u := by
    refine (w1.trans u1).mono ?_
    rintro a b ⟨e, he, hr⟩
    cases he
    exact hr
  have hum : ∃ us, node u = .map us := by
    rw [hS.node_right]
    cases hS with
    | map _ us => exact ⟨us, rfl⟩
  obtain ⟨us, hus⟩ := hum
  obtain ⟨h', hl', hlook'⟩ := C80_lookup u us hus (noAlias_clean u u2)
  refine ⟨w, h', by unfold write; rw [hz]; exact hw, by unfold loadFile; rw [hu]; exact hl', ?_⟩
  intro p s es' hp
  obtain ⟨t', z', hp', hf, hz'⟩ := same_walk _ p [] [] _ u s (.map es') .nil hS hp
  cases hz' with
  | map _ fs' e g =>
    obtain ⟨j, hj, hkj⟩ := hlook' p t' fs' hp'
    refine ⟨j, hj, ?_⟩
    intro k
    have hj' := hkj k
    rcases same_find _ (.cons (.map es' fs' e g) hf :
        List.Forall₂ (fun es fs => Same (Back c detect allowed) (.map es) (.map fs)) (es' :: s) (fs' :: t')) k with
      ⟨e1, e2⟩ | ⟨y1, z1, e1, e2, hs⟩
    · rw [e1]; rw [e2] at hj'
      exact hj'
    · rw [e1]; rw [e2] at hj'
      obtain ⟨v', hv', hm'⟩ := hj'
      exact ⟨v', z1, hv', hm', hs⟩

/-- C81, the violation with paths: a configuration with a path anywhere in it is written, but the file can not be
loaded. -/
theorem C81_path_refuted (c : Codec F D T) (detect : T → Tag) (allowed : T → Bool)
    (arr : {Z : Type} → List (K × Z) → List (K × Z)) (harr : ∀ {Z : Type} (l : List (K × Z)), (arr l).Perm l)
    (h : List (Obj K (Scalar F D T))) (z : Yaml K (Scalar F D T))
    (hz : standard h (h.length + 1) (.ref 0) = some z) (hc : Clean z)
    (p : List (Step K)) (s : List (List (K × Yaml K (Scalar F D T)))) (t : T)
    (hp : walk p [] z = some (s, .atom (.path t))) :
    ∃ w, write c detect allowed arr h = some w ∧ loadFile c detect w = .error .yaml := by
  obtain ⟨w, hw⟩ := Option.isSome_iff_exists.1 (dump_total arr (fun a => some (emit detect allowed (represent c a))) z hc
    (atoms_clean (fun _ => rfl) hc))
  obtain ⟨w1, w2⟩ := dump_same arr harr _ z hc w hw
  refine ⟨w, by unfold write; rw [hz]; exact hw, ?_⟩
  unfold loadFile
  cases hu : dump (fun l => l) (readScalar c detect) w with
  | none => rfl
  | some u =>
    obtain ⟨u1, _⟩ := dump_same (fun l => l) (fun l => .refl l) _ w w2 u hu
    have hS : Same (Back c detect allowed) z u := by
      refine (w1.trans u1).mono ?_
      rintro a b ⟨e, he, hr⟩
      cases he
      exact hr
    obtain ⟨_, z', _, _, hz'⟩ := same_walk _ p [] [] _ u s _ .nil hS hp
    cases hz' with
    | atom _ b hb =>
      unfold Back at hb
      rw [represent, C81_tag, constructScalar] at hb
      cases hb

namespace WriteEx

/-- Texts as lists of characters; numbers as their own texts. -/
def codec : Codec Nat Nat (List Nat) where
  nullText := [0]
  boolText b := [if b then 1 else 0]
  intText n := match n with | .ofNat m => [2, m] | .negSucc m => [3, m]
  floatText x := [4, x]
  strText x := [4, x]
  cat a b := a ++ b
  intervalText us := [5, us.toNat]
  dateText d := [6, d]
  parseBool t := match t with | [1] => some true | [0] => some false | _ => none
  parseInt t := match t with | [2, m] => some (.ofNat m) | [3, m] => some (.negSucc m) | _ => none
  parseFloat t := match t with | [4, x] => some x | _ => none
  parseSI t := match t with | 4 :: x :: u => some (x, if u = [] then none else some u) | _ => none
  parsePercent _ := none
  parseInterval t := match t with | [5, n] => some n | _ => none
  parseDate t := match t with | [6, d] => some d | _ => none
  timeLike t := match t with | 7 :: _ => true | _ => false
  parseTime _ := none

example : codec.Faithful where
  bool b := by cases b <;> rfl
  int n := by cases n <;> rfl
  noTime n := by cases n <;> rfl
  float _ := rfl
  strFloat _ := rfl

/-- Texts are recognised by their first character, as values with unit also. -/
def detect : List Nat → Tag
  | [0] => .null
  | [2, _] => .int
  | [4, _] => .float
  | [4, _, _] => .sivalue
  | [5, _] => .interval
  | _ => .str

def doc : Yaml Char (Scalar Nat Nat (List Nat)) := .map [('f', .atom (.si 3 (some [8]))), ('a', .anchor 0 (.map [('n', .atom (.int 2)),
  ('l', .seq [.map [('t', .atom (.interval 9))]])])), ('f', .atom (.si 4 (some [8])))]

example : noAlias doc = true ∧ ∃ es, node doc = .map es := ⟨rfl, _, rfl⟩
example : Atoms (fun a => ∃ b, Back codec detect (fun _ => true) a b) doc := by
  refine .map _ ?_
  intro k y h
  have := last_mem _ _ _ h
  simp only [List.mem_cons, Prod.mk.injEq, List.not_mem_nil, or_false] at this
  rcases this with ⟨_, rfl⟩ | ⟨_, rfl⟩ | ⟨_, rfl⟩
  · exact .atom _ ⟨_, rfl⟩
  · refine .anchor _ _ (.map _ ?_)
    intro k y h
    have := last_mem _ _ _ h
    simp only [List.mem_cons, Prod.mk.injEq, List.not_mem_nil, or_false] at this
    rcases this with ⟨_, rfl⟩ | ⟨_, rfl⟩
    · exact .atom _ ⟨_, rfl⟩
    · refine .seq _ ?_
      intro n y h
      have := List.mem_of_getElem? h
      simp only [List.mem_cons, List.not_mem_nil, or_false] at this
      subst this
      refine .map _ ?_
      intro k y h
      have := last_mem _ _ _ h
      simp only [List.mem_cons, Prod.mk.injEq, List.not_mem_nil, or_false] at this
      obtain ⟨_, rfl⟩ := this
      exact .atom _ ⟨_, rfl⟩
  · exact .atom _ ⟨_, rfl⟩

/-- The file says `4Hz` in quotes; it comes back as text. -/
example : ∃ h w h', load doc = .ok h ∧ write codec detect (fun _ => true) (fun l => l) h = some w ∧
    loadFile codec detect w = .ok h' ∧ lookupAt h 2 'f' = some (.atom (.si 4 (some [8]))) ∧
    lookupAt h' 2 'f' = some (.atom (.str [4, 4, 8])) ∧ lookupAt h' 2 'n' = some (.atom (.int 2)) := by
  refine ⟨_, _, _, rfl, rfl, rfl, ?_⟩
  decide +kernel

/-- A configuration to which a path was assigned. -/
def withPath : List (Obj Char (Scalar Nat Nat (List Nat))) := [⟨.dict [('p', .atom (.path [1])), ('n', .atom .null)], none⟩]

example : ∃ z, standard withPath (withPath.length + 1) (.ref 0) = some z ∧ Clean z ∧
    ∃ s, walk [.key 'p'] [] z = some (s, .atom (.path [1])) := by
  refine ⟨.map [('p', .atom (.path [1])), ('n', .atom .null)], rfl, .map _ (by decide) ?_, _, rfl⟩
  intro p hp
  simp only [List.mem_cons, List.not_mem_nil, or_false] at hp
  rcases hp with rfl | rfl
  · exact .atom _
  · exact .atom _

end WriteEx

end Config
end HF
