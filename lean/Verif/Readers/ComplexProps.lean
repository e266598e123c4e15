import Verif.Readers.ComplexLemmas
/-
C51: pairs of columns `Re(x)`, `Im(x)` or `Mag(x)`, `Arg(x)` become one complex variable `x`.
-/
namespace HF.Readers.Complex

open HF.DataDict.Spec
open HF.DataDict hiding rename delitem
open HF.DataBlock

variable {β α : Type}

/-- C51.  A name is taken for a call exactly if it has the form of one; what follows the last
closing parenthesis of the line is dropped.  Every other name stands for itself. -/
theorem C51_names (s : String) :
    (∀ f x rest, IsCall s.toList f x rest → outer s = (String.ofList f, String.ofList x)) ∧
    ((¬ ∃ f x rest, IsCall s.toList f x rest) → outer s = ("", s)) := by
  constructor
  · intro f x rest h
    rw [outer, (parseCall_iff _ _ _ _).2 h]
  · intro h
    have : parseCall s.toList = none := by
      by_contra hc
      obtain ⟨⟨f, x, rest⟩, hp⟩ := Option.ne_none_iff_exists'.1 hc
      exact h ⟨f, x, rest, (parseCall_iff _ _ _ _).1 hp⟩
    rw [outer, this]

/-- The functions that are looked for. -/
def IsPart (s : String) : Prop :=
  (outer s).1 = "Re" ∨ (outer s).1 = "Im" ∨ (outer s).1 = "Mag" ∨ (outer s).1 = "Arg"

/-- Arrays that can be combined element by element. -/
structure Fit (x y : Arr β α) : Prop where
  wfx : x.WF
  wfy : y.WF
  dx : Arr.Distinct x.dims
  dy : Arr.Distinct y.dims
  nosub : Arr.NoSub (x.dims ++ y.dims)
  compat : Arr.Compatible x y
  real : Dim.hasComplex (x.dims ++ y.dims) = false

/-- `r` is `f` of `x` and `y` at every named coordinate. -/
def Combined (f : α → α → α) (x y r : Arr β α) : Prop :=
  r.WF ∧ Arr.Distinct r.dims ∧ (∀ d ∈ r.dims, d ∈ x.dims ∨ d ∈ y.dims) ∧ (∀ k, r.axisLen k = Arr.bLen (x.axisLen k) (y.axisLen k)) ∧
  ∀ c, r.InRange c → r.at_ c = f (x.atB c) (y.atB c)

/-- What is asked of a block: columns for the parts of a number are variables with dimensions of
the block, arguments of parts are not themselves names of parts, nor names of elements of
variables of the block or of other arguments, and columns belonging together fit. -/
structure Plain (b : Block β α) : Prop where
  apart : ∀ n ∈ keys b.vars, n ∉ keys b.ivars
  nodup : (keys b.vars).Nodup
  sweeps : ∀ n ∈ keys b.ivars, ¬ IsPart n
  dims : ∀ w ∈ b.vars, ∀ d ∈ w.2.dims, d.name ∈ keys b.ivars
  nested : ∀ n ∈ keys b.vars, IsPart n → ¬ IsPart (outer n).2
  elems : ∀ n ∈ keys b.vars, IsPart n → ∀ m i j, isMatrixName (outer n).2 = some (m, i, j) →
    m ∉ keys b.vars ∧ ∀ n' ∈ keys b.vars, IsPart n' → m ≠ (outer n').2
  fit : ∀ w ∈ b.vars, ∀ w' ∈ b.vars, IsPart w.1 → IsPart w'.1 → (outer w.1).2 = (outer w'.1).2 →
    Fit w.2 w'.2

theorem mem_allNames (b : Block β α) (n : String) :
    n ∈ allNames b ↔ n ∈ keys b.ivars ∨ n ∈ keys b.vars := by
  unfold allNames
  simp only [List.mem_append, List.mem_filter, Bool.not_eq_eq_eq_not, Bool.not_true]
  constructor
  · rintro (h | h)
    · exact Or.inl h
    · exact Or.inr h.1
  · rintro (h | h)
    · exact Or.inl h
    · by_cases hm : member b.ivars n = true
      · exact Or.inl ((member_iff _ _).1 hm)
      · exact Or.inr ⟨h, by simpa using hm⟩

theorem choose_varnames {b : Block β α} {v : String} {alt : OMap String String}
    (h : (v, alt) ∈ varnames (allNames b)) (f : String) :
    lookup alt f = lastCall (allNames b) f v := by
  have hk := keys_varnames (allNames b)
  have hl : lookup (varnames (allNames b)) v = some alt := by
    have hs := (lookup_isSome_iff (varnames (allNames b)) v).2 (List.mem_map_of_mem h)
    obtain ⟨a, ha⟩ := Option.isSome_iff_exists.1 hs
    have := List.inj_on_of_nodup_map hk h (lookup_mem ha) rfl
    rw [ha, (Prod.mk.inj this).2]
  rw [← entry_varnames, entry, hl]
  rfl

theorem choose_iff {b : Block β α} {v : String} {alt : OMap String String}
    (h : (v, alt) ∈ varnames (allNames b)) (k : Bool) (p q : String) :
    choose alt = some (k, p, q) ↔
      (k = false ∧ lastCall (allNames b) "Re" v = some p ∧ lastCall (allNames b) "Im" v = some q) ∨
      (k = true ∧ (lastCall (allNames b) "Re" v = none ∨ lastCall (allNames b) "Im" v = none) ∧
        lastCall (allNames b) "Mag" v = some p ∧ lastCall (allNames b) "Arg" v = some q) := by
  unfold choose
  rw [choose_varnames h "Re", choose_varnames h "Im", choose_varnames h "Mag", choose_varnames h "Arg"]
  cases lastCall (allNames b) "Re" v <;> cases lastCall (allNames b) "Im" v <;>
    cases lastCall (allNames b) "Mag" v <;> cases lastCall (allNames b) "Arg" v <;>
    cases k <;> simp

theorem choose_part {b : Block β α} (hb : Plain b) {v : String} {alt : OMap String String}
    (h : (v, alt) ∈ varnames (allNames b)) {k : Bool} {p q : String} (hc : choose alt = some (k, p, q)) :
    p ∈ keys b.vars ∧ q ∈ keys b.vars ∧ IsPart p ∧ IsPart q ∧ (outer p).2 = v ∧ (outer q).2 = v ∧
      (outer p).1 ≠ (outer q).1 := by
  have key : ∀ f s, lastCall (allNames b) f v = some s →
      (f = "Re" ∨ f = "Im" ∨ f = "Mag" ∨ f = "Arg") →
      s ∈ keys b.vars ∧ IsPart s ∧ outer s = (f, v) := by
    intro f s hs hf
    obtain ⟨h1, h2⟩ := lastCall_some hs
    have hpart : IsPart s := by unfold IsPart; rw [h2]; exact hf
    rcases (mem_allNames b s).1 h1 with h | h
    · exact absurd hpart (hb.sweeps s h)
    · exact ⟨h, hpart, h2⟩
  rcases (choose_iff h k p q).1 hc with ⟨-, h1, h2⟩ | ⟨-, -, h1, h2⟩
  · obtain ⟨a1, a2, a3⟩ := key _ _ h1 (by simp)
    obtain ⟨b1, b2, b3⟩ := key _ _ h2 (by simp)
    refine ⟨a1, b1, a2, b2, by rw [a3], by rw [b3], ?_⟩
    rw [a3, b3]; simp
  · obtain ⟨a1, a2, a3⟩ := key _ _ h1 (by simp)
    obtain ⟨b1, b2, b3⟩ := key _ _ h2 (by simp)
    refine ⟨a1, b1, a2, b2, by rw [a3], by rw [b3], ?_⟩
    rw [a3, b3]; simp

theorem fit_binop (full : Arr β α → Arr β α) (f : α → α → α) {x y : Arr β α} (h : Fit x y) :
    ∃ r, Arr.binop full f x y = .ok r ∧ Combined f x y r ∧
      ∀ k ∈ r.dims.map Dim.key, k ∈ x.dims.map Dim.key ∨ k ∈ y.dims.map Dim.key := by
  obtain ⟨r, h1, h2, h3, h4, h5, h6, h7⟩ := Arr.C06_binop_aligns_by_name full f x y h.wfx h.wfy h.dx h.dy
    h.nosub h.compat (fun hc => by rw [h.real] at hc; cases hc)
  refine ⟨r, h1, ⟨h2, h3, fun d hd => ?_, h6, h7⟩, fun k hk => (h5 k).1 hk⟩
  rw [h4] at hd
  exact List.mem_append.1 ((Arr.dimsUnion_spec h.nosub h.dx).1 hd)

/-- C51.  The block keeps its dimensions.  For every name `v` that is not yet in the block and for
which there are columns `Re(v)` and `Im(v)` or, failing that, `Mag(v)` and `Arg(v)`, there is a
new variable `v` at the end, whose value at every named coordinate is the complex number with
these parts; the columns are gone.  All other variables are unchanged and in the same order.  If
there are several columns for a part the last one is taken. -/
theorem C51_make_cplx (env : Env β α) (full : Arr β α → Arr β α) (rect polar : α → α → α)
    (b : Block β α) (hb : Plain b) :
    ∃ b' js, makeCplx env full rect polar b = .ok b' ∧ b'.ivars = b.ivars ∧
      b'.vars = (b.vars.filter fun w => !decide (w.1 ∈ eaten js)) ++ js.map (fun j => (j.name, j.val)) ∧
      (js.map Job.name).Nodup ∧
      (∀ v, v ∈ js.map Job.name ↔ v ∉ keys b.vars ∧ v ∉ keys b.ivars ∧
        (((∃ s ∈ keys b.vars, outer s = ("Re", v)) ∧ (∃ s ∈ keys b.vars, outer s = ("Im", v))) ∨
         ((∃ s ∈ keys b.vars, outer s = ("Mag", v)) ∧ (∃ s ∈ keys b.vars, outer s = ("Arg", v))))) ∧
      ∀ j ∈ js, ∃ x y, lookup b.vars j.fst = some x ∧ lookup b.vars j.snd = some y ∧
        ((lastCall (keys b.vars) "Re" j.name = some j.fst ∧ lastCall (keys b.vars) "Im" j.name = some j.snd ∧
          Combined rect x y j.val) ∨
         ((lastCall (keys b.vars) "Re" j.name = none ∨ lastCall (keys b.vars) "Im" j.name = none) ∧
          lastCall (keys b.vars) "Mag" j.name = some j.fst ∧ lastCall (keys b.vars) "Arg" j.name = some j.snd ∧
          Combined polar x y j.val)) := by
  have hlk : ∀ n ∈ keys b.vars, ∃ a, lookup b.vars n = some a ∧ (n, a) ∈ b.vars := by
    intro n hn
    obtain ⟨a, ha⟩ := Option.isSome_iff_exists.1 ((lookup_isSome_iff b.vars n).2 hn)
    exact ⟨a, ha, lookup_mem ha⟩
  have hlast : ∀ f v, (f = "Re" ∨ f = "Im" ∨ f = "Mag" ∨ f = "Arg") →
      lastCall (allNames b) f v = lastCall (keys b.vars) f v := by
    intro f v hf
    have hall : allNames b = keys b.ivars ++ keys b.vars := by
      unfold allNames
      congr 1
      rw [List.filter_eq_self]
      intro n hn
      have : member b.ivars n = false := by
        rw [Bool.eq_false_iff]
        intro hc
        exact hb.apart n hn ((member_iff _ _).1 hc)
      rw [this]; rfl
    rw [lastCall, lastCall, hall, List.reverse_append, List.find?_append]
    have : (keys b.ivars).reverse.find? (fun s => decide (outer s = (f, v))) = none := by
      rw [List.find?_eq_none]
      intro s hs
      simp only [decide_eq_true_eq]
      intro h
      refine hb.sweeps s (List.mem_reverse.1 hs) ?_
      unfold IsPart
      rw [h]; exact hf
    rw [this, Option.or_none]
  obtain ⟨c', js, h1, h2, h3, h4, h5⟩ := loop_spec env full rect polar (varnames (allNames b)) b (by
    have hk := keys_varnames (allNames b)
    have : (varnames (allNames b)).Pairwise fun e e' => e.1 ≠ e'.1 := List.pairwise_map.1 hk
    refine this.imp_of_mem ?_
    rintro ⟨v, alt⟩ ⟨v', alt'⟩ he he' hne
    refine ⟨hne, fun k p q k' p' q' hc hc' => ?_⟩
    obtain ⟨a1, a2, a3, a4, a5, a6, a7⟩ := choose_part hb he hc
    obtain ⟨b1, b2, b3, b4, b5, b6, b7⟩ := choose_part hb he' hc'
    have base : ∀ s s', s' ∈ keys b.vars → IsPart s → IsPart s' → (outer s').2 ≠ s := by
      rintro s s' hs' hp hp' rfl
      exact hb.nested s' hs' hp' hp
    simp only at hne ⊢
    refine ⟨⟨?_, ?_⟩, ⟨?_, ?_, ?_, ?_⟩, ?_, ?_, ?_⟩
    · rw [← b5]; exact base p p' b1 a3 b3
    · rw [← b5]; exact base q p' b1 a4 b3
    · rintro rfl; exact hne (a5.symm.trans b5)
    · rintro rfl; exact hne (a6.symm.trans b5)
    · rintro rfl; exact hne (a5.symm.trans b6)
    · rintro rfl; exact hne (a6.symm.trans b6)
    · intro m i j hm
      rw [← a5]
      exact (hb.elems p' b1 b3 m i j (by rw [b5]; exact hm)).2 p a1 a3
    · rw [← a5]; exact base p' p a1 b3 a3
    · rw [← a5]; exact base q' p a1 b4 a3) (by
    rintro ⟨v, alt⟩ he k p q hc hcn
    obtain ⟨a1, a2, a3, a4, a5, a6, a7⟩ := choose_part hb he hc
    obtain ⟨x, hx, hxm⟩ := hlk p a1
    obtain ⟨y, hy, hym⟩ := hlk q a2
    obtain ⟨r, hr, -, hrd⟩ := fit_binop full (if k then polar else rect)
      (hb.fit _ hxm _ hym a3 a4 (by rw [a5, a6]))
    refine ⟨?_, ?_, hb.apart p a1, hb.apart q a2, ⟨x, y, r, hx, hy, hr, ?_⟩, ?_⟩
    · rintro rfl; exact hb.nested _ a1 a3 (by rw [a5]; exact a3)
    · rintro rfl; exact hb.nested _ a2 a4 (by rw [a6]; exact a4)
    · intro d hd
      rcases hrd d.key (List.mem_map_of_mem hd) with h | h
      · obtain ⟨d', hd', e⟩ := List.mem_map.1 h
        have := hb.dims _ hxm d' hd'
        rwa [show d'.name = d.name from congrArg Prod.fst e] at this
      · obtain ⟨d', hd', e⟩ := List.mem_map.1 h
        have := hb.dims _ hym d' hd'
        rwa [show d'.name = d.name from congrArg Prod.fst e] at this
    · intro m i j hm
      exact (hb.elems p a1 a3 m i j (by rw [a5]; exact hm)).1)
  have hname : ∀ v, v ∈ js.map Job.name ↔ ∃ alt k p q, (v, alt) ∈ varnames (allNames b) ∧
      choose alt = some (k, p, q) ∧ contains b v = false := by
    intro v
    have : js.map Job.name = ((varnames (allNames b)).filterMap (plan b)).map Prod.fst := by
      rw [← h4, List.map_map]; rfl
    rw [this]
    constructor
    · intro h
      obtain ⟨⟨v', k, p, q⟩, hz, rfl⟩ := List.mem_map.1 h
      obtain ⟨⟨u, alt⟩, he, hpl⟩ := List.mem_filterMap.1 hz
      unfold plan at hpl
      split at hpl
      · cases hpl
      · rename_i k' p' q' hch
        split at hpl
        · cases hpl
        · rename_i hcn
          simp only [Option.some.injEq, Prod.mk.injEq] at hpl
          obtain ⟨rfl, rfl, rfl, rfl⟩ := hpl
          exact ⟨alt, _, _, _, he, hch, by simpa using hcn⟩
    · rintro ⟨alt, k, p, q, he, hch, hcn⟩
      refine List.mem_map.2 ⟨(v, k, p, q), List.mem_filterMap.2 ⟨(v, alt), he, ?_⟩, rfl⟩
      unfold plan
      simp only [hch, hcn, Bool.false_eq_true, if_false]
  have hjob : ∀ j ∈ js, ∃ alt, (j.name, alt) ∈ varnames (allNames b) ∧
      choose alt = some (j.polar, j.fst, j.snd) := by
    intro j hj
    have : (j.name, j.polar, j.fst, j.snd) ∈ (varnames (allNames b)).filterMap (plan b) := by
      rw [← h4]; exact List.mem_map.2 ⟨j, hj, rfl⟩
    obtain ⟨⟨u, alt⟩, he, hpl⟩ := List.mem_filterMap.1 this
    unfold plan at hpl
    split at hpl
    · cases hpl
    · rename_i k' p' q' hch
      split at hpl
      · cases hpl
      · simp only [Option.some.injEq, Prod.mk.injEq] at hpl
        obtain ⟨rfl, rfl, rfl, rfl⟩ := hpl
        exact ⟨alt, he, hch⟩
  have hcf : ∀ v, contains b v = false ↔ v ∉ keys b.vars ∧ v ∉ keys b.ivars := by
    intro v
    rw [Bool.eq_false_iff, Ne, contains_iff, not_or]
  refine ⟨c', js, h1, h2, h3, ?_, ?_, ?_⟩
  · have : js.map Job.name = ((varnames (allNames b)).filterMap (plan b)).map Prod.fst := by
      rw [← h4, List.map_map]; rfl
    rw [this]
    have hsub : (((varnames (allNames b)).filterMap (plan b)).map Prod.fst).Sublist
        (keys (varnames (allNames b))) := by
      generalize varnames (allNames b) = L
      induction L with
      | nil => simp [keys]
      | cons e t ih =>
        rw [List.filterMap_cons]
        have : plan b e = none ∨ ∃ z, plan b e = some (e.1, z) := by
          unfold plan
          split
          · exact Or.inl rfl
          · split
            · exact Or.inl rfl
            · exact Or.inr ⟨_, rfl⟩
        rcases this with h | ⟨z, h⟩ <;> rw [h]
        · exact ih.trans (List.sublist_cons_self _ _)
        · exact ih.cons_cons _
    exact hsub.nodup (keys_varnames _)
  · intro v
    have hex : ∀ f, (f = "Re" ∨ f = "Im" ∨ f = "Mag" ∨ f = "Arg") →
        ((∃ s ∈ keys b.vars, outer s = (f, v)) ↔ ∃ p, lastCall (allNames b) f v = some p) := by
      intro f hf
      rw [hlast f v hf]
      constructor
      · rintro ⟨s, hs, ho⟩; exact lastCall_isSome hs ho
      · rintro ⟨p, hp⟩; exact ⟨p, (lastCall_some hp).1, (lastCall_some hp).2⟩
    rw [hname, hex "Re" (by simp), hex "Im" (by simp), hex "Mag" (by simp), hex "Arg" (by simp),
      ← and_assoc, ← hcf]
    constructor
    · rintro ⟨alt, k, p, q, he, hch, hcn⟩
      refine ⟨hcn, ?_⟩
      rcases (choose_iff he k p q).1 hch with ⟨-, g1, g2⟩ | ⟨-, -, g1, g2⟩
      · exact Or.inl ⟨⟨_, g1⟩, _, g2⟩
      · exact Or.inr ⟨⟨_, g1⟩, _, g2⟩
    · rintro ⟨hcn, hor⟩
      have hmem : v ∈ keys (varnames (allNames b)) := by
        rw [mem_keys_varnames]
        rcases hor with ⟨⟨p, hp⟩, -⟩ | ⟨⟨p, hp⟩, -⟩ <;>
          exact ⟨p, (lastCall_some hp).1, by rw [(lastCall_some hp).2]⟩
      obtain ⟨⟨v', alt⟩, he, rfl⟩ := List.mem_map.1 hmem
      have : ∃ k p q, choose alt = some (k, p, q) := by
        by_cases hre : (∃ p, lastCall (allNames b) "Re" v' = some p) ∧ ∃ q, lastCall (allNames b) "Im" v' = some q
        · obtain ⟨⟨p, hp⟩, q, hq⟩ := hre
          exact ⟨false, p, q, (choose_iff he _ _ _).2 (Or.inl ⟨rfl, hp, hq⟩)⟩
        · obtain ⟨⟨p, hp⟩, q, hq⟩ := hor.resolve_left hre
          refine ⟨true, p, q, (choose_iff he _ _ _).2 (Or.inr ⟨rfl, ?_, hp, hq⟩)⟩
          by_contra hcc
          rw [not_or] at hcc
          exact hre ⟨Option.ne_none_iff_exists'.1 hcc.1, Option.ne_none_iff_exists'.1 hcc.2⟩
      obtain ⟨k, p, q, hch⟩ := this
      exact ⟨alt, k, p, q, he, hch, hcn⟩
  · intro j hj
    obtain ⟨x, y, hx, hy, hbin⟩ := h5 j hj
    obtain ⟨alt, he, hch⟩ := hjob j hj
    obtain ⟨a1, a2, a3, a4, a5, a6, a7⟩ := choose_part hb he hch
    obtain ⟨r, hr, hcomb, -⟩ := fit_binop full (if j.polar then polar else rect)
      (hb.fit _ (lookup_mem hx) _ (lookup_mem hy) a3 a4 (by rw [a5, a6]))
    rw [hbin] at hr
    have hr' : j.val = r := by injection hr
    rw [← hr'] at hcomb
    refine ⟨x, y, hx, hy, ?_⟩
    have := (choose_iff he _ _ _).1 hch
    rw [hlast "Re" _ (by simp), hlast "Im" _ (by simp), hlast "Mag" _ (by simp), hlast "Arg" _ (by simp)] at this
    rcases this with ⟨hk, g1, g2⟩ | ⟨hk, g0, g1, g2⟩
    · rw [hk] at hcomb; exact Or.inl ⟨g1, g2, hcomb⟩
    · rw [hk] at hcomb; exact Or.inr ⟨g0, g1, g2, hcomb⟩

end HF.Readers.Complex
