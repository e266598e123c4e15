import Verif.HFArray.BinopLemmas
/-
C06: binary operations align operands by dimension name.
-/
namespace HF.Arr

variable {β α γ : Type}

/-- The changed operands of a binary operation. -/
theorem operands (full : Arr β α → Arr β α) (a b : Arr β α)
    (ha : a.WF) (hb : b.WF) (hna : Distinct a.dims) (hnb : Distinct b.dims)
    (hl : NoSub (a.dims ++ b.dims))
    (hfull : Dim.hasComplex (a.dims ++ b.dims) = true → full a = a ∧ full b = b) :
    let U := dimsUnion a.dims b.dims
    ∃ a' b', changeShape full a U = .ok a' ∧ changeShape full b U = .ok b' ∧
      a'.nd.shape = U.map (fun u => (a.axisLen u.key).getD 1) ∧
      b'.nd.shape = U.map (fun u => (b.axisLen u.key).getD 1) ∧
      (∀ c : Coord, Nd.Valid a'.nd.shape (Nd.bidx a'.nd.shape (U.map fun u => c u.key)) →
        a'.nd.get (Nd.bidx a'.nd.shape (U.map fun u => c u.key)) = a.atB c) ∧
      (∀ c : Coord, Nd.Valid b'.nd.shape (Nd.bidx b'.nd.shape (U.map fun u => c u.key)) →
        b'.nd.get (Nd.bidx b'.nd.shape (U.map fun u => c u.key)) = b.atB c) := by
  obtain ⟨h1, h2, h3, h4, h5⟩ := dimsUnion_spec hl hna
  have hax : a.dims ⊆ a.dims ++ b.dims := by intro x hx; simp [hx]
  have hbx : b.dims ⊆ a.dims ++ b.dims := by intro x hx; simp [hx]
  have hfa : Dim.hasComplex (dimsUnion a.dims b.dims) = true → full a = a :=
    fun h => (hfull (hasComplex_mono h1 h)).1
  have hfb : Dim.hasComplex (dimsUnion a.dims b.dims) = true → full b = b :=
    fun h => (hfull (hasComplex_mono h1 h)).2
  obtain ⟨a', ea, da, sa, ga⟩ := changeShape_spec hfa hl hax h1 ha hna h2
    (fun k hk => (h3 k).2 (Or.inl hk))
  obtain ⟨b', eb, db, sb, gb⟩ := changeShape_spec hfb hl hbx h1 hb hnb h2
    (fun k hk => (h3 k).2 (Or.inr hk))
  refine ⟨a', b', ea, eb, ?_, ?_, ga, gb⟩
  · rw [sa, List.map_map]
    refine List.map_congr_left fun u hu => ?_
    simp only [Function.comp]
    rw [axisLen_eq hl hax ha (h1 hu)]
  · rw [sb, List.map_map]
    refine List.map_congr_left fun u hu => ?_
    simp only [Function.comp]
    rw [axisLen_eq hl hbx hb (h1 hu)]

theorem getD_map_key (U : List (Dim β)) (g : Key → Nat) {k : Nat} (hk : k < U.length) :
    (U.map fun u => g u.key).getD k 0 = g (U[k]).key := by
  simp [List.getD_eq_getElem?_getD, List.getElem?_eq_getElem hk]

theorem axisLen_isSome {x : Arr β α} (hwf : x.WF) {k : Key} {s : Nat}
    (h : x.axisLen k = some s) : k ∈ x.dims.map Dim.key := by
  by_contra hk
  rw [axisLen_none hwf hk] at h
  cases h

/-- C06.  For operands whose axes are identified by name and class and whose shared axes
have equal length (or length one), every binary operator succeeds, the result has exactly
the axes of both operands, with the broadcast lengths, and its element at *every* named
coordinate is the operator applied to the operands' elements at that coordinate.

`full` is `make_fullcomplex_array`; the hypothesis `hfull` holds when no operand has
complex axes, or when both have. -/
theorem C06_binop_aligns_by_name (full : Arr β α → Arr β α) (f : α → α → γ) (a b : Arr β α)
    (ha : a.WF) (hb : b.WF) (hna : Distinct a.dims) (hnb : Distinct b.dims)
    (hl : NoSub (a.dims ++ b.dims)) (hc : Compatible a b)
    (hfull : Dim.hasComplex (a.dims ++ b.dims) = true → full a = a ∧ full b = b) :
    ∃ r, binop full f a b = .ok r ∧ r.WF ∧ Distinct r.dims ∧ r.dims = dimsUnion a.dims b.dims ∧
      (∀ k, k ∈ r.dims.map Dim.key ↔ k ∈ a.dims.map Dim.key ∨ k ∈ b.dims.map Dim.key) ∧
      (∀ k, r.axisLen k = bLen (a.axisLen k) (b.axisLen k)) ∧
      ∀ c, r.InRange c → r.at_ c = f (a.atB c) (b.atB c) := by
  obtain ⟨h1, h2, h3, h4, h5⟩ := dimsUnion_spec hl hna
  obtain ⟨a', b', ea, eb, sa, sb, ga, gb⟩ := operands full a b ha hb hna hnb hl hfull
  have hsh : ∃ r, Nd.bshape a'.nd.shape b'.nd.shape = .ok r := by
    rw [Nd.bshape_ok_iff, sa, sb]
    refine ⟨by simp, ?_⟩
    intro k hk
    have hk' : k < (dimsUnion a.dims b.dims).length := by simpa using hk
    rw [getD_map_key _ (fun q => (a.axisLen q).getD 1) hk',
      getD_map_key _ (fun q => (b.axisLen q).getD 1) hk']
    cases hA : a.axisLen ((dimsUnion a.dims b.dims)[k]).key with
    | none => simp
    | some s =>
      cases hB : b.axisLen ((dimsUnion a.dims b.dims)[k]).key with
      | none => simp
      | some t => simpa using hc _ s t hA hB
  obtain ⟨rs, hrs⟩ := hsh
  have hlen := (Nd.bshape_length hrs).1
  have hwf : (⟨dimsUnion a.dims b.dims, ⟨rs, fun idx => f (a'.nd.get (Nd.bidx a'.nd.shape idx))
    (b'.nd.get (Nd.bidx b'.nd.shape idx))⟩⟩ : Arr β γ).WF := by
    show (dimsUnion a.dims b.dims).length = rs.length
    rw [← hlen, sa]; simp
  refine ⟨⟨dimsUnion a.dims b.dims, ⟨rs, fun idx => f (a'.nd.get (Nd.bidx a'.nd.shape idx))
    (b'.nd.get (Nd.bidx b'.nd.shape idx))⟩⟩, ?_, hwf, h2, rfl, h3, ?_, ?_⟩
  · simp only [binop, ea, eb, Nd.binop, hrs, ofNd]
  · intro k
    by_cases hk : k ∈ (dimsUnion a.dims b.dims).map Dim.key
    · obtain ⟨u, hu, rfl⟩ := List.mem_map.1 hk
      obtain ⟨i, hi, rfl⟩ := List.getElem_of_mem hu
      rw [← axisLen_eq (x := ⟨dimsUnion a.dims b.dims, _⟩) hl h1 hwf (h1 hu),
        matchingIndex_of_key hl h1 h2 (h1 hu) hi rfl, Option.map_some]
      simp only
      rw [Nd.bshape_getD hrs i, sa, sb]
      rw [getD_map_key _ (fun q => (a.axisLen q).getD 1) hi,
        getD_map_key _ (fun q => (b.axisLen q).getD 1) hi]
      have hin := (h3 _).1 hk
      cases hA : a.axisLen ((dimsUnion a.dims b.dims)[i]).key with
      | none =>
        cases hB : b.axisLen ((dimsUnion a.dims b.dims)[i]).key with
        | none =>
          exfalso
          rw [← axisLen_eq hl (fun x hx => List.mem_append_left _ hx) ha (h1 hu)] at hA
          rw [← axisLen_eq hl (fun x hx => List.mem_append_right _ hx) hb (h1 hu)] at hB
          rw [Option.map_eq_none_iff] at hA hB
          rw [matchingIndex_none hl (fun x hx => List.mem_append_left _ hx) (h1 hu)] at hA
          rw [matchingIndex_none hl (fun x hx => List.mem_append_right _ hx) (h1 hu)] at hB
          rcases hin with h | h
          · exact hA h
          · exact hB h
        | some t => simp [bLen]
      | some s =>
        cases hB : b.axisLen ((dimsUnion a.dims b.dims)[i]).key with
        | none => simp [bLen]; omega
        | some t =>
          simp only [bLen, Option.getD_some]
          split <;> split <;> simp_all
    · have hn := not_or.1 (fun h => hk ((h3 k).2 h))
      rw [axisLen_none hwf hk, axisLen_none ha hn.1, axisLen_none hb hn.2]
      rfl
  · intro c hr
    have hv := Nd.bshape_valid hrs hr
    show f _ _ = f _ _
    rw [ga c hv.1, gb c hv.2]

/-- C06.  Operands with a shared axis of two different lengths, both larger than one (or
zero), are rejected with `ValueError`: nothing is ever silently cut or repeated. -/
theorem C06_incompatible_rejected (full : Arr β α → Arr β α) (f : α → α → γ) (a b : Arr β α)
    (ha : a.WF) (hb : b.WF) (hna : Distinct a.dims) (hnb : Distinct b.dims)
    (hl : NoSub (a.dims ++ b.dims)) (hc : ¬ Compatible a b)
    (hfull : Dim.hasComplex (a.dims ++ b.dims) = true → full a = a ∧ full b = b) :
    binop full f a b = .error .valueError := by
  obtain ⟨h1, h2, h3, h4, h5⟩ := dimsUnion_spec hl hna
  obtain ⟨a', b', ea, eb, sa, sb, ga, gb⟩ := operands full a b ha hb hna hnb hl hfull
  have hsh : ¬ ∃ r, Nd.bshape a'.nd.shape b'.nd.shape = .ok r := by
    rw [Nd.bshape_ok_iff, sa, sb]
    rintro ⟨-, h⟩
    apply hc
    intro k s t hA hB
    have hk := (h3 k).2 (Or.inl (axisLen_isSome ha hA))
    obtain ⟨u, hu, rfl⟩ := List.mem_map.1 hk
    obtain ⟨i, hi, rfl⟩ := List.getElem_of_mem hu
    have := h i (by simpa using hi)
    rw [getD_map_key _ (fun q => (a.axisLen q).getD 1) hi,
        getD_map_key _ (fun q => (b.axisLen q).getD 1) hi] at this
    simpa [hA, hB] using this
  have herr : ∀ s t e, Nd.bshape s t = .error e → e = .valueError := by
    intro s
    induction s with
    | nil => intro t e h; cases t <;> simp [Nd.bshape] at h; exact h.symm
    | cons x xs ih =>
      intro t e h
      cases t with
      | nil => simp [Nd.bshape] at h; exact h.symm
      | cons y ys =>
        simp only [Nd.bshape] at h
        cases hq : Nd.bshape xs ys with
        | error e' => rw [hq] at h; simp only [Except.error.injEq] at h; rw [← h]; exact ih _ _ hq
        | ok r =>
          rw [hq] at h
          simp only at h
          split at h
          · cases h
          · split at h
            · cases h
            · split at h
              · cases h
              · simp only [Except.error.injEq] at h; exact h.symm
  cases hq : Nd.bshape a'.nd.shape b'.nd.shape with
  | ok r => exact absurd ⟨r, hq⟩ hsh
  | error e =>
    rw [herr _ _ _ hq] at hq
    simp only [binop, ea, eb, Nd.binop, hq, ofNd]

/-- C06.  Without length-one broadcasting (shared axes have equal lengths) the coordinate
addresses the operands directly. -/
theorem C06_operands_addressed_directly (x : Arr β α) (hx : x.WF) (c : Coord)
    (h : x.InRange c) : x.atB c = x.at_ c := atB_eq_at hx h

/-- C06.  The result's axes come in ascending sort priority (sweeps, repetitions, matrix
axes, complex axes); within one priority the order is that of the first operand followed by
the new axes of the second. -/
theorem C06_result_dims_sorted (a b : List (Dim β)) :
    (dimsUnion a b).Pairwise (fun x y => x.sortprio ≤ y.sortprio) ∧
    ∀ p, (dimsUnion a b).filter (fun x => x.sortprio = p) =
      (b.foldl unionStep a).filter (fun x => x.sortprio = p) :=
  ⟨sortByPrio_sorted _, fun p => sortByPrio_stable _ p⟩

/-- C06.  The order of the axes of the operands is irrelevant: if `a'` and `b'` show the same
elements at the same named coordinates as `a` and `b` (with the same axes), the results
agree at every coordinate which lies in both results. -/
theorem C06_axis_order_irrelevant (full : Arr β α → Arr β α) (f : α → α → γ)
    (a b a' b' : Arr β α) (ha : a.WF) (hb : b.WF) (ha' : a'.WF) (hb' : b'.WF)
    (hna : Distinct a.dims) (hnb : Distinct b.dims)
    (hna' : Distinct a'.dims) (hnb' : Distinct b'.dims)
    (hl : NoSub (a.dims ++ b.dims)) (hl' : NoSub (a'.dims ++ b'.dims))
    (hc : Compatible a b) (hc' : Compatible a' b')
    (hf : Dim.hasComplex (a.dims ++ b.dims) = true → full a = a ∧ full b = b)
    (hf' : Dim.hasComplex (a'.dims ++ b'.dims) = true → full a' = a' ∧ full b' = b')
    (ea : ∀ c, a.atB c = a'.atB c) (eb : ∀ c, b.atB c = b'.atB c) :
    ∃ r r', binop full f a b = .ok r ∧ binop full f a' b' = .ok r' ∧
      ∀ c, r.InRange c → r'.InRange c → r.at_ c = r'.at_ c := by
  obtain ⟨r, h1, _, _, _, _, _, h5⟩ := C06_binop_aligns_by_name full f a b ha hb hna hnb hl hc hf
  obtain ⟨r', h1', _, _, _, _, _, h5'⟩ :=
    C06_binop_aligns_by_name full f a' b' ha' hb' hna' hnb' hl' hc' hf'
  exact ⟨r, r', h1, h1', fun c hr hr' => by rw [h5 c hr, h5' c hr', ea, eb]⟩

/-- C06.  A commutative operator gives the same elements when the operands are swapped. -/
theorem C06_commutative (full : Arr β α → Arr β α) (f : α → α → γ) (hcomm : ∀ x y, f x y = f y x)
    (a b : Arr β α)
    (ha : a.WF) (hb : b.WF) (hna : Distinct a.dims) (hnb : Distinct b.dims)
    (hl : NoSub (a.dims ++ b.dims)) (hc : Compatible a b)
    (hf : Dim.hasComplex (a.dims ++ b.dims) = true → full a = a ∧ full b = b) :
    ∃ r r', binop full f a b = .ok r ∧ binop full f b a = .ok r' ∧
      ∀ c, r.InRange c → r'.InRange c → r.at_ c = r'.at_ c := by
  have hl' : NoSub (b.dims ++ a.dims) := by
    intro d hd e he
    exact hl d (by simp only [List.mem_append] at hd ⊢; exact hd.symm) e
      (by simp only [List.mem_append] at he ⊢; exact he.symm)
  have hc' : Compatible b a := by
    intro k s t h1 h2
    rcases hc k t s h2 h1 with h | h | h
    · exact Or.inl h.symm
    · exact Or.inr (Or.inr h)
    · exact Or.inr (Or.inl h)
  have hf' : Dim.hasComplex (b.dims ++ a.dims) = true → full b = b ∧ full a = a := by
    intro h
    have : Dim.hasComplex (a.dims ++ b.dims) = true := by
      refine hasComplex_mono ?_ h
      intro x hx; simp only [List.mem_append] at hx ⊢; exact hx.symm
    exact (hf this).symm
  obtain ⟨r, h1, _, _, _, _, _, h5⟩ := C06_binop_aligns_by_name full f a b ha hb hna hnb hl hc hf
  obtain ⟨r', h1', _, _, _, _, _, h5'⟩ := C06_binop_aligns_by_name full f b a hb ha hnb hna hl' hc' hf'
  exact ⟨r, r', h1, h1', fun c hr hr' => by rw [h5 c hr, h5' c hr', hcomm]⟩

/-! ### A concrete case satisfying the hypotheses: (freq, i) + (rep, freq), with axes of
different priorities and a shared axis in different positions. -/

def exA : Arr Nat Nat := ⟨[⟨.dimSweep, "freq", [1, 2], none, none⟩, ⟨.matI, "i", [0, 1], none, none⟩],
  ⟨[2, 2], fun l => 10 * l.getD 0 0 + l.getD 1 0⟩⟩
def exB : Arr Nat Nat := ⟨[⟨.dimRep, "rep", [0, 1, 2], none, none⟩, ⟨.dimSweep, "freq", [1, 2], none, none⟩],
  ⟨[3, 2], fun l => 100 * l.getD 0 0 + 1000 * l.getD 1 0⟩⟩

example : exA.WF ∧ exB.WF ∧ Distinct exA.dims ∧ Distinct exB.dims ∧ NoSub (exA.dims ++ exB.dims) ∧
    Dim.hasComplex (exA.dims ++ exB.dims) = false := by
  refine ⟨rfl, rfl, ?_, ?_, ?_, by decide +kernel⟩ <;> (try unfold Distinct) <;> (try unfold NoSub) <;>
    decide +kernel

example : (match binop id (· + ·) exA exB with
    | .ok r => (r.dims.map Dim.name, r.nd.shape, r.nd.get [1, 2, 1])
    | .error _ => ([], [], 0)) = (["freq", "rep", "i"], [2, 3, 2], 11 + 200 + 1000) := by decide +kernel

/-- C06 is not alignment by *coordinate value*: two arrays over a dimension of the same name,
class and length but with completely different coordinate values are combined position by
position, and the result is labelled with the first operand's values. -/
theorem C06_values_not_aligned_refuted (full : Arr β α → Arr β α) (f : α → α → γ) (n : String)
    (xs ys : List β) (hlen : xs.length = ys.length) (ga gb : List Nat → α) :
    ∃ r, binop full f ⟨[⟨.dimSweep, n, xs, none, none⟩], ⟨[xs.length], ga⟩⟩
        ⟨[⟨.dimSweep, n, ys, none, none⟩], ⟨[ys.length], gb⟩⟩ = .ok r ∧
      r.dims = [⟨.dimSweep, n, xs, none, none⟩] ∧
      ∀ i < xs.length, r.nd.get [i] = f (ga [i]) (gb [i]) := by
  have hm : ∀ d e : List β, matches_ (⟨.dimSweep, n, d, none, none⟩ : Dim β)
      ⟨.dimSweep, n, e, none, none⟩ = true := by
    intro d e; simp [matches_, Dim.isa, isSub_refl]
  have hu : dimsUnion [(⟨.dimSweep, n, xs, none, none⟩ : Dim β)] [⟨.dimSweep, n, ys, none, none⟩] =
      [⟨.dimSweep, n, xs, none, none⟩] := by
    simp [dimsUnion, unionStep, containsDim, hm, sortByPrio, insertByPrio]
  have hcx : ∀ d e : List β, Dim.hasComplex [(⟨.dimSweep, n, d, none, none⟩ : Dim β),
      ⟨.dimSweep, n, e, none, none⟩] = false := by
    intro d e
    have h1 : Cls.isSub .dimSweep .complexDeriv = false := by decide +kernel
    have h2 : Cls.isSub .dimSweep .complexIndep = false := by decide +kernel
    have h3 : Cls.isSub .dimSweep .complexDiag = false := by decide +kernel
    simp [Dim.hasComplex, Dim.isa, h1, h2, h3]
  obtain ⟨r, h1, hwf, _, hd, _, hax, hel⟩ := C06_binop_aligns_by_name full f
    ⟨[⟨.dimSweep, n, xs, none, none⟩], ⟨[xs.length], ga⟩⟩
    ⟨[⟨.dimSweep, n, ys, none, none⟩], ⟨[ys.length], gb⟩⟩ rfl rfl (by simp [Distinct])
    (by simp [Distinct])
    (by
      intro d hd e he _ _
      simp only [List.cons_append, List.nil_append, List.mem_cons, List.not_mem_nil, or_false] at hd he
      rcases hd with rfl | rfl <;> rcases he with rfl | rfl <;> rfl)
    (by
      intro k s t h1 h2
      left
      simp only [axisLen, List.zip_cons_cons, List.zip_nil_right, List.find?_cons, Dim.key] at h1 h2
      by_cases hkk : (n, Cls.dimSweep) = k
      · simp only [hkk, decide_true, Option.map_some, Option.some.injEq] at h1 h2
        omega
      · simp [hkk] at h1)
    (by
      intro h
      rw [List.cons_append, List.nil_append, hcx] at h
      cases h)
  simp only [hu] at hd
  have hshape : r.nd.shape = [xs.length] := by
    have h := hax (n, .dimSweep)
    simp only [WF, hd] at hwf
    obtain ⟨s, hs⟩ := List.length_eq_one_iff.1 hwf.symm
    simp only [axisLen, hd, hs, Dim.key, List.zip_cons_cons, List.zip_nil_right, List.find?_cons,
      hlen, bLen] at h
    rw [hs]
    simpa [hlen] using h
  refine ⟨r, h1, hd, fun i hi => ?_⟩
  have hr := hel (fun _ => i) (by simp [InRange, hshape, hd, Nd.Valid, hi])
  have hz : ∀ m, i < m → (if m = 1 then 0 else i) = i := by intro m hm; split <;> omega
  simpa [at_, atB, hd, hz _ hi, hz _ (hlen ▸ hi)] using hr

/-- C06 fails for a sweep and a partial sweep of the same name: the classes are related, so
`NoSub` does not hold, and the operation raises an error in *either* order instead of
aligning, whatever the data of more than one element. -/
theorem C06_subclass_sweep_refuted (full : Arr β α → Arr β α) (f : α → α → γ) (n : String)
    (xs ys : List β) (ga gb : List Nat → α) (k : Nat) (hk : 2 ≤ k) :
    (binop full f ⟨[⟨.dimPartial, n, xs, none, none⟩], ⟨[k], ga⟩⟩
        ⟨[⟨.dimSweep, n, ys, none, none⟩], ⟨[k], gb⟩⟩ = .error .valueError) ∧
    (binop full f ⟨[⟨.dimSweep, n, ys, none, none⟩], ⟨[k], gb⟩⟩
        ⟨[⟨.dimPartial, n, xs, none, none⟩], ⟨[k], ga⟩⟩ = .error .valueError) := by
  have h1 : Cls.isSub .dimPartial .dimSweep = true := by decide +kernel
  have h2 : Cls.isSub .dimSweep .dimPartial = false := by decide +kernel
  have hs : Cls.sortprio .dimSweep = Cls.sortprio .dimPartial := by decide +kernel
  have hcx1 : Dim.hasComplex [(⟨.dimPartial, n, xs, none, none⟩ : Dim β)] = false := by
    have h1 : Cls.isSub .dimPartial .complexDeriv = false := by decide +kernel
    have h2 : Cls.isSub .dimPartial .complexIndep = false := by decide +kernel
    have h3 : Cls.isSub .dimPartial .complexDiag = false := by decide +kernel
    simp [Dim.hasComplex, Dim.isa, h1, h2, h3]
  have hcx2 : Dim.hasComplex [(⟨.dimSweep, n, ys, none, none⟩ : Dim β),
      ⟨.dimPartial, n, xs, none, none⟩] = false := by
    have h1 : Cls.isSub .dimPartial .complexDeriv = false := by decide +kernel
    have h2 : Cls.isSub .dimPartial .complexIndep = false := by decide +kernel
    have h3 : Cls.isSub .dimPartial .complexDiag = false := by decide +kernel
    have h1' : Cls.isSub .dimSweep .complexDeriv = false := by decide +kernel
    have h2' : Cls.isSub .dimSweep .complexIndep = false := by decide +kernel
    have h3' : Cls.isSub .dimSweep .complexDiag = false := by decide +kernel
    simp [Dim.hasComplex, Dim.isa, h1, h2, h3, h1', h2', h3']
  have hk1 : ¬ k = 1 := by omega
  have hk2 : ¬ 1 = k := by omega
  have hk0 : ¬ k = 0 := by omega
  constructor
  · have hu : dimsUnion [(⟨.dimPartial, n, xs, none, none⟩ : Dim β)]
        [⟨.dimSweep, n, ys, none, none⟩] = [⟨.dimPartial, n, xs, none, none⟩] := by
      simp [dimsUnion, unionStep, containsDim, matches_, Dim.isa, h1, sortByPrio, insertByPrio]
    have r1 : List.range 1 = [0] := rfl
    simp [binop, hu, changeShape, hcx1, changeShapeLoop, matchingIndex, matches_,
      Dim.isa, h2, isSub_refl, transpose, Nd.transpose, Nd.isPerm,
      Nd.ndim, ofNd, mk?, Nd.reshape, Nd.size, hk2, r1]
  · have hu : dimsUnion [(⟨.dimSweep, n, ys, none, none⟩ : Dim β)]
        [⟨.dimPartial, n, xs, none, none⟩] =
        [⟨.dimSweep, n, ys, none, none⟩, ⟨.dimPartial, n, xs, none, none⟩] := by
      simp [dimsUnion, unionStep, containsDim, matches_, Dim.isa, h2, sortByPrio, insertByPrio,
        Dim.sortprio, hs]
    have r1 : List.range 1 = [0] := rfl
    simp [binop, hu, changeShape, hcx2, changeShapeLoop, matchingIndex, matches_,
      Dim.isa, h1, h2, isSub_refl, transpose, Nd.transpose, Nd.isPerm,
      Nd.ndim, ofNd, mk?, Nd.reshape, Nd.size, r1]

end HF.Arr
