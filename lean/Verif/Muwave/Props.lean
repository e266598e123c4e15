import Verif.Muwave.Build
/-
C91: reading files of the muwave toolbox.
-/
namespace HF.Muwave

open HF.DataDict.Spec
open HF.DataDict hiding rename delitem
open HF.DataBlock
open HF.Arr hiding Err ofNd getitem

variable {β α : Type}

/-- All variables of a measurement. -/
def allNames (sn mn : List String) (csh : Option (Nat × Nat × Nat)) : List String :=
  sn ++ (mn ++ ["S", "Z0"] ++ (if csh.isSome then ["Scov"] else []))

theorem allNames_sub (sn mn : List String) (csh : Option (Nat × Nat × Nat)) :
    (allNames sn mn csh).Sublist (sn ++ (mn ++ ["S", "Z0", "Scov"])) := by
  unfold allNames
  refine List.Sublist.append_left ?_ _
  rw [List.append_assoc]
  refine List.Sublist.append_left ?_ _
  split <;> simp

theorem buildAll_spec (env : Env β α) (cv : Conv β α) (en : Enum String) (sn mn : List String) (f p q : Nat)
    (csh : Option (Nat × Nat × Nat)) (ps : List (Point β α)) (hs : Sweep sn mn f p q csh ps) :
    ∀ l, (∀ m ∈ l, m ∈ ps) → ∃ bs, buildAll env cv en l = .ok bs ∧
      List.Forall₂ (fun m b => Built env cv sn mn f p q csh m b) l bs := by
  intro l
  induction l with
  | nil => intro _; exact ⟨[], rfl, .nil⟩
  | cons m t ih =>
    intro h
    obtain ⟨bs, h1, h2⟩ := ih fun m hm => h m (by simp [hm])
    obtain ⟨b, h3, h4⟩ := built env cv en sn mn f p q csh ps hs m (h m (by simp))
    exact ⟨b :: bs, by simp only [buildAll, h3, h1], .cons h4 h2⟩

theorem formOf_facts (cv : Conv β α) (fs : List β) (f p q : Nat) (csh : Option (Nat × Nat × Nat)) (n : String) :
    (formOf cv fs f p q csh n).1.length = (formOf cv fs f p q csh n).2.length ∧
      ((formOf cv fs f p q csh n).1.map Dim.name).Nodup ∧
      ∀ d ∈ (formOf cv fs f p q csh n).1, d.name = "freq" ∨ d.name = "i" ∨ d.name = "j" := by
  unfold formOf
  split
  · exact ⟨rfl, by simp [freqDim, iDim, jDim], by simp [freqDim, iDim, jDim]⟩
  · split
    · cases csh with
      | none => exact ⟨rfl, by simp, by simp⟩
      | some s => exact ⟨rfl, by simp [freqDim, iDim, jDim], by simp [freqDim, iDim, jDim]⟩
    · exact ⟨rfl, by simp, by simp⟩

theorem uniform (env : Env β α) (cv : Conv β α) (sn mn : List String) (f p q : Nat)
    (csh : Option (Nat × Nat × Nat)) (ps : List (Point β α)) (hs : Sweep sn mn f p q csh ps)
    (bs : List (Block β α)) (hb : List.Forall₂ (fun m b => Built env cv sn mn f p q csh m b) ps bs) :
    Merge.Uniform ["Index"] (allNames sn mn csh) bs := by
  have hnd := hs.nodup
  have hsub := allNames_sub sn mn csh
  have hmem : ∀ n ∈ allNames sn mn csh, n ∈ sn ++ mn ∨ n = "S" ∨ n = "Z0" ∨ n = "Scov" := by
    intro n hn
    have := hsub.subset hn
    simp only [List.mem_append, List.mem_cons, List.not_mem_nil, or_false] at this ⊢
    tauto
  have hfree : ∀ n ∈ "Index" :: allNames sn mn csh, n ≠ "freq" ∧ n ≠ "i" ∧ n ≠ "j" ∧ n ≠ "INDEX1" := by
    intro n hn
    rcases List.mem_cons.1 hn with rfl | hn
    · decide
    · rcases hmem n hn with h | rfl | rfl | rfl
      · exact hs.free n h
      · decide
      · decide
      · decide
  have hiv : ∀ b ∈ bs, ∃ x row, b.ivars.map Prod.fst = ["Index", "freq", "i", "j"] ∧
      (b.ivars.filter fun p => p.2.isa .dimPartial) = [("Index", indexPart env (x :: row))] := by
    intro b hbm
    obtain ⟨m, hm, hB⟩ := forall₂_mem_right hb hbm
    obtain ⟨c, row, h1, h2, h3⟩ := hB.index
    obtain ⟨x, hx⟩ := hs.cells m hm _ h1
    obtain ⟨t, ht⟩ := row_of_starts hx
    rw [h2] at ht
    obtain rfl := Option.some.inj ht
    have e1 : (indexPart env (x :: t)).isa .dimPartial = true := by
      show Cls.isSub .dimPartial .dimPartial = true; decide +kernel
    have e2 : (freqDim m.freq).isa .dimPartial = false := by
      show Cls.isSub .dimSweep .dimPartial = false; decide +kernel
    have e3 : (iDim cv p).isa .dimPartial = false := by
      show Cls.isSub .matI .dimPartial = false; decide +kernel
    have e4 : (jDim cv q).isa .dimPartial = false := by
      show Cls.isSub .matJ .dimPartial = false; decide +kernel
    exact ⟨x, t, by rw [h3]; rfl, by rw [h3]; simp [List.filter_cons, e1, e2, e3, e4]⟩
  have hform : ∀ b ∈ bs, ∃ m : Point β α, ∀ w ∈ b.vars, (w.2.dims, w.2.nd.shape) = formOf cv m.freq f p q csh w.1 := by
    intro b hbm
    obtain ⟨m, hm, hB⟩ := forall₂_mem_right hb hbm
    exact ⟨m, hB.form⟩
  have hsh : ∀ fs fs' n, (formOf cv fs f p q csh n).2 = (formOf cv fs' f p q csh n).2 := by
    intro fs fs' n
    unfold formOf
    split
    · rfl
    · split
      · cases csh <;> rfl
      · rfl
  refine ⟨?_, ?_, ?_, ?_, ?_, ?_, ?_, ?_, ?_, ?_⟩
  · intro b hbm
    obtain ⟨x, row, _, h⟩ := hiv b hbm
    rw [h]; rfl
  · intro b hbm w hw hp
    obtain ⟨x, row, _, h⟩ := hiv b hbm
    have : w ∈ b.ivars.filter fun p => p.2.isa .dimPartial := List.mem_filter.2 ⟨hw, hp⟩
    rw [h] at this
    rw [List.mem_singleton.1 this]
    simp [indexPart]
  · intro b hbm n
    obtain ⟨m, hm, hB⟩ := forall₂_mem_right hb hbm
    exact hB.names.mem_iff
  · intro b hbm n hn
    obtain ⟨x, row, h, _⟩ := hiv b hbm
    rw [h]
    have h1 := hfree n (by simp [hn])
    have h2 : n ≠ "Index" := by
      rintro rfl
      exact (List.nodup_cons.1 hnd).1 (hsub.subset hn)
    simp [h1, h2]
  · intro b hbm w hw
    obtain ⟨m, h⟩ := hform b hbm
    have hf := formOf_facts cv m.freq f p q csh w.1
    have e := h w hw
    rw [← e] at hf
    exact ⟨hf.1, hf.2.1⟩
  · intro b hbm b' hbm' n x x' hx hx'
    obtain ⟨m, h⟩ := hform b hbm
    obtain ⟨m', h'⟩ := hform b' hbm'
    have e := congrArg Prod.snd (h _ (lookup_mem hx))
    have e' := congrArg Prod.snd (h' _ (lookup_mem hx'))
    simp only [] at e e'
    rw [e, e', hsh]
  · show ("Index" :: allNames sn mn csh).Nodup
    exact hnd.sublist (hsub.cons₂ _)
  · intro b hbm w hw d hd
    obtain ⟨m, h⟩ := hform b hbm
    have hf := (formOf_facts cv m.freq f p q csh w.1).2.2
    rw [← h w hw] at hf
    have hd' := hf d hd
    refine ⟨fun hc => ?_, ?_⟩
    · have := hfree _ hc
      rcases hd' with h | h | h
      · exact this.1 h
      · exact this.2.1 h
      · exact this.2.2.1 h
    · rcases hd' with h | h | h <;> rw [h] <;> decide
  · intro hc
    exact (hfree _ hc).2.2.2 rfl
  · intro n hn a i j ha hc
    have hc' : a ∈ "Index" :: (sn ++ (mn ++ ["S", "Z0", "Scov"])) := by
      rcases List.mem_cons.1 hc with h | h
      · rw [h]; simp
      · exact List.mem_cons_of_mem _ (hsub.subset h)
    have hno : ∀ n ∈ ["Index", "S", "Z0", "Scov"], isMatrixName n = none := by decide +kernel
    have hdead : n ∈ ["Index", "S", "Z0", "Scov"] → False := by
      intro h
      rw [hno n h] at ha
      cases ha
    rcases List.mem_cons.1 hn with rfl | hn
    · exact hdead (by simp)
    · rcases hmem n hn with h | rfl | rfl | rfl
      · exact hs.elems n h a i j ha hc'
      · exact hdead (by simp)
      · exact hdead (by simp)
      · exact hdead (by simp)

/-! ### Replacing the sweep by one of the same name -/

theorem replace_same (b : Block β α) (d d' : Dim β) (hl : lookup b.ivars d.name = some d) (hn : d'.name = d.name) :
    ∃ iv, replaceDim b d d' = some ⟨b.vars.map fun p => (p.1, replaceDimArr d d' p.2), iv, b.xname⟩ ∧
      ∀ n, lookup iv n = if n = d.name then some d' else lookup b.ivars n := by
  refine ⟨assign (Spec.rename b.ivars d.name d'.name d) d'.name d', by simp only [replaceDim, renameIvar, hl], ?_⟩
  intro n
  rw [lookup_assign, hn]
  by_cases e : n = d.name
  · rw [if_pos e, if_pos e]
  · rw [if_neg e, if_neg e, Spec.rename, if_pos rfl, lookup_append, lookup_remove, lookup_singleton,
      if_neg (fun h => e h.symm), if_neg (fun h => e h.symm)]
    simp

theorem replaceDimArr_at (old new : Dim β) (x : Arr β α) (c : Coord)
    (h : ∀ d ∈ x.dims, old.name = d.name → new.key = d.key) : (replaceDimArr old new x).at_ c = x.at_ c := by
  simp only [at_, replaceDimArr, List.map_map]
  congr 1
  refine List.map_congr_left fun d hd => ?_
  simp only [Function.comp]
  split
  · rename_i e; rw [h d hd e]
  · rfl

theorem lookup_map_snd {V W : Type} (g : V → W) (m : OMap String V) (n : String) :
    lookup (m.map fun p => (p.1, g p.2)) n = (lookup m n).map g := by
  simp only [lookup, List.find?_map, Option.map_map]
  rfl

/-- A variable with one value for every measurement. -/
def PerPoint (env : Env β α) (cv : Conv β α) (ps : List (Point β α)) (r : Block β α) (n : String)
    (val : Point β α → α → Prop) : Prop :=
  ∃ a, lookup r.vars n = some a ∧
    a.dims = (if ps.length = 1 then [] else [pointDim env cv ps.length]) ∧
    ∀ (i : Nat) m x, ps[i]? = some m → val m x → ∀ c, c ("INDEX1", Cls.dimSweep) = i → a.at_ c = x

/-- A matrix for every measurement and every frequency; axes of length one are dropped. -/
def PerFreq (env : Env β α) (cv : Conv β α) (fs : List β) (f p q : Nat) (ps : List (Point β α)) (r : Block β α)
    (n : String) (val : Point β α → (List Nat → α) → Prop) : Prop :=
  ∃ a, lookup r.vars n = some a ∧ a.WF ∧
    a.dims.zip a.nd.shape = [(freqDim fs, f), (pointDim env cv ps.length, ps.length), (iDim cv p, p),
      (jDim cv q, q)].filter (fun w => w.2 ≠ 1) ∧
    ∀ (i : Nat) m g, ps[i]? = some m → val m g → ∀ c, c ("INDEX1", Cls.dimSweep) = i →
      c ("freq", Cls.dimSweep) < f → c ("i", Cls.matI) < p → c ("j", Cls.matJ) < q →
      a.at_ c = g [c ("i", Cls.matI), c ("j", Cls.matJ), c ("freq", Cls.dimSweep)]

/-- What is known about a file that has been read. -/
structure Content [DecidableEq β] (env : Env β α) (cv : Conv β α) (sn mn : List String) (f p q : Nat)
    (csh : Option (Nat × Nat × Nat)) (ps : List (Point β α)) (fs : List β) (r : Block β α) : Prop where
  names : (r.vars.map Prod.fst).Perm ("Index" :: allNames sn mn csh)
  freq : lookup r.ivars "freq" = some (freqDim fs)
  points : lookup r.ivars "INDEX1" = some (pointDim env cv ps.length)
  ports : lookup r.ivars "i" = some (iDim cv p) ∧ lookup r.ivars "j" = some (jDim cv q)
  apart : ∀ n ∈ r.vars.map Prod.fst, lookup r.ivars n = none
  index : PerPoint env cv ps r "Index" fun m y => ∃ c x, ("Index", c) ∈ m.state ∧ Starts x c ∧
    y = env.toVal (env.toCoord x)
  state : ∀ n ∈ sn, PerPoint env cv ps r n fun m y => ∃ c x, (n, c) ∈ m.state ∧ Starts x c ∧
    y = valueOf cv n (cv.real x)
  meas : ∀ n ∈ mn, PerPoint env cv ps r n fun m y => ∃ s, (n, .text s) ∈ m.measmnt ∧
    y = valueOf cv n (textOf cv s)
  ref : PerPoint env cv ps r "Z0" fun m y => y = m.ref
  data : PerFreq env cv fs f p q ps r "S" fun m g => g = m.mtrx.get
  cov : ∀ s, csh = some s → PerFreq env cv fs s.1 s.2.1 s.2.2 ps r "Scov" fun m g => ∃ c, m.cov = some c ∧ g = c.get

variable [DecidableEq β]

/-- One file before the last steps. -/
theorem readSingle_spec (env : Env β α) (cv : Conv β α) (en : Enum String) (sn mn : List String) (f p q : Nat)
    (csh : Option (Nat × Nat × Nat)) (m0 : Point β α) (ms : List (Point β α))
    (hs : Sweep sn mn f p q csh (m0 :: ms)) :
    ∃ r, readSingle env cv en (some (m0 :: ms)) = .ok r ∧
      Content env cv sn mn f p q csh (m0 :: ms) m0.freq r := by
  obtain ⟨bs', hb1, hb2⟩ := buildAll_spec env cv en sn mn f p q csh (m0 :: ms) hs (m0 :: ms) fun m h => h
  have hu := uniform env cv sn mn f p q csh (m0 :: ms) hs bs' hb2
  obtain ⟨b0, bs, rfl, hB0, hBs⟩ : ∃ b0 bs, bs' = b0 :: bs ∧ Built env cv sn mn f p q csh m0 b0 ∧
      List.Forall₂ (fun m b => Built env cv sn mn f p q csh m b) ms bs := by
    cases hb2 with
    | cons h t => exact ⟨_, _, rfl, h, t⟩
  have hlen : bs.length = ms.length := hBs.length_eq.symm
  obtain ⟨r1, hr1, hnames, hparts, hvars, hiv⟩ := Merge.C48_merge env cv.ofIdx en ["Index"] (allNames sn mn csh)
    b0 bs (by simp) hu
  obtain ⟨hix, hap⟩ := Merge.C48_sweep env cv.ofIdx en ["Index"] (allNames sn mn csh) b0 bs (by simp) hu r1 hr1
  rw [hlen] at hix
  obtain ⟨N, hN⟩ : ∃ N, N = ms.length + 1 := ⟨_, rfl⟩
  rw [← hN] at hix
  have hNl : (m0 :: ms).length = N := by rw [hN]; rfl
  have hpd : Dim.copyFrom env.dfltDim .dimSweep (Merge.blockIndex cv.ofIdx N) = pointDim env cv N := rfl
  obtain ⟨iv, hrep, hiv2⟩ := replace_same r1 (Merge.blockIndex cv.ofIdx N) (pointDim env cv N) hix rfl
  have hkey : (pointDim env cv N).key = (Merge.blockIndex cv.ofIdx N).key := rfl
  -- blocks and measurements
  have hat : ∀ (i : Nat) m, (m0 :: ms)[i]? = some m → ∃ b, (b0 :: bs)[i]? = some b ∧
      Built env cv sn mn f p q csh m b := by
    intro i m hm
    have := List.forall₂_iff_get.1 hb2
    obtain ⟨hi, he⟩ := List.getElem?_eq_some_iff.1 hm
    have hi' : i < (b0 :: bs).length := this.1 ▸ hi
    refine ⟨(b0 :: bs)[i], List.getElem?_eq_getElem hi', ?_⟩
    have := this.2 i hi hi'
    simpa [he] using this
  have hbn : ∀ b, (∃ m, Built env cv sn mn f p q csh m b) → (keys b.vars).Nodup := by
    rintro b ⟨m, hB⟩
    exact hB.names.nodup_iff.2 ((List.nodup_cons.1 hs.nodup).2.sublist (allNames_sub sn mn csh))
  -- a variable with one value
  have scal : ∀ n (val : Point β α → α → Prop),
      (∃ x, (n, scalar x) ∈ b0.vars) →
      (∀ m ∈ m0 :: ms, ∀ x, val m x → ∀ b, Built env cv sn mn f p q csh m b → (n, scalar x) ∈ b.vars) →
      PerPoint env cv (m0 :: ms) ⟨r1.vars.map fun p => (p.1, replaceDimArr (Merge.blockIndex cv.ofIdx N) (pointDim env cv N) p.2),
        iv, r1.xname⟩ n val := by
    intro n val ⟨x0, hx0⟩ hval
    obtain ⟨a, ha, hw, hz, hel⟩ := hvars n (scalar x0) (mem_lookup (hbn b0 ⟨m0, hB0⟩) hx0)
    rw [hlen, ← hN] at hz
    have hd : a.dims = if N = 1 then [] else [Merge.blockIndex cv.ofIdx N] := by
      have h1 : a.dims = (a.dims.zip a.nd.shape).map Prod.fst := (List.map_fst_zip (le_of_eq hw)).symm
      rw [h1, hz]
      simp only [scalar, Merge.placed, List.zip_nil_left, List.filter_cons, List.filter_nil]
      by_cases e : N = 1 <;> simp [e]
    refine ⟨_, by rw [lookup_map_snd, ha]; rfl, ?_, ?_⟩
    · rw [hNl]
      simp only [replaceDimArr, hd]
      by_cases e : N = 1 <;> simp [e]
    · intro i m x hm hx c hc
      obtain ⟨b, hb, hB⟩ := hat i m hm
      have hmm := List.mem_of_getElem? hm
      rw [replaceDimArr_at _ _ _ _ (by
        intro d hdm _
        rw [hd] at hdm
        by_cases e : N = 1
        · simp [e] at hdm
        · simp only [e, if_false, List.mem_singleton] at hdm
          rw [hdm]; exact hkey)]
      rw [hel i b (scalar x) hb (mem_lookup (hbn b ⟨m, hB⟩) (hval m hmm x hx b hB)) c hc (by simp [scalar])]
      rfl
  -- a matrix at every frequency
  have mats : ∀ n f₁ p₁ q₁ (val : Point β α → (List Nat → α) → Prop),
      (∃ g, (n, matArr cv m0.freq f₁ p₁ q₁ g) ∈ b0.vars) →
      (∀ m ∈ m0 :: ms, ∀ g, val m g → ∀ b, Built env cv sn mn f p q csh m b →
        (n, matArr cv m.freq f₁ p₁ q₁ g) ∈ b.vars) →
      PerFreq env cv m0.freq f₁ p₁ q₁ (m0 :: ms) ⟨r1.vars.map fun p => (p.1, replaceDimArr (Merge.blockIndex cv.ofIdx N) (pointDim env cv N) p.2),
        iv, r1.xname⟩ n val := by
    intro n f₁ p₁ q₁ val ⟨g0, hg0⟩ hval
    obtain ⟨a, ha, hw, hz, hel⟩ := hvars n (matArr cv m0.freq f₁ p₁ q₁ g0) (mem_lookup (hbn b0 ⟨m0, hB0⟩) hg0)
    rw [hlen, ← hN] at hz
    have hsw : (freqDim m0.freq).isa .dimSweep = true := by
      show Cls.isSub .dimSweep .dimSweep = true; decide +kernel
    have hz' : a.dims.zip a.nd.shape = [(freqDim m0.freq, f₁), (Merge.blockIndex cv.ofIdx N, N), (iDim cv p₁, p₁),
        (jDim cv q₁, q₁)].filter (fun w => w.2 ≠ 1) := by
      rw [hz]
      simp only [matArr, List.zip_cons_cons, List.zip_nil_left, Merge.placed, hsw, if_true]
    have hdm : ∀ d ∈ a.dims, d ∈ [freqDim m0.freq, Merge.blockIndex cv.ofIdx N, iDim cv p₁, jDim cv q₁] := by
      intro d hd
      have h1 : a.dims = (a.dims.zip a.nd.shape).map Prod.fst := (List.map_fst_zip (le_of_eq hw)).symm
      rw [h1, hz'] at hd
      obtain ⟨w, hw, rfl⟩ := List.mem_map.1 hd
      have := (List.mem_filter.1 hw).1
      simp only [List.mem_cons, List.not_mem_nil, or_false] at this ⊢
      rcases this with rfl | rfl | rfl | rfl <;> simp
    refine ⟨_, by rw [lookup_map_snd, ha]; rfl, ?_, ?_, ?_⟩
    · show (a.dims.map _).length = a.nd.shape.length
      rw [List.length_map]; exact hw
    · rw [hNl]
      show (a.dims.map _).zip a.nd.shape = _
      have hzm : ∀ (g : Dim β → Dim β) (ds : List (Dim β)) (sh : List Nat),
          (ds.map g).zip sh = (ds.zip sh).map fun w => (g w.1, w.2) := by
        intro g ds
        induction ds with
        | nil => intro sh; simp
        | cons d t ih =>
          intro sh
          cases sh with
          | nil => simp
          | cons s u => simp [ih]
      rw [hzm, hz']
      have hfm := List.filter_map (f := fun w : Dim β × Nat =>
        ((if (Merge.blockIndex cv.ofIdx N).name = w.1.name then pointDim env cv N else w.1), w.2))
        (p := fun w => decide (w.2 ≠ 1))
        (l := [(freqDim m0.freq, f₁), (Merge.blockIndex cv.ofIdx N, N), (iDim cv p₁, p₁), (jDim cv q₁, q₁)])
      refine Eq.trans hfm.symm ?_
      simp [freqDim, iDim, jDim, Merge.blockIndex]
    · intro i m g hm hx c hc hc1 hc2 hc3
      obtain ⟨b, hb, hB⟩ := hat i m hm
      have hmm := List.mem_of_getElem? hm
      rw [replaceDimArr_at _ _ _ _ (by
        intro d hd e
        have := hdm d hd
        simp only [List.mem_cons, List.not_mem_nil, or_false] at this
        rcases this with rfl | rfl | rfl | rfl
        · simp [freqDim, Merge.blockIndex] at e
        · rfl
        · simp [iDim, Merge.blockIndex] at e
        · simp [jDim, Merge.blockIndex] at e)]
      rw [hel i b _ hb (mem_lookup (hbn b ⟨m, hB⟩) (hval m hmm g hx b hB)) c hc (by
        intro e he
        simp only [matArr, List.zip_cons_cons, List.zip_nil_left, List.mem_cons, Prod.mk.injEq,
          List.not_mem_nil, or_false] at he
        rcases he with ⟨rfl, h⟩ | ⟨rfl, h⟩ | ⟨rfl, h⟩
        · show c ("freq", Cls.dimSweep) = 0; omega
        · show c ("i", Cls.matI) = 0; omega
        · show c ("j", Cls.matJ) = 0; omega)]
      rfl
  have hread : readSingle env cv en (some (m0 :: ms)) = .ok ⟨r1.vars.map fun p => (p.1, replaceDimArr (Merge.blockIndex cv.ofIdx N) (pointDim env cv N) p.2),
      iv, r1.xname⟩ := by
    simp only [readSingle, hb1, hr1, hix, hpd, hrep]
  have hkeys : (r1.vars.map fun p => (p.1, replaceDimArr (Merge.blockIndex cv.ofIdx N) (pointDim env cv N) p.2)).map Prod.fst =
      r1.vars.map Prod.fst := by
    rw [List.map_map]; rfl
  have hcell : ∀ n ∈ sn, ∀ m ∈ m0 :: ms, ∃ c x, (n, c) ∈ m.state ∧ Starts x c := by
    intro n hn m hm
    obtain ⟨e, he, rfl⟩ := List.mem_map.1 ((hs.state m hm).mem_iff.2 (List.mem_cons_of_mem _ hn))
    obtain ⟨x, hx⟩ := hs.cells m hm e he
    exact ⟨e.2, x, he, hx⟩
  have hnix : ∀ n ∈ sn, n ≠ "Index" := by
    rintro n hn rfl
    exact (List.nodup_cons.1 hs.nodup).1 (List.mem_append_left _ hn)
  refine ⟨_, hread, ⟨by rw [hkeys]; exact hnames, ?_, ?_, ?_, ?_, ?_, ?_, ?_, ?_, ?_, ?_⟩⟩
  · show lookup iv "freq" = _
    obtain ⟨c, row, _, _, h⟩ := hB0.index
    rw [hiv2, if_neg (by simp [Merge.blockIndex]), hiv "freq" (freqDim m0.freq) (by rw [h]; rfl) (by simp) (by simp)]
  · show lookup iv "INDEX1" = _
    rw [hiv2, if_pos (show "INDEX1" = (Merge.blockIndex cv.ofIdx N).name from rfl), hNl]
  · obtain ⟨c, row, _, _, h⟩ := hB0.index
    constructor
    · show lookup iv "i" = _
      rw [hiv2, if_neg (by simp [Merge.blockIndex]), hiv "i" (iDim cv p) (by rw [h]; rfl) (by simp) (by simp)]
    · show lookup iv "j" = _
      rw [hiv2, if_neg (by simp [Merge.blockIndex]), hiv "j" (jDim cv q) (by rw [h]; rfl) (by simp) (by simp)]
  · intro n hn
    show lookup iv n = none
    have hn' : n ∈ "Index" :: allNames sn mn csh := hnames.mem_iff.1 (hkeys ▸ hn)
    rw [hiv2, if_neg, hap n hn']
    rintro rfl
    exact hu.index hn'
  · obtain ⟨a, ha, hd, hel⟩ := hparts "Index" (by simp)
    rw [hlen, ← hN] at hd
    refine ⟨_, by rw [lookup_map_snd, ha]; rfl, ?_, ?_⟩
    · rw [hNl]
      simp only [replaceDimArr, hd]
      by_cases e : bs = []
      · have : N = 1 := by rw [hN, ← hlen, e]; rfl
        simp [e, this]
      · have : N ≠ 1 := by
          intro h
          rw [hN, ← hlen] at h
          exact e (List.length_eq_zero_iff.1 (by omega))
        simp [e, this]
    · rintro i m y hm ⟨c', x, hc', hx, rfl⟩ c hc
      obtain ⟨b, hb, hB⟩ := hat i m hm
      have hmm := List.mem_of_getElem? hm
      obtain ⟨c2, row, hc2, hrow, hbi⟩ := hB.index
      have : c2 = c' := by
        have hnd2 : (m.state.map Prod.fst).Nodup := (hs.state m hmm).nodup_iff.2
          (hs.nodup.sublist (List.Sublist.cons₂ _ (List.sublist_append_left _ _)))
        have e1 := mem_lookup hnd2 hc2
        have e2 := mem_lookup hnd2 hc'
        simp only [] at e1 e2
        rw [e1] at e2
        exact Option.some.inj e2
      subst this
      obtain ⟨t, ht⟩ := row_of_starts hx
      rw [hrow] at ht
      obtain rfl := Option.some.inj ht
      rw [replaceDimArr_at _ _ _ _ (by
        intro d hdm _
        rw [hd] at hdm
        by_cases e : bs = []
        · simp [e] at hdm
        · simp only [e, if_false, List.mem_singleton] at hdm
          rw [hdm]; exact hkey)]
      exact hel i b (indexPart env (x :: t)) (env.toCoord x) hb (by rw [hbi]; simp)
        (by show Cls.isSub .dimPartial .dimPartial = true; decide +kernel) rfl c hc
  · intro n hn
    obtain ⟨c, x, h1, h2⟩ := hcell n hn m0 (by simp)
    refine scal n _ ⟨_, hB0.state n c x h1 (hnix n hn) h2⟩ ?_
    rintro m hm y ⟨c, x, h1, h2, rfl⟩ b hB
    exact hB.state n c x h1 (hnix n hn) h2
  · intro n hn
    obtain ⟨e, he, rfl⟩ := List.mem_map.1 ((hs.meas m0 (by simp)).mem_iff.2 hn)
    obtain ⟨s, hse⟩ := hs.texts m0 (by simp) e he
    obtain ⟨n, ec⟩ := e
    simp only [] at hse
    subst hse
    refine scal n _ ⟨_, hB0.meas n s he⟩ ?_
    rintro m hm y ⟨s, h1, rfl⟩ b hB
    exact hB.meas n s h1
  · refine scal "Z0" _ ⟨_, hB0.ref⟩ ?_
    rintro m hm y rfl b hB
    exact hB.ref
  · refine mats "S" f p q _ ⟨_, hB0.data⟩ ?_
    rintro m hm y rfl b hB
    exact hB.data
  · rintro s rfl
    obtain ⟨c, hc⟩ : ∃ c, m0.cov = some c := by
      have := hs.cov m0 (by simp)
      cases h : m0.cov with
      | none => rw [h] at this; simp at this
      | some c => exact ⟨c, rfl⟩
    refine mats "Scov" s.1 s.2.1 s.2.2 _ ⟨_, hB0.cov s c rfl hc⟩ ?_
    rintro m hm y ⟨c, hc, rfl⟩ b hB
    exact hB.cov s c rfl hc

theorem setArr_known (env : Env β α) (b : Block β α) (n : String) (a : Arr β α)
    (hm : isMatrixName n = none) (h1 : lookup b.ivars n = none) :
    setArr env b n a = (⟨assign b.vars n a, addDims b.ivars a.dims, nextXname b.xname a.dims⟩, .ok ()) := by
  have het : elemTarget (member b.vars) n a = none := by simp only [elemTarget, hm]
  simp only [setArr, het, h1]

theorem keys_assign_known (m : OMap String (Arr β α)) (n : String) (a : Arr β α) (h : n ∈ m.map Prod.fst) :
    (assign m n a).map Prod.fst = m.map Prod.fst := by
  rw [assign, if_pos ((member_iff _ _).2 h), Spec.modify, List.map_map]
  refine List.map_congr_left fun w _ => ?_
  simp only [Function.comp]
  split
  · rename_i e; exact e.symm
  · rfl

theorem isMatrixName_S : isMatrixName "S" = none := by decide +kernel

/-- The last steps without dropping change nothing that can be seen. -/
theorem finish_spec (env : Env β α) (cv : Conv β α) (sn mn : List String) (f p q : Nat)
    (csh : Option (Nat × Nat × Nat)) (ps : List (Point β α)) (fs : List β) (r : Block β α)
    (hr : Content env cv sn mn f p q csh ps fs r) (hS : "S" ∉ "Index" :: (sn ++ mn)) :
    ∃ r' s', r'.vars = assign r.vars "S" s' ∧ (∀ drop, finish env cv drop r =
        if drop then dropLoop env cv r' (keys r'.vars) else .ok r') ∧
      Content env cv sn mn f p q csh ps fs r' := by
  obtain ⟨s, hs, hwf, hz, hel⟩ := hr.data
  have hSm : "S" ∈ r.vars.map Prod.fst := (lookup_isSome_iff _ _).1 (by rw [hs]; rfl)
  have hSi := hr.apart "S" hSm
  have hd : s.dims = ([(freqDim fs, f), (pointDim env cv ps.length, ps.length), (iDim cv p, p),
      (jDim cv q, q)].filter (fun w => w.2 ≠ 1)).map Prod.fst := by
    rw [← hz]; exact (List.map_fst_zip (le_of_eq hwf)).symm
  have hsubl : s.dims.Sublist [freqDim fs, pointDim env cv ps.length, iDim cv p, jDim cv q] := by
    rw [hd]
    exact List.filter_sublist.map Prod.fst
  have hnames : (s.dims.map Dim.name).Nodup := by
    refine List.Nodup.sublist (hsubl.map Dim.name) ?_
    simp [freqDim, pointDim, iDim, jDim]
  have hno : ∀ n, n = "Index" ∨ n = "Index2" → (s.dims.any fun d => d.name == n) = false := by
    intro n hn
    rw [Bool.eq_false_iff]
    intro hc
    obtain ⟨d, hdm, he⟩ := List.any_eq_true.1 hc
    have := hsubl.subset hdm
    simp only [List.mem_cons, List.not_mem_nil, or_false] at this
    rcases this with rfl | rfl | rfl | rfl <;> rcases hn with rfl | rfl <;>
      simp [freqDim, pointDim, iDim, jDim] at he
  -- the requested order is that of the array
  obtain ⟨ds, hord, hds, hrest⟩ : ∃ ds : List (Dim β), orderOf r s.dims ["freq", "Index", "Index2"] = .ok (ds.map .dim) ∧
      ds ⊆ s.dims ∧ ds.Nodup ∧ ds ++ s.dims.filter (fun d => d ∉ ds) = s.dims := by
    by_cases h1 : f = 1
    · refine ⟨[], ?_, by simp, by simp, by simp⟩
      have : (s.dims.any fun d => d.name == "freq") = false := by
        rw [Bool.eq_false_iff]
        intro hc
        obtain ⟨d, hdm, he⟩ := List.any_eq_true.1 hc
        have hl : s.dims = ([(pointDim env cv ps.length, ps.length), (iDim cv p, p),
            (jDim cv q, q)].filter (fun w => w.2 ≠ 1)).map Prod.fst := by
          rw [hd, List.filter_cons_of_neg (by simp [h1])]
        rw [hl] at hdm
        have hsub : ∀ d ∈ ([(pointDim env cv ps.length, ps.length), (iDim cv p, p),
            (jDim cv q, q)].filter (fun w => w.2 ≠ 1)).map Prod.fst,
            d ∈ [pointDim env cv ps.length, iDim cv p, jDim cv q] := by
          intro d hd
          exact (List.filter_sublist.map Prod.fst).subset hd
        have := hsub d hdm
        simp only [List.mem_cons, List.not_mem_nil, or_false] at this
        rcases this with rfl | rfl | rfl <;> simp [pointDim, iDim, jDim] at he
      simp only [orderOf, this, hno "Index" (Or.inl rfl), hno "Index2" (Or.inr rfl), Bool.false_eq_true, if_false]
      rfl
    · obtain ⟨rest, hrest⟩ : ∃ rest, s.dims = freqDim fs :: rest :=
        ⟨_, by rw [hd, List.filter_cons_of_pos (by simp [h1])]; rfl⟩
      have hany : (s.dims.any fun d => d.name == "freq") = true := by
        rw [hrest]; simp [freqDim]
      refine ⟨[freqDim fs], ?_, by rw [hrest]; simp, by simp, ?_⟩
      · simp only [orderOf, hany, hno "Index" (Or.inl rfl), hno "Index2" (Or.inr rfl), Bool.false_eq_true, if_false,
          if_true, hr.freq]
        rfl
      · rw [hrest] at hnames ⊢
        rw [List.filter_cons_of_neg (by simp)]
        have : rest.filter (fun d => d ∉ [freqDim fs]) = rest := by
          rw [List.filter_eq_self]
          intro d hdm
          rw [List.map_cons, List.nodup_cons] at hnames
          simp only [List.mem_singleton, decide_eq_true_eq]
          rintro rfl
          exact hnames.1 (List.mem_map_of_mem hdm)
        rw [this]; rfl
  have hrefl : ∀ l : List (Dim β), List.Forall₂ RefersTo l (l.map .dim) := by
    intro l
    induction l with
    | nil => exact .nil
    | cons d t ih => exact .cons (Or.inl rfl) ih
  obtain ⟨y, hy1, hy2, hy3, hy4, hy5⟩ := C07_reorder s hwf hnames ds (ds.map .dim) (hrefl ds) hds hrest.1
  rw [hrest.2] at hy3
  have hdist : Distinct s.dims := HF.DataBlock.distinct_of_names hnames
  have hysh : y.nd.shape = s.nd.shape := by
    refine HF.DataBlock.shape_of_axisLen hy2 (hy3 ▸ hdist) (by rw [hy3, hwf]) ?_
    intro e n hen
    rw [hy3] at hen
    rw [hy4]
    exact HF.DataBlock.axisLen_eq_some hdist hen
  have hset := setArr_known env r "S" y isMatrixName_S hSi
  refine ⟨⟨assign r.vars "S" y, addDims r.ivars y.dims, nextXname r.xname y.dims⟩, y, rfl, ?_, ?_⟩
  · intro drop
    simp only [finish, getitem, hSi, hs, hord, hy1, ofArr, hset]
  · have hk := keys_assign_known r.vars "S" y hSm
    have hlk : ∀ n, n ≠ "S" → lookup (assign r.vars "S" y) n = lookup r.vars n := by
      intro n hn
      rw [lookup_assign, if_neg hn]
    have hpp : ∀ n val, n ≠ "S" → PerPoint env cv ps r n val →
        PerPoint env cv ps ⟨assign r.vars "S" y, addDims r.ivars y.dims, nextXname r.xname y.dims⟩ n val := by
      rintro n val hn ⟨a, h1, h2⟩
      exact ⟨a, (hlk n hn).trans h1, h2⟩
    have hni : ∀ n ∈ sn ++ mn, n ≠ "S" := by
      rintro n hn rfl
      exact hS (List.mem_cons_of_mem _ hn)
    refine ⟨by rw [show (assign r.vars "S" y).map Prod.fst = _ from hk]; exact hr.names, ?_, ?_, ?_, ?_, hpp _ _ (by simp) hr.index,
      fun n hn => hpp n _ (hni n (List.mem_append_left _ hn)) (hr.state n hn),
      fun n hn => hpp n _ (hni n (List.mem_append_right _ hn)) (hr.meas n hn), hpp _ _ (by simp) hr.ref, ?_, ?_⟩
    · rw [lookup_addDims, hr.freq]; rfl
    · rw [lookup_addDims, hr.points]; rfl
    · rw [lookup_addDims, lookup_addDims, hr.ports.1, hr.ports.2]; exact ⟨rfl, rfl⟩
    · intro n hn
      rw [show (assign r.vars "S" y).map Prod.fst = _ from hk] at hn
      rw [lookup_addDims, hr.apart n hn, List.find?_eq_none.2]
      · rfl
      · intro d hdm he
        rw [hy3] at hdm
        have h2 := hsubl.subset hdm
        have : n = d.name := by simpa using (beq_iff_eq.1 he).symm
        have hfr := hr.freq
        have hpt := hr.points
        simp only [List.mem_cons, List.not_mem_nil, or_false] at h2
        rcases h2 with rfl | rfl | rfl | rfl
        · have : n = "freq" := this
          rw [← this, hr.apart n hn] at hfr
          cases hfr
        · have : n = "INDEX1" := this
          rw [← this, hr.apart n hn] at hpt
          cases hpt
        · have : n = "i" := this
          have hi := hr.ports.1
          rw [← this, hr.apart n hn] at hi
          cases hi
        · have : n = "j" := this
          have hj := hr.ports.2
          rw [← this, hr.apart n hn] at hj
          cases hj
    · refine ⟨y, by rw [lookup_assign, if_pos rfl], hy2, by rw [hy3, hysh]; exact hz, ?_⟩
      intro i m g hm hg c h1 h2 h3 h4
      rw [hy5]
      exact hel i m g hm hg c h1 h2 h3 h4
    · rintro sh hsh
      obtain ⟨a, h1, h2⟩ := hr.cov sh hsh
      exact ⟨a, (hlk "Scov" (by simp)).trans h1, h2⟩

/-- C91: a file with a sweep of S-parameter measurements gives one block.  Every quantity of the
state, every property, the reference impedance and the index have one value for each measurement;
the S-parameters (and their covariances) are functions of frequency, measurement and ports. -/
theorem C91_read (env : Env β α) (cv : Conv β α) (en : Enum String) (sn mn : List String) (f p q : Nat)
    (csh : Option (Nat × Nat × Nat)) (m0 : Point β α) (ms : List (Point β α))
    (hs : Sweep sn mn f p q csh (m0 :: ms)) :
    ∃ r, read env cv en false [some (m0 :: ms)] = .ok r ∧
      Content env cv sn mn f p q csh (m0 :: ms) m0.freq r := by
  obtain ⟨r, h1, h2⟩ := readSingle_spec env cv en sn mn f p q csh m0 ms hs
  have hS : "S" ∉ "Index" :: (sn ++ mn) := by
    have := hs.nodup
    rw [← List.append_assoc, ← List.cons_append, List.nodup_append] at this
    exact fun h => this.2.2 _ h "S" (by simp) rfl
  obtain ⟨r', _, _, h3, h4⟩ := finish_spec env cv sn mn f p q csh (m0 :: ms) m0.freq r h2 hS
  exact ⟨r', by simp only [read, h1, h3, Bool.false_eq_true, if_false], h4⟩

theorem dropLoop_spec (env : Env β α) (cv : Conv β α) (ks : List String) : ∀ b : Block β α,
    ks.Nodup → (∀ k ∈ ks, k ∈ b.vars.map Prod.fst) → (b.vars.map Prod.fst).Nodup →
    (∀ k ∈ ks, lookup b.ivars k = none) →
    dropLoop env cv b ks =
      .ok ⟨b.vars.filter fun w => !(decide (w.1 ∈ ks) && allBlank cv w.2), b.ivars, b.xname⟩ := by
  induction ks with
  | nil =>
    intro b _ _ _ _
    rw [List.filter_eq_self.2 (by simp)]
    rfl
  | cons k t ih =>
    intro b h1 h2 h3 h4
    rw [List.nodup_cons] at h1
    obtain ⟨a, ha⟩ := Option.isSome_iff_exists.1 ((lookup_isSome_iff b.vars k).2 (h2 k (by simp)))
    have hg : getitem env b k = .ok a := by simp only [getitem, h4 k (by simp), ha]
    have huniq : ∀ w ∈ b.vars, w.1 = k → w.2 = a := by
      intro w hw e
      have := mem_lookup h3 hw
      rw [e, ha] at this
      exact (Option.some.inj this).symm
    rw [dropLoop, hg]
    simp only []
    by_cases hb : allBlank cv a = true
    · rw [if_pos hb]
      have hd : delitem b k = ⟨b.vars.filter (fun w => decide (w.1 ≠ k)), b.ivars, b.xname⟩ := by
        simp only [delitem, (member_iff _ _).2 (h2 k (by simp)), if_true, Spec.remove]
      rw [hd, ih ⟨b.vars.filter (fun w => decide (w.1 ≠ k)), b.ivars, b.xname⟩ h1.2 ?_ (h3.sublist (List.filter_sublist.map _)) (fun k hk => h4 k (by simp [hk]))]
      · congr 2
        rw [List.filter_filter]
        refine List.filter_congr fun w hw => ?_
        by_cases e : w.1 = k
        · have := huniq w hw e
          simp [e, this, hb]
        · simp [e]
      · intro k' hk'
        obtain ⟨w, hw, rfl⟩ := List.mem_map.1 (h2 k' (by simp [hk']))
        refine List.mem_map_of_mem (List.mem_filter.2 ⟨hw, ?_⟩)
        have : w.1 ≠ k := fun e => h1.1 (e ▸ hk')
        simpa using this
    · rw [if_neg hb, ih b h1.2 (fun k hk => h2 k (by simp [hk])) h3 (fun k hk => h4 k (by simp [hk]))]
      congr 2
      refine List.filter_congr fun w hw => ?_
      by_cases e : w.1 = k
      · have := huniq w hw e
        simp [e, this, hb]
      · simp [e]

theorem allBlank_iff (cv : Conv β α) (a : Arr β α) :
    allBlank cv a = true ↔ ∀ idx, Nd.Valid a.nd.shape idx → cv.isBlank (a.nd.get idx) = true := by
  simp only [allBlank, List.all_eq_true, List.mem_range]
  constructor
  · intro h idx hv
    have := h _ (Nd.ravel_lt hv)
    rwa [Nd.unravel_ravel hv] at this
  · intro h k hk
    exact h _ (Nd.valid_unravel hk)

/-- C91: with `drop_empty` the variables which are empty for all measurements are left out, all
others are kept as they are. -/
theorem C91_drop (env : Env β α) (cv : Conv β α) (en : Enum String) (sn mn : List String) (f p q : Nat)
    (csh : Option (Nat × Nat × Nat)) (m0 : Point β α) (ms : List (Point β α))
    (hs : Sweep sn mn f p q csh (m0 :: ms)) :
    ∃ r r', read env cv en false [some (m0 :: ms)] = .ok r ∧ read env cv en true [some (m0 :: ms)] = .ok r' ∧
      r'.ivars = r.ivars ∧
      (r'.vars.map Prod.fst).Sublist (r.vars.map Prod.fst) ∧
      ∀ n a, lookup r'.vars n = some a ↔ lookup r.vars n = some a ∧
        ∃ idx, Nd.Valid a.nd.shape idx ∧ cv.isBlank (a.nd.get idx) = false := by
  obtain ⟨r, h1, h2⟩ := readSingle_spec env cv en sn mn f p q csh m0 ms hs
  have hS : "S" ∉ "Index" :: (sn ++ mn) := by
    have := hs.nodup
    rw [← List.append_assoc, ← List.cons_append, List.nodup_append] at this
    exact fun h => this.2.2 _ h "S" (by simp) rfl
  obtain ⟨r', _, _, h3, h4⟩ := finish_spec env cv sn mn f p q csh (m0 :: ms) m0.freq r h2 hS
  have hn : (r'.vars.map Prod.fst).Nodup := h4.names.nodup_iff.2
    (hs.nodup.sublist ((allNames_sub sn mn csh).cons₂ _))
  have hd := dropLoop_spec env cv (keys r'.vars) r' hn (fun k hk => hk) hn (fun k hk => h4.apart k hk)
  refine ⟨r', ⟨r'.vars.filter fun w => !(decide (w.1 ∈ keys r'.vars) && allBlank cv w.2), r'.ivars, r'.xname⟩,
    by simp only [read, h1, h3, Bool.false_eq_true, if_false],
    by simp only [read, h1, h3, if_true, hd], rfl, List.filter_sublist.map _, ?_⟩
  intro n a
  have hn' : ((r'.vars.filter fun w => !(decide (w.1 ∈ keys r'.vars) && allBlank cv w.2)).map Prod.fst).Nodup :=
    hn.sublist (List.filter_sublist.map _)
  have hb : allBlank cv a = false ↔ ∃ idx, Nd.Valid a.nd.shape idx ∧ cv.isBlank (a.nd.get idx) = false := by
    rw [Bool.eq_false_iff, Ne, allBlank_iff]
    constructor
    · intro h
      by_contra hc
      refine h fun idx hv => ?_
      cases hx : cv.isBlank (a.nd.get idx) with
      | true => rfl
      | false => exact absurd ⟨idx, hv, hx⟩ hc
    · rintro ⟨idx, hv, hx⟩ h
      rw [h idx hv] at hx
      cases hx
  rw [← hb]
  constructor
  · intro h
    have hm := List.mem_filter.1 (lookup_mem h)
    refine ⟨mem_lookup hn hm.1, ?_⟩
    have : (n, a).1 ∈ keys r'.vars := List.mem_map_of_mem hm.1
    simpa [this] using hm.2
  · rintro ⟨h, hb⟩
    refine mem_lookup hn' (p := (n, a)) (List.mem_filter.2 ⟨lookup_mem h, by simp [hb]⟩)

end HF.Muwave
