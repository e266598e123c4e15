import Verif.Networks.Slices
import Verif.Networks.StackProps
import Verif.HFArray.IndexProps
import Verif.HFArray.MaskProps
/-
C108: indexing of arrays of network parameters.

The matrices at the selected coordinates are those of the array, and the class is kept.  The reference
impedance is not: every index sets it to the default.
-/
noncomputable section

namespace HF.Networks

open HF.Arr

variable {β K : Type} [Field K] [DecidableEq K]

/-! ### Specification -/

/-- The coordinate names one of the networks. -/
def NetArr.Inside (net : NetArr β K) (c : Coord) : Prop :=
  ∀ k s, k ≠ kI → k ≠ kJ → net.a.axisLen k = some s → c k < s

/-- The parameters mean something else for another reference impedance. -/
def Waves : Rep → Prop
  | .S | .T | .Tp => True
  | _ => False

/-- Both matrix axes are left whole, of the others `sp` is selected. -/
def Keeps (net : NetArr β K) (ixs : List Ix) (sp : List Sel) : Prop :=
  ∃ full, Fills net.a.dims.length ixs full ∧
    (full.zip net.a.nd.shape).mapM (fun p => selOf p.1 p.2) = some (sp ++ [.many [0, 1], .many [0, 1]])

/-- An array which can be indexed: coordinate values for every axis. -/
def Indexable (net : NetArr β K) : Prop := net.a.Labelled ∧ ∀ d ∈ net.a.dims, Sliceable d

/-! ### Helpers -/

theorem mapM_length {γ δ : Type} {f : γ → Option δ} {l : List γ} {r : List δ} (h : l.mapM f = some r) :
    r.length = l.length := by
  induction l generalizing r with
  | nil => simp at h; subst h; rfl
  | cons a t ih =>
    simp only [List.mapM_cons] at h
    cases ha : f a with
    | none => rw [ha] at h; cases h
    | some b =>
      rw [ha] at h
      cases ht : t.mapM f with
      | none => rw [ht] at h; cases h
      | some u =>
        rw [ht] at h
        cases h
        simp [ih ht]

theorem mapM_split {γ δ : Type} {f : γ → Option δ} {l l' : List γ} {r r' : List δ}
    (h : (l ++ l').mapM f = some (r ++ r')) (hl : l.length = r.length) : l.mapM f = some r ∧ l'.mapM f = some r' := by
  induction l generalizing r with
  | nil =>
    cases r with
    | nil => simpa using h
    | cons a t => simp at hl
  | cons a t ih =>
    cases r with
    | nil => simp at hl
    | cons b u =>
      simp only [List.cons_append, List.mapM_cons] at h ⊢
      cases ha : f a with
      | none => rw [ha] at h; cases h
      | some b' =>
        rw [ha] at h
        cases ht : (t ++ l').mapM f with
        | none => rw [ht] at h; cases h
        | some v =>
          rw [ht] at h
          have h3 : b' :: v = b :: (u ++ r') := by cases h; rfl
          have h1 := (List.cons.inj h3).1
          have h2 := (List.cons.inj h3).2
          obtain ⟨e1, e2⟩ := ih (r := u) (by rw [ht, h2]) (by simpa using hl)
          rw [e1, h1]
          exact ⟨rfl, e2⟩

theorem src_not {sels : List Sel} {ds : List (Dim β)} {q : Key} (h : q ∉ ds.map Dim.key) (c : Coord) :
    srcCoord sels ds c q = c q := by
  induction sels generalizing ds with
  | nil => cases ds <;> rfl
  | cons s t ih =>
    cases ds with
    | nil => cases s <;> rfl
    | cons d ds =>
      simp only [List.map_cons, List.mem_cons, not_or] at h
      cases s <;> simp only [srcCoord, if_neg h.1] <;> exact ih h.2

theorem src_congr {sels : List Sel} {ds : List (Dim β)} {q : Key} {c c' : Coord} (h : c q = c' q) :
    srcCoord sels ds c q = srcCoord sels ds c' q := by
  induction sels generalizing ds with
  | nil => cases ds <;> exact h
  | cons s t ih =>
    cases ds with
    | nil => cases s <;> exact h
    | cons d ds =>
      cases s <;> simp only [srcCoord] <;> split
      · rfl
      · exact ih
      · rw [h]
      · exact ih

theorem src_append {sp t : List Sel} {pre ds : List (Dim β)} (hl : sp.length = pre.length) (c : Coord) (q : Key) :
    srcCoord (sp ++ t) (pre ++ ds) c q =
      if q ∈ pre.map Dim.key then srcCoord sp pre c q else srcCoord t ds c q := by
  induction sp generalizing pre with
  | nil =>
    cases pre with
    | nil => simp
    | cons a b => simp at hl
  | cons s sp ih =>
    cases pre with
    | nil => simp at hl
    | cons d pre =>
      have := ih (pre := pre) (by simpa using hl)
      by_cases h : q = d.key
      · cases s <;> simp [srcCoord, h]
      · cases s <;> simp only [List.cons_append, srcCoord, this, List.map_cons, List.mem_cons, h, false_or, if_false]

/-- The place of an element of a matrix. -/
theorem src_upd {sp : List Sel} {pre : List (Dim β)} {i j : Dim β} (hl : sp.length = pre.length) (hi : i.key = kI)
    (hj : j.key = kJ) (hp : ∀ d ∈ pre, d.key ≠ kI ∧ d.key ≠ kJ) (c : Coord) (m k : Fin 2) :
    srcCoord (sp ++ [.many [0, 1], .many [0, 1]]) (pre ++ [i, j]) (upd c kI kJ m.1 k.1) =
      upd (srcCoord sp pre c) kI kJ m.1 k.1 := by
  have hij : kJ ≠ kI := by decide
  have hb : ∀ m : Fin 2, ([0, 1] : List Nat).getD m.1 0 = m.1 := by decide
  funext q
  rw [src_append hl]
  by_cases hq : q ∈ pre.map Dim.key
  · obtain ⟨d, hd, rfl⟩ := List.mem_map.1 hq
    rw [if_pos hq]
    have h1 : ∀ e : Coord, upd e kI kJ m.1 k.1 d.key = e d.key := fun e => by
      simp only [upd, if_neg (hp d hd).1, if_neg (hp d hd).2]
    rw [h1]
    exact src_congr (h1 c)
  · rw [if_neg hq]
    simp only [srcCoord, hi, hj]
    by_cases h1 : q = kI
    · subst h1
      simp only [upd, if_true, hb]
    · by_cases h2 : q = kJ
      · subst h2
        simp only [upd, if_true, if_neg hij, hb]
      · simp only [upd, if_neg h1, if_neg h2]
        exact (src_not hq c).symm

theorem selDims_append {sp t : List Sel} {pre ds : List (Dim β)} (hl : sp.length = pre.length) :
    selDims (sp ++ t) (pre ++ ds) = selDims sp pre ++ selDims t ds := by
  induction sp generalizing pre with
  | nil =>
    cases pre with
    | nil => simp [selDims]
    | cons a b => simp at hl
  | cons s sp ih =>
    cases pre with
    | nil => simp at hl
    | cons d pre =>
      have := ih (pre := pre) (by simpa using hl)
      cases s <;> simp [selDims, this]

theorem selDims_sublist (sp : List Sel) (pre : List (Dim β)) :
    ((selDims sp pre).map Dim.key).Sublist (pre.map Dim.key) := by
  induction sp generalizing pre with
  | nil => cases pre <;> simp [selDims]
  | cons s sp ih =>
    cases pre with
    | nil => cases s <;> simp [selDims]
    | cons d pre =>
      cases s with
      | one k => exact (ih pre).cons _
      | many l => exact (ih pre).cons_cons _

theorem selOf_one {ixs : List Ix} {ns : List Nat} {sels : List Sel}
    (h : (ixs.zip ns).mapM (fun p => selOf p.1 p.2) = some sels) :
    ∀ k n, (Sel.one k, n) ∈ sels.zip ns → k < n := by
  induction ixs generalizing ns sels with
  | nil => simp at h; subst h; simp
  | cons ix ixs ih =>
    cases ns with
    | nil => simp
    | cons n ns =>
      simp only [List.zip_cons_cons, List.mapM_cons] at h
      cases ha : selOf ix n with
      | none => rw [ha] at h; cases h
      | some b =>
        rw [ha] at h
        cases ht : (ixs.zip ns).mapM (fun p => selOf p.1 p.2) with
        | none => rw [ht] at h; cases h
        | some u =>
          rw [ht] at h
          have h3 : sels = b :: u := by cases h; rfl
          subst h3
          intro k m hm
          simp only [List.zip_cons_cons, List.mem_cons, Prod.mk.injEq] at hm
          rcases hm with ⟨hb, rfl⟩ | hm
          · subst hb
            cases ix with
            | int v =>
              simp only [selOf, Option.map_eq_some_iff, Sel.one.injEq] at ha
              obtain ⟨a, ha, rfl⟩ := ha
              unfold Nd.normAxis at ha
              split_ifs at ha <;> simp only [Option.some.injEq] at ha <;> omega
            | slice s => simp [selOf] at ha
            | ellipsis => simp [selOf] at ha
            | newaxis => simp [selOf] at ha
          · exact ih ht k m hm

/-- Where a selected coordinate comes from lies inside of the array. -/
theorem src_lt {sp : List Sel} {pre : List (Dim β)} (hl : sp.length = pre.length) (hd : Distinct pre)
    (h1 : ∀ k d, (Sel.one k, d) ∈ sp.zip pre → k < d.data.length)
    (h2 : ∀ l d, (Sel.many l, d) ∈ sp.zip pre → ∀ k ∈ l, k < d.data.length) (c : Coord)
    (hc : ∀ e ∈ selDims sp pre, c e.key < e.data.length) : ∀ d ∈ pre, srcCoord sp pre c d.key < d.data.length := by
  induction sp generalizing pre with
  | nil =>
    cases pre with
    | nil => simp
    | cons a b => simp at hl
  | cons s sp ih =>
    cases pre with
    | nil => simp at hl
    | cons d pre =>
      have hd2 : d.key ∉ pre.map Dim.key ∧ Distinct pre := by
        unfold Distinct at hd ⊢
        simpa using hd
      have hrest : ∀ e ∈ selDims sp pre, c e.key < e.data.length := by
        intro e he
        apply hc
        cases s <;> simp [selDims, he]
      have hi := ih (pre := pre) (by simpa using hl) hd2.2
        (fun k e he => h1 k e (by simp [he])) (fun l e he => h2 l e (by simp [he])) hrest
      intro e he
      rcases List.mem_cons.1 he with rfl | he
      · cases s with
        | one k =>
          simp only [srcCoord, if_true]
          exact h1 k e (by simp)
        | many l =>
          simp only [srcCoord, if_true]
          have hb : ∀ k ∈ l, k < e.data.length := h2 l e (by simp)
          have hlen : (l.filterMap fun i => e.data[i]?).length = l.length := by
            clear hc hi hrest h1 h2 hl ih
            induction l with
            | nil => rfl
            | cons a t ih =>
              have ha := hb a (by simp)
              rw [List.filterMap_cons, List.getElem?_eq_getElem ha]
              simp only [List.length_cons]
              rw [ih fun k hk => hb k (by simp [hk])]
          have hcl : c e.key < l.length := by
            rw [← hlen]
            exact hc ⟨e.cls, e.name, l.filterMap fun i => e.data[i]?, e.unit, none⟩ (by simp [selDims])
          rw [List.getD_eq_getElem?_getD, List.getElem?_eq_getElem hcl]
          exact hb _ (List.getElem_mem hcl)
      · have hne : e.key ≠ d.key := fun h => hd2.1 (h ▸ List.mem_map_of_mem he)
        cases s <;> simp only [srcCoord, if_neg hne] <;> exact hi e he

theorem inside_range {net : NetArr β K} {pre : List (Dim β)} (h : TwoPorts net pre) {c : Coord} (hc : net.Inside c)
    (m k : Fin 2) : net.a.InRange (upd c kI kJ m.1 k.1) := by
  obtain ⟨⟨i, j, hL⟩, -⟩ := h
  have hwf := hL.stack.wf
  refine Nd.valid_iff.2 ⟨by simpa [WF] using hwf, ?_⟩
  intro q hq
  have hq' : q < net.a.dims.length := by rw [hwf]; exact hq
  have ha := axisLen_get net.a hwf hL.stack.distinct q hq' hq
  simp only [List.getD_eq_getElem?_getD, List.getElem?_map, List.getElem?_eq_getElem hq',
    List.getElem?_eq_getElem hq, Option.map_some, Option.getD_some]
  unfold upd
  split
  · rename_i e
    rw [e, hL.stack.rows] at ha
    have := Option.some.inj ha
    omega
  · split
    · rename_i e
      rw [e, hL.stack.cols] at ha
      have := Option.some.inj ha
      omega
    · exact hc _ _ (by assumption) (by assumption) ha

theorem inside_in {net : NetArr β K} {c : Coord} (h : net.Inside c) : net.In c :=
  fun k s h1 h2 h3 => Or.inr (h k s h1 h2 h3)

theorem inside_iff {net : NetArr β K} {pre : List (Dim β)} (h : TwoPorts net pre) (hl : net.a.Labelled) (c : Coord) :
    net.Inside c ↔ ∀ e ∈ pre.map strip, c e.key < e.data.length := by
  obtain ⟨⟨i, j, hL⟩, -⟩ := h
  constructor
  · intro hc e he
    obtain ⟨d, hd, rfl⟩ := List.mem_map.1 he
    exact hc d.key d.data.length (hL.pre_ne d hd).1 (hL.pre_ne d hd).2
      (axisLen_labelled net.a hL.stack.wf hl hL.stack.distinct d (by rw [hL.dims]; simp [hd]))
  · intro hc k s h1 h2 hks
    obtain ⟨d, hd, rfl⟩ := List.mem_map.1 (axisLen_isSome hL.stack.wf hks)
    rw [axisLen_labelled net.a hL.stack.wf hl hL.stack.distinct d hd] at hks
    obtain rfl := Option.some.inj hks
    rw [hL.dims] at hd
    rcases List.mem_append.1 hd with h | h
    · exact hc (strip d) (List.mem_map_of_mem h)
    · simp only [List.mem_cons, List.not_mem_nil, or_false] at h
      rcases h with rfl | rfl
      · exact absurd hL.ikey h1
      · exact absurd hL.jkey h2

theorem inside_norm {net : NetArr β K} {pre : List (Dim β)} (h : TwoPorts net pre) {c : Coord} (hc : net.In c) :
    ∃ c', net.Inside c' ∧ net.at c = net.at c' := by
  obtain ⟨⟨i, j, hL⟩, -⟩ := h
  refine ⟨fun k => if net.a.axisLen k = some 1 then 0 else c k, ?_, ?_⟩
  · intro k s h1 h2 hs
    show (if net.a.axisLen k = some 1 then 0 else c k) < s
    rw [hs]
    rcases hc k s h1 h2 hs with rfl | h3
    · simp
    · split <;> omega
  · unfold NetArr.at
    congr 1
    ext m k
    refine atB_congr hL.stack.wf hL.stack.distinct fun q s hq hs => ?_
    have : net.a.axisLen q ≠ some 1 := by rw [hq]; simpa using hs
    simp only [upd, if_neg this]

/-- What indexing gives if the matrix axes are left whole. -/
theorem sliced (fmt : β → String) (dflt : Imp K) {net : NetArr β K} {pre : List (Dim β)} (h : TwoPorts net pre)
    (hx : Indexable net) {ixs : List Ix} {sp : List Sel} (hk : Keeps net ixs sp) :
    ∃ r pre', netGet fmt dflt net ixs = .ok (.net r) ∧ r.rep = net.rep ∧ r.z = dflt ∧ TwoPorts r pre' ∧
      pre'.map strip = selDims sp pre ∧ r.a.Labelled ∧
      ∀ c, r.Inside c → net.Inside (srcCoord sp pre c) ∧
        r.a.mat kI kJ c 2 2 = net.a.mat kI kJ (srcCoord sp pre c) 2 2 := by
  have h' := h
  obtain ⟨⟨i, j, hL⟩, hns⟩ := h
  obtain ⟨hlab, hsl⟩ := hx
  obtain ⟨full, hf, hs⟩ := hk
  have hwf := hL.stack.wf
  obtain ⟨r, hr, hrw, hrl, hrd, hat⟩ := C09_index fmt net.a hwf hlab hL.stack.distinct ixs full hf _ hs
    (Or.inl ⟨[0, 1], by simp⟩) hsl
  have hll : sp.length = pre.length := by
    have h1 := mapM_length hs
    have h2 : net.a.dims.length = net.a.nd.shape.length := hwf
    have h3 := hf.length
    have h4 : net.a.dims.length = pre.length + 2 := by rw [hL.dims]; simp
    simp only [List.length_append, List.length_cons, List.length_nil, List.length_zip] at h1
    omega
  have hdI : i.data.length = 2 := by
    have := axisLen_labelled net.a hwf hlab hL.stack.distinct i (by rw [hL.dims]; simp)
    rw [hL.ikey, hL.stack.rows] at this
    exact (Option.some.inj this).symm
  have hdJ : j.data.length = 2 := by
    have := axisLen_labelled net.a hwf hlab hL.stack.distinct j (by rw [hL.dims]; simp)
    rw [hL.jkey, hL.stack.cols] at this
    exact (Option.some.inj this).symm
  rw [hL.dims, selDims_append hll] at hrd
  obtain ⟨pre', mm, hsplit, hp', hm'⟩ := List.map_eq_append_iff.1 hrd
  obtain ⟨i', j', rfl, hi', hj'⟩ : ∃ i' j', mm = [i', j'] ∧
      strip i' = ⟨i.cls, i.name, [0, 1].filterMap fun q => i.data[q]?, i.unit, none⟩ ∧
      strip j' = ⟨j.cls, j.name, [0, 1].filterMap fun q => j.data[q]?, j.unit, none⟩ := by
    simp only [selDims] at hm'
    cases mm with
    | nil => simp at hm'
    | cons a mm =>
      cases mm with
      | nil => simp at hm'
      | cons b mm =>
        cases mm with
        | nil =>
          simp only [List.map_cons, List.map_nil, List.cons.injEq, and_true] at hm'
          exact ⟨a, b, rfl, hm'.1, hm'.2⟩
        | cons e mm => simp at hm'
  have two : ∀ l : List β, l.length = 2 → ([0, 1].filterMap fun q => l[q]?).length = 2 := by
    intro l hl
    match l, hl with
    | [a, b], _ => rfl
  have ki' : i'.key = kI := by
    have e := congrArg (fun d : Dim β => d.key) hi'
    rw [← hL.ikey]; exact e
  have kj' : j'.key = kJ := by
    have e := congrArg (fun d : Dim β => d.key) hj'
    rw [← hL.jkey]; exact e
  have li' : i'.data.length = 2 := by
    have : i'.data = [0, 1].filterMap fun q => i.data[q]? := congrArg (fun d : Dim β => d.data) hi'
    rw [this]; exact two _ hdI
  have lj' : j'.data.length = 2 := by
    have : j'.data = [0, 1].filterMap fun q => j.data[q]? := congrArg (fun d : Dim β => d.data) hj'
    rw [this]; exact two _ hdJ
  have kp : pre'.map Dim.key = (selDims sp pre).map Dim.key := by
    rw [← hp', List.map_map]; rfl
  have sub : (pre'.map Dim.key).Sublist (pre.map Dim.key) := kp ▸ selDims_sublist sp pre
  have sub2 : (r.dims.map Dim.key).Sublist (net.a.dims.map Dim.key) := by
    rw [hsplit, hL.dims, List.map_append, List.map_append]
    refine sub.append ?_
    simp [ki', kj', hL.ikey, hL.jkey]
  have hdist : Distinct r.dims := sub2.nodup hL.stack.distinct
  have hT : ∀ z, TwoPorts ⟨net.rep, z, r⟩ pre' := by
    intro z
    refine ⟨⟨i', j', ⟨⟨hrw, hdist, ?_, ?_, rfl, rfl, ?_⟩, hsplit, ki', kj'⟩⟩, ?_⟩
    · have := axisLen_labelled r hrw hrl hdist i' (by rw [hsplit]; simp)
      rw [ki', li'] at this; exact this
    · have := axisLen_labelled r hrw hrl hdist j' (by rw [hsplit]; simp)
      rw [kj', lj'] at this; exact this
    · intro d hd h1 h2
      obtain ⟨e, he, hde⟩ := List.mem_map.1 (sub2.subset (List.mem_map_of_mem hd))
      have := hL.stack.others e he (by rw [hde]; exact h1) (by rw [hde]; exact h2)
      have hc : e.cls = d.cls := congrArg Prod.snd hde
      unfold Dim.isa at this ⊢
      rw [hc] at this; exact this
    · intro d hd e he hn hc
      obtain ⟨d', hd', kd⟩ := List.mem_map.1 (sub2.subset (List.mem_map_of_mem hd))
      obtain ⟨e', he', ke⟩ := List.mem_map.1 (sub2.subset (List.mem_map_of_mem he))
      have c1 : d'.cls = d.cls := congrArg Prod.snd kd
      have c2 : e'.cls = e.cls := congrArg Prod.snd ke
      have n1 : d'.name = d.name := congrArg Prod.fst kd
      have n2 : e'.name = e.name := congrArg Prod.fst ke
      have := hns d' hd' e' he' (by rw [n1, n2, hn]) (by rw [c1, c2]; exact hc)
      rw [c1, c2] at this; exact this
  have hmat : hasMatrix r = true := by
    unfold hasMatrix
    have c1 : i'.cls = .matI := congrArg Prod.snd ki'
    have c2 : j'.cls = .matJ := congrArg Prod.snd kj'
    have s1 : Cls.isSub .matI .matI = true := by decide +kernel
    have s2 : Cls.isSub .matJ .matJ = true := by decide +kernel
    rw [hsplit]
    simp [Dim.isa, c1, c2, s1, s2]
  have hlast : r.nd.shape.getLast? = some 2 := by
    have : r.nd.shape = (pre' ++ [i']).map (fun d => d.data.length) ++ [2] := by
      rw [← hrl, hsplit]; simp [lj']
    rw [this]; simp
  have hin : ∀ c, (⟨net.rep, dflt, r⟩ : NetArr β K).Inside c → net.Inside (srcCoord sp pre c) := by
    intro c hc k s h1 h2 hks
    have hm := axisLen_isSome hwf hks
    obtain ⟨d, hd, rfl⟩ := List.mem_map.1 hm
    rw [axisLen_labelled net.a hwf hlab hL.stack.distinct d hd] at hks
    obtain rfl := Option.some.inj hks
    have hdp : d ∈ pre := by
      rw [hL.dims] at hd
      rcases List.mem_append.1 hd with h | h
      · exact h
      · simp only [List.mem_cons, List.not_mem_nil, or_false] at h
        rcases h with rfl | rfl
        · exact absurd hL.ikey h1
        · exact absurd hL.jkey h2
    have hz : ∀ {s d}, (s, d) ∈ sp.zip pre →
        (s, d.data.length) ∈ (sp ++ [Sel.many [0, 1], .many [0, 1]]).zip net.a.nd.shape := by
      intro s d hm
      rw [← hlab, hL.dims, List.map_append, List.zip_append (by simpa using hll)]
      apply List.mem_append_left
      rw [List.zip_map_right]
      exact List.mem_map.2 ⟨_, hm, rfl⟩
    refine src_lt hll ?_ (fun k d hm => selOf_one hs _ _ (hz hm)) (fun l d hm => selOf_lt hs _ _ (hz hm)) c ?_ d hdp
    · have := hL.stack.distinct
      unfold Distinct at this ⊢
      rw [hL.dims, List.map_append] at this
      exact (List.nodup_append.1 this).1
    · intro e he
      rw [← hp'] at he
      obtain ⟨e', he', rfl⟩ := List.mem_map.1 he
      have hkk : e'.key ≠ kI ∧ e'.key ≠ kJ := by
        obtain ⟨q, hq, hqe⟩ := List.mem_map.1 (sub.subset (List.mem_map_of_mem he'))
        rw [← hqe]; exact hL.pre_ne q hq
      exact hc e'.key e'.data.length hkk.1 hkk.2
        (axisLen_labelled r hrw hrl hdist e' (by rw [hsplit]; simp [he']))
  refine ⟨⟨net.rep, dflt, r⟩, pre', ?_, rfl, rfl, hT dflt, hp', hrl, fun c hc => ⟨hin c hc, ?_⟩⟩
  · unfold netGet
    rw [hr]
    simp [hmat, hlast]
  · ext m k
    show r.atB _ = net.a.atB _
    have r1 := inside_range (hT dflt) hc m k
    rw [atB_eq_at hrw r1, (hat _ r1).1, hL.dims, src_upd hll hL.ikey hL.jkey hL.pre_ne,
      atB_eq_at hwf (inside_range h' (hin c hc) m k)]

theorem sweeps_of {pre pre' : List (Dim β)} (h : (pre'.map Dim.key).Sublist (pre.map Dim.key)) (ho : SweepsFirst pre) :
    SweepsFirst pre' := by
  have key : ∀ l : List (Dim β), SweepsFirst l ↔ (l.map Dim.key).Pairwise fun x y =>
      x.2.isSub .dimRep = true → y.2.isSub .dimSweep = false := by
    intro l
    rw [List.pairwise_map]
    rfl
  rw [key] at ho ⊢
  exact ho.sublist h

/-! ### Properties -/

/-- C108.  An index which leaves the matrices whole gives an array of the same class; the other axes are
those which remain of the array, and at every coordinate there is the matrix which the array has at the
coordinate selected. -/
theorem C108_matrices (fmt : β → String) (dflt : Imp K) (net : NetArr β K) {pre : List (Dim β)}
    (h : TwoPorts net pre) (hx : Indexable net) (ixs : List Ix) (sp : List Sel) (hk : Keeps net ixs sp) :
    ∃ r pre', netGet fmt dflt net ixs = .ok (.net r) ∧ r.rep = net.rep ∧ r.z = dflt ∧ TwoPorts r pre' ∧
      pre'.map strip = selDims sp pre ∧
      ∀ c, r.Inside c → net.Inside (srcCoord sp pre c) ∧
        r.a.mat kI kJ c 2 2 = net.a.mat kI kJ (srcCoord sp pre c) 2 2 := by
  obtain ⟨r, pre', h1, h2, h3, h4, h5, -, h6⟩ := sliced fmt dflt h hx hk
  exact ⟨r, pre', h1, h2, h3, h4, h5, h6⟩

/-- C108.  The networks selected are the networks of the array, if its reference impedance is the
default or its parameters do not depend on it. -/
theorem C108_same_network (fmt : β → String) (dflt : Imp K) (net : NetArr β K) {pre : List (Dim β)}
    (h : TwoPorts net pre) (hx : Indexable net) (ixs : List Ix) (sp : List Sel) (hk : Keeps net ixs sp)
    (hz : net.z = dflt ∨ ¬ Waves net.rep) :
    ∃ r, netGet fmt dflt net ixs = .ok (.net r) ∧ ∀ c, r.Inside c →
      net.Inside (srcCoord sp pre c) ∧ ∀ w, Sat (r.at c) w ↔ Sat (net.at (srcCoord sp pre c)) w := by
  obtain ⟨r, pre', h1, h2, h3, h4, h5, -, h6⟩ := sliced fmt dflt h hx hk
  refine ⟨r, h1, fun c hc => ⟨(h6 c hc).1, fun w => ?_⟩⟩
  have e : r.at c = ⟨net.rep, dflt, net.a.mat kI kJ (srcCoord sp pre c) 2 2⟩ := by
    unfold NetArr.at
    rw [h2, h3, (h6 c hc).2]
  rw [e]
  rcases hz with hz | hz
  · rw [← hz]; rfl
  · unfold NetArr.at
    cases hrep : net.rep <;> rw [hrep] at hz <;> first | exact Iff.rfl | exact absurd trivial hz

/-- C108.  For arrays with the default impedance it makes no difference whether the array is converted
and then indexed or indexed and then converted. -/
theorem C108_convert (h2 : (2 : K) ≠ 0) (full : Arr β K → Arr β K) (fmt : β → String) (ofIdx : Nat → β)
    (dflt : Imp K) (hd : dflt.Ok) (dst : Rep) (net conv : NetArr β K) (hn : net.z = dflt) {pre : List (Dim β)}
    (h : TwoPorts net pre) (ho : SweepsFirst pre) (hx : Indexable net) (ixs : List Ix) (sp : List Sel)
    (hk : Keeps net ixs sp) (hc : constructArr full fmt ofIdx dflt dst none net = .ok conv) :
    ∃ part convPart partConv, netGet fmt dflt net ixs = .ok (.net part) ∧
      netGet fmt dflt conv ixs = .ok (.net convPart) ∧
      constructArr full fmt ofIdx dflt dst none part = .ok partConv ∧
      ∀ c, part.Inside c → partConv.at c = convPart.at c := by
  have hno : net.z.Ok := hn ▸ hd
  obtain ⟨hcd, hcs, hcn⟩ := C101_same_network h2 full fmt ofIdx dflt hd dst none (by simp) net conv hno h (Or.inl ho) hc
  have hcc := C101_class full fmt ofIdx dflt dst none net conv h hc
  have hcz : conv.z = dflt := by
    rw [hcc.2, hn]
    simp
  have ht : TwoPorts conv pre := h.same hcd hcs
  have hxc : Indexable conv := by
    unfold Indexable Labelled at hx ⊢
    rw [hcd, hcs]; exact hx
  have hkc : Keeps conv ixs sp := by
    unfold Keeps at hk ⊢
    rw [hcd, hcs]; exact hk
  obtain ⟨part, pp, a1, a2, a3, a4, a5, al, a6⟩ := sliced fmt dflt h hx hk
  obtain ⟨cp, cpp, b1, b2, b3, b4, b5, bl, b6⟩ := sliced fmt dflt ht hxc hkc
  have hkeys : (pp.map Dim.key).Sublist (pre.map Dim.key) := by
    have : pp.map Dim.key = (selDims sp pre).map Dim.key := by rw [← a5, List.map_map]; rfl
    rw [this]; exact selDims_sublist sp pre
  have hso := sweeps_of hkeys ho
  have hpo : part.z.Ok := a3 ▸ hd
  have sat : ∀ c, part.Inside c → ∀ w, Sat (part.at c) w ↔ Sat ⟨dst, dflt, conv.a.mat kI kJ (srcCoord sp pre c) 2 2⟩ w := by
    intro c hc w
    have e1 : part.at c = net.at (srcCoord sp pre c) := by
      unfold NetArr.at
      rw [a2, a3, (a6 c hc).2, hn]
    have e2 : conv.at (srcCoord sp pre c) = ⟨dst, dflt, conv.a.mat kI kJ (srcCoord sp pre c) 2 2⟩ := by
      unfold NetArr.at
      rw [hcc.1, hcz]
    rw [e1, ← e2]
    exact (hcn _ (inside_in (a6 c hc).1)).2 w
  obtain ⟨pc, hpc⟩ := C101_exists h2 full fmt ofIdx dflt hd dst none (by simp) part hpo a4 (Or.inl hso) (by
    intro c hc
    obtain ⟨c', hc', e⟩ := inside_norm a4 hc
    refine ⟨conv.a.mat kI kJ (srcCoord sp pre c') 2 2, fun w => ?_⟩
    have : (if dst = .S then (none : Option (Imp K)).getD dflt else part.z) = dflt := by rw [a3]; simp
    rw [e, this]
    exact sat c' hc' w)
  have hpn := (C101_same_network h2 full fmt ofIdx dflt hd dst none (by simp) part pc hpo a4 (Or.inl hso) hpc).2.2
  have hpcl := C101_class full fmt ofIdx dflt dst none part pc a4 hpc
  have hpz : pc.z = dflt := by
    rw [hpcl.2, a3]
    simp
  refine ⟨part, cp, pc, a1, b1, hpc, fun c hc => ?_⟩
  have hcc2 : cp.Inside c := by
    rw [inside_iff b4 bl, b5, ← a5, ← inside_iff a4 al]
    exact hc
  have e1 : cp.at c = ⟨dst, dflt, conv.a.mat kI kJ (srcCoord sp pre c) 2 2⟩ := by
    unfold NetArr.at
    rw [b2, b3, (b6 c hcc2).2, hcc.1]
  have e2 : pc.at c = ⟨dst, dflt, pc.a.mat kI kJ c 2 2⟩ := by
    unfold NetArr.at
    rw [hpcl.1, hpz]
  have : pc.a.mat kI kJ c 2 2 = conv.a.mat kI kJ (srcCoord sp pre c) 2 2 :=
    C27_unique h2 dst dflt hd _ _ fun w hw => (sat c hc w).1 (((hpn c (inside_in hc)).2 w).2 (e2 ▸ hw))
  rw [e1, e2, this]

/-- C108 is false for other reference impedances: of an array of scattering parameters the index gives
another network wherever the array is matched. -/
theorem C108_impedance_refuted (fmt : β → String) (dflt : Imp K)
    (net : NetArr β K) (hrep : net.rep = .S) (hz : net.z.v * dflt.i ≠ net.z.i * dflt.v)
    {pre : List (Dim β)} (h : TwoPorts net pre) (hx : Indexable net) (ixs : List Ix) (sp : List Sel)
    (hk : Keeps net ixs sp) :
    ∃ r, netGet fmt dflt net ixs = .ok (.net r) ∧ ∀ c, r.Inside c →
      net.a.mat kI kJ (srcCoord sp pre c) 2 2 = 0 →
      ∃ w, Sat (net.at (srcCoord sp pre c)) w ∧ ¬ Sat (r.at c) w := by
  obtain ⟨r, pre', h1, h2', h3, h4, h5, -, h6⟩ := sliced fmt dflt h hx hk
  refine ⟨r, h1, fun c hc h0 => ?_⟩
  have e : r.at c = ⟨.S, dflt, 0⟩ := by
    unfold NetArr.at
    rw [h2', h3, (h6 c hc).2, h0, hrep]
  have e2 : net.at (srcCoord sp pre c) = ⟨.S, net.z, 0⟩ := by
    unfold NetArr.at
    rw [h0, hrep]
  rw [e, e2]
  refine ⟨⟨net.z.i, 0, net.z.v, 0⟩, ?_, ?_⟩
  · simp [Sat, Lin, Port.b1, Port.b2]
    ring
  · intro hw
    simp [Sat, Lin, Port.b1, Port.b2] at hw
    apply hz
    linear_combination -hw

/-- C108.  If one of the matrix axes is indexed with an integer, the result is a plain array with the
elements selected, or a number. -/
theorem C108_elements (fmt : β → String) (dflt : Imp K) (net : NetArr β K) {pre : List (Dim β)}
    (h : TwoPorts net pre) (hx : Indexable net) (ixs full : List Ix) (hf : Fills net.a.dims.length ixs full)
    (sp : List Sel) (si sj : Sel)
    (hs : (full.zip net.a.nd.shape).mapM (fun p => selOf p.1 p.2) = some (sp ++ [si, sj]))
    (hone : (∃ k, si = .one k) ∨ ∃ k, sj = .one k)
    (hk : (∃ l, Sel.many l ∈ sp ++ [si, sj]) ∨ Ix.ellipsis ∈ ixs) :
    ∃ r, netGet fmt dflt net ixs = .ok (.arr r) ∧ r.dims.map strip = selDims (sp ++ [si, sj]) net.a.dims ∧
      ∀ c, r.InRange c → r.at_ c = net.a.at_ (srcCoord (sp ++ [si, sj]) net.a.dims c) := by
  obtain ⟨⟨i, j, hL⟩, -⟩ := h
  have hwf := hL.stack.wf
  obtain ⟨r, hr, hrw, hrl, hrd, hat⟩ := C09_index fmt net.a hwf hx.1 hL.stack.distinct ixs full hf _ hs hk hx.2
  have hll : sp.length = pre.length := by
    have h1 := mapM_length hs
    have h2 : net.a.dims.length = net.a.nd.shape.length := hwf
    have h3 := hf.length
    have h4 : net.a.dims.length = pre.length + 2 := by rw [hL.dims]; simp
    simp only [List.length_append, List.length_cons, List.length_nil, List.length_zip] at h1
    omega
  have out : ∀ c : Cls, (c.isSub .dimSweep = true ∨ c.isSub .dimRep = true) →
      c.isSub .matI = false ∧ c.isSub .matJ = false := by
    intro c; cases c <;> decide +kernel
  have kk : r.dims.map Dim.key = (selDims sp pre).map Dim.key ++ (selDims [si, sj] [i, j]).map Dim.key := by
    rw [← List.map_append, ← selDims_append hll, ← hL.dims, ← hrd, List.map_map]; rfl
  have hpre : ∀ q ∈ (selDims sp pre).map Dim.key, q.2.isSub .matI = false ∧ q.2.isSub .matJ = false := by
    intro q hq
    obtain ⟨d, hd, rfl⟩ := List.mem_map.1 ((selDims_sublist sp pre).subset hq)
    exact out _ (hL.stack.others d (by rw [hL.dims]; simp [hd]) (hL.pre_ne d hd).1 (hL.pre_ne d hd).2)
  have ci : i.cls = .matI := congrArg Prod.snd hL.ikey
  have cj : j.cls = .matJ := congrArg Prod.snd hL.jkey
  have ij : Cls.isSub .matI .matJ = false ∧ Cls.isSub .matJ .matI = false := by decide +kernel
  have any : ∀ cl : Cls, r.dims.any (fun d => d.isa cl) = (r.dims.map Dim.key).any fun q => q.2.isSub cl := by
    intro cl
    rw [List.any_map]; rfl
  have hno : hasMatrix r = false := by
    unfold hasMatrix
    rw [any, any, kk, List.any_append, List.any_append]
    have p1 : ((selDims sp pre).map Dim.key).any (fun q => q.2.isSub .matI) = false := by
      rw [List.any_eq_false]; intro q hq; simp [(hpre q hq).1]
    have p2 : ((selDims sp pre).map Dim.key).any (fun q => q.2.isSub .matJ) = false := by
      rw [List.any_eq_false]; intro q hq; simp [(hpre q hq).2]
    rw [p1, p2]
    rcases hone with ⟨k, rfl⟩ | ⟨k, rfl⟩
    · cases sj <;> simp [selDims, Dim.key, cj, ij.2]
    · cases si <;> simp [selDims, Dim.key, ci, ij.1]
  refine ⟨r, ?_, hrd, fun c hc => (hat c hc).1⟩
  unfold netGet
  rw [hr]
  simp [hno]

/-- C108.  A part of the matrices with other than two columns is refused by the classes of two-ports. -/
theorem C108_columns (fmt : β → String) (dflt : Imp K) (net : NetArr β K) {pre : List (Dim β)}
    (h : TwoPorts net pre) (hx : Indexable net) (ixs full : List Ix) (hf : Fills net.a.dims.length ixs full)
    (sp : List Sel) (li lj : List Nat)
    (hs : (full.zip net.a.nd.shape).mapM (fun p => selOf p.1 p.2) = some (sp ++ [.many li, .many lj])) :
    netGet fmt dflt net ixs = .error .valueError ↔
      lj.length ≠ 2 ∧ net.rep ≠ .Z ∧ net.rep ≠ .Y ∧ net.rep ≠ .S := by
  obtain ⟨⟨i, j, hL⟩, -⟩ := h
  have hwf := hL.stack.wf
  obtain ⟨r, hr, hrw, hrl, hrd, hat⟩ := C09_index fmt net.a hwf hx.1 hL.stack.distinct ixs full hf _ hs
    (Or.inl ⟨li, by simp⟩) hx.2
  have hll : sp.length = pre.length := by
    have h1 := mapM_length hs
    have h2 : net.a.dims.length = net.a.nd.shape.length := hwf
    have h3 := hf.length
    have h4 : net.a.dims.length = pre.length + 2 := by rw [hL.dims]; simp
    simp only [List.length_append, List.length_cons, List.length_nil, List.length_zip] at h1
    omega
  have ci : i.cls = .matI := congrArg Prod.snd hL.ikey
  have cj : j.cls = .matJ := congrArg Prod.snd hL.jkey
  have ii : Cls.isSub .matI .matI = true ∧ Cls.isSub .matJ .matJ = true := by decide +kernel
  have hsel : selDims (sp ++ [.many li, .many lj]) net.a.dims = selDims sp pre ++
      [⟨i.cls, i.name, li.filterMap fun q => i.data[q]?, i.unit, none⟩,
        ⟨j.cls, j.name, lj.filterMap fun q => j.data[q]?, j.unit, none⟩] := by
    rw [hL.dims, selDims_append hll]; rfl
  have any : ∀ cl : Cls, r.dims.any (fun d => d.isa cl) = (r.dims.map strip).any fun d => d.isa cl := by
    intro cl
    rw [List.any_map]; rfl
  have hyes : hasMatrix r = true := by
    unfold hasMatrix
    rw [any, any, hrd, hsel]
    simp [Dim.isa, ci, cj, ii.1, ii.2]
  have hlast : r.nd.shape.getLast? = some lj.length := by
    have e : r.nd.shape = (r.dims.map strip).map fun d => d.data.length := by
      rw [← hrl, List.map_map]; rfl
    have hlt := selOf_lt hs lj j.data.length (by
      rw [← hx.1, hL.dims, List.map_append, List.zip_append (by simpa using hll)]
      apply List.mem_append_right
      simp)
    have hlen : ∀ l : List Nat, (∀ k ∈ l, k < j.data.length) → (l.filterMap fun q => j.data[q]?).length = l.length := by
      intro l hl
      induction l with
      | nil => rfl
      | cons a t ih =>
        rw [List.filterMap_cons, List.getElem?_eq_getElem (hl a (by simp))]
        simp only [List.length_cons]
        rw [ih fun k hk => hl k (by simp [hk])]
    rw [e, hrd, hsel]
    simp [hlen lj hlt]
  unfold netGet
  rw [hr]
  simp only [hyes, if_true, hlast]
  cases net.rep <;> by_cases h2 : lj.length = 2 <;> simp [twoColumns, h2]

/-! ### An example -/

/-- Three points: matched, a through connection and a reflection of one half. -/
def slA : Arr Nat ℚ := ⟨[⟨.dimSweep, "freq", [1, 2, 3], none, none⟩, ⟨.matI, "i", [0, 1], none, none⟩,
  ⟨.matJ, "j", [0, 1], none, none⟩], ⟨[3, 2, 2], fun
  | [1, 0, 1] | [1, 1, 0] => 1
  | [2, 0, 0] | [2, 1, 1] => 1 / 2
  | _ => 0⟩⟩

def slNet (z : Imp ℚ) : NetArr Nat ℚ := ⟨.S, z, slA⟩

theorem slNet_two (z : Imp ℚ) : TwoPorts (slNet z) [⟨.dimSweep, "freq", [1, 2, 3], none, none⟩] where
  last := ⟨⟨.matI, "i", [0, 1], none, none⟩, ⟨.matJ, "j", [0, 1], none, none⟩,
    ⟨⟨rfl, by show (slA.dims.map Dim.key).Nodup; decide +kernel, by show slA.axisLen kI = some 2; decide +kernel,
      by show slA.axisLen kJ = some 2; decide +kernel, rfl, rfl,
      by show ∀ d ∈ slA.dims, d.key ≠ kI → d.key ≠ kJ → d.isa .dimSweep = true ∨ d.isa .dimRep = true; decide +kernel⟩,
      rfl, rfl, rfl⟩⟩
  nosub := by show NoSub slA.dims; unfold NoSub; decide +kernel

theorem slNet_indexable (z : Imp ℚ) : Indexable (slNet z) := by
  refine ⟨rfl, ?_⟩
  intro d hd
  left
  have : ∀ d ∈ slA.dims, d.data ≠ [] := by decide +kernel
  exact this d hd

/-- `net[::2]`: the first and the last of the three points. -/
theorem slNet_keeps (z : Imp ℚ) : Keeps (slNet z) [.slice { step := some 2 }] [.many [0, 2]] :=
  ⟨_, Fills.tail _ (by simp [Plain]) (by show 1 ≤ slA.dims.length; decide), by
    show (([.slice { step := some 2 }] ++ List.replicate (slA.dims.length - 1) (.slice Slice.full) : List Ix).zip
      slA.nd.shape).mapM (fun p => selOf p.1 p.2) = some [.many [0, 2], .many [0, 1], .many [0, 1]]
    decide +kernel⟩

/-- The hypotheses of C108 hold, also those of the conversion. -/
example : ∃ r, netGet toString (⟨1, 1⟩ : Imp ℚ) (slNet ⟨1, 1⟩) [.slice { step := some 2 }] = .ok (.net r) ∧
    ∀ c, r.Inside c → ∀ w, Sat (r.at c) w ↔
      Sat ((slNet ⟨1, 1⟩).at (srcCoord [.many [0, 2]] [⟨.dimSweep, "freq", [1, 2, 3], none, none⟩] c)) w := by
  obtain ⟨r, h1, h2⟩ := C108_same_network toString ⟨1, 1⟩ _ (slNet_two ⟨1, 1⟩) (slNet_indexable _) _ _ (slNet_keeps _)
    (Or.inl rfl)
  exact ⟨r, h1, fun c hc => (h2 c hc).2⟩

example : SweepsFirst ([⟨.dimSweep, "freq", [1, 2, 3], none, none⟩] : List (Dim Nat)) := by
  unfold SweepsFirst; decide +kernel

/-- C108 is false: the first of three points, measured with another impedance, is another network after
the index. -/
theorem C108_impedance_witness : ∃ (r : NetArr Nat ℚ) (w : Port ℚ),
    netGet toString (⟨1, 1⟩ : Imp ℚ) (slNet ⟨1, 2⟩) [.slice { step := some 2 }] = .ok (.net r) ∧
    (slNet ⟨1, 2⟩).Inside (fun _ => 0) ∧ Sat ((slNet ⟨1, 2⟩).at fun _ => 0) w ∧ ¬ Sat (r.at fun _ => 0) w := by
  obtain ⟨r, h1, h2⟩ := C108_impedance_refuted toString ⟨1, 1⟩ (slNet ⟨1, 2⟩) rfl (by norm_num [slNet]) (slNet_two _)
    (slNet_indexable _) _ _ (slNet_keeps _)
  obtain ⟨r', pre', h1', -, -, h4, h5, hl, h6⟩ := sliced toString ⟨1, 1⟩ (slNet_two ⟨1, 2⟩) (slNet_indexable _) (slNet_keeps _)
  rw [h1] at h1'
  cases h1'
  have hin : r.Inside fun _ => 0 := by
    rw [inside_iff h4 hl, h5]
    decide +kernel
  have hc : srcCoord [.many [0, 2]] [⟨.dimSweep, "freq", [1, 2, 3], none, none⟩] (fun _ => 0) =
      (fun _ => 0 : Coord) := by
    funext q
    simp only [srcCoord]
    split <;> rfl
  have h0 : (slNet ⟨1, 2⟩).a.mat kI kJ (fun _ => 0) 2 2 = 0 := by
    ext m k
    fin_cases m <;> fin_cases k <;> decide +kernel
  obtain ⟨w, hw1, hw2⟩ := h2 _ hin (by rw [hc]; exact h0)
  refine ⟨r, w, h1, ?_, by rw [hc] at hw1; exact hw1, hw2⟩
  have := (h6 _ hin).1
  rw [hc] at this
  exact this

/-- The hypotheses of the other theorems: `net[:, 0, 1]`, `net[..., :1]`. -/
example : Fills slA.dims.length [.slice Slice.full, .int 0, .int 1] [.slice Slice.full, .int 0, .int 1] ∧
    (([.slice Slice.full, .int 0, .int 1] : List Ix).zip slA.nd.shape).mapM (fun p => selOf p.1 p.2) =
      some ([.many [0, 1, 2]] ++ [.one 0, .one 1]) :=
  ⟨Fills.tail _ (by simp [Plain]) (by decide), by decide +kernel⟩

example : Fills slA.dims.length [.ellipsis, .slice { stop := some 1 }]
      [.slice Slice.full, .slice Slice.full, .slice { stop := some 1 }] ∧
    (([.slice Slice.full, .slice Slice.full, .slice { stop := some 1 }] : List Ix).zip slA.nd.shape).mapM
      (fun p => selOf p.1 p.2) = some ([.many [0, 1, 2]] ++ [.many [0, 1], .many [0]]) :=
  ⟨Fills.mid [] _ (by simp [Plain]) (by simp [Plain]) (by decide), by decide +kernel⟩

end HF.Networks
