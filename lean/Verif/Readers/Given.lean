import Verif.Readers.Quiet
import Verif.Readers.ValuesProps
/-
All steps after reading a file, from the block and its properties.
-/
namespace HF.Readers.Treat

open HF.DataDict.Spec HF.DataBlock
open HF.DataDict hiding rename delitem
open HF.Readers.FixUnit (UBlock guessed)
open HF.Readers.Assemble (Form CompleteF Wins AssembledF elemNmF)
open HF.Readers.Normalize (trtable viaTable NoClash Label label vnames dnames)
open HF.Comments (PVal)

variable {β α : Type}

/-! ### Specification -/

/-- The name by the table, unless it is in use. -/
def canon (names : List String) (k : String) : String :=
  match trtable.find? (fun e => e.1 = k) with
  | some e => if e.2 ∈ names then k else e.2
  | none => k

/-- The properties that become variables: those with values, and names that are not in use. -/
def givenOf (ofProp : PVal → Option α) (used : List String) (props : List (String × PVal)) : List (String × PVal) :=
  props.filter fun p => decide (p.1 ∉ used) && (ofProp p.2).isSome

/-- All names, with variables `vs` and dimensions `ds` in the file. -/
def namesOf (ofProp : PVal → Option α) (vs ds : List String) (props : List (String × PVal)) : List String :=
  vs ++ (givenOf ofProp (vs ++ ds) props).map Prod.fst ++ ds

/-- The names of the variables by the table. -/
def colsOf (ofProp : PVal → Option α) (vs ds : List String) (props : List (String × PVal)) : List String :=
  (vs ++ (givenOf ofProp (vs ++ ds) props).map Prod.fst).map (canon (namesOf ofProp vs ds props))

/-- Names that are no titles with units and no calls of functions, of which no two are to be replaced by the same name;
no property has the name of an element of a variable or of a property. -/
structure CalmNames (ofProp : PVal → Option α) (vs ds : List String) (props : List (String × PVal)) : Prop where
  nodup : (vs ++ ds).Nodup
  title : ∀ k ∈ namesOf ofProp vs ds props, FixUnit.title k = none
  calls : ∀ k ∈ namesOf ofProp vs ds props, '(' ∉ k.toList
  clash : ∀ e ∈ trtable, ∀ e' ∈ trtable, e.1 ∈ namesOf ofProp vs ds props → e'.1 ∈ namesOf ofProp vs ds props →
    e.2 ∉ namesOf ofProp vs ds props → e.2 = e'.2 → e.1 = e'.1
  props : ∀ p ∈ props, ∀ m i j, isMatrixName p.1 = some (m, i, j) → m ∉ vs ∧ m ∉ props.map Prod.fst

/-- The elements of a matrix are variables of the file with the same dimensions and of the same type, and its name
is not in use for a dimension. -/
structure Fits (cast : Arr β α → α → α) (b : Block β α) (names : List String) (fm : Form) (v : String) (I J : List Nat)
    (D : List (Dim β)) (sh : List Nat) : Prop where
  len : D.length = sh.length
  name : v ∉ (keys b.ivars).map (canon names) ∧ v ≠ "i" ∧ v ≠ "j"
  cols : ∀ i ∈ I, ∀ j ∈ J, ∃ k c, canon names k = elemNmF fm v i j ∧ lookup b.vars k = some c ∧ c.dims = D ∧ c.nd.shape = sh
  type : ∀ i ∈ I, ∀ j ∈ J, ∀ k ∈ I, ∀ l ∈ J, ∀ n n' c c', canon names n = elemNmF fm v i j → canon names n' = elemNmF fm v k l →
    lookup b.vars n = some c → lookup b.vars n' = some c' →
    ∀ idx, Nd.Valid sh idx → cast c (c'.nd.get idx) = c'.nd.get idx

/-- What comes out: `H` gives the dimensions; matrices; the other variables; the properties; nothing else. -/
structure Comes (S : Steps β α) (forms : List Form) (props : List (String × PVal)) (b : UBlock β α) (names cols : List String)
    (H : Dim β → Dim β) (r : UBlock β α) : Prop where
  dims : ∀ n d, lookup b.blk.ivars n = some d → lookup r.blk.ivars (canon names n) = some (H d) ∧
    label (H d) = ⟨canon names n, d.cls, d.data, d.unit.or (S.guess n)⟩
  noDims : ∀ n ∈ keys r.blk.ivars, n ∈ (keys b.blk.ivars).map (canon names) ∨
    (∃ fm v I J, Wins cols forms fm v I J) ∧ (n = "i" ∨ n = "j")
  matrix : ∀ fm v I J, Wins cols forms fm v I J → ∃ m D sh di dj, lookup r.blk.vars v = some m ∧ r.units v = none ∧
    Fits S.cast b.blk names fm v I J D sh ∧ MatStack m (D.map H) di dj sh I.length J.length ∧ di.name = "i" ∧ dj.name = "j" ∧
    ∀ a c (ha : a < I.length) (hc : c < J.length) k x, canon names k = elemNmF fm v I[a] J[c] → lookup b.blk.vars k = some x →
      ∀ idx, Nd.Valid sh idx → m.nd.get (idx ++ [a, c]) = x.nd.get idx
  gone : ∀ fm v I J, Wins cols forms fm v I J → ∀ i ∈ I, ∀ j ∈ J, lookup r.blk.vars (elemNmF fm v i j) = none
  plain : ∀ k a, lookup b.blk.vars k = some a → (∀ fm v I J, Wins cols forms fm v I J → canon names k ≠ v ∧
      ∀ i ∈ I, ∀ j ∈ J, canon names k ≠ elemNmF fm v i j) →
    lookup r.blk.vars (canon names k) = some ⟨a.dims.map H, a.nd⟩ ∧ r.units (canon names k) = (b.units k).or (S.guess k)
  property : ∀ p ∈ givenOf S.ofProp (keys b.blk.vars ++ keys b.blk.ivars) props, (∀ fm v I J, Wins cols forms fm v I J →
      canon names p.1 ≠ v ∧ ∀ i ∈ I, ∀ j ∈ J, canon names p.1 ≠ elemNmF fm v i j) →
    ∃ x, S.ofProp p.2 = some x ∧ lookup r.blk.vars (canon names p.1) = some ⟨[], ⟨[], fun _ => x⟩⟩ ∧
      r.units (canon names p.1) = (unitOfProp p.2).or (S.guess p.1)
  nothing : ∀ n ∈ keys r.blk.vars, (∃ fm I J, Wins cols forms fm n I J) ∨ n ∈ cols

/-! ### Proof -/

theorem canon_cases (names : List String) (k : String) :
    canon names k = k ∨ ∃ e ∈ trtable, e.1 = k ∧ canon names k = e.2 ∧ e.2 ∉ names := by
  unfold canon
  cases h : trtable.find? (fun x => x.1 = k) with
  | none => exact Or.inl rfl
  | some e =>
    have h1 := List.find?_some h
    have h2 := List.mem_of_find?_eq_some h
    simp only [decide_eq_true_eq] at h1
    simp only
    split
    · exact Or.inl rfl
    · rename_i h3
      exact Or.inr ⟨e, h2, h1, rfl, h3⟩

theorem canon_nodup {names : List String} (hn : names.Nodup)
    (hc : ∀ e ∈ trtable, ∀ e' ∈ trtable, e.1 ∈ names → e'.1 ∈ names → e.2 ∉ names → e.2 = e'.2 → e.1 = e'.1) :
    (names.map (canon names)).Nodup := by
  refine List.Nodup.map_on ?_ hn
  intro x hx y hy h
  rcases canon_cases names x with h1 | ⟨e, he, h1, h2, h3⟩ <;> rcases canon_cases names y with g1 | ⟨e', he', g1, g2, g3⟩
  · rw [h1, g1] at h; exact h
  · rw [h1, g2] at h; exact absurd (h ▸ hx) g3
  · rw [h2, g1] at h; exact absurd (h ▸ hy) h3
  · rw [h2, g2] at h
    rw [← h1, ← g1]
    exact hc e he e' he' (h1 ▸ hx) (g1 ▸ hy) h3 h

theorem lookup_append_left {γ : Type} {l m : List (String × γ)} {k : String} {x : γ} (h : lookup l k = some x) :
    lookup (l ++ m) k = some x := by
  rw [DataDict.lookup_append, h]
  rfl

theorem givenOf_keys (S : Steps β α) (b : Block β α) (props : List (String × PVal)) :
    (props.filterMap (New b S.ofProp)).map Prod.fst = (givenOf S.ofProp (keys b.vars ++ keys b.ivars) props).map Prod.fst := by
  induction props with
  | nil => rfl
  | cons p t ih =>
    unfold givenOf at ih ⊢
    rw [List.filterMap_cons, List.filter_cons]
    by_cases h : p.1 ∈ keys b.vars ∨ p.1 ∈ keys b.ivars
    · have h1 : New b S.ofProp p = none := by
        unfold New
        rw [if_pos h]
      have : (decide (p.1 ∉ keys b.vars ++ keys b.ivars) && (S.ofProp p.2).isSome) = false := by
        rw [decide_eq_false (by rw [List.mem_append]; exact fun h' => h' h)]
        rfl
      rw [this, h1]
      exact ih
    · have : decide (p.1 ∉ keys b.vars ++ keys b.ivars) = true := by
        rw [decide_eq_true_eq, List.mem_append]
        exact h
      rw [this]
      cases ho : S.ofProp p.2 with
      | none =>
        have h1 : New b S.ofProp p = none := by
          unfold New
          rw [if_neg h, ho]
        rw [h1]
        exact ih
      | some x =>
        have h1 : New b S.ofProp p = some (p.1, ⟨[], ⟨[], fun _ => x⟩⟩) := by
          unfold New
          rw [if_neg h, ho]
        rw [h1]
        exact congrArg (p.1 :: ·) ih

/-- All steps for a block and its properties. -/
theorem laterOn_given (forms : List Form) (env : Env β α) (S : Steps β α) (htab : S.table.Perm trtable)
    (hcast : ∀ c c' : Arr β α, c.nd = c'.nd → S.cast c = S.cast c') (props : List (String × PVal)) (b : UBlock β α)
    (hpn : (props.map Prod.fst).Nodup) (hlink : Linked b.blk)
    (hcalm : CalmNames S.ofProp (keys b.blk.vars) (keys b.blk.ivars) props)
    (hfit : ∀ fm v I J, Wins (colsOf S.ofProp (keys b.blk.vars) (keys b.blk.ivars) props) forms fm v I J →
      ∃ D sh, Fits S.cast b.blk (namesOf S.ofProp (keys b.blk.vars) (keys b.blk.ivars) props) fm v I J D sh) :
    ∃ r H, laterOn forms env S props b = .ok r ∧ Comes S forms props b (namesOf S.ofProp (keys b.blk.vars) (keys b.blk.ivars) props)
      (colsOf S.ofProp (keys b.blk.vars) (keys b.blk.ivars) props) H r := by
  obtain ⟨b2, v1, v2, v3, -, v5, v6⟩ := C78_values env S.ofProp b props hpn hcalm.props
  have hg := givenOf_keys S b.blk props
  generalize hN : namesOf S.ofProp (keys b.blk.vars) (keys b.blk.ivars) props = names at hfit
  generalize hC : colsOf S.ofProp (keys b.blk.vars) (keys b.blk.ivars) props = cols at hfit
  have hcalm := hcalm
  obtain ⟨c1, c2, c3, c4, c5⟩ := hcalm
  rw [hN] at c2 c3 c4
  have hk2 : keys b2.blk.vars = keys b.blk.vars ++ (givenOf S.ofProp (keys b.blk.vars ++ keys b.blk.ivars) props).map Prod.fst := by
    rw [v2, ← hg]
    simp [keys]
  have hnames : keys b2.blk.vars ++ keys b2.blk.ivars = names := by
    rw [hk2, v3, ← hN]
    rfl
  have hT : viaTable b2.blk trtable = canon names := by
    funext k
    rw [← hnames]
    rfl
  have hgm : ∀ k ∈ (givenOf S.ofProp (keys b.blk.vars ++ keys b.blk.ivars) props).map Prod.fst,
      k ∉ keys b.blk.vars ∧ k ∉ keys b.blk.ivars := by
    intro k hk
    obtain ⟨p, hp, rfl⟩ := List.mem_map.1 hk
    have := (List.mem_filter.1 hp).2
    rw [Bool.and_eq_true, decide_eq_true_eq, List.mem_append] at this
    exact ⟨fun h => this.1 (Or.inl h), fun h => this.1 (Or.inr h)⟩
  obtain ⟨n1, n2, n3⟩ := List.nodup_append.1 c1
  have hnd : names.Nodup := by
    rw [← hN]
    unfold namesOf
    rw [List.nodup_append, List.nodup_append]
    refine ⟨⟨n1, hpn.sublist (List.filter_sublist.map _), ?_⟩, n2, ?_⟩
    · intro x hx y hy e
      exact (hgm y hy).1 (e ▸ hx)
    · intro x hx y hy e
      rcases List.mem_append.1 hx with h | h
      · exact n3 x h y hy e
      · exact (hgm x h).2 (e ▸ hy)
  have hnodupV : (keys b2.blk.vars).Nodup := by
    have := hnd
    rw [← hnames] at this
    exact (List.nodup_append.1 this).1
  have hl2 : ∀ k a, lookup b.blk.vars k = some a → lookup b2.blk.vars k = some a := by
    intro k a h
    rw [v2]
    exact lookup_append_left h
  have hlP : ∀ p ∈ givenOf S.ofProp (keys b.blk.vars ++ keys b.blk.ivars) props, ∃ x, S.ofProp p.2 = some x ∧
      New b.blk S.ofProp p ≠ none ∧ lookup b2.blk.vars p.1 = some ⟨[], ⟨[], fun _ => x⟩⟩ := by
    intro p hp
    have hm := hgm p.1 (List.mem_map_of_mem hp)
    obtain ⟨hp1, hp2⟩ := List.mem_filter.1 hp
    rw [Bool.and_eq_true] at hp2
    obtain ⟨x, hx⟩ := Option.isSome_iff_exists.1 hp2.2
    have hnew : New b.blk S.ofProp p = some (p.1, ⟨[], ⟨[], fun _ => x⟩⟩) := by
      unfold New
      rw [if_neg (by rintro (h | h); exacts [hm.1 h, hm.2 h]), hx]
    have hm : (p.1, (⟨[], ⟨[], fun _ => x⟩⟩ : Arr β α)) ∈ b2.blk.vars := by
      rw [v2]
      exact List.mem_append_right _ (List.mem_filterMap.2 ⟨p, hp1, hnew⟩)
    exact ⟨x, hx, by rw [hnew]; simp, mem_lookup hnodupV hm⟩
  have hlink2 : Linked b2.blk := by
    refine ⟨by rw [v3]; exact hlink.nodup, by rw [v3]; exact hlink.named, ?_⟩
    intro w hw d hdd
    rw [v3]
    rw [v2] at hw
    rcases List.mem_append.1 hw with hw | hw
    · exact hlink.known w hw d hdd
    · obtain ⟨p, hp, e⟩ := List.mem_filterMap.1 hw
      unfold New at e
      split at e
      · cases e
      · split at e
        · cases e
        · cases e
          simp at hdd
  have hcm : Calm b2.blk := by
    refine ⟨hlink2, by rw [hnames]; exact hnd, by rw [hnames]; exact c2, by rw [hnames]; exact c3, ?_⟩
    have : vnames b2.blk ++ dnames b2.blk = names := hnames
    unfold NoClash
    rw [this]
    exact c4
  have hcn := canon_nodup hnd c4
  have hkc : keys (newCols b2.blk) = cols := by
    rw [← hC]
    unfold newCols colsOf
    rw [hT, ← hk2, hN]
    simp [keys]
  have hkcn : (keys (newCols b2.blk)).Nodup := by
    have h1 : keys (newCols b2.blk) = (keys b2.blk.vars).map (canon names) := by
      unfold newCols
      rw [hT]
      simp [keys]
    rw [h1]
    rw [← hnames, List.map_append, hnames] at hcn
    exact (List.nodup_append.1 hcn).1
  have hlc : ∀ k a, lookup b2.blk.vars k = some a → lookup (newCols b2.blk) (canon names k) = some a := by
    intro k a h
    have hm : (canon names k, a) ∈ newCols b2.blk := by
      unfold newCols
      rw [hT]
      exact List.mem_map.2 ⟨(k, a), lookup_mem h, rfl⟩
    exact mem_lookup hkcn hm
  have hal : ∀ fm v I J D sh, Fits S.cast b.blk names fm v I J D sh → Alike fm S.cast b2.blk v I J D sh := by
    intro fm v I J D sh h
    refine ⟨h.len, ?_, ?_, ?_⟩
    · rw [v3, hT]
      exact h.name
    · intro i hi j hj
      obtain ⟨k, c, k1, k2, k3, k4⟩ := h.cols i hi j hj
      exact ⟨c, by rw [← k1]; exact hlc _ _ (hl2 _ _ k2), k3, k4⟩
    · intro i hi j hj k hk l hl c c' hc1 hc2 idx hidx
      obtain ⟨x, a, x1, x2, -⟩ := h.cols i hi j hj
      obtain ⟨y, a', y1, y2, -⟩ := h.cols k hk l hl
      rw [← x1, hlc _ _ (hl2 _ _ x2)] at hc1
      rw [← y1, hlc _ _ (hl2 _ _ y2)] at hc2
      cases hc1
      cases hc2
      exact h.type i hi j hj k hk l hl x y c c' x1 y1 x2 y2 idx hidx
  obtain ⟨r, H, r1, r2, r3, r4, r5, r6, r7⟩ := laterOn_calm forms env S htab hcast props b b2 v1 hcm (by
    intro fm v I J hw
    rw [hkc] at hw
    obtain ⟨D, sh, h⟩ := hfit fm v I J hw
    exact ⟨D, sh, hal fm v I J D sh h⟩)
  rw [hkc] at r3 r4 r5 r6 r7
  rw [hT] at r2 r3 r7
  refine ⟨r, H, r1, ?_, ?_, ?_, r5, ?_, ?_, ?_⟩
  · intro n d h
    obtain ⟨h1, h2⟩ := r2 n d (by rw [v3]; exact h)
    refine ⟨h1, ?_⟩
    rw [h2, ← hlink.lookup_name h]
    rfl
  · intro n hn
    have := r3 n hn
    rw [v3] at this
    exact this
  · intro fm v I J hw
    obtain ⟨m, D, sh, h1, h2, h3, h4⟩ := r4 fm v I J hw
    obtain ⟨D', sh', hF⟩ := hfit fm v I J hw
    have hcp : CompleteF fm cols v I J := by
      obtain ⟨_, _, _, _, h, _⟩ := hw
      exact h
    have hpos : 0 < I.length ∧ 0 < J.length := by
      have := hcp.many
      constructor <;> refine Nat.pos_of_ne_zero ?_ <;> intro e <;> rw [e] at this <;> simp at this
    obtain ⟨i0, hi0⟩ := List.exists_mem_of_length_pos hpos.1
    obtain ⟨j0, hj0⟩ := List.exists_mem_of_length_pos hpos.2
    obtain ⟨c, c1, c2, c3⟩ := h3.cols i0 hi0 j0 hj0
    obtain ⟨c', c1', c2', c3'⟩ := (hal _ _ _ _ _ _ hF).cols i0 hi0 j0 hj0
    rw [c1] at c1'
    cases c1'
    rw [c2] at c2'
    rw [c3] at c3'
    subst c2'; subst c3'
    obtain ⟨di, dj, k1, k2, k3⟩ := h4.shape
    refine ⟨m, D, sh, di, dj, h1, h2, hF, k1, k2, k3, ?_⟩
    intro a c ha hc' k x e hx idx hidx
    obtain ⟨col, l1, l2⟩ := h4.get a c ha hc'
    have l1 : lookup (newCols b2.blk) (elemNmF fm v I[a] J[c]) = some col := l1
    rw [← e, hlc _ _ (hl2 _ _ hx)] at l1
    cases l1
    exact l2 idx hidx
  · intro k a ha hne
    have hx := hl2 k a ha
    refine ⟨?_, ?_⟩
    · rw [r6 _ hne, hlc _ _ hx]
      rfl
    · rw [r7 k (lookup_key hx) fun fm v I J hw => (hne fm v I J hw).1, v5]
      rw [hg]
      intro hm
      exact (hgm _ hm).1 (lookup_key ha)
  · intro p hp hne
    obtain ⟨x, x1, x2, x3⟩ := hlP p hp
    refine ⟨x, x1, ?_, ?_⟩
    · rw [r6 _ hne, hlc _ _ x3]
      rfl
    · rw [r7 p.1 (lookup_key x3) fun fm v I J hw => (hne fm v I J hw).1, v6 p (List.mem_filter.1 hp).1 x2]
  · intro n hn'
    by_cases h : ∃ fm I J, Wins cols forms fm n I J
    · exact Or.inl h
    · right
      by_cases h' : ∃ fm v I J, Wins cols forms fm v I J ∧ ∃ i ∈ I, ∃ j ∈ J, n = elemNmF fm v i j
      · obtain ⟨fm, v, I, J, hw, i, hi, j, hj, rfl⟩ := h'
        exact absurd hn' ((lookup_none_iff' _ _).1 (r5 fm v I J hw i hi j hj))
      · have := r6 n (by
          intro fm v I J hw
          refine ⟨?_, ?_⟩
          · rintro rfl
            exact h ⟨fm, I, J, hw⟩
          · intro i hi j hj e
            exact h' ⟨fm, v, I, J, hw, i, hi, j, hj, e⟩)
        rw [← hkc]
        by_contra hcon
        rw [(lookup_none_iff' _ _).2 hcon] at this
        exact (lookup_none_iff' _ _).1 this hn'

end HF.Readers.Treat
