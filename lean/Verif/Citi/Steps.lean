import Verif.Citi.ReadProps
import Verif.Readers.Given
import Verif.Readers.OneFile
import Verif.Readers.ValuesProps
import Verif.Sp.CommentProps
/-
C83: CITI files with all steps of the reader.
-/
namespace HF.Citi

open DataBlock
open HF.DataDict.Spec
open HF.DataDict hiding rename delitem
open HF.Readers HF.Readers.Treat
open HF.Readers.FixUnit (UBlock)
open HF.Readers.Assemble (Form CompleteF Wins AssembledF elemNmF)
open HF.Readers.Normalize (trtable viaTable NoClash Label label vnames dnames)
open HF.Comments (PVal)

/-- `S[2,1]` and `S21`, in this order.  repo: hftools/file_formats/citi.py:44-47 -/
def forms : List Form := [.brackets, .digits]

/-- The block of a CITI file after all steps, with the default arguments of `read_citi`: complex numbers are left as
they are.  An exception of the parser is not told apart from others here.
repo: hftools/file_formats/readbase.py:307-321, hftools/file_formats/citi.py:41-155, 253-263 -/
def block (env : Env) (S : Steps Cplx Cplx) (lines : List (List Char)) : Except DataBlock.Err (UBlock Cplx Cplx) :=
  match read env lines with
  | .error _ => .error .valueError
  | .ok (_, com, b) => later forms benv S (Comments.properties com) b

/-- `read_citi(name)` for one file with its default arguments.
repo: hftools/file_formats/citi.py:253-263, hftools/file_formats/readbase.py:265-341 -/
def readCiti (env : Env) (S : Steps Cplx Cplx) (ofIdx : Nat → Cplx) (en : Enum String) (ofName : String → Cplx) (name : String)
    (lines : List (List Char)) : Except Files.RErr (Block Cplx Cplx) :=
  Files.readFiles benv ofIdx en ofName true
    (fun ls => match block env S ls with
      | .error e => .error e
      | .ok u => .ok [u.blk]) [(name, lines)]

/-! ### Specification -/

def Sweep.key (v : Sweep) : String := String.ofList v.name
def Data.key (d : Data) : String := String.ofList d.name

/-- The properties that become variables: those with values, and names that are not in use. -/
def Content.given (f : Content) (S : Steps Cplx Cplx) (props : List (String × PVal)) : List (String × PVal) :=
  props.filter fun p => decide (p.1 ∉ f.data.map Data.key ++ f.sweeps.map Sweep.key) && (S.ofProp p.2).isSome

/-- All names of variables and sweeps. -/
def Content.names (f : Content) (S : Steps Cplx Cplx) (props : List (String × PVal)) : List String :=
  f.data.map Data.key ++ (f.given S props).map Prod.fst ++ f.sweeps.map Sweep.key

/-- The names of the variables by the table. -/
def Content.cols (f : Content) (S : Steps Cplx Cplx) (props : List (String × PVal)) : List String :=
  (f.data.map Data.key ++ (f.given S props).map Prod.fst).map (canon (f.names S props))

/-- A collection of names of elements in one of the two forms that becomes a matrix. -/
def Content.Matrix (f : Content) (S : Steps Cplx Cplx) (props : List (String × PVal)) (fm : Form) (v : String) (I J : List Nat) :
    Prop := Wins (f.cols S props) forms fm v I J

/-- Names that are no titles with units and no calls of functions, of which no two are to be replaced by the same name;
no property has the name of an element of a variable or of a property. -/
structure Content.Calm (f : Content) (S : Steps Cplx Cplx) (props : List (String × PVal)) : Prop where
  title : ∀ k ∈ f.names S props, FixUnit.title k = none
  calls : ∀ k ∈ f.names S props, '(' ∉ k.toList
  clash : ∀ e ∈ trtable, ∀ e' ∈ trtable, e.1 ∈ f.names S props → e'.1 ∈ f.names S props → e.2 ∉ f.names S props →
    e.2 = e'.2 → e.1 = e'.1
  props : ∀ p ∈ props, ∀ m i j, isMatrixName p.1 = some (m, i, j) → m ∉ f.data.map Data.key ∧ m ∉ props.map Prod.fst

/-- The columns of matrices are data of the file, and the names of matrices are not in use for dimensions. -/
structure Content.Fits (f : Content) (S : Steps Cplx Cplx) (props : List (String × PVal)) : Prop where
  name : ∀ fm v I J, f.Matrix S props fm v I J →
    v ∉ f.sweeps.map (fun s => canon (f.names S props) s.key) ∧ v ≠ "i" ∧ v ≠ "j"
  data : ∀ fm v I J, f.Matrix S props fm v I J → ∀ i ∈ I, ∀ j ∈ J, ∃ d ∈ f.data,
    canon (f.names S props) d.key = elemNmF fm v i j

/-- Columns of one matrix are of the same type: conversion to the type of one of them changes nothing. -/
def Content.OneType (f : Content) (S : Steps Cplx Cplx) (props : List (String × PVal)) (b : Block Cplx Cplx) : Prop :=
  ∀ fm v I J, f.Matrix S props fm v I J → ∀ i ∈ I, ∀ j ∈ J, ∀ k ∈ I, ∀ l ∈ J, ∀ d ∈ f.data, ∀ d' ∈ f.data,
    canon (f.names S props) d.key = elemNmF fm v i j → canon (f.names S props) d'.key = elemNmF fm v k l →
    ∀ c c', lookup b.vars d.key = some c → lookup b.vars d'.key = some c' →
    ∀ idx, Nd.Valid (f.sweeps.map fun s => s.coords.length) idx → S.cast c (c'.nd.get idx) = c'.nd.get idx

/-- The numbers of a column are those written, at the places given by `pos`. -/
def Data.At (env : Env) (f : Content) (d : Data) (get : List Nat → Cplx) : Prop :=
  List.Forall₂ (fun t idx => Number env d.typ t (get idx)) d.texts (positions (f.sweeps.map fun v => v.coords.length))

/-- What comes out of the file: the sweeps with guessed units; matrices; the other columns; the properties; nothing else. -/
structure Content.Gives (env : Env) (f : Content) (S : Steps Cplx Cplx) (props : List (String × PVal)) (D : List (Dim Cplx))
    (r : UBlock Cplx Cplx) : Prop where
  sweeps : List.Forall₂ (fun v d => label d = ⟨canon (f.names S props) v.key, .dimSweep, v.coords, S.guess v.key⟩ ∧
    lookup r.blk.ivars d.name = some d) f.sweeps D
  noSweeps : ∀ n ∈ keys r.blk.ivars, n ∈ D.map Dim.name ∨
    (∃ fm v I J, f.Matrix S props fm v I J) ∧ (n = "i" ∨ n = "j")
  matrix : ∀ fm v I J, f.Matrix S props fm v I J → ∃ m di dj, lookup r.blk.vars v = some m ∧ r.units v = none ∧
    MatStack m D di dj (f.sweeps.map fun v => v.coords.length) I.length J.length ∧ di.name = "i" ∧ dj.name = "j" ∧
    ∀ a c (ha : a < I.length) (hc : c < J.length), ∀ d ∈ f.data, canon (f.names S props) d.key = elemNmF fm v I[a] J[c] →
      d.At env f fun idx => m.nd.get (idx ++ [a, c])
  gone : ∀ fm v I J, f.Matrix S props fm v I J → ∀ i ∈ I, ∀ j ∈ J, lookup r.blk.vars (elemNmF fm v i j) = none
  plain : ∀ d ∈ f.data, (∀ fm v I J, f.Matrix S props fm v I J → canon (f.names S props) d.key ≠ v ∧
      ∀ i ∈ I, ∀ j ∈ J, canon (f.names S props) d.key ≠ elemNmF fm v i j) →
    ∃ a, lookup r.blk.vars (canon (f.names S props) d.key) = some a ∧ a.dims = D ∧
      a.nd.shape = f.sweeps.map (fun v => v.coords.length) ∧ d.At env f a.nd.get ∧
      r.units (canon (f.names S props) d.key) = S.guess d.key
  property : ∀ p ∈ f.given S props, (∀ fm v I J, f.Matrix S props fm v I J → canon (f.names S props) p.1 ≠ v ∧
      ∀ i ∈ I, ∀ j ∈ J, canon (f.names S props) p.1 ≠ elemNmF fm v i j) →
    ∃ a, lookup r.blk.vars (canon (f.names S props) p.1) = some a ∧ a.dims = [] ∧ a.nd.shape = [] ∧
      S.ofProp p.2 = some (a.nd.get []) ∧ r.units (canon (f.names S props) p.1) = (unitOfProp p.2).or (S.guess p.1)
  nothing : ∀ n ∈ keys r.blk.vars, (∃ fm I J, f.Matrix S props fm n I J) ∨ n ∈ f.cols S props

/-! ### Proof -/

theorem positions_valid (sh : List Nat) : ∀ idx ∈ positions sh, Nd.Valid sh idx := by
  induction sh with
  | nil => intro idx h; simp only [positions, List.mem_singleton] at h; subst h; trivial
  | cons n ns ih =>
    intro idx h
    simp only [positions, List.mem_flatMap, List.mem_range, List.mem_map] at h
    obtain ⟨i, hi, l, hl, rfl⟩ := h
    exact ⟨hi, ih l hl⟩

theorem forall₂_imp_right {γ δ : Type} {R R' : γ → δ → Prop} {l : List γ} {m : List δ} (h : List.Forall₂ R l m)
    (hr : ∀ x, ∀ y ∈ m, R x y → R' x y) : List.Forall₂ R' l m := by
  induction h with
  | nil => exact .nil
  | cons h _ ih => exact .cons (hr _ _ (by simp) h) (ih fun x y hy => hr x y (by simp [hy]))

theorem given_keys (f : Content) (S : Steps Cplx Cplx) (b : Block Cplx Cplx) (hv : keys b.vars = f.data.map Data.key)
    (hi : keys b.ivars = f.sweeps.map Sweep.key) (props : List (String × PVal)) :
    (props.filterMap (New b S.ofProp)).map Prod.fst = (f.given S props).map Prod.fst := by
  induction props with
  | nil => rfl
  | cons p t ih =>
    unfold Content.given at ih ⊢
    rw [List.filterMap_cons, List.filter_cons]
    by_cases h : p.1 ∈ f.data.map Data.key ∨ p.1 ∈ f.sweeps.map Sweep.key
    · have h1 : New b S.ofProp p = none := by
        unfold New
        rw [hv, hi, if_pos h]
      have : (decide (p.1 ∉ f.data.map Data.key ++ f.sweeps.map Sweep.key) && (S.ofProp p.2).isSome) = false := by
        rw [decide_eq_false (by rw [List.mem_append]; exact fun h' => h' h)]
        rfl
      rw [this, h1]
      exact ih
    · have : decide (p.1 ∉ f.data.map Data.key ++ f.sweeps.map Sweep.key) = true := by
        rw [decide_eq_true_eq, List.mem_append]
        exact h
      rw [this]
      cases ho : S.ofProp p.2 with
      | none =>
        have h1 : New b S.ofProp p = none := by
          unfold New
          rw [hv, hi, if_neg h, ho]
        rw [h1]
        exact ih
      | some x =>
        have h1 : New b S.ofProp p = some (p.1, ⟨[], ⟨[], fun _ => x⟩⟩) := by
          unfold New
          rw [hv, hi, if_neg h, ho]
        rw [h1]
        exact congrArg (p.1 :: ·) ih

/-- C83: a CITI file with all steps of the reader: every complete collection of names of elements, as `S[2,1]` or as
`S21`, becomes a matrix with the numbers of the file at the places the digits say, all other columns remain, sweeps and
columns get the units that belong to their names, comments with values become variables, and there is nothing else. -/
theorem C83_read (env : Env) (S : Steps Cplx Cplx) (htab : S.table.Perm trtable)
    (hcast : ∀ c c' : Arr Cplx Cplx, c.nd = c'.nd → S.cast c = S.cast c')
    (ls : List (List Char)) (its rest : List Item) (hs : List.Forall₂ Says ls its) (f : Content)
    (hf : f.Head env) (hn : f.Names) (hit : its.filter Item.shown = f.items ++ rest) (com : List (List Char))
    (hc : List.Forall₂ Kept f.comments com) (hd : ∀ d ∈ f.data, d.Ok env f.size)
    (hcalm : f.Calm S (Comments.properties com)) (hfit : f.Fits S (Comments.properties com))
    (htype : ∀ b, read env ls = .ok (f.name, com, b) → f.OneType S (Comments.properties com) b) :
    ∃ r D, block env S ls = .ok r ∧ f.Gives env S (Comments.properties com) D r := by
  obtain ⟨b, hread, hiv, hkv, hdat⟩ := C65_read env ls its rest hs f hf hn hit com hc hd
  have htype := htype b hread
  generalize hprops : Comments.properties com = props at hcalm hfit htype
  have hpn : (props.map Prod.fst).Nodup := by rw [← hprops]; exact Comments.properties_nodup com
  have hkv : keys b.vars = f.data.map Data.key := hkv
  have hki : keys b.ivars = f.sweeps.map Sweep.key := by
    rw [hiv]
    simp only [keys, List.map_map]
    rfl
  obtain ⟨b2, v1, v2, v3, -, v5, v6⟩ := C78_values benv S.ofProp ⟨b, fun _ => none⟩ props hpn (by
    intro p hp m i j hm
    rw [show keys (UBlock.mk b fun _ => none).blk.vars = keys b.vars from rfl, hkv]
    exact hcalm.props p hp m i j hm)
  simp only at v2 v3 v5 v6
  have hg := given_keys f S b hkv hki props
  have hk2 : keys b2.blk.vars = f.data.map Data.key ++ (f.given S props).map Prod.fst := by
    rw [v2, ← hg, ← hkv]
    simp [keys]
  have hi2 : keys b2.blk.ivars = f.sweeps.map Sweep.key := by rw [v3, hki]
  have hnames : keys b2.blk.vars ++ keys b2.blk.ivars = f.names S props := by
    rw [hk2, hi2]
    rfl
  have hT : viaTable b2.blk trtable = canon (f.names S props) := by
    funext k
    rw [← hnames]
    rfl
  have hkd : (f.data.map Data.key).Nodup := by
    have := hn.nodupData.map (f := String.ofList) fun _ _ e => ofList_inj e
    rwa [List.map_map] at this
  have hksw : (f.sweeps.map Sweep.key).Nodup := by
    have := hf.nodupSweeps.map (f := String.ofList) fun _ _ e => ofList_inj e
    rwa [List.map_map] at this
  have hgm : ∀ k ∈ (f.given S props).map Prod.fst, k ∉ f.data.map Data.key ∧ k ∉ f.sweeps.map Sweep.key := by
    intro k hk
    obtain ⟨p, hp, rfl⟩ := List.mem_map.1 hk
    have := (List.mem_filter.1 hp).2
    rw [Bool.and_eq_true, decide_eq_true_eq, List.mem_append] at this
    exact ⟨fun h => this.1 (Or.inl h), fun h => this.1 (Or.inr h)⟩
  have hnd : (f.names S props).Nodup := by
    unfold Content.names
    rw [List.nodup_append, List.nodup_append]
    refine ⟨⟨hkd, hpn.sublist (List.filter_sublist.map _), ?_⟩, hksw, ?_⟩
    · intro x hx y hy e
      exact (hgm y hy).1 (e ▸ hx)
    · intro x hx y hy e
      subst e
      rcases List.mem_append.1 hx with h | h
      · obtain ⟨d, hd', rfl⟩ := List.mem_map.1 h
        obtain ⟨v, hv, e⟩ := List.mem_map.1 hy
        exact hn.disjoint d hd' (List.mem_map.2 ⟨v, hv, ofList_inj e⟩)
      · exact (hgm x h).2 hy
  have hmemI : ∀ p ∈ b2.blk.ivars, ∃ v ∈ f.sweeps, p = (v.key, v.dim) := by
    intro p hp
    rw [v3, hiv] at hp
    obtain ⟨v, hv, rfl⟩ := List.mem_map.1 hp
    exact ⟨v, hv, rfl⟩
  have hlI : ∀ v ∈ f.sweeps, lookup b2.blk.ivars v.key = some v.dim := by
    intro v hv
    have hm : (v.key, v.dim) ∈ b2.blk.ivars := by
      rw [v3, hiv]
      exact List.mem_map.2 ⟨v, hv, rfl⟩
    exact mem_lookup (hi2.symm ▸ hksw : (keys b2.blk.ivars).Nodup) hm
  have hlD : ∀ d ∈ f.data, ∃ a, lookup b.vars d.key = some a ∧ lookup b2.blk.vars d.key = some a ∧ a.dims = f.sweeps.map Sweep.dim ∧
      a.nd.shape = f.sweeps.map (fun v => v.coords.length) ∧ d.At env f a.nd.get := by
    intro d hd'
    obtain ⟨a, h1, h2, h3, h4⟩ := hdat d hd'
    exact ⟨a, h1, by rw [v2]; exact lookup_append_left h1, h2, h3, h4⟩
  have hnodupV : (keys b2.blk.vars).Nodup := by
    have := hnd
    rw [← hnames] at this
    exact (List.nodup_append.1 this).1
  have hlP : ∀ p ∈ f.given S props, ∃ x, S.ofProp p.2 = some x ∧ New b S.ofProp p ≠ none ∧ lookup b2.blk.vars p.1 = some ⟨[], ⟨[], fun _ => x⟩⟩ := by
    intro p hp
    have hm := hgm p.1 (List.mem_map_of_mem hp)
    obtain ⟨hp1, hp2⟩ := List.mem_filter.1 hp
    rw [Bool.and_eq_true] at hp2
    obtain ⟨x, hx⟩ := Option.isSome_iff_exists.1 hp2.2
    have hnew : New b S.ofProp p = some (p.1, ⟨[], ⟨[], fun _ => x⟩⟩) := by
      unfold New
      rw [hkv, hki, if_neg (by rintro (h | h); exacts [hm.1 h, hm.2 h]), hx]
    have hm : (p.1, (⟨[], ⟨[], fun _ => x⟩⟩ : Arr Cplx Cplx)) ∈ b2.blk.vars := by
      rw [v2]
      exact List.mem_append_right _ (List.mem_filterMap.2 ⟨p, hp1, hnew⟩)
    exact ⟨x, hx, by rw [hnew]; simp, mem_lookup hnodupV hm⟩
  have hlink : Linked b2.blk := by
    refine ⟨by rw [hi2]; exact hksw, ?_, ?_⟩
    · intro p hp
      obtain ⟨v, -, rfl⟩ := hmemI p hp
      rfl
    · intro w hw d hdd
      have hk : w.1 ∈ keys b2.blk.vars := List.mem_map_of_mem hw
      have hl : lookup b2.blk.vars w.1 = some w.2 := mem_lookup hnodupV hw
      rw [hk2] at hk
      rcases List.mem_append.1 hk with hk | hk
      · obtain ⟨x, hx, e⟩ := List.mem_map.1 hk
        obtain ⟨a, -, h1, h2, -⟩ := hlD x hx
        rw [e, hl] at h1
        cases h1
        rw [h2] at hdd
        obtain ⟨v, hv, rfl⟩ := List.mem_map.1 hdd
        exact hlI v hv
      · obtain ⟨p, hp, e⟩ := List.mem_map.1 hk
        obtain ⟨x, -, -, h1⟩ := hlP p hp
        rw [e, hl] at h1
        rw [Option.some.inj h1] at hdd
        simp at hdd
  have hcm : Treat.Calm b2.blk := by
    refine ⟨hlink, by rw [hnames]; exact hnd, by rw [hnames]; exact hcalm.title, by rw [hnames]; exact hcalm.calls, ?_⟩
    have : vnames b2.blk ++ dnames b2.blk = f.names S props := hnames
    unfold NoClash
    rw [this]
    exact hcalm.clash
  have hcn := canon_nodup hnd hcalm.clash
  have hkc : keys (newCols b2.blk) = f.cols S props := by
    unfold newCols Content.cols
    rw [hT, ← hk2]
    simp [keys]
  have hkcn : (keys (newCols b2.blk)).Nodup := by
    rw [hkc]
    unfold Content.names at hcn
    rw [List.map_append] at hcn
    exact (List.nodup_append.1 hcn).1
  have hlc : ∀ k a, lookup b2.blk.vars k = some a → lookup (newCols b2.blk) (canon (f.names S props) k) = some a := by
    intro k a h
    have hm : (canon (f.names S props) k, a) ∈ newCols b2.blk := by
      unfold newCols
      rw [hT]
      exact List.mem_map.2 ⟨(k, a), lookup_mem h, rfl⟩
    exact mem_lookup hkcn hm
  have hal : ∀ fm v I J, Wins (keys (newCols b2.blk)) forms fm v I J →
      Alike fm S.cast b2.blk v I J (f.sweeps.map Sweep.dim) (f.sweeps.map fun v => v.coords.length) := by
    intro fm v I J hw
    rw [hkc] at hw
    obtain ⟨h1, h2, h3⟩ := hfit.name fm v I J hw
    refine ⟨by simp, ⟨?_, h2, h3⟩, ?_, ?_⟩
    · rw [hi2, hT, List.map_map]
      exact h1
    · intro i hi j hj
      obtain ⟨d, hd', e⟩ := hfit.data fm v I J hw i hi j hj
      obtain ⟨a, -, k1, k2, k3, -⟩ := hlD d hd'
      exact ⟨a, by rw [← e]; exact hlc _ _ k1, k2, k3⟩
    · intro i hi j hj k hk l hl c c' hc1 hc2 idx hidx
      obtain ⟨d, hd', e⟩ := hfit.data fm v I J hw i hi j hj
      obtain ⟨d2, hd2', e2⟩ := hfit.data fm v I J hw k hk l hl
      obtain ⟨a, x1, x2, -⟩ := hlD d hd'
      obtain ⟨a2, y1, y2, -⟩ := hlD d2 hd2'
      rw [← e, hlc _ _ x2] at hc1
      rw [← e2, hlc _ _ y2] at hc2
      cases hc1
      cases hc2
      exact htype fm v I J hw i hi j hj k hk l hl d hd' d2 hd2' e e2 c c' x1 y1 idx hidx
  obtain ⟨r, H, r1, r2, r3, r4, r5, r6, r7⟩ := laterOn_calm forms benv S htab hcast props ⟨b, fun _ => none⟩ b2 v1 hcm
    fun fm v I J hw => ⟨_, _, hal fm v I J hw⟩
  rw [hkc] at r3 r4 r5 r6 r7
  rw [hT] at r2 r3 r7
  have hsw : ∀ v ∈ f.sweeps, label (H v.dim) = ⟨canon (f.names S props) v.key, .dimSweep, v.coords, S.guess v.key⟩ ∧
      lookup r.blk.ivars (H v.dim).name = some (H v.dim) := by
    intro v hv
    obtain ⟨h1, h2⟩ := r2 v.key v.dim (hlI v hv)
    have h3 : label (H v.dim) = ⟨canon (f.names S props) v.key, .dimSweep, v.coords, S.guess v.key⟩ := h2
    refine ⟨h3, ?_⟩
    have h4 : (H v.dim).name = canon (f.names S props) v.key := congrArg Label.name h3
    rw [h4]
    exact h1
  have hDn : ((f.sweeps.map Sweep.dim).map H).map Dim.name = f.sweeps.map fun v => canon (f.names S props) v.key := by
    rw [List.map_map, List.map_map]
    exact List.map_congr_left fun v hv => congrArg Label.name (hsw v hv).1
  refine ⟨r, (f.sweeps.map Sweep.dim).map H, ?_, ?_, ?_, ?_, r5, ?_, ?_, ?_⟩
  · unfold block
    rw [hread]
    simp only [hprops]
    exact r1
  · rw [List.map_map, List.forall₂_map_right_iff, List.forall₂_same]
    exact hsw
  · intro n hn'
    rw [hDn]
    rcases r3 n hn' with h | h
    · rw [hi2, List.map_map] at h
      exact Or.inl h
    · exact Or.inr h
  · intro fm v I J hw
    obtain ⟨m, D, sh, h1, h2, h3, h4⟩ := r4 fm v I J hw
    have hcp : CompleteF fm (f.cols S props) v I J := by
      obtain ⟨_, _, _, _, h, _⟩ := hw
      exact h
    have hpos : 0 < I.length ∧ 0 < J.length := by
      have := hcp.many
      constructor <;> refine Nat.pos_of_ne_zero ?_ <;> intro e <;> rw [e] at this <;> simp at this
    obtain ⟨i0, hi0⟩ := List.exists_mem_of_length_pos hpos.1
    obtain ⟨j0, hj0⟩ := List.exists_mem_of_length_pos hpos.2
    obtain ⟨c, c1, c2, c3⟩ := h3.cols i0 hi0 j0 hj0
    obtain ⟨c', c1', c2', c3'⟩ := (hal fm v I J (by rw [hkc]; exact hw)).cols i0 hi0 j0 hj0
    rw [c1] at c1'
    cases c1'
    rw [c2] at c2'
    rw [c3] at c3'
    subst c2'; subst c3'
    obtain ⟨di, dj, k1, k2, k3⟩ := h4.shape
    refine ⟨m, di, dj, h1, h2, k1, k2, k3, ?_⟩
    intro a c ha hc' d hd' e
    obtain ⟨col, l1, l2⟩ := h4.get a c ha hc'
    obtain ⟨x, -, x1, -, -, x4⟩ := hlD d hd'
    have l1 : lookup (newCols b2.blk) (elemNmF fm v I[a] J[c]) = some col := l1
    rw [← e, hlc _ _ x1] at l1
    cases l1
    refine forall₂_imp_right x4 fun t idx hidx hN => ?_
    show Number env d.typ t (m.nd.get (idx ++ [a, c]))
    rw [l2 idx (positions_valid _ idx hidx)]
    exact hN
  · intro d hd' hne
    obtain ⟨a, -, x1, x2, x3, x4⟩ := hlD d hd'
    have hdk : d.key ∈ keys b2.blk.vars := lookup_key x1
    refine ⟨⟨a.dims.map H, a.nd⟩, ?_, by rw [x2], x3, x4, ?_⟩
    · rw [r6 _ hne, hlc _ _ x1]
      rfl
    · rw [r7 d.key hdk fun fm v I J hw => (hne fm v I J hw).1, v5]
      · rfl
      · rw [hg]
        intro hm
        exact (hgm _ hm).1 (List.mem_map_of_mem hd')
  · intro p hp hne
    obtain ⟨x, x1, x2, x3⟩ := hlP p hp
    refine ⟨⟨[], ⟨[], fun _ => x⟩⟩, ?_, rfl, rfl, x1, ?_⟩
    · rw [r6 _ hne, hlc _ _ x3]
      rfl
    · rw [r7 p.1 (lookup_key x3) fun fm v I J hw => (hne fm v I J hw).1, v6 p (List.mem_filter.1 hp).1 x2]
  · intro n hn'
    by_cases h : ∃ fm I J, f.Matrix S props fm n I J
    · exact Or.inl h
    · right
      by_cases h' : ∃ fm v I J, f.Matrix S props fm v I J ∧ ∃ i ∈ I, ∃ j ∈ J, n = elemNmF fm v i j
      · obtain ⟨fm, v, I, J, hw, i, hi, j, hj, rfl⟩ := h'
        exact absurd hn' ((lookup_none_iff' _ _).1 (r5 fm v I J hw i hi j hj))
      · have := r6 n (by
          intro fm v I J hw
          refine ⟨?_, ?_⟩
          · rintro rfl
            exact h ⟨fm, I, J, hw⟩
          · intro i hi j hj e
            exact h' ⟨fm, v, I, J, hw, i, hi, j, hj, e⟩)
        rw [← hkc]
        by_contra hcon
        rw [(lookup_none_iff' _ _).2 hcon] at this
        exact (lookup_none_iff' _ _).1 this hn'

/-- C83: `read_citi` of the file gives this, the name of the file and its index, unless the file has these itself. -/
theorem C83_file (env : Env) (S : Steps Cplx Cplx) (ofIdx : Nat → Cplx) (en : Enum String) (ofName : String → Cplx)
    (name : String) (ls : List (List Char)) (f : Content) (props : List (String × PVal)) (D : List (Dim Cplx)) (r : UBlock Cplx Cplx)
    (hr : block env S ls = .ok r) (hg : f.Gives env S props D r)
    (hn : ∀ n ∈ ["FILEINDEX", "FILENAME"], n ∉ f.cols S props ∧ n ∉ f.sweeps.map (fun v => canon (f.names S props) v.key) ∧
      ∀ fm I J, ¬ f.Matrix S props fm n I J) :
    ∃ r', readCiti env S ofIdx en ofName name ls = .ok r' ∧
      (∀ k, lookup r'.vars k = if k = "FILENAME" then some ⟨[], ⟨[], fun _ => ofName name⟩⟩ else lookup r.blk.vars k) ∧
      ∀ k, lookup r'.ivars k = if k = "FILEINDEX" then some ⟨.dimPartial, "FILEINDEX", [ofIdx 0], none, none⟩
        else lookup r.blk.ivars k := by
  refine Files.single_file benv ofIdx en ofName _ name ls r.blk (by simp only [hr]) ?_ ?_
  · intro n hnm hm
    rcases hg.nothing n hm with ⟨fm, I, J, h⟩ | h
    · exact (hn n hnm).2.2 fm I J h
    · exact (hn n hnm).1 h
  · intro n hnm hm
    rcases hg.noSweeps n hm with h | ⟨-, rfl | rfl⟩
    · refine (hn n hnm).2.1 ?_
      have : D.map Dim.name = f.sweeps.map (fun v => canon (f.names S props) v.key) := by
        have := hg.sweeps
        clear hg h hm
        generalize f.sweeps = l at this
        induction this with
        | nil => rfl
        | cons hh _ ih => exact List.cons_eq_cons.2 ⟨congrArg Label.name hh.1, ih⟩
      rw [← this]
      exact h
    · simp at hnm
    · simp at hnm

end HF.Citi
