import Verif.Citi.ReadLemmas
import Verif.Citi.Props
/-
C65: what is read from a CITI file.
-/
namespace HF.Citi

open Units (isWs strip)
open Text DataBlock
open HF.DataDict.Spec

/-! ### Streams -/

/-- There is a next token, with one of the tags. -/
def Starts (S : List Tag) (s : Strm) : Prop := ∃ u r, s = u :: r ∧ u.tag ∈ S

theorem starts_append {S : List Tag} {ts rest : Strm} (h : ∀ u ∈ ts, u.tag ∈ S) (hr : Starts S rest) :
    Starts S (ts ++ rest) := by
  cases ts with
  | nil => exact hr
  | cons u ts => exact ⟨u, ts ++ rest, rfl, h u (by simp)⟩

theorem Starts.mono {S T : List Tag} {s : Strm} (h : Starts S s) (hs : ∀ t ∈ S, t ∈ T) : Starts T s := by
  obtain ⟨u, r, e, h⟩ := h
  exact ⟨u, r, e, hs _ h⟩

theorem many_group (t : Tag) {S : List Tag} (ts rest : Strm) (h1 : ∀ u ∈ ts, u.tag = t) (h2 : Starts S rest) (h3 : t ∉ S) :
    many t (ts ++ rest) = .ok (ts.map (·.rad), rest) := by
  obtain ⟨u, r, e, h⟩ := h2
  exact many_some t ts rest h1 ⟨u, r, e, fun h' => h3 (h' ▸ h)⟩

theorem forall2_append {δ ε : Type} {P : δ → ε → Prop} {a b : List δ} {l : List ε} (h : List.Forall₂ P (a ++ b) l) :
    ∃ x y, l = x ++ y ∧ List.Forall₂ P a x ∧ List.Forall₂ P b y := by
  induction a generalizing l with
  | nil => exact ⟨[], l, rfl, .nil, h⟩
  | cons c a ih =>
    cases h with
    | cons h1 h2 =>
      obtain ⟨x, y, rfl, h3, h4⟩ := ih h2
      exact ⟨_ :: x, y, rfl, .cons h1 h3, h4⟩

theorem forall2_cons {δ ε : Type} {P : δ → ε → Prop} {a : δ} {b : List δ} {l : List ε} (h : List.Forall₂ P (a :: b) l) :
    ∃ x y, l = x :: y ∧ P a x ∧ List.Forall₂ P b y := by
  cases h with
  | cons h1 h2 => exact ⟨_, _, rfl, h1, h2⟩

theorem forall2_eq {δ ζ : Type} (f : δ → Item) (g : δ → ζ) (mk : ζ → Tok) (hf : ∀ x t, (f x).Tok t → t = mk (g x)) :
    ∀ (l : List δ) (ts : Strm), List.Forall₂ Item.Tok (l.map f) ts → ts = l.map fun x => mk (g x)
  | [], _, h => by cases h; rfl
  | x :: l, _, h => by
    cases h with
    | cons h1 h2 => rw [hf x _ h1, forall2_eq f g mk hf l _ h2]; rfl

theorem comments_eq {l : List (List Char)} {ts : Strm} (h : List.Forall₂ Item.Tok (l.map .comment) ts) :
    ts = l.map fun c => ⟨.comment, [c]⟩ :=
  forall2_eq .comment id (fun c => ⟨.comment, [c]⟩) (fun _ _ h => h) l ts h

theorem numbers_eq {l : List (List Char)} {ts : Strm} (h : List.Forall₂ Item.Tok (l.map .number) ts) :
    ts = l.map fun c => ⟨.data, [c]⟩ :=
  forall2_eq .number id (fun c => ⟨.data, [c]⟩) (fun _ _ h => h) l ts h

/-! ### Sweeps -/

theorem segment_ok (env : Env) (r a b n : List Char) (x y : ℚ) (k : Nat) (hs : Spaced r [a, b, n])
    (ha : env.parse a = some x) (hb : env.parse b = some y) (hn : env.parseNat n = some k) :
    segment env (kwSEG ++ r) = .ok (linspace x y k) := by
  unfold segment
  have : words (strip (kwSEG ++ r)) = [['S', 'E', 'G'], a, b, n] := by
    rw [words_strip]
    have := words_word ['S', 'E', 'G'] ' ' r ⟨by simp, by decide⟩ (by decide)
    rw [spaced_words hs] at this
    exact this
  rw [this]
  simp only [ha, hb, hn]

theorem sweep_read (env : Env) (v : Sweep) (hv : v.Ok env) (ts rest : Strm) (h : List.Forall₂ Item.Tok v.items ts) :
    readVar env v.typ (ts ++ rest) = .ok (v.coords, rest) ∧ Starts [.varBegin, .segBegin] (ts ++ rest) := by
  obtain ⟨name, typ, count, source, coords⟩ := v
  cases source with
  | list texts =>
    obtain ⟨-, ht, hn⟩ := hv
    simp only [Sweep.items] at h ht hn
    cases h with
    | cons h1 h2 =>
      obtain ⟨r, rfl⟩ := h1
      obtain ⟨x, y, rfl, h3, h4⟩ := forall2_append h2
      cases h4 with
      | cons h5 h6 =>
        cases h6
        rename_i e
        have he : e.tag = .varEnd := h5
        rw [numbers_eq h3]
        refine ⟨?_, ⟨_, _, rfl, by simp⟩⟩
        unfold readVar
        rw [List.cons_append, oneOf_ok _ _ _ (by simp)]
        simp only [List.headD_cons]
        have hb : begins ['V', 'A', 'R', '_', 'L', 'I', 'S', 'T'] (kwVAR_LIST_BEGIN ++ r) = true := rfl
        simp only [hb, if_true]
        rw [List.append_assoc, List.singleton_append, many_some .data _ _ (mapTag _ _ _ fun _ => rfl)
          ⟨_, _, rfl, by simp [he]⟩]
        simp only [List.map_map]
        have e : texts.map ((fun u : Tok => u.rad) ∘ fun z : List Char => (⟨.data, [z]⟩ : Tok)) =
            texts.map fun z => [z] := rfl
        rw [e, handle_ok env typ ht texts coords hn]
        simp only
        rw [one_ok _ _ _ he]
  | segment a b n =>
    obtain ⟨-, x, y, k, ha, hb, hn, hev⟩ := hv
    simp only [Sweep.items] at h hev
    rw [evenly_eq hev]
    cases h with
    | cons h1 h2 =>
      cases h2 with
      | cons h3 h4 =>
        cases h4 with
        | cons h5 h6 =>
          cases h6
          obtain ⟨r, rfl⟩ := h1
          obtain ⟨r', rfl, hs⟩ := h3
          rename_i e
          have he : e.tag = .segEnd := h5
          refine ⟨?_, ⟨_, _, rfl, by simp⟩⟩
          unfold readVar
          rw [List.cons_append, oneOf_ok _ _ _ (by simp)]
          simp only [List.headD_cons]
          have hb' : begins ['V', 'A', 'R', '_', 'L', 'I', 'S', 'T'] (kwSEG_LIST_BEGIN ++ r) = false := rfl
          simp only [hb', Bool.false_eq_true, if_false]
          rw [List.cons_append, one_ok _ _ _ (by rfl)]
          simp only [List.headD_cons]
          rw [segment_ok env r' a b n x y k hs ha hb hn]
          simp only
          rw [List.cons_append, one_ok _ _ _ he]
          rfl

/-- The dimension for a sweep. -/
def Sweep.dim (v : Sweep) : Dim Cplx := ⟨.dimSweep, String.ofList v.name, v.coords, none, none⟩

theorem sweeps_read (env : Env) : ∀ (vs : List Sweep) (b : Block Cplx Cplx) (ts rest : Strm), (∀ v ∈ vs, v.Ok env) →
    (b.ivars.map Prod.fst ++ vs.map fun v => String.ofList v.name).Nodup →
    List.Forall₂ Item.Tok (vs.flatMap Sweep.items) ts →
    (∃ b', readVars env (vs.map fun v => [v.name, v.typ, v.count]) b (ts ++ rest) = .ok (b', rest) ∧ b'.vars = b.vars ∧
      b'.ivars = b.ivars ++ vs.map fun v => (String.ofList v.name, v.dim)) ∧
    (vs ≠ [] → Starts [.varBegin, .segBegin] (ts ++ rest))
  | [], b, ts, rest, _, _, h => by
    cases h
    exact ⟨⟨b, rfl, rfl, by simp⟩, fun h => absurd rfl h⟩
  | v :: vs, b, ts, rest, hv, hnd, h => by
    rw [List.flatMap_cons] at h
    obtain ⟨x, y, rfl, h1, h2⟩ := forall2_append h
    rw [List.append_assoc]
    obtain ⟨k1, k2⟩ := sweep_read env v (hv v (by simp)) x (y ++ rest) h1
    have hd : String.ofList v.name ∉ b.ivars.map Prod.fst := by
      intro hm
      exact (List.nodup_append.mp hnd).2.2 _ hm (String.ofList v.name) (by simp) rfl
    have ha : assign b.ivars (String.ofList v.name) v.dim = b.ivars ++ [(String.ofList v.name, v.dim)] :=
      assign_new _ _ _ hd
    obtain ⟨⟨b', h3, h4, h5⟩, -⟩ := sweeps_read env vs (setDim b (String.ofList v.name) v.dim) y rest
      (fun v h => hv v (by simp [h])) (by
        unfold setDim
        simp only
        rw [ha]
        simpa using hnd) h2
    refine ⟨⟨b', ?_, ?_, ?_⟩, fun _ => k2⟩
    · rw [List.map_cons]
      obtain ⟨n, hn⟩ := Option.isSome_iff_exists.1 (hv v (by simp)).1
      simp only [readVars, hn, k1]
      exact h3
    · rw [h4]; rfl
    · rw [h5]
      unfold setDim
      simp only
      rw [ha]
      simp

theorem dims_read (vs : List Sweep) (b : Block Cplx Cplx) (hnd : (vs.map fun v => String.ofList v.name).Nodup)
    (hb : b.ivars = vs.map fun v => (String.ofList v.name, v.dim)) :
    dimsOf b (vs.map fun v => [v.name, v.typ, v.count]) = .ok (vs.map Sweep.dim) := by
  unfold dimsOf
  rw [List.mapM_map]
  apply mapM_ok
  intro v hv
  simp only [List.headD_cons, Function.comp]
  rw [hb, lookup_map_of (fun v : Sweep => String.ofList v.name) Sweep.dim vs hnd v hv]

/-! ### Data -/

theorem data_read (env : Env) (dims : List (Dim Cplx)) : ∀ (ds : List Data) (zss : List (List Cplx)) (b : Block Cplx Cplx)
    (ts rest : Strm), List.Forall₂ (fun (d : Data) zs => IsType d.typ ∧ List.Forall₂ (Number env d.typ) d.texts zs) ds zss →
    (∀ d ∈ ds, d.texts.length = Nd.size (dims.map fun d => d.data.length)) →
    b.ivars.map Prod.fst = dims.map Dim.name →
    (b.vars.map Prod.fst ++ ds.map fun d => String.ofList d.name).Nodup →
    (∀ d ∈ ds, String.ofList d.name ∉ dims.map Dim.name) →
    (∀ d ∈ ds, ∀ m i j, isMatrixName (String.ofList d.name) = some (m, i, j) →
      m ∉ b.vars.map Prod.fst ++ ds.map fun d => String.ofList d.name) →
    List.Forall₂ Item.Tok (ds.flatMap Data.items) ts →
    ∃ b', readData env dims (ds.map fun d => [d.name, d.typ]) b (ts ++ rest) = .ok (b', rest) ∧ b'.ivars = b.ivars ∧
      b'.vars = b.vars ++ List.zipWith (fun (d : Data) zs => (String.ofList d.name, arrOf dims zs)) ds zss
  | [], zss, b, ts, rest, hz, _, _, _, _, _, h => by
    cases hz
    cases h
    exact ⟨b, rfl, rfl, by simp⟩
  | d :: ds, zss, b, ts, rest, hz, hlen, hiv, hnd, hD, hm, h => by
    cases hz with
    | cons hz1 hz2 =>
      rename_i zs zss
      rw [List.flatMap_cons] at h
      obtain ⟨x, y, rfl, h1, h2⟩ := forall2_append h
      unfold Data.items at h1
      cases h1 with
      | cons g1 g2 =>
        rename_i u _
        obtain ⟨p, q, rfl, h3, h4⟩ := forall2_append g2
        cases h4 with
        | cons h5 h6 =>
          cases h6
          rename_i e
          have hu : u.tag = .dataBegin := g1
          have he : e.tag = .dataEnd := h5
          have hn : String.ofList d.name ∉ b.vars.map Prod.fst := by
            intro h
            exact (List.nodup_append.mp hnd).2.2 _ h (String.ofList d.name) (by simp) rfl
          obtain ⟨b1, e1, e2, e3⟩ := setArr_new b (String.ofList d.name) (arrOf dims zs) hn
            (by rw [hiv]; exact hD d (by simp))
            (fun m i j h => Or.inr fun h' => hm d (by simp) m i j h (by simp at h' ⊢; exact Or.inl h'))
          have e3' : b1.ivars = b.ivars := by
            rw [e3]
            apply addDims_known
            intro d hd
            rw [hiv]
            exact List.mem_map_of_mem hd
          have e2' : b1.vars.map Prod.fst ++ ds.map (fun d => String.ofList d.name) =
              b.vars.map Prod.fst ++ (d :: ds).map fun d => String.ofList d.name := by
            rw [e2]; simp
          obtain ⟨b', f1, f2, f3⟩ := data_read env dims ds zss b1 y rest hz2 (fun d h => hlen d (by simp [h]))
            (by rw [e3', hiv]) (by rw [e2']; exact hnd) (fun d h => hD d (by simp [h]))
            (fun d h m i j h' => by rw [e2']; exact hm d (by simp [h]) m i j h') h2
          refine ⟨b', ?_, by rw [f2, e3'], by rw [f3, e2]; simp⟩
          rw [List.map_cons]
          simp only [readData]
          rw [List.append_assoc, List.cons_append, one_ok _ _ _ hu]
          simp only
          rw [numbers_eq h3, List.append_assoc, List.singleton_append, many_some .data _ _ (mapTag _ _ _ fun _ => rfl)
            ⟨_, _, rfl, by simp [he]⟩]
          simp only [List.map_map]
          have et : d.texts.map ((fun u : Tok => u.rad) ∘ fun z : List Char => (⟨.data, [z]⟩ : Tok)) =
              d.texts.map fun z => [z] := rfl
          rw [et, handle_ok env d.typ hz1.1 d.texts zs hz1.2]
          simp only
          rw [toArr_of dims zs (by rw [← hz1.2.length_eq]; exact hlen d (by simp))]
          simp only
          rw [e1]
          simp only
          rw [one_ok _ _ _ he]
          exact f1

/-! ### The whole file -/

theorem kept_ok {c c' : List Char} (h : Kept c c') : timeComment c = .ok c' := by
  cases h with
  | same h =>
    unfold timeComment
    have : ¬ begins "CONSTANT TIME".toList c = true := fun h' => h (List.isPrefixOf_iff_prefix.1 h')
    rw [if_neg this]
  | time w1 w2 y m d h mi s hc hs =>
    unfold timeComment
    have : begins "CONSTANT TIME".toList c = true := List.isPrefixOf_iff_prefix.2 hc
    rw [if_pos this, words_strip, spaced_words hs]
    rfl

theorem kept_all {cs cs' : List (List Char)} (h : List.Forall₂ Kept cs cs') : cs.mapM timeComment = .ok cs' := by
  induction h with
  | nil => rfl
  | cons h _ ih => rw [List.mapM_cons, kept_ok h, ih]; rfl

theorem read_head (env : Env) (ls : List (List Char)) (its rest : List Item) (hs : List.Forall₂ Says ls its) (f : Content)
    (hf : f.Head env) (hit : its.filter Item.shown = f.items ++ rest) (com : List (List Char))
    (hc : List.Forall₂ Kept f.comments com) :
    ∃ (b1 : Block Cplx Cplx) (ty tr : Strm), List.Forall₂ Item.Tok (f.data.flatMap Data.items) ty ∧ b1.vars = [] ∧
      b1.ivars = f.sweeps.map (fun v => (String.ofList v.name, v.dim)) ∧
      read env ls = match readData env (f.sweeps.map Sweep.dim) (f.data.map fun v => [v.name, v.typ]) b1 (ty ++ tr) with
        | .error e => .error e
        | .ok (b, _) => .ok (f.name, com, b) := by
  obtain ⟨ts, h1, h2⟩ := tokenize_says hs
  rw [hit] at h2
  obtain ⟨ts, tr, rfl, h2, -⟩ := forall2_append h2
  unfold Content.items at h2
  obtain ⟨t1, s1, rfl, k1, h2⟩ := forall2_append h2
  obtain ⟨tv, s2, rfl, kv, h2⟩ := forall2_append h2
  obtain ⟨t2, s3, rfl, k2, h2⟩ := forall2_append h2
  obtain ⟨tn, s4, rfl, kn, h2⟩ := forall2_cons h2
  obtain ⟨t3, s5, rfl, k3, h2⟩ := forall2_append h2
  obtain ⟨tw, s6, rfl, kw, h2⟩ := forall2_append h2
  obtain ⟨t4, s7, rfl, k4, h2⟩ := forall2_append h2
  obtain ⟨td, s8, rfl, kd, h2⟩ := forall2_append h2
  obtain ⟨t5, s9, rfl, k5, h2⟩ := forall2_append h2
  obtain ⟨tx, s10, rfl, kx, h2⟩ := forall2_append h2
  obtain ⟨t6, ty, rfl, k6, ky⟩ := forall2_append h2
  have kn' : tn = ⟨.name, [f.name]⟩ := kn
  subst kn'
  have e1 := comments_eq k1
  have e2 := comments_eq k2
  have e3 := comments_eq k3
  have e4 := comments_eq k4
  have e5 := comments_eq k5
  have e6 := comments_eq k6
  have ew := forall2_eq (fun v : Sweep => .var [v.name, v.typ, v.count]) id (fun v => ⟨.vardef, [v.name, v.typ, v.count]⟩)
    (fun _ _ h => h) _ _ kw
  have ed := forall2_eq (fun v : Data => .data [v.name, v.typ]) id (fun v => ⟨.datadef, [v.name, v.typ]⟩)
    (fun _ _ h => h) _ _ kd
  simp only [id] at ew ed
  have ct : ∀ cs : List (List Char), ∀ u ∈ cs.map (fun c => (⟨.comment, [c]⟩ : Tok)), u.tag = .comment :=
    fun cs => mapTag _ _ _ fun _ => rfl
  have nodupStr : ∀ l : List (List Char), l.Nodup → (l.map String.ofList).Nodup :=
    fun l h => h.map (f := String.ofList) fun _ _ e => ofList_inj e
  have hndv : (f.sweeps.map fun v => String.ofList v.name).Nodup := by
    have := nodupStr _ hf.nodupSweeps
    rwa [List.map_map] at this
  -- what follows in the file
  have hy : Starts [.dataBegin] (ty ++ tr) := by
    obtain ⟨d, ds, hds⟩ := List.exists_cons_of_ne_nil hf.data
    rw [hds] at ky
    cases ky with
    | cons g _ => exact ⟨_, _, rfl, List.mem_singleton.2 g⟩
  have h6 : Starts [.dataBegin, .comment] (t6 ++ (ty ++ tr)) :=
    starts_append (by rw [e6]; intro u hu; rw [ct _ u hu]; simp) (hy.mono (by simp))
  obtain ⟨⟨b1, v1, v2, v3⟩, v4⟩ := sweeps_read env f.sweeps {} tx (t6 ++ (ty ++ tr)) hf.sweeps (by simpa using hndv) kx
  have hx : Starts [.varBegin, .segBegin, .dataBegin] (tx ++ (t6 ++ (ty ++ tr))) := by
    by_cases h0 : f.sweeps = []
    · have : tx = [] := by rw [h0] at kx; cases kx; rfl
      rw [this, e6, (hf.noSweeps h0).2]
      exact hy.mono (by simp)
    · exact (v4 h0).mono (by simp)
  have h5 : Starts [.varBegin, .segBegin, .dataBegin, .comment] (t5 ++ (tx ++ (t6 ++ (ty ++ tr)))) :=
    starts_append (by rw [e5]; intro u hu; rw [ct _ u hu]; simp) (hx.mono (by simp))
  have hdd : Starts [.datadef] (td ++ (t5 ++ (tx ++ (t6 ++ (ty ++ tr))))) := by
    obtain ⟨d, ds, hds⟩ := List.exists_cons_of_ne_nil hf.data
    rw [ed, hds]
    exact ⟨_, _, rfl, by simp⟩
  have h4 : Starts [.datadef, .comment] (t4 ++ (td ++ (t5 ++ (tx ++ (t6 ++ (ty ++ tr)))))) :=
    starts_append (by rw [e4]; intro u hu; rw [ct _ u hu]; simp) (hdd.mono (by simp))
  have hw : Starts [.vardef, .datadef] (tw ++ (t4 ++ (td ++ (t5 ++ (tx ++ (t6 ++ (ty ++ tr))))))) := by
    by_cases h0 : f.sweeps = []
    · rw [ew, h0, e4, (hf.noSweeps h0).1]
      exact hdd.mono (by simp)
    · obtain ⟨v, vs, hvs⟩ := List.exists_cons_of_ne_nil h0
      rw [ew, hvs]
      exact ⟨_, _, rfl, by simp⟩
  have hver : ∃ o, opt .citifile (tv ++ (t2 ++ (⟨.name, [f.name]⟩ :: (t3 ++ (tw ++ (t4 ++ (td ++ (t5 ++ (tx ++ (t6 ++ (ty ++ tr))))))))))) =
      .ok (o, t2 ++ (⟨.name, [f.name]⟩ :: (t3 ++ (tw ++ (t4 ++ (td ++ (t5 ++ (tx ++ (t6 ++ (ty ++ tr))))))))))
      ∧ Starts [.citifile, .name] (tv ++ (t2 ++ (⟨.name, [f.name]⟩ :: (t3 ++ (tw ++ (t4 ++ (td ++ (t5 ++ (tx ++ (t6 ++ (ty ++ tr))))))))))) := by
    cases hv : f.version with
    | true =>
      rw [hv, if_pos rfl] at kv
      cases kv with
      | cons g1 g2 =>
        cases g2
        exact ⟨_, opt_ok _ _ _ g1, _, _, rfl, by
          have : (_ : Tok).tag = Tag.citifile := g1
          simp [this]⟩
    | false =>
      rw [hv, if_neg (by simp)] at kv
      cases kv
      rw [e2, hf.version hv]
      exact ⟨none, rfl, _, _, rfl, by simp⟩
  obtain ⟨o, hver, hst⟩ := hver
  refine ⟨b1, ty, tr, ky, v2, by rw [v3]; simp, ?_⟩
  · unfold read
    rw [h1]
    simp only
    unfold parse
    simp only [List.append_assoc, List.cons_append]
    have m1 := many_group .comment t1 _ (by rw [e1]; exact ct _) hst (by simp)
    have m2 := many_group .comment t2 (⟨.name, [f.name]⟩ :: (t3 ++ (tw ++ (t4 ++ (td ++ (t5 ++ (tx ++ (t6 ++ (ty ++ tr)))))))))
      (by rw [e2]; exact ct _) (S := [.name]) ⟨_, _, rfl, by simp⟩ (by simp)
    have m3 := many_group .comment t3 _ (by rw [e3]; exact ct _) hw (by simp)
    have mw := many_group .vardef tw _ (by rw [ew]; exact mapTag _ _ _ fun _ => rfl) h4 (by simp)
    have m4 := many_group .comment t4 _ (by rw [e4]; exact ct _) hdd (by simp)
    have md := many_group .datadef td _ (by rw [ed]; exact mapTag _ _ _ fun _ => rfl) h5 (by simp)
    have m5 := many_group .comment t5 _ (by rw [e5]; exact ct _) hx (by simp)
    have m6 := many_group .comment t6 _ (by rw [e6]; exact ct _) hy (by simp)
    rw [m1]
    simp only [bind, Except.bind]
    rw [hver]
    simp only
    rw [m2]
    simp only
    rw [one_ok _ _ _ (by rfl)]
    simp only
    rw [m3]
    simp only
    rw [mw]
    simp only
    rw [m4]
    simp only
    rw [md]
    simp only
    rw [m5]
    simp only
    have rw1 : tw.map (·.rad) = f.sweeps.map fun v => [v.name, v.typ, v.count] := by rw [ew, List.map_map]; rfl
    have rw2 : td.map (·.rad) = f.data.map fun v => [v.name, v.typ] := by rw [ed, List.map_map]; rfl
    rw [rw1, v1]
    simp only
    rw [m6]
    simp only
    have tx' : texts (t1.map (·.rad) ++ (t2.map (·.rad) ++ (t3.map (·.rad) ++ (t4.map (·.rad) ++ (t5.map (·.rad) ++
        t6.map (·.rad)))))) =
        f.comments := by
      have : ∀ cs : List (List Char), texts ((cs.map fun c => (⟨.comment, [c]⟩ : Tok)).map (·.rad)) = cs := by
        intro cs
        simp [texts, List.map_map, Function.comp_def]
      have ha : ∀ a b, texts (a ++ b) = texts a ++ texts b := by intro a b; simp [texts]
      rw [e1, e2, e3, e4, e5, e6]
      simp only [ha, this, Content.comments, List.append_assoc]
    rw [tx', kept_all hc]
    simp only
    rw [dims_read f.sweeps b1 hndv (by rw [v3]; simp)]
    simp only
    rw [rw2]
    generalize readData env (f.sweeps.map Sweep.dim) (f.data.map fun v => [v.name, v.typ]) b1 (ty ++ tr) = x
    cases x <;> rfl


theorem values_exist (env : Env) (n : Nat) (ds : List Data) (h : ∀ d ∈ ds, d.Ok env n) :
    ∃ zss, List.Forall₂ (fun (d : Data) zs => IsType d.typ ∧ List.Forall₂ (Number env d.typ) d.texts zs) ds zss := by
  induction ds with
  | nil => exact ⟨[], .nil⟩
  | cons d ds ih =>
    obtain ⟨zss, hz⟩ := ih fun d hd => h d (by simp [hd])
    have : ∀ l : List (List Char), (∀ t ∈ l, ∃ z, Number env d.typ t z) → ∃ zs, List.Forall₂ (Number env d.typ) l zs := by
      intro l
      induction l with
      | nil => exact fun _ => ⟨[], .nil⟩
      | cons t l ih' =>
        intro h
        obtain ⟨z, hz⟩ := h t (by simp)
        obtain ⟨zs, hzs⟩ := ih' fun t ht => h t (by simp [ht])
        exact ⟨z :: zs, .cons hz hzs⟩
    obtain ⟨zs, hzs⟩ := this d.texts (h d (by simp)).number
    exact ⟨zs :: zss, .cons ⟨(h d (by simp)).typ, hzs⟩ hz⟩

theorem dim_shape (f : Content) :
    (f.sweeps.map Sweep.dim).map (fun d => d.data.length) = f.sweeps.map fun v => v.coords.length := by
  rw [List.map_map]; rfl

theorem dim_names (f : Content) : (f.sweeps.map Sweep.dim).map Dim.name = f.sweeps.map fun v => String.ofList v.name := by
  rw [List.map_map]; rfl

theorem Content.Names.data {f : Content} (hn : f.Names) :
    (f.data.map fun v => String.ofList v.name).Nodup ∧
    (∀ d ∈ f.data, String.ofList d.name ∉ (f.sweeps.map Sweep.dim).map Dim.name) ∧
    ∀ d ∈ f.data, ∀ m i j, isMatrixName (String.ofList d.name) = some (m, i, j) →
      m ∉ f.data.map fun d => String.ofList d.name := by
  refine ⟨?_, ?_, ?_⟩
  · have := hn.nodupData.map (f := String.ofList) fun _ _ e => ofList_inj e
    rwa [List.map_map] at this
  · rw [dim_names]
    intro d h hm
    obtain ⟨v, hv, e⟩ := List.mem_map.1 hm
    exact hn.disjoint d h (List.mem_map.2 ⟨v, hv, ofList_inj e⟩)
  · intro d h m i j hm hmem
    refine hn.elems d h m i j hm ?_
    obtain ⟨d', hd', e⟩ := List.mem_map.1 hmem
    rw [← e]
    simpa using ⟨d', hd', rfl⟩

/-- C65: a file is read as it says: the name, the comments in order, one sweep for each `VAR` with the coordinates
listed or evenly spaced between the ends of the segment, one variable for each `DATA` over all sweeps, the numbers
taken line by line with the last sweep running fastest.  Lines after the last `END` are not taken into account as long as
they can be recognised. -/
theorem C65_read (env : Env) (ls : List (List Char)) (its rest : List Item) (hs : List.Forall₂ Says ls its) (f : Content)
    (hf : f.Head env) (hn : f.Names) (hit : its.filter Item.shown = f.items ++ rest) (com : List (List Char))
    (hc : List.Forall₂ Kept f.comments com)
    (hd : ∀ d ∈ f.data, d.Ok env f.size) :
    ∃ b, read env ls = .ok (f.name, com, b) ∧
      b.ivars = f.sweeps.map (fun v => (String.ofList v.name, v.dim)) ∧
      b.vars.map Prod.fst = f.data.map (fun d => String.ofList d.name) ∧
      ∀ d ∈ f.data, ∃ a, lookup b.vars (String.ofList d.name) = some a ∧ a.dims = f.sweeps.map Sweep.dim ∧
        a.nd.shape = f.sweeps.map (fun v => v.coords.length) ∧
        List.Forall₂ (fun t idx => Number env d.typ t (a.nd.get idx)) d.texts
          (positions (f.sweeps.map fun v => v.coords.length)) := by
  obtain ⟨b1, ty, tr, ky, v2, v3, hread⟩ := read_head env ls its rest hs f hf hit com hc
  obtain ⟨hndd, hdis, hel⟩ := hn.data
  have hsh := dim_shape f
  obtain ⟨zss, hz⟩ := values_exist env f.size f.data hd
  obtain ⟨b2, w1, w2, w3⟩ := data_read env (f.sweeps.map Sweep.dim) f.data zss b1 ty tr hz
    (by
      intro d h
      rw [hsh, size_prod]
      exact (hd d h).texts)
    (by rw [v3, dim_names]; simp) (by rw [v2]; simpa using hndd) hdis (by rw [v2]; simpa using hel) ky
  rw [w1] at hread
  refine ⟨b2, hread, by rw [w2, v3], ?_, ?_⟩
  · rw [w3, v2]
    have : ∀ (ds : List Data) (zss : List (List Cplx)), ds.length = zss.length →
        (List.zipWith (fun (d : Data) zs => (String.ofList d.name, arrOf (f.sweeps.map Sweep.dim) zs)) ds zss).map Prod.fst =
          ds.map fun d => String.ofList d.name := by
      intro ds
      induction ds with
      | nil => intro zss _; simp
      | cons d ds ih =>
        intro zss hl
        cases zss with
        | nil => simp at hl
        | cons z zss => simp [ih zss (by simpa using hl)]
    simpa using this f.data zss hz.length_eq
  · intro d hmem
    rw [w3, v2]
    simp only [List.nil_append]
    have : ∀ (ds : List Data) (zss : List (List Cplx)), (ds.map fun d => String.ofList d.name).Nodup →
        List.Forall₂ (fun (d : Data) zs => IsType d.typ ∧ List.Forall₂ (Number env d.typ) d.texts zs) ds zss → d ∈ ds →
        ∃ zs, List.Forall₂ (Number env d.typ) d.texts zs ∧
          lookup (List.zipWith (fun (d : Data) zs => (String.ofList d.name, arrOf (f.sweeps.map Sweep.dim) zs)) ds zss)
            (String.ofList d.name) = some (arrOf (f.sweeps.map Sweep.dim) zs) := by
      intro ds
      induction ds with
      | nil => intro _ _ _ h; simp at h
      | cons d' ds ih =>
        intro zss hnd hz hm
        cases hz with
        | cons g1 g2 =>
          rename_i zs zss
          rw [List.map_cons, List.nodup_cons] at hnd
          unfold lookup
          rw [List.zipWith_cons_cons, List.find?_cons]
          rcases List.mem_cons.1 hm with rfl | hm
          · exact ⟨zs, g1.2, by simp⟩
          · have hne : String.ofList d'.name ≠ String.ofList d.name := by
              intro e
              exact hnd.1 (e ▸ List.mem_map_of_mem (f := fun d : Data => String.ofList d.name) hm)
            simp only [decide_eq_false hne]
            exact ih zss hnd.2 g2 hm
    obtain ⟨zs, g1, g2⟩ := this f.data zss hndd hz hmem
    refine ⟨_, g2, rfl, hsh, ?_⟩
    have hl : zs.length = Nd.size ((f.sweeps.map Sweep.dim).map fun d => d.data.length) := by
      rw [← g1.length_eq, hsh, size_prod]
      exact (hd d hmem).texts
    have hg := arrOf_get (f.sweeps.map Sweep.dim) zs hl
    rw [hsh] at hg
    rw [← hg, List.forall₂_map_right_iff] at g1
    exact g1

end HF.Citi
