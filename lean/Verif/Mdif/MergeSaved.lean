import Verif.Mdif.MergeProps
import Verif.Mdif.WriteProps
/-
C67: saved blocks, read and put together again.
-/
namespace HF.Mdif

open HF.DataDict.Spec HF.DataBlock
open HF.DataDict hiding rename delitem

variable {β α : Type} [DecidableEq β]

omit [DecidableEq β] in
theorem positions_get : ∀ (ds : List (Dim β)) (idx : List Nat), idx ∈ positions (ds.map fun x => x.data.length) →
    ∀ (k : Nat) x, ds[k]? = some x → ∃ i c, idx[k]? = some i ∧ x.data[i]? = some c
  | [], idx, _, k, x, hx => by simp at hx
  | y :: ds, idx, h, k, x, hx => by
    rw [List.map_cons, positions] at h
    obtain ⟨i, hi, h⟩ := List.mem_flatMap.1 h
    obtain ⟨t, ht, rfl⟩ := List.mem_map.1 h
    cases k with
    | zero =>
      simp only [List.getElem?_cons_zero, Option.some.injEq] at hx
      subst hx
      have : i < y.data.length := List.mem_range.1 hi
      exact ⟨i, y.data[i], rfl, List.getElem?_eq_getElem this⟩
    | succ k => exact positions_get ds t ht k x (by simpa using hx)

theorem slice_vars {env : Env β α} {pr : Printer α β} {num : Num α} {d : Dim β} {ds : List (Dim β)}
    {vs : List (String × Arr β α)} (hs : Savable env pr num d ds vs) {idx : List Nat} {p : Parsed β α}
    (hp : IsSlice env d ds vs idx p) (n : String) : n ∈ p.block.vars.map Prod.fst ↔ n ∈ vs.map Prod.fst := by
  rw [hp.keys, List.mem_append]
  constructor
  · rintro (h | h)
    · obtain ⟨v, hv, rfl⟩ := List.mem_map.1 h
      exact List.mem_map_of_mem (List.mem_filter.1 hv).1
    · obtain ⟨v, hv, rfl⟩ := List.mem_map.1 h
      exact List.mem_map_of_mem (List.mem_filter.1 hv).1
  · intro h
    obtain ⟨v, hv, rfl⟩ := List.mem_map.1 h
    rcases hs.dims v hv with e | e
    · exact Or.inl (List.mem_map_of_mem (List.mem_filter.2 ⟨hv, by simpa using e⟩))
    · exact Or.inr (List.mem_map_of_mem (List.mem_filter.2 ⟨hv, by simpa using e⟩))

theorem slice_settings {env : Env β α} {pr : Printer α β} {num : Num α} {d : Dim β} {ds : List (Dim β)}
    {vs : List (String × Arr β α)} (hs : Savable env pr num d ds vs) {idx : List Nat}
    (hidx : idx ∈ positions (ds.map fun x => x.data.length)) {p : Parsed β α}
    (hp : IsSlice env d ds vs idx p) (n : String) : n ∈ settingNames p.block ↔ n ∈ ds.map Dim.name := by
  have hnd := hs.nodupDims
  rw [List.map_cons, List.nodup_cons] at hnd
  constructor
  · intro h
    obtain ⟨q, hq, rfl⟩ := List.mem_map.1 h
    obtain ⟨hq1, hq2⟩ := List.mem_filter.1 hq
    have hl := mem_lookup hp.once hq1
    by_contra hn
    by_cases hd : q.1 = d.name
    · rw [hd, hp.sweep] at hl
      rw [← Option.some.inj hl] at hq2
      have : (⟨.dimSweep, d.name, d.data.map fun c => env.toCoord (env.toVal c), none, none⟩ : Dim β).isa .dimPartial = false := by
        show Cls.isSub .dimSweep .dimPartial = false
        decide +kernel
      rw [this] at hq2
      cases hq2
    · rw [hp.others q.1 (by simp only [List.map_cons, List.mem_cons, not_or]; exact ⟨hd, hn⟩)] at hl
      cases hl
  · intro h
    obtain ⟨x, hx, rfl⟩ := List.mem_map.1 h
    obtain ⟨k, hk⟩ := List.getElem?_of_mem hx
    obtain ⟨i, c, h1, h2⟩ := positions_get ds idx hidx k x hk
    have hl := hp.settings k x i c hk h1 h2
    refine List.mem_map.2 ⟨_, List.mem_filter.2 ⟨lookup_mem hl, ?_⟩, rfl⟩
    show Cls.isSub .dimPartial .dimPartial = true
    decide +kernel

theorem slices_stack {env : Env β α} {pr : Printer α β} {num : Num α} {d : Dim β} {ds : List (Dim β)}
    {vs : List (String × Arr β α)} (hs : Savable env pr num d ds vs)
    (hI : "INDEX" ∉ vs.map Prod.fst ++ (d :: ds).map Dim.name)
    (hE : ∀ n ∈ vs.map Prod.fst ++ ds.map Dim.name, ∀ m i j, isMatrixName n = some (m, i, j) →
      m ∉ vs.map Prod.fst ++ ds.map Dim.name) {p0 : Parsed β α} {ps : List (Parsed β α)}
    (h : ∀ p ∈ p0 :: ps, ∃ idx ∈ positions (ds.map fun x => x.data.length), IsSlice env d ds vs idx p) :
    Stackable p0.block (ps.map fun p => p.block) := by
  obtain ⟨idx0, hidx0, hp0⟩ := h p0 (by simp)
  have hall : ∀ b ∈ p0.block :: ps.map (fun p => p.block), ∃ p, p.block = b ∧
      ∃ idx ∈ positions (ds.map fun x => x.data.length), IsSlice env d ds vs idx p := by
    intro b hb
    rw [← List.map_cons (f := fun p : Parsed β α => p.block)] at hb
    obtain ⟨p, hp, rfl⟩ := List.mem_map.1 hb
    exact ⟨p, rfl, h p hp⟩
  have hvn := slice_vars hs hp0
  have hsn := slice_settings hs hidx0 hp0
  have hnd := hs.nodupDims
  rw [List.map_cons, List.nodup_cons] at hnd
  have hkn : (p0.block.vars.map Prod.fst).Nodup := by
    rw [hp0.keys, List.nodup_append]
    refine ⟨hs.nodup.sublist (List.filter_sublist.map _), hs.nodup.sublist (List.filter_sublist.map _), ?_⟩
    intro a ha b hb hab
    obtain ⟨v, hv, rfl⟩ := List.mem_map.1 ha
    obtain ⟨w, hw, rfl⟩ := List.mem_map.1 hb
    have hv' := List.mem_filter.1 hv
    have hw' := List.mem_filter.1 hw
    have := List.inj_on_of_nodup_map hs.nodup hv'.1 hw'.1 hab
    subst this
    have e1 : v.2.dims = d :: ds := by simpa using hv'.2
    have e2 : v.2.dims = ds := by simpa using hw'.2
    rw [e1] at e2
    simpa using congrArg List.length e2
  have hmem : ∀ n, n ∈ p0.block.vars.map Prod.fst ++ settingNames p0.block ↔ n ∈ vs.map Prod.fst ++ ds.map Dim.name := by
    intro n
    rw [List.mem_append, List.mem_append, hvn, hsn]
  -- what the arrays are
  have hshape : ∀ p idx, IsSlice env d ds vs idx p → ∀ v ∈ vs, ∃ a, lookup p.block.vars v.1 = some a ∧
      ((v.2.dims = d :: ds ∧ a.dims = [⟨.dimSweep, d.name, d.data.map fun c => env.toCoord (env.toVal c), none, none⟩] ∧
        a.nd.shape = [d.data.length]) ∨ (v.2.dims = ds ∧ a.dims = [] ∧ a.nd.shape = [])) := by
    intro p idx hp v hv
    rcases hs.dims v hv with e | e
    · obtain ⟨a, h1, h2, h3, -⟩ := hp.columns v hv e
      exact ⟨a, h1, Or.inl ⟨e, h2, h3⟩⟩
    · obtain ⟨a, h1, h2, h3, -⟩ := hp.attribs v hv e
      exact ⟨a, h1, Or.inr ⟨e, h2, h3⟩⟩
  have hne : ∀ l : List (Dim β), l ≠ d :: l := by
    intro l e
    simpa using congrArg List.length e
  refine ⟨?_, ?_, ?_, ?_, ?_, ?_, ?_, ?_⟩
  · intro b hb n x0 hx0
    obtain ⟨p, rfl, idx, hidx, hp⟩ := hall b (by simp [hb])
    have hn : n ∈ vs.map Prod.fst := (hvn n).1 (List.mem_map_of_mem (f := Prod.fst) (lookup_mem hx0))
    obtain ⟨v, hv, rfl⟩ := List.mem_map.1 hn
    obtain ⟨a0, h0, hc0⟩ := hshape p0 idx0 hp0 v hv
    obtain ⟨a, h1, hc1⟩ := hshape p idx hp v hv
    rw [h0] at hx0
    obtain rfl := Option.some.inj hx0
    refine ⟨a, h1, ?_⟩
    rcases hc0 with ⟨e0, -, s0⟩ | ⟨e0, -, s0⟩ <;> rcases hc1 with ⟨e1, -, s1⟩ | ⟨e1, -, s1⟩
    · rw [s0, s1]
    · exact absurd (e1.symm.trans e0) (hne ds)
    · exact absurd (e0.symm.trans e1) (hne ds)
    · rw [s0, s1]
  · intro b hb n hn hc
    obtain ⟨p, rfl, idx, hidx, hp⟩ := hall b hb
    obtain ⟨v, hv, rfl⟩ := List.mem_map.1 ((hvn n).1 hn)
    have := hp.others v.1 (hs.disjoint v hv)
    exact (lookup_none_iff' _ _).1 this hc
  · intro b hb k hk
    obtain ⟨p, rfl, idx, hidx, hp⟩ := hall b hb
    obtain ⟨x, hx, rfl⟩ := List.mem_map.1 ((hsn k).1 hk)
    obtain ⟨j, hj⟩ := List.getElem?_of_mem hx
    obtain ⟨i, c, h1, h2⟩ := positions_get ds idx hidx j x hj
    exact ⟨_, hp.settings j x i c hj h1 h2, by simp⟩
  · intro q hq
    obtain ⟨v, hv, hv1⟩ := List.mem_map.1 ((hvn q.1).1 (List.mem_map_of_mem hq))
    obtain ⟨a, h1, hc⟩ := hshape p0 idx0 hp0 v hv
    rw [hv1, mem_lookup hkn hq] at h1
    obtain rfl := Option.some.inj h1
    rcases hc with ⟨-, e, s⟩ | ⟨-, e, s⟩
    · exact ⟨by rw [Arr.WF, e, s]; rfl, by rw [e]; simp⟩
    · exact ⟨by rw [Arr.WF, e, s]; rfl, by rw [e]; simp⟩
  · rw [List.nodup_append]
    refine ⟨hkn, hp0.once.sublist (List.filter_sublist.map _), ?_⟩
    rintro a ha b hb rfl
    obtain ⟨v, hv, rfl⟩ := List.mem_map.1 ((hvn a).1 ha)
    exact hs.disjoint v hv (List.mem_cons_of_mem _ ((hsn _).1 hb))
  · intro q hq e he
    obtain ⟨v, hv, hv1⟩ := List.mem_map.1 ((hvn q.1).1 (List.mem_map_of_mem hq))
    obtain ⟨a, h1, hc⟩ := hshape p0 idx0 hp0 v hv
    rw [hv1, mem_lookup hkn hq] at h1
    obtain rfl := Option.some.inj h1
    have hen : e.name = d.name := by
      rcases hc with ⟨-, e', -⟩ | ⟨-, e', -⟩ <;> rw [e'] at he
      · rw [List.mem_singleton.1 he]
      · cases he
    rw [hen, hmem, List.mem_append]
    refine ⟨?_, ?_⟩
    · rintro (hc | hc)
      · obtain ⟨w, hw, hw1⟩ := List.mem_map.1 hc
        exact hs.disjoint w hw (by rw [hw1]; simp)
      · exact hnd.1 hc
    · intro hc
      exact hI (by rw [← hc]; simp)
  · rw [hmem]
    intro hc
    refine hI ?_
    rw [List.mem_append] at hc ⊢
    exact hc.imp_right fun h => List.mem_cons_of_mem _ h
  · intro n hn m i j hm
    rw [hmem]
    exact hE n ((hmem n).1 hn) m i j hm

omit [DecidableEq β] in
theorem forall₂_get {γ δ : Type} {R : γ → δ → Prop} : ∀ {l : List γ} {l' : List δ}, List.Forall₂ R l l' →
    ∀ (m : Nat) y, l'[m]? = some y → ∃ x, l[m]? = some x ∧ R x y
  | _, _, .nil, m, y, h => by simp at h
  | _, _, .cons hr _, 0, y, h => by
    simp only [List.getElem?_cons_zero, Option.some.injEq] at h
    subst h
    exact ⟨_, rfl, hr⟩
  | _, _, .cons _ ht, m + 1, y, h => forall₂_get ht m y (by simpa using h)

/-- The saved variables, with the positions in the inner sweeps numbered. -/
structure Whole (env : Env β α) (ofIdx : Nat → β) (d : Dim β) (ds : List (Dim β)) (vs : List (String × Arr β α))
    (b : Block β α) : Prop where
  names : ∀ n, n ∈ b.vars.map Prod.fst ↔ n ∈ vs.map Prod.fst ++ ds.map Dim.name
  columns : ∀ v ∈ vs, v.2.dims = d :: ds → ∃ a, lookup b.vars v.1 = some a ∧
    a.dims = [⟨.dimSweep, d.name, d.data.map fun c => env.toCoord (env.toVal c), none, none⟩,
      blockNumber ofIdx (positions (ds.map fun x => x.data.length)).length] ∧
    a.nd.shape = [d.data.length, (positions (ds.map fun x => x.data.length)).length] ∧
    ∀ r < d.data.length, ∀ (m : Nat) idx, (positions (ds.map fun x => x.data.length))[m]? = some idx →
      a.nd.get [r, m] = v.2.nd.get (r :: idx)
  attribs : ∀ v ∈ vs, v.2.dims = ds → ∃ a, lookup b.vars v.1 = some a ∧
    a.dims = [blockNumber ofIdx (positions (ds.map fun x => x.data.length)).length] ∧
    a.nd.shape = [(positions (ds.map fun x => x.data.length)).length] ∧
    ∀ (m : Nat) idx, (positions (ds.map fun x => x.data.length))[m]? = some idx → a.nd.get [m] = v.2.nd.get idx
  settings : ∀ (k : Nat) x, ds[k]? = some x → ∃ a, lookup b.vars x.name = some a ∧
    a.dims = [blockNumber ofIdx (positions (ds.map fun x => x.data.length)).length] ∧
    a.nd.shape = [(positions (ds.map fun x => x.data.length)).length] ∧
    ∀ (m : Nat) idx i c, (positions (ds.map fun x => x.data.length))[m]? = some idx → idx[k]? = some i →
      x.data[i]? = some c → a.nd.get [m] = env.toVal (env.toCoord (env.toVal c))

/-- C67: the blocks of a saved file put together hold all that was saved. -/
theorem C67_saved (env : Env β α) (pr : Printer α β) (num : Num α) (en : Enum (List (Dim β))) (ofIdx : Nat → β)
    (time : List Char) (b b1 : Block β α) (hc : convert env b = .ok b1) (d : Dim β) (ds : List (Dim β))
    (hs : Savable env pr num d ds b1.vars) (hI : "INDEX" ∉ b1.vars.map Prod.fst ++ (d :: ds).map Dim.name)
    (hE : ∀ n ∈ b1.vars.map Prod.fst ++ ds.map Dim.name, ∀ m i j, isMatrixName n = some (m, i, j) →
      m ∉ b1.vars.map Prod.fst ++ ds.map Dim.name)
    (h2 : 2 ≤ (positions (ds.map fun x => x.data.length)).length) :
    ∃ lines ps r, save env pr en time b = (lines, none) ∧ read env num false lines = .ok ps ∧
      simpleMerge env ofIdx (ps.map fun p => ⟨p.block, p.comments⟩) = .ok r ∧
      Whole env ofIdx d ds b1.vars r.block ∧ r.comments = [Units.strip ("Created: ".toList ++ time)] := by
  obtain ⟨lines, h1, ps, hr, hf, hcm⟩ := C66_roundtrip env pr num en time b b1 hc d ds hs
  obtain ⟨pos, hpos⟩ : ∃ pos, pos = positions (ds.map fun x => x.data.length) := ⟨_, rfl⟩
  rw [← hpos] at h2 hf
  have hlen := hf.length_eq
  obtain ⟨p0, p1, rest, rfl⟩ : ∃ p0 p1 rest, ps = p0 :: p1 :: rest := by
    rcases ps with _ | ⟨p0, _ | ⟨p1, rest⟩⟩
    · rw [hlen] at h2; simp at h2
    · rw [hlen] at h2; simp at h2
    · exact ⟨_, _, _, rfl⟩
  have hall : ∀ p ∈ p0 :: p1 :: rest, ∃ idx ∈ positions (ds.map fun x => x.data.length), IsSlice env d ds b1.vars idx p := by
    intro p hp
    obtain ⟨m, hm⟩ := List.getElem?_of_mem hp
    obtain ⟨idx, hi, hx⟩ := forall₂_get hf m p hm
    exact ⟨idx, hpos ▸ List.mem_of_getElem? hi, hx⟩
  have hst := slices_stack hs hI hE hall
  obtain ⟨f, hfdef⟩ : ∃ f : Parsed β α → Commented β α, f = fun p => ⟨p.block, p.comments⟩ := ⟨_, rfl⟩
  have hbf : ∀ l : List (Parsed β α), (l.map f).map Commented.block = l.map fun p => p.block := by
    intro l
    rw [List.map_map, hfdef]
    rfl
  obtain ⟨r, m1, m2, m3⟩ := C67_merge env ofIdx (f p0) (f p1) (rest.map f) (by
    rw [← List.map_cons, hbf, hfdef]
    exact hst)
  rw [← List.map_cons (f := f), hbf] at m2
  rw [show (f p0).block = p0.block by rw [hfdef]] at m2
  obtain ⟨bs, hbs⟩ : ∃ bs, bs = (p1 :: rest).map fun p => p.block := ⟨_, rfl⟩
  rw [← hbs] at m2 hst
  have hN : bs.length + 1 = pos.length := by rw [hbs, hlen]; simp
  have hget : ∀ (m : Nat) idx, pos[m]? = some idx → ∃ p, (p0.block :: bs)[m]? = some p.block ∧
      IsSlice env d ds b1.vars idx p := by
    intro m idx hm
    have hlt : m < (p0 :: p1 :: rest).length := hlen ▸ (List.getElem?_eq_some_iff.1 hm).1
    obtain ⟨idx', hi, hx⟩ := forall₂_get hf m _ (List.getElem?_eq_getElem hlt)
    rw [hm] at hi
    obtain rfl := Option.some.inj hi
    refine ⟨_, ?_, hx⟩
    have : p0.block :: bs = (p0 :: p1 :: rest).map fun p => p.block := by rw [hbs]; rfl
    rw [this, List.getElem?_map, List.getElem?_eq_getElem hlt]
    rfl
  obtain ⟨idx0, hidx0, hp0⟩ := hall p0 (by simp)
  refine ⟨lines, _, r, h1, hr, ?_, ⟨?_, ?_, ?_, ?_⟩, ?_⟩
  · rw [← m1, hfdef]
    rfl
  · intro n
    rw [m2.names, List.mem_append, List.mem_append, slice_vars hs hp0, slice_settings hs hidx0 hp0]
  · intro v hv hd
    obtain ⟨x0, k1, k2, k3, -⟩ := hp0.columns v hv hd
    obtain ⟨a, a1, a2, a3, a4⟩ := m2.columns v.1 x0 _ [] k1 k2
    have a3 := a3 _ [] k3
    rw [hN] at a2 a3
    rw [← hpos]
    refine ⟨a, a1, a2, a3, ?_⟩
    intro r hr m idx hm
    obtain ⟨p, q1, q2⟩ := hget m idx hm
    obtain ⟨x, k1, k2, k3, k4⟩ := q2.columns v hv hd
    rw [a4 m p.block x q1 k1 r [] rfl, k4 r hr]
  · intro v hv hd
    obtain ⟨x0, k1, k2, k3, -⟩ := hp0.attribs v hv hd
    obtain ⟨a, a1, a2, a3, a4⟩ := m2.numbers v.1 x0 k1 k2
    rw [hN] at a2 a3
    rw [← hpos]
    refine ⟨a, a1, a2, a3, ?_⟩
    intro m idx hm
    obtain ⟨p, q1, q2⟩ := hget m idx hm
    obtain ⟨x, k1, k2, k3, k4⟩ := q2.attribs v hv hd
    rw [a4 m p.block x q1 k1, k4]
  · intro k x hk
    have hx := List.mem_of_getElem? hk
    obtain ⟨a, a1, a2, a3, a4⟩ := m2.settings x.name ((slice_settings hs hidx0 hp0 _).2 (List.mem_map_of_mem hx))
    rw [hN] at a2 a3
    rw [← hpos]
    refine ⟨a, a1, a2, a3, ?_⟩
    intro m idx i c hm hi hx'
    obtain ⟨p, q1, q2⟩ := hget m idx hm
    exact a4 m p.block _ _ q1 (q2.settings k x i c hk hi hx') rfl
  · rw [m3, ← List.map_cons (f := f), ← List.map_cons (f := f), List.flatMap_map]
    have h0 := hcm 0 p0 rfl
    have ht : ∀ p ∈ p1 :: rest, (f p).comments = [] := by
      intro p hp
      obtain ⟨m, hm⟩ := List.getElem?_of_mem hp
      have := hcm (m + 1) p (by simpa using hm)
      rw [if_neg (by omega)] at this
      rw [hfdef]
      exact this
    rw [List.flatMap_cons, List.flatMap_eq_nil_iff.2 ht, List.append_nil, hfdef]
    simpa using h0

end HF.Mdif
