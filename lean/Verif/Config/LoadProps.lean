import Verif.Config.Load
import Verif.Config.Props
import Mathlib.Data.List.Nodup
/-
C80: settings that were loaded from a file.
-/
namespace HF
namespace Config

variable {K A : Type} [DecidableEq K]

/-! ### Specification -/

/-- The value of a key in a mapping of the file: that of the last line with this key. -/
def last (es : List (K × Yaml K A)) (k : K) : Option (Yaml K A) := es.reverse.lookup k

/-- A node without its anchors. -/
def node : Yaml K A → Yaml K A
  | .anchor _ y => node y
  | y => y

mutual
/-- The document has no aliases. -/
def noAlias : Yaml K A → Bool
  | .atom _ => true
  | .aliased _ => false
  | .anchor _ y => noAlias y
  | .map es => noAliasMap es
  | .seq l => noAliasSeq l

def noAliasMap : List (K × Yaml K A) → Bool
  | [] => true
  | (_, y) :: es => noAlias y && noAliasMap es

def noAliasSeq : List (Yaml K A) → Bool
  | [] => true
  | y :: l => noAlias y && noAliasSeq l
end

/-- One step on the way to a setting: by key or by number. -/
inductive Step (K : Type)
  | key (k : K)
  | idx (n : Nat)

/-- The node at the end of a way through the document, and the mappings it is in, the innermost first. -/
def walk : List (Step K) → List (List (K × Yaml K A)) → Yaml K A → Option (List (List (K × Yaml K A)) × Yaml K A)
  | [], s, y => some (s, node y)
  | .key k :: p, s, y =>
    match node y with
    | .map es => (last es k).bind (walk p (es :: s))
    | _ => none
  | .idx n :: p, s, y =>
    match node y with
    | .seq l => l[n]?.bind (walk p s)
    | _ => none

/-- The same way through the objects that were made. -/
def follow (h : List (Obj K A)) : List (Step K) → Val A → Option (Val A)
  | [], v => some v
  | .key k :: p, .ref i =>
    match h[i]? with
    | some ⟨.dict es, _⟩ => (es.lookup k).bind (follow h p)
    | _ => none
  | .idx n :: p, .ref i =>
    match h[i]? with
    | some ⟨.list l, _⟩ => l[n]?.bind (follow h p)
    | _ => none
  | _ :: _, .atom _ => none

/-- A value is what a node of the document says.  Its containers are at the places from `lo` to `hi`, and each one but
the outermost has as parent the one it is in; the parent of the outermost one is `p`. -/
inductive Loaded (h : List (Obj K A)) (hi : Nat) : Nat → Option Nat → Val A → Yaml K A → Prop
  | atom (lo : Nat) (p : Option Nat) (a : A) : Loaded h hi lo p (.atom a) (.atom a)
  | anchor (lo : Nat) (p : Option Nat) (n : Nat) (v : Val A) (y : Yaml K A) : Loaded h hi lo p v y →
      Loaded h hi lo p v (.anchor n y)
  | map (lo i : Nat) (p : Option Nat) (ents : List (K × Val A)) (es : List (K × Yaml K A)) : lo ≤ i → i < hi →
      h[i]? = some ⟨.dict ents, p⟩ → ents.map Prod.fst = (es.map Prod.fst).eraseDups →
      (∀ k v y, ents.lookup k = some v → last es k = some y → Loaded h hi (i + 1) (some i) v y) →
      Loaded h hi lo p (.ref i) (.map es)
  | seq (lo i : Nat) (p : Option Nat) (vs : List (Val A)) (ys : List (Yaml K A)) : lo ≤ i → i < hi →
      h[i]? = some ⟨.list vs, p⟩ → vs.length = ys.length →
      (∀ (n : Nat) v y, vs[n]? = some v → ys[n]? = some y → Loaded h hi (i + 1) (some i) v y) →
      Loaded h hi lo p (.ref i) (.seq ys)

/-- A value of the configuration is what a node of the document says. -/
def Means (h : List (Obj K A)) (v : Val A) (y : Yaml K A) : Prop := ∃ lo p, Loaded h h.length lo p v y

/-! ### Lemmas -/

omit [DecidableEq K] in
theorem lookup_none_iff {V : Type} [BEq K] [LawfulBEq K] (es : List (K × V)) (k : K) :
    es.lookup k = none ↔ k ∉ es.map Prod.fst := by
  induction es with
  | nil => simp
  | cons p es ih =>
    obtain ⟨k', v⟩ := p
    rw [List.lookup_cons]
    by_cases h : k = k'
    · simp [h]
    · have : (k == k') = false := by simpa using h
      rw [this]
      simp [ih, h]

theorem last_none_iff (es : List (K × Yaml K A)) (k : K) : last es k = none ↔ k ∉ es.map Prod.fst := by
  unfold last
  rw [lookup_none_iff]
  simp

theorem Loaded.mono {h : List (Obj K A)} {hi lo : Nat} {p : Option Nat} {v : Val A} {y : Yaml K A}
    (H : Loaded h hi lo p v y) {hi' : Nat} (hh : hi ≤ hi') : ∀ {lo' : Nat}, lo' ≤ lo → Loaded h hi' lo' p v y := by
  induction H with
  | atom => intro lo' _; exact .atom _ _ _
  | anchor _ _ _ _ _ _ ih => intro lo' hl; exact .anchor _ _ _ _ _ (ih hl)
  | map lo i p ents es h1 h2 h3 h4 _ ih =>
    intro lo' hl
    exact .map _ i p ents es (by omega) (by omega) h3 h4 fun k v y e1 e2 => ih k v y e1 e2 (Nat.le_refl _)
  | seq lo i p vs ys h1 h2 h3 h4 _ ih =>
    intro lo' hl
    exact .seq _ i p vs ys (by omega) (by omega) h3 h4 fun n v y e1 e2 => ih n v y e1 e2 (Nat.le_refl _)

theorem Loaded.frame {h h' : List (Obj K A)} {hi lo : Nat} {p : Option Nat} {v : Val A} {y : Yaml K A}
    (H : Loaded h hi lo p v y) : (∀ j, lo ≤ j → j < hi → h'[j]? = h[j]?) → Loaded h' hi lo p v y := by
  induction H with
  | atom => intro _; exact .atom _ _ _
  | anchor _ _ _ _ _ _ ih => intro hf; exact .anchor _ _ _ _ _ (ih hf)
  | map lo i p ents es h1 h2 h3 h4 _ ih =>
    intro hf
    exact .map _ i p ents es h1 h2 (by rw [hf i h1 h2, h3]) h4
      fun k v y e1 e2 => ih k v y e1 e2 fun j a b => hf j (by omega) b
  | seq lo i p vs ys h1 h2 h3 h4 _ ih =>
    intro hf
    exact .seq _ i p vs ys h1 h2 (by rw [hf i h1 h2, h3]) h4
      fun n v y e1 e2 => ih n v y e1 e2 fun j a b => hf j (by omega) b

theorem modify_get {O : Type} (h : List O) (i j : Nat) (f : O → O) :
    (h.modify i f)[j]? = if i = j then h[j]?.map f else h[j]? := by
  rw [List.getElem?_modify]
  split <;> simp

theorem setParent_other (h : List (Obj K A)) (v : Val A) (i j : Nat) (hv : ∀ k, v = .ref k → k ≠ j) :
    (setParent h v i)[j]? = h[j]? := by
  cases v with
  | atom => rfl
  | ref k =>
    unfold setParent
    rw [modify_get, if_neg (hv k rfl)]

theorem setParent_length (h : List (Obj K A)) (v : Val A) (i : Nat) : (setParent h v i).length = h.length := by
  cases v <;> simp [setParent]

theorem setEntry_other (h : List (Obj K A)) (i j : Nat) (k : K) (v : Val A) (hij : i ≠ j) :
    (setEntry h i k v)[j]? = h[j]? := by
  unfold setEntry
  rw [modify_get, if_neg hij]

theorem setEntry_length (h : List (Obj K A)) (i : Nat) (k : K) (v : Val A) : (setEntry h i k v).length = h.length := by
  simp [setEntry]

theorem append_other (h : List (Obj K A)) (i j : Nat) (v : Val A) (hij : i ≠ j) :
    (append h i v)[j]? = h[j]? := by
  unfold append
  rw [modify_get, if_neg hij]

theorem append_length (h : List (Obj K A)) (i : Nat) (v : Val A) : (append h i v).length = h.length := by
  simp [append]

theorem Loaded.reparent {h : List (Obj K A)} {hi lo : Nat} {p : Option Nat} {v : Val A} {y : Yaml K A}
    (H : Loaded h hi lo p v y) (q : Nat) : Loaded (setParent h v q) hi lo (some q) v y := by
  induction H with
  | atom => exact .atom _ _ _
  | anchor _ _ _ _ _ _ ih => exact .anchor _ _ _ _ _ ih
  | map lo i p ents es h1 h2 h3 h4 h5 _ =>
    refine .map _ i _ ents es h1 h2 ?_ h4 fun k v y e1 e2 => (h5 k v y e1 e2).frame fun j a b => ?_
    · unfold setParent; rw [modify_get, if_pos rfl, h3]; rfl
    · exact setParent_other _ _ _ _ (by rintro k hk; cases hk; omega)
  | seq lo i p vs ys h1 h2 h3 h4 h5 _ =>
    refine .seq _ i _ vs ys h1 h2 ?_ h4 fun n v y e1 e2 => (h5 n v y e1 e2).frame fun j a b => ?_
    · unfold setParent; rw [modify_get, if_pos rfl, h3]; rfl
    · exact setParent_other _ _ _ _ (by rintro k hk; cases hk; omega)

theorem Loaded.place {h : List (Obj K A)} {hi lo : Nat} {p : Option Nat} {v : Val A} {y : Yaml K A}
    (H : Loaded h hi lo p v y) : ∀ i, v = .ref i → lo ≤ i ∧ i < hi := by
  induction H with
  | atom => intro i h; cases h
  | anchor _ _ _ _ _ _ ih => exact ih
  | map lo i p ents es h1 h2 => intro j h; cases h; exact ⟨h1, h2⟩
  | seq lo i p vs ys h1 h2 => intro j h; cases h; exact ⟨h1, h2⟩

theorem lookup_setKey (es : List (K × Val A)) (k k' : K) (v : Val A) :
    (setKey es k v).lookup k' = if k' = k then some v else es.lookup k' := by
  unfold setKey
  by_cases hs : (es.lookup k).isSome
  · rw [if_pos hs]
    induction es with
    | nil => simp at hs
    | cons p es ih =>
      obtain ⟨k0, v0⟩ := p
      simp only [List.map_cons]
      by_cases h0 : k0 = k
      · subst h0
        rw [if_pos rfl, List.lookup_cons, List.lookup_cons]
        by_cases h1 : k' = k0
        · simp [h1]
        · have h1' : (k' == k0) = false := by simpa using h1
          rw [h1', if_neg h1]
          clear ih hs
          induction es with
          | nil => rfl
          | cons p es ih =>
            obtain ⟨k2, v2⟩ := p
            simp only [List.map_cons]
            by_cases h2 : k2 = k0
            · subst h2
              rw [if_pos rfl, List.lookup_cons, List.lookup_cons, h1']
              exact ih
            · rw [if_neg h2, List.lookup_cons, List.lookup_cons]
              simp only [ih]
      · have hs' : (es.lookup k).isSome := by
          rw [List.lookup_cons] at hs
          have : (k == k0) = false := by simpa using fun h => h0 h.symm
          rwa [this] at hs
        rw [if_neg h0, List.lookup_cons, List.lookup_cons, ih hs']
        by_cases h1 : k' = k0
        · subst h1; simp [h0]
        · have h1' : (k' == k0) = false := by simpa using h1
          simp only [h1']
  · rw [if_neg hs]
    have hn : es.lookup k = none := by
      cases h : es.lookup k with
      | none => rfl
      | some v => rw [h] at hs; exact absurd rfl hs
    rw [List.lookup_append]
    by_cases h1 : k' = k
    · subst h1; simp [hn]
    · have h1' : (k' == k) = false := by simpa using h1
      simp [List.lookup_cons, h1', h1]

theorem keys_setKey (es : List (K × Val A)) (k : K) (v : Val A) :
    (setKey es k v).map Prod.fst = if k ∈ es.map Prod.fst then es.map Prod.fst else es.map Prod.fst ++ [k] := by
  unfold setKey
  by_cases hs : (es.lookup k).isSome
  · have hk : k ∈ es.map Prod.fst := by
      by_contra h
      rw [← lookup_none_iff] at h
      rw [h] at hs; cases hs
    rw [if_pos hs, if_pos hk, List.map_map]
    apply List.map_congr_left
    intro p _
    simp only [Function.comp]
    split
    · rename_i h; exact h.symm
    · rfl
  · have hk : k ∉ es.map Prod.fst := by
      rw [← lookup_none_iff]
      cases h : es.lookup k with
      | none => rfl
      | some v => rw [h] at hs; exact absurd rfl hs
    rw [if_neg hs, if_neg hk, List.map_append]
    rfl

theorem eraseDups_snoc (l : List K) (k : K) :
    (l ++ [k]).eraseDups = if k ∈ l then l.eraseDups else l.eraseDups ++ [k] := by
  rw [List.eraseDups_append]
  split
  · rename_i h
    simp [List.removeAll, h]
  · rename_i h
    simp [List.removeAll, h, List.eraseDups_cons]

theorem last_snoc (es : List (K × Yaml K A)) (k k' : K) (y : Yaml K A) :
    last (es ++ [(k, y)]) k' = if k' = k then some y else last es k' := by
  unfold last
  rw [List.reverse_append, List.reverse_cons, List.reverse_nil, List.nil_append, List.singleton_append,
    List.lookup_cons]
  by_cases h : k' = k
  · simp [h]
  · have h' : (k' == k) = false := by simpa using h
    simp [h', h]

/-- The entries made so far from the lines of a mapping. -/
structure Filled (h : List (Obj K A)) (i : Nat) (ents : List (K × Val A)) (pre : List (K × Yaml K A)) : Prop where
  obj : h[i]? = some ⟨.dict ents, none⟩
  keys : ents.map Prod.fst = (pre.map Prod.fst).eraseDups
  vals : ∀ k v y, ents.lookup k = some v → last pre k = some y → Loaded h h.length (i + 1) (some i) v y

structure FilledSeq (h : List (Obj K A)) (i : Nat) (vs : List (Val A)) (pre : List (Yaml K A)) : Prop where
  obj : h[i]? = some ⟨.list vs, none⟩
  len : vs.length = pre.length
  vals : ∀ (n : Nat) v y, vs[n]? = some v → pre[n]? = some y → Loaded h h.length (i + 1) (some i) v y

theorem lt_of_get {O : Type} {h : List O} {i : Nat} {o : O} (e : h[i]? = some o) : i < h.length :=
  (List.getElem?_eq_some_iff.1 e).1

theorem Filled.step {h h' : List (Obj K A)} {i : Nat} {ents : List (K × Val A)} {pre : List (K × Yaml K A)}
    (F : Filled h i ents pre) (k : K) (v : Val A) (y : Yaml K A) (hl : h.length ≤ h'.length)
    (hf : ∀ j, j < h.length → h'[j]? = h[j]?) (H : Loaded h' h'.length h.length none v y) :
    Filled (setEntry (setParent h' v i) i k v) i (setKey ents k v) (pre ++ [(k, y)]) := by
  have hi := lt_of_get F.obj
  have hv : ∀ j, j < h.length → ∀ r, v = .ref r → r ≠ j := by
    intro j hj r hr
    have := (H.place r hr).1
    omega
  have hobj : (setParent h' v i)[i]? = some ⟨.dict ents, none⟩ := by
    rw [setParent_other _ _ _ _ (hv i hi), hf i hi, F.obj]
  have hlen : (setEntry (setParent h' v i) i k v).length = h'.length := by rw [setEntry_length, setParent_length]
  refine ⟨?_, ?_, ?_⟩
  · unfold setEntry
    rw [modify_get, if_pos rfl, hobj]
    rfl
  · rw [keys_setKey, List.map_append, List.map_cons, List.map_nil, eraseDups_snoc, F.keys]
    simp only [List.mem_eraseDups]
  · intro k' v' y' e1 e2
    rw [lookup_setKey] at e1
    rw [last_snoc] at e2
    rw [hlen]
    by_cases hk : k' = k
    · rw [if_pos hk] at e1 e2
      cases e1; cases e2
      refine ((H.reparent i).frame (h' := setEntry (setParent h' v i) i k v) ?_).mono (Nat.le_refl _) hi
      intro j hj _
      exact setEntry_other _ _ _ _ _ (by omega)
    · rw [if_neg hk] at e1 e2
      refine ((F.vals k' v' y' e1 e2).frame (h' := setEntry (setParent h' v i) i k v) ?_).mono hl (Nat.le_refl _)
      intro j hj hj'
      rw [setEntry_other _ _ _ _ _ (by omega), setParent_other _ _ _ _ (hv j hj'), hf j hj']

theorem FilledSeq.step {h h' : List (Obj K A)} {i : Nat} {vs : List (Val A)} {pre : List (Yaml K A)}
    (F : FilledSeq h i vs pre) (v : Val A) (y : Yaml K A) (hl : h.length ≤ h'.length)
    (hf : ∀ j, j < h.length → h'[j]? = h[j]?) (H : Loaded h' h'.length h.length none v y) :
    FilledSeq (append (setParent h' v i) i v) i (vs ++ [v]) (pre ++ [y]) := by
  have hi := lt_of_get F.obj
  have hv : ∀ j, j < h.length → ∀ r, v = .ref r → r ≠ j := by
    intro j hj r hr
    have := (H.place r hr).1
    omega
  have hobj : (setParent h' v i)[i]? = some ⟨.list vs, none⟩ := by
    rw [setParent_other _ _ _ _ (hv i hi), hf i hi, F.obj]
  have hlen : (append (setParent h' v i) i v).length = h'.length := by rw [append_length, setParent_length]
  refine ⟨?_, ?_, ?_⟩
  · unfold append
    rw [modify_get, if_pos rfl, hobj]
    rfl
  · simp [F.len]
  · intro n v' y' e1 e2
    rw [hlen]
    by_cases hn : n < vs.length
    · rw [List.getElem?_append_left hn] at e1
      rw [List.getElem?_append_left (by rw [← F.len]; exact hn)] at e2
      refine ((F.vals n v' y' e1 e2).frame (h' := append (setParent h' v i) i v) ?_).mono hl (Nat.le_refl _)
      intro j hj hj'
      rw [append_other _ _ _ _ (by omega), setParent_other _ _ _ _ (hv j hj'), hf j hj']
    · rw [List.getElem?_append_right (by omega)] at e1
      rw [List.getElem?_append_right (by rw [← F.len]; omega), ← F.len] at e2
      have : n - vs.length = 0 := by
        by_contra h0
        rw [List.getElem?_eq_none (by simp; omega)] at e1
        cases e1
      rw [this] at e1 e2
      simp only [List.getElem?_cons_zero, Option.some.injEq] at e1 e2
      subst e1; subst e2
      refine ((H.reparent i).frame (h' := append (setParent h' v i) i v) ?_).mono (Nat.le_refl _) hi
      intro j hj _
      exact append_other _ _ _ _ (by omega)

mutual
theorem construct_ok : ∀ (y : Yaml K A) (m : Mem K A), noAlias y = true → ∃ m' v, construct m y = some (m', v) ∧
    m.heap.length ≤ m'.heap.length ∧ (∀ j, j < m.heap.length → m'.heap[j]? = m.heap[j]?) ∧
    Loaded m'.heap m'.heap.length m.heap.length none v y
  | .atom a, m, _ => ⟨m, .atom a, by rw [construct], Nat.le_refl _, fun _ _ => rfl, .atom _ _ _⟩
  | .aliased n, m, h => by simp [noAlias] at h
  | .anchor n y, m, h => by
    rw [noAlias] at h
    obtain ⟨m', v, h1, h2, h3, h4⟩ := construct_ok y m h
    exact ⟨{ m' with names := (n, v) :: m'.names }, v, by rw [construct, h1], h2, h3, .anchor _ _ _ _ _ h4⟩
  | .map es, m, h => by
    rw [noAlias] at h
    obtain ⟨m', ents, h1, h2, h3, F⟩ := fillMap_ok es { m with heap := m.heap ++ [⟨.dict [], none⟩] } m.heap.length [] []
      h ⟨by simp, rfl, by intro k v y e; cases e⟩
    simp only [List.length_append, List.length_singleton] at h2
    refine ⟨m', .ref m.heap.length, by rw [construct, h1], by omega, ?_, ?_⟩
    · intro j hj
      rw [h3 j (by simp; omega) (by omega), List.getElem?_append_left hj]
    · exact .map _ _ _ ents es (Nat.le_refl _) (by omega) F.obj (by simpa using F.keys) (by simpa using F.vals)
  | .seq l, m, h => by
    rw [noAlias] at h
    obtain ⟨m', vs, h1, h2, h3, F⟩ := fillSeq_ok l { m with heap := m.heap ++ [⟨.list [], none⟩] } m.heap.length [] []
      h ⟨by simp, rfl, by intro n v y e; cases e⟩
    simp only [List.length_append, List.length_singleton] at h2
    refine ⟨m', .ref m.heap.length, by rw [construct, h1], by omega, ?_, ?_⟩
    · intro j hj
      rw [h3 j (by simp; omega) (by omega), List.getElem?_append_left hj]
    · exact .seq _ _ _ vs l (Nat.le_refl _) (by omega) F.obj (by simpa using F.len) (by simpa using F.vals)

theorem fillMap_ok : ∀ (es : List (K × Yaml K A)) (m : Mem K A) (i : Nat) (ents : List (K × Val A))
    (pre : List (K × Yaml K A)), noAliasMap es = true → Filled m.heap i ents pre →
    ∃ m' ents', fillMap m i es = some m' ∧ m.heap.length ≤ m'.heap.length ∧
      (∀ j, j < m.heap.length → j ≠ i → m'.heap[j]? = m.heap[j]?) ∧ Filled m'.heap i ents' (pre ++ es)
  | [], m, i, ents, pre, _, F => ⟨m, ents, by rw [fillMap], Nat.le_refl _, fun _ _ _ => rfl, by simpa using F⟩
  | (k, y) :: es, m, i, ents, pre, h, F => by
    rw [noAliasMap, Bool.and_eq_true] at h
    obtain ⟨m1, v, h1, h2, h3, h4⟩ := construct_ok y m h.1
    have F1 := F.step k v y h2 h3 h4
    obtain ⟨m', ents', h5, h6, h7, F'⟩ := fillMap_ok es
      { m1 with heap := setEntry (setParent m1.heap v i) i k v } i _ _ h.2 F1
    simp only [setEntry_length, setParent_length] at h6 h7
    refine ⟨m', ents', by rw [fillMap, h1]; exact h5, by omega, ?_, by simpa using F'⟩
    intro j hj hji
    rw [h7 j (by omega) hji, setEntry_other _ _ _ _ _ (Ne.symm hji), setParent_other, h3 j hj]
    intro r hr
    have := (h4.place r hr).1
    omega

theorem fillSeq_ok : ∀ (l : List (Yaml K A)) (m : Mem K A) (i : Nat) (vs : List (Val A))
    (pre : List (Yaml K A)), noAliasSeq l = true → FilledSeq m.heap i vs pre →
    ∃ m' vs', fillSeq m i l = some m' ∧ m.heap.length ≤ m'.heap.length ∧
      (∀ j, j < m.heap.length → j ≠ i → m'.heap[j]? = m.heap[j]?) ∧ FilledSeq m'.heap i vs' (pre ++ l)
  | [], m, i, vs, pre, _, F => ⟨m, vs, by rw [fillSeq], Nat.le_refl _, fun _ _ _ => rfl, by simpa using F⟩
  | y :: l, m, i, vs, pre, h, F => by
    rw [noAliasSeq, Bool.and_eq_true] at h
    obtain ⟨m1, v, h1, h2, h3, h4⟩ := construct_ok y m h.1
    have F1 := F.step v y h2 h3 h4
    obtain ⟨m', vs', h5, h6, h7, F'⟩ := fillSeq_ok l
      { m1 with heap := append (setParent m1.heap v i) i v } i _ _ h.2 F1
    simp only [append_length, setParent_length] at h6 h7
    refine ⟨m', vs', by rw [fillSeq, h1]; exact h5, by omega, ?_, by simpa using F'⟩
    intro j hj hji
    rw [h7 j (by omega) hji, append_other _ _ _ _ (Ne.symm hji), setParent_other, h3 j hj]
    intro r hr
    have := (h4.place r hr).1
    omega
end

/-! ### Looking up -/

/-- The entries of a dictionary are those of a mapping of the document. -/
def Entries (h : List (Obj K A)) (ents : List (K × Val A)) (es : List (K × Yaml K A)) : Prop :=
  ∀ k, (ents.lookup k = none ∧ last es k = none) ∨
    ∃ v y, ents.lookup k = some v ∧ last es k = some y ∧ Means h v y

theorem entries_of {h : List (Obj K A)} {i : Nat} {ents : List (K × Val A)} {es : List (K × Yaml K A)}
    (hk : ents.map Prod.fst = (es.map Prod.fst).eraseDups)
    (hv : ∀ k v y, ents.lookup k = some v → last es k = some y → Loaded h h.length (i + 1) (some i) v y) :
    Entries h ents es := by
  intro k
  have h1 := lookup_none_iff ents k
  have h2 := last_none_iff es k
  rw [hk, List.mem_eraseDups] at h1
  cases e1 : ents.lookup k with
  | none => exact Or.inl ⟨rfl, h2.2 (h1.1 e1)⟩
  | some v =>
    cases e2 : last es k with
    | none => rw [h1.2 (h2.1 e2)] at e1; cases e1
    | some y => exact Or.inr ⟨v, y, rfl, rfl, _, _, hv k v y e1 e2⟩

omit [DecidableEq K] in
theorem node_ne_anchor : ∀ (y : Yaml K A) (n : Nat) (z : Yaml K A), node y ≠ .anchor n z
  | .atom _, _, _ => nofun
  | .map _, _, _ => nofun
  | .seq _, _, _ => nofun
  | .aliased _, _, _ => nofun
  | .anchor _ y, n, z => by rw [node]; exact node_ne_anchor y n z

theorem Loaded.node {h : List (Obj K A)} {hi lo : Nat} {p : Option Nat} {v : Val A} {y : Yaml K A}
    (H : Loaded h hi lo p v y) : Loaded h hi lo p v (Config.node y) := by
  induction H with
  | atom => exact .atom _ _ _
  | anchor _ _ _ _ _ _ ih => exact ih
  | map lo i p ents es h1 h2 h3 h4 h5 _ => exact .map lo i p ents es h1 h2 h3 h4 h5
  | seq lo i p vs ys h1 h2 h3 h4 h5 _ => exact .seq lo i p vs ys h1 h2 h3 h4 h5

/-- The dictionaries found from a container on are the mappings of the document around it. -/
def Chain (h : List (Obj K A)) (i : Nat) (s : List (List (K × Yaml K A))) : Prop :=
  ∀ n, i < n → List.Forall₂ (Entries h) (dictsOf (scopeN h n i)) s

def ChainP (h : List (Obj K A)) (lo : Nat) : Option Nat → List (List (K × Yaml K A)) → Prop
  | none, s => s = []
  | some q, s => q < lo ∧ Chain h q s

theorem chain_map {h : List (Obj K A)} {lo i : Nat} {p : Option Nat} {ents : List (K × Val A)}
    {es : List (K × Yaml K A)} {s : List (List (K × Yaml K A))} (hl : lo ≤ i)
    (ho : h[i]? = some ⟨.dict ents, p⟩) (he : Entries h ents es) (hc : ChainP h lo p s) : Chain h i (es :: s) := by
  intro n hn
  cases n with
  | zero => omega
  | succ n =>
    rw [scopeN, ho]
    cases p with
    | none => cases hc; exact .cons he .nil
    | some q => exact .cons he (hc.2 n (by have := hc.1; omega))

theorem chain_seq {h : List (Obj K A)} {lo i : Nat} {p : Option Nat} {vs : List (Val A)}
    {s : List (List (K × Yaml K A))} (hl : lo ≤ i)
    (ho : h[i]? = some ⟨.list vs, p⟩) (hc : ChainP h lo p s) : Chain h i s := by
  intro n hn
  cases n with
  | zero => omega
  | succ n =>
    rw [scopeN, ho]
    cases p with
    | none => cases hc; exact .nil
    | some q => exact hc.2 n (by have := hc.1; omega)

theorem walk_ok (h : List (Obj K A)) : ∀ (p : List (Step K)) (v : Val A) (y : Yaml K A) (lo : Nat) (par : Option Nat)
    (s s' : List (List (K × Yaml K A))) (es : List (K × Yaml K A)), Loaded h h.length lo par v y → ChainP h lo par s →
    walk p s y = some (s', .map es) →
    ∃ i ents q, follow h p v = some (.ref i) ∧ h[i]? = some ⟨.dict ents, q⟩ ∧ Chain h i (es :: s')
  | [], v, y, lo, par, s, s', es, H, hc, hw => by
    simp only [walk, Option.some.injEq, Prod.mk.injEq] at hw
    obtain ⟨rfl, hy⟩ := hw
    have H' := H.node
    rw [hy] at H'
    cases H' with
    | map _ i p ents es h1 h2 h3 h4 h5 => exact ⟨i, ents, par, rfl, h3, chain_map h1 h3 (entries_of h4 h5) hc⟩
  | .key k :: p, v, y, lo, par, s, s', es, H, hc, hw => by
    have H' := H.node
    rw [walk] at hw
    generalize Config.node y = z at H' hw
    cases H' with
    | atom => cases hw
    | anchor => cases hw
    | seq => cases hw
    | map _ i _ ents es1 h1 h2 h3 h4 h5 =>
      have hent := entries_of h4 h5
      simp only at hw
      rcases hent k with ⟨_, e2⟩ | ⟨v1, y1, e1, e2, _⟩
      · rw [e2] at hw; cases hw
      · rw [e2] at hw
        obtain ⟨j, ents', q, g1, g2⟩ := walk_ok h p v1 y1 (i + 1) (some i) (es1 :: s) s' es (h5 k v1 y1 e1 e2)
          ⟨by omega, chain_map h1 h3 hent hc⟩ hw
        exact ⟨j, ents', q, by rw [follow, h3]; simp only [e1]; exact g1, g2⟩
  | .idx n :: p, v, y, lo, par, s, s', es, H, hc, hw => by
    have H' := H.node
    rw [walk] at hw
    generalize Config.node y = z at H' hw
    cases H' with
    | atom => cases hw
    | anchor => cases hw
    | map => cases hw
    | seq _ i _ vs ys h1 h2 h3 h4 h5 =>
      simp only at hw
      cases e2 : ys[n]? with
      | none => rw [e2] at hw; cases hw
      | some y1 =>
        rw [e2] at hw
        have hn : n < vs.length := by rw [h4]; exact lt_of_get e2
        have e1 : vs[n]? = some vs[n] := List.getElem?_eq_getElem hn
        obtain ⟨j, ents', q, g1, g2⟩ := walk_ok h p vs[n] y1 (i + 1) (some i) s s' es (h5 n _ y1 e1 e2)
          ⟨by omega, chain_seq h1 h3 hc⟩ hw
        exact ⟨j, ents', q, by rw [follow, h3]; simp only [e1]; exact g1, g2⟩

theorem chain_lookup {h : List (Obj K A)} {i : Nat} {ents : List (K × Val A)} {q : Option Nat}
    {s : List (List (K × Yaml K A))} (ho : h[i]? = some ⟨.dict ents, q⟩) (hc : Chain h i s) (k : K) :
    match s.findSome? (last · k) with
    | none => lookupAt h i k = none
    | some y => ∃ v, lookupAt h i k = some v ∧ Means h v y := by
  have hi := lt_of_get ho
  have hf := hc h.length hi
  have hg : lookupAt h i k = (dictsOf (scopeN h h.length i)).findSome? fun e => e.lookup k := by
    unfold lookupAt scope
    obtain ⟨n, hn⟩ : ∃ n, h.length = n + 1 := ⟨h.length - 1, by omega⟩
    rw [hn, scopeN, ho]
    exact C25_lookup _ _ _
  rw [hg]
  generalize dictsOf (scopeN h h.length i) = d at hf
  clear hg hc
  induction hf with
  | nil => rfl
  | cons a _ ih =>
    rw [List.findSome?_cons, List.findSome?_cons]
    rcases a k with ⟨e1, e2⟩ | ⟨v, y, e1, e2, hm⟩
    · simp only [e1, e2]; exact ih
    · simp only [e1, e2]; exact ⟨v, rfl, hm⟩

/-- The entries of the mapping which was loaded are taken over one by one. -/
theorem update_get (l : List (K × Val A)) (h : List (Obj K A)) (e0 : List (K × Val A)) (p : Option Nat)
    (h0 : h[0]? = some ⟨.dict e0, p⟩) :
    (l.foldl (fun h q => setEntry h 0 q.1 q.2) h)[0]? = some ⟨.dict (l.foldl (fun e q => setKey e q.1 q.2) e0), p⟩ ∧
    (l.foldl (fun h q => setEntry h 0 q.1 q.2) h).length = h.length ∧
    ∀ j, 0 < j → (l.foldl (fun h q => setEntry h 0 q.1 q.2) h)[j]? = h[j]? := by
  induction l generalizing h e0 with
  | nil => exact ⟨h0, rfl, fun _ _ => rfl⟩
  | cons q l ih =>
    have h1 : (setEntry h 0 q.1 q.2)[0]? = some ⟨.dict (setKey e0 q.1 q.2), p⟩ := by
      unfold setEntry; rw [modify_get, if_pos rfl, h0]; rfl
    obtain ⟨g1, g2, g3⟩ := ih _ _ h1
    refine ⟨g1, by rw [List.foldl_cons, g2, setEntry_length], ?_⟩
    intro j hj
    rw [List.foldl_cons, g3 j hj, setEntry_other _ _ _ _ _ (by omega)]

theorem foldl_setKey (l e0 : List (K × Val A)) (hn : ((e0 ++ l).map Prod.fst).Nodup) :
    l.foldl (fun e q => setKey e q.1 q.2) e0 = e0 ++ l := by
  induction l generalizing e0 with
  | nil => simp
  | cons q l ih =>
    obtain ⟨k1, v1⟩ := q
    have hk : e0.lookup k1 = none := by
      rw [lookup_none_iff]
      intro hm
      rw [List.map_append, List.nodup_append] at hn
      exact hn.2.2 _ hm k1 (by simp) rfl
    have hs : setKey e0 k1 v1 = e0 ++ [(k1, v1)] := by
      unfold setKey; rw [hk]; rfl
    rw [List.foldl_cons, hs, ih _ (by simpa using hn)]
    simp

theorem nodup_eraseDups : ∀ (n : Nat) (l : List K), l.length ≤ n → l.eraseDups.Nodup
  | _, [], _ => by simp
  | 0, _ :: _, h => by simp at h
  | n + 1, a :: l, h => by
    rw [List.eraseDups_cons, List.nodup_cons]
    refine ⟨by simp, nodup_eraseDups n _ ?_⟩
    have := List.length_filter_le (fun b => !b == a) l
    simp only [List.length_cons] at h
    omega

theorem follow_ok (h : List (Obj K A)) : ∀ (p : List (Step K)) (v : Val A) (y : Yaml K A) (lo : Nat) (par : Option Nat)
    (s s' : List (List (K × Yaml K A))) (z : Yaml K A), Loaded h h.length lo par v y →
    walk p s y = some (s', z) → ∃ v', follow h p v = some v' ∧ Means h v' z
  | [], v, y, lo, par, s, s', z, H, hw => by
    simp only [walk, Option.some.injEq, Prod.mk.injEq] at hw
    obtain ⟨rfl, rfl⟩ := hw
    exact ⟨v, rfl, lo, par, H.node⟩
  | .key k :: p, v, y, lo, par, s, s', z, H, hw => by
    have H' := H.node
    rw [walk] at hw
    generalize Config.node y = z at H' hw
    cases H' with
    | atom => cases hw
    | anchor => cases hw
    | seq => cases hw
    | map _ i _ ents es1 h1 h2 h3 h4 h5 =>
      simp only at hw
      rcases entries_of h4 h5 k with ⟨_, e2⟩ | ⟨v1, y1, e1, e2, _⟩
      · rw [e2] at hw; cases hw
      · rw [e2] at hw
        obtain ⟨v', g1, g2⟩ := follow_ok h p v1 y1 _ _ _ s' _ (h5 k v1 y1 e1 e2) hw
        exact ⟨v', by rw [follow, h3]; simp only [e1]; exact g1, g2⟩
  | .idx n :: p, v, y, lo, par, s, s', z, H, hw => by
    have H' := H.node
    rw [walk] at hw
    generalize Config.node y = z at H' hw
    cases H' with
    | atom => cases hw
    | anchor => cases hw
    | map => cases hw
    | seq _ i _ vs ys h1 h2 h3 h4 h5 =>
      simp only at hw
      cases e2 : ys[n]? with
      | none => rw [e2] at hw; cases hw
      | some y1 =>
        rw [e2] at hw
        have hn : n < vs.length := by rw [h4]; exact lt_of_get e2
        have e1 : vs[n]? = some vs[n] := List.getElem?_eq_getElem hn
        obtain ⟨v', g1, g2⟩ := follow_ok h p vs[n] y1 _ _ _ s' _ (h5 n _ y1 e1 e2) hw
        exact ⟨v', by rw [follow, h3]; simp only [e1]; exact g1, g2⟩

/-- What loading a document without aliases gives. -/
theorem load_ok (y : Yaml K A) (es : List (K × Yaml K A)) (hy : node y = .map es) (hn : noAlias y = true) :
    ∃ (h : List (Obj K A)) (r : Nat) (e0 ents : List (K × Val A)), load y = .ok h ∧
      h[0]? = some ⟨.dict e0, none⟩ ∧ 1 ≤ r ∧ h[r]? = some ⟨.dict ents, none⟩ ∧
      e0 = ents ∧ ents.map Prod.fst = (es.map Prod.fst).eraseDups ∧
      ∀ k v y, ents.lookup k = some v → last es k = some y → Loaded h h.length (r + 1) (some r) v y := by
  obtain ⟨m, v, h1, h2, h3, H⟩ := construct_ok y (⟨[⟨.dict [], none⟩], []⟩ : Mem K A) hn
  have H' := H.node
  rw [hy] at H'
  cases H' with
  | map _ r _ ents es a1 a2 a3 a4 a5 =>
    have h00 : m.heap[0]? = some ⟨.dict [], none⟩ := by rw [h3 0 (by simp)]; rfl
    obtain ⟨g1, g2, g3⟩ := update_get ents m.heap [] none h00
    simp only [List.length_singleton] at a1
    refine ⟨_, r, _, ents, by unfold load; rw [h1]; simp only [a3], g1, a1, by rw [g3 r (by omega), a3], ?_, a4, ?_⟩
    · rw [foldl_setKey _ _ (by rw [List.nil_append, a4]; exact nodup_eraseDups _ _ (Nat.le_refl _)), List.nil_append]
    · intro k v y e1 e2
      rw [g2]
      exact (a5 k v y e1 e2).frame fun j b1 _ => g3 j (by omega)

/-! ### C80 -/

/-- C80.  Loading a file with a mapping and without aliases succeeds.  Looking up a key in any dictionary of the
configuration gives what the innermost mapping of the file around this place says that has this key (in its last line,
if there are several); lists on the way make no difference.  There is no value exactly if no mapping around has the
key. -/
theorem C80_lookup (y : Yaml K A) (es : List (K × Yaml K A)) (hy : node y = .map es) (hn : noAlias y = true) :
    ∃ h, load y = .ok h ∧ ∀ (p : List (Step K)) s es', walk p [] y = some (s, .map es') →
      ∃ i, follow h p (.ref 0) = some (.ref i) ∧ ∀ k,
        match (es' :: s).findSome? (last · k) with
        | none => lookupAt h i k = none
        | some z => ∃ v, lookupAt h i k = some v ∧ Means h v z := by
  obtain ⟨h, r, e0, ents, h1, h2, h3, h4, h5', h6, h7⟩ := load_ok y es hy hn
  have h5 : ∀ k, e0.lookup k = ents.lookup k := fun k => by rw [h5']
  refine ⟨h, h1, ?_⟩
  intro p s es' hw
  have hent := entries_of h6 h7
  have hent0 : Entries h e0 es := by
    intro k
    rw [h5 k]
    exact hent k
  have hr : Chain h r [es] := chain_map (Nat.zero_le r) h4 hent rfl
  have h0 : Chain h 0 [es] := chain_map (Nat.zero_le 0) h2 hent0 rfl
  cases p with
  | nil =>
    simp only [walk, hy, Option.some.injEq, Prod.mk.injEq, Yaml.map.injEq] at hw
    obtain ⟨rfl, rfl⟩ := hw
    exact ⟨0, rfl, chain_lookup h2 h0⟩
  | cons st p =>
    cases st with
    | idx n => rw [walk, hy] at hw; cases hw
    | key k =>
      rw [walk, hy] at hw
      simp only at hw
      rcases hent k with ⟨_, e2⟩ | ⟨v1, y1, e1, e2, _⟩
      · rw [e2] at hw; cases hw
      · rw [e2] at hw
        obtain ⟨i, ents', q, g1, g2, g3⟩ := walk_ok h p v1 y1 (r + 1) (some r) [es] s es' (h7 k v1 y1 e1 e2)
          ⟨by omega, hr⟩ hw
        exact ⟨i, by rw [follow, h2]; simp only [h5, e1]; exact g1, chain_lookup g2 g3⟩

/-- C80.  Every node of the file below the top is found in the configuration on the way it has in the file; scalars in
particular. -/
theorem C80_values (y : Yaml K A) (es : List (K × Yaml K A)) (hy : node y = .map es) (hn : noAlias y = true) :
    ∃ h, load y = .ok h ∧ ∀ (st : Step K) (p : List (Step K)) s z, walk (st :: p) [] y = some (s, z) →
      ∃ v, follow h (st :: p) (.ref 0) = some v ∧ Means h v z ∧ ∀ a, z = .atom a → v = .atom a := by
  obtain ⟨h, r, e0, ents, h1, h2, h3, h4, h5', h6, h7⟩ := load_ok y es hy hn
  have h5 : ∀ k, e0.lookup k = ents.lookup k := fun k => by rw [h5']
  refine ⟨h, h1, ?_⟩
  intro st p s z hw
  have hent := entries_of h6 h7
  cases st with
  | idx n => rw [walk, hy] at hw; cases hw
  | key k =>
    rw [walk, hy] at hw
    simp only at hw
    rcases hent k with ⟨_, e2⟩ | ⟨v1, y1, e1, e2, _⟩
    · rw [e2] at hw; cases hw
    · rw [e2] at hw
      obtain ⟨v, g1, g2⟩ := follow_ok h p v1 y1 (r + 1) (some r) _ s z (h7 k v1 y1 e1 e2) hw
      refine ⟨v, by rw [follow, h2]; simp only [h5, e1]; exact g1, g2, ?_⟩
      rintro a rfl
      obtain ⟨_, _, g2⟩ := g2
      cases g2
      rfl

/-- No container has the configuration itself as parent, which is a dictionary. -/
structure NoZero (h : List (Obj K A)) : Prop where
  par : ∀ (i : Nat) (o : Obj K A), h[i]? = some o → o.parent ≠ some 0
  top : ∃ es p, h[0]? = some ⟨.dict es, p⟩

theorem NoZero.modify {h : List (Obj K A)} (H : NoZero h) (i : Nat) (f : Obj K A → Obj K A)
    (hf : ∀ o, o.parent ≠ some 0 → (f o).parent ≠ some 0)
    (hd : ∀ es p, ∃ es' p', f ⟨.dict es, p⟩ = ⟨.dict es', p'⟩) : NoZero (h.modify i f) := by
  constructor
  · intro j o e
    rw [modify_get] at e
    split at e
    · cases e' : h[j]? with
      | none => rw [e'] at e; cases e
      | some o' => rw [e'] at e; cases e; exact hf o' (H.par j o' e')
    · exact H.par j o e
  · obtain ⟨es, p, e⟩ := H.top
    rw [modify_get]
    split
    · obtain ⟨es', p', h'⟩ := hd es p
      exact ⟨es', p', by rw [e, Option.map_some, h']⟩
    · exact ⟨es, p, e⟩

theorem NoZero.setParent {h : List (Obj K A)} (H : NoZero h) (v : Val A) {i : Nat} (hi : 0 < i) :
    NoZero (setParent h v i) := by
  cases v with
  | atom => exact H
  | ref j => exact H.modify _ _ (fun o _ => by simp; omega) fun es p => ⟨es, some i, rfl⟩

theorem NoZero.setEntry {h : List (Obj K A)} (H : NoZero h) (i : Nat) (k : K) (v : Val A) :
    NoZero (setEntry h i k v) :=
  H.modify _ _ (fun o ho => by split <;> exact ho) fun es p => ⟨setKey es k v, p, rfl⟩

theorem NoZero.append {h : List (Obj K A)} (H : NoZero h) (i : Nat) (v : Val A) : NoZero (append h i v) :=
  H.modify _ _ (fun o ho => by split <;> exact ho) fun es p => ⟨es, p, rfl⟩

theorem NoZero.snoc {h : List (Obj K A)} (H : NoZero h) (b : Node K (Val A)) : NoZero (h ++ [⟨b, none⟩]) := by
  constructor
  · intro i o e
    by_cases hi : i < h.length
    · rw [List.getElem?_append_left hi] at e; exact H.par i o e
    · rw [List.getElem?_append_right (by omega)] at e
      cases hj : i - h.length with
      | zero => rw [hj] at e; simp at e; subst e; simp
      | succ n => rw [hj] at e; simp at e
  · obtain ⟨es, p, e⟩ := H.top
    exact ⟨es, p, by rw [List.getElem?_append_left (lt_of_get e), e]⟩

mutual
theorem construct_noZero : ∀ (y : Yaml K A) (m m' : Mem K A) (v : Val A), construct m y = some (m', v) →
    0 < m.heap.length → NoZero m.heap → NoZero m'.heap ∧ m.heap.length ≤ m'.heap.length
  | .atom a, m, m', v, h, _, H => by
    rw [construct] at h; cases h; exact ⟨H, Nat.le_refl _⟩
  | .aliased n, m, m', v, h, _, H => by
    rw [construct] at h
    cases e : m.names.lookup n with
    | none => rw [e] at h; cases h
    | some w => rw [e] at h; cases h; exact ⟨H, Nat.le_refl _⟩
  | .anchor n y, m, m', v, h, hl, H => by
    rw [construct] at h
    cases e : construct m y with
    | none => rw [e] at h; cases h
    | some w =>
      obtain ⟨m1, v1⟩ := w
      rw [e] at h; cases h
      exact construct_noZero y m m1 v e hl H
  | .map es, m, m', v, h, hl, H => by
    rw [construct] at h
    cases e : fillMap { m with heap := m.heap ++ [⟨.dict [], none⟩] } m.heap.length es with
    | none => rw [e] at h; cases h
    | some m1 =>
      rw [e] at h; cases h
      have := fillMap_noZero es _ _ m' e hl (by simp) (H.snoc _)
      simp only [List.length_append, List.length_singleton] at this
      exact ⟨this.1, by omega⟩
  | .seq l, m, m', v, h, hl, H => by
    rw [construct] at h
    cases e : fillSeq { m with heap := m.heap ++ [⟨.list [], none⟩] } m.heap.length l with
    | none => rw [e] at h; cases h
    | some m1 =>
      rw [e] at h; cases h
      have := fillSeq_noZero l _ _ m' e hl (by simp) (H.snoc _)
      simp only [List.length_append, List.length_singleton] at this
      exact ⟨this.1, by omega⟩

theorem fillMap_noZero : ∀ (es : List (K × Yaml K A)) (m : Mem K A) (i : Nat) (m' : Mem K A),
    fillMap m i es = some m' → 0 < i → 0 < m.heap.length → NoZero m.heap → NoZero m'.heap ∧ m.heap.length ≤ m'.heap.length
  | [], m, i, m', h, _, _, H => by rw [fillMap] at h; cases h; exact ⟨H, Nat.le_refl _⟩
  | (k, y) :: es, m, i, m', h, hi, hl, H => by
    rw [fillMap] at h
    cases e : construct m y with
    | none => rw [e] at h; cases h
    | some w =>
      obtain ⟨m1, v⟩ := w
      rw [e] at h
      obtain ⟨H1, hl1⟩ := construct_noZero y m m1 v e hl H
      have := fillMap_noZero es _ _ m' h hi (by simp only [setEntry_length, setParent_length]; omega)
        ((H1.setParent v hi).setEntry i k v)
      simp only [setEntry_length, setParent_length] at this
      exact ⟨this.1, by omega⟩

theorem fillSeq_noZero : ∀ (l : List (Yaml K A)) (m : Mem K A) (i : Nat) (m' : Mem K A),
    fillSeq m i l = some m' → 0 < i → 0 < m.heap.length → NoZero m.heap → NoZero m'.heap ∧ m.heap.length ≤ m'.heap.length
  | [], m, i, m', h, _, _, H => by rw [fillSeq] at h; cases h; exact ⟨H, Nat.le_refl _⟩
  | y :: l, m, i, m', h, hi, hl, H => by
    rw [fillSeq] at h
    cases e : construct m y with
    | none => rw [e] at h; cases h
    | some w =>
      obtain ⟨m1, v⟩ := w
      rw [e] at h
      obtain ⟨H1, hl1⟩ := construct_noZero y m m1 v e hl H
      have := fillSeq_noZero l _ _ m' h hi (by simp only [append_length, setParent_length]; omega)
        ((H1.setParent v hi).append i v)
      simp only [append_length, setParent_length] at this
      exact ⟨this.1, by omega⟩
end

theorem load_noZero (y : Yaml K A) (h : List (Obj K A)) (hl : load y = .ok h) : NoZero h := by
  unfold load at hl
  cases e : construct (⟨[⟨.dict [], none⟩], []⟩ : Mem K A) y with
  | none => rw [e] at hl; cases hl
  | some w =>
    obtain ⟨m, v⟩ := w
    rw [e] at hl
    have H0 : NoZero ([⟨.dict [], none⟩] : List (Obj K A)) := by
      refine ⟨?_, [], none, rfl⟩
      intro i o e
      cases i with
      | zero => cases e; simp
      | succ n => cases e
    have H := (construct_noZero y _ m v e (by simp) H0).1
    cases v with
    | atom a => cases hl
    | ref r =>
      simp only at hl
      split at hl
      · rename_i es p e2
        cases hl
        clear e e2
        generalize m.heap = hp at H
        induction es generalizing hp with
        | nil => exact H
        | cons q es ih => exact ih _ (H.setEntry 0 q.1 q.2)
      · cases hl

theorem scopeN_set (h : List (Obj K A)) (H : NoZero h) (k : K) (v : Val A) (n i : Nat) (hi : i ≠ 0) :
    scopeN (setEntry h 0 k v) n i = scopeN h n i := by
  induction n generalizing i with
  | zero => rfl
  | succ n ih =>
    rw [scopeN, scopeN, setEntry_other _ _ _ _ _ (Ne.symm hi)]
    cases e : h[i]? with
    | none => rfl
    | some o =>
      simp only
      cases e' : o.parent with
      | none => rfl
      | some p =>
        simp only
        rw [ih p (by rintro rfl; exact H.par i o e e')]

/-- C80, the violation, for every file: what is assigned to a key of the configuration itself after loading is found
there, but in no dictionary of it.  (These go on to find what the file says.) -/
theorem C80_toplevel_refuted (y : Yaml K A) (h : List (Obj K A)) (hl : load y = .ok h) (k : K) (v : Val A) :
    lookupAt (setEntry h 0 k v) 0 k = some v ∧
    ∀ i k', i ≠ 0 → lookupAt (setEntry h 0 k v) i k' = lookupAt h i k' := by
  have H := load_noZero y h hl
  constructor
  · obtain ⟨es, p, e⟩ := H.top
    have e' : (setEntry h 0 k v)[0]? = some ⟨.dict (setKey es k v), p⟩ := by
      unfold setEntry; rw [modify_get, if_pos rfl, e]; rfl
    have hlt := lt_of_get e'
    unfold lookupAt scope
    obtain ⟨n, hn⟩ : ∃ n, (setEntry h 0 k v).length = n + 1 := ⟨(setEntry h 0 k v).length - 1, by omega⟩
    rw [hn, scopeN, e', C25_lookup, dictsOf, List.findSome?_cons, lookup_setKey, if_pos rfl]
  · intro i k' hi
    unfold lookupAt scope
    rw [setEntry_length, scopeN_set h H k v _ i hi]

/-- C80.  A file whose document is a scalar (an empty file: `null`) or a list is no configuration. -/
theorem C80_not_mapping (y : Yaml K A) (hn : noAlias y = true) (hm : ∀ es, node y ≠ .map es) :
    load y = .error .attributeError := by
  obtain ⟨m, v, h1, _, _, H⟩ := construct_ok y (⟨[⟨.dict [], none⟩], []⟩ : Mem K A) hn
  have H' := H.node
  unfold load
  rw [h1]
  have hne := node_ne_anchor y
  generalize node y = z at H' hm hne
  cases H' with
  | atom => rfl
  | anchor => exact absurd rfl (hne _ _)
  | map _ _ _ _ es => exact absurd rfl (hm es)
  | seq _ _ _ _ _ _ _ h3 => simp only [h3]

namespace LoadEx

/-- ```
a: &x {p: 1}
b: {k: 2, c: *x}
``` -/
def shared : Yaml Char Nat := .map [('k', .atom 5), ('a', .anchor 0 (.map [('p', .atom 1)])),
  ('b', .map [('k', .atom 2), ('c', .aliased 0)])]

/-- C80, the violation with aliases: a dictionary with an anchor inherits, where it is written, from the place of its
last alias. -/
theorem C80_alias_refuted : ∃ h, load shared = .ok h ∧ ∃ i, follow h [.key 'a'] (.ref 0) = some (.ref i) ∧
    lookupAt h i 'k' = some (.atom 2) ∧ follow h [.key 'k'] (.ref 0) = some (.atom 5) := by
  refine ⟨_, rfl, 2, rfl, ?_, rfl⟩
  decide +kernel

/-- ```
n: 1
a: {n: 2, l: [{p: 3}, {n: 4}], p: 5, p: 6}
``` -/
def doc : Yaml Char Nat := .map [('n', .atom 1),
  ('a', .map [('n', .atom 2), ('l', .seq [.map [('p', .atom 3)], .anchor 7 (.map [('n', .atom 4)])]), ('p', .atom 5),
    ('p', .atom 6)])]

example : noAlias doc = true ∧ ∃ es, node doc = .map es := ⟨rfl, _, rfl⟩
example : ∃ s es, walk [.key 'a', .key 'l', .idx 1] [] doc = some (s, .map es) ∧
    (es :: s).findSome? (last · 'p') = some (.atom 6) ∧ (es :: s).findSome? (last · 'n') = some (.atom 4) ∧
    (es :: s).findSome? (last · 'q') = none := ⟨_, _, rfl, rfl, rfl, rfl⟩
example : ∃ s es, walk [.key 'a', .key 'l', .idx 0] [] doc = some (s, .map es) ∧
    (es :: s).findSome? (last · 'n') = some (.atom 2) := ⟨_, _, rfl, rfl⟩
example : ∃ h, load doc = .ok h ∧ h.length = 6 ∧ lookupAt h 4 'n' = some (.atom 2) ∧
    lookupAt (setEntry h 0 'q' (.atom 9)) 0 'q' = some (.atom 9) ∧
    lookupAt (setEntry h 0 'q' (.atom 9)) 4 'q' = none := by
  refine ⟨_, rfl, ?_⟩
  decide +kernel
example : noAlias (.seq [.atom 1] : Yaml Char Nat) = true ∧ ∀ es, node (.seq [.atom 1] : Yaml Char Nat) ≠ .map es :=
  ⟨rfl, nofun⟩

end LoadEx

end Config
end HF
