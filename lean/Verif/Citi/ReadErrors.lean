import Verif.Citi.ReadProps
import Verif.Citi.Examples
/-
C65: CITI files that cannot be read, and what is read without notice.
-/
namespace HF.Citi

open Units (isWs strip)
open Text DataBlock
open HF.DataDict.Spec

/-! ### Errors -/

theorem tokenize_error (before after : List (List Char)) (l : List Char) (s : Strm) (hb : tokenize before = .ok s)
    (e : Err) (hl : tokenLine l = .error e) : tokenize (before ++ l :: after) = .error e := by
  induction before generalizing s with
  | nil => simp only [List.nil_append, tokenize, hl]
  | cons a before ih =>
    simp only [List.cons_append, tokenize] at hb ⊢
    split at hb
    · cases hb
    · split at hb
      · cases hb
      · rename_i ts hts
        rw [ih ts hts]

/-- C65: a line that says nothing makes the file an error. -/
theorem C65_unknown (env : Env) (before after : List (List Char)) (l : List Char) (its : List Item)
    (hb : List.Forall₂ Says before its) (hl : ∀ it, ¬ Says l it) :
    ∃ e, read env (before ++ l :: after) = .error e := by
  obtain ⟨ts, h1, -⟩ := tokenize_says hb
  cases h : tokenLine l with
  | ok t =>
    obtain ⟨it, hit⟩ := tok_says l t h
    exact absurd hit (hl it)
  | error e =>
    refine ⟨e, ?_⟩
    unfold read
    rw [tokenize_error before after l ts h1 e h]

theorem datum_number (env : Env) (typ t : List Char) (ht : IsType typ) (z : Cplx) (h : datum env typ t = .ok z) :
    Number env typ t z := by
  have hp : ∀ p, pairOf env t = .ok p → ∃ a b, Trim t (a ++ ',' :: b) ∧ ',' ∉ a ∧ ',' ∉ b ∧ env.parse a = some p.1 ∧
      env.parse b = some p.2 := by
    intro p hp
    unfold pairOf at hp
    simp only at hp
    split at hp
    · rename_i b hb
      split at hp
      · cases hp
      · rename_i hnb
        split at hp
        · rename_i x y hx hy
          cases hp
          have hc := List.takeWhile_append_dropWhile (p := fun c => decide (c ≠ ',')) (l := strip t)
          rw [hb] at hc
          refine ⟨_, b, by rw [hc]; exact strip_trim t, ?_, hnb, hx, hy⟩
          intro hm
          have := List.all_eq_true.1 (List.all_takeWhile (p := fun c => decide (c ≠ ',')) (l := strip t)) _ hm
          simp at this
        · cases hp
    · cases hp
  rcases ht with rfl | rfl | rfl
  · unfold datum at h
    rw [if_pos rfl] at h
    split at h
    · rename_i x hx
      cases h
      exact .mag t x hx
    · cases h
  · unfold datum at h
    rw [if_neg (by decide), if_pos rfl] at h
    obtain ⟨a, b, h1, h2, h3, h4, h5⟩ := hp z h
    exact .ri t a b z.1 z.2 h1 h2 h3 h4 h5
  · unfold datum at h
    rw [if_neg (by decide), if_neg (by decide)] at h
    split at h
    · rename_i p hp'
      cases h
      obtain ⟨a, b, h1, h2, h3, h4, h5⟩ := hp p hp'
      exact .magangle t a b p.1 p.2 h1 h2 h3 h4 h5
    · cases h

theorem handle_numbers (env : Env) (typ : List Char) (ts : List (List Char)) (l : List Cplx)
    (h : handleData env typ (ts.map fun t => [t]) = .ok l) : IsType typ ∧ List.Forall₂ (Number env typ) ts l := by
  unfold handleData at h
  split at h
  · rename_i ht
    refine ⟨ht, ?_⟩
    induction ts generalizing l with
    | nil => cases h; exact .nil
    | cons t ts ih =>
      rw [List.map_cons, List.mapM_cons, List.headD_cons] at h
      cases hd : datum env typ t with
      | error e => rw [hd] at h; cases h
      | ok z =>
        rw [hd] at h
        cases hm : (ts.map fun t => [t]).mapM (fun rad => datum env typ (rad.headD [])) with
        | error e => rw [hm] at h; cases h
        | ok zs =>
          rw [hm] at h
          cases h
          exact .cons (datum_number env typ t ht z hd) (ih zs hm)
  · cases h

theorem readData_append (env : Env) (dims : List (Dim Cplx)) : ∀ (a c : List (List (List Char))) (b : Block Cplx Cplx) (s : Strm),
    readData env dims (a ++ c) b s = match readData env dims a b s with
      | .error e => .error e
      | .ok (b', s') => readData env dims c b' s'
  | [], c, b, s => rfl
  | [] :: a, c, b, s => rfl
  | [_] :: a, c, b, s => rfl
  | (_ :: _ :: _ :: _) :: a, c, b, s => rfl
  | [name, typ] :: a, c, b, s => by
    rw [List.cons_append]
    simp only [readData]
    cases h1 : one .dataBegin s with
    | error e => rfl
    | ok p =>
      simp only
      cases h2 : many .data p.2 with
      | error e => rfl
      | ok q =>
        simp only
        cases h3 : handleData env typ q.1 with
        | error e => rfl
        | ok l =>
          simp only
          cases h4 : toArr dims l with
          | error e => rfl
          | ok arr =>
            simp only
            obtain ⟨b', r⟩ := setArr benv b (String.ofList name) arr
            cases r with
            | error e => rfl
            | ok u =>
              simp only
              cases h5 : one .dataEnd q.2 with
              | error e => rfl
              | ok w => exact readData_append env dims a c b' w.2

theorem toArr_error (dims : List (Dim Cplx)) (l : List Cplx) (h : l.length ≠ Nd.size (dims.map fun d => d.data.length)) :
    toArr dims l = .error .value := by
  unfold toArr Nd.reshape
  rw [if_neg (by simpa [Nd.size] using h.symm)]

/-- C65: data of an unknown kind, with a text that is not a number, or more or fewer of them than there are
combinations of coordinates, make the file an error. -/
theorem C65_bad_data (env : Env) (ls : List (List Char)) (its rest : List Item) (hs : List.Forall₂ Says ls its) (f : Content)
    (hf : f.Head env) (hn : f.Names) (hit : its.filter Item.shown = f.items ++ rest) (com : List (List Char))
    (hc : List.Forall₂ Kept f.comments com) (ds1 ds2 : List Data) (d : Data) (hd : f.data = ds1 ++ d :: ds2)
    (h1 : ∀ d ∈ ds1, d.Ok env f.size) (hbad : ¬ d.Ok env f.size) : ∃ e, read env ls = .error e := by
  obtain ⟨b1, ty, tr, ky, v2, v3, hread⟩ := read_head env ls its rest hs f hf hit com hc
  obtain ⟨hndd, hdis, hel⟩ := hn.data
  have hsh := dim_shape f
  rw [hd] at hread hndd hdis hel ky
  rw [List.flatMap_append, List.flatMap_cons] at ky
  obtain ⟨x, y, rfl, k1, k2⟩ := forall2_append ky
  obtain ⟨y, w, rfl, k2, k3⟩ := forall2_append k2
  obtain ⟨zss, hz⟩ := values_exist env f.size ds1 h1
  rw [List.map_append, List.nodup_append] at hndd
  obtain ⟨b2, w1, w2, w3⟩ := data_read env (f.sweeps.map Sweep.dim) ds1 zss b1 x (y ++ w ++ tr) hz
    (by
      intro d h
      rw [hsh, size_prod]
      exact (h1 d h).texts)
    (by rw [v3, dim_names]; simp) (by rw [v2]; simpa using hndd.1) (fun d h => hdis d (by simp [h]))
    (fun d h m i j hm => by
      rw [v2]
      have := hel d (by simp [h]) m i j hm
      simp only [List.map_append, List.mem_append, not_or] at this
      simpa using this.1) k1
  rw [List.map_append, List.append_assoc, readData_append, w1, List.map_cons] at hread
  rw [hread]
  unfold Data.items at k2
  obtain ⟨u, y, rfl, g1, k2⟩ := forall2_cons k2
  obtain ⟨p, q, rfl, h3, k4⟩ := forall2_append k2
  obtain ⟨e, q, rfl, h5, k5⟩ := forall2_cons k4
  cases k5
  have hu : u.tag = .dataBegin := g1
  have he : e.tag = .dataEnd := h5
  simp only [readData]
  rw [List.cons_append, List.cons_append, one_ok _ _ _ hu]
  simp only
  rw [numbers_eq h3, List.append_assoc, List.append_assoc, List.singleton_append,
    many_some .data _ _ (mapTag _ _ _ fun _ => rfl) ⟨_, _, rfl, by simp [he]⟩]
  simp only [List.map_map]
  have et : d.texts.map ((fun u : Tok => u.rad) ∘ fun z : List Char => (⟨.data, [z]⟩ : Tok)) =
      d.texts.map fun z => [z] := rfl
  rw [et]
  cases hh : handleData env d.typ (d.texts.map fun z => [z]) with
  | error e => exact ⟨e, rfl⟩
  | ok l =>
    obtain ⟨i1, i2⟩ := handle_numbers env d.typ d.texts l hh
    have hl : l.length ≠ Nd.size ((f.sweeps.map Sweep.dim).map fun d => d.data.length) := by
      intro hlen
      refine hbad ⟨i1, ?_, ?_⟩
      · intro t ht
        obtain ⟨z, -, hz⟩ := forall2_left i2 t ht
        exact ⟨z, hz⟩
      · rw [i2.length_eq, hlen, hsh, size_prod]
        rfl
    simp only
    rw [toArr_error _ _ hl]
    exact ⟨_, rfl⟩

/-! ### A file -/

/-- A file with two sweeps, comments and two variables, and lines after it. -/
def exLines : List (List Char) :=
  ["CITIFILE A.01.00", "! made by hand", "NAME  RAW ", "#NA VERSION 6", "VAR f MAG 3", "VAR g RI 7", "",
   "DATA S[1,1] RI", " DATA V MAG", "CONSTANT TIME 2014 1 2 3 4 5", "SEG_LIST_BEGIN", "SEG 1 5 3", "SEG_LIST_END",
   "VAR_LIST_BEGIN", "6,0", "2,1", "VAR_LIST_END", "COMMENT last", "BEGIN", "1,2", "2,3", "3,4", "4,5", "5,6", "6,0", "END",
   "BEGIN", "1", "2", "3", "4", "5", "6", "END", "NAME other"].map String.toList

def exItems : List Item :=
  [.version, .comment "made by hand".toList, .name "RAW".toList, .comment "NA VERSION 6".toList,
   .var [['f'], "MAG".toList, ['3']], .var [['g'], "RI".toList, ['7']], .blank, .data ["S[1,1]".toList, "RI".toList],
   .data [['V'], "MAG".toList], .comment "CONSTANT TIME 2014 1 2 3 4 5".toList, .segBegin, .seg [['1'], ['5'], ['3']], .segEnd,
   .varBegin, .number "6,0".toList, .number "2,1".toList, .varEnd, .comment "last".toList, .begin_, .number "1,2".toList,
   .number "2,3".toList, .number "3,4".toList, .number "4,5".toList, .number "5,6".toList, .number "6,0".toList, .end_,
   .begin_, .number ['1'], .number ['2'], .number ['3'], .number ['4'], .number ['5'], .number ['6'], .end_,
   .name "other".toList]

def exContent : Content where
  c1 := []
  version := true
  c2 := ["made by hand".toList]
  name := "RAW".toList
  c3 := ["NA VERSION 6".toList]
  sweeps := [⟨['f'], ['M', 'A', 'G'], ['3'], .segment ['1'] ['5'] ['3'], [(1, 0), (3, 0), (5, 0)]⟩,
    ⟨['g'], ['R', 'I'], ['7'], .list ["6,0".toList, "2,1".toList], [(6, 0), (2, 1)]⟩]
  c4 := []
  data := [⟨"S[1,1]".toList, ['R', 'I'], ["1,2", "2,3", "3,4", "4,5", "5,6", "6,0"].map String.toList⟩,
    ⟨['V'], ['M', 'A', 'G'], ["1", "2", "3", "4", "5", "6"].map String.toList⟩]
  c5 := ["CONSTANT TIME 2014 1 2 3 4 5".toList]
  c6 := ["last".toList]

theorem trim_of {s t : List Char} (h : strip s = t) : Trim s t := (strip_iff s t).1 h

theorem exSays : List.Forall₂ Says exLines exItems := by
  have hb : Blank [] := by simp [Blank]
  have text : ∀ {r it}, Says' r it → Says r it := fun {r it} h => Says.text [] r it hb h
  have num : ∀ (s : List Char) (c : Char) (r : List Char), s = c :: r → c ∈ "-.0123456789eE".toList → ¬ kwEND <+: c :: r →
      Says s (.number s) := by
    rintro s c r rfl h1 h2
    exact text (.number c r h1 h2)
  unfold exLines exItems
  repeat' (first | apply List.Forall₂.cons | exact List.Forall₂.nil)
  · exact text (.version " A.01.00".toList)
  · exact text (.exclam _ _ (trim_of (by decide +kernel)))
  · exact text (.name "  RAW ".toList _ (trim_of (by decide +kernel)))
  · exact text (.hash _ _ (trim_of (by decide +kernel)))
  · exact text (.var "f MAG 3".toList _ ((words_iff _ _).1 (by decide +kernel)))
  · exact text (.var "g RI 7".toList _ ((words_iff _ _).1 (by decide +kernel)))
  · exact .blank _ hb
  · exact text (.data " S[1,1] RI".toList _ ((words_iff _ _).1 (by decide +kernel)))
  · exact .text [' '] _ _ (by simp [Blank]; decide) (.data " V MAG".toList _ ((words_iff _ _).1 (by decide +kernel)))
  · exact text (.constant " TIME 2014 1 2 3 4 5".toList _ (trim_of (by decide +kernel)))
  · exact text (.segBegin [])
  · exact text (.seg "1 5 3".toList _ ((words_iff _ _).1 (by decide +kernel)))
  · exact text (.segEnd [])
  · exact text (.varBegin [])
  · exact num _ '6' _ rfl (by decide +kernel) (by decide +kernel)
  · exact num _ '2' _ rfl (by decide +kernel) (by decide +kernel)
  · exact text (.varEnd [])
  · exact text (.comment ' ' "last".toList _ (trim_of (by decide +kernel)))
  · exact text (.begin_ [])
  · exact num _ '1' _ rfl (by decide +kernel) (by decide +kernel)
  · exact num _ '2' _ rfl (by decide +kernel) (by decide +kernel)
  · exact num _ '3' _ rfl (by decide +kernel) (by decide +kernel)
  · exact num _ '4' _ rfl (by decide +kernel) (by decide +kernel)
  · exact num _ '5' _ rfl (by decide +kernel) (by decide +kernel)
  · exact num _ '6' _ rfl (by decide +kernel) (by decide +kernel)
  · exact text (.end_ [])
  · exact text (.begin_ [])
  · exact num _ '1' _ rfl (by decide +kernel) (by decide +kernel)
  · exact num _ '2' _ rfl (by decide +kernel) (by decide +kernel)
  · exact num _ '3' _ rfl (by decide +kernel) (by decide +kernel)
  · exact num _ '4' _ rfl (by decide +kernel) (by decide +kernel)
  · exact num _ '5' _ rfl (by decide +kernel) (by decide +kernel)
  · exact num _ '6' _ rfl (by decide +kernel) (by decide +kernel)
  · exact text (.end_ [])
  · exact text (.name " other".toList _ (trim_of (by decide +kernel)))

theorem exNumber (t : List Char) (a b : List Char) (z : Cplx) (h : strip t = a ++ ',' :: b) (ha : ',' ∉ a) (hb : ',' ∉ b)
    (hx : exEnv.parse a = some z.1) (hy : exEnv.parse b = some z.2) : Number exEnv ['R', 'I'] t z :=
  .ri t a b z.1 z.2 (trim_of h) ha hb hx hy

theorem exMag (t : List Char) (h : t ∈ ["1", "2", "3", "4", "5", "6"].map String.toList) :
    ∃ z, Number exEnv ['M', 'A', 'G'] t z := by
  have : ∀ t ∈ ["1", "2", "3", "4", "5", "6"].map String.toList, (exEnv.parse t).isSome = true := by decide +kernel
  obtain ⟨x, hx⟩ := Option.isSome_iff_exists.1 (this t h)
  exact ⟨_, .mag t x hx⟩

theorem exRi (t : List Char) (h : t ∈ ["1,2", "2,3", "3,4", "4,5", "5,6", "6,0"].map String.toList) :
    ∃ z, Number exEnv ['R', 'I'] t z := by
  have : ∀ t ∈ ["1,2", "2,3", "3,4", "4,5", "5,6", "6,0"].map String.toList,
      strip t = [t.headD ' '] ++ ',' :: [t.getLastD ' '] ∧ ',' ∉ [t.headD ' '] ∧ ',' ∉ [t.getLastD ' '] ∧
      (exEnv.parse [t.headD ' ']).isSome = true ∧ (exEnv.parse [t.getLastD ' ']).isSome = true := by decide +kernel
  obtain ⟨h1, h2, h3, h4, h5⟩ := this t h
  obtain ⟨x, hx⟩ := Option.isSome_iff_exists.1 h4
  obtain ⟨y, hy⟩ := Option.isSome_iff_exists.1 h5
  exact ⟨(x, y), exNumber t _ _ _ h1 h2 h3 hx hy⟩

theorem exHead : exContent.Head exEnv where
  version := by simp [exContent]
  noSweeps := by simp [exContent]
  data := by simp [exContent]
  nodupSweeps := by decide +kernel
  sweeps := by
    intro v hv
    simp only [exContent, List.mem_cons, List.not_mem_nil, or_false] at hv
    rcases hv with rfl | rfl
    · refine ⟨by decide +kernel, 1, 5, 3, by decide +kernel, by decide +kernel, by decide +kernel, ?_⟩
      have : ([(1, 0), (3, 0), (5, 0)] : List Cplx) = linspace 1 5 3 := by decide +kernel
      rw [this]
      exact linspace_evenly 1 5 3
    · exact ⟨by decide +kernel, Or.inr (Or.inl rfl),
        .cons (exNumber _ ['6'] ['0'] (6, 0) (by decide +kernel) (by decide) (by decide) (by decide +kernel) (by decide +kernel))
        (.cons (exNumber _ ['2'] ['1'] (2, 1) (by decide +kernel) (by decide) (by decide) (by decide +kernel) (by decide +kernel)) .nil)⟩

theorem exNames : exContent.Names where
  nodupData := by decide +kernel
  disjoint := by decide +kernel
  elems := by
    intro d hd m i j e
    simp only [exContent, List.mem_cons, List.not_mem_nil, or_false] at hd
    rcases hd with rfl | rfl
    · have : isMatrixName (String.ofList "S[1,1]".toList) = none := by decide +kernel
      rw [this] at e
      cases e
    · have : isMatrixName (String.ofList ['V']) = none := by decide +kernel
      rw [this] at e
      cases e

/-- The file is read. -/
example : ∃ b a, read exEnv exLines = .ok ("RAW".toList,
      ["made by hand", "NA VERSION 6", "Measurement time: 2014-1-2 3:4:5", "last"].map String.toList, b) ∧
    b.ivars.map (fun p => (p.1, p.2.data)) = [("f", [(1, 0), (3, 0), (5, 0)]), ("g", [(6, 0), (2, 1)])] ∧
    lookup b.vars "S[1,1]" = some a ∧ a.nd.get [1, 0] = (3, 4) := by
  obtain ⟨b, h1, h2, -, h4⟩ := C65_read exEnv exLines exItems [.name "other".toList] exSays exContent exHead exNames
    (by rfl) (["made by hand", "NA VERSION 6", "Measurement time: 2014-1-2 3:4:5", "last"].map String.toList)
    (.cons (.same _ (by decide +kernel)) (.cons (.same _ (by decide +kernel))
      (.cons (.time _ "CONSTANT".toList "TIME".toList ['2', '0', '1', '4'] ['1'] ['2'] ['3'] ['4'] ['5'] (by decide +kernel)
        ((words_iff _ _).1 (by decide +kernel))) (.cons (.same _ (by decide +kernel)) .nil))))
    (by
      intro d hd
      simp only [exContent, List.mem_cons, List.not_mem_nil, or_false] at hd
      rcases hd with rfl | rfl
      · exact ⟨Or.inr (Or.inl rfl), exRi, by decide +kernel⟩
      · exact ⟨Or.inl rfl, exMag, by decide +kernel⟩)
  obtain ⟨a, k1, -, -, k4⟩ := h4 _ (List.mem_cons_self ..)
  refine ⟨b, a, h1, by rw [h2]; rfl, k1, ?_⟩
  have hp : positions (exContent.sweeps.map fun v => v.coords.length) = [[0, 0], [0, 1], [1, 0], [1, 1], [2, 0], [2, 1]] := by
    decide +kernel
  rw [hp] at k4
  cases k4 with
  | cons _ k4 => cases k4 with
    | cons _ k4 => cases k4 with
      | cons k _ =>
        have hd := number_ok exEnv _ _ _ k
        have : datum exEnv ['R', 'I'] "3,4".toList = .ok (3, 4) := by decide +kernel
        have e : Except.ok (3, 4) = Except.ok (a.nd.get [1, 0]) := this.symm.trans hd
        injection e with e
        exact e.symm

/-- A line that says nothing. -/
example : ∃ e, read exEnv (exLines ++ "hello".toList :: []) = .error e := by
  refine C65_unknown exEnv exLines [] "hello".toList exItems exSays ?_
  intro it h
  have e : tokenLine "hello".toList matches .error _ := by decide +kernel
  rcases says_tok h with ⟨-, h⟩ | ⟨t, -, h⟩ <;> rw [h] at e <;> cases e

/-- Two numbers where there is one combination of coordinates. -/
example : ∃ e, read exEnv (["NAME A", "DATA V MAG", "BEGIN", "1", "2", "END"].map String.toList) = .error e := by
  have hb : Blank [] := by simp [Blank]
  have text : ∀ {r it}, Says' r it → Says r it := fun {r it} h => Says.text [] r it hb h
  refine C65_bad_data exEnv _ [.name ['A'], .data [['V'], "MAG".toList], .begin_, .number ['1'], .number ['2'], .end_] []
    (.cons (text (.name " A".toList _ (trim_of (by decide +kernel))))
    (.cons (text (.data " V MAG".toList _ ((words_iff _ _).1 (by decide +kernel))))
    (.cons (text (.begin_ [])) (.cons (text (.number '1' [] (by decide +kernel) (by decide +kernel)))
    (.cons (text (.number '2' [] (by decide +kernel) (by decide +kernel))) (.cons (text (.end_ [])) .nil))))))
    ⟨[], false, [], ['A'], [], [], [], [⟨['V'], "MAG".toList, [['1'], ['2']]⟩], [], []⟩
    ⟨by simp, by simp, by simp, by simp, by simp⟩ ⟨by simp, by simp, ?_⟩ (by rfl) [] .nil [] [] _ (by rfl) (by simp) ?_
  · intro d hd m i j e
    simp only [List.mem_cons, List.not_mem_nil, or_false] at hd
    subst hd
    have : isMatrixName (String.ofList ['V']) = none := by decide +kernel
    rw [this] at e
    cases e
  · intro h
    have := h.texts
    simp [Content.size] at this

/-- What is read: the name, the coordinates and the data. -/
structure View where
  name : List Char
  sweeps : List (String × List Cplx)
  data : List (String × List Cplx)
deriving DecidableEq

/-- What is read, if the file is read. -/
def view (r : Except Err (List Char × List (List Char) × Block Cplx Cplx)) : Option View :=
  match r with
  | .ok (n, _, b) => some ⟨n, b.ivars.map fun p => (p.1, p.2.data), b.vars.map fun p => (p.1, flat p.2)⟩
  | .error _ => none

/-- C65, violated: of a file with two packages the second one is dropped without notice. -/
theorem C65_packages_refuted : view (read exEnv (["NAME A", "VAR x MAG 1", "DATA V MAG", "VAR_LIST_BEGIN", "1", "VAR_LIST_END",
      "BEGIN", "2", "END", "NAME B", "VAR y MAG 1", "DATA W MAG", "VAR_LIST_BEGIN", "3", "VAR_LIST_END", "BEGIN", "4",
      "END"].map String.toList)) = some ⟨['A'], [("x", [(1, 0)])], [("V", [(2, 0)])]⟩ := by
  decide +kernel

/-- C65, violated: a sweep with two segments cannot be read. -/
theorem C65_segments_refuted : read exEnv (["NAME A", "VAR x MAG 4", "DATA V MAG", "SEG_LIST_BEGIN", "SEG 1 2 2", "SEG 3 4 2",
      "SEG_LIST_END", "BEGIN", "1", "2", "3", "4", "END"].map String.toList) matches .error (.parser .exception) := by
  decide +kernel

/-- C65, violated: the number of coordinates announced is not looked at. -/
theorem C65_count_refuted : view (read exEnv (["NAME A", "VAR x MAG 6", "DATA V MAG", "VAR_LIST_BEGIN", "1", "VAR_LIST_END",
      "BEGIN", "2", "END"].map String.toList)) = some ⟨['A'], [("x", [(1, 0)])], [("V", [(2, 0)])]⟩ := by
  decide +kernel

/-- C65, violated: a comment between the lists of coordinates, or between the data, makes the file an error. -/
theorem C65_comment_refuted :
    (read exEnv (["NAME A", "VAR x MAG 1", "DATA V MAG", "VAR_LIST_BEGIN", "1", "! one", "VAR_LIST_END", "BEGIN", "2",
      "END"].map String.toList) matches .error (.parser .exception)) ∧
    read exEnv (["NAME A", "DATA V MAG", "DATA W MAG", "BEGIN", "2", "END", "! one", "BEGIN", "3",
      "END"].map String.toList) matches .error (.parser .exception) := by
  constructor <;> decide +kernel

/-- C65, violated: a time of measurement without seconds makes the file an error. -/
theorem C65_time_refuted : read exEnv (["NAME A", "CONSTANT TIME 2014 1 2 3 4", "DATA V MAG", "BEGIN", "2",
      "END"].map String.toList) matches .error .type := by
  decide +kernel

end HF.Citi
