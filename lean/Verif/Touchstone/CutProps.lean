import Verif.Touchstone.Cut
import Mathlib.Order.Nat
import Mathlib.Data.Nat.Sqrt
import Mathlib.Tactic.Linarith
import Mathlib.Tactic.Ring
/-
C18: the data section of a Touchstone file is cut into records correctly.
-/

namespace HF.Touchstone

variable {K : Type} [LinearOrder K]

/-! ### Specification -/

/-- A record of `N` numbers as it stands in the file: the frequency and whole pairs of numbers in the first
line, whole pairs in the following. -/
structure IsRecord (N : Nat) (r : Line K × List (Line K)) : Prop where
  first : Line.len r.1 % 2 = 1
  more : ∀ l ∈ r.2, Line.len l % 2 = 0
  size : Line.len r.1 + total r.2 = N

/-- All lines of the file. -/
def lines (rs : List (Line K × List (Line K))) : List (Line K) := rs.flatMap fun r => r.1 :: r.2

/-- The numbers of a record, frequency first. -/
def numbers (r : Line K × List (Line K)) : Line K := (r.1.1, r.1.2 ++ r.2.flatMap fun l => l.1 :: l.2)

/-! ### Counting odd lines -/

def odds (data : List (Line K)) : Nat := (data.map fun l => Line.len l % 2).sum

theorem total_cons (l : Line K) (t : List (Line K)) : total (l :: t) = Line.len l + total t := by simp [total]
theorem odds_cons (l : Line K) (t : List (Line K)) : odds (l :: t) = Line.len l % 2 + odds t := by simp [odds]
theorem total_append (a b : List (Line K)) : total (a ++ b) = total a + total b := by simp [total]
theorem odds_append (a b : List (Line K)) : odds (a ++ b) = odds a + odds b := by simp [odds]

theorem extend_len (a b : Line K) : Line.len (Line.extend a b) = Line.len a + Line.len b := by
  simp [Line.len, Line.extend]
  omega

def curLen : Option (Line K) → Nat
  | none => 0
  | some c => Line.len c

theorem cutWith_count (drop : List (Line K) → Option (List (Line K)))
    (hdrop : ∀ d nz, drop d = some nz → total d = 5 * nz.length ∧ nz.length ≤ odds d)
    (N : Nat) (hN : N % 2 = 1) : ∀ (data : List (Line K)) (out : List (Line K)) (cur : Option (Line K))
    (o nz : List (Line K)), cutWith drop N out cur data = some (o, nz) →
    ∃ k, o.length = out.length + k ∧ curLen cur + total data = N * k + 5 * nz.length ∧
      k + nz.length ≤ odds data + curLen cur % 2
  | [], out, none, o, nz, h => by
    simp only [cutWith] at h
    injection h with h
    injection h with h1 h2
    subst h1 h2
    exact ⟨0, rfl, by simp [curLen, total], by simp⟩
  | [], out, some c, o, nz, h => by simp [cutWith] at h
  | l :: rest, out, cur, o, nz, h => by
    have step : ∀ row : Line K, Line.len row = curLen cur + Line.len l →
        (if Line.len row > N then none
          else if Line.len row = N then cutWith drop N (out ++ [row]) none rest
          else cutWith drop N out (some row) rest) = some (o, nz) →
        ∃ k, o.length = out.length + k ∧ curLen cur + total (l :: rest) = N * k + 5 * nz.length ∧
          k + nz.length ≤ odds (l :: rest) + curLen cur % 2 := by
      intro row hrow hs
      rw [total_cons, odds_cons]
      split at hs
      · cases hs
      · split at hs
        · rename_i h1 h2
          obtain ⟨k, hk1, hk2, hk3⟩ := cutWith_count drop hdrop N hN rest _ _ _ _ hs
          simp only [curLen, List.length_append, List.length_singleton] at hk1 hk2 hk3
          refine ⟨k + 1, by omega, ?_, by omega⟩
          rw [Nat.mul_add, Nat.mul_one]
          omega
        · obtain ⟨k, hk1, hk2, hk3⟩ := cutWith_count drop hdrop N hN rest _ _ _ _ hs
          simp only [curLen] at hk1 hk2 hk3
          exact ⟨k, hk1, by omega, by omega⟩
    cases cur with
    | some c =>
      simp only [cutWith] at h
      exact step _ (by rw [extend_len]; rfl) h
    | none =>
      simp only [cutWith] at h
      cases hl : out.getLast? with
      | none =>
        rw [hl] at h
        exact step l (by simp [curLen]) h
      | some last =>
        rw [hl] at h
        simp only at h
        split at h
        · cases hd : drop (l :: rest) with
          | none => rw [hd] at h; cases h
          | some nz' =>
            rw [hd] at h
            injection h with h
            injection h with h1 h2
            subst h1 h2
            obtain ⟨e1, e2⟩ := hdrop _ _ hd
            exact ⟨0, rfl, by simp [curLen, e1], by simp; omega⟩
        · exact step l (by simp [curLen]) h

theorem plain_noise (N : Nat) : ∀ (data out : List (Line K)) (cur : Option (Line K)) (o nz : List (Line K)),
    cutWith (fun _ => none) N out cur data = some (o, nz) → nz = [] := by
  intro data
  induction data with
  | nil =>
    intro out cur o nz h
    cases cur with
    | none =>
      simp only [cutWith] at h
      injection h with h
      injection h with h1 h2
      exact h2.symm
    | some c => simp [cutWith] at h
  | cons l rest ih =>
    intro out cur o nz h
    have step : ∀ row : Line K, (if Line.len row > N then none
          else if Line.len row = N then cutWith (fun _ => none) N (out ++ [row]) none rest
          else cutWith (fun _ => none) N out (some row) rest) = some (o, nz) → nz = [] := by
      intro row hs
      split at hs
      · cases hs
      · split at hs
        · exact ih _ _ _ _ hs
        · exact ih _ _ _ _ hs
    cases cur with
    | some c => simp only [cutWith] at h; exact step _ h
    | none =>
      simp only [cutWith] at h
      cases hl : out.getLast? with
      | none => rw [hl] at h; exact step _ h
      | some last =>
        rw [hl] at h
        simp only at h
        split at h
        · cases h
        · exact step _ h

theorem noise_count (d nz : List (Line K)) (h : noiseRows d = some nz) :
    total d = 5 * nz.length ∧ nz.length ≤ odds d := by
  unfold noiseRows at h
  generalize hc : cutWith (fun _ => none) 5 [] none d = r at h
  match r, hc, h with
  | some (a :: o, nz'), hc, h =>
    injection h with h
    subst h
    obtain ⟨k, h1, h2, h3⟩ := cutWith_count (fun _ => none) (by simp) 5 rfl d [] none _ _ hc
    -- there is no noise in the noise
    have hnz : nz' = [] := plain_noise _ _ _ _ _ _ hc
    subst hnz
    simp only [curLen, List.length_nil] at h1 h2 h3
    simp only [List.length_cons] at *
    omega

/-- If the attempt with `N` numbers in a record succeeds, there are at least as many odd lines as that
takes. -/
theorem cut_count (data : List (Line K)) (N : Nat) (hN : N % 2 = 1) (o nz : List (Line K))
    (h : cut data N = some (o, nz)) : total data ≤ N * odds data := by
  unfold cut at h
  by_cases h9 : N = 9
  · subst h9
    rw [if_pos rfl] at h
    obtain ⟨k, -, h2, h3⟩ := cutWith_count noiseRows noise_count 9 rfl data [] none _ _ h
    simp only [curLen] at h2 h3
    omega
  · rw [if_neg h9] at h
    obtain ⟨k, h1, h2, h3⟩ := cutWith_count (fun _ => none) (by simp) N hN data [] none _ _ h
    simp only [curLen] at h2 h3
    rw [plain_noise _ _ _ _ _ _ h] at h2 h3
    have : N * k ≤ N * odds data := Nat.mul_le_mul_left _ (by simpa using h3)
    simp only [List.length_nil] at h2
    omega

/-! ### Cutting records -/

theorem total_records (N : Nat) : ∀ rs : List (Line K × List (Line K)), (∀ r ∈ rs, IsRecord N r) →
    total (lines rs) = N * rs.length ∧ odds (lines rs) = rs.length
  | [], _ => by simp [lines, total, odds]
  | r :: rs, h => by
    obtain ⟨h1, h2⟩ := total_records N rs fun r hr => h r (by simp [hr])
    have hr := h r (by simp)
    have ho : ∀ ls : List (Line K), (∀ l ∈ ls, Line.len l % 2 = 0) → odds ls = 0 := by
      intro ls hl
      induction ls with
      | nil => rfl
      | cons l ls ih => rw [odds_cons, hl l (by simp), ih fun l h => hl l (by simp [h])]
    have e : lines (r :: rs) = r.1 :: (r.2 ++ lines rs) := by simp [lines]
    rw [e, total_cons, odds_cons, total_append, odds_append, h1, h2, ho _ hr.more, hr.first]
    have := hr.size
    simp only [List.length_cons, Nat.mul_add, Nat.mul_one]
    omega

theorem len_pos (l : Line K) : 0 < Line.len l := Nat.succ_pos _

/-- The rest of a record is read. -/
theorem cut_rest (drop : List (Line K) → Option (List (Line K))) (N : Nat) :
    ∀ (ls rest out : List (Line K)) (c : Line K), Line.len c < N → Line.len c + total ls = N →
    cutWith drop N out (some c) (ls ++ rest) =
      cutWith drop N (out ++ [(c.1, c.2 ++ ls.flatMap fun l => l.1 :: l.2)]) none rest
  | [], rest, out, c, h1, h2 => by
    simp [total] at h2
    omega
  | l :: ls, rest, out, c, h1, h2 => by
    rw [total_cons] at h2
    rw [List.cons_append]
    simp only [cutWith]
    rw [extend_len, if_neg (by omega)]
    by_cases he : Line.len c + Line.len l = N
    · have hls : ls = [] := by
        cases ls with
        | nil => rfl
        | cons m ls =>
          rw [total_cons] at h2
          have := len_pos m
          omega
      subst hls
      rw [if_pos he]
      simp [Line.extend]
    · rw [if_neg he, cut_rest drop N ls rest out (Line.extend c l) (by rw [extend_len]; omega)
        (by rw [extend_len]; omega)]
      simp [Line.extend]

/-- One record is read if the frequency is higher than the last. -/
theorem cut_record (drop : List (Line K) → Option (List (Line K))) (N : Nat) (r : Line K × List (Line K))
    (hr : IsRecord N r) (out rest : List (Line K)) (hlast : ∀ last, out.getLast? = some last → last.1 < r.1.1) :
    cutWith drop N out none (r.1 :: (r.2 ++ rest)) = cutWith drop N (out ++ [numbers r]) none rest := by
  have hs := hr.size
  have step : (if Line.len r.1 > N then none
          else if Line.len r.1 = N then cutWith drop N (out ++ [r.1]) none (r.2 ++ rest)
          else cutWith drop N out (some r.1) (r.2 ++ rest)) = cutWith drop N (out ++ [numbers r]) none rest := by
    rw [if_neg (by omega)]
    by_cases he : Line.len r.1 = N
    · have h2 : r.2 = [] := by
        cases h : r.2 with
        | nil => rfl
        | cons m ls =>
          rw [h, total_cons] at hs
          have := len_pos m
          omega
      rw [if_pos he, h2]
      simp [numbers, h2]
    · rw [if_neg he, cut_rest drop N r.2 rest out r.1 (by omega) hs]
      rfl
  simp only [cutWith]
  cases hl : out.getLast? with
  | none => exact step
  | some last =>
    simp only
    rw [if_neg (not_le.2 (hlast last hl))]
    exact step

theorem cut_records (drop : List (Line K) → Option (List (Line K))) (N : Nat) :
    ∀ (rs : List (Line K × List (Line K))), (∀ r ∈ rs, IsRecord N r) → ∀ (out rest : List (Line K)),
    rs.Pairwise (fun a b => a.1.1 < b.1.1) →
    (∀ last, out.getLast? = some last → ∀ r ∈ rs, last.1 < r.1.1) →
    cutWith drop N out none (lines rs ++ rest) = cutWith drop N (out ++ rs.map numbers) none rest
  | [], _, out, rest, _, _ => by simp [lines]
  | r :: rs, h, out, rest, hp, hlast => by
    rw [List.pairwise_cons] at hp
    have e : lines (r :: rs) ++ rest = r.1 :: (r.2 ++ (lines rs ++ rest)) := by simp [lines]
    rw [e, cut_record drop N r (h r (by simp)) out _ fun last hl => hlast last hl r (by simp),
      cut_records drop N rs (fun r hr => h r (by simp [hr])) _ _ hp.2]
    · simp
    · intro last hl r' hr'
      simp at hl
      rw [← hl]
      exact hp.1 r' hr'

/-! ### The search for the number of ports -/

/-- If all attempts before `n` fail and `n` is reached. -/
theorem search_found (data : List (Line K)) (o nz : List (Line K)) (ho : o ≠ []) :
    ∀ (k m n : Nat), m ≤ n → n < m + k → (∀ i, m ≤ i → i < n → cut data (2 * i ^ 2 + 1) = none) →
    cut data (2 * n ^ 2 + 1) = some (o, nz) → search data m k = .ok (o, nz)
  | 0, m, n, h1, h2, _, _ => by omega
  | k + 1, m, n, h1, h2, h3, h4 => by
    unfold search
    by_cases hmn : m = n
    · subst hmn
      rw [h4]
      cases o with
      | nil => exact absurd rfl ho
      | cons a o => rfl
    · rw [h3 m (le_refl _) (by omega)]
      exact search_found data o nz ho k (m + 1) n (by omega) (by omega) (fun i hi => h3 i (by omega)) h4

theorem search_none (data : List (Line K)) : ∀ (k m : Nat),
    (∀ i, m ≤ i → i < m + k → cut data (2 * i ^ 2 + 1) = none) → search data m k = .error .touchstone
  | 0, m, _ => rfl
  | k + 1, m, h => by
    unfold search
    rw [h m (le_refl _) (by omega)]
    exact search_none data k (m + 1) fun i h1 h2 => h i (by omega) (by omega)

theorem cut_small {data : List (Line K)} {N : Nat} (hN : N % 2 = 1) (h : N * odds data < total data) :
    cut data N = none := by
  cases hc : cut data N with
  | none => rfl
  | some p =>
    obtain ⟨o, nz⟩ := p
    have := cut_count data N hN o nz hc
    omega

theorem sq_odd (i : Nat) : (2 * i ^ 2 + 1) % 2 = 1 := by omega

/-- C18: records of an `n`-port with increasing frequencies are recognised as what they are, if there are at
least two of them, however they are broken into lines. -/
theorem C18_records (n : Nat) (hn : 1 ≤ n) (rs : List (Line K × List (Line K))) (hF : 2 ≤ rs.length)
    (hr : ∀ r ∈ rs, IsRecord (2 * n ^ 2 + 1) r) (hinc : rs.Pairwise fun a b => a.1.1 < b.1.1) :
    processData (lines rs) = .ok (rs.map numbers, []) := by
  obtain ⟨ht, ho⟩ := total_records _ rs hr
  obtain ⟨q, hq⟩ : ∃ q, q = n ^ 2 := ⟨_, rfl⟩
  have hq1 : 1 ≤ q := by rw [hq]; exact Nat.one_le_pow _ _ hn
  have hge : (2 * q + 1) * 2 ≤ total (lines rs) := by
    rw [ht, ← hq]
    exact Nat.mul_le_mul_left _ hF
  unfold processData
  rw [if_neg (by omega)]
  refine search_found _ _ _ (by cases rs <;> simp at hF ⊢) _ 1 n hn ?_ ?_ ?_
  · have : n ≤ Nat.sqrt ((total (lines rs) - 1) / 4) := by
      rw [Nat.le_sqrt']
      rw [← hq]
      omega
    omega
  · intro i h1 h2
    refine cut_small (sq_odd i) ?_
    rw [ho, ht]
    refine Nat.mul_lt_mul_of_pos_right ?_ (by omega)
    have : i ^ 2 < n ^ 2 := Nat.pow_lt_pow_left h2 (by omega)
    omega
  · unfold cut
    have := cut_records (if 2 * n ^ 2 + 1 = 9 then noiseRows else fun _ => none) (2 * n ^ 2 + 1) rs hr [] []
      hinc (by simp)
    rw [List.append_nil, List.nil_append] at this
    rw [this]
    rfl

/-- C18, violated: a file with a single frequency is rejected, whatever the number of ports. -/
theorem C18_single_refuted (n : Nat) (hn : 1 ≤ n) (r : Line K × List (Line K)) (hr : IsRecord (2 * n ^ 2 + 1) r) :
    processData (lines [r]) = .error .touchstone := by
  obtain ⟨ht, ho⟩ := total_records (2 * n ^ 2 + 1) [r] (by simpa using hr)
  unfold processData
  simp only [List.length_singleton, Nat.mul_one] at ht ho
  rw [if_neg (by omega)]
  refine search_none _ _ _ fun i h1 h2 => cut_small (sq_odd i) ?_
  rw [ho, ht]
  have hlt : i ≤ Nat.sqrt ((total (lines [r]) - 1) / 4) := by omega
  rw [Nat.le_sqrt', ht] at hlt
  have : 1 ≤ i ^ 2 := Nat.one_le_pow _ _ h1
  omega

/-- C18: noise parameters that follow the records of a two-port are recognised, if their first frequency is
not higher than the last of the two-port. -/
theorem C18_noise (rs ns : List (Line K × List (Line K))) (hF : 1 ≤ rs.length) (hG : 1 ≤ ns.length)
    (hFG : 3 ≤ rs.length + ns.length) (hr : ∀ r ∈ rs, IsRecord 9 r) (hn : ∀ r ∈ ns, IsRecord 5 r)
    (hinc : rs.Pairwise fun a b => a.1.1 < b.1.1) (hinc' : ns.Pairwise fun a b => a.1.1 < b.1.1)
    (hle : ∀ r ∈ rs.getLast?, ∀ s ∈ ns.head?, s.1.1 ≤ r.1.1) :
    processData (lines rs ++ lines ns) = .ok (rs.map numbers, ns.map numbers) := by
  obtain ⟨ht, ho⟩ := total_records _ rs hr
  obtain ⟨ht', ho'⟩ := total_records _ ns hn
  have hT : total (lines rs ++ lines ns) = 9 * rs.length + 5 * ns.length := by rw [total_append, ht, ht']
  have hO : odds (lines rs ++ lines ns) = rs.length + ns.length := by rw [odds_append, ho, ho']
  unfold processData
  rw [if_neg (by omega)]
  refine search_found _ _ _ (by cases rs <;> simp at hF ⊢) _ 1 2 (by omega) ?_ ?_ ?_
  · have : 2 ≤ Nat.sqrt ((total (lines rs ++ lines ns) - 1) / 4) := by
      rw [Nat.le_sqrt']
      omega
    omega
  · intro i h1 h2
    have : i = 1 := by omega
    subst this
    refine cut_small rfl ?_
    rw [hT, hO]
    omega
  · unfold cut
    simp only [Nat.reducePow, Nat.reduceMul, Nat.reduceAdd, if_true]
    rw [cut_records noiseRows 9 rs hr [] (lines ns) hinc (by simp), List.nil_append]
    obtain ⟨s, ss, hs⟩ : ∃ s ss, ns = s :: ss := by
      cases ns with
      | nil => simp at hG
      | cons s ss => exact ⟨s, ss, rfl⟩
    obtain ⟨l, hl⟩ : ∃ l, rs.getLast? = some l := by
      cases h : rs.getLast? with
      | none => rw [List.getLast?_eq_none_iff] at h; rw [h] at hF; simp at hF
      | some l => exact ⟨l, rfl⟩
    have hl' : (rs.map numbers).getLast? = some (numbers l) := by rw [List.getLast?_map, hl]; rfl
    have hnr : noiseRows (lines ns) = some (ns.map numbers) := by
      unfold noiseRows
      have := cut_records (fun _ => none) 5 ns hn [] [] hinc' (by simp)
      rw [List.append_nil, List.nil_append] at this
      rw [this, hs]
      rfl
    have e : lines ns = s.1 :: (s.2 ++ lines ss) := by rw [hs]; simp [lines]
    have hle' : s.1.1 ≤ (numbers l).1 := hle l (by rw [hl]; rfl) s (by rw [hs]; rfl)
    rw [e]
    simp only [cutWith]
    rw [hl']
    simp only
    rw [if_pos hle', ← e, hnr]

/-- C18, violated: noise parameters at frequencies above those of the two-port make the file invalid. -/
theorem C18_noise_above_refuted :
    processData (K := Nat) [(1, [0, 0, 0, 0, 0, 0, 0, 0]), (2, [0, 0, 0, 0, 0, 0, 0, 0]), (3, [1, 1, 1, 1]),
      (4, [1, 1, 1, 1])] = .error .touchstone := by
  decide +kernel

/-- A three-port with a line for each row of the matrix, and a two-port with noise parameters. -/
example :
    let rs : List (Line Nat × List (Line Nat)) :=
      [((1, [0, 0, 0, 0, 0, 0]), [(0, [0, 0, 0, 0, 0]), (0, [0, 0, 0, 0, 9])]),
       ((2, [0, 0, 0, 0, 0, 0]), [(0, [0, 0, 0, 0, 0]), (0, [0, 0, 0, 0, 8])])]
    (∀ r ∈ rs, IsRecord (2 * 3 ^ 2 + 1) r) ∧ (rs.Pairwise fun a b => a.1.1 < b.1.1) ∧
    processData (lines rs) = .ok ([(1, [0, 0, 0, 0, 0, 0, 0, 0, 0, 0, 0, 0, 0, 0, 0, 0, 0, 9]),
      (2, [0, 0, 0, 0, 0, 0, 0, 0, 0, 0, 0, 0, 0, 0, 0, 0, 0, 8])], []) := by
  refine ⟨?_, by decide, by decide +kernel⟩
  intro r hr
  simp at hr
  rcases hr with rfl | rfl <;> exact ⟨by decide, by decide, by decide⟩

example : processData (K := Nat) [(1, [0, 0, 0, 0, 0, 0, 0, 0]), (2, [0, 0, 0, 0, 0, 0, 0, 0]), (1, [1, 1, 1, 1])] =
    .ok ([(1, [0, 0, 0, 0, 0, 0, 0, 0]), (2, [0, 0, 0, 0, 0, 0, 0, 0])], [(1, [1, 1, 1, 1])]) := by
  decide +kernel

/-- C18, violated where pairs are split between lines: two-ports with three numbers in each line can be
taken for one-ports. -/
theorem C18_split_refuted :
    processData (K := Nat) [(1, [0, 0]), (2, [0, 0]), (3, [0, 0]), (11, [0, 0]), (12, [0, 0]), (13, [0, 0])] =
      .ok ([(1, [0, 0]), (2, [0, 0]), (3, [0, 0]), (11, [0, 0]), (12, [0, 0]), (13, [0, 0])], []) := by
  decide +kernel

end HF.Touchstone
