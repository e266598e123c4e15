import Verif.HFArray.Nd
import Mathlib.Data.List.Nodup
import Mathlib.Data.List.Perm.Basic

namespace HF.Nd

variable {α γ : Type}

theorem Valid.length {sh idx : List Nat} (h : Valid sh idx) : idx.length = sh.length := by
  induction sh generalizing idx with
  | nil => cases idx <;> simp [Valid] at h ⊢
  | cons s ss ih =>
    cases idx with
    | nil => simp [Valid] at h
    | cons i is => simp [Valid] at h; simp [ih h.2]

theorem valid_iff {sh idx : List Nat} :
    Valid sh idx ↔ idx.length = sh.length ∧ ∀ k, k < sh.length → idx.getD k 0 < sh.getD k 0 := by
  induction sh generalizing idx with
  | nil => cases idx <;> simp [Valid]
  | cons s ss ih =>
    cases idx with
    | nil => simp [Valid]
    | cons i is =>
      simp only [Valid, ih, List.length_cons, Nat.add_right_cancel_iff]
      constructor
      · rintro ⟨h1, h2, h3⟩
        refine ⟨h2, ?_⟩
        intro k hk
        cases k with
        | zero => simpa using h1
        | succ k => simpa using h3 k (by omega)
      · rintro ⟨h2, h3⟩
        refine ⟨by simpa using h3 0 (by omega), h2, ?_⟩
        intro k hk
        simpa using h3 (k + 1) (by omega)

theorem ravel_lt {sh idx : List Nat} (h : Valid sh idx) : ravel sh idx < size sh := by
  induction sh generalizing idx with
  | nil => cases idx <;> simp [Valid] at h ⊢; simp [ravel, size]
  | cons s ss ih =>
    cases idx with
    | nil => simp [Valid] at h
    | cons i is =>
      simp only [Valid] at h
      simp only [ravel, size]
      have h2 := ih h.2
      calc i * size ss + ravel ss is < i * size ss + size ss := by omega
        _ = (i + 1) * size ss := by rw [Nat.add_mul, Nat.one_mul]
        _ ≤ s * size ss := Nat.mul_le_mul_right _ h.1

theorem unravel_ravel {sh idx : List Nat} (h : Valid sh idx) : unravel sh (ravel sh idx) = idx := by
  induction sh generalizing idx with
  | nil => cases idx <;> simp [Valid] at h ⊢; simp [unravel]
  | cons s ss ih =>
    cases idx with
    | nil => simp [Valid] at h
    | cons i is =>
      simp only [Valid] at h
      have hlt := ravel_lt h.2
      have hpos : 0 < size ss := by omega
      simp only [ravel, unravel]
      have e1 : (i * size ss + ravel ss is) / size ss = i := by
        rw [Nat.mul_comm, Nat.mul_add_div hpos, Nat.div_eq_of_lt hlt]; simp
      have e2 : (i * size ss + ravel ss is) % size ss = ravel ss is := by
        rw [Nat.mul_comm, Nat.mul_add_mod]; exact Nat.mod_eq_of_lt hlt
      rw [e1, e2, ih h.2]

theorem valid_unravel {sh : List Nat} {n : Nat} (h : n < size sh) : Valid sh (unravel sh n) := by
  induction sh generalizing n with
  | nil => simp [unravel, Valid]
  | cons s ss ih =>
    simp only [size] at h
    have hpos : 0 < size ss := by
      rcases Nat.eq_zero_or_pos (size ss) with e | e
      · rw [e] at h; simp at h
      · exact e
    refine ⟨Nat.div_lt_of_lt_mul (by rwa [Nat.mul_comm] at h), ih (Nat.mod_lt _ hpos)⟩

theorem ravel_unravel {sh : List Nat} {n : Nat} (h : n < size sh) : ravel sh (unravel sh n) = n := by
  induction sh generalizing n with
  | nil => simp [size] at h; simp [ravel, h]
  | cons s ss ih =>
    simp only [size] at h
    have hpos : 0 < size ss := by
      rcases Nat.eq_zero_or_pos (size ss) with e | e
      · rw [e] at h; simp at h
      · exact e
    simp only [unravel, ravel, ih (Nat.mod_lt _ hpos)]
    rw [Nat.mul_comm]; exact Nat.div_add_mod n (size ss)

theorem size_append (a b : List Nat) : size (a ++ b) = size a * size b := by
  induction a with
  | nil => simp [size]
  | cons s ss ih => simp [size, ih, Nat.mul_assoc]

theorem ravel_append {a b i j : List Nat} (h : Valid a i) :
    ravel (a ++ b) (i ++ j) = ravel a i * size b + ravel b j := by
  induction a generalizing i with
  | nil => cases i <;> simp [Valid] at h ⊢; simp [ravel]
  | cons s ss ih =>
    cases i with
    | nil => simp [Valid] at h
    | cons x xs =>
      simp only [Valid] at h
      simp only [List.cons_append, ravel, ih h.2, size_append]
      rw [Nat.add_mul, Nat.mul_assoc, Nat.add_assoc]

theorem valid_append {a b i j : List Nat} (hi : i.length = a.length) :
    Valid (a ++ b) (i ++ j) ↔ Valid a i ∧ Valid b j := by
  induction a generalizing i with
  | nil =>
    have : i = [] := List.length_eq_zero_iff.1 (by simpa using hi)
    subst this; simp [Valid]
  | cons s ss ih =>
    cases i with
    | nil => simp at hi
    | cons x xs =>
      simp only [List.length_cons, Nat.add_right_cancel_iff] at hi
      simp only [List.cons_append, Valid, ih hi, and_assoc]

/-- Inserting axes of length one does not change row-major positions. -/
theorem ravel_insertOnes (l : List (Option Nat)) (idx : List Nat)
    (h : Valid (l.map fun o => o.getD 1) idx) :
    ravel (l.map fun o => o.getD 1) idx =
      ravel (l.filterMap id) ((l.zip idx).filterMap fun p => p.1.map fun _ => p.2) ∧
    Valid (l.filterMap id) ((l.zip idx).filterMap fun p => p.1.map fun _ => p.2) ∧
    size (l.map fun o => o.getD 1) = size (l.filterMap id) := by
  induction l generalizing idx with
  | nil => cases idx <;> simp [Valid] at h ⊢ <;> simp [ravel]
  | cons o t ih =>
    cases idx with
    | nil => simp [Valid] at h
    | cons i is =>
      simp only [List.map_cons, Valid] at h
      obtain ⟨h1, h2, h3⟩ := ih is h.2
      cases o with
      | none =>
        have : i = 0 := by simpa using h.1
        subst this
        simp only [List.map_cons, Option.getD_none, ravel, Nat.zero_mul, Nat.zero_add, h1,
          List.filterMap_cons, id, List.zip_cons_cons, Option.map_none, size, h3,
          Nat.one_mul]
        exact ⟨trivial, h2, trivial⟩
      | some s =>
        simp only [List.map_cons, Option.getD_some, ravel, h1, List.filterMap_cons, id,
          List.zip_cons_cons, Option.map_some, Valid, size, h3]
        exact ⟨trivial, ⟨h.1, h2⟩, trivial⟩

theorem size_insertOnes (l : List (Option Nat)) :
    size (l.map fun o => o.getD 1) = size (l.filterMap id) := by
  induction l with
  | nil => rfl
  | cons o t ih => cases o <;> simp [size, ih]

theorem isPerm_iff {order : List Nat} {n : Nat} :
    isPerm order n = true ↔ order.length = n ∧ ∀ k < n, k ∈ order := by
  simp [isPerm]

theorem isPerm_of_nodup {order : List Nat} {n : Nat} (hn : order.Nodup)
    (h : ∀ k, k ∈ order ↔ k < n) : isPerm order n = true := by
  have : order.Perm (List.range n) :=
    (List.perm_ext_iff_of_nodup hn List.nodup_range).2 (by intro a; rw [h]; simp)
  rw [isPerm_iff]
  exact ⟨by simpa using this.length_eq, fun k hk => (h k).2 hk⟩

theorem perm_of_isPerm {order : List Nat} {n : Nat} (h : isPerm order n = true) :
    order.Perm (List.range n) := by
  rw [isPerm_iff] at h
  have hs : (List.range n).Subperm order := by
    apply List.subperm_of_subset List.nodup_range
    intro k hk; exact h.2 k (by simpa using hk)
  exact (hs.perm_of_length_le (by simp [h.1])).symm

theorem bshape_length {s t r : List Nat} (h : bshape s t = .ok r) :
    s.length = r.length ∧ t.length = r.length := by
  induction s generalizing t r with
  | nil => cases t <;> simp [bshape] at h; subst h; simp
  | cons a ss ih =>
    cases t with
    | nil => simp [bshape] at h
    | cons b ts =>
      simp only [bshape] at h
      cases hb : bshape ss ts with
      | error e => simp [hb] at h
      | ok q =>
        have := ih hb
        simp only [hb] at h
        split at h
        · cases h; simp [this]
        · split at h
          · cases h; simp [this]
          · split at h
            · cases h; simp [this]
            · cases h

theorem bshape_valid {s t r idx : List Nat} (h : bshape s t = .ok r) (hv : Valid r idx) :
    Valid s (bidx s idx) ∧ Valid t (bidx t idx) := by
  induction s generalizing t r idx with
  | nil =>
    cases t <;> simp [bshape] at h
    subst h
    cases idx <;> simp [Valid] at hv
    simp [bidx, Valid]
  | cons a ss ih =>
    cases t with
    | nil => simp [bshape] at h
    | cons b ts =>
      simp only [bshape] at h
      cases hb : bshape ss ts with
      | error e => simp [hb] at h
      | ok q =>
        simp only [hb] at h
        cases idx with
        | nil => have := (bshape_length hb); split at h <;> (try split at h) <;> (try split at h) <;>
                   cases h <;> simp [Valid] at hv
        | cons i is =>
          have key : ∀ x, r = x :: q → Valid q is → ((a = b ∧ x = a) ∨ (a = 1 ∧ x = b) ∨ (b = 1 ∧ x = a)) →
              i < x → Valid (a :: ss) (bidx (a :: ss) (i :: is)) ∧
                Valid (b :: ts) (bidx (b :: ts) (i :: is)) := by
            intro x _ hq hx hi
            obtain ⟨h1, h2⟩ := ih hb hq
            simp only [bidx, List.zipWith_cons_cons, Valid]
            refine ⟨⟨?_, h1⟩, ⟨?_, h2⟩⟩ <;> split <;> omega
          split at h
          · rename_i e; cases h; simp only [Valid] at hv
            exact key a rfl hv.2 (Or.inl ⟨e, rfl⟩) hv.1
          · split at h
            · rename_i e; cases h; simp only [Valid] at hv
              exact key b rfl hv.2 (Or.inr (Or.inl ⟨e, rfl⟩)) hv.1
            · split at h
              · rename_i e; cases h; simp only [Valid] at hv
                exact key a rfl hv.2 (Or.inr (Or.inr ⟨e, rfl⟩)) hv.1
              · cases h

theorem bshape_ok_iff {s t : List Nat} :
    (∃ r, bshape s t = .ok r) ↔ s.length = t.length ∧
      ∀ k < s.length, s.getD k 0 = t.getD k 0 ∨ s.getD k 0 = 1 ∨ t.getD k 0 = 1 := by
  induction s generalizing t with
  | nil => cases t <;> simp [bshape]
  | cons a ss ih =>
    cases t with
    | nil => simp [bshape]
    | cons b ts =>
      have ih := @ih ts
      constructor
      · rintro ⟨r, h⟩
        simp only [bshape] at h
        cases hb : bshape ss ts with
        | error e => simp [hb] at h
        | ok q =>
          obtain ⟨h1, h2⟩ := ih.1 ⟨q, hb⟩
          refine ⟨by simp [h1], ?_⟩
          intro k hk
          cases k with
          | zero =>
            simp only [hb] at h
            simp only [List.getD_cons_zero]
            split at h
            · left; assumption
            · split at h
              · right; left; assumption
              · split at h
                · right; right; assumption
                · cases h
          | succ k => simpa using h2 k (by simpa using hk)
      · rintro ⟨h1, h2⟩
        obtain ⟨q, hq⟩ := ih.2 ⟨by simpa using h1, fun k hk => by
          simpa using h2 (k + 1) (by simpa using hk)⟩
        simp only [bshape, hq]
        have h0 := h2 0 (by simp)
        simp only [List.getD_cons_zero] at h0
        split
        · exact ⟨_, rfl⟩
        · split
          · exact ⟨_, rfl⟩
          · split
            · exact ⟨_, rfl⟩
            · omega

theorem bshape_getD {s t r : List Nat} (h : bshape s t = .ok r) (k : Nat) :
    r.getD k 0 = if s.getD k 0 = t.getD k 0 then s.getD k 0
      else if s.getD k 0 = 1 then t.getD k 0 else s.getD k 0 := by
  induction s generalizing t r k with
  | nil => cases t <;> simp [bshape] at h; subst h; simp
  | cons a ss ih =>
    cases t with
    | nil => simp [bshape] at h
    | cons b ts =>
      simp only [bshape] at h
      cases hb : bshape ss ts with
      | error e => simp [hb] at h
      | ok q =>
        simp only [hb] at h
        cases k with
        | zero =>
          simp only [List.getD_cons_zero]
          split at h
          · rename_i e; cases h; simp [e]
          · split at h
            · rename_i e1 e2; cases h; simp only [List.getD_cons_zero]; rw [if_neg e1, if_pos e2]
            · split at h
              · rename_i e1 e2 e3; cases h; simp only [List.getD_cons_zero]
                rw [if_neg e1, if_neg e2]
              · cases h
        | succ k =>
          simp only [List.getD_cons_succ]
          have := ih hb k
          split at h
          · cases h; simpa using this
          · split at h
            · cases h; simpa using this
            · split at h
              · cases h; simpa using this
              · cases h

end HF.Nd
