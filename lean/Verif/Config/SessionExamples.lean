import Verif.Config.SessionProps
/-
C100: concrete sessions, to which the theorems apply.
-/
namespace HF
namespace Config
namespace Session
namespace Ex

/-- A number, a date, a path, an array, a list of two. -/
inductive Value
  | num (n : Nat)
  | date (n : Nat)
  | text (n : Nat)
  | path
  | array
  | two (a b : Nat)
  deriving DecidableEq

/-- Dates are read as texts, paths cannot be read, arrays cannot be written. -/
def world : World String Value String where
  fate
    | .num n => .readAs (.num n)
    | .date n => .readAs (.text n)
    | .text n => .readAs (.text n)
    | .path => .unreadable
    | .array => .refused
    | .two a b => .readAs (.two a b)
  pair
    | .num _ => .notIterable
    | .date _ => .notIterable
    | .text n => if n = 2 then .two "c" (.text 1) else .otherLength
    | .path => .otherLength
    | .array => .unhashable
    | .two a b => .two (if a = 0 then "zero" else "more") (.num b)
  order := fun l => l.reverse
  writable f := f ≠ "readonly"

def g : Value → Value
  | .date n => .text n
  | v => v

def files : String → Option (Content String Value)
  | "a" => some (.doc (.map [("gain", .num 1), ("att", .num 2), ("gain", .num 3)]))
  | "pairs" => some (.doc (.seq [.two 0 7, .two 1 8]))
  | "broken" => some .bad
  | _ => none

def ops : List (Op String Value String) :=
  [.new .lexical "a", .set 0 "date" (.date 9), .del 0 "att", .new .plain "b", .set 1 "gain" (.num 5)]

def s : State String Value String := run world ⟨files, []⟩ ops

theorem reached : Reached world s := ⟨files, ops, rfl⟩

theorem s_objs : s.objs = [⟨.lexical, "a", [("gain", .num 3), ("date", .date 9)]⟩, ⟨.plain, "b", [("gain", .num 5)]⟩] := by
  decide +kernel

-- the session of `C100_current`: the settings after loading, setting and deleting
example : ∃ o, s.objs[0]? = some o ∧ o.filename = "a" ∧ o.entries.lookup "gain" = some (.num 3) ∧
    o.entries.lookup "date" = some (.date 9) ∧ o.entries.lookup "att" = none := by
  rw [s_objs]; exact ⟨_, rfl, rfl, by decide +kernel, by decide +kernel, by decide +kernel⟩

example : changed 0 (told [("gain", Value.num 1), ("att", .num 2), ("gain", .num 3)])
    [.set 0 "date" (.date 9), .del 0 "att", (.new .plain "b" : Op String Value String), .set 1 "gain" (.num 5)] "att" = none := by
  decide +kernel

/-- `C100_saved` for two objects and another file: written by the first, renamed and read by the second. -/
example : ∃ o3, (step world (run world s [.write 0 (some "c"), .rename 1 "c", .set 0 "gain" (.num 4)]) (.reload 1)).1.objs[1]? =
    some o3 ∧ ∀ k, o3.entries.lookup k = ([("gain", Value.num 3), ("date", .date 9)].lookup k).map g := by
  have h := C100_saved world (fun l => List.reverse_perm l) s reached 0 1
    ⟨.lexical, "a", [("gain", .num 3), ("date", .date 9)]⟩ ⟨.plain, "c", [("gain", .num 5)]⟩ (some "c")
    [.rename 1 "c", .set 0 "gain" (.num 4)] g (by rw [s_objs]; rfl) rfl
    (by intro p hp; simp only [List.mem_cons, List.not_mem_nil, or_false] at hp; rcases hp with e | e <;> subst e <;> rfl)
    ⟨fun h => h, fun h => h, trivial⟩ (by simp only [run, List.foldl, step, s_objs, List.getElem?_cons_zero,
      List.getElem?_cons_succ, List.set]) rfl
  exact h.2.2

/-- `C100_protected` -/
example : (step world s (.write 0 (some "readonly"))).2 = .ioError :=
  (C100_protected world s 0 _ (some "readonly") (by rw [s_objs]; rfl) (by decide +kernel)).1

/-- `C100_missing`: object 1 belongs to a file that does not exist. -/
example : (step world s (.reload 1)).2 = .missing := by
  refine (C100_missing world s 1 ⟨.plain, "b", [("gain", .num 5)]⟩ (by rw [s_objs]; rfl) ?_).1
  rfl

/-- `C100_pairs`: a list of pairs is read by `Config` and not by `LexicalConfig`. -/
example : (step world ⟨files, []⟩ (.new .plain "pairs")).2 = .done ∧
    (step world ⟨files, []⟩ (.new .lexical "pairs")).2 = .attributeError := by decide +kernel

/-- `C100_emptied_refuted`: someone spoils the file. -/
example : ∃ o', (step world (run world s [.other "a" (some .bad)]) (.reload 0)).1.objs[0]? = some o' ∧
    ∀ k, o'.entries.lookup k = none :=
  (C100_emptied_refuted world _ 0 ⟨.lexical, "a", [("gain", .num 3), ("date", .date 9)]⟩
    (by show s.objs[0]? = _; rw [s_objs]; rfl) rfl).2

/-- `C100_lost_refuted`: an array among the settings. -/
example : (run world s [.set 0 "data" .array, .write 0 none]).files "a" = some (.doc .nothing) := by
  have h := C100_lost_refuted world (step world s (.set 0 "data" .array)).1 0
    ⟨.lexical, "a", [("gain", .num 3), ("date", .date 9), ("data", .array)]⟩ none ("data", .array) []
    (by simp only [step, s_objs]; rfl) rfl (by simp) rfl trivial
  exact h.2.1

/-- `C100_unreadable_refuted`: a path among the settings. -/
example : (step world (step world (step world s (.set 0 "file" .path)).1 (.write 0 none)).1 (.reload 0)).2 = .yamlError :=
  (C100_unreadable_refuted world (step world s (.set 0 "file" .path)).1 0
    ⟨.lexical, "a", [("gain", .num 3), ("date", .date 9), ("file", .path)]⟩ ("file", .path)
    (by simp only [step, s_objs]; rfl) rfl (by simp) rfl
    (by intro q hq; simp only [List.mem_cons, List.not_mem_nil, or_false] at hq
        rcases hq with e | e | e <;> subst e <;> simp [world])).2.1

end Ex
end Session
end Config
end HF
