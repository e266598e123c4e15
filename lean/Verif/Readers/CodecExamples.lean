import Verif.Readers.CodecProps
import Verif.Readers.SavedExamples
/-
C99: the hypotheses are met, and what users see.
-/
namespace HF.Readers.Codec

open HF.Readers.Dispatch

/-- A comment with a degree sign in SP data: the functions for SP data write and read it, `read_data` cannot read it. -/
example : (save utf8 .sp ["!T = 25 °C".toList]).2 = true ∧
    read utf8 .sp (save utf8 .sp ["!T = 25 °C".toList]).1 = some ["!T = 25 °C\n".toList] ∧
    readData utf8 (save utf8 .sp ["!T = 25 °C".toList]).1 = none :=
  C99_sp_refuted _ (by decide +kernel) (by decide +kernel) _ (List.mem_singleton.2 rfl) "!T = 25 ".toList "C".toList '°'
    (by decide +kernel) (by decide +kernel) (by decide +kernel) (by decide +kernel)

/-- The same comment in a CITI file is read with another character before the degree sign. -/
theorem C99_degree_refuted : read utf8 .citi (save utf8 .citi ["!T = 25 °C".toList]).1 = some ["!T = 25 Â°C\n".toList] ∧
    readData utf8 (save utf8 .citi ["CITIFILE A.01.00".toList, "!T = 25 °C".toList]).1 =
      some (.citi, ["CITIFILE A.01.00\n".toList, "!T = 25 Â°C\n".toList]) := by
  constructor <;> decide +kernel

example : ∀ r, read utf8 .citi (save utf8 .citi ["!T = 25 °C".toList]).1 = some r → r ≠ ended ["!T = 25 °C".toList] := by
  intro r hr e
  have := ((C99_utf8_refuted .citi (Or.inr rfl) _ (by decide +kernel)).2.1 r hr).2.1 e
  revert this
  decide +kernel

/-- A name with an accent makes a Touchstone file that cannot be read. -/
example : (save utf8 .touchstone ["!by Ángel".toList]).2 = true ∧
    read utf8 .touchstone (save utf8 .touchstone ["!by Ángel".toList]).1 = none :=
  C99_unreadable_refuted .touchstone (Or.inl rfl) _ _ (List.mem_singleton.2 rfl) 'Á' (by decide +kernel) 0x81 (by decide +kernel)
    (by decide)

/-- An MDIF file with the same comments comes back. -/
example : read utf8 .mdif (save utf8 .mdif ["!by Ángel, 25 °C, Ω".toList]).1 = some ["!by Ángel, 25 °C, Ω\n".toList] :=
  C99_own locale_utf8 .mdif (Or.inl rfl) _ (by decide +kernel) ((C99_complete _).2.1 .mdif (by decide))

/-- The sign for ohms cannot be written as SP data; the lines before it stay in the file. -/
example : save utf8 .sp ["!a".toList, "f\tR [Ω]".toList, "1\t2".toList] = ("!a\n".toList.map Char.toNat, false) := by
  have h := C99_failed locale_utf8 .sp ["!a".toList] ["1\t2".toList] "f\tR [Ω]".toList 'Ω' (by decide +kernel)
    (by decide +kernel) (by decide +kernel)
  have e : save utf8 .sp ["!a".toList] = ("!a\n".toList.map Char.toNat, true) := by decide +kernel
  rw [e] at h
  exact Prod.ext (congrArg Prod.fst h.2.1).symm h.1

/-- In a locale with Windows-1252 the degree sign comes back. -/
example : readData cp1252 (save cp1252 .citi ["CITIFILE A.01.00".toList, "!T = 25 °C".toList]).1 =
    some (.citi, ["CITIFILE A.01.00\n".toList, "!T = 25 °C\n".toList]) :=
  (C99_windows .citi .citi _ (by decide +kernel) ((C99_complete _).2.2 .citi |>.2 (by decide +kernel))).2 .citi (by decide +kernel)

/-- Files in ASCII. -/
example : readData utf8 (save utf8 .touchstone ["# HZ S RI R 50".toList, "1 2 3".toList]).1 =
    some (.touchstone, ["# HZ S RI R 50\n".toList, "1 2 3\n".toList]) :=
  (C99_ascii locale_utf8 .touchstone .touchstone _ (by decide +kernel) (by decide +kernel)).2.2 .touchstone (by decide +kernel)

example : castUnicode (castBytes (.str "µA, Ω".toList)) = .str "µA, ?".toList := by
  rw [(C99_replace _ []).1]
  decide +kernel

end HF.Readers.Codec
