/-
Time stamps.

repo: hftools/utils.py:30-38
-/
namespace HF.Stamp

/-- `datetime.datetime`, without time zone. -/
structure Time where
  year : Nat
  month : Nat
  day : Nat
  hour : Nat
  minute : Nat
  second : Nat
  micro : Nat
  deriving DecidableEq, Repr

/-- A number with leading zeros, at least `w` characters. -/
def padded (w n : Nat) : List Char :=
  let t := (toString n).toList
  List.replicate (w - t.length) '0' ++ t

/-- `strftime("%Y%m%dT%H%M%S")`.  For years below 1000 the width of `%Y` depends on the platform.
repo: hftools/utils.py:38 -/
def text (t : Time) : List Char :=
  padded 4 t.year ++ padded 2 t.month ++ padded 2 t.day ++ ['T'] ++ padded 2 t.hour ++ padded 2 t.minute ++
    padded 2 t.second

/-- `timestamp(highres)` at the time `now`.  repo: hftools/utils.py:30-38 -/
def timestamp (highres : Bool) (now : Time) : List Char :=
  if highres then
    let s := text now ++ ['.'] ++ padded 6 now.micro
    s.take (s.length - 3)
  else text now

end HF.Stamp
