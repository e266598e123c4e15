/-
Model of how the text formats write their files: `open(name, "w")`, calls of `write` which go through a buffer, and
`close`, with exceptions in between, with the end of the program in between, and with a file that stays open.

repo: hftools/file_formats/citi.py:246-252, touchstone.py:227-254, mdif.py:514-521, spdata.py:179-191
-/
namespace HF
namespace Saving

abbrev Text := List Char

inductive Err where
  /-- A character that the encoding of the file does not have. -/
  | encode
  /-- An exception while the next text is made, by number. -/
  | other (n : Nat)
  deriving DecidableEq

/-- An open file: what is on the disk, and what is in the buffer. -/
structure File where
  disk : Text
  buf : Text
  deriving DecidableEq

/-- `fil.write(s)`: the first `n` characters of what is in the buffer then go to the disk (Python library decides how
many).  Characters stand for what they are encoded to. -/
def File.write (f : File) (s : Text) (n : Nat) : File :=
  ⟨f.disk ++ (f.buf ++ s).take n, (f.buf ++ s).drop n⟩

/-- The calls of `write` one after another; making the next text may raise an exception, and so may `write` if the
encoding does not have a character (then nothing of this text is written).
repo: hftools/file_formats/citi.py:250-252, touchstone.py:231-254, mdif.py:516-520, spdata.py:186-188 -/
def loop (has : Char → Bool) : List (Except Nat Text) → List Nat → File → File × Option Err
  | [], _, f => (f, none)
  | .error e :: _, _, f => (f, some (.other e))
  | .ok s :: t, ns, f =>
    if s.all has then loop has t ns.tail (f.write s (ns.headD 0)) else (f, some .encode)

/-- Whether the file is opened in a `with` statement. -/
inductive Kind where
  | withStatement
  | plain
  deriving DecidableEq

inductive Format where
  | citi
  | touchstone
  | mdif
  | spdata

/-- repo: hftools/file_formats/citi.py:249, touchstone.py:230, mdif.py:515, spdata.py:183 (a file name, no file) -/
def Format.kind : Format → Kind
  | .citi => .withStatement
  | .touchstone => .withStatement
  | .mdif => .plain
  | .spdata => .plain

/-- What is on the disk afterwards, the buffer of a file that has stayed open, and the exception. -/
structure Result where
  disk : Text
  left : Option Text
  raised : Option Err
  deriving DecidableEq

/-- Opening for writing empties the file; `close` writes the buffer.
repo: hftools/file_formats/citi.py:249-252, touchstone.py:230-254, mdif.py:515-521, spdata.py:183-191 -/
def save (fmt : Format) (has : Char → Bool) (items : List (Except Nat Text)) (ns : List Nat) : Result :=
  match loop has items ns ⟨[], []⟩ with
  | (f, none) => ⟨f.disk ++ f.buf, none, none⟩
  | (f, some e) =>
    match fmt.kind with
    | .withStatement => ⟨f.disk ++ f.buf, none, some e⟩
    | .plain => ⟨f.disk, some f.buf, some e⟩

/-- The file on the disk if the program is ended before it is opened (`0`) or after `k` of the texts: the buffer is lost. -/
def killed (has : Char → Bool) (items : List (Except Nat Text)) (ns : List Nat) (old : Text) : Nat → Text
  | 0 => old
  | k + 1 => (loop has (items.take k) ns ⟨[], []⟩).1.disk

/-- A file that has stayed open writes its buffer when it is thrown away, at the place where it is: behind what it has
written itself, whatever is in the file now.  Python library; a gap is filled with zeros. -/
def throwAway (r : Result) (now : Text) : Text :=
  match r.left with
  | none => now
  | some [] => now
  | some buf =>
    now.take r.disk.length ++ List.replicate (r.disk.length - now.length) (Char.ofNat 0) ++ buf ++
      now.drop (r.disk.length + buf.length)

/-- Lines, each written with its end.  repo: hftools/file_formats/citi.py:250-252, mdif.py:518-520, spdata.py:186-188 -/
def lines : List (Except Nat Text) → List (Except Nat Text)
  | [] => []
  | .ok l :: t => .ok l :: .ok ['\n'] :: lines t
  | .error e :: t => .error e :: lines t

/-- `save_touchstone`: comments, scalars and the option line are written before the matrix `db.S` is looked at; `rows`
are the lines with numbers, or the exception if there is no `S` or its columns can not be made.
repo: hftools/file_formats/touchstone.py:231-254 -/
def touchstoneItems (comments : List Text) (scalars : List (Except Nat Text)) (rows : Except Nat (List (Except Nat Text))) :
    List (Except Nat Text) :=
  comments.flatMap (fun c => [.ok ('!' :: c), .ok ['\n']]) ++ scalars.map (fun s => s.map fun s => '!' :: s ++ ['\n']) ++
  [.ok "#HZ S RI R 50\n".toList] ++
  match rows with
  | .ok rs => lines rs
  | .error e => [.error e]

end Saving
end HF
