import Verif.Touchstone.ReadProps
import Verif.Readers.Given
import Verif.Readers.OneFile
import Verif.Sp.CommentProps
/-
Touchstone files with all steps of the reader.

repo: hftools/file_formats/touchstone.py:56-79, 150-204, 256-269, hftools/file_formats/readbase.py:307-341
-/
namespace HF.Touchstone

open DataBlock (writes Enum)
open HF.DataDict.Spec
open HF.Readers HF.Readers.Treat
open HF.Readers.FixUnit (UBlock)

variable {β α : Type}

/-- Numbers as elements of arrays: coordinates, real and complex numbers, and `10 ** (x / 10)`. -/
structure Vals (β α : Type) where
  coord : ℚ → β
  real : ℚ → α
  cplx : Cplx → α
  power : ℚ → α

/-- `len(f) == len(fn) and np.allclose(f, fn)`, without rounding.
repo: hftools/file_formats/touchstone.py:187 -/
def sameFreqs (f fn : List ℚ) : Bool :=
  decide (f.length = fn.length) && (f.zip fn).all fun p => decide (|p.1 - p.2| ≤ 1 / 10 ^ 8 + 1 / 10 ^ 5 * |p.2|)

/-- `DimSweep("freq", f, unit="Hz")`.  repo: hftools/file_formats/touchstone.py:186 -/
def freqDim (V : Vals β α) (b : Block) : Dim β := ⟨.dimSweep, "freq", b.freq.map V.coord, some "Hz", none⟩

/-- `noisedims`.  repo: hftools/file_formats/touchstone.py:187-192 -/
def noiseDim (V : Vals β α) (b : Block) (nz : List (ℚ × ℚ × Cplx × ℚ)) : Dim β :=
  if sameFreqs b.freq (nz.map fun x => x.1) then freqDim V b
  else ⟨.dimSweep, "freqn", nz.map (fun x => V.coord x.1), some "Hz", none⟩

/-- `make_matrix(out, dims)`; the records all have the same number of elements, so the elements are there.
repo: hftools/file_formats/touchstone.py:175-184, 193, hftools/dataset/arrayobj.py:1014-1017 -/
def matrixArr (V : Vals β α) (num : Nat → β) (b : Block) : Arr β α where
  dims := [freqDim V b, ⟨.matI, "i", (List.range b.ports).map num, none, none⟩,
    ⟨.matJ, "j", (List.range b.ports).map num, none, none⟩]
  nd := ⟨[b.freq.length, b.ports, b.ports], fun idx =>
    V.cplx ((b.elem (idx.getD 0 0) (idx.getD 1 0) (idx.getD 2 0)).getD (0, 0))⟩

/-- A column over the frequencies of the noise parameters. -/
def noiseArr (V : Vals β α) (b : Block) (nz : List (ℚ × ℚ × Cplx × ℚ)) (f : ℚ × ℚ × Cplx × ℚ → α) : Arr β α where
  dims := [noiseDim V b nz]
  nd := ⟨[nz.length], fun idx => f (nz.getD (idx.getD 0 0) (0, 0, (0, 0), 0))⟩

/-- The variables in the order of assignment.  repo: hftools/file_formats/touchstone.py:195-203 -/
def arrays (V : Vals β α) (num : Nat → β) (b : Block) : List (String × Arr β α) :=
  [(String.ofList b.par, matrixArr V num b)] ++
    (match b.noise with
      | none => []
      | some nz => [("Rn", noiseArr V b nz fun x => V.real x.2.2.2), ("Fmin", noiseArr V b nz fun x => V.power x.2.1),
          ("Gopt", noiseArr V b nz fun x => V.cplx x.2.2.1)]) ++
    [("Z0", ⟨[], ⟨[], fun _ => V.real b.z0⟩⟩)]

/-- The block that `proc_info` gives back, and the units of its variables.
repo: hftools/file_formats/touchstone.py:186-204 -/
def toBlock (env : DataBlock.Env β α) (V : Vals β α) (num : Nat → β) (b : Block) : Except DataBlock.Err (UBlock β α) :=
  match writes env {} (arrays V num b) with
  | .error e => .error e
  | .ok d => .ok ⟨d, fun k => if k = "Z0" then some "Ohm" else none⟩

/-- The block of a Touchstone file after all steps, with the default arguments of `read_touchstone`.  An exception of the
parser is not told apart from others here.  `make_block_complex` does not touch the units of variables that it leaves as
they are.
repo: hftools/file_formats/readbase.py:307-321, hftools/file_formats/touchstone.py:56-79, 256-269 -/
def block (fenv : Env) (env : DataBlock.Env β α) (V : Vals β α) (S : Steps β α) (lines : List (List Char)) :
    Except DataBlock.Err (UBlock β α) :=
  match addLines fenv ⟨[], none, []⟩ lines, read fenv lines with
  | .ok p, .ok b =>
    match toBlock env V S.num b with
    | .error e => .error e
    | .ok u =>
      match Complex.makeCplx env S.full S.rect S.polar u.blk with
      | .error e => .error e
      | .ok b1 => laterOn [.digits] env S (Comments.properties p.comments) ⟨b1, u.units⟩
  | _, _ => .error .valueError

/-- `read_touchstone(name)` for one file with its default arguments.
repo: hftools/file_formats/touchstone.py:256-269, hftools/file_formats/readbase.py:265-341 -/
def readTouchstone [DecidableEq β] (fenv : Env) (env : DataBlock.Env β α) (V : Vals β α) (S : Steps β α) (ofIdx : Nat → β)
    (en : Enum String) (ofName : String → α) (name : String) (lines : List (List Char)) :
    Except Files.RErr (DataBlock.Block β α) :=
  Files.readFiles env ofIdx en ofName true
    (fun ls => match block fenv env V S ls with
      | .error e => .error e
      | .ok u => .ok [u.blk]) [(name, lines)]

end HF.Touchstone
