import Verif.DataBlock.Split
import Verif.DataBlock.Squeeze
/-
Model of `merge_blocks`, which combines the blocks of several files.

repo: hftools/file_formats/merge.py:150-221
-/
namespace HF.Merge

open HF.DataDict.Spec
open HF.DataBlock

variable {β α : Type}

/-- `get_partials(db)`: the partial sweeps of a block.  Keys are unique, so the lists of the
code have one entry each.  The code has a plain dictionary; its order is taken to be that of the block.  repo: hftools/file_formats/merge.py:150-155 -/
def partials (b : Block β α) : OMap String (Dim β) := b.ivars.filter fun p => p.2.isa .dimPartial

/-- `for k, v in parts.items(): partgroup.setdefault(k, []).extend(v)`.
repo: hftools/file_formats/merge.py:165-166 -/
def extendGroup (g : OMap String (List (Dim β))) (parts : OMap String (Dim β)) :
    OMap String (List (Dim β)) :=
  parts.foldl (fun g p => assign g p.1 ((lookup g p.1).getD [] ++ [p.2])) g

/-- Blocks are grouped by the tuple of the names of their partial sweeps.
repo: hftools/file_formats/merge.py:160-166 -/
def groups (blocks : List (Block β α)) : OMap (List String) (OMap String (List (Dim β))) :=
  blocks.foldl (fun gs b =>
    assign gs (keys (partials b)) (extendGroup ((lookup gs (keys (partials b))).getD []) (partials b))) []

/-- `DimSweep("INDEX%s" % idx, n)`; `ofIdx` embeds natural numbers into coordinate values.
repo: hftools/file_formats/merge.py:170 -/
def indexDim (ofIdx : Nat → β) (idx n : Nat) : Dim β :=
  ⟨.dimSweep, "INDEX" ++ toString idx, (List.range n).map ofIdx, none, none⟩

/-- `hfarray([x.data[0] for x in v], dims=dims)`; a sweep without values raises `IndexError`.
repo: hftools/file_formats/merge.py:171-172 -/
def indexVar (env : Env β α) (ofIdx : Nat → β) (idx : Nat) (v : List (Dim β)) :
    Except Err (Arr β α) :=
  match v.mapM fun d => d.data.head? with
  | none => .error .indexError
  | some l => .ok ⟨[indexDim ofIdx idx v.length],
      ⟨[v.length], fun i => (l.map env.toVal).getD (i.headD 0) env.junk⟩⟩

/-- The values of the partial sweeps of one group.  repo: hftools/file_formats/merge.py:169-172 -/
def putIndexVars (env : Env β α) (ofIdx : Nat → β) (idx : Nat) :
    Block β α → List (String × List (Dim β)) → Except Err (Block β α)
  | db, [] => .ok db
  | db, (k, v) :: t =>
    match indexVar env ofIdx idx v with
    | .error e => .error e
    | .ok a =>
      match setArr env db k a with
      | (_, .error e) => .error e
      | (db', .ok _) => putIndexVars env ofIdx idx db' t

/-- All groups, numbered from one.  repo: hftools/file_formats/merge.py:168-172 -/
def putGroups (env : Env β α) (ofIdx : Nat → β) :
    Nat → Block β α → List (OMap String (List (Dim β))) → Except Err (Block β α)
  | _, db, [] => .ok db
  | idx, db, g :: t =>
    match putIndexVars env ofIdx idx db g with
    | .error e => .error e
    | .ok db' => putGroups env ofIdx (idx + 1) db' t

/-- `for k, v in b.ivardata.items(): if k not in db: db[k] = v`.
repo: hftools/file_formats/merge.py:176-178 -/
def addIvars (db : Block β α) (iv : OMap String (Dim β)) : Block β α :=
  iv.foldl (fun db p => if contains db p.1 then db else setDim db p.1 p.2) db

/-- `hfarray([a, b, ...], dims=dims)` for a nonempty list of arrays: stacked along a new first
axis.  numpy wants equal shapes; the number of dims must be that of the axes.
repo: hftools/file_formats/merge.py:196 -/
def stack (dims : List (Dim β)) (v0 : Arr β α) (vs : List (Arr β α)) : Except Arr.Err (Arr β α) :=
  if (v0 :: vs).all fun v => v.nd.shape == v0.nd.shape then
    Arr.mk? ⟨(v0 :: vs).length :: v0.nd.shape,
      fun idx => ((v0 :: vs).getD (idx.headD 0) v0).nd.get idx.tail⟩ dims
  else .error .valueError

/-- `[b[vname] for b in blocks if vname in b]`.  repo: hftools/file_formats/merge.py:184-189 -/
def collect (env : Env β α) (n : String) : List (Block β α) → Except Err (List (Arr β α))
  | [] => .ok []
  | b :: bs =>
    if contains b n then
      match getitem env b n, collect env n bs with
      | .ok v, .ok vs => .ok (v :: vs)
      | .error e, _ => .error e
      | _, .error e => .error e
    else collect env n bs

/-- `ri`: the index dim of the group of the *last* block that has the variable.
repo: hftools/file_formats/merge.py:188-194 -/
def indexDims [DecidableEq β] (env : Env β α) (db : Block β α) (n : String)
    (blocks : List (Block β α)) : Except Err (List (Dim β)) :=
  match (blocks.filter fun b => contains b n).getLast? with
  | none => .ok []
  | some b =>
    match partials b with
    | [] => .ok []
    | p :: _ =>
      match getitem env db p.1 with
      | .error e => .error e
      | .ok a =>
        match a.dims with
        | d :: _ => .ok [d]
        | [] => .error .indexError

/-- `if v[0].dims and isinstance(v[0].dims[0], DimSweep): value = value.reorder_dimensions(v[0].dims[0])`.
repo: hftools/file_formats/merge.py:205-206 -/
def sweepFirst [DecidableEq β] (dims : List (Dim β)) (a : Arr β α) : Except Arr.Err (Arr β α) :=
  match dims with
  | d :: _ => if d.isa .dimSweep then a.reorderDimensions [.dim d] else .ok a
  | [] => .ok a

/-- One variable.  repo: hftools/file_formats/merge.py:183-208 without the handling of
strings -/
def mergeVar [DecidableEq β] (env : Env β α) (db : Block β α) (blocks : List (Block β α))
    (n : String) : Except Err (Block β α) :=
  match collect env n blocks with
  | .error e => .error e
  | .ok [] => .ok db
  | .ok (v0 :: vs) =>
    match indexDims env db n blocks with
    | .error e => .error e
    | .ok ri =>
      match ofArr (stack (ri ++ v0.dims) v0 vs) with
      | .error e => .error e
      | .ok a =>
        match ofArr (sweepFirst v0.dims a) with
        | .error e => .error e
        | .ok a' =>
          match setArr env db n a' with
          | (_, .error e) => .error e
          | (db', .ok _) => .ok db'

/-- All variables.  repo: hftools/file_formats/merge.py:183-208 -/
def mergeVars [DecidableEq β] (env : Env β α) (blocks : List (Block β α)) :
    Block β α → List String → Except Err (Block β α)
  | db, [] => .ok db
  | db, n :: ns =>
    match mergeVar env db blocks n with
    | .error e => .error e
    | .ok db' => mergeVars env blocks db' ns

/-- `merge_blocks(blocks)` with `hyper=False` up to the final `squeeze`.  The names of the
variables are a set, enumerated in some order `en`.
repo: hftools/file_formats/merge.py:158-208 -/
def mergeUnsqueezed [DecidableEq β] (env : Env β α) (ofIdx : Nat → β) (en : Enum String)
    (blocks : List (Block β α)) : Except Err (Block β α) :=
  match putGroups env ofIdx 1 {} ((groups blocks).map Prod.snd) with
  | .error e => .error e
  | .ok db =>
    mergeVars env blocks (blocks.foldl (fun db b => addIvars db b.ivars) db)
      (en.f (blocks.flatMap fun b => keys b.vars).dedup)

/-- `merge_blocks(blocks)` with `hyper=False`.  repo: hftools/file_formats/merge.py:158-221 -/
def merge [DecidableEq β] (env : Env β α) (ofIdx : Nat → β) (en : Enum String)
    (blocks : List (Block β α)) : Except Err (Block β α) :=
  match mergeUnsqueezed env ofIdx en blocks with
  | .error e => .error e
  | .ok db => squeezeBlock env db

end HF.Merge
