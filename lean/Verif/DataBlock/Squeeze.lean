import Verif.DataBlock.Model
/-
Model of `DataBlock.squeeze`.

repo: hftools/dataset/dataset.py:712-720
-/
namespace HF.DataBlock

open HF.DataDict.Spec

variable {β α : Type}

/-- `for v in self.vardata.keys(): db[v] = self[v].squeeze()`.
repo: hftools/dataset/dataset.py:716-717 -/
def squeezeLoop (env : Env β α) (b : Block β α) : Block β α → List String → Except Err (Block β α)
  | db, [] => .ok db
  | db, n :: ns =>
    match getitem env b n with
    | .error e => .error e
    | .ok v =>
      match ofArr (v.squeezeIdx none) with
      | .error e => .error e
      | .ok s =>
        match setArr env db n s with
        | (_, .error e) => .error e
        | (db', .ok _) => squeezeLoop env b db' ns

/-- `db.squeeze()`.  repo: hftools/dataset/dataset.py:712-720 without name and comments -/
def squeezeBlock (env : Env β α) (b : Block β α) : Except Err (Block β α) :=
  match squeezeLoop env b {} (b.vars.map Prod.fst) with
  | .error e => .error e
  | .ok db => .ok (b.ivars.foldl (fun db p => setDim db p.1 p.2) db)

end HF.DataBlock
