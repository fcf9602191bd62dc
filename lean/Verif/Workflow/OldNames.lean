import Verif.Workflow.Catalogue
/-
Documents of archives of former versions, which name the ports of the block: `set_block_variable_names_from_dict`, workflow/blocks.py 61-73.
-/
namespace DC.Cat
open DC.Wkf

variable {τ α ω : Type} (E : Setting τ α ω)

/-- The loops on `zip(dict_["input_names"], obj.inputs)`: workflow/blocks.py 66-67, 69-71. -/
def rename : List String → List (Var τ α) → List (Var τ α)
  | s :: ss, x :: xs => { x with name := s } :: rename ss xs
  | _, xs => xs

/-- `if "input_names" in dict_`: workflow/blocks.py 65-67, 68-71.  Simplification: the entry is a list of strings, and anything else is
refused. -/
def renameAt (d : J) (k : String) (xs : List (Var τ α)) : Except PyErr (List (Var τ α)) :=
  match d.get? k with
  | none => .ok xs
  | some _ => do
    let ns ← d.textsAt k
    .ok (rename ns xs)

/-- `Archive.dict_to_object` as decorated: workflow/blocks.py 61-73, 1505-1512. -/
def readArchive (d : J) : Except PyErr (Blk τ α ω) := do
  let b ← read E d
  let xs ← renameAt d "input_names" b.ins
  let ys ← renameAt d "output_names" b.outs
  .ok { b with ins := xs, outs := ys }

end DC.Cat
