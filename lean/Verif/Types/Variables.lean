import Verif.Types.Match
/-
Matchable variables of a workflow.  Source: dessia_common/workflow/core.py 1108-1166.
-/
namespace DC.Types

/-- The address of a variable in its workflow (`variable_indices`, core.py 1048-1067): a free variable, or a port of a block. -/
inductive Address where
  | free (index : Nat)
  | port (block : Nat) (output : Bool) (index : Nat)

/-- `variable_compatibility` between the variables of indices i and j: core.py 1138-1166.  Variables are compared by identity. -/
def compatible (vars : List (Address × Option Ty)) (i j : Nat) : Bool :=
  match vars[i]?, vars[j]? with
  | some (a, t), some (b, u) =>
    if i = j then false
    else
      let clash := match a, b with
        | .port k side _, .port l side' _ => k == l || side == side'
        | _, _ => false
      if clash then false else t.isSome && u.isSome
  | _, _ => false

/-- The inner loop of `match_variables`: core.py 1126-1136. -/
def matchesOf (C : Classes) (vars : List (Address × Option Ty)) (i : Nat) (T : Ty) : List Nat → Except PyErr (List Nat)
  | [] => .ok []
  | j :: js =>
    if compatible vars i j then
      match vars[j]? with
      | some (_, some U) => do
        let m ← typematch C T U
        let rest ← matchesOf C vars i T js
        .ok (if m then j :: rest else rest)
      | _ => .error .typeError
    else matchesOf C vars i T js

/-- The outer loop of `match_variables`, which skips the variables without type: core.py 1117-1137.  The result associates the
indices of matchable variables to each index of a typed variable. -/
def matchVariables (C : Classes) (vars : List (Address × Option Ty)) : List Nat → Except PyErr (List (Nat × List Nat))
  | [] => .ok []
  | i :: is =>
    match vars[i]? with
    | some (_, some T) => do
      let js ← matchesOf C vars i T (List.range vars.length)
      let rest ← matchVariables C vars is
      .ok ((i, js) :: rest)
    | _ => matchVariables C vars is

end DC.Types
