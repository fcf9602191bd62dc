import Verif.Values.Basic
/-
Checks and check lists.
Source: dessia_common/checks.py 11-156.
-/
namespace DC

/-- `LEVEL_TO_INT`: checks.py 11.  `none` is KeyError. -/
def levelToInt (l : String) : Option Nat :=
  if l = "debug" then some 0 else if l = "info" then some 1 else if l = "warning" then some 2
  else if l = "error" then some 3 else none

/-- A check: checks.py 14-69: its level, its truth value (`__bool__`) and its message. -/
structure Check where
  level : String
  passed : Bool
  message : String
  deriving DecidableEq, Repr

/-- `PassedCheck(message)`: checks.py 14-31. -/
def passedCheck (m : String) : Check := ⟨"info", true, m⟩
/-- `CheckWarning(message)`: checks.py 34-37. -/
def checkWarning (m : String) : Check := ⟨"warning", true, m⟩
/-- `FailedCheck(message)` and its subclasses: checks.py 40-69. -/
def failedCheck (m : String) : Check := ⟨"error", false, m⟩

/-- `CheckList.__add__`: checks.py 84-85. -/
def checksAdd (a b : List Check) : List Check := a ++ b

/-- `CheckList.checks_above_level`: checks.py 93-99. -/
def checksAbove (level : String) : List Check → Except PyErr (List Check)
  | [] => .ok []
  | c :: cs =>
    match levelToInt c.level, levelToInt level with
    | some a, some b => do
      let r ← checksAbove level cs
      .ok (if a ≥ b then c :: r else r)
    | _, _ => .error .keyError

/-- `CheckList.raise_if_above_level`: checks.py 101-104 (ValueError at the first check found). -/
def raiseIfAbove (level : String) (cs : List Check) : Except PyErr Unit := do
  match ← checksAbove level cs with
  | [] => .ok ()
  | _ :: _ => .error .valueError

/-- The types given to `type_check`: checks.py 138-156. -/
inductive PyType where
  | int | float | str | bool | list | tuple | dict
  | cls (c : String)
  deriving DecidableEq, Repr

/-- `isinstance(value, type)`, used in checks.py 113, 122, 131, 151: `bool` is a subclass of `int`, a `Measure` is a
float; `Γ.sub` is the subclass relation. -/
def isInstance (Γ : Env) (v : V) (t : PyType) : Bool :=
  match v, t with
  | .int _, .int => true
  | .bool _, .int => true
  | .bool _, .bool => true
  | .flt _, .float => true
  | .measure _ _, .float => true
  | .str _, .str => true
  | .list _, .list => true
  | .tuple _, .tuple => true
  | .dict _, .dict => true
  | .obj c _, .cls c' => (c == c') || Γ.sub c c'
  | .measure c _, .cls c' => (c == c') || Γ.sub c c'
  | _, _ => false

/-- `is_int`, `is_float`, `is_str`: checks.py 111-135. Simplification: the text of the message. -/
def isTyped (Γ : Env) (v : V) (t : PyType) (level : String) : List Check :=
  if !isInstance Γ v t then [failedCheck "is not of type"]
  else if level = "info" then [passedCheck "is of type"]
  else []

/-- `type_check`: checks.py 138-156: the level is not passed to `is_int`, `is_float`, `is_str` (145-149), whose default
level is `error`. -/
def typeCheck (Γ : Env) (v : V) (t : PyType) (level : String) : List Check :=
  match t with
  | .int => isTyped Γ v .int "error"
  | .float => isTyped Γ v .float "error"
  | .str => isTyped Γ v .str "error"
  | t =>
    if !isInstance Γ v t then [failedCheck "is not of type"]
    else if level = "info" then [passedCheck "is of expected type"]
    else []

end DC
