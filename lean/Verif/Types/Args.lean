import Verif.Util.PyDict
import Verif.Util.PyList
/-
Arguments of functions and their default values.  Source: dessia_common/schemas/core.py 350-369, 1662-1703.
-/
namespace DC.Types

/-- `inspect.FullArgSpec`, with the positional arguments, their defaults and the keyword-only arguments.
Simplification: names of `*args` and `**kwargs` are left out.  Used for schemas/core.py 1696-1703. -/
structure ArgSpec (δ : Type) where
  args : List String
  defaults : Option (List δ)
  kwonly : List (String × Option δ)

/-- `RESERVED_ARGNAMES`: schemas/core.py 25. -/
def reserved : List String := ["self", "cls", "progress_callback", "return"]

/-- `split_argspecs`: schemas/core.py 1696-1703. -/
def splitArgspecs {δ : Type} (s : ArgSpec δ) : Int × Int :=
  ((s.args.length : Int) - 1, match s.defaults with | some d => (d.length : Int) | none => 0)

/-- The loop of `split_default_args`: schemas/core.py 1682-1692.  A name without default appended to `arguments` is `(name, none)`,
a pair is `(name, some default)`. -/
def splitLoop {δ : Type} (nargs ndef : Int) (defaults : Option (List δ)) (merge : Bool) : Nat → List String → List (String × Option δ) → List (String × δ) →
    Except PyErr (List (String × Option δ) × List (String × δ))
  | _, [], arguments, dict => .ok (arguments, dict)
  | i, a :: as, arguments, dict =>
    if a ∈ reserved then splitLoop nargs ndef defaults merge (i + 1) as arguments dict
    else if nargs - ndef ≤ (i : Int) then
      match defaults with
      | none => .error .typeError
      | some ds =>
        match Py.get ds (ndef - nargs + i) with
        | .error e => .error e
        | .ok d =>
          if merge then splitLoop nargs ndef defaults merge (i + 1) as (arguments ++ [(a, some d)]) dict
          else splitLoop nargs ndef defaults merge (i + 1) as arguments (Dict.set dict a d)
    else splitLoop nargs ndef defaults merge (i + 1) as (arguments ++ [(a, none)]) dict

/-- `split_default_args`: schemas/core.py 1673-1693. -/
def splitDefaultArgs {δ : Type} (s : ArgSpec δ) (merge : Bool) : Except PyErr (List (String × Option δ) × List (String × δ)) :=
  let (nargs, ndef) := splitArgspecs s
  splitLoop nargs ndef s.defaults merge 0 (s.args.drop 1) [] []

/-- The attributes of `MemberSchema.__init__`, with their default or UNDEFINED (`none`): schemas/core.py 351, 361-364. -/
def memberAttributes {δ : Type} (s : ArgSpec δ) : Except PyErr (List (String × Option δ)) :=
  match splitDefaultArgs s false with
  | .error e => .error e
  | .ok (_, dict) => .ok ((s.args.filter (· ∉ reserved)).map fun n => (n, dict.lookup n))

/-- A method: its full name `module.qualname` and what `getfullargspec` says of it.  Used for schemas/core.py 1662-1670. -/
structure Method (δ : Type) where
  fullName : String
  spec : ArgSpec δ

/-- `inspect_arguments`, with the cache of argument specifications: schemas/core.py 1662-1670. -/
def inspectArguments {δ : Type} (cache : List (String × ArgSpec δ)) (m : Method δ) (merge : Bool) :
    Except PyErr (List (String × Option δ) × List (String × δ)) × List (String × ArgSpec δ) :=
  match cache.lookup m.fullName with
  | some s => (splitDefaultArgs s merge, cache)
  | none => (splitDefaultArgs m.spec merge, Dict.set cache m.fullName m.spec)

/-- A history of calls to `inspect_arguments`.  Used for schemas/core.py 1662-1670. -/
def inspectAll {δ : Type} : List (String × ArgSpec δ) → List (Method δ × Bool) → List (String × ArgSpec δ)
  | cache, [] => cache
  | cache, (m, merge) :: ms => inspectAll (inspectArguments cache m merge).2 ms

end DC.Types
