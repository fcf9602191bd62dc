import Verif.Types.ArgsProps
/-
Blocks that call a class, a class method, a static method or a method of their first input: their inputs and their evaluation.
Source: dessia_common/workflow/blocks.py 32-50, 91-95, 112-115, 145-151, 183-186, 215-227, 255-264, 722-739.
-/
namespace DC.Calls
open DC.Types
variable {τ δ σ : Type}

/-- A `Variable` made by `_method_inputs`: workflow/core.py 51-60.  Simplification: without label, position and lock. -/
structure Input (τ δ : Type) where
  name : String
  type : τ
  default : Option δ

/-- The names which get no input: workflow/blocks.py 39. -/
def skipped : List String := ["self", "cls", "progress_callback"]

/-- The loop of `_method_inputs`: workflow/blocks.py 38-49.  `hints` is what `get_type_hints` and `type_from_annotation` give.
UntypedArgumentError is given as `runtimeError`. -/
def inputsLoop (hints : List (String × τ)) (nargs ndef : Int) (defaults : Option (List δ)) : Nat → List String → Except PyErr (List (Input τ δ))
  | _, [] => .ok []
  | i, a :: as =>
    if a ∈ skipped then inputsLoop hints nargs ndef defaults (i + 1) as
    else
      match hints.lookup a with
      | none => .error .runtimeError
      | some t =>
        if nargs - ndef < (i : Int) then
          match defaults with
          | none => .error .typeError
          | some ds =>
            match Py.get ds (ndef - nargs + i - 1) with
            | .error e => .error e
            | .ok d =>
              match inputsLoop hints nargs ndef defaults (i + 1) as with
              | .error e => .error e
              | .ok l => .ok (⟨a, t, some d⟩ :: l)
        else
          match inputsLoop hints nargs ndef defaults (i + 1) as with
          | .error e => .error e
          | .ok l => .ok (⟨a, t, none⟩ :: l)

/-- `_method_inputs`: workflow/blocks.py 32-50. -/
def methodInputs (s : ArgSpec δ) (hints : List (String × τ)) : Except PyErr (List (Input τ δ)) :=
  inputsLoop hints (splitArgspecs s).1 (splitArgspecs s).2 s.defaults 0 s.args

/-- What is called by workflow/blocks.py 115, 186, 260, 262, 731, 739: a signature, whether it has `**kwargs`, whether its first
positional parameter is bound (method, class method, `__init__`), and what its body does, of the arguments it received, on the state
of the program (`σ`), and what it returns or raises. -/
structure Func (σ δ : Type) where
  sig : Signature δ
  anyKey : Bool
  bound : Bool
  body : List (String × δ) → σ → σ × Except PyErr δ

/-- The parameters which can be given by name in the calls of workflow/blocks.py 115, 186, 260, 262. -/
def Func.params (f : Func σ δ) : List (String × Option δ) :=
  (if f.bound then f.sig.params.drop 1 else f.sig.params) ++ f.sig.kwonly

/-- The name of the bound parameter, in the calls of workflow/blocks.py 115, 186, 260, 262. -/
def Func.self (f : Func σ δ) : List String := if f.bound then (f.sig.params.take 1).map (·.1) else []

/-- The values of the parameters in a call with keywords (Python's rule for workflow/blocks.py 115, 186, 260, 262): the one given, or
the default; a TypeError without any. -/
def bindParams (kw : List (String × δ)) : List (String × Option δ) → Except PyErr (List (String × δ))
  | [] => .ok []
  | (n, d) :: ps =>
    match (kw.lookup n).or d with
    | none => .error .typeError
    | some v =>
      match bindParams kw ps with
      | .error e => .error e
      | .ok vs => .ok ((n, v) :: vs)

/-- `f(**kw)` (Python's rule for workflow/blocks.py 115, 186, 260, 262): a TypeError, without running the body, if a name is given
twice, or is not the one of a parameter and there is no `**kwargs`, or is the one of the bound parameter, or if a parameter is without
value. -/
def call (f : Func σ δ) (kw : List (String × δ)) (s : σ) : σ × Except PyErr δ :=
  if ¬ (kw.map (·.1)).Nodup then (s, .error .typeError)
  else if kw.any (fun k => decide (k.1 ∉ f.params.map (·.1)) && (!f.anyKey || decide (k.1 ∈ f.self))) then (s, .error .typeError)
  else
    match bindParams kw f.params with
    | .error e => (s, .error e)
    | .ok vs => f.body (vs ++ kw.filter fun k => k.1 ∉ f.params.map (·.1)) s

/-- The dictionary comprehension `{i.name: values[i] for i in inputs if i in values}`: workflow/blocks.py 185, 257.  `values` gives the
value of each input, in their order. -/
def arguments : List (Input τ δ) → List (Option δ) → List (String × δ) → List (String × δ)
  | i :: is, v :: vs, d =>
    match v with
    | none => arguments is vs d
    | some v => arguments is vs (Dict.set d i.name v)
  | _, _, d => d

/-- `InstantiateModel.evaluate`: workflow/blocks.py 112-115.  `f` is the class, with the signature of its `__init__`; an input without
value is a KeyError. -/
def instantiate (f : Func σ δ) (inputs : List (Input τ δ)) (values : List (Option δ)) (s : σ) : σ × Except PyErr (List δ) :=
  if values.any (·.isNone) then (s, .error .keyError)
  else
    match call f (arguments inputs values []) s with
    | (s', .error e) => (s', .error e)
    | (s', .ok r) => (s', .ok [r])

/-- `ClassMethod.evaluate`: workflow/blocks.py 183-186. -/
def classMethod (f : Func σ δ) (inputs : List (Input τ δ)) (values : List (Option δ)) (s : σ) : σ × Except PyErr (List δ) :=
  match call f (arguments inputs values []) s with
  | (s', .error e) => (s', .error e)
  | (s', .ok r) => (s', .ok [r])

/-- The name of the parameter tried first: workflow/blocks.py 260. -/
def callbackName : String := "progress_callback"

/-- `ModelMethod.evaluate`: workflow/blocks.py 255-264.  `f` is the method of the object in the first input, `model` this object,
`inputs` and `values` the other inputs. -/
def modelMethod (f : Func σ δ) (inputs : List (Input τ δ)) (values : List (Option δ)) (model callback : δ) (s : σ) : σ × Except PyErr (List δ) :=
  match call f ((callbackName, callback) :: arguments inputs values []) s with
  | (s', .ok r) => (s', .ok [r, model])
  | (s', .error .typeError) =>
    match call f (arguments inputs values []) s' with
    | (s'', .error e) => (s'', .error e)
    | (s'', .ok r) => (s'', .ok [r, model])
  | (s', .error e) => (s', .error e)

/-- `Display.evaluate`, once the object and its method are known: workflow/blocks.py 727-739. -/
def display (f : Func σ δ) (kwargs : List (String × δ)) (s : σ) : σ × Except PyErr (List δ) :=
  match call f (kwargs.filter fun k => k.1 ≠ callbackName) s with
  | (s', .ok r) => (s', .ok [r])
  | (s', .error .typeError) =>
    match call f [] s' with
    | (s'', .error e) => (s'', .error e)
    | (s'', .ok r) => (s'', .ok [r])
  | (s', .error e) => (s', .error e)

end DC.Calls
