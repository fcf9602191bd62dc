import Verif.Util.PyList
import Verif.Values.Paths
import Verif.Workflow.Model
/-
Evaluation of the standard blocks.
Source: dessia_common/workflow/blocks.py, dessia_common/utils/helpers.py 22-38, dessia_common/files.py 211-221,
workflow/core.py 832-843, 1286-1299.

A block receives a dictionary from its input variables to their values, filled in the order of the ports by
`_evaluate_block` (workflow/core.py 2047-2057): an association list here.
-/
namespace DC.Wkf

/-- The argument `values` of `evaluate`: workflow/core.py 2047-2057. -/
abbrev Values := List (Nat × V)

/-- `values[var]`: KeyError for a missing one; e.g. workflow/blocks.py 323. -/
def Values.get (vs : Values) (v : Nat) : Except PyErr V :=
  match vs.lookup v with
  | some x => .ok x
  | none => .error .keyError

/-- `for x in value`: lists, tuples, dictionaries (keys) and strings (characters) are iterable, TypeError otherwise; used
in workflow/blocks.py 503, 595-596, 632.  Simplification: objects are not iterable (Dataset is). -/
def iterate : V → Except PyErr (List V)
  | .list l => .ok l
  | .tuple l => .ok l
  | .dict d => .ok (d.map fun kv => match kv.1 with | .str s => .str s | .int i => .int i)
  | .str s => .ok (s.toList.map fun c => .str (String.ofList [c]))
  | _ => .error .typeError

/-- `value[i]` for an integer: workflow/blocks.py 560.  Simplification: objects cannot be subscripted (Dataset can). -/
def subscript (x : V) (i : Int) : Except PyErr V :=
  match x with
  | .list l => Py.get l i
  | .tuple l => Py.get l i
  | .str s => (Py.get s.toList i).map fun c => .str (String.ofList [c])
  | .dict d => match d.lookup (.int i) with
    | some v => .ok v
    | none => .error .keyError
  | _ => .error .typeError

/-- `Sequence.evaluate`: workflow/blocks.py 321-323. -/
def evalSequence (inputs : List Nat) (vs : Values) : Except PyErr (List V) := do
  let l ← inputs.mapM vs.get
  .ok [.list l]

/-- The class of a value, as compared in utils/helpers.py 24. -/
def pyClass : V → String
  | .none => "NoneType"
  | .bool _ => "bool"
  | .int _ => "int"
  | .flt _ => "float"
  | .measure c _ => "measure " ++ c
  | .str _ => "str"
  | .list _ => "list"
  | .tuple _ => "tuple"
  | .dict _ => "dict"
  | .obj c _ => "object " ++ c
  | .cls _ => "type"
  | .file b _ _ => if b then "BinaryFile" else "StringFile"
  | .other n => "other " ++ toString n

/-- The loop of `concatenate` (utils/helpers.py 32-33), for lists: `extend` takes any iterable. -/
def extendAll : List V → List V → Except PyErr (List V)
  | acc, [] => .ok acc
  | acc, v :: vs => do
    let l ← iterate v
    extendAll (acc ++ l) vs

/-- `concatenate`: utils/helpers.py 22-38.  Simplification: lists are the only values with an `extend` method (Dataset
has one). -/
def concatenate (values : List V) : Except PyErr V :=
  match values with
  | [] => .error .typeError
  | v :: vs =>
    if vs.all fun w => pyClass w == pyClass v then
      match v with
      | .list _ => do
        let l ← extendAll [] (v :: vs)
        .ok (.list l)
      | _ => .error .valueError
    else .error .typeError

/-- `Concatenate.evaluate`: workflow/blocks.py 361-364.  The values are taken in the order of the dictionary. -/
def evalConcatenate (_inputs : List Nat) (vs : Values) : Except PyErr (List V) := do
  let v ← concatenate (vs.map (·.2))
  .ok [v]

/-- `Unpacker.evaluate`: workflow/blocks.py 558-560. -/
def evalUnpacker (indices : List Int) (inputs : List Nat) (vs : Values) : Except PyErr (List V) := do
  let i ← Py.get inputs 0
  let x ← vs.get i
  indices.mapM (subscript x)

/-- The loop of `Flatten.evaluate`: workflow/blocks.py 594-596. -/
def flattenLoop : List V → List V → Except PyErr (List V)
  | acc, [] => .ok acc
  | acc, v :: vs => do
    let l ← iterate v
    flattenLoop (acc ++ l) vs

/-- `Flatten.evaluate`: workflow/blocks.py 592-597. -/
def evalFlatten (inputs : List Nat) (vs : Values) : Except PyErr (List V) := do
  let i ← Py.get inputs 0
  let x ← vs.get i
  let l ← iterate x
  let out ← flattenLoop [] l
  .ok [.list out]

/-- `itertools.product`: the last operand varies fastest; workflow/blocks.py 632. -/
def product : List (List V) → List (List V)
  | [] => [[]]
  | l :: ls => l.flatMap fun x => (product ls).map (x :: ·)

/-- `Product.evaluate`: workflow/blocks.py 629-633. -/
def evalProduct (inputs : List Nat) (vs : Values) : Except PyErr (List V) := do
  let ls ← inputs.mapM vs.get
  let ls ← ls.mapM iterate
  .ok [.list ((product ls).map .tuple)]

/-- Python `+` on `0` and the first key of the dictionary: `sum(values)` iterates the keys, which are variables, and a
variable has no addition.  workflow/blocks.py 1324-1330. -/
def evalSum (_inputs : List Nat) (vs : Values) : Except PyErr (List V) :=
  match vs with
  | [] => .ok [.int 0]
  | _ :: _ => .error .typeError

/-- The number held by a value (booleans are integers): `inl` for an integer, `inr` for a float.  Used by the subtraction
of workflow/blocks.py 1347. -/
def number? : V → Option (Int ⊕ Rat)
  | .bool b => some (.inl (if b then 1 else 0))
  | .int i => some (.inl i)
  | .flt q => some (.inr q)
  | .measure _ q => some (.inr q)
  | _ => none

/-- Python `a - b`: workflow/blocks.py 1347.  Simplification: exact rationals; objects have no subtraction; the
difference of two measures is a float. -/
def pySub (a b : V) : Except PyErr V :=
  match number? a, number? b with
  | some (.inl x), some (.inl y) => .ok (.int (x - y))
  | some (.inl x), some (.inr y) => .ok (.flt (x - y))
  | some (.inr x), some (.inl y) => .ok (.flt (x - y))
  | some (.inr x), some (.inr y) => .ok (.flt (x - y))
  | _, _ => .error .typeError

/-- `Substraction.evaluate`: workflow/blocks.py 1345-1347. -/
def evalSubstraction (inputs : List Nat) (vs : Values) : Except PyErr (List V) := do
  let i ← Py.get inputs 0
  let a ← vs.get i
  let j ← Py.get inputs 1
  let b ← vs.get j
  let d ← pySub a b
  .ok [d]

/-- The string of each chunk; `str.join` raises a TypeError on an other type.  workflow/blocks.py 1401. -/
def strOf : V → Except PyErr String
  | .str s => .ok s
  | _ => .error .typeError

/-- `separator.join(chunks)`: workflow/blocks.py 1401. -/
def joinStr (sep : String) : List String → String
  | [] => ""
  | [s] => s
  | s :: t :: l => s ++ sep ++ joinStr sep (t :: l)

/-- `ConcatenateStrings.evaluate`: workflow/blocks.py 1398-1401. -/
def evalConcatenateStrings (sep : String) (inputs : List Nat) (vs : Values) : Except PyErr (List V) := do
  let l ← inputs.mapM vs.get
  let l ← l.mapM strOf
  .ok [.str (joinStr sep l)]

/-- The loop of `ForEach.evaluate` on the elements: workflow/blocks.py 503-506.  `evalWf` evaluates the workflow block,
`values` is `values_workflow`, `it` the iterated input of the workflow block. -/
def forEachLoop (evalWf : Values → Except PyErr V) (it : Nat) : Values → List V → Except PyErr (List V)
  | _, [] => .ok []
  | values, x :: xs => do
    let values := values.map fun kv => if kv.1 = it then (kv.1, x) else kv
    let y ← evalWf values
    let ys ← forEachLoop evalWf it values xs
    .ok (y :: ys)

/-- `ForEach.evaluate`: workflow/blocks.py 499-507; `wbInputs` are the inputs of the workflow block, `k` is
`iter_input_index`. -/
def evalForEach (evalWf : Values → Except PyErr V) (wbInputs : List Nat) (k : Int) (inputs : List Nat) (vs : Values) :
    Except PyErr (List V) := do
  let it ← Py.get wbInputs k
  let args ← inputs.mapM vs.get
  let values := wbInputs.zip args
  let x ← Values.get values it
  let xs ← iterate x
  let ys ← forEachLoop evalWf it values xs
  .ok [.list ys]

/-- `WorkflowBlock.evaluate`: workflow/blocks.py 416-420; `runWf` gives the output value of `workflow.run` for the given
input values by index. -/
def evalWorkflowBlock (runWf : List (Nat × V) → Except PyErr V) (inputs : List Nat) (vs : Values) :
    Except PyErr (List V) := do
  let args ← vs.mapM fun kv => if inputs.contains kv.1 then .ok (inputs.idxOf kv.1, kv.2) else .error .valueError
  let y ← runWf args
  .ok [y]

/-- `generate_archive` on a list of values: the entries added to the archive, in order; files.py 211-221 and
workflow/blocks.py 1519-1522. -/
def archiveEntries : List V → Except PyErr (List (String × String))
  | [] => .ok []
  | .file _ n t :: vs => do
    let l ← archiveEntries vs
    .ok ((n, t) :: l)
  | _ :: _ => .error .valueError

/-- `Archive.evaluate`: workflow/blocks.py 1514-1523: the name of the archive and its entries. -/
def evalArchive (inputs : List Nat) (vs : Values) : Except PyErr (String × List (String × String)) := do
  let n ← Py.get inputs (-1)
  let name ← vs.get n
  let name ← strOf name
  let vs := vs.filter fun kv => kv.1 ≠ n
  let l ← (inputs.take (inputs.length - 1)).mapM (Values.get vs)
  let entries ← archiveEntries l
  .ok (name ++ ".zip", entries)

/-- What reading a member of a ZIP archive by name gives: the last entry of this name (CPython `zipfile`, `NameToInfo`).
Used to state C80. (specification) -/
def zipRead (entries : List (String × String)) (name : String) : Option String := (entries.reverse.lookup name)

/-- `default_values`: workflow/core.py 832-834. -/
def defaultEntries {α : Type} (W : Workflow α) : List (Nat × α) :=
  (inputs W).zipIdx.filterMap fun vi => (W.default vi.1).map fun d => (vi.2, d)

/-- What `variables.index` compares: a variable or an integer, which are never equal.  workflow/core.py 837. -/
inductive Item | var (v : Nat) | int (i : Nat)
deriving DecidableEq

/-- `self.variables.index(i)` where `i` is an integer: the elements of the list are variables.  workflow/core.py 837. -/
def indexOfInt (vars : List Nat) (i : Nat) : Except PyErr Nat :=
  let l := vars.map Item.var
  if Item.int i ∈ l then .ok (l.idxOf (.int i)) else .error .valueError

/-- `_run_dict`, i.e. `method_dict('run')`: workflow/core.py 836-843.  Simplification: the values are not serialized. -/
def runDict {α : Type} (W : Workflow α) : Except PyErr (List (String × α)) :=
  (defaultEntries W).mapM fun iv => (indexOfInt (allVariables W) iv.1).map fun k => (toString k, iv.2)

/-- What a block contributes to `package_mix`: nothing (no such method), a package (InstantiateModel, ModelMethod:
workflow/blocks.py 118-120, 266-268) or the mix of a workflow (WorkflowBlock: 422-424). -/
inductive PBlock where
  | other
  | pkg (name : String)
  | wf (blocks : List PBlock)

/-- `package_mix[name] += fraction`, or a new entry: workflow/core.py 1292-1295. -/
def addFraction (mix : List (String × Rat)) (name : String) (f : Rat) : List (String × Rat) :=
  match mix with
  | [] => [(name, f)]
  | (n, g) :: rest => if n = name then (n, g + f) :: rest else (n, g) :: addFraction rest name f

/-- Last lines of `package_mix`: workflow/core.py 1298-1299 (ZeroDivisionError).  Simplification: exact rationals. -/
def normalise (mix : List (String × Rat)) : Except PyErr (List (String × Rat)) :=
  let s := (mix.map (·.2)).sum
  mix.mapM fun nf => if s = 0 then .error .zeroDivision else .ok (nf.1, nf.2 / s)

/-- Adding the contribution of a block: workflow/core.py 1291-1295. -/
def addFractions (mix : List (String × Rat)) (c : List (String × Rat)) : List (String × Rat) :=
  c.foldl (fun mix nf => addFraction mix nf.1 nf.2) mix

mutual
/-- `block.package_mix()`: workflow/blocks.py 118-120, 266-268, 422-424; workflow/core.py 1290-1291. -/
def blockMix : PBlock → Except PyErr (List (String × Rat))
  | .other => .ok []
  | .pkg n => .ok [(n, 1)]
  | .wf bs => do
    let mix ← sumMix [] bs
    normalise mix

/-- The loop of `package_mix`: workflow/core.py 1288-1295. -/
def sumMix : List (String × Rat) → List PBlock → Except PyErr (List (String × Rat))
  | mix, [] => .ok mix
  | mix, b :: bs => do
    let c ← blockMix b
    sumMix (addFractions mix c) bs
end

/-- `Workflow.package_mix`: workflow/core.py 1286-1299. -/
def packageMix (bs : List PBlock) : Except PyErr (List (String × Rat)) := do
  let mix ← sumMix [] bs
  normalise mix

end DC.Wkf
