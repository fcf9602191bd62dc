import Verif.Misc.Markdown
import Verif.Util.PyDict
/-
The Markdown of the runs and of the states of workflows.
Sources: dessia_common/workflow/core.py 1577-1636, 2057-2063, 2127-2132, 2267-2279; dessia_common/templates.py 87-110.
-/
namespace DC.Txt

/-- `ExecutionInfo`: workflow/core.py 1577-1599.  The blocks are given by their indices; the times are left out.  Blocks are compared by
identity (179). -/
structure ExecInfo where
  before : List (Nat × Int) := []
  after : List (Nat × Int) := []

/-- What `_evaluate_block` records of one evaluation: workflow/core.py 2060-2062.  `fin` is the memory after the evaluation, `none` when
the block raised an error. -/
def ExecInfo.add (i : ExecInfo) (block : Nat) (start : Int) (fin : Option Int) : ExecInfo :=
  { before := i.before ++ [(block, start)]
    after := match fin with
      | none => i.after
      | some m => i.after ++ [(block, m)] }

/-- What is recorded of evaluations, in order: workflow/core.py 2060-2062. -/
def ExecInfo.recorded (evals : List (Nat × Int × Option Int)) : ExecInfo :=
  evals.foldl (fun i e => i.add e.1 e.2.1 e.2.2) {}

/-- `dict(pairs)`: workflow/core.py 1630-1631. -/
def dictOf (l : List (Nat × Int)) : List (Nat × Int) := l.foldl (fun d p => Dict.set d p.1 p.2) []

/-- The loop of `ExecutionInfo.to_markdown`: workflow/core.py 1630-1634.  `name` is the name of a block, `size` is `humanize.naturalsize`. -/
def infoRows (name : Nat → List Char) (size : Int → List Char) (after : List (Nat × Int)) :
    List (Nat × Int) → Except PyErr (List (List MdValue))
  | [] => .ok []
  | (b, m) :: rest => match after.lookup b with
    | none => .error .keyError
    | some e => match infoRows name size after rest with
      | .error er => .error er
      | .ok rs => .ok ([.text (name b), .text (size m), .text (size e), .text (size (e - m))] :: rs)

/-- The titles of the table: workflow/core.py 1637. -/
def infoTitles : List (List Char) :=
  ["Block".toList, "Memory usage at start".toList, "Memory usage at end".toList, "Memory diff".toList]

/-- `ExecutionInfo.to_markdown`: workflow/core.py 1627-1637. -/
def infoMarkdown (capitalize : List Char → List Char) (order : List (List Char) → List (List Char)) (name : Nat → List Char)
    (size : Int → List Char) (i : ExecInfo) : Except PyErr (List Char) :=
  match infoRows name size (dictOf i.after) (dictOf i.before) with
  | .error e => .error e
  | .ok rows => matrixTable capitalize order 25 none rows infoTitles

/-- A call of a method `def to_markdown(self, **kwargs)` with `positional` arguments which are not named: workflow/core.py 1627, 2130, 2277.
Python refuses them with a TypeError. -/
def namedOnly {β : Type} (positional : Nat) (body : Except PyErr β) : Except PyErr β :=
  if positional = 0 then body else .error .typeError

/-- The value of the output of a run, as its Markdown sees it: workflow/core.py 2272-2275.  `plain` is a value without `__dict__`, which is
no sequence: a number, a string, a dictionary or None. -/
inductive RunOutput where
  | seq (length : Nat)
  | obj (o : MdObject)
  | plain

/-- `output_table`: workflow/core.py 2272-2275; exports.py 347. -/
def outputTable (capitalize : List Char → List Char) (order : List (List Char) → List (List Char)) : RunOutput → Except PyErr (List Char)
  | .seq n => .ok ("Output is a sequence of ".toList ++ (toString n).toList ++ " elements".toList)
  | .obj o => objectTable capitalize order 25 none o
  | .plain => .error .attributeError

/-- `WorkflowRun.to_markdown`: workflow/core.py 2267-2279; templates.py 97-110. -/
def runMarkdown (capitalize : List Char → List Char) (order : List (List Char) → List (List Char)) (name : Nat → List Char)
    (size : Int → List Char) (runName flowName : List Char) (out : RunOutput) (i : ExecInfo) : Except PyErr (List Char) :=
  match outputTable capitalize order out with
  | .error e => .error e
  | .ok table => match namedOnly 0 (infoMarkdown capitalize order name size i) with
    | .error e => .error e
    | .ok info => .ok ("# WorkflowRun ".toList ++ runName ++ "\n\nRun of workflow ".toList ++ flowName ++ "\n\n# Output\n\n".toList ++ table ++
        "\n\n# Execution informations\n\n".toList ++ info ++ "\n\n".toList)

/-- `WorkflowState.to_markdown`: workflow/core.py 2127-2132; templates.py 87-95.  `progress` is the written form of the progress. -/
def stateMarkdown (capitalize : List Char → List Char) (order : List (List Char) → List (List Char)) (name : Nat → List Char)
    (size : Int → List Char) (stateName flowName progress : List Char) (i : ExecInfo) : Except PyErr (List Char) :=
  match namedOnly 1 (infoMarkdown capitalize order name size i) with
  | .error e => .error e
  | .ok info => .ok ("# WorkflowState ".toList ++ stateName ++ "\n\nprogress ".toList ++ progress ++ "% on workflow ".toList ++ flowName ++
      "\n\n# Execution informations\n\n".toList ++ info ++ "\n\n".toList)

end DC.Txt
