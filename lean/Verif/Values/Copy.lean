import Verif.Values.Equality
import Verif.Values.Diff
/-
Copies of objects.
Sources: dessia_common/utils/copy.py 11-106, dessia_common/core.py 318-363.
-/
namespace DC

/-- The memo of a deep copy: copied objects (class, `__dict__`) with their copy, in insertion order.
Cites: utils/copy.py 48 (`memo[value] = copied_value`).  Simplification: the entries keyed by `id` that the standard
`copy.deepcopy` adds to the same dictionary are left out: an object with such an entry also has an entry keyed by
itself. -/
abbrev Memo := List ((String × List (Key × V)) × V)

/-- The memo key equals the value, as a dictionary look-up does: same hash and `stored == value`.
Cites: utils/copy.py 101-106, core.py 116-129. -/
def memoHit (Γ : Env) (H : HashFns) (k : String × List (Key × V)) (c : String) (d : List (Key × V)) : Bool :=
  match objEq Γ H k.1 k.2 (.obj c d) with
  | .ok b => b
  | .error _ => false

/-- `search_memo`: utils/copy.py 101-106 (for an object; lists and dictionaries are not hashable and tuples are never
stored, for them it always returns None). -/
def searchMemo (Γ : Env) (H : HashFns) (memo : Memo) (c : String) (d : List (Key × V)) : Option V :=
  (memo.find? (fun e => memoHit Γ H e.1 c d)).map (·.2)

/-- `memo[value] = copied_value`: utils/copy.py 48: the value of an equal key is replaced, else the entry is added. -/
def memoSet (Γ : Env) (H : HashFns) (c : String) (d : List (Key × V)) (v : V) : Memo → Memo
  | [] => [((c, d), v)]
  | e :: rest => if memoHit Γ H e.1 c d then (e.1, v) :: rest else e :: memoSet Γ H c d v rest

mutual
/-- `deepcopy_value`: utils/copy.py 11-71.  Branches in order: classes (19), numbers and strings (22), None (26),
objects (38-49, through `DessiaObject.copy` and `__deepcopy__`, core.py 318-327 and 348-363), files (51), sequences
(68), dictionaries (71), anything else (73).
Simplifications: the Point and Vector classes of volmdlr (29-36) are not modelled; the constructor of a class stores
each argument in the attribute of the same name and nothing else, which is the contract that the generic
`__deepcopy__` relies on. -/
def deepcopyValue (Γ : Env) (H : HashFns) (memo : Memo) (v : V) : Except PyErr (V × Memo) :=
  match v with
  | .cls n => .ok (.cls n, memo)
  | .flt q => .ok (.flt q, memo)
  | .measure c q => .ok (.measure c q, memo)
  | .int i => .ok (.int i, memo)
  | .bool b => .ok (.bool b, memo)
  | .str s => .ok (.str s, memo)
  | .none => .ok (.none, memo)
  | .obj c d =>
    match searchMemo Γ H memo c d with
    | some w => .ok (w, memo)
    | none => do
      let (d', m) ← deepcopyArgs Γ H memo (Γ.info c).initArgs d
      .ok (.obj c d', memoSet Γ H c d (.obj c d') m)
  | .file b n t => .ok (.file b n t, memo)
  | .list l => do
    let (l', m) ← deepcopySeq Γ H memo l
    .ok (.list l', m)
  | .tuple l => do
    let (l', m) ← deepcopySeq Γ H memo l
    .ok (.list l', m)
  | .dict d => do
    let (d', m) ← deepcopyDict Γ H memo d
    .ok (.dict d', m)
  | .other _ => .error .notImplemented
termination_by (sizeOf v, 0)
decreasing_by
  · apply Prod.Lex.left; simp; omega
  · apply Prod.Lex.left; simp
  · apply Prod.Lex.left; simp
  · apply Prod.Lex.left; simp
/-- The loop of `__deepcopy__` on the constructor arguments: core.py 360-362 (`getattr` raises AttributeError). -/
def deepcopyArgs (Γ : Env) (H : HashFns) (memo : Memo) (args : List String) (d : List (Key × V)) :
    Except PyErr (List (Key × V) × Memo) :=
  match args with
  | [] => .ok ([], memo)
  | a :: rest =>
    match _h : d.lookup (.str a) with
    | none => .error .attributeError
    | some v => do
      let (v', m) ← deepcopyValue Γ H memo v
      let (r, m') ← deepcopyArgs Γ H m rest d
      .ok ((.str a, v') :: r, m')
termination_by (sizeOf d, args.length)
decreasing_by
  · apply Prod.Lex.left; exact sizeOf_lookup_lt _h
  · apply Prod.Lex.right; simp
/-- The loop of `deepcopy_sequence`: utils/copy.py 94-98. -/
def deepcopySeq (Γ : Env) (H : HashFns) (memo : Memo) (l : List V) : Except PyErr (List V × Memo) :=
  match l with
  | [] => .ok ([], memo)
  | v :: rest => do
    let (v', m) ← deepcopyValue Γ H memo v
    let (r, m') ← deepcopySeq Γ H m rest
    .ok (v' :: r, m')
termination_by (sizeOf l, 0)
decreasing_by
  · apply Prod.Lex.left; simp; omega
  · apply Prod.Lex.left; simp; omega
/-- The loop of `deepcopy_dict`: utils/copy.py 81-86 (string and integer keys are their own copies). -/
def deepcopyDict (Γ : Env) (H : HashFns) (memo : Memo) (d : List (Key × V)) :
    Except PyErr (List (Key × V) × Memo) :=
  match d with
  | [] => .ok ([], memo)
  | (k, v) :: rest => do
    let (v', m) ← deepcopyValue Γ H memo v
    let (r, m') ← deepcopyDict Γ H m rest
    .ok ((k, v') :: r, m')
termination_by (sizeOf d, 0)
decreasing_by
  · apply Prod.Lex.left; simp; omega
  · apply Prod.Lex.left; simp; omega
end

/-- `copy(deep=True)` of a value, from an empty memo: core.py 318-327. -/
def deepcopy (Γ : Env) (H : HashFns) (v : V) : Except PyErr V :=
  (deepcopyValue Γ H [] v).map (·.1)

mutual
/-- `__copy__`: core.py 329-346, on the value of an attribute: a sub-object is itself copied since it has a method
`__copy__`, any other value is taken as is. -/
def shallowValue (Γ : Env) (v : V) : Except PyErr V :=
  match v with
  | .obj c d => do
    let d' ← shallowArgs Γ (Γ.info c).initArgs d
    .ok (.obj c d')
  | v => .ok v
termination_by (sizeOf v, 0)
decreasing_by
  · apply Prod.Lex.left; simp; omega
/-- The loop of `__copy__` on the constructor arguments: core.py 339-345 (`__dict__[arg]` raises KeyError). -/
def shallowArgs (Γ : Env) (args : List String) (d : List (Key × V)) : Except PyErr (List (Key × V)) :=
  match args with
  | [] => .ok []
  | a :: rest =>
    match _h : d.lookup (.str a) with
    | none => .error .keyError
    | some v => do
      let v' ← shallowValue Γ v
      let r ← shallowArgs Γ rest d
      .ok ((.str a, v') :: r)
termination_by (sizeOf d, args.length)
decreasing_by
  · apply Prod.Lex.left; exact sizeOf_lookup_lt _h
  · apply Prod.Lex.right; simp
end

end DC
