import Verif.Values.Serialize
/-
Deep access to values by path.
Sources: dessia_common/utils/helpers.py 83-193.
-/
namespace DC

/-- A place inside a value: an index of a sequence, a key of a dictionary, an attribute of an object.
Models the subscript and attribute accesses of utils/helpers.py 114, 122, 127, 145, 189-193. -/
inductive Loc where
  | idx (n : Nat)
  | key (k : Key)
  | attr (a : String)
  deriving DecidableEq, Repr

/-- Value of a list of decimal digits, `none` if a character is not a digit.  Part of `int(segment)` and
`segment.isdigit()`: utils/helpers.py 114, 124-125. -/
def digitsVal : List Char → Nat → Option Nat
  | [], acc => some acc
  | c :: cs, acc =>
    if '0' ≤ c ∧ c ≤ '9' then digitsVal cs (acc * 10 + (c.toNat - 48)) else none

/-- `segment.isdigit()` together with `int(segment)`: utils/helpers.py 124-125.
Simplification: ASCII digits. -/
def digits? (s : String) : Option Nat :=
  match s.toList with
  | [] => none
  | cs => digitsVal cs 0

/-- `int(segment)`: utils/helpers.py 114, 189; `none` is ValueError.
Simplification: no surrounding blanks, no underscores. -/
def int? (s : String) : Option Int :=
  match s.toList with
  | [] => none
  | '-' :: cs => match cs with
    | [] => none
    | _ => (digitsVal cs 0).map (fun n => -(n : Int))
  | '+' :: cs => match cs with
    | [] => none
    | _ => (digitsVal cs 0).map (fun n => (n : Int))
  | cs => (digitsVal cs 0).map (fun n => (n : Int))

/-- The index designated by an integer subscript on a sequence of `n` elements (negative subscripts count from the
end); `none` is IndexError.  Cites: utils/helpers.py 114, 189. -/
def seqIndex (n : Nat) (i : Int) : Option Nat :=
  if 0 ≤ i then (if i.toNat < n then some i.toNat else none)
  else (if (-i).toNat ≤ n then some (n - (-i).toNat) else none)

/-- The place designated by a segment, as in `extract_segment_from_object`: utils/helpers.py 110-145.
Simplification: no tuple keys in dictionaries, so that the lookup of a segment shaped as a tuple (133-141) raises
KeyError; attributes are those of `__dict__`. -/
def segLoc (v : V) (s : String) : Except PyErr Loc :=
  match v with
  | .list l => match int? s with
    | none => .error .extractionError
    | some i => match seqIndex l.length i with
      | none => .error .indexError
      | some n => .ok (.idx n)
  | .tuple l => match int? s with
    | none => .error .extractionError
    | some i => match seqIndex l.length i with
      | none => .error .indexError
      | some n => .ok (.idx n)
  | .dict d =>
    if (d.lookup (.str s)).isSome then .ok (.key (.str s))
    else match digits? s with
      | some n => if (d.lookup (.int n)).isSome then .ok (.key (.int n)) else .error .extractionError
      | none =>
        if s.toList.head? = some '(' ∧ s.toList.getLast? = some ')' ∧ ',' ∈ s.toList then .error .keyError
        else .error .extractionError
  | .obj _ d => if (d.lookup (.str s)).isSome then .ok (.attr s) else .error .attributeError
  | _ => .error .attributeError

/-- The value at a place (reading side of the accesses of utils/helpers.py 114-145). -/
def childAt (v : V) (p : Loc) : Option V :=
  match v, p with
  | .list l, .idx n => l[n]?
  | .tuple l, .idx n => l[n]?
  | .dict d, .key k => d.lookup k
  | .obj _ d, .attr a => d.lookup (.str a)
  | _, _ => none

/-- `extract_segment_from_object`: utils/helpers.py 110-145. -/
def extractSegment (v : V) (s : String) : Except PyErr (Loc × V) := do
  let p ← segLoc v s
  match childAt v p with
  | some w => .ok (p, w)
  | none => .error .extractionError

/-- `str.lstrip('#/')` on a path: utils/helpers.py 150, 181. -/
def lstripPath : Path → Path
  | [] => []
  | s :: rest =>
    let s' := String.ofList (s.toList.dropWhile (· = '#'))
    if s' = "" then (match rest with
      | [] => [""]
      | _ :: _ => lstripPath rest)
    else s' :: rest

/-- The reference held by a dictionary, `element[REF_MARKER]`, when the element is a dictionary with this key:
utils/helpers.py 153-158, serialization.py 515-516. -/
def refOf (v : V) : Option V :=
  match v with
  | .dict d => d.lookup (.str "$ref")
  | _ => none

/-- The loop of `get_in_object_from_path`: utils/helpers.py 151-176.  `jump v` is the element used instead of `v` when
`v` is a reference to evaluate (153-167), with its place.  The places crossed from the root are returned with the
element, so that a later assignment can be located. -/
def walk (jump : V → Except PyErr (Option (List Loc × V))) : List Loc → V → Path → Except PyErr (List Loc × V)
  | at_, v, [] => .ok (at_, v)
  | at_, v, s :: rest => do
    match ← jump v with
    | none =>
      let (p, w) ← extractSegment v s
      walk jump (at_ ++ [p]) w rest
    | some (at', v') =>
      let (p, w) ← extractSegment v' s
      walk jump (at' ++ [p]) w rest

/-- `get_in_object_from_path` on the segments of a path: utils/helpers.py 150-176.  `ev` is `evaluate_pointers`.  `fuel`
bounds the number of nested evaluations of pointers: running out of it is Python's RecursionError (159).  A reference
that is not a string has no `lstrip` (AttributeError, 150). -/
def getLoop (ev : Bool) (root : V) : Nat → Path → Except PyErr (List Loc × V)
  | 0 => walk (fun v => if ev && (refOf v).isSome then .error .recursionError else .ok none) [] root
  | fuel + 1 => walk (fun v =>
      if ev then
        match refOf v with
        | some (.str r) => (getLoop ev root fuel (lstripPath (splitSlash r))).map some
        | some _ => .error .attributeError
        | none => .ok none
      else .ok none) [] root

/-- `get_in_object_from_path`: utils/helpers.py 148-176. -/
def getPath (fuel : Nat) (ev : Bool) (root : V) (path : Path) : Except PyErr V := do
  let (_, v) ← getLoop ev root fuel (lstripPath path)
  .ok v

/-- Assignment in a container: the last lines of `set_in_object_from_path`, utils/helpers.py 188-193.
A tuple refuses item assignment (TypeError); other values refuse `setattr` (AttributeError). -/
def assign (v : V) (s : String) (x : V) : Except PyErr V :=
  match v with
  | .list l => match int? s with
    | none => .error .valueError
    | some i => match seqIndex l.length i with
      | none => .error .indexError
      | some n => .ok (.list (l.set n x))
  | .tuple _ => match int? s with
    | none => .error .valueError
    | some _ => .error .typeError
  | .dict d => .ok (.dict (dictSet d (.str s) x))
  | .obj c d => .ok (.obj c (dictSet d (.str s) x))
  | _ => .error .attributeError

/-- The value with the part at a place replaced.  In Python the part is mutated in place; here the containers from the
root to the part are rebuilt (utils/helpers.py 184-193). -/
def putAt (v : V) (p : Loc) (x : V) : V :=
  match v, p with
  | .list l, .idx n => .list (l.set n x)
  | .tuple l, .idx n => .tuple (l.set n x)
  | .dict d, .key k => .dict (dictSet d k x)
  | .obj c d, .attr a => .obj c (dictSet d (.str a) x)
  | v, _ => v

/-- Mutation, by `f`, of the part found by following the places. Models the effect on the root of the in-place
assignment of utils/helpers.py 188-193. -/
def modifyAt (v : V) (at_ : List Loc) (f : V → Except PyErr V) : Except PyErr V :=
  match at_ with
  | [] => f v
  | p :: rest =>
    match childAt v p with
    | none => .error .extractionError
    | some w => do
      let w' ← modifyAt w rest f
      .ok (putAt v p w')

/-- `set_in_object_from_path`: utils/helpers.py 179-193.  Returns the mutated root. -/
def setPath (fuel : Nat) (ev : Bool) (root : V) (path : Path) (x : V) : Except PyErr V :=
  let reduced := (lstripPath path).dropLast
  let last := path.getLastD ""
  if reduced = [] ∨ reduced = [""] then assign root last x
  else do
    let (at_, _) ← getLoop ev root fuel (lstripPath reduced)
    modifyAt root at_ (fun v => assign v last x)

end DC
