import Verif.Values.Basic
import Verif.Util.Sort
/-
Data equality, hash and `==` of dessia_common.
Sources: dessia_common/core.py 110-144, 1143-1208; dessia_common/utils/diff.py 175-229.
-/
namespace DC

/-- `FLOAT_TOLERANCE`, and the default `rel_tol` of `math.isclose`, are both 1e-9: dessia_common/__init__.py 6.
Simplification: the exact rational 10⁻⁹ instead of the nearest double. -/
def floatTol : Rat := 1 / 1000000000

/-- `math.isclose(a, b, abs_tol=FLOAT_TOLERANCE)` as called in core.py 1159 and utils/diff.py 109:
`abs(a-b) <= max(rel_tol * max(abs(a), abs(b)), abs_tol)`. -/
def isclose (a b : Rat) : Bool :=
  decide ((a - b).abs ≤ max (floatTol * max a.abs b.abs) floatTol)

/-- Python's `int(bool)`, used since `bool` is a subclass of `int` (core.py 1154, 1160). -/
def b2i (b : Bool) : Int := if b then 1 else 0

mutual
/-- `data_eq`: core.py 1143-1187.  Branches, in order: both sequences (1145); `isinstance` test (1154), which lets
`bool`/`int` and `Measure`/`float` through; base types (1157-1160); dictionaries (1162); files (1165);
classes (1168-1169: `full_classname` of a class object is that of its metaclass, `builtins.type`, so that any two
classes compare equal); objects (1171-1187).
Simplifications: numpy scalars (1148-1152) are not modelled; custom `_data_eq` methods (1176-1179) are not modelled;
`other` values compare as `false` (the code raises AttributeError at 1182), theorems exclude them. -/
def dataEq (Γ : Env) : V → V → Bool
  | .list a, .list b => decide (a.length = b.length) && seqAll Γ a b
  | .list a, .tuple b => decide (a.length = b.length) && seqAll Γ a b
  | .tuple a, .list b => decide (a.length = b.length) && seqAll Γ a b
  | .tuple a, .tuple b => decide (a.length = b.length) && seqAll Γ a b
  | .none, .none => true
  | .bool a, .bool b => a == b
  | .bool a, .int b => b2i a == b
  | .int a, .bool b => a == b2i b
  | .int a, .int b => a == b
  | .flt a, .flt b => isclose a b
  | .flt a, .measure _ b => isclose a b
  | .measure _ a, .flt b => isclose a b
  | .measure c a, .measure c' b => (c == c') && isclose a b
  | .str a, .str b => a == b
  | .dict a, .dict b => dictAll Γ (fun _ => true) a b
  | .file k n t, .file k' n' t' => (k == k') && (t == t') && (n == n')
  | .cls _, .cls _ => true
  | .obj c a, .obj c' b => (c == c') && dictAll Γ (eqKeep Γ c) a (b.filter (fun kv => eqKeep Γ c' kv.1))
  | _, _ => false
/-- The loop of `sequence_data_eq`, `for v1, v2 in zip(seq1, seq2)`: core.py 1205-1208 (the length test of 1202 is at
the call). -/
def seqAll (Γ : Env) : List V → List V → Bool
  | x :: xs, y :: ys => dataEq Γ x y && seqAll Γ xs ys
  | _, _ => true
/-- `dict_data_eq`: core.py 1190-1197.  The filter of `_data_eq_dict` (core.py 133-134) on the first dictionary is
fused into the loop as `keep`. -/
def dictAll (Γ : Env) (keep : Key → Bool) : List (Key × V) → List (Key × V) → Bool
  | [], _ => true
  | (k, v) :: rest, other =>
    if keep k then
      match other.lookup k with
      | Option.none => false
      | some w => dataEq Γ v w && dictAll Γ keep rest other
    else dictAll Γ keep rest other
end

/-- The builtin `hash` of leaves, left abstract: `hash(int)` (also used for bools), `hash(float)`, `hash(None)`,
`hash` of a file name (files.py 49, 109), `hash` of a class, and `fold x = int(x % 1e5)` (core.py 144, a float
operation, hence left abstract).  Cites: utils/diff.py 183, 220. -/
structure HashFns where
  hNone : Int
  hInt : Int → Int
  hFlt : Rat → Int
  hName : String → Int
  hCls : String → Int
  hOther : Nat → Int
  fold : Int → Int

/-- Order of dictionary keys of one kind, as used by `sorted(dict_.keys())`: utils/diff.py 216.  Python raises a
TypeError when comparing a string with an integer; this case is excluded by `sortable` before sorting. -/
def Key.le : Key → Key → Bool
  | .str a, .str b => decide (a ≤ b)
  | .int a, .int b => decide (a ≤ b)
  | .str _, .int _ => true
  | .int _, .str _ => false

/-- Whether `sorted(keys)` succeeds: all the keys are of one kind (utils/diff.py 215-217). -/
def sortable (ks : List Key) : Bool :=
  ks.all (fun k => match k with | .str _ => true | .int _ => false) ||
  ks.all (fun k => match k with | .str _ => false | .int _ => true)

/-- `hash(key)` in the fallback of `dict_hash`: utils/diff.py 220.  The hash of a string key is the builtin one. -/
def keyHash (H : HashFns) : Key → Int
  | .str s => H.hName s
  | .int i => H.hInt i

/-- `sequence_hash`: utils/diff.py 186-201, on the list of the hashes of the elements (the code only computes those of
the first and last elements). -/
def sequenceHash (hs : List Int) : Int :=
  match hs with
  | [] => 0
  | h :: rest => (hs.length : Int) * h + (if hs.length > 1 then 5381 * (h :: rest).getLast (by simp) else 0)

/-- `dict_hash`: utils/diff.py 204-229, on the list of (key, hash of the value) pairs. -/
def dictHash (H : HashFns) (hs : List (Key × Int)) : Int :=
  match hs with
  | [] => 0
  | _ =>
    if sortable (hs.map (·.1)) then
      let sorted := sortBy (fun a b => Key.le a.1 b.1) hs
      match sorted.head?, sorted.getLast? with
      | some f, some l => (hs.length : Int) * f.2 + (if hs.length > 1 then 313 * l.2 else 0)
      | _, _ => 0
    else (hs.map (fun kh => keyHash H kh.1 + kh.2)).sum

mutual
/-- `choose_hash`: utils/diff.py 175-183; `hash(object)` of a DessiaObject is `_data_hash` (core.py 110-114, 140-144,
for classes with `_eq_is_data_eq`); the hash of a file is that of its name (files.py 49-50). -/
def chooseHash (Γ : Env) (H : HashFns) : V → Int
  | .list l => sequenceHash (hashes Γ H l)
  | .tuple l => sequenceHash (hashes Γ H l)
  | .dict d => dictHash H (hashesD Γ H d)
  | .str s => (s.toList.map (fun e => (e.toNat : Int))).sum
  | .none => H.hNone
  | .bool b => H.hInt (b2i b)
  | .int i => H.hInt i
  | .flt q => H.hFlt q
  | .measure _ q => H.hFlt q
  | .cls n => H.hCls n
  | .file _ n _ => H.hName n
  | .other n => H.hOther n
  | .obj c d => H.fold (attrHashSum Γ H c d)
/-- Hashes of the elements of a sequence (utils/diff.py 198-200). -/
def hashes (Γ : Env) (H : HashFns) : List V → List Int
  | [] => []
  | v :: vs => chooseHash Γ H v :: hashes Γ H vs
/-- Hashes of the values of a dictionary (utils/diff.py 225-228). -/
def hashesD (Γ : Env) (H : HashFns) : List (Key × V) → List (Key × Int)
  | [] => []
  | (k, v) :: kvs => (k, chooseHash Γ H v) :: hashesD Γ H kvs
/-- `sum(choose_hash(v) for k, v in self._serializable_dict().items() if k not in forbidden_keys)`: core.py 143. -/
def attrHashSum (Γ : Env) (H : HashFns) (c : String) : List (Key × V) → Int
  | [] => 0
  | (k, v) :: kvs => (if hashKeep Γ c k then chooseHash Γ H v else 0) + attrHashSum Γ H c kvs
end

/-- `self.__class__.__name__` from the full class name (core.py 126): what follows the last dot. -/
def shortName (c : String) : String := String.ofList ((c.toList.reverse.takeWhile (· ≠ '.')).reverse)

/-- `DessiaObject.__eq__`: core.py 116-129, for classes with `_eq_is_data_eq`, `self` being `obj c d`.
`hash(other_object)` raises TypeError for lists and dictionaries (123).  Against a value that is not a DessiaObject the
class names differ (126).  Simplification: the builtin hash of a string or tuple is taken to be `choose_hash`'s; the
result does not depend on it. -/
def objEq (Γ : Env) (H : HashFns) (c : String) (d : List (Key × V)) : V → Except PyErr Bool
  | .list _ => .error .typeError
  | .dict _ => .error .typeError
  | .obj c' d' =>
    if chooseHash Γ H (.obj c d) ≠ chooseHash Γ H (.obj c' d') then .ok false
    else if shortName c ≠ shortName c' then .ok false
    else .ok (dataEq Γ (.obj c d) (.obj c' d'))
  | _ => .ok false

end DC
