import Verif.Values.Basic
/-
Specification of "the two values hold the same data", independent of the code's functions.
-/
namespace DC

/-- Two floats are close: their distance is at most 10⁻⁹, absolutely or relatively. Documented meaning of
`FLOAT_TOLERANCE` (dessia_common/__init__.py 6). -/
def Close (a b : Rat) : Prop :=
  (a - b).abs ≤ 1 / 1000000000 ∨ (a - b).abs ≤ 1 / 1000000000 * max a.abs b.abs

/-- The integer value of an `int` or `bool` (specification of Python's numeric tower on integers). -/
def intVal : V → Option Int
  | .bool b => some (if b then 1 else 0)
  | .int i => some i
  | _ => none

/-- The elements of a sequence, list or tuple (specification). -/
def seqItems : V → Option (List V)
  | .list l => some l
  | .tuple l => some l
  | _ => none

/-- The real value of a `float`, whatever its unit class (specification). `some (q, c)`: value and unit. -/
def fltVal : V → Option (Rat × Option String)
  | .flt q => some (q, none)
  | .measure c q => some (q, some c)
  | _ => none

/-- Units are compatible: one of them is a bare float or both are the same (specification). -/
def unitOk : Option String → Option String → Prop
  | some a, some b => a = b
  | _, _ => True

/-- Attribute `k` of an object of class `c` takes part in data equality: public, serializable, and neither `name`,
`package_version` nor excluded by the class (documented in core.py 62-75 and 131-134). -/
def DataAttr (Γ : Env) (c : String) (k : Key) : Prop :=
  ∃ s, k = .str s ∧ s ∉ (Γ.info c).nonSerializable ∧ s.toList.head? ≠ some '_' ∧
    s ∉ (Γ.info c).nonDataEq ∧ s ≠ "package_version" ∧ s ≠ "name"

/-- `Same Γ R v w`: `v` and `w` hold the same data, floats being compared with `R`, sequences element-wise whatever
their kind, dictionaries and objects by key whatever the insertion order. -/
inductive Same (Γ : Env) (R : Rat → Rat → Prop) : V → V → Prop
  | none : Same Γ R .none .none
  | int {v w i} : intVal v = some i → intVal w = some i → Same Γ R v w
  | flt {v w a b u u'} : fltVal v = some (a, u) → fltVal w = some (b, u') → unitOk u u' → R a b → Same Γ R v w
  | str {s} : Same Γ R (.str s) (.str s)
  | seq {v w a b} : seqItems v = some a → seqItems w = some b → a.length = b.length →
      (∀ (i : Nat) x y, a[i]? = some x → b[i]? = some y → Same Γ R x y) → Same Γ R v w
  | dict {a b} : (∀ k, k ∈ keysOf a ↔ k ∈ keysOf b) →
      (∀ k x y, a.lookup k = some x → b.lookup k = some y → Same Γ R x y) → Same Γ R (.dict a) (.dict b)
  | cls {n} : Same Γ R (.cls n) (.cls n)
  | file {k n t} : Same Γ R (.file k n t) (.file k n t)
  | obj {c a b} : (∀ k, DataAttr Γ c k → (k ∈ keysOf a ↔ k ∈ keysOf b)) →
      (∀ k x y, DataAttr Γ c k → a.lookup k = some x → b.lookup k = some y → Same Γ R x y) →
      Same Γ R (.obj c a) (.obj c b)

mutual
/-- Well formed values: dictionaries have distinct keys, attribute names of objects are strings, and there is no value
of a type the functions under study do not handle. Every Python value of the modelled types is well formed. -/
def WF : V → Prop
  | .list l => WFL l
  | .tuple l => WFL l
  | .dict d => (keysOf d).Nodup ∧ WFD d
  | .obj _ d => (keysOf d).Nodup ∧ WFD d
  | .other _ => False
  | _ => True
/-- All the elements are well formed. -/
def WFL : List V → Prop
  | [] => True
  | v :: vs => WF v ∧ WFL vs
/-- All the values of the dictionary are well formed. -/
def WFD : List (Key × V) → Prop
  | [] => True
  | (_, v) :: kvs => WF v ∧ WFD kvs
end

mutual
/-- No class object occurs in the value. -/
def NoCls : V → Prop
  | .list l => NoClsL l
  | .tuple l => NoClsL l
  | .dict d => NoClsD d
  | .obj _ d => NoClsD d
  | .cls _ => False
  | _ => True
/-- No class object occurs in the list. -/
def NoClsL : List V → Prop
  | [] => True
  | v :: vs => NoCls v ∧ NoClsL vs
/-- No class object occurs in the dictionary. -/
def NoClsD : List (Key × V) → Prop
  | [] => True
  | (_, v) :: kvs => NoCls v ∧ NoClsD kvs
end

mutual
/-- The value holds no dictionary, and each object of class `c` has exactly the attributes `attrs c`. -/
def Uniform (attrs : String → List Key) : V → Prop
  | .list l => UniformL attrs l
  | .tuple l => UniformL attrs l
  | .dict _ => False
  | .obj c d => keysOf d = attrs c ∧ UniformD attrs d
  | _ => True
/-- All the elements are uniform. -/
def UniformL (attrs : String → List Key) : List V → Prop
  | [] => True
  | v :: vs => Uniform attrs v ∧ UniformL attrs vs
/-- All the attribute values are uniform. -/
def UniformD (attrs : String → List Key) : List (Key × V) → Prop
  | [] => True
  | (_, v) :: kvs => Uniform attrs v ∧ UniformD attrs kvs
end

mutual
/-- No float occurs in the value. -/
def NoFloat : V → Prop
  | .list l => NoFloatL l
  | .tuple l => NoFloatL l
  | .dict d => NoFloatD d
  | .obj _ d => NoFloatD d
  | .flt _ => False
  | .measure _ _ => False
  | _ => True
/-- No float occurs in the list. -/
def NoFloatL : List V → Prop
  | [] => True
  | v :: vs => NoFloat v ∧ NoFloatL vs
/-- No float occurs in the dictionary. -/
def NoFloatD : List (Key × V) → Prop
  | [] => True
  | (_, v) :: kvs => NoFloat v ∧ NoFloatD kvs
end

end DC
