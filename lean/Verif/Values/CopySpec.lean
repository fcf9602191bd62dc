import Verif.Values.Basic
/- Specification vocabulary for copies. -/
namespace DC

/-- `x` occurs in `v` (at any depth, possibly `v` itself). -/
inductive Occurs : V → V → Prop
  | self {v} : Occurs v v
  | list {l v x} : v ∈ l → Occurs v x → Occurs (.list l) x
  | tuple {l v x} : v ∈ l → Occurs v x → Occurs (.tuple l) x
  | dict {d k v x} : (k, v) ∈ d → Occurs v x → Occurs (.dict d) x
  | obj {c d k v x} : (k, v) ∈ d → Occurs v x → Occurs (.obj c d) x

mutual
/-- The value with every tuple turned into the list of its elements. -/
def listify : V → V
  | .list l => .list (listifyL l)
  | .tuple l => .list (listifyL l)
  | .dict d => .dict (listifyD d)
  | .obj c d => .obj c (listifyD d)
  | v => v
/-- Same on the elements of a list. -/
def listifyL : List V → List V
  | [] => []
  | v :: vs => listify v :: listifyL vs
/-- Same on the values of a dictionary. -/
def listifyD : List (Key × V) → List (Key × V)
  | [] => []
  | (k, v) :: kvs => (k, listify v) :: listifyD kvs
end

mutual
/-- The value holds no tuple. -/
def NoTuple : V → Prop
  | .list l => NoTupleL l
  | .tuple _ => False
  | .dict d => NoTupleD d
  | .obj _ d => NoTupleD d
  | _ => True
/-- Same for the elements of a list. -/
def NoTupleL : List V → Prop
  | [] => True
  | v :: vs => NoTuple v ∧ NoTupleL vs
/-- Same for the values of a dictionary. -/
def NoTupleD : List (Key × V) → Prop
  | [] => True
  | (_, v) :: kvs => NoTuple v ∧ NoTupleD kvs
end

/-- Every object occurring in the value has exactly its constructor arguments as attributes, in the order of the
constructor: what the generic constructors of dessia_common produce. -/
def Built (Γ : Env) (v : V) : Prop :=
  ∀ c d, Occurs v (.obj c d) → keysOf d = (Γ.info c).initArgs.map Key.str

end DC
