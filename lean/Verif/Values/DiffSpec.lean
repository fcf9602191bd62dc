import Verif.Values.Basic
/- Specification of the paths reported by a diff, and of the values its theorems range over. -/
namespace DC

/-- The element, entry or attribute of a value designated by one path segment (specification). -/
def child : V → Key → Option V
  | .list l, .int i => if i < 0 then none else l[i.toNat]?
  | .tuple l, .int i => if i < 0 then none else l[i.toNat]?
  | .dict d, k => d.lookup k
  | .obj _ d, k => d.lookup k
  | _, _ => none

/-- The value found at a path (specification). -/
def valueAt : V → List Key → Option V
  | v, [] => some v
  | v, k :: ks => match child v k with
    | some w => valueAt w ks
    | none => none

mutual
/-- Every object occurring in the value has a serializable attribute `name`, as DessiaObject.__init__ sets it
(core.py 94-95). -/
def Named (Γ : Env) : V → Prop
  | .list l => NamedL Γ l
  | .tuple l => NamedL Γ l
  | .dict d => NamedD Γ d
  | .obj c d => Key.str "name" ∈ keysOf d ∧ "name" ∉ (Γ.info c).nonSerializable ∧ NamedD Γ d
  | _ => True
/-- All the elements are named. -/
def NamedL (Γ : Env) : List V → Prop
  | [] => True
  | v :: vs => Named Γ v ∧ NamedL Γ vs
/-- All the values are named. -/
def NamedD (Γ : Env) : List (Key × V) → Prop
  | [] => True
  | (_, v) :: kvs => Named Γ v ∧ NamedD Γ kvs
end

mutual
/-- No boolean and no measure occurs in the value (outside of objects): the types whose `isinstance` relation is not
symmetric. -/
def NoSub : V → Prop
  | .list l => NoSubL l
  | .tuple l => NoSubL l
  | .dict d => NoSubD d
  | .bool _ => False
  | .measure _ _ => False
  | _ => True
/-- No boolean and no measure occurs in the list. -/
def NoSubL : List V → Prop
  | [] => True
  | v :: vs => NoSub v ∧ NoSubL vs
/-- No boolean and no measure occurs in the dictionary. -/
def NoSubD : List (Key × V) → Prop
  | [] => True
  | (_, v) :: kvs => NoSub v ∧ NoSubD kvs
end

mutual
/-- The value holds neither dictionary nor object. -/
def SeqOnly : V → Prop
  | .list l => SeqOnlyL l
  | .tuple l => SeqOnlyL l
  | .dict _ => False
  | .obj _ _ => False
  | _ => True
/-- All the elements hold neither dictionary nor object. -/
def SeqOnlyL : List V → Prop
  | [] => True
  | v :: vs => SeqOnly v ∧ SeqOnlyL vs
end

mutual
/-- Neither class object, file nor value of an unknown type occurs in the value. -/
def NoOpaque : V → Prop
  | .list l => NoOpaqueL l
  | .tuple l => NoOpaqueL l
  | .dict d => NoOpaqueD d
  | .obj _ d => NoOpaqueD d
  | .cls _ => False
  | .file .. => False
  | .other _ => False
  | _ => True
/-- Same for the elements of a list. -/
def NoOpaqueL : List V → Prop
  | [] => True
  | v :: vs => NoOpaque v ∧ NoOpaqueL vs
/-- Same for the values of a dictionary. -/
def NoOpaqueD : List (Key × V) → Prop
  | [] => True
  | (_, v) :: kvs => NoOpaque v ∧ NoOpaqueD kvs
end

end DC
