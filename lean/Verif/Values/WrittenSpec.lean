import Verif.Values.LoadSpec
/- Specification of the writing of the dictionary of an object. -/
namespace DC

/-- The JSON data of a serialized value whose parts are in `H`: a part which is held twice is written twice. -/
inductive Written (H : Heap) : SV → V → Prop
  | atom {v} : Written H (.atom v) v
  | dict {a d e} : H[a]? = some (.dict d) → keysOf e = d.map (·.1) →
      (∀ (i : Nat) x v, (d.map (·.2))[i]? = some x → (e.map (·.2))[i]? = some v → Written H x v) → Written H (.ptr a) (.dict e)
  | list {a l m} : H[a]? = some (.list l) → l.length = m.length →
      (∀ (i : Nat) x v, l[i]? = some x → m[i]? = some v → Written H x v) → Written H (.ptr a) (.list m)

/-- The JSON data of a dictionary of serialized values. -/
def WrittenDict (H : Heap) (d : List (Key × SV)) (e : List (Key × V)) : Prop :=
  keysOf e = d.map (·.1) ∧ ∀ (i : Nat) x v, (d.map (·.2))[i]? = some x → (e.map (·.2))[i]? = some v → Written H x v

end DC
