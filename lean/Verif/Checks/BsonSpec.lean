import Verif.Checks.Bson
import Verif.Values.CopySpec
/- Specification vocabulary for stringified keys and BSON validity. -/
namespace DC

mutual
/-- `w` is `v` with its keys written as strings: same shape (tuples become lists), same entries in the same order. -/
inductive Strung : V → V → Prop
  | leaf {v} : (∀ l, v ≠ .list l) → (∀ l, v ≠ .tuple l) → (∀ d, v ≠ .dict d) → Strung v v
  | list {l m} : StrungL l m → Strung (.list l) (.list m)
  | tuple {l m} : StrungL l m → Strung (.tuple l) (.list m)
  | dict {d e} : StrungD d e → Strung (.dict d) (.dict e)
/-- Element by element. -/
inductive StrungL : List V → List V → Prop
  | nil : StrungL [] []
  | cons {v w l m} : Strung v w → StrungL l m → StrungL (v :: l) (w :: m)
/-- Entry by entry. -/
inductive StrungD : List (Key × V) → List (Key × V) → Prop
  | nil : StrungD [] []
  | cons {k v w d e} : Strung v w → StrungD d e → StrungD ((k, v) :: d) ((.str (keyStr k), w) :: e)
end

mutual
/-- In every dictionary reached through lists, tuples and dictionaries, the keys have distinct strings. -/
def KeysApart : V → Prop
  | .list l => KeysApartL l
  | .tuple l => KeysApartL l
  | .dict d => (d.map (fun kv => keyStr kv.1)).Nodup ∧ KeysApartD d
  | _ => True
/-- Same for the elements of a list. -/
def KeysApartL : List V → Prop
  | [] => True
  | v :: vs => KeysApart v ∧ KeysApartL vs
/-- Same for the values of a dictionary. -/
def KeysApartD : List (Key × V) → Prop
  | [] => True
  | (_, v) :: rest => KeysApart v ∧ KeysApartD rest
end

/-- What BSON can store at one place: a primitive, a sequence, or a dictionary whose keys are strings without dot (or
integers, when allowed). -/
def StorableHere (allow : Bool) : V → Prop
  | .none | .bool _ | .int _ | .flt _ | .measure _ _ | .str _ | .list _ | .tuple _ => True
  | .dict d => ∀ kv ∈ d, (∃ s, kv.1 = .str s ∧ '.' ∉ s.toList) ∨ (allow = true ∧ ∃ i, kv.1 = .int i)
  | _ => False

end DC
