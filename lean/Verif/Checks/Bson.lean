import Verif.Values.Serialize
/-
Storage checks: stringified dictionary keys and BSON validity.
Source: dessia_common/core.py 1104-1117, dessia_common/utils/types.py 235-271.
-/
namespace DC

mutual
/-- `stringify_dict_keys`: core.py 1104-1117.  Objects and other values are returned as they are. -/
def strKeys : V → V
  | .list l => .list (strKeysL l)
  | .tuple l => .list (strKeysL l)
  | .dict d => .dict (strKeysD [] d)
  | v => v
/-- The loop on the elements: core.py 1107-1109. -/
def strKeysL : List V → List V
  | [] => []
  | v :: vs => strKeys v :: strKeysL vs
/-- The loop on the entries, `acc` being `new_obj`: core.py 1112-1114. -/
def strKeysD (acc : List (Key × V)) : List (Key × V) → List (Key × V)
  | [] => acc
  | (k, v) :: rest => strKeysD (dictSet acc (.str (keyStr k)) (strKeys v)) rest
end

/-- The key test of `is_bson_valid`: utils/types.py 245-257. -/
def bsonKey (allow : Bool) : Key → Bool
  | .str s => !(s.toList.contains '.')
  | .int _ => allow

mutual
/-- `is_bson_valid(value, allow_nonstring_keys)[0]`: utils/types.py 235-271.
Simplifications: the hint is dropped; `other` stands for values which are not sequences (bytes and ranges, which the
code walks as sequences of integers, are not represented). -/
def bsonValid (allow : Bool) : V → Bool
  | .none | .bool _ | .int _ | .flt _ | .measure _ _ | .str _ => true
  | .list l => bsonValidL allow l
  | .tuple l => bsonValidL allow l
  | .dict d => bsonValidD allow d
  | .obj _ _ | .cls _ | .file _ _ _ | .other _ => false
/-- The loop on the elements: utils/types.py 264-268. -/
def bsonValidL (allow : Bool) : List V → Bool
  | [] => true
  | v :: vs => if bsonValid allow v then bsonValidL allow vs else false
/-- The loop on the entries: utils/types.py 243-262. -/
def bsonValidD (allow : Bool) : List (Key × V) → Bool
  | [] => true
  | (k, v) :: rest => if bsonKey allow k then (if bsonValid allow v then bsonValidD allow rest else false) else false
end

end DC
