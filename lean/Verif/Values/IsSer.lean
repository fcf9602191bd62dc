import Verif.Values.Serialize
/-
Whether an object can be serialized.
Sources: dessia_common/serialization.py 787-804; dessia_common/utils/types.py 46-53.
-/
namespace DC

mutual
/-- `is_jsonable`: utils/types.py 46-53.  `orjson` refuses measures, which are of a subclass of float.  Simplifications:
the keys of dictionaries are strings or integers of 64 bits; no data is nested too deep for `orjson`. -/
def isJsonable : V → Bool
  | .none => true
  | .bool _ => true
  | .int i => jsonInt i
  | .flt _ => true
  | .str _ => true
  | .list l => isJsonableL l
  | .tuple l => isJsonableL l
  | .dict d => isJsonableD d
  | .measure _ _ => false
  | .obj _ _ => false
  | .file _ _ _ => false
  | .cls _ => false
  | .other _ => false
/-- `is_jsonable` on the elements of a sequence: utils/types.py 46-53. -/
def isJsonableL : List V → Bool
  | [] => true
  | v :: l => isJsonable v && isJsonableL l
/-- `is_jsonable` on the values of a dictionary: utils/types.py 46-53. -/
def isJsonableD : List (Key × V) → Bool
  | [] => true
  | kv :: d => isJsonable kv.2 && isJsonableD d
end

mutual
/-- `is_serializable`: serialization.py 787-804. -/
def isSerializable (W : World) : V → Except PyErr Bool
  | .obj c d =>
    match serialize W (.obj c d) with
    | .error e => .error e
    | .ok s => .ok (isJsonable s)
  | .dict d => if isJsonableD d then .ok true else isSerializableD W d
  | .list l => if isJsonableL l then .ok true else isSerializableL W l
  | .tuple l => if isJsonableL l then .ok true else isSerializableL W l
  | .none => .ok true
  | .bool _ => .ok true
  | .int i => .ok (jsonInt i)
  | .flt _ => .ok true
  | .str _ => .ok true
  | .measure _ _ => .ok false
  | .file _ _ _ => .ok false
  | .cls _ => .ok false
  | .other _ => .ok false
/-- The loop on the elements of a sequence: serialization.py 799-803. -/
def isSerializableL (W : World) : List V → Except PyErr Bool
  | [] => .ok true
  | v :: l =>
    match isSerializable W v with
    | .error e => .error e
    | .ok false => .ok false
    | .ok true => isSerializableL W l
/-- The loop on the entries of a dictionary: serialization.py 794-798.  The keys can be serialized. -/
def isSerializableD (W : World) : List (Key × V) → Except PyErr Bool
  | [] => .ok true
  | kv :: d =>
    match isSerializable W kv.2 with
    | .error e => .error e
    | .ok false => .ok false
    | .ok true => isSerializableD W d
end

end DC
