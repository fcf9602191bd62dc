import Verif.Views.Model
import Verif.Checks.Model
import Verif.Checks.Bson
/-
The checks of an object before it is put on the platform.  Source: dessia_common/checks.py 159-254, core.py 302-316, 493-523.
-/
namespace DC.View

/-- An object as the checks see it: `to_dict` with or without pointers, the text of a dictionary read again, `dict_to_object`, the
comparison of an other object with it (`_data_eq`, `_data_diff`), its copy, its displays, whether those can be written as json, its
schemas, and whether they can be.  Used for checks.py 163-174. -/
structure Hosted (ω : Type) where
  toDict : Bool → Except PyErr V
  json : V → Except PyErr V
  ofDict : V → Except PyErr ω
  dataEq : ω → Except PyErr Bool
  dataDiff : ω → Except PyErr Unit
  copy : Except PyErr ω
  obj : Obj V
  data : Data V
  jsonDisplays : List (Shown V) → Bool
  schemas : Except PyErr V
  jsonSchemas : V → Bool

variable {ω : Type}

/-- The dictionary of the object, without pointers if it fails with: checks.py 163-174. -/
def platformDict (h : Hosted ω) : Except PyErr V :=
  match h.toDict true with
  | .error .typeError => h.toDict false
  | r => r

/-- The comparison with the object read again: checks.py 176-186. -/
def checkRead (h : Hosted ω) (w : ω) : Except PyErr Check :=
  match h.dataEq w with
  | .error e => .error e
  | .ok true => .ok (passedCheck "Object is serializable")
  | .ok false => match h.dataDiff w with
    | .error e => .error e
    | .ok () => .ok (failedCheck "Object is not equal to itself after serialization/deserialization")

/-- `check_serialization_process` with pointers: checks.py 159-190: the check and the dictionary. -/
def checkSerialization (h : Hosted ω) : Except PyErr (Check × V) :=
  match platformDict h with
  | .error e => .error e
  | .ok d => match h.json d with
    | .error e => .error e
    | .ok j => match h.ofDict j with
      | .error e => .error e
      | .ok w => match checkRead h w with
        | .error e => .error e
        | .ok c => .ok (c, d)

/-- `check_copy`: checks.py 193-211. -/
def checkCopy (h : Hosted ω) : Except PyErr Check :=
  match h.copy with
  | .error e => .error e
  | .ok w => match h.dataEq w with
    | .error e => .error e
    | .ok true => .ok (passedCheck "Object can be copied and equal to itself after copy.")
    | .ok false => .ok (failedCheck "Object is not equal to itself after copy.")

/-- The check of the dictionary: core.py 504-512. -/
def checkBson (d : V) : Check :=
  if bsonValid false (strKeys d) then passedCheck "Object is BSON valid" else failedCheck "Object is not BSON valid"

/-- `check_displays`: checks.py 214-232. -/
def checkDisplays (h : Hosted ω) : Check :=
  match displays h.data h.obj with
  | .error _ => failedCheck "Object displays failed."
  | .ok ds => if h.jsonDisplays ds then passedCheck "Object displays checks succeeded"
    else failedCheck "Object displays serialization failed."

/-- `check_schemas`: checks.py 235-254. -/
def checkSchemas (h : Hosted ω) : Check :=
  match h.schemas with
  | .error _ => failedCheck "Schemas computation failed with following error"
  | .ok s => if h.jsonSchemas s then passedCheck "Object displays checks succeeded" else failedCheck "Schemas serialization failed."

/-- `check_platform`: core.py 496-523. -/
def checkPlatform (h : Hosted ω) : Except PyErr (List Check) :=
  match checkSerialization h with
  | .error e => .error e
  | .ok (c, d) => match checkCopy h with
    | .error e => .error e
    | .ok c' => .ok [c, c', checkBson d, checkDisplays h, checkSchemas h]

/-- `_check_platform`: core.py 493-494. -/
def raisePlatform (h : Hosted ω) (level : String) : Except PyErr Unit :=
  match checkPlatform h with
  | .error e => .error e
  | .ok cs => raiseIfAbove level cs

/-- `check_list`: core.py 302-308; the level is not used. -/
def checkList (h : Hosted ω) (platform : Bool) : Except PyErr (List Check) :=
  if platform then match checkPlatform h with
    | .error e => .error e
    | .ok cs => .ok (checksAdd [] cs)
  else .ok []

/-- `is_valid`: core.py 310-316. -/
def isValid (h : Hosted ω) (level : String) : Except PyErr Bool :=
  match checkList h true with
  | .error e => .error e
  | .ok cs => match checksAbove level cs with
    | .error e => .error e
    | .ok r => .ok r.isEmpty

end DC.View
