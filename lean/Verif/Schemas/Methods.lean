import Verif.Schemas.Model
/-
The schemas of the methods of an object.
Sources: dessia_common/core.py 168-188; dessia_common/schemas/core.py 417-436.
-/
namespace DC.Sch

/-- A class with methods: its name, `dir(cls)` and `_allowed_methods`: core.py 172-173. -/
structure Owner where
  name : String
  dir : List String
  allowed : List String

/-- The full name of a method.  `Classes.define` of this name tells its arguments, annotations and docstring.
Used for schemas/core.py 424-433, 350-366. -/
def Owner.full (o : Owner) (m : String) : String := o.name ++ "." ++ m

/-- `m.startswith('_')`: core.py 173. -/
def isPrivate (m : String) : Bool := match m.toList with
  | '_' :: _ => true
  | _ => false

/-- `valid_method_names`: core.py 173. -/
def Owner.offered (o : Owner) : List String := o.dir.filter fun m => !isPrivate m && o.allowed.contains m

/-- `MethodSchema(method)`: schemas/core.py 424-433, 350-366: the arguments, the annotations and the docstring are read as those of a class are.
Simplification: what is offered is a method, or a property with a getter. -/
def methodSchema (W : Classes) (o : Owner) (m : String) : Except PyErr Schema := classSchema W (o.full m)

/-- The loop of `raw_method_schemas`: core.py 174-178. -/
def schemasFor (W : Classes) (o : Owner) : List String → Except PyErr (List (String × Schema))
  | [] => .ok []
  | m :: ms => match methodSchema W o m with
    | .error e => .error e
    | .ok s => match schemasFor W o ms with
      | .error e => .error e
      | .ok r => .ok ((m, s) :: r)

/-- `raw_method_schemas`: core.py 168-178. -/
def rawMethodSchemas (W : Classes) (o : Owner) : Except PyErr (List (String × Schema)) := schemasFor W o o.offered

/-- `Schema.to_dict` of the schema of a method: schemas/core.py 265-270.  `ids` are the random identifiers of the step. -/
def methodForm (W : Classes) (ids : String × String) (s : Schema) : Except PyErr (List (Key × V)) :=
  match properties W s.attributes with
  | .error e => .error e
  | .ok vs => .ok [(.str "definitions", .dict []), (.str "$schema", .str "http://json-schema.org/draft-07/schema#"), (.str "type", .str "object"),
      (.str "steps", .list [.dict [(.str "properties", .list vs), (.str "displaySetting", .none), (.str "documentation", .str ""),
        (.str "label", .str ""), (.str "displayVariable", .none), (.str "group_id", .str ids.1), (.str "id", .str ids.2)]]),
      (.str "description", .str (String.ofList s.documentation)), (.str "spareProperties", .list [])]

/-- The forms of schemas: core.py 183. -/
def formsOf (W : Classes) (ids : String → String × String) : List (String × Schema) → Except PyErr (List (String × List (Key × V)))
  | [] => .ok []
  | (m, s) :: r => match methodForm W (ids m) s with
    | .error e => .error e
    | .ok f => match formsOf W ids r with
      | .error e => .error e
      | .ok fs => .ok ((m, f) :: fs)

/-- `method_schemas`: core.py 180-183. -/
def methodSchemas (W : Classes) (ids : String → String × String) (o : Owner) : Except PyErr (List (String × List (Key × V))) :=
  match rawMethodSchemas W o with
  | .error e => .error e
  | .ok r => formsOf W ids r

/-- `method_dict`: core.py 185-188; schemas/core.py 272-279. -/
def methodDefaults (W : Classes) (o : Owner) (m : String) : Except PyErr (List (Key × V)) :=
  match rawMethodSchemas W o with
  | .error e => .error e
  | .ok r => match r.lookup m with
    | none => .error .keyError
    | some s => defaultDict W s.attributes

end DC.Sch
