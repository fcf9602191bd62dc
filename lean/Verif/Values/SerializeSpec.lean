import Verif.Values.Serialize
import Verif.Values.EqualitySpec
import Verif.Values.CopySpec
/- Specification vocabulary for serialization. -/
namespace DC

/-- JSON data: null, booleans, 64 bits integers, numbers, strings, arrays and objects.  With `files`, file objects are
also allowed as leaves. -/
inductive IsJson (files : Prop) : V → Prop
  | none : IsJson files .none
  | bool {b} : IsJson files (.bool b)
  | int {i : Int} : -2 ^ 63 ≤ i → i < 2 ^ 64 → IsJson files (.int i)
  | flt {q} : IsJson files (.flt q)
  | str {s} : IsJson files (.str s)
  | arr {l} : (∀ x ∈ l, IsJson files x) → IsJson files (.list l)
  | obj {d : List (Key × V)} : (∀ kv ∈ d, IsJson files kv.2) → IsJson files (.dict d)
  | file {b n t} : files → IsJson files (.file b n t)

/-- Attribute `k` of an object of class `c` is serialized: public and not excluded by the class. -/
def PublicAttr (Γ : Env) (c : String) (k : Key) : Prop :=
  ∃ s, k = .str s ∧ s ∉ (Γ.info c).nonSerializable ∧ s.toList.head? ≠ some '_'

/-- The values that can be serialized: every part reached through serialized attributes is of a supported type. -/
inductive Supported (W : World) : V → Prop
  | none : Supported W .none
  | bool {b} : Supported W (.bool b)
  | int {i : Int} : -2 ^ 63 ≤ i → i < 2 ^ 64 → Supported W (.int i)
  | flt {q} : Supported W (.flt q)
  | measure {c q} : Supported W (.measure c q)
  | str {s} : Supported W (.str s)
  | file {b n t} : Supported W (.file b n t)
  | cls {n} : n ∈ ["builtins.int", "builtins.float", "builtins.bool", "builtins.str"] ∨ W.hasSchema n = true →
      Supported W (.cls n)
  | list {l} : (∀ x ∈ l, Supported W x) → Supported W (.list l)
  | tuple {l} : (∀ x ∈ l, Supported W x) → Supported W (.tuple l)
  | dict {d : List (Key × V)} : (∀ kv ∈ d, Supported W kv.2) → Supported W (.dict d)
  | obj {c} {d : List (Key × V)} : (∀ kv ∈ d, PublicAttr W.toEnv c kv.1 → Supported W kv.2) → Supported W (.obj c d)

/-- No file object occurs in the value. -/
def NoFile (v : V) : Prop := ∀ b n t, ¬ Occurs v (.file b n t)

/-- The conditions under which the data of a value can be read back from its serialized form: integers of 64 bits,
importable classes with a schema, strings that are not names of importable things, dictionaries without reserved keys,
objects of generic classes whose attributes are their constructor arguments, all of them serialized. -/
structure Readable (W : World) (v : V) : Prop where
  ints : ∀ i, Occurs v (.int i) → -2 ^ 63 ≤ i ∧ i < 2 ^ 64
  strs : ∀ s, Occurs v (.str s) → W.resolve s = none
  classes : ∀ n, Occurs v (.cls n) → n ∉ ["builtins.int", "builtins.float", "builtins.bool", "builtins.str"] ∧
    W.hasSchema n = true ∧ W.resolve n = some (.cls n)
  measures : ∀ c q, Occurs v (.measure c q) → W.kind c = some .measure
  dicts : ∀ d, Occurs v (.dict d) → Key.str "$ref" ∉ keysOf d ∧ Key.str "object_class" ∉ keysOf d
  objs : ∀ c d, Occurs v (.obj c d) → W.kind c = some .generic ∧
    keysOf d = (W.info c).initArgs.map Key.str ∧ (∀ k ∈ keysOf d, PublicAttr W.toEnv c k) ∧
    "$ref" ∉ (W.info c).initArgs ∧ "object_class" ∉ (W.info c).initArgs

mutual
/-- A sequence written as a list or tuple is read back as a list, or as a tuple when it is a constructor argument
annotated as a tuple.  `tup`: the value is such an argument. -/
def reread (Γ : Env) (tup : Bool) : V → V
  | .list l => if tup then .tuple (rereadL Γ l) else .list (rereadL Γ l)
  | .tuple l => if tup then .tuple (rereadL Γ l) else .list (rereadL Γ l)
  | .dict d => .dict (rereadD Γ (fun _ => false) d)
  | .obj c d => .obj c (rereadD Γ (fun k => ∃ s ∈ (Γ.info c).tupleArgs, k = .str s) d)
  | v => v
/-- Same on the elements of a list. -/
def rereadL (Γ : Env) : List V → List V
  | [] => []
  | v :: vs => reread Γ false v :: rereadL Γ vs
/-- Same on the values of a dictionary; `tup k` tells whether `k` is annotated as a tuple. -/
def rereadD (Γ : Env) (tup : Key → Bool) : List (Key × V) → List (Key × V)
  | [] => []
  | (k, v) :: kvs => (k, reread Γ (tup k) v) :: rereadD Γ tup kvs
end

mutual
/-- Sequences are of the annotated kind: tuples for arguments annotated as tuples, lists anywhere else. -/
def SeqKinds (Γ : Env) (tup : Bool) : V → Prop
  | .list l => tup = false ∧ SeqKindsL Γ l
  | .tuple l => tup = true ∧ SeqKindsL Γ l
  | .dict d => SeqKindsD Γ (fun _ => false) d
  | .obj c d => SeqKindsD Γ (fun k => ∃ s ∈ (Γ.info c).tupleArgs, k = .str s) d
  | _ => True
/-- Same for the elements of a list. -/
def SeqKindsL (Γ : Env) : List V → Prop
  | [] => True
  | v :: vs => SeqKinds Γ false v ∧ SeqKindsL Γ vs
/-- Same for the values of a dictionary. -/
def SeqKindsD (Γ : Env) (tup : Key → Bool) : List (Key × V) → Prop
  | [] => True
  | (k, v) :: kvs => SeqKinds Γ (tup k) v ∧ SeqKindsD Γ tup kvs
end

end DC
