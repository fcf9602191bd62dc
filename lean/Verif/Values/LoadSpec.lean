import Verif.Values.EmitSpec
import Verif.Values.PointersSpec
/- Specification of reading a document with references. -/
namespace DC

/-- Same value, up to the order of the keys of dictionaries and to the kind, list or tuple, of sequences.  (The names of
the attributes of objects and their order are the same.) -/
inductive Like : V → V → Prop
  | leaf {v} : seqItems v = none → (∀ d, v ≠ .dict d) → (∀ c d, v ≠ .obj c d) → Like v v
  | seq {v w a b} : seqItems v = some a → seqItems w = some b → a.length = b.length →
      (∀ (i : Nat) x y, a[i]? = some x → b[i]? = some y → Like x y) → Like v w
  | dict {a b} : (keysOf a).Perm (keysOf b) →
      (∀ k x y, a.lookup k = some x → b.lookup k = some y → Like x y) → Like (.dict a) (.dict b)
  | obj {c a b} : keysOf a = keysOf b →
      (∀ k x y, a.lookup k = some x → b.lookup k = some y → Like x y) → Like (.obj c a) (.obj c b)

/-- What a part of a JSON document stands for, `R` being its references: a dictionary with the item
`"$ref": "#/_references/k"` stands for what the value of `k` in `R` stands for, a dictionary with the name of a generic class for the object of this class with the
other entries as attributes, an array for a sequence, and so on. -/
inductive StandsFor (W : World) (R : List (Key × V)) : V → V → Prop
  | ref {d k x v} : d.lookup (.str "$ref") = some (.str ("#/_references/" ++ k)) → '/' ∉ k.toList →
      R.lookup (.str k) = some x → StandsFor W R x v → StandsFor W R (.dict d) v
  | obj {d c a} : d.lookup (.str "$ref") = none → d.lookup (.str "object_class") = some (.str c) →
      W.kind c = some .generic → keysOf a = (W.info c).initArgs.map Key.str → (keysOf a).Nodup →
      Key.str "object_class" ∉ keysOf a → (∀ k, k ∈ keysOf d ↔ k = .str "object_class" ∨ k ∈ keysOf a) →
      (∀ k x v, (k, x) ∈ d → (k, v) ∈ a → StandsFor W R x v) → StandsFor W R (.dict d) (.obj c a)
  | dict {d e} : d.lookup (.str "$ref") = none → d.lookup (.str "object_class") = none → (keysOf d).Perm (keysOf e) →
      (∀ k x v, (k, x) ∈ d → (k, v) ∈ e → StandsFor W R x v) → StandsFor W R (.dict d) (.dict e)
  | measure {d c q} : d.lookup (.str "$ref") = none → d.lookup (.str "object_class") = some (.str c) →
      W.kind c = some .measure → d.lookup (.str "value") = some (.flt q) → (∀ kv ∈ d, (∃ s, kv.2 = .str s) ∨ ∃ q, kv.2 = .flt q) →
      StandsFor W R (.dict d) (.measure c q)
  | seq {l v m} : seqItems v = some m → l.length = m.length →
      (∀ (i : Nat) x y, l[i]? = some x → m[i]? = some y → StandsFor W R x y) → StandsFor W R (.list l) v
  | str {s} : W.resolve s = none → StandsFor W R (.str s) (.str s)
  | cls {n} : W.resolve n = some (.cls n) → StandsFor W R (.str n) (.cls n)
  | none : StandsFor W R .none .none
  | bool {b} : StandsFor W R (.bool b) (.bool b)
  | int {i} : StandsFor W R (.int i) (.int i)
  | flt {q} : StandsFor W R (.flt q) (.flt q)
  | file {b n t} : StandsFor W R (.file b n t) (.file b n t)

/-- The keys of the dictionaries of the document are distinct strings without slash. -/
def PlainDoc (v : V) : Prop :=
  ∀ d, Occurs v (.dict d) → (keysOf d).Nodup ∧ ∀ k ∈ keysOf d, ∃ s, k = .str s ∧ '/' ∉ s.toList

/-- A JSON document with references, which stands for an object of class `c` with the attributes `a`. -/
structure Document (W : World) (d R : List (Key × V)) (c : String) (a : List (Key × V)) : Prop where
  json : IsJson True (.dict d)
  plain : PlainDoc (.dict d)
  names : ∀ k ∈ keysOf d, AttrName k
  notRef : d.lookup (.str "$ref") = none
  refs : d.lookup (.str "_references") = some (.dict R)
  refsKeys : Key.str "$ref" ∉ keysOf R ∧ Key.str "object_class" ∉ keysOf R
  content : ∀ k x, R.lookup k = some x → ∃ v, StandsFor W R x v
  contentRef : ∀ k e, R.lookup k = some (.dict e) → e.lookup (.str "$ref") = none
  args : "_references" ∉ (W.info c).initArgs
  root : StandsFor W R (.dict (d.filter fun kv => kv.1 ≠ .str "_references")) (.obj c a)

end DC
