import Verif.Values.Emit
import Verif.Values.SerializeSpec
/- Specification of serialized values with pointers. -/
namespace DC

/-- Reading a serialized value, `{"$ref": "#/_references/k"}` standing for the value of key `k` of the references, and the
order of the keys of a dictionary being ignored, gives `j`. -/
inductive Reads (H : Heap) (refs : List (Key × SV)) : SV → V → Prop
  | atom {v} : Reads H refs (.atom v) v
  | ref {a d k x j} : H[a]? = some (.dict d) → d.lookup (.str "$ref") = some (.atom (.str ("#/_references/" ++ k))) →
      refs.lookup (.str k) = some x → Reads H refs x j → Reads H refs (.ptr a) j
  | dict {a d e} {f : Key → V} : H[a]? = some (.dict d) → d.lookup (.str "$ref") = none →
      (∀ kv ∈ d, Reads H refs kv.2 (f kv.1)) → (d.map fun kv => (kv.1, f kv.1)).Perm e → Reads H refs (.ptr a) (.dict e)
  | list {a l e} : H[a]? = some (.list l) → l.length = e.length →
      (∀ (i : Nat) x v, l[i]? = some x → e[i]? = some v → Reads H refs x v) → Reads H refs (.ptr a) (.list e)

/-- The key is a string without slash, and is not a reserved one. -/
def PlainKey (k : Key) : Prop := ∃ s, k = .str s ∧ '/' ∉ s.toList ∧ s ≠ "$ref"

/-- The keys of the dictionaries and the attributes of the objects which occur in the value are distinct plain strings. -/
structure PlainKeys (v : V) : Prop where
  dict : ∀ d, Occurs v (.dict d) → (keysOf d).Nodup ∧ ∀ k ∈ keysOf d, PlainKey k
  obj : ∀ c d, Occurs v (.obj c d) → (keysOf d).Nodup ∧ ∀ k ∈ keysOf d, PlainKey k ∧ k ≠ .str "object_class"

/-- The result of `to_dict` of an object, a dictionary `R` whose parts are in `H`, holds its references, and reads as
the dictionary `e`, the references themselves being left aside. -/
structure ReadsDocument (H : Heap) (R : List (Key × SV)) (refs : List (Key × SV)) (e : List (Key × V)) : Prop where
  references : ∃ rc, R.lookup (.str "_references") = some (.ptr rc) ∧ H[rc]? = some (.dict refs)
  reads : ∃ f : Key → V, (∀ kv ∈ R, kv.1 ≠ .str "_references" → Reads H refs kv.2 (f kv.1)) ∧
    ((R.filter fun kv => kv.1 ≠ .str "_references").map fun kv => (kv.1, f kv.1)).Perm e

/-- The attribute has a name which does not begin with `#`. -/
def AttrName (k : Key) : Prop := ∃ s, k = .str s ∧ s.toList ≠ [] ∧ s.toList.head? ≠ some '#'

end DC
