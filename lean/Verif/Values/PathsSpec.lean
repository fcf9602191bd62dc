import Verif.Values.Paths
import Verif.Values.CopySpec
/- Specification vocabulary for deep access by path. -/
namespace DC

/-- `path` is written `#/s₁/s₂/...` with at least one segment, the first one being neither empty nor starting
with `#`. -/
def Rooted (path : Path) (segs : List String) : Prop :=
  path = "#" :: segs ∧ ∃ s rest, segs = s :: rest ∧ ∃ c cs, s.toList = c :: cs ∧ c ≠ '#'

/-- The value holds no reference dictionary `{'$ref': ...}`. -/
def NoRef (v : V) : Prop := ∀ d, Occurs v (.dict d) → Key.str "$ref" ∉ keysOf d

/-- The two paths take different branches at some point: none is a prefix of the other. -/
def Diverge (p q : List String) : Prop := ∃ c s t r r', p = c ++ s :: r ∧ q = c ++ t :: r' ∧ s ≠ t

/-- Sequence indices are written in the usual way: no sign, no leading zero. -/
def Canonical (p : List String) : Prop := ∀ s ∈ p, ∀ i : Int, int? s = some i → s = toString i ∧ 0 ≤ i

end DC
