import Verif.Values.Equality
/-
Model of dessia_common/utils/diff.py 13-172 (`Diff`, `diff`, `dict_diff`, `sequence_diff`).
-/
namespace DC

/-- Contents of a `Diff`: utils/diff.py 13-58.  `different`: (path, value1, value2) of each `DifferentValues`;
`missing`: (path, missing_in_first_object) of each `MissingAttribute`; `types`: (path, value1, value2) of each
`DifferentType`.  Simplification: a path is the list of its segments instead of the string joined with '/'. -/
structure Diff where
  different : List (List Key × V × V) := []
  missing : List (List Key × Bool) := []
  types : List (List Key × V × V) := []
  deriving Repr

/-- `Diff.is_empty`: utils/diff.py 60-62. -/
def Diff.isEmpty (d : Diff) : Bool := d.different.isEmpty && d.missing.isEmpty && d.types.isEmpty

/-- `Diff.__add__`: utils/diff.py 85-88. -/
def Diff.add (a b : Diff) : Diff :=
  ⟨a.different ++ b.different, a.missing ++ b.missing, a.types ++ b.types⟩

/-- `isinstance(value1, type(value2))`: utils/diff.py 104. `bool` is a subclass of `int`, `Measure` of `float`.
Simplification: no subclass relation among measures or among file classes. -/
def isInst (Γ : Env) : V → V → Bool
  | .none, .none => true
  | .bool _, .bool _ => true
  | .bool _, .int _ => true
  | .int _, .int _ => true
  | .flt _, .flt _ => true
  | .measure _ _, .flt _ => true
  | .measure c _, .measure c' _ => c == c'
  | .str _, .str _ => true
  | .list _, .list _ => true
  | .tuple _, .tuple _ => true
  | .dict _, .dict _ => true
  | .obj c _, .obj c' _ => (c == c') || Γ.sub c c'
  | .cls _, .cls _ => true
  | .file b _ _, .file b' _ _ => b == b'
  | .other n, .other m => n == m
  | _, _ => false

/-- `value1 != value2` for two base values (utils/diff.py 111), after the float tolerance test of line 109, and
`value1 == value2` of line 132 for files and classes. -/
def leafSame : V → V → Bool
  | .none, .none => true
  | .bool a, .bool b => a == b
  | .bool a, .int b => b2i a == b
  | .int a, .int b => a == b
  | .flt a, .flt b => isclose a b || a == b
  | .measure _ a, .flt b => isclose a b || a == b
  | .measure _ a, .measure _ b => isclose a b || a == b
  | .str a, .str b => a == b
  | .file k n t, .file k' n' t' => (k == k') && (t == t') && (n == n')
  | .cls n, .cls m => n == m
  | .other n, .other m => n == m
  | _, _ => false

theorem sizeOf_filter_le (p : Key × V → Bool) (d : List (Key × V)) : sizeOf (d.filter p) ≤ sizeOf d := by
  induction d with
  | nil => simp
  | cons x xs ih =>
    rw [List.filter_cons]
    split
    · simp; omega
    · simp; omega

theorem sizeOf_lookup_lt {d : List (Key × V)} {k : Key} {v : V} (h : d.lookup k = some v) : sizeOf v < sizeOf d := by
  induction d with
  | nil => simp at h
  | cons x xs ih =>
    obtain ⟨k', v'⟩ := x
    rw [List.lookup_cons] at h
    split at h
    · cases h; simp; omega
    · have := ih h; simp; omega

/-- The attribute dictionaries compared by `diff` on objects: `_serializable_dict` of both, `name` being deleted from
the first one only: utils/diff.py 125-130. -/
def diffAttrs1 (Γ : Env) (c : String) (d : List (Key × V)) : List (Key × V) :=
  d.filter (fun kv => serKeep Γ c kv.1 && !(kv.1 == Key.str "name"))

mutual
/-- `diff`: utils/diff.py 91-135. -/
def diff (Γ : Env) (v w : V) (path : List Key) : Except PyErr Diff :=
  match v, w with
  | .list a, .list b => seqDiff Γ (.list a) (.list b) a b path
  | .list a, .tuple b => seqDiff Γ (.list a) (.tuple b) a b path
  | .tuple a, .list b => seqDiff Γ (.tuple a) (.list b) a b path
  | .tuple a, .tuple b => seqDiff Γ (.tuple a) (.tuple b) a b path
  | .dict a, .dict b => dictDiff Γ a b path
  | .obj c a, .obj c' b =>
    if isInst Γ (.obj c a) (.obj c' b) then
      if dataEq Γ (.obj c a) (.obj c' b) then .ok {}
      else dictDiff Γ (diffAttrs1 Γ c a) (serializableDict Γ c' b) path
    else .ok { types := [(path, .obj c a, .obj c' b)] }
  | v, w =>
    if isInst Γ v w then
      if leafSame v w then .ok {}
      else match v with
        | .cls _ => .error .notImplemented
        | .file .. => .error .notImplemented
        | .other _ => .error .notImplemented
        | _ => .ok { different := [(path, v, w)] }
    else .ok { types := [(path, v, w)] }
termination_by (sizeOf v + sizeOf w, 2)
decreasing_by
  · apply Prod.Lex.left; simp; omega
  · apply Prod.Lex.left; simp; omega
  · apply Prod.Lex.left; simp; omega
  · apply Prod.Lex.left; simp; omega
  · apply Prod.Lex.left; simp; omega
  · apply Prod.Lex.left
    have h1 := sizeOf_filter_le (fun kv => serKeep Γ c kv.1 && !(kv.1 == Key.str "name")) a
    have h2 := sizeOf_filter_le (fun kv => serKeep Γ c' kv.1) b
    simp [diffAttrs1, serializableDict] at *; omega
/-- `dict_diff`: utils/diff.py 138-157: the longer dictionary is browsed, the second one if strictly longer. -/
def dictDiff (Γ : Env) (d1 d2 : List (Key × V)) (path : List Key) : Except PyErr Diff :=
  if d2.length > d1.length then dictLoop Γ d2 d1 true path else dictLoop Γ d1 d2 false path
termination_by (sizeOf d1 + sizeOf d2, 1)
decreasing_by
  · rw [Nat.add_comm]; apply Prod.Lex.right; omega
  · apply Prod.Lex.right; omega
/-- The loop of `dict_diff`: utils/diff.py 149-157. -/
def dictLoop (Γ : Env) (d other : List (Key × V)) (first : Bool) (path : List Key) : Except PyErr Diff :=
  match d with
  | [] => .ok {}
  | (k, v) :: rest =>
    match _h : other.lookup k with
    | none => do
      let r ← dictLoop Γ rest other first path
      pure (Diff.add { missing := [(path ++ [k], first)] } r)
    | some w => do
      let x ← diff Γ v w (path ++ [k])
      let r ← dictLoop Γ rest other first path
      pure (Diff.add x r)
termination_by (sizeOf d + sizeOf other, 0)
decreasing_by
  · apply Prod.Lex.left; simp; omega
  · apply Prod.Lex.left; have := sizeOf_lookup_lt _h; simp; omega
  · apply Prod.Lex.left; simp; omega
/-- `sequence_diff`: utils/diff.py 160-172 (`v`, `w`: the sequences themselves, reported when lengths differ). -/
def seqDiff (Γ : Env) (v w : V) (a b : List V) (path : List Key) : Except PyErr Diff :=
  if a.length ≠ b.length then .ok { different := [(path, v, w)] } else seqLoop Γ 0 a b path
termination_by (sizeOf a + sizeOf b, 1)
decreasing_by
  · apply Prod.Lex.right; omega
/-- The loop of `sequence_diff`: utils/diff.py 168-171, from index `i`. -/
def seqLoop (Γ : Env) (i : Nat) (a b : List V) (path : List Key) : Except PyErr Diff :=
  match a, b with
  | x :: xs, y :: ys => do
    let d ← diff Γ x y (path ++ [.int i])
    let r ← seqLoop Γ (i + 1) xs ys path
    pure (Diff.add d r)
  | _, _ => .ok {}
termination_by (sizeOf a + sizeOf b, 0)
decreasing_by
  · apply Prod.Lex.left; simp; omega
  · apply Prod.Lex.left; simp; omega
end

end DC
