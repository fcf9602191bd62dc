import Verif.Values.Basic
/-
Matching of types.  Source: dessia_common/utils/types.py 296-386, schemas/core.py 1773-1778, 1844-1852.
-/
namespace DC.Types

/-- Annotations.  `cls` is a class (int, float, NoneType...), `list t` is `List[t]`, `tuple` has the arguments of `Tuple[...]`, the
ellipsis being one of them, `union` has the arguments of `Union[...]`, which the typing module flattens (no union in a union);
`other` is any other generic typing with an origin and arguments (InstanceOf, Iterator, Type...).
Simplifications: unsubscripted generics, TypeVar, Literal and Annotated are left out.  Used for schemas/core.py 1773-1778. -/
inductive Ty where
  | cls (c : String)
  | any
  | ellipsis
  | list (t : Ty)
  | tuple (ts : List Ty)
  | dict (k v : Ty)
  | union (ts : List Ty)
  | other (origin : String) (args : List Ty)

/-- The classes: `sub c d` is `issubclass(c, d)`; `anyIsClass` says whether `typing.Any` is a class (from Python 3.11 on).
Used for types.py 296-321. -/
structure Classes where
  sub : String → String → Bool
  anyIsClass : Bool

mutual
/-- `T == U` on annotations: arguments are compared in order, those of unions as sets (typing module).  Used for schemas/core.py 1844-1852. -/
def tyEq : Ty → Ty → Bool
  | .cls c, .cls d => c == d
  | .any, .any => true
  | .ellipsis, .ellipsis => true
  | .list t, .list u => tyEq t u
  | .tuple ts, .tuple us => tyEqAll ts us
  | .dict k v, .dict k' v' => tyEq k k' && tyEq v v'
  | .union ts, .union us => eachIn ts us && us.all (eqSome ts)
  | .other o ts, .other o' us => o == o' && tyEqAll ts us
  | _, _ => false
/-- Equality of argument tuples.  Used for schemas/core.py 1844-1852. -/
def tyEqAll : List Ty → List Ty → Bool
  | [], [] => true
  | t :: ts, u :: us => tyEq t u && tyEqAll ts us
  | _, _ => false
/-- Each of the first types is equal to one of the second.  Used for types.py 336-358. -/
def eachIn : List Ty → List Ty → Bool
  | [], _ => true
  | t :: ts, us => us.any (tyEq t) && eachIn ts us
/-- One of the types is equal to `u`.  Used for schemas/core.py 1844-1852. -/
def eqSome : List Ty → Ty → Bool
  | [], _ => false
  | t :: ts, u => tyEq t u || eqSome ts u
end

/-- `is_typing`: schemas/core.py 1773-1778. -/
def isTyping : Ty → Bool
  | .list _ | .tuple _ | .dict _ _ | .union _ | .other _ _ => true
  | _ => false

/-- `union_is_default_value` on arguments: schemas/core.py 1844-1852. -/
def isDefaultUnion (ts : List Ty) : Bool := ts.length == 2 && ts.any fun t => tyEq t (.cls "NoneType")

/-- `heal_type`, which gives the first argument of an optional type: types.py 361-378. -/
def heal : Ty → Ty
  | .union ts => if isDefaultUnion ts then ts.headD .any else .union ts
  | t => t

/-- `particular_typematches`: types.py 381-386. -/
def particular : Ty → Ty → Bool
  | .cls c, .cls d => c == "int" && d == "float"
  | _, _ => false

/-- `match_against is Any`.  Used for types.py 296-321. -/
def isAny : Ty → Bool
  | .any => true
  | _ => false

/-- `issubclass(T, U)`, which raises a TypeError when an argument is not a class.  Used for types.py 296-321. -/
def issub (C : Classes) : Ty → Ty → Except PyErr Bool
  | .cls c, .cls d => .ok (C.sub c d)
  | .any, .cls d => if C.anyIsClass then .ok (d == "object") else .error .typeError
  | _, _ => .error .typeError

theorem heal_size (t : Ty) : sizeOf (heal t) ≤ sizeOf t := by
  cases t with
  | union ts =>
    rw [heal]
    split
    · rename_i h
      match ts, h with
      | [], h => simp [isDefaultUnion] at h
      | u :: _, _ => simp; omega
    · exact Nat.le_refl _
  | _ => simp [heal]

mutual
/-- `typematch`: types.py 296-321.  In the last case, when `issubclass` is False, `match_against` has no origin and the result is
False. -/
def typematch (C : Classes) (T U : Ty) : Except PyErr Bool :=
  if tyEq T U || isAny U || particular T U then .ok true
  else if isTyping T then (if isTyping U then matchHealed C (heal T) (heal U) else .ok false)
  else if isTyping U then
    match _hU : heal U with
    | .union us => matchSome C T us
    | _ => .ok false
  else issub C T U
termination_by (sizeOf U, 1)
decreasing_by
  · have := heal_size U
    rcases Nat.lt_or_ge (sizeOf (heal U)) (sizeOf U) with h | h
    · exact Prod.Lex.left _ _ h
    · have he : sizeOf (heal U) = sizeOf U := by omega
      rw [he]
      exact Prod.Lex.right _ (by omega)
  · have := heal_size U
    rw [_hU] at this
    simp at this
    exact Prod.Lex.left _ _ (by omega)
/-- `complex_first_type_match` from the comparison of origins on: types.py 336-358.  Two types without origin, such as the healed
forms of two optional types, have equal origins, and fall in the last case. -/
def matchHealed (C : Classes) (T U : Ty) : Except PyErr Bool :=
  match T, U with
  | .list t, .list u => typematch C t u
  | .tuple ts, .tuple us => matchAll C ts us
  | .dict k v, .dict k' v' => do
    if ← typematch C k k' then typematch C v v' else .ok false
  | .union ts, .union us => .ok (eachIn ts us)
  | .other o _, .other o' _ => if o = o' then .error .notImplemented else .ok false
  | T, U => if isTyping T || isTyping U then .ok false else .error .notImplemented
termination_by (sizeOf U, 0)
decreasing_by all_goals (apply Prod.Lex.left; simp; try omega)
/-- `all(typematch(a, b) for a, b in zip(...))`: types.py 346. -/
def matchAll (C : Classes) (ts us : List Ty) : Except PyErr Bool :=
  match ts, us with
  | t :: ts, u :: us => do
    if ← typematch C t u then matchAll C ts us else .ok false
  | _, _ => .ok true
termination_by (sizeOf us, 0)
decreasing_by all_goals (apply Prod.Lex.left; simp; try omega)
/-- `any([typematch(type_, subtype) for subtype in args])`: types.py 318-320. -/
def matchSome (C : Classes) (T : Ty) (us : List Ty) : Except PyErr Bool :=
  match us with
  | [] => .ok false
  | u :: us => do
    let a ← typematch C T u
    let b ← matchSome C T us
    .ok (a || b)
termination_by (sizeOf us, 0)
decreasing_by all_goals (apply Prod.Lex.left; simp; try omega)
end

end DC.Types
