import Mathlib.Data.List.Forall2
import Verif.Values.Basic
/-
Python list primitives used all over the code: subscripts with negative indices, slices, `insert`, `del`, `remove`.
Trusted: these follow the semantics of CPython lists.
-/
namespace DC.Py

variable {α : Type}

/-- The position designated by the subscript `i` in a list of length `n` (CPython `list.__getitem__`); used by the code
wherever a list is subscripted, e.g. workflow/core.py 1419-1421. -/
def idx (n : Nat) (i : Int) : Option Nat :=
  if 0 ≤ i then (if i.toNat < n then some i.toNat else none)
  else (if 0 ≤ i + n then some (i + n).toNat else none)

/-- `l[i]`, raising an IndexError out of range; e.g. workflow/core.py 1419. -/
def get (l : List α) (i : Int) : Except PyErr α :=
  match idx l.length i with
  | some k => match l[k]? with
    | some x => .ok x
    | none => .error .indexError
  | none => .error .indexError

/-- The bound of a slice: negative ones count from the end, all are clipped; e.g. workflow/core.py 1502. -/
def bound (n : Nat) (i : Int) : Nat := if 0 ≤ i then min i.toNat n else (i + n).toNat

/-- `l[:i]`; e.g. workflow/core.py 1502. -/
def prefixSlice (l : List α) (i : Int) : List α := l.take (bound l.length i)

/-- `l.insert(i, x)`; e.g. workflow/core.py 1457. -/
def insert (l : List α) (i : Int) (x : α) : List α := l.insertIdx (bound l.length i) x

/-- `del l[i]`; e.g. workflow/core.py 1481. -/
def del (l : List α) (i : Int) : Except PyErr (List α) :=
  match idx l.length i with
  | some k => .ok (l.eraseIdx k)
  | none => .error .indexError

/-- `l.remove(x)`: removes the first occurrence, ValueError if there is none; e.g. workflow/core.py 1424. -/
def remove [BEq α] (l : List α) (x : α) : Except PyErr (List α) :=
  if l.contains x then .ok (l.erase x) else .error .valueError

theorem idx_lt {n : Nat} {i : Int} {k : Nat} (h : idx n i = some k) : k < n := by
  unfold idx at h
  split at h <;> split at h <;> simp at h <;> omega

theorem idx_nat (n k : Nat) : idx n (k : Int) = if k < n then some k else none := by
  simp [idx]

theorem get_ok {l : List α} {i : Int} {x : α} : get l i = .ok x ↔ ∃ k, idx l.length i = some k ∧ l[k]? = some x := by
  unfold get
  cases h : idx l.length i with
  | none => simp
  | some k =>
    have := idx_lt h
    simp [List.getElem?_eq_getElem this]

theorem get_nat (l : List α) (k : Nat) : get l (k : Int) = match l[k]? with | some x => .ok x | none => .error .indexError := by
  unfold get
  rw [idx_nat]
  split
  · rename_i h
    split at h <;> simp at h
    subst h
    rfl
  · rename_i h
    split at h
    · simp at h
    · rw [List.getElem?_eq_none (by omega)]

theorem get_mem {l : List α} {i : Int} {x : α} (h : get l i = .ok x) : x ∈ l := by
  obtain ⟨k, -, h⟩ := get_ok.1 h
  exact List.mem_of_getElem? h

theorem mapM_ok {β ε : Type} {f : α → Except ε β} : ∀ {l : List α} {r : List β},
    l.mapM f = .ok r ↔ List.Forall₂ (fun x y => f x = .ok y) l r := by
  intro l
  induction l with
  | nil => intro r; simp [pure, Except.pure]
  | cons i is ih =>
    intro r
    rw [List.mapM_cons]
    cases hi : f i with
    | error err =>
      simp only [bind, Except.bind, reduceCtorEq, false_iff]
      intro hc
      cases hc with
      | cons h1 h2 => rw [hi] at h1; simp at h1
    | ok x =>
      cases hr : is.mapM f with
      | error err =>
        simp only [bind, Except.bind, reduceCtorEq, false_iff]
        intro hc
        cases hc with
        | cons h1 h2 => have := ih.2 h2; rw [hr] at this; simp at this
      | ok xs =>
        simp only [bind, Except.bind, pure, Except.pure, Except.ok.injEq]
        constructor
        · rintro rfl
          exact .cons hi (ih.1 hr)
        · intro hc
          cases hc with
          | cons h1 h2 =>
            rw [hi] at h1
            have := ih.2 h2
            rw [hr] at this
            simp only [Except.ok.injEq] at h1 this
            rw [h1, this]

theorem forall2_left {β : Type} {R : α → β → Prop} {l : List α} {r : List β} (h : List.Forall₂ R l r) {x : α} (hx : x ∈ l) :
    ∃ y ∈ r, R x y := by
  induction h with
  | nil => simp at hx
  | cons h1 _ ih =>
    rcases List.mem_cons.1 hx with rfl | hx
    · exact ⟨_, .head _, h1⟩
    · obtain ⟨y, hy, hr⟩ := ih hx
      exact ⟨y, .tail _ hy, hr⟩

theorem forall2_right {β : Type} {R : α → β → Prop} {l : List α} {r : List β} (h : List.Forall₂ R l r) {y : β} (hy : y ∈ r) :
    ∃ x ∈ l, R x y := by
  induction h with
  | nil => simp at hy
  | cons h1 _ ih =>
    rcases List.mem_cons.1 hy with rfl | hy
    · exact ⟨_, .head _, h1⟩
    · obtain ⟨y, hy, hr⟩ := ih hy
      exact ⟨y, .tail _ hy, hr⟩

end DC.Py
