import Verif.Misc.Breakdown
import Mathlib.Data.List.Nodup
/-
Specification and properties of breakdowns (C55).
-/
namespace DC.Brk

variable {κ : Type} [DecidableEq κ]

/-! ### Specification -/

/-- The path kept for an object. -/
def pathOf (d : BD κ) (c : String) (o : κ) : Option (List Char) := (d.lookup c).bind fun inner => inner.lookup o

/-- A Python dictionary of dictionaries: keys are unique. -/
def WF (d : BD κ) : Prop := (d.map (·.1)).Nodup ∧ ∀ p ∈ d, (p.2.map (·.1)).Nodup

/-- The path of a member. -/
def child (path name : List Char) : List Char := if path = [] then name else path ++ '.' :: name

/-- `Below v path c o p`: going down from the value `v` standing at `path`, an object `o` of class `c` is met at path `p`. The
root, at the empty path, does not count. -/
inductive Below : Node κ → List Char → String → κ → List Char → Prop
  | here {c o attrs path} : path ≠ [] → Below (.obj c o attrs) path c o path
  | attr {c o attrs path k v c' o' p} : (k, v) ∈ attrs → Below v (child path k) c' o' p → Below (.obj c o attrs) path c' o' p
  | item {items : List (Node κ)} {path} {i : Nat} {v c' o' p} : items[i]? = some v → Below v (child path (toString i).toList) c' o' p →
      Below (.list items) path c' o' p
  | elem {items : List (Node κ)} {path} {i : Nat} {v c' o' p} : items[i]? = some v → Below v (child path (toString i).toList) c' o' p →
      Below (.set items) path c' o' p
  | entry {items path k v c' o' p} : (k, v) ∈ items → Below v (child path k) c' o' p → Below (.dict items) path c' o' p

/-! ### Merging -/

theorem mergeRef_lookup (inner : List (κ × List Char)) (ref : κ × List Char) (o : κ) :
    (mergeRef inner ref).lookup o = if o = ref.1 then (match inner.lookup o with
      | some q => some (if depth ref.2 < depth q then ref.2 else q) | none => some ref.2) else inner.lookup o := by
  unfold mergeRef
  by_cases ho : o = ref.1
  · subst ho
    rw [if_pos rfl]
    cases h : inner.lookup ref.1 with
    | none => simp [Dict.lookup_set]
    | some q =>
      dsimp only
      split
      · simp [Dict.lookup_set]
      · simp [h]
  · rw [if_neg ho]
    split
    · split
      · rw [Dict.lookup_set, if_neg ho]
      · rfl
    · rw [Dict.lookup_set, if_neg ho]

theorem mergeRef_nodup {inner : List (κ × List Char)} (h : (inner.map (·.1)).Nodup) (ref : κ × List Char) :
    ((mergeRef inner ref).map (·.1)).Nodup := by
  unfold mergeRef
  split
  · split
    · exact Dict.nodup_set h _ _
    · exact h
  · exact Dict.nodup_set h _ _

/-- The better of two paths, the first one in case of equality. -/
def better : Option (List Char) → Option (List Char) → Option (List Char)
  | none, q => q
  | some p, none => some p
  | some p, some q => some (if depth q < depth p then q else p)

theorem better_none (p : Option (List Char)) : better p none = p := by cases p <;> rfl

theorem mergeRefs (refs : List (κ × List Char)) (hr : (refs.map (·.1)).Nodup) (inner : List (κ × List Char)) (o : κ) :
    (refs.foldl mergeRef inner).lookup o = better (inner.lookup o) (refs.lookup o) := by
  induction refs generalizing inner with
  | nil => simp [better_none]
  | cons r refs ih =>
    rw [List.map_cons, List.nodup_cons] at hr
    rw [List.foldl_cons, ih hr.2, mergeRef_lookup]
    by_cases ho : o = r.1
    · subst ho
      rw [if_pos rfl, Dict.lookup_none.2 hr.1, better_none]
      have : (r :: refs).lookup r.1 = some r.2 := by simp [List.lookup]
      rw [this]
      cases inner.lookup r.1 <;> rfl
    · rw [if_neg ho]
      have : (r :: refs).lookup o = refs.lookup o := by simp [List.lookup, beq_eq_false_iff_ne.2 ho]
      rw [this]

theorem mergeRefs_nodup (refs : List (κ × List Char)) {inner : List (κ × List Char)} (h : (inner.map (·.1)).Nodup) :
    ((refs.foldl mergeRef inner).map (·.1)).Nodup := by
  induction refs generalizing inner with
  | nil => exact h
  | cons r refs ih => exact ih (mergeRef_nodup h r)

theorem mem_set {κ β : Type} [DecidableEq κ] {d : List (κ × β)} {k : κ} {v : β} {p : κ × β} (h : p ∈ Dict.set d k v) :
    p = (k, v) ∨ p ∈ d := by
  induction d with
  | nil => simpa [Dict.set] using h
  | cons q d ih =>
    obtain ⟨k', v'⟩ := q
    unfold Dict.set at h
    split at h
    · rename_i hk
      rcases List.mem_cons.1 h with h | h
      · left; rw [h, hk]
      · exact .inr (.tail _ h)
    · rcases List.mem_cons.1 h with h | h
      · right; rw [h]; exact .head _
      · rcases ih h with h | h
        · exact .inl h
        · exact .inr (.tail _ h)

theorem mergeClass_wf {d : BD κ} (h : WF d) {cr : String × List (κ × List Char)} (hr : (cr.2.map (·.1)).Nodup) :
    WF (mergeClass d cr) := by
  unfold mergeClass
  split
  · rename_i inner hi
    refine ⟨Dict.nodup_set h.1 _ _, fun p hp => ?_⟩
    rcases mem_set hp with rfl | hp
    · exact mergeRefs_nodup _ (h.2 _ (Dict.lookup_mem hi))
    · exact h.2 p hp
  · refine ⟨Dict.nodup_set h.1 _ _, fun p hp => ?_⟩
    rcases mem_set hp with rfl | hp
    · exact hr
    · exact h.2 p hp

theorem mergeClass_path (d : BD κ) {cr : String × List (κ × List Char)} (hr : (cr.2.map (·.1)).Nodup) (c : String) (o : κ) :
    pathOf (mergeClass d cr) c o = if c = cr.1 then better (pathOf d c o) (cr.2.lookup o) else pathOf d c o := by
  unfold mergeClass pathOf
  by_cases hc : c = cr.1
  · subst hc
    rw [if_pos rfl]
    cases h : d.lookup cr.1 with
    | none => simp [Dict.lookup_set, better]
    | some inner => simp [Dict.lookup_set, mergeRefs _ hr]
  · rw [if_neg hc]
    split <;> rw [Dict.lookup_set, if_neg hc]

theorem merge_spec {d1 d2 : BD κ} (h1 : WF d1) (h2 : WF d2) : WF (merge d1 d2) ∧
    ∀ c o, pathOf (merge d1 d2) c o = better (pathOf d1 c o) (pathOf d2 c o) := by
  unfold merge
  induction d2 generalizing d1 with
  | nil =>
    refine ⟨h1, fun c o => ?_⟩
    show pathOf d1 c o = better (pathOf d1 c o) none
    rw [better_none]
  | cons cr d2 ih =>
    have hr := h2.2 cr (.head _)
    have hn := h2.1
    rw [List.map_cons, List.nodup_cons] at hn
    obtain ⟨hw, hp⟩ := ih (mergeClass_wf h1 hr) ⟨hn.2, fun p hp => h2.2 p (.tail _ hp)⟩
    refine ⟨hw, fun c o => ?_⟩
    rw [List.foldl_cons, hp, mergeClass_path _ hr]
    by_cases hc : c = cr.1
    · subst hc
      have e1 : pathOf d2 cr.1 o = none := by
        unfold pathOf
        rw [Dict.lookup_none.2 hn.1]
        rfl
      have e2 : pathOf (cr :: d2) cr.1 o = cr.2.lookup o := by simp [pathOf, List.lookup]
      rw [if_pos rfl, e1, e2, better_none]
    · have e2 : pathOf (cr :: d2) c o = pathOf d2 c o := by simp [pathOf, List.lookup, beq_eq_false_iff_ne.2 hc]
      rw [if_neg hc, e2]

/-- The merged dictionary holds exactly the objects of both, each with one of its paths and no deeper one; on a tie the
path of the first dictionary is kept. -/
theorem C55_merge {d1 d2 : BD κ} (h1 : WF d1) (h2 : WF d2) (c : String) (o : κ) :
    WF (merge d1 d2) ∧
    ((∃ p, pathOf (merge d1 d2) c o = some p) ↔ (∃ p, pathOf d1 c o = some p) ∨ ∃ p, pathOf d2 c o = some p) ∧
    ∀ p, pathOf (merge d1 d2) c o = some p →
      (pathOf d1 c o = some p ∨ pathOf d2 c o = some p) ∧
      (∀ q, pathOf d1 c o = some q → depth p ≤ depth q ∧ (depth p = depth q → p = q)) ∧
      (∀ q, pathOf d2 c o = some q → depth p ≤ depth q) := by
  obtain ⟨hw, hp⟩ := merge_spec h1 h2
  refine ⟨hw, ?_, ?_⟩
  · rw [hp]
    cases pathOf d1 c o <;> cases pathOf d2 c o <;> simp [better]
  · intro p
    rw [hp]
    cases e1 : pathOf d1 c o <;> cases e2 : pathOf d2 c o <;> simp only [better, Option.some.injEq, reduceCtorEq,
      false_or, or_false, false_implies, implies_true, and_true, true_and, forall_eq']
    · rintro rfl; simp
    · rintro rfl; simp
    · rename_i a b
      split
      · rintro rfl
        refine ⟨.inr rfl, ⟨by omega, fun h => by omega⟩, Nat.le_refl _⟩
      · rintro rfl
        exact ⟨.inl rfl, ⟨Nat.le_refl _, fun _ => rfl⟩, by omega⟩

/-! ### Breaking down -/

/-- `d` holds one path of minimal depth for each object of `S`. -/
structure Rep (d : BD κ) (S : String → κ → List Char → Prop) : Prop where
  wf : WF d
  ne : ∀ p ∈ d, p.2 ≠ []
  sound : ∀ c o p, pathOf d c o = some p → S c o p
  best : ∀ c o p, S c o p → ∃ q, pathOf d c o = some q ∧ depth q ≤ depth p

theorem set_ne {κ β : Type} [DecidableEq κ] (d : List (κ × β)) (k : κ) (v : β) : Dict.set d k v ≠ [] := by
  cases d with
  | nil => simp [Dict.set]
  | cons q d => unfold Dict.set; split <;> simp

theorem mergeRefs_ne (refs : List (κ × List Char)) {inner : List (κ × List Char)} (h : inner ≠ []) : refs.foldl mergeRef inner ≠ [] := by
  induction refs generalizing inner with
  | nil => exact h
  | cons r refs ih =>
    refine ih ?_
    unfold mergeRef
    split
    · split
      · exact set_ne _ _ _
      · exact h
    · exact set_ne _ _ _

theorem merge_ne {d1 d2 : BD κ} (h1 : ∀ p ∈ d1, p.2 ≠ []) (h2 : ∀ p ∈ d2, p.2 ≠ []) : ∀ p ∈ merge d1 d2, p.2 ≠ [] := by
  unfold merge
  induction d2 generalizing d1 with
  | nil => exact h1
  | cons cr d2 ih =>
    refine ih ?_ fun p hp => h2 p (.tail _ hp)
    intro p hp
    unfold mergeClass at hp
    split at hp
    · rename_i inner hi
      rcases mem_set hp with rfl | hp
      · exact mergeRefs_ne _ (h1 _ (Dict.lookup_mem hi))
      · exact h1 p hp
    · rcases mem_set hp with rfl | hp
      · exact h2 cr (.head _)
      · exact h1 p hp

theorem Rep.merge {d e : BD κ} {S T : String → κ → List Char → Prop} (hd : Rep d S) (he : Rep e T) :
    Rep (merge d e) fun c o p => S c o p ∨ T c o p := by
  refine ⟨(merge_spec hd.wf he.wf).1, merge_ne hd.ne he.ne, fun c o p h => ?_, fun c o p h => ?_⟩
  · rcases ((C55_merge hd.wf he.wf c o).2.2 p h).1 with h | h
    · exact .inl (hd.sound c o p h)
    · exact .inr (he.sound c o p h)
  · obtain ⟨-, hiff, hp⟩ := C55_merge hd.wf he.wf c o
    rcases h with h | h
    · obtain ⟨q, hq, hle⟩ := hd.best c o p h
      obtain ⟨r, hr⟩ := hiff.2 (.inl ⟨q, hq⟩)
      exact ⟨r, hr, Nat.le_trans ((hp r hr).2.1 q hq).1 hle⟩
    · obtain ⟨q, hq, hle⟩ := he.best c o p h
      obtain ⟨r, hr⟩ := hiff.2 (.inr ⟨q, hq⟩)
      exact ⟨r, hr, Nat.le_trans ((hp r hr).2.2 q hq) hle⟩

theorem Rep.congr {d : BD κ} {S T : String → κ → List Char → Prop} (h : Rep d S) (hST : ∀ c o p, S c o p ↔ T c o p) : Rep d T :=
  ⟨h.wf, h.ne, fun c o p hp => (hST c o p).1 (h.sound c o p hp), fun c o p hp => h.best c o p ((hST c o p).2 hp)⟩

theorem rep_nil : Rep ([] : BD κ) fun _ _ _ => False :=
  ⟨⟨by simp, by simp⟩, by simp, by simp [pathOf], by simp⟩

theorem rep_one (cls : String) (key : κ) (path : List Char) :
    Rep [(cls, [(key, path)])] fun c o p => c = cls ∧ o = key ∧ p = path := by
  refine ⟨⟨by simp, by simp⟩, by simp, fun c o p h => ?_, ?_⟩
  · by_cases hc : c = cls
    · subst hc
      by_cases ho : o = key
      · subst ho
        simp [pathOf, List.lookup] at h
        exact ⟨rfl, rfl, h.symm⟩
      · simp [pathOf, List.lookup, beq_eq_false_iff_ne.2 ho] at h
    · simp [pathOf, List.lookup, beq_eq_false_iff_ne.2 hc] at h
  · rintro c o p ⟨rfl, rfl, rfl⟩
    exact ⟨p, by simp [pathOf, List.lookup], Nat.le_refl _⟩

theorem pref_child (path name : List Char) : pref path ++ name = child path name := by
  unfold pref child
  split <;> simp

mutual
theorem breakdown_rep : ∀ (v : Node κ) (path : List Char), Rep (breakdown v path) (Below v path)
  | .leaf, path => by
    rw [breakdown]
    exact rep_nil.congr fun c o p => ⟨False.elim, fun h => nomatch h⟩
  | .list items, path => by
    rw [breakdown]
    refine (items_rep items path 0 [] _ rep_nil).congr fun c o p => ?_
    constructor
    · rintro (h | ⟨i, v, hi, h⟩)
      · exact h.elim
      · rw [Nat.zero_add] at h
        exact .item hi h
    · intro h
      cases h with
      | item hi h => exact .inr ⟨_, _, hi, by rw [Nat.zero_add]; exact h⟩
  | .set items, path => by
    rw [breakdown]
    refine (items_rep items path 0 [] _ rep_nil).congr fun c o p => ?_
    constructor
    · rintro (h | ⟨i, v, hi, h⟩)
      · exact h.elim
      · rw [Nat.zero_add] at h
        exact .elem hi h
    · intro h
      cases h with
      | elem hi h => exact .inr ⟨_, _, hi, by rw [Nat.zero_add]; exact h⟩
  | .dict items, path => by
    rw [breakdown]
    refine (entries_rep items path [] _ rep_nil).congr fun c o p => ?_
    constructor
    · rintro (h | ⟨k, v, hi, h⟩)
      · exact h.elim
      · exact .entry hi h
    · intro h
      cases h with
      | entry hi h => exact .inr ⟨_, _, hi, h⟩
  | .obj cls key attrs, path => by
    rw [breakdown]
    have ha := attributes_rep attrs path 2 _ _ (attributes_rep attrs path 1 _ _ (attributes_rep attrs path 0 [] _ rep_nil))
    have hpass : ∀ v : Node κ, v.pass = 0 ∨ v.pass = 1 ∨ v.pass = 2 := by intro v; cases v <;> simp [Node.pass]
    have hone : Rep (if path = [] then [] else [(cls, [(key, path)])]) fun c o p => path ≠ [] ∧ c = cls ∧ o = key ∧ p = path := by
      split
      · rename_i h
        exact rep_nil.congr fun c o p => by simp [h]
      · rename_i h
        exact (rep_one cls key path).congr fun c o p => by simp [h]
    refine (hone.merge ha).congr fun c o p => ?_
    constructor
    · rintro (⟨hne, rfl, rfl, rfl⟩ | ((h | ⟨k, v, hi, -, h⟩) | ⟨k, v, hi, -, h⟩) | ⟨k, v, hi, -, h⟩)
      · exact .here hne
      · exact h.elim
      · exact .attr hi h
      · exact .attr hi h
      · exact .attr hi h
    · intro h
      cases h with
      | here hne => exact .inl ⟨hne, rfl, rfl, rfl⟩
      | attr hi h =>
        rcases hpass _ with hv | hv | hv
        · exact .inr (.inl (.inl (.inr ⟨_, _, hi, hv, h⟩)))
        · exact .inr (.inl (.inr ⟨_, _, hi, hv, h⟩))
        · exact .inr (.inr ⟨_, _, hi, hv, h⟩)
theorem items_rep : ∀ (l : List (Node κ)) (path : List Char) (n : Nat) (bd : BD κ) (S : String → κ → List Char → Prop), Rep bd S →
    Rep (items' l (pref path) n bd) fun c o p => S c o p ∨ ∃ (i : Nat) (v : Node κ), l[i]? = some v ∧
      Below v (child path (toString (n + i)).toList) c o p
  | [], path, n, bd, S, h => by
    rw [items']
    exact h.congr fun c o p => by simp
  | x :: l, path, n, bd, S, h => by
    rw [items', pref_child]
    refine (items_rep l path (n + 1) _ _ (h.merge (breakdown_rep x _))).congr fun c o p => ?_
    constructor
    · rintro ((h | h) | ⟨i, v, hi, h⟩)
      · exact .inl h
      · exact .inr ⟨0, x, rfl, h⟩
      · exact .inr ⟨i + 1, v, hi, by rw [show n + (i + 1) = n + 1 + i by omega]; exact h⟩
    · rintro (h | ⟨i, v, hi, h⟩)
      · exact .inl (.inl h)
      · cases i with
        | zero =>
          simp only [List.getElem?_cons_zero, Option.some.injEq] at hi
          subst hi
          exact .inl (.inr h)
        | succ i => exact .inr ⟨i, v, by simpa using hi, by rw [show n + 1 + i = n + (i + 1) by omega]; exact h⟩
theorem entries_rep : ∀ (l : List (List Char × Node κ)) (path : List Char) (bd : BD κ) (S : String → κ → List Char → Prop), Rep bd S →
    Rep (entries l (pref path) bd) fun c o p => S c o p ∨ ∃ k v, (k, v) ∈ l ∧ Below v (child path k) c o p
  | [], path, bd, S, h => by
    rw [entries]
    exact h.congr fun c o p => by simp
  | (k, x) :: l, path, bd, S, h => by
    rw [entries, pref_child]
    refine (entries_rep l path _ _ (h.merge (breakdown_rep x _))).congr fun c o p => ?_
    constructor
    · rintro ((h | h) | ⟨k', v, hi, h⟩)
      · exact .inl h
      · exact .inr ⟨k, x, .head _, h⟩
      · exact .inr ⟨k', v, .tail _ hi, h⟩
    · rintro (h | ⟨k', v, hi, h⟩)
      · exact .inl (.inl h)
      · rcases List.mem_cons.1 hi with hi | hi
        · simp only [Prod.mk.injEq] at hi
          obtain ⟨rfl, rfl⟩ := hi
          exact .inl (.inr h)
        · exact .inr ⟨k', v, hi, h⟩
theorem attributes_rep : ∀ (l : List (List Char × Node κ)) (path : List Char) (n : Nat) (bd : BD κ) (S : String → κ → List Char → Prop),
    Rep bd S → Rep (attributes l (pref path) n bd) fun c o p => S c o p ∨ ∃ k v, (k, v) ∈ l ∧ v.pass = n ∧ Below v (child path k) c o p
  | [], path, n, bd, S, h => by
    rw [attributes]
    exact h.congr fun c o p => by simp
  | (k, x) :: l, path, n, bd, S, h => by
    rw [attributes, pref_child]
    by_cases hx : x.pass = n
    · rw [if_pos hx]
      refine (attributes_rep l path n _ _ (h.merge (breakdown_rep x _))).congr fun c o p => ?_
      constructor
      · rintro ((h | h) | ⟨k', v, hi, h⟩)
        · exact .inl h
        · exact .inr ⟨k, x, .head _, hx, h⟩
        · exact .inr ⟨k', v, .tail _ hi, h⟩
      · rintro (h | ⟨k', v, hi, hv, h⟩)
        · exact .inl (.inl h)
        · rcases List.mem_cons.1 hi with hi | hi
          · simp only [Prod.mk.injEq] at hi
            obtain ⟨rfl, rfl⟩ := hi
            exact .inl (.inr h)
          · exact .inr ⟨k', v, hi, hv, h⟩
    · rw [if_neg hx]
      refine (attributes_rep l path n _ _ h).congr fun c o p => ?_
      constructor
      · rintro (h | ⟨k', v, hi, h⟩)
        · exact .inl h
        · exact .inr ⟨k', v, .tail _ hi, h⟩
      · rintro (h | ⟨k', v, hi, hv, h⟩)
        · exact .inl h
        · rcases List.mem_cons.1 hi with hi | hi
          · simp only [Prod.mk.injEq] at hi
            obtain ⟨rfl, rfl⟩ := hi
            exact absurd hv hx
          · exact .inr ⟨k', v, hi, hv, h⟩
end

/-- The breakdown of a value holds exactly the objects met going down from it, each once, with a path at which it stands and
which is not deeper than any other one. -/
theorem C55_breakdown (v : Node κ) (path : List Char) :
    WF (breakdown v path) ∧
    ∀ c o, ((∃ p, pathOf (breakdown v path) c o = some p) ↔ ∃ p, Below v path c o p) ∧
      ∀ p, pathOf (breakdown v path) c o = some p → Below v path c o p ∧ ∀ q, Below v path c o q → depth p ≤ depth q := by
  have h := breakdown_rep v path
  refine ⟨h.wf, fun c o => ⟨⟨fun ⟨p, hp⟩ => ⟨p, h.sound c o p hp⟩, fun ⟨p, hp⟩ => ?_⟩, fun p hp => ⟨h.sound c o p hp, fun q hq => ?_⟩⟩⟩
  · obtain ⟨q, hq, -⟩ := h.best c o p hp
    exact ⟨q, hq⟩
  · obtain ⟨r, hr, hle⟩ := h.best c o q hq
    rw [hr] at hp
    simp only [Option.some.injEq] at hp
    exact hp ▸ hle

/-- The number of sub-objects given for a class is the number of distinct objects of this class met going down from the
object: it is the length of a list without duplicate of these objects; no class has number zero. -/
theorem C55_numbers (cls : String) (key : κ) (attrs : List (List Char × Node κ)) (c : String) (n : Nat) :
    (c, n) ∈ numbers (objectBreakdown attrs []) ↔
      0 < n ∧ ∃ objs : List κ, objs.Nodup ∧ objs.length = n ∧ ∀ o, o ∈ objs ↔ ∃ p, Below (.obj cls key attrs) [] c o p := by
  have hr : Rep (objectBreakdown attrs []) (Below (.obj cls key attrs) []) := by
    have ha := attributes_rep attrs [] 2 _ _ (attributes_rep attrs [] 1 _ _ (attributes_rep attrs [] 0 [] _ rep_nil))
    refine Rep.congr ha fun c o p => ?_
    have hpass : ∀ v : Node κ, v.pass = 0 ∨ v.pass = 1 ∨ v.pass = 2 := by intro v; cases v <;> simp [Node.pass]
    constructor
    · rintro (((h | ⟨k, v, hi, -, h⟩) | ⟨k, v, hi, -, h⟩) | ⟨k, v, hi, -, h⟩)
      · exact h.elim
      · exact .attr hi h
      · exact .attr hi h
      · exact .attr hi h
    · intro h
      cases h with
      | here hne => exact absurd rfl hne
      | attr hi h =>
        rcases hpass _ with hv | hv | hv
        · exact .inl (.inl (.inr ⟨_, _, hi, hv, h⟩))
        · exact .inl (.inr ⟨_, _, hi, hv, h⟩)
        · exact .inr ⟨_, _, hi, hv, h⟩
  have hmem : ∀ inner, (objectBreakdown attrs []).lookup c = some inner →
      ∀ o, o ∈ inner.map (·.1) ↔ ∃ p, Below (.obj cls key attrs) [] c o p := by
    intro inner hi o
    have hp : pathOf (objectBreakdown attrs []) c o = inner.lookup o := by simp [pathOf, hi]
    constructor
    · intro ho
      cases hl : inner.lookup o with
      | none => exact absurd ho (Dict.lookup_none.1 hl)
      | some p => exact ⟨p, hr.sound c o p (by rw [hp, hl])⟩
    · rintro ⟨p, hq⟩
      obtain ⟨q, hq, -⟩ := hr.best c o p hq
      rw [hp] at hq
      exact List.mem_map.2 ⟨_, Dict.lookup_mem hq, rfl⟩
  unfold numbers
  constructor
  · intro h
    obtain ⟨⟨c', inner⟩, hin, heq⟩ := List.mem_map.1 h
    simp only [Prod.mk.injEq] at heq
    obtain ⟨rfl, rfl⟩ := heq
    refine ⟨List.length_pos_iff.2 (hr.ne _ hin), inner.map (·.1), hr.wf.2 _ hin, by simp, hmem inner (Dict.mem_lookup hr.wf.1 hin)⟩
  · rintro ⟨hpos, objs, hnd, hlen, hobjs⟩
    have : objs ≠ [] := by intro h; subst h; simp at hlen; omega
    obtain ⟨o, rest, rfl⟩ := List.exists_cons_of_ne_nil this
    obtain ⟨p, hp⟩ := (hobjs o).1 (.head _)
    obtain ⟨q, hq, -⟩ := hr.best c o p hp
    obtain ⟨inner, hi, -⟩ : ∃ inner, (objectBreakdown attrs []).lookup c = some inner ∧ inner.lookup o = some q := by
      unfold pathOf at hq
      cases hl : (objectBreakdown attrs []).lookup c with
      | none => simp [hl] at hq
      | some inner => exact ⟨inner, rfl, by simpa [hl] using hq⟩
    refine List.mem_map.2 ⟨(c, inner), Dict.lookup_mem hi, ?_⟩
    have hperm : (inner.map (·.1)).Perm (o :: rest) := by
      rw [List.perm_ext_iff_of_nodup (hr.wf.2 _ (Dict.lookup_mem hi)) hnd]
      intro x
      rw [hmem inner hi, hobjs]
    have := hperm.length_eq
    rw [List.length_map, hlen] at this
    rw [this]

/-- An object standing under an empty key of a dictionary given to `breakdown` is not listed. -/
theorem C55_empty_key_violated : breakdown (.dict [([], .obj "Part" 0 [])]) [] = ([] : BD Nat) := by decide

/-- Merging keeps the shallowest path, the first one met on a tie. -/
example : merge [("Part", [(1, "a.b.c".toList), (2, "x.y".toList)])] [("Part", [(1, "d.e".toList), (2, "z.t".toList), (3, "u".toList)]), ("Car", [(4, "v".toList)])] =
    [("Part", [(1, "d.e".toList), (2, "x.y".toList), (3, "u".toList)]), ("Car", [(4, "v".toList)])] := by decide

/-- A shared part reached through a dictionary, a list and an attribute. -/
example : objectBreakdown [("by_name".toList, .dict [("k".toList, .obj "Part" 1 [])]), ("parts".toList, .list [.obj "Part" 2 [], .obj "Part" 1 []]),
      ("main".toList, .obj "Assembly" 3 [("p".toList, .obj "Part" 2 [])])] [] =
    [("Assembly", [(3, "main".toList)]), ("Part", [(2, "main.p".toList), (1, "parts.1".toList)])] := by decide

end DC.Brk
