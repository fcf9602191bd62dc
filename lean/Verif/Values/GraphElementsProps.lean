import Verif.Values.GraphElements
import Verif.Values.PointersProps
/-
Property C204: what `pointer_graph_elements` lists.
-/
namespace DC

/-! ### Specification -/

/-- In the value `v`, standing at `path`, the value `x` stands at `q`, no reference being on the way. -/
inductive StandsAt : Path → V → Path → V → Prop
  | here {p v} : StandsAt p v p v
  | dict {p d k w q x} : d.lookup (.str "$ref") = none → (k, w) ∈ d → StandsAt (p.key k) w q x → StandsAt p (.dict d) q x
  | list {p l w q x} {i : Nat} : l[i]? = some w → StandsAt (p.idx i) w q x → StandsAt p (.list l) q x
  | tuple {p l w q x} {i : Nat} : l[i]? = some w → StandsAt (p.idx i) w q x → StandsAt p (.tuple l) q x

/-- Inside the value `x` which stands at `p`, something listed stands at `q`: an element of a sequence, or an entry of a dict which is
not a reference, if it is not a number, a text or None. -/
inductive ChildOf (p : Path) : V → Path → Prop
  | list {l w} {i : Nat} : l[i]? = some w → ChildOf p (.list l) (p.idx i)
  | tuple {l w} {i : Nat} : l[i]? = some w → ChildOf p (.tuple l) (p.idx i)
  | dict {d k w} : d.lookup (.str "$ref") = none → (k, w) ∈ d → isBase w = false → ChildOf p (.dict d) (p.key k)

/-- The ends of an edge from a value to what it holds. -/
def GEdge.link : GEdge → Option (Path × Path)
  | .pair p q => some (p, q)
  | .triple p q => some (p, q)
  | .pointer .. => none

/-! ### Lemmas -/

theorem link_pair (p q : Path) : (GEdge.pair p q).link = some (p, q) := rfl

theorem link_triple (p q : Path) : (GEdge.triple p q).link = some (p, q) := rfl

theorem exists_mem_app {α : Type} {P : α → Prop} {l m : List α} : (∃ e ∈ l ++ m, P e) ↔ (∃ e ∈ l, P e) ∨ ∃ e ∈ m, P e := by
  simp only [List.mem_append, or_and_right, exists_or]

theorem exists_mem_con {α : Type} {P : α → Prop} {a : α} {l : List α} : (∃ e ∈ a :: l, P e) ↔ P a ∨ ∃ e ∈ l, P e := by simp

theorem standsAt_base {p q : Path} {v x : V} (h : StandsAt p v q x) (hb : isBase v = true) : q = p ∧ x = v := by
  cases h with
  | here => exact ⟨rfl, rfl⟩
  | dict => simp [isBase] at hb
  | list => simp [isBase] at hb
  | tuple => simp [isBase] at hb

theorem refAt_notBase {p q : Path} {v r : V} (h : RefAt p v q r) : isBase v = false := by cases h <;> rfl

theorem child_base {p q : Path} {v : V} (h : ChildOf p v q) : isBase v = false := by cases h <;> rfl

mutual
theorem pointers_iff : (v : V) → (path : Path) → (r : List GNode × List GEdge) → graphElements path v = .ok r →
    ∀ p t, .pointer p t ∈ r.2 ↔ RefAt path v p t
  | .dict d, path, r, h, p, t => by
    rw [graphElements] at h
    cases hl : d.lookup (.str "$ref") with
    | some x =>
      rw [hl] at h
      obtain rfl := Except.ok.inj h
      simp only [List.mem_singleton, GEdge.pointer.injEq]
      constructor
      · rintro ⟨rfl, rfl⟩; exact .here hl
      · intro hr
        cases hr with
        | here h' => rw [hl, Option.some.injEq] at h'; exact ⟨rfl, h'.symm⟩
        | dict h' => rw [hl] at h'; simp at h'
    | none =>
      rw [hl] at h
      rw [pointersD_iff d path r h p t]
      constructor
      · rintro ⟨k, w, hm, hr⟩; exact .dict hl hm hr
      · intro hr
        cases hr with
        | here h' => rw [hl] at h'; simp at h'
        | dict _ hm hr => exact ⟨_, _, hm, hr⟩
  | .list l, path, r, h, p, t => by
    rw [graphElements] at h
    rw [pointersL_iff l path 0 r h p t]
    constructor
    · rintro ⟨i, w, hi, hr⟩; exact .list hi (by simpa using hr)
    · intro hr
      cases hr with
      | list hi hr => exact ⟨_, _, hi, by simpa using hr⟩
  | .tuple l, path, r, h, p, t => by
    rw [graphElements] at h
    rw [pointersL_iff l path 0 r h p t]
    constructor
    · rintro ⟨i, w, hi, hr⟩; exact .tuple hi (by simpa using hr)
    · intro hr
      cases hr with
      | tuple hi hr => exact ⟨_, _, hi, by simpa using hr⟩
  | .none, path, r, h, p, t | .bool _, path, r, h, p, t | .int _, path, r, h, p, t | .flt _, path, r, h, p, t
  | .measure _ _, path, r, h, p, t | .str _, path, r, h, p, t => by
    rw [graphElements] at h <;> try simp
    obtain rfl := Except.ok.inj h
    simp only [List.not_mem_nil, false_iff]
    intro hr
    cases hr
  | .cls _, path, r, h, p, t | .file .., path, r, h, p, t | .obj .., path, r, h, p, t | .other _, path, r, h, p, t => by
    rw [graphElements] at h; cases h
theorem pointersL_iff : (l : List V) → (path : Path) → (n : Nat) → (r : List GNode × List GEdge) → graphElementsL path n l = .ok r →
    ∀ p t, .pointer p t ∈ r.2 ↔ ∃ (i : Nat) (w : V), l[i]? = some w ∧ RefAt (path.idx (n + i)) w p t
  | [], path, n, r, h, p, t => by
    rw [graphElementsL] at h
    obtain rfl := Except.ok.inj h
    simp
  | v :: vs, path, n, r, h, p, t => by
    rw [graphElementsL] at h
    obtain ⟨a, ha, h⟩ := bind_ok.1 h
    obtain ⟨b, hb, h⟩ := bind_ok.1 h
    obtain rfl := Except.ok.inj h
    have h1 := pointers_iff v _ a ha p t
    have h2 := pointersL_iff vs path (n + 1) b hb p t
    simp only [List.mem_cons, List.mem_append, reduceCtorEq, false_or, List.cons_append, h1, h2]
    constructor
    · rintro (h | ⟨i, w, hi, h⟩)
      · exact ⟨0, v, rfl, by simpa using h⟩
      · exact ⟨i + 1, w, by simpa using hi, by rw [show n + (i + 1) = n + 1 + i by omega]; exact h⟩
    · rintro ⟨i, w, hi, h⟩
      cases i with
      | zero => simp only [List.getElem?_cons_zero, Option.some.injEq] at hi; subst hi; exact .inl (by simpa using h)
      | succ i => exact .inr ⟨i, w, by simpa using hi, by rw [show n + 1 + i = n + (i + 1) by omega]; exact h⟩
theorem pointersD_iff : (d : List (Key × V)) → (path : Path) → (r : List GNode × List GEdge) → graphElementsD path d = .ok r →
    ∀ p t, .pointer p t ∈ r.2 ↔ ∃ k w, (k, w) ∈ d ∧ RefAt (path.key k) w p t
  | [], path, r, h, p, t => by
    rw [graphElementsD] at h
    obtain rfl := Except.ok.inj h
    simp
  | (k, v) :: kvs, path, r, h, p, t => by
    rw [graphElementsD] at h
    by_cases hb : isBase v = true
    · rw [if_pos hb] at h
      rw [pointersD_iff kvs path r h p t]
      constructor
      · rintro ⟨k', w, hm, hr⟩; exact ⟨k', w, .tail _ hm, hr⟩
      · rintro ⟨k', w, hm, hr⟩
        cases hm with
        | head => rw [refAt_notBase hr] at hb; simp at hb
        | tail _ hm => exact ⟨k', w, hm, hr⟩
    · rw [if_neg hb] at h
      obtain ⟨a, ha, h⟩ := bind_ok.1 h
      obtain ⟨b, hb', h⟩ := bind_ok.1 h
      obtain rfl := Except.ok.inj h
      have h1 := pointers_iff v _ a ha p t
      have h2 := pointersD_iff kvs path b hb' p t
      simp only [List.mem_cons, List.mem_append, reduceCtorEq, false_or, List.cons_append, h1, h2]
      constructor
      · rintro (h | ⟨k', w, hm, h⟩)
        · exact ⟨k, v, .inl rfl, h⟩
        · exact ⟨k', w, .inr hm, h⟩
      · rintro ⟨k', w, e | hm, h⟩
        · cases e; exact .inl h
        · exact .inr ⟨k', w, hm, h⟩
end

/-- Something listed stands at `q`, inside a value which stands at `p`. -/
def Linked (path : Path) (v : V) (p q : Path) : Prop := ∃ x, StandsAt path v p x ∧ ChildOf p x q

theorem linked_base {path : Path} {v : V} {p q : Path} (h : Linked path v p q) : isBase v = false := by
  obtain ⟨x, hs, hc⟩ := h
  by_contra hb
  obtain ⟨-, rfl⟩ := standsAt_base hs (by simpa using hb)
  exact hb (child_base hc)

mutual
theorem links_iff : (v : V) → (path : Path) → (r : List GNode × List GEdge) → graphElements path v = .ok r →
    ∀ p q, (∃ e ∈ r.2, e.link = some (p, q)) ↔ Linked path v p q
  | .dict d, path, r, h, p, q => by
    rw [graphElements] at h
    cases hl : d.lookup (.str "$ref") with
    | some x =>
      rw [hl] at h
      obtain rfl := Except.ok.inj h
      simp only [List.mem_singleton, exists_eq_left, GEdge.link, reduceCtorEq, false_iff]
      rintro ⟨y, hs, hc⟩
      cases hs with
      | here => cases hc with | dict h' => rw [hl] at h'; simp at h'
      | dict h' => rw [hl] at h'; simp at h'
    | none =>
      rw [hl] at h
      rw [linksD_iff d path r h p q]
      constructor
      · rintro ⟨k, w, hm, ⟨hb, rfl, rfl⟩ | ⟨x, hs, hc⟩⟩
        · exact ⟨_, .here, .dict hl hm hb⟩
        · exact ⟨x, .dict hl hm hs, hc⟩
      · rintro ⟨x, hs, hc⟩
        cases hs with
        | here => cases hc with | dict _ hm hb => exact ⟨_, _, hm, .inl ⟨hb, rfl, rfl⟩⟩
        | dict _ hm hs => exact ⟨_, _, hm, .inr ⟨x, hs, hc⟩⟩
  | .list l, path, r, h, p, q => by
    rw [graphElements] at h
    rw [linksL_iff l path 0 r h p q]
    constructor
    · rintro ⟨i, w, hi, ⟨rfl, rfl⟩ | ⟨x, hs, hc⟩⟩
      · exact ⟨_, .here, by simpa using ChildOf.list hi⟩
      · exact ⟨x, .list hi (by simpa using hs), hc⟩
    · rintro ⟨x, hs, hc⟩
      cases hs with
      | here => cases hc with | list hi => exact ⟨_, _, hi, .inl ⟨rfl, by simp⟩⟩
      | list hi hs => exact ⟨_, _, hi, .inr ⟨x, by simpa using hs, hc⟩⟩
  | .tuple l, path, r, h, p, q => by
    rw [graphElements] at h
    rw [linksL_iff l path 0 r h p q]
    constructor
    · rintro ⟨i, w, hi, ⟨rfl, rfl⟩ | ⟨x, hs, hc⟩⟩
      · exact ⟨_, .here, by simpa using ChildOf.tuple hi⟩
      · exact ⟨x, .tuple hi (by simpa using hs), hc⟩
    · rintro ⟨x, hs, hc⟩
      cases hs with
      | here => cases hc with | tuple hi => exact ⟨_, _, hi, .inl ⟨rfl, by simp⟩⟩
      | tuple hi hs => exact ⟨_, _, hi, .inr ⟨x, by simpa using hs, hc⟩⟩
  | .none, path, r, h, p, q | .bool _, path, r, h, p, q | .int _, path, r, h, p, q | .flt _, path, r, h, p, q
  | .measure _ _, path, r, h, p, q | .str _, path, r, h, p, q => by
    rw [graphElements] at h <;> try simp
    obtain rfl := Except.ok.inj h
    simp only [List.not_mem_nil, false_and, exists_false, false_iff]
    intro hr
    simpa [isBase] using linked_base hr
  | .cls _, path, r, h, p, q | .file .., path, r, h, p, q | .obj .., path, r, h, p, q | .other _, path, r, h, p, q => by
    rw [graphElements] at h; cases h
theorem linksL_iff : (l : List V) → (path : Path) → (n : Nat) → (r : List GNode × List GEdge) → graphElementsL path n l = .ok r →
    ∀ p q, (∃ e ∈ r.2, e.link = some (p, q)) ↔
      ∃ (i : Nat) (w : V), l[i]? = some w ∧ ((p = path ∧ q = path.idx (n + i)) ∨ Linked (path.idx (n + i)) w p q)
  | [], path, n, r, h, p, q => by
    rw [graphElementsL] at h
    obtain rfl := Except.ok.inj h
    simp
  | v :: vs, path, n, r, h, p, q => by
    rw [graphElementsL] at h
    obtain ⟨a, ha, h⟩ := bind_ok.1 h
    obtain ⟨b, hb, h⟩ := bind_ok.1 h
    obtain rfl := Except.ok.inj h
    have h1 := links_iff v _ a ha p q
    have h2 := linksL_iff vs path (n + 1) b hb p q
    simp only [List.cons_append, exists_mem_con, exists_mem_app, h1, h2, link_pair, Option.some.injEq, Prod.mk.injEq]
    constructor
    · rintro (⟨rfl, rfl⟩ | h | ⟨i, w, hi, h⟩)
      · exact ⟨0, v, rfl, .inl ⟨rfl, rfl⟩⟩
      · exact ⟨0, v, rfl, .inr (by simpa using h)⟩
      · exact ⟨i + 1, w, by simpa using hi, by rw [show n + (i + 1) = n + 1 + i by omega]; exact h⟩
    · rintro ⟨i, w, hi, h⟩
      cases i with
      | zero =>
        simp only [List.getElem?_cons_zero, Option.some.injEq] at hi
        subst hi
        rcases h with ⟨rfl, rfl⟩ | h
        · exact .inl ⟨rfl, rfl⟩
        · exact .inr (.inl (by simpa using h))
      | succ i => exact .inr (.inr ⟨i, w, by simpa using hi, by rw [show n + 1 + i = n + (i + 1) by omega]; exact h⟩)
theorem linksD_iff : (d : List (Key × V)) → (path : Path) → (r : List GNode × List GEdge) → graphElementsD path d = .ok r →
    ∀ p q, (∃ e ∈ r.2, e.link = some (p, q)) ↔
      ∃ k w, (k, w) ∈ d ∧ ((isBase w = false ∧ p = path ∧ q = path.key k) ∨ Linked (path.key k) w p q)
  | [], path, r, h, p, q => by
    rw [graphElementsD] at h
    obtain rfl := Except.ok.inj h
    simp
  | (k, v) :: kvs, path, r, h, p, q => by
    rw [graphElementsD] at h
    by_cases hb : isBase v = true
    · rw [if_pos hb] at h
      rw [linksD_iff kvs path r h p q]
      constructor
      · rintro ⟨k', w, hm, hr⟩; exact ⟨k', w, .tail _ hm, hr⟩
      · rintro ⟨k', w, hm, hr⟩
        cases hm with
        | head =>
          rcases hr with ⟨h', -⟩ | hr
          · rw [hb] at h'; simp at h'
          · rw [linked_base hr] at hb; simp at hb
        | tail _ hm => exact ⟨k', w, hm, hr⟩
    · rw [if_neg hb] at h
      obtain ⟨a, ha, h⟩ := bind_ok.1 h
      obtain ⟨b, hb', h⟩ := bind_ok.1 h
      obtain rfl := Except.ok.inj h
      have h1 := links_iff v _ a ha p q
      have h2 := linksD_iff kvs path b hb' p q
      simp only [List.cons_append, exists_mem_con, exists_mem_app, h1, h2, link_triple, Option.some.injEq, Prod.mk.injEq]
      constructor
      · rintro (⟨rfl, rfl⟩ | h | ⟨k', w, hm, h⟩)
        · exact ⟨k, v, .head _, .inl ⟨by simpa using hb, rfl, rfl⟩⟩
        · exact ⟨k, v, .head _, .inr h⟩
        · exact ⟨k', w, .tail _ hm, h⟩
      · rintro ⟨k', w, hm, h⟩
        cases hm with
        | head =>
          rcases h with ⟨-, rfl, rfl⟩ | h
          · exact .inl ⟨rfl, rfl⟩
          · exact .inr (.inl h)
        | tail _ hm => exact .inr (.inr ⟨k', w, hm, h⟩)
end

/-- The nodes follow from the edges. -/
def Matched (r : List GNode × List GEdge) : Prop :=
  (∀ q, .place q ∈ r.1 ↔ (∃ e ∈ r.2, ∃ p, e.link = some (p, q)) ∨ ∃ t, .pointer q t ∈ r.2) ∧
  ∀ t, .target t ∈ r.1 ↔ ∃ p, .pointer p t ∈ r.2

theorem matched_nil : Matched ([], []) := by constructor <;> simp

theorem matched_cons {path : Path} {q : Path} {e : GEdge} (he : e.link = some (path, q)) {a b : List GNode × List GEdge}
    (ha : Matched a) (hb : Matched b) : Matched (.place q :: a.1 ++ b.1, e :: a.2 ++ b.2) := by
  have hne : ∀ u t, GEdge.pointer u t ≠ e := by rintro u t rfl; simp [GEdge.link] at he
  constructor
  · intro u
    simp only [List.cons_append, exists_mem_con, exists_mem_app]
    simp only [List.mem_cons, List.mem_append, ha.1, hb.1, he, GNode.place.injEq, Option.some.injEq, Prod.mk.injEq, hne, false_or]
    constructor
    · rintro (rfl | (h | ⟨t, h⟩) | (h | ⟨t, h⟩))
      · exact .inl (.inl ⟨path, rfl, rfl⟩)
      · exact .inl (.inr (.inl h))
      · exact .inr ⟨t, .inl h⟩
      · exact .inl (.inr (.inr h))
      · exact .inr ⟨t, .inr h⟩
    · rintro ((⟨_, -, rfl⟩ | h | h) | ⟨t, h | h⟩)
      · exact .inl rfl
      · exact .inr (.inl (.inl h))
      · exact .inr (.inr (.inl h))
      · exact .inr (.inl (.inr ⟨t, h⟩))
      · exact .inr (.inr (.inr ⟨t, h⟩))
  · intro t
    simp only [List.cons_append, List.mem_cons, List.mem_append, reduceCtorEq, false_or, ha.2, hb.2, hne]
    constructor
    · rintro (⟨p, h⟩ | ⟨p, h⟩)
      · exact ⟨p, .inl h⟩
      · exact ⟨p, .inr h⟩
    · rintro ⟨p, h | h⟩
      · exact .inl ⟨p, h⟩
      · exact .inr ⟨p, h⟩

mutual
theorem matched : (v : V) → (path : Path) → (r : List GNode × List GEdge) → graphElements path v = .ok r → Matched r
  | .dict d, path, r, h => by
    rw [graphElements] at h
    cases hl : d.lookup (.str "$ref") with
    | some x =>
      rw [hl] at h
      obtain rfl := Except.ok.inj h
      constructor
      · intro q; simp [GEdge.link]
      · intro t; simp
    | none => rw [hl] at h; exact matchedD d path r h
  | .list l, path, r, h => by rw [graphElements] at h; exact matchedL l path 0 r h
  | .tuple l, path, r, h => by rw [graphElements] at h; exact matchedL l path 0 r h
  | .none, path, r, h | .bool _, path, r, h | .int _, path, r, h | .flt _, path, r, h | .measure _ _, path, r, h | .str _, path, r, h => by
    rw [graphElements] at h <;> try simp
    obtain rfl := Except.ok.inj h
    exact matched_nil
  | .cls _, path, r, h | .file .., path, r, h | .obj .., path, r, h | .other _, path, r, h => by rw [graphElements] at h; cases h
theorem matchedL : (l : List V) → (path : Path) → (n : Nat) → (r : List GNode × List GEdge) → graphElementsL path n l = .ok r →
    Matched r
  | [], path, n, r, h => by
    rw [graphElementsL] at h
    obtain rfl := Except.ok.inj h
    exact matched_nil
  | v :: vs, path, n, r, h => by
    rw [graphElementsL] at h
    obtain ⟨a, ha, h⟩ := bind_ok.1 h
    obtain ⟨b, hb, h⟩ := bind_ok.1 h
    obtain rfl := Except.ok.inj h
    exact matched_cons rfl (matched v _ a ha) (matchedL vs path _ b hb)
theorem matchedD : (d : List (Key × V)) → (path : Path) → (r : List GNode × List GEdge) → graphElementsD path d = .ok r → Matched r
  | [], path, r, h => by
    rw [graphElementsD] at h
    obtain rfl := Except.ok.inj h
    exact matched_nil
  | (k, v) :: kvs, path, r, h => by
    rw [graphElementsD] at h
    by_cases hb : isBase v = true
    · rw [if_pos hb] at h; exact matchedD kvs path r h
    · rw [if_neg hb] at h
      obtain ⟨a, ha, h⟩ := bind_ok.1 h
      obtain ⟨b, hb', h⟩ := bind_ok.1 h
      obtain rfl := Except.ok.inj h
      exact matched_cons rfl (matched v _ a ha) (matchedD kvs path b hb')
end

mutual
theorem graphElements_json : (v : V) → (path : Path) → IsJson False v → ∃ r, graphElements path v = .ok r
  | .dict d, path, h => by
    rw [graphElements]
    cases hl : d.lookup (.str "$ref") with
    | some x => exact ⟨_, rfl⟩
    | none =>
      cases h with | obj h => exact graphElements_jsonD d path h
  | .list l, path, h => by rw [graphElements]; cases h with | arr h => exact graphElements_jsonL l path 0 h
  | .tuple l, path, h => by cases h
  | .none, path, _ | .bool _, path, _ | .int _, path, _ | .flt _, path, _ | .measure _ _, path, _ | .str _, path, _ => by
    rw [graphElements] <;> simp
  | .cls _, path, h | .file .., path, h | .obj .., path, h | .other _, path, h => by cases h <;> contradiction
theorem graphElements_jsonL : (l : List V) → (path : Path) → (n : Nat) → (∀ x ∈ l, IsJson False x) → ∃ r, graphElementsL path n l = .ok r
  | [], path, n, _ => ⟨_, by rw [graphElementsL]⟩
  | v :: vs, path, n, h => by
    obtain ⟨a, ha⟩ := graphElements_json v (path.idx n) (h v (.head _))
    obtain ⟨b, hb⟩ := graphElements_jsonL vs path (n + 1) fun x hx => h x (.tail _ hx)
    rw [graphElementsL, ha, hb]
    exact ⟨_, rfl⟩
theorem graphElements_jsonD : (d : List (Key × V)) → (path : Path) → (∀ kv ∈ d, IsJson False kv.2) → ∃ r, graphElementsD path d = .ok r
  | [], path, _ => ⟨_, by rw [graphElementsD]⟩
  | (k, v) :: kvs, path, h => by
    obtain ⟨b, hb⟩ := graphElements_jsonD kvs path fun x hx => h x (.tail _ hx)
    rw [graphElementsD]
    by_cases hv : isBase v = true
    · rw [if_pos hv]; exact ⟨b, hb⟩
    · obtain ⟨a, ha⟩ := graphElements_json v (path.key k) (h (k, v) (.head _))
      rw [if_neg hv, ha, hb]
      exact ⟨_, rfl⟩
end

/-! ### C204 -/

/-- C204.  The pointers listed are exactly the references of the document, each from its place to what it refers to. -/
theorem C204_pointers {v : V} {path : Path} {r : List GNode × List GEdge} (h : graphElements path v = .ok r) (p : Path) (t : V) :
    .pointer p t ∈ r.2 ↔ RefAt path v p t := pointers_iff v path r h p t

/-- C204.  The other edges are exactly those from each value to what it holds: all the elements of a sequence, and the entries of a dict
which are neither numbers, texts nor None. -/
theorem C204_links {v : V} {path : Path} {r : List GNode × List GEdge} (h : graphElements path v = .ok r) (p q : Path) :
    (.pair p q ∈ r.2 ∨ .triple p q ∈ r.2) ↔ ∃ x, StandsAt path v p x ∧ ChildOf p x q := by
  refine Iff.trans ?_ (links_iff v path r h p q)
  constructor
  · rintro (h | h) <;> exact ⟨_, h, rfl⟩
  · rintro ⟨e, he, hl⟩
    cases e with
    | pair => cases hl; exact .inl he
    | triple => cases hl; exact .inr he
    | pointer => cases hl

/-- C204.  The nodes are the ends of the edges: all the places where an edge leads and those of the references, with what these refer to. -/
theorem C204_nodes {v : V} {path : Path} {r : List GNode × List GEdge} (h : graphElements path v = .ok r) :
    (∀ q, .place q ∈ r.1 ↔ (∃ p, .pair p q ∈ r.2 ∨ .triple p q ∈ r.2) ∨ ∃ t, .pointer q t ∈ r.2) ∧
    ∀ t, .target t ∈ r.1 ↔ ∃ p, .pointer p t ∈ r.2 := by
  refine ⟨fun q => ?_, (matched v path r h).2⟩
  rw [(matched v path r h).1]
  refine or_congr_left ?_
  constructor
  · rintro ⟨e, he, p, hl⟩
    cases e with
    | pair => cases hl; exact ⟨p, .inl he⟩
    | triple => cases hl; exact ⟨p, .inr he⟩
    | pointer => cases hl
  · rintro ⟨p, h | h⟩ <;> exact ⟨_, h, p, rfl⟩

/-- C204.  The analysis of any document succeeds. -/
theorem C204_document (v : V) (path : Path) (h : IsJson False v) : ∃ r, graphElements path v = .ok r := graphElements_json v path h

/-- C204 is violated for the shape of the edges: those of a list are pairs, those of a dict are triples, so that no loop over the triples
can read the edges of a document with both. -/
theorem C204_shape_violated : ∃ (v : V) (r : List GNode × List GEdge), IsJson False v ∧ graphElements ["#"] v = .ok r ∧
    .triple ["#"] ["#", "a"] ∈ r.2 ∧ .pair ["#", "a"] ["#", "a", "0"] ∈ r.2 := by
  refine ⟨.dict [(.str "a", .list [.int 1])], ([.place ["#", "a"], .place ["#", "a", "0"]],
    [.triple ["#"] ["#", "a"], .pair ["#", "a"] ["#", "a", "0"]]), ?_, by rfl, by simp, by simp⟩
  refine .obj fun kv hkv => ?_
  simp at hkv
  subst hkv
  exact .arr fun x hx => by simp at hx; subst hx; exact .int (by norm_num) (by norm_num)

/-- C204 is violated for the values which are neither containers nor references: a number is a node in a list, and not in a dict. -/
theorem C204_leaves_violated : ∃ r r', graphElements ["#"] (.list [.int 1]) = .ok r ∧ r.1 = [.place ["#", "0"]] ∧
    graphElements ["#"] (.dict [(.str "0", .int 1)]) = .ok r' ∧ r'.1 = [] := ⟨_, _, by rfl, rfl, by rfl, rfl⟩

/-! ### Example -/

/-- A document with a reference in a list. -/
example : ∃ r, graphElements ["#"] (.dict [(.str "a", .list [.dict [(.str "$ref", .str "#/b")], .int 2]), (.str "b", .dict [])]) = .ok r ∧
    .pointer ["#", "a", "0"] (.str "#/b") ∈ r.2 := by
  obtain ⟨r, hr⟩ : ∃ r, graphElements ["#"] (.dict [(.str "a", .list [.dict [(.str "$ref", .str "#/b")], .int 2]), (.str "b", .dict [])]) = .ok r :=
    ⟨_, by rfl⟩
  exact ⟨r, hr, (C204_pointers hr _ _).2 (.dict (by rfl) (.head _) (.list (i := 0) rfl (.here (by rfl))))⟩

end DC
