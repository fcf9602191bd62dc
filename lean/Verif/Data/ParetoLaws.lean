import Verif.Data.ParetoProps
/-
Property C178: laws of Pareto fronts.
-/
namespace DC.Data

variable {F : Type} [Field F] [LinearOrder F] [IsStrictOrderedRing F]

/-! ### Specification -/

/-- The points kept, with their costs: dataset.py 861-872. -/
def front (sd : List F → F) (costs : List (List F)) : List (List F) := compress costs (paretoIndexes sd costs)

/-- The costs given in other units, one for each cost. -/
def inUnits (g : Nat → F → F) (costs : List (List F)) : List (List F) := costs.map fun row => row.mapIdx g

/-! ### Lemmas -/

theorem mask_ext {l m : List Bool} (hlen : l.length = m.length) (h : ∀ j, j < l.length → (l[j]? = some true ↔ m[j]? = some true)) : l = m := by
  apply List.ext_getElem hlen
  intro j h1 h2
  have := h j h1
  rw [List.getElem?_eq_getElem h1, List.getElem?_eq_getElem h2] at this
  simpa [← Bool.eq_iff_iff] using this

theorem mem_front {sd : List F → F} (hs : IsScale sd) {m : Nat} {costs : List (List F)} (hr : Rect m costs) (b : List F) :
    b ∈ front sd costs ↔ b ∈ costs ∧ ∀ a ∈ costs, ¬ Dominates a b := by
  rw [front, mem_compress]
  constructor
  · rintro ⟨j, hj, hk⟩
    exact ⟨List.mem_of_getElem? hj, ((C43_exact hs hr hj).1 hk).1⟩
  · rintro ⟨hb, hd⟩
    have hlt := List.idxOf_lt_length_iff.2 hb
    have hj : costs[costs.idxOf b]? = some b := by rw [List.getElem?_eq_getElem hlt, List.getElem_idxOf]
    refine ⟨_, hj, (C43_exact hs hr hj).2 ⟨hd, fun i hi he => ?_⟩⟩
    have hlen : i < costs.length := hi.trans hlt
    have := List.not_of_lt_findIdx (p := (· == b)) (xs := costs) hi
    rw [List.getElem?_eq_getElem hlen, Option.some.injEq] at he
    simp [he] at this

theorem compress_nodup_first {α : Type} : ∀ {l : List α} {m : List Bool}, (∀ (j : Nat) (b : α), l[j]? = some b → m[j]? = some true → ∀ i < j, l[i]? ≠ some b) →
    (compress l m).Nodup
  | [], m, _ => by simp [compress]
  | y :: l, [], _ => by simp [compress]
  | y :: l, b :: m, h => by
    have ih := compress_nodup_first (l := l) (m := m) fun j c hj hm i hi he => h (j + 1) c (by simpa using hj) (by simpa using hm) (i + 1) (by omega) (by simpa using he)
    rw [compress]
    split
    · refine List.nodup_cons.2 ⟨fun hy => ?_, ih⟩
      obtain ⟨i, h1, h2⟩ := mem_compress.1 hy
      exact h (i + 1) y (by simpa using h1) (by simpa using h2) 0 (by omega) (by simp)
    · exact ih

theorem front_nodup {sd : List F → F} (hs : IsScale sd) {m : Nat} {costs : List (List F)} (hr : Rect m costs) : (front sd costs).Nodup :=
  compress_nodup_first fun _ _ hj hk => ((C43_exact hs hr hj).1 hk).2

omit [IsStrictOrderedRing F] in
theorem front_rect {sd : List F → F} {m : Nat} {costs : List (List F)} (hr : Rect m costs) : Rect m (front sd costs) := fun r h => by
  obtain ⟨i, hi, -⟩ := mem_compress.1 h
  exact hr r (List.mem_of_getElem? hi)

omit [Field F] [IsStrictOrderedRing F] in
theorem dominates_trans {a b c : List F} (hl : a.length = b.length) (hl' : b.length = c.length) (h1 : Dominates a b) (h2 : Dominates b c) : Dominates a c := by
  have hno : NoWorse a c := by
    intro k x z hx hz
    have hk : k < b.length := by
      have := (List.getElem?_eq_some_iff.1 hx).1
      omega
    exact (h1.1 k x b[k] hx (by simp [hk])).trans (h2.1 k b[k] z (by simp [hk]) hz)
  obtain ⟨k, x, y, hx, hy, hxy⟩ := h1.2
  have hk : k < c.length := by
    have := (List.getElem?_eq_some_iff.1 hy).1
    omega
  exact ⟨hno, k, x, c[k], hx, by simp [hk], hxy.trans_le (h2.1 k y c[k] hy (by simp [hk]))⟩

omit [Field F] [IsStrictOrderedRing F] in
theorem dominates_units {g : Nat → F → F} (hg : ∀ k, StrictMono (g k)) (a b : List F) : Dominates (a.mapIdx g) (b.mapIdx g) ↔ Dominates a b := by
  unfold Dominates NoWorse
  simp only [List.getElem?_mapIdx, Option.map_eq_some_iff]
  constructor
  · rintro ⟨h1, k, _, _, ⟨x, hx, rfl⟩, ⟨y, hy, rfl⟩, hxy⟩
    exact ⟨fun k x y hx hy => (hg k).le_iff_le.1 (h1 k _ _ ⟨x, hx, rfl⟩ ⟨y, hy, rfl⟩), k, x, y, hx, hy, (hg k).lt_iff_lt.1 hxy⟩
  · rintro ⟨h1, k, x, y, hx, hy, hxy⟩
    refine ⟨?_, k, _, _, ⟨x, hx, rfl⟩, ⟨y, hy, rfl⟩, (hg k).lt_iff_lt.2 hxy⟩
    rintro k _ _ ⟨x, hx, rfl⟩ ⟨y, hy, rfl⟩
    exact (hg k).le_iff_le.2 (h1 k x y hx hy)

omit [Field F] [IsStrictOrderedRing F] in
theorem units_inj {g : Nat → F → F} (hg : ∀ k, StrictMono (g k)) {a b : List F} (h : a.mapIdx g = b.mapIdx g) : a = b := by
  have hl : a.length = b.length := by simpa using congrArg List.length h
  apply List.ext_getElem hl
  intro k h1 h2
  have : (a.mapIdx g)[k]? = (b.mapIdx g)[k]? := by rw [h]
  simp only [List.getElem?_mapIdx, List.getElem?_eq_getElem h1, List.getElem?_eq_getElem h2, Option.map_some, Option.some.injEq] at this
  exact (hg k).injective this

/-! ### C178 -/

/-- The points of the front are, each once, the points which no point dominates. -/
theorem C178_front {sd : List F → F} (hs : IsScale sd) {m : Nat} {costs : List (List F)} (hr : Rect m costs) :
    (front sd costs).Nodup ∧ (front sd costs).Sublist costs ∧ ∀ b, b ∈ front sd costs ↔ b ∈ costs ∧ ∀ a ∈ costs, ¬ Dominates a b :=
  ⟨front_nodup hs hr, compress_sublist _ _, mem_front hs hr⟩

/-- The front does not depend on the order of the points, nor on their repetitions. -/
theorem C178_order {sd sd' : List F → F} (hs : IsScale sd) (hs' : IsScale sd') {m : Nat} {costs costs' : List (List F)} (hr : Rect m costs) (h : ∀ b, b ∈ costs' ↔ b ∈ costs) :
    (front sd' costs').Perm (front sd costs) := by
  have hr' : Rect m costs' := fun r hm => hr r ((h r).1 hm)
  refine (List.perm_ext_iff_of_nodup (front_nodup hs' hr') (front_nodup hs hr)).2 fun b => ?_
  rw [mem_front hs' hr', mem_front hs hr]
  simp only [h]

/-- The front of a front is the whole of it. -/
theorem C178_again {sd : List F → F} (hs : IsScale sd) {m : Nat} {costs : List (List F)} (hr : Rect m costs) :
    paretoIndexes sd (front sd costs) = List.replicate (front sd costs).length true := by
  have hf := front_rect (sd := sd) hr
  refine mask_ext (by rw [pareto_length hs hf, List.length_replicate]) fun j hj => ?_
  rw [pareto_length hs hf] at hj
  have hb : (front sd costs)[j]? = some (front sd costs)[j] := by simp [hj]
  rw [C43_exact hs hf hb]
  simp only [List.getElem?_replicate, hj, if_true, iff_true]
  refine ⟨fun a ha => ((mem_front hs hr _).1 (List.getElem_mem hj)).2 a ((mem_front hs hr a).1 ha).1, fun i hi he => ?_⟩
  have hi' : i < (front sd costs).length := hi.trans hj
  rw [List.getElem?_eq_getElem hi', Option.some.injEq] at he
  exact absurd ((front_nodup hs hr).getElem_inj_iff.1 he) (by omega)

/-- A point which is dominated by, or has the same costs as, a point before it changes nothing to the others, and is not kept. -/
theorem C178_more {sd : List F → F} (hs : IsScale sd) {m : Nat} {costs : List (List F)} {c : List F} (hr : Rect m (costs ++ [c])) (hc : ∃ a ∈ costs, Dominates a c ∨ a = c) :
    paretoIndexes sd (costs ++ [c]) = paretoIndexes sd costs ++ [false] := by
  have hr' : Rect m costs := fun r h => hr r (List.mem_append_left _ h)
  obtain ⟨a0, ha0, hdom⟩ := hc
  have hlc : c.length = m := hr c (by simp)
  refine mask_ext (by simp [pareto_length hs hr, pareto_length hs hr']) fun j hj => ?_
  rw [pareto_length hs hr, List.length_append, List.length_singleton] at hj
  by_cases hjl : j < costs.length
  · have hb : costs[j]? = some costs[j] := by simp [hjl]
    have hb' : (costs ++ [c])[j]? = some costs[j] := by rw [List.getElem?_append_left hjl, hb]
    rw [C43_exact hs hr hb', List.getElem?_append_left (by rw [pareto_length hs hr']; exact hjl), C43_exact hs hr' hb]
    have hlb : costs[j].length = m := hr' _ (List.getElem_mem hjl)
    constructor
    · rintro ⟨h1, h2⟩
      exact ⟨fun a ha => h1 a (List.mem_append_left _ ha), fun i hi => by rw [← List.getElem?_append_left (l₂ := [c]) (hi.trans hjl)]; exact h2 i hi⟩
    · rintro ⟨h1, h2⟩
      refine ⟨fun a ha => ?_, fun i hi => by rw [List.getElem?_append_left (hi.trans hjl)]; exact h2 i hi⟩
      rcases List.mem_append.1 ha with ha | ha
      · exact h1 a ha
      · rw [List.mem_singleton] at ha
        subst ha
        intro hd
        rcases hdom with hdom | rfl
        · exact h1 a0 ha0 (dominates_trans (by rw [hr' a0 ha0, hlc]) (by rw [hlc, hlb]) hdom hd)
        · exact h1 a0 ha0 hd
  · have hj' : j = costs.length := by omega
    subst hj'
    have hb' : (costs ++ [c])[costs.length]? = some c := by simp
    rw [C43_exact hs hr hb', List.getElem?_append_right (by rw [pareto_length hs hr']), pareto_length hs hr']
    simp only [Nat.sub_self, List.getElem?_cons_zero, Option.some.injEq, Bool.false_eq_true, iff_false]
    rintro ⟨h1, h2⟩
    rcases hdom with hdom | rfl
    · exact h1 a0 (List.mem_append_left _ ha0) hdom
    · obtain ⟨i, hi⟩ := List.getElem?_of_mem ha0
      have hlt := (List.getElem?_eq_some_iff.1 hi).1
      exact h2 i hlt (by rw [List.getElem?_append_left hlt, hi])

/-- The points kept do not depend on the units of the costs, nor on the scale: any increasing change of each cost leaves them the same. -/
theorem C178_units {sd sd' : List F → F} (hs : IsScale sd) (hs' : IsScale sd') {m : Nat} {costs : List (List F)} (hr : Rect m costs) {g : Nat → F → F} (hg : ∀ k, StrictMono (g k)) :
    paretoIndexes sd' (inUnits g costs) = paretoIndexes sd costs := by
  have hr' : Rect m (inUnits g costs) := fun r h => by
    obtain ⟨a, ha, rfl⟩ := List.mem_map.1 h
    rw [List.length_mapIdx, hr a ha]
  have hl : (inUnits g costs).length = costs.length := List.length_map _
  refine mask_ext (by rw [pareto_length hs' hr', pareto_length hs hr, hl]) fun j hj => ?_
  rw [pareto_length hs' hr', hl] at hj
  have hb : costs[j]? = some costs[j] := by simp [hj]
  have hb' : (inUnits g costs)[j]? = some (costs[j].mapIdx g) := by rw [inUnits, List.getElem?_map, hb]; rfl
  rw [C43_exact hs' hr' hb', C43_exact hs hr hb]
  have e1 : (∀ a ∈ inUnits g costs, ¬ Dominates a (costs[j].mapIdx g)) ↔ ∀ a ∈ costs, ¬ Dominates a costs[j] := by
    simp only [inUnits, List.mem_map, forall_exists_index, and_imp, forall_apply_eq_imp_iff₂, dominates_units hg]
  have e2 : (∀ i < j, (inUnits g costs)[i]? ≠ some (costs[j].mapIdx g)) ↔ ∀ i < j, costs[i]? ≠ some costs[j] := by
    refine forall₂_congr fun i hi => not_congr ?_
    rw [inUnits, List.getElem?_map, Option.map_eq_some_iff]
    exact ⟨fun ⟨a, ha, e⟩ => ha.trans (congrArg some (units_inj hg e)), fun h => ⟨_, h, rfl⟩⟩
  rw [e1, e2]

/-! ### Examples -/

example : front sqScale [[1, 5, 7], [2, 3, 7], [3, 4, 7], [1, 5, 7], [6, 1, 7]] = [[1, 5, 7], [2, 3, 7], [6, 1, 7]] := by decide +kernel

example : paretoIndexes std (inUnits (fun _ x => 1000 * x + 3) [[1, 5, 7], [2, 3, 7], [3, 4, 7], [1, 5, 7], [6, 1, 7]]) =
    paretoIndexes std [[1, 5, 7], [2, 3, 7], [3, 4, 7], [1, 5, 7], [6, 1, 7]] :=
  C178_units (m := 3) std_isScale std_isScale (by intro r hr; simp at hr; rcases hr with rfl | rfl | rfl | rfl | rfl <;> rfl) fun _ x y h => by linarith

example : (front std [[3, 4, 7], [2, 3, 7], [1, 5, 7]]).Perm (front std [[1, 5, 7], [2, 3, 7], [3, 4, 7], [1, 5, 7]]) :=
  C178_order (m := 3) std_isScale std_isScale (by intro r hr; simp at hr; rcases hr with rfl | rfl | rfl | rfl <;> rfl) fun b => by simp; tauto

end DC.Data
