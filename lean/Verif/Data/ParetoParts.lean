import Verif.Data.ParetoLaws
/-
Property C203: Pareto fronts by parts, point by point, and best compromises.
-/
namespace DC.Data

variable {F : Type} [Field F] [LinearOrder F] [IsStrictOrderedRing F]

/-! ### Specification -/

/-- A cost made of all of them, with a weight for each. -/
def weighted (w b : List F) : F := (List.zipWith (· * ·) w b).sum

/-! ### Lemmas -/

/-- Each point is beaten, or equalled, by one of the front. -/
theorem front_covers {sd : List F → F} (hs : IsScale sd) {m : Nat} {costs : List (List F)} (hr : Rect m costs) {b : List F} (hb : b ∈ costs) :
    ∃ a ∈ front sd costs, Dominates a b ∨ a = b := by
  obtain ⟨j, hj⟩ := List.mem_iff_getElem?.1 hb
  have hl : j < (paretoIndexes sd costs).length := by
    rw [pareto_length hs hr]
    exact (List.getElem?_eq_some_iff.1 hj).1
  cases hk : (paretoIndexes sd costs)[j] with
  | true => exact ⟨b, mem_compress.2 ⟨j, hj, by rw [List.getElem?_eq_getElem hl, hk]⟩, .inr rfl⟩
  | false =>
    obtain ⟨i, a, ha, hki, h⟩ := (C43_pareto hs hr).2 j b hj (by rw [List.getElem?_eq_getElem hl, hk])
    exact ⟨a, mem_compress.2 ⟨i, ha, hki⟩, h⟩

omit [Field F] [IsStrictOrderedRing F] in
theorem not_dominates_self (a : List F) : ¬ Dominates a a := by
  rintro ⟨-, k, x, y, hx, hy, hlt⟩
  rw [hx, Option.some.injEq] at hy
  exact absurd hlt (by simp [hy])

theorem weighted_le : ∀ {w a b : List F}, (∀ x ∈ w, 0 < x) → a.length = b.length → NoWorse a b → weighted w a ≤ weighted w b
  | [], a, b, _, _, _ => by simp [weighted]
  | w :: ws, [], b, _, hl, _ => by
    obtain rfl : b = [] := List.length_eq_zero_iff.1 hl.symm
    exact le_refl _
  | w :: ws, x :: a, [], _, hl, _ => by simp at hl
  | w :: ws, x :: a, y :: b, hw, hl, h => by
    have h1 := weighted_le (w := ws) (a := a) (b := b) (fun z hz => hw z (by simp [hz])) (by simpa using hl)
      fun k u v hu hv => h (k + 1) u v (by simpa using hu) (by simpa using hv)
    have h2 : w * x ≤ w * y := mul_le_mul_of_nonneg_left (h 0 x y rfl rfl) (hw w (by simp)).le
    simp only [weighted, List.zipWith_cons_cons, List.sum_cons] at h1 ⊢
    exact add_le_add h2 h1

theorem weighted_lt : ∀ {w a b : List F}, (∀ x ∈ w, 0 < x) → a.length = b.length → w.length = a.length → Dominates a b →
    weighted w a < weighted w b
  | w, [], b, _, _, _, h => by
    obtain ⟨k, x, y, hx, -, -⟩ := h.2
    simp at hx
  | w, x :: a, [], _, hl, _, _ => by simp at hl
  | [], x :: a, y :: b, _, _, hl, _ => by simp at hl
  | w :: ws, x :: a, y :: b, hw, hl, hl', h => by
    have hxy := h.1 0 x y rfl rfl
    have hno : NoWorse a b := fun k u v hu hv => h.1 (k + 1) u v (by simpa using hu) (by simpa using hv)
    have hw' : ∀ z ∈ ws, 0 < z := fun z hz => hw z (by simp [hz])
    have h1 := weighted_le (w := ws) hw' (by simpa using hl) hno
    have h2 : w * x ≤ w * y := mul_le_mul_of_nonneg_left hxy (hw w (by simp)).le
    simp only [weighted, List.zipWith_cons_cons, List.sum_cons] at h1 ⊢
    obtain ⟨k, u, v, hu, hv, huv⟩ := h.2
    cases k with
    | zero =>
      simp only [List.getElem?_cons_zero, Option.some.injEq] at hu hv
      subst hu hv
      exact add_lt_add_of_lt_of_le (mul_lt_mul_of_pos_left huv (hw w (by simp))) h1
    | succ k =>
      have := weighted_lt (w := ws) hw' (by simpa using hl) (by simpa using hl')
        (⟨hno, k, u, v, by simpa using hu, by simpa using hv, huv⟩ : Dominates a b)
      simp only [weighted] at this
      exact add_lt_add_of_le_of_lt h2 this

/-! ### C203 -/

/-- C203.  The front of two sets of points together is the front of their two fronts. -/
theorem C203_parts {sd : List F → F} (hs : IsScale sd) {m : Nat} {a b : List (List F)} (hr : Rect m (a ++ b)) :
    (front sd (a ++ b)).Perm (front sd (front sd a ++ front sd b)) := by
  have ha : Rect m a := fun r h => hr r (by simp [h])
  have hb : Rect m b := fun r h => hr r (by simp [h])
  have hfa := front_rect (sd := sd) ha
  have hfb := front_rect (sd := sd) hb
  have hf : Rect m (front sd a ++ front sd b) := fun r h => (List.mem_append.1 h).elim (hfa r) (hfb r)
  refine (List.perm_ext_iff_of_nodup (front_nodup hs hr) (front_nodup hs hf)).2 fun x => ?_
  rw [mem_front hs hr, mem_front hs hf]
  simp only [List.mem_append, mem_front hs ha, mem_front hs hb]
  constructor
  · rintro ⟨hx, hno⟩
    exact ⟨hx.imp (fun h => ⟨h, fun y hy => hno y (.inl hy)⟩) (fun h => ⟨h, fun y hy => hno y (.inr hy)⟩),
      fun y hy => hno y (hy.imp And.left And.left)⟩
  · rintro ⟨hx, hno⟩
    have hxm : x ∈ a ++ b := List.mem_append.2 (hx.imp And.left And.left)
    refine ⟨hx.imp And.left And.left, fun y hy hd => ?_⟩
    have key : ∃ z, ((z ∈ a ∧ ∀ c ∈ a, ¬ Dominates c z) ∨ (z ∈ b ∧ ∀ c ∈ b, ¬ Dominates c z)) ∧ (Dominates z y ∨ z = y) := by
      rcases hy with hy | hy
      · obtain ⟨z, hz, h⟩ := front_covers hs ha hy
        exact ⟨z, .inl ((mem_front hs ha z).1 hz), h⟩
      · obtain ⟨z, hz, h⟩ := front_covers hs hb hy
        exact ⟨z, .inr ((mem_front hs hb z).1 hz), h⟩
    obtain ⟨z, hz, h⟩ := key
    have hzm : z ∈ a ++ b := List.mem_append.2 (hz.imp And.left And.left)
    rcases h with h | rfl
    · exact hno z hz (dominates_trans ((hr z hzm).trans (hr y (List.mem_append.2 hy)).symm)
        ((hr y (List.mem_append.2 hy)).trans (hr x hxm).symm) h hd)
    · exact hno z hz hd

/-- C203.  A new point which no point dominates or equals joins the front, from which exactly the points it dominates go. -/
theorem C203_joins {sd : List F → F} (hs : IsScale sd) {m : Nat} {costs : List (List F)} {c : List F} (hr : Rect m (costs ++ [c]))
    (hc : ∀ a ∈ costs, ¬ Dominates a c ∧ a ≠ c) (x : List F) :
    x ∈ front sd (costs ++ [c]) ↔ x = c ∨ (x ∈ front sd costs ∧ ¬ Dominates c x) := by
  have hr' : Rect m costs := fun r h => hr r (by simp [h])
  rw [mem_front hs hr, mem_front hs hr']
  simp only [List.mem_append, List.mem_singleton]
  constructor
  · rintro ⟨hx | hx, hno⟩
    · exact .inr ⟨⟨hx, fun a ha => hno a (.inl ha)⟩, hno c (.inr rfl)⟩
    · exact .inl hx
  · rintro (rfl | ⟨⟨hx, hno⟩, h⟩)
    · refine ⟨.inr rfl, ?_⟩
      rintro a (ha | rfl)
      · exact (hc a ha).1
      · exact not_dominates_self _
    · refine ⟨.inl hx, ?_⟩
      rintro a (ha | rfl)
      · exact hno a ha
      · exact h

/-- C203.  The best point for a cost made of all of them, with a positive weight for each, is on the front. -/
theorem C203_best {sd : List F → F} (hs : IsScale sd) {m : Nat} {costs : List (List F)} (hr : Rect m costs) {w : List F} (hw : ∀ x ∈ w, 0 < x)
    (hl : w.length = m) {b : List F} (hb : b ∈ costs) (hmin : ∀ a ∈ costs, weighted w b ≤ weighted w a) : b ∈ front sd costs := by
  refine (mem_front hs hr b).2 ⟨hb, fun a ha hd => ?_⟩
  have := weighted_lt hw ((hr a ha).trans (hr b hb).symm) (hl.trans (hr a ha).symm) hd
  exact absurd (hmin a ha) (not_le.2 this)

/-- C203.  There is a front as soon as there is a point, and with a single cost it is the least one. -/
theorem C203_single {sd : List F → F} (hs : IsScale sd) {costs : List (List F)} (hr : Rect 1 costs) (hne : costs ≠ []) :
    ∃ x, front sd costs = [[x]] ∧ ∀ y, [y] ∈ costs → x ≤ y := by
  obtain ⟨b, hb⟩ := List.exists_mem_of_ne_nil _ hne
  obtain ⟨a, ha, -⟩ := front_covers hs hr hb
  obtain ⟨x, rfl⟩ : ∃ x, a = [x] := by
    have := front_rect (sd := sd) hr a ha
    exact List.length_eq_one_iff.1 this
  have hx := (mem_front hs hr _).1 ha
  have hle : ∀ y, [y] ∈ costs → x ≤ y := by
    intro y hy
    by_contra hlt
    rw [not_le] at hlt
    refine hx.2 [y] hy ⟨?_, 0, y, x, rfl, rfl, hlt⟩
    intro k u v hu hv
    cases k with
    | zero => simp at hu hv; subst hu hv; exact hlt.le
    | succ k => simp at hu
  refine ⟨x, ?_, hle⟩
  have hall : ∀ z ∈ front sd costs, z = [x] := by
    intro z hz
    obtain ⟨y, rfl⟩ : ∃ y, z = [y] := List.length_eq_one_iff.1 (front_rect (sd := sd) hr z hz)
    have hz' := (mem_front hs hr _).1 hz
    by_contra hne
    refine hz'.2 [x] hx.1 ⟨?_, 0, x, y, rfl, rfl, lt_of_le_of_ne (hle y hz'.1) fun e => hne (by rw [e])⟩
    intro k u v hu hv
    cases k with
    | zero => simp at hu hv; subst hu hv; exact hle _ hz'.1
    | succ k => simp at hu
  have hnd := front_nodup hs hr
  match hf : front sd costs with
  | [] => rw [hf] at ha; simp at ha
  | [z] => rw [hall z (by rw [hf]; simp)]
  | z :: z' :: rest =>
    rw [hf] at hnd
    have h1 := hall z (by rw [hf]; simp)
    have h2 := hall z' (by rw [hf]; simp)
    simp [h1, h2] at hnd

/-! ### Examples -/

theorem exCosts_rect : Rect 2 ([[1, 5], [2, 3]] ++ [[3, 4], [6, (1 : ℝ)]]) := by
  intro r hr
  simp at hr
  rcases hr with rfl | rfl | rfl | rfl <;> rfl

example : (front std ([[1, 5], [2, 3]] ++ [[3, 4], [6, (1 : ℝ)]])).Perm (front std (front std [[1, 5], [2, 3]] ++ front std [[3, 4], [6, 1]])) :=
  C203_parts std_isScale exCosts_rect

/-- The point (2, 3) is the best one for the sum of the two costs. -/
example : [2, 3] ∈ front std ([[1, 5], [2, 3]] ++ [[3, 4], [6, (1 : ℝ)]]) := by
  refine C203_best std_isScale exCosts_rect (w := [1, 1]) (by simp) rfl (by simp) ?_
  intro a ha
  simp at ha
  rcases ha with rfl | rfl | rfl | rfl <;> norm_num [weighted]

end DC.Data
