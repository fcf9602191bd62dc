import Mathlib.Tactic.Linarith
import Mathlib.Tactic.FieldSimp
import Mathlib.Tactic.NormNum
import Mathlib.Data.List.Nodup
import Mathlib.Data.List.Flatten
import Verif.Misc.Numbers
/- Properties C52, C53, C54, C61, C81, C82 and C83. -/
namespace DC.Num

/-! ### C52: normalisation of parameters -/

/-- Normalising and reverting are inverse of each other, for all distinct bounds. -/
theorem C52_inverse (p : Parameter) (h : p.lower ≠ p.upper) :
    (∀ v, ∃ x, normalize p v = .ok x ∧ originalValue p x = v) ∧ ∀ x, normalize p (originalValue p x) = .ok x := by
  have h0 : p.upper - p.lower ≠ 0 := sub_ne_zero.2 (Ne.symm h)
  constructor
  · intro v
    refine ⟨(v - p.lower) / (p.upper - p.lower), by simp [normalize, div, h0], ?_⟩
    unfold originalValue
    rw [div_mul_cancel₀ _ h0]
    ring
  · intro x
    unfold normalize div originalValue
    rw [if_neg h0, add_sub_cancel_right, mul_div_cancel_right₀ _ h0]

/-- The normalised value is in [0, 1] exactly for the values within the bounds. -/
theorem C52_range (p : Parameter) (h : p.lower < p.upper) (v : Rat) : ∃ x, normalize p v = .ok x ∧
    ((0 ≤ x ∧ x ≤ 1) ↔ (p.lower ≤ v ∧ v ≤ p.upper)) := by
  have h0 : 0 < p.upper - p.lower := sub_pos.2 h
  refine ⟨_, by rw [normalize, div, if_neg h0.ne'], ?_⟩
  rw [div_le_one h0, le_div_iff₀ h0]
  constructor <;> rintro ⟨h1, h2⟩ <;> constructor <;> linarith

/-- The lower bound is normalised to 0 and the upper one to 1. -/
theorem C52_bounds (p : Parameter) (h : p.lower ≠ p.upper) : normalize p p.lower = .ok 0 ∧ normalize p p.upper = .ok 1 := by
  have h0 : p.upper - p.lower ≠ 0 := sub_ne_zero.2 (Ne.symm h)
  unfold normalize div
  rw [if_neg h0, if_neg h0, div_self h0]
  simp

/-- Equal bounds: no value can be normalised. -/
theorem C52_raises (p : Parameter) (h : p.lower = p.upper) (v : Rat) : normalize p v = .error .zeroDivision := by
  simp [normalize, div, h]

/-- A random value is within the bounds. -/
theorem C52_random (p : Parameter) (h : p.lower ≤ p.upper) (r : Rat) (h0 : 0 ≤ r) (h1 : r < 1) :
    p.lower ≤ randomValue p r ∧ randomValue p r ≤ p.upper := by
  unfold randomValue
  have h2 : 0 ≤ (p.upper - p.lower) * r := mul_nonneg (by linarith) h0
  have h3 : (p.upper - p.lower) * r ≤ (p.upper - p.lower) * 1 := mul_le_mul_of_nonneg_left h1.le (by linarith)
  constructor <;> linarith

/-- A bounded attribute behaves likewise. -/
theorem C52_bounded (b : Bound) (h : b.lo ≠ b.hi) :
    (∀ v, ∃ x, b.dimensionless v = .ok x ∧ b.toValue x = v) ∧ (∀ x, b.dimensionless (b.toValue x) = .ok x) ∧
    (b.lo < b.hi → ∀ x, (0 ≤ x ∧ x ≤ 1) ↔ (b.lo ≤ b.toValue x ∧ b.toValue x ≤ b.hi)) := by
  have h0 : b.hi - b.lo ≠ 0 := sub_ne_zero.2 (Ne.symm h)
  refine ⟨fun v => ⟨(v - b.lo) / (b.hi - b.lo), by simp [Bound.dimensionless, div, h0], ?_⟩, fun x => ?_, fun hl x => ?_⟩
  · unfold Bound.toValue
    rw [div_mul_cancel₀ _ h0]
    ring
  · unfold Bound.dimensionless div Bound.toValue
    rw [if_neg h0, add_sub_cancel_left, mul_div_cancel_right₀ _ h0]
  · unfold Bound.toValue
    have hp : 0 < b.hi - b.lo := sub_pos.2 hl
    constructor
    · rintro ⟨h1, h2⟩
      have := mul_nonneg h1 hp.le
      have := mul_le_mul_of_nonneg_right h2 hp.le
      constructor <;> linarith
    · rintro ⟨h1, h2⟩
      constructor
      · by_contra hc
        have := mul_pos_of_neg_of_neg (not_le.1 hc) (neg_lt_zero.2 hp)
        linarith
      · by_contra hc
        have := mul_lt_mul_of_pos_right (not_le.1 hc) hp
        linarith

example : (⟨-1, 3, none⟩ : Parameter).lower < (⟨-1, 3, none⟩ : Parameter).upper := by norm_num
example : normalize ⟨-1, 3, none⟩ 2 = .ok (3/4) := by decide +kernel

/-! ### C81: values of a periodic parameter -/

/-- Spec: `v1` and `v2` are the same modulo the period, up to the tolerance. -/
def SameModulo (period v1 v2 tol : Rat) : Prop := ∃ k : Int, |v1 - v2 - k * period| ≤ tol

/-- Values differing by a multiple of the period are equal, whatever the tolerance. Missing for the full property: values
differing by a multiple of the period up to the tolerance, on both sides of a multiple of the period (`C81_violated`). -/
theorem C81_partial (p : Parameter) {period : Rat} (hp : p.periodicity = some period) (h0 : period ≠ 0) (v tol : Rat)
    (ht : 0 ≤ tol) (k : Int) : areValuesEqual p (v + k * period) v tol = .ok true := by
  have hm : mod (v + k * period) period = mod v period := by
    unfold mod
    rw [if_neg h0, if_neg h0]
    have : (v + k * period) / period = v / period + k := by field_simp
    rw [this, Int.floor_add_intCast]
    push_cast
    congr 1
    ring
  unfold areValuesEqual
  rw [hp]
  simp only [hm, bind, Except.bind]
  cases hv : mod v period with
  | error e => simp [mod, h0] at hv
  | ok w => simp [isclose, not_lt.2 ht]

/-- The result does not depend on the order of the values. -/
theorem C81_symmetric (p : Parameter) (v1 v2 tol : Rat) : areValuesEqual p v1 v2 tol = areValuesEqual p v2 v1 tol := by
  have hi : ∀ a b, isclose a b tol = isclose b a tol := by
    intro a b
    unfold isclose
    rw [abs_sub_comm a b, max_comm |a| |b|]
    congr 2
    simp only [eq_comm]
  unfold areValuesEqual
  cases p.periodicity with
  | none => exact hi v1 v2
  | some q =>
    dsimp only
    unfold mod
    by_cases hq : q = 0
    · simp [hq, bind, Except.bind]
    · simp only [hq, if_false, bind, Except.bind]
      exact hi _ _

/-- Values out of the tolerance are told apart, if the tolerance dominates the relative one. -/
theorem C81_apart (p : Parameter) {period : Rat} (hp : p.periodicity = some period) (h0 : 0 < period) (v1 v2 tol : Rat)
    (ht : 0 ≤ tol) (hr : period / 1000000000 ≤ tol) (h : ¬ SameModulo period v1 v2 tol) :
    areValuesEqual p v1 v2 tol = .ok false := by
  unfold areValuesEqual
  rw [hp]
  simp only [mod, h0.ne', if_false, bind, Except.bind, isclose, not_lt.2 ht, Except.ok.injEq, decide_eq_false_iff_not, not_or]
  have hfl : ∀ v : Rat, 0 ≤ v - period * ⌊v / period⌋ ∧ v - period * ⌊v / period⌋ ≤ period := by
    intro v
    have h1 := Int.floor_le (v / period)
    have h2 := (Int.lt_floor_add_one (v / period)).le
    rw [le_div_iff₀ h0] at h1
    rw [div_le_iff₀ h0] at h2
    constructor <;> nlinarith
  have heq : (v1 - period * ⌊v1 / period⌋) - (v2 - period * ⌊v2 / period⌋) =
      v1 - v2 - ((⌊v1 / period⌋ - ⌊v2 / period⌋ : Int) : Rat) * period := by push_cast; ring
  have hc : ¬ |(v1 - period * ⌊v1 / period⌋) - (v2 - period * ⌊v2 / period⌋)| ≤ tol := by
    rw [heq]
    exact fun hc => h ⟨_, hc⟩
  refine ⟨fun hc' => hc ?_, fun hc' => hc ?_⟩
  · rw [hc', sub_self, abs_zero]
    exact ht
  · rcases le_max_iff.1 hc' with hl | hl
    · refine hl.trans (le_trans ?_ hr)
      have a1 := hfl v1
      have a2 := hfl v2
      rw [abs_of_nonneg a1.1, abs_of_nonneg a2.1]
      apply div_le_div_of_nonneg_right _ (by norm_num)
      exact max_le a1.2 a2.2
    · exact hl

/-- The bounds given to an optimizer: those of the parameter, with half a period around. -/
theorem C81_optimizer (p : Parameter) (h : p.lower ≤ p.upper) :
    (p.periodicity = none → optimizerBounds p = none) ∧
    ∀ period, p.periodicity = some period → 0 ≤ period → ∃ lo hi, optimizerBounds p = some (lo, hi) ∧
      ∀ x, lo ≤ x ∧ x ≤ hi ↔ ∃ v, p.lower ≤ v ∧ v ≤ p.upper ∧ 2 * |x - v| ≤ period := by
  refine ⟨fun hp => by rw [optimizerBounds, hp]; rfl, fun period hp h0 => ?_⟩
  refine ⟨p.lower - 1/2 * period, p.upper + 1/2 * period, by rw [optimizerBounds, hp]; rfl, fun x => ?_⟩
  constructor
  · rintro ⟨h1, h2⟩
    rcases le_total x p.lower with hx | hx
    · refine ⟨p.lower, le_rfl, h, ?_⟩
      rw [abs_of_nonpos (by linarith)]
      linarith
    · rcases le_total p.upper x with hx' | hx'
      · refine ⟨p.upper, h, le_rfl, ?_⟩
        rw [abs_of_nonneg (by linarith)]
        linarith
      · exact ⟨x, hx, hx', by simpa using h0⟩
  · rintro ⟨v, h1, h2, h3⟩
    have := neg_abs_le (x - v)
    have := le_abs_self (x - v)
    constructor <;> linarith

example : optimizerBounds ⟨0, 360, some 360⟩ = some (-180, 540) := by decide +kernel

/-- Two angles of 0 and 359.999 degrees are the same modulo 360 up to 0.01, and are not found equal. -/
theorem C81_violated : SameModulo 360 0 (359999/1000) (1/100) ∧
    areValuesEqual ⟨0, 360, some 360⟩ 0 (359999/1000) (1/100) = .ok false := by
  refine ⟨⟨-1, by norm_num [abs_le]⟩, by decide +kernel⟩

example : ¬ SameModulo 360 10 200 (1/100) := by
  rintro ⟨k, hk⟩
  rw [abs_le] at hk
  have h1 : (k : Rat) < 0 := by linarith [hk.1, hk.2]
  have h2 : (-1 : Rat) < k := by linarith [hk.1, hk.2]
  have h1 : k < 0 := by exact_mod_cast h1
  have h2 : -1 < k := by exact_mod_cast h2
  omega

/-! ### C82: parameter sets -/

theorem foldl_min_le : ∀ (l : List Rat) (a : Rat), l.foldl min a ≤ a ∧ (∀ x ∈ l, l.foldl min a ≤ x) ∧
    (l.foldl min a = a ∨ l.foldl min a ∈ l)
  | [], a => by simp
  | b :: l, a => by
    obtain ⟨h1, h2, h3⟩ := foldl_min_le l (min a b)
    refine ⟨h1.trans (min_le_left _ _), ?_, ?_⟩
    · intro x hx
      rcases List.mem_cons.1 hx with rfl | hx
      · exact h1.trans (min_le_right _ _)
      · exact h2 x hx
    · rcases h3 with h3 | h3
      · rcases min_choice a b with h | h
        · exact .inl (h3.trans h)
        · right
          rw [List.foldl_cons, h3, h]
          exact .head _
      · exact .inr (.tail _ h3)

theorem foldl_max_le : ∀ (l : List Rat) (a : Rat), a ≤ l.foldl max a ∧ (∀ x ∈ l, x ≤ l.foldl max a) ∧
    (l.foldl max a = a ∨ l.foldl max a ∈ l)
  | [], a => by simp
  | b :: l, a => by
    obtain ⟨h1, h2, h3⟩ := foldl_max_le l (max a b)
    refine ⟨(le_max_left _ _).trans h1, ?_, ?_⟩
    · intro x hx
      rcases List.mem_cons.1 hx with rfl | hx
      · exact (le_max_right _ _).trans h1
      · exact h2 x hx
    · rcases h3 with h3 | h3
      · rcases max_choice a b with h | h
        · exact .inl (h3.trans h)
        · right
          rw [List.foldl_cons, h3, h]
          exact .head _
      · exact .inr (.tail _ h3)

theorem pyMin_spec {l : List Rat} {m : Rat} (h : pyMin l = .ok m) : m ∈ l ∧ ∀ x ∈ l, m ≤ x := by
  cases l with
  | nil => simp [pyMin] at h
  | cons a l =>
    simp only [pyMin, Except.ok.injEq] at h
    obtain ⟨h1, h2, h3⟩ := foldl_min_le l a
    rw [h] at h1 h2 h3
    refine ⟨?_, ?_⟩
    · rcases h3 with h3 | h3
      · rw [h3]; exact .head _
      · exact .tail _ h3
    · intro x hx
      rcases List.mem_cons.1 hx with rfl | hx
      · exact h1
      · exact h2 x hx

theorem pyMax_spec {l : List Rat} {m : Rat} (h : pyMax l = .ok m) : m ∈ l ∧ ∀ x ∈ l, x ≤ m := by
  cases l with
  | nil => simp [pyMax] at h
  | cons a l =>
    simp only [pyMax, Except.ok.injEq] at h
    obtain ⟨h1, h2, h3⟩ := foldl_max_le l a
    rw [h] at h1 h2 h3
    refine ⟨?_, ?_⟩
    · rcases h3 with h3 | h3
      · rw [h3]; exact .head _
      · exact .tail _ h3
    · intro x hx
      rcases List.mem_cons.1 hx with rfl | hx
      · exact h1
      · exact h2 x hx

/-- The parameters of a set have its names in order; the bounds of each one are the smallest and the greatest of its
values. -/
theorem C82_parameters {values : List (String × List Rat)} {ps : List (String × Parameter)}
    (h : parameters values = .ok ps) : List.Forall₂ (fun kv kp => kp.1 = kv.1 ∧ kp.2.lower ∈ kv.2 ∧ kp.2.upper ∈ kv.2 ∧
      (∀ x ∈ kv.2, kp.2.lower ≤ x ∧ x ≤ kp.2.upper) ∧ kp.2.periodicity = none) values ps := by
  unfold parameters at h
  rw [Py.mapM_ok] at h
  refine h.imp ?_
  intro kv kp hk
  cases h1 : pyMin kv.2 with
  | error e => simp [parameterOf, h1, bind, Except.bind] at hk
  | ok lo =>
    cases h2 : pyMax kv.2 with
    | error e => simp [parameterOf, h1, h2, bind, Except.bind] at hk
    | ok hi =>
      simp only [parameterOf, h1, h2, bind, Except.bind, Except.ok.injEq] at hk
      subst hk
      have e1 := pyMin_spec h1
      have e2 := pyMax_spec h2
      exact ⟨rfl, e1.1, e2.1, fun x hx => ⟨e1.2 x hx, e2.2 x hx⟩, rfl⟩

/-- They are computed as soon as each name has a value, and a ValueError is raised otherwise. -/
theorem C82_defined (values : List (String × List Rat)) :
    if (∀ kv ∈ values, kv.2 ≠ []) then ∃ ps, parameters values = .ok ps else parameters values = .error .valueError := by
  induction values with
  | nil => simp [parameters, List.mapM_nil, pure, Except.pure]
  | cons kv values ih =>
    unfold parameters at *
    rw [List.mapM_cons]
    by_cases hk : kv.2 = []
    · rw [if_neg (by intro hc; exact hc kv (.head _) hk)]
      simp [parameterOf, hk, pyMin, bind, Except.bind]
    · obtain ⟨a, l, hal⟩ := List.exists_cons_of_ne_nil hk
      by_cases hv : ∀ kv ∈ values, kv.2 ≠ []
      · rw [if_pos hv] at ih
        rw [if_pos (by intro q hq; rcases List.mem_cons.1 hq with rfl | hq; exacts [hk, hv q hq])]
        obtain ⟨ps, ih⟩ := ih
        simp [parameterOf, hal, pyMin, pyMax, bind, Except.bind, ih, pure, Except.pure]
      · rw [if_neg hv] at ih
        rw [if_neg (fun hc => hv fun q hq => hc q (.tail _ hq))]
        simp [parameterOf, hal, pyMin, pyMax, bind, Except.bind, ih]

theorem sum_bounds {lo hi : Rat} : ∀ {l : List Rat}, (∀ x ∈ l, lo ≤ x ∧ x ≤ hi) →
    lo * l.length ≤ l.sum ∧ l.sum ≤ hi * l.length
  | [], _ => by simp
  | a :: l, h => by
    have h0 := h a (.head _)
    have ih := sum_bounds fun x hx => h x (.tail _ hx)
    simp only [List.sum_cons, List.length_cons, Nat.cast_add, Nat.cast_one]
    constructor <;> linarith [ih.1, ih.2, h0.1, h0.2]

/-- The mean of the values of a parameter is within its bounds. -/
theorem C82_means {values : List (String × List Rat)} {ps : List (String × Parameter)} {ms : List (String × Rat)}
    (h : parameters values = .ok ps) (hm : means values = .ok ms) :
    List.Forall₂ (fun kp km => km.1 = kp.1 ∧ kp.2.lower ≤ km.2 ∧ km.2 ≤ kp.2.upper) ps ms := by
  have hp := C82_parameters h
  unfold means at hm
  rw [Py.mapM_ok] at hm
  clear h
  induction hp generalizing ms with
  | nil => cases hm; exact .nil
  | cons h1 h2 ih =>
    cases hm with
    | cons g1 g2 =>
      refine .cons ?_ (ih g2)
      rename_i kv kp l1 l2 km l3
      obtain ⟨hn, hlo, -, hb, -⟩ := h1
      have hpos : (0 : Rat) < (kv.2.length : Rat) := by
        have := List.length_pos_of_mem hlo
        exact_mod_cast this
      simp only [div, hpos.ne', if_false, bind, Except.bind, Except.ok.injEq] at g1
      subst g1
      obtain ⟨s1, s2⟩ := sum_bounds hb
      exact ⟨hn.symm, (le_div_iff₀ hpos).2 s1, (div_le_iff₀ hpos).2 s2⟩

example : ∃ ps, parameters [("a", [3, 1, 2]), ("b", [0])] = .ok ps := ⟨_, rfl⟩

/-! ### C53: interpolation -/

theorem istepLoop_found {v : Rat} : ∀ {l : List Rat} {i : Nat}, l.Pairwise (· ≤ ·) → (∀ a ∈ l.head?, a ≤ v) →
    (∀ z ∈ l.getLast?, v ≤ z) → 2 ≤ l.length → ¬ (l[0]? = some v ∧ l[1]? = some v) →
    ∃ (k : Nat) (a b : Rat), l[k]? = some a ∧ l[k+1]? = some b ∧ a ≤ v ∧ v ≤ b ∧ a < b ∧
      istepLoop v i l = .ok (some ((i : Rat) + (k : Rat) + (v - a) / (b - a)))
  | [], _, _, _, _, h, _ => by simp at h
  | [_], _, _, _, _, h, _ => by simp at h
  | a :: b :: rest, i, hs, hh, hl, _, hn => by
    have hav : a ≤ v := hh a (by simp)
    have hab : a ≤ b := (List.pairwise_cons.1 hs).1 b (.head _)
    unfold istepLoop
    simp only [if_neg (not_lt.2 hab)]
    by_cases hv : v ≤ b
    · rw [if_pos ⟨hav, hv⟩]
      have hlt : a < b := by
        rcases hab.lt_or_eq with h | h
        · exact h
        · exfalso
          subst h
          have : a = v := le_antisymm hav hv
          subst this
          exact hn ⟨rfl, rfl⟩
      have hpos : 0 < b - a := sub_pos.2 hlt
      refine ⟨0, a, b, rfl, rfl, hav, hv, hlt, ?_⟩
      have h1 : ¬ (v - a) / (b - a) < 0 := not_lt.2 (div_nonneg (by linarith) hpos.le)
      have h2 : ¬ 1 < (v - a) / (b - a) := not_lt.2 ((div_le_one hpos).2 (by linarith))
      simp [div, hpos.ne', bind, Except.bind, h1, h2]
    · rw [if_neg (fun hc => hv hc.2)]
      have hbv := not_le.1 hv
      cases rest with
      | nil => exact absurd (hl b (by simp)) hv
      | cons c rest =>
        obtain ⟨k, x, y, h1, h2, h3, h4, h5, h6⟩ := istepLoop_found (v := v) (l := b :: c :: rest) (i := i + 1)
          (List.pairwise_cons.1 hs).2 (by simpa using hbv.le) (by simpa using hl) (by simp)
          (by simp only [List.getElem?_cons_zero, Option.some.injEq]; exact fun hc => hbv.ne hc.1)
        refine ⟨k + 1, x, y, h1, h2, h3, h4, h5, ?_⟩
        rw [h6]
        push_cast
        congr 2
        ring

theorem interpolate_segment {l : List Rat} {k : Nat} {a b v : Rat} (ha : l[k]? = some a) (hb : l[k+1]? = some b)
    (hav : a ≤ v) (hvb : v ≤ b) (hab : a < b) : interpolate l ((k : Rat) + (v - a) / (b - a)) = .ok v := by
  have hpos : 0 < b - a := sub_pos.2 hab
  have hk : k + 1 < l.length := (List.getElem?_eq_some_iff.1 hb).1
  have h0 : 0 ≤ (v - a) / (b - a) := div_nonneg (by linarith) hpos.le
  have h1 : (v - a) / (b - a) ≤ 1 := (div_le_one hpos).2 (by linarith)
  have hk' : (k : Rat) + 1 ≤ (l.length : Rat) - 1 := by
    have : ((k + 2 : Nat) : Rat) ≤ (l.length : Rat) := by exact_mod_cast hk
    push_cast at this
    linarith
  have hkn : (0 : Rat) ≤ (k : Rat) := Nat.cast_nonneg k
  unfold interpolate
  rw [if_neg (by rintro (h | h) <;> linarith)]
  by_cases hv : v = b
  · subst hv
    have e : (v - a) / (v - a) = 1 := div_self hpos.ne'
    have e2 : ⌊(k : Rat) + 1⌋ = ((k + 1 : Nat) : Int) := by
      have : (k : Rat) + 1 = (((k + 1 : Nat) : Int) : Rat) := by push_cast; ring
      rw [this, Int.floor_intCast]
    simp only [e, e2]
    rw [if_pos (by push_cast; ring), Py.get_nat, hb]
  · have hlt : (v - a) / (b - a) < 1 := (div_lt_one hpos).2 (by
      have := lt_of_le_of_ne hvb hv
      linarith)
    have e2 : ⌊(k : Rat) + (v - a) / (b - a)⌋ = (k : Int) := by
      rw [Int.floor_eq_iff]
      push_cast
      constructor <;> linarith
    simp only [e2]
    push_cast
    by_cases hva : v = a
    · subst hva
      rw [if_pos (by simp), Py.get_nat, ha]
    · have hne : (v - a) / (b - a) ≠ 0 := div_ne_zero (sub_ne_zero.2 hva) hpos.ne'
      rw [if_neg (by intro hc; exact hne (by linarith))]
      have e3 : Py.get l ((k : Int) + 1) = .ok b := by
        have := Py.get_nat l (k + 1)
        push_cast at this
        rw [this, hb]
      have e4 : Py.get l (k : Int) = .ok a := by rw [Py.get_nat, ha]
      simp only [e3, e4, bind, Except.bind, Except.ok.injEq]
      have : (k : Rat) + (v - a) / (b - a) - (k : Rat) = (v - a) / (b - a) := by ring
      rw [this]
      field_simp
      ring

/-- On a non decreasing list, the float index of every value between the first and the last elements gives the value back
when interpolated. Excepted: a value equal to the first two elements, for which a ZeroDivisionError is raised
(`C53_duplicate_violated`). Missing for the full property: decreasing lists (`C53_decreasing_violated`). -/
theorem C53_partial {l : List Rat} (hs : l.Pairwise (· ≤ ·)) {a z v : Rat} (ha : l.head? = some a)
    (hz : l.getLast? = some z) (h1 : a ≤ v) (h2 : v ≤ z) (hlen : 2 ≤ l.length) (hn : ¬ (l[0]? = some v ∧ l[1]? = some v))
    (e : Bool) : ∃ i, istep l v e = .ok i ∧ interpolate l i = .ok v := by
  obtain ⟨k, x, y, g1, g2, g3, g4, g5, g6⟩ := istepLoop_found (v := v) (l := l) (i := 0) hs (by simpa [ha] using h1)
    (by simpa [hz] using h2) hlen hn
  refine ⟨(k : Rat) + (v - x) / (y - x), ?_, interpolate_segment g1 g2 g3 g4 g5⟩
  unfold istep
  rw [g6]
  simp [bind, Except.bind]

theorem istepLoop_out {v : Rat} : ∀ {l : List Rat} {i : Nat}, ((∀ x ∈ l, x < v) ∨ ∀ x ∈ l, v < x) → istepLoop v i l = .ok none
  | [], _, _ => rfl
  | [_], _, _ => rfl
  | a :: b :: rest, i, h => by
    unfold istepLoop
    have hc : ¬ ((if b < a then b else a) ≤ v ∧ v ≤ (if b < a then a else b)) := by
      rcases h with h | h
      · have ha := h a (.head _)
        have hb := h b (.tail _ (.head _))
        split <;> intro hc <;> linarith [hc.2]
      · have ha := h a (.head _)
        have hb := h b (.tail _ (.head _))
        split <;> intro hc <;> linarith [hc.1]
    simp only [hc, if_false]
    refine istepLoop_out ?_
    rcases h with h | h
    · exact .inl fun x hx => h x (.tail _ hx)
    · exact .inr fun x hx => h x (.tail _ hx)

/-- Out of the range of any list, monotone or not, a ValueError is raised. -/
theorem C53_raises {l : List Rat} {v : Rat} (h : (∀ x ∈ l, x < v) ∨ ∀ x ∈ l, v < x) :
    istep l v false = .error .valueError := by
  unfold istep
  rw [istepLoop_out h]
  rfl

/-- With extrapolation, it is the index of the closest end. -/
theorem C53_extrapolates {l : List Rat} {v a z : Rat} (h : (∀ x ∈ l, x < v) ∨ ∀ x ∈ l, v < x) (ha : l.head? = some a)
    (hz : l.getLast? = some z) : ∃ i, istep l v true = .ok i ∧
      ((interpolate l i = .ok a ∧ |a - v| ≤ |z - v|) ∨ (interpolate l i = .ok z ∧ |z - v| ≤ |a - v|)) := by
  have hne : l ≠ [] := by rintro rfl; simp at ha
  have hpos : 0 < l.length := List.length_pos_iff.2 hne
  have e1 : Py.get l 0 = .ok a := by
    have := Py.get_nat l 0
    simp only [Nat.cast_zero] at this
    rw [this, ← List.head?_eq_getElem?, ha]
  have e2 : Py.get l (-1) = .ok z := by
    rw [Py.get_ok]
    refine ⟨l.length - 1, ?_, ?_⟩
    · unfold Py.idx
      rw [if_neg (by omega), if_pos (by omega)]
      congr 1
      omega
    · rw [← List.getLast?_eq_getElem?, hz]
  have i0 : interpolate l 0 = .ok a := by
    unfold interpolate
    have : (1 : Rat) ≤ (l.length : Rat) := by exact_mod_cast hpos
    rw [if_neg (by rintro (h | h) <;> linarith)]
    simp only [Int.floor_zero, Int.cast_zero, if_true]
    exact e1
  have i1 : interpolate l ((l.length : Rat) - 1) = .ok z := by
    unfold interpolate
    have h1 : (1 : Rat) ≤ (l.length : Rat) := by exact_mod_cast hpos
    rw [if_neg (by rintro (h | h) <;> linarith)]
    have hc : ((l.length : Rat) - 1) = (((l.length - 1 : Nat) : Int) : Rat) := by
      rw [Int.cast_natCast, Nat.cast_sub hpos]
      simp
    rw [hc, Int.floor_intCast]
    simp only [if_true]
    rw [Py.get_nat, ← List.getLast?_eq_getElem?, hz]
  unfold istep
  rw [istepLoop_out h]
  simp only [bind, Except.bind, e1, e2, if_true]
  by_cases hc : |a - v| < |z - v|
  · rw [if_pos hc]
    exact ⟨0, rfl, .inl ⟨i0, hc.le⟩⟩
  · rw [if_neg hc]
    exact ⟨_, rfl, .inr ⟨i1, not_lt.1 hc⟩⟩

/-- An index is interpolated if it is within the list, and refused with a ValueError otherwise. -/
theorem C53_outside (l : List Rat) (i : Rat) :
    (i < 0 ∨ (l.length : Rat) - 1 < i → interpolate l i = .error .valueError) ∧
    (0 ≤ i → i ≤ (l.length : Rat) - 1 → ∃ x, interpolate l i = .ok x) := by
  constructor
  · intro h
    unfold interpolate
    rw [if_pos h]
  · intro h0 h1
    unfold interpolate
    rw [if_neg (by push Not; exact ⟨h0, h1⟩)]
    have hf0 : 0 ≤ ⌊i⌋ := Int.floor_nonneg.2 h0
    have hfl := Int.floor_le i
    obtain ⟨n, hn⟩ := Int.eq_ofNat_of_zero_le hf0
    have hget : ∀ m : Nat, m < l.length → ∃ x, Py.get l (m : Int) = .ok x := by
      intro m hm
      refine ⟨l[m], Py.get_ok.2 ⟨m, ?_, by simp [hm]⟩⟩
      unfold Py.idx
      simp [hm]
    have hnl : n < l.length := by
      have : ((n : Int) : Rat) ≤ (l.length : Rat) - 1 := by rw [← hn]; exact hfl.trans h1
      have : (n : Rat) + 1 ≤ l.length := by push_cast at this; linarith
      exact_mod_cast this
    simp only [hn]
    split
    · exact hget n hnl
    · rename_i hne
      have hlt : ((n : Int) : Rat) < i := by
        rw [← hn] at hne ⊢
        exact lt_of_le_of_ne hfl hne
      have hnl' : n + 1 < l.length := by
        have : (n : Rat) + 1 < l.length := by push_cast at hlt; linarith
        exact_mod_cast this
      obtain ⟨x, hx⟩ := hget n hnl
      obtain ⟨y, hy⟩ := hget (n + 1) hnl'
      push_cast at hy
      simp only [hx, hy, bind, Except.bind]
      exact ⟨_, rfl⟩

example : interpolate [2, 5] (3/2) = .error .valueError ∧ interpolate [2, 5] (1/3) = .ok 3 := by
  constructor <;> decide +kernel

/-- On a decreasing list, the index gives the value mirrored in its segment. -/
theorem C53_decreasing_violated : istep [2, 0] (1/2) false = .ok (1/4) ∧ interpolate [2, 0] (1/4) = .ok (3/2) := by
  constructor <;> decide +kernel

/-- A ZeroDivisionError is raised for a value equal to the first two elements. -/
theorem C53_duplicate_violated (v : Rat) (l : List Rat) (e : Bool) : istep (v :: v :: l) v e = .error .zeroDivision := by
  simp [istep, istepLoop, div, bind, Except.bind]

example : istep [0, 1, 1, 4] 1 false = .ok 1 ∧ istep [0, 1, 1, 4] 2 false = .ok (7/3) := by constructor <;> decide +kernel

/-! ### C54: factorisations -/

theorem mem_factors {n x : Nat} (hn : n ≠ 0) : x ∈ factors n ↔ x ∣ n := by
  unfold factors
  simp only [List.mem_dedup, List.mem_flatMap, List.mem_filter, List.mem_range'_1, decide_eq_true_eq, List.mem_cons,
    List.not_mem_nil, or_false]
  constructor
  · rintro ⟨i, ⟨-, hi⟩, rfl | rfl⟩
    · exact Nat.dvd_of_mod_eq_zero hi
    · exact Nat.div_dvd_of_dvd (Nat.dvd_of_mod_eq_zero hi)
  · intro h
    have hx : 0 < x := Nat.pos_of_dvd_of_pos h (Nat.pos_of_ne_zero hn)
    obtain ⟨y, rfl⟩ := h
    have hy : 0 < y := Nat.pos_of_ne_zero fun hc => hn (by simp [hc])
    rcases Nat.le_total x y with hxy | hxy
    · refine ⟨x, ⟨⟨hx, ?_⟩, by simp⟩, .inl rfl⟩
      have : x ≤ Nat.sqrt (x * y) := Nat.le_sqrt.2 (Nat.mul_le_mul_left x hxy)
      omega
    · refine ⟨y, ⟨⟨hy, ?_⟩, by simp⟩, .inr (by rw [Nat.mul_div_cancel _ hy])⟩
      have : y ≤ Nat.sqrt (x * y) := Nat.le_sqrt.2 (Nat.mul_le_mul_right y hxy)
      omega

theorem nodup_factors (n : Nat) : (factors n).Nodup := List.nodup_dedup _

/-- `number2factor` lists, once each, all the pairs of product `n`, for every positive integer. -/
theorem C54_pairs (n : Nat) (hn : n ≠ 0) : ∃ l, number2factor n = .ok l ∧ l.Nodup ∧ ∀ a b, (a, b) ∈ l ↔ a * b = n := by
  refine ⟨((factors n).filter fun x => n % x = 0).map fun x => (x, n / x), ?_, ?_, ?_⟩
  · unfold number2factor
    rw [if_neg (by omega)]
    simp [hn]
  · refine List.Nodup.map (fun a b h => by simpa using (Prod.mk.inj h).1) ((nodup_factors n).filter _)
  · intro a b
    simp only [List.mem_map, List.mem_filter, mem_factors hn, decide_eq_true_eq, Prod.mk.injEq]
    constructor
    · rintro ⟨x, ⟨hx, -⟩, rfl, rfl⟩
      exact Nat.mul_div_cancel' hx
    · rintro rfl
      have ha : 0 < a := Nat.pos_of_ne_zero fun hc => hn (by simp [hc])
      exact ⟨a, ⟨⟨b, rfl⟩, by simp⟩, rfl, Nat.mul_div_cancel_left b ha⟩

theorem mem_triples {n : Nat} (hn : n ≠ 0) (a b c : Nat) : (a, b, c) ∈ triples n (factors n) ↔ a * b * c = n := by
  unfold triples
  simp only [List.mem_flatMap, List.mem_map, List.mem_filter, mem_factors hn, decide_eq_true_eq, Prod.mk.injEq]
  constructor
  · rintro ⟨x, hx, y, ⟨hy, hm⟩, rfl, rfl, rfl⟩
    exact Nat.mul_div_cancel' (Nat.dvd_of_mod_eq_zero hm)
  · rintro rfl
    have hab : 0 < a * b := Nat.pos_of_ne_zero fun hc => hn (by simp [hc])
    refine ⟨a, ⟨b * c, by ring⟩, b, ⟨⟨a * c, by ring⟩, by simp⟩, rfl, rfl, Nat.mul_div_cancel_left c hab⟩

theorem nodup_triples (n : Nat) : (triples n (factors n)).Nodup := by
  unfold triples
  rw [List.nodup_flatMap]
  refine ⟨fun x _ => List.Nodup.map (fun a b h => by simp only [Prod.mk.injEq] at h; exact h.2.1) ((nodup_factors n).filter _), ?_⟩
  refine (nodup_factors n).imp ?_
  intro a b hab t ht hu
  obtain ⟨y, -, rfl⟩ := List.mem_map.1 ht
  obtain ⟨z, -, hz⟩ := List.mem_map.1 hu
  simp only [Prod.mk.injEq] at hz
  exact hab hz.1.symm

/-- `number3factor` lists, once each, all the triples of product `n`. -/
theorem C54_triples (n : Nat) (hn : n ≠ 0) : ∃ l, number3factor n true = .ok l ∧ l.Nodup ∧
    ∀ a b c, (a, b, c) ∈ l ↔ a * b * c = n := by
  refine ⟨triples n (factors n), ?_, nodup_triples n, mem_triples hn⟩
  unfold number3factor
  rw [if_neg (by omega)]
  simp [hn]

/-- Spec: two triples have the same elements, with their multiplicities. -/
def SameElements (g h : Nat × Nat × Nat) : Prop := [g.1, g.2.1, g.2.2].Perm [h.1, h.2.1, h.2.2]

set_option maxHeartbeats 1000000 in
theorem sameSet_iff {n : Nat} (hn : n ≠ 0) {g h : Nat × Nat × Nat} (hg : g.1 * g.2.1 * g.2.2 = n)
    (hh : h.1 * h.2.1 * h.2.2 = n) : sameSet g h = true ↔ SameElements g h := by
  obtain ⟨a, b, c⟩ := g
  obtain ⟨x, y, z⟩ := h
  simp only at hg hh
  unfold SameElements
  constructor
  · intro hs
    simp only [sameSet, List.all_cons, List.all_nil, Bool.and_true, Bool.and_eq_true, List.contains_iff_mem, List.mem_cons,
      List.not_mem_nil, or_false] at hs
    obtain ⟨⟨h1, h2, h3⟩, h4, h5, h6⟩ := hs
    have ha : 0 < a := Nat.pos_of_ne_zero fun hc => hn (by simp [← hg, hc])
    have hb : 0 < b := Nat.pos_of_ne_zero fun hc => hn (by simp [← hg, hc])
    have hc : 0 < c := Nat.pos_of_ne_zero fun hc => hn (by simp [← hg, hc])
    have eq := hg.trans hh.symm
    have hx : 0 < x := Nat.pos_of_ne_zero fun hc => hn (by simp [← hh, hc])
    have hy : 0 < y := Nat.pos_of_ne_zero fun hc => hn (by simp [← hh, hc])
    have hz : 0 < z := Nat.pos_of_ne_zero fun hc => hn (by simp [← hh, hc])
    have key : ∀ d s m : Nat, 0 < d → 0 < s → d * d * s = d * s * m → d = m := by
      intro d s m hd hs h
      have h' : d * s * d = d * s * m := by linarith
      exact Nat.eq_of_mul_eq_mul_left (Nat.mul_pos hd hs) h'
    clear hg hh
    have hcases : (a = x ∧ b = y ∧ c = z) ∨ (a = x ∧ b = z ∧ c = y) ∨ (a = y ∧ b = x ∧ c = z) ∨
        (a = y ∧ b = z ∧ c = x) ∨ (a = z ∧ b = x ∧ c = y) ∨ (a = z ∧ b = y ∧ c = x) := by
      rcases h1 with h1 | h1 | h1 <;> rcases h2 with h2 | h2 | h2 <;> rcases h3 with h3 | h3 | h3 <;>
        rw [h1, h2, h3] at eq <;> first
        | omega
        | (have := key x y z hx hy (by simpa only [Nat.mul_comm, Nat.mul_left_comm, Nat.mul_assoc] using eq); omega)
        | (have := key x z y hx hz (by simpa only [Nat.mul_comm, Nat.mul_left_comm, Nat.mul_assoc] using eq); omega)
        | (have := key y x z hy hx (by simpa only [Nat.mul_comm, Nat.mul_left_comm, Nat.mul_assoc] using eq); omega)
        | (have := key y z x hy hz (by simpa only [Nat.mul_comm, Nat.mul_left_comm, Nat.mul_assoc] using eq); omega)
        | (have := key z x y hz hx (by simpa only [Nat.mul_comm, Nat.mul_left_comm, Nat.mul_assoc] using eq); omega)
        | (have := key z y x hz hy (by simpa only [Nat.mul_comm, Nat.mul_left_comm, Nat.mul_assoc] using eq); omega)
    rw [List.perm_iff_count]
    intro w
    rcases hcases with ⟨rfl, rfl, rfl⟩ | ⟨rfl, rfl, rfl⟩ | ⟨rfl, rfl, rfl⟩ | ⟨rfl, rfl, rfl⟩ | ⟨rfl, rfl, rfl⟩ | ⟨rfl, rfl, rfl⟩ <;>
      simp only [List.count_cons, List.count_nil] <;> omega
  · intro hp
    simp only [sameSet, Bool.and_eq_true, List.all_eq_true, List.contains_iff_mem]
    exact ⟨fun w hw => hp.subset hw, fun w hw => hp.symm.subset hw⟩

theorem incompleteLoop_spec {n : Nat} (hn : n ≠ 0) : ∀ (gs grids : List (Nat × Nat × Nat)),
    (∀ g ∈ grids ++ gs, g.1 * g.2.1 * g.2.2 = n) → grids.Pairwise (fun g h => ¬ SameElements g h) →
    (incompleteLoop grids gs).Pairwise (fun g h => ¬ SameElements g h) ∧
    (∀ g ∈ incompleteLoop grids gs, g ∈ grids ++ gs) ∧
    ∀ g ∈ grids ++ gs, ∃ h ∈ incompleteLoop grids gs, SameElements h g
  | [], grids, hm, hp => ⟨hp, by simp [incompleteLoop], fun g hg => ⟨g, by simpa [incompleteLoop] using hg, .refl _⟩⟩
  | g :: gs, grids, hm, hp => by
    have hg : g.1 * g.2.1 * g.2.2 = n := hm g (by simp)
    have hsame : ∀ h ∈ grids, (sameSet h g = true ↔ SameElements h g) := fun h hh =>
      sameSet_iff hn (hm h (by simp [hh])) hg
    unfold incompleteLoop
    split
    · rename_i hc
      obtain ⟨h, hh, hs⟩ := List.any_eq_true.1 hc
      obtain ⟨a1, a2, a3⟩ := incompleteLoop_spec hn gs grids (fun q hq => hm q (by
        rcases List.mem_append.1 hq with hq | hq <;> simp [hq])) hp
      refine ⟨a1, fun q hq => ?_, fun q hq => ?_⟩
      · rcases List.mem_append.1 (a2 q hq) with hq | hq <;> simp [hq]
      · rcases List.mem_append.1 hq with hq | hq
        · exact a3 q (by simp [hq])
        · rcases List.mem_cons.1 hq with rfl | hq
          · obtain ⟨r, hr, hr2⟩ := a3 h (by simp [hh])
            exact ⟨r, hr, hr2.trans ((hsame h hh).1 hs)⟩
          · exact a3 q (by simp [hq])
    · rename_i hc
      have hc' : ∀ h ∈ grids, ¬ SameElements h g := by
        intro h hh hs
        exact hc (List.any_eq_true.2 ⟨h, hh, (hsame h hh).2 hs⟩)
      obtain ⟨a1, a2, a3⟩ := incompleteLoop_spec hn gs (grids ++ [g]) (fun q hq => hm q (by simpa using hq))
        (List.pairwise_append.2 ⟨hp, by simp, fun h hh q hq => by
          rw [List.mem_singleton] at hq; subst hq; exact hc' h hh⟩)
      exact ⟨a1, fun q hq => by simpa using a2 q hq, fun q hq => a3 q (by simpa using hq)⟩

/-- Without the complete enumeration, `number3factor` lists one triple of product `n` for each choice of three elements
with their multiplicities: none is missing and no two have the same elements. -/
theorem C54_incomplete (n : Nat) (hn : n ≠ 0) : ∃ l, number3factor n false = .ok l ∧
    (∀ g ∈ l, g.1 * g.2.1 * g.2.2 = n) ∧ (∀ a b c, a * b * c = n → ∃ g ∈ l, SameElements g (a, b, c)) ∧
    l.Pairwise fun g h => ¬ SameElements g h := by
  have hm : ∀ g ∈ triples n (factors n), g.1 * g.2.1 * g.2.2 = n := fun g hg => (mem_triples hn g.1 g.2.1 g.2.2).1 hg
  obtain ⟨a1, a2, a3⟩ := incompleteLoop_spec hn (triples n (factors n)) [] (by simpa using hm) .nil
  refine ⟨incompleteLoop [] (triples n (factors n)), ?_, fun g hg => hm g (by simpa using a2 g hg), ?_, a1⟩
  · unfold number3factor
    rw [if_neg (by omega)]
    simp [hn]
  · intro a b c h
    exact a3 (a, b, c) (by simpa using (mem_triples hn a b c).2 h)

/-- Zero has no factorisation and a negative number raises. -/
theorem C54_other (b : Bool) : number2factor 0 = .ok [] ∧ number3factor 0 b = .ok [] ∧
    ∀ n < 0, number2factor n = .error .typeError ∧ number3factor n b = .error .typeError := by
  refine ⟨rfl, rfl, fun n hn => ?_⟩
  simp [number2factor, number3factor, hn]

example : ∃ l, number3factor 12 false = .ok l ∧ l.length = 4 := ⟨_, rfl, by decide +kernel⟩

/-! ### C61 and C83: optimization -/

theorem foldl_set_lookup {β γ : Type} (key : γ → String) (val : γ → β) : ∀ (l : List γ) (d : List (String × β)) (q : String),
    (q ∉ l.map key → (l.foldl (fun d x => Dict.set d (key x) (val x)) d).lookup q = d.lookup q) ∧
    ((l.map key).Nodup → ∀ x ∈ l, key x = q → (l.foldl (fun d x => Dict.set d (key x) (val x)) d).lookup q = some (val x))
  | [], d, q => by simp
  | x :: l, d, q => by
    obtain ⟨h1, h2⟩ := foldl_set_lookup key val l (Dict.set d (key x) (val x)) q
    constructor
    · intro hq
      simp only [List.map_cons, List.mem_cons, not_or] at hq
      rw [List.foldl_cons, h1 hq.2, Dict.lookup_set, if_neg hq.1]
    · intro hn y hy hk
      rw [List.map_cons, List.nodup_cons] at hn
      rcases List.mem_cons.1 hy with rfl | hy
      · rw [List.foldl_cons, h1 (hk ▸ hn.1), Dict.lookup_set, if_pos hk.symm]
      · exact h2 hn.2 y hy hk

theorem foldl_set_keys {β γ : Type} (key : γ → String) (val : γ → β) : ∀ (l : List γ) (d : List (String × β)) (q : String),
    q ∈ (l.foldl (fun d x => Dict.set d (key x) (val x)) d).map (·.1) ↔ q ∈ d.map (·.1) ∨ q ∈ l.map key
  | [], d, q => by simp
  | x :: l, d, q => by
    rw [List.foldl_cons, foldl_set_keys key val l, Dict.mem_keys_set, List.map_cons, List.mem_cons]
    tauto

/-- Every bounded attribute gets the component of the vector at its place. -/
theorem C61_bounded (fixed : List (String × Rat)) {bounds : List Bound} {x : List Rat} (hl : bounds.length = x.length)
    (hn : (bounds.map (·.name)).Nodup) {i : Nat} {b : Bound} {v : Rat} (hb : bounds[i]? = some b) (hx : x[i]? = some v) :
    (attributesValues fixed bounds x).lookup b.name = some v := by
  have hm : (b, v) ∈ bounds.zip x := by
    rw [List.mem_iff_getElem?]
    exact ⟨i, by rw [List.getElem?_zip_eq_some]; exact ⟨hb, hx⟩⟩
  have hk : (bounds.zip x).map (fun bx => bx.1.name) = bounds.map (·.name) := by
    have : (bounds.zip x).map (fun bx => bx.1.name) = ((bounds.zip x).map Prod.fst).map (·.name) := by
      rw [List.map_map]; rfl
    rw [this, List.map_fst_zip (by omega)]
  exact (foldl_set_lookup (fun bx : Bound × Rat => bx.1.name) (·.2) (bounds.zip x) _ b.name).2 (by rw [hk]; exact hn)
    (b, v) hm rfl

/-- Every fixed attribute gets its value, if no bound has its name. -/
theorem C61_fixed {fixed : List (String × Rat)} {bounds : List Bound} (x : List Rat) (hn : (fixed.map (·.1)).Nodup)
    {fp : String × Rat} (hf : fp ∈ fixed) (hb : ∀ b ∈ bounds, b.name ≠ fp.1) :
    (attributesValues fixed bounds x).lookup fp.1 = some fp.2 := by
  unfold attributesValues
  have h1 := (foldl_set_lookup (fun bx : Bound × Rat => bx.1.name) (·.2) (bounds.zip x)
    (fixed.foldl (fun d fp => Dict.set d fp.1 fp.2) []) fp.1).1 ?_
  · dsimp only
    rw [h1]
    exact (foldl_set_lookup (·.1) (·.2) fixed [] fp.1).2 hn fp hf rfl
  · intro hc
    obtain ⟨bx, hbx, he⟩ := List.mem_map.1 hc
    exact hb bx.1 (List.of_mem_zip hbx).1 he

/-- No other attribute is given. -/
theorem C61_only {fixed : List (String × Rat)} {bounds : List Bound} {x : List Rat} (hl : bounds.length = x.length)
    (q : String) : q ∈ (attributesValues fixed bounds x).map (·.1) ↔ q ∈ fixed.map (·.1) ∨ q ∈ bounds.map (·.name) := by
  have hk : (bounds.zip x).map (fun bx => bx.1.name) = bounds.map (·.name) := by
    have : (bounds.zip x).map (fun bx => bx.1.name) = ((bounds.zip x).map Prod.fst).map (·.name) := by
      rw [List.map_map]; rfl
    rw [this, List.map_fst_zip (by omega)]
  unfold attributesValues
  have h1 := foldl_set_keys (fun bx : Bound × Rat => bx.1.name) (·.2) (bounds.zip x)
    (fixed.foldl (fun d fp => Dict.set d fp.1 fp.2) []) q
  have h2 := foldl_set_keys (fun fp : String × Rat => fp.1) (·.2) fixed [] q
  dsimp only
  rw [h1, h2, hk]
  simp

/-- Each component of a dimensionless vector is converted with its own bound, and this can be reverted. -/
theorem C61_vector {bounds : List Bound} {dl : List Rat} (hl : bounds.length = dl.length) :
    (toVector bounds dl).length = bounds.length ∧ ∀ (i : Nat) (b : Bound) (x : Rat), bounds[i]? = some b → dl[i]? = some x →
      ∃ v, (toVector bounds dl)[i]? = some v ∧ v = b.toValue x ∧ (b.lo ≠ b.hi → b.dimensionless v = .ok x) := by
  constructor
  · simp [toVector, hl]
  · intro i b x hb hx
    refine ⟨b.toValue x, by simp [toVector, List.getElem?_zipWith, hb, hx], rfl, fun h => (C52_bounded b h).2.1 x⟩

/-- The combined optimization returns the best of both results, with its cost. -/
theorem C61_best {fixed : List (String × Rat)} {bounds : List Bound} {cma : Found} {gradient : List Rat → Found}
    {x0 : List Rat} {model : List (String × Rat)} {fx : Rat}
    (h : cmaThenGradient fixed bounds cma gradient = .ok (x0, model, fx)) :
    fx ≤ cma.2 ∧ fx ≤ (gradient x0).2 ∧
    ((fx = cma.2 ∧ model = attributesValues fixed bounds (toVector bounds cma.1)) ∨
      (fx = (gradient x0).2 ∧ model = attributesValues fixed bounds (toVector bounds (gradient x0).1))) := by
  unfold cmaThenGradient at h
  simp only [bind, Except.bind] at h
  split at h
  · simp at h
  · split at h <;> rename_i hc <;> simp only [Except.ok.injEq, Prod.mk.injEq] at h <;> obtain ⟨rfl, rfl, rfl⟩ := h
    · exact ⟨le_refl _, hc, .inl ⟨rfl, rfl⟩⟩
    · exact ⟨(not_le.1 hc).le, le_refl _, .inr ⟨rfl, rfl⟩⟩

theorem cmaThenGradient_x0 (fixed : List (String × Rat)) {bounds : List Bound} {cma : Found} (gradient : List Rat → Found)
    (hl : bounds.length = cma.1.length) (hn : (bounds.map (·.name)).Nodup) : ∃ model fx,
    cmaThenGradient fixed bounds cma gradient = .ok (toVector bounds cma.1, model, fx) := by
  have hv := (C61_vector hl).1
  have hx : bounds.mapM (getAttr (attributesValues fixed bounds (toVector bounds cma.1))) = .ok (toVector bounds cma.1) := by
    rw [Py.mapM_ok, List.forall₂_iff_get]
    refine ⟨hv.symm, fun i h1 h2 => ?_⟩
    have := C61_bounded fixed hv.symm hn (i := i) (b := bounds[i]) (v := (toVector bounds cma.1)[i])
      (List.getElem?_eq_getElem h1) (List.getElem?_eq_getElem h2)
    simp [getAttr, this]
  unfold cmaThenGradient
  dsimp only
  rw [hx]
  simp only [bind, Except.bind]
  split
  · exact ⟨_, _, rfl⟩
  · exact ⟨_, _, rfl⟩

/-- The gradient search is started from the point found by the CMA if every bound is the interval [0, 1]. Missing for the
full property: all other bounds (`C83_violated`, `C83_iff`). -/
theorem C83_partial (fixed : List (String × Rat)) {bounds : List Bound} {cma : Found} (gradient : List Rat → Found)
    (hl : bounds.length = cma.1.length) (hn : (bounds.map (·.name)).Nodup) (h01 : ∀ b ∈ bounds, b.lo = 0 ∧ b.hi = 1) :
    ∃ model fx, cmaThenGradient fixed bounds cma gradient = .ok (cma.1, model, fx) := by
  obtain ⟨model, fx, h⟩ := cmaThenGradient_x0 fixed gradient hl hn
  have : toVector bounds cma.1 = cma.1 := by
    refine List.ext_getElem (by rw [(C61_vector hl).1, hl]) fun i h1 h2 => ?_
    have hb := h01 (bounds[i]'(by omega)) (List.getElem_mem _)
    simp [toVector, Bound.toValue, hb.1, hb.2]
  rw [this] at h
  exact ⟨model, fx, h⟩

/-- It is started from the point found by the CMA only if each component of this point is its own dimensioned value. -/
theorem C83_iff (fixed : List (String × Rat)) {bounds : List Bound} {cma : Found} (gradient : List Rat → Found)
    (hl : bounds.length = cma.1.length) (hn : (bounds.map (·.name)).Nodup) :
    (∃ model fx, cmaThenGradient fixed bounds cma gradient = .ok (cma.1, model, fx)) ↔
    ∀ (i : Nat) (b : Bound) (x : Rat), bounds[i]? = some b → cma.1[i]? = some x → b.toValue x = x := by
  obtain ⟨model, fx, h⟩ := cmaThenGradient_x0 fixed gradient hl hn
  constructor
  · rintro ⟨m, f, h'⟩ i b x hb hx
    rw [h] at h'
    simp only [Except.ok.injEq, Prod.mk.injEq] at h'
    obtain ⟨v, hv1, hv2, -⟩ := (C61_vector hl).2 i b x hb hx
    rw [h'.1, hx, Option.some.injEq] at hv1
    rw [← hv2, hv1]
  · intro hi
    have : toVector bounds cma.1 = cma.1 := by
      refine List.ext_getElem (by rw [(C61_vector hl).1, hl]) fun i h1 h2 => ?_
      have := hi i (bounds[i]'(by omega)) cma.1[i] (List.getElem?_eq_getElem _) (List.getElem?_eq_getElem h2)
      simpa [toVector] using this
    rw [this] at h
    exact ⟨model, fx, h⟩

/-- A length between 10 and 20: the CMA finds the middle, 0.5, and the gradient search is started from 15, out of the
bounds (0, 1) given to it. -/
theorem C83_violated (gradient : List Rat → Found) : ∃ model fx,
    cmaThenGradient [] [⟨"length", 10, 20⟩] ([1/2], 3) gradient = .ok ([15], model, fx) := by
  obtain ⟨model, fx, h⟩ := cmaThenGradient_x0 [] (bounds := [⟨"length", 10, 20⟩]) (cma := ([1/2], 3)) gradient rfl (by simp)
  refine ⟨model, fx, ?_⟩
  rw [h]
  have : toVector [⟨"length", 10, 20⟩] [1/2] = [15] := by
    simp [toVector, Bound.toValue]; norm_num
  rw [this]

/-- Hypotheses met: a fixed attribute and two bounded ones. -/
example : attributesValues [("mass", 3)] [⟨"length", 10, 20⟩, ⟨"width", 0, 4⟩] (toVector [⟨"length", 10, 20⟩, ⟨"width", 0, 4⟩] [1/2, 1/4]) =
    [("mass", 3), ("length", 15), ("width", 1)] := by decide +kernel

end DC.Num
