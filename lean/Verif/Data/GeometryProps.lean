import Verif.Data.MetricsProps
import Verif.Data.StatLawsProps
/-
C196: distances do not depend on the origin nor on the order of the coordinates and follow the unit; how the norms compare; the covariance
follows the units and the sums.
-/
namespace DC.Data

set_option linter.unusedSectionVars false

variable {F : Type} [Field F] [LinearOrder F] [IsStrictOrderedRing F]

/-! ### Specification -/

/-- A point moved by a vector. -/
def shiftBy (c a : List F) : List F := List.zipWith (· + ·) a c

/-- A point in another unit. -/
def inUnit (k : F) (a : List F) : List F := a.map (k * ·)

/-- Two points given by the pairs of their coordinates. -/
def firsts (l : List (F × F)) : List F := l.map Prod.fst
def seconds (l : List (F × F)) : List F := l.map Prod.snd

/-- A distance does not depend on the origin nor on the order of the coordinates, and follows the unit. -/
structure IsGeometric (dist : List F → List F → F) : Prop where
  shift : ∀ a b c, a.length = c.length → b.length = c.length → dist (shiftBy c a) (shiftBy c b) = dist a b
  scale : ∀ k a b, a.length = b.length → dist (inUnit k a) (inUnit k b) = |k| * dist a b
  reorder : ∀ l m : List (F × F), l.Perm m → dist (firsts l) (seconds l) = dist (firsts m) (seconds m)

/-! ### Lemmas -/

theorem diff_shift : ∀ (a b c : List F), a.length = c.length → b.length = c.length → diffList (shiftBy c a) (shiftBy c b) = diffList a b
  | [], [], _, _, _ => by simp [shiftBy, diffList]
  | [], _ :: _, _, h1, h2 => by rw [← h1] at h2; simp at h2
  | _ :: _, [], _, h1, h2 => by rw [← h2] at h1; simp at h1
  | _ :: _, _ :: _, [], h1, _ => by simp at h1
  | x :: a, y :: b, z :: c, h1, h2 => by
    have ih := diff_shift a b c (by simpa using h1) (by simpa using h2)
    have e : diffList (shiftBy (z :: c) (x :: a)) (shiftBy (z :: c) (y :: b)) =
      ((x + z) - (y + z)) :: diffList (shiftBy c a) (shiftBy c b) := rfl
    rw [e, ih, add_sub_add_right_eq_sub]
    rfl

theorem diff_scale (k : F) : ∀ (a b : List F), diffList (inUnit k a) (inUnit k b) = (diffList a b).map (k * ·)
  | [], _ => by simp [diffList, inUnit]
  | _ :: _, [] => by simp [diffList, inUnit]
  | x :: a, y :: b => by
    have ih := diff_scale k a b
    have e : diffList (inUnit k (x :: a)) (inUnit k (y :: b)) = (k * x - k * y) :: diffList (inUnit k a) (inUnit k b) := rfl
    rw [e, ih, ← mul_sub]
    rfl

theorem diff_pairs (l : List (F × F)) : diffList (firsts l) (seconds l) = l.map fun q => q.1 - q.2 := by
  unfold diffList firsts seconds
  induction l with
  | nil => rfl
  | cons q l ih => simp [ih]

theorem geometric_of_norm {norm : List F → F} (h : ∀ n, IsNorm n norm) (hp : ∀ v w : List F, v.Perm w → norm v = norm w) :
    IsGeometric fun a b => norm (diffList a b) where
  shift a b c h1 h2 := by simp only [diff_shift a b c h1 h2]
  scale k a b _ := by simp only [diff_scale]; exact (h _).smul k _ rfl
  reorder l m hlm := by simp only [diff_pairs]; exact hp _ _ (hlm.map _)

theorem l1_perm {v w : List F} (h : v.Perm w) : l1Norm v = l1Norm w := (h.map _).sum_eq
theorem sumSq_perm {v w : List F} (h : v.Perm w) : sumSq v = sumSq w := (h.map _).sum_eq
theorem lp_perm (p : ℝ) {v w : List ℝ} (h : v.Perm w) : lpNorm p v = lpNorm p w := by
  unfold lpNorm
  rw [(h.map _).sum_eq, (h.filter _).length_eq]

theorem minkowski_eq (p : ℝ) {a b : List ℝ} (h : a.length = b.length) : minkowski p a b = .ok (lpNorm p (diffList a b)) := by
  unfold minkowski arrayDiff
  rw [if_pos h]
  rfl

/-! ### The theorems -/

/-- The Manhattan distance does not depend on the origin nor on the order of the coordinates, and follows the unit. -/
theorem C196_manhattan : IsGeometric (manhattan (F := F)) := geometric_of_norm l1_isNorm fun _ _ h => l1_perm h

/-- The Euclidean distance does not depend on the origin nor on the order of the coordinates, and follows the unit. -/
theorem C196_euclidian : IsGeometric euclidian :=
  geometric_of_norm l2_isNorm fun _ _ h => by unfold l2Norm; rw [sumSq_perm h]

/-- So does the Minkowski distance of any order from one on. -/
theorem C196_minkowski {p : ℝ} (hp : 1 ≤ p) : ∃ dist : List ℝ → List ℝ → ℝ, IsGeometric dist ∧
    ∀ a b, a.length = b.length → minkowski p a b = .ok (dist a b) :=
  ⟨_, geometric_of_norm (lp_isNorm hp) fun _ _ h => lp_perm p h, fun _ _ h => minkowski_eq p h⟩

example : manhattan (F := Rat) (shiftBy [5, 5] [1, 2]) (shiftBy [5, 5] [4, 0]) = 5 ∧ manhattan (F := Rat) [1, 2] [4, 0] = 5 ∧
    manhattan (F := Rat) (inUnit (-2) [1, 2]) (inUnit (-2) [4, 0]) = 10 := by decide +kernel
example : manhattan (F := Rat) (firsts [(1, 4), (2, 0)]) (seconds [(1, 4), (2, 0)]) = 5 ∧
    manhattan (F := Rat) (firsts [(2, 0), (1, 4)]) (seconds [(2, 0), (1, 4)]) = 5 := by decide +kernel

theorem abs_le_l2 (v : List ℝ) {x : ℝ} (hx : x ∈ v) : |x| ≤ l2Norm v := by
  unfold l2Norm
  apply Real.le_sqrt_of_sq_le
  rw [sq_abs, sq]
  exact List.single_le_sum (l := v.map fun x => x * x) (by intro y hy; obtain ⟨z, _, rfl⟩ := List.mem_map.mp hy; exact mul_self_nonneg z) _
    (List.mem_map.mpr ⟨x, hx, rfl⟩)

theorem sumSq_le (v : List ℝ) : sumSq v ≤ l1Norm v * l1Norm v := by
  induction v with
  | nil => simp [sumSq, l1Norm]
  | cons x v ih =>
    have h1 : l1Norm (x :: v) = |x| + l1Norm v := rfl
    have h2 := l1_nonneg v
    have h3 := abs_nonneg x
    rw [sumSq_cons, h1, ← abs_mul_abs_self x]
    nlinarith

theorem l1_le_card (m : F) : ∀ v : List F, (∀ x ∈ v, |x| ≤ m) → l1Norm v ≤ v.length * m := by
  intro v h
  have := List.sum_le_card_nsmul (v.map fun x => |x|) m (by intro y hy; obtain ⟨z, hz, rfl⟩ := List.mem_map.mp hy; exact h z hz)
  rw [nsmul_eq_mul, List.length_map] at this
  exact this

/-- The greatest coordinate is at most the Euclidean norm, which is at most the sum of the coordinates, which is at most the greatest one times
their number. -/
theorem C196_compare (v : List ℝ) (m : ℝ) (h : infNorm v = .ok m) : m ≤ l2Norm v ∧ l2Norm v ≤ l1Norm v ∧ l1Norm v ≤ v.length * m := by
  have hne : v ≠ [] := by rintro rfl; cases h
  obtain ⟨m', hm', hin, hle⟩ := (C49_inf v).2 hne
  rw [h] at hm'
  cases hm'
  refine ⟨?_, ?_, l1_le_card m v hle⟩
  · obtain ⟨x, hx, rfl⟩ := hin
    exact abs_le_l2 v hx
  · unfold l2Norm
    rw [Real.sqrt_le_left (l1_nonneg v), sq]
    exact sumSq_le v

example : infNorm ([3, -4] : List ℝ) = .ok |(-4 : ℝ)| := by
  simp [infNorm]; norm_num

theorem lp_sum_nonneg (p : ℝ) (v : List ℝ) : 0 ≤ (v.map fun x => |x| ^ p).sum := by
  apply List.sum_nonneg
  intro x hx
  obtain ⟨y, -, rfl⟩ := List.mem_map.1 hx
  exact Real.rpow_nonneg (abs_nonneg y) p

/-- The greater the order, the smaller the Minkowski distance. -/
theorem C196_orders {p q : ℝ} (hp : 1 ≤ p) (hq : p ≤ q) (a b : List ℝ) (h : a.length = b.length) :
    ∃ dp dq, minkowski p a b = .ok dp ∧ minkowski q a b = .ok dq ∧ dq ≤ dp := by
  refine ⟨_, _, minkowski_eq p h, minkowski_eq q h, ?_⟩
  generalize diffList a b = v
  have hp0 : p ≠ 0 := by linarith
  have hq0 : q ≠ 0 := by linarith
  have hpp : 0 < p := by linarith
  have hqq : 0 < q := by linarith
  rcases eq_or_lt_of_le (lp_nonneg (p := p) v) with h0 | hS
  · have hz := ((lp_isNorm hp v.length).eq_zero v rfl).mp h0.symm
    have := ((lp_isNorm (hp.trans hq) v.length).eq_zero v rfl).mpr hz
    rw [this, ← h0]
  · -- the coordinates divided by the norm of order p are at most one
    set S := lpNorm p v with hSdef
    have hSp : S ^ p = (v.map fun x => |x| ^ p).sum := by
      rw [hSdef, lpNorm, if_neg hp0, ← Real.rpow_mul (lp_sum_nonneg p v), one_div, inv_mul_cancel₀ hp0, Real.rpow_one]
    have hSpos : 0 < S ^ p := Real.rpow_pos_of_pos hS p
    have hone : ∀ x ∈ v, |x| ≤ S := by
      intro x hx
      have h1 : |x| ^ p ≤ S ^ p := by
        rw [hSp]
        exact List.single_le_sum (l := v.map fun x => |x| ^ p)
          (by intro y hy; obtain ⟨z, _, rfl⟩ := List.mem_map.mp hy; exact Real.rpow_nonneg (abs_nonneg z) p) _ (List.mem_map.mpr ⟨x, hx, rfl⟩)
      exact (Real.rpow_le_rpow_iff (abs_nonneg x) hS.le hpp).mp h1
    have hterm : ∀ x ∈ v, |x| ^ q ≤ S ^ (q - p) * |x| ^ p := by
      intro x hx
      rcases eq_or_lt_of_le (abs_nonneg x) with hx0 | hx0
      · rw [← hx0, Real.zero_rpow hq0, Real.zero_rpow hp0, mul_zero]
      · have : |x| ^ q = |x| ^ (q - p) * |x| ^ p := by rw [← Real.rpow_add hx0]; congr 1; ring
        rw [this]
        exact mul_le_mul_of_nonneg_right (Real.rpow_le_rpow hx0.le (hone x hx) (by linarith)) (Real.rpow_nonneg hx0.le p)
    have hsum : (v.map fun x => |x| ^ q).sum ≤ S ^ q := by
      calc (v.map fun x => |x| ^ q).sum ≤ (v.map fun x => S ^ (q - p) * |x| ^ p).sum := List.sum_le_sum hterm
        _ = S ^ (q - p) * (v.map fun x => |x| ^ p).sum := List.sum_map_mul_left ..
        _ = S ^ q := by rw [← hSp, ← Real.rpow_add hS]; congr 1; ring
    calc lpNorm q v = ((v.map fun x => |x| ^ q).sum) ^ (1 / q) := by rw [lpNorm, if_neg hq0]
      _ ≤ (S ^ q) ^ (1 / q) := Real.rpow_le_rpow (lp_sum_nonneg q v) hsum (by positivity)
      _ = S := by rw [← Real.rpow_mul hS.le, mul_one_div_cancel hq0, Real.rpow_one]

example : (1 : ℝ) ≤ 2 ∧ (2 : ℝ) ≤ 3 ∧ ([1, 2] : List ℝ).length = ([4, 0] : List ℝ).length := by norm_num

theorem mean_scale (k : F) (x : List F) : mean (x.map (k * ·)) = k * mean x := by
  unfold mean
  rw [List.length_map, List.sum_map_mul_left, List.map_id', mul_div_assoc]

theorem sum_zip_add (x y : List F) (h : x.length = y.length) : (List.zipWith (· + ·) x y).sum = x.sum + y.sum := by
  induction x generalizing y with
  | nil => cases y <;> simp_all
  | cons a x ih =>
    cases y with
    | nil => simp at h
    | cons b y =>
      simp only [List.zipWith_cons_cons, List.sum_cons]
      rw [ih y (by simpa using h)]
      ring

theorem mean_zip_add (x y : List F) (h : x.length = y.length) : mean (List.zipWith (· + ·) x y) = mean x + mean y := by
  unfold mean
  rw [sum_zip_add x y h, List.length_zipWith, h, Nat.min_self, add_div]

/-- The covariance is proportional to the units of the two quantities. -/
theorem C196_covariance_scale (k l : F) (x y : List F) (c : F) (h : covariance x y = .ok c) :
    covariance (inUnit k x) (inUnit l y) = .ok (k * l * c) := by
  by_cases hl : x.length = y.length
  · by_cases hx : x = []
    · subst hx
      cases y with
      | nil => cases h
      | cons b y => simp at hl
    · rw [covariance_ok hl hx] at h
      cases h
      rw [covariance_ok (by simpa [inUnit] using hl) (by simpa [inUnit] using hx)]
      unfold inUnit
      rw [mean_scale, mean_scale, List.length_map, List.zipWith_map]
      congr 1
      rw [← mul_div_assoc]
      congr 1
      generalize mean x = mx
      generalize mean y = my
      clear hl hx
      induction x generalizing y with
      | nil => simp
      | cons a x ih =>
        cases y with
        | nil => simp
        | cons b y =>
          simp only [List.zipWith_cons_cons, List.sum_cons]
          rw [ih y]
          ring
  · rw [(C50_raises x y).1 hl] at h
    cases h

example : covariance (F := Rat) [1, 3] [2, 6] = .ok 2 := by decide +kernel

/-- The covariance with a sum is the sum of the covariances. -/
theorem C196_covariance_sum (x y z : List F) (c d : F) (h1 : covariance x z = .ok c) (h2 : covariance y z = .ok d) :
    covariance (List.zipWith (· + ·) x y) z = .ok (c + d) := by
  have hx : x.length = z.length := by
    by_contra hl; rw [(C50_raises x z).1 hl] at h1; cases h1
  have hy : y.length = z.length := by
    by_contra hl; rw [(C50_raises y z).1 hl] at h2; cases h2
  have hxn : x ≠ [] := by
    rintro rfl
    cases z with
    | nil => cases h1
    | cons b z => simp at hx
  have hyn : y ≠ [] := by rintro rfl; simp at hy; rw [← hy] at hx; exact hxn (List.length_eq_zero_iff.mp hx)
  have hl : (List.zipWith (· + ·) x y).length = z.length := by simp [hx, hy]
  have hn : List.zipWith (· + ·) x y ≠ [] := by
    intro h; rw [h] at hl
    have : x.length = 0 := by rw [hx, ← hl]; rfl
    exact hxn (List.length_eq_zero_iff.mp this)
  rw [covariance_ok hx hxn] at h1
  rw [covariance_ok hy hyn] at h2
  cases h1
  cases h2
  rw [covariance_ok hl hn, mean_zip_add x y (hx.trans hy.symm)]
  congr 1
  rw [hl, hx, hy, ← add_div]
  congr 1
  generalize mean x = mx
  generalize mean y = my
  generalize mean z = mz
  clear hl hn hxn hyn
  induction x generalizing y z with
  | nil => cases z with
    | nil => cases y <;> simp_all
    | cons b z => simp at hx
  | cons a x ih =>
    cases z with
    | nil => simp at hx
    | cons e z =>
      cases y with
      | nil => simp at hy
      | cons b y =>
        simp only [List.zipWith_cons_cons, List.sum_cons]
        rw [ih y z (by simpa using hx) (by simpa using hy)]
        ring

example : covariance (F := Rat) [1, 3] [2, 6] = .ok 2 ∧ covariance (F := Rat) [4, 0] [2, 6] = .ok (-4) ∧
    covariance (F := Rat) [5, 3] [2, 6] = .ok (-2) := by decide +kernel

/-- The covariance does not depend on the order of the observations. -/
theorem C196_covariance_reorder (l m : List (F × F)) (h : l.Perm m) : covariance (firsts l) (seconds l) = covariance (firsts m) (seconds m) := by
  by_cases hl : l = []
  · subst hl
    rw [h.nil_eq]
  · have hm : m ≠ [] := by rintro rfl; exact hl h.eq_nil
    rw [covariance_ok (by simp [firsts, seconds]) (by simpa [firsts] using hl),
      covariance_ok (by simp [firsts, seconds]) (by simpa [firsts] using hm)]
    have h1 : mean (firsts l) = mean (firsts m) := mean_perm (h.map _)
    have h2 : mean (seconds l) = mean (seconds m) := mean_perm (h.map _)
    have h3 : (firsts l).length = (firsts m).length := (h.map _).length_eq
    rw [h1, h2, h3]
    congr 2
    unfold firsts seconds
    simp only [List.zipWith_map, List.zipWith_self]
    exact (h.map _).sum_eq

example : covariance (F := Rat) (firsts [(1, 2), (3, 6)]) (seconds [(1, 2), (3, 6)]) =
    covariance (firsts [(3, 6), (1, 2)]) (seconds [(3, 6), (1, 2)]) := C196_covariance_reorder _ _ (List.Perm.swap _ _ _)

end DC.Data
