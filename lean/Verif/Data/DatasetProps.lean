import Mathlib.Tactic.Linarith
import Mathlib.Data.List.Nodup
import Verif.Data.Dataset
import Verif.Data.ParetoProps
/-
Specification and properties of datasets (C45, C46, C47, C87, C88).
-/
namespace DC.Data

set_option linter.unusedSectionVars false

variable {ω F : Type}

/-! ### Specification -/

/-- The elements of `l` at the given positions, in this order. -/
def Picks {α : Type} (positions : List Nat) (l r : List α) : Prop := List.Forall₂ (fun i x => l[i]? = some x) positions r

/-- `e` holds the objects of `d` at the given positions, with their matrix rows and their labels. -/
def Selects (d e : Ds ω F) (positions : List Nat) : Prop :=
  Picks positions d.objects e.objects ∧
  (∀ m, d.matrix = some m → ∃ m', e.matrix = some m' ∧ Picks positions m m') ∧
  (∀ l, d.labels = some l → ∃ l', e.labels = some l' ∧ Picks positions l l')

/-- There are as many matrix rows and labels as objects. -/
def Aligned (d : Ds ω F) : Prop :=
  (∀ m, d.matrix = some m → m.length = d.objects.length) ∧ ∀ l, d.labels = some l → l.length = d.objects.length

/-! ### C45: slices -/

theorem picks_filterMap {α : Type} {l : List α} : ∀ {idx : List Nat}, (∀ i ∈ idx, i < l.length) → Picks idx l (idx.filterMap (l[·]?))
  | [], _ => .nil
  | i :: idx, h => by
    have hi := h i (.head _)
    rw [List.filterMap_cons, List.getElem?_eq_getElem hi]
    exact .cons (List.getElem?_eq_getElem hi) (picks_filterMap fun j hj => h j (.tail _ hj))

theorem picks_length {α : Type} {idx : List Nat} {l r : List α} (h : Picks idx l r) : r.length = idx.length := h.length_eq.symm

theorem picks_mem {α : Type} {idx : List Nat} {l r : List α} (h : Picks idx l r) {x : α} (hx : x ∈ r) : x ∈ l := by
  obtain ⟨i, -, hi⟩ := Py.forall2_right h hx
  exact List.mem_of_getElem? hi

theorem clip_pos (n i : Int) (hn : 0 ≤ n) : 0 ≤ clip n 0 n i ∧ clip n 0 n i ≤ n := by
  unfold clip
  split <;> omega

theorem clip_neg (n i : Int) (hn : 0 ≤ n) : -1 ≤ clip n (-1) (n - 1) i ∧ clip n (-1) (n - 1) i ≤ n - 1 := by
  unfold clip
  split <;> omega

/-- What a bound of a slice designates in a list of length `n`: a number counts from the start, or from the end when it is
negative; what is out of the list is brought back to `lo` or `hi`; `dflt` is for a missing bound. -/
inductive Bound (n lo hi dflt : Int) : Option Int → Int → Prop
  | missing : Bound n lo hi dflt none dflt
  | fromStart {i} : 0 ≤ i → i ≤ hi → Bound n lo hi dflt (some i) i
  | fromEnd {i} : i < 0 → lo ≤ n + i → Bound n lo hi dflt (some i) (n + i)
  | after {i} : 0 ≤ i → hi < i → Bound n lo hi dflt (some i) hi
  | before {i} : i < 0 → n + i < lo → Bound n lo hi dflt (some i) lo

theorem bound_clip (n lo hi dflt : Int) (o : Option Int) : Bound n lo hi dflt o ((o.map (clip n lo hi)).getD dflt) := by
  cases o with
  | none => exact .missing
  | some i =>
    simp only [Option.map_some, Option.getD_some, clip]
    by_cases hi0 : i < 0
    · rw [if_pos hi0]
      by_cases h : lo ≤ n + i
      · rw [max_eq_left (by omega), Int.add_comm]; exact .fromEnd hi0 h
      · rw [max_eq_right (by omega)]; exact .before hi0 (by omega)
    · rw [if_neg hi0]
      by_cases h : i ≤ hi
      · rw [min_eq_left h]; exact .fromStart (by omega) h
      · rw [min_eq_right (by omega)]; exact .after (by omega) (by omega)

/-- The first position of a slice and the bound it stops at, according to the sign of the step. -/
def sliceBounds (n : Nat) (start stop step : Option Int) : Int × Int :=
  if 0 < step.getD 1 then ((start.map (clip n 0 n)).getD 0, (stop.map (clip n 0 n)).getD n)
  else ((start.map (clip n (-1) (n - 1))).getD (n - 1), (stop.map (clip n (-1) (n - 1))).getD (-1))

theorem sliceBounds_pos {n : Nat} {start stop step : Option Int} (h : 0 < step.getD 1) :
    0 ≤ (sliceBounds n start stop step).1 ∧ (sliceBounds n start stop step).2 ≤ n := by
  unfold sliceBounds
  rw [if_pos h]
  constructor
  · cases start with
    | none => simp
    | some i => exact (clip_pos n i (by omega)).1
  · cases stop with
    | none => simp
    | some i => exact (clip_pos n i (by omega)).2

theorem sliceBounds_neg {n : Nat} {start stop step : Option Int} (h : ¬ 0 < step.getD 1) :
    (sliceBounds n start stop step).1 ≤ n - 1 ∧ -1 ≤ (sliceBounds n start stop step).2 := by
  unfold sliceBounds
  rw [if_neg h]
  constructor
  · cases start with
    | none => simp
    | some i => exact (clip_neg n i (by omega)).2
  · cases stop with
    | none => simp
    | some i => exact (clip_neg n i (by omega)).1

/-- The positions of a slice are `a`, `a + s`, `a + 2 s`, ... as long as the bound is not reached. -/
theorem sliceIdx_spec {n : Nat} {start stop step : Option Int} (h0 : step.getD 1 ≠ 0) :
    ∃ idx, sliceIdx n start stop step = .ok idx ∧ (∀ i ∈ idx, i < n) ∧
      ∀ (k i : Nat), idx[k]? = some i ↔ ((i : Int) = (sliceBounds n start stop step).1 + k * step.getD 1 ∧
        (0 < step.getD 1 → (i : Int) < (sliceBounds n start stop step).2) ∧
        (step.getD 1 < 0 → (sliceBounds n start stop step).2 < i)) := by
  by_cases hp : 0 < step.getD 1
  · obtain ⟨hb1, hb2⟩ := sliceBounds_pos (n := n) (start := start) (stop := stop) hp
    have he : sliceIdx n start stop step = .ok ((List.range (if (sliceBounds n start stop step).1 < (sliceBounds n start stop step).2
        then (((sliceBounds n start stop step).2 - (sliceBounds n start stop step).1 - 1) / step.getD 1).toNat + 1 else 0)).map
        fun k : Nat => ((sliceBounds n start stop step).1 + k * step.getD 1).toNat) := by
      unfold sliceIdx sliceBounds
      dsimp only
      rw [if_neg h0, if_pos hp, if_pos hp]
    rw [he]
    generalize (sliceBounds n start stop step).1 = a at hb1 ⊢
    generalize (sliceBounds n start stop step).2 = b at hb2 ⊢
    generalize step.getD 1 = s at hp
    have hcount : ∀ k : Nat, k < (if a < b then ((b - a - 1) / s).toNat + 1 else 0) ↔ a + k * s < b := by
      intro k
      have hks : 0 ≤ (k : Int) * s := Int.mul_nonneg (by omega) (by omega)
      split
      · rename_i hab
        have : (k : Int) ≤ (b - a - 1) / s ↔ (k : Int) * s ≤ b - a - 1 := Int.le_ediv_iff_mul_le hp
        have h2 : 0 ≤ (b - a - 1) / s := Int.ediv_nonneg (by omega) (by omega)
        omega
      · omega
    have hspec : ∀ (k i : Nat), ((List.range (if a < b then ((b - a - 1) / s).toNat + 1 else 0)).map fun k : Nat => (a + k * s).toNat)[k]? = some i ↔
        (i : Int) = a + k * s ∧ (i : Int) < b := by
      intro k i
      have hks : 0 ≤ (k : Int) * s := Int.mul_nonneg (by omega) (by omega)
      rw [List.getElem?_map, Option.map_eq_some_iff]
      constructor
      · rintro ⟨k', hk', rfl⟩
        rw [List.getElem?_eq_some_iff] at hk'
        obtain ⟨hlt, hk'⟩ := hk'
        rw [List.getElem_range] at hk'
        subst hk'
        rw [List.length_range] at hlt
        have := (hcount k).1 hlt
        omega
      · rintro ⟨h1, h2⟩
        refine ⟨k, List.getElem?_range ((hcount k).2 (by omega)), by omega⟩
    refine ⟨_, rfl, fun i hi => ?_, fun k i => ?_⟩
    · obtain ⟨k, hk⟩ := List.mem_iff_getElem?.1 hi
      have := (hspec k i).1 hk
      omega
    · rw [hspec]
      constructor
      · rintro ⟨h1, h2⟩; exact ⟨h1, fun _ => h2, fun h => by omega⟩
      · rintro ⟨h1, h2, -⟩; exact ⟨h1, h2 hp⟩
  · obtain ⟨hb1, hb2⟩ := sliceBounds_neg (n := n) (start := start) (stop := stop) hp
    have he : sliceIdx n start stop step = .ok ((List.range (if (sliceBounds n start stop step).2 < (sliceBounds n start stop step).1
        then (((sliceBounds n start stop step).1 - (sliceBounds n start stop step).2 - 1) / (-step.getD 1)).toNat + 1 else 0)).map
        fun k : Nat => ((sliceBounds n start stop step).1 + k * step.getD 1).toNat) := by
      unfold sliceIdx sliceBounds
      dsimp only
      rw [if_neg h0, if_neg hp, if_neg hp]
    rw [he]
    generalize (sliceBounds n start stop step).1 = a at hb1 ⊢
    generalize (sliceBounds n start stop step).2 = b at hb2 ⊢
    generalize step.getD 1 = s at hp h0
    have hs : 0 < -s := by omega
    have hcount : ∀ k : Nat, k < (if b < a then ((a - b - 1) / (-s)).toNat + 1 else 0) ↔ b < a + k * s := by
      intro k
      have hks : 0 ≤ (k : Int) * (-s) := Int.mul_nonneg (by omega) (by omega)
      have hneg : (k : Int) * (-s) = -(k * s) := Int.mul_neg _ _
      split
      · rename_i hab
        have : (k : Int) ≤ (a - b - 1) / (-s) ↔ (k : Int) * (-s) ≤ a - b - 1 := Int.le_ediv_iff_mul_le hs
        have h2 : 0 ≤ (a - b - 1) / (-s) := Int.ediv_nonneg (by omega) (by omega)
        omega
      · omega
    have hspec : ∀ (k i : Nat), ((List.range (if b < a then ((a - b - 1) / (-s)).toNat + 1 else 0)).map fun k : Nat => (a + k * s).toNat)[k]? = some i ↔
        (i : Int) = a + k * s ∧ b < (i : Int) := by
      intro k i
      rw [List.getElem?_map, Option.map_eq_some_iff]
      constructor
      · rintro ⟨k', hk', rfl⟩
        rw [List.getElem?_eq_some_iff] at hk'
        obtain ⟨hlt, hk'⟩ := hk'
        rw [List.getElem_range] at hk'
        subst hk'
        rw [List.length_range] at hlt
        have := (hcount k).1 hlt
        omega
      · rintro ⟨h1, h2⟩
        refine ⟨k, List.getElem?_range ((hcount k).2 (by omega)), by omega⟩
    refine ⟨_, rfl, fun i hi => ?_, fun k i => ?_⟩
    · obtain ⟨k, hk⟩ := List.mem_iff_getElem?.1 hi
      have h1 := (hspec k i).1 hk
      have hks : 0 ≤ (k : Int) * (-s) := Int.mul_nonneg (by omega) (by omega)
      have hneg : (k : Int) * (-s) = -(k * s) := Int.mul_neg _ _
      omega
    · rw [hspec]
      constructor
      · rintro ⟨h1, h2⟩; exact ⟨h1, fun h => absurd h hp, fun _ => h2⟩
      · rintro ⟨h1, -, h2⟩; exact ⟨h1, h2 (by omega)⟩

theorem sliceOf_eq {α : Type} {l : List α} {n : Nat} (hn : l.length = n) {start stop step : Option Int} {idx : List Nat}
    (h : sliceIdx n start stop step = .ok idx) : sliceOf l start stop step = .ok (idx.filterMap (l[·]?)) := by
  subst hn
  simp [sliceOf, h, bind, Except.bind]

theorem slice_picks {d : Ds ω F} (ha : Aligned d) (hne : d.objects ≠ []) {start stop step : Option Int} (h0 : step.getD 1 ≠ 0) :
    ∃ (e : Ds ω F) (idx : List Nat), d.getitem (.slice start stop step) = .ok (.ds e) ∧ Selects d e idx ∧ e.common = d.common ∧
      ∀ (k i : Nat), idx[k]? = some i ↔ ((i : Int) = (sliceBounds d.objects.length start stop step).1 + k * step.getD 1 ∧
        (0 < step.getD 1 → (i : Int) < (sliceBounds d.objects.length start stop step).2) ∧
        (step.getD 1 < 0 → (sliceBounds d.objects.length start stop step).2 < i)) := by
  obtain ⟨idx, hidx, hlt, hspec⟩ := sliceIdx_spec (n := d.objects.length) (start := start) (stop := stop) h0
  have hl : d.objects.length ≠ 0 := fun h => hne (List.length_eq_zero_iff.1 h)
  refine ⟨⟨idx.filterMap (d.objects[·]?), d.name, d.common, d.matrix.map fun m => idx.filterMap (m[·]?),
    d.labels.map fun l => idx.filterMap (l[·]?)⟩, idx, ?_, ⟨picks_filterMap hlt, ?_, ?_⟩, rfl, hspec⟩
  · unfold Ds.getitem
    rw [if_neg hl]
    dsimp only
    unfold Ds.pickSlice
    rw [sliceOf_eq rfl hidx]
    cases hm : d.matrix with
    | none =>
      cases hlab : d.labels with
      | none => rfl
      | some l => simp [sliceOf_eq (ha.2 l hlab) hidx, bind, Except.bind, Except.map]
    | some m =>
      cases hlab : d.labels with
      | none => simp [sliceOf_eq (ha.1 m hm) hidx, bind, Except.bind, Except.map]
      | some l => simp [sliceOf_eq (ha.1 m hm) hidx, sliceOf_eq (ha.2 l hlab) hidx, bind, Except.bind, Except.map]
  · intro m hm
    exact ⟨_, by simp [hm], picks_filterMap fun i hi => by rw [ha.1 m hm]; exact hlt i hi⟩
  · intro l hl
    exact ⟨_, by simp [hl], picks_filterMap fun i hi => by rw [ha.2 l hl]; exact hlt i hi⟩

/-- A slice of a dataset which is not empty holds the objects at the positions `a`, `a + s`, `a + 2 s`, ... up to the bound, with
their rows and labels. -/
theorem C45_slice {d : Ds ω F} (ha : Aligned d) (hne : d.objects ≠ []) {start stop step : Option Int} (h0 : step.getD 1 ≠ 0) :
    ∃ (e : Ds ω F) (idx : List Nat) (a b : Int), d.getitem (.slice start stop step) = .ok (.ds e) ∧ Selects d e idx ∧
      e.common = d.common ∧
      (0 < step.getD 1 → Bound d.objects.length 0 d.objects.length 0 start a ∧
        Bound d.objects.length 0 d.objects.length d.objects.length stop b) ∧
      (step.getD 1 < 0 → Bound d.objects.length (-1) (d.objects.length - 1) (d.objects.length - 1) start a ∧
        Bound d.objects.length (-1) (d.objects.length - 1) (-1) stop b) ∧
      ∀ (k i : Nat), idx[k]? = some i ↔ ((i : Int) = a + k * step.getD 1 ∧
        (0 < step.getD 1 → (i : Int) < b) ∧ (step.getD 1 < 0 → b < i)) := by
  obtain ⟨e, idx, h1, h2, h3, h4⟩ := slice_picks ha hne (start := start) (stop := stop) h0
  refine ⟨e, idx, _, _, h1, h2, h3, fun h => ?_, fun h => ?_, h4⟩
  · unfold sliceBounds
    rw [if_pos h]
    exact ⟨bound_clip .., bound_clip ..⟩
  · unfold sliceBounds
    rw [if_neg (by omega)]
    exact ⟨bound_clip .., bound_clip ..⟩

/-- A null step raises a ValueError. -/
theorem C45_slice_raises {d : Ds ω F} (hne : d.objects ≠ []) (start stop : Option Int) :
    d.getitem (.slice start stop (some 0)) = .error .valueError := by
  have hl : d.objects.length ≠ 0 := fun h => hne (List.length_eq_zero_iff.1 h)
  simp [Ds.getitem, hl, Ds.pickSlice, sliceOf, sliceIdx, bind, Except.bind, Except.map]

theorem picks_ext {α : Type} {idx : List Nat} {l r s : List α} (h : Picks idx l r) (hs : ∀ k : Nat, s[k]? = idx[k]?.bind (l[·]?)) : r = s := by
  apply List.ext_getElem?
  intro k
  rw [hs]
  induction h generalizing k s with
  | nil => simp
  | cons hi _ ih =>
    cases k with
    | zero => simp [hi]
    | succ k =>
      simp only [List.getElem?_cons_succ]
      exact ih (s := s.tail) (fun k => by rw [List.getElem?_tail, hs]; simp) k

/-- `dataset[a:b]` for natural bounds: the objects from `a` to `b` excluded. -/
theorem C45_slice_simple {d : Ds ω F} (ha : Aligned d) (hne : d.objects ≠ []) (a b : Nat) :
    ∃ e : Ds ω F, d.getitem (.slice (some a) (some b) none) = .ok (.ds e) ∧ e.objects = (d.objects.take b).drop a := by
  obtain ⟨e, idx, h1, h2, -, h3⟩ := slice_picks ha hne (start := some a) (stop := some b) (step := none) (by simp)
  refine ⟨e, h1, picks_ext h2.1 fun k => ?_⟩
  have hb : sliceBounds d.objects.length (some (a : Int)) (some (b : Int)) none = (min (a : Int) d.objects.length, min (b : Int) d.objects.length) := by
    simp [sliceBounds, clip]
  rw [hb] at h3
  simp only [Option.getD_none] at h3
  rw [List.getElem?_drop, List.getElem?_take]
  cases hi : idx[k]? with
  | none =>
    rw [Option.bind_none]
    split
    · rename_i hlt
      rw [List.getElem?_eq_none_iff]
      by_contra hc
      have := (h3 k (a + k)).2 ⟨by push_cast; omega, by push_cast; omega, by omega⟩
      rw [hi] at this
      simp at this
    · rfl
  | some i =>
    obtain ⟨g1, g2, -⟩ := (h3 k i).1 hi
    have g2 := g2 (by omega)
    rw [if_pos (by omega), Option.bind_some]
    congr 1
    omega

/-- `dataset[::-1]`: the objects in reverse order. -/
theorem C45_slice_reverse {d : Ds ω F} (ha : Aligned d) (hne : d.objects ≠ []) :
    ∃ e : Ds ω F, d.getitem (.slice none none (some (-1))) = .ok (.ds e) ∧ e.objects = d.objects.reverse := by
  obtain ⟨e, idx, h1, h2, -, h3⟩ := slice_picks ha hne (start := none) (stop := none) (step := some (-1)) (by simp)
  refine ⟨e, h1, picks_ext h2.1 fun k => ?_⟩
  have hb : sliceBounds d.objects.length none none (some (-1)) = ((d.objects.length : Int) - 1, -1) := by
    simp [sliceBounds]
  rw [hb] at h3
  simp only [Option.getD_some] at h3
  cases hi : idx[k]? with
  | none =>
    rw [Option.bind_none, List.getElem?_eq_none_iff, List.length_reverse]
    by_contra hc
    have := (h3 k (d.objects.length - 1 - k)).2 ⟨by omega, by omega, by omega⟩
    rw [hi] at this
    simp at this
  | some i =>
    obtain ⟨g1, -, g2⟩ := (h3 k i).1 hi
    have g2 := g2 (by omega)
    rw [Option.bind_some, List.getElem?_reverse (by omega)]
    congr 1
    omega

/-! ### C45: boolean lists and lists of indices -/

theorem compress_picks {α : Type} : ∀ (l : List α) (bs : List Bool) (pre : List α), bs.length = l.length →
    Picks (((List.range' pre.length bs.length).filter fun i => bs[i - pre.length]? == some true)) (pre ++ l) (compress l bs)
  | [], [], pre, _ => .nil
  | x :: l, b :: bs, pre, h => by
    have ih := compress_picks l bs (pre ++ [x]) (by simpa using h)
    have hcong : ((List.range' (pre.length + 1) bs.length).filter fun i => (b :: bs)[i - pre.length]? == some true) =
        ((List.range' (pre.length + 1) bs.length).filter fun i => bs[i - (pre.length + 1)]? == some true) := by
      apply List.filter_congr
      intro i hi
      obtain ⟨k, -, rfl⟩ := List.mem_range'.1 hi
      rw [show pre.length + 1 + 1 * k - pre.length = k + 1 by omega, show pre.length + 1 + 1 * k - (pre.length + 1) = k by omega]
      simp
    simp only [List.length_append, List.length_cons, List.length_nil, List.append_assoc, List.cons_append, List.nil_append] at ih
    rw [List.length_cons, List.range'_succ, compress, List.filter_cons, Nat.sub_self]
    simp only [List.getElem?_cons_zero]
    cases b with
    | true =>
      simp only [beq_self_eq_true, if_true]
      rw [hcong]
      refine .cons ?_ ih
      rw [List.getElem?_append_right (Nat.le_refl _)]
      simp
    | false =>
      simp only [Option.some.injEq, beq_iff_eq, Bool.false_eq_true, if_false]
      rw [hcong]
      exact ih

/-- The positions of the booleans which are true. -/
def truePositions (bs : List Bool) : List Nat := (List.range bs.length).filter fun i => bs[i]? == some true

theorem filterApply_picks {α : Type} {l : List α} {bs : List Bool} (h : bs.length = l.length) : Picks (truePositions bs) l (filterApply l bs) := by
  have := compress_picks l bs [] h
  simpa [truePositions, filterApply, List.range_eq_range'] using this

theorem pickBools_selects {d : Ds ω F} (ha : Aligned d) {bs : List Bool} (h : bs.length = d.objects.length) :
    Selects d (d.pickBools bs) (truePositions bs) := by
  refine ⟨filterApply_picks h, fun m hm => ⟨_, by simp [Ds.pickBools, hm], filterApply_picks ?_⟩,
    fun l hl => ⟨_, by simp [Ds.pickBools, hl], filterApply_picks ?_⟩⟩
  · rw [h, ha.1 m hm]
  · rw [h, ha.2 l hl]

/-- A list of as many booleans as objects selects those whose boolean is true, in order, with their rows and labels; a list of an
other length raises a ValueError. -/
theorem C45_booleans {d : Ds ω F} (ha : Aligned d) (hne : d.objects ≠ []) {bs : List Bool} :
    (bs.length = d.objects.length → ∃ e, d.getitem (.bools bs) = .ok (.ds e) ∧ Selects d e (truePositions bs)) ∧
    (bs.length ≠ d.objects.length → bs ≠ [] → d.getitem (.bools bs) = .error .valueError) := by
  have hl : d.objects.length ≠ 0 := fun h => hne (List.length_eq_zero_iff.1 h)
  constructor
  · intro h
    refine ⟨_, ?_, pickBools_selects ha h⟩
    cases bs with
    | nil => exact absurd h.symm (by simpa using hl)
    | cons b bs =>
      unfold Ds.getitem
      rw [if_neg hl]
      dsimp only
      rw [if_pos h]
  · intro h hb
    cases bs with
    | nil => exact absurd rfl hb
    | cons b bs =>
      unfold Ds.getitem
      rw [if_neg hl]
      dsimp only
      rw [if_neg h]

/-- Filtering selects the objects whose boolean is true, in order, with their rows and labels. -/
theorem C45_filtering {d : Ds ω F} (ha : Aligned d) {bs : List Bool} (h : bs.length = d.objects.length) :
    Selects d (d.filtering bs) (truePositions bs) := pickBools_selects ha h

theorem toBoolList_spec (n : Nat) : ∀ (l : List Int) (bs : List Bool), bs.length = n →
    (∀ r, l.foldlM (markIndex n) bs = .ok r → r.length = n ∧ (∀ i ∈ l, ∃ k, Py.idx n i = some k) ∧
        ∀ k, r[k]? = some true ↔ bs[k]? = some true ∨ ∃ i ∈ l, Py.idx n i = some k) ∧
    ((∀ i ∈ l, ∃ k, Py.idx n i = some k) → ∃ r, l.foldlM (markIndex n) bs = .ok r) ∧
    ((∃ i ∈ l, Py.idx n i = none) → l.foldlM (markIndex n) bs = .error .indexError)
  | [], bs, hb => by simp [pure, Except.pure, hb]
  | i :: l, bs, hb => by
    rw [List.foldlM_cons]
    cases hi : Py.idx n i with
    | none => simp [bind, Except.bind, hi, markIndex]
    | some k =>
      have hk := Py.idx_lt hi
      obtain ⟨h1, h2, h3⟩ := toBoolList_spec n l (bs.set k true) (by simpa using hb)
      simp only [markIndex, hi, bind, Except.bind]
      refine ⟨fun r hr => ?_, fun h => h2 fun j hj => h j (.tail _ hj), fun ⟨j, hj, hn⟩ => ?_⟩
      · obtain ⟨g1, g2, g3⟩ := h1 r hr
        refine ⟨g1, ?_, fun q => ?_⟩
        · intro j hj
          rcases List.mem_cons.1 hj with rfl | hj
          · exact ⟨k, hi⟩
          · exact g2 j hj
        · rw [g3]
          by_cases hq : q = k
          · subst hq
            constructor
            · intro _; exact .inr ⟨i, .head _, hi⟩
            · intro _; left; rw [List.getElem?_set_self (by omega)]
          · rw [List.getElem?_set_ne (Ne.symm hq)]
            constructor
            · rintro (h | ⟨j, hj, h⟩)
              · exact .inl h
              · exact .inr ⟨j, .tail _ hj, h⟩
            · rintro (h | ⟨j, hj, h⟩)
              · exact .inl h
              · rcases List.mem_cons.1 hj with rfl | hj
                · rw [hi] at h
                  simp only [Option.some.injEq] at h
                  exact absurd h.symm hq
                · exact .inr ⟨j, hj, h⟩
      · rcases List.mem_cons.1 hj with rfl | hj
        · rw [hi] at hn; simp at hn
        · exact h3 ⟨j, hj, hn⟩

/-- A list of indices selects the objects standing at one of them, in the order of the dataset, each once, with their rows and
labels; an index out of range raises an IndexError. -/
theorem C45_indexes {d : Ds ω F} (ha : Aligned d) (hne : d.objects ≠ []) {l : List Int} (hl : l ≠ []) :
    ((∀ i ∈ l, ∃ k, Py.idx d.objects.length i = some k) → ∃ e positions, d.getitem (.ints l) = .ok (.ds e) ∧ Selects d e positions ∧
      positions.Pairwise (· < ·) ∧ ∀ k, k ∈ positions ↔ ∃ i ∈ l, Py.idx d.objects.length i = some k) ∧
    ((∃ i ∈ l, Py.idx d.objects.length i = none) → d.getitem (.ints l) = .error .indexError) := by
  have hn : d.objects.length ≠ 0 := fun h => hne (List.length_eq_zero_iff.1 h)
  obtain ⟨i, l', rfl⟩ := List.exists_cons_of_ne_nil hl
  obtain ⟨h1, h2, h3⟩ := toBoolList_spec d.objects.length (i :: l') (List.replicate d.objects.length false) (by simp)
  constructor
  · intro h
    obtain ⟨r, hr⟩ := h2 h
    obtain ⟨g1, -, g3⟩ := h1 r hr
    refine ⟨_, truePositions r, ?_, pickBools_selects ha g1, ?_, fun k => ?_⟩
    · unfold Ds.getitem
      rw [if_neg hn]
      dsimp only
      unfold toBoolList
      rw [hr]
      rfl
    · exact List.pairwise_lt_range.sublist List.filter_sublist
    · unfold truePositions
      rw [List.mem_filter, List.mem_range, beq_iff_eq, g3]
      constructor
      · rintro ⟨-, h | h⟩
        · simp [List.getElem?_replicate] at h
        · exact h
      · rintro ⟨j, hj, hk⟩
        exact ⟨by rw [g1]; exact Py.idx_lt hk, .inr ⟨j, hj, hk⟩⟩
  · intro h
    unfold Ds.getitem
    rw [if_neg hn]
    dsimp only
    unfold toBoolList
    rw [h3 h]
    rfl

theorem pairwise_lt_ext : ∀ {a b : List Nat}, a.Pairwise (· < ·) → b.Pairwise (· < ·) → (∀ k, k ∈ a ↔ k ∈ b) → a = b := by
  intro a b ha hb h
  have hna : a.Nodup := ha.imp fun h => Nat.ne_of_lt h
  have hnb : b.Nodup := hb.imp fun h => Nat.ne_of_lt h
  exact ((List.perm_ext_iff_of_nodup hna hnb).2 h).eq_of_pairwise (fun _ _ _ _ h1 h2 => absurd h1 (by omega)) ha hb

/-- An increasing list of indices selects the designated objects in the designated order.  Missing for the full property: the
other lists (`C45_order_violated`). -/
theorem C45_indexes_partial {d : Ds ω F} (ha : Aligned d) (hne : d.objects ≠ []) {l : List Nat} (hl : l ≠ []) (hs : l.Pairwise (· < ·))
    (hlt : ∀ k ∈ l, k < d.objects.length) : ∃ e, d.getitem (.ints (l.map Int.ofNat)) = .ok (.ds e) ∧ Selects d e l := by
  have hidx : ∀ k ∈ l, Py.idx d.objects.length (Int.ofNat k) = some k := by
    intro k hk
    show Py.idx d.objects.length ((k : Nat) : Int) = some k
    rw [Py.idx_nat, if_pos (hlt k hk)]
  obtain ⟨e, positions, h1, h2, h3, h4⟩ := (C45_indexes (l := l.map Int.ofNat) ha hne (by simpa using hl)).1 (by
    intro i hi
    obtain ⟨k, hk, rfl⟩ := List.mem_map.1 hi
    exact ⟨k, hidx k hk⟩)
  refine ⟨e, h1, ?_⟩
  rw [← pairwise_lt_ext h3 hs fun k => by
    rw [h4]
    constructor
    · rintro ⟨i, hi, hk⟩
      obtain ⟨k', hk', rfl⟩ := List.mem_map.1 hi
      rw [hidx k' hk'] at hk
      simp only [Option.some.injEq] at hk
      exact hk ▸ hk'
    · intro hk
      exact ⟨Int.ofNat k, List.mem_map.2 ⟨k, hk, rfl⟩, hidx k hk⟩]
  exact h2

/-- A list of indices which is not increasing loses its order and its repetitions. -/
theorem C45_order_violated (d : Ds Nat Rat) (h : d = Ds.init [10, 11, 12] "d") :
    d.getitem (.ints [2, 0, 2]) = .ok (.ds (Ds.init [10, 12] "d")) := by
  subst h
  rfl

/-- Whatever the key, selecting in an empty dataset returns an empty list: neither a dataset for a slice or a list nor an
IndexError for an integer. -/
theorem C45_empty_violated (d : Ds ω F) (h : d.objects = []) (key : Key) : d.getitem key = .ok .nil := by
  simp [Ds.getitem, h]

/-- An empty list selects nothing: an empty dataset of the same kind, clustered or not. -/
theorem C45_nothing {d : Ds ω F} (hne : d.objects ≠ []) : ∃ e : Ds ω F, d.getitem (.ints []) = .ok (.ds e) ∧
    d.getitem (.bools []) = .ok (.ds e) ∧ e.objects = [] ∧ (e.labels.isSome ↔ d.labels.isSome) ∧ Aligned e := by
  have hn : d.objects.length ≠ 0 := fun h => hne (List.length_eq_zero_iff.1 h)
  refine ⟨d.emptyLike, by simp [Ds.getitem, hn], by simp [Ds.getitem, hn], rfl, by simp [Ds.emptyLike], ?_⟩
  constructor <;> simp [Ds.emptyLike]

example : ∃ e : Ds Nat Rat, (Ds.initC [10, 11] (some [0, 1]) "c").getitem (.ints []) = .ok (.ds e) ∧ e.labels.isSome := by
  obtain ⟨e, h1, -, -, h2, -⟩ := C45_nothing (d := (Ds.initC [10, 11] (some [0, 1]) "c" : Ds Nat Rat)) (by simp [Ds.initC])
  exact ⟨e, h1, h2.2 rfl⟩

/-- An integer designates the object at its place, counted from the end if it is negative; an IndexError is raised out of
range. -/
theorem C45_int {d : Ds ω F} (hne : d.objects ≠ []) (i : Int) :
    (∀ k, Py.idx d.objects.length i = some k → ∃ o, d.objects[k]? = some o ∧ d.getitem (.int i) = .ok (.obj o)) ∧
    (Py.idx d.objects.length i = none → d.getitem (.int i) = .error .indexError) := by
  have hn : d.objects.length ≠ 0 := fun h => hne (List.length_eq_zero_iff.1 h)
  constructor
  · intro k hk
    have hlt := Py.idx_lt hk
    refine ⟨d.objects[k], List.getElem?_eq_getElem hlt, ?_⟩
    unfold Ds.getitem
    rw [if_neg hn]
    simp [Py.get, hk, List.getElem?_eq_getElem hlt, Except.map]
  · intro hk
    unfold Ds.getitem
    rw [if_neg hn]
    simp [Py.get, hk, Except.map]

example : ∃ e : Ds Nat Rat, (⟨[10, 11, 12, 13], "c", none, some [[0], [1], [2], [3]], some [0, 1, 0, -1]⟩ : Ds Nat Rat).getitem
    (.slice (some (-1)) none (some (-2))) = .ok (.ds e) ∧ e.objects = [13, 11] ∧ e.matrix = some [[3], [1]] ∧ e.labels = some [-1, 1] :=
  ⟨_, rfl, rfl, rfl, rfl⟩

example : ∃ e : Ds Nat Rat, (Ds.initC [10, 11, 12, 13] (some [0, 1, 0, -1]) "c" : Ds Nat Rat).getitem
    (.bools [true, false, false, true]) = .ok (.ds e) ∧ e.objects = [10, 13] ∧ e.labels = some [0, -1] := ⟨_, rfl, rfl, rfl⟩

/-! ### C87: iterating -/

/-- Python iterates over an object having `__getitem__` and no `__iter__` by asking for the items 0, 1, 2, ... until an
IndexError is raised: `Iterates d i out` means that from `i` on the iteration ends and gives `out`. -/
inductive Iterates (d : Ds ω F) : Nat → List (Item ω F) → Prop
  | stop {i : Nat} : d.getitem (.int i) = .error .indexError → Iterates d i []
  | next {i : Nat} {x : Item ω F} {out : List (Item ω F)} : d.getitem (.int i) = .ok x → Iterates d (i + 1) out → Iterates d i (x :: out)

/-- Iterating over a dataset which is not empty gives its objects in order.
Missing: the empty dataset (`C87_violated`). -/
theorem C87_partial {d : Ds ω F} (hne : d.objects ≠ []) : Iterates d 0 (d.objects.map .obj) := by
  have key : ∀ (n i : Nat), d.objects.length - i = n → Iterates d i ((d.objects.drop i).map .obj) := by
    intro n
    induction n with
    | zero =>
      intro i hi
      rw [List.drop_eq_nil_of_le (by omega)]
      refine .stop ((C45_int hne i).2 ?_)
      rw [Py.idx_nat, if_neg (by omega)]
    | succ n ih =>
      intro i hi
      have hlt : i < d.objects.length := by omega
      rw [List.drop_eq_getElem_cons hlt, List.map_cons]
      obtain ⟨o, ho, hg⟩ := (C45_int hne i).1 i (by rw [Py.idx_nat, if_pos hlt])
      rw [List.getElem?_eq_getElem hlt] at ho
      simp only [Option.some.injEq] at ho
      exact .next (ho ▸ hg) (ih (i + 1) (by omega))
  simpa using key _ 0 rfl

/-- Iterating over an empty dataset never ends. -/
theorem C87_violated {d : Ds ω F} (h : d.objects = []) (i : Nat) (out : List (Item ω F)) : ¬ Iterates d i out := by
  intro hi
  induction hi with
  | stop he => rw [C45_empty_violated d h] at he; simp at he
  | next _ _ ih => exact ih

example : Iterates (Ds.init [4, 5] "d" : Ds Nat Rat) 0 [.obj 4, .obj 5] := C87_partial (by simp [Ds.init])

end DC.Data
