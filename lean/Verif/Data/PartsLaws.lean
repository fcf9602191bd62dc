import Verif.Data.DatasetProps
import Verif.Data.SortProps
/-
Laws of the parts of a dataset (C182): cut in two, reversed twice, shared out by a mask, selected again.
The definitions they are about are in Verif/Data/Dataset.lean.
-/
namespace DC.Data

variable {ω F : Type}

/-! ### Specification -/

/-- The two parts, one after the other, give the objects, rows and labels of `d`. -/
def Joins (d e f : Ds ω F) : Prop :=
  e.objects ++ f.objects = d.objects ∧
  (∀ m, d.matrix = some m → ∃ m₁ m₂, e.matrix = some m₁ ∧ f.matrix = some m₂ ∧ m₁ ++ m₂ = m) ∧
  (∀ l, d.labels = some l → ∃ l₁ l₂, e.labels = some l₁ ∧ f.labels = some l₂ ∧ l₁ ++ l₂ = l) ∧
  (d.matrix = none → e.matrix = none ∧ f.matrix = none) ∧ (d.labels = none → e.labels = none ∧ f.labels = none)

/-! ### Slices of lists -/

theorem filterMap_range {α : Type} (l : List α) : ∀ c, c ≤ l.length → (List.range c).filterMap (l[·]?) = l.take c
  | 0, _ => rfl
  | c + 1, h => by
    rw [List.range_succ, List.filterMap_append, filterMap_range l c (by omega), List.take_add_one, List.getElem?_eq_getElem (show c < l.length by omega),
      List.filterMap_cons, List.getElem?_eq_getElem (show c < l.length by omega)]
    rfl

theorem filterMap_from {α : Type} (l : List α) (a c : Nat) (h : a + c ≤ l.length) :
    (List.range c).filterMap (fun k => l[a + k]?) = (l.drop a).take c := by
  rw [← filterMap_range (l.drop a) c (by simp; omega)]
  congr 1
  funext k
  rw [List.getElem?_drop]

theorem sliceOf_head {α : Type} (l : List α) (k : Int) :
    sliceOf l none (some k) none = .ok (l.take (clip l.length 0 l.length k).toNat) := by
  obtain ⟨h1, h2⟩ := clip_pos l.length k (by omega)
  simp only [sliceOf, sliceIdx, Option.getD_none, Option.map_none, Option.map_some, Option.getD_some]
  generalize clip (l.length : Int) 0 l.length k = c at h1 h2
  rw [if_neg (by decide), if_pos (by decide)]
  have hc : (if 0 < c then ((c - 0 - 1) / 1).toNat + 1 else 0) = c.toNat := by split <;> omega
  simp only [bind, Except.bind, hc]
  rw [List.filterMap_map]
  congr 1
  rw [← filterMap_range l c.toNat (by omega)]
  congr 1
  funext k
  simp

theorem sliceOf_tail {α : Type} (l : List α) (k : Int) :
    sliceOf l (some k) none none = .ok (l.drop (clip l.length 0 l.length k).toNat) := by
  obtain ⟨h1, h2⟩ := clip_pos l.length k (by omega)
  simp only [sliceOf, sliceIdx, Option.getD_none, Option.map_none, Option.map_some, Option.getD_some]
  generalize clip (l.length : Int) 0 l.length k = c at h1 h2
  rw [if_neg (by decide), if_pos (by decide)]
  have hc : (if c < (l.length : Int) then (((l.length : Int) - c - 1) / 1).toNat + 1 else 0) = l.length - c.toNat := by split <;> omega
  simp only [bind, Except.bind, hc]
  rw [List.filterMap_map]
  congr 1
  have := filterMap_from l c.toNat (l.length - c.toNat) (by omega)
  rw [List.take_of_length_le (by simp)] at this
  rw [← this]
  congr 1
  funext k
  have : (c + (k : Int) * 1).toNat = c.toNat + k := by omega
  simp only [Function.comp, this]

theorem sliceOf_reverse {α : Type} (l : List α) : sliceOf l none none (some (-1)) = .ok l.reverse := by
  obtain ⟨idx, hidx, hlt, hspec⟩ := sliceIdx_spec (n := l.length) (start := none) (stop := none) (step := some (-1)) (by simp)
  rw [sliceOf_eq rfl hidx]
  congr 1
  refine picks_ext (picks_filterMap hlt) fun k => ?_
  have hb : sliceBounds l.length none none (some (-1)) = ((l.length : Int) - 1, -1) := by simp [sliceBounds]
  rw [hb] at hspec
  simp only [Option.getD_some] at hspec
  cases hi : idx[k]? with
  | none =>
    rw [Option.bind_none, List.getElem?_eq_none_iff, List.length_reverse]
    by_contra hc
    have := (hspec k (l.length - 1 - k)).2 ⟨by omega, by omega, by omega⟩
    rw [hi] at this
    simp at this
  | some i =>
    have := (hspec k i).1 hi
    rw [Option.bind_some, List.getElem?_reverse (by omega)]
    congr 1
    omega

theorem getitem_slice {d : Ds ω F} (hne : d.objects ≠ []) (a b s : Option Int) :
    d.getitem (.slice a b s) = (d.pickSlice a b s).map .ds := by
  simp [Ds.getitem, hne]

/-- The part of a dataset given by a function on lists. -/
def Ds.onLists (d : Ds ω F) (f : ∀ α : Type, List α → List α) : Ds ω F :=
  ⟨f ω d.objects, d.name, d.common, d.matrix.map (f _), d.labels.map (f _)⟩

theorem getitem_of {d : Ds ω F} (hne : d.objects ≠ []) {a b s : Option Int} {f : ∀ α : Type, List α → List α}
    (h : ∀ (α : Type) (l : List α), sliceOf l a b s = .ok (f α l)) :
    d.getitem (.slice a b s) = .ok (.ds (d.onLists f)) := by
  rw [getitem_slice hne]
  simp only [Ds.pickSlice, h, Ds.onLists]
  cases d.matrix <;> cases d.labels <;> rfl

/-! ### C182: parts of a dataset make it up -/

/-- Cutting a dataset anywhere, even out of its bounds or from its end, and putting the two parts one after the other gives the
objects, rows and labels of the dataset. -/
theorem C182_split {d : Ds ω F} (hne : d.objects ≠ []) (k : Int) :
    ∃ e f : Ds ω F, d.getitem (.slice none (some k) none) = .ok (.ds e) ∧ d.getitem (.slice (some k) none none) = .ok (.ds f) ∧
      Joins d e f ∧ e.common = d.common ∧ f.common = d.common := by
  refine ⟨_, _, getitem_of hne fun _ l => sliceOf_head l k, getitem_of hne fun _ l => sliceOf_tail l k,
    ⟨List.take_append_drop .., ?_, ?_, ?_, ?_⟩, rfl, rfl⟩
  · intro m hm
    exact ⟨_, _, by simp [Ds.onLists, hm]; rfl, by simp [Ds.onLists, hm], List.take_append_drop ..⟩
  · intro m hm
    exact ⟨_, _, by simp [Ds.onLists, hm]; rfl, by simp [Ds.onLists, hm], List.take_append_drop ..⟩
  · intro hm
    simp [Ds.onLists, hm]
  · intro hm
    simp [Ds.onLists, hm]

/-- Adding the two parts of a dataset without labels gives a dataset with the same objects, in the same order; when the common
attributes were known, they and the matrix are the same as well. -/
theorem C182_add (O : Objs ω F) {d : Ds ω F} (hne : d.objects ≠ []) (hl : d.labels = none) (k : Int) :
    ∃ e f s : Ds ω F, d.getitem (.slice none (some k) none) = .ok (.ds e) ∧ d.getitem (.slice (some k) none none) = .ok (.ds f) ∧
      e.add O f = .ok s ∧ s.objects = d.objects ∧ (d.common.isSome → s.common = d.common ∧ s.matrix = d.matrix) := by
  obtain ⟨e, f, he, hf, ⟨h1, h2, h3, h4, h5⟩, hec, hfc⟩ := C182_split hne k
  obtain ⟨hle, hlf⟩ := h5 hl
  by_cases hall : ((f.commonAttributes O).2.all fun a => a ∈ (e.commonAttributes O).2) = true
  · refine ⟨e, f, _, he, hf, by simp only [Ds.add, hle, hlf, hall]; simp; rfl, h1, fun hc => ?_⟩
    obtain ⟨c, hc⟩ := Option.isSome_iff_exists.1 hc
    refine ⟨by simp [Ds.commonAttributes, hec, hc], ?_⟩
    cases hm : d.matrix with
    | none => simp [h4 hm]
    | some m =>
      obtain ⟨m₁, m₂, hm1, hm2, hm3⟩ := h2 m hm
      simp [hm1, hm2, hm3]
  · refine ⟨e, f, _, he, hf, by simp only [Ds.add, hle, hlf, hall]; simp; rfl, h1, fun hc => ?_⟩
    obtain ⟨c, hc⟩ := Option.isSome_iff_exists.1 hc
    exact absurd (by simp [Ds.commonAttributes, hec, hfc, hc]) hall

/-- Reversing a dataset twice gives it back, with its rows, labels, name and common attributes. -/
theorem C182_reverse {d : Ds ω F} (hne : d.objects ≠ []) :
    ∃ e : Ds ω F, d.getitem (.slice none none (some (-1))) = .ok (.ds e) ∧ e.getitem (.slice none none (some (-1))) = .ok (.ds d) := by
  refine ⟨_, getitem_of hne fun _ l => sliceOf_reverse l, ?_⟩
  rw [getitem_of (by simpa [Ds.onLists] using hne) fun _ l => sliceOf_reverse l]
  obtain ⟨o, n, c, m, l⟩ := d
  cases m <;> cases l <;> simp [Ds.onLists]

theorem clip_nat (n a : Nat) : (clip n 0 n a).toNat = min a n := by
  simp only [clip]
  split <;> omega

theorem drop_min {α : Type} (l : List α) (a : Nat) : l.drop (min a l.length) = l.drop a := by
  by_cases h : a ≤ l.length
  · rw [Nat.min_eq_left h]
  · rw [Nat.min_eq_right (by omega), List.drop_of_length_le (by omega), List.drop_of_length_le (by omega)]

theorem sliceOf_from {α : Type} (l : List α) (a : Nat) : sliceOf l (some (a : Int)) none none = .ok (l.drop a) := by
  rw [sliceOf_tail, clip_nat, drop_min]

/-- Leaving out `a` objects and then `b` more is leaving out `a + b`, as long as some are left by the first step.
Missing: a first step which leaves nothing (`C182_again_violated`). -/
theorem C182_again_partial {d : Ds ω F} (a b : Nat) (h : a < d.objects.length) :
    ∃ e f : Ds ω F, d.getitem (.slice (some (a : Int)) none none) = .ok (.ds e) ∧
      e.getitem (.slice (some (b : Int)) none none) = .ok (.ds f) ∧
      d.getitem (.slice (some ((a + b : Nat) : Int)) none none) = .ok (.ds f) := by
  have hne : d.objects ≠ [] := by rintro h'; simp [h'] at h
  refine ⟨_, _, getitem_of hne fun _ l => sliceOf_from l a, ?_, getitem_of hne fun _ l => sliceOf_from l (a + b)⟩
  rw [getitem_of (f := fun _ l => l.drop b) (by simpa [Ds.onLists] using h) fun _ l => sliceOf_from l b]
  obtain ⟨o, n, c, m, l⟩ := d
  cases m <;> cases l <;> simp [Ds.onLists]

/-- Once no object is left, selecting again gives `[]`, not a dataset: the two ways of leaving out the objects then differ. -/
theorem C182_again_violated : ∃ (d e f : Ds Nat Rat), d.getitem (.slice (some 2) none none) = .ok (.ds e) ∧
    e.getitem (.slice (some 1) none none) = .ok .nil ∧ d.getitem (.slice (some 3) none none) = .ok (.ds f) :=
  ⟨Ds.init [10, 11] "d", Ds.init [] "d", Ds.init [] "d", by rfl, by rfl, by rfl⟩

/-! #### Masks -/

theorem compress_share {α : Type} : ∀ (l : List α) (bs : List Bool), bs.length = l.length →
    (compress l bs ++ compress l (bs.map (!·))).Perm l
  | [], [], _ => .refl _
  | x :: l, true :: bs, h => (compress_share l bs (by simpa using h)).cons x
  | x :: l, false :: bs, h =>
    (List.perm_middle (a := x) (l₁ := compress l bs) (l₂ := compress l (bs.map (!·)))).trans ((compress_share l bs (by simpa using h)).cons x)

theorem compress_zip {α β : Type} : ∀ (l : List α) (m : List β) (bs : List Bool), m.length = l.length →
    compress (l.zip m) bs = (compress l bs).zip (compress m bs)
  | [], [], bs, _ => by cases bs <;> rfl
  | x :: l, y :: m, [], _ => rfl
  | x :: l, y :: m, true :: bs, h => by
    show (x, y) :: compress (l.zip m) bs = (x :: compress l bs).zip (y :: compress m bs)
    rw [compress_zip l m bs (by simpa using h), List.zip_cons_cons]
  | x :: l, y :: m, false :: bs, h => compress_zip l m bs (by simpa using h)

theorem compress_compress {α : Type} : ∀ (l : List α) (p q : List Bool), p.length = l.length → q.length = l.length →
    compress (compress l p) (compress q p) = compress l (List.zipWith (· && ·) p q)
  | [], [], [], _, _ => rfl
  | x :: l, true :: p, true :: q, h, h' => by
    show x :: compress (compress l p) (compress q p) = _
    rw [compress_compress l p q (by simpa using h) (by simpa using h')]
    rfl
  | x :: l, true :: p, false :: q, h, h' => compress_compress l p q (by simpa using h) (by simpa using h')
  | x :: l, false :: p, b :: q, h, h' => compress_compress l p q (by simpa using h) (by simpa using h')

theorem compress_length {α β : Type} : ∀ (l : List α) (m : List β) (bs : List Bool), m.length = l.length →
    (compress m bs).length = (compress l bs).length
  | [], [], bs, _ => by cases bs <;> rfl
  | x :: l, y :: m, [], _ => rfl
  | x :: l, y :: m, true :: bs, h => congrArg (· + 1) (compress_length l m bs (by simpa using h))
  | x :: l, y :: m, false :: bs, h => compress_length l m bs (by simpa using h)

theorem getitem_bools {d : Ds ω F} (hne : d.objects ≠ []) {bs : List Bool} (h : bs.length = d.objects.length) :
    d.getitem (.bools bs) = .ok (.ds (d.pickBools bs)) := by
  cases bs with
  | nil => exact absurd (List.length_eq_zero_iff.1 (by simpa using h.symm)) hne
  | cons b bs => simp [Ds.getitem, hne, h]

/-- A mask and its opposite share out a dataset: each object goes to one of the two parts, with its row and with its label. -/
theorem C182_mask {d : Ds ω F} (ha : Aligned d) (hne : d.objects ≠ []) {bs : List Bool} (h : bs.length = d.objects.length) :
    ∃ e f : Ds ω F, d.getitem (.bools bs) = .ok (.ds e) ∧ d.getitem (.bools (bs.map (!·))) = .ok (.ds f) ∧
      (e.objects ++ f.objects).Perm d.objects ∧
      (∀ m, d.matrix = some m → ∃ m₁ m₂, e.matrix = some m₁ ∧ f.matrix = some m₂ ∧
        (e.objects.zip m₁ ++ f.objects.zip m₂).Perm (d.objects.zip m)) ∧
      (∀ l, d.labels = some l → ∃ l₁ l₂, e.labels = some l₁ ∧ f.labels = some l₂ ∧
        (e.objects.zip l₁ ++ f.objects.zip l₂).Perm (d.objects.zip l)) := by
  refine ⟨_, _, getitem_bools hne h, getitem_bools hne (by simpa using h), compress_share _ _ h, fun m hm => ?_, fun l hl => ?_⟩
  · refine ⟨compress m bs, compress m (bs.map (!·)), by simp [Ds.pickBools, hm, filterApply], by simp [Ds.pickBools, hm, filterApply], ?_⟩
    have := compress_share (d.objects.zip m) bs (by simp [h, ha.1 m hm])
    rwa [compress_zip _ _ _ (ha.1 m hm), compress_zip _ _ _ (ha.1 m hm)] at this
  · refine ⟨compress l bs, compress l (bs.map (!·)), by simp [Ds.pickBools, hl, filterApply], by simp [Ds.pickBools, hl, filterApply], ?_⟩
    have := compress_share (d.objects.zip l) bs (by simp [h, ha.2 l hl])
    rwa [compress_zip _ _ _ (ha.2 l hl), compress_zip _ _ _ (ha.2 l hl)] at this

/-- Selecting by `p` and then, among what is left, by `q` is selecting by `p` and `q` at once, as long as `p` leaves something.
Missing: a first filter which leaves nothing. -/
theorem C182_masks_partial {d : Ds ω F} (ha : Aligned d) {p q : List Bool} (hp : p.length = d.objects.length)
    (hq : q.length = d.objects.length) (hs : true ∈ p) :
    ∃ e f : Ds ω F, d.getitem (.bools p) = .ok (.ds e) ∧ e.getitem (.bools (filterApply q p)) = .ok (.ds f) ∧
      d.getitem (.bools (List.zipWith (· && ·) p q)) = .ok (.ds f) := by
  have hne : d.objects ≠ [] := by
    intro h
    rw [h] at hp
    rw [List.length_eq_zero_iff.1 hp] at hs
    exact absurd hs (by simp)
  have hne' : (d.pickBools p).objects ≠ [] := by
    have : ∀ (l : List ω) (p : List Bool), p.length = l.length → true ∈ p → compress l p ≠ [] := by
      intro l p
      induction p generalizing l with
      | nil => intro _ h; simp at h
      | cons b p ih =>
        intro h ht
        cases l with
        | nil => simp at h
        | cons x l =>
          cases b with
          | true => exact List.cons_ne_nil _ _
          | false => exact ih l (by simpa using h) (by simpa using ht)
    exact this _ _ hp hs
  refine ⟨_, _, getitem_bools hne hp, getitem_bools hne' (compress_length d.objects q p hq), ?_⟩
  rw [getitem_bools hne (by simp [hp, hq])]
  obtain ⟨o, n, c, m, l⟩ := d
  obtain ⟨hm, hl⟩ := ha
  have h1 := compress_compress o p q hp hq
  cases m with
  | none =>
    cases l with
    | none => simp [Ds.pickBools, filterApply, h1]
    | some l => simp [Ds.pickBools, filterApply, h1, compress_compress l p q (by rw [hp, hl l rfl]) (by rw [hq, hl l rfl])]
  | some m =>
    have h2 := compress_compress m p q (by rw [hp, hm m rfl]) (by rw [hq, hm m rfl])
    cases l with
    | none => simp [Ds.pickBools, filterApply, h1, h2]
    | some l => simp [Ds.pickBools, filterApply, h1, h2, compress_compress l p q (by rw [hp, hl l rfl]) (by rw [hq, hl l rfl])]

/-- A clustered dataset of four objects with rows and labels. -/
def exParts : Ds Nat Rat := ⟨[10, 11, 12, 13], "c", some ["x"], some [[0], [1], [2], [3]], some [0, 1, 0, -1]⟩

example : exParts.objects ≠ [] ∧ Aligned exParts := ⟨by simp [exParts], by simp [Aligned, exParts]⟩

example : ∃ e f : Ds Nat Rat, exParts.getitem (.slice none (some (-1)) none) = .ok (.ds e) ∧
    exParts.getitem (.slice (some (-1)) none none) = .ok (.ds f) ∧ e.objects = [10, 11, 12] ∧ f.objects = [13] :=
  ⟨⟨[10, 11, 12], "c", some ["x"], some [[0], [1], [2]], some [0, 1, 0]⟩, ⟨[13], "c", some ["x"], some [[3]], some [-1]⟩,
    by rfl, by rfl, rfl, rfl⟩

example : ∃ e f : Ds Nat Rat, exParts.getitem (.bools [true, false, true, true]) = .ok (.ds e) ∧
    e.getitem (.bools (filterApply [false, true, true, true] [true, false, true, true])) = .ok (.ds f) ∧
    exParts.getitem (.bools (List.zipWith (· && ·) [true, false, true, true] [false, true, true, true])) = .ok (.ds f) :=
  C182_masks_partial (by simp [Aligned, exParts]) rfl rfl (by simp)

end DC.Data
