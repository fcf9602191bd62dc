import Verif.Data.StatsProps
import Mathlib.Algebra.BigOperators.Group.List.Basic
import Mathlib.Tactic.FieldSimp
import Mathlib.Tactic.LinearCombination
/- Property C192: the statistics of datasets which are reordered or put together. -/
namespace DC.Data

variable {ω F : Type} [Field F] [LinearOrder F] [IsStrictOrderedRing F]

set_option linter.unusedSectionVars false

/-! ### Helpers -/

theorem valuesOf_append {O : Objs ω F} {a : String} : ∀ {l m : List ω} {vs : List F}, ValuesOf O (l ++ m) a vs →
    ∃ us ws, ValuesOf O l a us ∧ ValuesOf O m a ws ∧ vs = us ++ ws
  | [], _, vs, h => ⟨[], vs, .nil, h, rfl⟩
  | _ :: _, _, _, .cons h t => by
    obtain ⟨us, ws, h1, h2, rfl⟩ := valuesOf_append t
    exact ⟨_ :: us, ws, .cons h h1, h2, rfl⟩

theorem valuesOf_perm {O : Objs ω F} {a : String} {l m : List ω} (hp : l.Perm m) : ∀ {vs ws : List F}, ValuesOf O l a vs →
    ValuesOf O m a ws → vs.Perm ws := by
  induction hp with
  | nil => intro vs ws h h'; cases h; cases h'; exact .nil
  | cons x _ ih =>
    intro vs ws h h'
    cases h with
    | cons h t => cases h' with
      | cons h' t' =>
        rw [valueOf_unique h h']
        exact (ih t t').cons _
  | swap x y l =>
    intro vs ws h h'
    cases h with
    | cons h t => cases t with
      | cons h2 t => cases h' with
        | cons h' t' => cases t' with
          | cons h2' t' =>
            rw [valueOf_unique h h2', valueOf_unique h2 h', valuesOf_unique t t']
            exact .swap _ _ _
  | @trans l1 l2 l3 h1 h2 ih1 ih2 =>
    intro vs ws h h'
    have hall : ∀ o ∈ l2, ∃ v, ValueOf O o a v := fun o ho => by
      have ho' : o ∈ l1 := h1.mem_iff.2 ho
      obtain ⟨i, hi, rfl⟩ := List.mem_iff_getElem.1 ho'
      have hi' : i < vs.length := by rw [← h.length_eq]; exact hi
      exact ⟨vs[i], (forall2_get.1 h).2 i _ _ (List.getElem?_eq_getElem hi) (List.getElem?_eq_getElem hi')⟩
    obtain ⟨us, hu⟩ : ∃ us, ValuesOf O l2 a us := by
      clear h1 h2 ih1 ih2 h h'
      induction l2 with
      | nil => exact ⟨[], .nil⟩
      | cons o l ih =>
        obtain ⟨v, hv⟩ := hall o (.head _)
        obtain ⟨us, hu⟩ := ih fun o ho => hall o (.tail _ ho)
        exact ⟨v :: us, .cons hv hu⟩
    exact (ih1 h hu).trans (ih2 hu h')

theorem mean_perm {v w : List F} (h : v.Perm w) : mean v = mean w := by
  unfold mean
  rw [h.sum_eq, h.length_eq]

theorem variance_perm {v w : List F} (h : v.Perm w) : variance v = variance w := by
  unfold variance
  rw [mean_perm h]
  exact mean_perm (h.map _)

theorem mean_mul {v : List F} (h : v ≠ []) : mean v * v.length = v.sum := by
  have : (v.length : F) ≠ 0 := by
    exact_mod_cast fun h0 => h (List.length_eq_zero_iff.1 h0)
  unfold mean
  field_simp

/-- The sum of the squares of the distances to any point. -/
theorem sum_squares (m c : F) : ∀ v : List F, (v.map fun x => (x - c) * (x - c)).sum =
    (v.map fun x => (x - m) * (x - m)).sum + 2 * (m - c) * (v.sum - m * v.length) + (m - c) * (m - c) * v.length
  | [] => by simp
  | x :: v => by
    simp only [List.map_cons, List.sum_cons, List.length_cons, Nat.cast_add, Nat.cast_one, sum_squares m c v]
    ring

theorem variance_mul {v : List F} (h : v ≠ []) : variance v * v.length = (v.map fun x => (x - mean v) * (x - mean v)).sum := by
  have h' : (v.map fun x => (x - mean v) * (x - mean v)) ≠ [] := by simpa using h
  have := mean_mul h'
  simpa [variance] using this

theorem squares_to {v : List F} (h : v ≠ []) (c : F) : (v.map fun x => (x - c) * (x - c)).sum =
    variance v * v.length + (mean v - c) * (mean v - c) * v.length := by
  rw [sum_squares (mean v) c, variance_mul h, ← mean_mul h]
  ring

/-- Means of values put together. -/
theorem mean_append {u v : List F} (hu : u ≠ []) (hv : v ≠ []) :
    mean (u ++ v) * (u.length + v.length) = mean u * u.length + mean v * v.length := by
  have := mean_mul (v := u ++ v) (by simp [hu])
  rw [List.length_append, List.sum_append, ← mean_mul hu, ← mean_mul hv] at this
  exact_mod_cast this

/-- Variances of values put together. -/
theorem variance_append {u v : List F} (hu : u ≠ []) (hv : v ≠ []) :
    variance (u ++ v) * (u.length + v.length) = variance u * u.length + variance v * v.length +
      (mean u - mean v) * (mean u - mean v) * (u.length * v.length) / (u.length + v.length) := by
  have hlu : (0 : F) < u.length := by exact_mod_cast List.length_pos_iff.2 hu
  have hlv : (0 : F) < v.length := by exact_mod_cast List.length_pos_iff.2 hv
  have hl : ((u.length : F) + v.length) ≠ 0 := by positivity
  have h1 := variance_mul (v := u ++ v) (by simp [hu])
  rw [List.map_append, List.sum_append, squares_to hu, squares_to hv, List.length_append] at h1
  push_cast at h1
  rw [h1]
  have hm := mean_append hu hv
  have hm' : mean (u ++ v) = (mean u * u.length + mean v * v.length) / (u.length + v.length) := by
    rw [eq_div_iff hl, hm]
  rw [hm']
  field_simp
  ring

/-! ### C192 -/

theorem stats_of {O : Objs ω F} {d : Ds ω F} (h : Coherent O d) (hne : d.objects ≠ []) :
    ∃ ms vars, d.mean O = .ok ms ∧ d.variances O = .ok vars ∧
      List.Forall₂ (fun a m => ∃ vs, ValuesOf O d.objects a vs ∧ m = mean vs) (d.commonAttributes O).2 ms ∧
      List.Forall₂ (fun a s => ∃ vs, ValuesOf O d.objects a vs ∧ s = variance vs) (d.commonAttributes O).2 vars := by
  obtain ⟨ms, h1, h2⟩ := C148_mean h hne
  obtain ⟨vars, h3, h4⟩ := C148_variances h hne
  refine ⟨ms, vars, h1, h3, h2.imp fun a m ⟨vs, hv, hm, _⟩ => ⟨vs, hv, ?_⟩, h4.imp fun a s ⟨vs, hv, hc, _⟩ => ⟨vs, hv, ?_⟩⟩
  · have hn : (vs.length : F) ≠ 0 := by
      have := hv.length_eq
      exact_mod_cast fun h0 => hne (List.length_eq_zero_iff.1 (by omega))
    unfold mean
    rw [eq_div_iff hn, ← hv.length_eq, hm]
  · have hvn : vs ≠ [] := fun h0 => by
      rw [h0] at hv
      exact hne (List.length_eq_zero_iff.1 hv.length_eq)
    have := (C50_variance hvn).1
    rw [hc] at this
    exact Except.ok.inj this

theorem forall2_eq {α β : Type} {R S : α → β → Prop} (hRS : ∀ a b c, R a b → S a c → b = c) : ∀ {l : List α} {x y : List β},
    List.Forall₂ R l x → List.Forall₂ S l y → x = y
  | _, _, _, .nil, .nil => rfl
  | _, _, _, .cons h t, .cons h' t' => by rw [hRS _ _ _ h h', forall2_eq hRS t t']

/-- Reordering the objects of a dataset changes neither its means nor its variances.
Missing: datasets of several classes, whose common attributes may come in an other order (`C192_order_violated`). -/
theorem C192_reorder_partial {O : Objs ω F} {d e : Ds ω F} (hd : Coherent O d) (he : Coherent O e)
    (hp : d.objects.Perm e.objects) (hne : d.objects ≠ []) (hn : (d.commonAttributes O).2 = (e.commonAttributes O).2) :
    d.mean O = e.mean O ∧ d.variances O = e.variances O ∧ ∃ ms vars, d.mean O = .ok ms ∧ d.variances O = .ok vars := by
  have hne' : e.objects ≠ [] := fun h => hne (by rw [h] at hp; exact hp.eq_nil)
  obtain ⟨ms, vars, h1, h2, h3, h4⟩ := stats_of hd hne
  obtain ⟨ms', vars', h1', h2', h3', h4'⟩ := stats_of he hne'
  rw [← hn] at h3' h4'
  have hm : ms = ms' := forall2_eq (fun a b c ⟨vs, hv, hb⟩ ⟨ws, hw, hc⟩ => by
    rw [hb, hc]; exact mean_perm (valuesOf_perm hp hv hw)) h3 h3'
  have hs : vars = vars' := forall2_eq (fun a b c ⟨vs, hv, hb⟩ ⟨ws, hw, hc⟩ => by
    rw [hb, hc]; exact variance_perm (valuesOf_perm hp hv hw)) h4 h4'
  exact ⟨by rw [h1, h1', hm], by rw [h2, h2', hs], ms, vars, h1, h2⟩

/-- Sorting a dataset changes neither its means nor its variances, when its common attributes come in the same order after the sort.
Missing: common attributes in another order after the sort (`C192_order_violated`). -/
theorem C192_sort_partial {O : Objs ω F} {argsort : List F → List Nat} (hargsort : IsArgsort argsort) {d r e : Ds ω F} {key : SortKey}
    {vs : List F} {ascend : Bool} (h : Coherent O d) (hc : Cached d) (hv : d.sortValues O key = .ok (r, vs)) (hne : d.objects ≠ [])
    (he : d.sort O argsort key ascend = .ok e) (hn : (d.commonAttributes O).2 = (e.commonAttributes O).2) :
    d.mean O = e.mean O ∧ d.variances O = e.variances O := by
  obtain ⟨-, e', pos, vs', h1, -, -, hp, -, -, -, hco, -⟩ := C46_sort (ascend := ascend) hargsort h hc hv hne
  rw [he] at h1
  cases h1
  obtain ⟨g1, g2, -⟩ := C192_reorder_partial h hco hp.symm hne hn
  exact ⟨g1, g2⟩

/-- Objects of two classes, whose features are the same in two orders. -/
def swapObjs : Objs (Bool × Rat × Rat) Rat where
  cls o := if o.1 then 1 else 0
  features c := if c = 0 then ["x", "y"] else ["y", "x"]
  vector o := if o.1 then [o.2.2, o.2.1] else [o.2.1, o.2.2]
  attr _ _ := none
  aligned := by rintro ⟨b, x, y⟩; cases b <;> rfl

/-- **C192** is violated by the code: the means follow the features of the first object. -/
theorem C192_order_violated :
    (Ds.init [(false, 1, 2), (true, 3, 6)] "d" : Ds (Bool × Rat × Rat) Rat).mean swapObjs = .ok [2, 4] ∧
    (Ds.init [(true, 3, 6), (false, 1, 2)] "d" : Ds (Bool × Rat × Rat) Rat).mean swapObjs = .ok [4, 2] := by
  constructor <;> decide +kernel

/-- Two objects in the two orders. -/
example : (Ds.init [[0, 0], [2, 4]] "d" : Ds (List Rat) Rat).mean statObjs = .ok [1, 2] ∧
    (Ds.init [[0, 0], [2, 4]] "d" : Ds (List Rat) Rat).mean statObjs = (Ds.init [[2, 4], [0, 0]] "d" : Ds (List Rat) Rat).mean statObjs :=
  ⟨by decide +kernel, (C192_reorder_partial (C47_init _ _ rfl rfl) (C47_init _ _ rfl rfl) (.swap _ _ _) (by simp [Ds.init])
    (by decide +kernel)).1⟩

/-- Three lists of numbers, of the same length, are related number by number. -/
def Each (R : F → F → F → Prop) (x y z : List F) : Prop :=
  x.length = z.length ∧ y.length = z.length ∧ ∀ (k : Nat) (a b c : F), x[k]? = some a → y[k]? = some b → z[k]? = some c → R a b c

theorem each_of {α : Type} {P Q S : α → F → Prop} {R : F → F → F → Prop} {l : List α} {x y z : List F} (h1 : List.Forall₂ P l x)
    (h2 : List.Forall₂ Q l y) (h3 : List.Forall₂ S l z) (h : ∀ a p q s, P a p → Q a q → S a s → R p q s) : Each R x y z := by
  refine ⟨by rw [← h1.length_eq, h3.length_eq], by rw [← h2.length_eq, h3.length_eq], fun k a b c ha hb hc => ?_⟩
  have hk : k < l.length := by rw [h1.length_eq]; exact (List.getElem?_eq_some_iff.1 ha).1
  have hl := List.getElem?_eq_getElem hk
  exact h l[k] a b c ((forall2_get.1 h1).2 k _ _ hl ha) ((forall2_get.1 h2).2 k _ _ hl hb) ((forall2_get.1 h3).2 k _ _ hl hc)

theorem sum_common {O : Objs ω F} {d e s : Ds ω F} (h : d.add O e = .ok s)
    (hc : (d.commonAttributes O).2 = (e.commonAttributes O).2) : (s.commonAttributes O).2 = (d.commonAttributes O).2 := by
  unfold Ds.add at h
  split at h
  · cases h
  · dsimp only at h
    rw [if_pos (by rw [← hc]; simp)] at h
    cases h
    rfl

/-- In the sum of two datasets which are not empty and have the same common attributes, each mean is that of the two means, counted
with the numbers of objects, and each variance comes from the two variances and the two means.
Missing: datasets having other common attributes, whose sum may not be readable (`C47_sum_violated`). -/
theorem C192_sum_partial {O : Objs ω F} {d e s : Ds ω F} (hd : Coherent O d) (he : Coherent O e) (hadd : d.add O e = .ok s)
    (hnd : d.objects ≠ []) (hne : e.objects ≠ []) (hc : (d.commonAttributes O).2 = (e.commonAttributes O).2) :
    ∃ md me ms vd ve vs, d.mean O = .ok md ∧ e.mean O = .ok me ∧ s.mean O = .ok ms ∧ d.variances O = .ok vd ∧
      e.variances O = .ok ve ∧ s.variances O = .ok vs ∧
      Each (fun a b c : F => c * (d.objects.length + e.objects.length) = a * d.objects.length + b * e.objects.length) md me ms ∧
      vd.length = vs.length ∧ ve.length = vs.length ∧ md.length = vs.length ∧
      ∀ (k : Nat) (ma mb va vb w : F), md[k]? = some ma → me[k]? = some mb → vd[k]? = some va → ve[k]? = some vb →
        vs[k]? = some w → w * (d.objects.length + e.objects.length) = va * d.objects.length + vb * e.objects.length +
          (ma - mb) * (ma - mb) * (d.objects.length * e.objects.length) / (d.objects.length + e.objects.length) := by
  have hcd : (d.commonAttributes O).2 = (s.commonAttributes O).2 := (sum_common hadd hc).symm
  have hce : (e.commonAttributes O).2 = (s.commonAttributes O).2 := hc.symm.trans hcd
  obtain ⟨ho, hs⟩ := C47_sum_partial hd he (fun _ => by rw [hc]; exact he.1) (fun _ _ => hc) hadd
  have hns : s.objects ≠ [] := by rw [ho]; simp [hnd]
  obtain ⟨md, vd, d1, d2, d3, d4⟩ := stats_of hd hnd
  obtain ⟨me, ve, e1, e2, e3, e4⟩ := stats_of he hne
  obtain ⟨ms, vs, s1, s2, s3, s4⟩ := stats_of hs hns
  rw [hcd] at d3 d4
  rw [hce] at e3 e4
  have hnil : ∀ {l : List ω} {a : String} {v : List F}, ValuesOf O l a v → l ≠ [] → v ≠ [] := fun hv hl h0 => by
    rw [h0] at hv
    exact hl (List.length_eq_zero_iff.1 hv.length_eq)
  refine ⟨md, me, ms, vd, ve, vs, d1, e1, s1, d2, e2, s2, each_of d3 e3 s3 ?_,
    by rw [← d4.length_eq, s4.length_eq], by rw [← e4.length_eq, s4.length_eq], by rw [← d3.length_eq, s4.length_eq], ?_⟩
  · rintro a p q r ⟨u, hu, rfl⟩ ⟨v, hv, rfl⟩ ⟨w, hw, rfl⟩
    rw [ho] at hw
    obtain ⟨u', v', hu', hv', rfl⟩ := valuesOf_append hw
    obtain rfl := valuesOf_unique hu hu'
    obtain rfl := valuesOf_unique hv hv'
    rw [hu.length_eq, hv.length_eq]
    exact mean_append (hnil hu hnd) (hnil hv hne)
  · intro k ma mb va vb w h1 h2 h3 h4 h5
    have hk : k < (s.commonAttributes O).2.length := by rw [d3.length_eq]; exact (List.getElem?_eq_some_iff.1 h1).1
    have hl := List.getElem?_eq_getElem hk
    obtain ⟨u1, hu1, rfl⟩ := (forall2_get.1 d3).2 k _ _ hl h1
    obtain ⟨v1, hv1, rfl⟩ := (forall2_get.1 e3).2 k _ _ hl h2
    obtain ⟨u2, hu2, rfl⟩ := (forall2_get.1 d4).2 k _ _ hl h3
    obtain ⟨v2, hv2, rfl⟩ := (forall2_get.1 e4).2 k _ _ hl h4
    obtain ⟨w2, hw2, rfl⟩ := (forall2_get.1 s4).2 k _ _ hl h5
    rw [ho] at hw2
    obtain ⟨u', v', hu', hv', rfl⟩ := valuesOf_append hw2
    obtain rfl := valuesOf_unique hu1 hu'
    obtain rfl := valuesOf_unique hv1 hv'
    obtain rfl := valuesOf_unique hu2 hu1
    obtain rfl := valuesOf_unique hv2 hv1
    rw [hu1.length_eq, hv1.length_eq]
    exact variance_append (hnil hu1 hnd) (hnil hv1 hne)

/-- Two objects and one: the means 1, 2 and 4, 8 give 2, 4; the variances 1, 4 and 0, 0 give 8/3, 32/3. -/
example : ∃ s : Ds (List Rat) Rat, (Ds.init [[0, 0], [2, 4]] "d").add statObjs (Ds.init [[4, 8]] "e") = .ok s ∧
    ((Ds.init [[0, 0], [2, 4]] "d" : Ds (List Rat) Rat).commonAttributes statObjs).2 =
      ((Ds.init [[4, 8]] "e" : Ds (List Rat) Rat).commonAttributes statObjs).2 ∧
    s.mean statObjs = .ok [2, 4] ∧ s.variances statObjs = .ok [8 / 3, 32 / 3] :=
  ⟨_, rfl, by decide +kernel, by decide +kernel, by decide +kernel⟩

end DC.Data
