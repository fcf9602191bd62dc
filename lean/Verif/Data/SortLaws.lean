import Mathlib.Data.List.Sort
import Verif.Data.SortProps
/-
Laws of the sorting of datasets (C184): the order before does not matter, sorting again changes nothing, descending is ascending reversed.
The definitions they are about are in Verif/Data/Dataset.lean.
-/
namespace DC.Data

variable {ω F : Type}

/-! ### Specification -/

/-- The values by which the dataset is sorted are those of `val` on its objects. -/
def Reads (O : Objs ω F) (d : Ds ω F) (key : SortKey) (val : ω → F) : Prop := ∃ r, d.sortValues O key = .ok (r, d.objects.map val)

/-- No two objects have the same value. -/
def Separates (val : ω → F) (objects : List ω) : Prop := ∀ x ∈ objects, ∀ y ∈ objects, val x = val y → x = y

/-! ### Helpers -/

/-- The values of an attribute that all objects have are read by their name. -/
theorem reads_attr {O : Objs ω F} {d : Ds ω F} {a : String} {val : ω → F} (hne : d.objects ≠ []) (h : ∀ o ∈ d.objects, O.attr o a = some (val o)) :
    Reads O d (.attr a) val := by
  obtain ⟨o, l, hl⟩ := List.exists_cons_of_ne_nil hne
  refine ⟨d, ?_⟩
  have hm : (d.objects.mapM fun o => getattr O o a) = .ok (d.objects.map val) := by
    rw [Py.mapM_ok]
    generalize d.objects = os at h
    clear hl hne
    induction os with
    | nil => exact .nil
    | cons x os ih => exact .cons (getattr_ok.2 (h x (.head _))) (ih fun y hy => h y (.tail _ hy))
  show d.attributeValues O a = _
  unfold Ds.attributeValues
  rw [hl]
  dsimp only
  rw [h o (by rw [hl]; exact .head _)]
  dsimp only
  rw [hl] at hm
  rw [hm]
  rfl

theorem picks_map {α β : Type} {idx : List Nat} {l r : List α} {s : List β} {f : α → β} (h : Picks idx l r) (hs : Picks idx (l.map f) s) : s = r.map f := by
  unfold Picks at h hs
  induction h generalizing s with
  | nil => cases hs; rfl
  | cons hi _ ih =>
    cases hs with
    | cons hj hs =>
      rw [List.getElem?_map, hi] at hj
      simp only [Option.map_some, Option.some.injEq] at hj
      rw [List.map_cons, hj, ih hs]

theorem map_inj_on {val : ω → F} : ∀ {l l' : List ω} {os : List ω}, Separates val os → (∀ x ∈ l, x ∈ os) → (∀ x ∈ l', x ∈ os) →
    l.map val = l'.map val → l = l'
  | [], [], _, _, _, _, _ => rfl
  | [], _ :: _, _, _, _, _, h => by simp at h
  | _ :: _, [], _, _, _, _, h => by simp at h
  | x :: l, y :: l', os, hs, h1, h2, h => by
    simp only [List.map_cons, List.cons.injEq] at h
    rw [hs x (h1 x (.head _)) y (h2 y (.head _)) h.1,
      map_inj_on hs (fun z hz => h1 z (.tail _ hz)) (fun z hz => h2 z (.tail _ hz)) h.2]

variable [LinearOrder F] {O : Objs ω F} {argsort : List F → List Nat}

/-- What a sort gives: the objects permuted, their values in order. -/
theorem sort_values (ha : IsArgsort argsort) {d : Ds ω F} {key : SortKey} {val : ω → F} {asc : Bool} (h : Coherent O d) (hc : Cached d) (hne : d.objects ≠ [])
    (hv : Reads O d key val) : ∃ e, d.sort O argsort key asc = .ok e ∧ e.objects.Perm d.objects ∧ Coherent O e ∧ Cached e ∧
      (e.objects.map val).Pairwise fun x y => if asc then x ≤ y else y ≤ x := by
  obtain ⟨r, hr⟩ := hv
  obtain ⟨-, e, pos, vs', h1, -, h3, h4, h5, h6, -, h8, h9, -⟩ := C46_sort (ascend := asc) ha h hc hr hne
  refine ⟨e, h1, h4, h8, h9, ?_⟩
  rw [← picks_map h3 h5]
  exact h6

theorem sorted_unique {l l' : List F} (hp : l.Perm l') (h : l.Pairwise (· ≤ ·)) (h' : l'.Pairwise (· ≤ ·)) : l = l' :=
  List.Perm.eq_of_pairwise (fun _ _ _ _ h1 h2 => le_antisymm h1 h2) h h' hp

/-! ### C184: sorting does not depend on the order before -/

/-- Two datasets with the same objects in different orders have, once sorted by the same values, their values in the same order;
they have their objects in the same order if no two objects have the same value. -/
theorem C184_order (ha : IsArgsort argsort) {d d' : Ds ω F} {key key' : SortKey} {val : ω → F} {asc : Bool} (h : Coherent O d) (hc : Cached d) (h' : Coherent O d')
    (hc' : Cached d') (hne : d.objects ≠ []) (hp : d'.objects.Perm d.objects) (hv : Reads O d key val) (hv' : Reads O d' key' val) :
    ∃ e e', d.sort O argsort key asc = .ok e ∧ d'.sort O argsort key' asc = .ok e' ∧ e'.objects.map val = e.objects.map val ∧
      (Separates val d.objects → e'.objects = e.objects) := by
  have hne' : d'.objects ≠ [] := fun h0 => hne (by rw [h0] at hp; exact (List.nil_perm.1 hp))
  obtain ⟨e, e1, e2, -, -, e3⟩ := sort_values ha (asc := asc) h hc hne hv
  obtain ⟨e', f1, f2, -, -, f3⟩ := sort_values ha (asc := asc) h' hc' hne' hv'
  have hperm : e'.objects.Perm e.objects := f2.trans (hp.trans e2.symm)
  have heq : e'.objects.map val = e.objects.map val := by
    cases asc with
    | true => exact sorted_unique (hperm.map val) (by simpa using f3) (by simpa using e3)
    | false =>
      have : (e'.objects.map val).reverse = (e.objects.map val).reverse :=
        sorted_unique (((List.reverse_perm _).trans (hperm.map val)).trans (List.reverse_perm _).symm)
          (by rw [List.pairwise_reverse]; simpa using f3) (by rw [List.pairwise_reverse]; simpa using e3)
      exact List.reverse_inj.1 this
  exact ⟨e, e', e1, f1, heq, fun hs => map_inj_on hs (fun x hx => hp.mem_iff.1 (f2.mem_iff.1 hx)) (fun x hx => e2.mem_iff.1 hx) heq⟩

/-- Sorting in descending order gives the values of the ascending order, reversed; the objects are reversed as well if no two of them
have the same value. -/
theorem C184_descending (ha : IsArgsort argsort) {d : Ds ω F} {key : SortKey} {val : ω → F} (h : Coherent O d) (hc : Cached d) (hne : d.objects ≠ [])
    (hv : Reads O d key val) :
    ∃ e e', d.sort O argsort key true = .ok e ∧ d.sort O argsort key false = .ok e' ∧ e'.objects.map val = (e.objects.map val).reverse ∧
      (Separates val d.objects → e'.objects = e.objects.reverse) := by
  obtain ⟨e, e1, e2, -, -, e3⟩ := sort_values ha (asc := true) h hc hne hv
  obtain ⟨e', f1, f2, -, -, f3⟩ := sort_values ha (asc := false) h hc hne hv
  have heq : (e'.objects.map val).reverse = e.objects.map val :=
    sorted_unique ((List.reverse_perm _).trans ((f2.trans e2.symm).map val)) (by rw [List.pairwise_reverse]; simpa using f3) (by simpa using e3)
  refine ⟨e, e', e1, f1, by rw [← heq, List.reverse_reverse], fun hs => ?_⟩
  refine map_inj_on hs (fun x hx => f2.mem_iff.1 hx) (fun x hx => e2.mem_iff.1 (by simpa using hx)) ?_
  rw [List.map_reverse, ← heq, List.reverse_reverse]

/-- Sorting again what is sorted, by an attribute which all objects have, keeps the values in their places, and the objects as well if
no two of them have the same value. -/
theorem C184_again (ha : IsArgsort argsort) {d : Ds ω F} {a : String} {val : ω → F} {asc : Bool} (h : Coherent O d) (hc : Cached d) (hne : d.objects ≠ [])
    (hval : ∀ o ∈ d.objects, O.attr o a = some (val o)) :
    ∃ e e', d.sort O argsort (.attr a) asc = .ok e ∧ e.sort O argsort (.attr a) asc = .ok e' ∧ e'.objects.map val = e.objects.map val ∧
      (Separates val d.objects → e'.objects = e.objects) := by
  have hv := reads_attr hne hval
  obtain ⟨e, e1, e2, e3, e4, e5⟩ := sort_values ha (asc := asc) h hc hne hv
  have hne' : e.objects ≠ [] := fun h0 => hne (by rw [h0] at e2; exact (List.nil_perm.1 e2))
  obtain ⟨r, e', h1, h2, h3, h4⟩ := C184_order ha (asc := asc) h hc e3 e4 hne e2 hv (reads_attr hne' fun o ho => hval o (e2.mem_iff.1 ho))
  rw [e1] at h1
  cases h1
  exact ⟨_, e', e1, h2, h3, h4⟩

/-- Objects with one feature, which is `0` for all of them. -/
def tied : Objs Nat Nat where
  cls _ := 0
  features _ := ["a"]
  vector _ := [0]
  attr _ a := if a = "a" then some 0 else none
  aligned _ := rfl

/-- A sort which puts equal values in the reverse of their order. -/
def lastFirst (vs : List Nat) : List Nat := (sortBy (fun i j => decide (vs.getD j 0 ≤ vs.getD i 0)) (List.range vs.length)).reverse

theorem lastFirst_argsort : IsArgsort lastFirst := by
  intro vs
  refine ⟨(List.reverse_perm _).trans (sortBy_perm _ _), fun vs' h => ?_⟩
  have hs := sortBy_pairwise (le := fun i j : Nat => decide (vs.getD j 0 ≤ vs.getD i 0))
    (fun a b c h1 h2 => by simp only [decide_eq_true_eq] at *; omega) (fun a b => by simp only [decide_eq_true_eq]; omega) (List.range vs.length)
  unfold lastFirst at h
  generalize sortBy (fun i j : Nat => decide (vs.getD j 0 ≤ vs.getD i 0)) (List.range vs.length) = idx at h hs
  have hr := picks_reverse h
  have hpair : vs'.reverse = idx.map fun i => vs.getD i 0 := by
    clear hs h
    generalize vs'.reverse = ws at hr
    unfold Picks at hr
    induction hr with
    | nil => rfl
    | cons hi _ ih => rw [List.map_cons, ← ih]; simp [hi]
  rw [← List.pairwise_reverse, hpair, List.pairwise_map]
  exact hs.imp fun h => by simpa using h

/-- With equal values the order of the objects may change from one sort to the next, since numpy's default sort is not stable: here with
a sort which numpy's contract allows. -/
theorem C184_ties : ∃ (argsort : List Nat → List Nat) (d e e' : Ds Nat Nat), IsArgsort argsort ∧
    d.sort tied argsort (.attr "a") true = .ok e ∧ e.sort tied argsort (.attr "a") true = .ok e' ∧ e'.objects ≠ e.objects :=
  ⟨lastFirst, Ds.init [1, 2] "d", Ds.init [2, 1] "d", Ds.init [1, 2] "d", lastFirst_argsort, by rfl, by rfl, by decide⟩

/-- Three objects of different values meet the hypotheses. -/
example : ∃ e e', (Ds.init [1, 0, 4] "d" : Ds Nat Nat).sort demo lastFirst (.attr "a") true = .ok e ∧
    (Ds.init [1, 0, 4] "d" : Ds Nat Nat).sort demo lastFirst (.attr "a") false = .ok e' ∧ e.objects = [0, 1, 4] ∧ e'.objects = e.objects.reverse :=
  ⟨Ds.init [0, 1, 4] "d", Ds.init [4, 1, 0] "d", by rfl, by rfl, rfl, rfl⟩

example : Reads demo (Ds.init [1, 0, 4] "d") (.attr "a") id ∧ Separates (id : Nat → Nat) [1, 0, 4] ∧ Cached (Ds.init [1, 0, 4] "d" : Ds Nat Nat) :=
  ⟨reads_attr (by simp [Ds.init]) (fun o _ => rfl), fun _ _ _ _ h => h, fun h => by simp [Ds.init] at h⟩

end DC.Data
