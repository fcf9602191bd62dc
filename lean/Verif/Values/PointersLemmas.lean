import Verif.Values.PointersSpec
import Verif.Values.SerializeLemmas
import Mathlib.Logic.Relation
import Mathlib.Order.WellFounded
import Mathlib.Data.Fintype.EquivFin
import Mathlib.Order.Preorder.Finite
/- Helper lemmas for Verif/Values/PointersProps.lean. -/
namespace DC

/-! ### Topological order -/

theorem mem_ready {E : List (Path × Path)} {todo : List Path} {n : Path} :
    n ∈ ready E todo ↔ n ∈ todo ∧ ∀ m, (n, m) ∈ E → m ∉ todo := by
  unfold ready
  rw [List.mem_filter, List.all_eq_true]
  constructor
  · rintro ⟨h1, h2⟩
    refine ⟨h1, fun m hm hmt => ?_⟩
    have := h2 (n, m) (List.mem_filter.2 ⟨hm, by simp⟩)
    simp [hmt] at this
  · rintro ⟨h1, h2⟩
    refine ⟨h1, fun e he => ?_⟩
    rw [List.mem_filter] at he
    obtain ⟨he, hn⟩ := he
    have hn : e.1 = n := by simpa using hn
    have := h2 e.2 (by rw [← hn]; exact he)
    simpa using this

theorem fromLeaves_sound {E : List (Path × Path)} : (fuel : Nat) → (todo order : List Path) →
    fromLeaves E fuel todo = some order → todo.Nodup →
    order.Nodup ∧ (∀ n, n ∈ order ↔ n ∈ todo) ∧ order.Pairwise (fun x y => (x, y) ∉ E) ∧ (∀ x ∈ order, (x, x) ∉ E) := by
  intro fuel
  induction fuel with
  | zero =>
    intro todo order h hn
    unfold fromLeaves at h
    split at h
    · rename_i ht; simp at h; subst h; simp [ht]
    · simp at h
  | succ fuel ih =>
    intro todo order h hn
    unfold fromLeaves at h
    split at h
    · rename_i ht; simp at h; subst h; simp [ht]
    · simp only at h
      split at h
      · simp at h
      · rw [Option.map_eq_some_iff] at h
        obtain ⟨rest, hr, rfl⟩ := h
        obtain ⟨h1, h2, h3, h4⟩ := ih _ _ hr (hn.filter _)
        have hlay : ∀ n, n ∈ ready E todo → n ∈ todo := fun n h => (mem_ready.1 h).1
        have hrest : ∀ n, n ∈ rest ↔ n ∈ todo ∧ n ∉ ready E todo := by
          intro n; rw [h2, List.mem_filter]; simp
        refine ⟨?_, ?_, ?_, ?_⟩
        · rw [List.nodup_append]
          refine ⟨hn.filter _, h1, ?_⟩
          rintro a ha b hb rfl
          exact ((hrest a).1 hb).2 ha
        · intro n
          rw [List.mem_append, hrest]
          constructor
          · rintro (h | h)
            · exact hlay n h
            · exact h.1
          · intro h
            by_cases hl : n ∈ ready E todo
            · exact .inl hl
            · exact .inr ⟨h, hl⟩
        · rw [List.pairwise_append]
          refine ⟨?_, h3, ?_⟩
          · apply List.Pairwise.imp_of_mem (R := fun _ _ => True) _ (List.pairwise_of_forall (fun _ _ => trivial))
            intro a b ha hb _ he
            exact (mem_ready.1 ha).2 b he (hlay b hb)
          · intro a ha b hb he
            exact (mem_ready.1 ha).2 b he ((hrest b).1 hb).1
        · intro x hx he
          rw [List.mem_append] at hx
          rcases hx with hx | hx
          · exact (mem_ready.1 hx).2 x he (hlay x hx)
          · exact h4 x hx he

/-- The edges, as a relation. -/
def EdgeOf (E : List (Path × Path)) (a b : Path) : Prop := (a, b) ∈ E

theorem exists_cycle {E : List (Path × Path)} {todo : List Path} (hne : todo ≠ [])
    (h : ∀ n ∈ todo, ∃ m ∈ todo, (n, m) ∈ E) : ∃ a, Relation.TransGen (EdgeOf E) a a := by
  by_contra hc
  have hc : ∀ a, ¬ Relation.TransGen (EdgeOf E) a a := fun a ha => hc ⟨a, ha⟩
  let T := {n : Path // n ∈ todo}
  let r : T → T → Prop := fun a b => Relation.TransGen (EdgeOf E) b.1 a.1
  have : IsTrans T r := ⟨fun a b c h1 h2 => h2.trans h1⟩
  have : Std.Irrefl r := ⟨fun a h => hc a.1 h⟩
  have : Finite T := (List.finite_toSet todo).to_subtype
  have wf : WellFounded r := Finite.wellFounded_of_trans_of_irrefl r
  obtain ⟨n0, hn0⟩ := List.exists_mem_of_ne_nil _ hne
  obtain ⟨m, -, hm⟩ := wf.has_min Set.univ ⟨⟨n0, hn0⟩, trivial⟩
  obtain ⟨k, hk, hE⟩ := h m.1 m.2
  exact hm ⟨k, hk⟩ trivial (.single hE)

theorem fromLeaves_none {E : List (Path × Path)} : (fuel : Nat) → (todo : List Path) → todo.length ≤ fuel →
    fromLeaves E fuel todo = none → ∃ a, Relation.TransGen (EdgeOf E) a a := by
  intro fuel
  induction fuel with
  | zero =>
    intro todo hl h
    have : todo = [] := by cases todo with
      | nil => rfl
      | cons a l => simp at hl
    unfold fromLeaves at h
    rw [if_pos this] at h; simp at h
  | succ fuel ih =>
    intro todo hl h
    unfold fromLeaves at h
    split at h
    · simp at h
    · rename_i hne
      simp only at h
      split at h
      · rename_i hlay
        apply exists_cycle hne
        intro n hn
        by_contra hcon
        have : n ∈ ready E todo := mem_ready.2 ⟨hn, fun m hm hmt => hcon ⟨m, hmt, hm⟩⟩
        rw [hlay] at this; simp at this
      · rename_i hlay
        rw [Option.map_eq_none_iff] at h
        apply ih _ _ h
        obtain ⟨n, hn⟩ := List.exists_mem_of_ne_nil _ hlay
        have : (todo.filter (fun n => !(ready E todo).contains n)).length < todo.length := by
          apply List.length_filter_lt_length_iff_exists.2
          exact ⟨n, (mem_ready.1 hn).1, by simpa using hn⟩
        omega

theorem edge_before {E : List (Path × Path)} {order : List Path} (hn : order.Nodup)
    (hp : order.Pairwise (fun x y => (x, y) ∉ E)) (hi : ∀ x ∈ order, (x, x) ∉ E) {a b : Path} (ha : a ∈ order)
    (hb : b ∈ order) (h : (a, b) ∈ E) : Before order b a := by
  have hne : a ≠ b := by rintro rfl; exact hi a ha h
  obtain ⟨l1, l2, rfl⟩ := List.append_of_mem ha
  rw [List.mem_append, List.mem_cons] at hb
  rcases hb with hb | hb | hb
  · have : List.Sublist [b] l1 := List.singleton_sublist.2 hb
    exact this.append ((List.nil_sublist l2).cons_cons a)
  · exact absurd hb.symm hne
  · rw [List.pairwise_append, List.pairwise_cons] at hp
    exact absurd h (hp.2.1.1 b hb)

theorem Before.idx {l : List Path} (hn : l.Nodup) {x y : Path} (h : Before l x y) : l.idxOf x < l.idxOf y := by
  induction l with
  | nil => simp [Before] at h
  | cons c l ih =>
    rw [List.nodup_cons] at hn
    unfold Before at h ih
    rw [List.sublist_cons_iff] at h
    rcases h with h | ⟨r, hr, h⟩
    · have hx : x ∈ l := h.subset (by simp)
      have hy : y ∈ l := h.subset (by simp)
      have hcx : c ≠ x := by rintro rfl; exact hn.1 hx
      have hcy : c ≠ y := by rintro rfl; exact hn.1 hy
      rw [List.idxOf_cons_ne _ hcx, List.idxOf_cons_ne _ hcy]
      have := ih hn.2 h
      omega
    · simp only [List.cons.injEq] at hr
      obtain ⟨rfl, rfl⟩ := hr
      have hy : y ∈ l := h.subset (by simp)
      have hcy : x ≠ y := by rintro rfl; exact hn.1 hy
      rw [List.idxOf_cons_self, List.idxOf_cons_ne _ hcy]
      omega

theorem acyclic_of_order {E : List (Path × Path)} {order : List Path} (hn : order.Nodup)
    (hp : order.Pairwise (fun x y => (x, y) ∉ E)) (hi : ∀ x ∈ order, (x, x) ∉ E)
    (hm : ∀ e ∈ E, e.1 ∈ order ∧ e.2 ∈ order) (a : Path) : ¬ Relation.TransGen (EdgeOf E) a a := by
  have key : ∀ x y, Relation.TransGen (EdgeOf E) x y → order.idxOf y < order.idxOf x := by
    intro x y h
    induction h with
    | single h => exact (edge_before hn hp hi (hm _ h).1 (hm _ h).2 h).idx hn
    | tail _ h ih => exact Nat.lt_trans ((edge_before hn hp hi (hm _ h).1 (hm _ h).2 h).idx hn) ih
  intro h
  exact absurd (key a a h) (Nat.lt_irrefl _)

theorem before_filter {l : List Path} {f : Path → Bool} {x y : Path} (h : Before l x y) (hx : f x = true)
    (hy : f y = true) : Before (l.filter f) x y := by
  have := h.filter f
  simpa [Before, hx, hy] using this

/-! ### Paths -/

theorem mem_prefixes {p q : Path} : q ∈ prefixes p ↔ q ≠ [] ∧ ∃ t, p = q ++ t := by
  induction p generalizing q with
  | nil =>
    simp only [prefixes, List.not_mem_nil, false_iff, not_and, not_exists]
    intro h t ht
    apply h
    cases q with
    | nil => rfl
    | cons a q => simp at ht
  | cons s rest ih =>
    simp only [prefixes, List.mem_cons, List.mem_map]
    constructor
    · rintro (rfl | ⟨q', hq', rfl⟩)
      · exact ⟨by simp, rest, rfl⟩
      · obtain ⟨_, t, rfl⟩ := ih.1 hq'
        exact ⟨by simp, t, rfl⟩
    · rintro ⟨hne, t, ht⟩
      cases q with
      | nil => exact absurd rfl hne
      | cons a q =>
        simp only [List.cons_append, List.cons.injEq] at ht
        obtain ⟨rfl, ht⟩ := ht
        cases q with
        | nil => exact .inl rfl
        | cons b q => exact .inr ⟨b :: q, ih.2 ⟨by simp, t, ht⟩, rfl⟩

theorem steps_map {α β : Type} (f : α → β) (l : List α) : steps (l.map f) = (steps l).map (fun e => (f e.1, f e.2)) := by
  induction l with
  | nil => rfl
  | cons a l ih =>
    cases l with
    | nil => rfl
    | cons b l => simp only [List.map_cons, steps] at ih ⊢; rw [ih]

theorem mem_steps_prefixes {p a b : Path} :
    (a, b) ∈ steps (prefixes p) ↔ a ≠ [] ∧ ∃ s t, p = a ++ s :: t ∧ b = a ++ [s] := by
  induction p generalizing a b with
  | nil => simp [prefixes, steps]
  | cons s rest ih =>
    cases rest with
    | nil =>
      simp only [prefixes, List.map_nil, steps, List.not_mem_nil, false_iff]
      rintro ⟨hne, s', t, h, _⟩
      cases a with
      | nil => exact hne rfl
      | cons x a => simp at h
    | cons s2 rest =>
      have e : steps (prefixes (s :: s2 :: rest)) = ([s], [s, s2]) ::
          (steps (prefixes (s2 :: rest))).map (fun e => (s :: e.1, s :: e.2)) := by
        rw [← steps_map]; rfl
      rw [e, List.mem_cons, List.mem_map]
      constructor
      · rintro (h | ⟨⟨a', b'⟩, h1, h2⟩)
        · simp only [Prod.mk.injEq] at h
          obtain ⟨rfl, rfl⟩ := h
          exact ⟨by simp, s2, rest, rfl, rfl⟩
        · obtain ⟨_, s', t, h3, h4⟩ := ih.1 h1
          simp only [Prod.mk.injEq] at h2
          obtain ⟨rfl, rfl⟩ := h2
          exact ⟨by simp, s', t, by rw [h3]; rfl, by rw [h4]; rfl⟩
      · rintro ⟨hne, s', t, h1, h2⟩
        cases a with
        | nil => exact absurd rfl hne
        | cons x a =>
          simp only [List.cons_append, List.cons.injEq] at h1
          obtain ⟨rfl, h1⟩ := h1
          cases a with
          | nil =>
            simp only [List.nil_append, List.cons.injEq] at h1
            obtain ⟨rfl, rfl⟩ := h1
            exact .inl (by rw [h2]; rfl)
          | cons y a =>
            right
            refine ⟨(y :: a, y :: a ++ [s']), ih.2 ⟨by simp, s', t, h1, rfl⟩, ?_⟩
            rw [h2]; rfl

theorem splitChars_ne (cs : List Char) : splitChars cs ≠ [] := by
  cases cs with
  | nil => simp [splitChars]
  | cons c cs =>
    rw [splitChars]
    split
    · simp
    · split <;> simp

theorem splitSlash_ne (s : String) : splitSlash s ≠ [] := by
  unfold splitSlash
  simpa using splitChars_ne s.toList

theorem splitChars_head (cs : List Char) : (splitChars cs).head? = some (cs.takeWhile (· ≠ '/')) := by
  induction cs with
  | nil => rfl
  | cons c cs ih =>
    rw [splitChars]
    split
    · rename_i h; simp [h]
    · rename_i h
      rw [List.takeWhile_cons]
      simp only [ne_eq, h, not_false_eq_true, decide_true, if_true]
      split
      · rename_i e; exact absurd e (splitChars_ne cs)
      · rename_i e
        rw [e] at ih
        simp only [List.head?_cons, Option.some.injEq] at ih ⊢
        rw [ih]

theorem fromRoot_iff (r : String) : FromRoot r ↔ (splitSlash r).head? = some "#" := by
  have key : (splitSlash r).head? = some (String.ofList (r.toList.takeWhile (· ≠ '/'))) := by
    unfold splitSlash; rw [List.head?_map, splitChars_head]; rfl
  rw [key]
  have hofl : ∀ cs : List Char, String.ofList cs = "#" ↔ cs = ['#'] := by
    intro cs
    constructor
    · intro h
      have := congrArg String.toList h
      simpa using this
    · rintro rfl; rfl
  rw [Option.some.injEq, hofl]
  unfold FromRoot
  cases r.toList with
  | nil => simp
  | cons c cs =>
    cases cs with
    | nil =>
      rw [List.takeWhile_cons]
      by_cases h : c = '/'
      · subst h; simp
      · simp [h]
    | cons c2 cs =>
      rw [List.takeWhile_cons, List.takeWhile_cons]
      by_cases h : c = '/'
      · subst h; simp
      · by_cases h2 : c2 = '/'
        · subst h2; simp [h]
        · simp [h, h2]

/-! ### Climbing -/

theorem climb_mono {n m : Nat} {p : Path} {l : List Path} (h : climb n p = some l) (hle : n ≤ m) :
    climb m p = some l := by
  induction n generalizing m p l with
  | zero =>
    unfold climb at h
    split at h
    · rename_i hp; unfold climb; rw [if_pos hp]; exact h
    · simp at h
  | succ n ih =>
    unfold climb at h
    split at h
    · rename_i hp; unfold climb; rw [if_pos hp]; exact h
    · rename_i hp
      simp only [Option.map_eq_some_iff] at h
      obtain ⟨l', h1, rfl⟩ := h
      cases m with
      | zero => omega
      | succ m =>
        unfold climb; rw [if_neg hp]
        simp only [ih h1 (by omega : n ≤ m), Option.map_some]

theorem climb_head {n : Nat} {p : Path} {l : List Path} (hne : p ≠ []) (h : climb n p = some l) :
    p.head? = some "#" := by
  induction n generalizing p l with
  | zero =>
    unfold climb at h
    split at h
    · rename_i hp; rw [hp]; rfl
    · simp at h
  | succ n ih =>
    unfold climb at h
    split at h
    · rename_i hp; rw [hp]; rfl
    · simp only [Option.map_eq_some_iff] at h
      obtain ⟨l', h1, _⟩ := h
      unfold parent at h1
      split at h1
      · have := ih (by simp) h1
        simp at this
      · rename_i hq
        have := ih (fun e => hq e) h1
        cases p with
        | nil => exact absurd rfl hne
        | cons s p =>
          cases p with
          | nil => simp at hq
          | cons s2 p => simpa using this

theorem climb_rooted {n : Nat} {p : Path} (h : p.head? = some "#") (hl : p.length ≤ n) : ∃ l, climb n p = some l := by
  induction n generalizing p with
  | zero => cases p with
    | nil => simp at h
    | cons s p => simp at hl
  | succ n ih =>
    unfold climb
    split
    · exact ⟨_, rfl⟩
    · rename_i hp
      cases p with
      | nil => simp at h
      | cons s p =>
        cases p with
        | nil => simp at h; subst h; exact absurd rfl hp
        | cons s2 p =>
          have hpar : parent (s :: s2 :: p) = s :: (s2 :: p).dropLast := rfl
          obtain ⟨l, hl'⟩ := ih (p := s :: (s2 :: p).dropLast) (by simpa using h) (by simp at hl ⊢; omega)
          exact ⟨(s :: s2 :: p) :: l, by simp only [hpar, hl', Option.map_some]⟩

theorem extras_some_iff {fuel : Nat} {refs l : List (Path × Path)} :
    (∃ r, extras fuel refs l = some r) ↔ ∀ e ∈ l, ∃ c, climb fuel e.2 = some c := by
  induction l with
  | nil => simp [extras]
  | cons e l ih =>
    obtain ⟨p, q⟩ := e
    simp only [extras, List.forall_mem_cons]
    rw [← ih]
    cases climb fuel q with
    | none => simp
    | some c =>
      simp only
      cases extras fuel refs l with
      | none => simp
      | some r => simp

/-! ### References -/

theorem refAt_base {p : Path} {v : V} (hb : isBase v = true) {q : Path} {r : V} : ¬ RefAt p v q r := by
  intro h
  cases h <;> simp [isBase] at hb

mutual
theorem mem_findRefs : (v : V) → (p : Path) → (refs : List (Path × V)) → findRefs p v = .ok refs →
    ∀ q r, (q, r) ∈ refs ↔ RefAt p v q r
  | .dict d, p, refs, h => by
    intro q r
    rw [findRefs] at h
    cases hr : d.lookup (.str "$ref") with
    | some r0 =>
      rw [hr] at h
      simp only [Except.ok.injEq] at h
      subst h
      constructor
      · intro hm
        simp only [List.mem_singleton, Prod.mk.injEq] at hm
        obtain ⟨rfl, rfl⟩ := hm
        exact .here hr
      · intro hm
        cases hm with
        | here h => rw [hr] at h; cases h; simp
        | dict h => rw [hr] at h; cases h
    | none =>
      rw [hr] at h
      rw [mem_findRefsD d p refs h q r]
      constructor
      · rintro ⟨k, w, hm, hw⟩; exact .dict hr hm hw
      · intro hm
        cases hm with
        | here h => rw [hr] at h; cases h
        | dict _ hm hw => exact ⟨_, _, hm, hw⟩
  | .list l, p, refs, h => by
    intro q r
    rw [findRefs] at h
    rw [mem_findRefsL l p 0 refs h q r]
    constructor
    · rintro ⟨j, w, hj, hw⟩
      exact .list hj (by simpa using hw)
    · intro hm
      cases hm with
      | list hj hw => exact ⟨_, _, hj, by simpa using hw⟩
  | .tuple l, p, refs, h => by
    intro q r
    rw [findRefs] at h
    rw [mem_findRefsL l p 0 refs h q r]
    constructor
    · rintro ⟨j, w, hj, hw⟩
      exact .tuple hj (by simpa using hw)
    · intro hm
      cases hm with
      | tuple hj hw => exact ⟨_, _, hj, by simpa using hw⟩
  | .cls _, p, refs, h => by simp [findRefs] at h
  | .other _, p, refs, h => by simp [findRefs] at h
  | .none, p, refs, h | .bool _, p, refs, h | .int _, p, refs, h | .flt _, p, refs, h | .measure _ _, p, refs, h
  | .str _, p, refs, h | .file _ _ _, p, refs, h | .obj _ _, p, refs, h => by
    intro q r
    simp only [findRefs, Except.ok.injEq] at h
    subst h
    simp only [List.not_mem_nil, false_iff]
    intro hm; cases hm
theorem mem_findRefsL : (l : List V) → (p : Path) → (i : Nat) → (refs : List (Path × V)) → findRefsL p i l = .ok refs →
    ∀ q r, (q, r) ∈ refs ↔ ∃ (j : Nat) (w : V), l[j]? = some w ∧ RefAt (p.idx (i + j)) w q r
  | [], p, i, refs, h => by
    intro q r
    simp only [findRefsL, Except.ok.injEq] at h
    subst h; simp
  | v :: vs, p, i, refs, h => by
    intro q r
    rw [findRefsL, bind_ok] at h
    obtain ⟨r1, h1, h⟩ := h
    rw [bind_ok] at h
    obtain ⟨r2, h2, h⟩ := h
    simp only [Except.ok.injEq] at h
    subst h
    rw [List.mem_append, mem_findRefs v _ r1 h1 q r, mem_findRefsL vs p (i + 1) r2 h2 q r]
    constructor
    · rintro (h | ⟨j, w, hj, hw⟩)
      · exact ⟨0, v, rfl, h⟩
      · exact ⟨j + 1, w, by simpa using hj, by rw [show i + (j + 1) = i + 1 + j by omega]; exact hw⟩
    · rintro ⟨j, w, hj, hw⟩
      cases j with
      | zero => simp at hj; subst hj; exact .inl hw
      | succ j => exact .inr ⟨j, w, by simpa using hj, by rw [show i + 1 + j = i + (j + 1) by omega]; exact hw⟩
theorem mem_findRefsD : (d : List (Key × V)) → (p : Path) → (refs : List (Path × V)) → findRefsD p d = .ok refs →
    ∀ q r, (q, r) ∈ refs ↔ ∃ k w, (k, w) ∈ d ∧ RefAt (p.key k) w q r
  | [], p, refs, h => by
    intro q r
    simp only [findRefsD, Except.ok.injEq] at h
    subst h; simp
  | (k, v) :: kvs, p, refs, h => by
    intro q r
    rw [findRefsD] at h
    split at h
    · rename_i hb
      rw [mem_findRefsD kvs p refs h q r]
      constructor
      · rintro ⟨k', w, hm, hw⟩; exact ⟨k', w, List.mem_cons_of_mem _ hm, hw⟩
      · rintro ⟨k', w, hm, hw⟩
        rw [List.mem_cons] at hm
        rcases hm with hm | hm
        · simp only [Prod.mk.injEq] at hm
          rw [hm.2] at hw
          exact absurd hw (refAt_base hb)
        · exact ⟨k', w, hm, hw⟩
    · rw [bind_ok] at h
      obtain ⟨r1, h1, h⟩ := h
      rw [bind_ok] at h
      obtain ⟨r2, h2, h⟩ := h
      simp only [Except.ok.injEq] at h
      subst h
      rw [List.mem_append, mem_findRefs v _ r1 h1 q r, mem_findRefsD kvs p r2 h2 q r]
      constructor
      · rintro (h | ⟨k', w, hm, hw⟩)
        · exact ⟨k, v, by simp, h⟩
        · exact ⟨k', w, List.mem_cons_of_mem _ hm, hw⟩
      · rintro ⟨k', w, hm, hw⟩
        rw [List.mem_cons] at hm
        rcases hm with hm | hm
        · simp only [Prod.mk.injEq] at hm
          obtain ⟨e1, e2⟩ := hm
          rw [e1, e2] at hw
          exact .inl hw
        · exact .inr ⟨k', w, hm, hw⟩
end

theorem refPaths_ok {l : List (Path × V)} {r : List (Path × Path)} (h : refPaths l = .ok r) :
    (∀ p v, (p, v) ∈ l → ∃ s, v = .str s) ∧ ∀ p q, (p, q) ∈ r ↔ ∃ s, (p, V.str s) ∈ l ∧ q = splitSlash s := by
  induction l generalizing r with
  | nil => simp only [refPaths, Except.ok.injEq] at h; subst h; simp
  | cons e l ih =>
    obtain ⟨p0, v0⟩ := e
    rw [refPaths, bind_ok] at h
    obtain ⟨q0, h1, h⟩ := h
    rw [bind_ok] at h
    obtain ⟨r', h2, h⟩ := h
    simp only [Except.ok.injEq] at h
    subst h
    obtain ⟨i1, i2⟩ := ih h2
    unfold refPath at h1
    split at h1
    · rename_i s
      simp only [Except.ok.injEq] at h1
      subst h1
      refine ⟨?_, ?_⟩
      · intro p v hm
        rw [List.mem_cons] at hm
        rcases hm with hm | hm
        · simp only [Prod.mk.injEq] at hm; exact ⟨s, hm.2⟩
        · exact i1 p v hm
      · intro p q
        rw [List.mem_cons, i2]
        constructor
        · rintro (h | ⟨s', h, e⟩)
          · simp only [Prod.mk.injEq] at h; exact ⟨s, by simp [h.1], h.2⟩
          · exact ⟨s', List.mem_cons_of_mem _ h, e⟩
        · rintro ⟨s', h, e⟩
          rw [List.mem_cons] at h
          rcases h with h | h
          · simp only [Prod.mk.injEq, V.str.injEq] at h
            left; rw [e, h.1, h.2]
          · exact .inr ⟨s', h, e⟩
    · simp at h1

theorem refPaths_total {l : List (Path × V)} (h : ∀ p v, (p, v) ∈ l → ∃ s, v = V.str s) : ∃ r, refPaths l = .ok r := by
  induction l with
  | nil => exact ⟨[], rfl⟩
  | cons e l ih =>
    obtain ⟨p, v⟩ := e
    obtain ⟨s, rfl⟩ := h p v (by simp)
    obtain ⟨r, hr⟩ := ih (fun p v hm => h p v (List.mem_cons_of_mem _ hm))
    exact ⟨_, by rw [refPaths, hr]; rfl⟩

theorem refAt_prefix {v : V} {p q : Path} {r : V} (h : RefAt p v q r) : ∃ t, q = p ++ t := by
  induction h with
  | here _ => exact ⟨[], by simp⟩
  | dict _ _ _ ih => obtain ⟨t, ht⟩ := ih; exact ⟨_, by rw [ht, Path.key, List.append_assoc]⟩
  | list _ _ ih => obtain ⟨t, ht⟩ := ih; exact ⟨_, by rw [ht, Path.idx, List.append_assoc]⟩
  | tuple _ _ ih => obtain ⟨t, ht⟩ := ih; exact ⟨_, by rw [ht, Path.idx, List.append_assoc]⟩

/-! ### The graph -/

theorem pointerGraph_ok {fuel : Nat} {v : V} {g : PGraph} (h : pointerGraph fuel v = .ok (some g)) :
    ∃ rs refs extra renamed, findRefs ["#"] v = .ok rs ∧ refPaths rs = .ok refs ∧
      extras fuel (lastWins refs) refs = some (extra, renamed) ∧
      g = { nodes := (refs.flatMap (fun r => prefixes r.1 ++ prefixes r.2) ++ extra.map (·.2)).dedup,
            edges := refs.flatMap (fun r => steps (prefixes r.1) ++ steps (prefixes r.2)) ++ refs ++ extra,
            equals := lastWins renamed } := by
  rw [pointerGraph, bind_ok] at h
  obtain ⟨rs, h1, h⟩ := h
  rw [bind_ok] at h
  obtain ⟨refs, h2, h⟩ := h
  cases he : extras fuel (lastWins refs) refs with
  | none => rw [he] at h; simp at h
  | some er =>
    rw [he] at h
    simp only [Except.ok.injEq, Option.some.injEq] at h
    exact ⟨rs, refs, er.1, er.2, h1, h2, he, h.symm⟩

theorem extras_mem {fuel : Nat} {R l e n : List (Path × Path)} (h : extras fuel R l = some (e, n)) :
    (∀ x ∈ e, (∃ q, (x.1, q) ∈ l) ∨ x ∈ n) ∧ (∀ x ∈ n, x ∈ e ∧ ∃ p q, (p, q) ∈ l ∧ x.1 ∈ prefixes q) := by
  induction l generalizing e n with
  | nil => simp only [extras, Option.some.injEq, Prod.mk.injEq] at h; obtain ⟨rfl, rfl⟩ := h; simp
  | cons a l ih =>
    obtain ⟨p, q⟩ := a
    simp only [extras] at h
    split at h
    · simp at h
    · rename_i crossed _
      split at h
      · simp at h
      · rename_i e2 n2 h2
        obtain ⟨i1, i2⟩ := ih h2
        simp only [Option.some.injEq, Prod.mk.injEq] at h
        obtain ⟨rfl, rfl⟩ := h
        have hx : (∀ x ∈ (extraFor R p q crossed).1, x.1 = p ∨ x ∈ (extraFor R p q crossed).2) ∧
            ∀ x ∈ (extraFor R p q crossed).2, x ∈ (extraFor R p q crossed).1 ∧ x.1 ∈ prefixes q := by
          unfold extraFor
          simp only
          split
          · refine ⟨?_, by simp⟩
            intro x hx
            simp only [List.mem_map] at hx
            obtain ⟨y, _, rfl⟩ := hx
            exact .inl rfl
          · refine ⟨?_, ?_⟩
            · intro x hx
              simp only [List.mem_append, List.mem_map] at hx
              rcases hx with ⟨y, _, rfl⟩ | hx
              · exact .inl rfl
              · exact .inr hx
            · intro x hx
              refine ⟨List.mem_append_right _ hx, ?_⟩
              simp only [List.mem_filterMap] at hx
              obtain ⟨node, hn, hx⟩ := hx
              split at hx
              · simp only [Option.some.injEq] at hx; subst hx
                exact List.mem_of_mem_drop hn
              · simp at hx
        refine ⟨?_, ?_⟩
        · intro x hxm
          rw [List.mem_append] at hxm
          rcases hxm with hxm | hxm
          · rcases hx.1 x hxm with h | h
            · exact .inl ⟨q, by rw [h]; simp⟩
            · exact .inr (List.mem_append_left _ h)
          · rcases i1 x hxm with ⟨q', h⟩ | h
            · exact .inl ⟨q', List.mem_cons_of_mem _ h⟩
            · exact .inr (List.mem_append_right _ h)
        · intro x hxm
          rw [List.mem_append] at hxm
          rcases hxm with hxm | hxm
          · exact ⟨List.mem_append_left _ (hx.2 x hxm).1, p, q, by simp, (hx.2 x hxm).2⟩
          · obtain ⟨h1, p', q', h2, h3⟩ := i2 x hxm
            exact ⟨List.mem_append_right _ h1, p', q', List.mem_cons_of_mem _ h2, h3⟩

/-- What the graph holds: the ends of edges are nodes, the needs of the data are edges, renamings are edges. -/
structure GraphOk (v : V) (g : PGraph) : Prop where
  nodup : g.nodes.Nodup
  ends : ∀ e ∈ g.edges, e.1 ∈ g.nodes ∧ e.2 ∈ g.nodes
  needs : ∀ a b, Needs v a b → (a, b) ∈ g.edges
  renamed : ∀ a b, g.equals.lookup a = some b → (a, b) ∈ g.edges
  renamedFrom : ∀ a b, g.equals.lookup a = some b → a ≠ [] ∧
    ∃ p s t, RefAt ["#"] v p (.str s) ∧ splitSlash s = a ++ t
  root : (∃ p r, RefAt ["#"] v p r) → ["#"] ∈ g.nodes
  strings : ∀ p r, RefAt ["#"] v p r → ∃ s, r = .str s
  fromRoot : ∀ p s, RefAt ["#"] v p (.str s) → FromRoot s
  none_ : (∀ p r, ¬ RefAt ["#"] v p r) → g.nodes = [] ∧ g.edges = []

theorem lookup_mem {α β : Type} [BEq α] [LawfulBEq α] {l : List (α × β)} {a : α} {b : β} (h : l.lookup a = some b) :
    (a, b) ∈ l := by
  induction l with
  | nil => simp at h
  | cons e l ih =>
    obtain ⟨x, y⟩ := e
    rw [List.lookup_cons] at h
    split at h
    · rename_i he
      have : a = x := by simpa using he
      simp only [Option.some.injEq] at h
      rw [this, h]; simp
    · exact List.mem_cons_of_mem _ (ih h)

theorem graphOk {fuel : Nat} {v : V} {g : PGraph} (h : pointerGraph fuel v = .ok (some g)) : GraphOk v g := by
  obtain ⟨rs, refs, extra, renamed, h1, h2, h3, rfl⟩ := pointerGraph_ok h
  have hrs := mem_findRefs v ["#"] rs h1
  obtain ⟨hs, hrefs⟩ := refPaths_ok h2
  obtain ⟨hx1, hx2⟩ := extras_mem h3
  have hpne : ∀ p q, (p, q) ∈ refs → p ≠ [] ∧ q ≠ [] := by
    intro p q hm
    obtain ⟨s, hm', rfl⟩ := (hrefs p q).1 hm
    obtain ⟨t, ht⟩ := refAt_prefix ((hrs p _).1 hm')
    exact ⟨by rw [ht]; simp, splitSlash_ne s⟩
  have hnode : ∀ p q n, (p, q) ∈ refs → (n ∈ prefixes p ∨ n ∈ prefixes q) →
      n ∈ (refs.flatMap (fun r => prefixes r.1 ++ prefixes r.2) ++ extra.map (·.2)).dedup := by
    intro p q n hm hn
    rw [List.mem_dedup, List.mem_append]
    left
    rw [List.mem_flatMap]
    exact ⟨(p, q), hm, by rw [List.mem_append]; exact hn⟩
  have hself : ∀ p : Path, p ≠ [] → p ∈ prefixes p := fun p hp => mem_prefixes.2 ⟨hp, [], by simp⟩
  refine ⟨List.nodup_dedup _, ?_, ?_, ?_, ?_, ?_, ?_, ?_, ?_⟩
  · intro e he
    rw [List.mem_append, List.mem_append] at he
    rcases he with (he | he) | he
    · rw [List.mem_flatMap] at he
      obtain ⟨⟨p, q⟩, hm, he⟩ := he
      rw [List.mem_append] at he
      obtain ⟨a, b⟩ := e
      rcases he with he | he
      · obtain ⟨hne, s, t, h4, h5⟩ := mem_steps_prefixes.1 he
        exact ⟨hnode p q a hm (.inl (mem_prefixes.2 ⟨hne, _, h4⟩)),
          hnode p q b hm (.inl (mem_prefixes.2 ⟨by rw [h5]; simp, t, by rw [h5]; simpa using h4⟩))⟩
      · obtain ⟨hne, s, t, h4, h5⟩ := mem_steps_prefixes.1 he
        exact ⟨hnode p q a hm (.inr (mem_prefixes.2 ⟨hne, _, h4⟩)),
          hnode p q b hm (.inr (mem_prefixes.2 ⟨by rw [h5]; simp, t, by rw [h5]; simpa using h4⟩))⟩
    · obtain ⟨p, q⟩ := e
      obtain ⟨hp, hq⟩ := hpne p q he
      exact ⟨hnode p q p he (.inl (hself p hp)), hnode p q q he (.inr (hself q hq))⟩
    · refine ⟨?_, ?_⟩
      · rcases hx1 e he with ⟨q, hm⟩ | hm
        · exact hnode e.1 q e.1 hm (.inl (hself _ (hpne _ _ hm).1))
        · obtain ⟨_, p, q, hm, hn⟩ := hx2 e hm
          exact hnode p q e.1 hm (.inr hn)
      · rw [List.mem_dedup, List.mem_append]
        right
        exact List.mem_map.2 ⟨e, he, rfl⟩
  · intro a b hab
    rw [List.mem_append, List.mem_append]
    left
    cases hab with
    | target hr => right; rw [hrefs]; exact ⟨_, (hrs _ _).2 hr, rfl⟩
    | @wayTo p r a s b hr hp hne =>
      left
      obtain ⟨s', rfl⟩ := hs p r ((hrs _ _).2 hr)
      rw [List.mem_flatMap]
      refine ⟨(p, splitSlash s'), (hrefs _ _).2 ⟨s', (hrs _ _).2 hr, rfl⟩, ?_⟩
      rw [List.mem_append]
      left
      exact mem_steps_prefixes.2 ⟨hne, s, b, hp, rfl⟩
    | @wayToTarget p r a s b hr hp hne =>
      left
      rw [List.mem_flatMap]
      refine ⟨(p, splitSlash r), (hrefs _ _).2 ⟨r, (hrs _ _).2 hr, rfl⟩, ?_⟩
      rw [List.mem_append]
      right
      exact mem_steps_prefixes.2 ⟨hne, s, b, hp, rfl⟩
  · intro a b hab
    rw [List.mem_append]
    right
    have := lookup_mem hab
    exact (hx2 _ (by unfold lastWins at this; simpa using this)).1
  · intro a b hab
    have := lookup_mem hab
    obtain ⟨_, p, q, hm, hn⟩ := hx2 _ (by unfold lastWins at this; simpa using this)
    obtain ⟨s, hm', rfl⟩ := (hrefs p q).1 hm
    obtain ⟨hne, t, ht⟩ := mem_prefixes.1 hn
    exact ⟨hne, p, s, t, (hrs p _).1 hm', ht⟩
  · rintro ⟨p, r, hr⟩
    obtain ⟨s', rfl⟩ := hs p r ((hrs _ _).2 hr)
    obtain ⟨t, ht⟩ := refAt_prefix hr
    exact hnode p (splitSlash s') ["#"] ((hrefs _ _).2 ⟨s', (hrs _ _).2 hr, rfl⟩)
      (.inl (mem_prefixes.2 ⟨by simp, t, ht⟩))
  · intro p r hr; exact hs p r ((hrs _ _).2 hr)
  · intro p s hr
    rw [fromRoot_iff]
    obtain ⟨c, hc⟩ := (extras_some_iff.1 ⟨_, h3⟩) (p, splitSlash s) ((hrefs _ _).2 ⟨s, (hrs _ _).2 hr, rfl⟩)
    exact climb_head (splitSlash_ne s) hc
  · intro hno
    have : refs = [] := by
      cases refs with
      | nil => rfl
      | cons e l =>
        obtain ⟨s, hm, _⟩ := (hrefs e.1 e.2).1 (by simp)
        exact absurd ((hrs _ _).1 hm) (hno _ _)
    subst this
    simp only [extras, Option.some.injEq, Prod.mk.injEq] at h3
    obtain ⟨rfl, rfl⟩ := h3
    exact ⟨rfl, rfl⟩

/-- The cases of `deserialization_order`. -/
theorem order_ok {fuel : Nat} {v : V} {order : List (Path × Option Path)}
    (h : deserializationOrder fuel v = .ok (some order)) :
    ∃ g, pointerGraph fuel v = .ok (some g) ∧ (((∀ p r, ¬ RefAt ["#"] v p r) ∧ order = []) ∨
      ∃ o, fromLeaves g.edges g.nodes.length g.nodes = some o ∧
        order = (o.filter (· ≠ ["#"])).map (fun n => (n, g.equals.lookup n))) := by
  rw [deserializationOrder, bind_ok] at h
  obtain ⟨og, hg, h⟩ := h
  cases og with
  | none => simp at h
  | some g =>
    refine ⟨g, hg, ?_⟩
    simp only at h
    split at h
    · rename_i hr
      simp only [Except.ok.injEq, Option.some.injEq] at h
      left
      refine ⟨?_, h.symm⟩
      intro p r hpr
      have := (graphOk hg).root ⟨p, r, hpr⟩
      simp at hr; exact hr this
    · split at h
      · simp at h
      · rename_i o ho
        simp only [Except.ok.injEq, Option.some.injEq] at h
        exact .inr ⟨o, ho, h.symm⟩

end DC
