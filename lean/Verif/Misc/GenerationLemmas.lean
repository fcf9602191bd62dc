import Mathlib.Data.List.Infix
import Mathlib.Order.Lex
import Verif.Misc.Generation
/- Lemmas on the walk of decision trees. -/
namespace DC.Tree
set_option linter.unusedSimpArgs false

/-- The walk, whatever the tree: `e` tells which nodes are yielded, `k` how many children they have. -/
def loop (e : List Nat → Bool) (k : List Nat → Nat) : Nat → Option (List (Nat × Nat)) → List (List Nat)
  | 0, _ => []
  | _ + 1, none => []
  | n + 1, some s =>
    (if e (path s) then [path s] else []) ++
      loop e k n (if 0 < k (path s) then some ((0, k (path s)) :: s) else bump s)

/-- The node after some rounds of the walk. -/
def after (k : List Nat → Nat) : Nat → Option (List (Nat × Nat)) → Option (List (Nat × Nat))
  | 0, s => s
  | _ + 1, none => none
  | n + 1, some s => after k n (if 0 < k (path s) then some ((0, k (path s)) :: s) else bump s)

/-- The nodes below a node are finitely many. -/
inductive Fin (k : List Nat → Nat) : List Nat → Prop
  | mk {v} : (∀ i, i < k v → Fin k (v ++ [i])) → Fin k v

/-- `x` is below `v`. -/
def Below (k : List Nat → Nat) (v x : List Nat) : Prop :=
  v <+: x ∧ ∀ u i, v <+: u → u ++ [i] <+: x → i < k u

theorem Below.self (k : List Nat → Nat) (v : List Nat) : Below k v v := by
  refine ⟨List.prefix_refl v, fun u i h1 h2 => ?_⟩
  have := h1.length_le
  have := h2.length_le
  simp at this
  omega

theorem Below.child {k : List Nat → Nat} {v x : List Nat} {i : Nat} (hi : i < k v) (h : Below k (v ++ [i]) x) : Below k v x := by
  refine ⟨(List.prefix_append v [i]).trans h.1, fun u j h1 h2 => ?_⟩
  by_cases hu : u = v
  · subst hu
    have := List.prefix_of_prefix_length_le h2 h.1 (by simp)
    have := this.eq_of_length (by simp)
    have := List.append_cancel_left this
    simp at this
    omega
  · refine h.2 u j ?_ h2
    have hu' : u <+: x := (List.prefix_append u [j]).trans h2
    refine List.prefix_of_prefix_length_le h.1 hu' ?_
    have h3 := h1.length_le
    have : v.length ≠ u.length := fun hl => hu (h1.eq_of_length hl).symm
    simp; omega

theorem Below.cases {k : List Nat → Nat} {v x : List Nat} (h : Below k v x) : x = v ∨ ∃ i, i < k v ∧ Below k (v ++ [i]) x := by
  obtain ⟨⟨t, rfl⟩, h2⟩ := h
  cases t with
  | nil => left; simp
  | cons i t =>
    right
    have hp : v ++ [i] <+: v ++ i :: t := ⟨t, by simp⟩
    exact ⟨i, h2 v i (List.prefix_refl v) hp, hp, fun u j h3 h4 => h2 u j ((List.prefix_append v [i]).trans h3) h4⟩

theorem path_cons (i n : Nat) (s : List (Nat × Nat)) : path ((i, n) :: s) = path s ++ [i] := by simp [path]

theorem lex_append {a b : List Nat} (v : List Nat) (h : List.Lex (· < ·) a b) : List.Lex (· < ·) (v ++ a) (v ++ b) := by
  induction v with
  | nil => exact h
  | cons c v ih => exact .cons ih

theorem lex_of_prefix {v x : List Nat} (h : v <+: x) (hne : x ≠ v) : List.Lex (· < ·) v x := by
  obtain ⟨t, rfl⟩ := h
  cases t with
  | nil => simp at hne
  | cons c t =>
    have := lex_append v (a := []) (b := c :: t) .nil
    simpa using this

theorem lex_children {v x y : List Nat} {i j : Nat} (hij : i < j) (hx : v ++ [i] <+: x) (hy : v ++ [j] <+: y) : List.Lex (· < ·) x y := by
  obtain ⟨s, rfl⟩ := hx
  obtain ⟨t, rfl⟩ := hy
  rw [List.append_assoc, List.append_assoc]
  exact lex_append v (.rel hij)

theorem siblings {e : List Nat → Bool} {k : List Nat → Nat} {s : List (Nat × Nat)} {N : Nat} (outs : Nat → List (List Nat))
    (h : ∀ i, i < N → ∃ K, ∀ n, loop e k (K + n) (some ((i, N) :: s)) = outs i ++ loop e k n (bump ((i, N) :: s)) ∧
      after k (K + n) (some ((i, N) :: s)) = after k n (bump ((i, N) :: s))) (d : Nat) :
    ∀ i, i < N → N - i = d + 1 → ∃ K, ∀ n, loop e k (K + n) (some ((i, N) :: s)) =
      (List.range' i (d + 1)).flatMap outs ++ loop e k n (bump s) ∧
      after k (K + n) (some ((i, N) :: s)) = after k n (bump s) := by
  induction d with
  | zero =>
    intro i hi hd
    obtain ⟨K, hK⟩ := h i hi
    refine ⟨K, fun n => ?_⟩
    rw [(hK n).1, (hK n).2, bump, if_neg (by omega)]
    simp
  | succ d ih =>
    intro i hi hd
    obtain ⟨K, hK⟩ := h i hi
    obtain ⟨K', hK'⟩ := ih (i + 1) (by omega) (by omega)
    refine ⟨K + K', fun n => ?_⟩
    rw [Nat.add_assoc, (hK _).1, (hK _).2, bump, if_pos (by omega), (hK' _).1, (hK' _).2, List.range'_succ (n := d + 1), List.flatMap_cons, List.append_assoc]
    exact ⟨rfl, rfl⟩

theorem flatMap_pairwise {r : List Nat → List Nat → Prop} (outs : Nat → List (List Nat)) : (l : List Nat) → l.Pairwise (· < ·) →
    (∀ i ∈ l, (outs i).Pairwise r) → (∀ i j x y, i < j → x ∈ outs i → y ∈ outs j → r x y) → (l.flatMap outs).Pairwise r
  | [], _, _, _ => by simp
  | i :: l, hl, h1, h2 => by
    rw [List.flatMap_cons, List.pairwise_append]
    rw [List.pairwise_cons] at hl
    refine ⟨h1 i (by simp), flatMap_pairwise outs l hl.2 (fun j hj => h1 j (by simp [hj])) h2, fun x hx y hy => ?_⟩
    obtain ⟨j, hj, hy⟩ := List.mem_flatMap.1 hy
    exact h2 i j x y (hl.1 j hj) hx hy

/-- What is yielded below a node. -/
def Listed (e : List Nat → Bool) (k : List Nat → Nat) (v : List Nat) (vs : List (List Nat)) : Prop :=
  (∀ x, x ∈ vs ↔ Below k v x ∧ e x = true) ∧ vs.Pairwise (List.Lex (· < ·))

theorem listed_children {e : List Nat → Bool} {k : List Nat → Nat} {v : List Nat} {N : Nat} (hN : N = k v) (outs : Nat → List (List Nat))
    (h : ∀ i, i < N → Listed e k (v ++ [i]) (outs i)) (houts : ∀ i, N ≤ i → outs i = []) :
    (∀ x, x ∈ (List.range N).flatMap outs ↔ Below k v x ∧ x ≠ v ∧ e x = true) ∧
      ((List.range N).flatMap outs).Pairwise (List.Lex (· < ·)) := by
  subst hN
  constructor
  · intro x
    rw [List.mem_flatMap]
    constructor
    · rintro ⟨i, hi, hx⟩
      have hi := List.mem_range.1 hi
      obtain ⟨hb, he⟩ := ((h i hi).1 x).1 hx
      refine ⟨hb.child hi, ?_, he⟩
      rintro rfl
      have := hb.1.length_le
      simp at this
      omega
    · rintro ⟨hb, hne, he⟩
      rcases hb.cases with rfl | ⟨i, hi, hb⟩
      · exact absurd rfl hne
      · exact ⟨i, List.mem_range.2 hi, ((h i hi).1 x).2 ⟨hb, he⟩⟩
  · refine flatMap_pairwise outs _ List.pairwise_lt_range (fun i hi => (h i (List.mem_range.1 hi)).2) ?_
    intro i j x y hij hx hy
    have hj : j < k v := by
      by_contra hc
      rw [houts j (by omega)] at hy
      simp at hy
    exact lex_children hij (((h i (by omega)).1 x).1 hx).1.1 (((h j hj).1 y).1 hy).1.1

theorem walk {e : List Nat → Bool} {k : List Nat → Nat} {v : List Nat} (hf : Fin k v) : ∃ vs, Listed e k v vs ∧
    ∀ s, path s = v → ∃ K, ∀ n, loop e k (K + n) (some s) = vs ++ loop e k n (bump s) ∧
      after k (K + n) (some s) = after k n (bump s) := by
  induction hf with
  | @mk v hf ih =>
    have ih' : ∀ i, ∃ vs, (i < k v → Listed e k (v ++ [i]) vs ∧
        ∀ s, path s = v ++ [i] → ∃ K, ∀ n, loop e k (K + n) (some s) = vs ++ loop e k n (bump s) ∧
          after k (K + n) (some s) = after k n (bump s)) ∧ (k v ≤ i → vs = []) := by
      intro i
      by_cases hi : i < k v
      · obtain ⟨vs, h⟩ := ih i hi
        exact ⟨vs, fun _ => h, fun hc => by omega⟩
      · exact ⟨[], fun h => absurd h hi, fun _ => rfl⟩
    choose outs houts using ih'
    obtain ⟨h1, h2⟩ := listed_children (e := e) (v := v) rfl outs (fun i hi => ((houts i).1 hi).1) (fun i hi => (houts i).2 hi)
    refine ⟨(if e v then [v] else []) ++ (List.range (k v)).flatMap outs, ⟨fun x => ?_, ?_⟩, fun s hs => ?_⟩
    · rw [List.mem_append, h1]
      constructor
      · rintro (hx | ⟨a, -, b⟩)
        · split at hx
          · simp at hx; subst hx
            exact ⟨.self k x, by assumption⟩
          · simp at hx
        · exact ⟨a, b⟩
      · rintro ⟨a, b⟩
        by_cases hx : x = v
        · subst hx; left; simp [b]
        · exact .inr ⟨a, hx, b⟩
    · rw [List.pairwise_append]
      refine ⟨by split <;> simp, h2, fun x hx y hy => ?_⟩
      split at hx
      · simp at hx; subst hx
        obtain ⟨hb, hne, -⟩ := (h1 y).1 hy
        exact lex_of_prefix hb.1 hne
      · simp at hx
    · by_cases hk : 0 < k v
      · obtain ⟨K, hK⟩ := siblings (e := e) (k := k) (s := s) (N := k v) outs
          (fun i hi => ((houts i).1 hi).2 _ (by rw [path_cons, hs])) (k v - 1) 0 hk (by omega)
        refine ⟨K + 1, fun n => ?_⟩
        rw [Nat.add_right_comm, loop, after, hs, if_pos hk, (hK n).1, (hK n).2, Nat.sub_add_cancel hk, List.range_eq_range']
        simp
      · refine ⟨1, fun n => ?_⟩
        rw [Nat.add_comm, loop, after, hs, if_neg hk]
        have : k v = 0 := by omega
        simp [this]

theorem walk_children {e : List Nat → Bool} {k : List Nat → Nat} (hf : Fin k []) (h0 : 0 < k []) : ∃ vs,
    (∀ x, x ∈ vs ↔ Below k [] x ∧ x ≠ [] ∧ e x = true) ∧ vs.Pairwise (List.Lex (· < ·)) ∧
    ∃ K, ∀ n, loop e k (K + n) (some [(0, k [])]) = vs ∧ after k (K + n) (some [(0, k [])]) = none := by
  have ih' : ∀ i, ∃ vs, (i < k [] → Listed e k ([] ++ [i]) vs ∧
      ∀ s, path s = [] ++ [i] → ∃ K, ∀ n, loop e k (K + n) (some s) = vs ++ loop e k n (bump s) ∧
          after k (K + n) (some s) = after k n (bump s)) ∧ (k [] ≤ i → vs = []) := by
    intro i
    by_cases hi : i < k []
    · obtain ⟨hf⟩ := hf
      obtain ⟨vs, h⟩ := walk (e := e) (hf i hi)
      exact ⟨vs, fun _ => h, fun hc => by omega⟩
    · exact ⟨[], fun h => absurd h hi, fun _ => rfl⟩
  choose outs houts using ih'
  obtain ⟨h1, h2⟩ := listed_children (e := e) (v := []) rfl outs (fun i hi => ((houts i).1 hi).1) (fun i hi => (houts i).2 hi)
  refine ⟨_, h1, h2, ?_⟩
  obtain ⟨K, hK⟩ := siblings (e := e) (k := k) (s := []) (N := k []) outs
    (fun i hi => ((houts i).1 hi).2 _ (by rw [path_cons]; rfl)) (k [] - 1) 0 h0 (by omega)
  refine ⟨K, fun n => ?_⟩
  rw [(hK n).1, (hK n).2, bump, Nat.sub_add_cancel h0, List.range_eq_range']
  cases n <;> simp [loop, after]

/-- The indices of a node are below the numbers of children of the nodes above it. -/
inductive Good (k : List Nat → Nat) : List (Nat × Nat) → Prop
  | root : Good k []
  | child {i s} : Good k s → i < k (path s) → Good k ((i, k (path s)) :: s)

theorem Good.isBelow {k : List Nat → Nat} {s : List (Nat × Nat)} (h : Good k s) : Below k [] (path s) := by
  induction h with
  | root => exact .self k _
  | @child i s _ hi ih =>
    refine ⟨by simp, fun u j h1 h2 => ?_⟩
    rw [path_cons] at h2
    rcases List.prefix_concat_iff.1 h2 with h | h
    · rw [List.append_inj_left' h rfl]
      have := List.append_inj_right' h rfl
      simp at this
      omega
    · exact ih.2 u j h1 h

theorem Good.next {k : List Nat → Nat} {s t : List (Nat × Nat)} (h : Good k s) (ht : Tree.bump s = some t) : Good k t := by
  induction h with
  | root => simp [Tree.bump] at ht
  | @child i s hs hi ih =>
    rw [Tree.bump] at ht
    split at ht
    · simp at ht; subst ht
      exact .child hs (by assumption)
    · exact ih ht

theorem loop_sound {e : List Nat → Bool} {k : List Nat → Nat} : (n : Nat) → (s : List (Nat × Nat)) → Good k s →
    ∀ x ∈ loop e k n (some s), Below k [] x ∧ e x = true
  | 0, s, _, x, hx => by simp [loop] at hx
  | n + 1, s, h, x, hx => by
    rw [loop, List.mem_append] at hx
    rcases hx with hx | hx
    · split at hx
      · simp at hx; subst hx
        exact ⟨h.isBelow, by assumption⟩
      · simp at hx
    · split at hx
      · exact loop_sound n _ (.child h (by assumption)) x hx
      · cases hb : Tree.bump s with
        | none =>
          rw [hb] at hx
          cases n <;> simp [loop] at hx
        | some t =>
          rw [hb] at hx
          exact loop_sound n t (h.next hb) x hx

end DC.Tree
