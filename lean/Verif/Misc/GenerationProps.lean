import Mathlib.Data.List.Forall2
import Verif.Misc.GenerationLemmas
/- Properties C143_regular, C144_decision and C145: generation of solutions along a decision tree. -/
namespace DC.Tree
set_option linter.unusedSimpArgs false

variable {M : Type}

/-! ### Specification -/

/-- The vector is accepted, and so is its model. -/
def Valid (g : Methods M) (v : List Nat) : Prop := g.isVectorValid v = true ∧ g.isModelValid (g.modelFromVector v) = true

/-- A solution of a regular tree: one choice for each number of possibilities, such that the beginnings of the vector are
valid. -/
structure Solution (g : Methods M) (np v : List Nat) : Prop where
  choices : List.Forall₂ (· < ·) v np
  valid : ∀ u, u ≠ [] → u <+: v → Valid g u

/-- A solution of a tree whose numbers of possibilities depend on the models: no choice is left, each choice is one of the
possibilities, and the beginnings of the vector are valid. -/
structure Leaf (g : Methods M) (v : List Nat) : Prop where
  choices : ∀ u i, u ++ [i] <+: v → i < g.numberPossibilitiesFromModel (g.modelFromVector u)
  valid : ∀ u, u <+: v → Valid g u
  last : g.numberPossibilitiesFromModel (g.modelFromVector v) = 0

/-- No sequence of valid choices from the vector goes on for ever. -/
inductive Ends (g : Methods M) : List Nat → Prop
  | mk {v} : (Valid g v → ∀ i, i < g.numberPossibilitiesFromModel (g.modelFromVector v) → Ends g (v ++ [i])) → Ends g v

/-- The vectors are in the order of the dictionary, each one once. -/
def InOrder (vs : List (List Nat)) : Prop := vs.Pairwise (List.Lex (· < ·))

/-! ### Lemmas -/

/-- The vector and its model are accepted. -/
def okB (g : Methods M) (v : List Nat) : Bool := g.isVectorValid v && g.isModelValid (g.modelFromVector v)

theorem okB_iff (g : Methods M) (v : List Nat) : okB g v = true ↔ Valid g v := by simp [okB, Valid]

/-- The nodes of a regular tree which are yielded. -/
def eR (g : Methods M) (np v : List Nat) : Bool := okB g v && v.length == np.length

/-- The numbers of children in a regular tree. -/
def kR (g : Methods M) (np v : List Nat) : Nat := if v = [] ∨ okB g v = true then np[v.length]?.getD 0 else 0

theorem path_length (s : List (Nat × Nat)) : (path s).length = s.length := by simp [path]

theorem path_eq_nil {s : List (Nat × Nat)} : path s = [] ↔ s = [] := by simp [path]

theorem regular_finished (g : Methods M) (np : List Nat) (n : Nat) (s : List (Nat × Nat)) :
    generateRegular g np n ⟨s, true⟩ = ([], ⟨s, true⟩) := by
  cases n <;> simp [generateRegular]

theorem bump_ne_nil : {s t : List (Nat × Nat)} → bump s = some t → t ≠ []
  | [], t, h => by simp [bump] at h
  | (i, n) :: s, t, h => by
    rw [bump] at h
    split at h
    · simp at h; subst h; simp
    · exact bump_ne_nil h

theorem regular_loop (g : Methods M) (np : List Nat) (hp : ∀ n ∈ np, 0 < n) (hne : np ≠ []) : (n : Nat) → (s : List (Nat × Nat)) → s ≠ [] →
    (generateRegular g np n ⟨s, false⟩).1 = (loop (eR g np) (kR g np) n (some s)).map g.modelFromVector ∧
    (generateRegular g np n ⟨s, false⟩).2.finished = (after (kR g np) n (some s)).isNone
  | 0, s, _ => by simp [generateRegular, loop, after]
  | n + 1, s, hs => by
    have hpath : path s ≠ [] := fun h => hs (path_eq_nil.1 h)
    have hy : (okB g (path s) && (s.length - 1 == np.length - 1)) = true → np ≠ [] → eR g np (path s) = true := by
      intro h hne
      have h1 := List.length_pos_iff.2 hs
      have h2 := List.length_pos_iff.2 hne
      simp only [Bool.and_eq_true, beq_iff_eq] at h
      simp only [eR, path_length, h.1, Bool.true_and, beq_iff_eq]
      omega
    rw [generateRegular]
    simp only [Bool.false_eq_true, if_false]
    rw [loop, after]
    have hbump : Regular.next np ⟨s, false⟩ (okB g (path s)) =
        match (if 0 < kR g np (path s) then some ((0, kR g np (path s)) :: s) else bump s) with
        | some t => ⟨t, false⟩
        | none => ⟨s, true⟩ := by
      rw [Regular.next, kR]
      simp only [hpath, false_or]
      cases hok : okB g (path s) with
      | false => 
        simp only [Bool.false_eq_true, if_false, Nat.lt_irrefl]
        cases bump s <;> rfl
      | true =>
        simp only [if_true, path_length]
        cases hn : np[s.length]? with
        | none => 
          simp only [Option.getD_none, Nat.lt_irrefl, if_false]
          cases bump s <;> rfl
        | some m =>
          have := hp m (List.mem_of_getElem? hn)
          simp only [Option.getD_some, this, if_true]
    have key : ∀ o : Option (List (Nat × Nat)), (∀ t, o = some t → t ≠ []) →
        (generateRegular g np n (match o with | some t => ⟨t, false⟩ | none => ⟨s, true⟩)).1 =
          (loop (eR g np) (kR g np) n o).map g.modelFromVector ∧
        (generateRegular g np n (match o with | some t => ⟨t, false⟩ | none => ⟨s, true⟩)).2.finished =
          (after (kR g np) n o).isNone := by
      intro o ho
      cases o with
      | none =>
        simp only [regular_finished]
        cases n <;> simp [loop, after]
      | some t => exact regular_loop g np hp hne n t (ho t rfl)
    obtain ⟨k1, k2⟩ := key (if 0 < kR g np (path s) then some ((0, kR g np (path s)) :: s) else bump s) (by
      intro t ht
      split at ht
      · simp at ht; subst ht; simp
      · exact bump_ne_nil ht)
    rw [← hbump] at k1 k2
    have hv : (g.isVectorValid (path s) && g.isModelValid (g.modelFromVector (path s))) = okB g (path s) := rfl
    rw [hv]
    refine ⟨?_, k2⟩
    rw [List.map_append, k1]
    congr 1
    by_cases he : eR g np (path s) = true
    · rw [if_pos he]
      have he' := he
      simp only [eR, path_length, Bool.and_eq_true, beq_iff_eq] at he'
      rw [if_pos (by simp [he'.1, he'.2])]
      rfl
    · rw [if_neg he]
      rw [if_neg fun h => he (hy h hne)]
      rfl

theorem fin_regular (g : Methods M) (np : List Nat) (d : Nat) : ∀ v : List Nat, np.length ≤ v.length + d → Fin (kR g np) v := by
  induction d with
  | zero =>
    intro v hv
    refine ⟨fun i hi => ?_⟩
    rw [kR] at hi
    have : np[v.length]? = none := List.getElem?_eq_none (by omega)
    rw [this] at hi
    simp at hi
  | succ d ih => 
    intro v hv
    exact ⟨fun i _ => ih _ (by simp; omega)⟩

theorem prefix_snoc {u x : List Nat} {i : Nat} (h : u ++ [i] <+: x) : x[u.length]? = some i := by
  obtain ⟨t, rfl⟩ := h
  simp

theorem snoc_prefix {u x : List Nat} {i : Nat} (h : u <+: x) (hi : x[u.length]? = some i) : u ++ [i] <+: x := by
  obtain ⟨t, rfl⟩ := h
  rw [List.getElem?_append_right (Nat.le_refl _), Nat.sub_self] at hi
  cases t with
  | nil => simp at hi
  | cons j t => simp at hi; subst hi; exact ⟨t, by simp⟩

theorem snoc_of_prefix {u x : List Nat} (h : u <+: x) (hne : u ≠ x) : ∃ i, u ++ [i] <+: x := by
  obtain ⟨t, rfl⟩ := h
  cases t with
  | nil => simp at hne
  | cons j t => exact ⟨j, t, by simp⟩

theorem solution_iff (g : Methods M) (np : List Nat) (x : List Nat) (hne : np ≠ []) :
    Below (kR g np) [] x ∧ x ≠ [] ∧ eR g np x = true ↔ Solution g np x := by
  constructor
  · rintro ⟨⟨-, hb⟩, hx, he⟩
    simp only [eR, Bool.and_eq_true, beq_iff_eq] at he
    refine ⟨List.forall₂_iff_get.2 ⟨he.2, fun i h1 h2 => ?_⟩, fun u hu hux => ?_⟩
    · have hp : x.take i ++ [x[i]] <+: x := snoc_prefix (List.take_prefix i x) (by
        rw [List.length_take, Nat.min_eq_left (by omega), List.getElem?_eq_getElem h1])
      have := hb _ _ (by simp) hp
      rw [kR] at this
      split at this
      · rw [List.length_take, Nat.min_eq_left (by omega), List.getElem?_eq_getElem h2] at this
        simpa using this
      · simp at this
    · rw [← okB_iff]
      by_cases h : u = x
      · subst h; exact he.1
      · obtain ⟨i, hi⟩ := snoc_of_prefix hux h
        have := hb u i (by simp) hi
        rw [kR] at this
        split at this
        · rename_i hc
          exact hc.resolve_left hu
        · simp at this
  · rintro ⟨hc, hv⟩
    obtain ⟨hl, hc⟩ := List.forall₂_iff_get.1 hc
    have hx : x ≠ [] := by
      rintro rfl
      exact hne (List.length_eq_zero_iff.1 hl.symm)
    refine ⟨⟨by simp, fun u i _ hi => ?_⟩, hx, ?_⟩
    · have hg := prefix_snoc hi
      obtain ⟨h1, h2⟩ := List.getElem?_eq_some_iff.1 hg
      rw [kR, if_pos]
      · rw [List.getElem?_eq_getElem (by omega)]
        have := hc u.length h1 (by omega)
        simp only [List.get_eq_getElem, h2] at this
        exact this
      · by_cases hu : u = []
        · exact .inl hu
        · exact .inr ((okB_iff g u).2 (hv u hu ((List.prefix_append u [i]).trans hi)))
    · simp only [eR, Bool.and_eq_true, beq_iff_eq]
      exact ⟨(okB_iff g x).2 (hv x hx (List.prefix_refl x)), hl⟩

/-- The nodes of a tree which are yielded. -/
def eD (g : Methods M) (v : List Nat) : Bool := okB g v && g.numberPossibilitiesFromModel (g.modelFromVector v) == 0

/-- The numbers of children in a tree. -/
def kD (g : Methods M) (v : List Nat) : Nat := if okB g v = true then g.numberPossibilitiesFromModel (g.modelFromVector v) else 0

theorem decision_finished (g : Methods M) (n p : Nat) (s : List (Nat × Nat)) :
    decisionLoop g n ⟨s, p, true⟩ = ([], ⟨s, p, true⟩) := by
  cases n <;> simp [decisionLoop]

theorem decision_loop (g : Methods M) : (n p : Nat) → (s : List (Nat × Nat)) →
    (decisionLoop g n ⟨s, p, false⟩).1 = (loop (eD g) (kD g) n (some s)).map g.modelFromVector ∧
    (decisionLoop g n ⟨s, p, false⟩).2.finished = (after (kD g) n (some s)).isNone
  | 0, p, s => by simp [decisionLoop, loop, after]
  | n + 1, p, s => by
    have key : ∀ (q : Nat) (o : Option (List (Nat × Nat))),
        (decisionLoop g n (match o with | some t => ⟨t, 0, false⟩ | none => ⟨s, q, true⟩)).1 =
          (loop (eD g) (kD g) n o).map g.modelFromVector ∧
        (decisionLoop g n (match o with | some t => ⟨t, 0, false⟩ | none => ⟨s, q, true⟩)).2.finished =
          (after (kD g) n o).isNone := by
      intro q o
      cases o with
      | none =>
        simp only [decision_finished]
        cases n <;> simp [loop, after]
      | some t => exact decision_loop g n 0 t
    have hv : (g.isVectorValid (path s) && g.isModelValid (g.modelFromVector (path s))) = okB g (path s) := rfl
    rw [decisionLoop, loop, after]
    simp only [Bool.false_eq_true, if_false, hv]
    cases hok : okB g (path s) with
    | false =>
      have e1 : kD g (path s) = 0 := by simp [kD, hok]
      have e2 : eD g (path s) = false := by simp [eD, hok]
      have e3 : Decision.next ⟨s, p, false⟩ false = (match bump s with | some t => ⟨t, 0, false⟩ | none => ⟨s, p, true⟩) := by
        simp only [Decision.next, Bool.false_and, Bool.false_eq_true, if_false]
        cases bump s <;> rfl
      simp only [Bool.false_eq_true, if_false, e1, e2, e3, Nat.lt_irrefl, List.nil_append]
      exact key p (bump s)
    | true =>
      have e1 : kD g (path s) = g.numberPossibilitiesFromModel (g.modelFromVector (path s)) := by simp [kD, hok]
      have e2 : eD g (path s) = (g.numberPossibilitiesFromModel (g.modelFromVector (path s)) == 0) := by simp [eD, hok]
      simp only [if_true, e1, e2]
      generalize hN : g.numberPossibilitiesFromModel (g.modelFromVector (path s)) = N
      have e3 : Decision.next (Decision.set ⟨s, p, false⟩ N) true =
          (match (if 0 < N then some ((0, N) :: s) else bump s) with | some t => ⟨t, 0, false⟩ | none => ⟨s, N, true⟩) := by
        rw [Decision.next, Decision.set]
        by_cases h : 0 < N
        · simp [h]
        · simp only [h, decide_false, Bool.and_false, Bool.false_eq_true, if_false]
          cases bump s <;> rfl
      rw [e3]
      obtain ⟨k1, k2⟩ := key N (if 0 < N then some ((0, N) :: s) else bump s)
      refine ⟨?_, k2⟩
      rw [k1, List.map_append]
      congr 1
      split <;> simp_all

theorem fin_of_ends {g : Methods M} {v : List Nat} (h : Ends g v) : Fin (kD g) v := by
  induction h with
  | mk _ ih =>
    refine ⟨fun i hi => ?_⟩
    rw [kD] at hi
    split at hi
    · exact ih ((okB_iff g _).1 (by assumption)) i hi
    · simp at hi

theorem leaf_iff (g : Methods M) (x : List Nat) : Below (kD g) [] x ∧ eD g x = true ↔ Leaf g x := by
  constructor
  · rintro ⟨⟨-, hb⟩, he⟩
    simp only [eD, Bool.and_eq_true, beq_iff_eq] at he
    have hk : ∀ u i, u ++ [i] <+: x → okB g u = true ∧ i < g.numberPossibilitiesFromModel (g.modelFromVector u) := by
      intro u i hi
      have := hb u i (by simp) hi
      rw [kD] at this
      split at this
      · exact ⟨by assumption, this⟩
      · simp at this
    refine ⟨fun u i hi => (hk u i hi).2, fun u hu => ?_, he.2⟩
    rw [← okB_iff]
    by_cases h : u = x
    · subst h; exact he.1
    · obtain ⟨i, hi⟩ := snoc_of_prefix hu h
      exact (hk u i hi).1
  · rintro ⟨hc, hv, hl⟩
    refine ⟨⟨by simp, fun u i _ hi => ?_⟩, ?_⟩
    · rw [kD, if_pos ((okB_iff g u).2 (hv u ((List.prefix_append u [i]).trans hi)))]
      exact hc u i hi
    · simp only [eD, Bool.and_eq_true, beq_iff_eq]
      exact ⟨(okB_iff g x).2 (hv x (List.prefix_refl x)), hl⟩

/-! ### Trees which do not end -/

theorem lex_longer {a b x : List Nat} (h : List.Lex (· < ·) a x) (hn : ¬ a <+: x) : List.Lex (· < ·) (a ++ b) x := by
  induction h with
  | nil => simp at hn
  | cons _ ih => exact .cons (ih fun hp => hn (by simpa using hp))
  | rel h => exact .rel h

theorem lex_shorter {a b x : List Nat} (h : List.Lex (· < ·) (a ++ b) x) (hn : ¬ a <+: x) : List.Lex (· < ·) a x := by
  induction a generalizing x with
  | nil => simp at hn
  | cons c a ih =>
    cases h with
    | rel h => exact .rel h
    | cons h => exact .cons (ih h fun hp => hn (by simpa using hp))

theorem lex_common {a b x : List Nat} : List.Lex (· < ·) (a ++ b) (a ++ x) ↔ List.Lex (· < ·) b x := by
  refine ⟨fun h => ?_, lex_append a⟩
  induction a with
  | nil => exact h
  | cons c a ih =>
    cases h with
    | rel h => exact absurd h (Nat.lt_irrefl _)
    | cons h => exact ih h

theorem least_child (a : List Nat) {i j : Nat} (h : i ≤ j) (r : List Nat) : a ++ [i] = a ++ j :: r ∨ List.Lex (· < ·) (a ++ [i]) (a ++ j :: r) := by
  rcases Nat.lt_or_eq_of_le h with h | rfl
  · exact .inr (lex_append a (.rel h))
  · cases r with
    | nil => exact .inl rfl
    | cons c r => exact .inr (lex_append a (.cons .nil))

theorem bump_least {k : List Nat → Nat} {s : List (Nat × Nat)} (hs : Good k s) {x : List Nat} (hx : Below k [] x)
    (hl : List.Lex (· < ·) (path s) x) (hn : ¬ path s <+: x) : ∃ t, bump s = some t ∧ (path t = x ∨ List.Lex (· < ·) (path t) x) := by
  induction hs with
  | root => simp [path] at hn
  | @child i s hs hi ih =>
    rw [path_cons] at hl hn
    by_cases hp : path s <+: x
    · obtain ⟨r, rfl⟩ := hp
      rw [lex_common] at hl
      cases hl with
      | @cons _ _ r h => exact absurd ⟨r, by simp⟩ hn
      | @rel _ _ j r h =>
        have hj : j < k (path s) := hx.2 (path s) j (by simp) ⟨r, by simp⟩
        refine ⟨(i + 1, k (path s)) :: s, by rw [bump, if_pos (by omega)], ?_⟩
        rw [path_cons]
        exact least_child _ (by omega) _
    · have hl' := lex_shorter hl hp
      rw [bump]
      split
      · exact ⟨_, rfl, .inr (by rw [path_cons]; exact lex_longer hl' hp)⟩
      · exact ih hl' hp

theorem step_least {k : List Nat → Nat} {s : List (Nat × Nat)} (hs : Good k s) {x : List Nat} (hx : Below k [] x)
    (hl : List.Lex (· < ·) (path s) x) :
    ∃ t, (if 0 < k (path s) then some ((0, k (path s)) :: s) else bump s) = some t ∧ (path t = x ∨ List.Lex (· < ·) (path t) x) := by
  by_cases hp : path s <+: x
  · obtain ⟨r, rfl⟩ := hp
    cases r with
    | nil => 
      rw [List.append_nil] at hl
      exact absurd hl (List.lex_irrefl (r := (· < ·)) Nat.lt_irrefl _)
    | cons j r =>
      have hj : j < k (path s) := hx.2 (path s) j (by simp) ⟨r, by simp⟩
      refine ⟨_, if_pos (by omega), ?_⟩
      rw [path_cons]
      exact least_child _ (Nat.zero_le _) _
  · by_cases h0 : 0 < k (path s)
    · exact ⟨_, if_pos h0, .inr (by rw [path_cons]; exact lex_longer hl hp)⟩
    · rw [if_neg h0]
      exact bump_least hs hx hl hp

theorem bump_greater {s t : List (Nat × Nat)} (h : bump s = some t) : List.Lex (· < ·) (path s) (path t) ∧ ¬ path s <+: path t := by
  induction s with
  | nil => simp [bump] at h
  | cons a s ih =>
    obtain ⟨i, n⟩ := a
    rw [bump] at h
    split at h
    · simp only [Option.some.injEq] at h
      subst h
      rw [path_cons, path_cons]
      exact ⟨lex_append _ (.rel (Nat.lt_succ_self i)), by simp⟩
    · obtain ⟨h1, h2⟩ := ih h
      rw [path_cons]
      exact ⟨lex_longer h1 h2, fun hp => h2 ((List.prefix_append _ _).trans hp)⟩

theorem step_good {k : List Nat → Nat} {s t : List (Nat × Nat)} (hs : Good k s)
    (h : (if 0 < k (path s) then some ((0, k (path s)) :: s) else bump s) = some t) : Good k t ∧ List.Lex (· < ·) (path s) (path t) := by
  split at h
  · simp only [Option.some.injEq] at h
    subst h
    rw [path_cons]
    exact ⟨.child hs (by assumption), lex_of_prefix (List.prefix_append _ _) (by simp)⟩
  · exact ⟨hs.next h, (bump_greater h).1⟩

theorem lex_trans {a b c : List Nat} (h : List.Lex (· < ·) a b) (h' : List.Lex (· < ·) b c) : List.Lex (· < ·) a c :=
  List.lex_trans (r := (· < ·)) Nat.lt_trans h h'

/-- What is yielded from a node is in order, not before this node, and nothing is left out between. -/
theorem loop_initial {e : List Nat → Bool} {k : List Nat → Nat} : (n : Nat) → (s : List (Nat × Nat)) → Good k s →
    (loop e k n (some s)).Pairwise (List.Lex (· < ·)) ∧ (∀ v ∈ loop e k n (some s), v = path s ∨ List.Lex (· < ·) (path s) v) ∧
    ∀ v ∈ loop e k n (some s), ∀ u, Below k [] u → e u = true → (u = path s ∨ List.Lex (· < ·) (path s) u) → List.Lex (· < ·) u v →
      u ∈ loop e k n (some s)
  | 0, s, _ => by simp [loop]
  | n + 1, s, h => by
    rw [loop]
    cases ht : (if 0 < k (path s) then some ((0, k (path s)) :: s) else bump s) with
    | none =>
      have e0 : loop e k n none = [] := by cases n <;> rfl
      rw [e0, List.append_nil]
      refine ⟨by split <;> simp, fun v hv => ?_, fun v hv u hu he hp hl => ?_⟩
      · split at hv <;> simp at hv
        exact .inl hv
      · split at hv <;> simp at hv
        subst hv
        rcases hp with rfl | hp
        · exact absurd hl (List.lex_irrefl (r := (· < ·)) Nat.lt_irrefl _)
        · exact absurd (lex_trans hl hp) (List.lex_irrefl (r := (· < ·)) Nat.lt_irrefl _)
    | some t =>
      obtain ⟨hg, hlt⟩ := step_good h ht
      obtain ⟨i1, i2, i3⟩ := loop_initial n t hg
      have hafter : ∀ v ∈ loop e k n (some t), List.Lex (· < ·) (path s) v := by
        intro v hv
        rcases i2 v hv with rfl | h
        · exact hlt
        · exact lex_trans hlt h
      refine ⟨List.pairwise_append.2 ⟨by split <;> simp, i1, fun a ha b hb => ?_⟩, fun v hv => ?_, fun v hv u hu he hp hl => ?_⟩
      · split at ha <;> simp at ha
        subst ha
        exact hafter b hb
      · rcases List.mem_append.1 hv with hv | hv
        · split at hv <;> simp at hv
          exact .inl hv
        · exact .inr (hafter v hv)
      · rcases hp with rfl | hp
        · simp [he]
        · refine List.mem_append.2 (.inr ?_)
          have hvt : v ∈ loop e k n (some t) := by
            rcases List.mem_append.1 hv with hv | hv
            · split at hv <;> simp at hv
              subst hv
              exact absurd (lex_trans hl hp) (List.lex_irrefl (r := (· < ·)) Nat.lt_irrefl _)
            · exact hv
          obtain ⟨t', ht', hle⟩ := step_least h hu hp
          rw [ht] at ht'
          simp only [Option.some.injEq] at ht'
          subst ht'
          exact i3 v hvt u hu he (hle.imp Eq.symm id) hl

/-! ### Theorems -/

/-- **C143.** A regular tree generator ends, and yields the model of each solution exactly once, in the order of their
vectors: one choice for each level, such that all the beginnings of the vector, and their models, are valid. -/
theorem C143_regular (g : Methods M) (np : List Nat) (hne : np ≠ []) (hp : ∀ n ∈ np, 0 < n) :
    ∃ vs, (∀ v, v ∈ vs ↔ Solution g np v) ∧ InOrder vs ∧
      ∃ N, ∀ n, N ≤ n → (generateRegular g np n (Regular.new np)).1 = vs.map g.modelFromVector ∧
        (generateRegular g np n (Regular.new np)).2.finished = true := by
  cases np with
  | nil => exact absurd rfl hne
  | cons m np =>
    have hk : kR g (m :: np) [] = m := by simp [kR]
    obtain ⟨vs, h1, h2, K, h3⟩ := walk_children (e := eR g (m :: np)) (fin_regular g (m :: np) (m :: np).length [] (by simp))
      (by rw [hk]; exact hp m (by simp))
    refine ⟨vs, fun v => (h1 v).trans (solution_iff g _ v hne), h2, K, fun n hn => ?_⟩
    obtain ⟨d, rfl⟩ := Nat.exists_eq_add_of_le hn
    obtain ⟨h4, h5⟩ := h3 d
    rw [hk] at h4 h5
    obtain ⟨r1, r2⟩ := regular_loop g (m :: np) hp hne (K + d) [(0, m)] (by simp)
    rw [h4] at r1
    rw [h5] at r2
    exact ⟨r1, r2⟩

/-- **C144.** If no sequence of valid choices goes on for ever, a decision tree generator ends, and yields the model of each
solution exactly once, in the order of their vectors. -/
theorem C144_decision (g : Methods M) (h : Ends g []) :
    ∃ vs, (∀ v, v ∈ vs ↔ Leaf g v) ∧ InOrder vs ∧
      ∃ N, ∀ n, N ≤ n → (generateDecision g n Decision.new).1 = vs.map g.modelFromVector ∧
        (generateDecision g n Decision.new).2.finished = true := by
  obtain ⟨vs, ⟨h1, h2⟩, h3⟩ := walk (e := eD g) (fin_of_ends h)
  obtain ⟨K, hK⟩ := h3 [] rfl
  refine ⟨vs, fun v => (h1 v).trans (leaf_iff g v), h2, K, fun n hn => ?_⟩
  obtain ⟨d, rfl⟩ := Nat.exists_eq_add_of_le hn
  obtain ⟨k1, k2⟩ := hK d
  have e : bump ([] : List (Nat × Nat)) = none := rfl
  rw [e] at k1 k2
  have e1 : loop (eD g) (kD g) d none = [] := by cases d <;> rfl
  have e2 : after (kD g) d none = none := by cases d <;> rfl
  rw [e1, List.append_nil] at k1
  rw [e2] at k2
  obtain ⟨r1, r2⟩ := decision_loop g (K + d) (g.numberPossibilitiesFromModel (g.modelFromVector [])) []
  rw [k1] at r1
  rw [k2] at r2
  exact ⟨r1, r2⟩

/-- **C144**, even if the generation does not end: whatever the number of rounds, only models of solutions are yielded. -/
theorem C144_sound (g : Methods M) (n : Nat) : ∀ x ∈ (generateDecision g n Decision.new).1, ∃ v, Leaf g v ∧ x = g.modelFromVector v := by
  intro x hx
  have := (decision_loop g n (g.numberPossibilitiesFromModel (g.modelFromVector [])) []).1
  rw [generateDecision, Decision.new, Decision.set] at hx
  simp only [path, List.map_nil, List.reverse_nil] at hx
  rw [this, List.mem_map] at hx
  obtain ⟨v, hv, rfl⟩ := hx
  exact ⟨v, (leaf_iff g v).1 (loop_sound n [] .root v hv), rfl⟩

/-- **C144**, even if the generation does not end: what is yielded in any number of rounds is the models of the first solutions,
in order and each once: no solution before one of these is left out. -/
theorem C144_initial (g : Methods M) (n : Nat) : ∃ vs, (generateDecision g n Decision.new).1 = vs.map g.modelFromVector ∧ InOrder vs ∧
    (∀ v ∈ vs, Leaf g v) ∧ ∀ v ∈ vs, ∀ u, Leaf g u → List.Lex (· < ·) u v → u ∈ vs := by
  have h := (decision_loop g n (g.numberPossibilitiesFromModel (g.modelFromVector [])) []).1
  obtain ⟨h1, h2, h3⟩ := loop_initial (e := eD g) (k := kD g) n [] .root
  refine ⟨_, h, h1, fun v hv => (leaf_iff g v).1 (loop_sound n [] .root v hv), fun v hv u hu hl => ?_⟩
  obtain ⟨hb, he⟩ := (leaf_iff g u).2 hu
  refine h3 v hv u hb he ?_ hl
  cases u with
  | nil => exact .inl rfl
  | cons c u => exact .inr .nil

/-- A tree which does not end: from each node one can stop, or go on. -/
example : (generateDecision (M := List Nat) ⟨fun _ => true, fun v => v, fun _ => true, fun v => if v.getLast? = some 0 then 0 else 2⟩ 6 Decision.new).1 =
    [[0], [1, 0], [1, 1, 0]] := by decide

/-- **C145** is violated by the code: once a regular tree generator has given its solutions, it gives none when asked to generate
again, because it keeps the finished tree. -/
theorem C145_violated (g : Methods M) (np : List Nat) (hne : np ≠ []) (hp : ∀ n ∈ np, 0 < n) :
    ∃ N, ∀ n m, N ≤ n → (generateRegular g np m (generateRegular g np n (Regular.new np)).2).1 = [] := by
  obtain ⟨vs, -, -, N, h⟩ := C143_regular g np hne hp
  refine ⟨N, fun n m hn => ?_⟩
  obtain ⟨-, h2⟩ := h n hn
  generalize (generateRegular g np n (Regular.new np)).2 = t at h2
  obtain ⟨s, f⟩ := t
  simp only at h2
  subst h2
  rw [regular_finished]

/-- **C145** is violated by the code: the same with a decision tree generator. -/
theorem C145_decision_violated (g : Methods M) (he : Ends g []) :
    ∃ N, ∀ n m, N ≤ n → (generateDecision g m (generateDecision g n Decision.new).2).1 = [] := by
  obtain ⟨vs, -, -, N, h⟩ := C144_decision g he
  refine ⟨N, fun n m hn => ?_⟩
  obtain ⟨-, h2⟩ := h n hn
  generalize (generateDecision g n Decision.new).2 = t at h2
  obtain ⟨s, p, f⟩ := t
  simp only at h2
  subst h2
  rw [generateDecision, Decision.set, decision_finished]

/-- **C145.** A regular tree generator from which the first solution has been taken, and which is asked to generate again, gives
the same solutions as it would have given, this one included.
Missing: a generation which has been used to its end gives nothing more (`C145_violated`, `C145_decision_violated`). -/
theorem C145_partial (g : Methods M) (np : List Nat) (k : Nat) (t t' : Regular) (m : M) (h : firstRegular g np k t = some (m, t')) :
    ∃ d, ∀ n, (generateRegular g np (d + n) t).1 = (generateRegular g np n t').1 ∧
      (0 < n → ∃ rest, (generateRegular g np n t').1 = m :: rest) := by
  induction k generalizing t with
  | zero => simp [firstRegular] at h
  | succ k ih =>
    rw [firstRegular] at h
    split at h
    · simp at h
    · rename_i hf
      simp only at h
      by_cases hy : (g.isVectorValid (path t.node) && g.isModelValid (g.modelFromVector (path t.node)) &&
        (t.node.length - 1 == np.length - 1)) = true
      · rw [if_pos hy] at h
        simp only [Option.some.injEq, Prod.mk.injEq] at h
        obtain ⟨rfl, rfl⟩ := h
        refine ⟨0, fun n => ⟨by rw [Nat.zero_add], fun hn => ?_⟩⟩
        obtain ⟨n, rfl⟩ := Nat.exists_eq_succ_of_ne_zero (Nat.pos_iff_ne_zero.1 hn)
        rw [generateRegular, if_neg hf]
        simp only [hy, if_true]
        exact ⟨_, rfl⟩
      · rw [if_neg hy] at h
        obtain ⟨d, hd⟩ := ih _ h
        refine ⟨d + 1, fun n => ⟨?_, (hd n).2⟩⟩
        rw [Nat.add_right_comm, generateRegular, if_neg hf]
        simp only [hy, if_false, List.nil_append]
        exact (hd n).1

/-! ### Examples -/

/-- A generator of pairs of different numbers, the first one not 1. -/
def demo : Methods (List Nat) where
  isVectorValid := fun v => v != [1]
  modelFromVector := fun v => v
  isModelValid := fun v => v.head? != v[1]?

/-- The pairs of different numbers below 3 and 2, the first one not 1. -/
example : (generateRegular demo [3, 2] 20 (Regular.new [3, 2])).1 = [[0, 1], [2, 0], [2, 1]] := by decide

/-- The hypotheses of `C143_regular` and `C145_violated` hold for a generator which has a solution. -/
example : ([3, 2] : List Nat) ≠ [] ∧ (∀ n ∈ [3, 2], 0 < n) ∧ Solution demo [3, 2] [2, 0] := by
  refine ⟨by simp, by simp, .cons (by decide) (.cons (by decide) .nil), ?_⟩
  intro u hu hp
  have : u = [] ∨ u = [2] ∨ u = [2, 0] := by
    have := List.mem_inits _ _ |>.2 hp
    simpa using this
  rcases this with rfl | rfl | rfl
  · exact absurd rfl hu
  · exact ⟨by decide, by decide⟩
  · exact ⟨by decide, by decide⟩

/-- The hypothesis of `C145_partial` holds: the first solution is taken after two rounds. -/
example : ∃ t', firstRegular demo [3, 2] 9 (Regular.new [3, 2]) = some ([0, 1], t') := ⟨⟨[(1, 2), (0, 3)], false⟩, rfl⟩

/-- A generator of the sequences whose first number is the number of those which follow, which are zero. -/
def demoTree : Methods (List Nat) where
  modelFromVector := fun v => v
  isModelValid := fun v => v.tail.all (· == 0)
  numberPossibilitiesFromModel := fun v =>
    match v with
    | [] => 3
    | i :: rest => if rest.length < i then 2 else 0

/-- The sequences that it generates. -/
example : (generateDecision demoTree 30 Decision.new).1 = [[0], [1, 0], [2, 0, 0]] := by decide

/-- The hypothesis of `C144_decision` holds for it. -/
example : Ends demoTree [] := by
  have leaf : ∀ v, demoTree.numberPossibilitiesFromModel v = 0 → Ends demoTree v := fun v h =>
    ⟨fun _ i hi => absurd hi (by show ¬ i < demoTree.numberPossibilitiesFromModel v; omega)⟩
  have two : ∀ v, (∀ i, i < 2 → Ends demoTree (v ++ [i])) → demoTree.numberPossibilitiesFromModel v = 2 → Ends demoTree v := fun v h e =>
    ⟨fun _ i hi => h i (by rw [← e]; exact hi)⟩
  refine ⟨fun _ i hi => ?_⟩
  have hi : i < 3 := hi
  have : i = 0 ∨ i = 1 ∨ i = 2 := by omega
  rcases this with rfl | rfl | rfl
  · exact leaf _ rfl
  · exact two _ (fun i _ => leaf _ rfl) rfl
  · exact two _ (fun i _ => two _ (fun j _ => leaf _ rfl) rfl) rfl

end DC.Tree
