import Verif.Data.Plot
import Verif.Util.PyList
/-
Specification and properties of the axes of parallel plots (C91).
-/
namespace DC.Data

set_option linter.unusedSectionVars false
set_option linter.unusedSimpArgs false

variable {A : Type} [DecidableEq A]

/-! ### Helpers -/

theorem mem_distinctOf {l : List A} {a : A} : a ∈ distinctOf l ↔ a ∈ l := by
  induction l with
  | nil => rfl
  | cons x l ih =>
    rw [distinctOf, List.mem_cons, List.mem_filter, ih, List.mem_cons]
    by_cases h : a = x <;> simp [h]

theorem nodup_distinctOf (l : List A) : (distinctOf l).Nodup := by
  induction l with
  | nil => exact .nil
  | cons x l ih =>
    rw [distinctOf, List.nodup_cons]
    exact ⟨by simp, ih.filter _⟩

theorem distinctOf_length {l m : List A} (h : ∀ a, a ∈ l ↔ a ∈ m) : (distinctOf l).length = (distinctOf m).length := by
  apply List.Perm.length_eq
  rw [List.perm_ext_iff_of_nodup (nodup_distinctOf l) (nodup_distinctOf m)]
  intro a
  rw [mem_distinctOf, mem_distinctOf, h]

theorem distinctOf_nodup {l : List A} (h : l.Nodup) : distinctOf l = l := by
  induction l with
  | nil => rfl
  | cons x l ih =>
    rw [List.nodup_cons] at h
    rw [distinctOf, ih h.2, List.filter_eq_self.2 fun a ha => by simp; rintro rfl; exact h.1 ha]

/-- Two associations share an attribute. -/
def Shares (p q : A × A) : Prop := q.1 = p.1 ∨ q.1 = p.2 ∨ q.2 = p.1 ∨ q.2 = p.2

instance (p q : A × A) : Decidable (Shares p q) := inferInstanceAs (Decidable (_ ∨ _))

/-- Two associations are not between the same attributes. -/
def Differ (p q : A × A) : Prop := ¬ (q.1 = p.1 ∧ q.2 = p.2) ∧ ¬ (q.1 = p.2 ∧ q.2 = p.1)

theorem Differ.symm {p q : A × A} (h : Differ p q) : Differ q p :=
  ⟨fun h' => h.1 ⟨h'.1.symm, h'.2.symm⟩, fun h' => h.2 ⟨h'.2.symm, h'.1.symm⟩⟩

/-- A list of associations between different attributes, without repetition. -/
def Good (l : List (A × A)) : Prop := (∀ p ∈ l, p.1 ≠ p.2) ∧ l.Pairwise Differ

theorem Good.perm {l m : List (A × A)} (h : Good l) (hp : l.Perm m) : Good m :=
  ⟨fun p hm => h.1 p (hp.mem_iff.2 hm), hp.pairwise h.2 fun h => h.symm⟩

theorem takeSharing_some {p q : A × A} : ∀ {l r : List (A × A)}, takeSharing p l = some (q, r) → l.Perm (q :: r) ∧ Shares p q
  | [], r, h => by simp [takeSharing] at h
  | x :: l, r, h => by
    rw [takeSharing] at h
    split at h
    · rename_i hs
      simp only [Option.some.injEq, Prod.mk.injEq] at h
      obtain ⟨rfl, rfl⟩ := h
      exact ⟨.refl _, hs⟩
    · cases h1 : takeSharing p l with
      | none => rw [h1] at h; simp at h
      | some y =>
        obtain ⟨q', r'⟩ := y
        rw [h1] at h
        simp only [Option.map_some, Option.some.injEq, Prod.mk.injEq] at h
        obtain ⟨rfl, rfl⟩ := h
        obtain ⟨g1, g2⟩ := takeSharing_some h1
        exact ⟨(g1.cons x).trans (.swap _ _ _), g2⟩

/-- The series built from associations: one of them, or two different ones sharing an attribute. -/
inductive Serie : List A → Prop
  | two {a b : A} : a ≠ b → Serie [a, b]
  | four {p q : A × A} : p.1 ≠ p.2 → q.1 ≠ q.2 → Shares p q → Differ p q → Serie [p.1, p.2, q.1, q.2]

/-- The attributes of associations. -/
def attrsOf (l : List (A × A)) : List A := l.flatMap fun p => [p.1, p.2]

theorem attrsOf_perm {l m : List (A × A)} (h : l.Perm m) (a : A) : a ∈ attrsOf l ↔ a ∈ attrsOf m := by
  unfold attrsOf
  rw [List.mem_flatMap, List.mem_flatMap]
  simp only [h.mem_iff]

theorem mem_attrsOf_cons {p : A × A} {l : List (A × A)} {a : A} : a ∈ attrsOf (p :: l) ↔ a = p.1 ∨ a = p.2 ∨ a ∈ attrsOf l := by
  simp [attrsOf, List.flatMap_cons]

theorem triosLoop_succ (all : List A) (fuel : Nat) (picked : List A) (assoc : List (A × A)) : triosLoop all (fuel + 1) picked assoc =
    if (distinctOf picked).length = (distinctOf all).length then some (.ok [])
    else match assoc with
      | [] => some (.error .indexError)
      | p :: rest =>
        match takeSharing p rest with
        | none => (triosLoop all fuel (picked ++ [p.1, p.2]) rest).map fun r => r.map ([p.1, p.2] :: ·)
        | some (q, rest') =>
          (triosLoop all fuel (picked ++ [p.1, p.2, q.1, q.2]) rest').map fun r => r.map ([p.1, p.2, q.1, q.2] :: ·) := by
  rfl

theorem triosLoop_spec {all : List A} : ∀ (fuel : Nat) (picked : List A) (assoc : List (A × A)), assoc.length < fuel → Good assoc →
    (∀ a, a ∈ all ↔ a ∈ picked ∨ a ∈ attrsOf assoc) →
    ∃ series, triosLoop all fuel picked assoc = some (.ok series) ∧ (∀ s ∈ series, Serie s) ∧ ∀ s ∈ series, ∀ a ∈ s, a ∈ all
  | 0, _, _, h, _, _ => by omega
  | fuel + 1, picked, assoc, hlt, hg, hall => by
    rw [triosLoop_succ]
    by_cases hl : (distinctOf picked).length = (distinctOf all).length
    · rw [if_pos hl]
      exact ⟨[], rfl, by simp, by simp⟩
    · rw [if_neg hl]
      cases assoc with
      | nil =>
        exfalso
        exact hl (distinctOf_length fun a => by rw [hall]; simp [attrsOf])
      | cons p rest =>
        dsimp only
        have hpne := hg.1 p (.head _)
        have hp2 := List.pairwise_cons.1 hg.2
        cases ht : takeSharing p rest with
        | none =>
          dsimp only
          obtain ⟨series, h1, h2, h3⟩ := triosLoop_spec (all := all) fuel (picked ++ [p.1, p.2]) rest (by simp at hlt; omega)
            ⟨fun x hx => hg.1 x (.tail _ hx), hp2.2⟩ (fun a => by
              rw [hall, mem_attrsOf_cons]
              simp [or_assoc])
          refine ⟨[p.1, p.2] :: series, by rw [h1]; rfl, ?_, ?_⟩
          · intro s hs
            rcases List.mem_cons.1 hs with rfl | hs
            · exact .two hpne
            · exact h2 s hs
          · intro s hs a ha
            rcases List.mem_cons.1 hs with rfl | hs
            · rw [hall, mem_attrsOf_cons]
              simp only [List.mem_cons, List.not_mem_nil, or_false] at ha
              rcases ha with rfl | rfl <;> simp
            · exact h3 s hs a ha
        | some y =>
          obtain ⟨q, rest'⟩ := y
          dsimp only
          obtain ⟨hp, hs⟩ := takeSharing_some ht
          have hg' : Good (q :: rest') := Good.perm ⟨fun x hx => hg.1 x (.tail _ hx), hp2.2⟩ hp
          obtain ⟨series, h1, h2, h3⟩ := triosLoop_spec (all := all) fuel (picked ++ [p.1, p.2, q.1, q.2]) rest'
            (by have := hp.length_eq; simp at this hlt; omega) ⟨fun x hx => hg'.1 x (.tail _ hx), (List.pairwise_cons.1 hg'.2).2⟩ (fun a => by
              rw [hall, mem_attrsOf_cons, attrsOf_perm hp, mem_attrsOf_cons]
              simp [or_assoc])
          have hpq : Differ p q := hp2.1 q (hp.mem_iff.2 (.head _))
          refine ⟨[p.1, p.2, q.1, q.2] :: series, by rw [h1]; rfl, ?_, ?_⟩
          · intro s hs'
            rcases List.mem_cons.1 hs' with rfl | hs'
            · exact .four hpne (hg'.1 q (.head _)) hs hpq
            · exact h2 s hs'
          · intro s hs' a ha
            rcases List.mem_cons.1 hs' with rfl | hs'
            · rw [hall, mem_attrsOf_cons, attrsOf_perm hp, mem_attrsOf_cons]
              simp only [List.mem_cons, List.not_mem_nil, or_false] at ha
              rcases ha with rfl | rfl | rfl | rfl <;> simp
            · exact h3 s hs' a ha

theorem perm_pair {l : List A} {b d : A} (h : l.Perm [b, d]) : l = [b, d] ∨ l = [d, b] := by
  match l, h with
  | [x, y], h =>
    have hx : x ∈ [b, d] := h.mem_iff.1 (by simp)
    simp only [List.mem_cons, List.not_mem_nil, or_false] at hx
    rcases hx with rfl | rfl
    · have := (List.perm_cons x).1 h
      simp only [List.perm_singleton, List.cons.injEq, and_true] at this
      subst this
      exact .inl rfl
    · have := (List.perm_cons x).1 (h.trans (.swap _ _ _))
      simp only [List.perm_singleton, List.cons.injEq, and_true] at this
      subst this
      exact .inr rfl
  | [], h => have := h.length_eq; simp at this
  | [_], h => have := h.length_eq; simp at this
  | _ :: _ :: _ :: _, h => have := h.length_eq; simp at this

theorem trio_spec {setOrder : List A → List A} (ho : ∀ l, (setOrder l).Perm l) {s : List A} (hs : Serie s) :
    ∃ r, newAttributesTrio setOrder s = .ok r ∧ r.Nodup ∧ ∀ a, a ∈ r ↔ a ∈ s := by
  cases hs with
  | two h =>
    rename_i a b
    exact ⟨[a, b], rfl, by simp [h], fun _ => Iff.rfl⟩
  | four h1 h2 h3 h4 =>
    rename_i p q
    obtain ⟨a, b⟩ := p
    obtain ⟨c, d⟩ := q
    unfold Shares at h3
    unfold Differ at h4
    simp only at h1 h2 h3 h4 ⊢
    have key : ∀ (m x y : A), m ≠ x → m ≠ y → x ≠ y → [a, b, c, d].find? (fun z => [a, b, c, d].count z == 2) = some m →
        distinctOf ([a, b, c, d].filter (· ≠ m)) = [x, y] → (∀ z, z ∈ [a, b, c, d] ↔ z = m ∨ z = x ∨ z = y) →
        ∃ r, newAttributesTrio setOrder [a, b, c, d] = .ok r ∧ r.Nodup ∧ ∀ z, z ∈ r ↔ z ∈ [a, b, c, d] := by
      intro m x y hmx hmy hxy hf hd hm
      have hperm := ho [x, y]
      unfold newAttributesTrio
      rw [if_neg (by simp), hf]
      dsimp only
      rw [hd]
      rcases perm_pair hperm with h | h
      · rw [h]
        refine ⟨[x, m, y], rfl, by simp [hmx.symm, hmy, hxy], fun z => ?_⟩
        rw [hm]
        simp only [List.mem_cons, List.not_mem_nil, or_false]
        constructor
        · rintro (h | h | h) <;> simp [h]
        · rintro (h | h | h) <;> simp [h]
      · rw [h]
        refine ⟨[y, m, x], rfl, by simp [hmx, hmy.symm, hxy.symm], fun z => ?_⟩
        rw [hm]
        simp only [List.mem_cons, List.not_mem_nil, or_false]
        constructor
        · rintro (h | h | h) <;> simp [h]
        · rintro (h | h | h) <;> simp [h]
    rcases h3 with rfl | rfl | rfl | rfl
    · have hbd : b ≠ d := fun h => h4.1 ⟨rfl, h.symm⟩
      refine key c b d h1 h2 hbd ?_ ?_ ?_
      · simp [List.find?_cons, List.count_cons, h1.symm, h2.symm]
      · simp [h1.symm, h2.symm, distinctOf, hbd.symm]
      · intro z; simp only [List.mem_cons, List.not_mem_nil, or_false]; constructor
        · rintro (h | h | h | h) <;> simp [h]
        · rintro (h | h | h) <;> simp [h]
    · have had : a ≠ d := fun h => h4.2 ⟨rfl, h.symm⟩
      refine key c a d h1.symm h2 had ?_ ?_ ?_
      · simp [List.find?_cons, List.count_cons, h1, h1.symm, h2.symm, had, had.symm]
      · simp [h1, h2.symm, distinctOf, had.symm]
      · intro z; simp only [List.mem_cons, List.not_mem_nil, or_false]; constructor
        · rintro (h | h | h | h) <;> simp [h]
        · rintro (h | h | h) <;> simp [h]
    · have hbc : b ≠ c := fun h => h4.2 ⟨h.symm, rfl⟩
      refine key d b c h1 h2.symm hbc ?_ ?_ ?_
      · simp [List.find?_cons, List.count_cons, h1.symm, h2]
      · simp [h1.symm, h2, distinctOf, hbc.symm]
      · intro z; simp only [List.mem_cons, List.not_mem_nil, or_false]; constructor
        · rintro (h | h | h | h) <;> simp [h]
        · rintro (h | h | h) <;> simp [h]
    · have hac : a ≠ c := fun h => h4.1 ⟨h.symm, rfl⟩
      refine key d a c h1.symm h2.symm hac ?_ ?_ ?_
      · simp [List.find?_cons, List.count_cons, h1, h1.symm, h2, hac, hac.symm]
      · simp [h1, h2, distinctOf, hac.symm]
      · intro z; simp only [List.mem_cons, List.not_mem_nil, or_false]; constructor
        · rintro (h | h | h | h) <;> simp [h]
        · rintro (h | h | h) <;> simp [h]

/-- In a serie, each instance of an attribute has its partner in the serie: the loop of `_new_sided_attribute` raises nothing. -/
theorem partner_spec {s : List A} (hs : Serie s) (ordered : List A) (x : A) :
    ∃ r, partner ordered s x 0 (s.count x) = .ok r ∧ ∀ a, r = some a → a ∉ ordered ∧ a ∈ s := by
  have step : ∀ (i n k : Nat) (a : A), (s.drop (i * 2)).findIdx? (· == x) = some k → s[i * 2 + k + 1 - 2 * ((i * 2 + k) % 2)]? = some a →
      (∃ r, partner ordered s x (i + 1) n = .ok r ∧ ∀ a, r = some a → a ∉ ordered ∧ a ∈ s) →
      ∃ r, partner ordered s x i (n + 1) = .ok r ∧ ∀ a, r = some a → a ∉ ordered ∧ a ∈ s := by
    intro i n k a h1 h2 h3
    rw [partner, h1]
    dsimp only
    rw [h2]
    dsimp only
    by_cases ha : a ∈ ordered
    · rw [if_pos ha]; exact h3
    · rw [if_neg ha]
      exact ⟨some a, rfl, fun b hb => by simp only [Option.some.injEq] at hb; subst hb; exact ⟨ha, List.mem_of_getElem? h2⟩⟩
  have stop : ∀ i, ∃ r, partner ordered s x i 0 = .ok r ∧ ∀ a, r = some a → a ∉ ordered ∧ a ∈ s := fun i => ⟨none, rfl, by simp⟩
  cases hs with
  | two h =>
    rename_i a b
    by_cases ha : x = a
    · subst ha
      have : [x, b].count x = 1 := by simp [h.symm]
      rw [this]
      exact step 0 0 0 b (by simp [List.findIdx?_cons]) (by simp) (stop 1)
    · by_cases hb : x = b
      · subst hb
        have : [a, x].count x = 1 := by simp [h]
        rw [this]
        exact step 0 0 1 a (by simp [List.findIdx?_cons, h]) (by simp) (stop 1)
      · have : [a, b].count x = 0 := by simp [Ne.symm ha, Ne.symm hb]
        rw [this]
        exact stop 0
  | four h1 h2 h3 h4 =>
    rename_i p q
    obtain ⟨a, b⟩ := p
    obtain ⟨c, d⟩ := q
    simp only at h1 h2 step stop ⊢
    have second : ∀ n : Nat, (n = 0 ∨ (n = 1 ∧ (x = c ∨ x = d))) → ∃ r, partner ordered [a, b, c, d] x 1 n = .ok r ∧ ∀ z, r = some z → z ∉ ordered ∧ z ∈ [a, b, c, d] := by
      rintro n (rfl | ⟨rfl, rfl | rfl⟩)
      · exact stop 1
      · exact step 1 0 0 d (by simp [List.findIdx?_cons]) (by simp) (stop 2)
      · exact step 1 0 1 c (by simp [List.findIdx?_cons, h2]) (by simp) (stop 2)
    have hcd : [c, d].count x = 0 ∧ x ≠ c ∧ x ≠ d ∨ [c, d].count x = 1 ∧ (x = c ∨ x = d) := by
      by_cases hc : x = c
      · subst hc; right; exact ⟨by simp [h2.symm], .inl rfl⟩
      · by_cases hd : x = d
        · subst hd; right; exact ⟨by simp [h2], .inr rfl⟩
        · left; exact ⟨by simp [Ne.symm hc, Ne.symm hd], hc, hd⟩
    have hsum : [a, b, c, d].count x = [a, b].count x + [c, d].count x := by
      rw [show [a, b, c, d] = [a, b] ++ [c, d] from rfl, List.count_append]
    by_cases ha : x = a
    · have hab : [a, b].count x = 1 := by subst ha; simp [h1.symm]
      rw [hsum, hab, Nat.add_comm]
      exact step 0 _ 0 b (by simp [List.findIdx?_cons, ha]) (by simp) (second _ (hcd.imp (fun h => h.1) fun h => h))
    · by_cases hb : x = b
      · have hab : [a, b].count x = 1 := by subst hb; simp [h1]
        rw [hsum, hab, Nat.add_comm]
        exact step 0 _ 1 a (by simp [List.findIdx?_cons, hb, h1]) (by simp) (second _ (hcd.imp (fun h => h.1) fun h => h))
      · have hab : [a, b].count x = 0 := by simp [Ne.symm ha, Ne.symm hb]
        rw [hsum, hab, Nat.zero_add]
        rcases hcd with ⟨h, -, -⟩ | ⟨h, hx⟩
        · rw [h]; exact stop 0
        · rw [h]
          by_cases hc : x = c
          · exact step 0 0 2 d (by simp [List.findIdx?_cons, Ne.symm ha, Ne.symm hb, hc.symm]) (by simp) (stop 1)
          · have hd : x = d := hx.resolve_left hc
            exact step 0 0 3 c (by simp [List.findIdx?_cons, Ne.symm ha, Ne.symm hb, Ne.symm hc, hd.symm]) (by simp) (stop 1)

theorem sided_spec {s : List A} (hs : Serie s) {ordered : List A} (hn : ordered.Nodup) (hne : ordered ≠ []) (front : Bool) :
    ∃ r, sided ordered s front = .ok r ∧ r.Nodup ∧ r ≠ [] ∧ (∀ a ∈ ordered, a ∈ r) ∧ ∀ a ∈ r, a ∈ ordered ∨ a ∈ s := by
  have hx : ∃ x, (if front then ordered.head? else ordered.getLast?) = some x := by
    cases front with
    | true => exact ⟨ordered.head hne, by simp [List.head?_eq_some_head hne]⟩
    | false => exact ⟨ordered.getLast hne, by simp [List.getLast?_eq_some_getLast hne]⟩
  obtain ⟨x, hx⟩ := hx
  obtain ⟨r, h1, h2⟩ := partner_spec hs ordered x
  unfold sided
  rw [hx]
  dsimp only
  rw [h1]
  cases r with
  | none => exact ⟨ordered, rfl, hn, hne, fun a h => h, fun a h => .inl h⟩
  | some a =>
    obtain ⟨ha, hm⟩ := h2 a rfl
    cases front with
    | true =>
      refine ⟨a :: ordered, rfl, List.nodup_cons.2 ⟨ha, hn⟩, by simp, fun b hb => .tail _ hb, fun b hb => ?_⟩
      rcases List.mem_cons.1 hb with rfl | hb
      · exact .inr hm
      · exact .inl hb
    | false =>
      refine ⟨ordered ++ [a], rfl, ?_, by simp, fun b hb => List.mem_append_left _ hb, fun b hb => ?_⟩
      · rw [List.nodup_append]
        refine ⟨hn, by simp, fun y hy z hz => ?_⟩
        simp only [List.mem_singleton] at hz
        subst hz
        rintro rfl
        exact ha hy
      · rcases List.mem_append.1 hb with hb | hb
        · exact .inl hb
        · simp only [List.mem_singleton] at hb
          subst hb
          exact .inr hm

theorem axesLoop_spec {setOrder : List A → List A} (ho : ∀ l, (setOrder l).Perm l) : ∀ (series : List (List A)) (ordered : List A),
    (∀ s ∈ series, Serie s) → ordered.Nodup →
    ∃ r, axesLoop setOrder ordered series = .ok r ∧ r.Nodup ∧ (∀ a ∈ ordered, a ∈ r) ∧
      (∀ a ∈ r, a ∈ ordered ∨ ∃ s ∈ series, a ∈ s) ∧ (ordered = [] → ∀ s, series.head? = some s → ∀ a ∈ s, a ∈ r)
  | [], ordered, _, hn => ⟨ordered, rfl, hn, fun _ h => h, fun _ h => .inl h, by simp⟩
  | s :: series, ordered, hs, hn => by
    rw [axesLoop]
    by_cases h : ordered.any (· ∈ s)
    · rw [if_pos h]
      have hne : ordered ≠ [] := by rintro rfl; simp at h
      obtain ⟨r1, a1, a2, a3, a4, a5⟩ := sided_spec (hs s (.head _)) hn hne true
      obtain ⟨r2, b1, b2, -, b4, b5⟩ := sided_spec (hs s (.head _)) a2 a3 false
      obtain ⟨r, c1, c2, c3, c4, -⟩ := axesLoop_spec ho series r2 (fun x hx => hs x (.tail _ hx)) b2
      refine ⟨r, ?_, c2, fun a ha => c3 a (b4 a (a4 a ha)), fun a ha => ?_, fun h => absurd h hne⟩
      · unfold newSided
        rw [a1]
        simp only [bind, Except.bind, b1, c1]
      · rcases c4 a ha with h' | ⟨x, hx, hax⟩
        · rcases b5 a h' with h' | h'
          · rcases a5 a h' with h' | h'
            · exact .inl h'
            · exact .inr ⟨s, .head _, h'⟩
          · exact .inr ⟨s, .head _, h'⟩
        · exact .inr ⟨x, .tail _ hx, hax⟩
    · rw [if_neg h]
      obtain ⟨t, t1, t2, t3⟩ := trio_spec ho (hs s (.head _))
      have hdis : ∀ a ∈ ordered, a ∉ s := by
        intro a ha has
        exact h (List.any_eq_true.2 ⟨a, ha, by simpa using has⟩)
      obtain ⟨r, c1, c2, c3, c4, -⟩ := axesLoop_spec ho series (ordered ++ t) (fun x hx => hs x (.tail _ hx)) (by
        rw [List.nodup_append]
        refine ⟨hn, t2, fun a ha b hb => ?_⟩
        rintro rfl
        exact hdis a ha ((t3 a).1 hb))
      refine ⟨r, ?_, c2, fun a ha => c3 a (List.mem_append_left _ ha), fun a ha => ?_, ?_⟩
      · rw [t1]
        simp only [bind, Except.bind, c1]
      · rcases c4 a ha with h' | ⟨x, hx, hax⟩
        · rcases List.mem_append.1 h' with h' | h'
          · exact .inl h'
          · exact .inr ⟨s, .head _, (t3 a).1 h'⟩
        · exact .inr ⟨x, .tail _ hx, hax⟩
      · rintro rfl s' hs' a ha
        simp only [List.head?_cons, Option.some.injEq] at hs'
        subst hs'
        exact c3 a (List.mem_append_right _ ((t3 a).2 ha))

theorem pairsOf_filter (skip : A → Bool) (l : List A) : pairsOf skip l = pairsOf (fun _ => false) (l.filter fun a => !skip a) := by
  induction l with
  | nil => rfl
  | cons a l ih =>
    rw [pairsOf]
    by_cases h : skip a
    · rw [if_pos h, List.filter_cons_of_neg (by simp [h]), ih]
      rfl
    · rw [if_neg h, List.filter_cons_of_pos (by simp [h]), pairsOf, ih]
      simp only [Bool.not_false, Bool.true_and, Bool.false_eq_true, if_false, List.filter_filter]
      congr 2
      apply List.filter_congr
      intro b _
      rw [Bool.and_comm]

theorem pairsOf_mem {l : List A} {p : A × A} (h : p ∈ pairsOf (fun _ => false) l) : p.1 ∈ l ∧ p.2 ∈ l ∧ p.1 ≠ p.2 := by
  induction l with
  | nil => simp [pairsOf] at h
  | cons a l ih =>
    rw [pairsOf] at h
    rcases List.mem_append.1 h with h | h
    · simp only [Bool.false_eq_true, if_false] at h
      obtain ⟨b, hb, rfl⟩ := List.mem_map.1 h
      rw [List.mem_filter] at hb
      refine ⟨.head _, .tail _ hb.1, ?_⟩
      have := hb.2
      simp at this
      exact fun h => this h.symm
    · obtain ⟨h1, h2, h3⟩ := ih h
      exact ⟨.tail _ h1, .tail _ h2, h3⟩

theorem pairsOf_good {l : List A} (hn : l.Nodup) : Good (pairsOf (fun _ => false) l) := by
  refine ⟨fun p hp => (pairsOf_mem hp).2.2, ?_⟩
  induction l with
  | nil => exact .nil
  | cons a l ih =>
    rw [List.nodup_cons] at hn
    rw [pairsOf, List.pairwise_append]
    refine ⟨?_, ih hn.2, fun p hp q hq => ?_⟩
    · simp only [Bool.false_eq_true, if_false]
      rw [List.pairwise_map]
      have hf : (l.filter fun b => !false && b ≠ a).Pairwise (fun x y => x ≠ y ∧ x ≠ a ∧ y ≠ a) := by
        have h1 : (l.filter fun b => !false && b ≠ a).Pairwise (· ≠ ·) := hn.2.filter _
        refine List.Pairwise.imp_of_mem ?_ h1
        intro x y hx hy hxy
        rw [List.mem_filter] at hx hy
        have h2 := hx.2
        have h3 := hy.2
        simp at h2 h3
        exact ⟨hxy, h2, h3⟩
      refine hf.imp fun {x y} h => ⟨fun h' => h.1 h'.2.symm, fun h' => h.2.1 h'.1.symm⟩
    · simp only [Bool.false_eq_true, if_false] at hp
      obtain ⟨b, hb, rfl⟩ := List.mem_map.1 hp
      obtain ⟨h1, h2, -⟩ := pairsOf_mem hq
      exact ⟨fun h => hn.1 (by have := h.1; simp only at this; rw [this] at h1; exact h1),
        fun h => hn.1 (by have := h.2; simp only at this; rw [this] at h2; exact h2)⟩

/-- The attributes whose associations are used: those which are not constant, or all if fewer than two are not constant. -/
def plotted (constant : A → Bool) (common : List A) : List A :=
  if pairsOf constant common = [] then common else common.filter fun a => !constant a

theorem correlations_spec {setOrder : List A → List A} {byScore : List (A × A) → List (A × A)} (ho : ∀ l, (setOrder l).Perm l)
    (hb : ∀ l, (byScore l).Perm l) {constant : A → Bool} {common : List A} (hn : common.Nodup) :
    ∃ assoc constants, correlations setOrder byScore constant common = (assoc, constants) ∧
      assoc.Perm (pairsOf (fun _ => false) (plotted constant common)) ∧ (plotted constant common).Nodup ∧
      (constants ++ plotted constant common).Perm common := by
  unfold correlations plotted
  by_cases h : pairsOf constant common = []
  · rw [if_pos h, if_pos h]
    exact ⟨_, _, rfl, .refl _, hn, .refl _⟩
  · rw [if_neg h, if_neg h]
    refine ⟨_, _, rfl, by rw [← pairsOf_filter]; exact hb _, hn.filter _, ?_⟩
    refine ((ho _).append_right _).trans ?_
    rw [distinctOf_nodup (hn.filter _)]
    exact List.filter_append_perm constant common

/-! ### C91 -/

/-- The axes are computed: none is repeated, each is a common attribute, and every constant attribute set apart is there.
`setOrder` and `byScore` only reorder. -/
theorem axes_spec {setOrder : List A → List A} {byScore : List (A × A) → List (A × A)} (ho : ∀ l, (setOrder l).Perm l)
    (hb : ∀ l, (byScore l).Perm l) (constant : A → Bool) {common : List A} (hn : common.Nodup) :
    ∃ axes, parallelAxes setOrder byScore constant common = some (.ok axes) ∧ axes.Nodup ∧ (∀ a ∈ axes, a ∈ common) ∧
      ((plotted constant common).length = 2 ∨ (plotted constant common).length = 3 → ∀ a ∈ common, a ∈ axes) := by
  obtain ⟨assoc, constants, h1, h2, h3, h4⟩ := correlations_spec ho hb (constant := constant) hn
  have hgood := (pairsOf_good h3).perm h2.symm
  obtain ⟨series, g1, g2, g3⟩ := triosLoop_spec (all := attrsOf assoc) (assoc.length + 1) [] assoc (by omega) hgood (by simp)
  obtain ⟨r, c1, c2, -, c4, c5⟩ := axesLoop_spec ho series [] g2 .nil
  have hin : ∀ a ∈ r, a ∈ plotted constant common := by
    intro a ha
    rcases c4 a ha with h | ⟨s, hs, has⟩
    · simp at h
    · have := g3 s hs a has
      unfold attrsOf at this
      obtain ⟨p, hp, hap⟩ := List.mem_flatMap.1 this
      obtain ⟨k1, k2, -⟩ := pairsOf_mem (h2.mem_iff.1 hp)
      simp only [List.mem_cons, List.not_mem_nil, or_false] at hap
      rcases hap with rfl | rfl
      · exact k1
      · exact k2
  have hnd := h4.nodup_iff.2 hn
  rw [List.nodup_append] at hnd
  refine ⟨constants ++ r, ?_, ?_, ?_, ?_⟩
  · unfold parallelAxes trios
    rw [h1]
    dsimp only
    rw [show (assoc.flatMap fun p => [p.1, p.2]) = attrsOf assoc from rfl, g1]
    simp only [Option.map_some, bind, Except.bind, c1]
  · rw [List.nodup_append]
    exact ⟨hnd.1, c2, fun a ha b hb => hnd.2.2 a ha b (hin b hb)⟩
  · intro a ha
    rw [← h4.mem_iff]
    rcases List.mem_append.1 ha with h | h
    · exact List.mem_append_left _ h
    · exact List.mem_append_right _ (hin a h)
  · intro hlen a ha
    rw [← h4.mem_iff] at ha
    rcases List.mem_append.1 ha with h | h
    · exact List.mem_append_left _ h
    · refine List.mem_append_right _ ?_
      have hcover : ∃ s, series.head? = some s ∧ ∀ z ∈ plotted constant common, z ∈ s := by
        generalize plotted constant common = P at *
        rcases hlen with hlen | hlen
        · match P, hlen with
          | [x, y], _ =>
            rw [List.nodup_cons] at h3
            have hxy : x ≠ y := fun h => h3.1 (by simp [h])
            have hp : pairsOf (fun _ => false) [x, y] = [(x, y)] := by simp [pairsOf, hxy.symm]
            rw [hp, List.perm_singleton] at h2
            subst h2
            rw [List.length_singleton, triosLoop_succ, if_neg (by simp [attrsOf, distinctOf])] at g1
            simp only [takeSharing] at g1
            rw [triosLoop_succ, if_pos (by simp [attrsOf])] at g1
            simp only [Option.map_some, Except.map, Option.some.injEq, Except.ok.injEq] at g1
            subst g1
            exact ⟨_, rfl, fun z hz => hz⟩
        · match P, hlen with
          | [x, y, w], _ =>
            simp only [List.nodup_cons, List.mem_cons, List.not_mem_nil, or_false, not_or, not_false_eq_true, List.nodup_nil, and_true] at h3
            obtain ⟨⟨hxy, hxw⟩, hyw⟩ := h3
            have hp : pairsOf (fun _ => false) [x, y, w] = [(x, y), (x, w), (y, w)] := by simp [pairsOf, Ne.symm hxy, Ne.symm hxw, Ne.symm hyw]
            rw [hp] at h2
            have hl := h2.length_eq
            match assoc, hl with
            | [p, q, t], _ =>
              have hpm := h2.mem_iff.1 (show p ∈ [p, q, t] by simp)
              have hqm := h2.mem_iff.1 (show q ∈ [p, q, t] by simp)
              have hd : Differ p q := (List.pairwise_cons.1 hgood.2).1 q (.head _)
              have hsh : Shares p q ∧ ∀ z ∈ [x, y, w], z ∈ [p.1, p.2, q.1, q.2] := by
                simp only [List.mem_cons, List.not_mem_nil, or_false] at hpm hqm
                unfold Differ at hd
                unfold Shares
                rcases hpm with rfl | rfl | rfl <;> rcases hqm with rfl | rfl | rfl <;> simp_all
              have hne : (distinctOf ([] : List A)).length ≠ (distinctOf (attrsOf [p, q, t])).length := by
                simp [attrsOf, distinctOf]
              rw [triosLoop_succ, if_neg hne] at g1
              simp only [takeSharing] at g1
              rw [if_pos (show q.1 = p.1 ∨ q.1 = p.2 ∨ q.2 = p.1 ∨ q.2 = p.2 from hsh.1)] at g1
              simp only [List.nil_append] at g1
              cases hrest : triosLoop (attrsOf [p, q, t]) [p, q, t].length [p.1, p.2, q.1, q.2] [t] with
              | none => rw [hrest] at g1; simp at g1
              | some v =>
                rw [hrest] at g1
                cases v with
                | error e => simp [Except.map] at g1
                | ok ss =>
                  simp only [Option.map_some, Except.map, Option.some.injEq, Except.ok.injEq] at g1
                  subst g1
                  exact ⟨_, rfl, hsh.2⟩
      obtain ⟨s, hs1, hs2⟩ := hcover
      exact c5 rfl s hs1 a (hs2 a h)

/-- The axes of a parallel plot are always computed; each is a common attribute and none is repeated. -/
theorem C91_axes {setOrder : List A → List A} {byScore : List (A × A) → List (A × A)} (ho : ∀ l, (setOrder l).Perm l)
    (hb : ∀ l, (byScore l).Perm l) (constant : A → Bool) {common : List A} (hn : common.Nodup) :
    ∃ axes, parallelAxes setOrder byScore constant common = some (.ok axes) ∧ axes.Nodup ∧ ∀ a ∈ axes, a ∈ common := by
  obtain ⟨axes, h1, h2, h3, -⟩ := axes_spec ho hb constant hn
  exact ⟨axes, h1, h2, h3⟩

/-- With two or three attributes which are not constant, every common attribute is an axis exactly once.  Missing for the full
property: the other cases (`C91_violated`). -/
theorem C91_partial {setOrder : List A → List A} {byScore : List (A × A) → List (A × A)} (ho : ∀ l, (setOrder l).Perm l)
    (hb : ∀ l, (byScore l).Perm l) (constant : A → Bool) {common : List A} (hn : common.Nodup)
    (h2 : 2 ≤ (common.filter fun a => !constant a).length) (h3 : (common.filter fun a => !constant a).length ≤ 3) :
    ∃ axes, parallelAxes setOrder byScore constant common = some (.ok axes) ∧ axes.Perm common := by
  obtain ⟨axes, g1, g2, g3, g4⟩ := axes_spec ho hb constant hn
  have hp : plotted constant common = common.filter fun a => !constant a := by
    unfold plotted
    rw [if_neg]
    rw [pairsOf_filter]
    match hc : common.filter (fun a => !constant a), h2 with
    | x :: y :: l, _ =>
      have : x ≠ y := by
        have hf : (common.filter fun a => !constant a).Nodup := hn.filter _
        rw [hc, List.nodup_cons] at hf
        exact fun h => hf.1 (by simp [h])
      simp [pairsOf, this.symm]
  refine ⟨axes, g1, (List.perm_ext_iff_of_nodup g2 hn).2 fun a => ⟨g3 a, g4 (by rw [hp]; omega) a⟩⟩

/-- A dataset of one object with five attributes, hence all constant: two attributes have no axis. -/
theorem C91_violated : parallelAxes id id (fun _ : String => true) ["a", "b", "c", "d", "e"] = some (.ok ["b", "a", "c"]) := by rfl

/-- The same loss with five attributes none of which is constant. -/
theorem C91_correlated_violated : parallelAxes id id (fun _ : String => false) ["a", "b", "c", "d", "e"] = some (.ok ["b", "a", "c"]) := by rfl

example : parallelAxes id List.reverse (fun s : String => s = "k") ["a", "b", "k", "c"] = some (.ok ["k", "b", "c", "a"]) := by rfl

end DC.Data
