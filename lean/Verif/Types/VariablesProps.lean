import Verif.Types.Variables
import Verif.Types.MatchProps
/-
Specification and properties of matchable variables (C99).
-/
namespace DC.Types

/-- Specification: the variables i and j are typed, different, not on the same block nor both inputs or both outputs of blocks. -/
def Connectable (vars : List (Address × Option Ty)) (i j : Nat) (T U : Ty) : Prop :=
  i ≠ j ∧ ∃ a b, vars[i]? = some (a, some T) ∧ vars[j]? = some (b, some U) ∧
    ∀ k s p l s' q, a = .port k s p → b = .port l s' q → k ≠ l ∧ s ≠ s'

theorem compatible_iff {vars : List (Address × Option Ty)} {i j : Nat} : compatible vars i j = true ↔ ∃ T U, Connectable vars i j T U := by
  unfold compatible Connectable
  constructor
  · intro h
    split at h
    · rename_i a t b u ha hb
      split at h
      · simp at h
      · rename_i hij
        cases a with
        | free n =>
          simp only [Bool.false_eq_true, if_false, Bool.and_eq_true, Option.isSome_iff_exists] at h
          obtain ⟨⟨T, rfl⟩, U, rfl⟩ := h
          exact ⟨T, U, hij, _, _, ha, hb, by simp⟩
        | port k s p =>
          cases b with
          | free n =>
            simp only [Bool.false_eq_true, if_false, Bool.and_eq_true, Option.isSome_iff_exists] at h
            obtain ⟨⟨T, rfl⟩, U, rfl⟩ := h
            exact ⟨T, U, hij, _, _, ha, hb, by simp⟩
          | port l s' q =>
            dsimp only at h
            split at h
            · simp at h
            · rename_i hc
              simp only [Bool.and_eq_true, Option.isSome_iff_exists] at h
              obtain ⟨⟨T, rfl⟩, U, rfl⟩ := h
              refine ⟨T, U, hij, _, _, ha, hb, ?_⟩
              intro k1 s1 p1 l1 s1' q1 e1 e2
              simp only [Address.port.injEq] at e1 e2
              obtain ⟨rfl, rfl, -⟩ := e1
              obtain ⟨rfl, rfl, -⟩ := e2
              simpa using hc
    · simp at h
  · rintro ⟨T, U, hij, a, b, ha, hb, hc⟩
    rw [ha, hb]
    dsimp only
    rw [if_neg hij]
    cases a with
    | free n => simp
    | port k s p =>
      cases b with
      | free n => simp
      | port l s' q =>
        obtain ⟨h1, h2⟩ := hc k s p l s' q rfl rfl
        simp [h1, h2]

theorem matchesOf_spec {C : Classes} {vars : List (Address × Option Ty)} {i : Nat} {a : Address} {T : Ty} (hi : vars[i]? = some (a, some T)) :
    ∀ (js : List Nat), (∀ j ∈ js, ∀ U, Connectable vars i j T U → ∃ m, typematch C T U = .ok m) →
    ∃ r, matchesOf C vars i T js = .ok r ∧ ∀ j, j ∈ r ↔ j ∈ js ∧ ∃ U, Connectable vars i j T U ∧ typematch C T U = .ok true
  | [], _ => ⟨[], rfl, by simp⟩
  | j :: js, h => by
    obtain ⟨r, h1, h2⟩ := matchesOf_spec hi js fun x hx => h x (.tail _ hx)
    rw [matchesOf]
    by_cases hc : compatible vars i j = true
    · rw [if_pos hc]
      obtain ⟨T', U, hcon⟩ := compatible_iff.1 hc
      obtain ⟨hij, a', b, ha, hb, hp⟩ := hcon
      rw [hi] at ha
      simp only [Option.some.injEq, Prod.mk.injEq] at ha
      obtain ⟨rfl, rfl⟩ := ha
      have hcon : Connectable vars i j T U := ⟨hij, a, b, hi, hb, hp⟩
      obtain ⟨m, hm⟩ := h j (.head _) U hcon
      rw [hb]
      dsimp only
      rw [hm, h1]
      refine ⟨_, rfl, fun x => ?_⟩
      have hU : ∀ U', Connectable vars i j T U' → U' = U := by
        rintro U' ⟨-, a', b', -, hb', -⟩
        rw [hb] at hb'
        simp only [Option.some.injEq, Prod.mk.injEq] at hb'
        exact hb'.2.symm
      cases m with
      | true =>
        simp only [if_true]
        rw [List.mem_cons, List.mem_cons, h2]
        constructor
        · rintro (rfl | ⟨h3, h4⟩)
          · exact ⟨.inl rfl, U, hcon, hm⟩
          · exact ⟨.inr h3, h4⟩
        · rintro ⟨h3 | h3, h4⟩
          · exact .inl h3
          · exact .inr ⟨h3, h4⟩
      | false =>
        simp only [Bool.false_eq_true, if_false]
        rw [h2, List.mem_cons]
        constructor
        · rintro ⟨h3, h4⟩
          exact ⟨.inr h3, h4⟩
        · rintro ⟨rfl | h3, U', h4, h5⟩
          · rw [hU U' h4, hm] at h5
            simp at h5
          · exact ⟨h3, U', h4, h5⟩
    · rw [if_neg hc]
      refine ⟨r, h1, fun x => ?_⟩
      rw [h2, List.mem_cons]
      constructor
      · rintro ⟨h3, h4⟩
        exact ⟨.inr h3, h4⟩
      · rintro ⟨rfl | h3, U', h4, h5⟩
        · exact absurd (compatible_iff.2 ⟨T, U', h4⟩) hc
        · exact ⟨h3, U', h4, h5⟩

theorem matchVariables_spec {C : Classes} {vars : List (Address × Option Ty)}
    (h : ∀ i j T U, Connectable vars i j T U → ∃ m, typematch C T U = .ok m) : ∀ (is : List Nat),
    ∃ r, matchVariables C vars is = .ok r ∧ (∀ i, (∃ js, (i, js) ∈ r) ↔ i ∈ is ∧ ∃ a T, vars[i]? = some (a, some T)) ∧
      ∀ i js, (i, js) ∈ r → ∀ j, j ∈ js ↔ ∃ T U, Connectable vars i j T U ∧ typematch C T U = .ok true
  | [] => ⟨[], rfl, by simp, by simp⟩
  | i :: is => by
    obtain ⟨r, h1, h2, h3⟩ := matchVariables_spec h is
    rw [matchVariables]
    by_cases ht : ∃ a T, vars[i]? = some (a, some T)
    · obtain ⟨a, T, hi⟩ := ht
      obtain ⟨js, g1, g2⟩ := matchesOf_spec hi (List.range vars.length) fun j _ U hc => h i j T U hc
      rw [hi]
      dsimp only
      rw [g1, h1]
      refine ⟨_, rfl, fun x => ?_, fun x xs hx j => ?_⟩
      · constructor
        · rintro ⟨xs, hx⟩
          rcases List.mem_cons.1 hx with hx | hx
          · simp only [Prod.mk.injEq] at hx
            rw [hx.1]
            exact ⟨.head _, a, T, hi⟩
          · obtain ⟨k1, k2⟩ := (h2 x).1 ⟨xs, hx⟩
            exact ⟨.tail _ k1, k2⟩
        · rintro ⟨hx, k⟩
          rcases List.mem_cons.1 hx with rfl | hx
          · exact ⟨js, .head _⟩
          · obtain ⟨xs, hxs⟩ := (h2 x).2 ⟨hx, k⟩
            exact ⟨xs, .tail _ hxs⟩
      · rcases List.mem_cons.1 hx with hx | hx
        · simp only [Prod.mk.injEq] at hx
          obtain ⟨rfl, rfl⟩ := hx
          rw [g2]
          constructor
          · rintro ⟨-, U, k1, k2⟩
            exact ⟨T, U, k1, k2⟩
          · rintro ⟨T', U, k1, k2⟩
            obtain ⟨hij, a', b, ha, hb, hp⟩ := k1
            have ha' := ha
            rw [hi] at ha'
            simp only [Option.some.injEq, Prod.mk.injEq] at ha'
            obtain ⟨rfl, rfl⟩ := ha'
            refine ⟨?_, U, ⟨hij, a, b, ha, hb, hp⟩, k2⟩
            rw [List.mem_range]
            exact (List.getElem?_eq_some_iff.1 hb).1
        · exact h3 x xs hx j
    · have : matchVariables C vars is = .ok r := h1
      split
      · rename_i a T hi
        exact absurd ⟨a, T, hi⟩ ht
      · refine ⟨r, h1, fun x => ?_, h3⟩
        rw [h2, List.mem_cons]
        constructor
        · rintro ⟨k1, k2⟩
          exact ⟨.inr k1, k2⟩
        · rintro ⟨rfl | k1, k2⟩
          · exact absurd k2 ht
          · exact ⟨k1, k2⟩

/-- When typematch answers on the types of connectable variables, match_variables gives, for each typed variable, the connectable
variables whose types match.  Missing for the full property: types on which typematch raises (`C99_violated`). -/
theorem C99_partial {C : Classes} {vars : List (Address × Option Ty)} (h : ∀ i j T U, Connectable vars i j T U → ∃ m, typematch C T U = .ok m) :
    ∃ r, matchVariables C vars (List.range vars.length) = .ok r ∧ (∀ i, (∃ js, (i, js) ∈ r) ↔ ∃ a T, vars[i]? = some (a, some T)) ∧
      ∀ i js, (i, js) ∈ r → ∀ j, j ∈ js ↔ ∃ T U, Connectable vars i j T U ∧ typematch C T U = .ok true := by
  obtain ⟨r, h1, h2, h3⟩ := matchVariables_spec h (List.range vars.length)
  refine ⟨r, h1, fun i => ?_, h3⟩
  rw [h2, List.mem_range]
  exact ⟨fun h => h.2, fun ⟨a, T, hi⟩ => ⟨(List.getElem?_eq_some_iff.1 hi).1, a, T, hi⟩⟩

/-- An optional output and an optional input of different classes make match_variables raise. -/
theorem C99_violated (C : Classes) : matchVariables C [(.port 0 true 0, some (optional (.cls "int"))), (.port 1 false 0, some (optional (.cls "str")))] [0, 1] =
    .error .notImplemented := by
  have hm : typematch C (optional (.cls "int")) (optional (.cls "str")) = .error .notImplemented := by
    rw [optional, optional, typematch, if_neg (by simp [tyEq, eachIn, isAny, particular]), if_pos (by rfl), if_pos (by rfl)]
    simp [heal, isDefaultUnion, tyEq, matchHealed, isTyping]
  simp [matchVariables, matchesOf, compatible, List.range, List.range.loop, hm, bind, Except.bind]

/-- A case of `C99_partial`: an output of type Sub, an input of type Base, an untyped free variable. -/
example : ∃ r, matchVariables small.toClasses [(.port 0 true 0, some (.cls "Sub")), (.port 1 false 0, some (.cls "Base")), (.free 0, none)] [0, 1, 2] = .ok r ∧
    r = [(0, [1]), (1, [])] := by
  refine ⟨_, ?_, rfl⟩
  simp [matchVariables, matchesOf, compatible, List.range, List.range.loop, C17_class, small, bind, Except.bind]

end DC.Types
