import Verif.Workflow.Display
import Verif.Workflow.Props
/- Lemmas on the branches of a workflow. -/
namespace DC.Wkf
set_option linter.unusedSectionVars false

variable {α : Type} {W : Workflow α}

theorem gatherTurn_spec (hw : WellFormed W) (hl : LocksOk W) (so : SetOrder) {cond : Nat → Except PyErr Bool} {P : Nat → Prop}
    {last : Bool} (level : List Nat) (hc : ∀ u ∈ level, ∃ c, cond u = .ok c ∧ (c = true ↔ P u))
    (hlt : ∀ u ∈ level, u < W.blocks.length) (branch : List Nat) :
    ∃ cs br, gatherTurn W so cond last level branch = .ok (cs, br) ∧
      (∀ j, j ∈ br ↔ j ∈ branch ∨ j ∈ level ∧ (P j ∨ last = true)) ∧
      ∀ j, j ∈ cs ↔ ∃ u ∈ level, P u ∧ Feeds W j u := by
  induction level generalizing branch with
  | nil => exact ⟨[], branch, rfl, by simp, by simp⟩
  | cons u level ih =>
    obtain ⟨c, h1, h2⟩ := hc u (.head _)
    have ih := ih (fun v hv => hc v (.tail _ hv)) (fun v hv => hlt v (.tail _ hv))
    rw [gatherTurn, h1]
    simp only [bind, Except.bind]
    cases c with
    | true =>
      have hp : P u := h2.1 rfl
      obtain ⟨us, e1, -, e2⟩ := upstreamBlocks_spec hw hl so (hlt u (.head _))
      obtain ⟨cs, br, h3, h4, h5⟩ := ih (u :: branch)
      simp only [if_true, e1, h3]
      refine ⟨_, _, rfl, fun j => ?_, fun j => ?_⟩
      · rw [h4]
        simp only [List.mem_cons]
        constructor
        · rintro ((rfl | h) | ⟨h, h'⟩)
          · exact .inr ⟨.inl rfl, .inl hp⟩
          · exact .inl h
          · exact .inr ⟨.inr h, h'⟩
        · rintro (h | ⟨rfl | h, h'⟩)
          · exact .inl (.inr h)
          · exact .inl (.inl rfl)
          · exact .inr ⟨h, h'⟩
      · rw [List.mem_append, e2, h5]
        simp only [List.mem_cons, exists_eq_or_imp]
        exact or_congr_left ⟨fun h => ⟨hp, h⟩, fun h => h.2⟩
    | false =>
      have hp : ¬ P u := fun h => by simpa using h2.2 h
      obtain ⟨cs, br, h3, h4, h5⟩ := ih (if last then u :: branch else branch)
      simp only [Bool.false_eq_true, if_false, h3]
      refine ⟨_, _, rfl, fun j => ?_, fun j => ?_⟩
      · rw [h4]
        cases last with
        | true =>
          simp only [if_true, List.mem_cons, or_true, and_true]
          tauto
        | false =>
          simp only [Bool.false_eq_true, if_false, List.mem_cons, or_false]
          constructor
          · rintro (h | ⟨h, h'⟩)
            · exact .inl h
            · exact .inr ⟨.inr h, h'⟩
          · rintro (h | ⟨rfl | h, h'⟩)
            · exact .inl h
            · exact absurd h' hp
            · exact .inr ⟨h, h'⟩
      · rw [h5]
        simp only [List.mem_cons, exists_eq_or_imp]
        exact ⟨fun h => .inr h, fun h => h.resolve_left (fun h => hp h.1)⟩

theorem Feeds.irrefl (hw : WellFormed W) {i : Nat} : ¬ Feeds W i i := by
  rintro ⟨b, c, p, hb, hc, hp, h1, h2⟩
  rw [hb] at hc
  cases hc
  obtain ⟨rank, hr, hr2⟩ := hw.acyclic
  have := hr p hp
  have := hr2 b (List.mem_of_getElem? hb) _ h1 _ h2
  omega

theorem gatherLoop_spec (hw : WellFormed W) (hl : LocksOk W) (so : SetOrder) {cond : Nat → Except PyErr Bool} {P : Nat → Prop}
    {last : Bool} {i : Nat} (hc : ∀ u, u < W.blocks.length → ∃ c, cond u = .ok c ∧ (c = true ↔ P u)) (n : Nat)
    (candidates level branch : List Nat) (h0 : candidates = [] → level = []) (h1 : ∀ u ∈ level, u < W.blocks.length)
    (h2 : ∀ j ∈ branch, j < W.blocks.length) (h3 : ∀ u ∈ level, u ∉ branch)
    (h4 : ∀ j ∈ branch, (j = i ∨ P j) → ∀ c, Feeds W c j → (P c ∨ last = true) → c ∈ branch ∨ c ∈ level)
    (h5 : ∀ u ∈ level, ∃ j ∈ branch, (j = i ∨ P j) ∧ Feeds W u j) (h6 : i ∈ branch) :
    ∃ r, gatherLoop W so cond last n candidates level branch = .ok r ∧ (∀ j ∈ branch, j ∈ r) ∧
      (∀ j ∈ r, j < W.blocks.length) ∧ (∀ j ∈ r, j ∈ branch ∨ P j ∨ last = true) ∧
      (∀ Q : Nat → Prop, (∀ j ∈ branch, Q j) → (∀ j c, Q j → (j = i ∨ P j) → Feeds W c j → (P c ∨ last = true) → Q c) →
        ∀ j ∈ r, Q j) ∧
      ((∀ j ∈ r, (j = i ∨ P j) → ∀ c, Feeds W c j → (P c ∨ last = true) → c ∈ r) ∨
        branch.toFinset.card + n ≤ r.toFinset.card) := by
  induction n generalizing candidates level branch with
  | zero => exact ⟨branch, rfl, fun _ h => h, h2, fun _ h => .inl h, fun Q h _ => h, .inr (by omega)⟩
  | succ n ih =>
    rw [gatherLoop]
    split
    · rename_i he
      rw [List.isEmpty_iff] at he
      have := h0 he
      subst this
      exact ⟨branch, rfl, fun _ h => h, h2, fun _ h => .inl h, fun Q h _ => h,
        .inl (fun j hj hp c hf hl => (h4 j hj hp c hf hl).resolve_right (by simp))⟩
    · obtain ⟨cs, br, e1, e2, e3⟩ := gatherTurn_spec (last := last) hw hl so level (fun u hu => hc u (h1 u hu)) h1 branch
      simp only [e1, bind, Except.bind]
      obtain ⟨r, r1, r2, r3, r4, r5, r6⟩ := ih cs (cs.filter (fun b => !br.contains b)) br (fun h => by rw [h]; rfl)
        (fun u hu => by
          obtain ⟨v, -, -, hf⟩ := (e3 u).1 (List.mem_filter.1 hu).1
          exact hf.lt.1)
        (fun j hj => by
          rcases (e2 j).1 hj with h | ⟨h, -⟩
          · exact h2 j h
          · exact h1 j h)
        (fun u hu => by simpa using (List.mem_filter.1 hu).2)
        (fun j hj hp c hf hl' => by
          by_cases hcb : c ∈ br
          · exact .inl hcb
          right
          rw [List.mem_filter]
          refine ⟨?_, by simpa using hcb⟩
          rw [e3]
          rcases (e2 j).1 hj with h | ⟨h, -⟩
          · rcases h4 j h hp c hf hl' with h | h
            · exact absurd ((e2 c).2 (.inl h)) hcb
            · exact absurd ((e2 c).2 (.inr ⟨h, hl'⟩)) hcb
          · exact ⟨j, h, hp.resolve_left (fun he => h3 j h (he ▸ h6)), hf⟩)
        (fun u hu => by
          obtain ⟨v, hv, hp, hf⟩ := (e3 u).1 (List.mem_filter.1 hu).1
          exact ⟨v, (e2 v).2 (.inr ⟨hv, .inl hp⟩), .inr hp, hf⟩) ((e2 i).2 (.inl h6))
      refine ⟨r, r1, fun j hj => r2 j ((e2 j).2 (.inl hj)), r3, fun j hj => ?_, fun Q hQ hQ' => ?_, ?_⟩
      · rcases r4 j hj with h | h
        · rcases (e2 j).1 h with h | h
          · exact .inl h
          · exact .inr h.2
        · exact .inr h
      · refine r5 Q (fun j hj => ?_) hQ'
        rcases (e2 j).1 hj with h | ⟨h, h'⟩
        · exact hQ j h
        · obtain ⟨k, hk, hp, hf⟩ := h5 j h
          exact hQ' k j (hQ k hk) hp hf h'
      · by_cases hn : ∃ u ∈ level, P u ∨ last = true
        · refine r6.imp id (fun r6 => ?_)
          obtain ⟨u, hu, hpu⟩ := hn
          have : branch.toFinset.card < br.toFinset.card := by
            apply Finset.card_lt_card
            rw [Finset.ssubset_iff_of_subset]
            · exact ⟨u, by simp [e2, hu, hpu], by simp [h3 u hu]⟩
            · intro y hy
              simp only [List.mem_toFinset] at hy ⊢
              exact (e2 y).2 (.inl hy)
          omega
        · left
          push Not at hn
          have hbr : ∀ j, j ∈ br ↔ j ∈ branch := fun j => by
            rw [e2]
            exact ⟨fun h => h.elim id (fun h => absurd h.2 (by have := hn j h.1; tauto)), .inl⟩
          have hcl : ∀ j ∈ branch, (j = i ∨ P j) → ∀ c, Feeds W c j → (P c ∨ last = true) → c ∈ branch := by
            intro j hj hp c hf hl'
            refine (h4 j hj hp c hf hl').resolve_right (fun h => ?_)
            have := hn c h
            tauto
          have hall : ∀ j ∈ r, j ∈ branch := r5 (· ∈ branch) (fun j hj => (hbr j).1 hj)
            (fun j c hj hp hf hl' => hcl j hj hp c hf hl')
          intro j hj hp c hf hl'
          exact r2 c ((hbr c).2 (hcl j (hall j hj) hp c hf hl'))

theorem gatherBlocks_spec (hw : WellFormed W) (hl : LocksOk W) (so : SetOrder) {cond : Nat → Except PyErr Bool} {P : Nat → Prop}
    {last : Bool} {i : Nat} (hi : i < W.blocks.length)
    (hc : ∀ u, u < W.blocks.length → ∃ c, cond u = .ok c ∧ (c = true ↔ P u)) :
    ∃ r, gather W so cond last i = .ok r ∧ i ∈ r ∧ (∀ j ∈ r, j < W.blocks.length) ∧
      (∀ j ∈ r, j = i ∨ P j ∨ last = true) ∧
      (∀ Q : Nat → Prop, Q i → (∀ j c, Q j → (j = i ∨ P j) → Feeds W c j → (P c ∨ last = true) → Q c) → ∀ j ∈ r, Q j) ∧
      (∀ j ∈ r, (j = i ∨ P j) → ∀ c, Feeds W c j → (P c ∨ last = true) → c ∈ r) := by
  obtain ⟨us, e1, -, e2⟩ := upstreamBlocks_spec hw hl so hi
  obtain ⟨r, r1, r2, r3, r4, r5, r6⟩ := gatherLoop_spec (P := P) (last := last) (i := i) hw hl so hc (W.blocks.length + 1)
    us us [i] id (fun u hu => ((e2 u).1 hu).lt.1) (by simpa using hi)
    (fun u hu hm => by
      rw [List.mem_singleton] at hm
      subst hm
      exact Feeds.irrefl hw ((e2 u).1 hu))
    (fun j hj _ c hf _ => by
      rw [List.mem_singleton] at hj
      subst hj
      exact .inr ((e2 c).2 hf))
    (fun u hu => ⟨i, by simp, .inl rfl, (e2 u).1 hu⟩) (by simp)
  refine ⟨r, ?_, r2 i (by simp), r3, fun j hj => ?_, fun Q hQ hQ' => r5 Q (by simpa using hQ) hQ', r6.resolve_right (fun h => ?_)⟩
  · unfold gather
    rw [e1]
    exact r1
  · rcases r4 j hj with h | h
    · exact .inl (by simpa using h)
    · exact .inr h
  · have : r.toFinset.card ≤ (Finset.range W.blocks.length).card := by
      apply Finset.card_le_card
      intro i hi
      simp only [List.mem_toFinset, Finset.mem_range] at hi ⊢
      exact r3 i hi
    rw [Finset.card_range] at this
    omega

end DC.Wkf
