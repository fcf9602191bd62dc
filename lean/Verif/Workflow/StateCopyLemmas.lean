import Verif.Workflow.StateSim
/- What the copy of a state of execution holds. -/
namespace DC.Wkf
set_option linter.unusedSectionVars false

variable {α : Type} {W : Workflow α} {V : Nat → Option α}

/-! ### Pipes and locks of the states which can be reached -/

/-- The pipes which hold a value are those which are active, and are pipes of the workflow. -/
structure PipesOn (W : Workflow α) (s : St α) : Prop where
  on : ∀ j, (s.values j).isSome ↔ s.actPipe j = true
  lt : ∀ j, s.actPipe j = true → j < W.pipes.length

theorem PipesOn.push {s s' : St α} {v : Nat} {x : α} (h : PipesOn W s)
    (hp : Pushed (FlowPipe W v) (Flow W v) (FlowOut W v) x s s') : PipesOn W s' := by
  refine ⟨fun j => ?_, fun j hj => ?_⟩
  · rw [hp.pipe j]
    by_cases hf : FlowPipe W v j
    · simp [hp.valIn j hf, hf]
    · simp [hp.valOut j hf, hf, h.on j]
  · rcases (hp.pipe j).1 hj with hj | ⟨p, hj, -⟩
    · exact h.lt j hj
    · exact (List.getElem?_eq_some_iff.1 hj).1

theorem PipesOn.note {s : St α} {v : Nat} {x : α} (h : PipesOn W s) : PipesOn W (noteInput W s v x) := by
  unfold noteInput
  split
  · exact ⟨h.on, h.lt⟩
  · exact h

theorem PipesOn.activateInput {s s' : St α} {v : Nat} {x : α} (h : PipesOn W s)
    (hs : Wkf.activateInput W s v x = .ok s') : PipesOn W s' := h.note.push (activateInput_pushed hs)

theorem PipesOn.activateOne {s s' : St α} {c : Bool} {k v : Nat} (h : PipesOn W s)
    (hs : Wkf.activateOne W c s k v = .ok s') : PipesOn W s' := by
  unfold Wkf.activateOne at hs
  split at hs
  · exact h.activateInput hs
  · split at hs
    · exact h.activateInput hs
    · split at hs
      · simp at hs
      · split at hs
        · simp at hs
        · simp only [Except.ok.injEq] at hs
          rw [← hs]; exact h

theorem PipesOn.activateLoop {c : Bool} (l : List Nat) (k : Nat) (s s' : St α) (h : PipesOn W s)
    (hs : activateInputsLoop W c k l s = .ok s') : PipesOn W s' := by
  induction l generalizing k s with
  | nil =>
    simp only [activateInputsLoop, Except.ok.injEq] at hs
    rw [← hs]; exact h
  | cons v l ih =>
    rw [activateInputsLoop, bind_ok] at hs
    obtain ⟨s1, h1, h2⟩ := hs
    exact ih _ _ (h.activateOne h1) h2

theorem PipesOn.activateInputs {c : Bool} {s s' : St α} (h : PipesOn W s) (hs : Wkf.activateInputs W c s = .ok s') :
    PipesOn W s' := PipesOn.activateLoop _ _ _ _ h hs

theorem PipesOn.readInputs (l : List Nat) (s s' : St α) (xs : List α) (h : PipesOn W s)
    (hs : Wkf.readInputs W l s = .ok (xs, s')) : PipesOn W s' := by
  induction l generalizing s xs with
  | nil =>
    simp only [Wkf.readInputs, Except.ok.injEq, Prod.mk.injEq] at hs
    rw [← hs.2]; exact h
  | cons v l ih =>
    rw [Wkf.readInputs, bind_ok] at hs
    obtain ⟨x, -, hs⟩ := hs
    rw [bind_ok] at hs
    obtain ⟨s1, h1, hs⟩ := hs
    rw [bind_ok] at hs
    obtain ⟨⟨ys, s2⟩, h2, hs⟩ := hs
    simp only [Except.ok.injEq, Prod.mk.injEq] at hs
    obtain ⟨-, rfl⟩ := hs
    exact ih s1 ys (h.push (activateVar_pushed _ _ _ _ h1)) h2

theorem PipesOn.activateOutputs (os : List Nat) (ys : List α) (s s' : St α) (h : PipesOn W s)
    (hs : Wkf.activateOutputs W os ys s = .ok s') : PipesOn W s' := by
  induction os generalizing s ys with
  | nil =>
    simp only [Wkf.activateOutputs, Except.ok.injEq] at hs
    rw [← hs]; exact h
  | cons o os ih =>
    cases ys with
    | nil =>
      simp only [Wkf.activateOutputs, Except.ok.injEq] at hs
      rw [← hs]; exact h
    | cons y ys =>
      rw [Wkf.activateOutputs, bind_ok] at hs
      obtain ⟨s1, h1, h2⟩ := hs
      exact ih ys s1 (h.push (activateVar_pushed _ _ _ _ h1)) h2

theorem PipesOn.evaluateBlock {s s' : St α} {i : Nat} {ys : List α} (h : PipesOn W s)
    (hs : Wkf.evaluateBlock W s i = .ok (s', ys)) : PipesOn W s' := by
  unfold Wkf.evaluateBlock at hs
  split at hs
  · simp at hs
  · rw [bind_ok] at hs
    obtain ⟨⟨xs, s1⟩, h1, hs⟩ := hs
    simp only [bind_ok] at hs
    obtain ⟨ys', -, s2, h2, hs⟩ := hs
    simp only [Except.ok.injEq, Prod.mk.injEq] at hs
    obtain ⟨rfl, rfl⟩ := hs
    have g1 := PipesOn.readInputs _ _ _ _ h h1
    have g2 := PipesOn.activateOutputs _ _ { s1 with evaluated := s1.evaluated ++ [i] } _ ⟨g1.on, g1.lt⟩ h2
    exact ⟨g2.on, g2.lt⟩

theorem PipesOn.blockEvaluation {rt : List Nat} {i : Nat} {s s' : St α} {r : Bool} (h : PipesOn W s)
    (hs : Wkf.blockEvaluation W rt s i = .ok (s', r)) : PipesOn W s' := by
  obtain ⟨s1, h1, -, ⟨-, rfl, -⟩ | ⟨-, -, ys, he, -⟩⟩ := blockEvaluation_ok hs
  · exact h.activateInputs h1
  · exact (h.activateInputs h1).evaluateBlock he

theorem PipesOn.evaluateNext {rt : List Nat} {s s' : St α} {r : Option Nat} (h : PipesOn W s)
    (hs : Wkf.evaluateNext W rt s = .ok (s', r)) : PipesOn W s' := by
  unfold Wkf.evaluateNext at hs
  rw [bind_ok] at hs
  obtain ⟨s1, h1, hs⟩ := hs
  have g1 := h.activateInputs h1
  split at hs
  · simp only [Except.ok.injEq, Prod.mk.injEq] at hs
    rw [← hs.1]; exact g1
  · rw [bind_ok] at hs
    obtain ⟨⟨s2, q⟩, h2, hs⟩ := hs
    simp only [Except.ok.injEq, Prod.mk.injEq] at hs
    rw [← hs.1]; exact g1.blockEvaluation h2

theorem PipesOn.branchStep (l : List Nat) (s s' : St α) (h : PipesOn W s) (hs : Wkf.branchStep W l s = .ok s') :
    PipesOn W s' := by
  induction l generalizing s with
  | nil =>
    simp only [Wkf.branchStep, Except.ok.injEq] at hs
    rw [← hs]; exact h
  | cons i l ih =>
    rw [Wkf.branchStep, bind_ok] at hs
    obtain ⟨⟨s1, ys⟩, h1, h2⟩ := hs
    exact ih s1 (h.evaluateBlock h1) h2

theorem PipesOn.branchLoop {rt blocks : List Nat} (n : Nat) (d d' : List Nat) (s s' : St α) (h : PipesOn W s)
    (hs : Wkf.branchLoop W rt blocks n d s = .ok (s', d')) : PipesOn W s' := by
  induction n generalizing d s with
  | zero =>
    simp only [Wkf.branchLoop, Except.ok.injEq, Prod.mk.injEq] at hs
    rw [← hs.1]; exact h
  | succ n ih =>
    rw [Wkf.branchLoop] at hs
    split at hs
    · simp only [Except.ok.injEq, Prod.mk.injEq] at hs
      rw [← hs.1]; exact h
    · rw [bind_ok] at hs
      obtain ⟨s1, h1, h2⟩ := hs
      exact ih _ s1 (PipesOn.branchStep _ _ _ h h1) h2

theorem PipesOn.evaluateBranch {rt blocks : List Nat} {d' : List Nat} {s s' : St α} (h : PipesOn W s)
    (hs : Wkf.evaluateBranch W rt blocks s = .ok (s', d')) : PipesOn W s' := by
  unfold Wkf.evaluateBranch at hs
  rw [bind_ok] at hs
  obtain ⟨s1, h1, hs⟩ := hs
  split at hs
  · exact PipesOn.branchLoop _ _ _ _ _ (h.activateInputs h1) hs
  · simp at hs

theorem Reached.pipesOn {s : St α} (h : Reached W V s) : PipesOn W s := by
  induction h with
  | start _ hs => exact PipesOn.activateInputs ⟨by simp, by simp⟩ hs
  | give _ _ _ hs ih => exact ih.activateInput hs
  | activate _ hs ih => exact ih.activateInputs hs
  | block _ hs ih => exact ih.blockEvaluation hs
  | next _ hs ih => exact ih.evaluateNext hs
  | branch _ hs ih => exact ih.evaluateBranch hs
  | «continue» _ hs ih =>
    exact (continueRun_inv (P := PipesOn W) (fun _ _ h ha => h.activateInputs ha)
      (fun _ _ _ _ _ h hb => h.blockEvaluation hb) _ _ _ ih hs).1

/-- The locked inputs hold a value. -/
def LocksHeld (W : Workflow α) (s : St α) : Prop :=
  ∀ k v, (inputs W)[k]? = some v → W.lockFlag v = true → (s.inputValues k).isSome

theorem activateLoop_locks (hw : WellFormed W) {c : Bool} (l : List Nat) (k : Nat) (s s' : St α)
    (hl : ∀ n v, l[n]? = some v → (inputs W)[k + n]? = some v) (hs : activateInputsLoop W c k l s = .ok s') :
    ∀ n v, l[n]? = some v → W.lockFlag v = true → (s'.inputValues (k + n)).isSome := by
  induction l generalizing k s with
  | nil => intro n v hn; simp at hn
  | cons u l ih =>
    rw [activateInputsLoop, bind_ok] at hs
    obtain ⟨s1, h1, h2⟩ := hs
    intro n v hn hf
    cases n with
    | zero =>
      simp only [List.getElem?_cons_zero, Option.some.injEq] at hn
      subst hn
      have hk := hl 0 u rfl
      refine (activateInputsLoop_frame _ _ _ _ h2).inp _ ?_
      rw [Nat.add_zero] at hk ⊢
      rw [(activateOne_inp hw hk h1).1]
      unfold Wkf.activateOne at h1
      cases hx : s.inputValues k with
      | some x => rfl
      | none =>
        rw [hx] at h1
        cases hd : W.default u with
        | some d => rfl
        | none => rw [hd] at h1; simp [hf] at h1
    | succ n =>
      have := ih (k + 1) s1 (fun m w hm => by
        rw [show k + 1 + m = k + (m + 1) by omega]; exact hl (m + 1) w (by simpa using hm)) h2 n v (by simpa using hn) hf
      rwa [show k + (n + 1) = k + 1 + n by omega]

theorem Reached.locksHeld (hw : WellFormed W) {s : St α} (h : Reached W V s) : LocksHeld W s := by
  have mono : ∀ {s s' : St α}, LocksHeld W s → Above s s' → LocksHeld W s' := fun h ha k v hk hf => ha k (h k v hk hf)
  induction h with
  | start _ hs =>
    intro k v hk hf
    have := activateLoop_locks hw _ 0 _ _ (fun n v hn => by rw [Nat.zero_add]; exact hn) hs k v hk hf
    rwa [Nat.zero_add] at this
  | give _ _ _ hs ih => exact mono ih fun k hk => (activateInput_frame hs).inp k hk
  | activate _ hs ih => exact mono ih fun k hk => (activateInputs_frame hs).inp k hk
  | block _ hs ih => exact mono ih (Above.blockEvaluation hs)
  | next _ hs ih => exact mono ih (Above.evaluateNext hs)
  | branch _ hs ih => exact mono ih (Above.evaluateBranch hs)
  | «continue» _ hs ih => exact mono ih (Above.continueRun hs)

/-! ### Activating the inputs again -/

/-- An input which holds a value flows into pipe `j`. -/
def Watered (W : Workflow α) (s : St α) (j : Nat) : Prop :=
  ∃ k v, (inputs W)[k]? = some v ∧ (s.inputValues k).isSome ∧ FlowPipe W v j

theorem activate_again (hw : WellFormed W) {s : St α} (hf : Fair W V s) (hl : LocksHeld W s)
    (hp : ∀ j, Watered W s j → s.actPipe j = true) :
    ∃ g : Nat → Option α, activateInputs W false s = .ok { s with values := g } ∧
      (∀ j, Watered W s j → (g j).isSome) ∧ ∀ j, ¬ Watered W s j → g j = s.values j := by
  have key : ∀ (l : List Nat) (k : Nat), (∀ n v, l[n]? = some v → (inputs W)[k + n]? = some v) → ∀ f : Nat → Option α,
      ∃ g : Nat → Option α, activateInputsLoop W false k l { s with values := f } = .ok { s with values := g } ∧
        (∀ j, (f j).isSome → (g j).isSome) ∧
        (∀ n v, l[n]? = some v → (s.inputValues (k + n)).isSome → ∀ j, FlowPipe W v j → (g j).isSome) ∧
        ∀ j, ¬ Watered W s j → g j = f j := by
    intro l
    induction l with
    | nil => intro k _ f; exact ⟨f, rfl, fun _ h => h, fun n v hn => by simp at hn, fun _ _ => rfl⟩
    | cons v l ih =>
      intro k hk f
      have hkv := hk 0 v rfl
      rw [Nat.add_zero] at hkv
      have hv := (mem_inputs.1 (List.mem_of_getElem? hkv)).1
      have one : ∃ f' : Nat → Option α, activateOne W false { s with values := f } k v = .ok { s with values := f' } ∧
          (∀ j, (f j).isSome → (f' j).isSome) ∧
          ((s.inputValues k).isSome → ∀ j, FlowPipe W v j → (f' j).isSome) ∧ ∀ j, ¬ Watered W s j → f' j = f j := by
        unfold activateOne
        cases hx : s.inputValues k with
        | none =>
          have hd : W.default v = none := by
            by_contra h
            have := hf.loaded.dflt k v hkv (Option.isSome_iff_ne_none.2 h)
            rw [hx] at this; simp at this
          have hlk : W.lockFlag v = false := by
            by_contra h
            have := hl k v hkv (by simpa using h)
            rw [hx] at this; simp at this
          refine ⟨f, ?_, fun _ h => h, fun h => by simp at h, fun _ _ => rfl⟩
          simp [hd, hlk]
        | some x =>
          simp only
          obtain ⟨rank, hr, -⟩ := hw.acyclic
          obtain ⟨s1, h1⟩ := activateInput_total hr { s with values := f } v x
          have hpu := activateInput_pushed h1
          have hi : inputIndex W v = some k := inputIndex_input hw.distinct hkv (hw.input_free (List.mem_of_getElem? hkv))
          have hn : noteInput W { s with values := f } v x = { s with values := f } := by
            unfold noteInput
            rw [hi]
            simp only
            congr 1
            funext m
            simp only [upd]
            split
            · rename_i e; rw [e, hx]
            · rfl
          rw [hn] at hpu
          have hact := hf.loaded.act k v hkv (by rw [hx]; rfl)
          obtain ⟨y, hy, hflow, hout⟩ := hf.kept.var v hact
          have hyx : y = x := hy.unique hw (.input hkv (hf.kept.iv k v x hkv (by rw [hx]; rfl)))
          subst hyx
          refine ⟨s1.values, ?_, fun j hj => ?_, fun _ j hj => by rw [hpu.valIn j hj]; rfl, fun j hj => ?_⟩
          · rw [h1]
            have e1 : s1.actPipe = s.actPipe := by
              funext j
              rw [Bool.eq_iff_iff, hpu.pipe j]
              exact ⟨fun h => h.elim id fun h => hp j ⟨k, v, hkv, by rw [hx]; rfl, h⟩, .inl⟩
            have e2 : s1.actVar = s.actVar := by
              funext j
              rw [Bool.eq_iff_iff, hpu.var j]
              exact ⟨fun h => h.elim id fun h => hflow j h, .inl⟩
            have e3 : s1.outputValue = s.outputValue := by
              by_cases ho : FlowOut W v
              · rw [hpu.outIn ho]
                obtain ⟨o, h1, h2⟩ := ho
                exact (hout o h1 h2).symm
              · exact hpu.outOut ho
            have e4 := hpu.inp
            have e5 := hpu.blk
            have e6 := hpu.ev
            simp only at e4 e5 e6
            obtain ⟨a1, a2, a3, a4, a5, a6, a7⟩ := s1
            simp only at e1 e2 e3 e4 e5 e6
            subst e1 e2 e3 e4 e5 e6
            rfl
          · by_cases hfp : FlowPipe W v j
            · rw [hpu.valIn j hfp]; rfl
            · rw [hpu.valOut j hfp]; exact hj
          · exact hpu.valOut j fun h => hj ⟨k, v, hkv, by rw [hx]; rfl, h⟩
      obtain ⟨f', h1, h2, h3, h4⟩ := one
      obtain ⟨g, g1, g2, g3, g4⟩ := ih (k + 1) (fun n u hn => by
        rw [show k + 1 + n = k + (n + 1) by omega]; exact hk (n + 1) u (by simpa using hn)) f'
      refine ⟨g, ?_, fun j hj => g2 j (h2 j hj), fun n u hn hs j hj => ?_, fun j hj => by rw [g4 j hj, h4 j hj]⟩
      · rw [activateInputsLoop, h1]; exact g1
      · cases n with
        | zero =>
          simp only [List.getElem?_cons_zero, Option.some.injEq] at hn
          subst hn
          exact g2 j (h3 (by simpa using hs) j hj)
        | succ n => exact g3 n u (by simpa using hn) (by rwa [show k + (n + 1) = k + 1 + n by omega] at hs) j hj
  obtain ⟨g, h1, -, h3, h4⟩ := key (inputs W) 0 (fun n v hn => by rw [Nat.zero_add]; exact hn) s.values
  refine ⟨g, h1, ?_, h4⟩
  rintro j ⟨k, v, hk, hs, hj⟩
  exact h3 k v hk (by rw [Nat.zero_add]; exact hs) j hj

theorem Reached.fair (hw : WellFormed W) (ho : ∀ o, W.output = some o → o ∈ allVariables W) {s : St α}
    (h : Reached W V s) : Fair W V s := by
  have hC : Codec.Sound (⟨.ok, .ok, fun _ => false, fun _ => .ok ()⟩ : Codec α α) := fun x j h => by
    simp only [Except.ok.injEq] at h ⊢
    exact h.symm
  obtain ⟨-, -, hf⟩ := (h.resumed (C := ⟨.ok, .ok, fun _ => false, fun _ => .ok ()⟩) (file := fun _ => false)).fair hC hw ho
  exact hf

/-- Activating the inputs of a state which was reached does nothing. -/
theorem Reached.settled (hw : WellFormed W) (ho : ∀ o, W.output = some o → o ∈ allVariables W) {s : St α}
    (h : Reached W V s) : activateInputs W false s = .ok s := by
  have hf := h.fair hw ho
  have hg := h.good hw
  have hval : ∀ j, Watered W s j → (s.values j).isSome := by
    rintro j ⟨k, v, hk, hs, p, hp, hfl⟩
    obtain ⟨x, -, h2, -⟩ := hg.var v (hf.loaded.act k v hk hs)
    rw [h2 j p hp hfl]; rfl
  obtain ⟨g, h1, h2, h3⟩ := activate_again hw hf (h.locksHeld hw) fun j hj => (h.pipesOn.on j).1 (hval j hj)
  have hK := (hf.kept.activateInputs hw h1).1
  have : g = s.values := by
    funext j
    by_cases hj : Watered W s j
    · obtain ⟨x, hx⟩ := Option.isSome_iff_exists.1 (h2 j hj)
      obtain ⟨y, hy⟩ := Option.isSome_iff_exists.1 (hval j hj)
      obtain ⟨k, v, -, -, p, hp, -⟩ := hj
      rw [hx, hy, (hK.val j p x hp hx).unique hw (hf.kept.val j p y hp hy)]
    · exact h3 j hj
  rw [h1, this]

/-! ### Runs -/

theorem keepMemorized_idem (s : St α) : keepMemorized W (keepMemorized W s) = keepMemorized W s := by
  unfold keepMemorized
  congr 1
  funext j
  cases h : W.pipes[j]? with
  | none => simp
  | some p => simp only [h]; split <;> rfl

theorem Fair.keepMemorized {s : St α} (h : Fair W V s) : Fair W V (keepMemorized W s) := by
  refine ⟨⟨h.kept.iv, fun j p x hp hx => ?_, h.kept.out, h.kept.var, fun _ _ h => h.elim, fun _ _ h => h.elim, h.kept.blk,
    h.kept.src, h.kept.ev⟩, h.loaded.act, h.loaded.dflt⟩
  simp only [Wkf.keepMemorized, hp] at hx
  split at hx
  · exact h.kept.val j p x hp hx
  · simp at hx

theorem Reached.watered (hw : WellFormed W) (ho : ∀ o, W.output = some o → o ∈ allVariables W) {s : St α}
    (h : Reached W V s) {j : Nat} (hj : Watered W s j) : s.actPipe j = true := by
  obtain ⟨k, v, hk, hs, p, hp, hfl⟩ := hj
  obtain ⟨x, -, h2, -⟩ := (h.good hw).var v ((h.fair hw ho).loaded.act k v hk hs)
  refine (h.pipesOn.on j).1 ?_
  rw [h2 j p hp hfl]; rfl

/-- The run made of a state which was reached: the same, but for the values of pipes. -/
theorem makeRun_reached (hw : WellFormed W) (ho : ∀ o, W.output = some o → o ∈ allVariables W) {s : St α}
    (h : Reached W V s) : ∃ g : Nat → Option α, makeRun W s = .ok { s with values := g } ∧
      (∀ j, Watered W s j → g j = s.values j) ∧ (∀ j, ¬ Watered W s j → g j = (keepMemorized W s).values j) ∧
      Fair W V { s with values := g } := by
  have hf := h.fair hw ho
  have hg := h.good hw
  obtain ⟨g, h1, h2, h3⟩ := activate_again hw hf.keepMemorized (h.locksHeld hw : LocksHeld W (keepMemorized W s))
    fun j hj => h.watered hw ho hj
  have hF := hf.keepMemorized.activate hw h1
  refine ⟨g, h1, fun j hj => ?_, h3, hF⟩
  obtain ⟨x, hx⟩ := Option.isSome_iff_exists.1 (h2 j hj)
  obtain ⟨k, v, hk, hs, p, hp, hfl⟩ := hj
  obtain ⟨y, -, hy, -⟩ := hg.var v (hf.loaded.act k v hk hs)
  have hy := hy j p hp hfl
  rw [hx, hy, (hF.kept.val j p x hp hx).unique hw (hf.kept.val j p y hp hy)]

/-- Making a run of a run changes nothing. -/
theorem makeRun_again (hw : WellFormed W) (ho : ∀ o, W.output = some o → o ∈ allVariables W) {s r : St α}
    (h : Reached W V s) (hr : makeRun W s = .ok r) : makeRun W r = .ok r := by
  obtain ⟨g, h1, h2, h3, hF⟩ := makeRun_reached hw ho h
  rw [h1, Except.ok.injEq] at hr
  subst hr
  have hw1 : ∀ j, Watered W (keepMemorized W { s with values := g }) j → Watered W s j := fun _ h => h
  obtain ⟨g', e1, e2, e3⟩ := activate_again hw hF.keepMemorized
    (h.locksHeld hw : LocksHeld W (keepMemorized W { s with values := g })) fun j hj => h.watered hw ho (hw1 j hj)
  have hF' := hF.keepMemorized.activate hw e1
  unfold makeRun
  rw [e1]
  have : g' = g := by
    funext j
    by_cases hj : Watered W s j
    · obtain ⟨x, hx⟩ := Option.isSome_iff_exists.1 (e2 j hj)
      obtain ⟨k, v, hk, hs, p, hp, hfl⟩ := id hj
      obtain ⟨y, -, hy, -⟩ := (h.good hw).var v ((h.fair hw ho).loaded.act k v hk hs)
      have hy := hy j p hp hfl
      rw [hx, h2 j hj, hy, (hF'.kept.val j p x hp hx).unique hw ((h.good hw).val j p y hp hy)]
    · rw [e3 j hj, h3 j hj]
      have := h3 j hj
      simp only [keepMemorized] at this ⊢
      cases hp : W.pipes[j]? with
      | none => rfl
      | some p =>
        rw [hp] at this
        simp only at this ⊢
        split <;> rename_i hm
        · rw [this, if_pos hm]
        · rfl
  rw [this]
  rfl

/-! ### The parts of a copy -/

section
variable {ρ : Nat → Nat} {W' : Workflow α} {cp : α → Except PyErr α} {s : St α}

theorem copyInputs_ok (hcp : ∀ k x, s.inputValues k = some x → cp x = .ok x) : ∀ keys : List Nat,
    (∀ k ∈ keys, (s.inputValues k).isSome) → ∃ l, copyInputs cp s keys = .ok l ∧
      ∀ k, l.lookup k = if k ∈ keys then s.inputValues k else none
  | [], _ => ⟨[], rfl, fun k => by simp⟩
  | k :: keys, h => by
    obtain ⟨x, hx⟩ := Option.isSome_iff_exists.1 (h k (by simp))
    obtain ⟨l, h1, h2⟩ := copyInputs_ok hcp keys fun j hj => h j (by simp [hj])
    refine ⟨(k, x) :: l, ?_, fun j => ?_⟩
    · rw [copyInputs, hx]
      simp only [hcp k x hx, h1]
      rfl
    · rw [List.lookup_cons]
      by_cases hj : j = k
      · subst hj; simp [hx]
      · have : (j == k) = false := by simpa using hj
        rw [this, h2]
        simp [hj]

theorem Twin.addr (ht : Twin ρ W W') (hw : WellFormed W) {v : Nat} (hv : v ∈ allVariables W) :
    variableIndices W v = .ok (addrOf W v) ∧ variableIndices W' (ρ v) = .ok (addrOf W v) ∧
      variableFromIndex W' (addrOf W v) = .ok (ρ v) := by
  have h1 := (addr_ok hw.target hv).1
  have h2 : variableIndices W' (ρ v) = variableIndices W v := ht.renamed.indices hw hv
  have hv' : ρ v ∈ allVariables W' := by rw [ht.vars]; exact List.mem_map_of_mem hv
  obtain ⟨h3, h4⟩ := addr_ok (ht.wf hw).target hv'
  rw [h2, h1, Except.ok.injEq] at h3
  exact ⟨h1, by rw [h2, h1], by rw [h3]; exact h4⟩

theorem Twin.pipeAddr (ht : Twin ρ W W') (hw : WellFormed W) {p : Pipe} (hp : p ∈ W.pipes) :
    Wkf.pipeAddr W p = .ok (addrOf W p.input, addrOf W p.output) ∧
      Wkf.pipeAddr W' ⟨ρ p.input, ρ p.output, p.memorize⟩ = .ok (addrOf W p.input, addrOf W p.output) := by
  have h1 := ht.addr hw (Renamed.pipeVar hp).1
  have h2 := ht.addr hw (Renamed.pipeVar hp).2
  unfold Wkf.pipeAddr
  simp only
  rw [h1.1, h2.1, h1.2.1, h2.2.1]
  exact ⟨rfl, rfl⟩

theorem pipeFrom_ok (ht : Twin ρ W W') (hw : WellFormed W) : ∀ (l : List Pipe) (i k : Nat) (p : Pipe),
    (∀ q ∈ l, q ∈ W.pipes) → (l.map (·.output)).Nodup → l[k]? = some p →
    pipeFrom W' (addrOf W p.input, addrOf W p.output) i (l.map fun p => ⟨ρ p.input, ρ p.output, p.memorize⟩) = .ok (i + k)
  | [], _, _, _, _, _, h => by simp at h
  | q :: l, i, k, p, hl, hn, h => by
    rw [List.map_cons, pipeFrom, (ht.pipeAddr hw (hl q (by simp))).2]
    simp only [bind, Except.bind]
    cases k with
    | zero =>
      simp only [List.getElem?_cons_zero, Option.some.injEq] at h
      subst h
      simp
    | succ k =>
      simp only [List.getElem?_cons_succ] at h
      have hp := List.mem_of_getElem? h
      rw [if_neg ?_, pipeFrom_ok ht hw l (i + 1) k p (fun q hq => hl q (by simp [hq])) (List.nodup_cons.1 (by simpa using hn)).2 h]
      · congr 1; omega
      · intro he
        simp only [Prod.mk.injEq] at he
        have h1 := (addr_ok hw.target (Renamed.pipeVar (hl q (by simp))).2).2
        have h2 := (addr_ok hw.target (Renamed.pipeVar (hl p (by simp [hp]))).2).2
        rw [he.2, h2, Except.ok.injEq] at h1
        rw [List.map_cons, List.nodup_cons] at hn
        exact hn.1 (h1 ▸ List.mem_map_of_mem hp)

theorem copyValues_ok (ht : Twin ρ W W') (hw : WellFormed W) : ∀ (l : List Pipe) (i : Nat) (acc : Nat → Option α),
    (∀ k p, l[k]? = some p → W.pipes[i + k]? = some p) → ∃ g, copyValues W W' s i l acc = .ok g ∧
      ∀ j, g j = if i ≤ j ∧ j < i + l.length ∧ (s.values j).isSome then s.values j else acc j
  | [], i, acc, _ => ⟨acc, rfl, fun j => by rw [if_neg]; simp; omega⟩
  | p :: l, i, acc, h => by
    have hp := h 0 p rfl
    rw [Nat.add_zero] at hp
    have hrest : ∀ k q, l[k]? = some q → W.pipes[i + 1 + k]? = some q := fun k q hk => by
      rw [show i + 1 + k = i + (k + 1) by omega]; exact h (k + 1) q (by simpa using hk)
    rw [copyValues]
    cases hx : s.values i with
    | none =>
      obtain ⟨g, h1, h2⟩ := copyValues_ok ht hw l (i + 1) acc hrest
      refine ⟨g, h1, fun j => ?_⟩
      rw [h2]
      by_cases hj : j = i
      · subst hj; rw [if_neg (by simp [hx]), if_neg (by simp [hx])]
      · congr 1
        simp only [List.length_cons, eq_iff_iff]
        constructor <;> rintro ⟨h1, h2, h3⟩ <;> exact ⟨by omega, by omega, h3⟩
    | some x =>
      have hm := List.mem_of_getElem? hp
      simp only [(ht.pipeAddr hw hm).1, bind, Except.bind]
      rw [ht.ren.2, pipeFrom_ok ht hw W.pipes 0 i p (fun _ h => h) hw.single hp]
      simp only
      obtain ⟨g, h1, h2⟩ := copyValues_ok ht hw l (i + 1) (upd acc (0 + i) (some x)) hrest
      refine ⟨g, h1, fun j => ?_⟩
      rw [h2]
      by_cases hj : j = i
      · subst hj
        rw [if_neg (by omega), if_pos ⟨by omega, by simp, by simp [hx]⟩, hx]
        simp [upd]
      · have : upd acc (0 + i) (some x) j = acc j := by simp [upd, hj]
        rw [this]
        congr 1
        simp only [List.length_cons, eq_iff_iff]
        constructor <;> rintro ⟨h1, h2, h3⟩ <;> exact ⟨by omega, by omega, h3⟩

theorem copyActVars_ok (ht : Twin ρ W W') (hw : WellFormed W) : ∀ (l : List Nat) (acc : Nat → Bool),
    (∀ v ∈ l, v ∈ allVariables W) → ∃ g, copyActVars W W' s l acc = .ok g ∧
      ∀ v ∈ allVariables W, g (ρ v) = if v ∈ l then s.actVar v else acc (ρ v)
  | [], acc, _ => ⟨acc, rfl, fun v _ => by simp⟩
  | u :: l, acc, h => by
    have hu := ht.addr hw (h u (by simp))
    obtain ⟨g, h1, h2⟩ := copyActVars_ok ht hw l (upd acc (ρ u) (s.actVar u)) fun v hv => h v (by simp [hv])
    refine ⟨g, ?_, fun v hv => ?_⟩
    · rw [copyActVars, hu.1]
      simp only [bind, Except.bind]
      rw [hu.2.2]
      exact h1
    · rw [h2 v hv]
      by_cases hl : v ∈ l
      · simp [hl]
      · by_cases hvu : v = u
        · subst hvu; simp [hl, upd]
        · rw [if_neg hl, if_neg (by simp [hl, hvu])]
          have : ρ v ≠ ρ u := fun he => hvu (ht.inj v hv u (h u (by simp)) he)
          simp [upd, this]

theorem copyActItems_ok {n : Nat} {act : Nat → Bool} : ∀ (l : List Nat) (acc : Nat → Bool), (∀ i ∈ l, i < n) →
    ∃ g, copyActItems n act l acc = .ok g ∧ ∀ i, g i = if i ∈ l then act i else acc i
  | [], acc, _ => ⟨acc, rfl, fun i => by simp⟩
  | i :: l, acc, h => by
    obtain ⟨g, h1, h2⟩ := copyActItems_ok l (upd acc i (act i)) fun j hj => h j (by simp [hj])
    refine ⟨g, ?_, fun j => ?_⟩
    · rw [copyActItems, if_pos (h i (by simp))]; exact h1
    · rw [h2]
      by_cases hl : j ∈ l
      · simp [hl]
      · by_cases hj : j = i
        · subst hj; simp [hl, upd]
        · simp [hl, hj, upd]

/-- Everything in the state is about the pipes and blocks of the workflow. -/
structure Inside (W : Workflow α) (s : St α) : Prop where
  val : ∀ j, (s.values j).isSome → j < W.pipes.length
  pipe : ∀ j, s.actPipe j = true → j < W.pipes.length
  blk : ∀ i, s.actBlock i = true → i < W.blocks.length

theorem copyParts_sim (hw : WellFormed W) (ht : Twin ρ W W') (hi : Inside W s) {keys : List Nat}
    (hk : ∀ k, k ∈ keys ↔ (s.inputValues k).isSome) (hcp : ∀ k x, s.inputValues k = some x → cp x = .ok x)
    (hco : ∀ x, s.outputValue = some x → cp x = .ok x)
    (hd : ∀ k v, (inputs W)[k]? = some v → s.inputValues k = none →
      W'.default (ρ v) = W.default v ∧ W'.lockFlag (ρ v) = W.lockFlag v) :
    ∃ r, copyParts cp W W' keys s = .ok r ∧ Sim ρ W W' s r := by
  obtain ⟨ins, a1, a2⟩ := copyInputs_ok hcp keys fun k h => (hk k).1 h
  obtain ⟨g, b1, b2⟩ := copyValues_ok (s := s) ht hw W.pipes 0 (fun _ => none) fun k p h => by rw [Nat.zero_add]; exact h
  obtain ⟨av, c1, c2⟩ := copyActVars_ok (s := s) ht hw (allVariables W) (fun _ => false) fun _ h => h
  have hbl : W'.blocks.length = W.blocks.length := by rw [ht.ren.1, List.length_map]
  have hpl : W'.pipes.length = W.pipes.length := by rw [ht.ren.2, List.length_map]
  obtain ⟨ab, d1, d2⟩ := copyActItems_ok (n := W'.blocks.length) (act := s.actBlock) (List.range W.blocks.length) (fun _ => false)
    fun i h => by rw [hbl]; exact List.mem_range.1 h
  obtain ⟨ap, e1, e2⟩ := copyActItems_ok (n := W'.pipes.length) (act := s.actPipe) (List.range W.pipes.length) (fun _ => false)
    fun i h => by rw [hpl]; exact List.mem_range.1 h
  have f1 : copyResult cp s.outputValue = .ok s.outputValue := by
    cases h : s.outputValue with
    | none => rfl
    | some x => simp only [copyResult, hco x h]; rfl
  refine ⟨⟨fun k => ins.lookup k, g, ap, av, ab, s.outputValue, s.evaluated⟩, ?_, ?_, ?_, ?_, ?_, rfl, rfl, fun v hv => ?_, hd⟩
  · unfold copyParts
    rw [a1, b1, c1, d1, e1, f1]
    rfl
  · funext k
    simp only [a2]
    split <;> rename_i h
    · rfl
    · rw [hk, Option.not_isSome_iff_eq_none] at h; exact h.symm
  · funext j
    simp only [b2]
    split <;> rename_i h
    · rfl
    · by_contra hne
      have hs : (s.values j).isSome := Option.isSome_iff_ne_none.2 fun h => hne h.symm
      exact h ⟨Nat.zero_le _, by simpa using hi.val j hs, hs⟩
  · funext j
    simp only [e2, List.mem_range]
    split <;> rename_i h
    · rfl
    · by_contra hne
      exact h (hi.pipe j (by cases e : s.actPipe j <;> simp [e] at hne ⊢))
  · funext j
    simp only [d2, List.mem_range]
    split <;> rename_i h
    · rfl
    · by_contra hne
      exact h (hi.blk j (by cases e : s.actBlock j <;> simp [e] at hne ⊢))
  · simp only [c2 v hv, if_pos hv]

theorem Reached.inside (hw : WellFormed W) (h : Reached W V s) : Inside W s := by
  refine ⟨fun j hj => h.pipesOn.lt j ((h.pipesOn.on j).1 hj), h.pipesOn.lt, fun i hi => ?_⟩
  obtain ⟨b, -, -, hb, -⟩ := (h.good hw).blk i hi
  exact (List.getElem?_eq_some_iff.1 hb).1

theorem Sim.keepMemorized (ht : Twin ρ W W') {s' : St α} (h : Sim ρ W W' s s') :
    Sim ρ W W' (keepMemorized W s) (keepMemorized W' s') := by
  refine ⟨h.inp, ?_, h.pipe, h.blk, h.out, h.ev, h.var, h.dfl⟩
  funext j
  simp only [Wkf.keepMemorized, ht.ren.2, List.getElem?_map, h.val]
  cases W.pipes[j]? <;> rfl

end

end DC.Wkf
