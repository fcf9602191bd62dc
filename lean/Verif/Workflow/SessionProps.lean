import Verif.Workflow.InteractiveProps
import Verif.Workflow.StateCopyLemmas
import Verif.Workflow.UnfoldProps
/- C209: whatever was done before, a session of evaluation can be completed, with the result of the run. -/
set_option linter.unusedSectionVars false
set_option linter.unusedSimpArgs false
namespace DC.Wkf

variable {α : Type} {W : Workflow α} {V : Nat → Option α}

/-! ### Specification -/

/-- All the blocks which lead to the output were evaluated. -/
def Completed (W : Workflow α) (s : St α) : Prop := ∀ i, Leads W i → s.actBlock i = true

/-- Each input of the workflow has a value in the state. -/
def AllGiven (W : Workflow α) (s : St α) : Prop := ∀ k, k < (inputs W).length → (s.inputValues k).isSome

/-! ### Lemmas -/

theorem output_known {o : Nat} (ho : OutputOf W o) : ∀ v, W.output = some v → v ∈ allVariables W := by
  obtain ⟨b, v, hb, hv, hvb⟩ := ho
  intro u hu
  rw [hv] at hu
  cases hu
  exact mem_allVariables.2 (.inl (mem_blockVars.2 ⟨b, List.mem_of_getElem? hb, .inr hvb⟩))

theorem leads_lt {i : Nat} (h : Leads W i) : i < W.blocks.length := by
  cases h with
  | output h =>
    obtain ⟨b, v, hb, -⟩ := h
    exact (List.getElem?_eq_some_iff.1 hb).1
  | feeds _ h => exact h.lt.1

/-! ### C209 -/

/-- If, with some values of the inputs, the blocks which lead to the output could be evaluated in some way, then from any
state which was reached with these values, once it has them all, continuing evaluates them all, and ends with the same
output. -/
theorem C209_completes (hw : WellFormed W) (hl : LocksOk W) {o : Nat} (ho : OutputOf W o) {g s : St α} (hg : Reached W V g)
    (hdone : Completed W g) (hs : Reached W V s) (hin : AllGiven W s) {so : SetOrder} {rt : List Nat}
    (hrt : runtimeBlocks W so = .ok rt) :
    ∃ t, continueRun W rt (W.blocks.length + 1) s = .ok (some t) ∧ toWorkflowRun rt t = .ok t ∧ Completed W t ∧
      t.outputValue = g.outputValue := by
  have hgg := hg.good hw
  have hgs := hs.good hw
  have hload := (hs.fair hw (output_known ho)).loaded
  obtain ⟨rt1, hrt1, -, hm⟩ := runtimeBlocks_spec hw hl so ho
  rw [hrt] at hrt1
  cases hrt1
  have hlt : ∀ i ∈ rt, i < W.blocks.length := fun i hi => leads_lt ((hm i).1 hi)
  have he : EvalsOk W V rt := by
    intro i hi b xs hb hx hd
    obtain ⟨b', xs', ys, e1, e2, e3, e4, -, -⟩ := hgg.blk i (hdone i ((hm i).1 hi))
    rw [hb] at e1
    cases e1
    rw [den_same hw hx e2 hd e3]
    exact ⟨ys, e4⟩
  obtain ⟨t, ht⟩ := continueRun_total hw hl he hlt s hgs
  have hall : ∀ (k v : Nat), (inputs W)[k]? = some v → s.actVar v = true := fun k v hk =>
    hload.act k v hk (hin k (List.getElem?_eq_some_iff.1 hk).1)
  have hinv := continueRun_inv (P := fun s => Good W V s ∧ ∀ k v, (inputs W)[k]? = some v → s.actVar v = true)
    (fun s s' hs ha => ⟨(hs.1.activateInputs hw ha).1, fun k v hk => (activateInputs_frame ha).var v (hs.2 k v hk)⟩)
    (fun s s' i r _ hs hb => ⟨Good.blockEvaluation hw hs.1 hb, fun k v hk => by
      obtain ⟨s1, -, hf, ⟨-, rfl, -⟩ | ⟨-, -, ys, -, hstep⟩⟩ := blockEvaluation_ok hb
      · exact hf.var v (hs.2 k v hk)
      · exact hstep.var v (hf.var v (hs.2 k v hk))⟩) _ _ _
    ⟨hgs, hall⟩ ht
  have hd : ∀ i ∈ rt, t.actBlock i = true := by
    intro i hi
    obtain ⟨b, hb⟩ : ∃ b, W.blocks[i]? = some b := ⟨W.blocks[i]'(hlt i hi), by simp [hlt i hi]⟩
    refine hinv.1.1.complete hw (fun k v hk _ => hinv.1.2 k v hk)
      (fun i hi j hj => (hm j).2 (.feeds ((hm i).1 hi) hj)) hinv.2 hi hb (fun v hv => ?_)
    obtain ⟨b', xs', ys, e1, -, -, -, e5, -⟩ := hgg.blk i (hdone i ((hm i).1 hi))
    rw [hb] at e1
    cases e1
    obtain ⟨x, hx, -⟩ := hgg.var v (e5 v hv)
    exact ⟨x, hx⟩
  have hone := (progress_one (s := t) (runtimeBlocks_ne hrt)).2 hd
  refine ⟨t, ht, by simp [toWorkflowRun, hone], fun i hi => hd i ((hm i).2 hi), ?_⟩
  exact complete_output hw ho hinv.1.1 hgg (hd o ((hm o).2 (.output ho))) (hdone o (.output ho))

/-- A value can be given to an input at any time.  The state then has it, keeps the values of the other inputs, and nothing
is evaluated. -/
theorem C209_give (hw : WellFormed W) {s : St α} (hs : Reached W V s) {k : Nat} (hk : k < (inputs W).length) {x : α}
    (hx : V k = some x) :
    ∃ s', addInputValue W s k x = .ok s' ∧ Reached W V s' ∧ s'.inputValues k = some x ∧
      (∀ j, j ≠ k → s'.inputValues j = s.inputValues j) ∧ s'.actBlock = s.actBlock ∧ s'.evaluated = s.evaluated := by
  obtain ⟨rank, hr, -⟩ := hw.acyclic
  have hk' : (inputs W)[k]? = some (inputs W)[k] := by simp [hk]
  obtain ⟨s', h⟩ := activateInput_total hr s (inputs W)[k] x
  have hp := activateInput_pushed h
  have he : inputIndex W (inputs W)[k] = some k := inputIndex_input hw.distinct hk' (hw.input_free (List.getElem_mem hk))
  refine ⟨s', ?_, .give hs hk' hx h, ?_, fun j hj => ?_, ?_, ?_⟩
  · unfold addInputValue
    rw [hk']
    exact h
  · rw [hp.inp]
    simp [noteInput, he, upd]
  · rw [hp.inp]
    simp [noteInput, he, upd, hj]
  · rw [hp.blk]
    simp [noteInput, he]
  · rw [hp.ev]
    simp [noteInput, he]

/-- Whatever was done before, giving the values which are missing, in any order, is possible, and gives a state which has
a value for each input. -/
theorem C209_rest (hw : WellFormed W) : ∀ (ks : List Nat) {s : St α}, Reached W V s →
    (∀ k ∈ ks, k < (inputs W).length ∧ (V k).isSome) →
    (∀ k, k < (inputs W).length → k ∈ ks ∨ (s.inputValues k).isSome) →
    ∃ s', giveAll W (ks.filterMap fun k => (V k).map (.one k)) s = .ok s' ∧ Reached W V s' ∧ AllGiven W s' ∧
      s'.actBlock = s.actBlock
  | [], s, hs, _, hc => ⟨s, rfl, hs, fun k hk => (hc k hk).resolve_left (by simp), rfl⟩
  | k :: ks, s, hs, hV, hc => by
    obtain ⟨hk, hx⟩ := hV k (by simp)
    obtain ⟨x, hx⟩ := Option.isSome_iff_exists.1 hx
    obtain ⟨s1, h1, hr1, hv1, ho1, hb1, -⟩ := C209_give hw hs hk hx
    obtain ⟨s2, h2, hr2, ha2, hb2⟩ := C209_rest hw ks hr1 (fun j hj => hV j (by simp [hj])) (fun j hj => by
      by_cases hjk : j = k
      · rw [hjk, hv1]
        exact .inr rfl
      · rw [ho1 j hjk]
        exact (hc j hj).imp (fun h => (List.mem_cons.1 h).resolve_left hjk) id)
    refine ⟨s2, ?_, hr2, ha2, hb2.trans hb1⟩
    rw [List.filterMap_cons, hx]
    simp only [Option.map_some, giveAll, giveStep, h1, bind, Except.bind]
    exact h2

/-- A run succeeds exactly if it can start and some way of evaluating the workflow with its values evaluates all the blocks
which lead to the output: if the run fails, no order of calls on a state gets round the failure. -/
theorem C209_run (hw : WellFormed W) (hl : LocksOk W) {o : Nat} (ho : OutputOf W o) (so : SetOrder) (user : List (Nat × α)) :
    (∃ r, run W so user = .ok (some r)) ↔
      GivenSame W user ∧ ∃ t, Reached W (expected W user) t ∧ Completed W t := by
  constructor
  · rintro ⟨r, hr⟩
    refine ⟨run_given hw hr, r, run_reached hr, fun i hi => ?_⟩
    obtain ⟨vals, s0, s1, rt, -, -, -, h4, s', -, h6, h7⟩ := run_ok hr
    cases h7
    obtain ⟨rt', hrt', -, hm'⟩ := runtimeBlocks_spec hw hl so ho
    rw [h4] at hrt'
    cases hrt'
    exact (progress_one (runtimeBlocks_ne h4)).1 h6 i ((hm' i).2 hi)
  · rintro ⟨hu, t, ht, hc⟩
    have hg := ht.good hw
    refine run_completes hw hl ho so user hu.range (expected_some hw hu) (fun i hi b xs hb hx hd => ?_)
      (fun i hi b hb v hv => ?_)
    · obtain ⟨b', xs', ys, e1, e2, e3, e4, -, -⟩ := hg.blk i (hc i hi)
      rw [hb] at e1
      cases e1
      rw [den_same hw hx e2 hd e3]
      exact ⟨ys, e4⟩
    · obtain ⟨b', xs', ys, e1, -, -, -, e5, -⟩ := hg.blk i (hc i hi)
      rw [hb] at e1
      cases e1
      obtain ⟨x, hx, -⟩ := hg.var v (e5 v hv)
      exact ⟨x, hx⟩

example : GivenSame exW [(1, 1), (2, 5)] ∧ ∃ t, Reached exW (expected exW [(1, 1), (2, 5)]) t ∧ Completed exW t :=
  (C209_run exW_wf exW_locks exW_output dedupOrder _).1
    (C27_completes exW_wf exW_locks exW_output exW_total dedupOrder [(1, 1), (2, 5)] (by decide) (by decide))

/-- From any state reached with the values of a run which succeeds, giving the missing values and continuing completes, with
the output of the run. -/
theorem C209_ends (hw : WellFormed W) (hl : LocksOk W) {o : Nat} (ho : OutputOf W o) {so so' : SetOrder}
    {user : List (Nat × α)} {r s : St α} (hr : run W so user = .ok (some r)) (hs : Reached W (expected W user) s)
    {rt : List Nat} (hrt : runtimeBlocks W so' = .ok rt) :
    ∃ s' t, giveAll W ((List.range (inputs W).length).filterMap fun k => (expected W user k).map (.one k)) s = .ok s' ∧
      continueRun W rt (W.blocks.length + 1) s' = .ok (some t) ∧ toWorkflowRun rt t = .ok t ∧
      t.outputValue = r.outputValue := by
  obtain ⟨hu, g, -, -⟩ := (C209_run hw hl ho so user).1 ⟨r, hr⟩
  obtain ⟨s', h1, h2, h3, -⟩ := C209_rest hw (List.range (inputs W).length) hs
    (fun k hk => ⟨List.mem_range.1 hk, expected_some hw hu k (List.mem_range.1 hk)⟩) (fun k hk => .inl (List.mem_range.2 hk))
  have hc : Completed W r := by
    intro i hi
    obtain ⟨vals, s0, s1, rt, -, -, -, h4, s', -, h6, h7⟩ := run_ok hr
    cases h7
    obtain ⟨rt', hrt', -, hm'⟩ := runtimeBlocks_spec hw hl so ho
    rw [h4] at hrt'
    cases hrt'
    exact (progress_one (runtimeBlocks_ne h4)).1 h6 i ((hm' i).2 hi)
  obtain ⟨t, h4, h5, -, h6⟩ := C209_completes hw hl ho (run_reached hr) hc h2 h3 hrt
  exact ⟨s', t, h1, h4, h5, h6⟩

/-- A session of the example: a state is started, the values of two inputs are given, and the block 1 is evaluated (the input of
the block 2 is still missing). -/
theorem exSession : ∃ s, Reached exW (expected exW [(1, 1), (2, 5)]) s ∧ s.actBlock 1 = true ∧ s.inputValues 1 = none := by
  have e : (match startRun exW (fun k => if k = 2 then some 5 else none) with
    | .ok s0 => (match blockEvaluation exW [0, 1] s0 1 with
      | .ok (s, _) => some (s.actBlock 1, s.inputValues 1)
      | _ => none)
    | _ => none) = some (true, none) := by decide +kernel
  split at e
  · rename_i s0 h0
    split at e
    · rename_i s b h
      refine ⟨s, .block (.start ?_ h0) h, congrArg Prod.fst (Option.some.inj e), congrArg Prod.snd (Option.some.inj e)⟩
      intro k v x hk hx
      have hk3 : k < 3 := (List.getElem?_eq_some_iff.1 hk).1
      rw [exW_inputs] at hk
      match k, hk3 with
      | 0, _ =>
        cases hk
        rcases hx with hx | hx
        · simp at hx
        · exact hx.2
      | 1, _ =>
        cases hk
        rcases hx with hx | hx
        · simp at hx
        · exact absurd hx.2 (by simp [exW])
      | 2, _ =>
        cases hk
        rcases hx with hx | hx
        · exact hx
        · simp at hx
    · simp at e
  · simp at e

/-- It completes, with the result of the run. -/
example : ∃ s s' t, Reached exW (expected exW [(1, 1), (2, 5)]) s ∧ s.actBlock 1 = true ∧ s.inputValues 1 = none ∧
    giveAll exW [.one 0 7, .one 1 1, .one 2 5] s = .ok s' ∧
    continueRun exW [0, 1] 4 s' = .ok (some t) ∧ t.outputValue = some 24 := by
  obtain ⟨s, hs, h1, h2⟩ := exSession
  obtain ⟨r, hr⟩ := C27_completes exW_wf exW_locks exW_output exW_total dedupOrder [(1, 1), (2, 5)] (by decide) (by decide)
  have hrt : runtimeBlocks exW dedupOrder = .ok [0, 1] := by
    have : (runtimeBlocks exW dedupOrder).toOption = some [0, 1] := by decide
    cases h : runtimeBlocks exW dedupOrder with
    | error e =>
      rw [h] at this
      simp [Except.toOption] at this
    | ok r =>
      rw [h] at this
      simp [Except.toOption] at this
      rw [this]
  obtain ⟨s', t, hg, ht, -, ho⟩ := C209_ends exW_wf exW_locks exW_output hr hs hrt
  refine ⟨s, s', t, hs, h1, h2, hg, ht, ?_⟩
  have e2 : (match run exW dedupOrder [(1, 1), (2, 5)] with
    | .ok (some s) => s.outputValue
    | _ => none) = some 24 := by decide +kernel
  rw [hr] at e2
  rw [ho]
  exact e2

end DC.Wkf
