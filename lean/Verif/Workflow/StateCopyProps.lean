import Verif.Workflow.StateCopyLemmas
import Verif.Workflow.PersistCopyProps
/-
C127 and C128.  What a copied state of execution is and does, and when states compare equal.

Specification.  `Sim ρ W W' s s'` (`StateSim.lean`): the state `s'` of `W'` holds the same values on inputs and pipes as
the state `s` of `W`, has the same active variables, blocks and pipes, the same output and the same evaluations; `ρ` gives
the variable of `W'` of each variable of `W`.  `Both R x y`: both operations succeed, with results related by `R`, or both
raise the same error.
-/
namespace DC.Wkf
set_option linter.unusedSectionVars false

variable {α : Type}

/-! ### What can be done with a state -/

/-- An operation on a state: give a value to the input of number `k`, activate the inputs, evaluate a block, the next one,
some blocks, or continue. -/
inductive Act (α : Type)
  | give (k : Nat) (x : α)
  | activate (check : Bool)
  | block (rt : List Nat) (i : Nat)
  | next (rt : List Nat)
  | branch (rt blocks : List Nat)
  | «continue» (rt : List Nat) (turns : Nat)

/-- What an operation answers. -/
inductive Reply
  | done
  | evaluated (b : Bool)
  | next (i : Option Nat)
  | blocks (l : List Nat)
  deriving DecidableEq

/-- The end of `continueRun`: `RuntimeError` stands for more turns than asked. -/
def ended : Option (St α) → Except PyErr (St α × Reply)
  | some s => .ok (s, .done)
  | none => .error .runtimeError

/-- `activate_input` of the input of number `k`: workflow/core.py 1995-2001. -/
def giveInput (W : Workflow α) (k : Nat) (x : α) (s : St α) : Except PyErr (St α) :=
  match (inputs W)[k]? with
  | none => .error .indexError
  | some v => activateInput W s v x

/-- One operation: workflow/core.py 1928-2082. -/
def perform (W : Workflow α) : Act α → St α → Except PyErr (St α × Reply)
  | .give k x, s => do
    let s ← giveInput W k x s
    .ok (s, .done)
  | .activate check, s => do
    let s ← activateInputs W check s
    .ok (s, .done)
  | .block rt i, s => do
    let r ← blockEvaluation W rt s i
    .ok (r.1, .evaluated r.2)
  | .next rt, s => do
    let r ← evaluateNext W rt s
    .ok (r.1, .next r.2)
  | .branch rt bs, s => do
    let r ← evaluateBranch W rt bs s
    .ok (r.1, .blocks r.2)
  | .continue rt n, s => do
    let r ← continueRun W rt n s
    ended r

/-- Operations one after the other, up to the first error. -/
def performAll (W : Workflow α) : List (Act α) → St α → Except PyErr (St α × List Reply)
  | [], s => .ok (s, [])
  | a :: rest, s => do
    let r ← perform W a s
    let q ← performAll W rest r.1
    .ok (q.1, r.2 :: q.2)

/-- The same results and the same states after the operation, up to the identity of variables. -/
def SameAfter {β : Type} (ρ : Nat → Nat) (W W' : Workflow α) (a b : St α × β) : Prop := b.2 = a.2 ∧ Sim ρ W W' a.1 b.1

section
variable {ρ : Nat → Nat} {W W' : Workflow α} {V : Nat → Option α} {s s' : St α}

theorem sim_perform (ht : Twin ρ W W') (a : Act α) (h : Sim ρ W W' s s') :
    Both (SameAfter ρ W W') (perform W a s) (perform W' a s') := by
  cases a with
  | give k x =>
    simp only [perform]
    have : Both (Sim ρ W W') (giveInput W k x s) (giveInput W' k x s') := by
      unfold giveInput
      rw [ht.inputs, List.getElem?_map]
      cases hk : (inputs W)[k]? with
      | none => exact rfl
      | some v => exact sim_activateInput ht x (mem_inputs.1 (List.mem_of_getElem? hk)).1 h
    exact this.bind fun a b hab => ⟨rfl, hab⟩
  | activate c =>
    simp only [perform]
    exact (sim_activateInputs ht h).bind fun a b hab => ⟨rfl, hab⟩
  | block rt i =>
    simp only [perform]
    exact (sim_blockEvaluation ht h rt i).bind fun a b hab => ⟨by rw [hab.1], hab.2⟩
  | next rt =>
    simp only [perform]
    exact (sim_evaluateNext ht h rt).bind fun a b hab => ⟨by rw [hab.1], hab.2⟩
  | branch rt bs =>
    simp only [perform]
    exact (sim_evaluateBranch ht h rt bs).bind fun a b hab => ⟨by rw [hab.1], hab.2⟩
  | «continue» rt n =>
    simp only [perform]
    refine (sim_continueRun ht h rt n).bind fun a b hab => ?_
    match a, b, hab with
    | some a, some b, hab => exact ⟨rfl, hab⟩
    | none, none, _ => exact rfl

theorem sim_performAll (ht : Twin ρ W W') : ∀ (l : List (Act α)) {s s' : St α}, Sim ρ W W' s s' →
    Both (SameAfter ρ W W') (performAll W l s) (performAll W' l s')
  | [], _, _, h => ⟨rfl, h⟩
  | a :: l, s, s', h => by
    simp only [performAll]
    refine (sim_perform ht a h).bind fun p q hpq => ?_
    refine (sim_performAll ht l hpq.2).bind fun p' q' h' => ?_
    exact ⟨by simp only [hpq.1, h'.1], h'.2⟩

/-! ### C127: copies -/

/-- The copy of a state, with the copy `W'` of its workflow: every operation on one and the other then gives the same. -/
theorem copyState_sim (hw : WellFormed W) (ht : Twin ρ W W') {cp : α → Except PyErr α} {keys : List Nat}
    (h : Reached W V s) (hk : ∀ k, k ∈ keys ↔ (s.inputValues k).isSome)
    (hcp : ∀ k x, s.inputValues k = some x → cp x = .ok x) (hco : ∀ x, s.outputValue = some x → cp x = .ok x)
    (hd : ∀ k v, (inputs W)[k]? = some v → s.inputValues k = none →
      W'.default (ρ v) = W.default v ∧ W'.lockFlag (ρ v) = W.lockFlag v) :
    ∃ r, copyState cp W W' keys s = .ok r ∧ Sim ρ W W' s r := by
  obtain ⟨r, h1, h2⟩ := copyParts_sim hw ht (h.inside hw) hk hcp hco hd
  obtain ⟨r', h3, h4⟩ := (sim_activateInputs (c := false) ht h2).ok_left (h.settled hw ht.outVar)
  refine ⟨r', ?_, h4⟩
  unfold copyState
  rw [h1]
  exact h3

theorem copyRun_sim (hw : WellFormed W) (ht : Twin ρ W W') {cp : α → Except PyErr α} {keys : List Nat} {s0 : St α}
    (h : Reached W V s0) (hs : makeRun W s0 = .ok s) (hk : ∀ k, k ∈ keys ↔ (s.inputValues k).isSome)
    (hcp : ∀ k x, s.inputValues k = some x → cp x = .ok x) (hco : ∀ x, s.outputValue = some x → cp x = .ok x)
    (hd : ∀ k v, (inputs W)[k]? = some v → s.inputValues k = none →
      W'.default (ρ v) = W.default v ∧ W'.lockFlag (ρ v) = W.lockFlag v) :
    ∃ r, copyRun cp W W' keys s = .ok r ∧ Sim ρ W W' s r := by
  have hi : Inside W s := by
    obtain ⟨g, h1, h2, h3, -⟩ := makeRun_reached hw ht.outVar h
    rw [h1, Except.ok.injEq] at hs
    subst hs
    have := h.inside hw
    refine ⟨fun j hj => ?_, this.pipe, this.blk⟩
    by_cases hjw : Watered W s0 j
    · exact this.pipe j (h.watered hw ht.outVar hjw)
    · rw [show ({ s0 with values := g } : St α).values j = g j from rfl, h3 j hjw] at hj
      simp only [keepMemorized] at hj
      cases hp : W.pipes[j]? with
      | none => rw [hp] at hj; simp at hj
      | some p => exact (List.getElem?_eq_some_iff.1 hp).1
  obtain ⟨r, h1, h2⟩ := copyParts_sim hw ht hi hk hcp hco hd
  have h3 := sim_activateInputs (c := false) ht (h2.keepMemorized ht)
  obtain ⟨r', h4, h5⟩ := h3.ok_left (makeRun_again hw ht.outVar h hs)
  refine ⟨r', ?_, h5⟩
  unfold copyRun
  rw [h1]
  exact h4

end

/-- The copy of a workflow has the same blocks, pipes and output, and the same default value and lock on the inputs which
hold no value in a state, when the class of their block gives them none. -/
theorem copy_twin {κ τ δ J : Type} [Inhabited τ] {w : World κ τ α δ J} {S : Store τ α} {G : Wf κ δ} (hb : Built w S G)
    (hgrp : ∀ t ∈ G.steps, t.groupInputs = t.inputs.filter (t.groupInputs.contains ·)) (m : Nat → Bool) {s : St α}
    (hlo : LocksHeld (memo m (skel w S G)) s)
    (hde : ∀ k v, (inputs (memo m (skel w S G)))[k]? = some v → (look S v).default.isSome → (s.inputValues k).isSome)
    (hno : ∀ b ∈ G.blocks, List.Forall₂ (fun v p => ∀ k, (inputs (memo m (skel w S G)))[k]? = some v →
      s.inputValues k = none → p.default = none) b.inputs (w.ins b.kind)) :
    ∃ G' S' ρ, deepCopy w S G = .ok (G', S') ∧ Replica S G S' G' ρ ∧
      Twin ρ (memo m (skel w S G)) (memo m (skel w S' G')) ∧
      ∀ k v, (inputs (memo m (skel w S G)))[k]? = some v → s.inputValues k = none →
        (memo m (skel w S' G')).default (ρ v) = (memo m (skel w S G)).default v ∧
        (memo m (skel w S' G')).lockFlag (ρ v) = (memo m (skel w S G)).lockFlag v := by
  obtain ⟨G', S', ρ, h1, hr, -, h2, -, h4⟩ := C37_partial hb hgrp
  have hmem : ∀ v, v ∈ allVariables (memo m (skel w S G)) ↔ VarOf G v := fun v => by
    rw [mem_memo_vars, mem_allVariables_skel w S G]
  have hren := hr.ren (w := w) (s := S) (s' := S')
  refine ⟨G', S', ρ, h1, hr, ⟨⟨hren.1, ?_⟩, fun u hu v hv he => hr.inj u v ((hmem u).1 hu) ((hmem v).1 hv) he, fun o ho => ?_,
    hr.output⟩, fun k v hk hn => ?_⟩
  · simp only [memo]
    rw [hren.2]
    apply List.ext_getElem?
    intro i
    simp only [List.getElem?_mapIdx, List.getElem?_map, Option.map_map]
    rfl
  · obtain ⟨b, hb', ho'⟩ := hb.output o ho
    exact (hmem o).2 (.inl ⟨b, hb', .inr ho'⟩)
  · have hdn : (look S v).default = none := by
      by_contra h
      have := hde k v hk (Option.isSome_iff_ne_none.2 h)
      rw [hn] at this; simp at this
    have hln : (look S v).lockFlag = false := by
      by_contra h
      have := hlo k v hk (by simpa [memo, skel] using h)
      rw [hn] at this; simp at this
    show (look S' (ρ v)).default = (look S v).default ∧ (look S' (ρ v)).lockFlag = (look S v).lockFlag
    have hv := mem_inputs.1 (List.mem_of_getElem? hk)
    by_cases hp : PortOf G v
    · obtain ⟨b, hbm, hin⟩ := hp
      have hin : v ∈ b.inputs := by
        rcases hin with h | h
        · exact h
        · exfalso
          refine hv.2.1 ⟨b.inputs, b.outputs, w.eval b.kind⟩ ?_ h
          simp only [memo, skel, List.mem_map]
          exact ⟨b, hbm, rfl⟩
      obtain ⟨n, hn'⟩ := List.getElem?_of_mem hin
      have hlen := (h2 b hbm).length_eq
      have hlt := (List.getElem?_eq_some_iff.1 hn').1
      have e1 := (List.forall₂_iff_get.1 (h2 b hbm)).2 n hlt (hlen ▸ hlt)
      have e2 := (List.forall₂_iff_get.1 (hno b hbm)).2 n hlt (hlen ▸ hlt)
      have g1 : b.inputs.get ⟨n, hlt⟩ = v := (List.getElem?_eq_some_iff.1 hn').2
      rw [g1] at e1 e2
      rw [e1.2 (by rw [hln]; simp), hdn, hln]
      exact ⟨e2 k hk hn, rfl⟩
    · rw [h4 v ((hmem v).1 hv.1) hp]
      exact ⟨rfl, rfl⟩

section
variable {κ τ δ J : Type} [Inhabited τ] {w : World κ τ α δ J} {S : Store τ α} {G : Wf κ δ} {m : Nat → Bool} {V : Nat → Option α}
  {s : St α} {keys : List Nat} {cp : α → Except PyErr α}

/-- The copy of a state of execution, however far it was run, succeeds.  It is the state it was copied from, on a workflow
of other variables; the original workflow is kept.  Any operations then give the same results and the same states, or
the same error, on the copy and on the original.  `m` tells which pipes are memorized, `hcp` and `hco` say that the values
of the inputs and the output are copied to equal values.
Missing: inputs of blocks which hold no value but have a default value in the class of their block
(`C127_default_violated`); the values on the pipes are not copied but shared (`C127_shared_violated`). -/
theorem C127_partial (hb : Built w S G) (hgrp : ∀ t ∈ G.steps, t.groupInputs = t.inputs.filter (t.groupInputs.contains ·))
    (hw : WellFormed (memo m (skel w S G))) (h : Reached (memo m (skel w S G)) V s)
    (hk : ∀ k, k ∈ keys ↔ (s.inputValues k).isSome) (hcp : ∀ k x, s.inputValues k = some x → cp x = .ok x)
    (hco : ∀ x, s.outputValue = some x → cp x = .ok x)
    (hno : ∀ b ∈ G.blocks, List.Forall₂ (fun v p => ∀ k, (inputs (memo m (skel w S G)))[k]? = some v →
      s.inputValues k = none → p.default = none) b.inputs (w.ins b.kind)) :
    ∃ G' S' ρ r, deepCopy w S G = .ok (G', S') ∧ Replica S G S' G' ρ ∧
      copyState cp (memo m (skel w S G)) (memo m (skel w S' G')) keys s = .ok r ∧
      Sim ρ (memo m (skel w S G)) (memo m (skel w S' G')) s r ∧
      ∀ acts, Both (SameAfter ρ (memo m (skel w S G)) (memo m (skel w S' G')))
        (performAll (memo m (skel w S G)) acts s) (performAll (memo m (skel w S' G')) acts r) := by
  have ho : ∀ o, (memo m (skel w S G)).output = some o → o ∈ allVariables (memo m (skel w S G)) := fun o ho => by
    obtain ⟨b, hb', ho'⟩ := hb.output o ho
    rw [mem_memo_vars, mem_allVariables_skel w S G]
    exact .inl ⟨b, hb', .inr ho'⟩
  obtain ⟨G', S', ρ, h1, hr, ht, hd⟩ := copy_twin hb hgrp m (h.locksHeld hw) (fun k v hk hd => (h.fair hw ho).loaded.dflt k v hk hd) hno
  obtain ⟨r, h2, h3⟩ := copyState_sim hw ht h hk hcp hco hd
  exact ⟨G', S', ρ, r, h1, hr, h2, h3, fun acts => sim_performAll ht acts h3⟩

/-- The same for the copy of a run, which is made of a state and where the values of the pipes which are not memorized were
dropped.
Missing: see `C127_default_violated` and `C127_shared_violated`. -/
theorem C127_run_partial (hb : Built w S G)
    (hgrp : ∀ t ∈ G.steps, t.groupInputs = t.inputs.filter (t.groupInputs.contains ·))
    (hw : WellFormed (memo m (skel w S G))) {s0 : St α} (h : Reached (memo m (skel w S G)) V s0)
    (hs : makeRun (memo m (skel w S G)) s0 = .ok s)
    (hk : ∀ k, k ∈ keys ↔ (s.inputValues k).isSome) (hcp : ∀ k x, s.inputValues k = some x → cp x = .ok x)
    (hco : ∀ x, s.outputValue = some x → cp x = .ok x)
    (hno : ∀ b ∈ G.blocks, List.Forall₂ (fun v p => ∀ k, (inputs (memo m (skel w S G)))[k]? = some v →
      s.inputValues k = none → p.default = none) b.inputs (w.ins b.kind)) :
    ∃ G' S' ρ r, deepCopy w S G = .ok (G', S') ∧ Replica S G S' G' ρ ∧
      copyRun cp (memo m (skel w S G)) (memo m (skel w S' G')) keys s = .ok r ∧
      Sim ρ (memo m (skel w S G)) (memo m (skel w S' G')) s r ∧
      ∀ acts, Both (SameAfter ρ (memo m (skel w S G)) (memo m (skel w S' G')))
        (performAll (memo m (skel w S G)) acts s) (performAll (memo m (skel w S' G')) acts r) := by
  have ho : ∀ o, (memo m (skel w S G)).output = some o → o ∈ allVariables (memo m (skel w S G)) := fun o ho => by
    obtain ⟨b, hb', ho'⟩ := hb.output o ho
    rw [mem_memo_vars, mem_allVariables_skel w S G]
    exact .inl ⟨b, hb', .inr ho'⟩
  have hi : s.inputValues = s0.inputValues := by
    obtain ⟨g, h1, -⟩ := makeRun_reached hw ho h
    rw [h1, Except.ok.injEq] at hs
    rw [← hs]
  obtain ⟨G', S', ρ, h1, hr, ht, hd⟩ := copy_twin (s := s) hb hgrp m
    (fun k v hk hl => by rw [hi]; exact h.locksHeld hw k v hk hl)
    (fun k v hk hd => by rw [hi]; exact (h.fair hw ho).loaded.dflt k v hk hd) hno
  obtain ⟨r, h2, h3⟩ := copyRun_sim hw ht h hs hk hcp hco hd
  exact ⟨G', S', ρ, r, h1, hr, h2, h3, fun acts => sim_performAll ht acts h3⟩

end

/-! ### C128: equality -/

section
variable {ρ : Nat → Nat} {W W' : Workflow α} {V : Nat → Option α} {s s' : St α}

theorem eqInputs_ok {E : ValueEq α} {file : Nat → Bool} : ∀ {keys : List Nat},
    eqInputs E W file s s' keys = .ok true ↔
      ∀ k ∈ keys, E.eq (s.inputValues k) (s'.inputValues k) = true ∨ k < (inputs W).length ∧ file k = true
  | [] => by simp [eqInputs]
  | k :: keys => by
    rw [eqInputs, List.forall_mem_cons]
    by_cases h : E.eq (s.inputValues k) (s'.inputValues k) = true
    · rw [if_pos h, eqInputs_ok]; simp [h]
    · rw [if_neg h]
      cases hi : (inputs W)[k]? with
      | none =>
        have : ¬ k < (inputs W).length := by simpa using hi
        simp [h, this]
      | some v =>
        have hlt := (List.getElem?_eq_some_iff.1 hi).1
        by_cases hf : file k = true
        · simp only [hf, if_true, eqInputs_ok]; simp [hlt]
        · simp [hf, h]

theorem eqBlocks_iff : ∀ (l : List (Block α × Block α)) (i : Nat), eqBlocks s s' i l = true ↔
    ∀ n b c, l[n]? = some (b, c) → s.actBlock (i + n) = s'.actBlock (i + n) ∧
      ∀ v u, (v, u) ∈ (b.inputs ++ b.outputs).zip (c.inputs ++ c.outputs) → s.actVar v = s'.actVar u
  | [], i => by simp [eqBlocks]
  | (b, c) :: l, i => by
    simp only [eqBlocks, Bool.and_eq_true, eqBlocks_iff l (i + 1), List.all_eq_true, beq_iff_eq]
    constructor
    · rintro ⟨⟨h1, h2⟩, h3⟩ n b' c' hn
      cases n with
      | zero =>
        simp only [List.getElem?_cons_zero, Option.some.injEq, Prod.mk.injEq] at hn
        obtain ⟨rfl, rfl⟩ := hn
        exact ⟨h1, fun v u h => h2 (v, u) h⟩
      | succ n =>
        have := h3 n b' c' (by simpa using hn)
        rwa [show i + (n + 1) = i + 1 + n by omega]
    · intro h
      obtain ⟨h1, h2⟩ := h 0 b c rfl
      refine ⟨⟨h1, fun vu h => h2 vu.1 vu.2 h⟩, fun n b' c' hn => ?_⟩
      have := h (n + 1) b' c' (by simpa using hn)
      rwa [show i + (n + 1) = i + 1 + n by omega] at this

/-- Two states which compare equal: the workflows are equal, the progress is the same, the outputs and the inputs are equal,
files put aside, and the same blocks, ports and pipes are active. -/
theorem C128_equal {E : ValueEq α} {same : Bool} {h h' : Int} {rt rt' : List Nat} {file : Nat → Bool} {keys keys' : List Nat}
    (he : eqState E W W' same h h' rt rt' file keys keys' s s' = .ok true) :
    same = true ∧ progress rt s = progress rt' s' ∧ E.eq s.outputValue s'.outputValue = true ∧
    (∀ k, k ∈ keys ∨ k ∈ keys' → E.eq (s.inputValues k) (s'.inputValues k) = true ∨ file k = true) ∧
    (∀ i b c, W.blocks[i]? = some b → W'.blocks[i]? = some c → s.actBlock i = s'.actBlock i ∧
      ∀ v u, (v, u) ∈ (b.inputs ++ b.outputs).zip (c.inputs ++ c.outputs) → s.actVar v = s'.actVar u) ∧
    ∀ j, j < W.pipes.length → j < W'.pipes.length → s.actPipe j = s'.actPipe j := by
  unfold eqState at he
  split at he
  · simp at he
  · unfold dataEqState at he
    split at he
    · simp at he
    · rename_i hc
      simp only [Bool.not_eq_true', Bool.not_eq_false, Bool.and_eq_true, decide_eq_true_eq] at hc
      rw [bind_ok] at he
      obtain ⟨b, hb, he⟩ := he
      cases b with
      | false => simp at he
      | true =>
        simp only [Bool.not_true, Bool.false_eq_true, if_false, Except.ok.injEq, Bool.and_eq_true, List.all_eq_true,
          beq_iff_eq, List.mem_range] at he
        refine ⟨hc.1.2, hc.1.1, hc.2, fun k hk => (eqInputs_ok.1 hb k (List.mem_append.2 hk)).imp id And.right,
          fun i b c h1 h2 => ?_, fun j h1 h2 => he.2 j (by omega)⟩
        have := (eqBlocks_iff _ 0).1 he.1 i b c (by rw [List.getElem?_zip_eq_some]; exact ⟨h1, h2⟩)
        rwa [Nat.zero_add] at this

/-- A copy compares equal to the state it was copied from, when the workflows have the same hash and are
equal and `==` on values is reflexive. -/
theorem C128_copy (ht : Twin ρ W W') (h : Sim ρ W W' s s') {E : ValueEq α} (hE : ∀ x, E.eq x x = true) {g : Int} {rt rt' : List Nat}
    (hrt : rt'.Perm rt) {file : Nat → Bool} {keys keys' : List Nat} (hk : keys'.Perm keys) :
    eqState E W W' true g g rt rt' file keys keys' s s' = .ok true := by
  have hpl : W'.pipes.length = W.pipes.length := by rw [ht.ren.2, List.length_map]
  have hh : stateHash E W g keys s = stateHash E W' g keys' s' := by
    unfold stateHash countValues
    rw [h.out, h.inp, h.val, hpl, (hk.map _).sum_eq]
  have hp : progress rt s = progress rt' s' := by
    unfold progress
    rw [h.blk, hrt.length_eq, (hrt.filter _).length_eq]
  have hb : eqBlocks s s' 0 (W.blocks.zip W'.blocks) = true := by
    rw [eqBlocks_iff]
    intro n b c hn
    rw [List.getElem?_zip_eq_some] at hn
    refine ⟨by rw [h.blk], fun v u hvu => ?_⟩
    have hb := hn.1
    rw [ht.block, hn.1] at hn
    simp only [Option.map_some, Option.some.injEq, true_and] at hn
    subst hn
    simp only [← List.map_append] at hvu
    rw [List.zip_map_right, List.mem_map] at hvu
    obtain ⟨⟨v', u'⟩, hm, he⟩ := hvu
    simp only [Prod.map, id, Prod.mk.injEq] at he
    obtain ⟨rfl, rfl⟩ := he
    have hz : v' = u' := by
      obtain ⟨a, ha⟩ := List.getElem?_of_mem hm
      rw [List.getElem?_zip_eq_some] at ha
      exact Option.some.inj (ha.1.symm.trans ha.2)
    subst hz
    refine (h.var v' ?_).symm
    exact mem_allVariables.2 (.inl (mem_blockVars.2 ⟨b, List.mem_of_getElem? hb, List.mem_append.1 (List.of_mem_zip hm).1⟩))
  unfold eqState
  rw [hh]
  simp only [bne_self_eq_false, Bool.false_eq_true, if_false]
  unfold dataEqState
  rw [hp, h.out, hE]
  simp only [decide_true, Bool.and_true, Bool.not_true, Bool.false_eq_true, if_false]
  rw [eqInputs_ok.2 fun k _ => .inl (by rw [h.inp]; exact hE _)]
  simp only [bind, Except.bind, Bool.not_true, Bool.false_eq_true, if_false, hb, Bool.true_and, h.pipe, beq_self_eq_true,
    List.all_eq_true, implies_true, Except.ok.injEq]

/-- Two states of execution of a workflow, or of two which differ by the identity of variables only, hold the same values
on the same pipes if they compare equal, when no input is a file and `==` on values is equality.  (Neither values nor
pipes' values are compared by `==`: what a workflow computes is determined by its inputs.) -/
theorem C128_values (hw : WellFormed W) (ht : Twin ρ W W') {V' : Nat → Option α} (hs : Reached W V s) (hs' : Reached W' V' s')
    {E : ValueEq α} (hE : ∀ x y, E.eq x y = true → x = y) {same : Bool} {h h' : Int} {rt rt' : List Nat} {keys keys' : List Nat}
    (hk : ∀ k, k ∈ keys ↔ (s.inputValues k).isSome) (hk' : ∀ k, k ∈ keys' ↔ (s'.inputValues k).isSome)
    (he : eqState E W W' same h h' rt rt' (fun _ => false) keys keys' s s' = .ok true) :
    s'.inputValues = s.inputValues ∧ s'.outputValue = s.outputValue ∧ s'.values = s.values := by
  obtain ⟨-, -, h3, h4, -, h6⟩ := C128_equal he
  have hin : s'.inputValues = s.inputValues := by
    funext k
    by_cases hm : k ∈ keys ∨ k ∈ keys'
    · exact (hE _ _ ((h4 k hm).resolve_right (by simp))).symm
    · rw [hk, hk'] at hm
      push Not at hm
      simp only [ne_eq, Option.isSome_iff_ne_none, not_not] at hm
      rw [hm.1, hm.2]
  have hpl : W'.pipes.length = W.pipes.length := by rw [ht.ren.2, List.length_map]
  have hw' := ht.wf hw
  refine ⟨hin, (hE _ _ h3).symm, ?_⟩
  have hr := hs.restrict hw s.inputValues (fun _ _ _ _ h => h)
  have hr' := hs'.restrict hw' s.inputValues (fun _ _ _ _ h => by rw [← hin]; exact h)
  funext j
  have ho : (s'.values j).isSome ↔ (s.values j).isSome := by
    rw [hs'.pipesOn.on, hs.pipesOn.on]
    by_cases hj : j < W.pipes.length
    · rw [h6 j hj (by omega)]
    · constructor
      · intro h; exact absurd (hs'.pipesOn.lt j h) (by omega)
      · intro h; exact absurd (hs.pipesOn.lt j h) hj
  cases hx : s.values j with
  | none =>
    rw [hx] at ho
    simpa using ho
  | some x =>
    rw [hx] at ho
    obtain ⟨y, hy⟩ := Option.isSome_iff_exists.1 (ho.2 rfl)
    rw [hy]
    have hj := (hs.inside hw).val j (by rw [hx]; rfl)
    have hp : W.pipes[j]? = some W.pipes[j] := List.getElem?_eq_getElem hj
    have hp' : W'.pipes[j]? = some ⟨ρ W.pipes[j].input, ρ W.pipes[j].output, W.pipes[j].memorize⟩ := by
      rw [ht.ren.2, List.getElem?_map, hp]; rfl
    have d1 := (hr.good hw).val j _ x hp hx
    have d2 := (hr'.good hw').val j _ y hp' hy
    rw [(ren_den ht.ren ht.inj d1).unique hw' d2]

end

/-! ### Concrete cases -/

/-- The state of a result, or an empty one. -/
def okSt {β : Type} (f : β → St α) : Except PyErr β → St α
  | .ok b => f b
  | .error _ => { inputValues := fun _ => none }

/-- The result is a value. -/
def gave {β : Type} : Except PyErr β → Bool
  | .ok _ => true
  | .error _ => false

theorem okSt_eq {x : Except PyErr (St α)} (h : gave x = true) : x = .ok (okSt id x) := by
  cases x with
  | ok a => rfl
  | error e => simp [gave] at h

theorem okSt_pair {β : Type} {x : Except PyErr (St α × β)} (h : gave x = true) : ∃ b, x = .ok (okSt (·.1) x, b) := by
  cases x with
  | ok a => exact ⟨a.2, rfl⟩
  | error e => simp [gave] at h

/-- The workflow of the example, no pipe being memorized. -/
def demoG : Workflow Int := memo (fun _ => false) (skel demo demoS demoW)

theorem demoG_wf : WellFormed demoG where
  distinct := by decide
  single := by decide
  target := by decide
  source := by decide
  acyclic := ⟨fun v => if v = 6 then 0 else v, by decide, by decide⟩

/-- Run without inputs: 8 is locked and 5 is a default value.  The first block is evaluated. -/
def demoR0 : St Int := okSt id (startRun demoG fun _ => none)
def demoR : St Int := okSt (·.1) (blockEvaluation demoG [0, 1] demoR0 0)

/-- The values of the inputs. -/
def demoV (k : Nat) : Option Int := [some 8, some 5].getD k none

theorem demoR_reached : Reached demoG demoV demoR := by
  obtain ⟨b, hb⟩ := okSt_pair (x := blockEvaluation demoG [0, 1] demoR0 0) (by decide +kernel)
  refine .block (.start (vals := fun _ => none) (fun k v x hk hx => ?_) (okSt_eq (by decide +kernel))) hb
  have hx : demoG.default v = some x := by simpa using hx
  have hlt : k < 2 := (List.getElem?_eq_some_iff.1 hk).1
  match k, hlt with
  | 0, _ =>
    have : v = 1 := Option.some.inj (hk.symm.trans (by decide))
    subst this
    exact hx ▸ (by decide)
  | 1, _ =>
    have : v = 6 := Option.some.inj (hk.symm.trans (by decide))
    subst this
    exact hx ▸ (by decide)

theorem start_late {W : Workflow α} (hw : WellFormed W) {vals : Nat → Option α} {s : St α} (h : startRun W vals = .ok s) {k : Nat}
    (hk : (inputs W).length ≤ k) : s.inputValues k = vals k := (activateInputs_inp hw h).2 k hk

theorem block_late {W : Workflow α} (hw : WellFormed W) {rt : List Nat} {i : Nat} {s s' : St α} {r : Bool}
    (h : blockEvaluation W rt s i = .ok (s', r)) {k : Nat} (hk : (inputs W).length ≤ k) : s'.inputValues k = s.inputValues k := by
  obtain ⟨s1, h3, -, ⟨-, rfl, -⟩ | ⟨-, -, ys, he, -⟩⟩ := blockEvaluation_ok h
  · exact (activateInputs_inp hw h3).2 k hk
  · rw [evaluateBlock_inp he]
    exact (activateInputs_inp hw h3).2 k hk

theorem demoR_keys (k : Nat) : k ∈ [0, 1] ↔ (demoR.inputValues k).isSome := by
  obtain ⟨b, hb⟩ := okSt_pair (x := blockEvaluation demoG [0, 1] demoR0 0) (by decide +kernel)
  match k with
  | 0 => exact iff_of_true (by decide) (by decide +kernel)
  | 1 => exact iff_of_true (by decide) (by decide +kernel)
  | k + 2 =>
    have h1 := block_late demoG_wf hb (show (inputs demoG).length ≤ k + 2 from Nat.le_add_left _ _)
    have h2 := start_late demoG_wf (okSt_eq (x := startRun demoG fun _ => none) (by decide +kernel))
      (show (inputs demoG).length ≤ k + 2 from Nat.le_add_left _ _)
    have : demoR.inputValues (k + 2) = none := h1.trans h2
    rw [this]
    simp

/-- What `C127_partial` asks, for a state on the way: one block is evaluated, the other is not. -/
example : Built demo demoS demoW ∧ (∀ t ∈ demoW.steps, t.groupInputs = t.inputs.filter (t.groupInputs.contains ·)) ∧
    WellFormed (memo (fun _ => false) (skel demo demoS demoW)) ∧
    Reached (memo (fun _ => false) (skel demo demoS demoW)) demoV demoR ∧ (∀ k, k ∈ [0, 1] ↔ (demoR.inputValues k).isSome) ∧
    (∀ b ∈ demoW.blocks, List.Forall₂ (fun v p => ∀ k, (inputs (memo (fun _ => false) (skel demo demoS demoW)))[k]? = some v →
      demoR.inputValues k = none → p.default = none) b.inputs (demo.ins b.kind)) ∧
    demoR.evaluated = [0] ∧ demoR.values 0 = some 16 ∧ demoR.outputValue = none := by
  refine ⟨demo_built, ?_, demoG_wf, demoR_reached, demoR_keys, ?_, by decide +kernel, by decide +kernel, by decide +kernel⟩
  · intro t h
    simp only [demoW, List.mem_cons, List.not_mem_nil, or_false] at h
    subst h
    rfl
  · have key : ∀ v (p : Proto Nat Int) k, (inputs demoG)[k]? = some v → demoR.inputValues k = none → p.default = none := by
      intro v p k hk hn
      have hlt : k < 2 := (List.getElem?_eq_some_iff.1 hk).1
      have := (demoR_keys k).1 (by simp; omega)
      rw [hn] at this
      simp at this
    intro b hb
    simp only [demoW, List.mem_cons, List.not_mem_nil, or_false] at hb
    rcases hb with rfl | rfl
    · exact .cons (key _ _) .nil
    · exact .cons (key _ _) (.cons (key _ _) .nil)

/-- The run which is made of a state which was reached. -/
example : ∃ g, makeRun demoG demoR = .ok { demoR with values := g } ∧ g 0 = none ∧ g 1 = some 5 := by
  obtain ⟨g, h1, -⟩ := makeRun_reached demoG_wf (by decide) demoR_reached
  refine ⟨g, h1, ?_⟩
  have h2 : (okSt id (makeRun demoG demoR)).values 0 = none ∧ (okSt id (makeRun demoG demoR)).values 1 = some 5 := by
    decide +kernel
  rw [h1] at h2
  exact h2

/-! ### What a copy changes -/

/-- The workflow of the example, without the pipe between the blocks; the user removed the default value 3 of `a`. -/
def bareS : Store Nat Int := demoS.modify 3 fun x => { x with default := none }
def bareW : Wf Kd String := { demoW with pipes := [(6, 4)] }

def bareG : Workflow Int := memo (fun _ => false) (skel demo bareS bareW)

theorem bareG_wf : WellFormed bareG where
  distinct := by decide
  single := by decide
  target := by decide
  source := by decide
  acyclic := ⟨fun v => if v = 6 then 0 else v, by decide, by decide⟩

def bareR : St Int := okSt id (startRun bareG fun _ => none)

/-- The values which the inputs get. -/
def bareV (k : Nat) : Option Int := [some 8, none, some 5].getD k none

theorem bareR_reached : Reached bareG bareV bareR := by
  refine .start (vals := fun _ => none) (fun k v x hk hx => ?_) (okSt_eq (by decide +kernel))
  have hx : bareG.default v = some x := by simpa using hx
  have hlt : k < 3 := (List.getElem?_eq_some_iff.1 hk).1
  match k, hlt with
  | 0, _ =>
    have : v = 1 := Option.some.inj (hk.symm.trans (by decide))
    subst this
    exact hx ▸ (by decide)
  | 1, _ =>
    have : v = 3 := Option.some.inj (hk.symm.trans (by decide))
    subst this
    exact hx ▸ (by decide)
  | 2, _ =>
    have : v = 6 := Option.some.inj (hk.symm.trans (by decide))
    subst this
    exact hx ▸ (by decide)

theorem bareR_keys (k : Nat) : k ∈ [0, 2] ↔ (bareR.inputValues k).isSome := by
  match k with
  | 0 => exact iff_of_true (by decide) (by decide +kernel)
  | 1 => exact iff_of_false (by decide) (by decide +kernel)
  | 2 => exact iff_of_true (by decide) (by decide +kernel)
  | k + 3 =>
    have : bareR.inputValues (k + 3) = none := start_late bareG_wf (okSt_eq (x := startRun bareG fun _ => none) (by decide +kernel))
      (show (inputs bareG).length ≤ k + 3 from Nat.le_add_left _ _)
    rw [this]
    simp

/-- Violation: the default value which the user removed from an input comes back in the copy.  The copy of a state which
waits for this input does not wait for it: its block can be evaluated. -/
theorem C127_default_violated : ∃ (S S' : Store Nat Int) (G G' : Wf Kd String) (V : Nat → Option Int) (s r : St Int) (t t' : St Int),
    WellFormed (memo (fun _ => false) (skel demo S G)) ∧ Reached (memo (fun _ => false) (skel demo S G)) V s ∧
    (∀ k, k ∈ [0, 2] ↔ (s.inputValues k).isSome) ∧ deepCopy demo S G = .ok (G', S') ∧
    copyState .ok (memo (fun _ => false) (skel demo S G)) (memo (fun _ => false) (skel demo S' G')) [0, 2] s = .ok r ∧
    s.inputValues 1 = none ∧ r.inputValues 1 = some 3 ∧
    blockEvaluation (memo (fun _ => false) (skel demo S G)) [0, 1] s 1 = .ok (t, false) ∧
    blockEvaluation (memo (fun _ => false) (skel demo S' G')) [0, 1] r 1 = .ok (t', true) := by
  obtain ⟨G', S', hc⟩ : ∃ G' S', deepCopy demo bareS bareW = .ok (G', S') := ⟨_, _, rfl⟩
  have hG : G' = ((deepCopy demo bareS bareW).toOption.getD (bareW, bareS)).1 := by rw [hc]; rfl
  have hS : S' = ((deepCopy demo bareS bareW).toOption.getD (bareW, bareS)).2 := by rw [hc]; rfl
  subst hG hS
  refine ⟨bareS, _, bareW, _, bareV, bareR, _, okSt (·.1) (blockEvaluation bareG [0, 1] bareR 1), _, bareG_wf, bareR_reached, bareR_keys, hc,
    okSt_eq (by decide +kernel), by decide +kernel, by decide +kernel, rfl, rfl⟩

/-- Violation: the values on the pipes of the copy are those of the original, not copies of them.  The values are taken as
references, and a copy of `x` as the new reference `x + 100`: the input is copied, the value of the pipe is not. -/
theorem C127_shared_violated : ∃ (r : St Int), WellFormed demoG ∧ Reached demoG demoV demoR ∧
    copyState (fun x => .ok (x + 100)) demoG demoG [0, 1] demoR = .ok r ∧ demoR.inputValues 0 = some 8 ∧
    r.inputValues 0 = some 108 ∧ demoR.values 0 = some 16 ∧ r.values 0 = some 16 :=
  ⟨_, demoG_wf, demoR_reached, okSt_eq (by decide +kernel), by decide +kernel, by decide +kernel, by decide +kernel, by decide +kernel⟩

/-! ### What `==` misses -/

/-- Equality of numbers, which are their own hashes. -/
def intEq : ValueEq Int := ⟨fun x => x.getD 0, fun x y => x == y⟩

example : (∀ x, intEq.eq x x = true) ∧ ∀ x y, intEq.eq x y = true → x = y :=
  ⟨fun x => by simp [intEq], fun x y h => by simpa [intEq] using h⟩

/-- A state compared with itself, and with the same one with one block more evaluated. -/
example : eqState intEq demoG demoG true 1 1 [0, 1] [0, 1] (fun _ => false) [0, 1] [0, 1] demoR demoR = .ok true ∧
    eqState intEq demoG demoG true 1 1 [0, 1] [0, 1] (fun _ => false) [0, 1] [0, 1] demoR demoR0 = .ok false := by
  constructor <;> decide +kernel

/-- Two states of execution which only differ by the second input, which is a file. -/
def fileR (x : Int) : St Int := okSt id (startRun demoG fun k => if k = 0 then some 8 else if k = 1 then some x else none)

/-- Violation: states which only differ by a file are made to be equal, but are not unless this file is the first input: its
hash is part of the hash of the state, multiplied by the number of the input. -/
theorem C128_file_violated : ∃ (W : Workflow Int) (s s' : St Int) (file : Nat → Bool), WellFormed W ∧
    (∀ k, file k = false → s.inputValues k = s'.inputValues k) ∧
    dataEqState intEq W W true [0, 1] [0, 1] file [0, 1] [0, 1] s s' = .ok true ∧
    eqState intEq W W true 1 1 [0, 1] [0, 1] file [0, 1] [0, 1] s s' = .ok false := by
  refine ⟨demoG, fileR 5, fileR 6, fun k => k == 1, demoG_wf, fun k hk => ?_, by decide +kernel, by decide +kernel⟩
  match k with
  | 0 => decide +kernel
  | 1 => simp at hk
  | k + 2 =>
    have h : ∀ x, gave (startRun demoG fun k => if k = 0 then some 8 else if k = 1 then some x else none) = true →
        (fileR x).inputValues (k + 2) = none := fun x h =>
      start_late demoG_wf (okSt_eq h) (show (inputs demoG).length ≤ k + 2 from Nat.le_add_left _ _)
    rw [h 5 (by decide +kernel), h 6 (by decide +kernel)]

/-- The state saved and restored. -/
def savedR : St Int := okSt id (do
  let d ← saveState intCodec demoG (fun _ => false) [0, 1] demoR
  loadState intCodec demoG d)

/-- Violation: a state which was saved and restored is not equal to the original, when a value on a pipe which is not
memorized was dropped: everything which `_data_eq` compares is equal, but the number of the values is part of the hash. -/
theorem C128_restored_violated : ∃ (s s' : St Int) (d : StD Int), WellFormed demoG ∧ Reached demoG demoV s ∧
    saveState intCodec demoG (fun _ => false) [0, 1] s = .ok d ∧ loadState intCodec demoG d = .ok s' ∧
    dataEqState intEq demoG demoG true [0, 1] [0, 1] (fun _ => false) [0, 1] [0, 1] s s' = .ok true ∧
    eqState intEq demoG demoG true 1 1 [0, 1] [0, 1] (fun _ => false) [0, 1] [0, 1] s s' = .ok false := by
  obtain ⟨d, hd⟩ : ∃ d, saveState intCodec demoG (fun _ => false) [0, 1] demoR = .ok d := by
    have : gave (saveState intCodec demoG (fun _ => false) [0, 1] demoR) = true := by decide +kernel
    cases h : saveState intCodec demoG (fun _ => false) [0, 1] demoR with
    | ok d => exact ⟨d, rfl⟩
    | error e => rw [h] at this; simp [gave] at this
  have hl : loadState intCodec demoG d = .ok savedR := by
    have : gave (do
      let d ← saveState intCodec demoG (fun _ => false) [0, 1] demoR
      loadState intCodec demoG d) = true := by decide +kernel
    have e := okSt_eq this
    simp only [hd, bind, Except.bind] at e
    rw [e]
    congr 1
    unfold savedR
    simp only [hd, bind, Except.bind]
  exact ⟨demoR, savedR, d, demoG_wf, demoR_reached, hd, hl, by decide +kernel, by decide +kernel⟩

end DC.Wkf
