import Verif.Workflow.StateCopy
import Verif.Workflow.SavedEnd
/- Executions on a workflow and on the same workflow with other variables. -/
namespace DC.Wkf
set_option linter.unusedSectionVars false

variable {α : Type}

/-! ### Specification -/

/-- `W'` is the workflow `W` with other variables: the same blocks and pipes, and the corresponding output.  Nothing is said
of the default values and of the locks.  Used in proofs only (no code). -/
structure Twin (ρ : Nat → Nat) (W W' : Workflow α) : Prop where
  ren : ren ρ W W'
  inj : ∀ u ∈ allVariables W, ∀ v ∈ allVariables W, ρ u = ρ v → u = v
  outVar : ∀ o, W.output = some o → o ∈ allVariables W
  output : W'.output = W.output.map ρ

/-- The state `s'` of `W'` is the state `s` of `W`: the same values on inputs and pipes, the same active items, the same
output and the same evaluations.  The inputs which have no value have the same default value and the same lock in both.
Used in proofs only (no code). -/
structure Sim (ρ : Nat → Nat) (W W' : Workflow α) (s s' : St α) : Prop where
  inp : s'.inputValues = s.inputValues
  val : s'.values = s.values
  pipe : s'.actPipe = s.actPipe
  blk : s'.actBlock = s.actBlock
  out : s'.outputValue = s.outputValue
  ev : s'.evaluated = s.evaluated
  var : ∀ v ∈ allVariables W, s'.actVar (ρ v) = s.actVar v
  dfl : ∀ k v, (inputs W)[k]? = some v → s.inputValues k = none →
    W'.default (ρ v) = W.default v ∧ W'.lockFlag (ρ v) = W.lockFlag v

/-- Both succeed with related results, or both raise the same error.  Used in proofs only (no code). -/
def Both {β γ : Type} (R : β → γ → Prop) : Except PyErr β → Except PyErr γ → Prop
  | .ok a, .ok b => R a b
  | .error e, .error f => e = f
  | _, _ => False

/-! ### Both -/

section
variable {β γ β' γ' : Type} {R : β → γ → Prop} {Q : β' → γ' → Prop}

theorem Both.bind {x : Except PyErr β} {y : Except PyErr γ} {f : β → Except PyErr β'} {g : γ → Except PyErr γ'}
    (h : Both R x y) (hf : ∀ a b, R a b → Both Q (f a) (g b)) : Both Q (x >>= f) (y >>= g) := by
  cases x with
  | error e => cases y with
    | error e' => exact h
    | ok b => exact h.elim
  | ok a => cases y with
    | error e' => exact h.elim
    | ok b => exact hf a b h

theorem Both.of_eq {x y : Except PyErr β} (h : x = y) : Both Eq x y := by
  subst h
  cases x <;> exact rfl

theorem Both.mono {R' : β → γ → Prop} {x : Except PyErr β} {y : Except PyErr γ} (h : Both R x y)
    (hR : ∀ a b, R a b → R' a b) : Both R' x y := by
  cases x with
  | error e => cases y with
    | error e' => exact h
    | ok b => exact h.elim
  | ok a => cases y with
    | error e' => exact h.elim
    | ok b => exact hR a b h

theorem Both.ok_left {x : Except PyErr β} {y : Except PyErr γ} (h : Both R x y) {a : β} (hx : x = .ok a) :
    ∃ b, y = .ok b ∧ R a b := by
  subst hx
  cases y with
  | error e => exact h.elim
  | ok b => exact ⟨b, rfl, h⟩

theorem Both.foldlM {δ ε : Type} {g : δ → ε} {f : β → δ → Except PyErr β} {f' : γ → ε → Except PyErr γ} {l : List δ}
    (hf : ∀ c ∈ l, ∀ a b, R a b → Both R (f a c) (f' b (g c))) :
    ∀ {a : β} {b : γ}, R a b → Both R (l.foldlM f a) ((l.map g).foldlM f' b) := by
  induction l with
  | nil => intro a b h; exact h
  | cons c l ih =>
    intro a b h
    rw [List.map_cons, List.foldlM_cons, List.foldlM_cons]
    exact (hf c (by simp) a b h).bind fun a b h => ih (fun c hc => hf c (by simp [hc])) h
end

/-! ### Twins -/

section
variable {ρ : Nat → Nat} {W W' : Workflow α}

/-- The twin with the default values of the original.  Used in proofs only (no code). -/
def redefault (ρ : Nat → Nat) (W W' : Workflow α) : Workflow α :=
  { W' with default := fun u => ((allVariables W).find? fun v => ρ v == u).bind W.default }

theorem Twin.renamed (h : Twin ρ W W') : Renamed ρ W (redefault ρ W W') where
  ren := h.ren
  inj := h.inj
  outVar := h.outVar
  output := h.output
  default v hv := by
    have hs : ((allVariables W).find? fun x => ρ x == ρ v).isSome := by
      rw [List.find?_isSome]; exact ⟨v, hv, by simp⟩
    obtain ⟨x, hx⟩ := Option.isSome_iff_exists.1 hs
    have h1 := List.find?_some hx
    have h2 := List.mem_of_find?_eq_some hx
    have := h.inj x h2 v hv (by simpa using h1)
    subst this
    show ((allVariables W).find? fun w => ρ w == ρ x).bind W.default = W.default x
    rw [hx]; rfl

theorem Twin.of_renamed (h : Renamed ρ W W') : Twin ρ W W' := ⟨h.ren, h.inj, h.outVar, h.output⟩

theorem Twin.vars (h : Twin ρ W W') : allVariables W' = (allVariables W).map ρ := (ren_vars h.ren h.inj).1

theorem Twin.nbvs (h : Twin ρ W W') : Wkf.nbvs W' = (Wkf.nbvs W).map ρ := (ren_vars h.ren h.inj).2

theorem Twin.inputs (h : Twin ρ W W') : Wkf.inputs W' = (Wkf.inputs W).map ρ := ren_inputs h.ren h.inj

theorem Twin.wf (h : Twin ρ W W') (hw : WellFormed W) : WellFormed W' :=
  have := h.renamed.wf hw
  ⟨this.distinct, this.single, this.target, this.source, this.acyclic⟩

theorem Twin.inputPipe (h : Twin ρ W W') {v : Nat} (hv : v ∈ allVariables W) :
    Wkf.inputPipe W' (ρ v) = Wkf.inputPipe W v := h.renamed.inputPipe hv

theorem Twin.block (h : Twin ρ W W') {i : Nat} : W'.blocks[i]? =
    (W.blocks[i]?).map fun b => ⟨b.inputs.map ρ, b.outputs.map ρ, b.eval⟩ := by
  rw [h.ren.1, List.getElem?_map]

theorem Twin.fuel (h : Twin ρ W W') : fuelOf W' = fuelOf W := by
  unfold fuelOf
  rw [h.ren.2, List.length_map]

theorem Twin.outputPipes (h : Twin ρ W W') {v : Nat} (hv : v ∈ allVariables W) :
    Wkf.outputPipes W' (ρ v) = (Wkf.outputPipes W v).map
      fun ip => ((⟨ρ ip.1.input, ρ ip.1.output, ip.1.memorize⟩ : Pipe), ip.2) := by
  unfold Wkf.outputPipes
  rw [h.ren.2, List.zipIdx_map, List.filter_map]
  congr 1
  apply List.filter_congr
  intro ip hip
  obtain ⟨hi, -⟩ := List.mem_zipIdx' hip
  simp only [Function.comp, Prod.map, id]
  rw [Bool.eq_iff_iff, beq_iff_eq, beq_iff_eq]
  have hm : ip.1 ∈ W.pipes := by
    obtain ⟨p, i⟩ := ip
    exact List.fst_mem_of_mem_zipIdx hip
  exact ⟨fun e => h.inj _ (Renamed.pipeVar hm).1 _ hv e, fun e => by rw [e]⟩

theorem Twin.upstreamNbv (h : Twin ρ W W') {v : Nat} (hv : v ∈ allVariables W) :
    Wkf.upstreamNbv W' (ρ v) = ρ (Wkf.upstreamNbv W v) ∧ Wkf.upstreamNbv W v ∈ allVariables W := by
  have hn : ∀ u ∈ allVariables W, ((Wkf.nbvs W).map ρ).contains (ρ u) = (Wkf.nbvs W).contains u := by
    intro u hu
    rw [Bool.eq_iff_iff]
    simp only [List.contains_iff_mem, List.mem_map]
    constructor
    · rintro ⟨x, hx, he⟩
      rw [← h.inj x (by rw [(nbvs_spec W).1]; exact List.mem_append_right _ hx) u hu he]
      exact hx
    · intro hu'; exact ⟨u, hu', rfl⟩
  unfold Wkf.upstreamNbv upstreamVar
  rw [h.nbvs, h.inputPipe hv, List.isEmpty_map]
  by_cases he : (Wkf.nbvs W).isEmpty
  · simp only [he, if_true]; exact ⟨trivial, hv⟩
  · simp only [he, Bool.false_eq_true, if_false]
    cases hi : Wkf.inputPipe W v with
    | none => exact ⟨rfl, hv⟩
    | some i =>
      simp only [bind, Option.bind]
      rw [h.ren.2, List.getElem?_map]
      cases hp : W.pipes[i]? with
      | none => exact ⟨rfl, hv⟩
      | some p =>
        simp only [Option.map_some]
        have hm : p.input ∈ allVariables W := (Renamed.pipeVar (List.mem_of_getElem? hp)).1
        rw [hn _ hm]
        by_cases hc : (Wkf.nbvs W).contains p.input
        · simp only [hc, if_true]; exact ⟨trivial, hm⟩
        · simp only [hc, Bool.false_eq_true, if_false]; exact ⟨trivial, hv⟩

theorem Twin.inputIndex (h : Twin ρ W W') {v : Nat} (hv : v ∈ allVariables W) :
    Wkf.inputIndex W' (ρ v) = Wkf.inputIndex W v := by
  unfold Wkf.inputIndex
  obtain ⟨h1, h2⟩ := h.upstreamNbv hv
  simp only
  rw [h1, h.inputs]
  have hm : ρ (Wkf.upstreamNbv W v) ∈ (Wkf.inputs W).map ρ ↔ Wkf.upstreamNbv W v ∈ Wkf.inputs W := by
    rw [List.mem_map]
    constructor
    · rintro ⟨x, hx, he⟩
      rw [← h.inj x (mem_inputs.1 hx).1 _ h2 he]; exact hx
    · intro hx; exact ⟨_, hx, rfl⟩
  have hx : ((Wkf.inputs W).map ρ).idxOf (ρ (Wkf.upstreamNbv W v)) = (Wkf.inputs W).idxOf (Wkf.upstreamNbv W v) :=
    idxOf_map _ fun u hu he => h.inj u (mem_inputs.1 hu).1 _ h2 he
  simp only [hm, hx]

/-! ### The operations keep twins together -/

variable {s s' : St α}

theorem Sim.output (h : Sim ρ W W' s s') (ht : Twin ρ W W') {v : Nat} (hv : v ∈ allVariables W) (x : α) :
    Sim ρ W W' (if W.output = some v then { s with outputValue := some x } else s)
      (if W'.output = some (ρ v) then { s' with outputValue := some x } else s') := by
  have : W'.output = some (ρ v) ↔ W.output = some v := by
    rw [ht.output, Option.map_eq_some_iff]
    constructor
    · rintro ⟨o, ho, he⟩
      rw [ho, ht.inj o (ht.outVar o ho) v hv he]
    · intro e; exact ⟨v, e, rfl⟩
  by_cases hc : W.output = some v
  · rw [if_pos hc, if_pos (this.2 hc)]
    exact ⟨h.inp, h.val, h.pipe, h.blk, rfl, h.ev, h.var, h.dfl⟩
  · rw [if_neg hc, if_neg (fun e => hc (this.1 e))]
    exact h

theorem Sim.actV (h : Sim ρ W W' s s') (ht : Twin ρ W W') {v : Nat} (hv : v ∈ allVariables W) :
    Sim ρ W W' { s with actVar := upd s.actVar v true } { s' with actVar := upd s'.actVar (ρ v) true } := by
  refine ⟨h.inp, h.val, h.pipe, h.blk, h.out, h.ev, fun u hu => ?_, h.dfl⟩
  simp only [upd]
  by_cases he : u = v
  · subst he; simp
  · rw [if_neg he, if_neg (fun e => he (ht.inj u hu v hv e))]
    exact h.var u hu

theorem Sim.setPipe (h : Sim ρ W W' s s') (j : Nat) (x : α) :
    Sim ρ W W' { s with values := upd s.values j (some x), actPipe := upd s.actPipe j true }
      { s' with values := upd s'.values j (some x), actPipe := upd s'.actPipe j true } :=
  ⟨h.inp, by rw [h.val], by rw [h.pipe], h.blk, h.out, h.ev, h.var, h.dfl⟩

theorem pipe_out {v : Nat} {ip : Pipe × Nat} (h : ip ∈ outputPipes W v) : ip.1.output ∈ allVariables W :=
  (Renamed.pipeVar (List.mem_of_getElem? (mem_outputPipes.1 h).1)).2

theorem sim_activateVar (ht : Twin ρ W W') (x : α) : ∀ (n : Nat) {s s' : St α} {v : Nat}, v ∈ allVariables W →
    Sim ρ W W' s s' → Both (Sim ρ W W') (activateVar W n s v x) (activateVar W' n s' (ρ v) x) := by
  intro n
  induction n with
  | zero => intro s s' v _ _; exact rfl
  | succ n ih =>
    intro s s' v hv h
    rw [activateVar, activateVar, ht.outputPipes hv]
    refine (Both.foldlM (fun ip hip a b hab => ?_) (h.output ht hv x)).bind fun a b hab => ?_
    · exact ih (pipe_out hip) (hab.setPipe ip.2 x)
    · exact hab.actV ht hv

theorem sim_activatePipe (ht : Twin ρ W W') (x : α) {v : Nat} {ip : Pipe × Nat} (hip : ip ∈ outputPipes W v)
    (h : Sim ρ W W' s s') : Both (Sim ρ W W') (activatePipe W s ip x)
      (activatePipe W' s' ((⟨ρ ip.1.input, ρ ip.1.output, ip.1.memorize⟩ : Pipe), ip.2) x) := by
  unfold activatePipe
  rw [ht.fuel]
  exact sim_activateVar ht x _ (pipe_out hip) (h.setPipe ip.2 x)

theorem Sim.note (h : Sim ρ W W' s s') (ht : Twin ρ W W') {v : Nat} (hv : v ∈ allVariables W) (x : α) :
    Sim ρ W W' (noteInput W s v x) (noteInput W' s' (ρ v) x) := by
  unfold noteInput
  rw [ht.inputIndex hv]
  cases inputIndex W v with
  | none => exact h
  | some k =>
    refine ⟨by simp only; rw [h.inp], h.val, h.pipe, h.blk, h.out, h.ev, h.var, fun m u hm hn => h.dfl m u hm ?_⟩
    simp only [upd] at hn
    split at hn
    · simp at hn
    · exact hn

theorem sim_activateInput (ht : Twin ρ W W') (x : α) {v : Nat} (hv : v ∈ allVariables W) (h : Sim ρ W W' s s') :
    Both (Sim ρ W W') (activateInput W s v x) (activateInput W' s' (ρ v) x) := by
  unfold activateInput
  rw [ht.fuel, ht.outputPipes hv]
  refine (sim_activateVar ht x _ hv (h.note ht hv x)).bind fun a b hab => ?_
  refine Both.foldlM (l := outputPipes W v) ?_ hab
  intro ip hip a b hab
  exact sim_activatePipe (v := v) ht x hip hab

theorem sim_activateOne (ht : Twin ρ W W') {c : Bool} {k v : Nat} (hk : (inputs W)[k]? = some v)
    (h : Sim ρ W W' s s') : Both (Sim ρ W W') (activateOne W c s k v) (activateOne W' c s' k (ρ v)) := by
  have hv := (mem_inputs.1 (List.mem_of_getElem? hk)).1
  unfold activateOne
  rw [h.inp]
  cases hx : s.inputValues k with
  | some x => exact sim_activateInput ht x hv h
  | none =>
    obtain ⟨h1, h2⟩ := h.dfl k v hk hx
    rw [h1, h2]
    cases W.default v with
    | some d => exact sim_activateInput ht d hv h
    | none =>
      simp only
      by_cases hl : W.lockFlag v
      · simp only [hl, if_true]; exact rfl
      · cases c with
        | true => simp only [hl, if_true]; exact rfl
        | false => simp only [hl, Bool.false_eq_true, if_false]; exact h

theorem sim_activateLoop (ht : Twin ρ W W') {c : Bool} : ∀ (l : List Nat) (k : Nat),
    (∀ n v, l[n]? = some v → (inputs W)[k + n]? = some v) → ∀ {s s' : St α}, Sim ρ W W' s s' →
    Both (Sim ρ W W') (activateInputsLoop W c k l s) (activateInputsLoop W' c k (l.map ρ) s') := by
  intro l
  induction l with
  | nil => intro k _ s s' h; exact h
  | cons v l ih =>
    intro k hl s s' h
    rw [List.map_cons, activateInputsLoop, activateInputsLoop]
    refine (sim_activateOne ht (hl 0 v rfl) h).bind fun a b hab => ih (k + 1) (fun n u hn => ?_) hab
    rw [show k + 1 + n = k + (n + 1) by omega]
    exact hl (n + 1) u (by simpa using hn)

theorem sim_activateInputs (ht : Twin ρ W W') {c : Bool} (h : Sim ρ W W' s s') :
    Both (Sim ρ W W') (activateInputs W c s) (activateInputs W' c s') := by
  unfold activateInputs
  rw [ht.inputs]
  exact sim_activateLoop ht _ 0 (fun n v hn => by rw [Nat.zero_add]; exact hn) h

theorem sim_byInputs (h : Sim ρ W W' s s') {b : Block α} (hb : b ∈ W.blocks) :
    byInputs s' ⟨b.inputs.map ρ, b.outputs.map ρ, b.eval⟩ = byInputs s b := by
  unfold byInputs
  simp only [List.all_map]
  rw [Bool.eq_iff_iff, List.all_eq_true, List.all_eq_true]
  constructor
  · intro g v hv
    rw [← h.var v (Renamed.blockVar hb (.inl hv))]; exact g v hv
  · intro g v hv
    show s'.actVar (ρ v) = true
    rw [h.var v (Renamed.blockVar hb (.inl hv))]; exact g v hv

theorem sim_activable (ht : Twin ρ W W') (h : Sim ρ W W' s s') (rt : List Nat) (i : Nat) :
    activable W' rt s' i = activable W rt s i := by
  unfold activable
  rw [ht.block]
  cases hb : W.blocks[i]? with
  | none => rfl
  | some b =>
    simp only [Option.map_some]
    rw [sim_byInputs h (List.mem_of_getElem? hb), h.blk]

theorem sim_readOne (ht : Twin ρ W W') (h : Sim ρ W W' s s') {v : Nat} (hv : v ∈ allVariables W) :
    readOne W' s' (ρ v) = readOne W s v := by
  unfold readOne
  rw [ht.inputPipe hv, ht.inputIndex hv, h.inp, h.val]

theorem sim_readInputs (ht : Twin ρ W W') : ∀ (l : List Nat), (∀ v ∈ l, v ∈ allVariables W) → ∀ {s s' : St α},
    Sim ρ W W' s s' → Both (fun a b => b.1 = a.1 ∧ Sim ρ W W' a.2 b.2) (readInputs W l s) (readInputs W' (l.map ρ) s') := by
  intro l
  induction l with
  | nil => intro _ s s' h; exact ⟨rfl, h⟩
  | cons v l ih =>
    intro hl s s' h
    have hv := hl v (by simp)
    rw [List.map_cons, readInputs, readInputs, sim_readOne ht h hv, ht.fuel]
    refine (Both.of_eq (rfl : readOne W s v = _)).bind fun x y hxy => ?_
    subst hxy
    refine (sim_activateVar ht x _ hv h).bind fun a b hab => ?_
    refine (ih (fun u hu => hl u (by simp [hu])) hab).bind fun p q hpq => ?_
    exact ⟨by rw [hpq.1], hpq.2⟩

theorem sim_activateOutputs (ht : Twin ρ W W') : ∀ (os : List Nat) (ys : List α), (∀ v ∈ os, v ∈ allVariables W) →
    ∀ {s s' : St α}, Sim ρ W W' s s' → Both (Sim ρ W W') (activateOutputs W os ys s) (activateOutputs W' (os.map ρ) ys s') := by
  intro os
  induction os with
  | nil => intro ys _ s s' h; cases ys <;> exact h
  | cons o os ih =>
    intro ys ho s s' h
    cases ys with
    | nil => exact h
    | cons y ys =>
      rw [List.map_cons, activateOutputs, activateOutputs, ht.fuel]
      exact (sim_activateVar ht y _ (ho o (by simp)) h).bind fun a b hab => ih ys (fun u hu => ho u (by simp [hu])) hab

theorem sim_evaluateBlock (ht : Twin ρ W W') (h : Sim ρ W W' s s') (i : Nat) :
    Both (fun a b => b.2 = a.2 ∧ Sim ρ W W' a.1 b.1) (evaluateBlock W s i) (evaluateBlock W' s' i) := by
  unfold evaluateBlock
  rw [ht.block]
  cases hb : W.blocks[i]? with
  | none => exact rfl
  | some b =>
    have hm := List.mem_of_getElem? hb
    simp only [Option.map_some]
    refine (sim_readInputs ht b.inputs (fun v hv => Renamed.blockVar hm (.inl hv)) h).bind fun p q hpq => ?_
    obtain ⟨xs, s1⟩ := p
    obtain ⟨xs', s1'⟩ := q
    obtain ⟨rfl, h1⟩ := hpq
    refine (Both.of_eq (rfl : b.eval _ = b.eval _)).bind fun ys ys' he => ?_
    subst he
    refine (sim_activateOutputs ht b.outputs ys (fun v hv => Renamed.blockVar hm (.inr hv)) ?_).bind fun a c hac => ?_
    · exact ⟨h1.inp, h1.val, h1.pipe, h1.blk, h1.out, by simp only; rw [h1.ev], h1.var, h1.dfl⟩
    · exact ⟨rfl, hac.inp, hac.val, hac.pipe, by simp only; rw [hac.blk], hac.out, hac.ev, hac.var, hac.dfl⟩

theorem sim_blockEvaluation (ht : Twin ρ W W') (h : Sim ρ W W' s s') (rt : List Nat) (i : Nat) :
    Both (fun a b => b.2 = a.2 ∧ Sim ρ W W' a.1 b.1) (blockEvaluation W rt s i) (blockEvaluation W' rt s' i) := by
  unfold blockEvaluation
  rw [ht.block]
  cases hb : W.blocks[i]? with
  | none => exact rfl
  | some b =>
    simp only [Option.map_some]
    refine (sim_activateInputs ht h).bind fun a c hac => ?_
    rw [sim_activable ht hac]
    by_cases hc : activable W rt a i
    · simp only [hc, if_true]
      refine (sim_evaluateBlock ht hac i).bind fun p q hpq => ?_
      exact ⟨rfl, hpq.2⟩
    · simp only [hc, Bool.false_eq_true, if_false]
      exact ⟨rfl, hac⟩

theorem sim_evaluateNext (ht : Twin ρ W W') (h : Sim ρ W W' s s') (rt : List Nat) :
    Both (fun a b => b.2 = a.2 ∧ Sim ρ W W' a.1 b.1) (evaluateNext W rt s) (evaluateNext W' rt s') := by
  unfold evaluateNext
  refine (sim_activateInputs ht h).bind fun a c hac => ?_
  have e1 : W'.blocks.length = W.blocks.length := by rw [ht.ren.1, List.length_map]
  have e2 : activable W' rt c = activable W rt a := funext fun i => sim_activable ht hac rt i
  rw [e1, e2]
  cases (List.range W.blocks.length).filter (activable W rt a) with
  | nil => exact ⟨rfl, hac⟩
  | cons i l =>
    exact (sim_blockEvaluation ht hac rt i).bind fun p q hpq => ⟨rfl, hpq.2⟩

theorem sim_evalAll (ht : Twin ρ W W') (rt : List Nat) : ∀ (l : List Nat) {s s' : St α}, Sim ρ W W' s s' →
    Both (Sim ρ W W') (evalAll W rt l s) (evalAll W' rt l s') := by
  intro l
  induction l with
  | nil => intro s s' h; exact h
  | cons i l ih =>
    intro s s' h
    rw [evalAll, evalAll]
    exact (sim_blockEvaluation ht h rt i).bind fun p q hpq => ih hpq.2

/-- Both are there, related, or none is.  Used in proofs only (no code). -/
def BothSome {β γ : Type} (R : β → γ → Prop) : Option β → Option γ → Prop
  | some a, some b => R a b
  | none, none => True
  | _, _ => False

theorem sim_continueLoop (ht : Twin ρ W W') (rt : List Nat) : ∀ (n : Nat) {s s' : St α}, Sim ρ W W' s s' →
    Both (BothSome (Sim ρ W W')) (continueLoop W rt n s) (continueLoop W' rt n s') := by
  intro n
  induction n with
  | zero => intro s s' _; exact trivial
  | succ n ih =>
    intro s s' h
    rw [continueLoop, continueLoop]
    have e2 : activable W' rt s' = activable W rt s := funext fun i => sim_activable ht h rt i
    rw [e2]
    cases rt.filter (activable W rt s) with
    | nil => exact h
    | cons i l => exact (sim_evalAll ht rt (i :: l) h).bind fun p q hpq => ih hpq

theorem sim_continueRun (ht : Twin ρ W W') (h : Sim ρ W W' s s') (rt : List Nat) (n : Nat) :
    Both (BothSome (Sim ρ W W')) (continueRun W rt n s) (continueRun W' rt n s') := by
  unfold continueRun
  exact (sim_activateInputs ht h).bind fun a b hab => sim_continueLoop ht rt n hab

theorem sim_branchStep (ht : Twin ρ W W') : ∀ (l : List Nat) {s s' : St α}, Sim ρ W W' s s' →
    Both (Sim ρ W W') (branchStep W l s) (branchStep W' l s') := by
  intro l
  induction l with
  | nil => intro s s' h; exact h
  | cons i l ih =>
    intro s s' h
    rw [branchStep, branchStep]
    exact (sim_evaluateBlock ht h i).bind fun p q hpq => ih hpq.2

theorem sim_branchLoop (ht : Twin ρ W W') (rt blocks : List Nat) : ∀ (n : Nat) (done : List Nat) {s s' : St α},
    Sim ρ W W' s s' → Both (fun a b => b.2 = a.2 ∧ Sim ρ W W' a.1 b.1) (branchLoop W rt blocks n done s)
      (branchLoop W' rt blocks n done s') := by
  intro n
  induction n with
  | zero => intro d s s' h; exact ⟨rfl, h⟩
  | succ n ih =>
    intro d s s' h
    rw [branchLoop, branchLoop]
    by_cases hd : d.length = blocks.length
    · rw [if_pos hd, if_pos hd]; exact ⟨rfl, h⟩
    · rw [if_neg hd, if_neg hd]
      have e2 : activable W' rt s' = activable W rt s := funext fun i => sim_activable ht h rt i
      rw [e2]
      exact (sim_branchStep ht _ h).bind fun p q hpq => ih _ hpq

theorem sim_evaluateBranch (ht : Twin ρ W W') (h : Sim ρ W W' s s') (rt blocks : List Nat) :
    Both (fun a b => b.2 = a.2 ∧ Sim ρ W W' a.1 b.1) (evaluateBranch W rt blocks s) (evaluateBranch W' rt blocks s') := by
  unfold evaluateBranch
  refine (sim_activateInputs ht h).bind fun a b hab => ?_
  have e2 : activable W' rt b = activable W rt a := funext fun i => sim_activable ht hab rt i
  rw [e2]
  by_cases hc : blocks.any (activable W rt a)
  · simp only [hc, if_true]; exact sim_branchLoop ht rt blocks _ _ hab
  · simp only [hc, Bool.false_eq_true, if_false]; exact rfl

end

end DC.Wkf
