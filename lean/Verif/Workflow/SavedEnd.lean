import Verif.Workflow.SavedProps
/- Executions which are saved, restored and then continued. -/
namespace DC.Wkf
set_option linter.unusedSectionVars false

variable {α J : Type}

section
variable {C : Codec α J} {file : Nat → Bool} {V : Nat → Option α} {W W' : Workflow α} {ρ : Nat → Nat}

/-! ### The inputs given so far -/

/-- The inputs which have a value keep one.  Used in proofs only (no code). -/
def Above (s s' : St α) : Prop := ∀ k, (s.inputValues k).isSome → (s'.inputValues k).isSome

theorem Above.blockEvaluation {rt : List Nat} {i : Nat} {s s' : St α} {r : Bool} (h : blockEvaluation W rt s i = .ok (s', r)) :
    Above s s' := by
  obtain ⟨s1, -, hf, ⟨-, rfl, -⟩ | ⟨-, -, ys, he, -⟩⟩ := blockEvaluation_ok h
  · exact hf.inp
  · intro k hk
    rw [evaluateBlock_inp he]
    exact hf.inp k hk

theorem Above.evaluateNext {rt : List Nat} {s s' : St α} {r : Option Nat} (h : evaluateNext W rt s = .ok (s', r)) :
    Above s s' := by
  unfold Wkf.evaluateNext at h
  rw [bind_ok] at h
  obtain ⟨s1, h1, h⟩ := h
  split at h
  · simp only [Except.ok.injEq, Prod.mk.injEq] at h
    rw [← h.1]; exact (activateInputs_frame h1).inp
  · rw [bind_ok] at h
    obtain ⟨⟨s2, q⟩, h2, h⟩ := h
    simp only [Except.ok.injEq, Prod.mk.injEq] at h
    rw [← h.1]
    exact fun k hk => Above.blockEvaluation h2 k ((activateInputs_frame h1).inp k hk)

theorem Above.continueRun {rt : List Nat} {n : Nat} {s s' : St α} (h : continueRun W rt n s = .ok (some s')) : Above s s' :=
  (continueRun_inv (P := Above s) (fun _ _ hs ha k hk => (activateInputs_frame ha).inp k (hs k hk))
    (fun _ _ _ _ _ hs hb k hk => Above.blockEvaluation hb k (hs k hk)) n s s' (fun _ h => h) h).1

theorem Above.branchStep (l : List Nat) (s s' : St α) (h : branchStep W l s = .ok s') : Above s s' := by
  induction l generalizing s with
  | nil =>
    simp only [Wkf.branchStep, Except.ok.injEq] at h
    subst h; exact fun _ h => h
  | cons i l ih =>
    rw [Wkf.branchStep, bind_ok] at h
    obtain ⟨⟨s1, ys⟩, h1, h2⟩ := h
    intro k hk
    exact ih s1 h2 k (by rw [evaluateBlock_inp h1]; exact hk)

theorem Above.branchLoop {rt blocks : List Nat} (n : Nat) (d d' : List Nat) (s s' : St α)
    (h : branchLoop W rt blocks n d s = .ok (s', d')) : Above s s' := by
  induction n generalizing d s with
  | zero =>
    simp only [Wkf.branchLoop, Except.ok.injEq, Prod.mk.injEq] at h
    rw [← h.1]; exact fun _ h => h
  | succ n ih =>
    rw [Wkf.branchLoop] at h
    split at h
    · simp only [Except.ok.injEq, Prod.mk.injEq] at h
      rw [← h.1]; exact fun _ h => h
    · rw [bind_ok] at h
      obtain ⟨s1, h1, h2⟩ := h
      exact fun k hk => ih _ s1 h2 k (Above.branchStep _ _ _ h1 k hk)

theorem Above.evaluateBranch {rt blocks : List Nat} {d' : List Nat} {s s' : St α}
    (h : evaluateBranch W rt blocks s = .ok (s', d')) : Above s s' := by
  unfold Wkf.evaluateBranch at h
  rw [bind_ok] at h
  obtain ⟨s1, h1, h⟩ := h
  split at h
  · exact fun k hk => Above.branchLoop _ _ _ _ _ h k ((activateInputs_frame h1).inp k hk)
  · simp at h

/-- A state agrees with the values of the inputs which were given. -/
theorem Reached.restrict (hw : WellFormed W) {s : St α} (h : Reached W V s) (U : Nat → Option α)
    (hU : ∀ k v x, (inputs W)[k]? = some v → s.inputValues k = some x → U k = some x) : Reached W U s := by
  have key : ∀ {s s' : St α}, Reached W V s → Reached W V s' → Above s s' →
      (∀ k v x, (inputs W)[k]? = some v → s'.inputValues k = some x → U k = some x) →
      ∀ k v x, (inputs W)[k]? = some v → s.inputValues k = some x → U k = some x := by
    intro s s' hs hs' ha hu k v x hk hx
    obtain ⟨y, hy⟩ := Option.isSome_iff_exists.1 (ha k (by rw [hx]; rfl))
    have e1 := (hs.good hw).iv k v x hk (by rw [hx]; rfl)
    have e2 := (hs'.good hw).iv k v y hk (by rw [hy]; rfl)
    rw [e1] at e2
    cases e2
    exact hu k v x hk hy
  induction h with
  | @start vals s hV hs =>
    refine .start (fun k v x hk hx => hU k v x hk ?_) hs
    rw [(activateInputs_inp hw hs).1 k v hk]
    rcases hx with hx | ⟨hx, hd⟩
    · show (vals k <|> _) = _
      rw [hx]; rfl
    · show (vals k <|> _) = _
      rw [hx, hd]; rfl
  | @give s s' k v x h0 hk hx hs ih =>
    refine .give (ih (key h0 (.give h0 hk hx hs) (activateInput_frame hs).inp hU)) hk ?_ hs
    refine hU k v x hk ?_
    have he : inputIndex W v = some k := inputIndex_input hw.distinct hk (hw.input_free (List.mem_of_getElem? hk))
    rw [(activateInput_pushed hs).inp]
    unfold noteInput
    rw [he]
    simp [upd]
  | activate h0 hs ih => exact .activate (ih (key h0 (.activate h0 hs) (activateInputs_frame hs).inp hU)) hs
  | block h0 hs ih => exact .block (ih (key h0 (.block h0 hs) (Above.blockEvaluation hs) hU)) hs
  | next h0 hs ih => exact .next (ih (key h0 (.next h0 hs) (Above.evaluateNext hs) hU)) hs
  | branch h0 hs ih => exact .branch (ih (key h0 (.branch h0 hs) (Above.evaluateBranch hs) hU)) hs
  | «continue» h0 hs ih => exact .continue (ih (key h0 (.continue h0 hs) (Above.continueRun hs) hU)) hs

theorem Reached.resumed {s : St α} (h : Reached W V s) : Resumed C file V W W s := by
  induction h with
  | start h hs => exact .start h hs
  | give _ hk hx h ih => exact .give ih hk hx h
  | activate _ h ih => exact .activate ih h
  | block _ h ih => exact .block ih h
  | next _ h ih => exact .next ih h
  | branch _ h ih => exact .branch ih h
  | «continue» _ h ih => exact .continue ih h

/-! ### The restored state -/

theorem activateInputsLoop_out (hw : WellFormed W) {c : Bool} (l : List Nat) (k : Nat)
    (hl : ∀ n v, l[n]? = some v → (inputs W)[k + n]? = some v) (s s' : St α)
    (h : activateInputsLoop W c k l s = .ok s') :
    s'.outputValue = s.outputValue ∨ ∃ m v, (inputs W)[m]? = some v ∧ FlowOut W v ∧ (s'.inputValues m).isSome := by
  induction l generalizing k s with
  | nil =>
    simp only [Wkf.activateInputsLoop, Except.ok.injEq] at h
    subst h; exact .inl rfl
  | cons v l ih =>
    rw [Wkf.activateInputsLoop, bind_ok] at h
    obtain ⟨s1, h1, h2⟩ := h
    have hf := activateInputsLoop_frame _ _ _ _ h2
    have hk : (inputs W)[k]? = some v := hl 0 v rfl
    rcases ih (k + 1) (fun n v hn => by rw [show k + 1 + n = k + (n + 1) by omega]; exact hl (n + 1) v (by simpa using hn))
      s1 h2 with h3 | h3
    · have key : ∀ x, activateInput W s v x = .ok s1 → s'.outputValue = s.outputValue ∨
          ∃ m v, (inputs W)[m]? = some v ∧ FlowOut W v ∧ (s'.inputValues m).isSome := by
        intro x hx
        have hp := activateInput_pushed hx
        have he : inputIndex W v = some k := inputIndex_input hw.distinct hk (hw.input_free (List.mem_of_getElem? hk))
        have e : (noteInput W s v x).outputValue = s.outputValue := by unfold noteInput; split <;> rfl
        have e2 : (noteInput W s v x).inputValues = upd s.inputValues k (some x) := by unfold noteInput; rw [he]
        by_cases ho : FlowOut W v
        · exact .inr ⟨k, v, hk, ho, hf.inp k (by rw [hp.inp, e2]; simp [upd])⟩
        · rw [h3, hp.outOut ho, e]; exact .inl rfl
      unfold activateOne at h1
      split at h1
      · exact key _ h1
      · split at h1
        · exact key _ h1
        · split at h1
          · simp at h1
          · split at h1
            · simp at h1
            · simp only [Except.ok.injEq] at h1
              subst h1; exact .inl h3
    · exact .inr h3

/-- Restoring a state whose inputs were activated, none of them for a file, gives it back, but for values of pipes. -/
theorem Restored.state (hw : WellFormed W) (hR : Renamed ρ W W') {s r s' : St α} (hI : Fair W V s)
    (hf : ∀ k, file k = true → s.inputValues k = none) (h : Restored C file W s ρ r) (hs : activateInputs W' false r = .ok s') :
    (∀ k, k < (inputs W).length → s'.inputValues k = s.inputValues k) ∧
    (∀ v ∈ allVariables W, s'.actVar (ρ v) = s.actVar v) ∧
    (∀ i, i < W.blocks.length → s'.actBlock i = s.actBlock i) ∧ s'.evaluated = s.evaluated ∧
    s'.outputValue = s.outputValue := by
  have hw' := hR.wf hw
  have hfr := activateInputs_frame hs
  have hr0 := h.held hR hI.kept (fun k v hk _ => .inr (hf k hk))
  have hri : ∀ k, r.inputValues k = s.inputValues k := by
    intro k
    rw [h.inp]
    cases hk : file k with
    | false => simp
    | true => simp [hf k hk]
  have hin : ∀ k v, (inputs W)[k]? = some v → s'.inputValues k = s.inputValues k := by
    intro k v hk
    have hk' : (inputs W')[k]? = some (ρ v) := by rw [hR.inputs, List.getElem?_map, hk]; rfl
    rw [(activateInputs_inp hw' hs).1 k _ hk', hri, hR.default v (mem_inputs.1 (List.mem_of_getElem? hk)).1]
    cases hx : s.inputValues k with
    | some x => rfl
    | none =>
      cases hd : W.default v with
      | none => rfl
      | some y =>
        have := hI.loaded.dflt k v hk (by rw [hd]; rfl)
        rw [hx] at this
        simp at this
  have hback : ∀ v ∈ allVariables W, r.actVar (ρ v) = true → s.actVar v = true := by
    intro v hv hr
    obtain ⟨u, hu, he, ha⟩ := (h.var _).1 hr
    rw [hR.inj v hv u hu he]
    exact ha
  refine ⟨fun k hk => hin k ((inputs W)[k]) (by simp [hk]), fun v hv => ?_, fun i hi => ?_, by rw [hfr.ev, h.ev], ?_⟩
  · rw [Bool.eq_iff_iff]
    constructor
    · intro ha
      rcases activateInputs_var hw' hs (ρ v) ha with hr | ⟨m, u, hm, hfl, hx⟩
      · exact hback v hv hr
      · rw [hR.inputs, List.getElem?_map, Option.map_eq_some_iff] at hm
        obtain ⟨w, hm, rfl⟩ := hm
        have hwm := (mem_inputs.1 (List.mem_of_getElem? hm)).1
        rw [hin m w hm] at hx
        obtain ⟨v', hv', he, hfl'⟩ := hR.flow_back hwm hfl
        have := hR.inj v hv v' hv' he
        subst this
        obtain ⟨y, -, h2, -⟩ := hI.kept.var w (hI.loaded.act m w hm hx)
        exact h2 _ hfl'
    · intro ha
      exact hfr.var _ ((h.var _).2 ⟨v, hv, rfl, ha⟩)
  · rw [hfr.blk, Bool.eq_iff_iff, h.blk]
    simp [hi]
  · rcases activateInputsLoop_out hw' _ 0 (fun n v hn => by rw [Nat.zero_add]; exact hn) _ _ hs with h1 | ⟨m, u, hm, hfl, hx⟩
    · rw [h1, h.out]
    · have hr := (hr0.activateInputs hw' hs).1
      obtain ⟨o', ho', hfl⟩ := hfl
      rw [hR.inputs, List.getElem?_map, Option.map_eq_some_iff] at hm
      obtain ⟨w, hm, rfl⟩ := hm
      rw [hR.output, Option.map_eq_some_iff] at ho'
      obtain ⟨o, ho, rfl⟩ := ho'
      have hwm := (mem_inputs.1 (List.mem_of_getElem? hm)).1
      rw [hin m w hm] at hx
      have hact := hI.loaded.act m w hm hx
      obtain ⟨o2, ho2, he, hfl'⟩ := hR.flow_back hwm hfl
      have := hR.inj o (hR.outVar o ho) o2 ho2 he
      subst this
      obtain ⟨y, hd, -, h3⟩ := hI.kept.var w hact
      rw [h3 o ho hfl']
      obtain ⟨z, hz, -, h4⟩ := hr.var (ρ w) (hfr.var _ ((h.var _).2 ⟨w, hwm, rfl, hact⟩))
      rw [h4 (ρ o) (by rw [hR.output, ho]; rfl) (hR.flow hfl')]
      rw [((hR.den hwm).1 hz).unique hw hd]

/-! ### C107: a run which is saved and restored on the way -/

/-- Whatever the times at which a run is saved and restored, the values on its pipes and its output are those which must be
computed from the inputs of the first workflow, `ρ` giving the variables of the workflow which was read in their place. -/
theorem C107_values (hC : C.Sound) {W₀ : Workflow α} (hw : WellFormed W₀)
    (ho : ∀ o, W₀.output = some o → o ∈ allVariables W₀) {s : St α} (h : Resumed C file V W₀ W s) :
    ∃ ρ, Renamed ρ W₀ W ∧ (∀ j p x, W₀.pipes[j]? = some p → s.values j = some x → Den W₀ V p.input x) ∧
      (∀ k x v, (inputs W₀)[k]? = some v → s.inputValues k = some x → V k = some x) ∧
      (∀ x, s.outputValue = some x → ∃ o, W₀.output = some o ∧ Den W₀ V o x) ∧
      ∀ v ∈ allVariables W₀, s.actVar (ρ v) = true → ∃ x, Den W₀ V v x ∧ (W₀.output = some v → s.outputValue = some x) := by
  obtain ⟨ρ, hR, hI⟩ := h.fair hC hw ho
  refine ⟨ρ, hR, fun j p x hp hx => ?_, fun k x v hk hx => ?_, fun x hx => ?_, fun v hv ha => ?_⟩
  · exact (hR.den (Renamed.pipeVar (List.mem_of_getElem? hp)).1).1 (hI.kept.val j _ x (hR.pipe hp) hx)
  · exact hI.kept.iv k (ρ v) x (by rw [hR.inputs, List.getElem?_map, hk]; rfl) (by rw [hx]; rfl)
  · obtain ⟨o', ho', hd⟩ := hI.kept.out x hx
    rw [hR.output, Option.map_eq_some_iff] at ho'
    obtain ⟨o, ho', rfl⟩ := ho'
    exact ⟨o, ho', (hR.den (ho o ho')).1 hd⟩
  · obtain ⟨x, hd, -, h3⟩ := hI.kept.var _ ha
    exact ⟨x, (hR.den hv).1 hd, fun hv' => h3 (ρ v) (by rw [hR.output, hv']; rfl) .refl⟩

theorem Renamed.feeds (hR : Renamed ρ W W') {i j : Nat} (h : Feeds W j i) : Feeds W' j i := by
  obtain ⟨b, c, p, hb, hc, hp, h1, h2⟩ := h
  obtain ⟨n, hn⟩ := List.getElem?_of_mem hp
  exact ⟨_, _, _, hR.block hb, hR.block hc, List.mem_of_getElem? (hR.pipe hn), List.mem_map_of_mem h1, List.mem_map_of_mem h2⟩

theorem Renamed.feeds_back (hR : Renamed ρ W W') {i j : Nat} (h : Feeds W' j i) : Feeds W j i := by
  obtain ⟨b', c', q, hb, hc, hq, h1, h2⟩ := h
  obtain ⟨n, hn⟩ := List.getElem?_of_mem hq
  obtain ⟨b, hb1, rfl⟩ := hR.block_back hb
  obtain ⟨c, hc1, rfl⟩ := hR.block_back hc
  obtain ⟨p, hp, rfl⟩ := hR.pipe_back hn
  have hpm := List.mem_of_getElem? hp
  obtain ⟨u, hu, e1⟩ := List.mem_map.1 h1
  obtain ⟨w, hv, e2⟩ := List.mem_map.1 h2
  have e1 := hR.inj u (Renamed.blockVar (List.mem_of_getElem? hb1) (.inl hu)) _ (Renamed.pipeVar hpm).2 e1
  have e2 := hR.inj w (Renamed.blockVar (List.mem_of_getElem? hc1) (.inr hv)) _ (Renamed.pipeVar hpm).1 e2
  subst e1 e2
  exact ⟨b, c, p, hb1, hc1, hpm, hu, hv⟩

theorem Renamed.outputOf (hR : Renamed ρ W W') {i : Nat} : OutputOf W' i ↔ OutputOf W i := by
  constructor
  · rintro ⟨b', o', hb, ho, hm⟩
    obtain ⟨b, hb1, rfl⟩ := hR.block_back hb
    rw [hR.output, Option.map_eq_some_iff] at ho
    obtain ⟨o, ho, rfl⟩ := ho
    obtain ⟨u, hu, e⟩ := List.mem_map.1 hm
    have e := hR.inj u (Renamed.blockVar (List.mem_of_getElem? hb1) (.inr hu)) _ (hR.outVar o ho) e
    subst e
    exact ⟨b, u, hb1, ho, hu⟩
  · rintro ⟨b, o, hb, ho, hm⟩
    exact ⟨_, ρ o, hR.block hb, by rw [hR.output, ho]; rfl, List.mem_map_of_mem hm⟩

theorem Renamed.leads (hR : Renamed ρ W W') {i : Nat} : Leads W' i ↔ Leads W i := by
  constructor
  · intro h
    induction h with
    | output h => exact .output (hR.outputOf.1 h)
    | feeds _ h ih => exact .feeds ih (hR.feeds_back h)
  · intro h
    induction h with
    | output h => exact .output (hR.outputOf.2 h)
    | feeds _ h ih => exact .feeds ih (hR.feeds h)

theorem Kept.same_output {N N' : Nat → Prop} (hw : WellFormed W) (hR : Renamed ρ W W') {s t : St α} (hs : Kept W V N s)
    (ht : Kept W' V N' t) {i : Nat} (ho : OutputOf W i) (has : s.actBlock i = true) (hat : t.actBlock i = true) :
    t.outputValue = s.outputValue := by
  obtain ⟨b, o, hb, ho, hm⟩ := ho
  apply Option.ext
  intro x
  rw [ht.output_iff (hR.wf hw) (hR.block hb) (by rw [hR.output, ho]; rfl) (List.mem_map_of_mem hm) hat,
    hs.output_iff hw hb ho hm has, hR.den (hR.outVar o ho)]

/-- A run which was saved and restored on the way, and in which all the blocks which lead to the output were evaluated, has
the result of an uninterrupted run with the same inputs. -/
theorem C107_result (hC : C.Sound) {W₀ : Workflow α} (hw : WellFormed W₀) (hl : LocksOk W₀) {i : Nat} (ho : OutputOf W₀ i)
    {so : SetOrder} {user : List (Nat × α)} {t s : St α} (ht : run W₀ so user = .ok (some t))
    (h : Resumed C file (expected W₀ user) W₀ W s) (hs : ∀ i, Leads W₀ i → s.actBlock i = true) :
    s.outputValue = t.outputValue := by
  have hov : ∀ o, W₀.output = some o → o ∈ allVariables W₀ := by
    obtain ⟨b, o', hb, ho', hm⟩ := ho
    intro o h
    rw [ho'] at h
    cases h
    exact Renamed.blockVar (List.mem_of_getElem? hb) (.inr hm)
  obtain ⟨ρ, hR, hI⟩ := h.fair hC hw hov
  obtain ⟨σ, hS, hJ⟩ := ((run_reached ht).resumed (C := C) (file := file)).fair hC hw hov
  have hat : t.actBlock i = true := by
    obtain ⟨vals, s0, s1, rt, h1, h2, h3, h4, s', h5, h6, h7⟩ := run_ok ht
    cases h7
    obtain ⟨rt', hrt', -, hm'⟩ := runtimeBlocks_spec hw hl so ho
    rw [h4] at hrt'
    cases hrt'
    exact (progress_one (runtimeBlocks_ne h4)).1 h6 i ((hm' i).2 (.output ho))
  exact Kept.same_output hw hR hJ.kept hI.kept ho hat (hs i (.output ho))

/-- A state which holds no value for the inputs of files, once saved, can be restored.  The restored state has the values of
the inputs, the output, the active variables and blocks and the evaluated blocks of the original; the values on its pipes are
those of the original, and those which could be saved are there. -/
theorem C107_restored (hC : C.Sound) {W₀ : Workflow α} (hw₀ : WellFormed W₀)
    (ho : ∀ o, W₀.output = some o → o ∈ allVariables W₀) {s : St α} (h : Resumed C file V W₀ W s) {keys : List Nat}
    (hk : ∀ k, k ∈ keys ↔ (s.inputValues k).isSome) (hf : ∀ k, file k = true → s.inputValues k = none) {d : StD J}
    (hs : saveState C W file keys s = .ok d) (hR : Renamed ρ W W') (hl : LocksOk W') :
    ∃ s', loadState C W' d = .ok s' ∧ (∀ k, k < (inputs W).length → s'.inputValues k = s.inputValues k) ∧
      s'.outputValue = s.outputValue ∧ (∀ v ∈ allVariables W, s'.actVar (ρ v) = s.actVar v) ∧
      (∀ i, i < W.blocks.length → s'.actBlock i = s.actBlock i) ∧ s'.evaluated = s.evaluated ∧
      (∀ j p x y, W.pipes[j]? = some p → s.values j = some x → s'.values j = some y → y = x) ∧
      ∀ j p x, W.pipes[j]? = some p → s.values j = some x → Stored C p x → s'.values j = some x := by
  obtain ⟨σ, hS, hI⟩ := h.fair hC hw₀ ho
  have hw := hS.wf hw₀
  obtain ⟨r, hr, he⟩ := saved_loads hC hw hR hk hI.kept.ev hs
  obtain ⟨s', hs'⟩ := activateInputs_total (hR.wf hw) hl r
  obtain ⟨h1, h2, h3, h4, h5⟩ := hr.state hw hR hI hf hs'
  have hK := ((hr.held hR hI.kept (fun k v hk _ => .inr (hf k hk))).activateInputs (hR.wf hw) hs').1
  have hval : ∀ j p x y, W.pipes[j]? = some p → s.values j = some x → s'.values j = some y → y = x := by
    intro j p x y hp hx hy
    have h6 := hK.val j _ y (hR.pipe hp) hy
    exact ((hR.den (Renamed.pipeVar (List.mem_of_getElem? hp)).1).1 h6).unique hw (hI.kept.val j p x hp hx)
  refine ⟨s', by rw [he]; exact hs', h1, h5, h2, h3, h4, hval, fun j p x hp hx hst => ?_⟩
  obtain ⟨y, hy⟩ := Option.isSome_iff_exists.1 ((activateInputs_frame hs').val j (by rw [hr.kept j p x hp hx hst]; rfl))
  rw [hy, hval j p x y hp hx hy]

/-- The workflow where the pipe of index `j` is memorized when `m j` holds: workflow/core.py 436-438, 464-468, 929-934. -/
def memo (m : Nat → Bool) (G : Workflow α) : Workflow α :=
  { G with pipes := G.pipes.mapIdx fun j p => { p with memorize := m j } }

theorem mem_memo_vars {m : Nat → Bool} {G : Workflow α} {v : Nat} : v ∈ allVariables (memo m G) ↔ v ∈ allVariables G := by
  rw [mem_allVariables, mem_allVariables]
  have hb : blockVars (memo m G) = blockVars G := rfl
  refine or_congr (by rw [hb]) ?_
  constructor
  · rintro ⟨p, hp, h⟩
    simp only [memo, List.mem_mapIdx] at hp
    obtain ⟨i, hi, rfl⟩ := hp
    exact ⟨_, List.getElem_mem hi, h⟩
  · rintro ⟨p, hp, h⟩
    obtain ⟨i, hi, rfl⟩ := List.mem_iff_getElem.1 hp
    exact ⟨_, List.mem_mapIdx.2 ⟨i, hi, rfl⟩, h⟩

/-- The workflow read from the dict of a workflow is the workflow with other variables, as the theorems above ask, provided
that the same pipes are memorized: the constructor of the workflow and the look-up of secondary branches do it from the
blocks and the pipes only. -/
theorem C107_workflow {κ τ δ K : Type} [Inhabited τ] {w : World κ τ α δ K} (hrt : ∀ a, w.des (w.ser a) = a) {s : Store τ α}
    {W : Wf κ δ} (hb : Built w s W) (hfree : ∀ v, VarOf W v → ¬ PortOf W v → (look s v).lockFlag = false)
    (htype : ∀ p ∈ W.pipes, ¬ PortOf W p.1 → (look s p.1).type = (look s p.2).type)
    (hidx : ∀ t ∈ W.steps, t.display = none → t.displayIdx = none) (m : Nat → Bool) :
    ∃ d W' s' ρ, toDict w s W = .ok d ∧ ofDict w s d = .ok (W', s') ∧
      Renamed ρ (memo m (skel w s W)) (memo m (skel w s' W')) := by
  obtain ⟨d, W', s', ρ, h1, h2, hr, hlook, -⟩ := C36_partial hrt hb hfree htype hidx
  have hmem : ∀ v, v ∈ allVariables (memo m (skel w s W)) ↔ VarOf W v := fun v => by
    rw [mem_memo_vars, mem_allVariables_skel w s W]
  have hren := hr.ren (w := w) (s := s) (s' := s')
  refine ⟨d, W', s', ρ, h1, h2, ⟨⟨hren.1, ?_⟩, fun u hu v hv he => hr.inj u v ((hmem u).1 hu) ((hmem v).1 hv) he, fun o ho => ?_,
    hr.output, fun v hv => ?_⟩⟩
  · simp only [memo]
    rw [hren.2]
    apply List.ext_getElem?
    intro i
    simp only [List.getElem?_mapIdx, List.getElem?_map, Option.map_map]
    rfl
  · obtain ⟨b, hb', ho'⟩ := hb.output o ho
    exact (hmem o).2 (.inl ⟨b, hb', .inr ho'⟩)
  · show (look s' (ρ v)).default = (look s v).default
    rw [hlook v ((hmem v).1 hv)]

/-- The value of variable `v` is not lost when the state is saved: if it comes through a pipe,
this pipe starts at an input of the workflow or its value is saved.  Used in proofs only (no code). -/
def Recoverable (C : Codec α J) (W : Workflow α) (s : St α) (v : Nat) : Prop :=
  ∀ j p, W.pipes[j]? = some p → p.output = v → p.input ∈ inputs W ∨ ∃ x, s.values j = some x ∧ Stored C p x

/-- A saved state which tells a value for a pipe that the workflow does not have is refused. -/
theorem C107_pipe {W : Workflow α} {d : StD J} {k : Nat} {x : J} (hk : (k, x) ∈ d.values) (hp : W.pipes.length ≤ k) :
    ∃ e, loadState C W d = .error e := by
  have key : ∀ l : List (Nat × J), (k, x) ∈ l → ∃ e, loadPipes C W l = .error e := by
    intro l
    induction l with
    | nil => simp
    | cons y l ih =>
      intro hm
      obtain ⟨n, j⟩ := y
      simp only [loadPipes]
      by_cases hn : n < W.pipes.length
      · rw [if_pos hn]
        have hl : (k, x) ∈ l := by
          rcases List.mem_cons.1 hm with e | hl
          · cases e; omega
          · exact hl
        obtain ⟨e, he⟩ := ih hl
        cases C.des j with
        | error e' => exact ⟨e', rfl⟩
        | ok v => exact ⟨e, by rw [he]; rfl⟩
      · rw [if_neg hn]
        exact ⟨_, rfl⟩
  obtain ⟨e, he⟩ := key _ hk
  unfold loadState
  cases loadOutput C d.outputValue with
  | error e' => exact ⟨e', rfl⟩
  | ok o => exact ⟨e, by rw [he]; rfl⟩

/-- Saving a run on the way and continuing what was restored gives the result, when the values which the blocks left to
evaluate already received are saved and no input is a file.  Missing: the values on pipes which are not memorized are lost
(`C107_violated`), and so are files (`C107_file_violated`). -/
theorem C107_partial (hC : C.Sound) (hw : WellFormed W) (hl : LocksOk W) {o : Nat} (ho : OutputOf W o) {s t : St α}
    (h : Reached W V s) {so so' : SetOrder} {rt : List Nat} {n : Nat} (hrt : runtimeBlocks W so = .ok rt)
    (ht : continueRun W rt n s = .ok (some t)) (hp : progress rt t = 1) {keys : List Nat}
    (hk : ∀ k, k ∈ keys ↔ (s.inputValues k).isSome) (hf : ∀ k, file k = true → s.inputValues k = none) {d : StD J}
    (hs : saveState C W file keys s = .ok d) (hR : Renamed ρ W W') (hl' : LocksOk W')
    (hmem : ∀ i ∈ rt, s.actBlock i = false → ∀ b, W.blocks[i]? = some b → ∀ v ∈ b.inputs, s.actVar v = true →
      Recoverable C W s v) :
    ∃ s' rt' t', loadState C W' d = .ok s' ∧ runtimeBlocks W' so' = .ok rt' ∧
      continueRun W' rt' (W'.blocks.length + 1) s' = .ok (some t') ∧ progress rt' t' = 1 ∧ t'.outputValue = t.outputValue := by
  have h := h.restrict hw s.inputValues (fun _ _ _ _ h => h)
  have hov : ∀ o, W.output = some o → o ∈ allVariables W := hR.outVar
  obtain ⟨-, -, hI⟩ := (h.resumed (C := C) (file := file)).fair hC hw hov
  obtain ⟨-, -, hT⟩ := ((Reached.continue h ht).resumed (C := C) (file := file)).fair hC hw hov
  have hG := h.good hw
  obtain ⟨rt0, hrt0, -, hm⟩ := runtimeBlocks_spec hw hl so ho
  rw [hrt] at hrt0
  cases hrt0
  have hw' := hR.wf hw
  obtain ⟨rt', hrt', -, hm'⟩ := runtimeBlocks_spec hw' hl' so' (hR.outputOf.2 ho)
  have hmm : ∀ i, i ∈ rt' ↔ i ∈ rt := fun i => by rw [hm', hm, hR.leads]
  have hact : ∀ i ∈ rt, t.actBlock i = true := (progress_one (runtimeBlocks_ne hrt)).1 hp
  obtain ⟨r, hr, he⟩ := saved_loads hC hw hR hk hI.kept.ev hs
  obtain ⟨s', hs'⟩ := activateInputs_total hw' hl' r
  obtain ⟨h1, h2, h3, h4, h5⟩ := hr.state hw hR hI hf hs'
  obtain ⟨hK, hgiv⟩ := (hr.held hR hI.kept (fun k v hk _ => .inr (hf k hk))).activateInputs hw' hs'
  have hfr := activateInputs_frame hs'
  have hri : ∀ k, r.inputValues k = s.inputValues k := by
    intro k
    rw [hr.inp]
    cases hk : file k with
    | false => simp
    | true => simp [hf k hk]
  -- the values which the blocks left need
  let N : Nat → Prop := fun u => ∃ i ∈ rt, s.actBlock i = false ∧ ∃ b, W.blocks[i]? = some b ∧ ∃ v ∈ b.inputs, u = ρ v
  have hK' : Kept W' s.inputValues N s' := { hK with
    fed := by
      rintro u j ⟨i, hi, hai, b, hb, v, hv, rfl⟩ ha hj
      have hvm := Renamed.blockVar (List.mem_of_getElem? hb) (.inl hv) (W := W)
      rw [h2 v hvm] at ha
      rw [hR.inputPipe hvm] at hj
      obtain ⟨p, x, hp, hx, hpa⟩ := hG.fed v j ha hj
      have hpo : p.output = v := by
        have := inputPipe_some hj
        obtain ⟨q, hq, e⟩ := this
        rw [hp] at hq
        cases hq
        exact e
      rcases hmem i hi hai b hb v hv ha j p hp hpo with hin | ⟨y, hy, hst⟩
      · obtain ⟨k, hk⟩ := List.getElem?_of_mem hin
        obtain ⟨y, hy⟩ := hG.fedIn k p.input hk hpa
        have hk' : (inputs W')[k]? = some (ρ p.input) := by rw [hR.inputs, List.getElem?_map, hk]; rfl
        exact (hgiv k _ hk' (.inl (by rw [hri, hy]; rfl))).2.2 j _ (hR.pipe hp) .refl
      · exact hfr.val j (by rw [hr.kept j p y hp hy hst]; rfl)
    fedIn := by
      rintro k u ⟨i, hi, hai, b, hb, v, hv, rfl⟩ hku ha
      have hvm := Renamed.blockVar (List.mem_of_getElem? hb) (.inl hv) (W := W)
      rw [h2 v hvm] at ha
      rw [hR.inputs, List.getElem?_map, Option.map_eq_some_iff] at hku
      obtain ⟨w, hw2, e⟩ := hku
      have := hR.inj w (mem_inputs.1 (List.mem_of_getElem? hw2)).1 v hvm e
      subst this
      obtain ⟨y, hy⟩ := hG.fedIn k w hw2 ha
      exact hfr.inp k (by rw [hri, hy]; rfl) }
  have hlt : ∀ i ∈ rt', i < W'.blocks.length := by
    intro i hi
    obtain ⟨b, -, -, hb, -⟩ := hT.kept.blk i (hact i ((hmm i).1 hi))
    exact (List.getElem?_eq_some_iff.1 (hR.block hb)).1
  have hevals : EvalsOk W' s.inputValues rt' := by
    intro i hi c xs hc hx hd
    obtain ⟨b, xs', ys, hb, e2, e3, e4, -, -⟩ := hT.kept.blk i (hact i ((hmm i).1 hi))
    have hc' := hR.block hb
    rw [hc] at hc'
    cases hc'
    have : xs = xs' := by
      refine den_list hw' hx (by simpa using e2) hd (fun vx hvx => ?_)
      simp only [List.zip_map_left] at hvx
      obtain ⟨ux, hux, rfl⟩ := List.mem_map.1 hvx
      exact (hR.den (Renamed.blockVar (List.mem_of_getElem? hb) (.inl (List.of_mem_zip hux).1))).2 (e3 ux hux)
    subst this
    exact ⟨ys, e4⟩
  have hneeds : Needs W' rt' N s' := by
    intro i hi ha c hc u hu
    obtain ⟨b, hb, rfl⟩ := hR.block_back hc
    obtain ⟨v, hv, rfl⟩ := List.mem_map.1 hu
    exact ⟨i, (hmm i).1 hi, by rw [← h3 i (List.getElem?_eq_some_iff.1 hb).1]; exact ha, b, hb, v, hv, rfl⟩
  obtain ⟨t', ht'⟩ := hK'.continueRun_total hw' hl' hevals hlt s' hneeds
  have hinv := continueRun_inv (P := fun q => Kept W' s.inputValues N q ∧ ∀ v, s'.actVar v = true → q.actVar v = true)
    (fun q q' hs ha => ⟨(hs.1.activateInputs hw' ha).1, fun v hv => (activateInputs_frame ha).var v (hs.2 v hv)⟩)
    (fun q q' i r _ hs hb => ⟨Kept.blockEvaluation hw' hs.1 hb, fun v hv => by
      obtain ⟨s1, -, hf, ⟨-, rfl, -⟩ | ⟨-, -, ys, -, hstep⟩⟩ := blockEvaluation_ok hb
      · exact hf.var v (hs.2 v hv)
      · exact hstep.var v (hf.var v (hs.2 v hv))⟩) _ _ _
    ⟨hK', fun _ h => h⟩ ht'
  have hall : ∀ i ∈ rt', t'.actBlock i = true := by
    intro i hi
    obtain ⟨b, xs', ys, hb, e2, e3, e4, e5, -⟩ := hT.kept.blk i (hact i ((hmm i).1 hi))
    refine hinv.1.1.complete hw' (fun k u hku hx => ?_) (fun i hi j hj => (hm' j).2 (.feeds ((hm' i).1 hi) hj)) hinv.2 hi
      (hR.block hb) (fun u hu => ?_)
    · rw [hR.inputs, List.getElem?_map, Option.map_eq_some_iff] at hku
      obtain ⟨v, hv, rfl⟩ := hku
      exact hinv.1.2 _ (by rw [h2 v (mem_inputs.1 (List.mem_of_getElem? hv)).1]; exact hI.loaded.act k v hv hx)
    · obtain ⟨v, hv, rfl⟩ := List.mem_map.1 hu
      obtain ⟨x, hx, -⟩ := hT.kept.var v (e5 v hv)
      exact ⟨x, (hR.den (Renamed.blockVar (List.mem_of_getElem? hb) (.inl hv))).2 hx⟩
  have ho' := (hm o).2 (.output ho)
  exact ⟨s', rt', t', by rw [he]; exact hs', hrt', ht', (progress_one (runtimeBlocks_ne hrt')).2 hall,
    Kept.same_output hw hR hT.kept hinv.1.1 ho (hact o ho') (hall o ((hmm o).2 ho'))⟩

end

/-! ### Examples and counterexamples -/

/-- Numbers are written as they are.  Used in proofs only (no code). -/
def intCodec : Codec Int Int := ⟨.ok, .ok, fun _ => false, fun _ => .ok ()⟩

theorem intCodec_sound : intCodec.Sound := fun x j h => by
  simp only [intCodec, Except.ok.injEq] at h ⊢
  exact h.symm

/-- The example with a memorized pipe to the block of the output. -/
def exM : Workflow Int := { exW with pipes := [⟨2, 3, true⟩, ⟨10, 1, false⟩, ⟨2, 5, true⟩] }

theorem exM_wf : WellFormed exM where
  distinct := by decide
  single := by decide
  target := by decide
  source := by decide
  acyclic := ⟨exRank, by decide, by decide⟩

/-- The workflow run with 7, 1 and 5, saved once `add` was evaluated, restored, continued: what was evaluated and the output
before saving, after restoring and at the end, with the error which stopped it if any.  Used in proofs only (no code). -/
def resumedRun (W : Workflow Int) (file : Nat → Bool) : Option (List Nat × List Nat × Option (List Nat × Option Int)) :=
  match startRun W (fun k => [some 7, some 1, some 5].getD k none) with
  | .error _ => none
  | .ok s0 => match blockEvaluation W [0, 1] s0 1 with
    | .error _ => none
    | .ok (s, _) => match saveState intCodec W file [0, 1, 2] s with
      | .error _ => none
      | .ok d => match loadState intCodec W d with
        | .error _ => none
        | .ok s' => match continueRun W [0, 1] 4 s' with
          | .ok (some t) => some (s.evaluated, s'.evaluated, some (t.evaluated, t.outputValue))
          | _ => some (s.evaluated, s'.evaluated, none)

example : resumedRun exM (fun _ => false) = some ([1], [1], some ([1, 0], some 24)) := by decide +kernel

/-- The same state, continued without being saved. -/
example : resumedRun exW (fun _ => false) = some ([1], [1], none) := by decide +kernel

/-- The values given to the inputs of the example. -/
def exV (k : Nat) : Option Int := [some 7, some 1, some 5].getD k none

/-- The inputs which have a value in a state made with values for the three inputs, after some evaluations. -/
theorem ex_keys {W : Workflow Int} (hw : WellFormed W) (hin : (inputs W).length = 3) {V : Nat → Option Int}
    (hV : ∀ k, (V k).isSome ↔ k < 3) {s0 s : St Int} {rt : List Nat} {i : Nat} {r : Bool} (h0 : startRun W V = .ok s0)
    (h1 : blockEvaluation W rt s0 i = .ok (s, r)) (k : Nat) : k ∈ [0, 1, 2] ↔ (s.inputValues k).isSome := by
  have hk : k ∈ [0, 1, 2] ↔ k < 3 := by simp; omega
  have hst : ∀ {c : Bool} {s s' : St Int}, activateInputs W c s = .ok s' → (∀ k, k < 3 ↔ (s.inputValues k).isSome) →
      ∀ k, k < 3 ↔ (s'.inputValues k).isSome := by
    intro c s s' h hs k
    obtain ⟨g1, g2⟩ := activateInputs_inp hw h
    by_cases hlt : k < 3
    · rw [g1 k ((inputs W)[k]'(by omega)) (by simp)]
      obtain ⟨x, hx⟩ := Option.isSome_iff_exists.1 ((hs k).1 hlt)
      rw [hx]
      simp [hlt]
    · rw [g2 k (by omega)]
      exact hs k
  have h2 := hst h0 (fun k => (hV k).symm)
  rw [hk]
  obtain ⟨s1, h3, -, ⟨-, rfl, -⟩ | ⟨-, -, ys, he, -⟩⟩ := blockEvaluation_ok h1
  · exact hst h3 h2 k
  · rw [evaluateBlock_inp he]
    exact hst h3 h2 k

theorem exV_some (k : Nat) : (exV k).isSome ↔ k < 3 := by
  match k with
  | 0 | 1 | 2 => decide
  | k + 3 => simp [exV]

/-- What `C107_violated` asks of the run which is saved after `add`.  Used in proofs only (no code). -/
def lostCheck (W : Workflow Int) : Bool :=
  match startRun W exV with
  | .error _ => false
  | .ok s0 => match blockEvaluation W [0, 1] s0 1 with
    | .error _ => false
    | .ok (s, _) => match saveState intCodec W (fun _ => false) [0, 1, 2] s with
      | .error _ => false
      | .ok d => match loadState intCodec W d with
        | .error _ => false
        | .ok s' => match continueRun W [0, 1] 4 s with
          | .ok (some t) => decide (progress [0, 1] t = 1) && (match continueRun W [0, 1] 4 s' with
            | .error .keyError => true
            | _ => false)
          | _ => false

/-- Violation: the values on pipes which are not memorized are not saved.  A run saved after its first block cannot be
continued once restored (`KeyError`), where the original run continues to its end. -/
theorem C107_violated : ∃ (W : Workflow Int) (V : Nat → Option Int) (s s' t : St Int) (d : StD Int) (rt : List Nat),
    WellFormed W ∧ LocksOk W ∧ OutputOf W 0 ∧ Reached W V s ∧ (∀ k, k ∈ [0, 1, 2] ↔ (s.inputValues k).isSome) ∧
    saveState intCodec W (fun _ => false) [0, 1, 2] s = .ok d ∧ loadState intCodec W d = .ok s' ∧
    runtimeBlocks W dedupOrder = .ok rt ∧ continueRun W rt 4 s = .ok (some t) ∧ progress rt t = 1 ∧
    continueRun W rt 4 s' = .error .keyError := by
  have h : lostCheck exW = true := by decide +kernel
  unfold lostCheck at h
  cases h0 : startRun exW exV with
  | error e => rw [h0] at h; simp at h
  | ok s0 =>
    rw [h0] at h
    cases h1 : blockEvaluation exW [0, 1] s0 1 with
    | error e => simp [h1] at h
    | ok sr =>
      obtain ⟨s, r⟩ := sr
      simp only [h1] at h
      cases h2 : saveState intCodec exW (fun _ => false) [0, 1, 2] s with
      | error e => simp [h2] at h
      | ok d =>
        simp only [h2] at h
        cases h3 : loadState intCodec exW d with
        | error e => simp [h3] at h
        | ok s' =>
          simp only [h3] at h
          cases h4 : continueRun exW [0, 1] 4 s with
          | error e => simp [h4] at h
          | ok o =>
            cases o with
            | none => simp [h4] at h
            | some t =>
              simp only [h4, Bool.and_eq_true, decide_eq_true_eq] at h
              obtain ⟨h5, h6⟩ := h
              refine ⟨exW, exV, s, s', t, d, [0, 1], exW_wf, exW_locks, ⟨_, 4, rfl, rfl, by decide⟩,
                .block (.start (fun k v x hk hx => ?_) h0) h1, ex_keys exW_wf (by decide) exV_some h0 h1, h2, h3, rfl, h4, h5,
                ?_⟩
              · rcases hx with hx | ⟨hx, -⟩
                · exact hx
                · have := (exV_some k).2 (by
                    have := (List.getElem?_eq_some_iff.1 hk).1
                    rw [exW_inputs] at this
                    exact this)
                  rw [hx] at this
                  simp at this
              · cases h7 : continueRun exW [0, 1] 4 s' with
                | ok o => rw [h7] at h6; simp at h6
                | error e => cases e <;> first | rfl | (rw [h7] at h6; simp at h6)

/-- The values given to the inputs of the example, 3 replacing the default value of the first one. -/
def exV3 (k : Nat) : Option Int := [some 3, some 1, some 5].getD k none

theorem exV3_some (k : Nat) : (exV3 k).isSome ↔ k < 3 := by
  match k with
  | 0 | 1 | 2 => decide
  | k + 3 => simp [exV3]

/-- What `C107_file_violated` asks.  Used in proofs only (no code). -/
def fileCheck (W : Workflow Int) : Bool :=
  match startRun W exV3 with
  | .error _ => false
  | .ok s0 => match blockEvaluation W [0, 1] s0 0 with
    | .error _ => false
    | .ok (s, _) => match saveState intCodec W (fun k => k == 0) [0, 1, 2] s with
      | .error _ => false
      | .ok d => match loadState intCodec W d with
        | .error _ => false
        | .ok s' => match continueRun W [0, 1] 4 s with
          | .ok (some t) => match continueRun W [0, 1] 4 s' with
            | .ok (some t') => decide (progress [0, 1] t = 1 ∧ progress [0, 1] t' = 1 ∧ t.outputValue = some 16 ∧
                t'.outputValue = some 24)
            | _ => false
          | _ => false

/-- Violation: the values of the inputs of files are not saved, and the constructor of the restored state gives the input its
default value in their place.  The run ends as if it had been made with the default value. -/
theorem C107_file_violated : ∃ (W : Workflow Int) (V : Nat → Option Int) (s s' t t' : St Int) (d : StD Int) (rt : List Nat),
    WellFormed W ∧ LocksOk W ∧ OutputOf W 0 ∧ Reached W V s ∧ (∀ k, k ∈ [0, 1, 2] ↔ (s.inputValues k).isSome) ∧
    saveState intCodec W (fun k => k == 0) [0, 1, 2] s = .ok d ∧ loadState intCodec W d = .ok s' ∧
    runtimeBlocks W dedupOrder = .ok rt ∧ continueRun W rt 4 s = .ok (some t) ∧ progress rt t = 1 ∧
    continueRun W rt 4 s' = .ok (some t') ∧ progress rt t' = 1 ∧ t.outputValue ≠ t'.outputValue := by
  have h : fileCheck exW = true := by decide +kernel
  unfold fileCheck at h
  cases h0 : startRun exW exV3 with
  | error e => rw [h0] at h; simp at h
  | ok s0 =>
    rw [h0] at h
    cases h1 : blockEvaluation exW [0, 1] s0 0 with
    | error e => simp [h1] at h
    | ok sr =>
      obtain ⟨s, r⟩ := sr
      simp only [h1] at h
      cases h2 : saveState intCodec exW (fun k => k == 0) [0, 1, 2] s with
      | error e => simp [h2] at h
      | ok d =>
        simp only [h2] at h
        cases h3 : loadState intCodec exW d with
        | error e => simp [h3] at h
        | ok s' =>
          simp only [h3] at h
          cases h4 : continueRun exW [0, 1] 4 s with
          | error e => simp [h4] at h
          | ok o =>
            cases o with
            | none => simp [h4] at h
            | some t =>
              simp only [h4] at h
              cases h5 : continueRun exW [0, 1] 4 s' with
              | error e => simp [h5] at h
              | ok o =>
                cases o with
                | none => simp [h5] at h
                | some t' =>
                  simp only [h5, decide_eq_true_eq] at h
                  refine ⟨exW, exV3, s, s', t, t', d, [0, 1], exW_wf, exW_locks, ⟨_, 4, rfl, rfl, by decide⟩,
                    .block (.start (fun k v x hk hx => ?_) h0) h1, ex_keys exW_wf (by decide) exV3_some h0 h1, h2, h3, rfl,
                    h4, h.1, h5, h.2.1, by rw [h.2.2.1, h.2.2.2]; decide⟩
                  rcases hx with hx | ⟨hx, -⟩
                  · exact hx
                  · have := (exV3_some k).2 (by
                      have := (List.getElem?_eq_some_iff.1 hk).1
                      rw [exW_inputs] at this
                      exact this)
                    rw [hx] at this
                    simp at this

/-- A saved state with a value for the pipe 7 of a workflow which has not so many pipes. -/
example : ∃ e, loadState intCodec exW ⟨[], none, [(7, 1)], [], [], [], []⟩ = .error e := C107_pipe (k := 7) (x := 1) (.head _) (by decide)

end DC.Wkf
