import Verif.Workflow.SavedRound
import Verif.Workflow.Props
/- C107: a run which is saved and restored on the way. -/
namespace DC.Wkf
set_option linter.unusedSectionVars false

variable {α J : Type}

/-! ### Inputs of a state -/

section
variable {W : Workflow α}

theorem activateOne_inp (hw : WellFormed W) {c : Bool} {s s' : St α} {k v : Nat} (hk : (inputs W)[k]? = some v)
    (h : activateOne W c s k v = .ok s') :
    s'.inputValues k = (s.inputValues k <|> W.default v) ∧ ∀ m, m ≠ k → s'.inputValues m = s.inputValues m := by
  have key : ∀ x, activateInput W s v x = .ok s' → s'.inputValues k = some x ∧
      ∀ m, m ≠ k → s'.inputValues m = s.inputValues m := by
    intro x hx
    have hp := activateInput_pushed hx
    have he : inputIndex W v = some k := inputIndex_input hw.distinct hk (hw.input_free (List.mem_of_getElem? hk))
    have e : (noteInput W s v x).inputValues = upd s.inputValues k (some x) := by unfold noteInput; rw [he]
    rw [hp.inp, e]
    exact ⟨by simp [upd], fun m hm => by simp [upd, hm]⟩
  unfold activateOne at h
  cases hx : s.inputValues k with
  | some x => rw [hx] at h; exact key x h
  | none =>
    rw [hx] at h
    cases hd : W.default v with
    | some x => rw [hd] at h; exact key x h
    | none =>
      rw [hd] at h
      simp only at h
      split at h
      · simp at h
      · split at h
        · simp at h
        · simp only [Except.ok.injEq] at h
          subst h
          exact ⟨hx, fun _ _ => rfl⟩

theorem activateInputsLoop_inp (hw : WellFormed W) {c : Bool}
    (l : List Nat) (k : Nat) (hl : inputs W = (inputs W).take k ++ l) (hk : k ≤ (inputs W).length) (s s' : St α)
    (h : activateInputsLoop W c k l s = .ok s') : (∀ m v, k ≤ m → (inputs W)[m]? = some v →
      s'.inputValues m = (s.inputValues m <|> W.default v)) ∧
      ∀ m, m < k ∨ (inputs W).length ≤ m → s'.inputValues m = s.inputValues m := by
  induction l generalizing k s with
  | nil =>
    simp only [Wkf.activateInputsLoop, Except.ok.injEq] at h
    subst h
    refine ⟨fun m v hm hv => ?_, fun _ _ => rfl⟩
    have := congrArg List.length hl
    simp only [List.append_nil, List.length_take] at this
    obtain ⟨hv, -⟩ := List.getElem?_eq_some_iff.1 hv
    omega
  | cons v l ih =>
    rw [Wkf.activateInputsLoop, bind_ok] at h
    obtain ⟨s1, h1, h2⟩ := h
    have hlen : ((inputs W).take k).length = k := by simp [hk]
    have hkv : (inputs W)[k]? = some v := by
      rw [hl, List.getElem?_append_right (by omega), hlen]
      simp
    have hk1 : k < (inputs W).length := (List.getElem?_eq_some_iff.1 hkv).1
    have hl' : inputs W = (inputs W).take (k + 1) ++ l := by
      rw [List.take_add_one, hkv]
      simp only [Option.toList_some, List.append_assoc, List.singleton_append]
      exact hl
    obtain ⟨i1, i2⟩ := activateOne_inp hw hkv h1
    obtain ⟨j1, j2⟩ := ih (k + 1) hl' (by omega) s1 h2
    refine ⟨fun m w hm hw' => ?_, fun m hm => ?_⟩
    · rcases Nat.eq_or_lt_of_le hm with rfl | hm
      · rw [hkv] at hw'
        cases hw'
        rw [j2 k (.inl (by omega)), i1]
      · rw [j1 m w hm hw', i2 m (by omega)]
    · rw [j2 m (by omega), i2 m (by omega)]

theorem activateInputs_inp (hw : WellFormed W) {c : Bool} {s s' : St α} (h : activateInputs W c s = .ok s') :
    (∀ k v, (inputs W)[k]? = some v → s'.inputValues k = (s.inputValues k <|> W.default v)) ∧
      ∀ k, (inputs W).length ≤ k → s'.inputValues k = s.inputValues k := by
  obtain ⟨h1, h2⟩ := activateInputsLoop_inp hw _ 0 (by simp) (by omega) s s' h
  exact ⟨fun k v hk => h1 k v (by omega) hk, fun k hk => h2 k (.inr hk)⟩

theorem activateInputsLoop_var (hw : WellFormed W) {c : Bool} (l : List Nat) (k : Nat)
    (hl : ∀ n v, l[n]? = some v → (inputs W)[k + n]? = some v) (s s' : St α)
    (h : activateInputsLoop W c k l s = .ok s') (w : Nat) (hv : s'.actVar w = true) :
    s.actVar w = true ∨ ∃ m v, (inputs W)[m]? = some v ∧ Flow W v w ∧ (s'.inputValues m).isSome := by
  induction l generalizing k s with
  | nil =>
    simp only [Wkf.activateInputsLoop, Except.ok.injEq] at h
    subst h; exact .inl hv
  | cons v l ih =>
    rw [Wkf.activateInputsLoop, bind_ok] at h
    obtain ⟨s1, h1, h2⟩ := h
    have hf := activateInputsLoop_frame _ _ _ _ h2
    have hk : (inputs W)[k]? = some v := hl 0 v rfl
    rcases ih (k + 1) (fun n v hn => by rw [show k + 1 + n = k + (n + 1) by omega]; exact hl (n + 1) v (by simpa using hn))
      s1 h2 with h3 | h3
    · have key : ∀ x, activateInput W s v x = .ok s1 → s.actVar w = true ∨
          ∃ m v, (inputs W)[m]? = some v ∧ Flow W v w ∧ (s'.inputValues m).isSome := by
        intro x hx
        have hp := activateInput_pushed hx
        have he : inputIndex W v = some k := inputIndex_input hw.distinct hk (hw.input_free (List.mem_of_getElem? hk))
        have e : (noteInput W s v x).actVar = s.actVar := by unfold noteInput; split <;> rfl
        have e2 : (noteInput W s v x).inputValues = upd s.inputValues k (some x) := by unfold noteInput; rw [he]
        rcases (hp.var w).1 h3 with h | h
        · rw [e] at h; exact .inl h
        · exact .inr ⟨k, v, hk, h, hf.inp k (by rw [hp.inp, e2]; simp [upd])⟩
      unfold activateOne at h1
      split at h1
      · exact key _ h1
      · split at h1
        · exact key _ h1
        · split at h1
          · simp at h1
          · split at h1
            · simp at h1
            · simp only [Except.ok.injEq] at h1
              subst h1; exact .inl h3
    · exact .inr h3

theorem activateInputs_var (hw : WellFormed W) {c : Bool} {s s' : St α} (h : activateInputs W c s = .ok s') (w : Nat)
    (hv : s'.actVar w = true) :
    s.actVar w = true ∨ ∃ m v, (inputs W)[m]? = some v ∧ Flow W v w ∧ (s'.inputValues m).isSome :=
  activateInputsLoop_var hw _ 0 (fun n v hn => by rw [Nat.zero_add]; exact hn) s s' h w hv

/-- The inputs which hold a value are active, and those which have a default value hold one. -/
structure Loaded (W : Workflow α) (s : St α) : Prop where
  act : ∀ k v, (inputs W)[k]? = some v → (s.inputValues k).isSome → s.actVar v = true
  dflt : ∀ k v, (inputs W)[k]? = some v → (W.default v).isSome → (s.inputValues k).isSome

theorem Loaded.of_activate {V : Nat → Option α} {N E : Nat → Prop} (hw : WellFormed W) {c : Bool} {s s' : St α}
    (hI : Held W V N E s) (h : activateInputs W c s = .ok s') : Loaded W s' := by
  obtain ⟨-, hg⟩ := hI.activateInputs hw h
  obtain ⟨hi, -⟩ := activateInputs_inp hw h
  refine ⟨fun k v hk hx => ?_, fun k v hk hd => ?_⟩
  · rw [hi k v hk] at hx
    exact (hg k v hk (.inl hx)).1
  · rw [hi k v hk]
    cases s.inputValues k with
    | some x => rfl
    | none => exact hd

theorem Loaded.frame {s s' : St α} (h : Loaded W s) (hv : ∀ v, s.actVar v = true → s'.actVar v = true)
    (hi : s'.inputValues = s.inputValues) : Loaded W s' :=
  ⟨fun k v hk hx => hv v (h.act k v hk (by rw [← hi]; exact hx)), fun k v hk hd => by rw [hi]; exact h.dflt k v hk hd⟩

theorem readInputs_inp (l : List Nat) (s s' : St α) (xs : List α) (h : readInputs W l s = .ok (xs, s')) :
    s'.inputValues = s.inputValues := by
  induction l generalizing s xs with
  | nil =>
    simp only [readInputs, Except.ok.injEq, Prod.mk.injEq] at h
    rw [← h.2]
  | cons v l ih =>
    rw [readInputs, bind_ok] at h
    obtain ⟨x, hx, h⟩ := h
    rw [bind_ok] at h
    obtain ⟨s1, h1, h⟩ := h
    rw [bind_ok] at h
    obtain ⟨⟨ys, s2⟩, h2, h⟩ := h
    simp only [Except.ok.injEq, Prod.mk.injEq] at h
    obtain ⟨rfl, rfl⟩ := h
    rw [ih s1 ys h2, (activateVar_pushed _ _ _ _ h1).inp]

theorem activateOutputs_inp (os : List Nat) (ys : List α) (s s' : St α) (h : activateOutputs W os ys s = .ok s') :
    s'.inputValues = s.inputValues := by
  induction os generalizing s ys with
  | nil =>
    simp only [activateOutputs, Except.ok.injEq] at h
    rw [← h]
  | cons o os ih =>
    cases ys with
    | nil =>
      simp only [activateOutputs, Except.ok.injEq] at h
      rw [← h]
    | cons y ys =>
      rw [activateOutputs, bind_ok] at h
      obtain ⟨s1, h1, h2⟩ := h
      rw [ih ys s1 h2, (activateVar_pushed _ _ _ _ h1).inp]

theorem evaluateBlock_inp {s s' : St α} {i : Nat} {ys : List α} (h : evaluateBlock W s i = .ok (s', ys)) :
    s'.inputValues = s.inputValues := by
  unfold evaluateBlock at h
  split at h
  · simp at h
  · rw [bind_ok] at h
    obtain ⟨⟨xs, s1⟩, h1, h⟩ := h
    simp only [bind_ok] at h
    obtain ⟨ys', -, s2, h2, h⟩ := h
    simp only [Except.ok.injEq, Prod.mk.injEq] at h
    obtain ⟨rfl, rfl⟩ := h
    show s2.inputValues = _
    rw [activateOutputs_inp _ _ _ _ h2]
    show s1.inputValues = _
    exact readInputs_inp _ _ _ _ h1

/-- The invariant of a state made, executed, saved and restored. -/
structure Fair (W : Workflow α) (V : Nat → Option α) (s : St α) : Prop where
  kept : Kept W V (fun _ => False) s
  loaded : Loaded W s

variable {V : Nat → Option α}

theorem Fair.activate (hw : WellFormed W) {c : Bool} {s s' : St α} (h : Fair W V s) (ha : activateInputs W c s = .ok s') :
    Fair W V s' := ⟨(h.kept.activateInputs hw ha).1, .of_activate hw h.kept ha⟩

theorem Fair.evaluateBlock (hw : WellFormed W) {b : Block α} {i : Nat}
    (hb : W.blocks[i]? = some b) {s s' : St α} {ys : List α} (hI : Fair W V s) (ha : byInputs s b = true)
    (h : Wkf.evaluateBlock W s i = .ok (s', ys)) : Fair W V s' :=
  ⟨hI.kept.evaluateBlock hw hb ha h, hI.loaded.frame (evaluateBlock_step h).var (evaluateBlock_inp h)⟩

theorem Fair.blockEvaluation (hw : WellFormed W) {rt : List Nat} {i : Nat}
    {s s' : St α} {r : Bool} (hI : Fair W V s) (h : blockEvaluation W rt s i = .ok (s', r)) : Fair W V s' := by
  obtain ⟨s1, h1, -, ⟨-, rfl, -⟩ | ⟨-, ha, ys, he, -⟩⟩ := blockEvaluation_ok h
  · exact hI.activate hw h1
  · obtain ⟨b, hb, hby⟩ := activable_byInputs ha
    exact (hI.activate hw h1).evaluateBlock hw hb hby he

theorem Fair.evaluateNext (hw : WellFormed W) {rt : List Nat}
    {s s' : St α} {r : Option Nat} (hI : Fair W V s) (h : evaluateNext W rt s = .ok (s', r)) : Fair W V s' := by
  unfold Wkf.evaluateNext at h
  rw [bind_ok] at h
  obtain ⟨s1, h1, h⟩ := h
  have hI1 := hI.activate hw h1
  split at h
  · simp only [Except.ok.injEq, Prod.mk.injEq] at h
    rw [← h.1]; exact hI1
  · rw [bind_ok] at h
    obtain ⟨⟨s2, q⟩, h2, h⟩ := h
    simp only [Except.ok.injEq, Prod.mk.injEq] at h
    rw [← h.1]; exact hI1.blockEvaluation hw h2

theorem Fair.continueRun (hw : WellFormed W) {rt : List Nat} {n : Nat}
    {s s' : St α} (hI : Fair W V s) (h : continueRun W rt n s = .ok (some s')) : Fair W V s' :=
  (continueRun_inv (P := Fair W V) (fun _ _ hs ha => hs.activate hw ha)
    (fun _ _ _ _ _ hs hb => hs.blockEvaluation hw hb) n s s' hI h).1

theorem Fair.branchStep (hw : WellFormed W) (l : List Nat) (s s' : St α)
    (ha : ∀ i ∈ l, ∃ b, W.blocks[i]? = some b ∧ byInputs s b = true) (hI : Fair W V s) (h : branchStep W l s = .ok s') :
    Fair W V s' := by
  induction l generalizing s with
  | nil =>
    simp only [Wkf.branchStep, Except.ok.injEq] at h
    subst h; exact hI
  | cons i l ih =>
    rw [Wkf.branchStep, bind_ok] at h
    obtain ⟨⟨s1, ys⟩, h1, h2⟩ := h
    obtain ⟨b, hb, hby⟩ := ha i (.head _)
    refine ih s1 (fun j hj => ?_) (hI.evaluateBlock hw hb hby h1) h2
    obtain ⟨c, hc, hbc⟩ := ha j (.tail _ hj)
    refine ⟨c, hc, ?_⟩
    simp only [byInputs, List.all_eq_true] at hbc ⊢
    exact fun v hv => (evaluateBlock_step h1).var v (hbc v hv)

theorem Fair.branchLoop (hw : WellFormed W) {rt blocks : List Nat} (n : Nat)
    (d d' : List Nat) (s s' : St α) (hI : Fair W V s) (h : branchLoop W rt blocks n d s = .ok (s', d')) : Fair W V s' := by
  induction n generalizing d s with
  | zero =>
    simp only [Wkf.branchLoop, Except.ok.injEq, Prod.mk.injEq] at h
    rw [← h.1]; exact hI
  | succ n ih =>
    rw [Wkf.branchLoop] at h
    split at h
    · simp only [Except.ok.injEq, Prod.mk.injEq] at h
      rw [← h.1]; exact hI
    · rw [bind_ok] at h
      obtain ⟨s1, h1, h2⟩ := h
      refine ih _ s1 (Fair.branchStep hw _ s s1 (fun i hi => ?_) hI h1) h2
      rw [List.mem_filter, Bool.and_eq_true] at hi
      exact activable_byInputs hi.2.1

theorem Fair.evaluateBranch (hw : WellFormed W) {rt blocks : List Nat}
    {d' : List Nat} {s s' : St α} (hI : Fair W V s) (h : evaluateBranch W rt blocks s = .ok (s', d')) : Fair W V s' := by
  unfold Wkf.evaluateBranch at h
  rw [bind_ok] at h
  obtain ⟨s1, h1, h⟩ := h
  split at h
  · exact Fair.branchLoop hw _ _ _ _ _ (hI.activate hw h1) h
  · simp at h

theorem Fair.give (hw : WellFormed W) {s s' : St α} {k v : Nat} {x : α} (hI : Fair W V s)
    (hk : (inputs W)[k]? = some v) (hx : V k = some x) (h : activateInput W s v x = .ok s') : Fair W V s' := by
  refine ⟨(hI.kept.activateInput hw hk hx h).1, ?_⟩
  have hp := activateInput_pushed h
  have he : inputIndex W v = some k := inputIndex_input hw.distinct hk (hw.input_free (List.mem_of_getElem? hk))
  have e : (noteInput W s v x).inputValues = upd s.inputValues k (some x) := by unfold noteInput; rw [he]
  have e2 : (noteInput W s v x).actVar = s.actVar := by unfold noteInput; split <;> rfl
  refine ⟨fun m u hm hu => ?_, fun m u hm hd => ?_⟩
  · rw [hp.inp, e] at hu
    by_cases hmk : m = k
    · subst hmk
      rw [hk] at hm
      cases hm
      exact (hp.var _).2 (.inr .refl)
    · simp only [upd, hmk, if_false] at hu
      exact (hp.var _).2 (.inl (by rw [e2]; exact hI.loaded.act m u hm hu))
  · rw [hp.inp, e]
    by_cases hmk : m = k
    · simp [upd, hmk]
    · simp only [upd, hmk, if_false]
      exact hI.loaded.dflt m u hm hd

end

/-! ### Specification -/

/-- The states of a run of the workflow `W₀` whose inputs receive the values `V`, which may be saved in a dict and restored
as often as wanted between any two operations, each time with the workflow read from its own dict: `W` is the workflow of
the present state.  Saving needs that no input for a file has a default value (see `C107_file_violated`). -/
inductive Resumed (C : Codec α J) (file : Nat → Bool) (V : Nat → Option α) (W₀ : Workflow α) : Workflow α → St α → Prop
  | start {vals s} : (∀ k v x, (inputs W₀)[k]? = some v → (vals k = some x ∨ vals k = none ∧ W₀.default v = some x) →
      V k = some x) → startRun W₀ vals = .ok s → Resumed C file V W₀ W₀ s
  | give {W s s' k v x} : Resumed C file V W₀ W s → (inputs W)[k]? = some v → V k = some x → activateInput W s v x = .ok s' →
      Resumed C file V W₀ W s'
  | activate {W s s' check} : Resumed C file V W₀ W s → activateInputs W check s = .ok s' → Resumed C file V W₀ W s'
  | block {W s s' rt i r} : Resumed C file V W₀ W s → blockEvaluation W rt s i = .ok (s', r) → Resumed C file V W₀ W s'
  | next {W s s' rt r} : Resumed C file V W₀ W s → evaluateNext W rt s = .ok (s', r) → Resumed C file V W₀ W s'
  | branch {W s s' rt bs r} : Resumed C file V W₀ W s → evaluateBranch W rt bs s = .ok (s', r) → Resumed C file V W₀ W s'
  | continue {W s s' rt n} : Resumed C file V W₀ W s → continueRun W rt n s = .ok (some s') → Resumed C file V W₀ W s'
  | reload {W W' s s' ρ keys d} : Resumed C file V W₀ W s → (∀ k, k ∈ keys ↔ (s.inputValues k).isSome) →
      (∀ k v, file k = true → (inputs W)[k]? = some v → W.default v = none) → saveState C W file keys s = .ok d →
      Renamed ρ W W' → loadState C W' d = .ok s' → Resumed C file V W₀ W' s'

/-! ### C107 -/

section
variable {C : Codec α J} {file : Nat → Bool} {V : Nat → Option α} {W W' : Workflow α} {ρ : Nat → Nat}

/-- Reading a state keeps what it holds in agreement with what must be computed. -/
theorem Restored.held (hR : Renamed ρ W W') {s r : St α} (hI : Kept W V (fun _ => False) s)
    (hd : ∀ k v, file k = true → (inputs W)[k]? = some v → W.default v = none ∨ s.inputValues k = none)
    (h : Restored C file W s ρ r) : Kept W' V (fun _ => False) r where
  iv k u x hu hx := by
    rw [hR.inputs, List.getElem?_map, Option.map_eq_some_iff] at hu
    obtain ⟨v, hv, rfl⟩ := hu
    rw [hR.default v (mem_inputs.1 (List.mem_of_getElem? hv)).1, h.inp] at hx
    refine hI.iv k v x hv ?_
    cases hf : file k with
    | false => simpa [hf] using hx
    | true =>
      rw [hf] at hx
      simp only [if_true] at hx
      rcases hd k v hf hv with hn | hn
      · rw [hn] at hx; simp at hx
      · rw [hn]; exact hx
  val j q x hq hx := by
    obtain ⟨p, hp, rfl⟩ := hR.pipe_back hq
    exact (hR.den (Renamed.pipeVar (List.mem_of_getElem? hp)).1).2 (hI.val j p x hp (h.val j x hx))
  out x hx := by
    rw [h.out] at hx
    obtain ⟨o, ho, hd⟩ := hI.out x hx
    exact ⟨ρ o, by rw [hR.output, ho]; rfl, (hR.den hd.var).2 hd⟩
  var u hu := by
    obtain ⟨v, hv, rfl, ha⟩ := (h.var u).1 hu
    obtain ⟨x, h1, h2, h3⟩ := hI.var v ha
    refine ⟨x, (hR.den hv).2 h1, fun w hw' => ?_, fun o ho hf => ?_⟩
    · obtain ⟨w', hm, rfl, hf⟩ := hR.flow_back hv hw'
      exact (h.var _).2 ⟨w', hm, rfl, h2 w' hf⟩
    · rw [hR.output, Option.map_eq_some_iff] at ho
      obtain ⟨o', ho', rfl⟩ := ho
      obtain ⟨w', hm, he, hf⟩ := hR.flow_back hv hf
      have := hR.inj o' (hR.outVar o' ho') w' hm he
      subst this
      rw [h.out]
      exact h3 o' ho' hf
  fed _ _ hn := hn.elim
  fedIn _ _ hn := hn.elim
  blk i hi := by
    obtain ⟨b, xs, ys, h1, h2, h3, h4, h5, h6⟩ := hI.blk i ((h.blk i).1 hi).2
    have hbm := List.mem_of_getElem? h1
    refine ⟨_, xs, ys, hR.block h1, by simpa using h2, fun vx hvx => ?_, h4, fun u hu => ?_, fun oy hoy => ?_⟩
    · simp only [List.zip_map_left] at hvx
      obtain ⟨ux, hux, rfl⟩ := List.mem_map.1 hvx
      exact (hR.den (Renamed.blockVar hbm (.inl (List.of_mem_zip hux).1))).2 (h3 ux hux)
    · obtain ⟨v, hv, rfl⟩ := List.mem_map.1 hu
      exact (h.var _).2 ⟨v, Renamed.blockVar hbm (.inl hv), rfl, h5 v hv⟩
    · simp only [List.zip_map_left] at hoy
      obtain ⟨ux, hux, rfl⟩ := List.mem_map.1 hoy
      exact (h.var _).2 ⟨ux.1, Renamed.blockVar hbm (.inr (List.of_mem_zip hux).1), rfl, h6 ux hux⟩
  src i c u hc hu ha := by
    obtain ⟨b, hb, rfl⟩ := hR.block_back hc
    obtain ⟨o, ho, rfl⟩ := List.mem_map.1 hu
    have hbm := List.mem_of_getElem? hb
    obtain ⟨v, hv, he, ha⟩ := (h.var _).1 ha
    have := hR.inj o (Renamed.blockVar hbm (.inr ho)) v hv he
    subst this
    rw [h.ev]
    exact hI.src i b o hb ho ha
  ev i hi := by
    rw [h.ev] at hi
    rw [hR.ren.1, List.length_map]
    exact hI.ev i hi

theorem Resumed.fair (hC : C.Sound) {W₀ : Workflow α} (hw₀ : WellFormed W₀)
    (ho : ∀ o, W₀.output = some o → o ∈ allVariables W₀) {s : St α} (h : Resumed C file V W₀ W s) :
    ∃ ρ, Renamed ρ W₀ W ∧ Fair W V s := by
  induction h with
  | @start vals s hV hs =>
    refine ⟨id, .refl ho, ?_⟩
    have hi : Kept W₀ V (fun _ => False) { inputValues := vals } := Held.init (fun k v x h1 h2 => hV k v x h1 (by
      cases hv : vals k with
      | some y =>
        rw [hv] at h2
        left; exact h2
      | none =>
        rw [hv] at h2
        right; exact ⟨rfl, h2⟩))
    exact ⟨(hi.activateInputs hw₀ hs).1, .of_activate hw₀ hi hs⟩
  | give _ hk hx h ih =>
    obtain ⟨ρ, hR, hI⟩ := ih
    exact ⟨ρ, hR, hI.give (hR.wf hw₀) hk hx h⟩
  | activate _ h ih =>
    obtain ⟨ρ, hR, hI⟩ := ih
    exact ⟨ρ, hR, hI.activate (hR.wf hw₀) h⟩
  | block _ h ih =>
    obtain ⟨ρ, hR, hI⟩ := ih
    exact ⟨ρ, hR, hI.blockEvaluation (hR.wf hw₀) h⟩
  | next _ h ih =>
    obtain ⟨ρ, hR, hI⟩ := ih
    exact ⟨ρ, hR, hI.evaluateNext (hR.wf hw₀) h⟩
  | branch _ h ih =>
    obtain ⟨ρ, hR, hI⟩ := ih
    exact ⟨ρ, hR, hI.evaluateBranch (hR.wf hw₀) h⟩
  | «continue» _ h ih =>
    obtain ⟨ρ, hR, hI⟩ := ih
    exact ⟨ρ, hR, hI.continueRun (hR.wf hw₀) h⟩
  | reload _ hk hd hs hR' hl ih =>
    obtain ⟨ρ, hR, hI⟩ := ih
    have hw := hR.wf hw₀
    obtain ⟨r, hr, he⟩ := saved_loads hC hw hR' hk hI.kept.ev hs
    rw [he] at hl
    have hr' := hr.held hR' hI.kept (fun k v hf hv => .inl (hd k v hf hv))
    exact ⟨_, hR.trans hR', (hr'.activateInputs (hR'.wf hw) hl).1, .of_activate (hR'.wf hw) hr' hl⟩

end

end DC.Wkf
