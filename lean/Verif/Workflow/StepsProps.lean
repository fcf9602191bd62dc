import Mathlib.Tactic.Push
import Verif.Workflow.StepsLemmas
/- Properties C33, C34 and C78: edition of the steps of a workflow. -/
namespace DC.Wkf

variable {δ : Type}

/-- Spec: a history of editions, errors being reported to the user who goes on. -/
def edits (ops : List (EditOp δ)) (e : Ed δ) : Ed δ := ops.foldl (fun e op => (op.run e).1) e

/-- Spec: the editions for which C33 holds: `remove_input_from_step` is called on an input which is not spare,
`reorder_step_inputs` without repetition in the order, `reorder_steps` without negative index. -/
def Careful (e : Ed δ) : EditOp δ → Prop
  | .removeInput i => ∀ v, Py.get e.inputs i = .ok v → v ∉ e.spare
  | .reorderInputs _ order => order.Nodup
  | .reorder order => ∀ i ∈ order, 0 ≤ i
  | _ => True

/-- Spec: `Careful` at each edition of a history. -/
def CarefulHistory : Ed δ → List (EditOp δ) → Prop
  | _, [] => True
  | e, op :: ops => Careful e op ∧ CarefulHistory (op.run e).1 ops

/-- Without steps, or with steps whose inputs are distinct inputs of the workflow, a new workflow is sound. -/
theorem C33_init {inputs : List Nat} (hn : inputs.Nodup) {steps : List (StepObj δ)}
    (hs : (steps.flatMap (·.inputs)).Nodup) (hsub : ∀ v ∈ steps.flatMap (·.inputs), v ∈ inputs) :
    Sound (Ed.init inputs steps) := by
  have hst : (Ed.init inputs steps).stepped = steps.flatMap (·.inputs) := by
    unfold Ed.stepped Ed.init
    simp only [List.flatMap_def]
    congr 1
    refine List.ext_getElem (by simp) fun i h1 h2 => ?_
    simp only [List.length_map] at h2
    simp [List.getElem?_eq_getElem h2]
  refine ⟨hn, ?_, List.nodup_range, fun a ha => by simpa [Ed.init] using ha⟩
  unfold Ed.placed
  rw [hst]
  refine (List.perm_ext_iff_of_nodup ?_ hn).2 fun v => ?_
  · refine List.nodup_append.2 ⟨hs, hn.filter _, ?_⟩
    rintro a ha b hb rfl
    simp only [Ed.init, List.mem_filter, Bool.not_eq_true', List.contains_eq_mem, decide_eq_false_iff_not] at hb
    exact hb.2 ha
  · show v ∈ steps.flatMap (·.inputs) ++ inputs.filter _ ↔ v ∈ inputs
    simp only [List.mem_append, List.mem_filter, Bool.not_eq_true', List.contains_eq_mem, decide_eq_false_iff_not]
    constructor
    · rintro (h | h)
      · exact hsub v h
      · exact h.1
    · intro h
      by_cases hc : v ∈ steps.flatMap (·.inputs)
      · exact .inl hc
      · exact .inr ⟨h, hc⟩

theorem perm_of_map_some {a b : List Nat} (h : (a.map some).Perm (b.map some)) : a.Perm b := by
  have := h.filterMap id
  simpa [List.filterMap_map] using this

theorem reorder_perm {l r : List Nat} {order : List Int} (hlen : order.length = l.length) (hn : order.Nodup)
    (hpos : ∀ i ∈ order, 0 ≤ i) (h : List.Forall₂ (fun i x => Py.get l i = .ok x) order r) : r.Perm l := by
  have hlt : ∀ i ∈ order, i.toNat < l.length := by
    intro i hi
    obtain ⟨x, -, hx⟩ := Py.forall2_left h hi
    obtain ⟨k, hk, -⟩ := Py.get_ok.1 hx
    have := Py.idx_lt hk
    unfold Py.idx at hk
    rw [if_pos (hpos i hi)] at hk
    split at hk <;> simp at hk
    omega
  have hr : r.map some = (order.map Int.toNat).map (l[·]?) := by
    clear hlen hn hlt
    induction h with
    | nil => rfl
    | cons h1 h2 ih =>
      rename_i i x is xs
      simp only [List.map_cons]
      rw [ih fun j hj => hpos j (.tail _ hj)]
      congr 1
      obtain ⟨k, hk, hx⟩ := Py.get_ok.1 h1
      unfold Py.idx at hk
      rw [if_pos (hpos i (.head _))] at hk
      split at hk <;> simp at hk
      rw [hk, hx]
  have hp : (order.map Int.toNat).Perm (List.range l.length) := by
    have hnd : (order.map Int.toNat).Nodup := by
      rw [List.nodup_map_iff_inj_on hn]
      intro x hx y hy hxy
      have := hpos x hx
      have := hpos y hy
      omega
    have hsub : order.map Int.toNat ⊆ List.range l.length := by
      intro k hk
      obtain ⟨i, hi, rfl⟩ := List.mem_map.1 hk
      exact List.mem_range.2 (hlt i hi)
    exact (hnd.subperm hsub).perm_of_length_le (by simp [hlen])
  apply perm_of_map_some
  rw [hr]
  refine (hp.map _).trans ?_
  have : (List.range l.length).map (l[·]?) = l.map some := by
    refine List.ext_getElem (by simp) fun i h1 h2 => ?_
    simp only [List.length_map] at h2
    simp [List.getElem?_eq_getElem h2]
  rw [this]

/-- `reorder_steps`, when it is accepted, gives the steps in the requested order. -/
theorem C34_order {e e' : Ed δ} {order : List Int} (h : reorderSteps order e = (e', none)) :
    List.Forall₂ (fun i a => Py.get e.steps i = .ok a) order e'.steps ∧ e'.inputs = e.inputs ∧ e'.spare = e.spare ∧
      e'.obj = e.obj := by
  unfold reorderSteps at h
  split at h
  · simp at h
  split at h
  · simp at h
  split at h
  · rename_i l hl
    simp only [Prod.mk.injEq, and_true] at h
    subst h
    exact ⟨getAll_spec.1 hl, rfl, rfl, rfl⟩
  · simp at h

/-- `reorder_steps` changes nothing when it raises. -/
theorem C34_raises {e e' : Ed δ} {order : List Int} {err : PyErr} (h : reorderSteps order e = (e', some err)) :
    e' = e := by
  unfold reorderSteps at h
  split at h
  · simp at h; exact h.1.symm
  split at h
  · simp at h; exact h.1.symm
  split at h <;> simp at h
  exact h.1.symm

/-- `reorder_steps` raises as soon as an index is missing, repeated or out of range. -/
theorem C34_rejects {e e' : Ed δ} {order : List Int} (h : reorderSteps order e = (e', none)) :
    order.length = e.steps.length ∧ order.Nodup ∧ ∀ i ∈ order, -(e.steps.length : Int) ≤ i ∧ i < e.steps.length := by
  have hF := (C34_order h).1
  unfold reorderSteps at h
  split at h
  · simp at h
  split at h
  · simp at h
  rename_i h1 h2
  push Not at h1 h2
  refine ⟨h1, ?_, ?_⟩
  · have hs := List.dedup_sublist order
    rw [← List.dedup_eq_self]
    exact hs.eq_of_length (by omega)
  · intro i hi
    obtain ⟨x, -, hx⟩ := Py.forall2_left hF hi
    obtain ⟨k, hk, -⟩ := Py.get_ok.1 hx
    unfold Py.idx at hk
    split at hk <;> split at hk <;> simp at hk <;> omega

/-- `reorder_steps` leaves exactly the same steps, if no index is negative. Missing for the full property: negative
indices (see `C34_violated`). -/
theorem C34_steps_partial {e e' : Ed δ} {order : List Int} (hpos : ∀ i ∈ order, 0 ≤ i)
    (h : reorderSteps order e = (e', none)) : e'.steps.Perm e.steps :=
  reorder_perm (C34_rejects h).1 (C34_rejects h).2.1 hpos (C34_order h).1

/-- Every permutation of the indices is accepted. -/
theorem C34_accepts {e : Ed δ} {order : List Nat} (h : order.Perm (List.range e.steps.length)) :
    ∃ e', reorderSteps (order.map Int.ofNat) e = (e', none) := by
  have hlen : order.length = e.steps.length := by simpa using h.length_eq
  have hn : (order.map Int.ofNat).Nodup := by
    refine (List.nodup_map_iff_inj_on (h.nodup_iff.2 List.nodup_range)).2 ?_
    intro x _ y _ hxy
    exact Int.ofNat.inj hxy
  have hg : ∃ r, getAll e.steps (order.map Int.ofNat) = .ok r := by
    have hm : ∀ i ∈ order, i < e.steps.length := fun i hi => List.mem_range.1 (h.mem_iff.1 hi)
    clear hlen hn h
    induction order with
    | nil => exact ⟨[], rfl⟩
    | cons i is ih =>
      obtain ⟨r, hr⟩ := ih fun j hj => hm j (.tail _ hj)
      refine ⟨e.steps[i]'(hm i (.head _)) :: r, getAll_spec.2 (.cons ?_ (getAll_spec.1 hr))⟩
      have := Py.get_nat e.steps i
      rw [List.getElem?_eq_getElem (hm i (.head _))] at this
      exact this
  obtain ⟨r, hr⟩ := hg
  refine ⟨{ e with steps := r }, ?_⟩
  unfold reorderSteps
  rw [if_neg (by simp [hlen]), if_neg (by rw [hn.dedup]; simp [hlen]), hr]

/-- With negative indices, `reorder_steps` accepts an order which lists a step twice and drops an other one, with its
inputs. -/
theorem C34_violated : ∃ (e e' : Ed Unit), Sound e ∧ reorderSteps [0, -2] e = (e', none) ∧
    ¬ e'.steps.Perm e.steps ∧ e'.steps = [0, 0] ∧ 7 ∈ e.placed ∧ 7 ∈ e'.inputs ∧ 7 ∉ e'.placed := by
  refine ⟨Ed.init [5, 7] [{ inputs := [5] }, { inputs := [7] }], _, C33_init (by decide) (by decide) (by decide), rfl,
    ?_, rfl, by decide, by decide, by decide⟩
  intro h
  have := h.mem_iff (a := 1)
  revert this
  decide

theorem sameIndexSet_mem {e : Ed δ} {inputs : List Nat} {order : List Int} {r : List Nat}
    (h : sameIndexSet e inputs order = true) (hr : List.Forall₂ (fun i x => Py.get e.inputs i = .ok x) order r) :
    (∀ i ∈ order, ∃ v ∈ e.inputs, i = (e.inputs.idxOf v : Nat)) ∧ ∀ v, v ∈ r ↔ v ∈ inputs := by
  unfold sameIndexSet at h
  simp only [Bool.and_eq_true, List.all_eq_true, List.mem_map, forall_exists_index, and_imp, forall_apply_eq_imp_iff₂,
    List.contains_iff_mem] at h
  obtain ⟨h1, h2⟩ := h
  have h2' : ∀ i ∈ order, ∃ v ∈ inputs, v ∈ e.inputs ∧ i = (e.inputs.idxOf v : Nat) := by
    intro i hi
    obtain ⟨v, hv, hvi⟩ := h2 i hi
    split at hvi <;> simp at hvi
    exact ⟨v, hv, by assumption, hvi.symm⟩
  refine ⟨fun i hi => (h2' i hi).imp fun v hv => hv.2, fun v => ⟨fun hv => ?_, fun hv => ?_⟩⟩
  · obtain ⟨i, hi, hx⟩ := Py.forall2_right hr hv
    obtain ⟨w, hw, hwe, rfl⟩ := h2' i hi
    rw [get_idxOf hwe] at hx
    simp at hx
    subst hx
    exact hw
  · have := h1 v hv
    split at this
    · rename_i i hi
      split at hi <;> simp at hi
      subst hi
      simp only [List.contains_iff_mem] at this
      rename_i hve
      obtain ⟨x, hx, hg⟩ := Py.forall2_left hr this
      rw [get_idxOf hve] at hg
      simp at hg
      subst hg
      exact hx
    · simp at this

theorem forall2_nodup {l : List Nat} {order : List Int} {r : List Nat} (ho : order.Nodup)
    (hidx : ∀ i ∈ order, ∃ v ∈ l, i = (l.idxOf v : Nat)) (hr : List.Forall₂ (fun i x => Py.get l i = .ok x) order r) :
    r.Nodup := by
  induction hr with
  | nil => exact List.nodup_nil
  | cons h1 h2 ih =>
    rename_i i x is xs
    rw [List.nodup_cons] at ho ⊢
    refine ⟨fun hx => ho.1 ?_, ih ho.2 fun j hj => hidx j (.tail _ hj)⟩
    obtain ⟨j, hj, hg⟩ := Py.forall2_right h2 hx
    obtain ⟨v, hv, rfl⟩ := hidx i (.head _)
    obtain ⟨w, hw, rfl⟩ := hidx j (.tail _ hj)
    rw [get_idxOf hv] at h1
    rw [get_idxOf hw] at hg
    simp at h1 hg
    rw [h1]
    rwa [hg] at hj

/-- `reorder_step_inputs`, when it is accepted, gives to the step the inputs of the requested indices, in the requested
order; these are the same inputs as before. -/
theorem C34_inputs {e e' : Ed δ} {k : Int} {order : List Int}
    (h : reorderStepInputs k order e = (e', none)) : ∃ a, Py.get e.steps k = .ok a ∧
      List.Forall₂ (fun i v => Py.get e.inputs i = .ok v) order (e'.obj a).inputs ∧
      (∀ v, v ∈ (e'.obj a).inputs ↔ v ∈ (e.obj a).inputs) ∧ (∀ b, b ≠ a → e'.obj b = e.obj b) ∧
      e'.steps = e.steps ∧ e'.spare = e.spare ∧ e'.inputs = e.inputs := by
  unfold reorderStepInputs at h
  split at h
  · simp at h
  rename_i a ha
  split at h
  · rename_i hsame
    split at h
    · rename_i l hl
      simp only [Prod.mk.injEq, and_true] at h
      subst h
      have hF := getAll_spec.1 hl
      have hob : ((e.setStep a fun s => { s with inputs := l }).obj a).inputs = l := by simp [Ed.setStep]
      refine ⟨a, ha, by rw [hob]; exact hF, fun v => by rw [hob]; exact (sameIndexSet_mem hsame hF).2 v, ?_, rfl, rfl,
        rfl⟩
      intro b hb
      simp [Ed.setStep, hb]
    · simp at h
  · simp at h

/-- `reorder_step_inputs` only permutes the inputs of the step if no index is repeated. Missing for the full property:
repeated indices (see `C34_inputs_violated`). -/
theorem C34_inputs_partial {e e' : Ed δ} (hs : Sound e) {k : Int} {order : List Int} (ho : order.Nodup)
    (h : reorderStepInputs k order e = (e', none)) : ∃ a, Py.get e.steps k = .ok a ∧
      (e'.obj a).inputs.Perm (e.obj a).inputs := by
  unfold reorderStepInputs at h
  split at h
  · simp at h
  rename_i a ha
  split at h
  · rename_i hsame
    split at h
    · rename_i l hl
      simp only [Prod.mk.injEq, and_true] at h
      subst h
      have hF := getAll_spec.1 hl
      have hob : ((e.setStep a fun s => { s with inputs := l }).obj a).inputs = l := by simp [Ed.setStep]
      obtain ⟨hi, hm⟩ := sameIndexSet_mem hsame hF
      refine ⟨a, ha, ?_⟩
      rw [hob]
      have hst : e.stepped.Nodup := (List.nodup_append.1 hs.nodup_placed).1
      exact (List.perm_ext_iff_of_nodup (forall2_nodup ho hi hF) ((List.nodup_flatMap.1 hst).1 a (Py.get_mem ha))).2 hm
    · simp at h
  · simp at h

/-- `reorder_step_inputs` changes nothing when it raises. -/
theorem C34_inputs_raises {e e' : Ed δ} {k : Int} {order : List Int} {err : PyErr}
    (h : reorderStepInputs k order e = (e', some err)) : e' = e := by
  unfold reorderStepInputs at h
  split at h
  · simp at h; exact h.1.symm
  split at h
  · split at h <;> simp at h
    exact h.1.symm
  · simp at h; exact h.1.symm

/-- `reorder_step_inputs` accepts repeated indices, and the step then holds an input twice. -/
theorem C34_inputs_violated : ∃ (e e' : Ed Unit), Sound e ∧ reorderStepInputs 0 [1, 0, 0] e = (e', none) ∧
    (e.obj 0).inputs = [5, 7] ∧ (e'.obj 0).inputs = [7, 5, 5] :=
  ⟨Ed.init [5, 7] [{ inputs := [5, 7] }], _, C33_init (by decide) (by decide) (by decide), rfl, rfl, rfl⟩

theorem gatherInputs_sound {prev : List Nat} {k : Int} : ∀ {vs : List Nat} {e : Ed δ}, Sound e →
    Sound (gatherInputs prev k vs e).1
  | [], _, h => h
  | v :: vs, e, h => by
    unfold gatherInputs
    split
    · exact gatherInputs_sound h
    split
    · have h1 := h.changeInputStep_any (e.inputs.idxOf v : Nat) k
      split
      · rename_i heq
        rw [heq] at h1
        exact gatherInputs_sound h1
      · rename_i heq
        rw [heq] at h1
        exact h1
    · exact h

/-- One careful edition keeps the state sound, whether it raises or not. -/
theorem C33_step {e : Ed δ} (h : Sound e) {op : EditOp δ} (hc : Careful e op) : Sound (op.run e).1 := by
  cases op with
  | changeInputs is k => exact h.changeInputsStep is k
  | removeInput i =>
    show Sound (removeInputFromStep i e).1
    cases hv : Py.get e.inputs i with
    | error err => simp [removeInputFromStep, hv, h]
    | ok v =>
      have hns := hc v hv
      rcases h.find (Py.get_mem hv) with ⟨-, hs, -⟩ | ⟨b, hb, hvb, -, -⟩
      · exact absurd hs hns
      · obtain ⟨e', he, hs, -⟩ := h.removeInput hv hb hvb
        rw [he]
        exact hs
  | reorderInputs k order =>
    show Sound (reorderStepInputs k order e).1
    rcases hr : reorderStepInputs k order e with ⟨e', _ | err⟩
    · obtain ⟨a, ha, hp⟩ := C34_inputs_partial h hc hr
      obtain ⟨a', ha', -, -, ho, hst, hsp, hin⟩ := C34_inputs hr
      rw [ha] at ha'
      simp only [Except.ok.injEq] at ha'
      subst ha'
      obtain ⟨rest, h1, h2⟩ := stepped_split h.distinct (Py.get_mem ha)
      have h3 := h2 fun _ => e'.obj a
      have : (e.setStep a fun _ => e'.obj a).stepped = e'.stepped := by
        unfold Ed.stepped
        rw [hst]
        refine List.flatMap_congr fun b _ => ?_
        simp only [Ed.setStep]
        split
        · rename_i hb; subst hb; rfl
        · rename_i hb; rw [ho b hb]
      rw [this] at h3
      have hperm : e'.stepped.Perm e.stepped := h3.trans ((hp.append_right rest).trans h1.symm)
      have hnx : e'.next = e.next := by
        unfold reorderStepInputs at hr
        split at hr
        · simp at hr
        split at hr
        · split at hr <;> simp at hr
          rw [← hr]; rfl
        · simp at hr
      refine ⟨by rw [hin]; exact h.nodup, ?_, by rw [hst]; exact h.distinct, by rw [hst, hnx]; exact h.known⟩
      rw [hin]
      refine .trans ?_ h.perm
      unfold Ed.placed
      rw [hsp]
      exact hperm.append_right _
    · rw [C34_inputs_raises hr]
      exact h
  | insert l k => exact h.insertStep l k
  | rename k l =>
    show Sound (renameStep k l e).1
    unfold renameStep
    split
    · exact h
    · dsimp only; refine Sound.setSame h ?_; rfl
  | document k t =>
    show Sound (saveStepDocumentation k t e).1
    unfold saveStepDocumentation
    split
    · exact h
    · dsimp only; refine Sound.setSame h ?_; rfl
  | reorder order =>
    show Sound (reorderSteps order e).1
    rcases hr : reorderSteps order e with ⟨e', _ | err⟩
    · have hp := C34_steps_partial hc hr
      obtain ⟨-, hin, hsp, hob⟩ := C34_order hr
      have hnx : e'.next = e.next := by
        unfold reorderSteps at hr
        split at hr
        · simp at hr
        split at hr
        · simp at hr
        split at hr <;> simp at hr
        rw [← hr]
      refine ⟨by rw [hin]; exact h.nodup, ?_, hp.nodup_iff.2 h.distinct, ?_⟩
      · rw [hin]
        refine .trans ?_ h.perm
        unfold Ed.placed Ed.stepped
        rw [hsp, hob]
        exact (hp.flatMap_right _).append_right _
      · intro a ha
        rw [hnx]
        exact h.known a (hp.mem_iff.1 ha)
    · rw [C34_raises hr]
      exact h
  | remove k => exact h.removeStep_any k
  | reset =>
    obtain ⟨e', he, hs, -⟩ := h.resetLoop rfl
    show Sound (resetLoop e.steps.length e).1
    rw [he]
    exact hs
  | addDisplay u v k d =>
    show Sound (addStepDisplay u v k d e).1
    have hg := gatherInputs_sound (prev := (Py.prefixSlice e.steps k).flatMap fun a => (e.obj a).inputs) (k := k)
      (vs := u) h
    unfold addStepDisplay
    dsimp only
    split
    · rename_i heq
      rw [heq] at hg
      exact hg
    · rename_i heq
      rw [heq] at hg
      split
      · exact hg
      · split
        · exact hg
        · dsimp only at hg ⊢; refine Sound.setSame hg ?_; rfl
  | removeDisplay k =>
    show Sound (removeStepDisplay k e).1
    unfold removeStepDisplay
    split
    · exact h
    · dsimp only; refine Sound.setSame h ?_; rfl

/-- After any history of careful editions, some of which may have raised, each input of the workflow is exactly once in
the steps or in the spare inputs.  Missing for the full property: the editions which are not careful (see
`C33_spare_violated`, `C34_violated` and `C34_inputs_violated`). -/
theorem C33_partial {e : Ed δ} (h : Sound e) {ops : List (EditOp δ)} (hc : CarefulHistory e ops) :
    Sound (edits ops e) ∧ ∀ v ∈ (edits ops e).inputs, (edits ops e).placed.count v = 1 := by
  have hs : Sound (edits ops e) := by
    unfold edits
    induction ops generalizing e with
    | nil => exact h
    | cons op ops ih => exact ih (C33_step h hc.1) hc.2
  exact ⟨hs, fun v hv => List.count_eq_one_of_mem hs.nodup_placed (hs.perm.mem_iff.2 hv)⟩

/-- `remove_input_from_step` called on a spare input raises, but lists it a second time in the spare inputs. -/
theorem C33_spare_violated : ∃ (e : Ed Unit), Sound e ∧ (removeInputFromStep 0 e).2 = some .attributeError ∧
    (removeInputFromStep 0 e).1.spare = [5, 5] :=
  ⟨Ed.init [5] [], C33_init (by decide) (by decide) (by decide), rfl, rfl⟩

/-- `change_input_step` puts the input in the given step and moves no other. -/
theorem C33_change {e : Ed δ} (h : Sound e) {i k : Int} {v a : Nat} (hv : Py.get e.inputs i = .ok v)
    (ha : Py.get e.steps k = .ok a) : ∃ e', changeInputStep i k e = (e', none) ∧ Sound e' ∧ e'.steps = e.steps ∧
      v ∈ (e'.obj a).inputs ∧ ∀ b w, w ≠ v → (w ∈ (e'.obj b).inputs ↔ w ∈ (e.obj b).inputs) := by
  obtain ⟨e', h1, h2, -, h4, h5, h6, -⟩ := h.changeInputStep hv ha
  exact ⟨e', h1, h2, h4, h5, h6⟩

/-- `remove_step` removes this step only, and its inputs become spare. -/
theorem C33_remove {e : Ed δ} (h : Sound e) {k : Int} {a : Nat} (ha : Py.get e.steps k = .ok a) :
    ∃ e', removeStep k e = (e', none) ∧ e'.steps = e.steps.erase a ∧ (∀ b, b ≠ a → e'.obj b = e.obj b) ∧
      e'.spare.Perm (e.spare ++ (e.obj a).inputs) := by
  obtain ⟨e', h1, -, -, h4, h5, h6⟩ := h.removeStep ha
  exact ⟨e', h1, h4, h5, h6⟩

/-- After `reset_steps` there is no step, and all the inputs are spare. -/
theorem C33_reset {e : Ed δ} (h : Sound e) : ∃ e', resetSteps e = (e', none) ∧ e'.steps = [] ∧
    e'.spare.Perm e.inputs := by
  obtain ⟨e', h1, h2, h3, h4⟩ := h.resetLoop rfl
  refine ⟨e', h1, h4, ?_⟩
  have := h2.perm
  rw [h3] at this
  simpa [Ed.placed, Ed.stepped, h4] using this

/-- Two steps and four inputs. -/
def exE : Ed Unit := Ed.init [5, 7, 9, 11] [{ label := "a", inputs := [7] }, { label := "b", inputs := [5, 9] }]

theorem exE_sound : Sound exE := C33_init (by decide) (by decide) (by decide)

/-- A careful history which moves inputs, inserts, reorders and removes steps. -/
def exOps : List (EditOp Unit) :=
  [.changeInputs [3, 0] 0, .insert "c" (some (-1)), .reorder [2, 0, 1], .removeInput 1, .reorderInputs 1 [0, 3],
    .rename 7 "out of range", .addDisplay [9, 11] 0 0 (.ok ()), .remove (-1), .changeInputs [1] 1]

example : CarefulHistory exE exOps := by
  simp only [exOps, CarefulHistory, Careful, true_and, and_true]
  refine ⟨by decide, ?_, by decide⟩
  intro v hv hm
  have h7 : v = 7 := by
    have : Py.get exE.inputs 1 = .ok 7 := rfl
    have h2 : Py.get exE.inputs 1 = .ok v := hv
    rw [this] at h2
    simpa using h2.symm
  subst h7
  revert hm
  decide

example : (edits exOps exE).steps = [1, 0] ∧ ((edits exOps exE).steps.map fun a => ((edits exOps exE).obj a).inputs) =
    [[9, 11], [5, 7]] := by decide

theorem gather_spec {prev : List Nat} {k : Int} {a : Nat} : ∀ {vs : List Nat} {e e' : Ed δ}, Sound e →
    Py.get e.steps k = .ok a → gatherInputs prev k vs e = (e', none) → Sound e' ∧ e'.steps = e.steps ∧
      (∀ v ∈ vs, v ∈ prev ∨ v ∈ (e'.obj a).inputs) ∧ (∀ v, v ∈ (e.obj a).inputs → v ∈ (e'.obj a).inputs) ∧
      ∀ b v, v ∈ prev → v ∈ (e.obj b).inputs → v ∈ (e'.obj b).inputs
  | [], e, e', h, ha, hg => by
    simp only [gatherInputs, Prod.mk.injEq, and_true] at hg
    subst hg
    exact ⟨h, rfl, by simp, fun _ h => h, fun _ _ _ h => h⟩
  | v :: vs, e, e', h, ha, hg => by
    unfold gatherInputs at hg
    split at hg
    · rename_i hp
      obtain ⟨h1, h2, h3, h4, h5⟩ := gather_spec h ha hg
      refine ⟨h1, h2, fun w hw => ?_, h4, h5⟩
      rcases List.mem_cons.1 hw with rfl | hw
      · exact .inl (by simpa using hp)
      · exact h3 w hw
    split at hg
    · rename_i hp hin
      simp only [List.contains_iff_mem] at hin hp
      obtain ⟨e1, he, hs1, hi1, hst1, hv1, hm1, -⟩ := h.changeInputStep (get_idxOf hin) ha
      rw [he] at hg
      dsimp only at hg
      obtain ⟨h1, h2, h3, h4, h5⟩ := gather_spec hs1 (by rw [hst1]; exact ha) hg
      refine ⟨h1, h2.trans hst1, fun w hw => ?_, fun w hw => ?_, fun b w hw hb => ?_⟩
      · rcases List.mem_cons.1 hw with rfl | hw
        · exact .inr (h4 _ hv1)
        · exact h3 w hw
      · by_cases hc : w = v
        · subst hc; exact h4 _ hv1
        · exact h4 w ((hm1 a w hc).2 hw)
      · by_cases hc : w = v
        · subst hc; exact absurd hw (by simpa using hp)
        · exact h5 b w hw ((hm1 b w hc).2 hb)
    · simp at hg

/-- Once a display is added to a step, all the inputs needed to compute the displayed variable are in this step or in a
step before it, and the display is recorded on this step. -/
theorem C78_display {e e' : Ed δ} (h : Sound e) {upstream : List Nat} {vi k : Int} {d : δ} {a n : Nat}
    (hk : Py.idx e.steps.length k = some n) (ha : e.steps[n]? = some a)
    (hd : addStepDisplay upstream vi k (.ok d) e = (e', none)) :
    e'.steps = e.steps ∧ (e'.obj a).display = some (d, vi) ∧ (e'.obj a).groupInputs = upstream ∧
      ∀ v ∈ upstream, ∃ m b, m ≤ n ∧ e'.steps[m]? = some b ∧ v ∈ (e'.obj b).inputs := by
  have hget : Py.get e.steps k = .ok a := Py.get_ok.2 ⟨n, hk, ha⟩
  have hbound : Py.bound e.steps.length k = n := by
    unfold Py.bound
    unfold Py.idx at hk
    split at hk <;> split at hk <;> simp at hk
    · rename_i h1 h2; rw [if_pos h1]; omega
    · rename_i h1 h2; rw [if_neg h1]; omega
  unfold addStepDisplay at hd
  dsimp only at hd
  split at hd
  · simp at hd
  · rename_i e1 hg
    obtain ⟨hs1, hst1, hall, -, hkeep⟩ := gather_spec h hget hg
    rw [hst1, hget] at hd
    simp only [Prod.mk.injEq, and_true] at hd
    subst hd
    refine ⟨hst1, by simp [Ed.setStep], by simp [Ed.setStep], fun v hv => ?_⟩
    have hob : ∀ b, ((e1.setStep a fun s => { s with display := some (d, vi), groupInputs := upstream }).obj b).inputs =
        (e1.obj b).inputs := by
      intro b
      simp only [Ed.setStep]
      split
      · rename_i hb; subst hb; rfl
      · rfl
    rcases hall v hv with hp | hp
    · obtain ⟨b, hb, hvb⟩ := List.mem_flatMap.1 hp
      unfold Py.prefixSlice at hb
      rw [hbound] at hb
      obtain ⟨m, hm, hmb⟩ := List.getElem_of_mem hb
      simp only [List.length_take] at hm
      rw [List.getElem_take] at hmb
      refine ⟨m, b, by omega, ?_, ?_⟩
      · show e1.steps[m]? = some b
        rw [hst1, List.getElem?_eq_getElem (by omega), hmb]
      · rw [hob]
        exact hkeep b v hp hvb
    · refine ⟨n, a, Nat.le_refl _, ?_, ?_⟩
      · show e1.steps[n]? = some a
        rw [hst1, ha]
      · rw [hob]
        exact hp

/-- Editing the steps afterwards may put an input of a display after it: the display is kept although its inputs are no
more available at this step. -/
theorem C78_stays_violated : ∃ (e e1 e2 : Ed Unit), Sound e ∧ addStepDisplay [9, 11] 0 0 (.ok ()) e = (e1, none) ∧
    changeInputStep 2 1 e1 = (e2, none) ∧ (e2.obj 0).display = some ((), 0) ∧ 9 ∈ (e2.obj 0).groupInputs ∧
    9 ∉ (e2.obj 0).inputs ∧ 9 ∈ (e2.obj 1).inputs ∧ e2.steps = [0, 1] :=
  ⟨exE, _, _, exE_sound, rfl, rfl, rfl, by decide, by decide, by decide, rfl⟩

/-- A step whose display is removed has neither display nor inputs at hand, and nothing else changes. -/
theorem C78_removed {e : Ed δ} {k : Int} {n a : Nat} (hk : Py.idx e.steps.length k = some n) (ha : e.steps[n]? = some a) :
    ∃ e', removeStepDisplay k e = (e', none) ∧ e'.steps = e.steps ∧ e'.inputs = e.inputs ∧ e'.spare = e.spare ∧
      (e'.obj a).display = none ∧ (e'.obj a).groupInputs = [] ∧ (e'.obj a).inputs = (e.obj a).inputs ∧
      ∀ b, b ≠ a → e'.obj b = e.obj b := by
  have hget : Py.get e.steps k = .ok a := Py.get_ok.2 ⟨n, hk, ha⟩
  unfold removeStepDisplay
  rw [hget]
  refine ⟨_, rfl, rfl, rfl, rfl, ?_, ?_, ?_, fun b hb => ?_⟩
  · simp [Ed.setStep]
  · simp [Ed.setStep]
  · simp [Ed.setStep]
  · simp [Ed.setStep, hb]

/-- The step of an input is found when there is one, and refused when there are several. -/
theorem C33_find (e : Ed δ) (v : Nat) :
    (∀ a, findInputStep e v = .ok (some a) ↔ e.steps.filter (fun b => decide (v ∈ (e.obj b).inputs)) = [a]) ∧
    (findInputStep e v = .ok none ↔ ∀ a ∈ e.steps, v ∉ (e.obj a).inputs) ∧
    (findInputStep e v = .error .valueError ↔ 1 < e.steps.countP (fun b => decide (v ∈ (e.obj b).inputs))) := by
  have hf : e.steps.filter (fun a => (e.obj a).inputs.contains v) = e.steps.filter (fun b => decide (v ∈ (e.obj b).inputs)) := by
    simp only [List.contains_eq_mem]
  have hn : (∀ a ∈ e.steps, v ∉ (e.obj a).inputs) ↔ e.steps.filter (fun b => decide (v ∈ (e.obj b).inputs)) = [] := by
    rw [List.filter_eq_nil_iff]
    simp
  rw [hn, List.countP_eq_length_filter]
  unfold findInputStep
  rw [hf]
  cases e.steps.filter (fun b => decide (v ∈ (e.obj b).inputs)) with
  | nil => simp
  | cons a l => cases l <;> simp

example : (addStepDisplay [7, 9, 11] 0 1 (.ok ()) exE).2 = none ∧
    ((addStepDisplay [7, 9, 11] 0 1 (.ok ()) exE).1.obj 1).inputs = [5, 9, 11] := by decide

end DC.Wkf
