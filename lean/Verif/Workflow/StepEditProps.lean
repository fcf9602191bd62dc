import Verif.Workflow.StepsProps
/- Property theorems on what each edition of the steps changes: C199. -/
namespace DC.Wkf
variable {δ : Type}

/-- Spec: the two steps show the same, their inputs apart. -/
def SameShow (s t : StepObj δ) : Prop :=
  s.label = t.label ∧ s.groupInputs = t.groupInputs ∧ s.display = t.display ∧ s.documentation = t.documentation

theorem SameShow.rfl' (s : StepObj δ) : SameShow s s := ⟨rfl, rfl, rfl, rfl⟩

theorem SameShow.trans {s t u : StepObj δ} (h : SameShow s t) (h' : SameShow t u) : SameShow s u :=
  ⟨h.1.trans h'.1, h.2.1.trans h'.2.1, h.2.2.1.trans h'.2.2.1, h.2.2.2.trans h'.2.2.2⟩

theorem setInputs_show (e : Ed δ) (a : Nat) (f : StepObj δ → List Nat) (b : Nat) :
    SameShow ((e.setStep a fun s => { s with inputs := f s }).obj b) (e.obj b) := by
  by_cases hb : b = a
  · subst hb
    simp [Ed.setStep, SameShow]
  · simp [Ed.setStep, hb, SameShow]

theorem changeInputStep_show (i k : Int) (e : Ed δ) (b : Nat) : SameShow ((changeInputStep i k e).1.obj b) (e.obj b) := by
  unfold changeInputStep
  split
  · exact .rfl' _
  split
  · exact .rfl' _
  split
  · exact .rfl' _
  rename_i v _ _ cur _ _ a _
  dsimp only
  split
  · split
    · exact setInputs_show e a (fun s => s.inputs ++ [v]) b
    · exact setInputs_show e a (fun s => s.inputs ++ [v]) b
  · split
    · rename_i c _ _ l _
      exact (setInputs_show _ c (fun _ => l) b).trans (setInputs_show e a (fun s => s.inputs ++ [v]) b)
    · exact setInputs_show e a (fun s => s.inputs ++ [v]) b

theorem insertIdx_parts {x : Nat} : ∀ {l : List Nat} {n : Nat}, n ≤ l.length → l.insertIdx n x = l.take n ++ x :: l.drop n
  | [], n, hn => by
    have : n = 0 := by simpa using hn
    subst this
    rfl
  | _ :: _, 0, _ => rfl
  | y :: ys, n + 1, hn => by
    have := insertIdx_parts (x := x) (l := ys) (n := n) (by simpa using hn)
    simp [this]

/-! ### C199 -/

/-- C199.  `change_inputs_step` puts all the inputs given in the given step and moves no other one; the spare inputs are the
former ones without them; no step is added, removed or renamed, and the displays and documentations of the steps stay. -/
theorem C199_move {k : Int} {a : Nat} : ∀ {is : List Int} {e : Ed δ}, Sound e → Py.get e.steps k = .ok a →
    ∀ {vs : List Nat}, List.Forall₂ (fun i v => Py.get e.inputs i = .ok v) is vs →
    ∃ e', changeInputsStep is k e = (e', none) ∧ e'.steps = e.steps ∧ e'.inputs = e.inputs ∧
      (∀ v ∈ vs, v ∈ (e'.obj a).inputs) ∧ (∀ b w, w ∉ vs → (w ∈ (e'.obj b).inputs ↔ w ∈ (e.obj b).inputs)) ∧
      (∀ w, w ∈ e'.spare ↔ w ∈ e.spare ∧ w ∉ vs) ∧ ∀ b, SameShow (e'.obj b) (e.obj b)
  | [], e, h, ha, vs, hv => by
    cases hv
    exact ⟨e, rfl, rfl, rfl, by simp, by simp, by simp, fun b => .rfl' _⟩
  | i :: is, e, h, ha, vs, hv => by
    cases hv with
    | cons h1 h2 =>
      rename_i v vs
      obtain ⟨e1, c1, c2, c3, c4, c5, c6, c7⟩ := h.changeInputStep h1 ha
      have sh := changeInputStep_show i k e
      rw [c1] at sh
      obtain ⟨e', d1, d2, d3, d4, d5, d6, d7⟩ := C199_move (is := is) c2 (by rw [c4]; exact ha) (vs := vs) (by rw [c3]; exact h2)
      have hsp : ∀ w, w ∈ e1.spare ↔ w ∈ e.spare ∧ w ≠ v := by
        intro w
        have hn : e.spare.Nodup := (List.nodup_append.1 h.nodup_placed).2.1
        rw [c7, hn.mem_erase_iff]
        exact and_comm
      refine ⟨e', by rw [changeInputsStep, c1]; exact d1, d2.trans c4, d3.trans c3, ?_, ?_, ?_, fun b => (d7 b).trans (sh b)⟩
      · intro w hw
        rcases List.mem_cons.1 hw with rfl | hw
        · by_cases hin : w ∈ vs
          · exact d4 w hin
          · exact (d5 a w hin).2 c5
        · exact d4 w hw
      · intro b w hw
        simp only [List.mem_cons, not_or] at hw
        exact (d5 b w hw.2).trans (c6 b w hw.1)
      · intro w
        rw [d6, hsp]
        simp only [List.mem_cons, not_or]
        tauto

/-- C199 is violated by the code: when an index given to `change_inputs_step` is out of range it raises, but the inputs
before it have been moved. -/
theorem C199_refused_violated : ∃ e e' : Ed Unit, Sound e ∧ changeInputsStep [3, 9] 0 e = (e', some .indexError) ∧
    (e.obj 0).inputs = [7] ∧ (e'.obj 0).inputs = [7, 11] ∧ e.spare = [11] ∧ e'.spare = [] :=
  ⟨exE, _, exE_sound, rfl, rfl, rfl, rfl, rfl⟩

/-- C199, what holds of refused editions: renaming a step, writing its documentation, removing its display, reordering the
steps or the inputs of one, and moving one input change nothing when they raise.  Missing: moving several inputs
(`C199_refused_violated`) and removing an input from its step (`C33_spare_violated`). -/
theorem C199_refused_partial {e : Ed δ} (h : Sound e) {op : EditOp δ} (hop : match op with
      | .rename .. => True | .document .. => True | .removeDisplay .. => True | .reorder .. => True
      | .reorderInputs .. => True | .changeInputs is _ => is.length = 1 | _ => False)
    {e' : Ed δ} {err : PyErr} (hr : op.run e = (e', some err)) : e' = e := by
  cases op with
  | rename k l =>
    simp only [EditOp.run, renameStep] at hr
    split at hr
    · cases hr; rfl
    · cases hr
  | document k l =>
    simp only [EditOp.run, saveStepDocumentation] at hr
    split at hr
    · cases hr; rfl
    · cases hr
  | removeDisplay k =>
    simp only [EditOp.run, removeStepDisplay] at hr
    split at hr
    · cases hr; rfl
    · cases hr
  | reorder o => exact C34_raises hr
  | reorderInputs k o => exact C34_inputs_raises hr
  | changeInputs is k =>
    match is, hop with
    | [i], _ =>
      simp only [EditOp.run, changeInputsStep] at hr
      cases hv : Py.get e.inputs i with
      | error x =>
        simp only [changeInputStep, hv] at hr
        cases hr; rfl
      | ok v =>
        cases ha : Py.get e.steps k with
        | error x =>
          rcases h.find (Py.get_mem hv) with ⟨hf, -⟩ | ⟨b, -, -, -, hf⟩ <;>
            (simp only [changeInputStep, hv, hf, ha] at hr; cases hr; rfl)
        | ok a =>
          obtain ⟨e1, c1, -⟩ := h.changeInputStep hv ha
          rw [c1] at hr
          cases hr
  | _ => exact hop.elim

/-- C199.  `rename_step` gives the step its new label and changes nothing else. -/
theorem C199_rename {e : Ed δ} {k : Int} {n a : Nat} (l : String) (hk : Py.idx e.steps.length k = some n)
    (ha : e.steps[n]? = some a) : ∃ e', renameStep k l e = (e', none) ∧ e'.steps = e.steps ∧ e'.inputs = e.inputs ∧
      e'.spare = e.spare ∧ e'.obj a = ⟨l, (e.obj a).inputs, (e.obj a).groupInputs, (e.obj a).display, (e.obj a).documentation⟩ ∧
      ∀ b, b ≠ a → e'.obj b = e.obj b := by
  have hget : Py.get e.steps k = .ok a := Py.get_ok.2 ⟨n, hk, ha⟩
  unfold renameStep
  rw [hget]
  exact ⟨_, rfl, rfl, rfl, rfl, by simp [Ed.setStep], fun b hb => by simp [Ed.setStep, hb]⟩

/-- C199.  `save_step_documentation` gives the step its new documentation and changes nothing else. -/
theorem C199_document {e : Ed δ} {k : Int} {n a : Nat} (t : String) (hk : Py.idx e.steps.length k = some n)
    (ha : e.steps[n]? = some a) : ∃ e', saveStepDocumentation k t e = (e', none) ∧ e'.steps = e.steps ∧
      e'.inputs = e.inputs ∧ e'.spare = e.spare ∧
      e'.obj a = ⟨(e.obj a).label, (e.obj a).inputs, (e.obj a).groupInputs, (e.obj a).display, t⟩ ∧
      ∀ b, b ≠ a → e'.obj b = e.obj b := by
  have hget : Py.get e.steps k = .ok a := Py.get_ok.2 ⟨n, hk, ha⟩
  unfold saveStepDocumentation
  rw [hget]
  exact ⟨_, rfl, rfl, rfl, rfl, by simp [Ed.setStep], fun b hb => by simp [Ed.setStep, hb]⟩

/-- C199.  `remove_input_from_step` takes the input out of its step, makes it spare, and changes nothing else. -/
theorem C199_free {e : Ed δ} (h : Sound e) {i : Int} {v b : Nat} (hv : Py.get e.inputs i = .ok v) (hb : b ∈ e.steps)
    (hvb : v ∈ (e.obj b).inputs) : ∃ e', removeInputFromStep i e = (e', none) ∧ e'.steps = e.steps ∧ e'.inputs = e.inputs ∧
      e'.spare = e.spare ++ [v] ∧ (e'.obj b).inputs = (e.obj b).inputs.erase v ∧ (∀ c, SameShow (e'.obj c) (e.obj c)) ∧
      ∀ c, c ≠ b → e'.obj c = e.obj c := by
  obtain ⟨e', h1, -, h3, h4, h5, h6⟩ := h.removeInput hv hb hvb
  refine ⟨e', h1, h4, h3, h5, by rw [h6]; simp [Ed.setStep], fun c => ?_, fun c hc => by rw [h6]; simp [Ed.setStep, hc]⟩
  rw [h6]
  exact setInputs_show e b (fun _ => (e.obj b).inputs.erase v) c

/-- C199.  `insert_step` adds one empty step with the given label, at the given place or at the end, and changes no other
step. -/
theorem C199_insert {e : Ed δ} (h : Sound e) (l : String) :
    (∃ e' a, insertStep l none e = (e', none) ∧ a ∉ e.steps ∧ e'.steps = e.steps ++ [a] ∧ e'.obj a = { label := l } ∧
      e'.inputs = e.inputs ∧ e'.spare = e.spare ∧ ∀ b ∈ e.steps, e'.obj b = e.obj b) ∧
    ∀ n ≤ e.steps.length, ∃ e' a, insertStep l (some n) e = (e', none) ∧ a ∉ e.steps ∧
      e'.steps = e.steps.take n ++ a :: e.steps.drop n ∧ e'.obj a = { label := l } ∧
      e'.inputs = e.inputs ∧ e'.spare = e.spare ∧ ∀ b ∈ e.steps, e'.obj b = e.obj b := by
  have hnew : e.next ∉ e.steps := fun hc => Nat.lt_irrefl _ (h.known _ hc)
  have hob : ∀ b ∈ e.steps, (if b = e.next then ({ label := l } : StepObj δ) else e.obj b) = e.obj b := by
    intro b hb
    rw [if_neg (fun hc : b = e.next => hnew (hc ▸ hb))]
  refine ⟨⟨_, e.next, rfl, hnew, rfl, by simp, rfl, rfl, hob⟩, fun n hn => ⟨_, e.next, rfl, hnew, ?_, by simp, rfl, rfl, hob⟩⟩
  have hb : Py.bound e.steps.length (n : Int) = n := by
    unfold Py.bound
    simp
    omega
  show Py.insert e.steps (n : Int) e.next = _
  unfold Py.insert
  rw [hb]
  exact insertIdx_parts hn

/-- C199.  Removing the step just inserted gives back the steps, each with its inputs, and the spare inputs. -/
theorem C199_undo {e : Ed δ} (h : Sound e) (l : String) {n : Nat} (hn : n ≤ e.steps.length) :
    ∃ e' e'', insertStep l (some n) e = (e', none) ∧ removeStep n e' = (e'', none) ∧ e''.steps = e.steps ∧
      e''.inputs = e.inputs ∧ e''.spare.Perm e.spare ∧ ∀ b ∈ e.steps, e''.obj b = e.obj b := by
  obtain ⟨e', a, h1, h2, h3, h4, h5, h6, h7⟩ := (C199_insert h l).2 n hn
  have hs : Sound e' := by
    have := h.insertStep l (some (n : Int))
    rw [h1] at this
    exact this
  have hlen : (e.steps.take n).length = n := by simp [hn]
  have hget : Py.get e'.steps (n : Nat) = .ok a := by
    rw [Py.get_nat, h3, List.getElem?_append_right (by omega), hlen]
    simp
  obtain ⟨e'', r1, r2, r3, r4, r5, r6⟩ := hs.removeStep hget
  refine ⟨e', e'', h1, r1, ?_, r3.trans h5, ?_, ?_⟩
  · rw [r4, h3, List.erase_append_right _ (fun hm => h2 (List.mem_of_mem_take hm))]
    simp
  · rw [h4, h6] at r6
    simpa using r6
  · intro b hb
    rw [r5 b (fun hc => h2 (hc ▸ hb)), h7 b hb]

/-! ### Examples -/

/-- Inputs of a step and spare ones are moved together. -/
example : ∃ e', changeInputsStep [3, -3] 1 exE = (e', none) ∧ (∀ v ∈ [11, 7], v ∈ (e'.obj 1).inputs) ∧
    (e'.obj 0).label = "a" := by
  obtain ⟨e', h1, -, -, h4, -, -, h7⟩ := C199_move (a := 1) exE_sound (k := 1) (by decide) (is := [3, -3]) (vs := [11, 7])
    (.cons (by decide) (.cons (by decide) .nil))
  exact ⟨e', h1, h4, (h7 0).1⟩

example : ∃ e' e'', insertStep "c" (some 1) exE = (e', none) ∧ removeStep 1 e' = (e'', none) ∧ e''.steps = exE.steps := by
  obtain ⟨e', e'', h1, h2, h3, -⟩ := C199_undo exE_sound "c" (n := 1) (by decide)
  exact ⟨e', e'', h1, h2, h3⟩

example : Py.idx exE.steps.length (-1) = some 1 ∧ exE.steps[1]? = some 1 := by decide

example : Py.get exE.inputs 2 = .ok 9 ∧ 1 ∈ exE.steps ∧ 9 ∈ (exE.obj 1).inputs := by
  refine ⟨rfl, by decide, by decide⟩

end DC.Wkf
