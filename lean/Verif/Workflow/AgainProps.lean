import Verif.Workflow.CallbackProps
import Verif.Workflow.ArgumentsProps
import Verif.Workflow.RunSim
/- Property C153: a completed run is run again with the values it holds, or from a document. -/
namespace DC.Wkf

variable {α δ ν : Type} {W : Workflow α}

theorem allowedValues_range : ∀ {user a : List (Nat × α)}, allowedValues W user = .ok a → ∀ x ∈ user, x.1 < (inputs W).length
  | [], _, _ => by simp
  | (k, x) :: user, a, h => by
    rw [allowedValues] at h
    split at h
    · simp at h
    · rename_i v hv
      simp only [bind_ok] at h
      obtain ⟨-, -, r, h1, -⟩ := h
      intro y hy
      rcases List.mem_cons.1 hy with rfl | hy
      · exact (List.getElem?_eq_some_iff.1 hv).1
      · exact allowedValues_range h1 y hy

/-- The values a completed run holds for the inputs of its workflow, by index: its `input_values`. -/
def Holds (W : Workflow α) (s : St α) (kept : List (Nat × α)) : Prop :=
  (∀ x ∈ kept, x.1 < (inputs W).length) ∧ ∀ k, k < (inputs W).length → kept.lookup k = s.inputValues k

/-- **C153** A completed run, run again with the values it holds and a callback which does not raise, ends as it did: whatever values the
user had given, the same values, blocks evaluated and output. -/
theorem C153_same (hw : WellFormed W) (hl : LocksOk W) {so : SetOrder} {user kept : List (Nat × α)} {s : St α} (h : run W so user = .ok (some s))
    (hk : Holds W s kept) (tells : Nat → List α → List Rat) {cb : Rat → Except PyErr Unit} (hcb : ∀ x, cb x = .ok ()) :
    ∃ t, runAgain W so tells kept (some cb) = .ok (some s, t) := by
  have hu : ∀ x ∈ user, x.1 < (inputs W).length := by
    obtain ⟨vals, _, _, _, h1, -⟩ := run_ok h
    unfold inputValues at h1
    rw [bind_ok] at h1
    obtain ⟨a, ha, -⟩ := h1
    exact allowedValues_range ha
  have e : run W so kept = run W so user := by
    unfold run
    rw [inputValues_eq hl hk.1 hu fun k => ?_]
    by_cases hlt : k < (inputs W).length
    · have hv : (inputs W)[k]? = some ((inputs W)[k]) := List.getElem?_eq_getElem hlt
      have h1 := hk.2 k hlt
      obtain ⟨h2, h3⟩ := run_holds hw h hlt
      rw [h2] at h1 h3
      obtain ⟨y, hy⟩ := Option.isSome_iff_exists.1 h3
      rw [hy] at h1 ⊢
      unfold expected at hy ⊢
      rw [hv] at hy ⊢
      simp only [h1] at hy ⊢
      split
      · rename_i hlk
        rw [if_pos hlk] at hy
        exact hy
      · rfl
    · unfold expected
      rw [List.getElem?_eq_none (by omega)]
  have h4 := C153_partial (W := W) so tells kept hcb
  rw [e, h] at h4
  obtain ⟨⟨r, t⟩, h5, h6⟩ := map_ok h4
  simp only at h6
  exact ⟨t, by rw [h5, h6]⟩

/-- **C153** A completed run is not run again from a document: whatever the workflow, the document and the method, `run_again` included, reading
the arguments raises `NotImplementedError`, even for a document of which the workflow reads the arguments. -/
theorem C153_document_violated (R : ArgReader α δ ν) (W : Workflow α) (allowed : List String) (d : List (String × δ)) (method : String) :
    runDictToArguments R W allowed d method = .error .notImplemented := by
  simp [runDictToArguments, runAllowed]

/-- A case of `C153_same`: the user gave two of the three values, the run holds three. -/
example : ∃ s, run exW dedupOrder [(1, 1), (2, 5)] = .ok (some s) ∧ ∃ kept, kept.length = 3 ∧ Holds exW s kept := by
  obtain ⟨s, h⟩ := C27_completes exW_wf exW_locks exW_output exW_total dedupOrder [(1, 1), (2, 5)] (by decide) (by decide)
  refine ⟨s, h, ?_⟩
  have hh := fun k hk => run_holds exW_wf h (k := k) hk
  rw [exW_inputs] at hh
  obtain ⟨x, hx⟩ := Option.isSome_iff_exists.1 (hh 0 (by decide)).2
  obtain ⟨y, hy⟩ := Option.isSome_iff_exists.1 (hh 1 (by decide)).2
  obtain ⟨z, hz⟩ := Option.isSome_iff_exists.1 (hh 2 (by decide)).2
  refine ⟨[(0, x), (1, y), (2, z)], rfl, ?_⟩
  unfold Holds
  rw [exW_inputs]
  refine ⟨by simp, fun k hk => ?_⟩
  match k, hk with
  | 0, _ => exact hx.symm
  | 1, _ => exact hy.symm
  | 2, _ => exact hz.symm

/-- A case of `C153_document_violated`: the document of `exArguments`, which the workflow reads. -/
example : (∃ r, dictToArguments exReader exW ["run"] [("2", 5), ("1", 1), ("7", 3)] "run" = .ok r) ∧
    runDictToArguments exReader exW ["run"] [("2", 5), ("1", 1), ("7", 3)] "run_again" = .error .notImplemented :=
  ⟨⟨_, exArguments⟩, C153_document_violated _ _ _ _ _⟩

end DC.Wkf
