import Verif.Workflow.PersistProps
/-
Property C205: what a new workflow is.
-/
namespace DC.Wkf

variable {κ τ α δ J : Type} [Inhabited τ]

/-- C205.  A workflow is made exactly when it has no output or its output is an output of one of its blocks. -/
theorem C205_output (w : World κ τ α δ J) (s : Store τ α) (blocks : List (BlockO κ)) (pipes : List (Nat × Nat)) (output : Option Nat)
    (steps : List (StepO δ)) (description documentation name : String) :
    ((∃ W, mkWf w s blocks pipes output steps description documentation name = .ok W) ↔
      ∀ o, output = some o → ∃ b ∈ blocks, o ∈ b.outputs) ∧
    ((∃ o, output = some o ∧ ∀ b ∈ blocks, o ∉ b.outputs) →
      mkWf w s blocks pipes output steps description documentation name = .error .workflowError) := by
  have hbad : (∃ o, output = some o ∧ ∀ b ∈ blocks, o ∉ b.outputs) →
      mkWf w s blocks pipes output steps description documentation name = .error .workflowError := by
    rintro ⟨o, rfl, ho⟩
    unfold mkWf
    simpa using ho
  refine ⟨⟨?_, fun h => ?_⟩, hbad⟩
  · rintro ⟨W, hW⟩ o ho
    by_contra hno
    rw [hbad ⟨o, ho, fun b hb h => hno ⟨b, hb, h⟩⟩] at hW
    cases hW
  · obtain ⟨det, h⟩ := mkWf_ok w s pipes steps description documentation name h
    exact ⟨_, h⟩

/-- C205.  It holds what it was given; and it has a variable for the name of its result, either the free variable of this name or the
detached variable of the module, which is added exactly when there is none. -/
theorem C205_given {w : World κ τ α δ J} {s : Store τ α} {blocks : List (BlockO κ)} {pipes : List (Nat × Nat)} {output : Option Nat}
    {steps : List (StepO δ)} {description documentation name : String} {W : Wf κ δ}
    (h : mkWf w s blocks pipes output steps description documentation name = .ok W) :
    (W.blocks = blocks ∧ W.pipes = pipes ∧ W.output = output ∧ W.steps = steps ∧ W.description = description ∧
      W.documentation = documentation ∧ W.name = name) ∧
    ((∃ v, VarOf W v ∧ ¬ PortOf W v ∧ (look s v).name = "_result_name_") → W.detached = []) ∧
    ((¬ ∃ v, VarOf W v ∧ ¬ PortOf W v ∧ (look s v).name = "_result_name_") → W.detached = [0]) := by
  have hn := fun v => Built.mem_nbvs (w := w) (s := s) (W := ⟨blocks, pipes, output, steps, [], description, documentation, name⟩) (v := v)
  have key : W = ⟨blocks, pipes, output, steps, if (nbvs (skel w s (⟨blocks, pipes, output, steps, [], description, documentation, name⟩ : Wf κ δ))).any
      (fun v => (look s v).name == "_result_name_") then [] else [0], description, documentation, name⟩ := by
    unfold mkWf at h
    cases output with
    | none => exact (Except.ok.inj h).symm
    | some o =>
      simp only at h
      split at h
      · exact (Except.ok.inj h).symm
      · cases h
  subst key
  refine ⟨⟨rfl, rfl, rfl, rfl, rfl, rfl, rfl⟩, ?_, ?_⟩
  · rintro ⟨v, h1, h2, h3⟩
    exact if_pos (List.any_eq_true.2 ⟨v, (hn v).2 ⟨h1, h2⟩, by simp [h3]⟩)
  · intro hno
    refine if_neg fun hany => hno ?_
    obtain ⟨v, hv, h3⟩ := List.any_eq_true.1 hany
    exact ⟨v, ((hn v).1 hv).1, ((hn v).1 hv).2, by simpa using h3⟩

/-! ### Examples -/

/-- A block with the input 1 and the output 2: 2 may be the output, 1 may not. -/
example (w : World κ τ α δ J) (s : Store τ α) (b : BlockO κ) (hb : b.inputs = [1] ∧ b.outputs = [2]) :
    (∃ W, mkWf w s [b] [] (some 2) ([] : List (StepO δ)) "" "" "w" = .ok W) ∧
    mkWf w s [b] [] (some 1) ([] : List (StepO δ)) "" "" "w" = .error .workflowError :=
  ⟨(C205_output ..).1.2 fun o ho => ⟨b, by simp, by simp at ho; simp [hb, ho]⟩, (C205_output ..).2 ⟨1, rfl, fun c hc => by simp at hc; simp [hc, hb]⟩⟩

end DC.Wkf
