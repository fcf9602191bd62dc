import Verif.Workflow.PersistRound
/- Properties of the serialization of workflows: C36. -/
set_option linter.unusedSectionVars false
set_option linter.unusedSimpArgs false
namespace DC.Wkf

variable {κ τ α δ J : Type} [Inhabited τ]

theorem Replica.ren {w : World κ τ α δ J} {s s' : Store τ α} {W W' : Wf κ δ} {ρ : Nat → Nat}
    (h : Replica s W s' W' ρ) : ren ρ (skel w s W) (skel w s' W') := by
  constructor
  · simp only [skel, h.blocks, List.map_map]
    rfl
  · simp only [skel, h.pipes, List.map_map]
    rfl

theorem Built.skel_distinct {w : World κ τ α δ J} {s : Store τ α} {W : Wf κ δ} (hb : Built w s W) :
    (blockVars (skel w s W)).Nodup := by
  rw [blockVars_skel]; exact hb.distinct

theorem Built.skel_target {w : World κ τ α δ J} {s : Store τ α} {W : Wf κ δ} (hb : Built w s W) :
    ∀ p ∈ (skel w s W).pipes, ∃ b ∈ (skel w s W).blocks, p.output ∈ b.inputs := by
  intro p hp
  simp only [skel, List.mem_map] at hp
  obtain ⟨q, hq, rfl⟩ := hp
  obtain ⟨b, h1, h2⟩ := hb.target q hq
  exact ⟨_, List.mem_map.2 ⟨b, h1, rfl⟩, h2⟩

theorem Built.skel_source {w : World κ τ α δ J} {s : Store τ α} {W : Wf κ δ} (hb : Built w s W) :
    ∀ p ∈ (skel w s W).pipes, ∀ b ∈ (skel w s W).blocks, p.input ∉ b.inputs := by
  intro p hp b hbb
  simp only [skel, List.mem_map] at hp hbb
  obtain ⟨q, hq, rfl⟩ := hp
  obtain ⟨c, hc, rfl⟩ := hbb
  exact hb.source q hq c hc

theorem Built.mem_nbvs {w : World κ τ α δ J} {s : Store τ α} {W : Wf κ δ} {v : Nat} :
    v ∈ nbvs (skel w s W) ↔ VarOf W v ∧ ¬ PortOf W v := by
  obtain ⟨e, -, h, -⟩ := nbvs_spec (skel w s W)
  rw [← mem_allVariables_skel w s W, ← mem_blockVars_skel w s W, e, List.mem_append]
  exact ⟨fun hv => ⟨.inr hv, h v hv⟩, fun ⟨h1, h2⟩ => h1.resolve_left h2⟩

theorem mkWf_ok (w : World κ τ α δ J) (s : Store τ α) {blocks : List (BlockO κ)} (pipes : List (Nat × Nat))
    {output : Option Nat} (steps : List (StepO δ)) (description documentation name : String)
    (h : ∀ o, output = some o → ∃ b ∈ blocks, o ∈ b.outputs) :
    ∃ det, mkWf w s blocks pipes output steps description documentation name =
      .ok ⟨blocks, pipes, output, steps, det, description, documentation, name⟩ := by
  unfold mkWf
  cases output with
  | none => exact ⟨_, rfl⟩
  | some o =>
    obtain ⟨b, h1, h2⟩ := h o rfl
    have : blocks.any (fun b => b.outputs.contains o) = true := by
      rw [List.any_eq_true]
      exact ⟨b, h1, by simpa using h2⟩
    exact ⟨_, by simp only [this, if_true]; rfl⟩

theorem rename_output {blocks : List (BlockO κ)} {output : Option Nat} (ρ : Nat → Nat)
    (h : ∀ o, output = some o → ∃ b ∈ blocks, o ∈ b.outputs) :
    ∀ o, output.map ρ = some o → ∃ b ∈ blocks.map (BlockO.rename ρ), o ∈ b.outputs := by
  intro o ho
  obtain ⟨v, hv, rfl⟩ := Option.map_eq_some_iff.1 ho
  obtain ⟨b, h1, h2⟩ := h v hv
  exact ⟨_, List.mem_map.2 ⟨b, h1, rfl⟩, List.mem_map.2 ⟨v, h2, rfl⟩⟩

theorem output_addr {w : World κ τ α δ J} {s : Store τ α} {W : Wf κ δ} (hb : Built w s W) (ρ : Nat → Nat) :
    outputIndices w s W = .ok (W.output.map (addrOf (skel w s W))) ∧
      outputOfDict (W.blocks.map (BlockO.rename ρ)) (W.output.map (addrOf (skel w s W))) = .ok (W.output.map ρ) := by
  unfold outputIndices
  cases ho : W.output with
  | none => exact ⟨rfl, rfl⟩
  | some o =>
    obtain ⟨b, h1, h2⟩ := hb.output o ho
    have hbv : o ∈ blockVars (skel w s W) := (mem_blockVars_skel w s W).2 ⟨b, h1, .inr h2⟩
    obtain ⟨j, side, i, c, e1, e2, e3, e4⟩ := addr_port hbv
    simp only [Option.map_some, e2]
    constructor
    · rw [e1]; rfl
    · simp only [skel, List.getElem?_map, Option.map_eq_some_iff] at e3
      obtain ⟨d, hd, rfl⟩ := e3
      have hs : side = true := by
        cases side with
        | true => rfl
        | false =>
          have hin := List.mem_of_getElem? e4
          simp only [Bool.false_eq_true, if_false] at hin
          exact absurd h2 (fun h2 => in_ne_out hb.skel_distinct (List.mem_map.2 ⟨d, List.mem_of_getElem? hd, rfl⟩)
            (List.mem_map.2 ⟨b, h1, rfl⟩) hin h2)
      subst hs
      simp only [if_true] at e4
      simp only [outputOfDict, List.getElem?_map, hd, Option.map_some, BlockO.rename, e4]

/-- The dict of a workflow. -/
def wfD (w : World κ τ α δ J) (s : Store τ α) (W : Wf κ δ) : WfD κ δ J where
  name := W.name
  blocks := W.blocks.map (blockD w s)
  pipes := W.pipes.map fun p => (addrOf (skel w s W) p.1, addrOf (skel w s W) p.2)
  output := W.output.map (addrOf (skel w s W))
  free := (nbvs (skel w s W) ++ W.detached).map fun v => varD w (look s v)
  steps := W.steps.map fun t => ⟨t.label, t.display, t.inputs.map (addrOf (skel w s W)),
    t.groupInputs.map (addrOf (skel w s W)), t.groupId, t.id, t.documentation, t.displayIdx⟩
  description := W.description
  documentation := W.documentation

theorem toDict_ok {w : World κ τ α δ J} {s : Store τ α} {W : Wf κ δ} (hb : Built w s W) :
    toDict w s W = .ok (wfD w s W) := by
  have haddr : ∀ v, VarOf W v → variableIndices (skel w s W) v = .ok (addrOf (skel w s W) v) := fun v hv =>
    (addr_ok hb.skel_target ((mem_allVariables_skel w s W).2 hv)).1
  have hvar : ∀ v, VarOf W v → varToDict w (look s v) = .ok (varD w (look s v)) := fun v hv =>
    varToDict_ok w (hb.locks v (.inl hv))
  unfold toDict
  rw [mapM_pure (l := W.steps) (f := stepToDict w s W) (g := fun t => ⟨t.label, t.display,
    t.inputs.map (addrOf (skel w s W)), t.groupInputs.map (addrOf (skel w s W)), t.groupId, t.id, t.documentation,
    t.displayIdx⟩)]
  · rw [mapM_pure (l := W.blocks) (g := blockD w s) (fun b hbb => blockToDict_ok w fun v hv =>
      hb.locks v (.inl (.inl ⟨b, hbb, hv⟩)))]
    rw [mapM_pure (l := W.pipes) (f := pipeToDict w s W)
      (g := fun p => (addrOf (skel w s W) p.1, addrOf (skel w s W) p.2))]
    · rw [(output_addr hb id).1]
      rw [mapM_pure (l := nbvs (skel w s W) ++ W.detached) (g := fun v => varD w (look s v))]
      · rfl
      · intro v hv
        rcases List.mem_append.1 hv with hv | hv
        · exact hvar v (Built.mem_nbvs.1 hv).1
        · exact varToDict_ok w (hb.locks v (.inr hv))
    · intro p hp
      unfold pipeToDict
      rw [haddr p.1 (.inr ⟨p, hp, .inl rfl⟩), haddr p.2 (.inr ⟨p, hp, .inr rfl⟩)]
      rfl
  · intro t ht
    have h1 : ∀ v ∈ t.inputs, VarOf W v := fun v hv => hb.steps t ht v (by simp [hv])
    have h2 : ∀ v ∈ t.groupInputs, VarOf W v := fun v hv => hb.steps t ht v (by simp [hv])
    unfold stepToDict
    rw [mapM_pure (g := fun v => varD w (look s v)) (l := t.inputs) (fun v hv => hvar v (h1 v hv)),
      mapM_pure (g := fun v => varD w (look s v)) (l := t.groupInputs) (fun v hv => hvar v (h2 v hv)),
      mapM_pure (g := addrOf (skel w s W)) (l := t.inputs) (fun v hv => haddr v (h1 v hv)),
      mapM_pure (g := addrOf (skel w s W)) (l := t.groupInputs) (fun v hv => haddr v (h2 v hv))]
    rfl

/-! ### C36: a workflow survives serialization -/

/-- A workflow whose ports are those of the constructors of its blocks is read back from its dict, as new variables with
the same names, annotations, labels, positions, default values and locks, the same blocks, pipes between the same ports,
the same output, the same steps, the same texts.  Missing: free variables which are locked or whose annotation is not
the one of the ports they feed, detached variables, renamed ports, pipes into a free variable, steps which have the index
of a displayed variable without display setting (see the theorems below). -/
theorem C36_partial {w : World κ τ α δ J} (hrt : ∀ a, w.des (w.ser a) = a) {s : Store τ α} {W : Wf κ δ}
    (hb : Built w s W) (hfree : ∀ v, VarOf W v → ¬ PortOf W v → (look s v).lockFlag = false)
    (htype : ∀ p ∈ W.pipes, ¬ PortOf W p.1 → (look s p.1).type = (look s p.2).type)
    (hidx : ∀ t ∈ W.steps, t.display = none → t.displayIdx = none) :
    ∃ d W' s' ρ, toDict w s W = .ok d ∧ ofDict w s d = .ok (W', s') ∧ Replica s W s' W' ρ ∧
      (∀ v, VarOf W v → look s' (ρ v) = look s v) ∧
      W'.name = W.name ∧ W'.description = W.description ∧ W'.documentation = W.documentation := by
  let G := skel w s W
  let n := s.length
  let L := allVariables G
  let ρ := shift n L
  have hd : (blockVars G).Nodup := hb.skel_distinct
  have hL : L.Nodup := allVariables_nodup hd
  have hLe : L = blockVars G ++ nbvs G := (nbvs_spec G).1
  have hmem : ∀ v, v ∈ L ↔ VarOf W v := fun v => mem_allVariables_skel w s W
  have hinj : ∀ u ∈ L, ∀ v ∈ L, ρ u = ρ v → u = v := fun u hu v hv he => shift_inj hu hv he
  have hbv : W.blocks.flatMap (fun b => b.inputs ++ b.outputs) = blockVars G := (blockVars_skel w s W).symm
  -- blocks
  have e1 : blocksOfDict w s (wfD w s W).blocks = .ok (W.blocks.map (BlockO.rename ρ),
      s ++ (blockVars G).map (look s)) := by
    have := blocksOfDict_ok hrt (s := s) hL n W.blocks [] (nbvs G) s (by rw [hbv]; exact hLe) rfl
      (fun b hbb => ⟨hb.ins b hbb, hb.outs b hbb, fun v hv => hb.locks v (.inl (.inl ⟨b, hbb, hv⟩))⟩)
    rw [hbv] at this
    exact this
  -- free variables
  let s2 : Store τ α := (s ++ (blockVars G).map (look s)) ++ (wfD w s W).free.map (varOfDict w)
  let N := s2.length
  have hs1 : (s ++ (blockVars G).map (look s)).length = n + (blockVars G).length := by simp [n]
  have hNB : n + L.length ≤ N := by
    simp only [N, s2, List.length_append, List.length_map, wfD, hLe]
    change _ ≤ n + _ + ((nbvs G).length + _)
    omega
  have hfresh : ∀ v ∈ L, n ≤ ρ v ∧ ρ v < N := fun v hv => by
    have := shift_fresh (n := n) hv
    exact ⟨this.1, lt_of_lt_of_le this.2 hNB⟩
  have hidxf : ∀ u ∈ nbvs G, ρ u = n + (blockVars G).length + (nbvs G).idxOf u := by
    intro u hu
    simp only [ρ, shift, hLe]
    rw [List.idxOf_append_of_notMem ((nbvs_spec G).2.2.1 u hu)]
    omega
  have hfr : ∀ u ∈ nbvs G, (List.range' (s ++ (blockVars G).map (look s)).length (wfD w s W).free.length)[(nbvs
      G).idxOf u]? = some (ρ u) := by
    intro u hu
    have := List.idxOf_lt_length_of_mem hu
    rw [List.getElem?_range', hs1, hidxf u hu]
    · simp
    · simp only [wfD, List.length_map, List.length_append]
      change _ < (nbvs G).length + _
      omega
  have hread : Reading s n N (blockVars G) (nbvs G) ρ [] s2 := by
    refine ⟨rfl, fun v hv => ?_, fun v hv => ?_, fun v hv => ?_⟩
    · simp only [s2]
      rw [look_append_left (by rw [hs1]; omega), look_append_left hv]
    · have hi : L.idxOf v = (blockVars G).idxOf v := by rw [hLe, List.idxOf_append_of_mem hv]
      have hlt := List.idxOf_lt_length_of_mem hv
      simp only [s2, ρ, shift]
      rw [hi, look_append_left (by rw [hs1]; omega), look_append_right, look_map hv]
    · have hlt := List.idxOf_lt_length_of_mem hv
      have hm : v ∈ nbvs G ++ W.detached := by simp [hv]
      have hi : (nbvs G ++ W.detached).idxOf v = (nbvs G).idxOf v := List.idxOf_append_of_mem hv
      refine ⟨w.ofString (w.serT (look s v).type), ?_, by simp⟩
      simp only [s2]
      rw [hidxf v hv, ← hs1, look_append_right, ← hi]
      have hmap : (wfD w s W).free.map (varOfDict w) =
          (nbvs G ++ W.detached).map (fun v => varOfDict w (varD w (look s v))) := by
        simp only [wfD, List.map_map]; rfl
      rw [hmap, look_map hm]
      have hdv : ((look s v).default.map w.ser).map w.des = (look s v).default := by
        cases (look s v).default with
        | none => rfl
        | some a => simp [hrt]
      unfold varOfDict varD
      rw [hdv]
      have hvo : VarOf W v ∧ ¬ PortOf W v := Built.mem_nbvs.1 hv
      rw [← hfree v hvo.1 hvo.2]
  -- pipes
  have hpipes : ∀ p ∈ W.pipes, (⟨p.1, p.2, false⟩ : Pipe) ∈ G.pipes := fun p hp => List.mem_map.2 ⟨p, hp, rfl⟩
  obtain ⟨s3, e2, hs3⟩ := pipesOfDict_ok (s := s) (n := n) (N := N) (blocks := W.blocks) (ev := w.eval) (G := G) rfl
    hb.skel_target hb.skel_source hd hfr hinj hfresh (fun p hp hf => by
      obtain ⟨q, hq, rfl⟩ := List.mem_map.1 hp
      exact htype q hq (Built.mem_nbvs.1 hf).2) W.pipes [] s2 hpipes hread
  -- the intermediate workflow
  have e3 := (output_addr hb ρ).2
  obtain ⟨det, e4⟩ := mkWf_ok w s3 (W.pipes.map fun p => (ρ p.1, ρ p.2)) [] "" "" ""
    (rename_output ρ hb.output)
  obtain ⟨det', e5⟩ := mkWf_ok w s3 (W.pipes.map fun p => (ρ p.1, ρ p.2)) (W.steps.map (StepO.rename ρ))
    W.description W.documentation W.name (rename_output ρ hb.output)
  have hren : ren ρ G (skel w s3 (⟨W.blocks.map (BlockO.rename ρ), W.pipes.map fun p => (ρ p.1, ρ p.2),
      W.output.map ρ, [], det, "", "", ""⟩ : Wf κ δ)) := by
    constructor
    · simp only [skel, List.map_map, G]; rfl
    · simp only [skel, List.map_map, G]; rfl
  have hback : ∀ v, VarOf W v → variableFromIndex (skel w s3 (⟨W.blocks.map (BlockO.rename ρ),
      W.pipes.map fun p => (ρ p.1, ρ p.2), W.output.map ρ, [], det, "", "", ""⟩ : Wf κ δ)) (addrOf G v) = .ok (ρ v) :=
    fun v hv => ren_from hren hinj (addr_ok hb.skel_target ((hmem v).2 hv)).2
  have e6 : (wfD w s W).steps.mapM (stepOfDict w s3 ⟨W.blocks.map (BlockO.rename ρ),
      W.pipes.map fun p => (ρ p.1, ρ p.2), W.output.map ρ, [], det, "", "", ""⟩) =
      .ok (W.steps.map (StepO.rename ρ)) := by
    simp only [wfD]
    rw [Py.mapM_ok]
    rw [List.forall₂_map_left_iff, List.forall₂_map_right_iff, List.forall₂_same]
    intro t ht
    have h1 : ∀ v ∈ t.inputs, VarOf W v := fun v hv => hb.steps t ht v (by simp [hv])
    have h2 : ∀ v ∈ t.groupInputs, VarOf W v := fun v hv => hb.steps t ht v (by simp [hv])
    have hm : ∀ l : List Nat, (∀ v ∈ l, VarOf W v) → (l.map (addrOf (skel w s W))).mapM (variableFromIndex (skel w s3
        (⟨W.blocks.map (BlockO.rename ρ), W.pipes.map fun p => (ρ p.1, ρ p.2), W.output.map ρ, [], det, "", "", ""⟩ :
          Wf κ δ))) = .ok (l.map ρ) := by
      intro l hl
      rw [Py.mapM_ok, List.forall₂_map_left_iff, List.forall₂_map_right_iff, List.forall₂_same]
      exact fun v hv => hback v (hl v hv)
    unfold stepOfDict
    simp only
    rw [hm _ h1, hm _ h2]
    simp only [bind, Except.bind, StepO.rename]
    cases hdisp : t.display with
    | none => simp [hidx t ht hdisp]
    | some x => simp
  have efin : ofDict w s (wfD w s W) = .ok (⟨W.blocks.map (BlockO.rename ρ), W.pipes.map fun p => (ρ p.1, ρ p.2),
      W.output.map ρ, W.steps.map (StepO.rename ρ), det', W.description, W.documentation, W.name⟩, s3) := by
    unfold ofDict
    rw [e1]
    simp only [bind, Except.bind]
    have : (wfD w s W).pipes = W.pipes.map fun p => (addrOf G p.1, addrOf G p.2) := rfl
    rw [this, e2]
    simp only
    have : (wfD w s W).output = W.output.map (addrOf (skel w s W)) := rfl
    rw [this, e3]
    simp only
    rw [e4]
    simp only
    rw [e6]
    simp only
    have h1 : (wfD w s W).description = W.description := rfl
    have h2 : (wfD w s W).documentation = W.documentation := rfl
    have h3 : (wfD w s W).name = W.name := rfl
    rw [h1, h2, h3, e5]
  refine ⟨wfD w s W, _, s3, ρ, toDict_ok hb, efin, ⟨?_, ?_, hs3.kept, rfl, rfl, rfl, rfl⟩, ?_, rfl, rfl, rfl⟩
  · intro u v hu hv he
    exact hinj u ((hmem u).2 hu) v ((hmem v).2 hv) he
  · intro v hv
    rw [hs3.length]
    exact hfresh v ((hmem v).2 hv)
  · intro v hv
    have hvL := (hmem v).2 hv
    rw [hLe, List.mem_append] at hvL
    rcases hvL with h | h
    · exact hs3.ports v h
    · obtain ⟨t, h1, h2⟩ := hs3.free v h
      have : v ∈ ([] : List Nat) ++ W.pipes.map (·.1) := by
        obtain ⟨hnot, p, hp, hor⟩ := ((nbvs_spec G).2.2.2 v).1 h
        obtain ⟨q, hq, rfl⟩ := List.mem_map.1 hp
        rcases hor with rfl | rfl
        · simpa using ⟨q.2, hq⟩
        · obtain ⟨b, hbb, hin⟩ := hb.target q hq
          exact absurd (mem_blockVars.2 ⟨_, List.mem_map.2 ⟨b, hbb, rfl⟩, .inl hin⟩) hnot
      rw [h1, h2 this]

/-- The workflow read back computes what the workflow computes: each variable must hold the value its counterpart must
hold, for the same values of the inputs. -/
theorem C36_runs {w : World κ τ α δ J} (hrt : ∀ a, w.des (w.ser a) = a) {s : Store τ α} {W : Wf κ δ}
    (hb : Built w s W) (hfree : ∀ v, VarOf W v → ¬ PortOf W v → (look s v).lockFlag = false)
    (htype : ∀ p ∈ W.pipes, ¬ PortOf W p.1 → (look s p.1).type = (look s p.2).type)
    (hidx : ∀ t ∈ W.steps, t.display = none → t.displayIdx = none) {d : WfD κ δ J} {W' : Wf κ δ} {s' : Store τ α}
    (hd : toDict w s W = .ok d) (ho : ofDict w s d = .ok (W', s')) :
    ∃ ρ : Nat → Nat, inputs (skel w s' W') = (inputs (skel w s W)).map ρ ∧ W'.output = W.output.map ρ ∧
      (∀ user k, expected (skel w s' W') user k = expected (skel w s W) user k) ∧
      ∀ v, VarOf W v → ∀ vals x, Den (skel w s' W') vals (ρ v) x ↔ Den (skel w s W) vals v x := by
  obtain ⟨d1, W1, s1, ρ, h1, h2, hr, hv, -⟩ := C36_partial hrt hb hfree htype hidx
  rw [hd] at h1
  cases h1
  rw [ho] at h2
  cases h2
  have hinj : ∀ u ∈ allVariables (skel w s W), ∀ v ∈ allVariables (skel w s W), ρ u = ρ v → u = v :=
    fun u hu v hv' he => hr.inj u v ((mem_allVariables_skel w s W).1 hu) ((mem_allVariables_skel w s W).1 hv') he
  have hin := ren_inputs (hr.ren (w := w)) hinj
  refine ⟨ρ, hin, hr.output, fun user k => ?_, fun v hv' vals x => ⟨fun h => ?_, fun h => ren_den hr.ren hinj h⟩⟩
  · unfold expected
    rw [hin, List.getElem?_map]
    cases hk : (inputs (skel w s W))[k]? with
    | none => rfl
    | some u =>
      have hu : VarOf W u := (mem_allVariables_skel w s W).1 (mem_inputs.1 (List.mem_of_getElem? hk)).1
      simp only [Option.map_some, skel, hv u hu]
      rfl
  · exact ren_den_back hr.ren hinj h v ((mem_allVariables_skel w s W).2 hv') rfl

/-! ### A concrete workflow -/

/-- Two classes of blocks. -/
inductive Kd where
  | dbl
  | add
  deriving DecidableEq, Repr

/-- Annotation 1 is `int`; a string read in the place of an annotation is 0. -/
def demo : World Kd Nat Int String Int where
  ins | .dbl => [⟨"x", 1, "", (0, 0), none⟩]
      | .add => [⟨"a", 1, "", (0, 0), some 3⟩, ⟨"b", 1, "", (0, 0), none⟩]
  outs _ := [⟨"result", 1, "", (0, 0), none⟩]
  cls | .dbl => "Dbl"
      | .add => "Add"
  same _ _ := true
  reads _ _ := .ok ()
  hash k n := (match k with | .dbl => 3 | .add => 4) + 7 * n
  eval | .dbl => dblEval
       | .add => addEval
  ser := id
  des := id
  serT _ := "int"
  ofString _ := 0
  hashS t := t.length
  hashD _ := 5
  hashA _ := 6

/-- `NAME_VARIABLE`, the ports of two blocks, a free variable.  Input `x` is labelled and has a default value which is
not the one of its class; `b` is fed by the free variable. -/
def demoS : Store Nat Int :=
  [⟨"_result_name_", 2, "Result Name", (0, 0), none, false⟩,
   ⟨"x", 1, "my x", (0, 0), some 8, true⟩, ⟨"result", 1, "", (0, 0), none, false⟩,
   ⟨"a", 1, "", (0, 0), some 3, false⟩, ⟨"b", 1, "", (0, 0), none, false⟩, ⟨"result", 1, "", (0, 0), none, false⟩,
   ⟨"free", 1, "mine", (3, 4), some 5, false⟩]

def demoW : Wf Kd String where
  blocks := [⟨.dbl, "first", (1, 1), [1], [2]⟩, ⟨.add, "second", (2, 2), [3, 4], [5]⟩]
  pipes := [(2, 3), (6, 4)]
  output := some 5
  steps := [⟨"step", [1, 6], "g", [6], some "cad", "doc", some 0, "i"⟩]
  detached := [0]
  description := "what"
  documentation := "how"
  name := "wf"

theorem varOf_iff (W : Wf Kd String) (v : Nat) :
    VarOf W v ↔ v ∈ W.blocks.flatMap (fun b => b.inputs ++ b.outputs) ++ W.pipes.flatMap (fun p => [p.1, p.2]) := by
  simp [VarOf]

theorem portOf_iff (W : Wf Kd String) (v : Nat) :
    PortOf W v ↔ v ∈ W.blocks.flatMap (fun b => b.inputs ++ b.outputs) := by
  simp [PortOf]

instance (W : Wf Kd String) (v : Nat) : Decidable (VarOf W v) := decidable_of_iff' _ (varOf_iff W v)
instance (W : Wf Kd String) (v : Nat) : Decidable (PortOf W v) := decidable_of_iff' _ (portOf_iff W v)

theorem demo_built : Built demo demoS demoW where
  distinct := by decide
  target := by decide
  source := by decide
  alloc v h := by
    have : ∀ v ∈ demoW.blocks.flatMap (fun b => b.inputs ++ b.outputs) ++ demoW.pipes.flatMap (fun p => [p.1, p.2]),
      v < demoS.length := by decide
    exact this v ((varOf_iff _ _).1 h)
  locks v h := by
    have : ∀ v ∈ (demoW.blocks.flatMap (fun b => b.inputs ++ b.outputs) ++ demoW.pipes.flatMap (fun p => [p.1, p.2])) ++
      demoW.detached, (look demoS v).lockFlag = true → (look demoS v).default.isSome = true := by decide
    exact this v (List.mem_append.2 (h.imp (varOf_iff _ _).1 id))
  ins b h := by
    simp only [demoW, List.mem_cons, List.not_mem_nil, or_false] at h
    rcases h with rfl | rfl
    · exact .cons ⟨rfl, rfl, rfl⟩ .nil
    · exact .cons ⟨rfl, rfl, rfl⟩ (.cons ⟨rfl, rfl, rfl⟩ .nil)
  outs b h := by
    simp only [demoW, List.mem_cons, List.not_mem_nil, or_false] at h
    rcases h with rfl | rfl
    · exact .cons ⟨rfl, rfl, rfl⟩ .nil
    · exact .cons ⟨rfl, rfl, rfl⟩ .nil
  output := by
    intro o h
    simp only [demoW, Option.some.injEq] at h
    subst h
    decide
  steps := by decide

/-- The hypotheses of `C36_partial` and `C36_runs` are met. -/
example : (∀ a, demo.des (demo.ser a) = a) ∧ Built demo demoS demoW ∧
    (∀ v, VarOf demoW v → ¬ PortOf demoW v → (look demoS v).lockFlag = false) ∧
    (∀ p ∈ demoW.pipes, ¬ PortOf demoW p.1 → (look demoS p.1).type = (look demoS p.2).type) ∧
    ∀ t ∈ demoW.steps, t.display = none → t.displayIdx = none := by
  refine ⟨fun _ => rfl, demo_built, fun v h => ?_, by decide, ?_⟩
  · have : ∀ v ∈ demoW.blocks.flatMap (fun b => b.inputs ++ b.outputs) ++ demoW.pipes.flatMap (fun p => [p.1, p.2]),
      ¬ PortOf demoW v → (look demoS v).lockFlag = false := by decide
    exact this v ((varOf_iff _ _).1 h)
  · intro t h
    simp only [demoW, List.mem_cons, List.not_mem_nil, or_false] at h
    subst h
    simp

/-- Write a workflow and read it back. -/
def roundTrip (s : Store Nat Int) (W : Wf Kd String) : Except PyErr (Wf Kd String × Store Nat Int) :=
  match toDict demo s W with
  | .error e => .error e
  | .ok d => ofDict demo s d

/-- A locked free variable comes back unlocked. -/
theorem C36_locked_violated : ∃ (s : Store Nat Int) (W W' : Wf Kd String) (s' : Store Nat Int) (v t v' t' : Nat),
    roundTrip s W = .ok (W', s') ∧ W.pipes[1]? = some (v, t) ∧ W'.pipes[1]? = some (v', t') ∧
    (look s v).lockFlag = true ∧ (look s v).default = some 5 ∧ (look s' v').lockFlag = false :=
  ⟨demoS.modify 6 fun x => { x with lockFlag := true }, demoW, _, _, 6, 4, _, _, rfl, rfl, rfl, rfl, rfl, rfl⟩

/-- A free variable takes the annotation of the port it feeds. -/
theorem C36_type_violated : ∃ (s : Store Nat Int) (W W' : Wf Kd String) (s' : Store Nat Int) (v t v' t' : Nat),
    roundTrip s W = .ok (W', s') ∧ W.pipes[1]? = some (v, t) ∧ W'.pipes[1]? = some (v', t') ∧
    (look s v).type = 7 ∧ (look s' v').type = 1 :=
  ⟨demoS.modify 6 fun x => { x with type := 7 }, demoW, _, _, 6, 4, _, _, rfl, rfl, rfl, rfl, rfl⟩

/-- A detached variable is lost. -/
theorem C36_detached_violated : ∃ (s : Store Nat Int) (W W' : Wf Kd String) (s' : Store Nat Int),
    roundTrip s W = .ok (W', s') ∧ W.detached.length = 2 ∧ W'.detached.length = 1 :=
  ⟨demoS ++ [⟨"later", 1, "", (0, 0), some 1, false⟩], { demoW with detached := [0, 7] }, _, _, rfl, rfl, rfl⟩

/-- A renamed port takes back the name of its class. -/
theorem C36_renamed_violated : ∃ (s : Store Nat Int) (W W' : Wf Kd String) (s' : Store Nat Int) (b b' : BlockO Kd)
    (v v' : Nat), roundTrip s W = .ok (W', s') ∧ W.blocks[0]? = some b ∧ W'.blocks[0]? = some b' ∧
    b.inputs = [v] ∧ b'.inputs = [v'] ∧ (look s v).name = "renamed" ∧ (look s' v').name = "x" :=
  ⟨demoS.modify 1 fun x => { x with name := "renamed" }, demoW, _, _, _, _, 1, _, rfl, rfl, rfl, rfl, rfl, rfl, rfl⟩

/-- A pipe from a free variable to an other one comes back as a pipe from the first one to itself. -/
theorem C36_free_violated : ∃ (s : Store Nat Int) (W W' : Wf Kd String) (s' : Store Nat Int) (v : Nat),
    roundTrip s W = .ok (W', s') ∧ W.pipes[1]? = some (6, 7) ∧ W'.pipes[1]? = some (v, v) :=
  ⟨demoS ++ [⟨"next", 1, "", (0, 0), none, false⟩],
    { demoW with pipes := [(2, 3), (6, 7), (7, 4)], steps := [] }, _, _, _, rfl, rfl, rfl⟩

/-- The index of the displayed variable of a step without display setting is lost. -/
theorem C36_step_violated : ∃ (s : Store Nat Int) (W W' : Wf Kd String) (s' : Store Nat Int) (t t' : StepO String),
    roundTrip s W = .ok (W', s') ∧ W.steps[0]? = some t ∧ W'.steps[0]? = some t' ∧ t.displayIdx = some 2 ∧
    t'.displayIdx = none :=
  ⟨demoS, { demoW with steps := [⟨"step", [1], "g", [], none, "", some 2, "i"⟩] }, _, _, _, _, rfl, rfl, rfl, rfl, rfl⟩

/-- A workflow with a locked variable whose default value has been removed cannot be serialized. -/
theorem C36_raises_violated : ∃ (s : Store Nat Int) (W : Wf Kd String), toDict demo s W = .error .valueError :=
  ⟨demoS.modify 1 fun x => { x with default := none }, demoW, rfl⟩

end DC.Wkf
