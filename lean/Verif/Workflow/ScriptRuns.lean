import Verif.Workflow.ScriptLemmas
/- The execution of the script of a workflow. -/
set_option linter.unusedSectionVars false
set_option linter.unusedSimpArgs false
namespace DC.Scr
open DC.Wkf

variable {β τ α δ π : Type} [Inhabited τ]

/-! ### Pipes -/

section
variable {s : Store τ α} {W : Flow β δ} {bs : List (Blk β δ)} {ρ : Nat → Nat} {p : String} {σ : St β τ α δ}

theorem graph_target (ht : ∀ p ∈ W.pipes, ∃ b ∈ W.blocks, p.2 ∈ b.inputs) :
    ∀ p ∈ (graph s W).pipes, ∃ b ∈ (graph s W).blocks, p.output ∈ b.inputs := by
  intro p hp
  simp only [graph, List.mem_map] at hp
  obtain ⟨q, hq, rfl⟩ := hp
  obtain ⟨b, h1, h2⟩ := ht q hq
  exact ⟨_, List.mem_map.2 ⟨b, h1, rfl⟩, h2⟩

theorem port_addr (hd : (W.blocks.flatMap fun b => b.inputs ++ b.outputs).Nodup) {v : Nat} (hv : PortOf W v) :
    ∃ j side i b, variableIndices (graph s W) v = .ok (.port j side i) ∧ W.blocks[j]? = some b ∧
      (if side then b.outputs else b.inputs)[i]? = some v ∧
      (side = true ↔ ∃ b ∈ W.blocks, v ∈ b.outputs) := by
  have hd' : (blockVars (graph s W)).Nodup := by rw [blockVars_graph]; exact hd
  obtain ⟨j, side, i, c, e1, -, e3, e4⟩ := addr_port ((mem_blockVars_graph s W).2 hv)
  simp only [graph, List.getElem?_map, Option.map_eq_some_iff] at e3
  obtain ⟨b, hb, rfl⟩ := e3
  refine ⟨j, side, i, b, e1, hb, e4, ?_, ?_⟩
  · intro hs
    rw [hs, if_pos rfl] at e4
    exact ⟨b, List.mem_of_getElem? hb, List.mem_of_getElem? e4⟩
  · rintro ⟨c, hc, hout⟩
    cases side with
    | true => rfl
    | false =>
      have hin := List.mem_of_getElem? e4
      simp only [Bool.false_eq_true, if_false] at hin
      exact (in_ne_out hd' (List.mem_map.2 ⟨b, List.mem_of_getElem? hb, rfl⟩) (List.mem_map.2 ⟨c, hc, rfl⟩) hin hout).elim

theorem block_at (len : bs.length = W.blocks.length) {j : Nat} {b : Blk β δ} (h : W.blocks[j]? = some b) : ∃ b', bs[j]? = some b' := by
  have : j < bs.length := by rw [len]; exact (List.getElem?_eq_some_iff.1 h).1
  exact ⟨_, List.getElem?_eq_getElem this⟩

theorem output_ok (hd : (W.blocks.flatMap fun b => b.inputs ++ b.outputs).Nodup) (len : bs.length = W.blocks.length)
    (ports : ∀ (i : Nat) b b', W.blocks[i]? = some b → bs[i]? = some b' → b'.inputs = b.inputs.map ρ ∧ b'.outputs = b.outputs.map ρ)
    {v : Nat} (hv : ∃ b ∈ W.blocks, v ∈ b.outputs) : ∃ j side i, variableIndices (graph s W) v = .ok (.port j side i) ∧
      ∀ σ : St β τ α δ, Reads p bs (nbvs (graph s W)) ρ σ → getVar σ (.output (blockName p j) i) = .ok (ρ v) := by
  obtain ⟨b, hb, hin⟩ := hv
  obtain ⟨j, side, i, c, e1, e2, e3, e4⟩ := port_addr (s := s) hd (v := v) ⟨b, hb, .inr hin⟩
  have hs := e4.2 ⟨b, hb, hin⟩
  subst hs
  rw [if_pos rfl] at e3
  obtain ⟨c', hc'⟩ := block_at len e2
  refine ⟨j, true, i, e1, fun σ hσ => ?_⟩
  simp only [getVar, getBlock, hσ.1 j c' hc', bind, Except.bind, at', (ports j c c' e2 hc').2, List.getElem?_map, e3, Option.map_some]

theorem source_ok (hd : (W.blocks.flatMap fun b => b.inputs ++ b.outputs).Nodup) (ht : ∀ p ∈ W.pipes, ∃ b ∈ W.blocks, p.2 ∈ b.inputs)
    (len : bs.length = W.blocks.length)
    (ports : ∀ (i : Nat) b b', W.blocks[i]? = some b → bs[i]? = some b' → b'.inputs = b.inputs.map ρ ∧ b'.outputs = b.outputs.map ρ)
    {v : Nat} (hv : VarOf W v) (hin : ∀ b ∈ W.blocks, v ∉ b.inputs) : ∃ a, variableIndices (graph s W) v = .ok a ∧
      ∀ σ : St β τ α δ, Reads p bs (nbvs (graph s W)) ρ σ → getVar σ (endRef p true a) = .ok (ρ v) := by
  by_cases hp : PortOf W v
  · obtain ⟨b, hb, h⟩ := hp
    obtain ⟨j, side, i, e1, e2⟩ := output_ok (s := s) (p := p) (ρ := ρ) hd len ports (v := v) ⟨b, hb, h.resolve_left (hin b hb)⟩
    exact ⟨_, e1, fun σ hσ => by simpa [endRef] using e2 σ hσ⟩
  · have hn := (mem_nbvs_graph s W).2 ⟨hv, hp⟩
    refine ⟨_, (addr_free (graph_target ht) hn).1, fun σ hσ => ?_⟩
    simp only [endRef, getVar, hσ.2 _ v (by rw [List.getElem?_eq_getElem (List.idxOf_lt_length_of_mem hn), List.getElem_idxOf])]

theorem target_ok (hd : (W.blocks.flatMap fun b => b.inputs ++ b.outputs).Nodup) (len : bs.length = W.blocks.length)
    (ports : ∀ (i : Nat) b b', W.blocks[i]? = some b → bs[i]? = some b' → b'.inputs = b.inputs.map ρ ∧ b'.outputs = b.outputs.map ρ)
    {v : Nat} (hv : ∃ b ∈ W.blocks, v ∈ b.inputs) : ∃ a, variableIndices (graph s W) v = .ok a ∧
      ∀ σ : St β τ α δ, Reads p bs (nbvs (graph s W)) ρ σ → getVar σ (endRef p false a) = .ok (ρ v) := by
  obtain ⟨b, hb, hin⟩ := hv
  obtain ⟨j, side, i, c, e1, e2, e3, e4⟩ := port_addr (s := s) hd (v := v) ⟨b, hb, .inl hin⟩
  have hs : side = false := by
    cases side with
    | false => rfl
    | true =>
      obtain ⟨c, hc, hout⟩ := e4.1 rfl
      have hd' : (blockVars (graph s W)).Nodup := by rw [blockVars_graph]; exact hd
      exact (in_ne_out hd' (List.mem_map.2 ⟨b, hb, rfl⟩) (List.mem_map.2 ⟨c, hc, rfl⟩) hin hout).elim
  subst hs
  simp only [Bool.false_eq_true, if_false] at e3
  obtain ⟨c', hc'⟩ := block_at len e2
  refine ⟨_, e1, fun σ hσ => ?_⟩
  simp only [endRef, Bool.false_eq_true, if_false, getVar, getBlock, hσ.1 j c' hc', bind, Except.bind, at', (ports j c c' e2 hc').1,
    List.getElem?_map, e3, Option.map_some]

theorem pipes_loop {L : Lang β τ α π} {free : List Nat} {qs : List (Nat × Nat)}
    (h : ∀ q ∈ qs, (∃ a, variableIndices (graph s W) q.1 = .ok a ∧
      ∀ σ : St β τ α δ, Reads p bs free ρ σ → getVar σ (endRef p true a) = .ok (ρ q.1)) ∧
      ∃ a, variableIndices (graph s W) q.2 = .ok a ∧
      ∀ σ : St β τ α δ, Reads p bs free ρ σ → getVar σ (endRef p false a) = .ok (ρ q.2)) :
    ∀ k, ∃ st : List (Stmt π), pipeStmts s p W k qs = .ok st ∧ ∀ res : String → Option Cls, (qs ≠ [] → res pipeC.2 = some pipeC) →
      ∀ σ : St β τ α δ, Reads p bs free ρ σ → ∃ σ', execAll L res σ st = .ok σ' ∧ σ'.store = σ.store ∧ Reads p bs free ρ σ' ∧
        (∀ x, (∀ j, k ≤ j → x ≠ pipeName p j) → σ'.env x = σ.env x) ∧
        ∀ (j : Nat) q, qs[j]? = some q → σ'.env (pipeName p (k + j)) = some (.pipe (ρ q.1, ρ q.2)) := by
  induction qs with
  | nil =>
    intro k
    exact ⟨[], rfl, fun res _ σ hσ => ⟨σ, rfl, rfl, hσ, fun _ _ => rfl, fun j q hq => by simp at hq⟩⟩
  | cons q qs ih =>
    intro k
    obtain ⟨⟨a, ha, ga⟩, b, hb, gb⟩ := h q (by simp)
    obtain ⟨st, hst, hrun⟩ := ih (fun q hq => h q (by simp [hq])) (k + 1)
    refine ⟨.setPipe (pipeName p k) (endRef p true a) (endRef p false b) :: st, ?_, ?_⟩
    · simp only [pipeStmts, ha, hb, hst]
      rfl
    · intro res hres σ hσ
      have hex : exec L res σ (.setPipe (pipeName p k) (endRef p true a) (endRef p false b)) =
          .ok (σ.bind (pipeName p k) (.pipe (ρ q.1, ρ q.2))) := by
        simp only [exec, calls_ok (hres (by simp)), bind, Except.bind, ga σ hσ, gb σ hσ]
      obtain ⟨σ', h1, h2, h3, h4, h5⟩ := hrun res (fun _ => hres (by simp)) (σ.bind (pipeName p k) (.pipe (ρ q.1, ρ q.2)))
        (hσ.frame (fun j => bind_other _ _ block_ne_pipe) (fun j => bind_other _ _ var_ne_pipe))
      refine ⟨σ', execAll_cons hex h1, h2, h3, fun x hx => ?_, fun j r hr => ?_⟩
      · rw [h4 x (fun j hj => hx j (by omega)), bind_other _ _ (hx k (Nat.le_refl _))]
      · cases j with
        | zero =>
          simp only [List.getElem?_cons_zero, Option.some.injEq] at hr
          subst hr
          rw [Nat.add_zero, h4 _ (fun j hj e => by have := pipeName_inj e; omega), bind_same]
        | succ j =>
          have := h5 j r (by simpa using hr)
          rwa [Nat.add_assoc, Nat.add_comm 1 j] at this
end

theorem names_mapM {γ : Type} {f : String → Except PyErr γ} {name : Nat → String} {l : List γ}
    (h : ∀ (j : Nat) x, l[j]? = some x → f (name j) = .ok x) : ((List.range l.length).map name).mapM f = .ok l := by
  rw [Py.mapM_ok, List.forall₂_iff_get]
  refine ⟨by simp, fun i h1 h2 => ?_⟩
  simp only [List.get_eq_getElem, List.getElem_map, List.getElem_range]
  exact h i _ (List.getElem?_eq_getElem h2)

theorem prefix_append (p a : String) : p.toList <+: (p ++ a).toList := by simp [String.toList_append]

theorem inner_prefix {p x : String} (h : ¬ p.toList <+: x.toList) (h1 : x ≠ "wfblock") (h2 : x ≠ "documentation") : ¬ Inner p x := by
  rintro (h3 | h3 | h3)
  · apply h
    refine List.IsPrefix.trans ?_ h3
    simp [subPrefix, String.toList_append]
  · exact h1 h3
  · exact h2 h3

theorem doc_ne_blocks {p : String} : "documentation" ≠ blocksName p := fun e =>
  doc_ne_last (p := p) (a := "blocks") (c := 's') (by decide) (by decide) e.symm
theorem doc_ne_pipes {p : String} : "documentation" ≠ pipesName p := fun e =>
  doc_ne_last (p := p) (a := "pipes") (c := 's') (by decide) (by decide) e.symm
theorem doc_ne_flow {p : String} : "documentation" ≠ flowName p := fun e =>
  doc_ne_last (p := p) (a := "workflow") (c := 'w') (by decide) (by decide) e.symm

theorem newFlow_ok {s : Store τ α} {blocks : List (Blk β δ)} {pipes : List (Nat × Nat)} {o : Nat} {documentation name : String}
    (h : blocks.any (fun b => b.outputs.contains o) = true) : ∃ det, newFlow s blocks pipes o documentation name =
      .ok ⟨blocks, pipes, some o, [], det, "", documentation, name⟩ := by
  unfold newFlow
  rw [if_pos h]
  exact ⟨_, rfl⟩

theorem flow_runs {L : Lang β τ α π} {s : Store τ α} {W : Flow β δ} {m : Nat} {p : String}
    (distinct : (W.blocks.flatMap fun b => b.inputs ++ b.outputs).Nodup)
    (target : ∀ p ∈ W.pipes, ∃ b ∈ W.blocks, p.2 ∈ b.inputs) (source : ∀ p ∈ W.pipes, ∀ b ∈ W.blocks, p.1 ∉ b.inputs)
    (blocks : ∀ b ∈ W.blocks, PortsOk L s b ∧ BlockRuns L s m p b) (output : ∃ o, W.output = some o ∧ ∃ b ∈ W.blocks, o ∈ b.outputs)
    (free : ∀ v, VarOf W v → ¬ PortOf W v → FreeOk L (look s v)) (name : Written L .double W.name)
    (doc : Written L .triple W.documentation) : FlowRuns L s (m + 1) p W := by
  obtain ⟨o, ho, hout⟩ := output
  obtain ⟨stB, IB, hB, runB⟩ := blocks_loop blocks 0
  -- the script
  obtain ⟨j, side, i, hoA, hoR⟩ : ∃ j side i, variableIndices (graph s W) o = .ok (.port j side i) ∧
      ∀ (bs : List (Blk β δ)) (ρ : Nat → Nat), bs.length = W.blocks.length →
        (∀ (i : Nat) b b', W.blocks[i]? = some b → bs[i]? = some b' → b'.inputs = b.inputs.map ρ ∧ b'.outputs = b.outputs.map ρ) →
        ∀ σ : St β τ α δ, Reads p bs (nbvs (graph s W)) ρ σ → getVar σ (.output (blockName p j) i) = .ok (ρ o) := by
    obtain ⟨j, side, i, h1, -⟩ := output_ok (s := s) (p := p) (bs := W.blocks) (ρ := id) distinct rfl
      (fun i b b' h1 h2 => by rw [h1] at h2; cases h2; simp) hout
    refine ⟨j, side, i, h1, fun bs ρ len ports σ hσ => ?_⟩
    obtain ⟨j', side', i', h1', h2'⟩ := output_ok (s := s) (p := p) (bs := bs) (ρ := ρ) distinct len ports hout
    rw [h1] at h1'
    cases h1'
    exact h2' σ hσ
  have hpipes : ∀ (bs : List (Blk β δ)) (ρ : Nat → Nat), bs.length = W.blocks.length →
      (∀ (i : Nat) b b', W.blocks[i]? = some b → bs[i]? = some b' → b'.inputs = b.inputs.map ρ ∧ b'.outputs = b.outputs.map ρ) →
      _ := fun bs ρ len ports => pipes_loop (L := L) (s := s) (W := W) (bs := bs) (ρ := ρ) (p := p) (free := nbvs (graph s W))
        (qs := W.pipes) (fun q hq =>
      ⟨source_ok distinct target len ports (.inr ⟨q, hq, .inl rfl⟩) (source q hq), target_ok distinct len ports (target q hq)⟩) 0
  obtain ⟨stP, hP, -⟩ := hpipes W.blocks id rfl (fun i b b' h1 h2 => by rw [h1] at h2; cases h2; simp)
  refine ⟨.setDoc W.documentation :: stB ++ [.setBlocks (blocksName p) ((List.range W.blocks.length).map (blockName p))] ++
          varStmts L s p 0 (nbvs (graph s W)) ++ stP ++ [.setPipes (pipesName p) ((List.range W.pipes.length).map (pipeName p)),
          .setWf (flowName p) (blocksName p) (pipesName p) (.output (blockName p j) i) W.name],
        IB ++ (nbvs (graph s W)).flatMap (fun v => L.typeImports (look s v).type ++ [variableC]) ++
          (if W.pipes.isEmpty then [] else [pipeC]) ++ [workflowC],
        by simp only [flowScript, ho, hoA, hB, hP, outputRef, bind, Except.bind], ?_⟩
  intro res hres σ
  -- the documentation
  have e0 : exec L res σ (.setDoc W.documentation) = .ok (σ.bind "documentation" (.text W.documentation)) := by
    simp only [exec]
    rw [show L.lit .triple W.documentation = _ from doc]
    rfl
  -- the blocks
  obtain ⟨σ1, bs, b1, b2, b3, b4, b4', b5, b6, b7, b8⟩ := runB res (fun c hc => hres c (by simp [hc]))
    (σ.bind "documentation" (.text W.documentation))
  have len : bs.length = W.blocks.length := b5.length_eq.symm
  obtain ⟨t, ht⟩ := b4' ⟨_, bind_same _ _ _⟩
  have e1 : exec L res σ1 (.setBlocks (blocksName p) ((List.range W.blocks.length).map (blockName p))) =
      .ok (σ1.bind (blocksName p) (.blocks bs)) := by
    have := names_mapM (f := getBlock σ1) (name := blockName p) (l := bs) (fun j b hb => by
      have := b6 j b hb
      rw [Nat.zero_add] at this
      simp only [getBlock, this])
    rw [len] at this
    simp only [exec, this]
    rfl
  -- the free variables
  obtain ⟨σ2, v1, v2, v3, v4, v5⟩ := vars_loop (L := L) (s := s) (p := p) (res := res) (vs := nbvs (graph s W))
    (fun v hv c hc => hres c (by
      have : c ∈ (nbvs (graph s W)).flatMap (fun v => L.typeImports (look s v).type ++ [variableC]) := List.mem_flatMap.2 ⟨v, hv, hc⟩
      simp only [List.mem_append]
      exact .inl (.inl (.inr this))))
    (fun v hv => free v ((mem_nbvs_graph s W).1 hv).1 ((mem_nbvs_graph s W).1 hv).2) 0 (σ1.bind (blocksName p) (.blocks bs))
  rw [bind_store] at v2 v4 v5
  -- the correspondence
  let A := allVariables (graph s W)
  let B := (bs.flatMap fun b => b.inputs ++ b.outputs) ++ List.range' σ1.store.length (nbvs (graph s W)).length
  have hAe : A = (W.blocks.flatMap fun b => b.inputs ++ b.outputs) ++ nbvs (graph s W) := by
    show allVariables (graph s W) = _
    rw [(nbvs_spec (graph s W)).1, blockVars_graph]
  have hA : A.Nodup := allVariables_nodup (by rw [blockVars_graph]; exact distinct)
  have hB' : B.Nodup := by
    refine List.nodup_append.2 ⟨b7, List.nodup_range', fun u hu v hv e => ?_⟩
    have := (b8 u hu).2
    rw [List.mem_range'_1] at hv
    omega
  have hbs : List.Forall₂ (SameB s σ2.store) W.blocks bs := b5.imp fun _ _ h => h.mono v2
  have hT : List.Forall₂ (Twin s σ2.store) A B := by
    rw [hAe]
    exact List.rel_append (flat_twins hbs) v5
  have hl : A.length = B.length := hT.length_eq
  have hmap : A.map (pairing A B) = B := pairing_map hA hl
  have hports : ∀ (i : Nat) b b', W.blocks[i]? = some b → bs[i]? = some b' →
      b'.inputs = b.inputs.map (pairing A B) ∧ b'.outputs = b.outputs.map (pairing A B) := by
    apply flat_ports hbs
    have := hmap
    rw [show A.map (pairing A B) = ((W.blocks.flatMap fun b => b.inputs ++ b.outputs) ++ nbvs (graph s W)).map (pairing A B) by rw [← hAe],
      List.map_append] at this
    exact (List.append_inj this (by rw [List.length_map]; exact (flat_twins hbs).length_eq)).1
  have hfree : ∀ (i : Nat) v, (nbvs (graph s W))[i]? = some v → pairing A B v = σ1.store.length + i := by
    intro i v hv
    have hi := (List.getElem?_eq_some_iff.1 hv).1
    have hlen := (flat_twins hbs).length_eq
    refine pairing_get (i := (W.blocks.flatMap fun b => b.inputs ++ b.outputs).length + i) hA ?_ ?_
    · rw [hAe, List.getElem?_append_right (by omega), Nat.add_sub_cancel_left, hv]
    · show ((bs.flatMap fun b => b.inputs ++ b.outputs) ++ List.range' σ1.store.length (nbvs (graph s W)).length)[_]? = _
      rw [hlen, List.getElem?_append_right (by omega), Nat.add_sub_cancel_left, List.getElem?_range' hi, Nat.one_mul]
  have hR : Reads p bs (nbvs (graph s W)) (pairing A B) σ2 := by
    constructor
    · intro j b hb
      rw [v3 _ (fun _ _ => block_ne_var), bind_other _ _ blocks_ne_block]
      have := b6 j b hb
      rwa [Nat.zero_add] at this
    · intro i v hv
      have := v4 i (List.getElem?_eq_some_iff.1 hv).1
      rw [Nat.zero_add] at this
      rw [this, hfree i v hv]
  -- the pipes
  obtain ⟨stP', hP', runP⟩ := hpipes bs (pairing A B) len hports
  rw [hP] at hP'
  cases hP'
  obtain ⟨σ3, p1, p2, p3, p4, p5⟩ := runP res (fun hne => hres _ (by
    have : W.pipes.isEmpty = false := by simpa [List.isEmpty_iff] using hne
    simp [this])) σ2 hR
  have e2 : exec L res σ3 (.setPipes (pipesName p) ((List.range W.pipes.length).map (pipeName p))) =
      .ok (σ3.bind (pipesName p) (.pipes (W.pipes.map fun q => (pairing A B q.1, pairing A B q.2)))) := by
    have := names_mapM (f := getPipe σ3) (name := pipeName p) (l := W.pipes.map fun q => (pairing A B q.1, pairing A B q.2))
      (fun j q hq => by
        rw [List.getElem?_map, Option.map_eq_some_iff] at hq
        obtain ⟨r, hr, rfl⟩ := hq
        have := p5 j r hr
        rw [Nat.zero_add] at this
        simp only [getPipe, this])
    rw [List.length_map] at this
    simp only [exec, this]
    rfl
  -- the workflow
  have hR' : Reads p bs (nbvs (graph s W)) (pairing A B) (σ3.bind (pipesName p) (.pipes (W.pipes.map fun q => (pairing A B q.1, pairing A B q.2)))) :=
    p3.frame (fun _ => bind_other _ _ pipes_ne_block) (fun _ => bind_other _ _ pipes_ne_var)
  have hgb : getBlocks (σ3.bind (pipesName p) (.pipes (W.pipes.map fun q => (pairing A B q.1, pairing A B q.2)))) (blocksName p) = .ok bs := by
    unfold getBlocks
    rw [bind_other _ _ pipes_ne_blocks, p4 _ (fun _ _ e => blocks_ne_pipe e.symm), v3 _ (fun _ _ e => blocks_ne_var e.symm), bind_same]
  have hdoc3 : σ3.env "documentation" = σ1.env "documentation" := by
    rw [p4 _ (fun _ _ e => doc_ne_pipe e.symm), v3 _ (fun _ _ e => doc_ne_var e.symm),
      bind_other _ _ doc_ne_blocks]
  have hgd : getDoc (σ3.bind (pipesName p) (.pipes (W.pipes.map fun q => (pairing A B q.1, pairing A B q.2)))) = .ok t := by
    unfold getDoc
    rw [bind_other _ _ doc_ne_pipes, hdoc3, ht]
  have hany : bs.any (fun b => b.outputs.contains (pairing A B o)) = true := by
    obtain ⟨b, hb, hin⟩ := hout
    obtain ⟨k, hk⟩ := List.getElem?_of_mem hb
    obtain ⟨b', hb'⟩ := block_at len hk
    rw [List.any_eq_true]
    refine ⟨b', List.mem_of_getElem? hb', ?_⟩
    rw [(hports k b b' hk hb').2]
    simpa using ⟨o, hin, rfl⟩
  obtain ⟨W', hW', w1, w2, w3, w4, w5⟩ : ∃ W' : Flow β δ, newFlow σ3.store bs (W.pipes.map fun q => (pairing A B q.1, pairing A B q.2))
      (pairing A B o) t W.name = .ok W' ∧ W'.blocks = bs ∧ W'.pipes = (W.pipes.map fun q => (pairing A B q.1, pairing A B q.2)) ∧
      W'.output = some (pairing A B o) ∧ W'.documentation = t ∧ W'.name = W.name := by
    obtain ⟨det, hdet⟩ := newFlow_ok (s := σ3.store) (pipes := W.pipes.map fun q => (pairing A B q.1, pairing A B q.2))
      (documentation := t) (name := W.name) hany
    exact ⟨_, hdet, rfl, rfl, rfl, rfl, rfl⟩
  have e3 : exec L res (σ3.bind (pipesName p) (.pipes (W.pipes.map fun q => (pairing A B q.1, pairing A B q.2))))
      (.setWf (flowName p) (blocksName p) (pipesName p) (.output (blockName p j) i) W.name) =
      .ok ((σ3.bind (pipesName p) (.pipes (W.pipes.map fun q => (pairing A B q.1, pairing A B q.2)))).bind (flowName p) (.flow W')) := by
    have hgp : getPipes (σ3.bind (pipesName p) (.pipes (W.pipes.map fun q => (pairing A B q.1, pairing A B q.2)))) (pipesName p) =
        .ok (W.pipes.map fun q => (pairing A B q.1, pairing A B q.2)) := by
      unfold getPipes
      rw [bind_same]
    simp only [exec, calls_ok (hres workflowC (by simp)), bind, Except.bind, hgb, hgp, hoR bs _ len hports _ hR', hgd]
    rw [show L.lit .double W.name = _ from name]
    simp only [bind_store, hW']
  refine ⟨(σ3.bind (pipesName p) (.pipes (W.pipes.map fun q => (pairing A B q.1, pairing A B q.2)))).bind (flowName p) (.flow W'), W', ?_,
    bind_same _ _ _, ?_, ?_, ?_, ?_, ?_⟩
  · refine execAll_trans (execAll_trans (execAll_trans (execAll_trans (execAll_cons e0 b1) (execAll_cons e1 rfl)) v1) p1)
      (execAll_cons e2 (execAll_cons e3 rfl))
  · rw [bind_store, bind_store, p2]
    have hmem : ∀ v, VarOf W v → v ∈ A := fun v hv => (mem_allVariables_graph s W).2 hv
    refine .mk (pairing A B) (fun u v hu hv e => pairing_inj hA hB' hl (hmem u hu) (hmem v hv) e)
      (fun v hv => pairing_forall hA hT (hmem v hv)) (by rw [w1, len]) ?_ ?_ w2 (by rw [w3, ho]; rfl) ?_ w5 ?_
    · intro i b b' hb hb'
      rw [w1] at hb'
      have hi := (List.getElem?_eq_some_iff.1 hb).1
      have := (List.forall₂_iff_get.1 hbs).2 i hi (by rw [len]; exact hi)
      simp only [List.get_eq_getElem] at this
      rw [List.getElem?_eq_getElem hi] at hb
      rw [List.getElem?_eq_getElem (by rw [len]; exact hi)] at hb'
      cases hb
      cases hb'
      exact this
    · rw [w1]; exact hports
    · intro o' ho'
      rw [ho] at ho'
      cases ho'
      obtain ⟨b, hb, hin⟩ := hout
      exact pairing_forall hA hT (hmem o (.inl ⟨b, hb, .inr hin⟩))
    · intro hleaf
      rw [w4]
      have := b4 hleaf
      rw [bind_same, ht] at this
      cases this
      rfl
  · rw [bind_store, bind_store, p2]
    exact Ext.trans b2 v2
  · refine ⟨t, ?_⟩
    rw [bind_other _ _ doc_ne_flow,
      bind_other _ _ doc_ne_pipes, hdoc3, ht]
  · intro x hx h1 h2
    have hne : ∀ y, (∃ a, y = p ++ a) → x ≠ y := fun y ⟨a, hy⟩ e => hx (e ▸ hy ▸ prefix_append p a)
    rw [bind_other _ _ (hne (flowName p) ⟨_, rfl⟩), bind_other _ _ (hne (pipesName p) ⟨_, rfl⟩), p4 _ (fun _ _ => hne _ ⟨_, rfl⟩),
      v3 _ (fun _ _ => hne _ ⟨_, rfl⟩), bind_other _ _ (hne (blocksName p) ⟨_, rfl⟩),
      b3 _ (inner_prefix hx h1 h2) (fun _ _ => hne _ ⟨_, rfl⟩), bind_other _ _ h2]
  · have hren : ren (pairing A B) (graph s W) (graph σ3.store W') := ren_graph (by rw [w1, len]) (by rw [w1]; exact hports) w2
    have hn : nbvs (graph σ3.store W') = (nbvs (graph s W)).map (pairing A B) :=
      (ren_vars hren (fun u hu v hv e => pairing_inj hA hB' hl hu hv e)).2
    have hR2 := hR'.frame (σ' := (σ3.bind (pipesName p) (.pipes (W.pipes.map fun q => (pairing A B q.1, pairing A B q.2)))).bind
      (flowName p) (.flow W')) (fun _ => bind_other _ _ flow_ne_block) (fun _ => bind_other _ _ flow_ne_var)
    refine ⟨by rw [w1]; exact hR2.1, fun i v hv => ?_⟩
    rw [bind_store, bind_store, hn, List.getElem?_map, Option.map_eq_some_iff] at hv
    obtain ⟨u, hu, rfl⟩ := hv
    exact hR2.2 i u hu

/-! ### Blocks -/

theorem newBlock_ok {L : Lang β τ α π} {s : Store τ α} {k : Kd β δ} {name : String} {position : Int × Int} {xs ys : List (Var τ α)}
    (h : portsOf L s name k = .ok (xs, ys)) : newBlock L s k name position =
      .ok (⟨k, name, position, List.range' s.length xs.length, List.range' (s.length + xs.length) ys.length⟩, s ++ xs ++ ys) := by
  simp only [newBlock, h]
  rfl

theorem leaf_runs {L : Lang β τ α π} {s : Store τ α} {b : Blk β δ} {k : β} (kind : b.kind = .leaf k)
    (make : L.make (L.classes k) (L.args k (L.ins k).length) = .ok k) (ports : PortsOk L s b) (m : Nat) (p : String) :
    BlockRuns L s (m + 1) p b := by
  obtain ⟨xs, ys, h1, h2, -⟩ := ports.ports
  have hl : b.inputs.length = (L.ins k).length := by
    have := h2.length_eq
    rw [kind] at h1
    cases h1
    simpa using this
  refine ⟨[], _, _, by simp only [blockScript, kind]; rfl, fun res hres σ => ?_⟩
  refine ⟨σ, ⟨.leaf k, b.name, b.position, List.range' σ.store.length xs.length, List.range' (σ.store.length + xs.length) ys.length⟩, xs, ys,
    rfl, Ext.refl _, fun _ _ => rfl, fun _ => rfl, id, h1, ?_, ?_, rfl, rfl, rfl, rfl⟩
  · have hn := newBlock_ok (L := L) (s := σ.store) (k := (.leaf k : Kd β δ)) (name := b.name) (position := b.position)
      (xs := xs) (ys := ys) (by rw [kind] at h1; exact h1)
    simp only [evalDecl, classes_ok hres, bind, Except.bind, hl, make]
    rw [show L.lit .double b.name = _ from ports.name]
    exact hn
  · rw [kind]; exact .leaf k

theorem sub_runs {L : Lang β τ α π} {s : Store τ α} {b : Blk β δ} {W : Flow β δ} (kind : b.kind = .sub W) {m : Nat} {p : String}
    (flow : FlowRuns L s m (subPrefix p) W) (ports : PortsOk L s b) : BlockRuns L s (m + 1) p b := by
  obtain ⟨xs, ys, h1, -⟩ := ports.ports
  obtain ⟨st, I, hs, run⟩ := flow
  refine ⟨st, .sub (flowName (subPrefix p)) b.name b.position, I ++ [workflowBlockC], by simp only [blockScript, kind, hs]; rfl,
    fun res hres σ => ?_⟩
  obtain ⟨σ', W', a1, a2, a3, a4, a5, a6, -⟩ := run res (fun c hc => hres c (by simp [hc])) σ
  have hp : portsOf L σ'.store b.name (.sub W') = .ok (xs, ys) := by
    rw [portsOf_congr L (.sub a3), ← kind, h1]
  refine ⟨σ', ⟨.sub W', b.name, b.position, List.range' σ'.store.length xs.length,
    List.range' (σ'.store.length + xs.length) ys.length⟩, xs, ys, a1, a4, ?_, ?_, fun _ => a5, h1, ?_, ?_, rfl, rfl, rfl, rfl⟩
  · intro x hx
    exact a6 x (fun h => hx (.inl h)) (fun h => hx (.inr (.inl h))) (fun h => hx (.inr (.inr h)))
  · rintro ⟨k, hk⟩
    rw [kind] at hk
    cases hk
  · have hg : getFlow σ' (flowName (subPrefix p)) = .ok W' := by simp only [getFlow, a2]
    simp only [evalDecl, calls_ok (hres workflowBlockC (by simp)), bind, Except.bind, hg]
    rw [show L.lit .double b.name = _ from ports.name]
    exact newBlock_ok hp
  · rw [kind]; exact .sub a3

theorem each_runs {L : Lang β τ α π} {s : Store τ α} {b c : Blk β δ} {i : Int} (kind : b.kind = .each c i) {m : Nat} {p : String}
    (cports : PortsOk L s c) (block : BlockRuns L s m p c)
    (exact : ∀ xs ys, portsOf L s c.name c.kind = .ok (xs, ys) → c.inputs.map (look s) = xs) (ports : PortsOk L s b) :
    BlockRuns L s (m + 1) p b := by
  obtain ⟨xs, ys, h1, -⟩ := ports.ports
  obtain ⟨st, d, I, hs, run⟩ := block
  refine ⟨st ++ [.setBlock "wfblock" d], .each "wfblock" i b.name b.position, I ++ [forEachC],
    by simp only [blockScript, kind, hs]; rfl, fun res hres σ => ?_⟩
  obtain ⟨σ1, c', us, vs, a1, a2, a3, a4, a4', a5, a6, a7, a8, a9, a10, a11⟩ := run res (fun c hc => hres c (by simp [hc])) σ
  let σ2 : St β τ α δ := { σ1 with store := σ1.store ++ us ++ vs }.bind "wfblock" (.block c')
  have hex : exec L res σ1 (.setBlock "wfblock" d) = .ok σ2 := by
    simp only [exec, a6]
    rfl
  have hE : Ext σ1.store σ2.store := by
    show Ext σ1.store (σ1.store ++ us ++ vs)
    rw [List.append_assoc]
    exact Ext.append _ _
  have hB : SameB s σ2.store c c' := by
    obtain ⟨us', vs', g1, -, g3⟩ := cports.ports
    rw [a5] at g1
    cases g1
    refine .mk (a7.mono hE) a8 a9 ?_ ?_
    · refine forall2_bound (forall2_eq ((exact us vs a5).trans ?_)) fun u hu => ?_
      · rw [a10]
        exact (look_new vs).symm
      · rw [a10, List.mem_range'_1] at hu
        show u < (σ1.store ++ us ++ vs).length
        simp only [List.length_append]
        omega
    · refine forall2_bound (forall2_eq (g3.trans ?_)) fun u hu => ?_
      · rw [a11]
        have := look_new (s := σ1.store ++ us) (xs := vs) []
        rw [List.append_nil, List.length_append] at this
        exact this.symm
      · rw [a11, List.mem_range'_1] at hu
        show u < (σ1.store ++ us ++ vs).length
        simp only [List.length_append]
        omega
  have hp : portsOf L σ2.store b.name (.each c' i) = .ok (xs, ys) := by
    rw [portsOf_congr L (.each i hB), ← kind, h1]
  refine ⟨σ2, ⟨.each c' i, b.name, b.position, List.range' σ2.store.length xs.length,
    List.range' (σ2.store.length + xs.length) ys.length⟩, xs, ys, execAll_trans a1 (execAll_cons hex rfl), a2.trans hE, ?_, ?_, ?_, h1, ?_,
    ?_, rfl, rfl, rfl, rfl⟩
  · intro x hx
    rw [bind_other _ _ (fun e => hx (.inr (.inl e))), a3 x hx]
  · rintro ⟨k, hk⟩
    rw [kind] at hk
    cases hk
  · intro ht
    rw [bind_other _ _ (by decide)]
    exact a4' ht
  · have hg : getBlock σ2 "wfblock" = .ok c' := by simp only [getBlock, σ2, bind_same]
    simp only [evalDecl, calls_ok (hres forEachC (by simp)), bind, Except.bind, hg]
    rw [show L.lit .double b.name = _ from ports.name]
    exact newBlock_ok hp
  · rw [kind]; exact .each i hB

theorem BlockOk.portsOk {L : Lang β τ α π} {s : Store τ α} {b : Blk β δ} (h : BlockOk L s b) : PortsOk L s b := by
  cases h <;> assumption

theorem uniform {γ : Type} {P : γ → Nat → Prop} (l : List γ) (h : ∀ x ∈ l, ∃ n, ∀ m, n ≤ m → P x m) :
    ∃ n, ∀ x ∈ l, ∀ m, n ≤ m → P x m := by
  induction l with
  | nil => exact ⟨0, fun x hx => by simp at hx⟩
  | cons x l ih =>
    obtain ⟨n, hn⟩ := h x (by simp)
    obtain ⟨k, hk⟩ := ih fun y hy => h y (by simp [hy])
    refine ⟨max n k, fun y hy m hm => ?_⟩
    rcases List.mem_cons.1 hy with rfl | hy
    · exact hn m (by omega)
    · exact hk y hy m (by omega)

theorem shift_limit {P : Nat → Prop} {n : Nat} (h : ∀ m, n ≤ m → P (m + 1)) : ∀ m, n + 1 ≤ m → P m := by
  intro m hm
  obtain ⟨k, rfl⟩ : ∃ k, m = k + 1 := ⟨m - 1, by omega⟩
  exact h k (by omega)

mutual
theorem FlowOk.runs {L : Lang β τ α π} {s : Store τ α} {W : Flow β δ} : FlowOk L s W → ∃ n, ∀ m, n ≤ m → ∀ p, FlowRuns L s m p W
  | .mk distinct target source blocks output free name doc => by
    obtain ⟨n, hn⟩ := uniform (P := fun b m => ∀ p, BlockRuns L s m p b) W.blocks fun b hb => (blocks b hb).runs
    exact ⟨n + 1, shift_limit fun m hm p => flow_runs distinct target source (fun b hb => ⟨(blocks b hb).portsOk, hn b hb m hm p⟩)
      output free name doc⟩
theorem BlockOk.runs {L : Lang β τ α π} {s : Store τ α} {b : Blk β δ} : BlockOk L s b → ∃ n, ∀ m, n ≤ m → ∀ p, BlockRuns L s m p b
  | .leaf kind make ports => ⟨0 + 1, shift_limit fun m _ p => leaf_runs kind make ports m p⟩
  | .sub kind flow ports => by
    obtain ⟨n, hn⟩ := flow.runs
    exact ⟨n + 1, shift_limit fun m hm p => sub_runs kind (hn m hm _) ports⟩
  | .each kind block exact ports => by
    obtain ⟨n, hn⟩ := block.runs
    exact ⟨n + 1, shift_limit fun m hm p => each_runs kind block.portsOk (hn m hm p) exact ports⟩
end

end DC.Scr
