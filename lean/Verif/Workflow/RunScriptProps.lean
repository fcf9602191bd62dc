import Verif.Workflow.RunScriptLemmas
import Verif.Workflow.RunSim
import Verif.Workflow.Examples
/- Properties of the scripts of runs: C129. -/
set_option linter.unusedSectionVars false
set_option linter.unusedSimpArgs false
namespace DC.Scr
open DC.Wkf

variable {β τ α δ π : Type} [Inhabited τ]

/-! ### What a workflow and its script say of the inputs -/

/-- The variable receives a pipe. -/
def fedBy (W : Flow β δ) (v : Nat) : Bool := W.pipes.any fun p => p.2 == v

theorem fedBy_iff {W : Flow β δ} {v : Nat} : fedBy W v = true ↔ ∃ p ∈ W.pipes, p.2 = v := by simp [fedBy]

theorem fedBy_not {W : Flow β δ} {v : Nat} : fedBy W v = false ↔ ∀ p ∈ W.pipes, p.2 ≠ v := by
  rw [← Bool.not_eq_true, fedBy_iff]
  exact ⟨fun h p hp e => h ⟨p, hp, e⟩, fun h ⟨p, hp, e⟩ => h p hp e⟩

section
variable {s : Store τ α} {W : Flow β δ}

theorem ancestor_graph {v : Nat} : hasAncestor (graph s W) v =
    (W.blocks.any (fun b => b.outputs.contains v) || W.pipes.any fun p => p.2 == v && p.1 != v) := by
  simp [hasAncestor, graph, List.any_map, Function.comp_def]

theorem input_ancestor (distinct : (W.blocks.flatMap fun b => b.inputs ++ b.outputs).Nodup)
    (source : ∀ p ∈ W.pipes, ∀ b ∈ W.blocks, p.1 ∉ b.inputs) {b : Blk β δ} (hb : b ∈ W.blocks) {v : Nat} (hv : v ∈ b.inputs) :
    hasAncestor (graph s W) v = fedBy W v := by
  rw [ancestor_graph, Bool.eq_iff_iff, fedBy_iff]
  simp only [Bool.or_eq_true, List.any_eq_true, List.contains_iff_mem, Bool.and_eq_true, beq_iff_eq, bne_iff_ne, ne_eq]
  constructor
  · rintro (⟨c, hc, ho⟩ | ⟨p, hp, h1, -⟩)
    · have hd : (blockVars (graph s W)).Nodup := by rw [blockVars_graph]; exact distinct
      exact (in_ne_out hd (List.mem_map.2 ⟨b, hb, rfl⟩) (List.mem_map.2 ⟨c, hc, rfl⟩) hv ho).elim
    · exact ⟨p, hp, h1⟩
  · rintro ⟨p, hp, rfl⟩
    exact .inr ⟨p, hp, rfl, fun e => source p hp b hb (e ▸ hv)⟩

theorem output_ancestor {b : Blk β δ} (hb : b ∈ W.blocks) {v : Nat} (hv : v ∈ b.outputs) : hasAncestor (graph s W) v = true := by
  rw [ancestor_graph, Bool.or_eq_true]
  left
  simp only [List.any_eq_true, List.contains_iff_mem]
  exact ⟨b, hb, hv⟩

theorem free_ancestor (target : ∀ p ∈ W.pipes, ∃ b ∈ W.blocks, p.2 ∈ b.inputs) {v : Nat} (hv : v ∈ nbvs (graph s W)) :
    hasAncestor (graph s W) v = false := by
  have hn := ((mem_nbvs_graph s W).1 hv).2
  rw [ancestor_graph, Bool.or_eq_false_iff]
  constructor
  · simp only [List.any_eq_false, List.contains_iff_mem]
    intro b hb ho
    exact hn ⟨b, hb, .inr ho⟩
  · simp only [List.any_eq_false, Bool.and_eq_true, beq_iff_eq, not_and]
    intro p hp e
    obtain ⟨b, hb, h⟩ := target p hp
    exact absurd ⟨b, hb, .inl (e ▸ h)⟩ hn

theorem filter_flat {l : List (Blk β δ)} {P Q : Nat → Bool} (hi : ∀ b ∈ l, ∀ v ∈ b.inputs, P v = Q v) (ho : ∀ b ∈ l, ∀ v ∈ b.outputs, P v = false) :
    (l.flatMap fun b => b.inputs ++ b.outputs).filter P = (l.flatMap (·.inputs)).filter Q := by
  induction l with
  | nil => rfl
  | cons b l ih =>
    rw [List.flatMap_cons, List.flatMap_cons, List.filter_append, List.filter_append, List.filter_append,
      ih (fun c hc => hi c (by simp [hc])) (fun c hc => ho c (by simp [hc])), List.filter_congr (hi b (by simp)),
      (List.filter_eq_nil_iff (l := b.outputs)).2 (fun v hv => by simp [ho b (by simp) v hv]), List.append_nil]

/-- The inputs are the inputs of the blocks which receive no pipe, in order, and the free variables. -/
theorem inputs_graph (distinct : (W.blocks.flatMap fun b => b.inputs ++ b.outputs).Nodup)
    (target : ∀ p ∈ W.pipes, ∃ b ∈ W.blocks, p.2 ∈ b.inputs) (source : ∀ p ∈ W.pipes, ∀ b ∈ W.blocks, p.1 ∉ b.inputs) :
    inputs (graph s W) = ((W.blocks.flatMap (·.inputs)).filter fun v => !fedBy W v) ++ nbvs (graph s W) := by
  unfold inputs
  rw [(nbvs_spec (graph s W)).1, blockVars_graph, List.filter_append]
  congr 1
  · exact filter_flat (fun b hb v hv => by rw [input_ancestor distinct source hb hv]) (fun b hb v hv => by rw [output_ancestor hb hv]; rfl)
  · exact List.filter_eq_self.2 fun v hv => by rw [free_ancestor target hv]; rfl

theorem ports_free {v : Nat} {b : Blk β δ} (hb : b ∈ W.blocks) (hv : v ∈ b.inputs) : v ∉ nbvs (graph s W) := fun h =>
  ((mem_nbvs_graph s W).1 h).2 ⟨b, hb, .inl hv⟩

/-- A port has one address. -/
theorem port_unique (s : Store τ α) (distinct : (W.blocks.flatMap fun b => b.inputs ++ b.outputs).Nodup) {j j' i i' v : Nat} {b b' : Blk β δ}
    (hb : W.blocks[j]? = some b) (hb' : W.blocks[j']? = some b') (hv : b.inputs[i]? = some v) (hv' : b'.inputs[i']? = some v) :
    j = j' ∧ i = i' := by
  have hd : (blockVars (graph s W)).Nodup := by rw [blockVars_graph]; exact distinct
  have g1 : (graph s W).blocks[j]? = some ⟨b.inputs, b.outputs, fun _ => .error .notImplemented⟩ := by simp [graph, hb]
  have g2 : (graph s W).blocks[j']? = some ⟨b'.inputs, b'.outputs, fun _ => .error .notImplemented⟩ := by simp [graph, hb']
  have e := nodup_blocks_disjoint hd g1 g2 (v := v) (List.mem_append_left _ (List.mem_of_getElem? hv))
    (List.mem_append_left _ (List.mem_of_getElem? hv'))
  subst e
  rw [hb] at hb'
  cases hb'
  refine ⟨rfl, ?_⟩
  have hn : b.inputs.Nodup := by
    have := (List.nodup_flatMap.1 distinct).1 b (List.mem_of_getElem? hb)
    exact (List.nodup_append.1 this).1
  obtain ⟨h1, e1⟩ := List.getElem?_eq_some_iff.1 hv
  obtain ⟨h2, e2⟩ := List.getElem?_eq_some_iff.1 hv'
  exact (List.Nodup.getElem_inj_iff hn).1 (e1.trans e2.symm)
end

theorem pipeStmts_mem {s : Store τ α} {p : String} {W : Flow β δ} : ∀ {qs : List (Nat × Nat)} {k : Nat} {ps : List (Stmt π)},
    pipeStmts s p W k qs = .ok ps → ∀ q ∈ qs, ∃ a x r, variableIndices (graph s W) q.2 = .ok a ∧ Stmt.setPipe x r (endRef p false a) ∈ ps := by
  intro qs
  induction qs with
  | nil => intro k ps _ q hq; simp at hq
  | cons q' qs ih =>
    intro k ps h q hq
    simp only [pipeStmts, bind_ok] at h
    obtain ⟨a, ha, b, hb, r, hr, h⟩ := h
    cases h
    rcases List.mem_cons.1 hq with rfl | hq
    · exact ⟨b, _, _, hb, .head _⟩
    · obtain ⟨a', x, r', h1, h2⟩ := ih hr q hq
      exact ⟨a', x, r', h1, .tail _ h2⟩

theorem flowScript_ok {L : Lang β τ α π} {s : Store τ α} {n : Nat} {p : String} {W : Flow β δ} {st : List (Stmt π)} {I : List Cls}
    (h : flowScript L s n p W = .ok (st, I)) : ∃ m o a bs ps r, n = m + 1 ∧ W.output = some o ∧ variableIndices (graph s W) o = .ok a ∧
      blockStmts s p (blockScript L s m p) 0 W.blocks = .ok bs ∧ pipeStmts s p W 0 W.pipes = .ok ps ∧ outputRef p a = .ok r ∧
      st = .setDoc W.documentation :: bs.1 ++ [.setBlocks (blocksName p) ((List.range W.blocks.length).map (blockName p))] ++
          varStmts L s p 0 (nbvs (graph s W)) ++ ps ++ [.setPipes (pipesName p) ((List.range W.pipes.length).map (pipeName p)),
          .setWf (flowName p) (blocksName p) (pipesName p) r W.name] := by
  cases n with
  | zero => simp [flowScript] at h
  | succ n =>
    simp only [flowScript] at h
    cases ho : W.output with
    | none => rw [ho] at h; cases h
    | some o =>
      rw [ho] at h
      simp only [bind_ok] at h
      obtain ⟨a, ha, bs, hb, ps, hp, r, hr, h⟩ := h
      cases h
      exact ⟨n, o, a, bs, ps, r, rfl, rfl, ha, hb, hp, hr, rfl⟩

theorem holds_self (t : String) : holds t t = true := by
  simp only [holds, List.any_eq_true, List.mem_tails]
  exact ⟨t.toList, List.suffix_rfl, by simp⟩

/-- The key of an input which receives a pipe is written in the script. -/
theorem fed_written {L : Lang β τ α π} {s : Store τ α} {n : Nat} {W : Flow β δ} {st : List (Stmt π)} {I : List Cls}
    (h : flowScript L s n "" W = .ok (st, I)) (distinct : (W.blocks.flatMap fun b => b.inputs ++ b.outputs).Nodup) (argText : π → String)
    {j i v : Nat} {b : Blk β δ} (hb : W.blocks[j]? = some b) (hv : b.inputs[i]? = some v) (hf : fedBy W v = true) :
    written argText st (refText (.input (blockName "" j) i)) = true := by
  obtain ⟨q, hq, rfl⟩ := fedBy_iff.1 hf
  obtain ⟨m, o, a, bs, ps, r, rfl, ho, ha, hbs, hp, hr, rfl⟩ := flowScript_ok h
  obtain ⟨a', x, r', h1, h2⟩ := pipeStmts_mem hp q hq
  have hbm := List.mem_of_getElem? hb
  have hvm := List.mem_of_getElem? hv
  obtain ⟨j', side, i', c, e1, e2, e3, e4⟩ := port_addr (s := s) distinct (v := q.2) ⟨b, hbm, .inl hvm⟩
  have hs : side = false := by
    cases side with
    | false => rfl
    | true =>
      obtain ⟨c, hc, hout⟩ := e4.1 rfl
      have hd' : (blockVars (graph s W)).Nodup := by rw [blockVars_graph]; exact distinct
      exact (in_ne_out hd' (List.mem_map.2 ⟨b, hbm, rfl⟩) (List.mem_map.2 ⟨c, hc, rfl⟩) hvm hout).elim
  subst hs
  simp only [Bool.false_eq_true, if_false] at e3
  obtain ⟨rfl, rfl⟩ := port_unique s distinct hb e2 hv e3
  rw [e1] at h1
  cases h1
  simp only [written, List.any_eq_true]
  refine ⟨.setPipe x r' (endRef "" false (.port j false i)), ?_, refText (.input (blockName "" j) i), ?_, holds_self _⟩
  · simp only [List.mem_append]
    exact .inl (.inr h2)
  · simp [stmtTexts, endRef]

/-- Workflows which are alike are the same up to the names of variables. -/
theorem same_ren {s s' : Store τ α} {W W' : Flow β δ} (h : SameW s s' W W') (ev : Store τ α → Kd β δ → List α → Except PyErr (List α))
    (hev : ∀ k k', SameK s s' k k' → ev s' k' = ev s k) (ho : ∀ o, W.output = some o → VarOf W o) :
    ∃ ρ : Nat → Nat, Wkf.Twin ρ (graphWith ev s W) (graphWith ev s' W') ∧ SameLocks ρ (graphWith ev s W) (graphWith ev s' W') ∧
      ∀ (i : Nat) b b', W.blocks[i]? = some b → W'.blocks[i]? = some b' → b'.inputs = b.inputs.map ρ ∧ b'.outputs = b.outputs.map ρ := by
  cases h with
  | mk ρ inj twin len blocks ports pipes output outTwin name doc =>
  have hren : ren ρ (graphWith ev s W) (graphWith ev s' W') := by
    constructor
    · apply ext_get
      · simp [graphWith, len]
      · intro i x y hx hy
        simp only [graphWith, List.getElem?_map, Option.map_eq_some_iff] at hx hy
        obtain ⟨b, hb, rfl⟩ := hx
        obtain ⟨b', hb', rfl⟩ := hy
        obtain ⟨h1, h2⟩ := ports i b b' hb hb'
        have h3 : ev s' b'.kind = ev s b.kind := by
          cases blocks i b b' hb hb' with
          | mk kind _ _ _ _ => exact hev _ _ kind
        simp only [h1, h2, h3]
    · simp only [graphWith, pipes, List.map_map]
      rfl
  have hvar : ∀ v, v ∈ allVariables (graphWith ev s W) ↔ VarOf W v := by
    intro v
    rw [mem_allVariables]
    simp [blockVars, graphWith, VarOf, List.flatMap_map]
  refine ⟨ρ, ⟨hren, fun u hu v hv he => inj u v ((hvar u).1 hu) ((hvar v).1 hv) he, fun o h => (hvar o).2 (ho o h), output⟩,
    fun v hv => ?_, ports⟩
  have := (twin v ((hvar v).1 hv)).1
  simp only [graphWith, this, and_self]

/-! ### C129: the script of a run -/

/-- The class is named in the script of the run: in the script of the workflow, or to import what the annotation of an input names. -/
def UsesR (L : Lang β τ α π) (V : Vals τ α) (s : Store τ α) (W : Flow β δ) (c : Cls) : Prop :=
  UsesW L s W c ∨ ∃ v ∈ inputs (graph s W), ∃ I, V.imports (look s v).type (look s v).name = .ok I ∧ c ∈ I

/-- The text of each value of the run stands for this value, once the classes which the annotation of the input names are imported. -/
def ReadsBack (V : Vals τ α) (s : Store τ α) (W : Flow β δ) (vals : Nat → Option α) : Prop :=
  ∀ (k v : Nat) x I, (inputs (graph s W))[k]? = some v → vals k = some x → V.imports (look s v).type (look s v).name = .ok I →
    ∀ res : String → Option Cls, (∀ c ∈ I, res c.2 = some c) → V.read res (processValue V x) = .ok x

/-- The inputs which receive no pipe are not written in the script of the workflow. -/
def OpenPorts (L : Lang β τ α π) (argText : π → String) (s : Store τ α) (W : Flow β δ) : Prop :=
  ∀ limit st I, flowScript L s limit "" W = .ok (st, I) → ∀ (j i v : Nat) (b : Blk β δ), W.blocks[j]? = some b → b.inputs[i]? = some v →
    (∀ p ∈ W.pipes, p.2 ≠ v) → written argText st ("block_" ++ (toString j ++ (".inputs[" ++ (toString i ++ "]")))) = false

theorem rerun_gives {L : Lang β τ α π} {V : Vals τ α} {argText : π → String} {s : Store τ α} {W : Flow β δ} {vals : Nat → Option α}
    (hW : FlowOk L s W) (hnames : ∀ c d, UsesR L V s W c → UsesR L V s W d → c.2 = d.2 → c = d)
    (himp : ∀ v ∈ inputs (graph s W), ∃ I, V.imports (look s v).type (look s v).name = .ok I)
    (hopen : OpenPorts L argText s W) (hall : ∀ k, k < (inputs (graph s W)).length → (vals k).isSome) (hread : ReadsBack V s W vals) :
    ∃ n, ∀ limit, n ≤ limit → ∀ s0 : Store τ α, ∃ W' s' user, rerun L V argText limit s W vals s0 = .ok (W', s', user) ∧ SameW s s' W W' ∧
      Ext s0 s' ∧ (∀ kx ∈ user, kx.1 < (inputs (graph s W)).length) ∧
      ∀ k, k < (inputs (graph s W)).length → user.lookup k = vals k := by
  obtain ⟨n, hn⟩ := hW.runs
  refine ⟨n, fun limit hl s0 => ?_⟩
  obtain ⟨st, I, hs, run⟩ := hn limit hl ""
  have huse : ∀ c ∈ I, UsesW L s W c := (script_uses limit "").1 W _ hs
  cases hW with
  | mk distinct target source blocks output free name doc =>
  have hin := inputs_graph (s := s) distinct target source
  have hnd : (inputs (graph s W)).Nodup := inputs_nodup (by rw [blockVars_graph]; exact distinct)
  -- the value of each variable
  let valO : Nat → Option α := fun v => vals ((inputs (graph s W)).idxOf v)
  have hval : ∀ (i v : Nat), (inputs (graph s W))[i]? = some v → valO v = vals (0 + i) ∧ (vals (0 + i)).isSome := by
    intro i v hv
    refine ⟨?_, ?_⟩
    · show vals _ = _
      rw [idxOf_get hnd hv, Nat.zero_add]
    · rw [Nat.zero_add]; exact hall i (List.getElem?_eq_some_iff.1 hv).1
  have hblocks : (inputs (graph s W)).filter (fun v => !decide (v ∈ nbvs (graph s W))) = (W.blocks.flatMap (·.inputs)).filter fun v => !fedBy W v := by
    rw [hin, List.filter_append, List.filter_eq_self.2, (List.filter_eq_nil_iff (l := nbvs (graph s W))).2, List.append_nil]
    · intro v hv; simp [hv]
    · intro v hv
      obtain ⟨hv, -⟩ := List.mem_filter.1 hv
      obtain ⟨b, hb, hv⟩ := List.mem_flatMap.1 hv
      simp [ports_free (s := s) hb hv]
  have hfree : (inputs (graph s W)).filter (fun v => decide (v ∈ nbvs (graph s W))) = nbvs (graph s W) := by
    rw [hin, List.filter_append, List.filter_eq_nil_iff.2, (List.filter_eq_self (l := nbvs (graph s W))).2, List.nil_append]
    · intro v hv; simp [hv]
    · intro v hv
      obtain ⟨hv, -⟩ := List.mem_filter.1 hv
      obtain ⟨b, hb, hv⟩ := List.mem_flatMap.1 hv
      simp [ports_free (s := s) hb hv]
  obtain ⟨nv, hnv, hnv'⟩ := valuesAt_ok (keep := fun v => decide (v ∈ nbvs (graph s W))) hval
  obtain ⟨bv, hbv, hbv'⟩ := valuesAt_ok (keep := fun v => !decide (v ∈ nbvs (graph s W))) hval
  rw [hfree] at hnv'
  rw [hblocks] at hbv'
  -- the entries
  let imp : Nat → List Cls := fun v => match V.imports (look s v).type (look s v).name with
    | .ok I => I
    | .error _ => []
  have himp' : ∀ v ∈ inputs (graph s W), V.imports (look s v).type (look s v).name = .ok (imp v) := by
    intro v hv
    obtain ⟨I, hI⟩ := himp v hv
    show _ = Except.ok (match V.imports (look s v).type (look s v).name with
      | .ok I => I
      | .error _ => [])
    rw [hI]
  have hport : ∀ b ∈ W.blocks, ∀ v ∈ b.inputs, fedBy W v = false → v ∈ inputs (graph s W) := by
    intro b hb v hv hf
    rw [hin]
    exact List.mem_append_left _ (List.mem_filter.2 ⟨List.mem_flatMap.2 ⟨b, hb, hv⟩, by simp [hf]⟩)
  have hnb : ∀ v ∈ nbvs (graph s W), v ∈ inputs (graph s W) := fun v hv => by rw [hin]; exact List.mem_append_right _ hv
  obtain ⟨eb, hb1, hb2, hb3⟩ := blockEntries_ok (V := V) (s := s) (valO := valO) (inText := written argText st) (bv := bv) (fed := fedBy W)
    (imp := imp) (bs := W.blocks) (j := 0) (n := 0) (fun q b k v hb hv => by
      rw [Nat.zero_add]
      cases hf : fedBy W v with
      | true => exact fed_written hs distinct argText hb hv hf
      | false =>
        have := hopen limit st I hs q k v b hb hv (fedBy_not.1 hf)
        simpa [refText, blockName, String.append_assoc] using this)
    (fun b hb v hv hf => himp' v (hport b hb v hv hf)) (by rw [List.drop_zero]; exact hbv')
  obtain ⟨ef, hf1, hf2, hf3⟩ := freeEntries_ok (V := V) (s := s) (valO := valO) (nv := nv) (imp := imp) (vs := nbvs (graph s W)) (k := 0)
    (fun v hv => himp' v (hnb v hv)) (by rw [List.drop_zero]; exact hnv')
  have hes : runEntries V s W vals (written argText st) = .ok (eb ++ ef) := by
    simp only [runEntries, hnv, hbv, hb1, hf1, bind, Except.bind]
  let T := openAll (fedBy W) 0 W.blocks ++ freeAll 0 (nbvs (graph s W))
  have hsays : List.Forall₂ (Says V s valO) (eb ++ ef) T := List.rel_append hb2 hf2
  -- the names
  have hR : ∀ c ∈ I ++ (eb ++ ef).flatMap (·.imports), UsesR L V s W c := by
    intro c hc
    rcases List.mem_append.1 hc with hc | hc
    · exact .inl (huse c hc)
    · obtain ⟨e, he, hc⟩ := List.mem_flatMap.1 hc
      rcases List.mem_append.1 he with he | he
      · obtain ⟨v, h1, ⟨b, hb, h2⟩, h3⟩ := hb3 e he
        have hv := hport b hb v h2 h1
        exact .inr ⟨v, hv, imp v, himp' v hv, h3 ▸ hc⟩
      · obtain ⟨v, h2, h3⟩ := hf3 e he
        have hv := hnb v h2
        exact .inr ⟨v, hv, imp v, himp' v hv, h3 ▸ hc⟩
  let res := resolve (I ++ (eb ++ ef).flatMap (·.imports))
  have hres : ∀ c ∈ I ++ (eb ++ ef).flatMap (·.imports), res c.2 = some c := fun c hc =>
    resolve_ok (fun c hc d hd => hnames c d (hR c hc) (hR d hd)) hc
  obtain ⟨σ', W', h1, h2, h3, h4, -, -, h5⟩ := run res (fun c hc => hres c (List.mem_append_left _ hc)) { env := fun _ => none, store := s0 }
  have hg : getFlow σ' (flowName "") = .ok W' := by simp only [getFlow, h2]
  -- the counterparts
  have hmemT : ∀ av ∈ T, av.2 ∈ inputs (graph s W) := by
    intro av hav
    rcases List.mem_append.1 hav with hav | hav
    · obtain ⟨q, b, i, g1, g2, -, g4⟩ := mem_openAll hav
      exact hport b (List.mem_of_getElem? g1) _ (List.mem_of_getElem? g2) g4
    · obtain ⟨q, g1, -⟩ := mem_freeAll hav
      exact hnb _ (List.mem_of_getElem? g1)
  have hAT : ∀ av ∈ T, InAddr av.1 := by
    intro av hav
    rcases List.mem_append.1 hav with hav | hav
    · obtain ⟨q, b, i, -, -, g3, -⟩ := mem_openAll hav
      rw [g3]; rfl
    · obtain ⟨q, -, g2⟩ := mem_freeAll hav
      rw [g2]; trivial
  have hfrom : ∀ av ∈ T, variableFromIndex (graph s W) av.1 = .ok av.2 := by
    intro av hav
    rcases List.mem_append.1 hav with hav | hav
    · obtain ⟨q, b, i, g1, g2, g3, -⟩ := mem_openAll hav
      rw [g3, Nat.zero_add]
      simp [variableFromIndex, graph, g1, g2]
    · obtain ⟨q, g1, g2⟩ := mem_freeAll hav
      rw [g2, Nat.zero_add]
      simp only [variableFromIndex, g1]
  have huniq : ∀ av ∈ T, ∀ bw ∈ T, av.1 = bw.1 → av.2 = bw.2 := by
    intro av hav bw hbw e
    have e1 := hfrom av hav
    have e2 := hfrom bw hbw
    rw [e, e2] at e1
    exact (Except.ok.inj e1).symm
  obtain ⟨env, ha1, ha2⟩ := assign_ok (V := V) (res := res) hsays (fun av hav x hx => by
    obtain ⟨e, he, -, -, -, hI⟩ := (forall₂_of_mem hsays).2 av hav
    have hk := List.idxOf_lt_length_of_mem (hmemT av hav)
    refine hread _ av.2 x _ ?_ hx hI res fun c hc => hres c (List.mem_append_right _ (List.mem_flatMap.2 ⟨e, he, hc⟩))
    rw [List.getElem?_eq_getElem hk, List.getElem_idxOf])
  obtain ⟨ρ, h6, -, h7⟩ := same_ren h3 (fun _ _ _ => .error .notImplemented) (fun _ _ _ => rfl) (fun o ho => by
    obtain ⟨o', ho', b, hb, hm⟩ := output
    rw [ho] at ho'
    cases ho'
    exact .inl ⟨b, hb, .inr hm⟩)
  have hin' : inputs (graph σ'.store W') = (inputs (graph s W)).map ρ := ren_inputs h6.ren h6.inj
  have hnb' : nbvs (graph σ'.store W') = (nbvs (graph s W)).map ρ := h6.nbvs
  have hget : ∀ av ∈ T, getVar σ' (endRef "" false av.1) = .ok (ρ av.2) := by
    intro av hav
    rcases List.mem_append.1 hav with hav | hav
    · obtain ⟨q, b, i, g1, g2, g3, -⟩ := mem_openAll hav
      have hlt : q < W'.blocks.length := by
        cases h3 with
        | mk _ _ _ len => rw [len]; exact (List.getElem?_eq_some_iff.1 g1).1
      have g5 := List.getElem?_eq_getElem hlt
      have g6 := h5.1 q _ g5
      rw [g3, Nat.zero_add]
      simp only [endRef, Bool.false_eq_true, if_false, getVar, getBlock, g6, bind, Except.bind, (h7 q b _ g1 g5).1, at', List.getElem?_map, g2,
        Option.map_some]
    · obtain ⟨q, g1, g2⟩ := mem_freeAll hav
      rw [g2, Nat.zero_add]
      have := h5.2 q (ρ av.2) (by rw [hnb', List.getElem?_map, g1]; rfl)
      simp only [endRef, getVar, this]
      rfl
  have hidx : ∀ av ∈ T, inputIndex (graph σ'.store W') (ρ av.2) = some ((inputs (graph s W)).idxOf av.2) := by
    intro av hav
    have hm := hmemT av hav
    rw [inputIndex_input (by rw [hin']; exact List.mem_map_of_mem hm), hin', idxOf_map]
    intro u hu he
    exact h6.inj u (mem_inputs.1 hu).1 _ (mem_inputs.1 hm).1 he
  obtain ⟨d, hd1, hd2, -, hd4⟩ := dictOf_ok (σ := σ') (W' := W') (F := vals) (N := (inputs (graph s W)).length) hsays (fun av hav =>
    ⟨ρ av.2, _, hget av hav, hidx av hav, List.idxOf_lt_length_of_mem (hmemT av hav), rfl, getValue_ok ha2 hAT huniq hav⟩)
    (d := []) ⟨by simp, by simp⟩
  obtain ⟨user, hu1, hu2, hu3⟩ := asUser_ok hd2
  refine ⟨W', σ'.store, user, ?_, h3, h4, fun kx hkx => (hu2 kx hkx).1, fun k hk => ?_⟩
  · simp only [rerun, hs, hes, bind, Except.bind]
    simp only [show resolve (I ++ (eb ++ ef).flatMap (·.imports)) = res from rfl, h1, hg, ha1, hd1, hu1]
  · refine user_lookup (fun kx hkx => (hu2 kx hkx).2) (hu3 k ?_)
    have hv := List.getElem?_eq_getElem hk
    have hvm : (inputs (graph s W))[k] ∈ T.map (·.2) := by
      have : T.map (·.2) = inputs (graph s W) := by rw [List.map_append, openAll_snd, freeAll_snd, hin]
      rw [this]; exact List.getElem_mem hk
    obtain ⟨av, hav, he⟩ := List.mem_map.1 hvm
    obtain ⟨v', g1, g2⟩ := hd4 av hav
    rw [hget av hav] at g1
    cases g1
    rw [hidx av hav, he, idxOf_get hnd hv] at g2
    exact g2

/-! ### Scripts where a search for an input finds it only where it is used -/

theorem holds_iff {key t : String} : holds key t = true ↔ key.toList <:+: t.toList := by
  simp only [holds, List.any_eq_true, List.mem_tails, List.isPrefixOf_iff_prefix, List.infix_iff_prefix_suffix]
  exact ⟨fun ⟨u, h1, h2⟩ => ⟨u, h2, h1⟩, fun ⟨u, h1, h2⟩ => ⟨u, h2, h1⟩⟩

/-- How an input is written. -/
def portText (j i : Nat) : String := "block_" ++ (toString j ++ (".inputs[" ++ (toString i ++ "]")))

theorem portText_ref {j i : Nat} : refText (.input (blockName "" j) i) = portText j i := by
  simp [refText, blockName, portText, String.append_assoc]

theorem portText_chars (j i : Nat) : (portText j i).toList =
    'b' :: ("lock_".toList ++ ((toString j).toList ++ '.' :: ("inputs[".toList ++ ((toString i).toList ++ [']'])))) := by
  simp [portText, String.toList_append]

theorem not_holds_of_inputs {j i : Nat} {t : String} (h : holds ".inputs[" t = false) : holds (portText j i) t = false := by
  rw [← Bool.not_eq_true, holds_iff] at h ⊢
  intro hk
  refine h (List.IsInfix.trans ?_ hk)
  refine ⟨"block_".toList ++ (toString j).toList, (toString i).toList ++ [']'], ?_⟩
  simp [portText, String.toList_append]

theorem not_holds_of_dot {t : String} (h : '.' ∉ t.toList) : holds ".inputs[" t = false := by
  rw [← Bool.not_eq_true, holds_iff]
  intro hk
  exact h (hk.subset (by decide))

/-- Where an input is found in a text which begins with its only `b`. -/
theorem holds_full {j i : Nat} {t : String} {r : List Char} (ht : t.toList = 'b' :: r) (hr : 'b' ∉ r) (h : holds (portText j i) t = true) :
    (portText j i).toList <+: t.toList := by
  rw [holds_iff, List.infix_iff_prefix_suffix] at h
  obtain ⟨u, h1, h2⟩ := h
  have hb : 'b' ∈ u := h1.subset (by rw [portText_chars]; simp)
  rw [ht] at h2 ⊢
  rcases List.suffix_cons_iff.1 h2 with rfl | h3
  · exact h1
  · exact absurd (h3.subset hb) hr

theorem digits_ne {n : Nat} {c : Char} (h : c.isDigit = false) : c ∉ Nat.toDigits 10 n := fun hc => by
  rw [Nat.isDigit_of_mem_toDigits (by decide) (by decide) hc] at h; cases h

theorem holds_input {j i j' i' : Nat} (h : holds (portText j i) (portText j' i') = true) : j = j' ∧ i = i' := by
  have hp := holds_full (portText_chars j' i') (by simp [digits_ne (n := j') (c := 'b') (by decide), digits_ne (n := i') (c := 'b') (by decide)]) h
  obtain ⟨r, hr⟩ := hp
  rw [portText_chars, portText_chars] at hr
  simp only [List.cons_append, List.cons.injEq, true_and, List.append_assoc, List.append_cancel_left_eq] at hr
  obtain ⟨h1, h2⟩ := split_unique (digit_ne (by decide)) (digit_ne (by decide)) hr
  simp only [List.append_cancel_left_eq, List.append_assoc] at h2
  obtain ⟨h3, -⟩ := split_unique (digit_ne (by decide)) (digit_ne (by decide)) (show (toString i).toList ++ ']' :: r = (toString i').toList ++ ']' :: [] from h2)
  exact ⟨toString_inj (String.toList_inj.1 h1), toString_inj (String.toList_inj.1 h3)⟩

theorem holds_output {j i j' i' : Nat} : holds (portText j i) (refText (.output (blockName "" j') i')) = false := by
  rw [← Bool.not_eq_true]
  intro h
  have hc : (refText (.output (blockName "" j') i')).toList =
      'b' :: ("lock_".toList ++ ((toString j').toList ++ '.' :: ("outputs[".toList ++ ((toString i').toList ++ [']'])))) := by
    simp [refText, blockName, String.toList_append]
  have hp := holds_full hc (by simp [digits_ne (n := j') (c := 'b') (by decide), digits_ne (n := i') (c := 'b') (by decide)]) h
  obtain ⟨r, hr⟩ := hp
  rw [portText_chars, hc] at hr
  simp only [List.cons_append, List.cons.injEq, true_and, List.append_assoc, List.append_cancel_left_eq] at hr
  obtain ⟨-, h2⟩ := split_unique (digit_ne (by decide)) (digit_ne (by decide)) hr
  exact absurd (congrArg List.head? h2) (by simp)

theorem blockName_plain (j : Nat) : holds ".inputs[" (blockName "" j) = false := not_holds_of_dot (by
  simp [blockName, String.toList_append, digits_ne (n := j) (c := '.') (by decide)])
theorem varName_plain (j : Nat) : holds ".inputs[" (varName "" j) = false := not_holds_of_dot (by
  simp [varName, String.toList_append, digits_ne (n := j) (c := '.') (by decide)])
theorem pipeName_plain (j : Nat) : holds ".inputs[" (pipeName "" j) = false := not_holds_of_dot (by
  simp [pipeName, String.toList_append, digits_ne (n := j) (c := '.') (by decide)])

/-- A workflow of simple blocks, where no input is locked unless it receives a pipe, and where no text contains `.inputs[`. -/
structure PlainFlow (L : Lang β τ α π) (argText : π → String) (s : Store τ α) (W : Flow β δ) : Prop where
  leaf : ∀ b ∈ W.blocks, ∃ k, b.kind = .leaf k ∧ holds ".inputs[" (argText (L.args k b.inputs.length)) = false ∧
    ∀ c ∈ L.classes k, holds ".inputs[" c.2 = false
  names : ∀ b ∈ W.blocks, holds ".inputs[" b.name = false
  unlocked : ∀ b ∈ W.blocks, ∀ v ∈ b.inputs, (∀ p ∈ W.pipes, p.2 ≠ v) → (look s v).lockFlag = false
  free : ∀ v ∈ nbvs (graph s W), holds ".inputs[" (look s v).name = false ∧ holds ".inputs[" (look s v).label = false ∧
    holds ".inputs[" (L.pretty (look s v).type) = false
  doc : holds ".inputs[" W.documentation = false
  name : holds ".inputs[" W.name = false

/-- The statement does not show the input. -/
def Hides (argText : π → String) (key : String) (c : Stmt π) : Prop := ∀ t ∈ stmtTexts argText c, holds key t = false

theorem lockStmts_hide {s : Store τ α} {argText : π → String} {j i q : Nat} : ∀ {vs : List Nat} {k : Nat} {l : List (Stmt π)},
    lockStmts s (blockName "" q) k vs = .ok l → (q = j → ∀ n v, vs[n]? = some v → k + n = i → (look s v).lockFlag = false) →
      ∀ c ∈ l, Hides argText (portText j i) c := by
  intro vs
  induction vs with
  | nil => intro k l h _ c hc; cases h; simp at hc
  | cons v vs ih =>
    intro k l h hl c hc
    simp only [lockStmts, bind_ok] at h
    obtain ⟨b, hb, r, hr, h⟩ := h
    cases h
    have tail : c ∈ r → Hides argText (portText j i) c := ih hr (fun e n w hw hn => hl e (n + 1) w (by simpa using hw) (by omega)) c
    split at hc
    · rename_i hbt
      rcases List.mem_cons.1 hc with rfl | hc
      · intro t ht
        simp only [stmtTexts, List.mem_singleton] at ht
        rw [ht, portText_ref, ← Bool.not_eq_true]
        intro hh
        obtain ⟨e1, e2⟩ := holds_input hh
        have := hl e1.symm 0 v rfl (by omega)
        rw [Var.locked, this] at hb
        cases hb
        cases hbt
      · exact tail hc
    · exact tail hc

theorem blockStmts_hide {L : Lang β τ α π} {s : Store τ α} {argText : π → String} {j i m : Nat} : ∀ {bs : List (Blk β δ)} {k : Nat}
    {r : List (Stmt π) × List Cls}, blockStmts s "" (blockScript L s m "") k bs = .ok r →
    (∀ b ∈ bs, ∃ c, b.kind = .leaf c ∧ holds ".inputs[" (argText (L.args c b.inputs.length)) = false ∧ ∀ d ∈ L.classes c, holds ".inputs[" d.2 = false) →
    (∀ b ∈ bs, holds ".inputs[" b.name = false) →
    (∀ (q : Nat) b n v, bs[q]? = some b → b.inputs[n]? = some v → k + q = j → n = i → (look s v).lockFlag = false) →
    ∀ c ∈ r.1, Hides argText (portText j i) c := by
  intro bs
  induction bs with
  | nil => intro k r h _ _ _ c hc; cases h; simp at hc
  | cons b bs ih =>
    intro k r h hleaf hname hlock c hc
    simp only [blockStmts, bind_ok] at h
    obtain ⟨d, hd, l, hl, r', hr, h⟩ := h
    cases h
    obtain ⟨kd, hk, h1, h2⟩ := hleaf b (by simp)
    cases m with
    | zero => simp [blockScript] at hd
    | succ m =>
      simp only [blockScript, hk] at hd
      cases hd
      simp only [List.nil_append, List.mem_cons, List.mem_append] at hc
      rcases hc with rfl | hc | hc
      · intro t ht
        apply not_holds_of_inputs
        simp only [stmtTexts, declTexts, List.mem_cons, List.mem_append, List.mem_map, List.not_mem_nil, or_false] at ht
        rcases ht with rfl | ⟨a, ha, rfl⟩ | rfl | rfl
        · exact blockName_plain _
        · exact h2 a ha
        · exact h1
        · exact hname b (by simp)
      · refine lockStmts_hide hl (fun e n v hv hn => hlock 0 b n v rfl hv (by omega) (by omega)) c hc
      · exact ih hr (fun b hb => hleaf b (by simp [hb])) (fun b hb => hname b (by simp [hb]))
          (fun q b n v hb hv e => hlock (q + 1) b n v (by simpa using hb) hv (by omega)) c hc

theorem varStmts_hide {L : Lang β τ α π} {s : Store τ α} {argText : π → String} {j i : Nat} : ∀ {vs : List Nat} {k : Nat},
    (∀ v ∈ vs, holds ".inputs[" (look s v).name = false ∧ holds ".inputs[" (look s v).label = false ∧
      holds ".inputs[" (L.pretty (look s v).type) = false) → ∀ c ∈ varStmts L s "" k vs, Hides argText (portText j i) c := by
  intro vs
  induction vs with
  | nil => intro k _ c hc; simp [varStmts] at hc
  | cons v vs ih =>
    intro k h c hc
    rcases List.mem_cons.1 hc with rfl | hc
    · intro t ht
      apply not_holds_of_inputs
      simp only [stmtTexts, List.mem_cons, List.not_mem_nil, or_false] at ht
      obtain ⟨h1, h2, h3⟩ := h v (by simp)
      rcases ht with rfl | rfl | rfl | rfl
      · exact varName_plain _
      · exact h1
      · exact h2
      · exact h3
    · exact ih (fun v hv => h v (by simp [hv])) c hc

theorem pipeStmts_hide {s : Store τ α} {argText : π → String} {W : Flow β δ} {j i : Nat} : ∀ {qs : List (Nat × Nat)} {k : Nat}
    {ps : List (Stmt π)}, pipeStmts s "" W k qs = .ok ps → (∀ q ∈ qs, variableIndices (graph s W) q.2 ≠ .ok (.port j false i)) →
      (∀ q ∈ qs, ∀ a, variableIndices (graph s W) q.2 = .ok a → InAddr a) →
      ∀ c ∈ ps, Hides argText (portText j i) c := by
  intro qs
  induction qs with
  | nil => intro k ps h _ _ c hc; cases h; simp at hc
  | cons q qs ih =>
    intro k ps h hq hq2 c hc
    simp only [pipeStmts, bind_ok] at h
    obtain ⟨a, ha, b, hb, r, hr, h⟩ := h
    cases h
    rcases List.mem_cons.1 hc with rfl | hc
    · intro t ht
      simp only [stmtTexts, List.mem_cons, List.not_mem_nil, or_false] at ht
      rcases ht with rfl | rfl | rfl
      · exact not_holds_of_inputs (pipeName_plain _)
      · cases a with
        | nbv n => exact not_holds_of_inputs (varName_plain n)
        | port j' _ i' => exact holds_output
      · cases b with
        | nbv n => exact not_holds_of_inputs (varName_plain n)
        | port j' side i' =>
          have hside : side = false := hq2 q (by simp) _ hb
          subst hside
          simp only [endRef, Bool.false_eq_true, if_false, portText_ref]
          rw [← Bool.not_eq_true]
          intro hh
          obtain ⟨rfl, rfl⟩ := holds_input hh
          exact hq q (by simp) hb
    · exact ih hr (fun q hq' => hq q (by simp [hq'])) (fun q hq' => hq2 q (by simp [hq'])) c hc

/-- In such a workflow, the inputs which receive no pipe are not written. -/
theorem PlainFlow.open {L : Lang β τ α π} {argText : π → String} {s : Store τ α} {W : Flow β δ} (hp : PlainFlow L argText s W)
    (hW : FlowOk L s W) : OpenPorts L argText s W := by
  intro limit st I h j i v b hb hv hn
  cases hW with
  | mk distinct target source blocks output free name doc =>
  obtain ⟨m, o, a, bs, ps, r, rfl, ho, ha, hbs, hps, hr, rfl⟩ := flowScript_ok h
  show written argText _ (portText j i) = false
  rw [← Bool.not_eq_true]
  intro hw
  simp only [written, List.any_eq_true] at hw
  obtain ⟨c, hc, t, ht, hh⟩ := hw
  have hd : (blockVars (graph s W)).Nodup := by rw [blockVars_graph]; exact distinct
  -- the address of the end of a pipe
  have haddr : ∀ q ∈ W.pipes, ∃ j' i' b', variableIndices (graph s W) q.2 = .ok (.port j' false i') ∧ W.blocks[j']? = some b' ∧
      b'.inputs[i']? = some q.2 := by
    intro q hq
    obtain ⟨c, hc, hcv⟩ := target q hq
    obtain ⟨j', side, i', c', e1, e2, e3, e4⟩ := port_addr (s := s) distinct (v := q.2) ⟨c, hc, .inl hcv⟩
    have hs : side = false := by
      cases side with
      | false => rfl
      | true =>
        obtain ⟨c'', hc'', hout⟩ := e4.1 rfl
        exact (in_ne_out hd (List.mem_map.2 ⟨c, hc, rfl⟩) (List.mem_map.2 ⟨c'', hc'', rfl⟩) hcv hout).elim
    subst hs
    exact ⟨j', i', c', e1, e2, by simpa using e3⟩
  have hide : Hides argText (portText j i) c := by
    simp only [List.mem_append, List.mem_cons, List.cons_append, List.not_mem_nil, or_false] at hc
    rcases hc with rfl | ((((hc | rfl) | hc) | hc) | (rfl | rfl))
    · intro t ht
      simp only [stmtTexts, List.mem_singleton] at ht
      exact not_holds_of_inputs (ht ▸ hp.doc)
    · refine blockStmts_hide hbs hp.leaf hp.names (fun q b' n v' hb' hv' e1 e2 => ?_) c hc
      rw [Nat.zero_add] at e1
      subst e1 e2
      rw [hb] at hb'
      cases hb'
      rw [hv] at hv'
      cases hv'
      exact hp.unlocked b (List.mem_of_getElem? hb) v (List.mem_of_getElem? hv) hn
    · intro t ht
      apply not_holds_of_inputs
      simp only [stmtTexts, List.mem_cons, List.mem_map] at ht
      rcases ht with rfl | ⟨n, -, rfl⟩
      · decide
      · exact blockName_plain n
    · exact varStmts_hide hp.free c hc
    · refine pipeStmts_hide hps (fun q hq e => ?_) (fun q hq a' e => ?_) c hc
      · obtain ⟨j', i', b', e1, e2, e3⟩ := haddr q hq
        rw [e] at e1
        cases e1
        rw [hb] at e2
        cases e2
        rw [hv] at e3
        exact hn q hq (Option.some.inj e3).symm
      · obtain ⟨j', i', b', e1, -⟩ := haddr q hq
        rw [e] at e1
        cases e1
        rfl
    · intro t ht
      apply not_holds_of_inputs
      simp only [stmtTexts, List.mem_cons, List.mem_map] at ht
      rcases ht with rfl | ⟨n, -, rfl⟩
      · decide
      · exact pipeName_plain n
    · intro t ht
      simp only [stmtTexts, List.mem_cons, List.not_mem_nil, or_false] at ht
      rcases ht with rfl | rfl | rfl | rfl | rfl
      · exact not_holds_of_inputs (by decide)
      · exact not_holds_of_inputs (by decide)
      · exact not_holds_of_inputs (by decide)
      · cases a with
        | nbv n => cases hr
        | port j' side i' => cases hr; exact holds_output
      · exact not_holds_of_inputs hp.name
  rw [hide t ht] at hh
  cases hh

theorem lockStmts_mem {s : Store τ α} {x : String} : ∀ {vs : List Nat} {k : Nat} {l : List (Stmt π)}, lockStmts s x k vs = .ok l →
    ∀ (n v : Nat), vs[n]? = some v → (look s v).lockFlag = true → Stmt.lock x (k + n) ∈ l := by
  intro vs
  induction vs with
  | nil => intro k l _ n v hv; simp at hv
  | cons w vs ih =>
    intro k l h n v hv hl
    simp only [lockStmts, bind_ok] at h
    obtain ⟨b, hb, r, hr, h⟩ := h
    cases h
    cases n with
    | zero =>
      simp only [List.getElem?_cons_zero, Option.some.injEq] at hv
      subst hv
      have : b = true := by
        simp only [Var.locked, hl, if_true] at hb
        split at hb
        · cases hb; rfl
        · cases hb
      rw [this]
      exact .head _
    | succ n =>
      have := ih hr n v (by simpa using hv) hl
      rw [show k + 1 + n = k + (n + 1) by omega] at this
      split
      · exact .tail _ this
      · exact this

theorem blockStmts_mem {s : Store τ α} {f : Blk β δ → Except PyErr (List (Stmt π) × Decl π × List Cls)} : ∀ {bs : List (Blk β δ)} {k : Nat}
    {r : List (Stmt π) × List Cls}, blockStmts s "" f k bs = .ok r → ∀ (q : Nat) b (n v : Nat), bs[q]? = some b → b.inputs[n]? = some v →
      (look s v).lockFlag = true → Stmt.lock (blockName "" (k + q)) n ∈ r.1 := by
  intro bs
  induction bs with
  | nil => intro k r _ q b n v hb; simp at hb
  | cons c bs ih =>
    intro k r h q b n v hb hv hl
    simp only [blockStmts, bind_ok] at h
    obtain ⟨d, hd, l, hlk, r', hr, h⟩ := h
    cases h
    simp only [List.mem_append, List.mem_cons]
    cases q with
    | zero =>
      simp only [List.getElem?_cons_zero, Option.some.injEq] at hb
      subst hb
      have := lockStmts_mem hlk n v hv hl
      rw [Nat.zero_add] at this
      exact .inr (.inr (.inl this))
    | succ q =>
      have := ih hr q b n v (by simpa using hb) hv hl
      rw [show k + 1 + q = k + (q + 1) by omega] at this
      exact .inr (.inr (.inr this))

/-- When the inputs which receive no pipe are not written in the script, no input is locked. -/
theorem open_unlocked {L : Lang β τ α π} {argText : π → String} {s : Store τ α} {W : Flow β δ} (hW : FlowOk L s W)
    (hopen : OpenPorts L argText s W) : ∀ v ∈ inputs (graph s W), (look s v).lockFlag = false := by
  obtain ⟨n, hn⟩ := hW.runs
  obtain ⟨st, I, hs, -⟩ := hn n (Nat.le_refl n) ""
  cases hW with
  | mk distinct target source blocks output free name doc =>
  intro v hv
  rw [inputs_graph distinct target source] at hv
  rcases List.mem_append.1 hv with hv | hv
  · obtain ⟨hv, hf⟩ := List.mem_filter.1 hv
    obtain ⟨b, hb, hv⟩ := List.mem_flatMap.1 hv
    obtain ⟨j, hj⟩ := List.mem_iff_getElem?.1 hb
    obtain ⟨i, hi⟩ := List.mem_iff_getElem?.1 hv
    have h1 := hopen n st I hs j i v b hj hi (fedBy_not.1 (by simpa using hf))
    rw [← Bool.not_eq_true]
    intro hl
    obtain ⟨m, o, a, bs, ps, r, rfl, ho, ha, hbs, hps, hr, rfl⟩ := flowScript_ok hs
    have h2 := blockStmts_mem hbs j b i v hj hi hl
    rw [Nat.zero_add] at h2
    refine absurd h1 ?_
    rw [Bool.not_eq_false]
    simp only [written, List.any_eq_true]
    refine ⟨.lock (blockName "" j) i, ?_, portText j i, ?_, holds_self _⟩
    · simp only [List.mem_append, List.cons_append, List.mem_cons]
      exact .inr (.inl (.inl (.inl (.inl h2))))
    · simp [stmtTexts, ← portText_ref]
  · have := (mem_nbvs_graph s W).1 hv
    exact (free v this.1 this.2).lock

theorem inputs_with (ev : Store τ α → Kd β δ → List α → Except PyErr (List α)) (s : Store τ α) (W : Flow β δ) :
    inputs (graphWith ev s W) = inputs (graph s W) := by
  unfold inputs allVariables varsAndNbvs hasAncestor
  simp only [graphWith, graph, blockVars, List.flatMap_map, List.any_map, Function.comp_def]

/-- The script of a run, when the workflow can be written by a script (see C119), the script shows the inputs of blocks only where pipes
end, and the text of each value stands for this value: it rebuilds the workflow and runs it; this run ends too, with the same output, the
same values of the inputs and the same values on the pipes.  What is missing: with a locked input, values go to the wrong inputs; an
input whose name is written elsewhere, in a text or in a workflow of a block, gets no value; and the values which are objects or files are
replaced by texts to fill in (see the theorems below). -/
theorem C129_partial {L : Lang β τ α π} {V : Vals τ α} {argText : π → String} {s : Store τ α} {W : Flow β δ} (hW : FlowOk L s W)
    (hnames : ∀ c d, UsesR L V s W c → UsesR L V s W d → c.2 = d.2 → c = d)
    (himp : ∀ v ∈ inputs (graph s W), ∃ I, V.imports (look s v).type (look s v).name = .ok I) (hopen : OpenPorts L argText s W)
    {ev : Store τ α → Kd β δ → List α → Except PyErr (List α)} (hev : ∀ s' k k', SameK s s' k k' → ev s' k' = ev s k)
    (hwf : WellFormed (graphWith ev s W)) {so : SetOrder} {user : List (Nat × α)} {t : Wkf.St α}
    (hrun : run (graphWith ev s W) so user = .ok (some t)) (hread : ReadsBack V s W t.inputValues) :
    ∃ n, ∀ limit, n ≤ limit → ∀ s0 : Store τ α, ∃ W' s' user' t', rerun L V argText limit s W t.inputValues s0 = .ok (W', s', user') ∧
      SameW s s' W W' ∧ run (graphWith ev s' W') so user' = .ok (some t') ∧ t'.outputValue = t.outputValue ∧
      t'.inputValues = t.inputValues ∧ t'.values = t.values := by
  obtain ⟨n, hn⟩ := rerun_gives hW hnames himp hopen (fun k hk => (run_holds hwf hrun (by rwa [inputs_with])).2) hread
  refine ⟨n, fun limit hl s0 => ?_⟩
  obtain ⟨W', s', user', h1, h2, h3, h4, h5⟩ := hn limit hl s0
  have hu := values_again hwf (fun v hv => open_unlocked hW hopen v (by rwa [inputs_with] at hv)) hrun (by rwa [inputs_with])
    (by rwa [inputs_with])
  obtain ⟨ρ, h6, h7, -⟩ := same_ren h2 ev (hev s') (fun o ho => by
    cases hW with
    | mk distinct target source blocks output free name doc =>
    obtain ⟨o', ho', b, hb, hm⟩ := output
    rw [ho] at ho'
    cases ho'
    exact .inl ⟨b, hb, .inr hm⟩)
  have h8 := sim_run h6 h7 so hu
  rw [hrun] at h8
  cases hr : run (graphWith ev s' W') so user' with
  | error e => rw [hr] at h8; exact h8.elim
  | ok o =>
    rw [hr] at h8
    cases o with
    | none => exact h8.elim
    | some t' =>
      have h9 : Sim ρ (graphWith ev s W) (graphWith ev s' W') t t' := h8
      exact ⟨W', s', user', t', h1, h2, hr, h9.out, h9.inp, h9.val⟩

/-- The same for a workflow of simple blocks without locked inputs, where no text contains `.inputs[`.
Missing: other blocks, locked inputs and such texts (`C129_nested_violated`, `C129_locked_violated`, `C129_text_violated`). -/
theorem C129_plain_partial {L : Lang β τ α π} {V : Vals τ α} {argText : π → String} {s : Store τ α} {W : Flow β δ} (hW : FlowOk L s W)
    (hnames : ∀ c d, UsesR L V s W c → UsesR L V s W d → c.2 = d.2 → c = d)
    (himp : ∀ v ∈ inputs (graph s W), ∃ I, V.imports (look s v).type (look s v).name = .ok I) (hplain : PlainFlow L argText s W)
    {ev : Store τ α → Kd β δ → List α → Except PyErr (List α)} (hev : ∀ s' k k', SameK s s' k k' → ev s' k' = ev s k)
    (hwf : WellFormed (graphWith ev s W)) {so : SetOrder} {user : List (Nat × α)} {t : Wkf.St α}
    (hrun : run (graphWith ev s W) so user = .ok (some t)) (hread : ReadsBack V s W t.inputValues) :
    ∃ n, ∀ limit, n ≤ limit → ∀ s0 : Store τ α, ∃ W' s' user' t', rerun L V argText limit s W t.inputValues s0 = .ok (W', s', user') ∧
      SameW s s' W W' ∧ run (graphWith ev s' W') so user' = .ok (some t') ∧ t'.outputValue = t.outputValue ∧
      t'.inputValues = t.inputValues ∧ t'.values = t.values :=
  C129_partial hW hnames himp (hplain.open hW) hev hwf hrun hread

/-- Two runs raise the same error, or do not end, or end with the same output, inputs and values on pipes. -/
def SameEnd : Except PyErr (Option (Wkf.St α)) → Except PyErr (Option (Wkf.St α)) → Prop
  | .ok (some t), .ok (some t') => t'.outputValue = t.outputValue ∧ t'.inputValues = t.inputValues ∧ t'.values = t.values
  | .ok none, .ok none => True
  | .error e, .error e' => e = e'
  | _, _ => False

/-- The workflow which the script of a workflow builds (see C119) runs as the workflow: for the same values it raises the same error, or
does not end either, or ends with the same output, inputs and values on pipes. -/
theorem C119_same_run {s s' : Store τ α} {W W' : Flow β δ} (h : SameW s s' W W') (ho : ∀ o, W.output = some o → VarOf W o)
    {ev : Store τ α → Kd β δ → List α → Except PyErr (List α)} (hev : ∀ k k', SameK s s' k k' → ev s' k' = ev s k) (so : SetOrder)
    (user : List (Nat × α)) :
    SameEnd (run (graphWith ev s W) so user) (run (graphWith ev s' W') so user) := by
  obtain ⟨ρ, h6, h7, -⟩ := same_ren h ev hev ho
  have h8 := sim_run h6 h7 so (user := user) rfl
  cases h1 : run (graphWith ev s W) so user with
  | error e =>
    rw [h1] at h8
    cases h2 : run (graphWith ev s' W') so user with
    | error e' => rw [h2] at h8; exact h8
    | ok o => rw [h2] at h8; exact h8.elim
  | ok o =>
    rw [h1] at h8
    cases h2 : run (graphWith ev s' W') so user with
    | error e' => rw [h2] at h8; exact h8.elim
    | ok o' =>
      rw [h2] at h8
      cases o <;> cases o' <;> first | exact h8.elim | trivial | (have h9 : Sim ρ _ _ _ _ := h8; exact ⟨h9.out, h9.inp, h9.val⟩)

theorem valuesAt_some {vals : Nat → Option α} {keep : Nat → Bool} : ∀ {vs : List Nat} {k : Nat} {l : List α}, valuesAt vals keep k vs = .ok l →
    ∀ (i v : Nat), vs[i]? = some v → keep v = true → (vals (k + i)).isSome
  | [], _, _, _, i, v, hi, _ => by simp at hi
  | w :: vs, k, l, h, i, v, hi, hk => by
    simp only [valuesAt] at h
    by_cases hw : keep w = true
    · rw [if_pos hw] at h
      cases hv : vals k with
      | none => rw [hv] at h; simp at h
      | some x =>
        rw [hv] at h
        dsimp only at h
        cases i with
        | zero => simp [hv]
        | succ i =>
          cases hr : valuesAt vals keep (k + 1) vs with
          | error e => rw [hr] at h; simp [bind, Except.bind] at h
          | ok r =>
            have := valuesAt_some hr i v (by simpa using hi) hk
            rwa [show k + 1 + i = k + (i + 1) by omega] at this
    · rw [if_neg hw] at h
      cases i with
      | zero =>
        simp only [List.getElem?_cons_zero, Option.some.injEq] at hi
        subst hi
        exact absurd hk hw
      | succ i =>
        have := valuesAt_some h i v (by simpa using hi) hk
        rwa [show k + 1 + i = k + (i + 1) by omega] at this

/-- The script of a run is written only if the run has a value for each input of the workflow; otherwise KeyError is raised. -/
theorem C129_all_values {V : Vals τ α} {s : Store τ α} {W : Flow β δ} {vals : Nat → Option α} {inText : String → Bool} {es : List Entry}
    (h : runEntries V s W vals inText = .ok es) : ∀ i, i < (inputs (graph s W)).length → (vals i).isSome := by
  intro i hi
  unfold runEntries at h
  dsimp only at h
  cases h1 : valuesAt vals (fun v => decide (v ∈ nbvs (graph s W))) 0 (inputs (graph s W)) with
  | error e => rw [h1] at h; simp [bind, Except.bind] at h
  | ok nv =>
    rw [h1] at h
    cases h2 : valuesAt vals (fun v => !decide (v ∈ nbvs (graph s W))) 0 (inputs (graph s W)) with
    | error e => rw [h2] at h; simp [bind, Except.bind] at h
    | ok bv =>
      have hv : (inputs (graph s W))[i]? = some (inputs (graph s W))[i] := List.getElem?_eq_getElem hi
      by_cases hm : (inputs (graph s W))[i] ∈ nbvs (graph s W)
      · simpa using valuesAt_some h1 i _ hv (by simpa using hm)
      · simpa using valuesAt_some h2 i _ hv (by simpa using hm)

/-- What is written for an object, for a list of objects, and for a file: its class, with a text to be replaced by the user. -/
theorem C129_object_text (V : Vals τ α) (x : α) :
    (V.isObj x = true → V.elements x = none → processValue V x = V.cls x ++ "('Set your arguments here')") ∧
    (∀ a b, V.isObj x = false → V.elements x = some [a, b] → V.isObj a = true → V.isObj b = true → processValue V x =
      "[\n\t" ++ V.cls a ++ "('Set your arguments here'),\n\t" ++ V.cls b ++ "('Set your arguments here')\n]") ∧
    (V.isObj x = false → V.isFile x = true → V.elements x = none → processValue V x = V.cls x ++ ".from_file('Set your filepath here')") := by
  refine ⟨fun h1 h2 => ?_, fun a b h1 h2 ha hb => ?_, fun h1 h2 h3 => ?_⟩
  · simp only [processValue, isObjects, h1, if_true, inputString, h2]
  · simp only [processValue, isObjects, h1, h2, List.all_cons, ha, hb, List.all_nil, Bool.and_self, if_true, inputString, List.map_cons, List.map_nil]
    have hi : ∀ u v : String, ",".intercalate [u, v] = u ++ "," ++ v := fun _ _ => rfl
    rw [hi]
    simp [← String.toList_inj]
  · simp only [processValue, isObjects, h1, h2, h3, if_true, inputString]
    simp

/-- Two objects of the same class are written with the same text: whatever this text stands for, one of them is not read back. -/
theorem C129_objects_violated {V : Vals τ α} {x y : α} (hx : V.isObj x = true) (hy : V.isObj y = true) (hex : V.elements x = none)
    (hey : V.elements y = none) (hc : V.cls x = V.cls y) (hne : x ≠ y) (res : String → Option Cls) :
    ¬ (V.read res (processValue V x) = .ok x ∧ V.read res (processValue V y) = .ok y) := by
  rintro ⟨h1, h2⟩
  have : processValue V x = processValue V y := by
    simp only [processValue, isObjects, hx, hy, if_true, inputString, hex, hey, hc]
  rw [this, h2] at h1
  cases h1
  exact hne rfl

/-! ### Concrete runs -/

/-- Values: numbers; those above 99 are objects of one class. -/
def demoV : Vals String Int where
  isObj x := decide (x > 99)
  elements _ := none
  isFile _ := false
  cls _ := "Part"
  repr x := toString x
  imports t _ := .ok (if t = "Int" then [] else [("demo.types", t)])
  read _ t := match (List.range 100).find? fun n => toString (n : Int) == t with
    | some n => .ok n
    | none => .error .typeError

/-- What blocks compute: the double, the sum, and what the workflow of the block does. -/
def demoEv (_ : Store String Int) : Kd Op Unit → List Int → Except PyErr (List Int)
  | .leaf .dbl, [x] => .ok [2 * x]
  | .leaf .add, [x, y] => .ok [x + y]
  | .sub _, [x] => .ok [4 * x]
  | _, _ => .error .typeError

/-- What is written of the arguments of blocks. -/
def demoArg : Op → String
  | .dbl => "f=1"
  | _ => "f=2"

example (res : String → Option Cls) : ¬ (demoV.read res (processValue demoV 100) = .ok 100 ∧ demoV.read res (processValue demoV 101) = .ok 101) :=
  C129_objects_violated (V := demoV) (x := 100) (y := 101) (by decide) (by decide) rfl rfl rfl (by decide) res

/-- The variables of a workflow which adds its two inputs and doubles the sum of the result and of a free variable. -/
def runS : Store String Int :=
  [⟨"a", "Int", "", (0, 0), none, false⟩, ⟨"b", "Int", "", (0, 0), some 5, false⟩, ⟨"out", "Int", "", (0, 0), none, false⟩,
   ⟨"x", "Int", "", (0, 0), none, false⟩, ⟨"out", "Int", "", (0, 0), none, false⟩, ⟨"a", "Int", "", (0, 0), none, false⟩,
   ⟨"b", "Int", "", (0, 0), some 5, false⟩, ⟨"out", "Int", "", (0, 0), none, false⟩, ⟨"free", "Length", "a length", (1, 2), none, false⟩]

/-- The workflow. -/
def runFlow : Flow Op Unit where
  blocks := [⟨.leaf .add, "sum", (3, 4), [0, 1], [2]⟩, ⟨.leaf .dbl, "double", (5, 6), [3], [4]⟩, ⟨.leaf .add, "last", (7, 8), [5, 6], [7]⟩]
  pipes := [(2, 3), (4, 5), (8, 6)]
  output := some 7
  steps := []
  detached := []
  description := ""
  documentation := "The workflow."
  name := "demo"

theorem runFlow_port {u : Nat} (h : u < 8) : PortOf runFlow u := by
  have : ∀ u ∈ List.range 8, ∃ b ∈ runFlow.blocks, u ∈ b.inputs ∨ u ∈ b.outputs := by decide
  exact this u (List.mem_range.2 h)

theorem runFlow_free {v : Nat} (hv : VarOf runFlow v) (hn : ¬ PortOf runFlow v) : v = 8 := by
  have h8 : v < 9 := by
    rcases hv with h | ⟨p, hp, h⟩
    · exact absurd h hn
    · simp only [runFlow, List.mem_cons, List.not_mem_nil, or_false] at hp
      rcases hp with rfl | rfl | rfl <;> simp only at h <;> omega
  by_contra hne
  exact hn (runFlow_port (by omega))

theorem runFlow_ok : FlowOk demoL runS runFlow := by
  refine .mk (by decide) (by decide) (by decide) ?_ ⟨7, rfl, by decide⟩ ?_ (by rfl) (by rfl)
  · intro b hb
    simp only [runFlow, List.mem_cons, List.not_mem_nil, or_false] at hb
    rcases hb with rfl | rfl | rfl
    · refine .leaf rfl rfl ⟨by rfl, _, _, rfl, ?_, rfl⟩
      exact .cons ⟨rfl, by simp [Proto.var], by simp [look, runS]⟩ (.cons ⟨rfl, by simp [Proto.var], fun _ => rfl⟩ .nil)
    · refine .leaf rfl rfl ⟨by rfl, _, _, rfl, ?_, rfl⟩
      exact .cons ⟨rfl, by simp [Proto.var], by simp [look, runS]⟩ .nil
    · refine .leaf rfl rfl ⟨by rfl, _, _, rfl, ?_, rfl⟩
      exact .cons ⟨rfl, by simp [Proto.var], by simp [look, runS]⟩ (.cons ⟨rfl, by simp [Proto.var], fun _ => rfl⟩ .nil)
  · intro v hv hn
    cases runFlow_free hv hn
    refine ⟨by rfl, by rfl, rfl, rfl, fun res hres => ?_⟩
    have hr := hres ("demo.types", "Length") (by decide)
    show (if "Length" = "Int" then Except.ok "Length" else match res "Length" with
      | some c => .ok c.2
      | none => .error PyErr.nameError) = Except.ok "Length"
    rw [if_neg (by decide), hr]

theorem runFlow_uses {c : Cls} (h : UsesR demoL demoV runS runFlow c) : c ∈ exClasses := by
  rcases h with h | ⟨v, hv, I, hI, hc⟩
  · cases h with
    | block hb h =>
      simp only [runFlow, List.mem_cons, List.not_mem_nil, or_false] at hb
      rcases hb with rfl | rfl | rfl <;> cases h with
        | leaf hk h => cases hk; simp only [demoL, List.mem_singleton, Op.cls] at h; subst h; decide
        | sub hk _ => cases hk
        | subBlock hk => cases hk
        | each hk _ => cases hk
        | eachBlock hk => cases hk
    | @type _ v _ hv hn h =>
      cases runFlow_free hv hn
      have hall : ∀ c ∈ demoL.typeImports (look runS 8).type, c ∈ exClasses := by decide
      exact hall c h
    | var => decide
    | pipe => decide
    | workflow => decide
  · have hin : inputs (graph runS runFlow) = [0, 1, 8] := by decide
    rw [hin] at hv
    have hall : ∀ v ∈ [0, 1, 8], ∀ c ∈ (if (look runS v).type = "Int" then [] else [("demo.types", (look runS v).type)] : List Cls), c ∈ exClasses := by
      decide
    cases hI
    exact hall v hv c hc

/-- The result is the end of a run, as the check says. -/
def endsAs (r : Except PyErr (Option (Wkf.St Int))) (ok : Wkf.St Int → Bool) : Bool :=
  match r with
  | .ok (some t) => ok t
  | _ => false

theorem of_endsAs {r : Except PyErr (Option (Wkf.St Int))} {ok : Wkf.St Int → Bool} (h : endsAs r ok = true) :
    ∃ t, r = .ok (some t) ∧ ok t = true := by
  unfold endsAs at h
  split at h
  · exact ⟨_, rfl, h⟩
  · cases h

theorem runFlow_formed : WellFormed (graphWith demoEv runS runFlow) :=
  ⟨by decide, by decide, by decide, by decide, fun v => if v = 8 then 0 else v, by decide, by decide⟩

theorem runFlow_plain : PlainFlow demoL demoArg runS runFlow where
  leaf b hb := by
    simp only [runFlow, List.mem_cons, List.not_mem_nil, or_false] at hb
    rcases hb with rfl | rfl | rfl <;> exact ⟨_, rfl, by decide, by decide⟩
  names := by decide
  unlocked := by decide
  free := by decide
  doc := by decide
  name := by decide

/-- The run of a workflow with a free variable, an input which keeps its default value and two pipes between blocks meets the hypotheses
of C129. -/
example : ∃ t, run (graphWith demoEv runS runFlow) dedupOrder [(0, 1), (2, 3)] = .ok (some t) ∧ t.outputValue = some 15 ∧
    ∃ n, ∀ limit, n ≤ limit → ∀ s0, ∃ W' s' user' t', rerun demoL demoV demoArg limit runS runFlow t.inputValues s0 = .ok (W', s', user') ∧
      SameW runS s' runFlow W' ∧ run (graphWith demoEv s' W') dedupOrder user' = .ok (some t') ∧ t'.outputValue = t.outputValue ∧
      t'.inputValues = t.inputValues ∧ t'.values = t.values := by
  obtain ⟨t, h1, h2⟩ := of_endsAs (r := run (graphWith demoEv runS runFlow) dedupOrder [(0, 1), (2, 3)])
    (ok := fun t => t.outputValue == some 15 && t.inputValues 0 == some 1 && t.inputValues 1 == some 5 && t.inputValues 2 == some 3) (by decide +kernel)
  simp only [Bool.and_eq_true, beq_iff_eq] at h2
  obtain ⟨⟨⟨h2, h3⟩, h4⟩, h5⟩ := h2
  refine ⟨t, h1, h2, C129_plain_partial runFlow_ok (fun c d hc hd => ?_) (fun v _ => ⟨_, rfl⟩) runFlow_plain (fun s' k k' hk => ?_)
    runFlow_formed h1 ?_⟩
  · have : ∀ c ∈ exClasses, ∀ d ∈ exClasses, c.2 = d.2 → c = d := by decide
    exact this c (runFlow_uses hc) d (runFlow_uses hd)
  · cases hk with
    | leaf k => rfl
    | sub h => funext l; rcases l with _ | ⟨x, _ | ⟨y, l⟩⟩ <;> rfl
    | each i h => funext l; rfl
  · intro k v x I hk hx _ res _
    have hlt := (List.getElem?_eq_some_iff.1 hk).1
    have hlen : (inputs (graph runS runFlow)).length = 3 := by decide
    rw [hlen] at hlt
    have : k = 0 ∨ k = 1 ∨ k = 2 := by omega
    rcases this with rfl | rfl | rfl
    · rw [h3] at hx; cases hx; rfl
    · rw [h4] at hx; cases hx; rfl
    · rw [h5] at hx; cases hx; rfl

/-- The run with the values, the script of it, and the run of this script are as the check says. -/
def replay (s : Store String Int) (W : Flow Op Unit) (user : List (Nat × Int))
    (ok : Wkf.St Int → Except PyErr (List (Nat × Int)) → Except PyErr (Option (Option Int)) → Bool) : Bool :=
  match run (graphWith demoEv s W) dedupOrder user with
  | .ok (some t) => match rerun demoL demoV demoArg 20 s W t.inputValues newS with
    | .ok (W', s', user') => ok t (.ok user') ((run (graphWith demoEv s' W') dedupOrder user').map fun o => o.map (·.outputValue))
    | .error e => ok t (.error e) (.error e)
  | _ => false

theorem of_replay {s : Store String Int} {W : Flow Op Unit} {user : List (Nat × Int)}
    {ok : Wkf.St Int → Except PyErr (List (Nat × Int)) → Except PyErr (Option (Option Int)) → Bool} (h : replay s W user ok = true) :
    ∃ t, run (graphWith demoEv s W) dedupOrder user = .ok (some t) ∧
      ((∃ W' s' user', rerun demoL demoV demoArg 20 s W t.inputValues newS = .ok (W', s', user') ∧
        ok t (.ok user') ((run (graphWith demoEv s' W') dedupOrder user').map fun o => o.map (·.outputValue)) = true) ∨
      ∃ e, rerun demoL demoV demoArg 20 s W t.inputValues newS = .error e ∧ ok t (.error e) (.error e) = true) := by
  unfold replay at h
  split at h
  · rename_i t ht
    refine ⟨t, ht, ?_⟩
    split at h
    · rename_i W' s' user' hr
      exact .inl ⟨W', s', user', hr, h⟩
    · rename_i e hr
      exact .inr ⟨e, hr, h⟩
  · cases h

/-- An output of this value. -/
def outIs (x : Int) : Except PyErr (Option (Option Int)) → Bool
  | .ok (some (some y)) => x == y
  | _ => false

theorem outIs_eq {x : Int} {r : Except PyErr (Option (Option Int))} (h : outIs x r = true) : r = .ok (some (some x)) := by
  unfold outIs at h
  split at h
  · rw [beq_iff_eq] at h; subst h; rfl
  · cases h

/-- This error. -/
def failsAs (e : PyErr) : Except PyErr (Option (Option Int)) → Bool
  | .error f => e == f
  | _ => false

theorem failsAs_eq {e : PyErr} {r : Except PyErr (Option (Option Int))} (h : failsAs e r = true) : r = .error e := by
  unfold failsAs at h
  split at h
  · rw [beq_iff_eq] at h; subst h; rfl
  · cases h

/-- A locked input, and a last input. -/
def lockS : Store String Int :=
  [⟨"a", "Int", "", (0, 0), none, false⟩, ⟨"b", "Int", "", (0, 0), some 5, true⟩, ⟨"out", "Int", "", (0, 0), none, false⟩,
   ⟨"x", "Int", "", (0, 0), none, false⟩, ⟨"out", "Int", "", (0, 0), none, false⟩]

/-- With a locked input, the value of the next input is the one of the locked input: the workflow adds its first input and a locked 5, and
doubles its last input; the run with the values 1 and 2 gives 4, the script of this run gives 10. -/
theorem C129_locked_violated : ∃ (s : Store String Int) (W : Flow Op Unit) (t : Wkf.St Int) (W' : Flow Op Unit) (s' : Store String Int)
    (user : List (Nat × Int)), run (graphWith demoEv s W) dedupOrder [(0, 1), (2, 2)] = .ok (some t) ∧ t.outputValue = some 4 ∧
      rerun demoL demoV demoArg 20 s W t.inputValues newS = .ok (W', s', user) ∧
      (run (graphWith demoEv s' W') dedupOrder user).map (fun o => o.map (·.outputValue)) = .ok (some (some 10)) := by
  obtain ⟨t, h1, h2⟩ := of_replay (s := lockS) (W := ⟨[⟨.leaf .add, "sum", (0, 0), [0, 1], [2]⟩, ⟨.leaf .dbl, "double", (0, 0), [3], [4]⟩], [], some 4, [], [], "", "doc", "w"⟩)
    (user := [(0, 1), (2, 2)]) (ok := fun t _ r => t.outputValue == some 4 && outIs 10 r) (by decide +kernel)
  rcases h2 with ⟨W', s', user', h2, h3⟩ | ⟨e, -, h3⟩
  · simp only [Bool.and_eq_true, beq_iff_eq] at h3
    exact ⟨_, _, t, W', s', user', h1, h3.1, h2, outIs_eq h3.2⟩
  · simp [outIs] at h3

/-- One input. -/
def oneS : Store String Int := [⟨"x", "Int", "", (0, 0), none, false⟩, ⟨"out", "Int", "", (0, 0), none, false⟩]

/-- When the documentation mentions the first input of the first block, the script does not give its value. -/
theorem C129_text_violated : ∃ (s : Store String Int) (W : Flow Op Unit) (t : Wkf.St Int) (W' : Flow Op Unit) (s' : Store String Int)
    (user : List (Nat × Int)), FlowOk demoL s W ∧ W.documentation = "see block_0.inputs[0]" ∧
      run (graphWith demoEv s W) dedupOrder [(0, 3)] = .ok (some t) ∧ t.outputValue = some 6 ∧
      rerun demoL demoV demoArg 20 s W t.inputValues newS = .ok (W', s', user) ∧ user = [] ∧
      (run (graphWith demoEv s' W') dedupOrder user).map (fun o => o.map (·.outputValue)) = .error .valueError := by
  obtain ⟨t, h1, h2⟩ := of_replay (s := oneS) (W := { one .dbl 0 1 "w" with documentation := "see block_0.inputs[0]" })
    (user := [(0, 3)]) (ok := fun t u r => t.outputValue == some 6 && (u.toOption == some []) && failsAs .valueError r) (by decide +kernel)
  rcases h2 with ⟨W', s', user', h2, h3⟩ | ⟨e, -, h3⟩
  · simp only [Bool.and_eq_true, beq_iff_eq, Except.toOption, Option.some.injEq] at h3
    refine ⟨_, _, t, W', s', user', ?_, rfl, h1, h3.1.1, h2, h3.1.2, failsAs_eq h3.2⟩
    refine .mk (by decide) (by decide) (by decide) ?_ ⟨1, rfl, by decide⟩ ?_ (by rfl) (by rfl)
    · intro b hb
      simp only [one, List.mem_singleton] at hb
      subst hb
      refine .leaf rfl rfl ⟨by rfl, _, _, rfl, ?_, rfl⟩
      exact .cons ⟨rfl, by simp [Proto.var], by simp [look, oneS]⟩ .nil
    · rintro v (h | ⟨p, hp, -⟩) hn
      · exact absurd h hn
      · simp [one] at hp
  · simp [Except.toOption] at h3

/-- The variables of a workflow whose second block is a workflow of two blocks. -/
def nestS : Store String Int :=
  [⟨"x", "Int", "", (0, 0), none, false⟩, ⟨"out", "Int", "", (0, 0), none, false⟩, ⟨"x", "Int", "", (0, 0), none, false⟩,
   ⟨"out", "Int", "", (0, 0), none, false⟩, ⟨"x", "Int", "", (0, 0), none, false⟩, ⟨"out", "Int", "", (0, 0), none, false⟩,
   ⟨"twice - x", "Int", "", (0, 0), none, false⟩, ⟨"out", "Int", "", (0, 0), none, false⟩]

/-- A workflow of two blocks, one after the other. -/
def nestIn : Flow Op Unit :=
  ⟨[⟨.leaf .dbl, "b", (0, 0), [2], [3]⟩, ⟨.leaf .dbl, "c", (0, 0), [4], [5]⟩], [(3, 4)], some 5, [], [], "", "doc", "twice"⟩

/-- When the second block is a workflow whose second block receives a pipe, the script does not give the value of the second block: it takes
the name of the inner block for its own. -/
theorem C129_nested_violated : ∃ (s : Store String Int) (W : Flow Op Unit) (t : Wkf.St Int) (W' : Flow Op Unit) (s' : Store String Int)
    (user : List (Nat × Int)), W.blocks.map (·.inputs) = [[0], [6]] ∧ W.pipes = [] ∧
      run (graphWith demoEv s W) dedupOrder [(0, 1), (1, 3)] = .ok (some t) ∧ t.outputValue = some 12 ∧
      rerun demoL demoV demoArg 20 s W t.inputValues newS = .ok (W', s', user) ∧ user = [(0, 1)] ∧
      (run (graphWith demoEv s' W') dedupOrder user).map (fun o => o.map (·.outputValue)) = .error .valueError := by
  obtain ⟨t, h1, h2⟩ := of_replay (s := nestS)
    (W := ⟨[⟨.leaf .dbl, "a", (0, 0), [0], [1]⟩, ⟨.sub nestIn, "twice", (0, 0), [6], [7]⟩], [], some 7, [], [], "", "doc", "w"⟩)
    (user := [(0, 1), (1, 3)]) (ok := fun t u r => t.outputValue == some 12 && (u.toOption == some [(0, 1)]) && failsAs .valueError r)
    (by decide +kernel)
  rcases h2 with ⟨W', s', user', h2, h3⟩ | ⟨e, -, h3⟩
  · simp only [Bool.and_eq_true, beq_iff_eq, Except.toOption, Option.some.injEq] at h3
    exact ⟨_, _, t, W', s', user', rfl, rfl, h1, h3.1.1, h2, h3.1.2, failsAs_eq h3.2⟩
  · simp [Except.toOption] at h3

/-- A workflow and what its script builds meet the hypotheses of `C119_same_run`. -/
example (so : SetOrder) (user : List (Nat × Int)) : ∃ W' s',
    SameEnd (run (graphWith demoEv runS runFlow) so user) (run (graphWith demoEv s' W') so user) := by
  obtain ⟨n, hn⟩ := C119_partial runFlow_ok (fun c d hc hd => by
    have : ∀ c ∈ exClasses, ∀ d ∈ exClasses, c.2 = d.2 → c = d := by decide
    exact this c (runFlow_uses (.inl hc)) d (runFlow_uses (.inl hd)))
  obtain ⟨W', s', -, h, -⟩ := hn n (Nat.le_refl n) newS
  refine ⟨W', s', C119_same_run h (fun o ho => ?_) (fun k k' hk => ?_) so user⟩
  · cases ho
    exact .inl (runFlow_port (by decide))
  · cases hk with
    | leaf k => rfl
    | sub h => funext l; rcases l with _ | ⟨x, _ | ⟨y, l⟩⟩ <;> rfl
    | each i h => funext l; rfl

end DC.Scr
