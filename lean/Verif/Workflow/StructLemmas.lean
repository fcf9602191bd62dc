import Verif.Workflow.PushLemmas
/- Structure of a workflow: variables, inputs, addresses. -/
namespace DC.Wkf

variable {α : Type}

/-! ### Variables and free variables -/

theorem handlePipe_spec (bv ns : List Nat) (p : Pipe) (hn : ns.Nodup) (hd : ∀ v ∈ ns, v ∉ bv) :
    ∃ ns', handlePipe (bv ++ ns, ns) p = (bv ++ ns', ns') ∧ ns'.Nodup ∧ (∀ v ∈ ns', v ∉ bv) ∧
      ∀ v, v ∈ ns' ↔ v ∈ ns ∨ (v ∉ bv ∧ (v = p.input ∨ v = p.output)) := by
  have step : ∀ (ns : List Nat) (a : Nat), ns.Nodup → (∀ v ∈ ns, v ∉ bv) →
      ∃ ns', (if a ∈ bv ++ ns then (bv ++ ns, ns) else (bv ++ ns ++ [a], ns ++ [a])) = (bv ++ ns', ns') ∧ ns'.Nodup ∧
        (∀ v ∈ ns', v ∉ bv) ∧ ∀ v, v ∈ ns' ↔ v ∈ ns ∨ (v ∉ bv ∧ v = a) := by
    intro ns a hn hd
    by_cases ha : a ∈ bv ++ ns
    · rw [if_pos ha]
      refine ⟨ns, rfl, hn, hd, fun v => ⟨.inl, ?_⟩⟩
      rintro (h | ⟨h1, rfl⟩)
      · exact h
      · exact (List.mem_append.1 ha).resolve_left h1
    · rw [if_neg ha]
      rw [List.mem_append, not_or] at ha
      refine ⟨ns ++ [a], by simp, ?_, ?_, fun v => ?_⟩
      · rw [List.nodup_append]
        refine ⟨hn, by simp, ?_⟩
        intro x hx y hy
        simp only [List.mem_singleton] at hy
        subst hy
        rintro rfl
        exact ha.2 hx
      · intro v hv
        rcases List.mem_append.1 hv with h | h
        · exact hd v h
        · simp only [List.mem_singleton] at h
          rw [h]; exact ha.1
      · rw [List.mem_append, List.mem_singleton]
        constructor
        · rintro (h | rfl)
          · exact .inl h
          · exact .inr ⟨ha.1, rfl⟩
        · rintro (h | ⟨-, rfl⟩)
          · exact .inl h
          · exact .inr rfl
  obtain ⟨n1, e1, a1, b1, c1⟩ := step ns p.input hn hd
  obtain ⟨n2, e2, a2, b2, c2⟩ := step n1 p.output a1 b1
  refine ⟨n2, ?_, a2, b2, fun v => ?_⟩
  · unfold handlePipe
    simp only [e1, e2]
  · rw [c2, c1, or_assoc, ← and_or_left]

theorem foldl_handlePipe (ps : List Pipe) (bv ns : List Nat) (hn : ns.Nodup) (hd : ∀ v ∈ ns, v ∉ bv) :
    ∃ ns', ps.foldl handlePipe (bv ++ ns, ns) = (bv ++ ns', ns') ∧ ns'.Nodup ∧ (∀ v ∈ ns', v ∉ bv) ∧
      ∀ v, v ∈ ns' ↔ v ∈ ns ∨ (v ∉ bv ∧ ∃ p ∈ ps, v = p.input ∨ v = p.output) := by
  induction ps generalizing ns with
  | nil => exact ⟨ns, rfl, hn, hd, by simp⟩
  | cons p ps ih =>
    obtain ⟨n1, e1, a1, b1, c1⟩ := handlePipe_spec bv ns p hn hd
    obtain ⟨n2, e2, a2, b2, c2⟩ := ih n1 a1 b1
    refine ⟨n2, by rw [List.foldl_cons, e1, e2], a2, b2, fun v => ?_⟩
    rw [c2, c1, or_assoc, ← and_or_left]
    simp

theorem nbvs_spec (W : Workflow α) : allVariables W = blockVars W ++ nbvs W ∧ (nbvs W).Nodup ∧
    (∀ v ∈ nbvs W, v ∉ blockVars W) ∧
    ∀ v, v ∈ nbvs W ↔ v ∉ blockVars W ∧ ∃ p ∈ W.pipes, v = p.input ∨ v = p.output := by
  obtain ⟨ns, e, a, b, c⟩ := foldl_handlePipe W.pipes (blockVars W) [] (by simp) (by simp)
  rw [List.append_nil] at e
  have e1 : allVariables W = blockVars W ++ ns := by unfold allVariables varsAndNbvs; rw [e]
  have e2 : nbvs W = ns := by unfold nbvs varsAndNbvs; rw [e]
  rw [e1, e2]
  exact ⟨rfl, a, b, fun v => by rw [c]; simp⟩

theorem mem_allVariables {W : Workflow α} {v : Nat} :
    v ∈ allVariables W ↔ v ∈ blockVars W ∨ ∃ p ∈ W.pipes, v = p.input ∨ v = p.output := by
  obtain ⟨e, -, -, h⟩ := nbvs_spec W
  rw [e, List.mem_append, h]
  by_cases hb : v ∈ blockVars W <;> simp [hb]

theorem mem_blockVars {W : Workflow α} {v : Nat} :
    v ∈ blockVars W ↔ ∃ b ∈ W.blocks, v ∈ b.inputs ∨ v ∈ b.outputs := by
  simp [blockVars]

theorem mem_inputs {W : Workflow α} {v : Nat} : v ∈ inputs W ↔ v ∈ allVariables W ∧ (∀ b ∈ W.blocks, v ∉ b.outputs) ∧
    ∀ p ∈ W.pipes, p.output = v → p.input = v := by
  unfold inputs hasAncestor
  rw [List.mem_filter]
  simp

theorem allVariables_nodup {W : Workflow α} (h : (blockVars W).Nodup) : (allVariables W).Nodup := by
  obtain ⟨e, h1, h2, -⟩ := nbvs_spec W
  rw [e, List.nodup_append]
  exact ⟨h, h1, fun a ha b hb hab => h2 b hb (hab ▸ ha)⟩

theorem inputs_nodup {W : Workflow α} (h : (blockVars W).Nodup) : (inputs W).Nodup :=
  (allVariables_nodup h).sublist List.filter_sublist

/-! ### Pipes -/

theorem inputPipe_some {W : Workflow α} {v j : Nat} (h : inputPipe W v = some j) :
    ∃ p, W.pipes[j]? = some p ∧ p.output = v := by
  unfold inputPipe at h
  obtain ⟨hj, h1, -⟩ := List.findIdx?_eq_some_iff_getElem.1 h
  exact ⟨W.pipes[j], by simp [hj], by simpa using h1⟩

theorem inputPipe_none {W : Workflow α} {v : Nat} : inputPipe W v = none ↔ ∀ p ∈ W.pipes, p.output ≠ v := by
  unfold inputPipe
  rw [List.findIdx?_eq_none_iff]
  simp

/-- When each variable is fed by one pipe at most, the incoming pipe is that pipe. -/
theorem inputPipe_unique {W : Workflow α} (hs : (W.pipes.map (·.output)).Nodup) {j : Nat} {p : Pipe}
    (h : W.pipes[j]? = some p) : inputPipe W p.output = some j := by
  cases hi : inputPipe W p.output with
  | none => exact absurd rfl (inputPipe_none.1 hi p (List.mem_of_getElem? h))
  | some k =>
    obtain ⟨q, hq, ho⟩ := inputPipe_some hi
    have h1 : (W.pipes.map (·.output))[j]? = some p.output := by simp [h]
    have h2 : (W.pipes.map (·.output))[k]? = some p.output := by simp [hq, ho]
    obtain ⟨hj, e1⟩ := List.getElem?_eq_some_iff.1 h1
    obtain ⟨hk, e2⟩ := List.getElem?_eq_some_iff.1 h2
    rw [(List.Nodup.getElem_inj_iff hs (hi := hj) (hj := hk)).1 (e1.trans e2.symm)]

theorem upstreamVar_none {W : Workflow α} {v : Nat} : upstreamVar W v = none ↔ ∀ p ∈ W.pipes, p.output ≠ v := by
  unfold upstreamVar
  constructor
  · intro h
    cases hi : inputPipe W v with
    | none => exact inputPipe_none.1 hi
    | some j =>
      obtain ⟨p, hp, -⟩ := inputPipe_some hi
      simp [hi, hp] at h
  · intro h
    rw [inputPipe_none.2 h]
    rfl

theorem upstreamVar_some {W : Workflow α} {v u : Nat} (h : upstreamVar W v = some u) : Piped W u v := by
  unfold upstreamVar at h
  cases hi : inputPipe W v with
  | none => simp [hi] at h
  | some j =>
    obtain ⟨p, hp, ho⟩ := inputPipe_some hi
    simp [hi, hp] at h
    exact ⟨p, List.mem_of_getElem? hp, h, ho⟩

theorem upstreamVar_piped {W : Workflow α} (hs : (W.pipes.map (·.output)).Nodup) {v u : Nat} (h : Piped W u v) :
    upstreamVar W v = some u := by
  obtain ⟨p, hp, rfl, rfl⟩ := h
  obtain ⟨j, hj⟩ := List.getElem?_of_mem hp
  unfold upstreamVar
  rw [inputPipe_unique hs hj]
  simp [hj]

theorem upstreamNbv_self {W : Workflow α} {v : Nat} (h : ∀ p ∈ W.pipes, p.output ≠ v) : upstreamNbv W v = v := by
  unfold upstreamNbv
  rw [upstreamVar_none.2 h]
  simp

theorem idxOf_of_nodup {l : List Nat} (hn : l.Nodup) {k v : Nat} (h : l[k]? = some v) : l.idxOf v = k := by
  obtain ⟨hk, rfl⟩ := List.getElem?_eq_some_iff.1 h
  exact hn.idxOf_getElem k hk

/-- Index of a workflow input. -/
theorem inputIndex_input {W : Workflow α} (hd : (blockVars W).Nodup) {k v : Nat} (h : (inputs W)[k]? = some v)
    (hp : ∀ p ∈ W.pipes, p.output ≠ v) : inputIndex W v = some k := by
  unfold inputIndex
  simp only [upstreamNbv_self hp, List.mem_of_getElem? h, if_true, idxOf_of_nodup (inputs_nodup hd) h]

/-- In a well formed workflow no pipe enters a workflow input. -/
theorem WellFormed.input_free {W : Workflow α} (hw : WellFormed W) {v : Nat} (h : v ∈ inputs W) :
    ∀ p ∈ W.pipes, p.output ≠ v := by
  intro p hp ho
  obtain ⟨rank, hr, -⟩ := hw.acyclic
  have := (mem_inputs.1 h).2.2 p hp ho
  have h2 := hr p hp
  rw [ho, this] at h2
  omega

theorem nodup_blocks_disjoint {W : Workflow α} (hd : (blockVars W).Nodup) {b c : Block α} {i j v : Nat}
    (hb : W.blocks[i]? = some b) (hc : W.blocks[j]? = some c) (h1 : v ∈ b.inputs ++ b.outputs)
    (h2 : v ∈ c.inputs ++ c.outputs) : i = j := by
  unfold blockVars at hd
  rw [List.nodup_flatMap] at hd
  by_contra hne
  have hp := hd.2
  obtain ⟨hi, rfl⟩ := List.getElem?_eq_some_iff.1 hb
  obtain ⟨hj, rfl⟩ := List.getElem?_eq_some_iff.1 hc
  rw [List.pairwise_iff_getElem] at hp
  rcases Nat.lt_or_gt_of_ne hne with h | h
  · exact hp i j hi hj h h1 h2
  · exact hp j i hj hi h h2 h1

theorem nodup_block {W : Workflow α} (hd : (blockVars W).Nodup) {b : Block α} (hb : b ∈ W.blocks) :
    (b.inputs ++ b.outputs).Nodup := by
  unfold blockVars at hd
  rw [List.nodup_flatMap] at hd
  exact hd.1 b hb

/-- A variable is not both an input of a block and an output of a block. -/
theorem in_ne_out {W : Workflow α} (hd : (blockVars W).Nodup) {b c : Block α} {v : Nat} (hb : b ∈ W.blocks)
    (hc : c ∈ W.blocks) (h1 : v ∈ b.inputs) (h2 : v ∈ c.outputs) : False := by
  obtain ⟨i, hi⟩ := List.getElem?_of_mem hb
  obtain ⟨j, hj⟩ := List.getElem?_of_mem hc
  have e := nodup_blocks_disjoint hd hi hj (List.mem_append_left _ h1) (List.mem_append_right _ h2)
  subst e
  rw [hi] at hj
  cases hj
  exact (List.nodup_append.1 (nodup_block hd hb)).2.2 v h1 v h2 rfl

/-- Two blocks with a common output are the same, at the same place. -/
theorem out_unique {W : Workflow α} (hd : (blockVars W).Nodup) {b c : Block α} {i j v : Nat}
    (hb : W.blocks[i]? = some b) (hc : W.blocks[j]? = some c) (h1 : v ∈ b.outputs) (h2 : v ∈ c.outputs) : i = j :=
  nodup_blocks_disjoint hd hb hc (List.mem_append_right _ h1) (List.mem_append_right _ h2)

/-- An input of a block fed by no pipe is an input of the workflow. -/
theorem free_input {W : Workflow α} (hd : (blockVars W).Nodup) {b : Block α} {v : Nat} (hb : b ∈ W.blocks)
    (h1 : v ∈ b.inputs) (hp : ∀ p ∈ W.pipes, p.output ≠ v) : v ∈ inputs W := by
  rw [mem_inputs]
  refine ⟨mem_allVariables.2 (.inl (mem_blockVars.2 ⟨b, hb, .inl h1⟩)), fun c hc h2 => in_ne_out hd hb hc h1 h2,
    fun p hpm ho => absurd ho (hp p hpm)⟩

/-! ### Unique denotation -/

theorem zip_unique {vs : List Nat} {ys : List α} (hn : vs.Nodup) {v : Nat} {x y : α} (h1 : (v, x) ∈ vs.zip ys)
    (h2 : (v, y) ∈ vs.zip ys) : x = y := by
  obtain ⟨i, hi⟩ := List.getElem?_of_mem h1
  obtain ⟨j, hj⟩ := List.getElem?_of_mem h2
  rw [List.getElem?_zip_eq_some] at hi hj
  have := idxOf_of_nodup hn hi.1
  have h3 := idxOf_of_nodup hn hj.1
  rw [this] at h3
  subst h3
  have := hi.2.symm.trans hj.2
  simpa using this

/-- In a well formed workflow a variable can hold one value at most. -/
theorem Den.unique {W : Workflow α} {vals : Nat → Option α} (hw : WellFormed W) {v : Nat} {x y : α}
    (h : Den W vals v x) (h' : Den W vals v y) : x = y := by
  induction h generalizing y with
  | @input k v x hk hx =>
    have hf := hw.input_free (List.mem_of_getElem? hk)
    cases h' with
    | @input k' _ _ hk' hx' =>
      have e := idxOf_of_nodup (inputs_nodup hw.distinct) hk
      rw [idxOf_of_nodup (inputs_nodup hw.distinct) hk'] at e
      subst e
      rw [hx] at hx'
      simpa using hx'
    | pipe hp _ => exact absurd rfl (hf _ hp)
    | block hb _ _ _ hm =>
      have := (mem_inputs.1 (List.mem_of_getElem? hk)).2.1 _ hb
      exact absurd (List.of_mem_zip hm).1 this
  | @pipe p x hp _ ih =>
    generalize hv : p.output = v at h'
    cases h' with
    | input hk _ => exact absurd hv (hw.input_free (List.mem_of_getElem? hk) p hp)
    | @pipe q _ hq hd =>
      obtain ⟨i, hi⟩ := List.getElem?_of_mem hp
      obtain ⟨j, hj⟩ := List.getElem?_of_mem hq
      have e1 := inputPipe_unique hw.single hi
      have e2 := inputPipe_unique hw.single hj
      rw [hv, e2] at e1
      simp only [Option.some.injEq] at e1
      subst e1
      rw [hi] at hj
      cases hj
      exact ih hd
    | block hb _ _ _ hm =>
      obtain ⟨c, hc, hin⟩ := hw.target p hp
      exact (in_ne_out hw.distinct hc hb (hv ▸ hin) (List.of_mem_zip hm).1).elim
  | @block b xs ys o x hb hl hxs he hm ih =>
    cases h' with
    | input hk _ =>
      have := (mem_inputs.1 (List.mem_of_getElem? hk)).2.1 _ hb
      exact absurd (List.of_mem_zip hm).1 this
    | pipe hp _ =>
      obtain ⟨c, hc, hin⟩ := hw.target _ hp
      exact (in_ne_out hw.distinct hc hb hin (List.of_mem_zip hm).1).elim
    | @block c xs' ys' _ _ hc hl' hxs' he' hm' =>
      obtain ⟨i, hi⟩ := List.getElem?_of_mem hb
      obtain ⟨j, hj⟩ := List.getElem?_of_mem hc
      have e := out_unique hw.distinct hi hj (List.of_mem_zip hm).1 (List.of_mem_zip hm').1
      subst e
      rw [hi] at hj
      cases hj
      have hx : xs = xs' := by
        apply List.ext_getElem (by omega)
        intro n h1 h2
        have hn : n < b.inputs.length := by omega
        refine ih (b.inputs[n], xs[n]) ?_ (hxs' (b.inputs[n], xs'[n]) ?_)
        · exact List.mem_of_getElem? (List.getElem?_zip_eq_some.2 ⟨by simp [hn], by simp⟩ : _ = some _) (i := n)
        · exact List.mem_of_getElem? (List.getElem?_zip_eq_some.2 ⟨by simp [hn], by simp⟩ : _ = some _) (i := n)
      subst hx
      rw [he] at he'
      cases he'
      exact zip_unique ((List.nodup_append.1 (nodup_block hw.distinct hb)).2.1) hm hm'

theorem Den.flow {W : Workflow α} {vals : Nat → Option α} {v w : Nat} {x : α} (h : Den W vals v x) (hf : Flow W v w) :
    Den W vals w x := by
  induction hf with
  | refl => exact h
  | tail _ hp ih =>
    obtain ⟨p, hp, rfl, rfl⟩ := hp
    exact .pipe hp ih

end DC.Wkf
