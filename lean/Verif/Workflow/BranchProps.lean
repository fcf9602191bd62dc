import Verif.Workflow.DisplayLemmas
import Verif.Workflow.Examples
/- C109, C110: the branch of a block, and the inputs upstream of a variable. -/
namespace DC.Wkf
set_option linter.unusedSectionVars false

variable {α : Type} {W : Workflow α}

/-! ### Specification -/

/-- The block `j` must be evaluated to evaluate block `i`, when the blocks which lead to the output are already. -/
inductive Missing (W : Workflow α) (i : Nat) : Nat → Prop
  | self : Missing W i i
  | up {j c} : Missing W i j → Feeds W c j → ¬ Leads W c → Missing W i c

/-! ### C109: branches -/

theorem isSecondary_ok (hw : WellFormed W) (hl : LocksOk W) (so : SetOrder) {o : Nat} (ho : OutputOf W o) (u : Nat) :
    ∃ c, isSecondary W so u = .ok c ∧ (c = true ↔ ¬ Leads W u) := by
  obtain ⟨rt, h1, -, h2⟩ := runtimeBlocks_spec hw hl so ho
  refine ⟨!rt.contains u, by unfold isSecondary; rw [h1]; rfl, ?_⟩
  rw [← h2]
  simp

theorem branch_spec (hw : WellFormed W) (hl : LocksOk W) (so : SetOrder) {o : Nat} (ho : OutputOf W o) {i : Nat}
    (hi : i < W.blocks.length) : ∃ r, gather W so (isSecondary W so) false i = .ok r ∧ ∀ j, j ∈ r ↔ Missing W i j := by
  obtain ⟨r, r1, r2, -, r4, r5, r6⟩ := gatherBlocks_spec (last := false) hw hl so hi (fun u _ => isSecondary_ok hw hl so ho u)
  refine ⟨r, r1, fun j => ⟨r5 (Missing W i) .self (fun j c hj _ hf hn => .up hj hf (by simpa using hn)) j, fun h => ?_⟩⟩
  induction h with
  | self => exact r2
  | @up j c _ hf hn ih => exact r6 j ih (by simpa using r4 j ih) c hf (.inl hn)

theorem mem_between (hs : (W.pipes.map (·.output)).Nodup) {j i m : Nat} : m ∈ between W j i ↔
    ∃ b c p, W.blocks[i]? = some b ∧ W.blocks[j]? = some c ∧ W.pipes[m]? = some p ∧ p.output ∈ b.inputs ∧
      p.input ∈ c.outputs := by
  unfold between
  cases hc : W.blocks[j]? with
  | none => simp
  | some c =>
    cases hb : W.blocks[i]? with
    | none => simp
    | some b =>
      simp only [C42_between W hs c b m, Option.some.injEq, exists_and_left, exists_eq_left']
      constructor
      · rintro ⟨p, h1, h2, h3⟩; exact ⟨p, h1, h3, h2⟩
      · rintro ⟨p, h1, h2, h3⟩; exact ⟨p, h1, h3, h2⟩

theorem branchMarks_spec (hw : WellFormed W) (hl : LocksOk W) (so : SetOrder) {o : Nat} (ho : OutputOf W o) (l : List Nat)
    (hlt : ∀ i ∈ l, i < W.blocks.length) : ∃ r, branchMarks W so l = .ok r ∧
      ∀ m, m ∈ r ↔ ∃ i ∈ l, ∃ b j c p, W.blocks[i]? = some b ∧ W.blocks[j]? = some c ∧ W.pipes[m]? = some p ∧
        p.output ∈ b.inputs ∧ p.input ∈ c.outputs ∧ Leads W j := by
  induction l with
  | nil => exact ⟨[], rfl, by simp⟩
  | cons i l ih =>
    obtain ⟨us, e1, -, e2⟩ := upstreamBlocks_spec hw hl so (hlt i (.head _))
    obtain ⟨rt, e3, -, e4⟩ := runtimeBlocks_spec hw hl so ho
    obtain ⟨r, e5, e6⟩ := ih (fun j hj => hlt j (.tail _ hj))
    refine ⟨(us.filter rt.contains).flatMap (fun j => between W j i) ++ r, ?_, fun m => ?_⟩
    · rw [branchMarks]
      simp only [e1, e3, e5, bind, Except.bind]
      cases us <;> rfl
    · rw [List.mem_append, e6]
      simp only [List.mem_cons, exists_eq_or_imp]
      refine or_congr_left ?_
      simp only [List.mem_flatMap, List.mem_filter, List.contains_eq_mem, decide_eq_true_eq, e2, e4, mem_between hw.single]
      constructor
      · rintro ⟨j, ⟨-, hj⟩, b, c, p, h1, h2, h3, h4, h5⟩
        exact ⟨b, j, c, p, h1, h2, h3, h4, h5, hj⟩
      · rintro ⟨b, j, c, p, h1, h2, h3, h4, h5, hj⟩
        exact ⟨j, ⟨⟨b, c, p, h1, h2, List.mem_of_getElem? h3, h4, h5⟩, hj⟩, b, c, p, h1, h2, h3, h4, h5⟩

/-- The branch of a block holds the blocks which must be evaluated for it, and no other; the pipes which are memorized are
those by which blocks leading to the output feed it. -/
theorem C109_branch (hw : WellFormed W) (hl : LocksOk W) (so : SetOrder) {o : Nat} (ho : OutputOf W o) {i : Nat}
    (hi : i < W.blocks.length) : ∃ branch marks, secondaryBranch W so i = .ok (branch, marks) ∧
      (∀ j, j ∈ branch ↔ Missing W i j) ∧
      ∀ m, m ∈ marks ↔ ∃ k b j c p, Missing W i k ∧ W.blocks[k]? = some b ∧ W.blocks[j]? = some c ∧ Leads W j ∧
        W.pipes[m]? = some p ∧ p.input ∈ c.outputs ∧ p.output ∈ b.inputs := by
  obtain ⟨r, r1, r2⟩ := branch_spec hw hl so ho hi
  obtain ⟨ms, m1, m2⟩ := branchMarks_spec hw hl so ho r (fun j hj => by
    have := (r2 j).1 hj
    cases this with
    | self => exact hi
    | up _ hf _ => exact hf.lt.1)
  refine ⟨r, ms, ?_, r2, fun m => (m2 m).trans ?_⟩
  · unfold secondaryBranch
    rw [r1]
    simp only [bind, Except.bind, m1]
  · constructor
    · rintro ⟨k, hk, b, j, c, p, h1, h2, h3, h4, h5, h6⟩
      exact ⟨k, b, j, c, p, (r2 k).1 hk, h1, h2, h6, h3, h5, h4⟩
    · rintro ⟨k, b, j, c, p, hk, h1, h2, h6, h3, h5, h4⟩
      exact ⟨k, (r2 k).2 hk, b, j, c, p, h1, h2, h3, h4, h5, h6⟩

/-- Without output, the branch of a block fed by an other one cannot be computed: such a workflow with a display or an export
cannot be created. -/
theorem C109_no_output (so : SetOrder) (hw : WellFormed W) (hl : LocksOk W) (h : W.output = none) {i j : Nat}
    (hi : i < W.blocks.length) (hf : Feeds W j i) : secondaryBranch W so i = .error .typeError := by
  obtain ⟨us, e1, -, e2⟩ := upstreamBlocks_spec hw hl so hi
  have hne : us ≠ [] := fun he => by
    have := (e2 j).2 hf
    rw [he] at this
    simp at this
  cases us with
  | nil => exact absurd rfl hne
  | cons u us =>
    unfold secondaryBranch gather
    simp only [e1, bind, Except.bind, gatherLoop, List.isEmpty_cons, Bool.false_eq_true, if_false, gatherTurn, isSecondary,
      C40_no_output so h]

/-- The block 2 of the example, which does not lead to the output, is its own branch: the block 1 is evaluated anyway. -/
example : ∃ branch marks, secondaryBranch exW dedupOrder 2 = .ok (branch, marks) ∧ branch = [2] ∧ marks = [2] := by
  have h : (secondaryBranch exW dedupOrder 2).toOption = some ([2], [2]) := by decide
  cases hb : secondaryBranch exW dedupOrder 2 with
  | error e => rw [hb] at h; simp [Except.toOption] at h
  | ok r => rw [hb] at h; simp only [Except.toOption, Option.some.injEq] at h; exact ⟨[2], [2], by rw [h], rfl, rfl⟩

example : ∃ branch marks, secondaryBranch exW dedupOrder 2 = .ok (branch, marks) ∧ ∀ j, j ∈ branch ↔ Missing exW 2 j := by
  obtain ⟨b, ms, h1, h2, -⟩ := C109_branch exW_wf exW_locks dedupOrder (o := 0) ⟨_, 4, rfl, rfl, by simp⟩ (i := 2) (by decide)
  exact ⟨b, ms, h1, h2⟩

/-! ### C110: inputs upstream of a variable -/

theorem upstreamLoop_free (hl : LocksOk W) (l : List Nat) (u : Upstream) :
    ∃ u', upstreamLoop W u l = .ok u' ∧
      (∀ w, w ∈ u'.available ↔ w ∈ u.available ∨ w ∈ l ∧ upstreamVar W w = none ∧ W.lockFlag w = false) ∧
      ∀ w, w ∈ u'.nonblock ↔ w ∈ u.nonblock ∨ ∃ i ∈ l, upstreamVar W i = some w ∧ w ∈ nbvs W ∧ W.lockFlag w = false := by
  induction l generalizing u with
  | nil => exact ⟨u, rfl, by simp, by simp⟩
  | cons i l ih =>
    rw [upstreamLoop]
    cases hu : upstreamVar W i with
    | none =>
      simp only [hl.locked, bind, Except.bind]
      cases hk : W.lockFlag i with
      | true =>
        obtain ⟨u', h1, h2, h3⟩ := ih { u with locked := u.locked ++ [i] }
        refine ⟨u', h1, fun w => ?_, fun w => ?_⟩
        · rw [h2]
          refine or_congr_right ⟨fun h => ⟨.tail _ h.1, h.2⟩, fun h => ⟨?_, h.2⟩⟩
          rcases List.mem_cons.1 h.1 with rfl | h'
          · rw [hk] at h; simp at h
          · exact h'
        · rw [h3]
          simp [hu]
      | false =>
        obtain ⟨u', h1, h2, h3⟩ := ih { u with available := u.available ++ [i] }
        refine ⟨u', h1, fun w => ?_, fun w => ?_⟩
        · rw [h2]
          simp only [List.mem_append, List.mem_cons, List.not_mem_nil, or_false, or_assoc]
          refine or_congr_right ?_
          constructor
          · rintro (rfl | h)
            · exact ⟨.inl rfl, hu, hk⟩
            · exact ⟨.inr h.1, h.2⟩
          · rintro ⟨h | h, h'⟩
            · exact .inl h
            · exact .inr ⟨h, h'⟩
        · rw [h3]
          simp [hu]
    | some w0 =>
      simp only
      by_cases hn : w0 ∈ nbvs W
      · rw [if_pos hn]
        simp only [hl.locked, bind, Except.bind]
        cases hk : W.lockFlag w0 with
        | true =>
          obtain ⟨u', h1, h2, h3⟩ := ih { u with locked := u.locked ++ [w0] }
          refine ⟨u', h1, fun w => ?_, fun w => ?_⟩
          · rw [h2]
            refine or_congr_right ⟨fun h => ⟨.tail _ h.1, h.2⟩, fun h => ⟨?_, h.2⟩⟩
            rcases List.mem_cons.1 h.1 with rfl | h'
            · rw [hu] at h; simp at h
            · exact h'
          · rw [h3]
            simp only [List.mem_cons, exists_eq_or_imp, hu, Option.some.injEq]
            refine or_congr_right ⟨.inr, fun h => h.resolve_left ?_⟩
            rintro ⟨rfl, -, h⟩
            rw [hk] at h; simp at h
        | false =>
          obtain ⟨u', h1, h2, h3⟩ := ih { u with nonblock := u.nonblock ++ [w0] }
          refine ⟨u', h1, fun w => ?_, fun w => ?_⟩
          · rw [h2]
            refine or_congr_right ⟨fun h => ⟨.tail _ h.1, h.2⟩, fun h => ⟨?_, h.2⟩⟩
            rcases List.mem_cons.1 h.1 with rfl | h'
            · rw [hu] at h; simp at h
            · exact h'
          · rw [h3]
            simp only [List.mem_append, List.mem_cons, List.not_mem_nil, or_false, or_assoc, exists_eq_or_imp, hu,
              Option.some.injEq]
            refine or_congr_right (or_congr_left ⟨?_, fun h => h.1.symm⟩)
            rintro rfl
            exact ⟨rfl, hn, hk⟩
      · rw [if_neg hn]
        obtain ⟨u', h1, h2, h3⟩ := ih { u with wired := u.wired ++ [w0] }
        refine ⟨u', h1, fun w => ?_, fun w => ?_⟩
        · rw [h2]
          refine or_congr_right ⟨fun h => ⟨.tail _ h.1, h.2⟩, fun h => ⟨?_, h.2⟩⟩
          rcases List.mem_cons.1 h.1 with rfl | h'
          · rw [hu] at h; simp at h
          · exact h'
        · rw [h3]
          simp only [List.mem_cons, exists_eq_or_imp, hu, Option.some.injEq]
          refine or_congr_right ⟨.inr, fun h => h.resolve_left ?_⟩
          rintro ⟨rfl, h, -⟩
          exact hn h

/-- The free inputs of a block, in the workflow. -/
theorem blockUpstream_free (hw : WellFormed W) (hl : LocksOk W) {b : Block α} (hb : b ∈ W.blocks) :
    ∃ u, blockUpstream W b = .ok u ∧ ∀ w, w ∈ u.available ++ u.nonblock ↔
      w ∈ inputs W ∧ W.lockFlag w = false ∧ ∃ v ∈ b.inputs, Flow W w v := by
  obtain ⟨u, h1, h2, h3⟩ := upstreamLoop_free hl b.inputs {}
  refine ⟨u, h1, fun w => ?_⟩
  rw [List.mem_append, h2, h3]
  simp only [List.not_mem_nil, false_or]
  constructor
  · rintro (⟨h, hn, hk⟩ | ⟨i, hi, hu, hn, hk⟩)
    · exact ⟨free_input hw.distinct hb h (upstreamVar_none.1 hn), hk, w, h, .refl⟩
    · refine ⟨?_, hk, i, hi, .single (upstreamVar_some hu)⟩
      have hnb := (nbvs_spec W).2.2.1 w hn
      rw [mem_inputs]
      refine ⟨by rw [(nbvs_spec W).1]; simp [hn], fun c hc ho => hnb (mem_blockVars.2 ⟨c, hc, .inr ho⟩), fun p hp ho => ?_⟩
      obtain ⟨c, hc, hin⟩ := hw.target p hp
      rw [ho] at hin
      exact absurd (mem_blockVars.2 ⟨c, hc, .inl hin⟩) hnb
  · rintro ⟨hin, hk, v, hv, hf⟩
    rcases Relation.ReflTransGen.cases_tail hf with rfl | ⟨c, hc, p, hp, h4, h5⟩
    · exact .inl ⟨hv, upstreamVar_none.2 (hw.input_free hin), hk⟩
    · subst h4 h5
      have hcw : p.input = w := flow_eq hw hc (fun b' hb' h => hw.source p hp b' hb' h)
      subst hcw
      refine .inr ⟨p.output, hv, upstreamVar_piped hw.single ⟨p, hp, rfl, rfl⟩, ?_, hk⟩
      rw [(nbvs_spec W).2.2.2]
      refine ⟨fun h => ?_, p, hp, .inl rfl⟩
      obtain ⟨c, hc, h | h⟩ := mem_blockVars.1 h
      · exact hw.source p hp c hc h
      · exact (mem_inputs.1 hin).2.1 c hc h

theorem branchInputs_spec (hw : WellFormed W) (hl : LocksOk W) (l : List Nat) (hlt : ∀ i ∈ l, i < W.blocks.length) :
    ∃ r, branchInputs W l = .ok r ∧ ∀ w, w ∈ r ↔ w ∈ inputs W ∧ W.lockFlag w = false ∧
      ∃ i ∈ l, ∃ b, W.blocks[i]? = some b ∧ ∃ v ∈ b.inputs, Flow W w v := by
  induction l with
  | nil => exact ⟨[], rfl, by simp⟩
  | cons i l ih =>
    obtain ⟨r, h1, h2⟩ := ih (fun j hj => hlt j (.tail _ hj))
    obtain ⟨b, hb⟩ : ∃ b, W.blocks[i]? = some b := ⟨W.blocks[i]'(hlt i (.head _)), by simp [hlt i (.head _)]⟩
    obtain ⟨u, h3, h4⟩ := blockUpstream_free hw hl (List.mem_of_getElem? hb)
    refine ⟨u.available ++ u.nonblock ++ r, ?_, fun w => ?_⟩
    · rw [branchInputs, hb]
      simp only [h3, h1, bind, Except.bind]
    · rw [List.mem_append, h4, h2]
      simp only [List.mem_cons, exists_eq_or_imp, hb, Option.some.injEq, exists_eq_left']
      constructor
      · rintro (⟨h1, h2, h⟩ | ⟨h1, h2, h⟩)
        · exact ⟨h1, h2, .inl h⟩
        · exact ⟨h1, h2, .inr h⟩
      · rintro ⟨h1, h2, h | h⟩
        · exact .inl ⟨h1, h2, h⟩
        · exact .inr ⟨h1, h2, h⟩

/-- The inputs found upstream of a variable are the inputs of the workflow, except the locked ones, from which a value flows
to the block of the variable or to a block on which this one depends. -/
theorem C110_inputs (hw : WellFormed W) (hl : LocksOk W) (so : SetOrder) {v i : Nat} {b : Block α}
    (hb : W.blocks[i]? = some b) (hv : v ∈ b.inputs ∨ v ∈ b.outputs) :
    ∃ r, upstreamInputs W so v = .ok r ∧ r.Nodup ∧ ∀ w, w ∈ r ↔ w ∈ inputs W ∧ W.lockFlag w = false ∧
      ∃ j c u, Relation.ReflTransGen (Feeds W) j i ∧ W.blocks[j]? = some c ∧ u ∈ c.inputs ∧ Flow W w u := by
  have hi := (List.getElem?_eq_some_iff.1 hb).1
  have hcond : ∀ u, u < W.blocks.length → ∃ c, hasUpstream W so u = .ok c ∧ (c = true ↔ ∃ j, Feeds W j u) := by
    intro u hu
    obtain ⟨us, e1, -, e2⟩ := upstreamBlocks_spec hw hl so hu
    refine ⟨!us.isEmpty, by unfold hasUpstream; rw [e1]; rfl, ?_⟩
    cases us with
    | nil =>
      simp only [List.not_mem_nil, false_iff] at e2
      simp [e2]
    | cons x us =>
      simp only [List.isEmpty_cons, Bool.not_false, true_iff]
      exact ⟨x, (e2 x).1 (.head _)⟩
  obtain ⟨br, r1, r2, r3, -, r5, r6⟩ := gatherBlocks_spec (last := true) hw hl so hi hcond
  have hbr : ∀ j, j ∈ br ↔ Relation.ReflTransGen (Feeds W) j i := by
    intro j
    constructor
    · exact r5 (fun j => Relation.ReflTransGen (Feeds W) j i) .refl (fun j c hj _ hf _ => .head hf hj) j
    · intro h
      induction h using Relation.ReflTransGen.head_induction_on with
      | refl => exact r2
      | head hf _ ih => exact r6 _ ih (.inr ⟨_, hf⟩) _ hf (.inr rfl)
  obtain ⟨l, l1, l2⟩ := branchInputs_spec hw hl br r3
  refine ⟨so.list l, ?_, so.nodup _, fun w => ?_⟩
  · unfold upstreamInputs upstreamBranch
    rw [blockFromVariable_port hw.distinct hb (List.mem_append.2 hv)]
    simp only [bind, Except.bind, r1, l1]
  · rw [so.mem, l2]
    simp only [hbr]
    constructor
    · rintro ⟨h1, h2, j, hj, c, hc, u, hu, hf⟩
      exact ⟨h1, h2, j, c, u, hj, hc, hu, hf⟩
    · rintro ⟨h1, h2, j, c, u, hj, hc, hu, hf⟩
      exact ⟨h1, h2, j, hj, c, hc, u, hu, hf⟩

/-- What the inputs upstream of a variable are for: with the locked inputs, they determine the value of the variable. -/
theorem C110_enough (hw : WellFormed W) (hl : LocksOk W) (so : SetOrder) {v i : Nat} {b : Block α}
    (hb : W.blocks[i]? = some b) (hv : v ∈ b.inputs ∨ v ∈ b.outputs) {r : List Nat} (hr : upstreamInputs W so v = .ok r)
    {V V' : Nat → Option α} (hV : ∀ k w, (inputs W)[k]? = some w → w ∈ r ∨ W.lockFlag w = true → V' k = V k) {x : α}
    (hd : Den W V v x) : Den W V' v x := by
  obtain ⟨r', h1, -, h2⟩ := C110_inputs hw hl so hb hv
  rw [hr] at h1
  cases h1
  have key : ∀ {v x}, Den W V v x → ∀ {j c}, Relation.ReflTransGen (Feeds W) j i → W.blocks[j]? = some c →
      ((v ∈ c.outputs) ∨ ∃ u ∈ c.inputs, Flow W v u) → Den W V' v x := by
    intro v x hd
    induction hd with
    | @input k v x hk hx =>
      intro j c hj hc hvc
      refine .input hk ?_
      rw [hV k v hk, hx]
      cases hlk : W.lockFlag v with
      | true => exact .inr rfl
      | false =>
        left
        rcases hvc with hvc | ⟨u, hu, hf⟩
        · exact absurd hvc ((mem_inputs.1 (List.mem_of_getElem? hk)).2.1 c (List.mem_of_getElem? hc))
        · exact (h2 v).2 ⟨List.mem_of_getElem? hk, hlk, j, c, u, hj, hc, hu, hf⟩
    | @pipe p x hp hd ih =>
      intro j c hj hc hvc
      refine .pipe hp ?_
      have hpf : ∃ u ∈ c.inputs, Flow W p.input u := by
        rcases hvc with hvc | ⟨u, hu, hf⟩
        · obtain ⟨b0, hb0, hin⟩ := hw.target p hp
          exact (in_ne_out hw.distinct hb0 (List.mem_of_getElem? hc) hin hvc).elim
        · exact ⟨u, hu, .head ⟨p, hp, rfl, rfl⟩ hf⟩
      exact ih hj hc (.inr hpf)
    | @block b0 xs ys o y hb0 hlen hxs he hm ih =>
      intro j c hj hc hvc
      have hob := (List.of_mem_zip hm).1
      obtain ⟨j0, hj0⟩ := List.getElem?_of_mem hb0
      have hreach : Relation.ReflTransGen (Feeds W) j0 i := by
        rcases hvc with hvc | ⟨u, hu, hf⟩
        · rw [out_unique hw.distinct hj0 hc hob hvc]; exact hj
        · rcases Relation.ReflTransGen.cases_tail hf with rfl | ⟨w, hw', p, hp, h4, h5⟩
          · exact (in_ne_out hw.distinct (List.mem_of_getElem? hc) hb0 hu hob).elim
          · subst h4 h5
            have : p.input = o := flow_eq hw hw' (fun b' hb' h => hw.source p hp b' hb' h)
            subst this
            exact .head ⟨c, b0, p, hc, hj0, hp, hu, hob⟩ hj
      exact .block hb0 hlen (fun vx hvx => ih vx hvx hreach hj0 (.inr ⟨vx.1, (List.of_mem_zip hvx).1, .refl⟩)) he hm
  exact key hd .refl hb (hv.symm.imp id (fun h => ⟨v, h, .refl⟩))

/-- The inputs upstream of the output of the example: the one of the block 2 is not among them, and its value does not matter. -/
example : ∃ r, upstreamInputs exW dedupOrder 4 = .ok r ∧ 10 ∈ r ∧ 0 ∈ r ∧ 6 ∉ r := by
  have h : ((upstreamInputs exW dedupOrder 4).toOption.map fun r => (decide (10 ∈ r), decide (0 ∈ r), decide (6 ∈ r))) =
      some (true, true, false) := by decide
  cases hb : upstreamInputs exW dedupOrder 4 with
  | error e => rw [hb] at h; simp [Except.toOption] at h
  | ok r =>
    rw [hb] at h
    simp only [Except.toOption, Option.map_some, Option.some.injEq, Prod.mk.injEq, decide_eq_true_eq, decide_eq_false_iff_not] at h
    exact ⟨r, rfl, h⟩

example : ∃ r, upstreamInputs exW dedupOrder 4 = .ok r ∧ r.Nodup := by
  obtain ⟨r, h1, h2, -⟩ := C110_inputs exW_wf exW_locks dedupOrder (v := 4) (i := 0) rfl (.inr (by simp))
  exact ⟨r, h1, h2⟩

end DC.Wkf
