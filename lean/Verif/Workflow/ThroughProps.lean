import Verif.Workflow.Props
/- Property C75: values through free variables. -/
namespace DC.Wkf

variable {α : Type}

/-- A workflow whose variables belong to one block and are fed by at most one pipe, from an other variable; pipes do not end at the outputs of blocks.
Pipes may end at free variables. -/
structure Piping (W : Workflow α) : Prop where
  distinct : (blockVars W).Nodup
  single : (W.pipes.map (·.output)).Nodup
  noLoop : ∀ p ∈ W.pipes, p.input ≠ p.output
  noOutput : ∀ p ∈ W.pipes, ∀ b ∈ W.blocks, p.output ∉ b.outputs

/-- Nothing but itself flows to a variable at which no pipe ends. -/
theorem flow_start {W : Workflow α} {v w : Nat} (h : Flow W v w) (hn : ∀ p ∈ W.pipes, p.output ≠ w) : v = w := by
  rcases Relation.ReflTransGen.cases_tail h with h | ⟨c, -, p, hp, -, e⟩
  · exact h.symm
  · exact absurd e (hn p hp)

theorem pipe_same {W : Workflow α} (hs : (W.pipes.map (·.output)).Nodup) {j k : Nat} {p q : Pipe} (hj : W.pipes[j]? = some p) (hk : W.pipes[k]? = some q)
    (h : p.output = q.output) : j = k ∧ p = q := by
  have h1 := inputPipe_unique hs hj
  have h2 := inputPipe_unique hs hk
  rw [h, h2] at h1
  cases h1
  rw [hj] at hk
  cases hk
  exact ⟨rfl, rfl⟩

/-- What flows to the end of a pipe is this end, or flows to the start of the pipe. -/
theorem flow_pipe {W : Workflow α} (hs : (W.pipes.map (·.output)).Nodup) {v j : Nat} {p : Pipe} (hj : W.pipes[j]? = some p) (h : Flow W v p.output) :
    v = p.output ∨ Flow W v p.input := by
  rcases Relation.ReflTransGen.cases_tail h with h | ⟨c, hc, q, hq, e1, e2⟩
  · exact .inl h.symm
  · obtain ⟨k, hk⟩ := List.getElem?_of_mem hq
    obtain ⟨-, rfl⟩ := pipe_same hs hk hj e2
    rw [e1]
    exact .inr hc

/-- Two variables that flow to the same are on one chain. -/
theorem flow_linear {W : Workflow α} (hs : (W.pipes.map (·.output)).Nodup) {u v w : Nat} (hu : Flow W u w) (hv : Flow W v w) : Flow W u v ∨ Flow W v u := by
  induction hu with
  | refl => exact .inr hv
  | @tail c w hc hp ih =>
    obtain ⟨p, hp, e1, e2⟩ := hp
    obtain ⟨j, hj⟩ := List.getElem?_of_mem hp
    subst e2
    rcases flow_pipe hs hj hv with rfl | hv
    · exact .inl (hc.tail ⟨p, hp, e1, rfl⟩)
    · rw [e1] at hv
      exact ih hv

/-- A variable where values come in: an input of the workflow, or an output of a block which was evaluated. -/
def Root (W : Workflow α) (s : St α) (r : Nat) : Prop := r ∈ inputs W ∨ ∃ (i : Nat) (b : Block α), W.blocks[i]? = some b ∧ r ∈ b.outputs ∧ i ∈ s.evaluated

/-- Activated variables are reached from a root, and the pipes of one chain hold the same value. -/
structure Thr (W : Workflow α) (s : St α) : Prop where
  root : ∀ v, s.actVar v = true → ∃ r, Root W s r ∧ Flow W r v
  agree : ∀ (j k : Nat) (p q : Pipe) x, W.pipes[j]? = some p → W.pipes[k]? = some q → Flow W p.output q.input → s.values j = some x → s.values k = some x

theorem Thr.push {W : Workflow α} (hw : Piping W) {s s' : St α} {v : Nat} {x : α} (h : Thr W s)
    (hp : Pushed (FlowPipe W v) (Flow W v) (FlowOut W v) x s s') (hr : ∃ r, Root W s r ∧ Flow W r v)
    (hx : ∀ (j : Nat) (p : Pipe) y, W.pipes[j]? = some p → Flow W p.output v → s.values j = some y → y = x) : Thr W s' := by
  have hroot : ∀ r, Root W s r → Root W s' r := fun r h => by unfold Root; rw [hp.ev]; exact h
  refine ⟨fun w hw' => ?_, fun j k p q y hj hk hf hv => ?_⟩
  · rcases (hp.var w).1 hw' with h1 | h1
    · obtain ⟨r, hr, hf⟩ := h.root w h1
      exact ⟨r, hroot r hr, hf⟩
    · obtain ⟨r, hr, hf⟩ := hr
      exact ⟨r, hroot r hr, hf.trans h1⟩
  · by_cases hjv : FlowPipe W v j
    · obtain ⟨p', hj', hjv'⟩ := hjv
      rw [hj] at hj'
      cases hj'
      rw [hp.valIn j ⟨p, hj, hjv'⟩] at hv
      cases hv
      exact hp.valIn k ⟨q, hk, (hjv'.tail ⟨p, List.mem_of_getElem? hj, rfl, rfl⟩).trans hf⟩
    · rw [hp.valOut j hjv] at hv
      by_cases hkv : FlowPipe W v k
      · rw [hp.valIn k hkv]
        obtain ⟨q', hk', hkv'⟩ := hkv
        rw [hk] at hk'
        cases hk'
        have : Flow W p.output v := by
          rcases flow_linear hw.single hf hkv' with h1 | h1
          · exact h1
          · rcases flow_pipe hw.single hj h1 with rfl | h1
            · exact .refl
            · exact absurd ⟨p, hj, h1⟩ hjv
        rw [hx j p y hj this hv]
      · rw [hp.valOut k hkv]
        exact h.agree j k p q y hj hk hf hv

/-- A variable at which no pipe ends can be given any value. -/
theorem push_start {W : Workflow α} {s : St α} {v : Nat} (hn : ∀ p ∈ W.pipes, p.output ≠ v) (x : α) :
    ∀ (j : Nat) (p : Pipe) y, W.pipes[j]? = some p → Flow W p.output v → s.values j = some y → y = x :=
  fun _ p _ hj hf _ => absurd (flow_start hf hn) (hn p (List.mem_of_getElem? hj))

theorem input_start {W : Workflow α} (hw : Piping W) {v : Nat} (hv : v ∈ inputs W) : ∀ p ∈ W.pipes, p.output ≠ v := fun p hp e =>
  hw.noLoop p hp ((mem_inputs.1 hv).2.2 p hp e ▸ e.symm)

theorem Thr.note {W : Workflow α} {s : St α} (h : Thr W s) (v : Nat) (x : α) : Thr W (noteInput W s v x) := by
  unfold noteInput
  split
  · exact ⟨h.root, h.agree⟩
  · exact h

theorem Thr.activateInput {W : Workflow α} (hw : Piping W) {s s' : St α} {v : Nat} {x : α} (h : Thr W s) (hv : v ∈ inputs W)
    (ha : activateInput W s v x = .ok s') : Thr W s' :=
  (h.note v x).push hw (activateInput_pushed ha) ⟨v, .inl hv, .refl⟩ (push_start (input_start hw hv) x)

theorem Thr.activateInputs {W : Workflow α} (hw : Piping W) {c : Bool} {s s' : St α} (h : Thr W s) (ha : activateInputs W c s = .ok s') : Thr W s' := by
  have key : ∀ (l : List Nat), (∀ v ∈ l, v ∈ inputs W) → ∀ (k : Nat) (s s' : St α), Thr W s → activateInputsLoop W c k l s = .ok s' → Thr W s' := by
    intro l
    induction l with
    | nil =>
      intro _ k s s' h ha
      simp only [activateInputsLoop, Except.ok.injEq] at ha
      exact ha ▸ h
    | cons v l ih =>
      intro hl k s s' h ha
      rw [activateInputsLoop, bind_ok] at ha
      obtain ⟨s1, h1, h2⟩ := ha
      refine ih (fun w hw => hl w (.tail _ hw)) _ _ _ ?_ h2
      unfold activateOne at h1
      split at h1
      · exact h.activateInput hw (hl v (.head _)) h1
      · split at h1
        · exact h.activateInput hw (hl v (.head _)) h1
        · split at h1
          · simp at h1
          · split at h1
            · simp at h1
            · simp only [Except.ok.injEq] at h1
              exact h1 ▸ h
  exact key _ (fun _ h => h) _ _ _ h ha

theorem Thr.readInputs {W : Workflow α} (hw : Piping W) : ∀ (l : List Nat) (s s' : St α) (xs : List α), Thr W s → (∀ v ∈ l, s.actVar v = true) →
    readInputs W l s = .ok (xs, s') → Thr W s'
  | [], s, s', xs, h, _, ha => by
    simp only [Wkf.readInputs, Except.ok.injEq, Prod.mk.injEq] at ha
    exact ha.2 ▸ h
  | v :: l, s, s', xs, h, hl, ha => by
    rw [Wkf.readInputs, bind_ok] at ha
    obtain ⟨x, hx, ha⟩ := ha
    rw [bind_ok] at ha
    obtain ⟨s1, h1, ha⟩ := ha
    rw [bind_ok] at ha
    obtain ⟨⟨ys, s2⟩, h2, ha⟩ := ha
    simp only [Except.ok.injEq, Prod.mk.injEq] at ha
    have hp := activateVar_pushed _ _ _ _ h1
    have ht : Thr W s1 := by
      refine h.push hw hp (h.root v (hl v (.head _))) ?_
      intro j p y hj hf hy
      unfold readOne at hx
      split at hx
      · rename_i hn
        rw [inputPipe_none] at hn
        exact push_start hn x j p y hj hf hy
      · rename_i m hm
        obtain ⟨q, hq, rfl⟩ := inputPipe_some hm
        split at hx
        · simp at hx
        · rename_i z hz
          simp only [Except.ok.injEq] at hx
          subst hx
          rcases flow_pipe hw.single hq hf with e | hf
          · obtain ⟨rfl, -⟩ := pipe_same hw.single hj hq e
            rw [hy] at hz
            exact Option.some.inj hz
          · have := h.agree j m p q y hj hq hf hy
            rw [this] at hz
            exact Option.some.inj hz
    rw [← ha.2]
    exact Thr.readInputs hw l s1 s2 ys ht (fun w hw' => (hp.var w).2 (.inl (hl w (.tail _ hw')))) h2

theorem Thr.activateOutputs {W : Workflow α} (hw : Piping W) {i : Nat} {b : Block α} (hb : W.blocks[i]? = some b) : ∀ (os : List Nat) (ys : List α) (s s' : St α),
    Thr W s → i ∈ s.evaluated → (∀ o ∈ os, o ∈ b.outputs) → activateOutputs W os ys s = .ok s' → Thr W s'
  | [], ys, s, s', h, _, _, ha => by
    simp only [Wkf.activateOutputs, Except.ok.injEq] at ha
    exact ha ▸ h
  | o :: os, [], s, s', h, _, _, ha => by
    simp only [Wkf.activateOutputs, Except.ok.injEq] at ha
    exact ha ▸ h
  | o :: os, y :: ys, s, s', h, hi, ho, ha => by
    rw [Wkf.activateOutputs, bind_ok] at ha
    obtain ⟨s1, h1, ha⟩ := ha
    have hp := activateVar_pushed _ _ _ _ h1
    refine Thr.activateOutputs hw hb os ys s1 s' (h.push hw hp ⟨o, .inr ⟨i, b, hb, ho o (.head _), hi⟩, .refl⟩ (push_start ?_ y)) (by rw [hp.ev]; exact hi)
      (fun w hw' => ho w (.tail _ hw')) ha
    intro p hp' e
    exact hw.noOutput p hp' b (List.mem_of_getElem? hb) (e ▸ ho o (.head _))

theorem Thr.blockEvaluation {W : Workflow α} (hw : Piping W) {rt : List Nat} {i : Nat} {s s' : St α} {r : Bool} (h : Thr W s)
    (ha : blockEvaluation W rt s i = .ok (s', r)) : Thr W s' ∧ (s'.evaluated = s.evaluated ∨ (s'.evaluated = s.evaluated ++ [i] ∧
      ∃ b, W.blocks[i]? = some b ∧ ∀ v ∈ b.inputs, ∃ r, Root W s r ∧ Flow W r v)) := by
  obtain ⟨s1, h1, hf, ⟨-, rfl, -⟩ | ⟨-, hact, ys, he, hst⟩⟩ := blockEvaluation_ok ha
  · exact ⟨h.activateInputs hw h1, .inl hf.ev⟩
  · have ht := h.activateInputs hw h1
    obtain ⟨b, hb, hby⟩ := activable_byInputs hact
    simp only [byInputs, List.all_eq_true] at hby
    refine ⟨?_, .inr ⟨by rw [hst.ev, hf.ev], b, hb, fun v hv => ?_⟩⟩
    · unfold evaluateBlock at he
      rw [hb] at he
      simp only [bind_ok] at he
      obtain ⟨⟨xs, s2⟩, h2, zs, h3, s3, h4, h5⟩ := he
      simp only [Except.ok.injEq, Prod.mk.injEq] at h5
      have ht2 := Thr.readInputs hw _ _ _ _ ht hby h2
      have ht3 : Thr W { s2 with evaluated := s2.evaluated ++ [i] } := by
        refine ⟨fun v hv => ?_, ht2.agree⟩
        obtain ⟨r, hr, hf⟩ := ht2.root v hv
        refine ⟨r, ?_, hf⟩
        rcases hr with hr | ⟨k, c, hc, ho, hk⟩
        · exact .inl hr
        · exact .inr ⟨k, c, hc, ho, by simp [hk]⟩
      have ht4 := Thr.activateOutputs hw hb _ _ _ _ ht3 (by simp) (fun _ h => h) h4
      rw [← h5.1]
      exact ⟨ht4.root, ht4.agree⟩
    · obtain ⟨r, hr, hfl⟩ := ht.root v (hby v hv)
      unfold Root at hr
      rw [hf.ev] at hr
      exact ⟨r, hr, hfl⟩

/-- Each evaluated block comes after those from which pipes lead to it. -/
def ThroughOrder (W : Workflow α) (s : St α) : Prop :=
  ∀ l₁ j l₂, s.evaluated = l₁ ++ j :: l₂ → ∀ (i : Nat) (b c : Block α) (u w : Nat), W.blocks[i]? = some b → W.blocks[j]? = some c → u ∈ b.outputs → w ∈ c.inputs →
    Flow W u w → i ∈ l₁

theorem output_block {W : Workflow α} (hd : (blockVars W).Nodup) {i k : Nat} {b c : Block α} (hb : W.blocks[i]? = some b) (hc : W.blocks[k]? = some c) {u : Nat}
    (hu : u ∈ b.outputs) (hu' : u ∈ c.outputs) : i = k := by
  by_contra hne
  unfold blockVars at hd
  rw [List.nodup_flatMap] at hd
  have hp := List.pairwise_iff_getElem.1 hd.2
  obtain ⟨hi, rfl⟩ := List.getElem?_eq_some_iff.1 hb
  obtain ⟨hk, rfl⟩ := List.getElem?_eq_some_iff.1 hc
  rcases Nat.lt_or_gt_of_ne hne with h | h
  · exact hp i k hi hk h (List.mem_append.2 (.inr hu)) (List.mem_append.2 (.inr hu'))
  · exact hp k i hk hi h (List.mem_append.2 (.inr hu')) (List.mem_append.2 (.inr hu))

/-- **C75** (part): in a workflow where pipes may go through free variables, any number of them, a run that ends has evaluated each of its blocks after all those from
which pipes lead to it, and each pipe of such a chain holds the value of its first one.
Missing for the full property: the run ends, which fails when the first block is not found to lead to the output (`C75_violated`). -/
theorem C75_partial {W : Workflow α} (hw : Piping W) {so : SetOrder} {user : List (Nat × α)} {s : St α} (h : run W so user = .ok (some s))
    {i j : Nat} {b c : Block α} (hb : W.blocks[i]? = some b) (hc : W.blocks[j]? = some c) {u w : Nat} (hu : u ∈ b.outputs) (hwc : w ∈ c.inputs) (hf : Flow W u w) :
    (∀ l₁ l₂, s.evaluated = l₁ ++ j :: l₂ → i ∈ l₁) ∧
    ∀ (k m : Nat) (p q : Pipe) x, W.pipes[k]? = some p → W.pipes[m]? = some q → p.input = u → Flow W p.output w → q.output = w → s.values k = some x →
      s.values m = some x := by
  obtain ⟨vals, s0, s1, rt, h1, h2, h3, h4, s', h5, h6, h7⟩ := run_ok h
  cases h7
  have hfr := (activateInputs_frame h2).trans (activateInputs_frame h3)
  have ht0 : Thr W ({ inputValues := vals } : St α) := ⟨fun v hv => by simp at hv, fun j k p q x _ _ _ hv => by simp at hv⟩
  have ht1 := (ht0.activateInputs hw h2).activateInputs hw h3
  have ho1 : ThroughOrder W s1 := by
    intro l₁ j l₂ he
    rw [hfr.ev] at he
    simp at he
  have := (continueRun_inv (P := fun s => Thr W s ∧ ThroughOrder W s)
    (fun s s' hs ha => ⟨hs.1.activateInputs hw ha, by unfold ThroughOrder; rw [(activateInputs_frame ha).ev]; exact hs.2⟩)
    (fun s s' e r _ hs hb => by
      obtain ⟨ht, hev⟩ := hs.1.blockEvaluation hw hb
      refine ⟨ht, ?_⟩
      rcases hev with hev | ⟨hev, d, hd, hin⟩
      · unfold ThroughOrder; rw [hev]; exact hs.2
      · intro l₁ k l₂ he i b c u w hb hc hu hwc hf
        rw [hev] at he
        rcases List.eq_nil_or_concat l₂ with rfl | ⟨l₃, z, rfl⟩
        · obtain ⟨e1, e2⟩ := List.append_inj' he rfl
          simp only [List.cons.injEq, and_true] at e2
          subst e2
          rw [hd] at hc
          cases hc
          rw [← e1]
          obtain ⟨r, hr, hfr⟩ := hin w hwc
          have hnu : ∀ p ∈ W.pipes, p.output ≠ u := fun p hp e => hw.noOutput p hp b (List.mem_of_getElem? hb) (e ▸ hu)
          have hru : r = u := by
            rcases flow_linear hw.single hfr hf with h | h
            · exact flow_start h hnu
            · rcases hr with hr | ⟨k, d', hd', hrk, -⟩
              · exact (flow_start h (input_start hw hr)).symm
              · exact (flow_start h fun p hp e => hw.noOutput p hp d' (List.mem_of_getElem? hd') (e ▸ hrk)).symm
          subst hru
          rcases hr with hr | ⟨k, d', hd', hrk, hk⟩
          · exact absurd hu ((mem_inputs.1 hr).2.1 b (List.mem_of_getElem? hb))
          · rw [output_block hw.distinct hb hd' hu hrk]
            exact hk
        · have he' : s.evaluated ++ [e] = (l₁ ++ k :: l₃) ++ [z] := by rw [he]; simp
          obtain ⟨e1, -⟩ := List.append_inj' he' rfl
          exact hs.2 l₁ k l₃ e1 i b c u w hb hc hu hwc hf) _ _ _ ⟨ht1, ho1⟩ h5).1
  refine ⟨fun l₁ l₂ he => this.2 l₁ j l₂ he i b c u w hb hc hu hwc hf, fun k m p q x hk hm _ hfp hq hv => ?_⟩
  subst hq
  rcases flow_pipe hw.single hm hfp with e | hfp
  · obtain ⟨rfl, -⟩ := pipe_same hw.single hk hm e
    exact hv
  · exact this.1.agree k m p q x hk hm hfp hv

/-- A value goes from the first block to the second through a free variable, `1 -> 10 -> 2`, and both lead to the third directly. -/
def exThrough : Workflow Int where
  blocks := [⟨[0], [1], dblEval⟩, ⟨[2], [3], dblEval⟩, ⟨[4, 5], [6], addEval⟩]
  pipes := [⟨1, 10, false⟩, ⟨10, 2, false⟩, ⟨3, 4, false⟩, ⟨1, 5, false⟩]
  output := some 6
  default _ := none
  lockFlag _ := false

example : Piping exThrough := ⟨by decide, by decide, by decide, by decide⟩

example : (match run exThrough dedupOrder [(0, 1)] with
    | .ok (some s) => some (s.evaluated, s.values 1, s.outputValue)
    | _ => none) = some ([0, 1, 2], some 2, some 6) := by decide +kernel

end DC.Wkf
