import Verif.Workflow.Examples
/- Properties of the execution of workflows: C27 to C32, C35, C40, C42, C75, C76. -/
namespace DC.Wkf

variable {α : Type}

/-! ### C27: every needed block is evaluated exactly once, after those which feed it -/

/-- Whatever the workflow, a run which ends has evaluated exactly the runtime blocks, each once. -/
theorem C27_once {W : Workflow α} {so : SetOrder} {user : List (Nat × α)} {s : St α}
    (h : run W so user = .ok (some s)) : s.evaluated.Nodup ∧
      ∃ rt, runtimeBlocks W so = .ok rt ∧ ∀ i, i ∈ s.evaluated ↔ i ∈ rt := by
  obtain ⟨vals, s0, s1, rt, h1, h2, h3, h4, s', h5, h6, h7⟩ := run_ok h
  cases h7
  have ho : Once rt s1 := by
    have hf := (activateInputs_frame h2).trans (activateInputs_frame h3)
    exact (⟨by simp, by simp, by simp⟩ : Once rt ({ inputValues := vals } : St α)).frame hf
  have ho' := (continueRun_inv (P := Once rt) (fun s s' hs ha => hs.frame (activateInputs_frame ha))
    (fun s s' i r hi hs hb => Once.block s s' i r hi hs hb) _ _ _ ho h5).1
  refine ⟨ho'.nodup, rt, h4, fun i => ⟨ho'.sub i, fun hi => ?_⟩⟩
  rw [← ho'.act]
  exact (progress_one (runtimeBlocks_ne h4)).1 h6 i hi

/-- In a well formed workflow, a run which ends has evaluated exactly the blocks which lead to the output. -/
theorem C27_needed {W : Workflow α} (hw : WellFormed W) (hl : LocksOk W) {o : Nat} (ho : OutputOf W o) {so : SetOrder}
    {user : List (Nat × α)} {s : St α} (h : run W so user = .ok (some s)) :
    s.evaluated.Nodup ∧ ∀ i, i ∈ s.evaluated ↔ Leads W i := by
  obtain ⟨hn, rt, hrt, hm⟩ := C27_once h
  obtain ⟨rt', hrt', -, hm'⟩ := runtimeBlocks_spec hw hl so ho
  rw [hrt] at hrt'
  cases hrt'
  exact ⟨hn, fun i => (hm i).trans (hm' i)⟩

/-- Each evaluated block comes after the blocks which feed it. -/
def Ordered (W : Workflow α) (s : St α) : Prop :=
  ∀ l₁ i l₂, s.evaluated = l₁ ++ i :: l₂ → ∀ j, Feeds W j i → j ∈ l₁

theorem Ordered.block {W : Workflow α} (hw : WellFormed W) {V : Nat → Option α} {rt : List Nat} {s s' : St α} {i : Nat}
    {r : Bool} (hI : Good W V s) (ho : Ordered W s) (h : blockEvaluation W rt s i = .ok (s', r)) : Ordered W s' := by
  obtain ⟨s1, h1, hf, ⟨-, rfl, -⟩ | ⟨-, ha, ys, -, hs⟩⟩ := blockEvaluation_ok h
  · unfold Ordered; rw [hf.ev]; exact ho
  · have hI1 := (hI.activateInputs hw h1).1
    intro l₁ k l₂ he j hj
    rw [hs.ev, hf.ev] at he
    rcases List.eq_nil_or_concat l₂ with rfl | ⟨l₃, z, rfl⟩
    · have := List.append_inj' he rfl
      obtain ⟨e1, e2⟩ := this
      simp only [List.cons.injEq, and_true] at e2
      subst e2
      rw [← e1]
      obtain ⟨b, hb, hby⟩ := activable_byInputs ha
      obtain ⟨b', c, p, hb', hc, hp, h2, h3⟩ := hj
      rw [hb] at hb'
      cases hb'
      simp only [byInputs, List.all_eq_true] at hby
      obtain ⟨n, hn⟩ := List.getElem?_of_mem hp
      obtain ⟨q, x, hq, -, hact⟩ := hI1.fed _ n (hby _ h2) (inputPipe_unique hw.single hn)
      rw [hn] at hq
      cases hq
      have := hI1.src j c _ hc h3 hact
      rw [hf.ev] at this
      exact this.resolve_right id
    · have he' : s.evaluated ++ [i] = (l₁ ++ k :: l₃) ++ [z] := by rw [he]; simp
      obtain ⟨e1, -⟩ := List.append_inj' he' rfl
      exact ho l₁ k l₃ e1 j hj

/-- In a run, a block is evaluated after all the blocks which feed it. -/
theorem C27_order {W : Workflow α} (hw : WellFormed W) {so : SetOrder} {user : List (Nat × α)} {s : St α}
    (h : run W so user = .ok (some s)) (l₁ : List Nat) (i : Nat) (l₂ : List Nat)
    (he : s.evaluated = l₁ ++ i :: l₂) (j : Nat) (hj : Feeds W j i) : j ∈ l₁ := by
  obtain ⟨vals, s0, s1, rt, h1, h2, h3, h4, s', h5, h6, h7⟩ := run_ok h
  cases h7
  have hg := ((startRun_good hw h1 h2).activateInputs hw h3).1
  have hf := (activateInputs_frame h2).trans (activateInputs_frame h3)
  have ho : Ordered W s1 := by
    intro l₁ i l₂ he
    rw [hf.ev] at he
    simp at he
  have := (continueRun_inv (P := fun s => Good W (expected W user) s ∧ Ordered W s)
    (fun s s' hs ha => ⟨(hs.1.activateInputs hw ha).1, by
      unfold Ordered; rw [(activateInputs_frame ha).ev]; exact hs.2⟩)
    (fun s s' i r _ hs hb => ⟨Good.blockEvaluation hw hs.1 hb, Ordered.block hw hs.1 hs.2 hb⟩) _ _ _ ⟨hg, ho⟩ h5).1
  exact this.2 l₁ i l₂ he j hj

/-- The evaluation of a block on values in right number succeeds, and gives the right number of values. -/
def Total (W : Workflow α) : Prop :=
  ∀ b ∈ W.blocks, ∀ xs, xs.length = b.inputs.length → ∃ ys, b.eval xs = .ok ys ∧ ys.length = b.outputs.length

/-- With all the inputs given and total blocks, each variable of a block must hold a value. -/
theorem den_total {W : Workflow α} (hw : WellFormed W) (ht : Total W) {V : Nat → Option α}
    (hV : ∀ k, k < (inputs W).length → (V k).isSome) : ∀ v ∈ allVariables W, ∃ x, Den W V v x := by
  obtain ⟨rank, hr, hr2⟩ := hw.acyclic
  have key : ∀ n v, rank v = n → v ∈ allVariables W → ∃ x, Den W V v x := by
    intro n
    induction n using Nat.strong_induction_on with
    | _ n ih =>
      intro v hn hv
      by_cases hp : ∃ p ∈ W.pipes, p.output = v
      · obtain ⟨p, hp, rfl⟩ := hp
        obtain ⟨x, hx⟩ := ih (rank p.input) (by rw [← hn]; exact hr p hp) p.input rfl
          (mem_allVariables.2 (.inr ⟨p, hp, .inl rfl⟩))
        exact ⟨x, .pipe hp hx⟩
      · push Not at hp
        by_cases ho : ∃ b ∈ W.blocks, v ∈ b.outputs
        · obtain ⟨b, hb, ho⟩ := ho
          have hin : ∀ u ∈ b.inputs, ∃ x, Den W V u x := fun u hu =>
            ih (rank u) (by rw [← hn]; exact hr2 b hb u hu v ho) u rfl
              (mem_allVariables.2 (.inl (mem_blockVars.2 ⟨b, hb, .inl hu⟩)))
          have hxs : ∀ l : List Nat, (∀ u ∈ l, ∃ x, Den W V u x) → ∃ xs : List α, xs.length = l.length ∧
              ∀ vx ∈ l.zip xs, Den W V vx.1 vx.2 := by
            intro l
            induction l with
            | nil => exact fun _ => ⟨[], rfl, by simp⟩
            | cons u l ihl =>
              intro h
              obtain ⟨x, hx⟩ := h u (.head _)
              obtain ⟨xs, h1, h2⟩ := ihl (fun w hw => h w (.tail _ hw))
              refine ⟨x :: xs, by simp [h1], fun vx hvx => ?_⟩
              rcases List.mem_cons.1 (by simpa using hvx) with rfl | h
              · exact hx
              · exact h2 vx h
          obtain ⟨xs, h1, h2⟩ := hxs b.inputs hin
          obtain ⟨ys, h3, h4⟩ := ht b hb xs h1
          obtain ⟨m, hm⟩ := List.getElem?_of_mem ho
          have hml := (List.getElem?_eq_some_iff.1 hm).1
          refine ⟨ys[m]'(by omega), .block hb h1 h2 h3 ?_⟩
          exact List.mem_of_getElem? (List.getElem?_zip_eq_some.2 ⟨hm, by simp⟩ : _ = some _) (i := m)
        · push Not at ho
          have hvi : v ∈ inputs W := mem_inputs.2 ⟨hv, ho, fun p hpm h => absurd h (hp p hpm)⟩
          obtain ⟨k, hk⟩ := List.getElem?_of_mem hvi
          obtain ⟨x, hx⟩ := Option.isSome_iff_exists.1 (hV k (List.getElem?_eq_some_iff.1 hk).1)
          exact ⟨x, .input hk hx⟩
  exact fun v hv => key _ v rfl hv

/-- The general form of completion: a run succeeds when the inputs have a value and the runtime blocks can be
evaluated. -/
theorem run_completes {W : Workflow α} (hw : WellFormed W) (hl : LocksOk W) {o : Nat} (ho : OutputOf W o)
    (so : SetOrder) (user : List (Nat × α)) (hu : ∀ kx ∈ user, kx.1 < (inputs W).length)
    (hV : ∀ k, k < (inputs W).length → (expected W user k).isSome)
    (hev : ∀ i, Leads W i → ∀ b xs, W.blocks[i]? = some b → xs.length = b.inputs.length →
      (∀ vx ∈ b.inputs.zip xs, Den W (expected W user) vx.1 vx.2) → ∃ ys, b.eval xs = .ok ys)
    (hden : ∀ i, Leads W i → ∀ b, W.blocks[i]? = some b → ∀ v ∈ b.inputs, ∃ x, Den W (expected W user) v x) :
    ∃ s, run W so user = .ok (some s) := by
  obtain ⟨a, ha⟩ := allowedValues_total hl user hu
  have h1 : ∃ vals, inputValues W user = .ok vals := by
    unfold inputValues
    rw [ha]
    exact ⟨_, rfl⟩
  obtain ⟨vals, h1⟩ := h1
  obtain ⟨s0, h2⟩ := activateInputs_total hw hl ({ inputValues := vals } : St α)
  have hg0 := startRun_good hw h1 h2
  have hf0 := activateInputs_frame h2
  obtain ⟨s1, h3⟩ := activateInputs_check hw s0 (fun k v hk => by
    left
    apply hf0.inp
    show (vals k).isSome
    rw [inputValues_spec h1 k v hk]
    exact hV k (List.getElem?_eq_some_iff.1 hk).1)
  obtain ⟨hg1, hact⟩ := hg0.activateInputs hw h3
  obtain ⟨rt, h4, -, hm⟩ := runtimeBlocks_spec hw hl so ho
  have hlt : ∀ i ∈ rt, i < W.blocks.length := by
    intro i hi
    cases (hm i).1 hi with
    | output h =>
      obtain ⟨b, v, hb, -⟩ := h
      exact (List.getElem?_eq_some_iff.1 hb).1
    | feeds _ h => exact h.lt.1
  have he : EvalsOk W (expected W user) rt := fun i hi b xs hb hx hd => hev i ((hm i).1 hi) b xs hb hx hd
  obtain ⟨s, h5⟩ := continueRun_total hw hl he hlt s1 hg1
  have hinv := continueRun_inv (P := fun s => Good W (expected W user) s ∧
      ∀ k v, (inputs W)[k]? = some v → s.actVar v = true)
    (fun s s' hs ha => ⟨(hs.1.activateInputs hw ha).1, fun k v hk => (activateInputs_frame ha).var v (hs.2 k v hk)⟩)
    (fun s s' i r _ hs hb => ⟨Good.blockEvaluation hw hs.1 hb, fun k v hk => by
      obtain ⟨s1, -, hf, ⟨-, rfl, -⟩ | ⟨-, -, ys, -, hstep⟩⟩ := blockEvaluation_ok hb
      · exact hf.var v (hs.2 k v hk)
      · exact hstep.var v (hf.var v (hs.2 k v hk))⟩) _ _ _
    ⟨hg1, fun k v hk => hact k v hk (.inr rfl)⟩ h5
  have hone : progress rt s = 1 := by
    rw [progress_one (runtimeBlocks_ne h4)]
    intro i hi
    obtain ⟨b, hb⟩ : ∃ b, W.blocks[i]? = some b := ⟨W.blocks[i]'(hlt i hi), by simp [hlt i hi]⟩
    exact hinv.1.1.complete hw (fun k v hk _ => hinv.1.2 k v hk)
      (fun i hi j hj => (hm j).2 (.feeds ((hm i).1 hi) hj)) hinv.2 hi hb (hden i ((hm i).1 hi) b hb)
  refine ⟨s, ?_⟩
  unfold run
  simp only [h1, bind, Except.bind]
  rw [show startRun W vals = .ok s0 from h2]
  simp only [h3, h4, h5, toWorkflowRun, hone, if_true]

/-- A run of a well formed workflow with a value for each of its inputs, and blocks which do not raise, succeeds. -/
theorem C27_completes {W : Workflow α} (hw : WellFormed W) (hl : LocksOk W) {o : Nat} (ho : OutputOf W o)
    (ht : Total W) (so : SetOrder) (user : List (Nat × α)) (hu : ∀ kx ∈ user, kx.1 < (inputs W).length)
    (hV : ∀ k, k < (inputs W).length → (expected W user k).isSome) : ∃ s, run W so user = .ok (some s) := by
  refine run_completes hw hl ho so user hu hV (fun i _ b xs hb hx _ => ?_) (fun i _ b hb v hv => ?_)
  · obtain ⟨ys, h, -⟩ := ht b (List.mem_of_getElem? hb) xs hx
    exact ⟨ys, h⟩
  · exact den_total hw ht hV v (mem_allVariables.2 (.inl (mem_blockVars.2 ⟨b, List.mem_of_getElem? hb, .inl hv⟩)))

theorem exW_total : Total exW := by
  intro b hb xs hx
  simp only [exW, List.mem_cons, List.not_mem_nil, or_false] at hb
  rcases hb with rfl | rfl | rfl
  · match xs, hx with
    | [a], _ => exact ⟨[2 * a], rfl, rfl⟩
  · match xs, hx with
    | [a, b], _ => exact ⟨[a + b], rfl, rfl⟩
  · match xs, hx with
    | [a, b], _ => exact ⟨[a + b], rfl, rfl⟩

theorem exW_output : OutputOf exW 0 := ⟨_, 4, rfl, rfl, by simp⟩

/-- The hypotheses are met, and the run of the example evaluates its block number 1 then its block number 0. -/
example : ∃ s, run exW dedupOrder [(1, 1), (2, 5)] = .ok (some s) :=
  C27_completes exW_wf exW_locks exW_output exW_total _ _ (by decide) (by decide)

example : (match run exW dedupOrder [(1, 1), (2, 5)] with
    | .ok (some s) => (s.evaluated, s.outputValue)
    | _ => ([], none)) = ([1, 0], some 24) := by decide +kernel

example : Feeds exW 1 0 ∧ ¬ Leads exW 2 := by
  refine ⟨⟨_, _, ⟨2, 3, false⟩, rfl, rfl, by simp [exW], by simp, by simp⟩, fun h => ?_⟩
  cases h with
  | output h =>
    obtain ⟨b, o, hb, ho, hm⟩ := h
    simp [exW] at hb ho
    subst hb ho
    simp at hm
  | feeds _ h =>
    obtain ⟨b, c, p, hb, hc, hp, h1, h2⟩ := h
    simp [exW] at hc
    subst hc
    simp [exW] at hp h2
    rcases hp with rfl | rfl | rfl <;> simp at h2

/-! ### C75: a value can go from a block to an other through a free variable -/

/-- A free variable between two blocks hides the first from the second: all the inputs are given, no block raises, and the
run fails, because the first block is not a runtime block. -/
theorem C75_violated : ∃ (W : Workflow Int) (user : List (Nat × Int)), Total W ∧ (blockVars W).Nodup ∧
    (W.pipes.map (·.output)).Nodup ∧ (∀ k, k < (inputs W).length → (expected W user k).isSome) ∧ OutputOf W 1 ∧
    (∃ v w, v ∈ (W.blocks[0]?.map (·.outputs)).getD [] ∧ w ∈ (W.blocks[1]?.map (·.inputs)).getD [] ∧ Flow W v w) ∧
    run W dedupOrder user = .error .valueError := by
  refine ⟨exN, [(0, 1)], ?_, by decide, by decide, by decide, ⟨_, 3, rfl, rfl, by simp⟩, ⟨1, 2, by decide, by decide, ?_⟩, ?_⟩
  · intro b hb xs hx
    simp only [exN, List.mem_cons, List.not_mem_nil, or_false] at hb
    rcases hb with rfl | rfl
    · match xs, hx with
      | [a], _ => exact ⟨[2 * a], rfl, rfl⟩
    · match xs, hx with
      | [a], _ => exact ⟨[2 * a], rfl, rfl⟩
  · exact .head (b := 10) ⟨⟨1, 10, false⟩, by simp [exN], rfl, rfl⟩ (.single ⟨⟨10, 2, false⟩, by simp [exN], rfl, rfl⟩)
  · have : (match run exN dedupOrder [(0, 1)] with
      | .error e => some e
      | _ => none) = some .valueError := by decide +kernel
    cases h : run exN dedupOrder [(0, 1)] with
    | error e => rw [h] at this; simp only [Option.some.injEq] at this; rw [this]
    | ok r => rw [h] at this; simp at this

/-! ### C28: the result does not depend on the schedule -/

theorem Reached.good {W : Workflow α} (hw : WellFormed W) {V : Nat → Option α} {s : St α} (h : Reached W V s) :
    Good W V s := by
  induction h with
  | @start vals s hv h =>
    refine ((Inv.init (V := V) (vals := vals) (fun k v x hk hx => hv k v x hk ?_)).activateInputs hw h).1
    cases he : vals k with
    | some y => rw [he] at hx; left; exact hx
    | none => rw [he] at hx; exact .inr ⟨rfl, hx⟩
  | give _ hk hx h ih => exact (ih.activateInput hw hk hx h).1
  | activate _ h ih => exact (ih.activateInputs hw h).1
  | block _ h ih => exact Good.blockEvaluation hw ih h
  | next _ h ih => exact Good.evaluateNext hw ih h
  | branch _ h ih => exact Good.evaluateBranch hw ih h
  | «continue» _ h ih => exact Good.continueRun hw ih h

/-- In every state reached, a pipe holds nothing or the value its source must hold, and the output likewise. -/
theorem C28_values {W : Workflow α} (hw : WellFormed W) {V : Nat → Option α} {s : St α} (h : Reached W V s) :
    (∀ j p x, W.pipes[j]? = some p → s.values j = some x → Den W V p.input x) ∧
    (∀ x, s.outputValue = some x → ∃ o, W.output = some o ∧ Den W V o x) :=
  ⟨(h.good hw).val, (h.good hw).out⟩

/-- Two states reached with the same inputs, in whatever way, do not hold different values. -/
theorem C28_agree {W : Workflow α} (hw : WellFormed W) {V : Nat → Option α} {s t : St α} (hs : Reached W V s)
    (ht : Reached W V t) : (∀ j x y, j < W.pipes.length → s.values j = some x → t.values j = some y → x = y) ∧
      (∀ x y, s.outputValue = some x → t.outputValue = some y → x = y) := by
  refine ⟨fun j x y hj hx hy => ?_, fun x y hx hy => ?_⟩
  · have hp : W.pipes[j]? = some W.pipes[j] := by simp [hj]
    exact ((hs.good hw).val j _ x hp hx).unique hw ((ht.good hw).val j _ y hp hy)
  · obtain ⟨o, h1, h2⟩ := (hs.good hw).out x hx
    obtain ⟨o', h3, h4⟩ := (ht.good hw).out y hy
    rw [h1] at h3
    cases h3
    exact h2.unique hw h4

theorem run_reached {W : Workflow α} {so : SetOrder} {user : List (Nat × α)} {s : St α}
    (h : run W so user = .ok (some s)) : Reached W (expected W user) s := by
  obtain ⟨vals, s0, s1, rt, h1, h2, h3, h4, s', h5, h6, h7⟩ := run_ok h
  cases h7
  refine .continue (.activate (.start (fun k v x hk hx => ?_) h2) h3) h5
  rw [inputValues_spec h1 k v hk] at hx
  apply expected_default hk
  rcases hx with hx | ⟨hx, hd⟩
  · rw [hx]; rfl
  · rw [hx, hd]; rfl

/-- Every state reached in which all the runtime blocks were evaluated holds the result of the run. -/
theorem complete_output {W : Workflow α} (hw : WellFormed W) {V : Nat → Option α} {o : Nat} (ho : OutputOf W o) {s t : St α}
    (hs : Good W V s) (ht : Good W V t) (hao : s.actBlock o = true) (hat : t.actBlock o = true) :
    s.outputValue = t.outputValue := by
  obtain ⟨b, v, hb, hv, hvb⟩ := ho
  obtain ⟨b1, xs, ys, h1, h2, h3, h4, -, h6⟩ := hs.blk o hao
  obtain ⟨b2, xs', ys', h1', h2', h3', h4', -, h6'⟩ := ht.blk o hat
  rw [hb] at h1 h1'
  cases h1
  cases h1'
  have hx : xs = xs' := by
    apply List.ext_getElem (by omega)
    intro n g1 g2
    have hn : n < b.inputs.length := by omega
    refine (h3 (b.inputs[n], xs[n]) ?_).unique hw (h3' (b.inputs[n], xs'[n]) ?_)
    · exact List.mem_of_getElem? (List.getElem?_zip_eq_some.2 ⟨by simp [hn], by simp⟩ : _ = some _) (i := n)
    · exact List.mem_of_getElem? (List.getElem?_zip_eq_some.2 ⟨by simp [hn], by simp⟩ : _ = some _) (i := n)
  subst hx
  rw [h4] at h4'
  cases h4'
  have hact : ∀ {s : St α}, Good W V s → s.actVar v = true → ∃ x, Den W V v x ∧ s.outputValue = some x := by
    intro s hs ha
    obtain ⟨x, h1, -, -, h2⟩ := hs.var v ha
    exact ⟨x, h1, h2 v hv .refl⟩
  have hnone : ∀ {s : St α}, Good W V s → s.outputValue ≠ none → ∃ y, Den W V v y ∧ s.outputValue = some y := by
    intro s hs hne
    obtain ⟨y, hy⟩ := Option.ne_none_iff_exists'.1 hne
    obtain ⟨o', ho', hd⟩ := hs.out y hy
    rw [hv] at ho'
    cases ho'
    exact ⟨y, hd, hy⟩
  obtain ⟨n, hn⟩ := List.getElem?_of_mem hvb
  by_cases hlen : n < ys.length
  · have hz : (v, ys[n]) ∈ b.outputs.zip ys :=
      List.mem_of_getElem? (List.getElem?_zip_eq_some.2 ⟨hn, by simp⟩ : _ = some _) (i := n)
    obtain ⟨x, hx, e1⟩ := hact hs (h6 _ hz)
    obtain ⟨y, hy, e2⟩ := hact ht (h6' _ hz)
    rw [e1, e2, hx.unique hw hy]
  · have hno : ∀ x, ¬ Den W V v x := by
      intro x hd
      cases hd with
      | input hk _ => exact (mem_inputs.1 (List.mem_of_getElem? hk)).2.1 b (List.mem_of_getElem? hb) hvb
      | pipe hp _ =>
        obtain ⟨c, hc, hin⟩ := hw.target _ hp
        exact in_ne_out hw.distinct hc (List.mem_of_getElem? hb) hin hvb
      | @block c xs' ys' _ _ hc hl' hxs' he' hm' =>
        obtain ⟨j, hj⟩ := List.getElem?_of_mem hc
        have e := out_unique hw.distinct hb hj hvb (List.of_mem_zip hm').1
        subst e
        rw [hb] at hj
        cases hj
        have hx : xs = xs' := by
          apply List.ext_getElem (by omega)
          intro m g1 g2
          have hn : m < b.inputs.length := by omega
          refine (h3 (b.inputs[m], xs[m]) ?_).unique hw (hxs' (b.inputs[m], xs'[m]) ?_)
          · exact List.mem_of_getElem? (List.getElem?_zip_eq_some.2 ⟨by simp [hn], by simp⟩ : _ = some _) (i := m)
          · exact List.mem_of_getElem? (List.getElem?_zip_eq_some.2 ⟨by simp [hn], by simp⟩ : _ = some _) (i := m)
        subst hx
        rw [h4] at he'
        cases he'
        obtain ⟨m, hm⟩ := List.getElem?_of_mem hm'
        rw [List.getElem?_zip_eq_some] at hm
        have hnd := (List.nodup_append.1 (nodup_block hw.distinct hc)).2.1
        have e1 := idxOf_of_nodup hnd hn
        rw [idxOf_of_nodup hnd hm.1] at e1
        subst e1
        exact hlen (List.getElem?_eq_some_iff.1 hm.2).1
    have e1 : s.outputValue = none := by
      by_contra hc
      obtain ⟨y, hd, -⟩ := hnone hs hc
      exact hno y hd
    have e2 : t.outputValue = none := by
      by_contra hc
      obtain ⟨y, hd, -⟩ := hnone ht hc
      exact hno y hd
    rw [e1, e2]

/-- If a run succeeds for one order of the sets of blocks, it does so for every order, with the same result and the same
evaluated blocks; and any other way of evaluating all these blocks with the same inputs ends with this result. -/
theorem C28_run {W : Workflow α} (hw : WellFormed W) (hl : LocksOk W) {o : Nat} (ho : OutputOf W o) {so so' : SetOrder}
    {user : List (Nat × α)} {s : St α} (h : run W so user = .ok (some s)) :
    (∃ t, run W so' user = .ok (some t) ∧ t.outputValue = s.outputValue ∧ ∀ i, i ∈ t.evaluated ↔ i ∈ s.evaluated) ∧
    ∀ t, Reached W (expected W user) t → (∀ i, Leads W i → t.actBlock i = true) → t.outputValue = s.outputValue := by
  have hg := (run_reached h).good hw
  obtain ⟨-, hm⟩ := C27_needed hw hl ho h
  have hact : ∀ {so : SetOrder} {s : St α}, run W so user = .ok (some s) → ∀ i, Leads W i → s.actBlock i = true := by
    intro so s h i hi
    obtain ⟨vals, s0, s1, rt, h1, h2, h3, h4, s', h5, h6, h7⟩ := run_ok h
    cases h7
    obtain ⟨rt', hrt', -, hm'⟩ := runtimeBlocks_spec hw hl so ho
    rw [h4] at hrt'
    cases hrt'
    exact (progress_one (runtimeBlocks_ne h4)).1 h6 i ((hm' i).2 hi)
  obtain ⟨vals, s0, s1, rt, h1, h2, h3, h4, s', h5, h6, h7⟩ := run_ok h
  cases h7
  have hu : ∀ kx ∈ user, kx.1 < (inputs W).length := by
    unfold inputValues at h1
    rw [bind_ok] at h1
    obtain ⟨a, ha, -⟩ := h1
    clear * - ha
    induction user generalizing a with
    | nil => simp
    | cons kx user ih =>
      obtain ⟨k, x⟩ := kx
      rw [allowedValues] at ha
      split at ha
      · simp at ha
      · rename_i v hv
        rw [bind_ok] at ha
        obtain ⟨l, -, ha⟩ := ha
        rw [bind_ok] at ha
        obtain ⟨r, hr, -⟩ := ha
        intro y hy
        rcases List.mem_cons.1 hy with rfl | hy
        · exact (List.getElem?_eq_some_iff.1 hv).1
        · exact ih r hr y hy
  have hV : ∀ k, k < (inputs W).length → (expected W user k).isSome := by
    intro k hk
    obtain ⟨v, hv⟩ : ∃ v, (inputs W)[k]? = some v := ⟨(inputs W)[k], by simp [hk]⟩
    obtain ⟨hg1, ha1⟩ := (startRun_good hw h1 h2).activateInputs hw h3
    obtain ⟨x, hx⟩ := hg1.fedIn k v hv (ha1 k v hv (.inr rfl))
    rw [hg1.iv k v x hv (by rw [hx]; rfl)]
    rfl
  have hblk : ∀ i, Leads W i → _ := fun i hi => hg.blk i (hact h i hi)
  obtain ⟨t, ht⟩ := run_completes hw hl ho so' user hu hV
    (fun i hi b xs hb hx hd => by
      obtain ⟨b', xs', ys, e1, e2, e3, e4, -, -⟩ := hblk i hi
      rw [hb] at e1
      cases e1
      have hxx : xs = xs' := by
        apply List.ext_getElem (by omega)
        intro n g1 g2
        have hn : n < b.inputs.length := by omega
        refine (hd (b.inputs[n], xs[n]) ?_).unique hw (e3 (b.inputs[n], xs'[n]) ?_)
        · exact List.mem_of_getElem? (List.getElem?_zip_eq_some.2 ⟨by simp [hn], by simp⟩ : _ = some _) (i := n)
        · exact List.mem_of_getElem? (List.getElem?_zip_eq_some.2 ⟨by simp [hn], by simp⟩ : _ = some _) (i := n)
      rw [hxx]
      exact ⟨ys, e4⟩)
    (fun i hi b hb v hv => by
      obtain ⟨b', xs', ys, e1, e2, e3, e4, e5, -⟩ := hblk i hi
      rw [hb] at e1
      cases e1
      obtain ⟨x, hx, -⟩ := hg.var v (e5 v hv)
      exact ⟨x, hx⟩)
  refine ⟨⟨t, ht, ?_, fun i => ?_⟩, fun t ht hat => ?_⟩
  · exact complete_output hw ho ((run_reached ht).good hw) hg (hact ht o (.output ho)) (hact h o (.output ho))
  · rw [(C27_needed hw hl ho ht).2 i, hm i]
  · exact complete_output hw ho (ht.good hw) hg (hat o (.output ho)) (hact h o (.output ho))

/-- The example, with two orders, and block by block: 2 * (7 + 5). -/
example : (match run exW reverseOrder [(1, 1), (2, 5)] with
    | .ok (some s) => (s.evaluated, s.outputValue)
    | _ => ([], none)) = ([1, 0], some 24) := by decide +kernel

example : ∃ s : St Int, Reached exW (expected exW [(1, 1), (2, 5)]) s ∧ s.outputValue = some 24 := by
  obtain ⟨s, hs⟩ := C27_completes exW_wf exW_locks exW_output exW_total dedupOrder [(1, 1), (2, 5)] (by decide) (by decide)
  refine ⟨s, run_reached hs, ?_⟩
  have : (match run exW dedupOrder [(1, 1), (2, 5)] with
    | .ok (some s) => s.outputValue
    | _ => none) = some 24 := by decide +kernel
  rw [hs] at this
  exact this

/-! ### C29: running always terminates -/

/-- Whatever the state, `continue_run` makes at most one turn more than there are blocks: allowing more turns changes
nothing, and the bound is not what stops it. -/
theorem C29_ends (W : Workflow α) (rt : List Nat) (s : St α) (n : Nat) (hn : W.blocks.length + 1 ≤ n) :
    continueRun W rt n s ≠ .ok none ∧ continueRun W rt n s = continueRun W rt (W.blocks.length + 1) s := by
  unfold continueRun
  cases h : activateInputs W false s with
  | error e => simp [bind, Except.bind]
  | ok s1 =>
    simp only [bind, Except.bind]
    have := continueLoop_ends (W := W) (rt := rt) (W.blocks.length + 1) s1 (by have := left_le W s1; omega) n hn
    exact ⟨by rw [this.2]; exact this.1, this.2⟩

/-- The run itself never ends because of the bound. -/
theorem C29_run (W : Workflow α) (so : SetOrder) (user : List (Nat × α)) : run W so user ≠ .ok none := by
  intro h
  obtain ⟨_, _, _, _, -, -, -, -, _, -, -, h7⟩ := run_ok h
  simp at h7

/-- The propagation of a value: if the recursion of the code ends at some depth, it ends within the depth allowed by the
model, with the same result. -/
theorem C29_fuel {W : Workflow α} {x : α} {n : Nat} {s : St α} {v : Nat} {s' : St α}
    (h : activateVar W n s v x = .ok s') : activateVar W (fuelOf W) s v x = .ok s' := activateVar_enough h

/-- Without cycle of pipes the propagation of a value ends. -/
theorem C29_acyclic {W : Workflow α} (rank : Nat → Nat) (hr : ∀ p ∈ W.pipes, rank p.input < rank p.output)
    (s : St α) (v : Nat) (x : α) : ∃ s', activateVar W (fuelOf W) s v x = .ok s' := activateVar_total hr s v x

/-- With a cycle of pipes it does not: RecursionError. -/
example : (match activateVar (α := Int) { exN with pipes := [⟨1, 10, false⟩, ⟨10, 1, false⟩] } 1000
    { inputValues := fun _ => none } 1 5 with
    | .error e => some e
    | .ok _ => none) = some .recursionError := by
  decide +kernel

/-! ### C30: a run never goes on with a missing input -/

theorem noteInput_other {W : Workflow α} (hw : WellFormed W) {s : St α} {k v m : Nat} {x : α}
    (hk : (inputs W)[k]? = some v) (hm : m ≠ k) : (noteInput W s v x).inputValues m = s.inputValues m := by
  unfold noteInput
  rw [inputIndex_input hw.distinct hk (hw.input_free (List.mem_of_getElem? hk))]
  simp [upd, hm]

theorem activateOne_other {W : Workflow α} (hw : WellFormed W) {c : Bool} {s s' : St α} {k v m : Nat}
    (hk : (inputs W)[k]? = some v) (hm : m ≠ k) (h : activateOne W c s k v = .ok s') :
    s'.inputValues m = s.inputValues m := by
  unfold activateOne at h
  split at h
  · rw [(activateInput_pushed h).inp, noteInput_other hw hk hm]
  · split at h
    · rw [(activateInput_pushed h).inp, noteInput_other hw hk hm]
    · split at h
      · simp at h
      · split at h
        · simp at h
        · simp only [Except.ok.injEq] at h
          rw [h]

theorem activateInputsLoop_missing {W : Workflow α} (hw : WellFormed W) {c : Bool} {m v : Nat}
    (hm : (inputs W)[m]? = some v) (hd : W.default v = none) (l : List Nat) (k : Nat)
    (hl : inputs W = (inputs W).take k ++ l) (hk : k ≤ (inputs W).length) (s s' : St α) (hs : s.inputValues m = none)
    (h : activateInputsLoop W c k l s = .ok s') : s'.inputValues m = none ∧ (c = true → m < k) := by
  induction l generalizing k s with
  | nil =>
    simp only [activateInputsLoop, Except.ok.injEq] at h
    subst h
    have := congrArg List.length hl
    simp only [List.append_nil, List.length_take] at this
    have := (List.getElem?_eq_some_iff.1 hm).1
    exact ⟨hs, fun _ => by omega⟩
  | cons u l ih =>
    rw [activateInputsLoop, bind_ok] at h
    obtain ⟨s1, h1, h2⟩ := h
    have hlen : ((inputs W).take k).length = k := by simp [hk]
    have hku : (inputs W)[k]? = some u := by
      rw [hl, List.getElem?_append_right (by omega), hlen]
      simp
    have hk1 : k < (inputs W).length := (List.getElem?_eq_some_iff.1 hku).1
    have hl' : inputs W = (inputs W).take (k + 1) ++ l := by
      rw [List.take_add_one, hku]
      simp only [Option.toList_some, List.append_assoc, List.singleton_append]
      exact hl
    by_cases hmk : m = k
    · subst hmk
      rw [hm] at hku
      cases hku
      unfold activateOne at h1
      rw [hs, hd] at h1
      simp only at h1
      split at h1
      · simp at h1
      · cases c with
        | true => simp at h1
        | false =>
          simp only [Bool.false_eq_true, if_false, Except.ok.injEq] at h1
          subst h1
          exact ⟨(ih (m + 1) hl' (by omega) s hs h2).1, by simp⟩
    · have hs1 : s1.inputValues m = none := by rw [activateOne_other hw hku hmk h1]; exact hs
      obtain ⟨i1, i2⟩ := ih (k + 1) hl' (by omega) s1 hs1 h2
      exact ⟨i1, fun hc => by have := i2 hc; omega⟩

/-- When an input receives no value and has no default value, the run raises: the check made before any evaluation of a
block fails.  (The error is raised by the check, or by what comes before it.) -/
theorem C30_missing {W : Workflow α} (hw : WellFormed W) (so : SetOrder) (user : List (Nat × α)) {k v : Nat}
    (hk : (inputs W)[k]? = some v) (hu : user.lookup k = none) (hd : W.default v = none) :
    (∃ e, run W so user = .error e) ∧
    ∀ vals s, inputValues W user = .ok vals → startRun W vals = .ok s → ∃ e, activateInputs W true s = .error e := by
  have key : ∀ vals s, inputValues W user = .ok vals → startRun W vals = .ok s →
      ∃ e, activateInputs W true s = .error e := by
    intro vals s h1 h2
    have hv : vals k = none := by
      rw [inputValues_spec h1 k v hk]
      unfold expected
      rw [hk]
      simp [hu, hd]
    have hs := (activateInputsLoop_missing hw hk hd _ 0 (by simp) (by omega) _ _ hv h2).1
    cases h3 : activateInputs W true s with
    | error e => exact ⟨e, rfl⟩
    | ok s1 =>
      have := (activateInputsLoop_missing hw hk hd _ 0 (by simp) (by omega) _ _ hs h3).2 rfl
      omega
  refine ⟨?_, key⟩
  cases h : run W so user with
  | error e => exact ⟨e, rfl⟩
  | ok r =>
    obtain ⟨vals, s0, s1, rt, h1, h2, h3, -⟩ := run_ok h
    obtain ⟨e, he⟩ := key vals s0 h1 h2
    rw [h3] at he
    simp at he

/-- A state is turned into a result only when all the runtime blocks were evaluated. -/
theorem C30_result {W : Workflow α} {so : SetOrder} {rt : List Nat} (h : runtimeBlocks W so = .ok rt) (s : St α) :
    (∃ r, toWorkflowRun rt s = .ok r) ↔ ∀ i ∈ rt, s.actBlock i = true := by
  rw [← progress_one (runtimeBlocks_ne h)]
  unfold toWorkflowRun
  split <;> simp_all

example : ∃ e, run exW dedupOrder [(2, 5)] = .error e :=
  (C30_missing exW_wf dedupOrder [(2, 5)] (k := 1) (v := 6) rfl rfl rfl).1

/-! ### C31: a locked input keeps its default value -/

/-- In a run each input has its default value if it is locked, else the value of the user, else its default value. -/
theorem C31_run {W : Workflow α} (hw : WellFormed W) {so : SetOrder} {user : List (Nat × α)} {s : St α}
    (h : run W so user = .ok (some s)) (k v : Nat) (hk : (inputs W)[k]? = some v) :
    ∃ x, s.inputValues k = some x ∧ (W.lockFlag v = true → W.default v = some x) ∧
      (W.lockFlag v = false → ∀ y, user.lookup k = some y → x = y) ∧
      (user.lookup k = none → W.default v = some x) := by
  obtain ⟨vals, s0, s1, rt, h1, h2, h3, h4, s', h5, h6, h7⟩ := run_ok h
  cases h7
  obtain ⟨hg1, ha1⟩ := (startRun_good hw h1 h2).activateInputs hw h3
  have hinv := (continueRun_inv (P := fun s => Good W (expected W user) s ∧ s.actVar v = true)
    (fun s s' hs ha => ⟨(hs.1.activateInputs hw ha).1, (activateInputs_frame ha).var v hs.2⟩)
    (fun s s' i r _ hs hb => ⟨Good.blockEvaluation hw hs.1 hb, by
      obtain ⟨s1, -, hf, ⟨-, rfl, -⟩ | ⟨-, -, ys, -, hstep⟩⟩ := blockEvaluation_ok hb
      · exact hf.var v hs.2
      · exact hstep.var v (hf.var v hs.2)⟩) _ _ _ ⟨hg1, ha1 k v hk (.inr rfl)⟩ h5).1
  obtain ⟨x, hx⟩ := hinv.1.fedIn k v hk hinv.2
  have he := hinv.1.iv k v x hk (by rw [hx]; rfl)
  refine ⟨x, hx, ?_⟩
  unfold expected at he
  rw [hk] at he
  simp only at he
  refine ⟨fun hl => by rw [if_pos hl] at he; exact he, fun hl y hy => ?_, fun hu => ?_⟩
  · rw [hl, hy] at he
    simpa using he.symm
  · rw [hu] at he
    simpa using he

/-- A state made from a workflow does not honour the locks: `start_run` runs a locked input with the value given. -/
theorem C31_state_violated : ∃ (W : Workflow Int) (vals : Nat → Option Int) (s : St Int) (k v : Nat), WellFormed W ∧
    LocksOk W ∧ (inputs W)[k]? = some v ∧ W.lockFlag v = true ∧ startRun W vals = .ok s ∧
    s.inputValues k ≠ W.default v := by
  obtain ⟨s, hs⟩ := activateInputs_total (W := exL) ⟨exW_wf.1, exW_wf.2, exW_wf.3, exW_wf.4, exW_wf.5⟩
    (fun v h => by simp [exL] at h; subst h; rfl) ({ inputValues := fun _ => some 3 } : St Int)
  refine ⟨exL, fun _ => some 3, s, 0, 0, ⟨exW_wf.1, exW_wf.2, exW_wf.3, exW_wf.4, exW_wf.5⟩,
    fun v h => by simp [exL] at h; subst h; rfl, by decide, rfl, hs, ?_⟩
  have : (match activateInputs exL false ({ inputValues := fun _ => some 3 } : St Int) with
    | .ok s => s.inputValues 0
    | .error _ => none) = some 3 := by decide
  rw [hs] at this
  simp only at this
  rw [this]
  decide

example : (match run exL dedupOrder [(0, 100), (1, 1), (2, 5)] with
    | .ok (some s) => s.outputValue
    | _ => none) = some 24 := by decide +kernel

/-! ### C32: progress -/

/-- Progress is between zero and one, whatever the state. -/
theorem C32_bounds (rt : List Nat) (s : St α) : 0 ≤ progress rt s ∧ progress rt s ≤ 1 := by
  unfold progress
  have h : ((rt.filter s.actBlock).length : Rat) ≤ (rt.length : Rat) := by
    exact_mod_cast List.length_filter_le _ _
  have hn : ∀ n : Nat, (0 : Rat) ≤ (n : Rat) := fun n => by exact_mod_cast Nat.zero_le n
  exact ⟨div_nonneg (hn _) (hn _), div_le_one_of_le₀ h (hn _)⟩

/-- Progress is one exactly when all the runtime blocks were evaluated. -/
theorem C32_complete {W : Workflow α} {so : SetOrder} {rt : List Nat} (h : runtimeBlocks W so = .ok rt) (s : St α) :
    progress rt s = 1 ↔ ∀ i ∈ rt, s.actBlock i = true := progress_one (runtimeBlocks_ne h)

theorem progress_keeps {rt : List Nat} {s s' : St α} (h : Keeps s s') : progress rt s ≤ progress rt s' := by
  unfold progress
  have : ((rt.filter s.actBlock).length : Rat) ≤ ((rt.filter s'.actBlock).length : Rat) := by
    exact_mod_cast filter_length_mono (fun i _ hi => h i hi)
  exact div_le_div_of_nonneg_right this (by positivity)

theorem Frame.keeps {s s' : St α} (h : Frame s s') : Keeps s s' := fun j hj => by rw [h.blk]; exact hj

theorem continueLoop_keeps {W : Workflow α} {rt : List Nat} (n : Nat) (s s' : St α)
    (h : continueLoop W rt n s = .ok (some s')) : Keeps s s' := by
  induction n generalizing s with
  | zero => simp [continueLoop] at h
  | succ n ih =>
    rw [continueLoop] at h
    split at h
    · simp only [Except.ok.injEq, Option.some.injEq] at h
      subst h; exact fun _ h => h
    · rw [bind_ok] at h
      obtain ⟨s1, h1, h2⟩ := h
      exact fun j hj => ih s1 h2 j (evalAll_keeps _ _ _ h1 j hj)

theorem branchStep_keeps {W : Workflow α} (l : List Nat) (s s' : St α) (h : branchStep W l s = .ok s') : Keeps s s' := by
  induction l generalizing s with
  | nil =>
    simp only [branchStep, Except.ok.injEq] at h
    subst h; exact fun _ h => h
  | cons i l ih =>
    rw [branchStep, bind_ok] at h
    obtain ⟨⟨s1, ys⟩, h1, h2⟩ := h
    exact fun j hj => ih s1 h2 j (((evaluateBlock_step h1).blk j).2 (.inl hj))

theorem branchLoop_keeps {W : Workflow α} {rt bs : List Nat} (n : Nat) (d d' : List Nat) (s s' : St α)
    (h : branchLoop W rt bs n d s = .ok (s', d')) : Keeps s s' := by
  induction n generalizing d s with
  | zero =>
    simp only [branchLoop, Except.ok.injEq, Prod.mk.injEq] at h
    rw [← h.1]; exact fun _ h => h
  | succ n ih =>
    rw [branchLoop] at h
    split at h
    · simp only [Except.ok.injEq, Prod.mk.injEq] at h
      rw [← h.1]; exact fun _ h => h
    · rw [bind_ok] at h
      obtain ⟨s1, h1, h2⟩ := h
      exact fun j hj => ih _ s1 h2 j (branchStep_keeps _ _ _ h1 j hj)

/-- No operation makes the progress go down. -/
theorem C32_monotone {W : Workflow α} {rt : List Nat} {s s' : St α}
    (h : (∃ check, activateInputs W check s = .ok s') ∨ (∃ v x, activateInput W s v x = .ok s') ∨
      (∃ i r, blockEvaluation W rt s i = .ok (s', r)) ∨ (∃ r, evaluateNext W rt s = .ok (s', r)) ∨
      (∃ n, continueRun W rt n s = .ok (some s')) ∨ ∃ bs r, evaluateBranch W rt bs s = .ok (s', r)) :
    progress rt s ≤ progress rt s' := by
  apply progress_keeps
  rcases h with ⟨c, h⟩ | ⟨v, x, h⟩ | ⟨i, r, h⟩ | ⟨r, h⟩ | ⟨n, h⟩ | ⟨bs, r, h⟩
  · exact (activateInputs_frame h).keeps
  · exact (activateInput_frame h).keeps
  · exact blockEvaluation_keeps h
  · unfold evaluateNext at h
    rw [bind_ok] at h
    obtain ⟨s1, h1, h⟩ := h
    split at h
    · simp only [Except.ok.injEq, Prod.mk.injEq] at h
      rw [← h.1]; exact (activateInputs_frame h1).keeps
    · rw [bind_ok] at h
      obtain ⟨⟨s2, q⟩, h2, h⟩ := h
      simp only [Except.ok.injEq, Prod.mk.injEq] at h
      rw [← h.1]
      exact fun j hj => blockEvaluation_keeps h2 j ((activateInputs_frame h1).keeps j hj)
  · unfold continueRun at h
    rw [bind_ok] at h
    obtain ⟨s1, h1, h⟩ := h
    exact fun j hj => continueLoop_keeps _ _ _ h j ((activateInputs_frame h1).keeps j hj)
  · unfold evaluateBranch at h
    rw [bind_ok] at h
    obtain ⟨s1, h1, h⟩ := h
    split at h
    · exact fun j hj => branchLoop_keeps _ _ _ _ _ h j ((activateInputs_frame h1).keeps j hj)
    · simp at h

/-- An evaluated runtime block makes it go up. -/
theorem C32_increases {W : Workflow α} {rt : List Nat} {s s' : St α} {i : Nat} (hi : i ∈ rt)
    (h : blockEvaluation W rt s i = .ok (s', true)) : progress rt s < progress rt s' := by
  obtain ⟨s1, -, hf, ⟨h0, -, -⟩ | ⟨-, ha, ys, -, hs⟩⟩ := blockEvaluation_ok h
  · simp at h0
  · have hn := activable_new ha hi
    rw [hf.blk] at hn
    unfold progress
    have hpos : (0 : Rat) < (rt.length : Rat) := by exact_mod_cast List.length_pos_of_mem hi
    apply div_lt_div_of_pos_right _ hpos
    exact_mod_cast filter_length_lt (fun j _ hj => (hs.blk j).2 (.inl (by rw [hf.blk]; exact hj))) hi
      ((hs.blk i).2 (.inr rfl)) hn

example : (match runtimeBlocks exW dedupOrder with | .ok rt => rt | .error _ => []) = [0, 1] := by decide

/-! ### C35: variables are addressed consistently -/

theorem findPort_get {v : Nat} (bs : List (Block α)) (k : Nat) (a : Addr) (h : findPort v k bs = some a) :
    ∃ j side n b, a = .port (k + j) side n ∧ bs[j]? = some b ∧ (if side then b.outputs else b.inputs)[n]? = some v := by
  induction bs generalizing k with
  | nil => simp [findPort] at h
  | cons b bs ih =>
    rw [findPort] at h
    have hidx : ∀ {l : List Nat}, v ∈ l → l[l.idxOf v]? = some v := by
      intro l hl
      rw [List.getElem?_eq_getElem (List.idxOf_lt_length_of_mem hl), List.getElem_idxOf]
    split at h
    · rename_i hv
      simp only [Option.some.injEq] at h
      exact ⟨0, false, _, b, by rw [← h]; rfl, rfl, by simpa using hidx hv⟩
    · split at h
      · rename_i hv
        simp only [Option.some.injEq] at h
        exact ⟨0, true, _, b, by rw [← h]; rfl, rfl, by simpa using hidx hv⟩
      · obtain ⟨j, side, n, c, h1, h2, h3⟩ := ih (k + 1) h
        exact ⟨j + 1, side, n, c, by rw [h1]; congr 1; omega, by simpa using h2, h3⟩

/-- Every variable of a well formed workflow has an address, and is found back from it. -/
theorem C35_roundtrip {W : Workflow α} (hw : WellFormed W) {v : Nat} (hv : v ∈ allVariables W) :
    ∃ a, variableIndices W v = .ok a ∧ variableFromIndex W a = .ok v := by
  unfold variableIndices
  cases h : findPort v 0 W.blocks with
  | some a =>
    refine ⟨a, rfl, ?_⟩
    obtain ⟨j, side, n, b, rfl, h2, h3⟩ := findPort_get _ _ _ h
    rw [Nat.zero_add]
    simp only [variableFromIndex, h2, h3]
  | none =>
    have hnb : v ∉ blockVars W := by
      intro hb
      obtain ⟨b, hb, hm⟩ := mem_blockVars.1 hb
      obtain ⟨i, hi⟩ := List.getElem?_of_mem hb
      obtain ⟨j, c, side, n, h1, -⟩ := findPort_some W.blocks 0 b i hi (List.mem_append.2 hm)
      rw [h] at h1
      simp at h1
    have hn : v ∈ nbvs W := by
      rw [(nbvs_spec W).1] at hv
      exact (List.mem_append.1 hv).resolve_left hnb
    have hup : upstreamNbv W v = v := by
      apply upstreamNbv_self
      intro p hp ho
      obtain ⟨b, hb, hin⟩ := hw.target p hp
      exact hnb (mem_blockVars.2 ⟨b, hb, .inl (ho ▸ hin)⟩)
    simp only [hup, hn, if_true]
    refine ⟨_, rfl, ?_⟩
    simp only [variableFromIndex]
    rw [List.getElem?_eq_getElem (List.idxOf_lt_length_of_mem hn), List.getElem_idxOf]

/-- Distinct variables have distinct addresses. -/
theorem C35_injective {W : Workflow α} (hw : WellFormed W) {v w : Nat} (hv : v ∈ allVariables W) (hu : w ∈ allVariables W)
    (h : variableIndices W v = variableIndices W w) : v = w := by
  obtain ⟨a, h1, h2⟩ := C35_roundtrip hw hv
  obtain ⟨b, h3, h4⟩ := C35_roundtrip hw hu
  rw [h1, h3] at h
  cases h
  rw [h2] at h4
  cases h4
  rfl

/-- What has no address is not a variable of the workflow. -/
theorem C35_unknown {W : Workflow α} {v : Nat} (hv : v ∉ allVariables W) : ∃ e, variableIndices W v = .error e := by
  unfold variableIndices
  have hbv : v ∉ blockVars W := fun h => hv (mem_allVariables.2 (.inl h))
  cases h : findPort v 0 W.blocks with
  | some a =>
    obtain ⟨j, side, n, b, -, h2, h3⟩ := findPort_get _ _ _ h
    refine absurd (mem_blockVars.2 ⟨b, List.mem_of_getElem? h2, ?_⟩) hbv
    cases side with
    | true => exact .inr (List.mem_of_getElem? h3)
    | false => exact .inl (List.mem_of_getElem? h3)
  | none =>
    have hup : upstreamNbv W v = v :=
      upstreamNbv_self (fun p hp ho => hv (mem_allVariables.2 (.inr ⟨p, hp, .inr ho.symm⟩)))
    have hn : v ∉ nbvs W := fun h => hv (by rw [(nbvs_spec W).1]; simp [h])
    simp [hup, hn]

/-- When a pipe goes from a free variable to an other, both get the same address. -/
theorem C35_free_violated : ∃ (W : Workflow Int) (v w : Nat), v ≠ w ∧ v ∈ allVariables W ∧ w ∈ allVariables W ∧
    variableIndices W v = .ok (.nbv 0) ∧ variableIndices W w = .ok (.nbv 0) := by
  exact ⟨{ exN with pipes := [⟨10, 11, false⟩, ⟨11, 0, false⟩] }, 10, 11, by decide, by decide, by decide, rfl, rfl⟩

example : (allVariables exW).map (fun v => (variableIndices exW v).toOption) =
    [some (.port 0 false 0), some (.port 0 true 0), some (.port 1 false 0), some (.port 1 false 1), some (.port 1 true 0),
     some (.port 2 false 0), some (.port 2 false 1), some (.port 2 true 0), some (.nbv 0)] := by decide

/-! ### C40: the runtime blocks are those which lead to the output -/

/-- The runtime blocks are the blocks which lead to the output, each once. -/
theorem C40_runtime {W : Workflow α} (hw : WellFormed W) (hl : LocksOk W) (so : SetOrder) {o : Nat}
    (ho : OutputOf W o) : ∃ rt, runtimeBlocks W so = .ok rt ∧ rt.Nodup ∧ ∀ i, i ∈ rt ↔ Leads W i :=
  runtimeBlocks_spec hw hl so ho

/-- Without output, asking for the runtime blocks raises. -/
theorem C40_no_output {W : Workflow α} (so : SetOrder) (h : W.output = none) : runtimeBlocks W so = .error .typeError := by
  unfold runtimeBlocks
  rw [h]
  rfl

example : ∃ rt, runtimeBlocks exW dedupOrder = .ok rt ∧ rt.Nodup ∧ ∀ i, i ∈ rt ↔ Leads exW i :=
  C40_runtime exW_wf exW_locks _ exW_output

/-! ### C42: look-ups of pipes, and inputs of the workflow -/

/-- The incoming pipe found for a variable is a pipe which enters it; there is none only if no pipe enters it; and it is
the only one when a single pipe enters each variable. -/
theorem C42_incoming (W : Workflow α) (v : Nat) :
    (∀ j, inputPipe W v = some j → ∃ p, W.pipes[j]? = some p ∧ p.output = v) ∧
    (inputPipe W v = none ↔ ∀ p ∈ W.pipes, p.output ≠ v) ∧
    ((W.pipes.map (·.output)).Nodup → ∀ j p, W.pipes[j]? = some p → (inputPipe W v = some j ↔ p.output = v)) := by
  refine ⟨fun j h => inputPipe_some h, inputPipe_none, fun hn j p hp => ⟨fun h => ?_, fun h => ?_⟩⟩
  · obtain ⟨q, hq, ho⟩ := inputPipe_some h
    rw [hp] at hq
    cases hq
    exact ho
  · rw [← h]; exact inputPipe_unique hn hp

/-- The outgoing pipes of a variable are all the pipes which leave it, in order. -/
theorem C42_outgoing (W : Workflow α) (v : Nat) :
    (∀ p j, (p, j) ∈ outputPipes W v ↔ W.pipes[j]? = some p ∧ p.input = v) ∧
    ((outputPipes W v).map (·.2)).Pairwise (· < ·) := by
  refine ⟨fun p j => mem_outputPipes, ?_⟩
  unfold outputPipes
  have h : ((W.pipes.zipIdx).map (·.2)).Pairwise (· < ·) := by
    rw [List.zipIdx_map_snd]
    exact List.pairwise_lt_range'
  exact h.sublist (List.filter_sublist.map _)

/-- The pipes of a block: one entry by input, and all the pipes which leave its outputs. -/
theorem C42_block (W : Workflow α) (b : Block α) :
    (blockIncoming W b).length = b.inputs.length ∧
    (∀ (n v : Nat), b.inputs[n]? = some v → (blockIncoming W b)[n]? = some (inputPipe W v)) ∧
    ∀ j, j ∈ blockOutgoing W b ↔ ∃ p, W.pipes[j]? = some p ∧ p.input ∈ b.outputs := by
  refine ⟨by simp [blockIncoming], fun n v h => by simp [blockIncoming, h], fun j => ?_⟩
  unfold blockOutgoing
  simp only [List.mem_flatMap, List.mem_map, Prod.exists, exists_eq_right, mem_outputPipes]
  constructor
  · rintro ⟨o, ho, p, hp, rfl⟩; exact ⟨p, hp, ho⟩
  · rintro ⟨p, hp, ho⟩; exact ⟨_, ho, p, hp, rfl⟩

/-- The pipes between two blocks are those from an output of the first to an input of the second. -/
theorem C42_between (W : Workflow α) (hs : (W.pipes.map (·.output)).Nodup) (b c : Block α) (j : Nat) :
    j ∈ pipesBetween W b c ↔ ∃ p, W.pipes[j]? = some p ∧ p.input ∈ b.outputs ∧ p.output ∈ c.inputs := by
  unfold pipesBetween
  rw [List.mem_filter, (C42_block W b).2.2]
  have : (blockIncoming W c).contains (some j) = true ↔ ∃ v ∈ c.inputs, inputPipe W v = some j := by
    simp [blockIncoming]
  rw [this]
  constructor
  · rintro ⟨⟨p, hp, ho⟩, v, hv, hj⟩
    obtain ⟨q, hq, hqo⟩ := inputPipe_some hj
    rw [hp] at hq
    cases hq
    exact ⟨p, hp, ho, hqo ▸ hv⟩
  · rintro ⟨p, hp, ho, hv⟩
    exact ⟨⟨p, hp, ho⟩, p.output, hv, inputPipe_unique hs hp⟩

/-- The inputs of a well formed workflow, each listed once: the inputs of blocks fed by no pipe, and the free variables. -/
theorem C42_inputs {W : Workflow α} (hw : WellFormed W) : (inputs W).Nodup ∧ ∀ v, v ∈ inputs W ↔
    ((∃ b ∈ W.blocks, v ∈ b.inputs) ∧ (∀ p ∈ W.pipes, p.output ≠ v)) ∨
    ((∀ b ∈ W.blocks, v ∉ b.inputs ∧ v ∉ b.outputs) ∧ ∃ p ∈ W.pipes, p.input = v) := by
  refine ⟨inputs_nodup hw.distinct, fun v => ⟨fun h => ?_, ?_⟩⟩
  · have hf := hw.input_free h
    obtain ⟨h1, h2, -⟩ := mem_inputs.1 h
    by_cases hb : ∃ b ∈ W.blocks, v ∈ b.inputs
    · exact .inl ⟨hb, hf⟩
    · push Not at hb
      refine .inr ⟨fun b hbm => ⟨hb b hbm, h2 b hbm⟩, ?_⟩
      rcases mem_allVariables.1 h1 with h | ⟨p, hp, h | h⟩
      · obtain ⟨b, hbm, h | h⟩ := mem_blockVars.1 h
        · exact absurd h (hb b hbm)
        · exact absurd h (h2 b hbm)
      · exact ⟨p, hp, h.symm⟩
      · exact absurd h.symm (hf p hp)
  · rintro (⟨⟨b, hb, hv⟩, hp⟩ | ⟨hb, p, hp, rfl⟩)
    · exact free_input hw.distinct hb hv hp
    · refine mem_inputs.2 ⟨mem_allVariables.2 (.inr ⟨p, hp, .inl rfl⟩), fun b hbm => (hb b hbm).2, fun q hq ho => ?_⟩
      obtain ⟨b, hbm, hin⟩ := hw.target q hq
      exact absurd (ho ▸ hin) (hb b hbm).1

example : inputs exW = [0, 6, 10] := by decide
example : inputPipe exW 3 = some 0 ∧ (outputPipes exW 2).map (·.2) = [0, 2] := by decide

/-! ### C76: giving an other value to an input changes the result of the run -/

/-- After a run, giving an other value to an input and continuing keeps the previous result: evaluated blocks are not
evaluated again. -/
theorem C76_violated : ∃ (W : Workflow Int) (so : SetOrder) (s s' s'' : St Int) (rt : List Nat) (user user' : List (Nat × Int)),
    run W so user = .ok (some s) ∧ runtimeBlocks W so = .ok rt ∧ (inputs W)[2]? = some 10 ∧
    activateInput W s 10 6 = .ok s' ∧ continueRun W rt (W.blocks.length + 1) s' = .ok (some s'') ∧
    s''.inputValues 2 = some 6 ∧ s''.outputValue = some 24 ∧ user' = [(1, 1), (2, 6)] ∧
    ∃ t, run W so user' = .ok (some t) ∧ t.outputValue = some 26 := by
  obtain ⟨s, hs⟩ := C27_completes exW_wf exW_locks exW_output exW_total dedupOrder [(1, 1), (2, 5)] (by decide) (by decide)
  obtain ⟨t, ht⟩ := C27_completes exW_wf exW_locks exW_output exW_total dedupOrder [(1, 1), (2, 6)] (by decide) (by decide)
  obtain ⟨rank, hr, -⟩ := exW_wf.acyclic
  obtain ⟨s', hs'⟩ := activateInput_total hr s 10 6
  have hrt : runtimeBlocks exW dedupOrder = .ok [0, 1] := by
    cases h : runtimeBlocks exW dedupOrder with
    | error e =>
      have : (runtimeBlocks exW dedupOrder).toOption = some [0, 1] := by decide
      rw [h] at this; simp [Except.toOption] at this
    | ok r =>
      have : (runtimeBlocks exW dedupOrder).toOption = some [0, 1] := by decide
      rw [h] at this; simp [Except.toOption] at this
      rw [this]
  have e1 : (match run exW dedupOrder [(1, 1), (2, 5)] with
    | .ok (some s) => (match activateInput exW s 10 6 with
      | .ok s' => (match continueRun exW [0, 1] 4 s' with
        | .ok (some s'') => some (s''.inputValues 2, s''.outputValue)
        | _ => none)
      | _ => none)
    | _ => none) = some (some 6, some 24) := by decide +kernel
  have e2 : (match run exW dedupOrder [(1, 1), (2, 6)] with
    | .ok (some s) => s.outputValue
    | _ => none) = some 26 := by decide +kernel
  rw [hs] at e1
  rw [ht] at e2
  simp only [hs'] at e1
  cases hc : continueRun exW [0, 1] 4 s' with
  | error e => rw [hc] at e1; simp at e1
  | ok r =>
    cases r with
    | none => rw [hc] at e1; simp at e1
    | some s'' =>
      rw [hc] at e1
      simp only [Option.some.injEq, Prod.mk.injEq] at e1
      exact ⟨exW, dedupOrder, s, s', s'', [0, 1], _, _, hs, hrt, by decide, hs', hc, e1.1, e1.2, rfl, t, ht, e2⟩

end DC.Wkf
