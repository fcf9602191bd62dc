import Verif.Workflow.FrameLemmas
/- The invariant of the states reached in the execution of a well formed workflow. -/
namespace DC.Wkf

variable {α : Type}

/-- The state agrees with the denotation given by the values `V` of the inputs.  `E` holds the blocks being evaluated. -/
structure Inv (W : Workflow α) (V : Nat → Option α) (E : Nat → Prop) (s : St α) : Prop where
  iv : ∀ k v x, (inputs W)[k]? = some v → (s.inputValues k <|> W.default v) = some x → V k = some x
  val : ∀ j p x, W.pipes[j]? = some p → s.values j = some x → Den W V p.input x
  out : ∀ x, s.outputValue = some x → ∃ o, W.output = some o ∧ Den W V o x
  var : ∀ v, s.actVar v = true → ∃ x, Den W V v x ∧
    (∀ j p, W.pipes[j]? = some p → Flow W v p.input → s.values j = some x) ∧ (∀ w, Flow W v w → s.actVar w = true) ∧
    (∀ o, W.output = some o → Flow W v o → s.outputValue = some x)
  fed : ∀ v j, s.actVar v = true → inputPipe W v = some j → ∃ p x, W.pipes[j]? = some p ∧ s.values j = some x ∧
    s.actVar p.input = true
  fedIn : ∀ k v, (inputs W)[k]? = some v → s.actVar v = true → ∃ x, s.inputValues k = some x
  blk : ∀ i, s.actBlock i = true → ∃ b xs ys, W.blocks[i]? = some b ∧ xs.length = b.inputs.length ∧
    (∀ vx ∈ b.inputs.zip xs, Den W V vx.1 vx.2) ∧ b.eval xs = .ok ys ∧ (∀ v ∈ b.inputs, s.actVar v = true) ∧
    ∀ oy ∈ b.outputs.zip ys, s.actVar oy.1 = true
  src : ∀ i b o, W.blocks[i]? = some b → o ∈ b.outputs → s.actVar o = true → i ∈ s.evaluated ∨ E i

/-- Nothing flows into a variable which is not an input of a block. -/
theorem flow_eq {W : Workflow α} (hw : WellFormed W) {v w : Nat} (h : Flow W v w) (hn : ∀ b ∈ W.blocks, w ∉ b.inputs) :
    w = v := by
  rcases Relation.ReflTransGen.cases_tail h with h | ⟨c, -, p, hp, -, rfl⟩
  · exact h
  · obtain ⟨b, hb, hi⟩ := hw.target p hp
    exact absurd hi (hn b hb)

theorem flow_input {W : Workflow α} (hw : WellFormed W) {v w : Nat} (h : Flow W v w) (hn : w ∈ inputs W) : w = v := by
  rcases Relation.ReflTransGen.cases_tail h with h | ⟨c, -, p, hp, -, rfl⟩
  · exact h
  · exact absurd rfl (hw.input_free hn p hp)

theorem Inv.push {W : Workflow α} {V : Nat → Option α} {E : Nat → Prop} (hw : WellFormed W) {s s' : St α} {v : Nat} {x : α}
    (hI : Inv W V E s) (hp : Pushed (FlowPipe W v) (Flow W v) (FlowOut W v) x s s') (hd : Den W V v x)
    (hfed : ∀ j, inputPipe W v = some j → ∃ p x, W.pipes[j]? = some p ∧ s.values j = some x ∧ s.actVar p.input = true)
    (hin : ∀ k, (inputs W)[k]? = some v → ∃ y, s.inputValues k = some y)
    (hsrc : ∀ i b, W.blocks[i]? = some b → v ∈ b.outputs → i ∈ s.evaluated ∨ E i) : Inv W V E s' where
  iv k w y hk hy := by
    rw [hp.inp] at hy
    exact hI.iv k w y hk hy
  val j p y hj hy := by
    by_cases hf : FlowPipe W v j
    · rw [hp.valIn j hf] at hy
      cases hy
      obtain ⟨q, hq, hf⟩ := hf
      rw [hj] at hq
      cases hq
      exact hd.flow hf
    · rw [hp.valOut j hf] at hy
      exact hI.val j p y hj hy
  out y hy := by
    by_cases ho : FlowOut W v
    · rw [hp.outIn ho] at hy
      cases hy
      obtain ⟨o, ho, hf⟩ := ho
      exact ⟨o, ho, hd.flow hf⟩
    · rw [hp.outOut ho] at hy
      exact hI.out y hy
  var w hv := by
    rcases (hp.var w).1 hv with hv | hv
    · obtain ⟨y, h1, h2, h3, h4⟩ := hI.var w hv
      refine ⟨y, h1, fun j p hj hf => ?_, fun u hu => (hp.var u).2 (.inl (h3 u hu)), fun o ho hf => ?_⟩
      · by_cases hfp : FlowPipe W v j
        · rw [hp.valIn j hfp]
          obtain ⟨q, hq, hfp⟩ := hfp
          rw [hj] at hq
          cases hq
          rw [(hd.flow hfp).unique hw (h1.flow hf)]
        · rw [hp.valOut j hfp]
          exact h2 j p hj hf
      · by_cases hfo : FlowOut W v
        · rw [hp.outIn hfo]
          obtain ⟨o', ho', hfo⟩ := hfo
          rw [ho] at ho'
          cases ho'
          rw [(hd.flow hfo).unique hw (h1.flow hf)]
        · rw [hp.outOut hfo]
          exact h4 o ho hf
    · exact ⟨x, hd.flow hv, fun j p hj hf => hp.valIn j ⟨p, hj, hv.trans hf⟩,
        fun u hu => (hp.var u).2 (.inr (hv.trans hu)), fun o ho hf => hp.outIn ⟨o, ho, hv.trans hf⟩⟩
  fed w j hv hj := by
    have key : ∀ p x', W.pipes[j]? = some p → s.values j = some x' → s.actVar p.input = true →
        ∃ p x, W.pipes[j]? = some p ∧ s'.values j = some x ∧ s'.actVar p.input = true := by
      intro p x' h1 h2 h3
      have := hp.frame.val j (by rw [h2]; rfl)
      obtain ⟨y, hy⟩ := Option.isSome_iff_exists.1 this
      exact ⟨p, y, h1, hy, hp.frame.var _ h3⟩
    rcases (hp.var w).1 hv with hv | hv
    · obtain ⟨p, y, h1, h2, h3⟩ := hI.fed w j hv hj
      exact key p y h1 h2 h3
    · rcases Relation.ReflTransGen.cases_tail hv with h | ⟨c, hc, p, hpm, h1, h2⟩
      · rw [h] at hj
        obtain ⟨p, y, h1, h2, h3⟩ := hfed j hj
        exact key p y h1 h2 h3
      · obtain ⟨i, hi⟩ := List.getElem?_of_mem hpm
        have := inputPipe_unique hw.single hi
        rw [h2, hj] at this
        cases this
        exact ⟨p, x, hi, hp.valIn j ⟨p, hi, by rw [h1]; exact hc⟩, (hp.var _).2 (.inr (by rw [h1]; exact hc))⟩
  fedIn k w hk hv := by
    rw [hp.inp]
    rcases (hp.var w).1 hv with hv | hv
    · exact hI.fedIn k w hk hv
    · have := flow_input hw hv (List.mem_of_getElem? hk)
      subst this
      exact hin k hk
  blk i hi := by
    rw [hp.blk] at hi
    obtain ⟨b, xs, ys, h1, h2, h3, h4, h5, h6⟩ := hI.blk i hi
    exact ⟨b, xs, ys, h1, h2, h3, h4, fun v hv => hp.frame.var v (h5 v hv), fun o ho => hp.frame.var _ (h6 o ho)⟩
  src i b o hb ho hv := by
    rw [hp.ev]
    rcases (hp.var o).1 hv with hv | hv
    · exact hI.src i b o hb ho hv
    · have := flow_eq hw hv (fun c hc hin => in_ne_out hw.distinct hc (List.mem_of_getElem? hb) hin ho)
      subst this
      exact hsrc i b hb ho

/-- The initial state. -/
theorem Inv.init {W : Workflow α} {V vals : Nat → Option α}
    (h : ∀ k v x, (inputs W)[k]? = some v → (vals k <|> W.default v) = some x → V k = some x) :
    Inv W V (fun _ => False) { inputValues := vals } where
  iv := h
  val _ _ _ _ hx := by simp at hx
  out _ hx := by simp at hx
  var _ hx := by simp at hx
  fed _ _ hx := by simp at hx
  fedIn _ _ _ hx := by simp at hx
  blk _ hx := by simp at hx
  src _ _ _ _ _ hx := by simp at hx

/-- Writing the right value of an input. -/
theorem Inv.note {W : Workflow α} {V : Nat → Option α} {E : Nat → Prop} (hw : WellFormed W) {s : St α} {k v : Nat} {x : α}
    (hI : Inv W V E s) (hk : (inputs W)[k]? = some v) (hx : V k = some x) : Inv W V E (noteInput W s v x) ∧
      (noteInput W s v x).inputValues k = some x := by
  have he : inputIndex W v = some k := inputIndex_input hw.distinct hk (hw.input_free (List.mem_of_getElem? hk))
  unfold noteInput
  rw [he]
  refine ⟨⟨fun k' v' y hk' hy => ?_, hI.val, hI.out, hI.var, hI.fed, fun k' v' hk' hv' => ?_, hI.blk, hI.src⟩,
    by simp [upd]⟩
  · simp only [upd] at hy
    split at hy
    · rename_i h
      subst h
      simp only [Option.orElse_eq_orElse, Option.orElse_eq_or, Option.some_or, Option.some.injEq] at hy
      rw [hx, hy]
    · exact hI.iv k' v' y hk' hy
  · simp only [upd]
    split
    · exact ⟨x, rfl⟩
    · exact hI.fedIn k' v' hk' hv'

theorem Inv.activateInput {W : Workflow α} {V : Nat → Option α} {E : Nat → Prop} (hw : WellFormed W) {s s' : St α}
    {k v : Nat} {x : α} (hI : Inv W V E s) (hk : (inputs W)[k]? = some v) (hx : V k = some x)
    (h : activateInput W s v x = .ok s') : Inv W V E s' ∧ s'.actVar v = true := by
  obtain ⟨h1, h2⟩ := hI.note hw hk hx
  have hp := activateInput_pushed h
  have hf := hw.input_free (List.mem_of_getElem? hk)
  refine ⟨h1.push hw hp (.input hk hx) ?_ ?_ ?_, (hp.var v).2 (.inr .refl)⟩
  · intro j hj
    rw [inputPipe_none.2 hf] at hj
    simp at hj
  · intro k' hk'
    have e1 := idxOf_of_nodup (inputs_nodup hw.distinct) hk
    rw [idxOf_of_nodup (inputs_nodup hw.distinct) hk'] at e1
    rw [e1]
    exact ⟨x, h2⟩
  · intro i b hb ho
    exact absurd ho ((mem_inputs.1 (List.mem_of_getElem? hk)).2.1 b (List.mem_of_getElem? hb))

theorem Inv.activateOne {W : Workflow α} {V : Nat → Option α} {E : Nat → Prop} (hw : WellFormed W) {s s' : St α} {c : Bool}
    {k v : Nat} (hI : Inv W V E s) (hk : (inputs W)[k]? = some v) (h : activateOne W c s k v = .ok s') :
    Inv W V E s' ∧ ((s.inputValues k <|> W.default v).isSome ∨ c = true → s'.actVar v = true) := by
  unfold Wkf.activateOne at h
  cases hx : s.inputValues k with
  | some x =>
    rw [hx] at h
    have := hI.activateInput hw hk (hI.iv k v x hk (by rw [hx]; rfl)) h
    exact ⟨this.1, fun _ => this.2⟩
  | none =>
    rw [hx] at h
    cases hd : W.default v with
    | some x =>
      rw [hd] at h
      have := hI.activateInput hw hk (hI.iv k v x hk (by rw [hx, hd]; rfl)) h
      exact ⟨this.1, fun _ => this.2⟩
    | none =>
      rw [hd] at h
      simp only at h
      split at h
      · simp at h
      · split at h
        · simp at h
        · rename_i hc
          simp only [Except.ok.injEq] at h
          subst h
          exact ⟨hI, fun h => by simp [hc] at h⟩

theorem Inv.activateInputsLoop {W : Workflow α} {V : Nat → Option α} {E : Nat → Prop} (hw : WellFormed W) {c : Bool}
    (l : List Nat) (k : Nat) (hl : inputs W = (inputs W).take k ++ l) (hk : k ≤ (inputs W).length) (s s' : St α)
    (hI : Inv W V E s) (h : activateInputsLoop W c k l s = .ok s') : Inv W V E s' ∧
      ∀ m v, k ≤ m → (inputs W)[m]? = some v → (s.inputValues m <|> W.default v).isSome ∨ c = true →
        s'.actVar v = true := by
  induction l generalizing k s with
  | nil =>
    simp only [Wkf.activateInputsLoop, Except.ok.injEq] at h
    subst h
    refine ⟨hI, fun m v hm hv => ?_⟩
    have := congrArg List.length hl
    simp only [List.append_nil, List.length_take] at this
    obtain ⟨hv, -⟩ := List.getElem?_eq_some_iff.1 hv
    omega
  | cons v l ih =>
    rw [Wkf.activateInputsLoop, bind_ok] at h
    obtain ⟨s1, h1, h2⟩ := h
    have hlen : ((inputs W).take k).length = k := by simp [hk]
    have hkv : (inputs W)[k]? = some v := by
      rw [hl, List.getElem?_append_right (by omega), hlen]
      simp
    have hk1 : k < (inputs W).length := (List.getElem?_eq_some_iff.1 hkv).1
    obtain ⟨i1, i2⟩ := hI.activateOne hw hkv h1
    have hl' : inputs W = (inputs W).take (k + 1) ++ l := by
      rw [List.take_add_one, hkv]
      simp only [Option.toList_some, List.append_assoc, List.singleton_append]
      exact hl
    obtain ⟨j1, j2⟩ := ih (k + 1) hl' (by omega) s1 i1 h2
    have hf : Frame s1 s' := activateInputsLoop_frame _ _ _ _ h2
    have hf1 : Frame s s1 := activateInputsLoop_frame [v] k s s1 (by rw [Wkf.activateInputsLoop, h1]; rfl)
    refine ⟨j1, fun m w hm hw' hd => ?_⟩
    rcases Nat.eq_or_lt_of_le hm with rfl | hm
    · rw [hkv] at hw'
      cases hw'
      exact hf.var v (i2 hd)
    · refine j2 m w hm hw' (hd.imp (fun hd => ?_) id)
      cases hx : s.inputValues m with
      | some x =>
        obtain ⟨y, hy⟩ := Option.isSome_iff_exists.1 (hf1.inp m (by rw [hx]; rfl))
        rw [hy]; rfl
      | none =>
        rw [hx] at hd
        cases s1.inputValues m with
        | some y => rfl
        | none => exact hd

theorem Inv.activateInputs {W : Workflow α} {V : Nat → Option α} {E : Nat → Prop} (hw : WellFormed W) {c : Bool}
    {s s' : St α} (hI : Inv W V E s) (h : activateInputs W c s = .ok s') : Inv W V E s' ∧
      ∀ k v, (inputs W)[k]? = some v → (s.inputValues k <|> W.default v).isSome ∨ c = true → s'.actVar v = true := by
  obtain ⟨h1, h2⟩ := Inv.activateInputsLoop hw _ 0 (by simp) (by omega) s s' hI h
  exact ⟨h1, fun k v => h2 k v (by omega)⟩

/-- Reading an active input of a block. -/
theorem Inv.readOne {W : Workflow α} {V : Nat → Option α} {E : Nat → Prop} (hw : WellFormed W) {s : St α} {v : Nat}
    {b : Block α} (hI : Inv W V E s) (hb : b ∈ W.blocks) (hv : v ∈ b.inputs) (ha : s.actVar v = true) :
    ∃ x, readOne W s v = .ok x ∧ Den W V v x := by
  unfold Wkf.readOne
  cases hj : inputPipe W v with
  | none =>
    have hin := free_input hw.distinct hb hv (inputPipe_none.1 hj)
    obtain ⟨k, hk⟩ := List.getElem?_of_mem hin
    obtain ⟨x, hx⟩ := hI.fedIn k v hk ha
    refine ⟨x, ?_, .input hk (hI.iv k v x hk (by rw [hx]; rfl))⟩
    simp only [inputIndex_input hw.distinct hk (hw.input_free hin), hx]
  | some j =>
    obtain ⟨p, x, h1, h2, -⟩ := hI.fed v j ha hj
    obtain ⟨q, hq, ho⟩ := inputPipe_some hj
    rw [h1] at hq
    cases hq
    refine ⟨x, by simp only [h2], ?_⟩
    rw [← ho]
    exact .pipe (List.mem_of_getElem? h1) (hI.val j p x h1 h2)

theorem Inv.readInputs {W : Workflow α} {V : Nat → Option α} {E : Nat → Prop} (hw : WellFormed W) {b : Block α}
    (hb : b ∈ W.blocks) (l : List Nat) (hl : ∀ v ∈ l, v ∈ b.inputs) (s : St α) (hI : Inv W V E s)
    (ha : ∀ v ∈ l, s.actVar v = true) : ∃ xs s', readInputs W l s = .ok (xs, s') ∧ Inv W V E s' ∧ Frame s s' ∧
      xs.length = l.length ∧ ∀ vx ∈ l.zip xs, Den W V vx.1 vx.2 := by
  induction l generalizing s with
  | nil => exact ⟨[], s, rfl, hI, .refl s, rfl, by simp⟩
  | cons v l ih =>
    have hv := ha v (.head _)
    obtain ⟨x, hx, hd⟩ := hI.readOne hw hb (hl v (.head _)) hv
    obtain ⟨rank, hr, -⟩ := hw.acyclic
    obtain ⟨s1, h1⟩ := activateVar_total hr s v x
    have hp := activateVar_pushed _ _ _ _ h1
    have hI1 : Inv W V E s1 := hI.push hw hp hd (fun j hj => hI.fed v j hv hj) (fun k hk => hI.fedIn k v hk hv)
      (fun i c hc ho => hI.src i c v hc ho hv)
    obtain ⟨xs, s2, h2, hI2, hf, hlen, hz⟩ := ih (fun w hw => hl w (.tail _ hw)) s1 hI1
      (fun w hw => hp.frame.var w (ha w (.tail _ hw)))
    refine ⟨x :: xs, s2, ?_, hI2, hp.frame.trans hf, by simp [hlen], ?_⟩
    · simp [Wkf.readInputs, hx, h1, h2, bind, Except.bind]
    · intro vx hvx
      rcases List.mem_cons.1 (by simpa using hvx) with rfl | h
      · exact hd
      · exact hz vx h

theorem Inv.activateOutputs {W : Workflow α} {V : Nat → Option α} {E : Nat → Prop} (hw : WellFormed W) {b : Block α}
    {i : Nat} (hb : W.blocks[i]? = some b) (hE : E i) (os : List Nat) (ys : List α) (hl : ∀ v ∈ os, v ∈ b.outputs)
    (hd : ∀ oy ∈ os.zip ys, Den W V oy.1 oy.2) (s : St α) (hI : Inv W V E s) : ∃ s', activateOutputs W os ys s = .ok s' ∧
      Inv W V E s' ∧ Frame s s' ∧ ∀ oy ∈ os.zip ys, s'.actVar oy.1 = true := by
  induction os generalizing s ys with
  | nil => exact ⟨s, by simp [Wkf.activateOutputs], hI, .refl s, by simp⟩
  | cons o os ih =>
    cases ys with
    | nil => exact ⟨s, by simp [Wkf.activateOutputs], hI, .refl s, by simp⟩
    | cons y ys =>
      obtain ⟨rank, hr, -⟩ := hw.acyclic
      obtain ⟨s1, h1⟩ := activateVar_total hr s o y
      have hp := activateVar_pushed _ _ _ _ h1
      have hob := hl o (.head _)
      have hbm := List.mem_of_getElem? hb
      have hI1 : Inv W V E s1 := by
        refine hI.push hw hp (hd (o, y) (by simp)) (fun j hj => ?_) (fun k hk => ?_) (fun j c hc ho => ?_)
        · obtain ⟨p, hp, ho⟩ := inputPipe_some hj
          obtain ⟨c, hc, hin⟩ := hw.target p (List.mem_of_getElem? hp)
          rw [ho] at hin
          exact (in_ne_out hw.distinct hc hbm hin hob).elim
        · exact absurd hob ((mem_inputs.1 (List.mem_of_getElem? hk)).2.1 b hbm)
        · rw [out_unique hw.distinct hc hb ho hob]
          exact .inr hE
      obtain ⟨s2, h2, hI2, hf, hz⟩ := ih ys (fun w hw => hl w (.tail _ hw))
        (fun oy h => hd oy (by simp only [List.zip_cons_cons, List.mem_cons]; exact .inr h)) s1 hI1
      refine ⟨s2, by simp [Wkf.activateOutputs, h1, h2, bind, Except.bind], hI2, hp.frame.trans hf, ?_⟩
      intro oy hoy
      rcases List.mem_cons.1 (by simpa using hoy) with rfl | h
      · exact hf.var _ ((hp.var o).2 (.inr .refl))
      · exact hz oy h

/-- Evaluating a block whose inputs are active: either its evaluation raises, or the invariant is kept. -/
theorem Inv.evaluateBlock {W : Workflow α} {V : Nat → Option α} (hw : WellFormed W) {b : Block α} {i : Nat}
    (hb : W.blocks[i]? = some b) (s : St α) (hI : Inv W V (fun _ => False) s) (ha : byInputs s b = true) :
    ∃ xs, xs.length = b.inputs.length ∧ (∀ vx ∈ b.inputs.zip xs, Den W V vx.1 vx.2) ∧
      ((∃ e, b.eval xs = .error e ∧ evaluateBlock W s i = .error e) ∨
       ∃ ys s', b.eval xs = .ok ys ∧ evaluateBlock W s i = .ok (s', ys) ∧ Inv W V (fun _ => False) s') := by
  simp only [byInputs, List.all_eq_true] at ha
  have hbm := List.mem_of_getElem? hb
  obtain ⟨xs, s1, h1, hI1, hf1, hlen, hz⟩ := hI.readInputs hw hbm b.inputs (fun _ h => h) s ha
  refine ⟨xs, hlen, hz, ?_⟩
  cases he : b.eval xs with
  | error e =>
    refine .inl ⟨e, rfl, ?_⟩
    simp [Wkf.evaluateBlock, hb, h1, he, bind, Except.bind]
  | ok ys =>
    right
    have hden : ∀ oy ∈ b.outputs.zip ys, Den W V oy.1 oy.2 := fun oy hoy => .block hbm hlen hz he hoy
    have hI1' : Inv W V (fun j => j = i) { s1 with evaluated := s1.evaluated ++ [i] } := by
      refine ⟨hI1.iv, hI1.val, hI1.out, hI1.var, hI1.fed, hI1.fedIn, hI1.blk, fun j c o hc ho hv => ?_⟩
      rcases hI1.src j c o hc ho hv with h | h
      · exact .inl (List.mem_append_left _ h)
      · exact h.elim
    obtain ⟨s2, h2, hI2, hf2, hz2⟩ := Inv.activateOutputs (E := fun j => j = i) hw hb rfl b.outputs ys (fun _ h => h) hden _ hI1'
    refine ⟨ys, { s2 with actBlock := upd s2.actBlock i true }, rfl, ?_, ?_⟩
    · simp [Wkf.evaluateBlock, hb, h1, he, h2, bind, Except.bind]
    · refine ⟨hI2.iv, hI2.val, hI2.out, hI2.var, hI2.fed, hI2.fedIn, fun j hj => ?_, fun j c o hc ho hv => ?_⟩
      · by_cases hji : j = i
        · subst hji
          exact ⟨b, xs, ys, hb, hlen, hz, he, fun v hv => hf2.var v (hf1.var v (ha v hv)), hz2⟩
        · simp only [upd, hji, if_false] at hj
          exact hI2.blk j hj
      · rcases hI2.src j c o hc ho hv with h | h
        · exact .inl h
        · subst h
          left
          show j ∈ s2.evaluated
          rw [hf2.ev]
          simp

/-- The invariant between operations. -/
abbrev Good (W : Workflow α) (V : Nat → Option α) (s : St α) : Prop := Inv W V (fun _ => False) s

theorem activable_byInputs {W : Workflow α} {rt : List Nat} {s : St α} {i : Nat} (h : activable W rt s i = true) :
    ∃ b, W.blocks[i]? = some b ∧ byInputs s b = true := by
  unfold activable at h
  split at h
  · simp at h
  · rename_i b hb
    simp only [Bool.and_eq_true] at h
    exact ⟨b, hb, h.1⟩

theorem Good.evaluateBlock {W : Workflow α} {V : Nat → Option α} (hw : WellFormed W) {b : Block α} {i : Nat}
    (hb : W.blocks[i]? = some b) {s s' : St α} {ys : List α} (hI : Good W V s) (ha : byInputs s b = true)
    (h : evaluateBlock W s i = .ok (s', ys)) : Good W V s' := by
  obtain ⟨xs, -, -, ⟨e, -, h1⟩ | ⟨ys', s1, -, h1, h2⟩⟩ := Inv.evaluateBlock hw hb s hI ha
  · rw [h1] at h; simp at h
  · rw [h1] at h
    simp only [Except.ok.injEq, Prod.mk.injEq] at h
    rw [← h.1]; exact h2

theorem Good.blockEvaluation {W : Workflow α} {V : Nat → Option α} (hw : WellFormed W) {rt : List Nat} {i : Nat}
    {s s' : St α} {r : Bool} (hI : Good W V s) (h : blockEvaluation W rt s i = .ok (s', r)) : Good W V s' := by
  obtain ⟨s1, h1, -, ⟨-, rfl, -⟩ | ⟨-, ha, ys, he, -⟩⟩ := blockEvaluation_ok h
  · exact (hI.activateInputs hw h1).1
  · obtain ⟨b, hb, hby⟩ := activable_byInputs ha
    exact Good.evaluateBlock hw hb (hI.activateInputs hw h1).1 hby he

theorem Good.evaluateNext {W : Workflow α} {V : Nat → Option α} (hw : WellFormed W) {rt : List Nat}
    {s s' : St α} {r : Option Nat} (hI : Good W V s) (h : evaluateNext W rt s = .ok (s', r)) : Good W V s' := by
  unfold Wkf.evaluateNext at h
  rw [bind_ok] at h
  obtain ⟨s1, h1, h⟩ := h
  have hI1 := (hI.activateInputs hw h1).1
  split at h
  · simp only [Except.ok.injEq, Prod.mk.injEq] at h
    rw [← h.1]; exact hI1
  · rw [bind_ok] at h
    obtain ⟨⟨s2, q⟩, h2, h⟩ := h
    simp only [Except.ok.injEq, Prod.mk.injEq] at h
    rw [← h.1]; exact Good.blockEvaluation hw hI1 h2

theorem Good.continueRun {W : Workflow α} {V : Nat → Option α} (hw : WellFormed W) {rt : List Nat} {n : Nat}
    {s s' : St α} (hI : Good W V s) (h : continueRun W rt n s = .ok (some s')) : Good W V s' :=
  (continueRun_inv (P := Good W V) (fun _ _ hs ha => (hs.activateInputs hw ha).1)
    (fun _ _ _ _ _ hs hb => Good.blockEvaluation hw hs hb) n s s' hI h).1

theorem Good.branchStep {W : Workflow α} {V : Nat → Option α} (hw : WellFormed W) (l : List Nat) (s s' : St α)
    (ha : ∀ i ∈ l, ∃ b, W.blocks[i]? = some b ∧ byInputs s b = true) (hI : Good W V s) (h : branchStep W l s = .ok s') :
    Good W V s' := by
  induction l generalizing s with
  | nil =>
    simp only [Wkf.branchStep, Except.ok.injEq] at h
    subst h; exact hI
  | cons i l ih =>
    rw [Wkf.branchStep, bind_ok] at h
    obtain ⟨⟨s1, ys⟩, h1, h2⟩ := h
    obtain ⟨b, hb, hby⟩ := ha i (.head _)
    refine ih s1 (fun j hj => ?_) (Good.evaluateBlock hw hb hI hby h1) h2
    obtain ⟨c, hc, hbc⟩ := ha j (.tail _ hj)
    refine ⟨c, hc, ?_⟩
    simp only [byInputs, List.all_eq_true] at hbc ⊢
    exact fun v hv => (evaluateBlock_step h1).var v (hbc v hv)

theorem Good.branchLoop {W : Workflow α} {V : Nat → Option α} (hw : WellFormed W) {rt blocks : List Nat} (n : Nat)
    (d d' : List Nat) (s s' : St α) (hI : Good W V s) (h : branchLoop W rt blocks n d s = .ok (s', d')) : Good W V s' := by
  induction n generalizing d s with
  | zero =>
    simp only [Wkf.branchLoop, Except.ok.injEq, Prod.mk.injEq] at h
    rw [← h.1]; exact hI
  | succ n ih =>
    rw [Wkf.branchLoop] at h
    split at h
    · simp only [Except.ok.injEq, Prod.mk.injEq] at h
      rw [← h.1]; exact hI
    · rw [bind_ok] at h
      obtain ⟨s1, h1, h2⟩ := h
      refine ih _ s1 (Good.branchStep hw _ s s1 (fun i hi => ?_) hI h1) h2
      rw [List.mem_filter, Bool.and_eq_true] at hi
      exact activable_byInputs hi.2.1

theorem Good.evaluateBranch {W : Workflow α} {V : Nat → Option α} (hw : WellFormed W) {rt blocks : List Nat}
    {d' : List Nat} {s s' : St α} (hI : Good W V s) (h : evaluateBranch W rt blocks s = .ok (s', d')) : Good W V s' := by
  unfold Wkf.evaluateBranch at h
  rw [bind_ok] at h
  obtain ⟨s1, h1, h⟩ := h
  split at h
  · exact Good.branchLoop hw _ _ _ _ _ (hI.activateInputs hw h1).1 h
  · simp at h

end DC.Wkf
