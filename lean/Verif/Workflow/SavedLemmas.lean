import Verif.Workflow.Saved
import Verif.Workflow.PersistCopyProps
/- Invariant of the executions which are saved and restored on the way. -/
namespace DC.Wkf
set_option linter.unusedSectionVars false

variable {α J : Type}

/-- The state agrees with the denotation given by the values `V` of the inputs, but values may be missing, except those
which feed the variables of `N`.  `E` holds the blocks being evaluated. -/
structure Held (W : Workflow α) (V : Nat → Option α) (N E : Nat → Prop) (s : St α) : Prop where
  iv : ∀ k v x, (inputs W)[k]? = some v → (s.inputValues k <|> W.default v) = some x → V k = some x
  val : ∀ j p x, W.pipes[j]? = some p → s.values j = some x → Den W V p.input x
  out : ∀ x, s.outputValue = some x → ∃ o, W.output = some o ∧ Den W V o x
  var : ∀ v, s.actVar v = true → ∃ x, Den W V v x ∧ (∀ w, Flow W v w → s.actVar w = true) ∧
    (∀ o, W.output = some o → Flow W v o → s.outputValue = some x)
  fed : ∀ v j, N v → s.actVar v = true → inputPipe W v = some j → (s.values j).isSome
  fedIn : ∀ k v, N v → (inputs W)[k]? = some v → s.actVar v = true → (s.inputValues k).isSome
  blk : ∀ i, s.actBlock i = true → ∃ b xs ys, W.blocks[i]? = some b ∧ xs.length = b.inputs.length ∧
    (∀ vx ∈ b.inputs.zip xs, Den W V vx.1 vx.2) ∧ b.eval xs = .ok ys ∧ (∀ v ∈ b.inputs, s.actVar v = true) ∧
    ∀ oy ∈ b.outputs.zip ys, s.actVar oy.1 = true
  src : ∀ i b o, W.blocks[i]? = some b → o ∈ b.outputs → s.actVar o = true → i ∈ s.evaluated ∨ E i
  ev : ∀ i ∈ s.evaluated, i < W.blocks.length

variable {W : Workflow α} {V : Nat → Option α} {N E : Nat → Prop}

/-- The values which some variables must hold are determined. -/
theorem den_list (hw : WellFormed W) {l : List Nat} {xs ys : List α} (hx : xs.length = l.length) (hy : ys.length = l.length)
    (h1 : ∀ vx ∈ l.zip xs, Den W V vx.1 vx.2) (h2 : ∀ vx ∈ l.zip ys, Den W V vx.1 vx.2) : xs = ys := by
  apply List.ext_getElem (by omega)
  intro n g1 g2
  have hn : n < l.length := by omega
  refine (h1 (l[n], xs[n]) ?_).unique hw (h2 (l[n], ys[n]) ?_)
  · exact List.mem_of_getElem? (List.getElem?_zip_eq_some.2 ⟨by simp [hn], by simp⟩ : _ = some _) (i := n)
  · exact List.mem_of_getElem? (List.getElem?_zip_eq_some.2 ⟨by simp [hn], by simp⟩ : _ = some _) (i := n)

theorem Held.weaken {N' : Nat → Prop} {s : St α} (h : Held W V N E s) (hN : ∀ v, N' v → N v) : Held W V N' E s :=
  { h with fed := fun v j hv => h.fed v j (hN v hv), fedIn := fun k v hv => h.fedIn k v (hN v hv) }

theorem Held.push (hw : WellFormed W) {s s' : St α} {v : Nat} {x : α}
    (hI : Held W V N E s) (hp : Pushed (FlowPipe W v) (Flow W v) (FlowOut W v) x s s') (hd : Den W V v x)
    (hfed : ∀ j, N v → inputPipe W v = some j → (s.values j).isSome)
    (hin : ∀ k, N v → (inputs W)[k]? = some v → (s.inputValues k).isSome)
    (hsrc : ∀ i b, W.blocks[i]? = some b → v ∈ b.outputs → i ∈ s.evaluated ∨ E i) : Held W V N E s' where
  iv k w y hk hy := by
    rw [hp.inp] at hy
    exact hI.iv k w y hk hy
  val j p y hj hy := by
    by_cases hf : FlowPipe W v j
    · rw [hp.valIn j hf] at hy
      cases hy
      obtain ⟨q, hq, hf⟩ := hf
      rw [hj] at hq
      cases hq
      exact hd.flow hf
    · rw [hp.valOut j hf] at hy
      exact hI.val j p y hj hy
  out y hy := by
    by_cases ho : FlowOut W v
    · rw [hp.outIn ho] at hy
      cases hy
      obtain ⟨o, ho, hf⟩ := ho
      exact ⟨o, ho, hd.flow hf⟩
    · rw [hp.outOut ho] at hy
      exact hI.out y hy
  var w hv := by
    rcases (hp.var w).1 hv with hv | hv
    · obtain ⟨y, h1, h3, h4⟩ := hI.var w hv
      refine ⟨y, h1, fun u hu => (hp.var u).2 (.inl (h3 u hu)), fun o ho hf => ?_⟩
      · by_cases hfo : FlowOut W v
        · rw [hp.outIn hfo]
          obtain ⟨o', ho', hfo⟩ := hfo
          rw [ho] at ho'
          cases ho'
          rw [(hd.flow hfo).unique hw (h1.flow hf)]
        · rw [hp.outOut hfo]
          exact h4 o ho hf
    · exact ⟨x, hd.flow hv,
        fun u hu => (hp.var u).2 (.inr (hv.trans hu)), fun o ho hf => hp.outIn ⟨o, ho, hv.trans hf⟩⟩
  fed w j hn hv hj := by
    rcases (hp.var w).1 hv with hv | hv
    · exact hp.frame.val j (hI.fed w j hn hv hj)
    · rcases Relation.ReflTransGen.cases_tail hv with h | ⟨c, hc, p, hpm, h1, h2⟩
      · subst h
        exact hp.frame.val j (hfed j hn hj)
      · obtain ⟨i, hi⟩ := List.getElem?_of_mem hpm
        have := inputPipe_unique hw.single hi
        rw [h2, hj] at this
        cases this
        rw [hp.valIn j ⟨p, hi, by rw [h1]; exact hc⟩]
        rfl
  fedIn k w hn hk hv := by
    rw [hp.inp]
    rcases (hp.var w).1 hv with hv | hv
    · exact hI.fedIn k w hn hk hv
    · have := flow_input hw hv (List.mem_of_getElem? hk)
      subst this
      exact hin k hn hk
  blk i hi := by
    rw [hp.blk] at hi
    obtain ⟨b, xs, ys, h1, h2, h3, h4, h5, h6⟩ := hI.blk i hi
    exact ⟨b, xs, ys, h1, h2, h3, h4, fun v hv => hp.frame.var v (h5 v hv), fun o ho => hp.frame.var _ (h6 o ho)⟩
  src i b o hb ho hv := by
    rw [hp.ev]
    rcases (hp.var o).1 hv with hv | hv
    · exact hI.src i b o hb ho hv
    · have := flow_eq hw hv (fun c hc hin => in_ne_out hw.distinct hc (List.mem_of_getElem? hb) hin ho)
      subst this
      exact hsrc i b hb ho
  ev i hi := by rw [hp.ev] at hi; exact hI.ev i hi

/-- The initial state. -/
theorem Held.init {vals : Nat → Option α}
    (h : ∀ k v x, (inputs W)[k]? = some v → (vals k <|> W.default v) = some x → V k = some x) :
    Held W V N (fun _ => False) { inputValues := vals } where
  iv := h
  val _ _ _ _ hx := by simp at hx
  out _ hx := by simp at hx
  var _ hx := by simp at hx
  fed _ _ _ hx := by simp at hx
  fedIn _ _ _ _ hx := by simp at hx
  blk _ hx := by simp at hx
  src _ _ _ _ _ hx := by simp at hx
  ev _ hx := by simp at hx

theorem Held.note (hw : WellFormed W) {s : St α} {k v : Nat} {x : α}
    (hI : Held W V N E s) (hk : (inputs W)[k]? = some v) (hx : V k = some x) : Held W V N E (noteInput W s v x) ∧
      (noteInput W s v x).inputValues k = some x := by
  have he : inputIndex W v = some k := inputIndex_input hw.distinct hk (hw.input_free (List.mem_of_getElem? hk))
  unfold noteInput
  rw [he]
  refine ⟨⟨fun k' v' y hk' hy => ?_, hI.val, hI.out, hI.var, hI.fed, fun k' v' hn hk' hv' => ?_, hI.blk, hI.src, hI.ev⟩,
    by simp [upd]⟩
  · simp only [upd] at hy
    split at hy
    · rename_i h
      subst h
      simp only [Option.orElse_eq_orElse, Option.orElse_eq_or, Option.some_or, Option.some.injEq] at hy
      rw [hx, hy]
    · exact hI.iv k' v' y hk' hy
  · simp only [upd]
    split
    · rfl
    · exact hI.fedIn k' v' hn hk' hv'

theorem Held.activateInput (hw : WellFormed W) {s s' : St α}
    {k v : Nat} {x : α} (hI : Held W V N E s) (hk : (inputs W)[k]? = some v) (hx : V k = some x)
    (h : Wkf.activateInput W s v x = .ok s') : Held W V N E s' ∧ s'.actVar v = true ∧ (s'.inputValues k).isSome ∧
      ∀ j p, W.pipes[j]? = some p → Flow W v p.input → (s'.values j).isSome := by
  obtain ⟨h1, h2⟩ := hI.note hw hk hx
  have hp := activateInput_pushed h
  have hf := hw.input_free (List.mem_of_getElem? hk)
  refine ⟨h1.push hw hp (.input hk hx) ?_ ?_ ?_, (hp.var v).2 (.inr .refl), by rw [hp.inp, h2]; rfl, fun j p hj hpf => ?_⟩
  · intro j _ hj
    rw [inputPipe_none.2 hf] at hj
    simp at hj
  · intro k' _ hk'
    have e1 := idxOf_of_nodup (inputs_nodup hw.distinct) hk
    rw [idxOf_of_nodup (inputs_nodup hw.distinct) hk'] at e1
    rw [e1, h2]
    rfl
  · intro i b hb ho
    exact absurd ho ((mem_inputs.1 (List.mem_of_getElem? hk)).2.1 b (List.mem_of_getElem? hb))
  · rw [hp.valIn j ⟨p, hj, hpf⟩]
    rfl

/-- What the activation of an input gives. -/
def Given (W : Workflow α) (s : St α) (k v : Nat) : Prop :=
  s.actVar v = true ∧ (s.inputValues k).isSome ∧ ∀ j p, W.pipes[j]? = some p → Flow W v p.input → (s.values j).isSome

theorem Given.frame {s s' : St α} {k v : Nat} (h : Given W s k v) (hf : Frame s s') : Given W s' k v :=
  ⟨hf.var v h.1, hf.inp k h.2.1, fun j p hj hp => hf.val j (h.2.2 j p hj hp)⟩

theorem Held.activateOne (hw : WellFormed W) {s s' : St α} {c : Bool}
    {k v : Nat} (hI : Held W V N E s) (hk : (inputs W)[k]? = some v) (h : Wkf.activateOne W c s k v = .ok s') :
    Held W V N E s' ∧ ((s.inputValues k <|> W.default v).isSome ∨ c = true → Given W s' k v) := by
  unfold Wkf.activateOne at h
  cases hx : s.inputValues k with
  | some x =>
    rw [hx] at h
    have := hI.activateInput hw hk (hI.iv k v x hk (by rw [hx]; rfl)) h
    exact ⟨this.1, fun _ => this.2⟩
  | none =>
    rw [hx] at h
    cases hd : W.default v with
    | some x =>
      rw [hd] at h
      have := hI.activateInput hw hk (hI.iv k v x hk (by rw [hx, hd]; rfl)) h
      exact ⟨this.1, fun _ => this.2⟩
    | none =>
      rw [hd] at h
      simp only at h
      split at h
      · simp at h
      · split at h
        · simp at h
        · rename_i hc
          simp only [Except.ok.injEq] at h
          subst h
          exact ⟨hI, fun h => by simp [hc] at h⟩

theorem Held.activateInputsLoop (hw : WellFormed W) {c : Bool}
    (l : List Nat) (k : Nat) (hl : inputs W = (inputs W).take k ++ l) (hk : k ≤ (inputs W).length) (s s' : St α)
    (hI : Held W V N E s) (h : Wkf.activateInputsLoop W c k l s = .ok s') : Held W V N E s' ∧
      ∀ m v, k ≤ m → (inputs W)[m]? = some v → (s.inputValues m <|> W.default v).isSome ∨ c = true →
        Given W s' m v := by
  induction l generalizing k s with
  | nil =>
    simp only [Wkf.activateInputsLoop, Except.ok.injEq] at h
    subst h
    refine ⟨hI, fun m v hm hv => ?_⟩
    have := congrArg List.length hl
    simp only [List.append_nil, List.length_take] at this
    obtain ⟨hv, -⟩ := List.getElem?_eq_some_iff.1 hv
    omega
  | cons v l ih =>
    rw [Wkf.activateInputsLoop, bind_ok] at h
    obtain ⟨s1, h1, h2⟩ := h
    have hlen : ((inputs W).take k).length = k := by simp [hk]
    have hkv : (inputs W)[k]? = some v := by
      rw [hl, List.getElem?_append_right (by omega), hlen]
      simp
    have hk1 : k < (inputs W).length := (List.getElem?_eq_some_iff.1 hkv).1
    obtain ⟨i1, i2⟩ := hI.activateOne hw hkv h1
    have hl' : inputs W = (inputs W).take (k + 1) ++ l := by
      rw [List.take_add_one, hkv]
      simp only [Option.toList_some, List.append_assoc, List.singleton_append]
      exact hl
    obtain ⟨j1, j2⟩ := ih (k + 1) hl' (by omega) s1 i1 h2
    have hf : Frame s1 s' := activateInputsLoop_frame _ _ _ _ h2
    have hf1 : Frame s s1 := activateInputsLoop_frame [v] k s s1 (by rw [Wkf.activateInputsLoop, h1]; rfl)
    refine ⟨j1, fun m w hm hw' hd => ?_⟩
    rcases Nat.eq_or_lt_of_le hm with rfl | hm
    · rw [hkv] at hw'
      cases hw'
      exact (i2 hd).frame hf
    · refine j2 m w hm hw' (hd.imp (fun hd => ?_) id)
      cases hx : s.inputValues m with
      | some x =>
        obtain ⟨y, hy⟩ := Option.isSome_iff_exists.1 (hf1.inp m (by rw [hx]; rfl))
        rw [hy]; rfl
      | none =>
        rw [hx] at hd
        cases s1.inputValues m with
        | some y => rfl
        | none => exact hd

theorem Held.activateInputs (hw : WellFormed W) {c : Bool}
    {s s' : St α} (hI : Held W V N E s) (h : Wkf.activateInputs W c s = .ok s') : Held W V N E s' ∧
      ∀ k v, (inputs W)[k]? = some v → (s.inputValues k <|> W.default v).isSome ∨ c = true → Given W s' k v := by
  obtain ⟨h1, h2⟩ := Held.activateInputsLoop hw _ 0 (by simp) (by omega) s s' hI h
  exact ⟨h1, fun k v => h2 k v (by omega)⟩

/-- A value read for an active input of a block is the right one. -/
theorem Held.readOne (hw : WellFormed W) {s : St α} {v : Nat} {x : α}
    {b : Block α} (hI : Held W V N E s) (hb : b ∈ W.blocks) (hv : v ∈ b.inputs) (h : Wkf.readOne W s v = .ok x) :
    Den W V v x := by
  unfold Wkf.readOne at h
  cases hj : inputPipe W v with
  | none =>
    rw [hj] at h
    have hin := free_input hw.distinct hb hv (inputPipe_none.1 hj)
    obtain ⟨k, hk⟩ := List.getElem?_of_mem hin
    simp only [inputIndex_input hw.distinct hk (hw.input_free hin)] at h
    cases hx : s.inputValues k with
    | none => rw [hx] at h; simp at h
    | some y =>
      rw [hx] at h
      simp only [Except.ok.injEq] at h
      subst h
      exact .input hk (hI.iv k v y hk (by rw [hx]; rfl))
  | some j =>
    rw [hj] at h
    simp only at h
    obtain ⟨p, hp, ho⟩ := inputPipe_some hj
    cases hx : s.values j with
    | none => rw [hx] at h; simp at h
    | some y =>
      rw [hx] at h
      simp only [Except.ok.injEq] at h
      subst h
      rw [← ho]
      exact .pipe (List.mem_of_getElem? hp) (hI.val j p y hp hx)

/-- The value of an active input is there when it is among `N`. -/
theorem Held.readOne_total (hw : WellFormed W) {s : St α} {v : Nat}
    {b : Block α} (hI : Held W V N E s) (hb : b ∈ W.blocks) (hv : v ∈ b.inputs) (hn : N v) (ha : s.actVar v = true) :
    ∃ x, Wkf.readOne W s v = .ok x := by
  unfold Wkf.readOne
  cases hj : inputPipe W v with
  | none =>
    have hin := free_input hw.distinct hb hv (inputPipe_none.1 hj)
    obtain ⟨k, hk⟩ := List.getElem?_of_mem hin
    obtain ⟨x, hx⟩ := Option.isSome_iff_exists.1 (hI.fedIn k v hn hk ha)
    exact ⟨x, by simp only [inputIndex_input hw.distinct hk (hw.input_free hin), hx]⟩
  | some j =>
    obtain ⟨x, hx⟩ := Option.isSome_iff_exists.1 (hI.fed v j hn ha hj)
    exact ⟨x, by simp only [hx]⟩

theorem readOne_here {s : St α} {v : Nat} {x : α} (hw : WellFormed W) (h : Wkf.readOne W s v = .ok x) :
    (∀ j, inputPipe W v = some j → (s.values j).isSome) ∧ ∀ k, (inputs W)[k]? = some v → (s.inputValues k).isSome := by
  unfold Wkf.readOne at h
  cases hj : inputPipe W v with
  | none =>
    rw [hj] at h
    refine ⟨fun _ h => by simp at h, fun k hk => ?_⟩
    simp only [inputIndex_input hw.distinct hk (hw.input_free (List.mem_of_getElem? hk))] at h
    cases hx : s.inputValues k with
    | none => rw [hx] at h; simp at h
    | some y => rfl
  | some j =>
    rw [hj] at h
    simp only at h
    refine ⟨fun i hi => ?_, fun k hk => ?_⟩
    · cases hi
      cases hx : s.values j with
      | none => rw [hx] at h; simp at h
      | some y => rfl
    · rw [inputPipe_none.2 (hw.input_free (List.mem_of_getElem? hk))] at hj
      simp at hj

theorem Held.readInputs (hw : WellFormed W) {b : Block α}
    (hb : b ∈ W.blocks) (l : List Nat) (hl : ∀ v ∈ l, v ∈ b.inputs) (s s' : St α) (xs : List α) (hI : Held W V N E s)
    (ha : ∀ v ∈ l, s.actVar v = true) (h : Wkf.readInputs W l s = .ok (xs, s')) : Held W V N E s' ∧ Frame s s' ∧
      xs.length = l.length ∧ ∀ vx ∈ l.zip xs, Den W V vx.1 vx.2 := by
  induction l generalizing s xs with
  | nil =>
    simp only [Wkf.readInputs, Except.ok.injEq, Prod.mk.injEq] at h
    obtain ⟨rfl, rfl⟩ := h
    exact ⟨hI, .refl s, rfl, by simp⟩
  | cons v l ih =>
    have hv := ha v (.head _)
    rw [Wkf.readInputs, bind_ok] at h
    obtain ⟨x, hx, h⟩ := h
    rw [bind_ok] at h
    obtain ⟨s1, h1, h⟩ := h
    rw [bind_ok] at h
    obtain ⟨⟨ys, s2⟩, h2, h⟩ := h
    simp only [Except.ok.injEq, Prod.mk.injEq] at h
    obtain ⟨rfl, rfl⟩ := h
    have hd := hI.readOne hw hb (hl v (.head _)) hx
    have hp := activateVar_pushed _ _ _ _ h1
    have hI1 : Held W V N E s1 := hI.push hw hp hd (fun j hn hj => hI.fed v j hn hv hj)
      (fun k hn hk => hI.fedIn k v hn hk hv) (fun i c hc ho => hI.src i c v hc ho hv)
    obtain ⟨hI2, hf, hlen, hz⟩ := ih (fun w hw => hl w (.tail _ hw)) s1 ys hI1
      (fun w hw => hp.frame.var w (ha w (.tail _ hw))) h2
    refine ⟨hI2, hp.frame.trans hf, by simp [hlen], ?_⟩
    intro vx hvx
    rcases List.mem_cons.1 (by simpa using hvx) with rfl | h
    · exact hd
    · exact hz vx h

theorem Held.readInputs_total (hw : WellFormed W) {b : Block α}
    (hb : b ∈ W.blocks) (l : List Nat) (hl : ∀ v ∈ l, v ∈ b.inputs) (s : St α) (hI : Held W V N E s)
    (hn : ∀ v ∈ l, N v) (ha : ∀ v ∈ l, s.actVar v = true) : ∃ xs s', Wkf.readInputs W l s = .ok (xs, s') := by
  induction l generalizing s with
  | nil => exact ⟨[], s, rfl⟩
  | cons v l ih =>
    have hv := ha v (.head _)
    obtain ⟨x, hx⟩ := hI.readOne_total hw hb (hl v (.head _)) (hn v (.head _)) hv
    obtain ⟨rank, hr, -⟩ := hw.acyclic
    obtain ⟨s1, h1⟩ := activateVar_total hr s v x
    have hp := activateVar_pushed _ _ _ _ h1
    have hd := hI.readOne hw hb (hl v (.head _)) hx
    have hI1 : Held W V N E s1 := hI.push hw hp hd (fun j hn hj => hI.fed v j hn hv hj)
      (fun k hn hk => hI.fedIn k v hn hk hv) (fun i c hc ho => hI.src i c v hc ho hv)
    obtain ⟨xs, s2, h2⟩ := ih (fun w hw => hl w (.tail _ hw)) s1 hI1 (fun w hw => hn w (.tail _ hw))
      (fun w hw => hp.frame.var w (ha w (.tail _ hw)))
    exact ⟨x :: xs, s2, by simp [Wkf.readInputs, hx, h1, h2, bind, Except.bind]⟩

theorem Held.activateOutputs (hw : WellFormed W) {b : Block α}
    {i : Nat} (hb : W.blocks[i]? = some b) (hE : E i) (os : List Nat) (ys : List α) (hl : ∀ v ∈ os, v ∈ b.outputs)
    (hd : ∀ oy ∈ os.zip ys, Den W V oy.1 oy.2) (s : St α) (hI : Held W V N E s) : ∃ s', Wkf.activateOutputs W os ys s = .ok s' ∧
      Held W V N E s' ∧ Frame s s' ∧ ∀ oy ∈ os.zip ys, s'.actVar oy.1 = true := by
  induction os generalizing s ys with
  | nil => exact ⟨s, by simp [Wkf.activateOutputs], hI, .refl s, by simp⟩
  | cons o os ih =>
    cases ys with
    | nil => exact ⟨s, by simp [Wkf.activateOutputs], hI, .refl s, by simp⟩
    | cons y ys =>
      obtain ⟨rank, hr, -⟩ := hw.acyclic
      obtain ⟨s1, h1⟩ := activateVar_total hr s o y
      have hp := activateVar_pushed _ _ _ _ h1
      have hob := hl o (.head _)
      have hbm := List.mem_of_getElem? hb
      have hI1 : Held W V N E s1 := by
        refine hI.push hw hp (hd (o, y) (by simp)) (fun j _ hj => ?_) (fun k _ hk => ?_) (fun j c hc ho => ?_)
        · obtain ⟨p, hp, ho⟩ := inputPipe_some hj
          obtain ⟨c, hc, hin⟩ := hw.target p (List.mem_of_getElem? hp)
          rw [ho] at hin
          exact (in_ne_out hw.distinct hc hbm hin hob).elim
        · exact absurd hob ((mem_inputs.1 (List.mem_of_getElem? hk)).2.1 b hbm)
        · rw [out_unique hw.distinct hc hb ho hob]
          exact .inr hE
      obtain ⟨s2, h2, hI2, hf, hz⟩ := ih ys (fun w hw => hl w (.tail _ hw))
        (fun oy h => hd oy (by simp only [List.zip_cons_cons, List.mem_cons]; exact .inr h)) s1 hI1
      refine ⟨s2, by simp [Wkf.activateOutputs, h1, h2, bind, Except.bind], hI2, hp.frame.trans hf, ?_⟩
      intro oy hoy
      rcases List.mem_cons.1 (by simpa using hoy) with rfl | h
      · exact hf.var _ ((hp.var o).2 (.inr .refl))
      · exact hz oy h

/-- Evaluating a block whose inputs were read. -/
theorem Held.evaluateRead (hw : WellFormed W) {b : Block α} {i : Nat}
    (hb : W.blocks[i]? = some b) (s s1 : St α) (xs : List α) (hI : Held W V N (fun _ => False) s) (ha : byInputs s b = true)
    (h1 : Wkf.readInputs W b.inputs s = .ok (xs, s1)) :
    xs.length = b.inputs.length ∧ (∀ vx ∈ b.inputs.zip xs, Den W V vx.1 vx.2) ∧
      ((∃ e, b.eval xs = .error e ∧ Wkf.evaluateBlock W s i = .error e) ∨
       ∃ ys s', b.eval xs = .ok ys ∧ Wkf.evaluateBlock W s i = .ok (s', ys) ∧ Held W V N (fun _ => False) s') := by
  simp only [byInputs, List.all_eq_true] at ha
  have hbm := List.mem_of_getElem? hb
  obtain ⟨hI1, hf1, hlen, hz⟩ := hI.readInputs hw hbm b.inputs (fun _ h => h) s s1 xs ha h1
  refine ⟨hlen, hz, ?_⟩
  cases he : b.eval xs with
  | error e =>
    refine .inl ⟨e, rfl, ?_⟩
    simp [Wkf.evaluateBlock, hb, h1, he, bind, Except.bind]
  | ok ys =>
    right
    have hden : ∀ oy ∈ b.outputs.zip ys, Den W V oy.1 oy.2 := fun oy hoy => .block hbm hlen hz he hoy
    have hI1' : Held W V N (fun j => j = i) { s1 with evaluated := s1.evaluated ++ [i] } := by
      refine ⟨hI1.iv, hI1.val, hI1.out, hI1.var, hI1.fed, hI1.fedIn, hI1.blk, fun j c o hc ho hv => ?_, fun j hj => ?_⟩
      · rcases hI1.src j c o hc ho hv with h | h
        · exact .inl (List.mem_append_left _ h)
        · exact h.elim
      · rcases List.mem_append.1 hj with hj | hj
        · exact hI1.ev j hj
        · rw [List.mem_singleton] at hj
          subst hj
          exact (List.getElem?_eq_some_iff.1 hb).1
    obtain ⟨s2, h2, hI2, hf2, hz2⟩ := Held.activateOutputs (E := fun j => j = i) hw hb rfl b.outputs ys (fun _ h => h) hden _ hI1'
    refine ⟨ys, { s2 with actBlock := upd s2.actBlock i true }, rfl, ?_, ?_⟩
    · simp [Wkf.evaluateBlock, hb, h1, he, h2, bind, Except.bind]
    · refine ⟨hI2.iv, hI2.val, hI2.out, hI2.var, hI2.fed, hI2.fedIn, fun j hj => ?_, fun j c o hc ho hv => ?_, hI2.ev⟩
      · by_cases hji : j = i
        · subst hji
          exact ⟨b, xs, ys, hb, hlen, hz, he, fun v hv => hf2.var v (hf1.var v (ha v hv)), hz2⟩
        · simp only [upd, hji, if_false] at hj
          exact hI2.blk j hj
      · rcases hI2.src j c o hc ho hv with h | h
        · exact .inl h
        · subst h
          left
          show j ∈ s2.evaluated
          rw [hf2.ev]
          simp

theorem Held.evaluateBlock (hw : WellFormed W) {b : Block α} {i : Nat}
    (hb : W.blocks[i]? = some b) {s s' : St α} {ys : List α} (hI : Held W V N (fun _ => False) s) (ha : byInputs s b = true)
    (h : Wkf.evaluateBlock W s i = .ok (s', ys)) : Held W V N (fun _ => False) s' := by
  have h0 := h
  unfold Wkf.evaluateBlock at h0
  rw [hb] at h0
  simp only [bind_ok] at h0
  obtain ⟨⟨xs, s1⟩, h1, -⟩ := h0
  obtain ⟨-, -, ⟨e, -, h2⟩ | ⟨ys', s2, -, h2, h3⟩⟩ := hI.evaluateRead hw hb s s1 xs ha h1
  · rw [h2] at h; simp at h
  · rw [h2] at h
    simp only [Except.ok.injEq, Prod.mk.injEq] at h
    rw [← h.1]; exact h3

/-- The invariant between operations. -/
abbrev Kept (W : Workflow α) (V : Nat → Option α) (N : Nat → Prop) (s : St α) : Prop := Held W V N (fun _ => False) s

theorem Kept.blockEvaluation (hw : WellFormed W) {rt : List Nat} {i : Nat}
    {s s' : St α} {r : Bool} (hI : Kept W V N s) (h : Wkf.blockEvaluation W rt s i = .ok (s', r)) : Kept W V N s' := by
  obtain ⟨s1, h1, -, ⟨-, rfl, -⟩ | ⟨-, ha, ys, he, -⟩⟩ := blockEvaluation_ok h
  · exact (hI.activateInputs hw h1).1
  · obtain ⟨b, hb, hby⟩ := activable_byInputs ha
    exact (hI.activateInputs hw h1).1.evaluateBlock hw hb hby he

theorem Kept.evaluateNext (hw : WellFormed W) {rt : List Nat}
    {s s' : St α} {r : Option Nat} (hI : Kept W V N s) (h : Wkf.evaluateNext W rt s = .ok (s', r)) : Kept W V N s' := by
  unfold Wkf.evaluateNext at h
  rw [bind_ok] at h
  obtain ⟨s1, h1, h⟩ := h
  have hI1 := (hI.activateInputs hw h1).1
  split at h
  · simp only [Except.ok.injEq, Prod.mk.injEq] at h
    rw [← h.1]; exact hI1
  · rw [bind_ok] at h
    obtain ⟨⟨s2, q⟩, h2, h⟩ := h
    simp only [Except.ok.injEq, Prod.mk.injEq] at h
    rw [← h.1]; exact Kept.blockEvaluation hw hI1 h2

theorem Kept.continueRun (hw : WellFormed W) {rt : List Nat} {n : Nat}
    {s s' : St α} (hI : Kept W V N s) (h : Wkf.continueRun W rt n s = .ok (some s')) : Kept W V N s' :=
  (continueRun_inv (P := Kept W V N) (fun _ _ hs ha => (hs.activateInputs hw ha).1)
    (fun _ _ _ _ _ hs hb => Kept.blockEvaluation hw hs hb) n s s' hI h).1

theorem Kept.branchStep (hw : WellFormed W) (l : List Nat) (s s' : St α)
    (ha : ∀ i ∈ l, ∃ b, W.blocks[i]? = some b ∧ byInputs s b = true) (hI : Kept W V N s) (h : Wkf.branchStep W l s = .ok s') :
    Kept W V N s' := by
  induction l generalizing s with
  | nil =>
    simp only [Wkf.branchStep, Except.ok.injEq] at h
    subst h; exact hI
  | cons i l ih =>
    rw [Wkf.branchStep, bind_ok] at h
    obtain ⟨⟨s1, ys⟩, h1, h2⟩ := h
    obtain ⟨b, hb, hby⟩ := ha i (.head _)
    refine ih s1 (fun j hj => ?_) (hI.evaluateBlock hw hb hby h1) h2
    obtain ⟨c, hc, hbc⟩ := ha j (.tail _ hj)
    refine ⟨c, hc, ?_⟩
    simp only [byInputs, List.all_eq_true] at hbc ⊢
    exact fun v hv => (evaluateBlock_step h1).var v (hbc v hv)

theorem Kept.branchLoop (hw : WellFormed W) {rt blocks : List Nat} (n : Nat)
    (d d' : List Nat) (s s' : St α) (hI : Kept W V N s) (h : Wkf.branchLoop W rt blocks n d s = .ok (s', d')) : Kept W V N s' := by
  induction n generalizing d s with
  | zero =>
    simp only [Wkf.branchLoop, Except.ok.injEq, Prod.mk.injEq] at h
    rw [← h.1]; exact hI
  | succ n ih =>
    rw [Wkf.branchLoop] at h
    split at h
    · simp only [Except.ok.injEq, Prod.mk.injEq] at h
      rw [← h.1]; exact hI
    · rw [bind_ok] at h
      obtain ⟨s1, h1, h2⟩ := h
      refine ih _ s1 (Kept.branchStep hw _ s s1 (fun i hi => ?_) hI h1) h2
      rw [List.mem_filter, Bool.and_eq_true] at hi
      exact activable_byInputs hi.2.1

theorem Kept.evaluateBranch (hw : WellFormed W) {rt blocks : List Nat}
    {d' : List Nat} {s s' : St α} (hI : Kept W V N s) (h : Wkf.evaluateBranch W rt blocks s = .ok (s', d')) : Kept W V N s' := by
  unfold Wkf.evaluateBranch at h
  rw [bind_ok] at h
  obtain ⟨s1, h1, h⟩ := h
  split at h
  · exact Kept.branchLoop hw _ _ _ _ _ (hI.activateInputs hw h1).1 h
  · simp at h

/-! ### Completion -/

/-- When nothing is left to evaluate, the variables of the runtime blocks which must hold a value are active. -/
theorem Kept.saturated (hw : WellFormed W) {rt : List Nat} {s : St α}
    (hI : Kept W V N s) (hin : ∀ k v, (inputs W)[k]? = some v → (V k).isSome → s.actVar v = true)
    (hcl : ∀ i ∈ rt, ∀ j, Feeds W j i → j ∈ rt) (hna : ∀ i ∈ rt, activable W rt s i = false) {v : Nat} {x : α}
    (hd : Den W V v x) (hv : v ∈ inputs W ∨ ∃ i ∈ rt, ∃ b, W.blocks[i]? = some b ∧ v ∈ b.inputs ++ b.outputs) :
    s.actVar v = true := by
  induction hd with
  | input hk hx => exact hin _ _ hk (by rw [hx]; rfl)
  | @pipe p x hp hd ih =>
    obtain ⟨b0, hb0, hin0⟩ := hw.target p hp
    rcases hv with hv | ⟨i, hi, b, hb, hv⟩
    · exact absurd rfl (hw.input_free hv p hp)
    · have hvb : p.output ∈ b.inputs := by
        rcases List.mem_append.1 hv with h | h
        · exact h
        · exact (in_ne_out hw.distinct hb0 (List.mem_of_getElem? hb) hin0 h).elim
      have hact : s.actVar p.input = true := by
        apply ih
        by_cases hc : ∃ c ∈ W.blocks, p.input ∈ c.outputs
        · obtain ⟨c, hc, hpc⟩ := hc
          obtain ⟨j, hj⟩ := List.getElem?_of_mem hc
          exact .inr ⟨j, hcl i hi j ⟨b, c, p, hb, hj, hp, hvb, hpc⟩, c, hj, by simp [hpc]⟩
        · left
          push Not at hc
          rw [mem_inputs]
          refine ⟨mem_allVariables.2 (.inr ⟨p, hp, .inl rfl⟩), hc, fun q hq ho => ?_⟩
          obtain ⟨c, hc, hcin⟩ := hw.target q hq
          rw [ho] at hcin
          exact absurd hcin (hw.source p hp c hc)
      obtain ⟨y, -, h3, -⟩ := hI.var _ hact
      exact h3 _ (.single ⟨p, hp, rfl, rfl⟩)
  | @block b xs ys o y hb hlen hxs he hm ih =>
    have ho := (List.of_mem_zip hm).1
    rcases hv with hv | ⟨i, hi, c, hc, hv⟩
    · exact absurd ho ((mem_inputs.1 hv).2.1 b hb)
    · obtain ⟨j, hj⟩ := List.getElem?_of_mem hb
      have hij := nodup_blocks_disjoint hw.distinct hc hj hv (List.mem_append_right _ ho)
      subst hij
      rw [hj] at hc
      cases hc
      have hby : byInputs s b = true := by
        simp only [byInputs, List.all_eq_true]
        intro v hvb
        obtain ⟨n, hn⟩ := List.getElem?_of_mem hvb
        have hnl := (List.getElem?_eq_some_iff.1 hn).1
        have hxn : xs[n]? = some (xs[n]'(by omega)) := by simp
        have hz : (v, xs[n]'(by omega)) ∈ b.inputs.zip xs :=
          List.mem_of_getElem? (List.getElem?_zip_eq_some.2 ⟨hn, hxn⟩ : _ = some _) (i := n)
        exact ih _ hz (.inr ⟨i, hi, b, hj, by simp [hvb]⟩)
      have hact : s.actBlock i = true := by
        have := hna i hi
        unfold activable at this
        rw [hj] at this
        simp [hby, hi] at this
        exact this
      obtain ⟨b', xs', ys', h1, h2, h3, h4, -, h6⟩ := hI.blk i hact
      rw [hj] at h1
      cases h1
      have hx := den_list hw hlen h2 hxs h3
      subst hx
      rw [he] at h4
      cases h4
      exact h6 _ hm

/-- When nothing is left to evaluate, the runtime blocks whose inputs must all hold a value were evaluated. -/
theorem Kept.complete (hw : WellFormed W) {rt : List Nat} {s : St α}
    (hI : Kept W V N s) (hin : ∀ k v, (inputs W)[k]? = some v → (V k).isSome → s.actVar v = true)
    (hcl : ∀ i ∈ rt, ∀ j, Feeds W j i → j ∈ rt) (hna : ∀ i ∈ rt, activable W rt s i = false) {i : Nat} {b : Block α}
    (hi : i ∈ rt) (hb : W.blocks[i]? = some b) (hd : ∀ v ∈ b.inputs, ∃ x, Den W V v x) : s.actBlock i = true := by
  have hby : byInputs s b = true := by
    simp only [byInputs, List.all_eq_true]
    intro v hv
    obtain ⟨x, hx⟩ := hd v hv
    exact hI.saturated hw hin hcl hna hx (.inr ⟨i, hi, b, hb, by simp [hv]⟩)
  have := hna i hi
  unfold activable at this
  rw [hb] at this
  simp [hby, hi] at this
  exact this

/-- Once the block of the output was evaluated, the output of the state is what it must be. -/
theorem Kept.output_iff (hw : WellFormed W) {s : St α} (hI : Kept W V N s) {i v : Nat} {b : Block α}
    (hb : W.blocks[i]? = some b) (hv : W.output = some v) (hvb : v ∈ b.outputs) (ha : s.actBlock i = true) (x : α) :
    s.outputValue = some x ↔ Den W V v x := by
  constructor
  · intro h
    obtain ⟨o, ho, hd⟩ := hI.out x h
    rw [hv] at ho
    cases ho
    exact hd
  · intro hd
    obtain ⟨b1, xs, ys, h1, h2, h3, h4, -, h6⟩ := hI.blk i ha
    rw [hb] at h1
    cases h1
    have hact : s.actVar v = true := by
      cases hd with
      | input hk _ => exact absurd hvb ((mem_inputs.1 (List.mem_of_getElem? hk)).2.1 b (List.mem_of_getElem? hb))
      | pipe hp _ =>
        obtain ⟨c, hc, hin⟩ := hw.target _ hp
        exact (in_ne_out hw.distinct hc (List.mem_of_getElem? hb) hin hvb).elim
      | @block c xs' ys' _ _ hc hl' hxs' he' hm' =>
        obtain ⟨j, hj⟩ := List.getElem?_of_mem hc
        have e := out_unique hw.distinct hb hj hvb (List.of_mem_zip hm').1
        subst e
        rw [hb] at hj
        cases hj
        have hx := den_list hw h2 hl' h3 hxs'
        subst hx
        rw [h4] at he'
        cases he'
        exact h6 _ hm'
    obtain ⟨y, hy, -, h7⟩ := hI.var v hact
    rw [h7 v hv .refl, hd.unique hw hy]

theorem Kept.blockEvaluation_total (hw : WellFormed W) (hl : LocksOk W) {rt : List Nat}
    (he : EvalsOk W V rt) {i : Nat} (hi : i ∈ rt) (hlt : i < W.blocks.length) {s : St α} (hI : Kept W V N s)
    (hn : s.actBlock i = false → ∀ b, W.blocks[i]? = some b → ∀ v ∈ b.inputs, N v) :
    ∃ s' r, Wkf.blockEvaluation W rt s i = .ok (s', r) := by
  obtain ⟨b, hb⟩ : ∃ b, W.blocks[i]? = some b := ⟨W.blocks[i], by simp [hlt]⟩
  obtain ⟨s1, h1⟩ := activateInputs_total hw hl s
  have hf := activateInputs_frame h1
  unfold Wkf.blockEvaluation
  simp only [hb, h1, bind, Except.bind]
  split
  · rename_i ha
    obtain ⟨b', hb', hby⟩ := activable_byInputs ha
    rw [hb] at hb'
    cases hb'
    have hact : s.actBlock i = false := by
      unfold activable at ha
      rw [hb] at ha
      simp only [Bool.and_eq_true, Bool.or_eq_true, Bool.not_eq_true'] at ha
      rw [← hf.blk]
      rcases ha.2 with h | h
      · exact h
      · simp [hi] at h
    have hI1 := (hI.activateInputs hw h1).1
    have hby' := hby
    simp only [byInputs, List.all_eq_true] at hby'
    obtain ⟨xs, s2, h2⟩ := hI1.readInputs_total hw (List.mem_of_getElem? hb) b.inputs (fun _ h => h) s1
      (fun v hv => hn hact b hb v hv) hby'
    obtain ⟨hx1, hx2, ⟨e, h3, -⟩ | ⟨ys, s3, -, h3, -⟩⟩ := hI1.evaluateRead hw hb s1 s2 xs hby h2
    · obtain ⟨ys, hy⟩ := he i hi b xs hb hx1 hx2
      rw [hy] at h3
      simp at h3
    · rw [h3]
      exact ⟨s3, true, rfl⟩
  · exact ⟨s1, false, rfl⟩

theorem blockEvaluation_blk {rt : List Nat} {s s' : St α} {i j : Nat} {r : Bool} (h : Wkf.blockEvaluation W rt s i = .ok (s', r))
    (hj : s'.actBlock j = false) : s.actBlock j = false := by
  obtain ⟨s1, -, hf, ⟨-, rfl, -⟩ | ⟨-, -, ys, -, hst⟩⟩ := blockEvaluation_ok h
  · rw [← hf.blk]; exact hj
  · rw [← hf.blk]
    by_contra hc
    rw [Bool.not_eq_false] at hc
    rw [(hst.blk j).2 (.inl hc)] at hj
    simp at hj

/-- The values which the blocks left to evaluate read are in `N`. -/
def Needs (W : Workflow α) (rt : List Nat) (N : Nat → Prop) (s : St α) : Prop :=
  ∀ i ∈ rt, s.actBlock i = false → ∀ b, W.blocks[i]? = some b → ∀ v ∈ b.inputs, N v

theorem Kept.evalAll_total (hw : WellFormed W) (hl : LocksOk W) {rt : List Nat}
    (he : EvalsOk W V rt) (hlt : ∀ i ∈ rt, i < W.blocks.length) (l : List Nat) (hsub : ∀ i ∈ l, i ∈ rt) (s : St α)
    (hI : Kept W V N s) (hn : Needs W rt N s) : ∃ s', evalAll W rt l s = .ok s' ∧ Kept W V N s' ∧ Needs W rt N s' := by
  induction l generalizing s with
  | nil => exact ⟨s, rfl, hI, hn⟩
  | cons i l ih =>
    have hi := hsub i (.head _)
    obtain ⟨s1, r, h1⟩ := Kept.blockEvaluation_total hw hl he hi (hlt i hi) hI (hn i hi)
    obtain ⟨s2, h2, h3⟩ := ih (fun j hj => hsub j (.tail _ hj)) s1 (Kept.blockEvaluation hw hI h1)
      (fun j hj ha => hn j hj (blockEvaluation_blk h1 ha))
    exact ⟨s2, by rw [evalAll, h1]; exact h2, h3⟩

theorem Kept.continueLoop_total (hw : WellFormed W) (hl : LocksOk W) {rt : List Nat}
    (he : EvalsOk W V rt) (hlt : ∀ i ∈ rt, i < W.blocks.length) (n : Nat) (s : St α)
    (hI : Kept W V N s) (hn : Needs W rt N s) : ∃ s', continueLoop W rt n s = .ok s' := by
  induction n generalizing s with
  | zero => exact ⟨none, rfl⟩
  | succ n ih =>
    rw [continueLoop]
    split
    · exact ⟨some s, rfl⟩
    · obtain ⟨s1, h1, h2, h3⟩ := Kept.evalAll_total hw hl he hlt _ (fun i hi => (List.mem_filter.1 hi).1) s hI hn
      rw [h1]
      exact ih s1 h2 h3

theorem Kept.continueRun_total (hw : WellFormed W) (hl : LocksOk W) {rt : List Nat}
    (he : EvalsOk W V rt) (hlt : ∀ i ∈ rt, i < W.blocks.length) (s : St α) (hI : Kept W V N s) (hn : Needs W rt N s) :
    ∃ s', Wkf.continueRun W rt (W.blocks.length + 1) s = .ok (some s') := by
  obtain ⟨s1, h1⟩ := activateInputs_total hw hl s
  have hn1 : Needs W rt N s1 := fun i hi ha => hn i hi (by rw [← (activateInputs_frame h1).blk]; exact ha)
  obtain ⟨r, h2⟩ := Kept.continueLoop_total hw hl he hlt (W.blocks.length + 1) s1 (hI.activateInputs hw h1).1 hn1
  have hne := (continueLoop_ends (W := W) (rt := rt) (W.blocks.length + 1) s1 (by have := left_le W s1; omega) _
    (Nat.le_refl _)).1
  unfold Wkf.continueRun
  simp only [h1, bind, Except.bind]
  cases r with
  | none => exact absurd h2 hne
  | some s' => exact ⟨s', h2⟩

end DC.Wkf
