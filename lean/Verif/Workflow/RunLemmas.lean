import Verif.Workflow.RuntimeLemmas
/- Completion of the runs. -/
namespace DC.Wkf

variable {α : Type}

/-! ### Fuel -/

theorem PipeChain.error {W : Workflow α} {x : α} {v : Nat} {l : List Pipe} (h : PipeChain W v l) (s : St α) :
    ∃ e, activateVar W l.length s v x = .error e := by
  induction h generalizing s with
  | nil => exact ⟨_, rfl⟩
  | @cons p l hp hl ih =>
    rw [List.length_cons, activateVar]
    obtain ⟨j, hj⟩ := List.getElem?_of_mem hp
    have hm : (p, j) ∈ outputPipes W p.input := mem_outputPipes.2 ⟨hj, rfl⟩
    have key : ∀ (ps : List (Pipe × Nat)) (s : St α), (p, j) ∈ ps → ∃ e, ps.foldlM (fun s ip => activateVar W l.length
        { s with values := upd s.values ip.2 (some x), actPipe := upd s.actPipe ip.2 true } ip.1.output x) s = .error e := by
      intro ps
      induction ps with
      | nil => intro s h; simp at h
      | cons q ps ih2 =>
        intro s h
        rw [List.foldlM_cons]
        rcases List.mem_cons.1 h with rfl | h
        · obtain ⟨e, he⟩ := ih { s with values := upd s.values j (some x), actPipe := upd s.actPipe j true }
          exact ⟨e, by simp only [he]; rfl⟩
        · cases hq : activateVar W l.length
            { s with values := upd s.values q.2 (some x), actPipe := upd s.actPipe q.2 true } q.1.output x with
          | error e => exact ⟨e, rfl⟩
          | ok s1 => exact ih2 s1 h
    obtain ⟨e, he⟩ := key _ (if W.output = some p.input then { s with outputValue := some x } else s) hm
    exact ⟨e, by simp only [he]; rfl⟩

theorem PipeChain.take {W : Workflow α} {v : Nat} {l : List Pipe} (h : PipeChain W v l) (n : Nat) :
    PipeChain W v (l.take n) := by
  induction h generalizing n with
  | nil => simpa using PipeChain.nil
  | cons hp _ ih =>
    cases n with
    | zero => exact .nil
    | succ n => exact .cons hp (ih n)

theorem PipeChain.drop_mid {W : Workflow α} {v : Nat} (a : List Pipe) (p : Pipe) (c : List Pipe)
    (h : PipeChain W v (a ++ p :: c)) : PipeChain W p.input (p :: c) := by
  induction a generalizing v with
  | nil =>
    have h : PipeChain W v (p :: c) := h
    cases h with
    | cons h1 h2 => exact .cons h1 h2
  | cons q a ih =>
    have h : PipeChain W v (q :: (a ++ p :: c)) := h
    cases h with
    | cons _ h => exact ih h

theorem PipeChain.replace {W : Workflow α} {v : Nat} (a : List Pipe) (p : Pipe) (c d : List Pipe)
    (h : PipeChain W v (a ++ p :: c)) (hd : PipeChain W p.input d) : PipeChain W v (a ++ d) := by
  induction a generalizing v with
  | nil =>
    have h : PipeChain W v (p :: c) := h
    cases h with
    | cons h1 h2 => exact hd
  | cons q a ih =>
    have h : PipeChain W v (q :: (a ++ p :: c)) := h
    cases h with
    | cons hq h => exact .cons hq (ih h)

theorem exists_dup {β : Type} {l : List β} (h : ¬ l.Nodup) : ∃ a p b c, l = a ++ p :: (b ++ p :: c) := by
  induction l with
  | nil => simp at h
  | cons x l ih =>
    by_cases hx : x ∈ l
    · obtain ⟨b, c, rfl⟩ := List.append_of_mem hx
      exact ⟨[], x, b, c, rfl⟩
    · rw [List.nodup_cons, not_and] at h
      obtain ⟨a, p, b, c, rfl⟩ := ih (h hx)
      exact ⟨x :: a, p, b, c, rfl⟩

/-- A chain longer than the list of pipes can be made as long as wanted. -/
theorem PipeChain.long {W : Workflow α} {v : Nat} {l : List Pipe} (h : PipeChain W v l) (hl : W.pipes.length < l.length)
    (n : Nat) : ∃ l', PipeChain W v l' ∧ l'.length = n := by
  have hsub : ∀ p ∈ l, p ∈ W.pipes := by
    clear hl
    induction h with
    | nil => simp
    | cons hp _ ih =>
      intro q hq
      rcases List.mem_cons.1 hq with rfl | hq
      · exact hp
      · exact ih q hq
  have hnd : ¬ l.Nodup := fun hn => by
    have := (List.subperm_of_subset hn hsub).length_le
    omega
  obtain ⟨a, p, b, c, rfl⟩ := exists_dup hnd
  have h1 := PipeChain.drop_mid _ _ _ h
  have loop : ∀ n, ∃ l', PipeChain W p.input l' ∧ n ≤ l'.length := by
    intro n
    induction n with
    | zero => exact ⟨[], .nil, by simp⟩
    | succ n ih =>
      obtain ⟨l', h2, h3⟩ := ih
      exact ⟨(p :: b) ++ l', PipeChain.replace (p :: b) p c l' h1 h2, by simp; omega⟩
  obtain ⟨l', h2, h3⟩ := loop n
  refine ⟨(a ++ l').take n, (PipeChain.replace a p _ l' h h2).take n, ?_⟩
  simp; omega

theorem foldlM_mono {f g : St α → Pipe × Nat → Except PyErr (St α)} (hfg : ∀ s ip s', f s ip = .ok s' → g s ip = .ok s')
    (l : List (Pipe × Nat)) (s s' : St α) (h : l.foldlM f s = .ok s') : l.foldlM g s = .ok s' := by
  induction l generalizing s with
  | nil => exact h
  | cons p l ih =>
    rw [List.foldlM_cons, bind_ok] at h ⊢
    obtain ⟨s1, h1, h2⟩ := h
    exact ⟨s1, hfg _ _ _ h1, ih _ h2⟩

theorem activateVar_mono {W : Workflow α} {x : α} (n : Nat) (s : St α) (v : Nat) (s' : St α)
    (h : activateVar W n s v x = .ok s') : activateVar W (n + 1) s v x = .ok s' := by
  induction n generalizing s v s' with
  | zero => simp [activateVar] at h
  | succ n ih =>
    rw [activateVar, bind_ok] at h ⊢
    obtain ⟨s1, h1, h2⟩ := h
    exact ⟨s1, foldlM_mono (fun s ip s' hs => ih _ _ _ hs) _ _ _ h1, h2⟩

theorem activateVar_mono' {W : Workflow α} {x : α} {n m : Nat} (hnm : n ≤ m) {s : St α} {v : Nat} {s' : St α}
    (h : activateVar W n s v x = .ok s') : activateVar W m s v x = .ok s' := by
  induction m with
  | zero => rw [Nat.le_zero.1 hnm] at h; exact h
  | succ m ih =>
    rcases Nat.eq_or_lt_of_le hnm with rfl | hlt
    · exact h
    · exact activateVar_mono _ _ _ _ (ih (by omega))

theorem activateVar_enough {W : Workflow α} {x : α} {n : Nat} {s : St α} {v : Nat} {s' : St α}
    (h : activateVar W n s v x = .ok s') : activateVar W (fuelOf W) s v x = .ok s' := by
  cases hf : activateVar W (fuelOf W) s v x with
  | ok s2 =>
    have h1 := activateVar_mono' (Nat.le_max_left n (fuelOf W)) h
    have h2 := activateVar_mono' (Nat.le_max_right n (fuelOf W)) hf
    rw [h1] at h2
    rw [← h2]
  | error e =>
    obtain ⟨-, l, hl, hn⟩ := activateVar_error _ _ _ _ hf
    obtain ⟨l', hl', rfl⟩ := hl.long (by rw [hn]; unfold fuelOf; omega) n
    obtain ⟨e, he⟩ := hl'.error (x := x) s
    rw [he] at h
    simp at h

/-! ### Inputs -/

theorem allowedValues_lookup {W : Workflow α} (user : List (Nat × α)) (a : List (Nat × α))
    (h : allowedValues W user = .ok a) (k v : Nat) (hk : (inputs W)[k]? = some v) :
    a.lookup k = if W.lockFlag v then none else user.lookup k := by
  induction user generalizing a with
  | nil =>
    simp only [allowedValues, Except.ok.injEq] at h
    subst h; simp
  | cons kx user ih =>
    obtain ⟨k', x⟩ := kx
    rw [allowedValues] at h
    split at h
    · simp at h
    · rename_i v' hv'
      rw [bind_ok] at h
      obtain ⟨l, hl, h⟩ := h
      rw [bind_ok] at h
      obtain ⟨r, hr, h⟩ := h
      simp only [Except.ok.injEq] at h
      subst h
      have hlk : l = W.lockFlag v' := by
        unfold locked at hl
        split at hl
        · rename_i h1
          split at hl
          · simp only [Except.ok.injEq] at hl; rw [← hl, h1]
          · simp at hl
        · rename_i h1
          simp only [Except.ok.injEq] at hl; rw [← hl]; simpa using h1
      subst hlk
      have hr := ih r hr
      by_cases hkk : k = k'
      · subst hkk
        rw [hk] at hv'
        cases hv'
        cases hf : W.lockFlag v with
        | true =>
          rw [hf] at hr
          simp only [if_true] at hr ⊢
          exact hr
        | false => simp
      · have hb : (k == k') = false := by simpa using hkk
        rw [List.lookup_cons, hb]
        simp only
        split
        · exact hr
        · rw [List.lookup_cons, hb]
          exact hr

theorem inputValues_spec {W : Workflow α} {user : List (Nat × α)} {f : Nat → Option α}
    (h : inputValues W user = .ok f) (k v : Nat) (hk : (inputs W)[k]? = some v) : f k = expected W user k := by
  unfold inputValues at h
  rw [bind_ok] at h
  obtain ⟨a, ha, h⟩ := h
  simp only [Except.ok.injEq] at h
  subst h
  simp only [allowedValues_lookup user a ha k v hk, expected, hk, defaultValues]
  cases W.lockFlag v with
  | true => simp
  | false =>
    simp only [Bool.false_eq_true, if_false]
    cases user.lookup k <;> rfl

theorem expected_default {W : Workflow α} {user : List (Nat × α)} {k v : Nat} {x : α} (hk : (inputs W)[k]? = some v)
    (h : (expected W user k <|> W.default v) = some x) : expected W user k = some x := by
  unfold expected at h ⊢
  rw [hk] at h ⊢
  simp only at h ⊢
  split
  · rename_i hl
    rw [if_pos hl] at h
    cases hd : W.default v with
    | some d => rw [hd] at h; exact h
    | none => rw [hd] at h; exact h
  · rename_i hl
    rw [if_neg hl] at h
    cases hu : user.lookup k with
    | some y => rw [hu] at h; exact h
    | none =>
      rw [hu] at h
      cases hd : W.default v with
      | some d => rw [hd] at h; exact h
      | none => rw [hd] at h; exact h

theorem allowedValues_total {W : Workflow α} (hl : LocksOk W) (user : List (Nat × α))
    (hu : ∀ kx ∈ user, kx.1 < (inputs W).length) : ∃ a, allowedValues W user = .ok a := by
  induction user with
  | nil => exact ⟨_, rfl⟩
  | cons kx user ih =>
    obtain ⟨k, x⟩ := kx
    obtain ⟨a, ha⟩ := ih (fun y hy => hu y (.tail _ hy))
    have hk := hu _ (.head _)
    rw [allowedValues]
    have : (inputs W)[k]? = some ((inputs W)[k]) := by simp
    rw [this]
    simp only [hl.locked, ha, bind, Except.bind]
    exact ⟨_, rfl⟩

theorem activateOne_total {W : Workflow α} (hw : WellFormed W) (hl : LocksOk W) (s : St α) (k v : Nat) :
    ∃ s', activateOne W false s k v = .ok s' := by
  obtain ⟨rank, hr, -⟩ := hw.acyclic
  unfold activateOne
  split
  · exact activateInput_total hr _ _ _
  · split
    · exact activateInput_total hr _ _ _
    · rename_i hd
      split
      · rename_i h
        have := hl v h
        rw [hd] at this
        simp at this
      · exact ⟨s, rfl⟩

theorem activateInputsLoop_total {W : Workflow α} (hw : WellFormed W) (hl : LocksOk W) (l : List Nat) (k : Nat) (s : St α) :
    ∃ s', activateInputsLoop W false k l s = .ok s' := by
  induction l generalizing k s with
  | nil => exact ⟨s, rfl⟩
  | cons v l ih =>
    obtain ⟨s1, h1⟩ := activateOne_total hw hl s k v
    obtain ⟨s2, h2⟩ := ih (k + 1) s1
    exact ⟨s2, by rw [activateInputsLoop, h1]; exact h2⟩

theorem activateInputs_total {W : Workflow α} (hw : WellFormed W) (hl : LocksOk W) (s : St α) :
    ∃ s', activateInputs W false s = .ok s' := activateInputsLoop_total hw hl _ _ _

/-- With the check, the activation succeeds when all the inputs have a value. -/
theorem activateInputsLoop_check {W : Workflow α} (hw : WellFormed W) (l : List Nat) (k : Nat) (s : St α)
    (hs : ∀ m v, l[m]? = some v → (s.inputValues (k + m)).isSome ∨ (W.default v).isSome) :
    ∃ s', activateInputsLoop W true k l s = .ok s' := by
  obtain ⟨rank, hr, -⟩ := hw.acyclic
  induction l generalizing k s with
  | nil => exact ⟨s, rfl⟩
  | cons v l ih =>
    have h1 : ∃ s1, activateOne W true s k v = .ok s1 := by
      unfold activateOne
      split
      · exact activateInput_total hr _ _ _
      · rename_i hx
        split
        · exact activateInput_total hr _ _ _
        · rename_i hd
          have := hs 0 v rfl
          rw [Nat.add_zero, hx, hd] at this
          simp at this
    obtain ⟨s1, h1⟩ := h1
    have hf : Frame s s1 := activateInputsLoop_frame (c := true) [v] k s s1 (by rw [activateInputsLoop, h1]; rfl)
    obtain ⟨s2, h2⟩ := ih (k + 1) s1 (fun m w hm => by
      have := hs (m + 1) w (by simpa using hm)
      rw [show k + 1 + m = k + (m + 1) by omega]
      exact this.imp (hf.inp _) id)
    exact ⟨s2, by rw [activateInputsLoop, h1]; exact h2⟩

theorem activateInputs_check {W : Workflow α} (hw : WellFormed W) (s : St α)
    (hs : ∀ k v, (inputs W)[k]? = some v → (s.inputValues k).isSome ∨ (W.default v).isSome) :
    ∃ s', activateInputs W true s = .ok s' :=
  activateInputsLoop_check hw _ 0 s (fun m v hm => by rw [Nat.zero_add]; exact hs m v hm)

/-! ### Completion -/

/-- The evaluation of the blocks of `rt` succeeds on the values their inputs must hold. -/
def EvalsOk (W : Workflow α) (V : Nat → Option α) (rt : List Nat) : Prop :=
  ∀ i ∈ rt, ∀ b xs, W.blocks[i]? = some b → xs.length = b.inputs.length → (∀ vx ∈ b.inputs.zip xs, Den W V vx.1 vx.2) →
    ∃ ys, b.eval xs = .ok ys

theorem blockEvaluation_total {W : Workflow α} {V : Nat → Option α} (hw : WellFormed W) (hl : LocksOk W) {rt : List Nat}
    (he : EvalsOk W V rt) {i : Nat} (hi : i ∈ rt) (hlt : i < W.blocks.length) {s : St α} (hI : Good W V s) :
    ∃ s' r, blockEvaluation W rt s i = .ok (s', r) := by
  obtain ⟨b, hb⟩ : ∃ b, W.blocks[i]? = some b := ⟨W.blocks[i], by simp [hlt]⟩
  obtain ⟨s1, h1⟩ := activateInputs_total hw hl s
  unfold blockEvaluation
  simp only [hb, h1, bind, Except.bind]
  split
  · rename_i ha
    obtain ⟨b', hb', hby⟩ := activable_byInputs ha
    obtain ⟨xs, hx1, hx2, ⟨e, h2, -⟩ | ⟨ys, s2, -, h2, -⟩⟩ :=
      Inv.evaluateBlock hw hb' s1 (hI.activateInputs hw h1).1 hby
    · obtain ⟨ys, hy⟩ := he i hi b' xs hb' hx1 hx2
      rw [hy] at h2
      simp at h2
    · rw [h2]
      exact ⟨s2, true, rfl⟩
  · exact ⟨s1, false, rfl⟩

theorem evalAll_total {W : Workflow α} {V : Nat → Option α} (hw : WellFormed W) (hl : LocksOk W) {rt : List Nat}
    (he : EvalsOk W V rt) (hlt : ∀ i ∈ rt, i < W.blocks.length) (l : List Nat) (hsub : ∀ i ∈ l, i ∈ rt) (s : St α)
    (hI : Good W V s) : ∃ s', evalAll W rt l s = .ok s' ∧ Good W V s' := by
  induction l generalizing s with
  | nil => exact ⟨s, rfl, hI⟩
  | cons i l ih =>
    have hi := hsub i (.head _)
    obtain ⟨s1, r, h1⟩ := blockEvaluation_total hw hl he hi (hlt i hi) hI
    obtain ⟨s2, h2, h3⟩ := ih (fun j hj => hsub j (.tail _ hj)) s1 (Good.blockEvaluation hw hI h1)
    exact ⟨s2, by rw [evalAll, h1]; exact h2, h3⟩

theorem continueLoop_total {W : Workflow α} {V : Nat → Option α} (hw : WellFormed W) (hl : LocksOk W) {rt : List Nat}
    (he : EvalsOk W V rt) (hlt : ∀ i ∈ rt, i < W.blocks.length) (n : Nat) (s : St α)
    (hI : Good W V s) : ∃ s', continueLoop W rt n s = .ok s' := by
  induction n generalizing s with
  | zero => exact ⟨none, rfl⟩
  | succ n ih =>
    rw [continueLoop]
    split
    · exact ⟨some s, rfl⟩
    · obtain ⟨s1, h1, h2⟩ := evalAll_total hw hl he hlt _ (fun i hi => (List.mem_filter.1 hi).1) s hI
      rw [h1]
      exact ih s1 h2

theorem continueRun_total {W : Workflow α} {V : Nat → Option α} (hw : WellFormed W) (hl : LocksOk W) {rt : List Nat}
    (he : EvalsOk W V rt) (hlt : ∀ i ∈ rt, i < W.blocks.length) (s : St α) (hI : Good W V s) :
    ∃ s', continueRun W rt (W.blocks.length + 1) s = .ok (some s') := by
  obtain ⟨s1, h1⟩ := activateInputs_total hw hl s
  obtain ⟨r, h2⟩ := continueLoop_total hw hl he hlt (W.blocks.length + 1) s1 (hI.activateInputs hw h1).1
  have hne := (continueLoop_ends (W := W) (rt := rt) (W.blocks.length + 1) s1 (by have := left_le W s1; omega) _
    (Nat.le_refl _)).1
  unfold continueRun
  simp only [h1, bind, Except.bind]
  cases r with
  | none => exact absurd h2 hne
  | some s' => exact ⟨s', h2⟩

/-- When nothing is left to evaluate, the variables of the runtime blocks which must hold a value are active. -/
theorem Good.saturated {W : Workflow α} {V : Nat → Option α} (hw : WellFormed W) {rt : List Nat} {s : St α}
    (hI : Good W V s) (hin : ∀ k v, (inputs W)[k]? = some v → (V k).isSome → s.actVar v = true)
    (hcl : ∀ i ∈ rt, ∀ j, Feeds W j i → j ∈ rt) (hna : ∀ i ∈ rt, activable W rt s i = false) {v : Nat} {x : α}
    (hd : Den W V v x) (hv : v ∈ inputs W ∨ ∃ i ∈ rt, ∃ b, W.blocks[i]? = some b ∧ v ∈ b.inputs ++ b.outputs) :
    s.actVar v = true := by
  induction hd with
  | input hk hx => exact hin _ _ hk (by rw [hx]; rfl)
  | @pipe p x hp hd ih =>
    obtain ⟨b0, hb0, hin0⟩ := hw.target p hp
    rcases hv with hv | ⟨i, hi, b, hb, hv⟩
    · exact absurd rfl (hw.input_free hv p hp)
    · have hvb : p.output ∈ b.inputs := by
        rcases List.mem_append.1 hv with h | h
        · exact h
        · exact (in_ne_out hw.distinct hb0 (List.mem_of_getElem? hb) hin0 h).elim
      have hact : s.actVar p.input = true := by
        apply ih
        by_cases hc : ∃ c ∈ W.blocks, p.input ∈ c.outputs
        · obtain ⟨c, hc, hpc⟩ := hc
          obtain ⟨j, hj⟩ := List.getElem?_of_mem hc
          exact .inr ⟨j, hcl i hi j ⟨b, c, p, hb, hj, hp, hvb, hpc⟩, c, hj, by simp [hpc]⟩
        · left
          push Not at hc
          rw [mem_inputs]
          refine ⟨mem_allVariables.2 (.inr ⟨p, hp, .inl rfl⟩), hc, fun q hq ho => ?_⟩
          obtain ⟨c, hc, hcin⟩ := hw.target q hq
          rw [ho] at hcin
          exact absurd hcin (hw.source p hp c hc)
      obtain ⟨y, -, -, h3, -⟩ := hI.var _ hact
      exact h3 _ (.single ⟨p, hp, rfl, rfl⟩)
  | @block b xs ys o y hb hlen hxs he hm ih =>
    have ho := (List.of_mem_zip hm).1
    rcases hv with hv | ⟨i, hi, c, hc, hv⟩
    · exact absurd ho ((mem_inputs.1 hv).2.1 b hb)
    · obtain ⟨j, hj⟩ := List.getElem?_of_mem hb
      have hij := nodup_blocks_disjoint hw.distinct hc hj hv (List.mem_append_right _ ho)
      subst hij
      rw [hj] at hc
      cases hc
      have hby : byInputs s b = true := by
        simp only [byInputs, List.all_eq_true]
        intro v hvb
        obtain ⟨n, hn⟩ := List.getElem?_of_mem hvb
        have hnl := (List.getElem?_eq_some_iff.1 hn).1
        have hxn : xs[n]? = some (xs[n]'(by omega)) := by simp
        have hz : (v, xs[n]'(by omega)) ∈ b.inputs.zip xs :=
          List.mem_of_getElem? (List.getElem?_zip_eq_some.2 ⟨hn, hxn⟩ : _ = some _) (i := n)
        exact ih _ hz (.inr ⟨i, hi, b, hj, by simp [hvb]⟩)
      have hact : s.actBlock i = true := by
        have := hna i hi
        unfold activable at this
        rw [hj] at this
        simp [hby, hi] at this
        exact this
      obtain ⟨b', xs', ys', h1, h2, h3, h4, -, h6⟩ := hI.blk i hact
      rw [hj] at h1
      cases h1
      have hx : xs = xs' := by
        apply List.ext_getElem (by omega)
        intro n g1 g2
        have hn : n < b.inputs.length := by omega
        refine (hxs (b.inputs[n], xs[n]) ?_).unique hw (h3 (b.inputs[n], xs'[n]) ?_)
        · exact List.mem_of_getElem? (List.getElem?_zip_eq_some.2 ⟨by simp [hn], by simp⟩ : _ = some _) (i := n)
        · exact List.mem_of_getElem? (List.getElem?_zip_eq_some.2 ⟨by simp [hn], by simp⟩ : _ = some _) (i := n)
      subst hx
      rw [he] at h4
      cases h4
      exact h6 _ hm

/-- When nothing is left to evaluate, the runtime blocks whose inputs must all hold a value were evaluated. -/
theorem Good.complete {W : Workflow α} {V : Nat → Option α} (hw : WellFormed W) {rt : List Nat} {s : St α}
    (hI : Good W V s) (hin : ∀ k v, (inputs W)[k]? = some v → (V k).isSome → s.actVar v = true)
    (hcl : ∀ i ∈ rt, ∀ j, Feeds W j i → j ∈ rt) (hna : ∀ i ∈ rt, activable W rt s i = false) {i : Nat} {b : Block α}
    (hi : i ∈ rt) (hb : W.blocks[i]? = some b) (hd : ∀ v ∈ b.inputs, ∃ x, Den W V v x) : s.actBlock i = true := by
  have hby : byInputs s b = true := by
    simp only [byInputs, List.all_eq_true]
    intro v hv
    obtain ⟨x, hx⟩ := hd v hv
    exact hI.saturated hw hin hcl hna hx (.inr ⟨i, hi, b, hb, by simp [hv]⟩)
  have := hna i hi
  unfold activable at this
  rw [hb] at this
  simp [hby, hi] at this
  exact this

theorem progress_one {rt : List Nat} {s : St α} (hne : rt ≠ []) :
    progress rt s = 1 ↔ ∀ i ∈ rt, s.actBlock i = true := by
  unfold progress
  have hpos : (0 : Rat) < (rt.length : Rat) := by
    have : 0 < rt.length := List.length_pos_of_ne_nil hne
    exact_mod_cast this
  rw [div_eq_one_iff_eq (ne_of_gt hpos)]
  constructor
  · intro h i hi
    have h2 : (rt.filter s.actBlock).length = rt.length := by exact_mod_cast h
    have := List.filter_eq_self.1 (List.filter_sublist.eq_of_length h2)
    exact this i hi
  · intro h
    rw [List.filter_eq_self.2 (by simpa using h)]

/-- The successive steps of a run. -/
theorem run_ok {W : Workflow α} {so : SetOrder} {user : List (Nat × α)} {r : Option (St α)} (h : run W so user = .ok r) :
    ∃ vals s0 s1 rt, inputValues W user = .ok vals ∧ startRun W vals = .ok s0 ∧ activateInputs W true s0 = .ok s1 ∧
      runtimeBlocks W so = .ok rt ∧ ∃ s, continueRun W rt (W.blocks.length + 1) s1 = .ok (some s) ∧ progress rt s = 1 ∧
        r = some s := by
  unfold run at h
  rw [bind_ok] at h
  obtain ⟨vals, h1, h⟩ := h
  rw [bind_ok] at h
  obtain ⟨s0, h2, h⟩ := h
  rw [bind_ok] at h
  obtain ⟨s1, h3, h⟩ := h
  rw [bind_ok] at h
  obtain ⟨rt, h4, h⟩ := h
  rw [bind_ok] at h
  obtain ⟨o, h5, h⟩ := h
  refine ⟨vals, s0, s1, rt, h1, h2, h3, h4, ?_⟩
  cases o with
  | none =>
    exfalso
    unfold continueRun at h5
    rw [bind_ok] at h5
    obtain ⟨s2, -, h6⟩ := h5
    exact (continueLoop_ends (W := W) (rt := rt) (W.blocks.length + 1) s2 (by have := left_le W s2; omega) _
      (Nat.le_refl _)).1 h6
  | some s =>
    refine ⟨s, h5, ?_⟩
    simp only [toWorkflowRun] at h
    split at h
    · rename_i hp
      simp only [bind, Except.bind, Except.ok.injEq] at h
      exact ⟨hp, h.symm⟩
    · simp [bind, Except.bind] at h

theorem startRun_good {W : Workflow α} (hw : WellFormed W) {user : List (Nat × α)} {vals : Nat → Option α} {s : St α}
    (h1 : inputValues W user = .ok vals) (h2 : startRun W vals = .ok s) : Good W (expected W user) s :=
  ((Inv.init (V := expected W user) (vals := vals) (fun k v x hk hx => by
    rw [inputValues_spec h1 k v hk] at hx
    exact expected_default hk hx)).activateInputs hw h2).1

theorem runtimeBlocks_ne {W : Workflow α} {so : SetOrder} {rt : List Nat} (h : runtimeBlocks W so = .ok rt) : rt ≠ [] := by
  unfold runtimeBlocks at h
  rw [bind_ok] at h
  obtain ⟨o, -, h⟩ := h
  rw [bind_ok] at h
  obtain ⟨ups, -, h⟩ := h
  have key : ∀ n level acc r, o ∈ acc → runtimeLoop W so n level acc = .ok r → o ∈ r := by
    intro n
    induction n with
    | zero =>
      intro level acc r ho hr
      simp only [runtimeLoop, Except.ok.injEq] at hr
      rw [← hr]; exact ho
    | succ n ih =>
      intro level acc r ho hr
      rw [runtimeLoop] at hr
      split at hr
      · simp only [Except.ok.injEq] at hr
        rw [← hr]; exact ho
      · rw [bind_ok] at hr
        obtain ⟨next, -, hr⟩ := hr
        exact ih _ _ _ ((addNew_mem _ _ _).2 (.inl ho)) hr
  have := key _ _ _ _ (by simp) h
  intro he
  rw [he] at this
  simp at this

end DC.Wkf
