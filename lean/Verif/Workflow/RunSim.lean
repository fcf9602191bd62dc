import Verif.Workflow.StateSim
import Verif.Workflow.SavedProps
import Verif.Workflow.Props
/- Whole runs on a workflow and on the same workflow with other variables. -/
namespace DC.Wkf
set_option linter.unusedSectionVars false

variable {α : Type}

/-! ### The blocks to run -/

section
variable {ρ : Nat → Nat} {W W' : Workflow α}

theorem Twin.varIndices (h : Twin ρ W W') {v : Nat} (hv : v ∈ allVariables W) : variableIndices W' (ρ v) = variableIndices W v := by
  unfold variableIndices
  rw [h.ren.1, ren_findPort W.blocks 0 (fun b hb u hu e => h.inj u (mem_allVariables.2 (.inl (mem_blockVars.2 ⟨b, hb, hu⟩))) v hv e)]
  cases findPort v 0 W.blocks with
  | some a => rfl
  | none =>
    obtain ⟨h1, h2⟩ := h.upstreamNbv hv
    have hnb : ∀ u ∈ Wkf.nbvs W, u ∈ allVariables W := fun u hu => by rw [(nbvs_spec W).1]; exact List.mem_append_right _ hu
    have hm : ρ (Wkf.upstreamNbv W v) ∈ (Wkf.nbvs W).map ρ ↔ Wkf.upstreamNbv W v ∈ Wkf.nbvs W := by
      rw [List.mem_map]
      constructor
      · rintro ⟨x, hx, he⟩
        rw [← h.inj x (hnb x hx) _ h2 he]; exact hx
      · intro hx; exact ⟨_, hx, rfl⟩
    have hx : ((Wkf.nbvs W).map ρ).idxOf (ρ (Wkf.upstreamNbv W v)) = (Wkf.nbvs W).idxOf (Wkf.upstreamNbv W v) :=
      idxOf_map _ fun u hu he => h.inj u (hnb u hu) _ h2 he
    simp only [h1, h.nbvs, hm, hx]

theorem Twin.blockFrom (h : Twin ρ W W') {v : Nat} (hv : v ∈ allVariables W) :
    blockFromVariable W' (some (ρ v)) = blockFromVariable W (some v) := by
  simp only [blockFromVariable, h.varIndices hv]

theorem Twin.upVar (h : Twin ρ W W') {v : Nat} (hv : v ∈ allVariables W) :
    upstreamVar W' (ρ v) = (upstreamVar W v).map ρ ∧ ∀ u, upstreamVar W v = some u → u ∈ allVariables W := by
  unfold upstreamVar
  rw [h.inputPipe hv]
  cases Wkf.inputPipe W v with
  | none => exact ⟨rfl, fun u hu => by cases hu⟩
  | some i =>
    simp only [bind, Option.bind]
    rw [h.ren.2, List.getElem?_map]
    cases hp : W.pipes[i]? with
    | none => exact ⟨rfl, fun u hu => by cases hu⟩
    | some p =>
      refine ⟨rfl, fun u hu => ?_⟩
      cases hu
      exact (Renamed.pipeVar (List.mem_of_getElem? hp)).1

/-- The default values and the locks are the same.  Used in proofs only (no code). -/
def SameLocks (ρ : Nat → Nat) (W W' : Workflow α) : Prop :=
  ∀ v ∈ allVariables W, W'.default (ρ v) = W.default v ∧ W'.lockFlag (ρ v) = W.lockFlag v

theorem SameLocks.locked (h : SameLocks ρ W W') {v : Nat} (hv : v ∈ allVariables W) : Wkf.locked W' (ρ v) = Wkf.locked W v := by
  simp only [Wkf.locked, (h v hv).1, (h v hv).2]

/-- The result of `block_upstream_variables` with other variables.  Used in proofs only (no code). -/
def Upstream.rename (ρ : Nat → Nat) (u : Upstream) : Upstream := ⟨u.available.map ρ, u.nonblock.map ρ, u.wired.map ρ, u.locked.map ρ⟩

theorem Twin.upLoop (h : Twin ρ W W') (hl : SameLocks ρ W W') : ∀ (vs : List Nat) (u : Upstream), (∀ v ∈ vs, v ∈ allVariables W) →
    (∀ v ∈ u.wired, v ∈ allVariables W) →
    upstreamLoop W' (u.rename ρ) (vs.map ρ) = (upstreamLoop W u vs).map (Upstream.rename ρ) ∧
      ∀ r, upstreamLoop W u vs = .ok r → ∀ v ∈ r.wired, v ∈ allVariables W := by
  intro vs
  induction vs with
  | nil => intro u _ hu; exact ⟨rfl, fun r hr v hv => by cases hr; exact hu v hv⟩
  | cons v vs ih =>
    intro u hv hu
    have hv0 := hv v (by simp)
    have hv' : ∀ w ∈ vs, w ∈ allVariables W := fun w hw => hv w (by simp [hw])
    obtain ⟨e1, e2⟩ := h.upVar hv0
    rw [List.map_cons, upstreamLoop, upstreamLoop, e1]
    cases hw : upstreamVar W v with
    | none =>
      simp only [Option.map_none, hl.locked hv0]
      cases Wkf.locked W v with
      | error e => exact ⟨rfl, fun r hr => by cases hr⟩
      | ok b =>
        simp only [bind, Except.bind]
        cases b with
        | true =>
          have := ih { u with locked := u.locked ++ [v] } hv' hu
          simpa [Upstream.rename] using this
        | false =>
          have := ih { u with available := u.available ++ [v] } hv' hu
          simpa [Upstream.rename] using this
    | some w =>
      have hwv := e2 w hw
      have hnb : ∀ u ∈ Wkf.nbvs W, u ∈ allVariables W := fun u hu => by rw [(nbvs_spec W).1]; exact List.mem_append_right _ hu
      have hm : ρ w ∈ Wkf.nbvs W' ↔ w ∈ Wkf.nbvs W := by
        rw [h.nbvs, List.mem_map]
        constructor
        · rintro ⟨x, hx, he⟩
          rw [← h.inj x (hnb x hx) _ hwv he]; exact hx
        · intro hx; exact ⟨_, hx, rfl⟩
      simp only [Option.map_some, hm]
      by_cases hn : w ∈ Wkf.nbvs W
      · simp only [hn, if_true, hl.locked hwv]
        cases Wkf.locked W w with
        | error e => exact ⟨rfl, fun r hr => by cases hr⟩
        | ok b =>
          simp only [bind, Except.bind]
          cases b with
          | true =>
            have := ih { u with locked := u.locked ++ [w] } hv' hu
            simpa [Upstream.rename] using this
          | false =>
            have := ih { u with nonblock := u.nonblock ++ [w] } hv' hu
            simpa [Upstream.rename] using this
      · simp only [hn, if_false]
        have := ih { u with wired := u.wired ++ [w] } hv' (by
          intro x hx
          rcases List.mem_append.1 hx with hx | hx
          · exact hu x hx
          · rw [List.mem_singleton.1 hx]; exact hwv)
        simpa [Upstream.rename] using this

theorem Twin.blocksOf (h : Twin ρ W W') : ∀ (vs : List Nat), (∀ v ∈ vs, v ∈ allVariables W) →
    Wkf.blocksOf W' (vs.map ρ) = Wkf.blocksOf W vs := by
  intro vs
  induction vs with
  | nil => intro _; rfl
  | cons v vs ih =>
    intro hv
    rw [List.map_cons, Wkf.blocksOf, Wkf.blocksOf, h.blockFrom (hv v (by simp)), ih (fun w hw => hv w (by simp [hw]))]

theorem Twin.upBlocks (h : Twin ρ W W') (hl : SameLocks ρ W W') (so : SetOrder) (i : Nat) :
    Wkf.upstreamBlocks W' so i = Wkf.upstreamBlocks W so i := by
  simp only [Wkf.upstreamBlocks, h.block]
  cases hb : W.blocks[i]? with
  | none => rfl
  | some b =>
    simp only [Option.map_some, blockUpstream]
    have hbv : ∀ v ∈ b.inputs, v ∈ allVariables W := fun v hv =>
      mem_allVariables.2 (.inl (mem_blockVars.2 ⟨b, List.mem_of_getElem? hb, .inl hv⟩))
    obtain ⟨e1, e2⟩ := h.upLoop hl b.inputs {} hbv (by simp)
    rw [show ({} : Upstream) = Upstream.rename ρ {} from rfl, e1]
    rw [show Upstream.rename ρ {} = {} from rfl]
    cases hu : upstreamLoop W {} b.inputs with
    | error e => rfl
    | ok r =>
      simp only [Except.map, bind, Except.bind]
      rw [show (r.rename ρ).wired = r.wired.map ρ from rfl, h.blocksOf _ (e2 r hu)]

theorem Twin.levels (h : Twin ρ W W') (hl : SameLocks ρ W W') (so : SetOrder) : ∀ l, levelUp W' so l = levelUp W so l := by
  intro l
  induction l with
  | nil => rfl
  | cons i l ih => rw [levelUp, levelUp, h.upBlocks hl, ih]

theorem Twin.rtLoop (h : Twin ρ W W') (hl : SameLocks ρ W W') (so : SetOrder) : ∀ n l acc,
    runtimeLoop W' so n l acc = runtimeLoop W so n l acc := by
  intro n
  induction n with
  | zero => intro l acc; rfl
  | succ n ih =>
    intro l acc
    rw [runtimeLoop, runtimeLoop, h.levels hl]
    simp only [ih]

theorem Twin.runtime (h : Twin ρ W W') (hl : SameLocks ρ W W') (so : SetOrder) : runtimeBlocks W' so = runtimeBlocks W so := by
  have e : blockFromVariable W' W'.output = blockFromVariable W W.output := by
    rw [h.output]
    cases ho : W.output with
    | none => rfl
    | some o => exact h.blockFrom (h.outVar o ho)
  have hlen : W'.blocks.length = W.blocks.length := by rw [h.ren.1, List.length_map]
  simp only [runtimeBlocks, e, hlen, h.upBlocks hl, h.rtLoop hl]

/-! ### Whole runs -/

theorem Twin.allowed (h : Twin ρ W W') (hl : SameLocks ρ W W') : ∀ user : List (Nat × α), allowedValues W' user = allowedValues W user := by
  intro user
  induction user with
  | nil => rfl
  | cons p user ih =>
    obtain ⟨k, x⟩ := p
    rw [allowedValues, allowedValues, h.inputs, List.getElem?_map]
    cases hk : (Wkf.inputs W)[k]? with
    | none => rfl
    | some v => simp only [Option.map_some, hl.locked (mem_inputs.1 (List.mem_of_getElem? hk)).1, ih]

theorem Twin.inputVals (h : Twin ρ W W') (hl : SameLocks ρ W W') (user : List (Nat × α)) : inputValues W' user = inputValues W user := by
  have : defaultValues W' = defaultValues W := by
    funext k
    simp only [defaultValues, h.inputs, List.getElem?_map]
    cases hk : (Wkf.inputs W)[k]? with
    | none => rfl
    | some v => exact (hl v (mem_inputs.1 (List.mem_of_getElem? hk)).1).1
  simp only [inputValues, h.allowed hl, this]

/-- Runs from the same values end in the same way: with states which hold the same values, or with the same error. -/
theorem sim_run (h : Twin ρ W W') (hl : SameLocks ρ W W') (so : SetOrder) {user user' : List (Nat × α)}
    (hu : inputValues W user' = inputValues W user) : Both (BothSome (Sim ρ W W')) (run W so user) (run W' so user') := by
  have hlen : W'.blocks.length = W.blocks.length := by rw [h.ren.1, List.length_map]
  unfold run
  rw [h.inputVals hl, hu, h.runtime hl, hlen]
  refine (Both.of_eq rfl).bind fun vals vals' e => ?_
  subst e
  refine Both.bind (R := Sim ρ W W') ?_ fun s s' hs => ?_
  · exact sim_activateInputs h ⟨rfl, rfl, rfl, rfl, rfl, rfl, fun _ _ => rfl, fun k v hk _ => hl v (mem_inputs.1 (List.mem_of_getElem? hk)).1⟩
  · refine (sim_activateInputs h hs).bind fun s s' hs => ?_
    refine (Both.of_eq rfl).bind fun rt rt' e => ?_
    subst e
    refine (sim_continueRun h hs rt _).bind fun o o' ho => ?_
    cases o with
    | none => cases o' with
      | none => exact trivial
      | some _ => exact ho.elim
    | some t => cases o' with
      | none => exact ho.elim
      | some t' =>
        have ht : Sim ρ W W' t t' := ho
        have hp : progress rt t' = progress rt t := by simp only [progress, ht.blk]
        simp only [toWorkflowRun, hp]
        by_cases h1 : progress rt t = 1
        · simp only [h1, if_true]; exact ht
        · simp only [h1, if_false]; exact rfl
end

/-! ### The values a run holds -/

theorem activateInput_note {W : Workflow α} {s s' : St α} {k v : Nat} {x : α} (hd : (inputs W).Nodup) (hk : (inputs W)[k]? = some v)
    (hu : upstreamNbv W v = v) (h : activateInput W s v x = .ok s') : (s'.inputValues k).isSome := by
  have hi : inputIndex W v = some k := by
    unfold inputIndex
    obtain ⟨hlt, rfl⟩ := List.getElem?_eq_some_iff.1 hk
    simp only [hu, List.getElem_mem, if_true, hd.idxOf_getElem k hlt]
  refine (activateInput_pushed h).frame.inp k ?_
  simp only [noteInput, hi, upd, if_true, Option.isSome_some]

theorem activateLoop_all {W : Workflow α} (hd : (inputs W).Nodup) (hu : ∀ v ∈ inputs W, upstreamNbv W v = v) : ∀ (l : List Nat) (n : Nat)
    {s s' : St α}, (∀ (i v : Nat), l[i]? = some v → (inputs W)[n + i]? = some v) → activateInputsLoop W true n l s = .ok s' →
    ∀ i, i < l.length → (s'.inputValues (n + i)).isSome := by
  intro l
  induction l with
  | nil => intro n s s' _ _ i hi; simp at hi
  | cons v l ih =>
    intro n s s' hl h i hi
    simp only [activateInputsLoop] at h
    rw [bind_ok] at h
    obtain ⟨s1, h1, h2⟩ := h
    have hv : (inputs W)[n]? = some v := by simpa using hl 0 v rfl
    have hs1 : (s1.inputValues n).isSome := by
      have hun := hu v (List.mem_of_getElem? hv)
      unfold activateOne at h1
      cases hx : s.inputValues n with
      | some x => rw [hx] at h1; exact activateInput_note hd hv hun h1
      | none =>
        rw [hx] at h1
        cases hdf : W.default v with
        | some d => rw [hdf] at h1; exact activateInput_note hd hv hun h1
        | none =>
          rw [hdf] at h1
          simp only [if_true] at h1
          split at h1 <;> cases h1
    cases i with
    | zero => rw [Nat.add_zero]; exact (activateInputsLoop_frame _ _ _ _ h2).inp n hs1
    | succ i =>
      have := ih (n + 1) (fun j w hj => by
        have := hl (j + 1) w (by simpa using hj)
        rwa [show n + (j + 1) = n + 1 + j by omega] at this) h2 i (by simpa using hi)
      rwa [show n + (i + 1) = n + 1 + i by omega]

theorem input_self {W : Workflow α} {v : Nat} (hv : v ∈ inputs W) : upstreamNbv W v = v := by
  unfold upstreamNbv
  split
  · rfl
  · cases hu : upstreamVar W v with
    | none => rfl
    | some u =>
      simp only [upstreamVar, inputPipe, Option.bind_eq_bind, Option.bind_eq_some_iff, Option.some.injEq] at hu
      obtain ⟨i, hi, p, hp, rfl⟩ := hu
      rw [List.findIdx?_eq_some_iff_getElem] at hi
      obtain ⟨h1, h2, -⟩ := hi
      rw [List.getElem?_eq_getElem h1] at hp
      cases hp
      rw [(mem_inputs.1 hv).2.2 _ (List.getElem_mem _) (by simpa using h2)]
      show (if (nbvs W).contains v = true then v else v) = v
      exact ite_self _

/-- At its end, a run holds for each input the value it was expected to be run with. -/
theorem run_holds {W : Workflow α} (hw : WellFormed W) {so : SetOrder} {user : List (Nat × α)} {t : St α}
    (h : run W so user = .ok (some t)) {k : Nat} (hk : k < (inputs W).length) :
    t.inputValues k = expected W user k ∧ (t.inputValues k).isSome := by
  obtain ⟨vals, s0, s1, rt, h1, h2, h3, h4, s', h5, h6, h7⟩ := run_ok h
  cases h7
  have hg := ((startRun_good hw h1 h2).activateInputs hw h3).1
  have hall : ∀ i, i < (inputs W).length → (s1.inputValues i).isSome := fun i hi => by
    have := activateLoop_all (inputs_nodup hw.distinct) (fun v hv => input_self hv) (inputs W) 0 (s := s0) (s' := s1)
      (fun i v hi => by rwa [Nat.zero_add]) h3 i hi
    rwa [Nat.zero_add] at this
  have hend := (continueRun_inv (P := fun s => Good W (expected W user) s ∧ ∀ i, i < (inputs W).length → (s.inputValues i).isSome)
    (fun s s' hs ha => ⟨(hs.1.activateInputs hw ha).1, fun i hi => (activateInputs_frame ha).inp i (hs.2 i hi)⟩)
    (fun s s' i r _ hs hb => ⟨Good.blockEvaluation hw hs.1 hb, fun j hj => by
      obtain ⟨s2, -, hf, ⟨-, rfl, -⟩ | ⟨-, -, ys, he, -⟩⟩ := blockEvaluation_ok hb
      · exact hf.inp j (hs.2 j hj)
      · rw [evaluateBlock_inp he]; exact hf.inp j (hs.2 j hj)⟩) _ _ _ ⟨hg, hall⟩ h5).1
  obtain ⟨x, hx⟩ := Option.isSome_iff_exists.1 (hend.2 k hk)
  refine ⟨?_, hend.2 k hk⟩
  rw [hx, hend.1.iv k _ x (List.getElem?_eq_getElem hk) (by rw [hx]; rfl)]

theorem allowed_keys {W : Workflow α} : ∀ {user a : List (Nat × α)}, allowedValues W user = .ok a → ∀ kx ∈ a, kx.1 < (inputs W).length := by
  intro user
  induction user with
  | nil => intro a h; cases h; simp
  | cons p user ih =>
    intro a h
    obtain ⟨k, x⟩ := p
    rw [allowedValues] at h
    cases hk : (inputs W)[k]? with
    | none => rw [hk] at h; cases h
    | some v =>
      rw [hk] at h
      simp only [bind_ok] at h
      obtain ⟨l, -, r, hr, h⟩ := h
      cases h
      intro kx hkx
      split at hkx
      · exact ih hr kx hkx
      · rcases List.mem_cons.1 hkx with rfl | hkx
        · exact (List.getElem?_eq_some_iff.1 hk).1
        · exact ih hr kx hkx

theorem allowed_open {W : Workflow α} (hl : ∀ v ∈ inputs W, W.lockFlag v = false) : ∀ {user : List (Nat × α)},
    (∀ kx ∈ user, kx.1 < (inputs W).length) → allowedValues W user = .ok user := by
  intro user
  induction user with
  | nil => intro _; rfl
  | cons p user ih =>
    intro h
    obtain ⟨k, x⟩ := p
    have hk := List.getElem?_eq_getElem (h (k, x) (by simp))
    rw [allowedValues]
    simp only [hk, locked, hl _ (List.getElem_mem _), ih fun kx hkx => h kx (by simp [hkx])]
    rfl

/-- The values a run holds, given to an other run of a workflow without locked inputs, are those of the first run. -/
theorem values_again {W : Workflow α} (hw : WellFormed W) (hl : ∀ v ∈ inputs W, W.lockFlag v = false) {so : SetOrder}
    {user user' : List (Nat × α)} {t : St α} (h : run W so user = .ok (some t)) (hk : ∀ kx ∈ user', kx.1 < (inputs W).length)
    (hu : ∀ k, k < (inputs W).length → user'.lookup k = t.inputValues k) : inputValues W user' = inputValues W user := by
  obtain ⟨vals, s0, s1, rt, h1, -⟩ := run_ok h
  have hv := h1
  simp only [inputValues, bind_ok] at hv
  obtain ⟨a, ha, hv⟩ := hv
  rw [h1]
  simp only [inputValues, allowed_open hl hk, bind, Except.bind, Except.ok.injEq]
  funext k
  by_cases hlt : k < (inputs W).length
  · obtain ⟨e1, e2⟩ := run_holds hw h hlt
    obtain ⟨x, hx⟩ := Option.isSome_iff_exists.1 e2
    rw [hu k hlt, hx]
    rw [inputValues_spec h1 k _ (List.getElem?_eq_getElem hlt), ← e1, hx]
  · cases hv
    have hn : ∀ l : List (Nat × α), (∀ kx ∈ l, kx.1 < (inputs W).length) → l.lookup k = none := fun l hl' =>
      Dict.lookup_none.2 fun hm => by
        obtain ⟨kx, hkx, rfl⟩ := List.mem_map.1 hm
        exact hlt (hl' kx hkx)
    simp only [hn _ hk, hn _ (allowed_keys ha)]

end DC.Wkf
