import Verif.Workflow.SavedLemmas
import Verif.Workflow.PersistProps
/- The state read from the dict of a state, on the workflow read from the dict of the workflow. -/
namespace DC.Wkf
set_option linter.unusedSectionVars false

variable {α J : Type}

/-! ### Specification -/

/-- `W'` is the workflow `W` with other variables: the same blocks and pipes, the corresponding output, default values and
locks.  This is what reading the dict of a workflow gives (`C36_partial`).  Used in proofs only (no code). -/
structure Renamed (ρ : Nat → Nat) (W W' : Workflow α) : Prop where
  ren : ren ρ W W'
  inj : ∀ u ∈ allVariables W, ∀ v ∈ allVariables W, ρ u = ρ v → u = v
  outVar : ∀ o, W.output = some o → o ∈ allVariables W
  output : W'.output = W.output.map ρ
  default : ∀ v ∈ allVariables W, W'.default (ρ v) = W.default v

/-- A value which can be written is read back as it was.  Used in proofs only (no code). -/
def Codec.Sound (C : Codec α J) : Prop := ∀ x j, C.ser x = .ok j → C.des j = .ok x

/-! ### Renamed workflows -/

section
variable {ρ : Nat → Nat} {W W' : Workflow α}

theorem Renamed.vars (h : Renamed ρ W W') : allVariables W' = (allVariables W).map ρ := (ren_vars h.ren h.inj).1

theorem Renamed.inputs (h : Renamed ρ W W') : Wkf.inputs W' = (Wkf.inputs W).map ρ := ren_inputs h.ren h.inj

theorem Renamed.refl (ho : ∀ o, W.output = some o → o ∈ allVariables W) : Renamed id W W where
  ren := by constructor <;> simp
  inj _ _ _ _ h := h
  outVar := ho
  output := by simp
  default _ _ := rfl

theorem Renamed.trans {σ : Nat → Nat} {W'' : Workflow α} (h : Renamed ρ W W') (h' : Renamed σ W' W'') :
    Renamed (σ ∘ ρ) W W'' where
  ren := by
    constructor
    · rw [h'.ren.1, h.ren.1]; simp
    · rw [h'.ren.2, h.ren.2]; simp
  inj u hu v hv he := by
    refine h.inj u hu v hv (h'.inj _ ?_ _ ?_ he)
    · rw [h.vars]; exact List.mem_map_of_mem hu
    · rw [h.vars]; exact List.mem_map_of_mem hv
  outVar := h.outVar
  output := by rw [h'.output, h.output]; simp
  default v hv := by
    rw [Function.comp, h'.default (ρ v) (by rw [h.vars]; exact List.mem_map_of_mem hv), h.default v hv]

theorem Renamed.pipeVar {p : Pipe} (hp : p ∈ W.pipes) : p.input ∈ allVariables W ∧ p.output ∈ allVariables W :=
  ⟨mem_allVariables.2 (.inr ⟨p, hp, .inl rfl⟩), mem_allVariables.2 (.inr ⟨p, hp, .inr rfl⟩)⟩

theorem Renamed.blockVar {b : Block α} (hb : b ∈ W.blocks) {v : Nat} (hv : v ∈ b.inputs ∨ v ∈ b.outputs) :
    v ∈ allVariables W := mem_allVariables.2 (.inl (mem_blockVars.2 ⟨b, hb, hv⟩))

theorem Renamed.wf (h : Renamed ρ W W') (hw : WellFormed W) : WellFormed W' where
  distinct := by
    rw [ren_blockVars h.ren]
    refine List.Nodup.map_on (fun u hu v hv he => h.inj u (mem_allVariables.2 (.inl hu)) v (mem_allVariables.2 (.inl hv)) he)
      hw.distinct
  single := by
    rw [h.ren.2, List.map_map]
    have : ((fun x : Pipe => x.output) ∘ fun p : Pipe => (⟨ρ p.input, ρ p.output, p.memorize⟩ : Pipe)) =
        ρ ∘ fun p : Pipe => p.output := rfl
    rw [this, ← List.map_map]
    refine List.Nodup.map_on (fun u hu v hv he => ?_) hw.single
    obtain ⟨p, hp, rfl⟩ := List.mem_map.1 hu
    obtain ⟨q, hq, rfl⟩ := List.mem_map.1 hv
    exact h.inj _ (pipeVar hp).2 _ (pipeVar hq).2 he
  target p hp := by
    rw [h.ren.2] at hp
    obtain ⟨q, hq, rfl⟩ := List.mem_map.1 hp
    obtain ⟨b, hb, hin⟩ := hw.target q hq
    exact ⟨⟨b.inputs.map ρ, b.outputs.map ρ, b.eval⟩, by rw [h.ren.1]; exact List.mem_map_of_mem hb,
      List.mem_map_of_mem hin⟩
  source p hp c hc hin := by
    rw [h.ren.2] at hp
    rw [h.ren.1] at hc
    obtain ⟨q, hq, rfl⟩ := List.mem_map.1 hp
    obtain ⟨b, hb, rfl⟩ := List.mem_map.1 hc
    obtain ⟨v, hv, he⟩ := List.mem_map.1 hin
    have := h.inj v (blockVar hb (.inl hv)) q.input (pipeVar hq).1 he
    subst this
    exact hw.source q hq b hb hv
  acyclic := by
    obtain ⟨rank, h1, h2⟩ := hw.acyclic
    let back : Nat → Nat := fun u => ((allVariables W).find? (fun v => ρ v == u)).getD 0
    have hback : ∀ v ∈ allVariables W, back (ρ v) = v := by
      intro v hv
      cases hf : (allVariables W).find? (fun x => ρ x == ρ v) with
      | none =>
        have := List.find?_eq_none.1 hf v hv
        simp at this
      | some w =>
        have e1 := List.find?_some hf
        have e2 := List.mem_of_find?_eq_some hf
        show ((allVariables W).find? (fun x => ρ x == ρ v)).getD 0 = v
        rw [hf]
        exact h.inj w e2 v hv (by simpa using e1)
    refine ⟨fun u => rank (back u), fun p hp => ?_, fun b hb i hi o ho => ?_⟩
    · rw [h.ren.2] at hp
      obtain ⟨q, hq, rfl⟩ := List.mem_map.1 hp
      simp only [hback _ (pipeVar hq).1, hback _ (pipeVar hq).2]
      exact h1 q hq
    · rw [h.ren.1] at hb
      obtain ⟨c, hc, rfl⟩ := List.mem_map.1 hb
      obtain ⟨i', hi', rfl⟩ := List.mem_map.1 hi
      obtain ⟨o', ho', rfl⟩ := List.mem_map.1 ho
      simp only [hback _ (blockVar hc (.inl hi')), hback _ (blockVar hc (.inr ho'))]
      exact h2 c hc i' hi' o' ho'

theorem Renamed.flow (h : Renamed ρ W W') {v w : Nat} (hf : Flow W v w) : Flow W' (ρ v) (ρ w) := by
  induction hf with
  | refl => exact .refl
  | tail _ hp ih =>
    obtain ⟨p, hp, rfl, rfl⟩ := hp
    exact ih.tail ⟨⟨ρ p.input, ρ p.output, p.memorize⟩, by rw [h.ren.2]; exact List.mem_map.2 ⟨p, hp, rfl⟩, rfl, rfl⟩

theorem Renamed.flow_back (h : Renamed ρ W W') {v u : Nat} (hv : v ∈ allVariables W) (hf : Flow W' (ρ v) u) :
    ∃ w ∈ allVariables W, u = ρ w ∧ Flow W v w := by
  induction hf with
  | refl => exact ⟨v, hv, rfl, .refl⟩
  | tail _ hp ih =>
    obtain ⟨w, hw, rfl, hf⟩ := ih
    obtain ⟨p, hp, e, rfl⟩ := hp
    rw [h.ren.2] at hp
    obtain ⟨q, hq, rfl⟩ := List.mem_map.1 hp
    have := h.inj q.input (pipeVar hq).1 w hw e
    subst this
    exact ⟨q.output, (pipeVar hq).2, rfl, hf.tail ⟨q, hq, rfl, rfl⟩⟩

theorem findIdx?_same {β : Type} (f g : β → Bool) : ∀ l : List β, (∀ x ∈ l, f x = g x) → l.findIdx? f = l.findIdx? g := by
  intro l
  induction l with
  | nil => intro _; rfl
  | cons x l ih =>
    intro h
    rw [List.findIdx?_cons, List.findIdx?_cons, h x (by simp), ih fun y hy => h y (by simp [hy])]

theorem Renamed.inputPipe (h : Renamed ρ W W') {v : Nat} (hv : v ∈ allVariables W) :
    Wkf.inputPipe W' (ρ v) = Wkf.inputPipe W v := by
  unfold Wkf.inputPipe
  rw [h.ren.2, List.findIdx?_map]
  refine findIdx?_same _ _ _ fun p hp => ?_
  simp only [Function.comp]
  rw [Bool.eq_iff_iff, beq_iff_eq, beq_iff_eq]
  exact ⟨fun e => h.inj _ (pipeVar hp).2 _ hv e, fun e => by rw [e]⟩

theorem Renamed.pipe (h : Renamed ρ W W') {j : Nat} {p : Pipe} (hp : W.pipes[j]? = some p) :
    W'.pipes[j]? = some ⟨ρ p.input, ρ p.output, p.memorize⟩ := by
  rw [h.ren.2, List.getElem?_map, hp]; rfl

theorem Renamed.pipe_back (h : Renamed ρ W W') {j : Nat} {q : Pipe} (hq : W'.pipes[j]? = some q) :
    ∃ p, W.pipes[j]? = some p ∧ q = ⟨ρ p.input, ρ p.output, p.memorize⟩ := by
  rw [h.ren.2, List.getElem?_map, Option.map_eq_some_iff] at hq
  obtain ⟨p, hp, rfl⟩ := hq
  exact ⟨p, hp, rfl⟩

theorem Renamed.block_back (h : Renamed ρ W W') {i : Nat} {c : Block α} (hc : W'.blocks[i]? = some c) :
    ∃ b, W.blocks[i]? = some b ∧ c = ⟨b.inputs.map ρ, b.outputs.map ρ, b.eval⟩ := by
  rw [h.ren.1, List.getElem?_map, Option.map_eq_some_iff] at hc
  obtain ⟨b, hb, rfl⟩ := hc
  exact ⟨b, hb, rfl⟩

theorem Renamed.block (h : Renamed ρ W W') {i : Nat} {b : Block α} (hb : W.blocks[i]? = some b) :
    W'.blocks[i]? = some ⟨b.inputs.map ρ, b.outputs.map ρ, b.eval⟩ := by
  rw [h.ren.1, List.getElem?_map, hb]; rfl

theorem Renamed.den (h : Renamed ρ W W') {V : Nat → Option α} {v : Nat} {x : α} (hv : v ∈ allVariables W) :
    Den W' V (ρ v) x ↔ Den W V v x :=
  ⟨fun hd => ren_den_back h.ren h.inj hd v hv rfl, fun hd => ren_den h.ren h.inj hd⟩

theorem Renamed.indices (h : Renamed ρ W W') (hw : WellFormed W) {v : Nat} (hv : v ∈ allVariables W) :
    variableIndices W' (ρ v) = variableIndices W v := by
  have hv' := hv
  rw [(nbvs_spec W).1, List.mem_append] at hv'
  rcases hv' with hb | hn
  · obtain ⟨c, hc, hm⟩ := mem_blockVars.1 hb
    obtain ⟨i, hi⟩ := List.getElem?_of_mem hc
    obtain ⟨j, c', side, m, h1, -⟩ := findPort_some W.blocks 0 c i hi (List.mem_append.2 hm)
    have h2 : findPort (ρ v) 0 W'.blocks = findPort v 0 W.blocks := by
      rw [h.ren.1]
      exact ren_findPort _ _ fun d hd u hu he => h.inj u (blockVar hd hu) v hv he
    unfold variableIndices
    rw [h2, h1]
  · have hn' : ρ v ∈ nbvs W' := by
      rw [(ren_vars h.ren h.inj).2]; exact List.mem_map_of_mem hn
    rw [(addr_free hw.target hn).1, (addr_free (h.wf hw).target hn').1, (ren_vars h.ren h.inj).2, idxOf_map]
    intro u hu he
    refine h.inj u ?_ v hv he
    rw [(nbvs_spec W).1]; exact List.mem_append_right _ hu

theorem indices_inj (hw : WellFormed W) {u v : Nat} (hu : u ∈ allVariables W) (hv : v ∈ allVariables W)
    (he : variableIndices W u = variableIndices W v) : u = v := by
  obtain ⟨a1, a2⟩ := addr_ok hw.target hu
  obtain ⟨b1, b2⟩ := addr_ok hw.target hv
  rw [a1, b1, Except.ok.injEq] at he
  rw [he, b2, Except.ok.injEq] at a2
  exact a2.symm

end

/-! ### What is written and read -/

section
variable {C : Codec α J} {W : Workflow α} {file : Nat → Bool} {s : St α}

theorem saveInputs_round (hC : C.Sound) : ∀ (keys : List Nat) (l : List (Nat × J)),
    saveInputs C W file s keys = .ok l → ∃ l', loadValues C l = .ok l' ∧
      ∀ k, l'.lookup k = if k ∈ keys ∧ file k = false then s.inputValues k else none := by
  intro keys
  induction keys with
  | nil =>
    intro l h
    simp only [saveInputs, Except.ok.injEq] at h
    subst h
    exact ⟨[], rfl, fun k => by simp⟩
  | cons a keys ih =>
    intro l h
    rw [saveInputs] at h
    split at h
    · simp at h
    · simp at h
    · rename_i v x hv hx
      split at h
      · rename_i hf
        obtain ⟨l', h1, h2⟩ := ih l h
        refine ⟨l', h1, fun k => ?_⟩
        rw [h2]
        by_cases hk : k = a
        · subst hk; simp [hf]
        · simp [hk]
      · rename_i hf
        rw [bind_ok] at h
        obtain ⟨j, hj, h⟩ := h
        rw [bind_ok] at h
        obtain ⟨r, hr, h⟩ := h
        simp only [Except.ok.injEq] at h
        subst h
        obtain ⟨l', h1, h2⟩ := ih r hr
        refine ⟨(a, x) :: l', ?_, fun k => ?_⟩
        · simp [loadValues, hC x j hj, h1, bind, Except.bind]
        · rw [List.lookup_cons]
          by_cases hk : k = a
          · subst hk; simp [hf, hx]
          · have : (k == a) = false := by simpa using hk
            rw [this]
            simp only [h2, List.mem_cons, hk, false_or]

theorem saveOutput_round (hC : C.Sound) {o : Option α} {j : Option J} (h : saveOutput C o = .ok j) :
    loadOutput C j = .ok o := by
  cases o with
  | none =>
    simp only [saveOutput, Except.ok.injEq] at h
    subst h; rfl
  | some x =>
    rw [saveOutput, bind_ok] at h
    obtain ⟨y, hy, h⟩ := h
    rw [bind_ok] at h
    obtain ⟨_, -, h⟩ := h
    simp only [Except.ok.injEq] at h
    subst h
    simp [loadOutput, hC x y hy, bind, Except.bind]

/-- The value `x` of the pipe `p` is written in the dict of a state.  Used in proofs only (no code). -/
def Stored (C : Codec α J) (p : Pipe) (x : α) : Prop := p.memorize = true ∧ C.isFile x = false ∧ ∃ j, C.ser x = .ok j

theorem savePipe_spec {p : Pipe} {x : α} {o : Option J} (h : savePipe C p x = .ok o) :
    (Stored C p x → ∃ j, o = some j ∧ C.ser x = .ok j) ∧ ∀ j, o = some j → C.ser x = .ok j := by
  unfold savePipe at h
  split at h
  · split at h
    · rename_i j hj
      simp only [Except.ok.injEq] at h
      subst h
      exact ⟨fun _ => ⟨j, rfl, hj⟩, fun i hi => by cases hi; exact hj⟩
    · rename_i hj
      simp only [Except.ok.injEq] at h
      subst h
      refine ⟨fun hs => ?_, fun i hi => by simp at hi⟩
      obtain ⟨j, h⟩ := hs.2.2
      rw [hj] at h; simp at h
    · simp at h
  · rename_i hc
    simp only [Except.ok.injEq] at h
    subst h
    refine ⟨fun hs => ?_, fun i hi => by simp at hi⟩
    rw [hs.1, hs.2.1] at hc
    simp at hc

theorem saveValues_round (hC : C.Sound) {W' : Workflow α} : ∀ (ps : List Pipe) (i : Nat) (l : List (Nat × J)),
    saveValues C s i ps = .ok l → i + ps.length ≤ W'.pipes.length → ∃ l', loadPipes C W' l = .ok l' ∧
      (∀ j x, l'.lookup j = some x → i ≤ j ∧ s.values j = some x) ∧
      ∀ m p x, ps[m]? = some p → s.values (i + m) = some x → Stored C p x → l'.lookup (i + m) = some x := by
  intro ps
  induction ps with
  | nil =>
    intro i l h _
    simp only [saveValues, Except.ok.injEq] at h
    subst h
    exact ⟨[], rfl, by simp, by simp⟩
  | cons p ps ih =>
    intro i l h hlen
    rw [saveValues] at h
    rw [List.length_cons] at hlen
    split at h
    · rename_i hx
      obtain ⟨l', h1, h2, h3⟩ := ih (i + 1) l h (by omega)
      refine ⟨l', h1, fun j x hj => ⟨by have := (h2 j x hj).1; omega, (h2 j x hj).2⟩, fun m q x hm hv hs => ?_⟩
      cases m with
      | zero => rw [Nat.add_zero, hx] at hv; simp at hv
      | succ m =>
        have := h3 m q x (by simpa using hm) (by rw [show i + 1 + m = i + (m + 1) by omega]; exact hv) hs
        rw [show i + 1 + m = i + (m + 1) by omega] at this
        exact this
    · rename_i x hx
      rw [bind_ok] at h
      obtain ⟨o, ho, h⟩ := h
      rw [bind_ok] at h
      obtain ⟨r, hr, h⟩ := h
      obtain ⟨l', h1, h2, h3⟩ := ih (i + 1) r hr (by omega)
      obtain ⟨p1, p2⟩ := savePipe_spec ho
      cases o with
      | some j =>
        simp only [Except.ok.injEq] at h
        subst h
        refine ⟨(i, x) :: l', ?_, fun k y hk => ?_, fun m q y hm hv hs => ?_⟩
        · have hi : i < W'.pipes.length := by omega
          simp [loadPipes, hi, hC x j (p2 j rfl), h1, bind, Except.bind]
        · rw [List.lookup_cons] at hk
          by_cases hki : k = i
          · subst hki
            simp only [beq_self_eq_true, Option.some.injEq] at hk
            subst hk
            exact ⟨Nat.le_refl _, hx⟩
          · have : (k == i) = false := by simpa using hki
            rw [this] at hk
            exact ⟨by have := (h2 k y hk).1; omega, (h2 k y hk).2⟩
        · rw [List.lookup_cons]
          cases m with
          | zero =>
            rw [Nat.add_zero, hx] at hv
            rw [Nat.add_zero, beq_self_eq_true]
            exact hv
          | succ m =>
            have hne : (i + (m + 1) == i) = false := by simp
            rw [hne]
            have := h3 m q y (by simpa using hm) (by rw [show i + 1 + m = i + (m + 1) by omega]; exact hv) hs
            rw [show i + 1 + m = i + (m + 1) by omega] at this
            exact this
      | none =>
        simp only [Except.ok.injEq] at h
        subst h
        refine ⟨l', h1, fun j x hj => ⟨by have := (h2 j x hj).1; omega, (h2 j x hj).2⟩, fun m q y hm hv hs => ?_⟩
        cases m with
        | zero =>
          rw [Nat.add_zero, hx] at hv
          cases hv
          simp only [List.getElem?_cons_zero, Option.some.injEq] at hm
          subst hm
          obtain ⟨j, h, -⟩ := p1 hs
          simp at h
        | succ m =>
          have := h3 m q y (by simpa using hm) (by rw [show i + 1 + m = i + (m + 1) by omega]; exact hv) hs
          rw [show i + 1 + m = i + (m + 1) by omega] at this
          exact this

theorem loadEvaluated_ok {W' : Workflow α} : ∀ l : List Nat, (∀ i ∈ l, i < W'.blocks.length) → loadEvaluated W' l = .ok l := by
  intro l
  induction l with
  | nil => intro _; rfl
  | cons i l ih =>
    intro h
    simp [loadEvaluated, h i (by simp), ih fun j hj => h j (by simp [hj]), bind, Except.bind]

/-- The state read, before its inputs are activated.  Used in proofs only (no code). -/
structure Restored (C : Codec α J) (file : Nat → Bool) (W : Workflow α) (s : St α) (ρ : Nat → Nat) (r : St α) : Prop where
  inp : ∀ k, r.inputValues k = if file k then none else s.inputValues k
  val : ∀ j x, r.values j = some x → s.values j = some x
  kept : ∀ j p x, W.pipes[j]? = some p → s.values j = some x → Stored C p x → r.values j = some x
  out : r.outputValue = s.outputValue
  blk : ∀ i, r.actBlock i = true ↔ i < W.blocks.length ∧ s.actBlock i = true
  pipe : ∀ j, r.actPipe j = true ↔ j < W.pipes.length ∧ s.actPipe j = true
  var : ∀ u, r.actVar u = true ↔ ∃ v ∈ allVariables W, u = ρ v ∧ s.actVar v = true
  ev : r.evaluated = s.evaluated

/-- What was written is read, up to the activation of the inputs. -/
theorem saved_loads (hC : C.Sound) {ρ : Nat → Nat} {W' : Workflow α} (hw : WellFormed W) (hR : Renamed ρ W W')
    {keys : List Nat} (hk : ∀ k, k ∈ keys ↔ (s.inputValues k).isSome) (hev : ∀ i ∈ s.evaluated, i < W.blocks.length)
    {d : StD J} (h : saveState C W file keys s = .ok d) :
    ∃ r, Restored C file W s ρ r ∧ loadState C W' d = activateInputs W' false r := by
  unfold saveState at h
  rw [bind_ok] at h
  obtain ⟨ins, h1, h⟩ := h
  rw [bind_ok] at h
  obtain ⟨out, h2, h⟩ := h
  rw [bind_ok] at h
  obtain ⟨vals, h3, h⟩ := h
  rw [bind_ok] at h
  obtain ⟨vars, h4, h⟩ := h
  simp only [Except.ok.injEq] at h
  subst h
  obtain ⟨ins', i1, i2⟩ := saveInputs_round hC keys ins h1
  have o1 := saveOutput_round hC h2
  have hplen : W'.pipes.length = W.pipes.length := by rw [hR.ren.2]; simp
  have hblen : W'.blocks.length = W.blocks.length := by rw [hR.ren.1]; simp
  obtain ⟨vals', v1, v2, v3⟩ := saveValues_round hC (W' := W') W.pipes 0 vals h3 (by omega)
  obtain ⟨as, ha⟩ : ∃ as, (allVariables W').mapM (variableIndices W') = .ok as :=
    ⟨_, mapM_pure (g := addrOf W') fun v hv => (addr_ok (hR.wf hw).target hv).1⟩
  have hev' : loadEvaluated W' s.evaluated = .ok s.evaluated := loadEvaluated_ok _ (by rw [hblen]; exact hev)
  have hvars : ∀ v ∈ allVariables W, (vars.contains (addrOf W v) = true ↔ s.actVar v = true) := by
    intro v hv
    rw [List.contains_iff_mem]
    rw [Py.mapM_ok] at h4
    constructor
    · intro hm
      obtain ⟨n, hn⟩ := List.getElem?_of_mem hm
      have hl := h4.length_eq
      have hn' : n < ((allVariables W).filter s.actVar).length := by
        have := (List.getElem?_eq_some_iff.1 hn).1
        omega
      have hu := List.mem_filter.1 (List.getElem_mem hn')
      have hp := (List.forall₂_iff_get.1 h4).2 n hn' (List.getElem?_eq_some_iff.1 hn).1
      simp only [List.get_eq_getElem, (List.getElem?_eq_some_iff.1 hn).2] at hp
      have := indices_inj hw hu.1 hv (by rw [hp, (addr_ok hw.target hv).1])
      rw [← this]
      exact hu.2
    · intro hs
      have hm : v ∈ (allVariables W).filter s.actVar := List.mem_filter.2 ⟨hv, hs⟩
      obtain ⟨n, hn⟩ := List.getElem?_of_mem hm
      have hl := h4.length_eq
      have hn1 := (List.getElem?_eq_some_iff.1 hn).1
      have hp := (List.forall₂_iff_get.1 h4).2 n hn1 (by omega)
      simp only [List.get_eq_getElem, (List.getElem?_eq_some_iff.1 hn).2] at hp
      rw [(addr_ok hw.target hv).1, Except.ok.injEq] at hp
      rw [hp]
      exact List.getElem_mem _
  refine ⟨{ inputValues := fun k => ins'.lookup k
            values := fun j => vals'.lookup j
            actPipe := fun j => decide (j < W'.pipes.length) && ((List.range W.pipes.length).filter s.actPipe).contains j
            actVar := loadVars W' vars
            actBlock := fun i => decide (i < W'.blocks.length) && ((List.range W.blocks.length).filter s.actBlock).contains i
            outputValue := s.outputValue
            evaluated := s.evaluated }, ?_, ?_⟩
  · refine ⟨fun k => ?_, fun j x hj => (v2 j x hj).2, fun j p x hp hx hs => ?_, rfl, fun i => ?_, fun j => ?_, fun u => ?_, rfl⟩
    · simp only [i2, hk]
      cases hf : file k with
      | true => simp
      | false =>
        cases hx : s.inputValues k with
        | none => simp
        | some x => simp
    · have := v3 j p x hp (by rw [Nat.zero_add]; exact hx) hs
      rw [Nat.zero_add] at this
      exact this
    · simp only [Bool.and_eq_true, decide_eq_true_eq, List.contains_iff_mem, List.mem_filter, List.mem_range, hblen]
      tauto
    · simp only [Bool.and_eq_true, decide_eq_true_eq, List.contains_iff_mem, List.mem_filter, List.mem_range, hplen]
      tauto
    · show loadVars W' vars u = true ↔ _
      unfold loadVars
      rw [Bool.and_eq_true, List.contains_iff_mem, hR.vars, List.mem_map]
      constructor
      · rintro ⟨⟨v, hv, rfl⟩, hu⟩
        rw [hR.indices hw hv, (addr_ok hw.target hv).1] at hu
        exact ⟨v, hv, rfl, (hvars v hv).1 hu⟩
      · rintro ⟨v, hv, rfl, hu⟩
        refine ⟨⟨v, hv, rfl⟩, ?_⟩
        rw [hR.indices hw hv, (addr_ok hw.target hv).1]
        exact (hvars v hv).2 hu
  · unfold loadState
    simp only [o1, v1, i1, ha, hev', bind, Except.bind]

end

end DC.Wkf
