import Verif.Workflow.PersistCopyProps
/-
What `==` of workflows tells of the workflows compared.
Source: dessia_common/workflow/core.py 102-106, 194-211, 304-315, 475-499, 521-529; blocks.py 95-103, 158-169, 306-312,
543-556, 581-583.
-/
set_option linter.unusedSectionVars false
set_option linter.unusedSimpArgs false
namespace DC.Wkf

variable {κ τ α δ J : Type} [Inhabited τ]

/-! ### Workflows with the same blocks and the same pipes in any order -/

/-- `H` is `G` with other identities, the pipes possibly in another order. -/
structure Match (ρ : Nat → Nat) (G H : Workflow α) : Prop where
  inj : ∀ u ∈ allVariables G, ∀ v ∈ allVariables G, ρ u = ρ v → u = v
  vars : allVariables H = (allVariables G).map ρ
  blocks : H.blocks = G.blocks.map fun b => ⟨b.inputs.map ρ, b.outputs.map ρ, b.eval⟩
  there : ∀ p ∈ G.pipes, ∃ q ∈ H.pipes, q.input = ρ p.input ∧ q.output = ρ p.output
  back : ∀ q ∈ H.pipes, ∃ p ∈ G.pipes, q.input = ρ p.input ∧ q.output = ρ p.output

namespace Match
variable {ρ : Nat → Nat} {G H : Workflow α}

theorem inputs (h : Match ρ G H) : inputs H = (inputs G).map ρ := by
  unfold Wkf.inputs
  rw [h.vars, List.filter_map]
  congr 1
  apply List.filter_congr
  intro v hv
  simp only [Function.comp]
  congr 1
  unfold hasAncestor
  rw [h.blocks, List.any_map]
  have e1 : (G.blocks.any ((fun b : Block α => b.outputs.contains (ρ v)) ∘
      fun b => ⟨b.inputs.map ρ, b.outputs.map ρ, b.eval⟩)) = G.blocks.any (fun b => b.outputs.contains v) := by
    have hb : ∀ b ∈ G.blocks, ((b.outputs.map ρ).contains (ρ v)) = b.outputs.contains v := by
      intro b hb
      rw [Bool.eq_iff_iff]
      simp only [List.contains_iff_mem, List.mem_map]
      constructor
      · rintro ⟨u, hu, he⟩
        rw [← h.inj u (mem_allVariables.2 (.inl (mem_blockVars.2 ⟨b, hb, .inr hu⟩))) v hv he]
        exact hu
      · intro hu; exact ⟨v, hu, rfl⟩
    rw [Bool.eq_iff_iff, List.any_eq_true, List.any_eq_true]
    exact ⟨fun ⟨b, h1, h2⟩ => ⟨b, h1, (hb b h1) ▸ h2⟩, fun ⟨b, h1, h2⟩ => ⟨b, h1, (hb b h1).trans h2⟩⟩
  have heq : ∀ u ∈ allVariables G, (ρ u = ρ v ↔ u = v) := fun u hu => ⟨h.inj u hu v hv, fun e => by rw [e]⟩
  have e2 : (H.pipes.any fun p => p.output == ρ v && p.input != ρ v) =
      G.pipes.any fun p => p.output == v && p.input != v := by
    rw [Bool.eq_iff_iff, List.any_eq_true, List.any_eq_true]
    simp only [Bool.and_eq_true, beq_iff_eq, bne_iff_ne, ne_eq]
    constructor
    · rintro ⟨q, hq, h1, h2⟩
      obtain ⟨p, hp, e1, e2⟩ := h.back q hq
      rw [e2, heq _ (mem_allVariables.2 (.inr ⟨p, hp, .inr rfl⟩))] at h1
      rw [e1, heq _ (mem_allVariables.2 (.inr ⟨p, hp, .inl rfl⟩))] at h2
      exact ⟨p, hp, h1, h2⟩
    · rintro ⟨p, hp, h1, h2⟩
      obtain ⟨q, hq, e1, e2⟩ := h.there p hp
      rw [← heq _ (mem_allVariables.2 (.inr ⟨p, hp, .inr rfl⟩)), ← e2] at h1
      rw [← heq _ (mem_allVariables.2 (.inr ⟨p, hp, .inl rfl⟩)), ← e1] at h2
      exact ⟨q, hq, h1, h2⟩
  rw [e1, e2]

theorem den (h : Match ρ G H) {vals : Nat → Option α} {v : Nat} {x : α} (hd : Den G vals v x) : Den H vals (ρ v) x := by
  induction hd with
  | @input k v x h1 h2 =>
    refine .input (k := k) ?_ h2
    rw [h.inputs, List.getElem?_map, h1]; rfl
  | @pipe p x hp _ ih =>
    obtain ⟨q, hq, e1, e2⟩ := h.there p hp
    rw [← e2]
    exact Den.pipe hq (e1 ▸ ih)
  | @block b xs ys o y hb hl _ he ho ih =>
    have hm : (⟨b.inputs.map ρ, b.outputs.map ρ, b.eval⟩ : Block α) ∈ H.blocks := by
      rw [h.blocks]; exact List.mem_map.2 ⟨b, hb, rfl⟩
    refine .block (xs := xs) (ys := ys) hm (by simpa using hl) ?_ he ?_
    · intro vx hvx
      rw [List.zip_map_left] at hvx
      obtain ⟨ux, hux, rfl⟩ := List.mem_map.1 hvx
      exact ih ux hux
    · rw [List.zip_map_left]
      exact List.mem_map.2 ⟨(o, y), ho, rfl⟩

theorem den_back (h : Match ρ G H) {vals : Nat → Option α} {u : Nat} {x : α} (hd : Den H vals u x) :
    ∀ v ∈ allVariables G, u = ρ v → Den G vals v x := by
  induction hd with
  | @input k v x h1 h2 =>
    intro v' hv' e
    rw [h.inputs, List.getElem?_map, Option.map_eq_some_iff] at h1
    obtain ⟨c, hc, rfl⟩ := h1
    have := h.inj c (mem_inputs.1 (List.mem_of_getElem? hc)).1 v' hv' e
    subst this
    exact .input hc h2
  | @pipe p x hp _ ih =>
    intro v' hv' e
    obtain ⟨q, hq, e1, e2⟩ := h.back p hp
    have := h.inj q.output (mem_allVariables.2 (.inr ⟨q, hq, .inr rfl⟩)) v' hv' (e2.symm.trans e)
    subst this
    exact .pipe hq (ih q.input (mem_allVariables.2 (.inr ⟨q, hq, .inl rfl⟩)) e1)
  | @block b xs ys o y hb hl _ he ho ih =>
    intro v' hv' e
    rw [h.blocks] at hb
    obtain ⟨c, hc, rfl⟩ := List.mem_map.1 hb
    simp only [List.zip_map_left] at ho ih
    obtain ⟨ux, hux, h2⟩ := List.mem_map.1 ho
    obtain ⟨a, y'⟩ := ux
    simp only [Prod.map, id] at h2
    cases h2
    have ha : a ∈ c.outputs := (List.of_mem_zip hux).1
    have := h.inj a (mem_allVariables.2 (.inl (mem_blockVars.2 ⟨c, hc, .inr ha⟩))) v' hv' e
    subst this
    refine .block (xs := xs) (ys := ys) hc (by simpa using hl) ?_ he hux
    intro vx hvx
    have hin : vx.1 ∈ c.inputs := (List.of_mem_zip hvx).1
    exact ih (ρ vx.1, vx.2) (List.mem_map.2 ⟨vx, hvx, rfl⟩) vx.1
      (mem_allVariables.2 (.inl (mem_blockVars.2 ⟨c, hc, .inl hin⟩))) rfl

end Match

/-! ### What `==` checks -/

theorem varEquiv_true [DecidableEq τ] {x y : Var τ α} (h : varEquiv x y = .ok true) :
    x.name = y.name ∧ x.type = y.type ∧ x.lockFlag = y.lockFlag := by
  unfold varEquiv at h
  cases h1 : x.locked with
  | error e => rw [h1] at h; simp [bind, Except.bind] at h
  | ok l =>
    cases h2 : y.locked with
    | error e => rw [h1, h2] at h; simp [bind, Except.bind] at h
    | ok m =>
      rw [h1, h2] at h
      simp only [bind, Except.bind, Except.ok.injEq, Bool.and_eq_true, beq_iff_eq] at h
      have hf : ∀ {z : Var τ α} {k : Bool}, z.locked = .ok k → z.lockFlag = k := by
        intro z k hk
        unfold Var.locked at hk
        cases hz : z.lockFlag <;> cases hd : z.default.isSome <;> simp [hz, hd] at hk <;> simp [hk]
      exact ⟨h.1.1, h.1.2, by rw [hf h1, hf h2, h.2]⟩

theorem varsEquiv_true [DecidableEq τ] {s s' : Store τ α} : ∀ {vs us : List Nat}, vs.length = us.length →
    varsEquiv s s' vs us = .ok true → List.Forall₂ (fun v u => (look s v).name = (look s' u).name ∧
      (look s v).type = (look s' u).type ∧ (look s v).lockFlag = (look s' u).lockFlag) vs us := by
  intro vs
  induction vs with
  | nil => intro us hl _; cases us with | nil => exact .nil | cons _ _ => simp at hl
  | cons v vs ih =>
    intro us hl h
    cases us with
    | nil => simp at hl
    | cons u us =>
      rw [varsEquiv] at h
      cases hr : varEquiv (look s v) (look s' u) with
      | error e => rw [hr] at h; simp [bind, Except.bind] at h
      | ok r =>
        rw [hr] at h
        cases r with
        | false => simp [bind, Except.bind] at h
        | true =>
          simp only [bind, Except.bind, if_true] at h
          exact .cons (varEquiv_true hr) (ih (by simpa using hl) h)

theorem blocksEquiv_true [DecidableEq τ] {w : World κ τ α δ J} {s s' : Store τ α} : ∀ {bs cs : List (BlockO κ)},
    bs.length = cs.length → blocksEquiv w s s' bs cs = .ok true →
    List.Forall₂ (fun b c => w.cls b.kind = w.cls c.kind ∧ w.same b.kind c.kind = true) bs cs := by
  intro bs
  induction bs with
  | nil => intro cs hl _; cases cs with | nil => exact .nil | cons _ _ => simp at hl
  | cons b bs ih =>
    intro cs hl h
    cases cs with
    | nil => simp at hl
    | cons c cs =>
      rw [blocksEquiv] at h
      cases hr : blockEquiv w s s' b c with
      | error e => rw [hr] at h; simp [bind, Except.bind] at h
      | ok r =>
        rw [hr] at h
        cases r with
        | false => simp [bind, Except.bind] at h
        | true =>
          simp only [bind, Except.bind, if_true] at h
          refine .cons ?_ (ih (by simpa using hl) h)
          unfold blockEquiv at hr
          cases h1 : w.reads b.kind c.kind with
          | error e => rw [h1] at hr; simp [bind, Except.bind] at hr
          | ok _ =>
            rw [h1] at hr
            simp only [bind, Except.bind] at hr
            cases h2 : varsEquiv s s' b.inputs c.inputs with
            | error e => rw [h2] at hr; simp at hr
            | ok k =>
              rw [h2] at hr
              simp only [Except.ok.injEq, Bool.and_eq_true, beq_iff_eq] at hr
              exact ⟨hr.1.2, hr.2⟩

theorem dataEq_true [DecidableEq τ] [DecidableEq δ] {w : World κ τ α δ J} {s s' : Store τ α} {W W' : Wf κ δ}
    (h : dataEq w s s' W W' = .ok true) :
    varsEquiv s s' (inputs (skel w s W)) (inputs (skel w s' W')) = .ok true ∧
    blocksEquiv w s s' W.blocks W'.blocks = .ok true ∧
    pipesEquiv (allVariables (skel w s W)) (allVariables (skel w s' W')) W.pipes W'.pipes = true ∧
    stepsEquiv s s' W.steps W'.steps = .ok true := by
  unfold dataEq at h
  cases h1 : dataHash w s W with
  | error e => rw [h1] at h; simp [bind, Except.bind] at h
  | ok a =>
  cases h2 : dataHash w s' W' with
  | error e => rw [h1, h2] at h; simp [bind, Except.bind] at h
  | ok b =>
  rw [h1, h2] at h
  simp only [bind, Except.bind] at h
  by_cases h3 : (a != b) = true
  · rw [if_pos h3] at h; simp at h
  rw [if_neg h3] at h
  cases h4 : varsEquiv s s' (inputs (skel w s W)) (inputs (skel w s' W')) with
  | error e => rw [h4] at h; simp at h
  | ok c =>
  rw [h4] at h
  cases c with
  | false => simp at h
  | true =>
  simp only [Bool.not_true, Bool.false_eq_true, if_false] at h
  cases h5 : blocksEquiv w s s' W.blocks W'.blocks with
  | error e => rw [h5] at h; simp at h
  | ok c =>
  rw [h5] at h
  cases c with
  | false => simp at h
  | true =>
  simp only [Bool.not_true, Bool.false_eq_true, if_false] at h
  cases h6 : pipesEquiv (allVariables (skel w s W)) (allVariables (skel w s' W')) W.pipes W'.pipes with
  | false => rw [h6] at h; simp at h
  | true =>
    rw [h6] at h
    simp only [Bool.not_true, Bool.false_eq_true, if_false] at h
    exact ⟨rfl, rfl, rfl, h⟩

theorem varsEquiv_common [DecidableEq τ] {s s' : Store τ α} : ∀ {vs us : List Nat}, varsEquiv s s' vs us = .ok true →
    ∀ n v u : Nat, vs[n]? = some v → us[n]? = some u → (look s v).name = (look s' u).name ∧
      (look s v).type = (look s' u).type ∧ (look s v).lockFlag = (look s' u).lockFlag := by
  intro vs
  induction vs with
  | nil => intro us _ n v u h; simp at h
  | cons v vs ih =>
    intro us h n v' u' hv hu
    cases us with
    | nil => simp at hu
    | cons u us =>
      rw [varsEquiv] at h
      cases hr : varEquiv (look s v) (look s' u) with
      | error e => rw [hr] at h; simp [bind, Except.bind] at h
      | ok r =>
        rw [hr] at h
        cases r with
        | false => simp [bind, Except.bind] at h
        | true =>
          simp only [bind, Except.bind, if_true] at h
          cases n with
          | zero =>
            simp only [List.getElem?_cons_zero, Option.some.injEq] at hv hu
            subst hv hu
            exact varEquiv_true hr
          | succ n => exact ih h n v' u' (by simpa using hv) (by simpa using hu)

/-- Workflows which compare equal have the same labels and displays on the steps they both have, and, at the positions
which both steps have, inputs and group inputs of the same names, annotations and locks. -/
theorem C103_steps [DecidableEq τ] [DecidableEq δ] {w : World κ τ α δ J} {s s' : Store τ α} {W W' : Wf κ δ}
    (h : dataEq w s s' W W' = .ok true) (k : Nat) (t u : StepO δ) (ht : W.steps[k]? = some t) (hu : W'.steps[k]? = some u) :
    t.label = u.label ∧ t.display = u.display ∧ t.displayIdx = u.displayIdx ∧
      t.documentation.length = u.documentation.length ∧
      (∀ n v v' : Nat, t.inputs[n]? = some v → u.inputs[n]? = some v' → (look s v).name = (look s' v').name ∧
        (look s v).type = (look s' v').type ∧ (look s v).lockFlag = (look s' v').lockFlag) ∧
      ∀ n v v' : Nat, t.groupInputs[n]? = some v → u.groupInputs[n]? = some v' → (look s v).name = (look s' v').name ∧
        (look s v).type = (look s' v').type ∧ (look s v).lockFlag = (look s' v').lockFlag := by
  have h := (dataEq_true h).2.2.2
  generalize W.steps = ts at h ht
  generalize W'.steps = us at h hu
  induction ts generalizing us k with
  | nil => simp at ht
  | cons t0 ts ih =>
    cases us with
    | nil => simp at hu
    | cons u0 us =>
      rw [stepsEquiv] at h
      cases hr : stepEquiv s s' t0 u0 with
      | error e => rw [hr] at h; simp [bind, Except.bind] at h
      | ok r =>
        rw [hr] at h
        cases r with
        | false => simp [bind, Except.bind] at h
        | true =>
          simp only [bind, Except.bind, if_true] at h
          cases k with
          | succ k => exact ih k (by simpa using ht) us h (by simpa using hu)
          | zero =>
            simp only [List.getElem?_cons_zero, Option.some.injEq] at ht hu
            subst ht hu
            unfold stepEquiv at hr
            cases h1 : varsEquiv s s' t0.inputs u0.inputs with
            | error e => rw [h1] at hr; simp [bind, Except.bind] at hr
            | ok a =>
              cases h2 : varsEquiv s s' t0.groupInputs u0.groupInputs with
              | error e => rw [h1, h2] at hr; simp [bind, Except.bind] at hr
              | ok b =>
                rw [h1, h2] at hr
                simp only [bind, Except.bind, Except.ok.injEq, Bool.and_eq_true, beq_iff_eq] at hr
                obtain ⟨⟨⟨⟨⟨e1, rfl⟩, rfl⟩, e2⟩, e3⟩, e4⟩ := hr
                exact ⟨e1, e2, e4, e3, varsEquiv_common h1, varsEquiv_common h2⟩

theorem ports_split {ρ : Nat → Nat} : ∀ {bs cs : List (BlockO κ)},
    List.Forall₂ (fun b c => b.inputs.length = c.inputs.length ∧ b.outputs.length = c.outputs.length) bs cs →
    cs.flatMap (fun b => b.inputs ++ b.outputs) = (bs.flatMap fun b => b.inputs ++ b.outputs).map ρ →
    List.Forall₂ (fun b c => c.inputs = b.inputs.map ρ ∧ c.outputs = b.outputs.map ρ) bs cs := by
  intro bs cs h
  induction h with
  | nil => intro _; exact .nil
  | @cons b c bs cs h _ ih =>
    intro he
    simp only [List.flatMap_cons, List.map_append, List.append_assoc] at he
    obtain ⟨h1, h2⟩ := List.append_inj he (by simp [h.1])
    obtain ⟨h3, h4⟩ := List.append_inj h2 (by simp [h.2])
    exact .cons ⟨h1, h3⟩ (ih h4)

theorem flat_length {bs cs : List (BlockO κ)}
    (h : List.Forall₂ (fun b c => b.inputs.length = c.inputs.length ∧ b.outputs.length = c.outputs.length) bs cs) :
    (bs.flatMap fun b => b.inputs ++ b.outputs).length = (cs.flatMap fun b => b.inputs ++ b.outputs).length := by
  induction h with
  | nil => rfl
  | cons h _ ih => simp only [List.flatMap_cons, List.length_append] at ih ⊢; omega

/-- Each free variable is an end of a pipe, so pipes of the same indices give as many variables. -/
theorem vars_le {G H : Workflow α} (hB : (blockVars G).length = (blockVars H).length)
    (hG : (blockVars G).Nodup)
    (hp : ∀ p ∈ G.pipes, ∃ q ∈ H.pipes, (allVariables H).idxOf q.input = (allVariables G).idxOf p.input ∧
      (allVariables H).idxOf q.output = (allVariables G).idxOf p.output) :
    (allVariables G).length ≤ (allVariables H).length := by
  by_contra hc
  have hc : (allVariables H).length < (allVariables G).length := by omega
  obtain ⟨e, -, -, hn⟩ := nbvs_spec G
  have hle : (blockVars H).length ≤ (allVariables H).length := by rw [(nbvs_spec H).1]; simp
  -- the variable of index `length H`
  obtain ⟨v, hv⟩ : ∃ v, (allVariables G)[(allVariables H).length]? = some v := ⟨_, List.getElem?_eq_getElem hc⟩
  have hmem : v ∈ nbvs G := by
    have := hv
    rw [e, List.getElem?_append_right (by omega)] at this
    exact List.mem_of_getElem? this
  have hidx : (allVariables G).idxOf v = (allVariables H).length := idxOf_of_nodup (allVariables_nodup hG) hv
  obtain ⟨-, p, hpm, h | h⟩ := (hn _).1 hmem
  · obtain ⟨q, hq, h1, -⟩ := hp p hpm
    rw [← h, hidx] at h1
    have := List.idxOf_lt_length_of_mem (mem_allVariables.2 (.inr ⟨q, hq, .inl rfl⟩) : q.input ∈ allVariables H)
    omega
  · obtain ⟨q, hq, -, h1⟩ := hp p hpm
    rw [← h, hidx] at h1
    have := List.idxOf_lt_length_of_mem (mem_allVariables.2 (.inr ⟨q, hq, .inr rfl⟩) : q.output ∈ allVariables H)
    omega

/-- Workflows of as many blocks and pipes, with the output at the same place, which compare equal are the same up to the
identity of their variables and the order of their pipes: their inputs correspond one to one, with the same names,
annotations and locks, and a value computed by one for some values of its inputs is computed by the other.  What blocks
which compare equal have in common is the hypothesis `hkind`.
Missing: what the comparison of blocks does not look at (`C103_class_violated`, `C103_locked_violated`, `C103_blocks_violated`). -/
theorem C103_partial [DecidableEq τ] [DecidableEq δ] {w : World κ τ α δ J}
    (hkind : ∀ k k', w.cls k = w.cls k' → w.same k k' = true →
      (w.ins k).length = (w.ins k').length ∧ (w.outs k).length = (w.outs k').length ∧ w.eval k = w.eval k')
    {s s' : Store τ α} {W W' : Wf κ δ} (hb : Built w s W) (hb' : Built w s' W')
    (hnb : W.blocks.length = W'.blocks.length) (hnp : W.pipes.length = W'.pipes.length)
    (hout : outputIndices w s W = outputIndices w s' W') (h : dataEq w s s' W W' = .ok true) :
    ∃ ρ : Nat → Nat, (∀ u v, VarOf W u → VarOf W v → ρ u = ρ v → u = v) ∧ (∀ v, VarOf W v → VarOf W' (ρ v)) ∧
      (∀ v', VarOf W' v' → ∃ v, VarOf W v ∧ ρ v = v') ∧
      inputs (skel w s' W') = (inputs (skel w s W)).map ρ ∧ W'.output = W.output.map ρ ∧
      (∀ v ∈ inputs (skel w s W), (look s v).name = (look s' (ρ v)).name ∧ (look s v).type = (look s' (ρ v)).type ∧
        (look s v).lockFlag = (look s' (ρ v)).lockFlag) ∧
      ∀ v, VarOf W v → ∀ vals x, Den (skel w s' W') vals (ρ v) x ↔ Den (skel w s W) vals v x := by
  obtain ⟨h1, h2, h3, -⟩ := dataEq_true h
  have hblk := blocksEquiv_true hnb h2
  let G := skel w s W
  let H := skel w s' W'
  let L := allVariables G
  let L' := allVariables H
  have hL : L.Nodup := allVariables_nodup hb.skel_distinct
  have hL' : L'.Nodup := allVariables_nodup hb'.skel_distinct
  have hbv : W.blocks.flatMap (fun b => b.inputs ++ b.outputs) = blockVars G := (blockVars_skel w s W).symm
  have hbv' : W'.blocks.flatMap (fun b => b.inputs ++ b.outputs) = blockVars H := (blockVars_skel w s' W').symm
  have hlen : List.Forall₂ (fun b c : BlockO κ => b.inputs.length = c.inputs.length ∧
      b.outputs.length = c.outputs.length ∧ w.eval b.kind = w.eval c.kind) W.blocks W'.blocks := by
    have : ∀ {bs cs : List (BlockO κ)}, (∀ b ∈ bs, b ∈ W.blocks) → (∀ b ∈ cs, b ∈ W'.blocks) →
        List.Forall₂ (fun b c => w.cls b.kind = w.cls c.kind ∧ w.same b.kind c.kind = true) bs cs →
        List.Forall₂ (fun b c : BlockO κ => b.inputs.length = c.inputs.length ∧
          b.outputs.length = c.outputs.length ∧ w.eval b.kind = w.eval c.kind) bs cs := by
      intro bs cs h1 h2 hf
      induction hf with
      | nil => exact .nil
      | @cons b c bs cs hh _ ih =>
        obtain ⟨k1, k2, k3⟩ := hkind _ _ hh.1 hh.2
        refine .cons ⟨?_, ?_, k3⟩ (ih (fun b hb => h1 b (by simp [hb])) fun b hb => h2 b (by simp [hb]))
        · rw [(hb.ins b (h1 b (by simp))).length_eq, (hb'.ins c (h2 c (by simp))).length_eq, k1]
        · rw [(hb.outs b (h1 b (by simp))).length_eq, (hb'.outs c (h2 c (by simp))).length_eq, k2]
    exact this (fun _ h => h) (fun _ h => h) hblk
  have hlen2 : List.Forall₂ (fun b c : BlockO κ => b.inputs.length = c.inputs.length ∧
      b.outputs.length = c.outputs.length) W.blocks W'.blocks := hlen.imp fun _ _ h => ⟨h.1, h.2.1⟩
  have hB : (blockVars G).length = (blockVars H).length := by rw [← hbv, ← hbv']; exact flat_length hlen2
  -- pipes
  have hpp : (∀ p ∈ W.pipes, ∃ q ∈ W'.pipes, L'.idxOf q.1 = L.idxOf p.1 ∧ L'.idxOf q.2 = L.idxOf p.2) ∧
      (∀ q ∈ W'.pipes, ∃ p ∈ W.pipes, L.idxOf p.1 = L'.idxOf q.1 ∧ L.idxOf p.2 = L'.idxOf q.2) := by
    unfold pipesEquiv at h3
    have t1 : W.pipes.take (min W.pipes.length W'.pipes.length) = W.pipes := List.take_of_length_le (by omega)
    have t2 : W'.pipes.take (min W.pipes.length W'.pipes.length) = W'.pipes := List.take_of_length_le (by omega)
    simp only [t1, t2] at h3
    simp only [Bool.and_eq_true, List.all_eq_true, List.contains_iff_mem, List.mem_map] at h3
    constructor
    · intro p hp
      obtain ⟨q, hq, he⟩ := h3.1 _ ⟨p, hp, rfl⟩
      simp only [Prod.mk.injEq] at he
      exact ⟨q, hq, he⟩
    · intro q hq
      obtain ⟨p, hp, he⟩ := h3.2 _ ⟨q, hq, rfl⟩
      simp only [Prod.mk.injEq] at he
      exact ⟨p, hp, he⟩
  have hsk : ∀ {w : World κ τ α δ J} {s : Store τ α} {W : Wf κ δ} {p : Pipe}, p ∈ (skel w s W).pipes ↔
      ∃ q ∈ W.pipes, p = ⟨q.1, q.2, false⟩ := by
    intro w s W p
    simp only [skel, List.mem_map, eq_comm]
  have hLL : L.length = L'.length := by
    apply Nat.le_antisymm
    · apply vars_le hB hb.skel_distinct
      intro p hp
      obtain ⟨p, hp', rfl⟩ := hsk.1 hp
      clear hp; rename' hp' => hp
      obtain ⟨q, hq, e⟩ := hpp.1 p hp
      exact ⟨⟨q.1, q.2, false⟩, hsk.2 ⟨q, hq, rfl⟩, e⟩
    · apply vars_le hB.symm hb'.skel_distinct
      intro p hp
      obtain ⟨p, hp', rfl⟩ := hsk.1 hp
      clear hp; rename' hp' => hp
      obtain ⟨q, hq, e⟩ := hpp.2 p hp
      exact ⟨⟨q.1, q.2, false⟩, hsk.2 ⟨q, hq, rfl⟩, e⟩
  let ρ : Nat → Nat := fun v => L'.getD (L.idxOf v) 0
  have hρ : ∀ (i : Nat) v, L[i]? = some v → L'[i]? = some (ρ v) := by
    intro i v hi
    have hlt := (List.getElem?_eq_some_iff.1 hi).1
    have : L.idxOf v = i := idxOf_of_nodup hL hi
    show L'[i]? = some (L'.getD (L.idxOf v) 0)
    rw [this, List.getD_eq_getElem?_getD, List.getElem?_eq_getElem (by omega)]
    rfl
  have hvars : L' = L.map ρ := by
    apply List.ext_getElem?
    intro i
    rw [List.getElem?_map]
    cases hi : L[i]? with
    | none =>
      rw [List.getElem?_eq_none_iff] at hi
      rw [Option.map_none, List.getElem?_eq_none_iff]; omega
    | some v => rw [hρ i v hi]; rfl
  have hinj : ∀ u ∈ L, ∀ v ∈ L, ρ u = ρ v → u = v := by
    intro u hu v hv he
    have := hL'
    rw [hvars] at this
    exact List.inj_on_of_nodup_map this hu hv he
  have hback : ∀ v ∈ L, L'.idxOf (ρ v) = L.idxOf v := by
    intro v hv
    rw [hvars]
    exact idxOf_map L fun u hu he => hinj u hu v hv he
  have hidx : ∀ u ∈ L', ∀ v ∈ L, L'.idxOf u = L.idxOf v → u = ρ v := by
    intro u hu v hv he
    rw [← hback v hv] at he
    have hvm : ρ v ∈ L' := by rw [hvars]; exact List.mem_map_of_mem hv
    have e1 : L'[L'.idxOf u]? = some u := by
      rw [List.getElem?_eq_getElem (List.idxOf_lt_length_of_mem hu), List.getElem_idxOf]
    have e2 : L'[L'.idxOf (ρ v)]? = some (ρ v) := by
      rw [List.getElem?_eq_getElem (List.idxOf_lt_length_of_mem hvm), List.getElem_idxOf]
    rw [he, e2] at e1
    exact (Option.some.inj e1).symm
  have hports : List.Forall₂ (fun b c : BlockO κ => c.inputs = b.inputs.map ρ ∧ c.outputs = b.outputs.map ρ)
      W.blocks W'.blocks := by
    apply ports_split hlen2
    rw [hbv, hbv']
    have e1 : L = blockVars G ++ nbvs G := (nbvs_spec G).1
    have e2 : L' = blockVars H ++ nbvs H := (nbvs_spec H).1
    have := hvars
    rw [e1, e2, List.map_append] at this
    exact (List.append_inj this (by simp [hB])).1
  have hM : Match ρ G H := by
    refine ⟨hinj, hvars, ?_, ?_, ?_⟩
    · show W'.blocks.map (fun b => (⟨b.inputs, b.outputs, w.eval b.kind⟩ : Block α)) =
        (W.blocks.map fun b => (⟨b.inputs, b.outputs, w.eval b.kind⟩ : Block α)).map
          fun b => ⟨b.inputs.map ρ, b.outputs.map ρ, b.eval⟩
      rw [List.map_map]
      have : ∀ {bs cs : List (BlockO κ)}, List.Forall₂ (fun b c : BlockO κ => b.inputs.length = c.inputs.length ∧
          b.outputs.length = c.outputs.length ∧ w.eval b.kind = w.eval c.kind) bs cs →
          List.Forall₂ (fun b c : BlockO κ => c.inputs = b.inputs.map ρ ∧ c.outputs = b.outputs.map ρ) bs cs →
          cs.map (fun b => (⟨b.inputs, b.outputs, w.eval b.kind⟩ : Block α)) =
            bs.map ((fun b : Block α => ⟨b.inputs.map ρ, b.outputs.map ρ, b.eval⟩) ∘
              fun b => ⟨b.inputs, b.outputs, w.eval b.kind⟩) := by
        intro bs cs hf
        induction hf with
        | nil => intro _; rfl
        | cons hh _ ih =>
          intro hg
          cases hg with
          | cons hg hgs =>
            simp only [List.map_cons, Function.comp]
            rw [hg.1, hg.2, hh.2.2]
            congr 1
            exact ih hgs
      exact this hlen hports
    · intro p hp
      obtain ⟨p, hp', rfl⟩ := hsk.1 hp
      clear hp; rename' hp' => hp
      obtain ⟨q, hq, e1, e2⟩ := hpp.1 p hp
      have hq' := (hsk (w := w) (s := s') (W := W')).2 ⟨q, hq, rfl⟩
      have hp' := (hsk (w := w) (s := s) (W := W)).2 ⟨p, hp, rfl⟩
      exact ⟨_, hq', hidx _ (mem_allVariables.2 (.inr ⟨_, hq', .inl rfl⟩)) _ (mem_allVariables.2 (.inr ⟨_, hp', .inl rfl⟩)) e1,
        hidx _ (mem_allVariables.2 (.inr ⟨_, hq', .inr rfl⟩)) _ (mem_allVariables.2 (.inr ⟨_, hp', .inr rfl⟩)) e2⟩
    · intro q hq
      obtain ⟨q, hq', rfl⟩ := hsk.1 hq
      clear hq; rename' hq' => hq
      obtain ⟨p, hp, e1, e2⟩ := hpp.2 q hq
      have hq' := (hsk (w := w) (s := s') (W := W')).2 ⟨q, hq, rfl⟩
      have hp' := (hsk (w := w) (s := s) (W := W)).2 ⟨p, hp, rfl⟩
      exact ⟨_, hp', hidx _ (mem_allVariables.2 (.inr ⟨_, hq', .inl rfl⟩)) _ (mem_allVariables.2 (.inr ⟨_, hp', .inl rfl⟩)) e1.symm,
        hidx _ (mem_allVariables.2 (.inr ⟨_, hq', .inr rfl⟩)) _ (mem_allVariables.2 (.inr ⟨_, hp', .inr rfl⟩)) e2.symm⟩
  have hmem : ∀ v, v ∈ L ↔ VarOf W v := fun v => mem_allVariables_skel w s W
  have hmem' : ∀ v, v ∈ L' ↔ VarOf W' v := fun v => mem_allVariables_skel w s' W'
  have hin := hM.inputs
  refine ⟨ρ, fun u v hu hv he => hinj u ((hmem u).2 hu) v ((hmem v).2 hv) he, ?_, ?_, hin, ?_, ?_, ?_⟩
  · intro v hv
    rw [← hmem', hvars]
    exact List.mem_map_of_mem ((hmem v).2 hv)
  · intro v' hv'
    rw [← hmem', hvars] at hv'
    obtain ⟨v, hv, he⟩ := List.mem_map.1 hv'
    exact ⟨v, (hmem v).1 hv, he⟩
  · rw [(output_addr hb id).1, (output_addr hb' id).1, Except.ok.injEq] at hout
    cases ho : W.output with
    | none =>
      rw [ho] at hout
      simp only [Option.map_none] at hout ⊢
      exact (Option.map_eq_none_iff.1 hout.symm)
    | some o =>
      rw [ho] at hout
      simp only [Option.map_some] at hout ⊢
      obtain ⟨o', ho', he⟩ := Option.map_eq_some_iff.1 hout.symm
      rw [ho']
      congr 1
      obtain ⟨b, hbm, hob⟩ := hb.output o ho
      obtain ⟨b', hbm', hob'⟩ := hb'.output o' ho'
      obtain ⟨j, side, i, c, -, e2, e3, e4⟩ :=
        addr_port ((mem_blockVars_skel w s W).2 ⟨b, hbm, .inr hob⟩)
      obtain ⟨j', side', i', c', -, f2, f3, f4⟩ :=
        addr_port ((mem_blockVars_skel w s' W').2 ⟨b', hbm', .inr hob'⟩)
      rw [e2, f2] at he
      cases he
      have : H.blocks[j]? = some ⟨c.inputs.map ρ, c.outputs.map ρ, c.eval⟩ := by
        rw [hM.blocks, List.getElem?_map]
        show Option.map _ ((skel w s W).blocks[j]?) = _
        rw [e3]; rfl
      rw [this] at f3
      cases f3
      cases side with
      | true =>
        simp only [if_true] at e4 f4
        rw [List.getElem?_map, e4] at f4
        exact (Option.some.inj f4).symm
      | false =>
        simp only [Bool.false_eq_true, if_false] at e4 f4
        rw [List.getElem?_map, e4] at f4
        exact (Option.some.inj f4).symm
  · rw [hin] at h1
    have := varsEquiv_true (by rw [List.length_map]) h1
    rw [List.forall₂_map_right_iff, List.forall₂_same] at this
    exact this
  · intro v hv vals x
    exact ⟨fun h => hM.den_back h v ((hmem v).2 hv) rfl, fun h => hM.den h⟩

/-! ### Some blocks of the library -/

/-- Values: numbers, instances and lists. -/
inductive LV where
  | num (n : Int)
  | obj (cls : String) (args : List LV)
  | list (l : List LV)

/-- What some blocks are built from. -/
inductive LKind where
  /-- `InstantiateModel` of a class (whose metaclass is `type`) whose constructor has these arguments -/
  | instantiate (cls : String) (args : List String)
  /-- `Sequence` -/
  | sequence (n : Nat)
  /-- `Flatten` -/
  | flatten

/-- The names of the arguments of a constructor, with the annotation `Any`. -/
def argProtos (args : List String) : List (Proto String LV) := args.map fun a => ⟨a, "Any", "", (0, 0), none⟩

/-- `output.extend(value)` for each value: blocks.py 592-597. -/
def flatLV : List LV → Except PyErr (List LV)
  | [] => .ok []
  | .list l :: rest => do
    let r ← flatLV rest
    .ok (l ++ r)
  | _ :: _ => .error .typeError

/-- The constructors, `equivalent`, `equivalent_hash` and `evaluate` of these blocks: blocks.py 89-103, 113-116, 300-312,
323-325, 576-583, 592-597.  Hashes of strings and addresses are lengths and places: what Python gives varies. -/
def lib : World LKind String LV String LV where
  ins | .instantiate _ args => argProtos args
      | .sequence n => argProtos ((List.range n).map fun i => "Sequence element " ++ toString i)
      | .flatten => argProtos ["Sequence"]
  outs | .instantiate c _ => [⟨"Model", c, "", (0, 0), none⟩]
       | .sequence _ => [⟨"Sequence", "Any", "", (0, 0), none⟩]
       | .flatten => [⟨"Flattened sequence", "Any", "", (0, 0), none⟩]
  cls | .instantiate _ _ => "InstantiateModel"
      | .sequence _ => "Sequence"
      | .flatten => "Flatten"
  same | .instantiate _ _, .instantiate _ _ => true
       | .sequence n, .sequence m => n == m
       | _, _ => true
  reads | .instantiate _ _, .instantiate _ _ => .ok ()
        | .instantiate _ _, _ => .error .attributeError
        | _, _ => .ok ()
  hash | .instantiate c _, _ => c.length
       | .sequence n, _ => n
       | .flatten, _ => 1
  eval | .instantiate c _, xs => .ok [.obj c xs]
       | .sequence _, xs => .ok [.list xs]
       | .flatten, [.list l] => (flatLV l).map fun r => [.list r]
       | .flatten, _ => .error .typeError
  ser := id
  des := id
  serT t := t
  ofString t := t
  hashS t := t.length
  hashD _ := 5
  hashA _ := 6

/-- A workflow of one block which instantiates a class with an argument `length`. -/
def instW (cls : String) : Wf LKind String where
  blocks := [⟨.instantiate cls ["length"], "", (0, 0), [0], [1]⟩]
  pipes := []
  output := some 1
  steps := []
  detached := []
  description := ""
  documentation := ""
  name := ""

/-- Its variables. -/
def instS (cls : String) (d : Option LV) : Store String LV :=
  [⟨"length", "Any", "", (0, 0), d, d.isSome⟩, ⟨"Model", cls, "", (0, 0), none, false⟩]

theorem instBuilt (cls : String) (d : Option LV) : Built lib (instS cls d) (instW cls) where
  distinct := by simp [instW]
  target := by intro p hp; simp [instW] at hp
  source := by intro p hp; simp [instW] at hp
  alloc := by
    intro v hv
    rcases hv with ⟨b, hb, h⟩ | ⟨p, hp, _⟩
    · simp only [instW, List.mem_singleton] at hb
      subst hb
      simp only [List.mem_singleton] at h
      rcases h with rfl | rfl <;> simp [instS]
    · simp [instW] at hp
  locks := by
    intro v hv hl
    rcases hv with (⟨b, hb, h⟩ | ⟨p, hp, _⟩) | hv
    · simp only [instW, List.mem_singleton] at hb
      subst hb
      simp only [List.mem_singleton] at h
      rcases h with rfl | rfl
      · exact hl
      · simp [look, instS] at hl
    · simp [instW] at hp
    · simp [instW] at hv
  ins := by
    intro b hb
    simp only [instW, List.mem_singleton] at hb
    subst hb
    exact .cons ⟨rfl, rfl, rfl⟩ .nil
  outs := by
    intro b hb
    simp only [instW, List.mem_singleton] at hb
    subst hb
    exact .cons ⟨rfl, rfl, rfl⟩ .nil
  output := by
    intro o ho
    simp only [instW, Option.some.injEq] at ho
    exact ⟨⟨.instantiate cls ["length"], "", (0, 0), [0], [1]⟩, by simp [instW], by simp [ho]⟩
  steps := by intro t ht; simp [instW] at ht

/-- The hypotheses of `C103_partial` are met: `demoW` and the same workflow with its pipes in the other order compare
equal. -/
example : (∀ k k', demo.cls k = demo.cls k' → demo.same k k' = true →
      (demo.ins k).length = (demo.ins k').length ∧ (demo.outs k).length = (demo.outs k').length ∧
      demo.eval k = demo.eval k') ∧
    outputIndices demo demoS demoW = outputIndices demo demoS { demoW with pipes := [(6, 4), (2, 3)] } ∧
    dataEq demo demoS demoS demoW { demoW with pipes := [(6, 4), (2, 3)] } = .ok true := by
  refine ⟨?_, rfl, rfl⟩
  intro k k' h
  cases k <;> cases k'
  · exact fun _ => ⟨rfl, rfl, rfl⟩
  · exact absurd h (by decide)
  · exact absurd h (by decide)
  · exact fun _ => ⟨rfl, rfl, rfl⟩

/-- Two workflows which build instances of different classes compare equal, and do not compute the same value: `equivalent`
compares the names of the metaclasses. -/
theorem C103_class_violated : ∃ (s s' : Store String LV) (W W' : Wf LKind String) (o o' : Nat) (vals : Nat → Option LV),
    Built lib s W ∧ Built lib s' W' ∧ dataEq lib s s' W W' = .ok true ∧ W.output = some o ∧ W'.output = some o' ∧
    Den (skel lib s W) vals o (.obj "Bus" [.num 3]) ∧ Den (skel lib s' W') vals o' (.obj "Car" [.num 3]) := by
  refine ⟨instS "Bus" none, instS "Car" none, instW "Bus", instW "Car", 1, 1, fun _ => some (.num 3),
    instBuilt _ _, instBuilt _ _, rfl, rfl, rfl, ?_, ?_⟩
  all_goals
    refine .block (xs := [.num 3]) (List.mem_singleton.2 rfl) rfl ?_ rfl (List.mem_singleton.2 rfl)
    intro vx hvx
    simp only [List.zip_cons_cons, List.zip_nil_right, List.mem_singleton] at hvx
    subst hvx
    exact .input (k := 0) rfl rfl

/-- Two workflows whose inputs are locked to different values compare equal: `equivalent` compares that they are locked. -/
theorem C103_locked_violated : ∃ (s s' : Store String LV) (W W' : Wf LKind String),
    Built lib s W ∧ Built lib s' W' ∧ dataEq lib s s' W W' = .ok true ∧
    expected (skel lib s W) [] 0 = some (.num 3) ∧ expected (skel lib s' W') [] 0 = some (.num 4) :=
  ⟨instS "Bus" (some (.num 3)), instS "Bus" (some (.num 4)), instW "Bus", instW "Bus", instBuilt _ _, instBuilt _ _,
    rfl, rfl, rfl⟩

/-- Two workflows with different numbers of blocks and of inputs compare equal. -/
theorem C103_blocks_violated : ∃ (s s' : Store String LV) (W W' : Wf LKind String),
    dataEq lib s s' W W' = .ok true ∧ W.blocks.length = 1 ∧ W'.blocks.length = 2 ∧
    (inputs (skel lib s W)).length = 0 ∧ (inputs (skel lib s' W')).length = 1 :=
  ⟨[⟨"Model", "Boat", "", (0, 0), none, false⟩],
    [⟨"Model", "Bo", "", (0, 0), none, false⟩, ⟨"Sequence", "Any", "", (0, 0), none, false⟩,
      ⟨"Flattened sequence", "Any", "", (0, 0), none, false⟩],
    ⟨[⟨.instantiate "Boat" [], "", (0, 0), [], [0]⟩], [], some 0, [], [], "", "", ""⟩,
    ⟨[⟨.instantiate "Bo" [], "", (0, 0), [], [0]⟩, ⟨.flatten, "", (0, 0), [1], [2]⟩], [], some 0, [], [], "", "", ""⟩,
    rfl, rfl, rfl, rfl, rfl⟩

/-- A case of `C103_steps`: a workflow with a step, and itself. -/
example : dataEq demo demoS demoS { demoW with steps := [⟨"step", [1], "g", [], none, "", some 0, "i"⟩] }
    { demoW with steps := [⟨"step", [1], "g", [], none, "", some 0, "i"⟩] } = .ok true := rfl

/-! ### Comparisons which raise -/

/-- The hypotheses of `C104_partial` are met. -/
example : (∀ k, lib.same k k = true ∧ lib.reads k k = .ok ()) ∧ Built lib (instS "Bus" none) (instW "Bus") ∧
    ∀ t ∈ (instW "Bus").steps, t.displayIdx ≠ none := by
  refine ⟨?_, instBuilt _ _, by simp [instW]⟩
  intro k
  cases k <;> simp [lib]

/-- A workflow with a step as the constructor of steps makes it by default cannot be compared with itself. -/
theorem C104_step_violated : ∃ (s : Store Nat Int) (W : Wf Kd String), Built demo s W ∧
    (∀ t ∈ W.steps, t.displayIdx = none) ∧ dataEq demo s s W W = .error .typeError := by
  refine ⟨demoS, { demoW with steps := [⟨"step", [1], "g", [], none, "", none, "i"⟩] }, ?_, ?_, rfl⟩
  · obtain ⟨h1, h2, h3, h4, h5, h6, h7, h8, h9⟩ := demo_built
    refine ⟨h1, h2, h3, h4, h5, h6, h7, h8, ?_⟩
    intro t ht v hv
    simp only [List.mem_singleton] at ht
    subst ht
    simp only [List.append_nil, List.mem_singleton] at hv
    subst hv
    exact .inl ⟨⟨.dbl, "first", (1, 1), [1], [2]⟩, by simp [demoW], by simp⟩
  · intro t ht
    simp only [List.mem_singleton] at ht
    subst ht
    rfl

/-- `a == b` may raise an AttributeError although `b == a` is False. -/
theorem C104_symmetric_violated : ∃ (s s' : Store String LV) (W W' : Wf LKind String),
    dataEq lib s s' W W' = .error .attributeError ∧ dataEq lib s' s W' W = .ok false :=
  ⟨[⟨"Model", "A", "", (0, 0), none, false⟩],
    [⟨"Sequence", "Any", "", (0, 0), none, false⟩, ⟨"Flattened sequence", "Any", "", (0, 0), none, false⟩],
    ⟨[⟨.instantiate "A" [], "", (0, 0), [], [0]⟩], [], some 0, [], [], "", "", ""⟩,
    ⟨[⟨.flatten, "", (0, 0), [0], [1]⟩], [], some 1, [], [], "", "", ""⟩, rfl, rfl⟩

end DC.Wkf
