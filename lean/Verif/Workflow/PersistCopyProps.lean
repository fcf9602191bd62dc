import Verif.Workflow.PersistCopy
/- Properties of the copy of workflows: C37. -/
set_option linter.unusedSectionVars false
set_option linter.unusedSimpArgs false
namespace DC.Wkf

variable {κ τ α δ J : Type} [Inhabited τ]

/-- A pipe leads to the variable. -/
def Fed (W : Wf κ δ) (v : Nat) : Prop := ∃ p ∈ W.pipes, p.2 = v

theorem input_iff {w : World κ τ α δ J} {s : Store τ α} {W : Wf κ δ} (hb : Built w s W) {b : BlockO κ}
    (hbb : b ∈ W.blocks) {v : Nat} (hv : v ∈ b.inputs) : v ∈ inputs (skel w s W) ↔ ¬ Fed W v := by
  have hm : (⟨b.inputs, b.outputs, w.eval b.kind⟩ : Block α) ∈ (skel w s W).blocks := List.mem_map.2 ⟨b, hbb, rfl⟩
  rw [mem_inputs]
  constructor
  · rintro ⟨-, -, h⟩ ⟨p, hp, rfl⟩
    have hp' : (⟨p.1, p.2, false⟩ : Pipe) ∈ (skel w s W).pipes := List.mem_map.2 ⟨p, hp, rfl⟩
    have he := h _ hp' rfl
    exact hb.source p hp b hbb (by simp only at he; rw [he]; exact hv)
  · intro h
    refine ⟨mem_allVariables.2 (.inl (mem_blockVars.2 ⟨_, hm, .inl hv⟩)), fun c hc ho => ?_, fun p hp ho => ?_⟩
    · exact in_ne_out hb.skel_distinct hm hc hv ho
    · obtain ⟨q, hq, rfl⟩ := List.mem_map.1 hp
      exact absurd ⟨q, hq, ho⟩ h

theorem zip_filter_map (l g : List Nat) (ρ : Nat → Nat) :
    ((l.zip (l.map ρ)).filter fun vu => g.contains vu.1).map (·.2) = (l.filter (g.contains ·)).map ρ := by
  induction l with
  | nil => rfl
  | cons a l ih =>
    simp only [List.map_cons, List.zip_cons_cons]
    by_cases h : g.contains a
    · rw [List.filter_cons_of_pos (by simpa using h), List.filter_cons_of_pos (by simpa using h),
        List.map_cons, List.map_cons, ih]
    · rw [List.filter_cons_of_neg (by simpa using h), List.filter_cons_of_neg (by simpa using h)]
      exact ih

theorem forall2_imp {β γ : Type} {R Q : β → γ → Prop} : ∀ {l : List β} {m : List γ}, List.Forall₂ R l m →
    (∀ x ∈ l, ∀ y, R x y → Q x y) → List.Forall₂ Q l m := by
  intro l m h
  induction h with
  | nil => intro _; exact .nil
  | cons h1 _ ih => intro h; exact .cons (h _ (by simp) _ h1) (ih fun x hx => h x (by simp [hx]))

theorem forall2_both {β γ : Type} {R Q : β → γ → Prop} : ∀ {l : List β} {m : List γ}, List.Forall₂ R l m →
    List.Forall₂ Q l m → ∀ x ∈ l, ∃ y, R x y ∧ Q x y := by
  intro l m h
  induction h with
  | nil => intro _ x hx; simp at hx
  | cons h1 _ ih =>
    intro h x hx
    cases h with
    | cons h2 h3 =>
      rcases List.mem_cons.1 hx with rfl | hx
      · exact ⟨_, h1, h2⟩
      · exact ih h3 x hx

/-! ### C37: a copied workflow is equal to, and independent of, the original -/

/-- What the copy of a workflow is: the same blocks with new ports, pipes between the same ports, the same output, the
same steps; the original is left as it was.  The ports are those of the constructors of the blocks, with the default
value and the lock of the inputs of the workflow which are locked; the free variables keep their name, annotation,
default value and lock.  Missing: group inputs of a step which are not among its inputs, pipes into a free variable,
labels, default values of the ports which are not locked, texts, detached variables (see the theorems below). -/
theorem C37_partial {w : World κ τ α δ J} {s : Store τ α} {W : Wf κ δ} (hb : Built w s W)
    (hgrp : ∀ t ∈ W.steps, t.groupInputs = t.inputs.filter (t.groupInputs.contains ·)) :
    ∃ W' s' ρ, deepCopy w s W = .ok (W', s') ∧ Replica s W s' W' ρ ∧ W'.name = W.name ∧
      (∀ b ∈ W.blocks, List.Forall₂ (fun v p =>
        ((look s v).lockFlag = true ∧ ¬ Fed W v → look s' (ρ v) =
          ⟨p.name, p.type, p.label, p.position, (look s v).default, true⟩) ∧
        (¬ ((look s v).lockFlag = true ∧ ¬ Fed W v) → look s' (ρ v) =
          ⟨p.name, p.type, p.label, p.position, p.default, false⟩)) b.inputs (w.ins b.kind)) ∧
      (∀ b ∈ W.blocks, List.Forall₂ (fun v p => look s' (ρ v) =
        ⟨p.name, p.type, p.label, p.position, p.default, false⟩) b.outputs (w.outs b.kind)) ∧
      ∀ v, VarOf W v → ¬ PortOf W v → look s' (ρ v) =
        ⟨(look s v).name, (look s v).type, "", (0, 0), (look s v).default, (look s v).lockFlag⟩ := by
  let G := skel w s W
  let n := s.length
  let L := allVariables G
  let ρ := shift n L
  have hd : (blockVars G).Nodup := hb.skel_distinct
  have hL : L.Nodup := allVariables_nodup hd
  have hLe : L = blockVars G ++ nbvs G := (nbvs_spec G).1
  have hmem : ∀ v, v ∈ L ↔ VarOf W v := fun v => mem_allVariables_skel w s W
  have hinj : ∀ u ∈ L, ∀ v ∈ L, ρ u = ρ v → u = v := fun u hu v hv he => shift_inj hu hv he
  have hbv : W.blocks.flatMap (fun b => b.inputs ++ b.outputs) = blockVars G := (blockVars_skel w s W).symm
  have hports : ∀ b ∈ W.blocks, List.Forall₂ (Port s) b.inputs (w.ins b.kind) ∧
      List.Forall₂ (Port s) b.outputs (w.outs b.kind) := fun b h => ⟨hb.ins b h, hb.outs b h⟩
  have hlen : (protos w W.blocks).length = (blockVars G).length := by
    rw [← hbv]; exact (protos_ports W.blocks hports).length_eq.symm
  -- blocks
  have e1 : copyBlocks w s W.blocks = (W.blocks.map (BlockO.rename ρ), s ++ (protos w W.blocks).map Proto.var) :=
    copyBlocks_ok hL n W.blocks [] (nbvs G) s (by rw [hbv]; exact hLe) rfl hports
  let S1 : Store τ α := s ++ (protos w W.blocks).map Proto.var
  have hS1 : S1.length = n + (blockVars G).length := by simp [S1, n, hlen]
  obtain ⟨h2a, h2b⟩ := output_addr hb ρ
  have e2 : copyOutput w s W (W.blocks.map (BlockO.rename ρ)) = .ok (W.output.map ρ) := by
    unfold copyOutput
    rw [h2a]
    exact h2b
  obtain ⟨det, e3⟩ := mkWf_ok w S1 [] [] "" "" W.name (rename_output ρ hb.output)
  -- pipes
  let S2 : Store τ α := S1 ++ (nbvs G).map fun v => freeCopy (look s v)
  have e4 := copyPipes_ok (C := ⟨W.blocks.map (BlockO.rename ρ), [], W.output.map ρ, [], det, "", "", W.name⟩) hb hS1
    rfl W.pipes [] [] (fun p hp => hp) (by simp) (by simp [varsAndNbvs]; rfl) (by simp)
  simp only [List.map_nil, List.append_nil] at e4
  obtain ⟨det2, e5⟩ := mkWf_ok w S2 (W.pipes.map fun p => (ρ p.1, ρ p.2)) [] "" "" W.name
    (rename_output ρ hb.output)
  obtain ⟨det3, e7⟩ := mkWf_ok w S2 (W.pipes.map fun p => (ρ p.1, ρ p.2)) (W.steps.map (StepO.rename ρ)) "" "" W.name
    (rename_output ρ hb.output)
  have hren : ∀ (S : Store τ α) (st : List (StepO δ)) (dt : List Nat),
      ren ρ G (skel w S (⟨W.blocks.map (BlockO.rename ρ), W.pipes.map fun p => (ρ p.1, ρ p.2),
      W.output.map ρ, st, dt, "", "", W.name⟩ : Wf κ δ)) := by
    intro S st dt
    constructor
    · simp only [skel, List.map_map, G]; rfl
    · simp only [skel, List.map_map, G]; rfl
  -- steps
  have e6 : W.steps.mapM (copyStep w s W S2 ⟨W.blocks.map (BlockO.rename ρ),
      W.pipes.map fun p => (ρ p.1, ρ p.2), W.output.map ρ, [], det2, "", "", W.name⟩) =
      .ok (W.steps.map (StepO.rename ρ)) := by
    apply mapM_pure
    intro t ht
    have h1 : ∀ v ∈ t.inputs, VarOf W v := fun v hv => hb.steps t ht v (by simp [hv])
    unfold copyStep
    rw [mapM_pure (l := t.inputs) (g := ρ)]
    · simp only [bind, Except.bind, StepO.rename]
      rw [zip_filter_map, ← hgrp t ht]
    · intro v hv
      obtain ⟨a1, a2⟩ := addr_ok hb.skel_target ((hmem v).2 (h1 v hv))
      rw [a1]
      exact ren_from (hren S2 [] det2) hinj a2
  -- locks
  have hin := ren_inputs (hren S2 (W.steps.map (StepO.rename ρ)) det3) hinj
  have hS2 : S2.length = n + L.length := by
    simp only [S2, List.length_append, hS1, List.length_map, hLe]
    omega
  have hsub : ∀ v ∈ inputs G, v ∈ L := fun v hv => (mem_inputs.1 hv).1
  obtain ⟨S3, e8, h8, h9, h10⟩ := copyLocks_ok (s := s) (ρ := ρ) (inputs G) S2 (inputs_nodup hd)
    (fun u hu v hv => hinj u (hsub u hu) v (hsub v hv))
    (fun v hv => by rw [hS2]; exact (shift_fresh (hsub v hv)).2)
    (fun v hv => hb.locks v (.inl ((hmem v).1 (hsub v hv))))
  have efin : deepCopy w s W = .ok (⟨W.blocks.map (BlockO.rename ρ), W.pipes.map fun p => (ρ p.1, ρ p.2),
      W.output.map ρ, W.steps.map (StepO.rename ρ), det3, "", "", W.name⟩, S3) := by
    unfold deepCopy
    rw [e1]
    simp only
    rw [e2]
    simp only [bind, Except.bind]
    rw [e3]
    simp only
    rw [e4]
    simp only
    rw [e5]
    simp only
    rw [e6]
    simp only
    rw [e7]
    simp only
    rw [hin, e8]
  have hfreshL : ∀ v ∈ L, n ≤ ρ v ∧ ρ v < n + L.length := fun v hv => shift_fresh hv
  -- what the copy holds before the locks
  have hblock : ∀ b ∈ W.blocks,
      List.Forall₂ (fun v p => look S2 (ρ v) = p.var) b.inputs (w.ins b.kind) ∧
      List.Forall₂ (fun v p => look S2 (ρ v) = p.var) b.outputs (w.outs b.kind) := by
    intro b hbb
    obtain ⟨l, r, hlr⟩ := List.append_of_mem hbb
    have hsplit : blockVars G = (l.flatMap fun b => b.inputs ++ b.outputs) ++ (b.inputs ++ b.outputs) ++
        (r.flatMap fun b => b.inputs ++ b.outputs) := by
      rw [← hbv, hlr]; simp
    have hps : protos w W.blocks = protos w l ++ (w.ins b.kind ++ w.outs b.kind) ++ protos w r := by
      unfold protos; rw [hlr]; simp
    have hll : (protos w l).length = (l.flatMap fun b => b.inputs ++ b.outputs).length :=
      (protos_ports l (fun c hc => hports c (by rw [hlr]; simp [hc]))).length_eq.symm
    have hi := (hb.ins b hbb).length_eq
    have ho := (hb.outs b hbb).length_eq
    constructor
    · have := protos_look (S0 := s) (S2 := (nbvs G).map fun v => freeCopy (look s v)) hL
        (I := b.inputs) (P := w.ins b.kind) (A := l.flatMap fun b => b.inputs ++ b.outputs)
        (B := b.outputs ++ (r.flatMap fun b => b.inputs ++ b.outputs) ++ nbvs G) (PA := protos w l)
        (PB := w.outs b.kind ++ protos w r) (by rw [hLe, hsplit]; simp) hll hi
      have he : protos w l ++ w.ins b.kind ++ (w.outs b.kind ++ protos w r) = protos w W.blocks := by rw [hps]; simp
      rw [he] at this
      exact this
    · have := protos_look (S0 := s) (S2 := (nbvs G).map fun v => freeCopy (look s v)) hL
        (I := b.outputs) (P := w.outs b.kind) (A := (l.flatMap fun b => b.inputs ++ b.outputs) ++ b.inputs)
        (B := (r.flatMap fun b => b.inputs ++ b.outputs) ++ nbvs G) (PA := protos w l ++ w.ins b.kind)
        (PB := protos w r) (by rw [hLe, hsplit]; simp) (by simp [hll, hi]) ho
      have he : protos w l ++ w.ins b.kind ++ w.outs b.kind ++ protos w r = protos w W.blocks := by rw [hps]; simp
      rw [he] at this
      exact this
  have hnotin : ∀ v ∈ L, v ∉ inputs G → look S3 (ρ v) = look S2 (ρ v) := fun v hv hni =>
    h9 _ (fun u hu he => hni (hinj u (hsub u hu) v hv he.symm ▸ hu))
  refine ⟨_, S3, ρ, efin, ⟨?_, ?_, ?_, rfl, rfl, rfl, rfl⟩, rfl, ?_, ?_, ?_⟩
  · intro u v hu hv he
    exact hinj u ((hmem u).2 hu) v ((hmem v).2 hv) he
  · intro v hv
    rw [h8, hS2]
    exact hfreshL v ((hmem v).2 hv)
  · intro v hv
    rw [h9 v (fun u hu he => by have := (hfreshL u (hsub u hu)).1; simp only [n] at this; omega)]
    simp only [S2, S1]
    rw [look_append_left (by simp; omega), look_append_left hv]
  · intro b hbb
    refine forall2_imp (hblock b hbb).1 (fun v hv p hp => ?_)
    have hvL : v ∈ L := (hmem v).2 (.inl ⟨b, hbb, .inl hv⟩)
    constructor
    · rintro ⟨h1, h2⟩
      rw [h10 v ((input_iff hb hbb hv).2 h2), if_pos h1, hp]
      rfl
    · intro h
      by_cases h2 : Fed W v
      · rw [hnotin v hvL (fun hc => (input_iff hb hbb hv).1 hc h2), hp]
        rfl
      · have h1 : ¬ (look s v).lockFlag = true := fun hc => h ⟨hc, h2⟩
        rw [h10 v ((input_iff hb hbb hv).2 h2), if_neg h1, hp]
        rfl
  · intro b hbb
    refine forall2_imp (hblock b hbb).2 (fun v hv p hp => ?_)
    have hvL : v ∈ L := (hmem v).2 (.inl ⟨b, hbb, .inr hv⟩)
    rw [hnotin v hvL, hp]
    · rfl
    · intro hc
      exact (mem_inputs.1 hc).2.1 ⟨b.inputs, b.outputs, w.eval b.kind⟩ (List.mem_map.2 ⟨b, hbb, rfl⟩) hv
  · intro v hv hnp
    have hnb : v ∈ nbvs G := Built.mem_nbvs.2 ⟨hv, hnp⟩
    have hvL : v ∈ L := (hmem v).2 hv
    have hlook : look S2 (ρ v) = freeCopy (look s v) := by
      have hidx : ρ v = S1.length + (nbvs G).idxOf v := by
        simp only [ρ, shift, hLe]
        rw [List.idxOf_append_of_notMem ((nbvs_spec G).2.2.1 v hnb), hS1]
        omega
      rw [hidx]
      simp only [S2]
      rw [look_append_right, look_map hnb]
    by_cases hvi : v ∈ inputs G
    · rw [h10 v hvi, hlook]
      split
      · rename_i hl
        simp only [freeCopy, hl]
      · rfl
    · rw [hnotin v hvL hvi, hlook]
      rfl

/-! ### Comparing the copy with the original -/

/-- The copy of a variable is equivalent to it. -/
structure Alike (x y : Var τ α) : Prop where
  name : y.name = x.name
  type : y.type = x.type
  lock : y.lockFlag = x.lockFlag
  some : x.lockFlag = true → x.default.isSome = true
  default : x.lockFlag = true → y.default = x.default

theorem Alike.locked {x y : Var τ α} (h : Alike x y) : x.locked = .ok x.lockFlag ∧ y.locked = .ok x.lockFlag :=
  ⟨locked_ok h.some, by rw [locked_ok (fun hl => by rw [h.default (h.lock ▸ hl)]; exact h.some (h.lock ▸ hl)), h.lock]⟩

theorem Alike.equiv [DecidableEq τ] {x y : Var τ α} (h : Alike x y) : varEquiv x y = .ok true := by
  unfold varEquiv
  rw [h.locked.1, h.locked.2]
  simp [bind, Except.bind, h.name, h.type]

theorem varsEquiv_ok [DecidableEq τ] {s s' : Store τ α} {ρ : Nat → Nat} : ∀ {vs : List Nat},
    (∀ v ∈ vs, Alike (look s v) (look s' (ρ v))) → varsEquiv s s' vs (vs.map ρ) = .ok true := by
  intro vs
  induction vs with
  | nil => intro _; rfl
  | cons v vs ih =>
    intro h
    simp only [List.map_cons, varsEquiv]
    rw [(h v (by simp)).equiv]
    simp only [bind, Except.bind, if_true]
    exact ih fun u hu => h u (by simp [hu])

theorem lockedCount_ok {s s' : Store τ α} {ρ : Nat → Nat} {vs : List Nat}
    (h : ∀ v ∈ vs, Alike (look s v) (look s' (ρ v))) :
    ∃ k, lockedCount s vs = .ok k ∧ lockedCount s' (vs.map ρ) = .ok k := by
  refine ⟨(vs.map fun v => (look s v).lockFlag).count true, ?_, ?_⟩
  · unfold lockedCount
    rw [mapM_pure (g := fun v => (look s v).lockFlag) (fun v hv => (h v hv).locked.1)]
    rfl
  · unfold lockedCount
    have : (vs.map ρ).mapM (fun v => (look s' v).locked) = .ok (vs.map fun v => (look s v).lockFlag) := by
      rw [Py.mapM_ok, List.forall₂_map_left_iff, List.forall₂_map_right_iff, List.forall₂_same]
      exact fun v hv => (h v hv).locked.2
    rw [this]
    rfl

theorem ren_findPort {ρ : Nat → Nat} {v : Nat} : ∀ (bs : List (Block α)) (k : Nat),
    (∀ b ∈ bs, ∀ u, u ∈ b.inputs ∨ u ∈ b.outputs → ρ u = ρ v → u = v) →
    findPort (ρ v) k (bs.map fun b => ⟨b.inputs.map ρ, b.outputs.map ρ, b.eval⟩) = findPort v k bs := by
  intro bs
  induction bs with
  | nil => intro k _; rfl
  | cons b bs ih =>
    intro k h
    have hm : ∀ l : List Nat, (∀ u ∈ l, ρ u = ρ v → u = v) → (ρ v ∈ l.map ρ ↔ v ∈ l) ∧
        (l.map ρ).idxOf (ρ v) = l.idxOf v := by
      intro l hl
      constructor
      · constructor
        · intro hc
          obtain ⟨u, hu, he⟩ := List.mem_map.1 hc
          exact hl u hu he ▸ hu
        · exact List.mem_map_of_mem
      · induction l with
        | nil => rfl
        | cons a l ih =>
          rw [List.map_cons, List.idxOf_cons, List.idxOf_cons, ih fun u hu => hl u (by simp [hu])]
          have : (ρ a == ρ v) = (a == v) := by
            rw [Bool.eq_iff_iff, beq_iff_eq, beq_iff_eq]
            exact ⟨hl a (by simp), fun e => by rw [e]⟩
          rw [this]
    obtain ⟨i1, i2⟩ := hm b.inputs (fun u hu => h b (by simp) u (.inl hu))
    obtain ⟨o1, o2⟩ := hm b.outputs (fun u hu => h b (by simp) u (.inr hu))
    simp only [List.map_cons, findPort, i1, i2, o1, o2]
    rw [ih (k + 1) fun c hc => h c (by simp [hc])]

theorem idxOf_map {ρ : Nat → Nat} {v : Nat} : ∀ (l : List Nat), (∀ u ∈ l, ρ u = ρ v → u = v) →
    (l.map ρ).idxOf (ρ v) = l.idxOf v := by
  intro l
  induction l with
  | nil => intro _; rfl
  | cons a l ih =>
    intro hl
    rw [List.map_cons, List.idxOf_cons, List.idxOf_cons, ih fun u hu => hl u (by simp [hu])]
    have : (ρ a == ρ v) = (a == v) := by
      rw [Bool.eq_iff_iff, beq_iff_eq, beq_iff_eq]
      exact ⟨hl a (by simp), fun e => by rw [e]⟩
    rw [this]

/-- A workflow made of the same objects up to the identity of the variables. -/
structure Iso (W W' : Wf κ δ) (ρ : Nat → Nat) : Prop where
  inj : ∀ u v, VarOf W u → VarOf W v → ρ u = ρ v → u = v
  blocks : W'.blocks = W.blocks.map (BlockO.rename ρ)
  pipes : W'.pipes = W.pipes.map fun p => (ρ p.1, ρ p.2)
  output : W'.output = W.output.map ρ
  steps : W'.steps = W.steps.map (StepO.rename ρ)

theorem Replica.iso {s s' : Store τ α} {W W' : Wf κ δ} {ρ : Nat → Nat} (h : Replica s W s' W' ρ) : Iso W W' ρ :=
  ⟨h.inj, h.blocks, h.pipes, h.output, h.steps⟩

theorem Iso.ren {w : World κ τ α δ J} {s s' : Store τ α} {W W' : Wf κ δ} {ρ : Nat → Nat} (h : Iso W W' ρ) :
    ren ρ (skel w s W) (skel w s' W') := by
  constructor
  · simp [skel, h.blocks, BlockO.rename]
  · simp [skel, h.pipes]

/-- A workflow of alike variables compares equal, when every step can be hashed. -/
theorem dataEq_replica [DecidableEq τ] [DecidableEq δ] {w : World κ τ α δ J} (hsame : ∀ k, w.same k k = true ∧ w.reads k k = .ok ())
    {s s' : Store τ α} {W W' : Wf κ δ} (hb : Built w s W) {ρ : Nat → Nat} (hr : Iso W W' ρ)
    (hal : ∀ v, VarOf W v → Alike (look s v) (look s' (ρ v)))
    (hidx : ∀ t ∈ W.steps, t.displayIdx ≠ none) : dataEq w s s' W W' = .ok true := by
  have hinj : ∀ u ∈ allVariables (skel w s W), ∀ v ∈ allVariables (skel w s W), ρ u = ρ v → u = v :=
    fun u hu v hv he => hr.inj u v ((mem_allVariables_skel w s W).1 hu) ((mem_allVariables_skel w s W).1 hv) he
  have hin := ren_inputs (hr.ren (w := w) (s := s) (s' := s')) hinj
  have hall := (ren_vars (hr.ren (w := w) (s := s) (s' := s')) hinj).1
  have hport : ∀ b ∈ W.blocks, ∀ v ∈ b.inputs, Alike (look s v) (look s' (ρ v)) := fun b hbb v hv =>
    hal v (.inl ⟨b, hbb, .inl hv⟩)
  have hout : outputIndices w s' W' = outputIndices w s W := by
    unfold outputIndices
    rw [hr.output]
    cases ho : W.output with
    | none => rfl
    | some o =>
      obtain ⟨b, h1, h2⟩ := hb.output o ho
      have hbv : o ∈ blockVars (skel w s W) := (mem_blockVars_skel w s W).2 ⟨b, h1, .inr h2⟩
      simp only [Option.map_some]
      congr 1
      obtain ⟨c, hc, hm⟩ := mem_blockVars.1 hbv
      obtain ⟨i, hi⟩ := List.getElem?_of_mem hc
      obtain ⟨j, c', side, m, h1, -⟩ := findPort_some (skel w s W).blocks 0 c i hi (List.mem_append.2 hm)
      have h2 : findPort (ρ o) 0 (skel w s' W').blocks = findPort o 0 (skel w s W).blocks := by
        rw [(hr.ren (w := w) (s := s) (s' := s')).1]
        apply ren_findPort
        intro d hd u hu he
        exact hinj u (mem_allVariables.2 (.inl (mem_blockVars.2 ⟨d, hd, hu⟩))) o (mem_allVariables.2 (.inl hbv)) he
      unfold variableIndices
      rw [h2, h1]
  obtain ⟨k, hk1, hk2⟩ := lockedCount_ok (s := s) (s' := s') (ρ := ρ) (vs := inputs (skel w s W))
    (fun v hv => hal v ((mem_allVariables_skel w s W).1 (mem_inputs.1 hv).1))
  have hbh : ∃ bs, W.blocks.mapM (blockHash w s) = .ok bs ∧ W'.blocks.mapM (blockHash w s') = .ok bs := by
    have h1 : ∀ b ∈ W.blocks, ∃ x, blockHash w s b = .ok x ∧ blockHash w s' (b.rename ρ) = .ok x := by
      intro b hbb
      obtain ⟨m, hm1, hm2⟩ := lockedCount_ok (hport b hbb)
      refine ⟨w.hash b.kind m, ?_, ?_⟩
      · unfold blockHash; rw [hm1]; rfl
      · unfold blockHash BlockO.rename; rw [hm2]; rfl
    rw [hr.blocks]
    have : ∀ bs : List (BlockO κ), (∀ b ∈ bs, ∃ x, blockHash w s b = .ok x ∧ blockHash w s' (b.rename ρ) = .ok x) →
        ∃ xs, bs.mapM (blockHash w s) = .ok xs ∧ (bs.map (BlockO.rename ρ)).mapM (blockHash w s') = .ok xs := by
      intro bs
      induction bs with
      | nil => intro _; exact ⟨[], rfl, rfl⟩
      | cons b bs ih =>
        intro h
        obtain ⟨x, hx1, hx2⟩ := h b (by simp)
        obtain ⟨xs, hxs1, hxs2⟩ := ih fun c hc => h c (by simp [hc])
        refine ⟨x :: xs, ?_, ?_⟩
        · rw [List.mapM_cons, hx1, hxs1]; rfl
        · rw [List.map_cons, List.mapM_cons, hx2, hxs2]; rfl
    exact this W.blocks h1
  obtain ⟨bs, hbs1, hbs2⟩ := hbh
  have hth : ∃ ts, W.steps.mapM (stepHash w) = .ok ts ∧ W'.steps.mapM (stepHash w) = .ok ts := by
    rw [hr.steps]
    have : ∀ l : List (StepO δ), (∀ t ∈ l, t.displayIdx ≠ none) →
        ∃ xs, l.mapM (stepHash w) = .ok xs ∧ (l.map (StepO.rename ρ)).mapM (stepHash w) = .ok xs := by
      intro l
      induction l with
      | nil => intro _; exact ⟨[], rfl, rfl⟩
      | cons t l ih =>
        intro h
        obtain ⟨xs, hxs1, hxs2⟩ := ih fun c hc => h c (by simp [hc])
        obtain ⟨i, hi⟩ := Option.ne_none_iff_exists'.1 (h t (by simp))
        have e1 : stepHash w (t.rename ρ) = stepHash w t := by
          unfold stepHash StepO.rename
          simp
        have e2 : ∃ x, stepHash w t = .ok x := by
          unfold stepHash
          rw [hi]
          exact ⟨_, rfl⟩
        obtain ⟨x, hx⟩ := e2
        refine ⟨x :: xs, ?_, ?_⟩
        · rw [List.mapM_cons, hx, hxs1]; rfl
        · rw [List.map_cons, List.mapM_cons, e1, hx, hxs2]; rfl
    exact this W.steps hidx
  obtain ⟨ts, hts1, hts2⟩ := hth
  have hoi := (output_addr hb id).1
  have hhash : ∃ h, dataHash w s W = .ok h ∧ dataHash w s' W' = .ok h := by
    have e : dataHash w s' W' = dataHash w s W := by
      unfold dataHash
      rw [hout, hin, hk2, hk1, hbs2, hbs1, hts2, hts1, hr.blocks, hr.pipes]
      simp only [List.length_map]
    have e' : ∃ h, dataHash w s W = .ok h := by
      unfold dataHash
      rw [hoi, hk1, hbs1, hts1]
      exact ⟨_, rfl⟩
    obtain ⟨h, hh⟩ := e'
    exact ⟨h, hh, e.trans hh⟩
  obtain ⟨h, hh1, hh2⟩ := hhash
  have h1 := varsEquiv_ok (s := s) (s' := s') (ρ := ρ) (vs := inputs (skel w s W))
    (fun v hv => hal v ((mem_allVariables_skel w s W).1 (mem_inputs.1 hv).1))
  have h2 : blocksEquiv w s s' W.blocks W'.blocks = .ok true := by
    rw [hr.blocks]
    have : ∀ bs : List (BlockO κ), (∀ b ∈ bs, ∀ v ∈ b.inputs, Alike (look s v) (look s' (ρ v))) →
        blocksEquiv w s s' bs (bs.map (BlockO.rename ρ)) = .ok true := by
      intro bs
      induction bs with
      | nil => intro _; rfl
      | cons b bs ih =>
        intro hp
        simp only [List.map_cons, blocksEquiv]
        have : blockEquiv w s s' b (b.rename ρ) = .ok true := by
          unfold blockEquiv BlockO.rename
          simp only
          rw [varsEquiv_ok (hp b (by simp)), (hsame b.kind).2]
          simp [bind, Except.bind, hsame]
        rw [this]
        simp only [bind, Except.bind, if_true]
        exact ih fun c hc => hp c (by simp [hc])
    exact this W.blocks hport
  have h3 : pipesEquiv (allVariables (skel w s W)) (allVariables (skel w s' W')) W.pipes W'.pipes = true := by
    unfold pipesEquiv
    rw [hr.pipes, hall]
    simp only [List.length_map, Nat.min_self, List.take_length, ← List.map_take, List.map_map]
    have : (W.pipes.map ((fun p : Nat × Nat => (((allVariables (skel w s W)).map ρ).idxOf p.1,
        ((allVariables (skel w s W)).map ρ).idxOf p.2)) ∘ fun p => (ρ p.1, ρ p.2))) =
        W.pipes.map fun p => ((allVariables (skel w s W)).idxOf p.1, (allVariables (skel w s W)).idxOf p.2) := by
      apply List.map_congr_left
      intro p hp
      simp only [Function.comp]
      rw [idxOf_map _ fun u hu he => hinj u hu p.1 ((mem_allVariables_skel w s W).2 (.inr ⟨p, hp, .inl rfl⟩)) he,
        idxOf_map _ fun u hu he => hinj u hu p.2 ((mem_allVariables_skel w s W).2 (.inr ⟨p, hp, .inr rfl⟩)) he]
    rw [this]
    rw [Bool.and_eq_true]
    constructor <;> (rw [List.all_eq_true]; intro x hx; simpa using hx)
  have h4 : stepsEquiv s s' W.steps W'.steps = .ok true := by
    rw [hr.steps]
    have : ∀ l : List (StepO δ), (∀ t ∈ l, ∀ v ∈ t.inputs ++ t.groupInputs, Alike (look s v) (look s' (ρ v))) →
        stepsEquiv s s' l (l.map (StepO.rename ρ)) = .ok true := by
      intro l
      induction l with
      | nil => intro _; rfl
      | cons t l ih =>
        intro hp
        simp only [List.map_cons, stepsEquiv]
        have : stepEquiv s s' t (t.rename ρ) = .ok true := by
          unfold stepEquiv StepO.rename
          simp only
          rw [varsEquiv_ok (fun v hv => hp t (by simp) v (by simp [hv])),
            varsEquiv_ok (fun v hv => hp t (by simp) v (by simp [hv]))]
          simp [bind, Except.bind]
        rw [this]
        simp only [bind, Except.bind, if_true]
        exact ih fun c hc => hp c (by simp [hc])
    exact this W.steps (fun t ht v hv => hal v (hb.steps t ht v hv))
  unfold dataEq
  rw [hh1]
  simp only [bind, Except.bind]
  rw [hh2]
  simp only [bne_self_eq_false, Bool.false_eq_true, if_false]
  rw [hin, h1]
  simp only [Bool.not_true, Bool.false_eq_true, if_false]
  rw [h2]
  simp only [Bool.not_true, Bool.false_eq_true, if_false]
  rw [h3]
  simp only [Bool.not_true, Bool.false_eq_true, if_false]
  exact h4

/-- The variables of the copy are alike those of the workflow, when only its inputs are locked. -/
theorem copy_alike {w : World κ τ α δ J} {s s' : Store τ α} {W : Wf κ δ} (hb : Built w s W) {ρ : Nat → Nat}
    (hlock : ∀ b ∈ W.blocks, ∀ v, v ∈ b.inputs ∧ Fed W v ∨ v ∈ b.outputs → (look s v).lockFlag = false)
    (hi : ∀ b ∈ W.blocks, List.Forall₂ (fun v p =>
        ((look s v).lockFlag = true ∧ ¬ Fed W v → look s' (ρ v) =
          ⟨p.name, p.type, p.label, p.position, (look s v).default, true⟩) ∧
        (¬ ((look s v).lockFlag = true ∧ ¬ Fed W v) → look s' (ρ v) =
          ⟨p.name, p.type, p.label, p.position, p.default, false⟩)) b.inputs (w.ins b.kind))
    (ho : ∀ b ∈ W.blocks, List.Forall₂ (fun v p => look s' (ρ v) =
        ⟨p.name, p.type, p.label, p.position, p.default, false⟩) b.outputs (w.outs b.kind))
    (hf : ∀ v, VarOf W v → ¬ PortOf W v → look s' (ρ v) =
        ⟨(look s v).name, (look s v).type, "", (0, 0), (look s v).default, (look s v).lockFlag⟩) :
    ∀ v, VarOf W v → Alike (look s v) (look s' (ρ v)) := by
  intro v hv
  have hs := hb.locks v (.inl hv)
  by_cases hp : PortOf W v
  · obtain ⟨b, hbb, h | h⟩ := hp
    · obtain ⟨p, h1, h2, h3⟩ := forall2_both (hb.ins b hbb) (hi b hbb) v h
      by_cases hl : (look s v).lockFlag = true ∧ ¬ Fed W v
      · rw [h2 hl]
        exact ⟨h1.1.symm, h1.2.1.symm, hl.1.symm, hs, fun _ => rfl⟩
      · rw [h3 hl]
        have hfalse : (look s v).lockFlag = false := by
          by_cases hfd : Fed W v
          · exact hlock b hbb v (.inl ⟨h, hfd⟩)
          · cases hc : (look s v).lockFlag with
            | true => exact absurd ⟨hc, hfd⟩ hl
            | false => rfl
        exact ⟨h1.1.symm, h1.2.1.symm, hfalse.symm, hs, fun hc => by rw [hfalse] at hc; simp at hc⟩
    · obtain ⟨p, h1, h2⟩ := forall2_both (hb.outs b hbb) (ho b hbb) v h
      have hfalse := hlock b hbb v (.inr h)
      rw [h2]
      exact ⟨h1.1.symm, h1.2.1.symm, hfalse.symm, hs, fun hc => by rw [hfalse] at hc; simp at hc⟩
  · rw [hf v hv hp]
    exact ⟨rfl, rfl, rfl, hs, fun _ => rfl⟩

/-- A workflow is equal to itself, when every step has the index of a displayed variable.
Missing: steps without such an index (`C104_step_violated`). -/
theorem C104_partial [DecidableEq τ] [DecidableEq δ] {w : World κ τ α δ J}
    (hsame : ∀ k, w.same k k = true ∧ w.reads k k = .ok ()) {s : Store τ α} {W : Wf κ δ} (hb : Built w s W)
    (hidx : ∀ t ∈ W.steps, t.displayIdx ≠ none) : dataEq w s s W W = .ok true := by
  refine dataEq_replica hsame hb (ρ := id) ⟨fun _ _ _ _ e => e, ?_, ?_, ?_, ?_⟩ ?_ hidx
  · rw [show (BlockO.rename id : BlockO κ → _) = id from funext fun b => by simp [BlockO.rename]]; simp
  · simp
  · simp
  · rw [show (StepO.rename id : StepO δ → _) = id from funext fun b => by simp [StepO.rename]]; simp
  · intro v hv
    exact ⟨rfl, rfl, rfl, hb.locks v (.inl hv), fun _ => rfl⟩

/-- The copy compares equal to the original, when only inputs of the workflow are locked and every step has the index of a
displayed variable.  (`s` still tells what the variables of the original hold, by `Replica.kept`.)
Missing: other locks and steps (`C37_lock_violated`, `C104_step_violated`). -/
theorem C37_equal_partial [DecidableEq τ] [DecidableEq δ] {w : World κ τ α δ J} (hsame : ∀ k, w.same k k = true ∧ w.reads k k = .ok ())
    {s : Store τ α} {W : Wf κ δ} (hb : Built w s W)
    (hgrp : ∀ t ∈ W.steps, t.groupInputs = t.inputs.filter (t.groupInputs.contains ·))
    (hlock : ∀ b ∈ W.blocks, ∀ v, v ∈ b.inputs ∧ Fed W v ∨ v ∈ b.outputs → (look s v).lockFlag = false)
    (hidx : ∀ t ∈ W.steps, t.displayIdx ≠ none) :
    ∃ W' s', deepCopy w s W = .ok (W', s') ∧ dataEq w s s' W W' = .ok true := by
  obtain ⟨W', s', ρ, h1, hr, -, h2, h3, h4⟩ := C37_partial hb hgrp
  exact ⟨W', s', h1, dataEq_replica hsame hb hr.iso (copy_alike hb hlock h2 h3 h4) hidx⟩

/-- The copy computes what the workflow computes, whatever the values of the inputs. -/
theorem C37_runs {w : World κ τ α δ J} {s : Store τ α} {W : Wf κ δ} (hb : Built w s W)
    (hgrp : ∀ t ∈ W.steps, t.groupInputs = t.inputs.filter (t.groupInputs.contains ·)) {W' : Wf κ δ} {s' : Store τ α}
    (h : deepCopy w s W = .ok (W', s')) :
    ∃ ρ : Nat → Nat, inputs (skel w s' W') = (inputs (skel w s W)).map ρ ∧ W'.output = W.output.map ρ ∧
      ∀ v, VarOf W v → ∀ vals x, Den (skel w s' W') vals (ρ v) x ↔ Den (skel w s W) vals v x := by
  obtain ⟨W1, s1, ρ, h1, hr, -⟩ := C37_partial hb hgrp
  rw [h] at h1
  cases h1
  have hinj : ∀ u ∈ allVariables (skel w s W), ∀ v ∈ allVariables (skel w s W), ρ u = ρ v → u = v :=
    fun u hu v hv' he => hr.inj u v ((mem_allVariables_skel w s W).1 hu) ((mem_allVariables_skel w s W).1 hv') he
  exact ⟨ρ, ren_inputs (hr.ren (w := w)) hinj, hr.output, fun v hv' vals x =>
    ⟨fun h => ren_den_back hr.ren hinj h v ((mem_allVariables_skel w s W).2 hv') rfl,
      fun h => ren_den hr.ren hinj h⟩⟩

/-- The workflow to copy: the one of `demoW`, whose copied step groups one of its inputs. -/
example : Built demo demoS demoW ∧ (∀ t ∈ demoW.steps, t.groupInputs = t.inputs.filter (t.groupInputs.contains ·)) ∧
    (∀ k, demo.same k k = true ∧ demo.reads k k = .ok ()) ∧
    (∀ b ∈ demoW.blocks, ∀ v, v ∈ b.inputs ∧ Fed demoW v ∨ v ∈ b.outputs → (look demoS v).lockFlag = false) ∧
    (∀ t ∈ demoW.steps, t.displayIdx ≠ none) := by
  refine ⟨demo_built, ?_, fun _ => ⟨rfl, rfl⟩, ?_, ?_⟩
  · intro t h
    simp only [demoW, List.mem_cons, List.not_mem_nil, or_false] at h
    subst h
    rfl
  · intro b hb v hv
    have hfed : Fed demoW v ↔ v = 3 ∨ v = 4 := by
      simp [Fed, demoW, eq_comm]
    rw [hfed] at hv
    simp only [demoW, List.mem_cons, List.not_mem_nil, or_false] at hb
    rcases hb with rfl | rfl
    · simp only [List.mem_cons, List.not_mem_nil, or_false] at hv
      rcases hv with ⟨rfl, h⟩ | rfl
      · simp at h
      · rfl
    · simp only [List.mem_cons, List.not_mem_nil, or_false] at hv
      rcases hv with ⟨rfl | rfl, -⟩ | rfl <;> rfl
  · intro t h
    simp only [demoW, List.mem_cons, List.not_mem_nil, or_false] at h
    subst h
    simp

/-! ### What a copy loses -/

/-- The default value given by a user to an input which is not locked is lost: what runs without giving this input no
longer runs on the copy. -/
theorem C37_default_violated : ∃ (s : Store Nat Int) (W W' : Wf Kd String) (s' : Store Nat Int),
    deepCopy demo s W = .ok (W', s') ∧ expected (skel demo s W) [] 0 = some 8 ∧ expected (skel demo s' W') [] 0 = none :=
  ⟨demoS.modify 1 fun x => { x with lockFlag := false }, demoW, _, _, rfl, rfl, rfl⟩

/-- Labels are lost. -/
theorem C37_label_violated : ∃ (s : Store Nat Int) (W W' : Wf Kd String) (s' : Store Nat Int) (v v' : Nat),
    deepCopy demo s W = .ok (W', s') ∧ (inputs (skel demo s W))[0]? = some v ∧
    (inputs (skel demo s' W'))[0]? = some v' ∧ (look s v).label = "my x" ∧ (look s' v').label = "" :=
  ⟨demoS, demoW, _, _, 1, _, rfl, rfl, rfl, rfl, rfl⟩

/-- The description and the documentation are lost. -/
theorem C37_texts_violated : ∃ (s : Store Nat Int) (W W' : Wf Kd String) (s' : Store Nat Int),
    deepCopy demo s W = .ok (W', s') ∧ W.description = "what" ∧ W'.description = "" ∧ W.documentation = "how" ∧
    W'.documentation = "" := ⟨demoS, demoW, _, _, rfl, rfl, rfl, rfl, rfl⟩

/-- The detached variables are lost. -/
theorem C37_detached_violated : ∃ (s : Store Nat Int) (W W' : Wf Kd String) (s' : Store Nat Int),
    deepCopy demo s W = .ok (W', s') ∧ W.detached.length = 2 ∧ W'.detached.length = 1 :=
  ⟨demoS ++ [⟨"later", 1, "", (0, 0), some 1, false⟩], { demoW with detached := [0, 7] }, _, _, rfl, rfl, rfl⟩

/-- The workflow and its copy share the variable of the name of the result. -/
theorem C37_shared_violated : ∃ (s : Store Nat Int) (W W' : Wf Kd String) (s' : Store Nat Int) (v : Nat),
    deepCopy demo s W = .ok (W', s') ∧ v ∈ W.detached ∧ v ∈ W'.detached :=
  ⟨demoS, demoW, _, _, 0, rfl, by decide, by decide⟩

/-- The group inputs of a step which are inputs of a previous step are lost. -/
theorem C37_group_violated : ∃ (s : Store Nat Int) (W W' : Wf Kd String) (s' : Store Nat Int) (t t' : StepO String),
    deepCopy demo s W = .ok (W', s') ∧ W.steps[1]? = some t ∧ W'.steps[1]? = some t' ∧ t.groupInputs.length = 2 ∧
    t'.groupInputs.length = 1 :=
  ⟨demoS, { demoW with steps := [⟨"one", [1], "g", [1], none, "", some 0, "i"⟩,
    ⟨"two", [6], "g", [1, 6], none, "", some 0, "j"⟩] }, _, _, _, _, rfl, rfl, rfl, rfl, rfl⟩

/-- A workflow with a pipe into a free variable cannot be copied. -/
theorem C37_free_violated : ∃ (s : Store Nat Int) (W : Wf Kd String),
    W.pipes = [(2, 6), (6, 3)] ∧ deepCopy demo s W = .error .indexError :=
  ⟨demoS, { demoW with pipes := [(2, 6), (6, 3)], steps := [] }, rfl, rfl⟩

/-- The lock of a port which a pipe feeds is lost, and the copy then differs from the workflow. -/
theorem C37_lock_violated : ∃ (s : Store Nat Int) (W W' : Wf Kd String) (s' : Store Nat Int),
    deepCopy demo s W = .ok (W', s') ∧ dataEq demo s s' W W' = .ok false :=
  ⟨demoS.modify 3 fun x => { x with lockFlag := true }, demoW, _, _, rfl, rfl⟩

/-- A workflow which has a step without the index of a displayed variable, as steps are built by default, can be compared
with nothing, not even itself: the hash of the step raises. -/
theorem C37_hash_violated : ∃ (s : Store Nat Int) (W W' : Wf Kd String) (s' : Store Nat Int),
    deepCopy demo s W = .ok (W', s') ∧ dataEq demo s s' W W' = .error .typeError ∧
    dataEq demo s s W W = .error .typeError :=
  ⟨demoS, { demoW with steps := [⟨"step", [1], "g", [], none, "", none, "i"⟩] }, _, _, rfl, rfl, rfl⟩

end DC.Wkf
