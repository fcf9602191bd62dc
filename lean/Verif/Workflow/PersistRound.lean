import Verif.Workflow.PersistLemmas
import Verif.Workflow.Props
/- Proof that a workflow read back from its dict is a replica of it. -/
set_option linter.unusedSectionVars false
set_option linter.unusedSimpArgs false
namespace DC.Wkf

variable {κ τ α δ J : Type} [Inhabited τ]

/-! ### Addresses -/

/-- The address of a variable which has one.  Used in proofs only (no code). -/
def addrOf (G : Workflow α) (v : Nat) : Addr :=
  match variableIndices G v with
  | .ok a => a
  | .error _ => .nbv 0

theorem addr_port {G : Workflow α} {v : Nat} (hv : v ∈ blockVars G) :
    ∃ j side i b, variableIndices G v = .ok (.port j side i) ∧ addrOf G v = .port j side i ∧ G.blocks[j]? = some b ∧
      (if side then b.outputs else b.inputs)[i]? = some v := by
  obtain ⟨b, hb, hm⟩ := mem_blockVars.1 hv
  obtain ⟨i, hi⟩ := List.getElem?_of_mem hb
  obtain ⟨j, c, side, n, h1, -⟩ := findPort_some G.blocks 0 b i hi (List.mem_append.2 hm)
  obtain ⟨j', side', n', b', h2, h3, h4⟩ := findPort_get _ _ _ h1
  have e : variableIndices G v = .ok (.port j' side' n') := by
    unfold variableIndices
    rw [h1, h2]
    simp
  exact ⟨j', side', n', b', e, by unfold addrOf; rw [e], h3, h4⟩

theorem addr_free {G : Workflow α} (ht : ∀ p ∈ G.pipes, ∃ b ∈ G.blocks, p.output ∈ b.inputs) {v : Nat}
    (hv : v ∈ nbvs G) : variableIndices G v = .ok (.nbv ((nbvs G).idxOf v)) ∧ addrOf G v = .nbv ((nbvs G).idxOf v) := by
  have hnb : v ∉ blockVars G := (nbvs_spec G).2.2.1 v hv
  have e : variableIndices G v = .ok (.nbv ((nbvs G).idxOf v)) := by
    unfold variableIndices
    cases h : findPort v 0 G.blocks with
    | some a =>
      obtain ⟨j, side, n, b, -, h2, h3⟩ := findPort_get _ _ _ h
      refine absurd (mem_blockVars.2 ⟨b, List.mem_of_getElem? h2, ?_⟩) hnb
      cases side with
      | true => exact .inr (List.mem_of_getElem? h3)
      | false => exact .inl (List.mem_of_getElem? h3)
    | none =>
      have hup : upstreamNbv G v = v := by
        apply upstreamNbv_self
        intro p hp ho
        obtain ⟨b, hb, hin⟩ := ht p hp
        exact hnb (mem_blockVars.2 ⟨b, hb, .inl (ho ▸ hin)⟩)
      simp only [hup, hv, if_true]
  exact ⟨e, by unfold addrOf; rw [e]⟩

theorem addr_ok {G : Workflow α} (ht : ∀ p ∈ G.pipes, ∃ b ∈ G.blocks, p.output ∈ b.inputs) {v : Nat}
    (hv : v ∈ allVariables G) : variableIndices G v = .ok (addrOf G v) ∧ variableFromIndex G (addrOf G v) = .ok v := by
  rw [(nbvs_spec G).1, List.mem_append] at hv
  rcases hv with hv | hv
  · obtain ⟨j, side, i, b, h1, h2, h3, h4⟩ := addr_port hv
    rw [h1, h2]
    refine ⟨rfl, ?_⟩
    simp only [variableFromIndex, h3, h4]
  · obtain ⟨h1, h2⟩ := addr_free ht hv
    rw [h1, h2]
    refine ⟨rfl, ?_⟩
    simp only [variableFromIndex]
    rw [List.getElem?_eq_getElem (List.idxOf_lt_length_of_mem hv), List.getElem_idxOf]

theorem ren_from {ρ : Nat → Nat} {G H : Workflow α} (h : ren ρ G H)
    (hinj : ∀ u ∈ allVariables G, ∀ v ∈ allVariables G, ρ u = ρ v → u = v) {a : Addr} {v : Nat}
    (hv : variableFromIndex G a = .ok v) : variableFromIndex H a = .ok (ρ v) := by
  cases a with
  | nbv i =>
    simp only [variableFromIndex] at hv ⊢
    rw [(ren_vars h hinj).2, List.getElem?_map]
    cases hi : (nbvs G)[i]? with
    | none => rw [hi] at hv; simp at hv
    | some u =>
      rw [hi] at hv
      simp only [Except.ok.injEq] at hv
      subst hv
      rfl
  | port b side i =>
    simp only [variableFromIndex] at hv ⊢
    rw [h.1, List.getElem?_map]
    cases hb : G.blocks[b]? with
    | none => rw [hb] at hv; simp at hv
    | some c =>
      rw [hb] at hv
      simp only [Option.map_some] at hv ⊢
      cases side with
      | true =>
        simp only [if_true, List.getElem?_map] at hv ⊢
        cases hi : c.outputs[i]? with
        | none => rw [hi] at hv; simp at hv
        | some u =>
          rw [hi] at hv
          simp only [Except.ok.injEq] at hv
          subst hv
          rfl
      | false =>
        simp only [Bool.false_eq_true, if_false, List.getElem?_map] at hv ⊢
        cases hi : c.inputs[i]? with
        | none => rw [hi] at hv; simp at hv
        | some u =>
          rw [hi] at hv
          simp only [Except.ok.injEq] at hv
          subst hv
          rfl

/-! ### Variables -/

/-- The dict of a variable whose lock is sound.  Used in proofs only (no code). -/
def varD (w : World κ τ α δ J) (x : Var τ α) : VarD J :=
  ⟨x.name, w.serT x.type, x.label, x.position, x.lockFlag, x.default.map w.ser⟩

theorem locked_ok {x : Var τ α} (h : x.lockFlag = true → x.default.isSome = true) : x.locked = .ok x.lockFlag := by
  unfold Var.locked
  cases hl : x.lockFlag with
  | true => simp [h hl]
  | false => simp

theorem varToDict_ok (w : World κ τ α δ J) {x : Var τ α} (h : x.lockFlag = true → x.default.isSome = true) :
    varToDict w x = .ok (varD w x) := by
  unfold varToDict
  rw [locked_ok h]
  rfl

theorem updateZip_ok {w : World κ τ α δ J} (hrt : ∀ a, w.des (w.ser a) = a) {s : Store τ α} :
    ∀ {vs : List Nat} {ps : List (Proto τ α)}, List.Forall₂ (Port s) vs ps →
      (∀ v ∈ vs, (look s v).lockFlag = true → (look s v).default.isSome = true) →
      updateZip w (ps.map Proto.var) (vs.map fun v => varD w (look s v)) = .ok (vs.map (look s)) := by
  intro vs ps h
  induction h with
  | nil => intro _; rfl
  | @cons v p vs ps hp _ ih =>
    intro hl
    have e : updateFromConfig w p.var (varD w (look s v)) = .ok (look s v) := by
      have hd : ((look s v).default.map w.ser).map w.des = (look s v).default := by
        cases (look s v).default with
        | none => rfl
        | some a => simp [hrt]
      unfold updateFromConfig varD Proto.var
      simp only [hd]
      obtain ⟨h1, h2, h3⟩ := hp
      rw [← h1, ← h2, ← h3]
      cases hf : (look s v).lockFlag with
      | true =>
        have := hl v (by simp) hf
        simp only [if_true, Var.lock, this]
        rw [← hf]
      | false =>
        simp only [Bool.false_eq_true, if_false]
        rw [← hf]
    simp only [List.map_cons, updateZip]
    rw [e, ih fun u hu => hl u (by simp [hu])]
    rfl

/-! ### Blocks -/

/-- The dict of a block whose locks are sound.  Used in proofs only (no code). -/
def blockD (w : World κ τ α δ J) (s : Store τ α) (b : BlockO κ) : BlockD κ J :=
  ⟨b.kind, b.name, b.position, b.inputs.map fun v => varD w (look s v), b.outputs.map fun v => varD w (look s v)⟩

theorem blockToDict_ok (w : World κ τ α δ J) {s : Store τ α} {b : BlockO κ}
    (h : ∀ v, v ∈ b.inputs ∨ v ∈ b.outputs → (look s v).lockFlag = true → (look s v).default.isSome = true) :
    blockToDict w s b = .ok (blockD w s b) := by
  unfold blockToDict
  rw [mapM_pure (g := fun v => varD w (look s v)) (l := b.inputs) (fun v hv => varToDict_ok w (h v (.inl hv))),
    mapM_pure (g := fun v => varD w (look s v)) (l := b.outputs) (fun v hv => varToDict_ok w (h v (.inr hv)))]
  rfl

theorem blocksOfDict_ok {w : World κ τ α δ J} (hrt : ∀ a, w.des (w.ser a) = a) {s : Store τ α} {L : List Nat}
    (hn : L.Nodup) (n : Nat) : ∀ (bs : List (BlockO κ)) (A B : List Nat) (S : Store τ α),
      L = A ++ (bs.flatMap fun b => b.inputs ++ b.outputs) ++ B → S.length = n + A.length →
      (∀ b ∈ bs, List.Forall₂ (Port s) b.inputs (w.ins b.kind) ∧ List.Forall₂ (Port s) b.outputs (w.outs b.kind) ∧
        ∀ v, v ∈ b.inputs ∨ v ∈ b.outputs → (look s v).lockFlag = true → (look s v).default.isSome = true) →
      blocksOfDict w S (bs.map (blockD w s)) = .ok (bs.map (BlockO.rename (shift n L)),
        S ++ (bs.flatMap fun b => b.inputs ++ b.outputs).map (look s)) := by
  intro bs
  induction bs with
  | nil => intro A B S _ _ _; simp [blocksOfDict]
  | cons b bs ih =>
    intro A B S hL hS h
    obtain ⟨h1, h2, h3⟩ := h b (by simp)
    simp only [List.flatMap_cons] at hL
    have e : blockOfDict w S (blockD w s b) = .ok (b.rename (shift n L), S ++ b.inputs.map (look s) ++
        b.outputs.map (look s)) := by
      unfold blockOfDict blockD
      simp only
      rw [updateZip_ok hrt h1 (fun v hv => h3 v (.inl hv)), updateZip_ok hrt h2 (fun v hv => h3 v (.inr hv))]
      have i1 : b.inputs.map (shift n L) = List.range' S.length b.inputs.length := by
        rw [hS]
        exact shift_mid hn (B := b.outputs ++ (bs.flatMap fun b => b.inputs ++ b.outputs) ++ B) (by rw [hL]; simp)
      have i2 : b.outputs.map (shift n L) = List.range' (S.length + b.inputs.length) b.outputs.length := by
        rw [hS, Nat.add_assoc]
        have := shift_mid (n := n) hn (A := A ++ b.inputs) (I := b.outputs)
          (B := (bs.flatMap fun b => b.inputs ++ b.outputs) ++ B) (by rw [hL]; simp)
        rw [List.length_append] at this
        exact this
      simp only [bind, Except.bind, BlockO.rename, List.length_map, i1, i2]
    have := ih (A ++ (b.inputs ++ b.outputs)) B (S ++ b.inputs.map (look s) ++ b.outputs.map (look s))
      (by rw [hL]; simp) (by simp [hS]; omega) (fun c hc => h c (by simp [hc]))
    simp only [List.map_cons, blocksOfDict]
    rw [e]
    simp only [bind, Except.bind]
    rw [this]
    simp

/-! ### Pipes -/

theorem endVar_ok {κ : Type} {blocks : List (BlockO κ)} {free : List Nat} {source : Bool} {G : Workflow α}
    {ev : κ → List α → Except PyErr (List α)}
    (hG : G.blocks = blocks.map fun b => ⟨b.inputs, b.outputs, ev b.kind⟩) {ρ : Nat → Nat}
    (ht : ∀ p ∈ G.pipes, ∃ b ∈ G.blocks, p.output ∈ b.inputs) {v : Nat} (hv : v ∈ allVariables G)
    (hfree : ∀ u ∈ nbvs G, free[(nbvs G).idxOf u]? = some (ρ u))
    (hside : ∀ b ∈ G.blocks, v ∉ (if source then b.inputs else b.outputs)) :
    endVar (blocks.map (BlockO.rename ρ)) free source (addrOf G v) = .ok (ρ v) := by
  rw [(nbvs_spec G).1, List.mem_append] at hv
  rcases hv with hv | hv
  · obtain ⟨j, side, i, b, h1, h2, h3, h4⟩ := addr_port hv
    have hs : side = source := by
      have hm := List.mem_of_getElem? h4
      have := hside b (List.mem_of_getElem? h3)
      cases side <;> cases source <;> simp_all
    subst hs
    rw [h2]
    rw [hG, List.getElem?_map] at h3
    obtain ⟨c, hc, rfl⟩ := Option.map_eq_some_iff.1 h3
    simp only [endVar, List.getElem?_map, hc, Option.map_some, BlockO.rename]
    cases side with
    | true =>
      simp only [if_true] at h4 ⊢
      rw [List.getElem?_map, h4]; rfl
    | false =>
      simp only [Bool.false_eq_true, if_false] at h4 ⊢
      rw [List.getElem?_map, h4]; rfl
  · obtain ⟨h1, h2⟩ := addr_free ht hv
    rw [h2]
    simp only [endVar, hfree v hv]

/-- The store while the pipes are read: `done` are the free variables which have been the source of a pipe.  Used in proofs only (no code). -/
structure Reading (s : Store τ α) (n N : Nat) (BV NB : List Nat) (ρ : Nat → Nat) (done : List Nat)
    (S : Store τ α) : Prop where
  length : S.length = N
  kept : ∀ v, v < n → look S v = look s v
  ports : ∀ v ∈ BV, look S (ρ v) = look s v
  free : ∀ v ∈ NB, ∃ t, look S (ρ v) = { look s v with type := t } ∧ (v ∈ done → t = (look s v).type)

theorem pipesOfDict_ok {s : Store τ α} {n N : Nat} {blocks : List (BlockO κ)} {free : List Nat} {G : Workflow α}
    {ev : κ → List α → Except PyErr (List α)}
    (hG : G.blocks = blocks.map fun b => ⟨b.inputs, b.outputs, ev b.kind⟩) {ρ : Nat → Nat}
    (ht : ∀ p ∈ G.pipes, ∃ b ∈ G.blocks, p.output ∈ b.inputs)
    (hs : ∀ p ∈ G.pipes, ∀ b ∈ G.blocks, p.input ∉ b.inputs) (hd : (blockVars G).Nodup)
    (hfree : ∀ u ∈ nbvs G, free[(nbvs G).idxOf u]? = some (ρ u))
    (hinj : ∀ u ∈ allVariables G, ∀ v ∈ allVariables G, ρ u = ρ v → u = v)
    (hfresh : ∀ v ∈ allVariables G, n ≤ ρ v ∧ ρ v < N)
    (htype : ∀ p ∈ G.pipes, p.input ∈ nbvs G → (look s p.input).type = (look s p.output).type) :
    ∀ (ps : List (Nat × Nat)) (done : List Nat) (S : Store τ α),
      (∀ p ∈ ps, (⟨p.1, p.2, false⟩ : Pipe) ∈ G.pipes) → Reading s n N (blockVars G) (nbvs G) ρ done S →
      ∃ S', pipesOfDict (blocks.map (BlockO.rename ρ)) free S (ps.map fun p => (addrOf G p.1, addrOf G p.2)) =
        .ok (ps.map (fun p => (ρ p.1, ρ p.2)), S') ∧
        Reading s n N (blockVars G) (nbvs G) ρ (done ++ ps.map (·.1)) S' := by
  intro ps
  induction ps with
  | nil => intro done S _ hS; exact ⟨S, rfl, by simpa using hS⟩
  | cons p ps ih =>
    intro done S hps hS
    have hp := hps p (by simp)
    have hv1 : p.1 ∈ allVariables G := mem_allVariables.2 (.inr ⟨_, hp, .inl rfl⟩)
    have hv2 : p.2 ∈ allVariables G := mem_allVariables.2 (.inr ⟨_, hp, .inr rfl⟩)
    obtain ⟨bt, hbt, hin⟩ := ht _ hp
    have e1 : endVar (blocks.map (BlockO.rename ρ)) free true (addrOf G p.1) = .ok (ρ p.1) :=
      endVar_ok hG ht hv1 hfree (fun b hb => by simpa using hs _ hp b hb)
    have e2 : endVar (blocks.map (BlockO.rename ρ)) free false (addrOf G p.2) = .ok (ρ p.2) :=
      endVar_ok hG ht hv2 hfree (fun b hb hc => in_ne_out hd hbt hb hin (by simpa using hc))
    have hb2 : p.2 ∈ blockVars G := mem_blockVars.2 ⟨bt, hbt, .inl hin⟩
    have hS' : Reading s n N (blockVars G) (nbvs G) ρ (done ++ [p.1]) (resetType S (ρ p.1) (ρ p.2) (addrOf G p.1)) := by
      have hcase := hv1
      rw [(nbvs_spec G).1, List.mem_append] at hcase
      rcases hcase with hb | hf
      · obtain ⟨j, side, i, b, -, h2, -, -⟩ := addr_port hb
        rw [h2]
        simp only [resetType]
        refine ⟨hS.length, hS.kept, hS.ports, fun v hv => ?_⟩
        obtain ⟨t, ht1, ht2⟩ := hS.free v hv
        refine ⟨t, ht1, fun hm => ?_⟩
        rcases List.mem_append.1 hm with hm | hm
        · exact ht2 hm
        · simp only [List.mem_singleton] at hm
          subst hm
          exact absurd hb ((nbvs_spec G).2.2.1 _ hv)
      · obtain ⟨-, h2⟩ := addr_free ht hf
        rw [h2]
        simp only [resetType]
        have hlt : ρ p.1 < S.length := by rw [hS.length]; exact (hfresh _ hv1).2
        refine ⟨by simp [hS.length], fun v hv => ?_, fun v hv => ?_, fun v hv => ?_⟩
        · rw [look_modify hlt, if_neg (by have := (hfresh _ hv1).1; omega)]
          exact hS.kept v hv
        · rw [look_modify hlt, if_neg]
          · exact hS.ports v hv
          · intro hc
            have := hinj _ (mem_allVariables.2 (.inl hv)) _ hv1 hc
            subst this
            exact (nbvs_spec G).2.2.1 _ hf hv
        · rw [look_modify hlt]
          by_cases hc : ρ v = ρ p.1
          · have hvL : v ∈ allVariables G := by rw [(nbvs_spec G).1]; simp [hv]
            have := hinj _ hvL _ hv1 hc
            subst this
            rw [if_pos rfl]
            obtain ⟨t, ht1, -⟩ := hS.free _ hv
            refine ⟨(look s p.2).type, ?_, fun _ => (htype _ hp hf).symm⟩
            rw [ht1, hS.ports _ hb2]
          · rw [if_neg hc]
            obtain ⟨t, ht1, ht2⟩ := hS.free v hv
            refine ⟨t, ht1, fun hm => ?_⟩
            rcases List.mem_append.1 hm with hm | hm
            · exact ht2 hm
            · simp only [List.mem_singleton] at hm
              exact absurd (by rw [hm]) hc
    obtain ⟨S', e3, h3⟩ := ih (done ++ [p.1]) _ (fun q hq => hps q (by simp [hq])) hS'
    refine ⟨S', ?_, by simpa using h3⟩
    simp only [List.map_cons, pipesOfDict]
    rw [e1]
    simp only [bind, Except.bind]
    rw [e2]
    simp only
    rw [e3]

end DC.Wkf
