import Verif.Workflow.PersistCopyProps
/- C208: any history of copies and of savings of a workflow gives workflows which compute the same. -/
set_option linter.unusedSectionVars false
set_option linter.unusedSimpArgs false
namespace DC.Wkf

variable {κ τ α δ J : Type} [Inhabited τ]

/-! ### Specification -/

/-- `Lineage w s W s' W'`: the workflow `W'` comes from `W` by copies (`copy.deepcopy`, workflow/core.py 531-561) and by
savings followed by readings (`to_dict`, `dict_to_object`, 754-809), in any number and in any order; `s` and `s'` are the
variables before and after. -/
inductive Lineage (w : World κ τ α δ J) (s : Store τ α) (W : Wf κ δ) : Store τ α → Wf κ δ → Prop where
  | start : Lineage w s W s W
  | copied {s1 s2 : Store τ α} {W1 W2 : Wf κ δ} : Lineage w s W s1 W1 → deepCopy w s1 W1 = .ok (W2, s2) →
      Lineage w s W s2 W2
  | saved {s1 s2 : Store τ α} {W1 W2 : Wf κ δ} {d : WfD κ δ J} : Lineage w s W s1 W1 → toDict w s1 W1 = .ok d →
      ofDict w s1 d = .ok (W2, s2) → Lineage w s W s2 W2

/-- A workflow which can be copied and saved: its ports are those of its blocks, the variable of the name of results
exists and can be read, its free variables are not locked and have the annotation of the ports they feed, its steps
without display have no index of a display and group some of their inputs in order. -/
structure Storable (w : World κ τ α δ J) (s : Store τ α) (W : Wf κ δ) : Prop where
  built : Built w s W
  named : 0 < s.length ∧ ((look s 0).lockFlag = true → (look s 0).default.isSome = true)
  free : ∀ v, VarOf W v → ¬ PortOf W v → (look s v).lockFlag = false
  typed : ∀ p ∈ W.pipes, ¬ PortOf W p.1 → (look s p.1).type = (look s p.2).type
  shown : ∀ t ∈ W.steps, t.display = none → t.displayIdx = none
  grouped : ∀ t ∈ W.steps, t.groupInputs = t.inputs.filter (t.groupInputs.contains ·)

/-! ### Lemmas -/

theorem mkWf_detached {w : World κ τ α δ J} {s : Store τ α} {blocks : List (BlockO κ)} {pipes : List (Nat × Nat)}
    {output : Option Nat} {steps : List (StepO δ)} {description documentation name : String} {W : Wf κ δ}
    (h : mkWf w s blocks pipes output steps description documentation name = .ok W) : ∀ v ∈ W.detached, v = 0 := by
  unfold mkWf at h
  have hd : ∀ (c : Bool), ∀ v ∈ (if c then [] else [0] : List Nat), v = 0 := by
    intro c v hv
    cases c <;> simp_all
  cases output with
  | none =>
    cases h
    exact hd _
  | some o =>
    simp only at h
    split at h
    · cases h
      exact hd _
    · cases h

theorem copy_detached {w : World κ τ α δ J} {s s' : Store τ α} {W W' : Wf κ δ} (h : deepCopy w s W = .ok (W', s')) :
    ∀ v ∈ W'.detached, v = 0 := by
  unfold deepCopy at h
  simp only at h
  obtain ⟨o, -, h⟩ := bind_ok.1 h
  obtain ⟨C, -, h⟩ := bind_ok.1 h
  obtain ⟨ps, -, h⟩ := bind_ok.1 h
  obtain ⟨P, -, h⟩ := bind_ok.1 h
  obtain ⟨st, -, h⟩ := bind_ok.1 h
  obtain ⟨R, hR, h⟩ := bind_ok.1 h
  obtain ⟨s3, -, h⟩ := bind_ok.1 h
  cases h
  exact mkWf_detached hR

theorem load_detached {w : World κ τ α δ J} {s s' : Store τ α} {d : WfD κ δ J} {W' : Wf κ δ}
    (h : ofDict w s d = .ok (W', s')) : ∀ v ∈ W'.detached, v = 0 := by
  unfold ofDict at h
  obtain ⟨bs, -, h⟩ := bind_ok.1 h
  obtain ⟨ps, -, h⟩ := bind_ok.1 h
  obtain ⟨o, -, h⟩ := bind_ok.1 h
  obtain ⟨C, -, h⟩ := bind_ok.1 h
  obtain ⟨st, -, h⟩ := bind_ok.1 h
  obtain ⟨R, hR, h⟩ := bind_ok.1 h
  cases h
  exact mkWf_detached hR

theorem Replica.varOf {s s' : Store τ α} {W W' : Wf κ δ} {ρ : Nat → Nat} (h : Replica s W s' W' ρ) {u : Nat} :
    VarOf W' u ↔ ∃ v, VarOf W v ∧ ρ v = u := by
  unfold VarOf
  rw [h.blocks, h.pipes]
  constructor
  · rintro (⟨b, hb, hu⟩ | ⟨p, hp, hu⟩)
    · obtain ⟨b0, hb0, rfl⟩ := List.mem_map.1 hb
      rcases hu with hu | hu
      · obtain ⟨v, hv, rfl⟩ := List.mem_map.1 hu
        exact ⟨v, .inl ⟨b0, hb0, .inl hv⟩, rfl⟩
      · obtain ⟨v, hv, rfl⟩ := List.mem_map.1 hu
        exact ⟨v, .inl ⟨b0, hb0, .inr hv⟩, rfl⟩
    · obtain ⟨p0, hp0, rfl⟩ := List.mem_map.1 hp
      rcases hu with rfl | rfl
      · exact ⟨_, .inr ⟨p0, hp0, .inl rfl⟩, rfl⟩
      · exact ⟨_, .inr ⟨p0, hp0, .inr rfl⟩, rfl⟩
  · rintro ⟨v, ⟨b, hb, hv⟩ | ⟨p, hp, hv⟩, rfl⟩
    · refine .inl ⟨_, List.mem_map.2 ⟨b, hb, rfl⟩, ?_⟩
      exact hv.imp (fun h => List.mem_map.2 ⟨v, h, rfl⟩) fun h => List.mem_map.2 ⟨v, h, rfl⟩
    · refine .inr ⟨_, List.mem_map.2 ⟨p, hp, rfl⟩, ?_⟩
      exact hv.imp (congrArg ρ) (congrArg ρ)

theorem Replica.portOf {s s' : Store τ α} {W W' : Wf κ δ} {ρ : Nat → Nat} (h : Replica s W s' W' ρ) {v : Nat}
    (hv : PortOf W v) : PortOf W' (ρ v) := by
  obtain ⟨b, hb, hv⟩ := hv
  refine ⟨b.rename ρ, ?_, hv.imp (fun h => List.mem_map.2 ⟨v, h, rfl⟩) fun h => List.mem_map.2 ⟨v, h, rfl⟩⟩
  rw [h.blocks]
  exact List.mem_map.2 ⟨b, hb, rfl⟩

theorem map_nodup {ρ : Nat → Nat} : ∀ {l : List Nat}, (∀ u ∈ l, ∀ v ∈ l, ρ u = ρ v → u = v) → l.Nodup →
    (l.map ρ).Nodup
  | [], _, _ => by simp
  | x :: xs, hi, hn => by
    rw [List.nodup_cons] at hn
    rw [List.map_cons, List.nodup_cons]
    refine ⟨fun hx => ?_, map_nodup (fun u hu v hv => hi u (by simp [hu]) v (by simp [hv])) hn.2⟩
    obtain ⟨y, hy, he⟩ := List.mem_map.1 hx
    exact hn.1 (hi y (by simp [hy]) x (by simp) he ▸ hy)

theorem filter_rename {ρ : Nat → Nat} {g : List Nat} : ∀ {l : List Nat},
    (∀ u ∈ l, ∀ v ∈ g, ρ u = ρ v → u = v) →
    (l.map ρ).filter ((g.map ρ).contains ·) = (l.filter (g.contains ·)).map ρ
  | [], _ => rfl
  | x :: xs, hi => by
    have ih := filter_rename (ρ := ρ) (g := g) (l := xs) fun u hu => hi u (by simp [hu])
    have hc : (g.map ρ).contains (ρ x) = g.contains x := by
      rw [Bool.eq_iff_iff, List.contains_iff_mem, List.contains_iff_mem, List.mem_map]
      exact ⟨fun ⟨y, hy, he⟩ => hi x (by simp) y hy he.symm ▸ hy, fun h => ⟨x, h, rfl⟩⟩
    rw [List.map_cons, List.filter_cons, List.filter_cons, hc]
    split
    · rw [List.map_cons, ih]
    · exact ih

/-- A replica whose variables are as they should be can be copied and saved too. -/
theorem Storable.next {w : World κ τ α δ J} {s s' : Store τ α} {W W' : Wf κ δ} {ρ : Nat → Nat} (h : Storable w s W)
    (hr : Replica s W s' W' ρ) (hl : s.length ≤ s'.length) (hdet : ∀ v ∈ W'.detached, v = 0)
    (hins : ∀ b ∈ W.blocks, List.Forall₂ (fun v p => Port s' (ρ v) p) b.inputs (w.ins b.kind))
    (houts : ∀ b ∈ W.blocks, List.Forall₂ (fun v p => Port s' (ρ v) p) b.outputs (w.outs b.kind))
    (hlock : ∀ v, VarOf W v → (look s' (ρ v)).lockFlag = true → (look s' (ρ v)).default.isSome = true)
    (hfree : ∀ v, VarOf W v → ¬ PortOf W v → (look s' (ρ v)).lockFlag = false ∧
      (look s' (ρ v)).type = (look s v).type) : Storable w s' W' := by
  have hb := h.built
  have hport : ∀ v, PortOf W v → VarOf W v := fun v hv => .inl hv
  have htype : ∀ v, PortOf W v → (look s' (ρ v)).type = (look s v).type := by
    have key : ∀ (vs : List Nat) (ps : List (Proto τ α)), List.Forall₂ (fun v p => Port s' (ρ v) p) vs ps →
        List.Forall₂ (Port s) vs ps → ∀ v ∈ vs, (look s' (ρ v)).type = (look s v).type := by
      intro vs ps h1
      induction h1 with
      | nil => intro _ v hv; cases hv
      | cons hx _ ih =>
        intro h2 v hv
        cases h2 with
        | cons hy h2 =>
          rcases List.mem_cons.1 hv with rfl | hv
          · rw [hx.2.1, hy.2.1]
          · exact ih h2 v hv
    rintro v ⟨b, hbb, hv | hv⟩
    · exact key _ _ (hins b hbb) (hb.ins b hbb) v hv
    · exact key _ _ (houts b hbb) (hb.outs b hbb) v hv
  have hfall : ∀ (vs : List Nat) (ps : List (Proto τ α)), List.Forall₂ (fun v p => Port s' (ρ v) p) vs ps →
      List.Forall₂ (Port s') (vs.map ρ) ps := by
    intro vs ps h1
    induction h1 with
    | nil => exact .nil
    | cons hx _ ih => exact .cons hx ih
  have hk0 : look s' 0 = look s 0 := hr.kept 0 h.named.1
  have hflat : W'.blocks.flatMap (fun b => b.inputs ++ b.outputs) =
      (W.blocks.flatMap fun b => b.inputs ++ b.outputs).map ρ := by
    rw [hr.blocks, List.flatMap_map, List.map_flatMap]
    simp [BlockO.rename]
  refine ⟨⟨?_, ?_, ?_, ?_, ?_, ?_, ?_, ?_, ?_⟩, ⟨by have := h.named.1; omega, by rw [hk0]; exact h.named.2⟩, ?_, ?_, ?_, ?_⟩
  · rw [hflat]
    refine map_nodup (fun u hu v hv => hr.inj u v ?_ ?_) hb.distinct
    · obtain ⟨b, hbb, hu⟩ := List.mem_flatMap.1 hu
      exact .inl ⟨b, hbb, List.mem_append.1 hu⟩
    · obtain ⟨b, hbb, hv⟩ := List.mem_flatMap.1 hv
      exact .inl ⟨b, hbb, List.mem_append.1 hv⟩
  · intro p hp
    rw [hr.pipes] at hp
    obtain ⟨p0, hp0, rfl⟩ := List.mem_map.1 hp
    obtain ⟨b, hbb, hin⟩ := hb.target p0 hp0
    refine ⟨b.rename ρ, ?_, List.mem_map.2 ⟨_, hin, rfl⟩⟩
    rw [hr.blocks]
    exact List.mem_map.2 ⟨b, hbb, rfl⟩
  · intro p hp b hbb hin
    rw [hr.pipes] at hp
    rw [hr.blocks] at hbb
    obtain ⟨p0, hp0, rfl⟩ := List.mem_map.1 hp
    obtain ⟨b0, hb0, rfl⟩ := List.mem_map.1 hbb
    obtain ⟨v, hv, he⟩ := List.mem_map.1 hin
    have : v = p0.1 := hr.inj v p0.1 (.inl ⟨b0, hb0, .inl hv⟩) (.inr ⟨p0, hp0, .inl rfl⟩) he
    exact hb.source p0 hp0 b0 hb0 (this ▸ hv)
  · intro u hu
    obtain ⟨v, hv, rfl⟩ := hr.varOf.1 hu
    exact (hr.fresh v hv).2
  · rintro u (hu | hu)
    · obtain ⟨v, hv, rfl⟩ := hr.varOf.1 hu
      exact hlock v hv
    · rw [hdet u hu, hk0]
      exact h.named.2
  · intro b hbb
    rw [hr.blocks] at hbb
    obtain ⟨b0, hb0, rfl⟩ := List.mem_map.1 hbb
    exact hfall _ _ (hins b0 hb0)
  · intro b hbb
    rw [hr.blocks] at hbb
    obtain ⟨b0, hb0, rfl⟩ := List.mem_map.1 hbb
    exact hfall _ _ (houts b0 hb0)
  · rw [hr.output, hr.blocks]
    exact rename_output ρ hb.output
  · intro t ht u hu
    rw [hr.steps] at ht
    obtain ⟨t0, ht0, rfl⟩ := List.mem_map.1 ht
    simp only [StepO.rename] at hu
    rw [← List.map_append] at hu
    obtain ⟨v, hv, rfl⟩ := List.mem_map.1 hu
    exact hr.varOf.2 ⟨v, hb.steps t0 ht0 v hv, rfl⟩
  · intro u hu hnp
    obtain ⟨v, hv, rfl⟩ := hr.varOf.1 hu
    exact (hfree v hv fun hp => hnp (hr.portOf hp)).1
  · intro p hp hnp
    rw [hr.pipes] at hp
    obtain ⟨p0, hp0, rfl⟩ := List.mem_map.1 hp
    have hn0 : ¬ PortOf W p0.1 := fun hp => hnp (hr.portOf hp)
    obtain ⟨b, hbb, hin⟩ := hb.target p0 hp0
    change (look s' (ρ p0.1)).type = (look s' (ρ p0.2)).type
    rw [(hfree p0.1 (.inr ⟨p0, hp0, .inl rfl⟩) hn0).2, htype p0.2 ⟨b, hbb, .inl hin⟩]
    exact h.typed p0 hp0 hn0
  · intro t ht
    rw [hr.steps] at ht
    obtain ⟨t0, ht0, rfl⟩ := List.mem_map.1 ht
    exact h.shown t0 ht0
  · intro t ht
    rw [hr.steps] at ht
    obtain ⟨t0, ht0, rfl⟩ := List.mem_map.1 ht
    simp only [StepO.rename]
    rw [filter_rename fun u hu v hv => hr.inj u v (hb.steps t0 ht0 u (by simp [hu])) (hb.steps t0 ht0 v (by simp [hv]))]
    exact congrArg _ (h.grouped t0 ht0)

/-! ### No variable is ever lost -/

theorem blocksOfDict_grows {w : World κ τ α δ J} : ∀ {ds : List (BlockD κ J)} {s : Store τ α}
    {r : List (BlockO κ) × Store τ α}, blocksOfDict w s ds = .ok r → s.length ≤ r.2.length
  | [], s, r, h => by
    cases h
    exact Nat.le_refl _
  | d :: ds, s, r, h => by
    unfold blocksOfDict at h
    obtain ⟨⟨b, s1⟩, h1, h⟩ := bind_ok.1 h
    obtain ⟨⟨bs, s2⟩, h2, h⟩ := bind_ok.1 h
    cases h
    have h3 := blocksOfDict_grows h2
    unfold blockOfDict at h1
    obtain ⟨ins, -, h1⟩ := bind_ok.1 h1
    obtain ⟨outs, -, h1⟩ := bind_ok.1 h1
    cases h1
    simp only [List.length_append] at h3 ⊢
    omega

theorem pipesOfDict_keeps {blocks : List (BlockO κ)} {free : List Nat} : ∀ {ps : List (Addr × Addr)} {s : Store τ α}
    {r : List (Nat × Nat) × Store τ α}, pipesOfDict blocks free s ps = .ok r → r.2.length = s.length
  | [], s, r, h => by
    cases h
    rfl
  | (a, b) :: ps, s, r, h => by
    unfold pipesOfDict at h
    obtain ⟨v, -, h⟩ := bind_ok.1 h
    obtain ⟨u, -, h⟩ := bind_ok.1 h
    obtain ⟨⟨qs, s2⟩, h2, h⟩ := bind_ok.1 h
    cases h
    have h3 := pipesOfDict_keeps h2
    simp only at h3 ⊢
    rw [h3]
    cases a <;> simp [resetType]

theorem ofDict_grows {w : World κ τ α δ J} {s s' : Store τ α} {d : WfD κ δ J} {W' : Wf κ δ}
    (h : ofDict w s d = .ok (W', s')) : s.length ≤ s'.length := by
  unfold ofDict at h
  obtain ⟨⟨bs, s1⟩, h1, h⟩ := bind_ok.1 h
  obtain ⟨⟨ps, s3⟩, h2, h⟩ := bind_ok.1 h
  obtain ⟨o, -, h⟩ := bind_ok.1 h
  obtain ⟨C, -, h⟩ := bind_ok.1 h
  obtain ⟨st, -, h⟩ := bind_ok.1 h
  obtain ⟨R, -, h⟩ := bind_ok.1 h
  cases h
  have h3 := blocksOfDict_grows h1
  have h4 := pipesOfDict_keeps h2
  simp only [List.length_append] at h3 h4
  omega

theorem copyBlocks_grows {w : World κ τ α δ J} : ∀ (bs : List (BlockO κ)) (s : Store τ α),
    s.length ≤ (copyBlocks w s bs).2.length
  | [], _ => Nat.le_refl _
  | b :: bs, s => by
    have := copyBlocks_grows (w := w) bs (copyBlock w s b).2
    simp only [copyBlocks]
    simp only [copyBlock, List.length_append] at this ⊢
    omega

theorem copyPipe_grows {w : World κ τ α δ J} {s0 s : Store τ α} {W C : Wf κ δ} {memo : List (Nat × Nat)} {p : Nat × Nat}
    {r : (Nat × Nat) × List (Nat × Nat) × Store τ α} (h : copyPipe w s0 W C s memo p = .ok r) :
    s.length ≤ r.2.2.length := by
  unfold copyPipe at h
  split at h
  · cases h
  · simp only at h
    split at h
    · obtain ⟨b, -, h⟩ := bind_ok.1 h
      obtain ⟨t, -, h⟩ := bind_ok.1 h
      cases h
      exact Nat.le_refl _
    · obtain ⟨x, -, h⟩ := bind_ok.1 h
      obtain ⟨b, -, h⟩ := bind_ok.1 h
      obtain ⟨t, -, h⟩ := bind_ok.1 h
      cases h
      simp
  · obtain ⟨u, -, h⟩ := bind_ok.1 h
    obtain ⟨b, -, h⟩ := bind_ok.1 h
    obtain ⟨t, -, h⟩ := bind_ok.1 h
    cases h
    exact Nat.le_refl _

theorem copyPipes_grows {w : World κ τ α δ J} {s0 : Store τ α} {W C : Wf κ δ} : ∀ {ps : List (Nat × Nat)}
    {s : Store τ α} {memo : List (Nat × Nat)} {r : List (Nat × Nat) × Store τ α},
    copyPipes w s0 W C s memo ps = .ok r → s.length ≤ r.2.length
  | [], s, memo, r, h => by
    cases h
    exact Nat.le_refl _
  | p :: ps, s, memo, r, h => by
    unfold copyPipes at h
    obtain ⟨⟨q, m1, s1⟩, h1, h⟩ := bind_ok.1 h
    obtain ⟨⟨qs, s2⟩, h2, h⟩ := bind_ok.1 h
    cases h
    have h3 := copyPipe_grows h1
    have h4 := copyPipes_grows h2
    simp only at h3 h4 ⊢
    omega

theorem copyLocks_keeps {s0 : Store τ α} : ∀ {vs us : List Nat} {s s' : Store τ α},
    copyLocks s0 s vs us = .ok s' → s'.length = s.length
  | [], _, s, s', h => by
    cases h
    rfl
  | v :: vs, us, s, s', h => by
    unfold copyLocks at h
    obtain ⟨l, -, h⟩ := bind_ok.1 h
    split at h
    · exact copyLocks_keeps h
    · cases h
    · obtain ⟨y, -, h⟩ := bind_ok.1 h
      rw [copyLocks_keeps h, List.length_set]

theorem deepCopy_grows {w : World κ τ α δ J} {s s' : Store τ α} {W W' : Wf κ δ} (h : deepCopy w s W = .ok (W', s')) :
    s.length ≤ s'.length := by
  unfold deepCopy at h
  simp only at h
  obtain ⟨o, -, h⟩ := bind_ok.1 h
  obtain ⟨C, -, h⟩ := bind_ok.1 h
  obtain ⟨⟨ps, s2⟩, h2, h⟩ := bind_ok.1 h
  obtain ⟨P, -, h⟩ := bind_ok.1 h
  obtain ⟨st, -, h⟩ := bind_ok.1 h
  obtain ⟨R, -, h⟩ := bind_ok.1 h
  obtain ⟨s3, h3, h⟩ := bind_ok.1 h
  cases h
  rw [copyLocks_keeps h3]
  exact Nat.le_trans (copyBlocks_grows W.blocks s) (copyPipes_grows h2)

/-! ### Each operation keeps what makes the next ones possible -/

theorem Storable.copy {w : World κ τ α δ J} {s s' : Store τ α} {W W' : Wf κ δ} (h : Storable w s W)
    (hc : deepCopy w s W = .ok (W', s')) :
    Storable w s' W' ∧ ∃ ρ, Replica s W s' W' ρ := by
  obtain ⟨W1, s1, ρ, h1, hr, -, hi, ho, hf⟩ := C37_partial h.built h.grouped
  rw [hc] at h1
  cases h1
  have hb := h.built
  refine ⟨h.next hr (deepCopy_grows hc) (copy_detached hc) ?_ ?_ ?_ ?_, ρ, hr⟩
  · intro b hbb
    refine (hi b hbb).imp fun v p hv => ?_
    by_cases hl : (look s v).lockFlag = true ∧ ¬ Fed W v
    · rw [Port, hv.1 hl]; exact ⟨rfl, rfl, rfl⟩
    · rw [Port, hv.2 hl]; exact ⟨rfl, rfl, rfl⟩
  · intro b hbb
    refine (ho b hbb).imp fun v p hv => ?_
    rw [Port, hv]
    exact ⟨rfl, rfl, rfl⟩
  · intro v hv hl
    by_cases hp : PortOf W v
    · obtain ⟨b, hbb, hin | hout⟩ := hp
      · have key : ∀ (vs : List Nat) (ps : List (Proto τ α)), List.Forall₂ (fun v p =>
            ((look s v).lockFlag = true ∧ ¬ Fed W v → look s' (ρ v) =
              ⟨p.name, p.type, p.label, p.position, (look s v).default, true⟩) ∧
            (¬ ((look s v).lockFlag = true ∧ ¬ Fed W v) → look s' (ρ v) =
              ⟨p.name, p.type, p.label, p.position, p.default, false⟩)) vs ps → v ∈ vs →
            (look s v).lockFlag = true ∧ (look s' (ρ v)).default = (look s v).default := by
          intro vs ps h1
          induction h1 with
          | nil => intro hv; cases hv
          | cons hx _ ih =>
            intro hv
            rcases List.mem_cons.1 hv with rfl | hv
            · by_cases hc : (look s v).lockFlag = true ∧ ¬ Fed W v
              · rw [hx.1 hc]; exact ⟨hc.1, rfl⟩
              · rw [hx.2 hc] at hl; cases hl
            · exact ih hv
        obtain ⟨k1, k2⟩ := key _ _ (hi b hbb) hin
        rw [k2]
        exact hb.locks v (.inl hv) k1
      · have key : ∀ (vs : List Nat) (ps : List (Proto τ α)), List.Forall₂ (fun v p => look s' (ρ v) =
            ⟨p.name, p.type, p.label, p.position, p.default, false⟩) vs ps → v ∈ vs →
            (look s' (ρ v)).lockFlag = false := by
          intro vs ps h1
          induction h1 with
          | nil => intro hv; cases hv
          | cons hx _ ih =>
            intro hv
            rcases List.mem_cons.1 hv with rfl | hv
            · rw [hx]
            · exact ih hv
        rw [key _ _ (ho b hbb) hout] at hl
        cases hl
    · rw [hf v hv hp] at hl ⊢
      exact hb.locks v (.inl hv) hl
  · intro v hv hp
    rw [hf v hv hp]
    exact ⟨h.free v hv hp, rfl⟩

theorem Storable.save {w : World κ τ α δ J} (hrt : ∀ a, w.des (w.ser a) = a) {s s' : Store τ α} {W W' : Wf κ δ}
    {d : WfD κ δ J} (h : Storable w s W) (hd : toDict w s W = .ok d) (ho : ofDict w s d = .ok (W', s')) :
    Storable w s' W' ∧ ∃ ρ, Replica s W s' W' ρ := by
  obtain ⟨d1, W1, s1, ρ, h1, h2, hr, hv, -⟩ := C36_partial hrt h.built h.free h.typed h.shown
  rw [hd] at h1
  cases h1
  rw [ho] at h2
  cases h2
  have hb := h.built
  have key : ∀ (vs : List Nat) (ps : List (Proto τ α)), List.Forall₂ (Port s) vs ps → (∀ v ∈ vs, VarOf W v) →
      List.Forall₂ (fun v p => Port s' (ρ v) p) vs ps := by
    intro vs ps h1
    induction h1 with
    | nil => exact fun _ => .nil
    | cons hx _ ih =>
      intro hm
      refine .cons ?_ (ih fun v hv => hm v (by simp [hv]))
      rw [Port, hv _ (hm _ (by simp))]
      exact hx
  refine ⟨h.next hr (ofDict_grows ho) (load_detached ho) ?_ ?_ ?_ ?_, ρ, hr⟩
  · exact fun b hbb => key _ _ (hb.ins b hbb) fun v hin => .inl ⟨b, hbb, .inl hin⟩
  · exact fun b hbb => key _ _ (hb.outs b hbb) fun v hout => .inl ⟨b, hbb, .inr hout⟩
  · intro v hvv
    rw [hv v hvv]
    exact hb.locks v (.inl hvv)
  · intro v hvv hp
    rw [hv v hvv]
    exact ⟨h.free v hvv hp, rfl⟩

/-! ### C208: the descendants of a workflow -/

theorem Lineage.sound {w : World κ τ α δ J} (hrt : ∀ a, w.des (w.ser a) = a) {s s' : Store τ α} {W W' : Wf κ δ}
    (h : Storable w s W) (hl : Lineage w s W s' W') : Storable w s' W' := by
  induction hl with
  | start => exact h
  | copied _ hc ih => exact (ih.copy hc).1
  | saved _ hd ho ih => exact (ih.save hrt hd ho).1

/-- After any history of copies and of savings, the workflow can still be copied, saved, and read back. -/
theorem C208_goes_on {w : World κ τ α δ J} (hrt : ∀ a, w.des (w.ser a) = a) {s s' : Store τ α} {W W' : Wf κ δ}
    (h : Storable w s W) (hl : Lineage w s W s' W') :
    (∃ W2 s2, deepCopy w s' W' = .ok (W2, s2)) ∧
      ∃ d W2 s2, toDict w s' W' = .ok d ∧ ofDict w s' d = .ok (W2, s2) := by
  have h' := hl.sound hrt h
  obtain ⟨W2, s2, -, h1, -⟩ := C37_partial h'.built h'.grouped
  obtain ⟨d, W3, s3, -, h2, h3, -⟩ := C36_partial hrt h'.built h'.free h'.typed h'.shown
  exact ⟨⟨W2, s2, h1⟩, d, W3, s3, h2, h3⟩

/-- A workflow which comes from another by any history of copies and of savings computes what the other computes: its
inputs are the counterparts of the inputs of the other in the same order, its output is the counterpart of the output of
the other, its blocks and its steps have the same kinds, names and labels, and each variable must hold the value which
its counterpart must hold, for the same values of the inputs. -/
theorem C208_runs {w : World κ τ α δ J} (hrt : ∀ a, w.des (w.ser a) = a) {s s' : Store τ α} {W W' : Wf κ δ}
    (h : Storable w s W) (hl : Lineage w s W s' W') :
    ∃ ρ : Nat → Nat, (∀ u v, VarOf W u → VarOf W v → ρ u = ρ v → u = v) ∧
      (∀ u, VarOf W' u ↔ ∃ v, VarOf W v ∧ ρ v = u) ∧
      inputs (skel w s' W') = (inputs (skel w s W)).map ρ ∧ W'.output = W.output.map ρ ∧
      W'.blocks.map (fun b => (b.kind, b.name, b.position)) = W.blocks.map (fun b => (b.kind, b.name, b.position)) ∧
      W'.steps.map (fun t => (t.label, t.groupId, t.display, t.documentation, t.displayIdx)) =
        W.steps.map (fun t => (t.label, t.groupId, t.display, t.documentation, t.displayIdx)) ∧
      ∀ v, VarOf W v → ∀ vals x, Den (skel w s' W') vals (ρ v) x ↔ Den (skel w s W) vals v x := by
  have step : ∀ {s1 s2 : Store τ α} {W1 W2 : Wf κ δ} {ρ : Nat → Nat}, Replica s1 W1 s2 W2 ρ →
      inputs (skel w s2 W2) = (inputs (skel w s1 W1)).map ρ ∧
      ∀ v, VarOf W1 v → ∀ vals x, Den (skel w s2 W2) vals (ρ v) x ↔ Den (skel w s1 W1) vals v x := by
    intro s1 s2 W1 W2 ρ hr
    have hinj : ∀ u ∈ allVariables (skel w s1 W1), ∀ v ∈ allVariables (skel w s1 W1), ρ u = ρ v → u = v :=
      fun u hu v hv' he => hr.inj u v ((mem_allVariables_skel w s1 W1).1 hu) ((mem_allVariables_skel w s1 W1).1 hv') he
    exact ⟨ren_inputs (hr.ren (w := w)) hinj, fun v hv' vals x =>
      ⟨fun h => ren_den_back hr.ren hinj h v ((mem_allVariables_skel w s1 W1).2 hv') rfl,
        fun h => ren_den hr.ren hinj h⟩⟩
  have comp : ∀ {s1 s2 : Store τ α} {W1 W2 : Wf κ δ}, (∃ ρ : Nat → Nat,
      (∀ u v, VarOf W u → VarOf W v → ρ u = ρ v → u = v) ∧ (∀ u, VarOf W1 u ↔ ∃ v, VarOf W v ∧ ρ v = u) ∧
      inputs (skel w s1 W1) = (inputs (skel w s W)).map ρ ∧ W1.output = W.output.map ρ ∧
      W1.blocks.map (fun b => (b.kind, b.name, b.position)) = W.blocks.map (fun b => (b.kind, b.name, b.position)) ∧
      W1.steps.map (fun t => (t.label, t.groupId, t.display, t.documentation, t.displayIdx)) =
        W.steps.map (fun t => (t.label, t.groupId, t.display, t.documentation, t.displayIdx)) ∧
      ∀ v, VarOf W v → ∀ vals x, Den (skel w s1 W1) vals (ρ v) x ↔ Den (skel w s W) vals v x) →
      (∃ ρ, Replica s1 W1 s2 W2 ρ) → ∃ ρ : Nat → Nat,
      (∀ u v, VarOf W u → VarOf W v → ρ u = ρ v → u = v) ∧ (∀ u, VarOf W2 u ↔ ∃ v, VarOf W v ∧ ρ v = u) ∧
      inputs (skel w s2 W2) = (inputs (skel w s W)).map ρ ∧ W2.output = W.output.map ρ ∧
      W2.blocks.map (fun b => (b.kind, b.name, b.position)) = W.blocks.map (fun b => (b.kind, b.name, b.position)) ∧
      W2.steps.map (fun t => (t.label, t.groupId, t.display, t.documentation, t.displayIdx)) =
        W.steps.map (fun t => (t.label, t.groupId, t.display, t.documentation, t.displayIdx)) ∧
      ∀ v, VarOf W v → ∀ vals x, Den (skel w s2 W2) vals (ρ v) x ↔ Den (skel w s W) vals v x := by
    rintro s1 s2 W1 W2 ⟨ρ1, hi, hv, hin, hout, hbl, hst, hden⟩ ⟨ρ2, hr⟩
    obtain ⟨k1, k2⟩ := step hr
    refine ⟨ρ2 ∘ ρ1, ?_, ?_, ?_, ?_, ?_, ?_, ?_⟩
    · intro u v hu hvv he
      exact hi u v hu hvv (hr.inj _ _ ((hv _).2 ⟨u, hu, rfl⟩) ((hv _).2 ⟨v, hvv, rfl⟩) he)
    · intro u
      rw [hr.varOf]
      constructor
      · rintro ⟨x, hx, rfl⟩
        obtain ⟨v, hvv, rfl⟩ := (hv x).1 hx
        exact ⟨v, hvv, rfl⟩
      · rintro ⟨v, hvv, rfl⟩
        exact ⟨ρ1 v, (hv _).2 ⟨v, hvv, rfl⟩, rfl⟩
    · rw [k1, hin, List.map_map]
    · rw [hr.output, hout, Option.map_map]
    · rw [hr.blocks, List.map_map, ← hbl]
      rfl
    · rw [hr.steps, List.map_map, ← hst]
      rfl
    · intro v hvv vals x
      exact (k2 (ρ1 v) ((hv _).2 ⟨v, hvv, rfl⟩) vals x).trans (hden v hvv vals x)
  induction hl with
  | start => exact ⟨id, fun _ _ _ _ he => he, fun u => ⟨fun hu => ⟨u, hu, rfl⟩, fun ⟨v, hv, he⟩ => he ▸ hv⟩,
      by simp, by simp, rfl, rfl, fun _ _ _ _ => Iff.rfl⟩
  | copied hp hc ih => exact comp ih ((hp.sound hrt h).copy hc).2
  | saved hp hd ho ih => exact comp ih ((hp.sound hrt h).save hrt hd ho).2

/-- A history of copies and of savings changes no variable which existed before it, so that the workflow it starts from
stays as it was; unless it is empty, the variables of the workflow it ends with are all new, so that what is done later to
one of the two workflows has no effect on the other. -/
theorem C208_apart {w : World κ τ α δ J} (hrt : ∀ a, w.des (w.ser a) = a) {s s' : Store τ α} {W W' : Wf κ δ}
    (h : Storable w s W) (hl : Lineage w s W s' W') :
    (∀ v, v < s.length → look s' v = look s v) ∧
      ((s' = s ∧ W' = W) ∨ ∀ v, VarOf W' v → s.length ≤ v ∧ ¬ VarOf W v) := by
  have comp : ∀ {s1 s2 : Store τ α} {W1 W2 : Wf κ δ}, s.length ≤ s1.length →
      (∀ v, v < s.length → look s1 v = look s v) → (∃ ρ, Replica s1 W1 s2 W2 ρ) →
      (∀ v, v < s.length → look s2 v = look s v) ∧ ∀ v, VarOf W2 v → s.length ≤ v ∧ ¬ VarOf W v := by
    rintro s1 s2 W1 W2 hle hk ⟨ρ, hr⟩
    refine ⟨fun v hv => (hr.kept v (by omega)).trans (hk v hv), fun u hu => ?_⟩
    obtain ⟨v, hv, rfl⟩ := hr.varOf.1 hu
    have := (hr.fresh v hv).1
    exact ⟨by omega, fun hw => by have := h.built.alloc _ hw; omega⟩
  have len : ∀ {s1 : Store τ α} {W1 : Wf κ δ}, Lineage w s W s1 W1 → s.length ≤ s1.length := by
    intro s1 W1 hl
    induction hl with
    | start => exact Nat.le_refl _
    | copied _ hc ih => exact Nat.le_trans ih (deepCopy_grows hc)
    | saved _ _ ho ih => exact Nat.le_trans ih (ofDict_grows ho)
  induction hl with
  | start => exact ⟨fun _ _ => rfl, .inl ⟨rfl, rfl⟩⟩
  | copied hp hc ih =>
    have := comp (len hp) ih.1 ((hp.sound hrt h).copy hc).2
    exact ⟨this.1, .inr this.2⟩
  | saved hp hd ho ih =>
    have := comp (len hp) ih.1 ((hp.sound hrt h).save hrt hd ho).2
    exact ⟨this.1, .inr this.2⟩

/-! ### A case -/

theorem demo_storable : Storable demo demoS demoW where
  built := demo_built
  named := ⟨by decide, by decide⟩
  free v h := by
    have : ∀ v ∈ demoW.blocks.flatMap (fun b => b.inputs ++ b.outputs) ++ demoW.pipes.flatMap (fun p => [p.1, p.2]),
      ¬ PortOf demoW v → (look demoS v).lockFlag = false := by decide
    exact this v ((varOf_iff _ _).1 h)
  typed := by decide
  shown t h := by
    simp only [demoW, List.mem_cons, List.not_mem_nil, or_false] at h
    subst h
    simp
  grouped t h := by
    simp only [demoW, List.mem_cons, List.not_mem_nil, or_false] at h
    subst h
    rfl

/-- The workflow of `demoW`, copied, saved, read back, then copied again. -/
example : (∀ a, demo.des (demo.ser a) = a) ∧ Storable demo demoS demoW ∧ ∃ s' W', Lineage demo demoS demoW s' W' ∧
    W'.blocks.map (·.inputs) = [[20], [22, 23]] ∧ W'.pipes = [(21, 22), (25, 23)] ∧ W'.output = some 24 := by
  refine ⟨fun _ => rfl, demo_storable, _, _, .copied (.saved (.copied .start rfl) rfl rfl) rfl, ?_, ?_, ?_⟩ <;> rfl

end DC.Wkf
