import Verif.Workflow.PersistProps
/- Lemmas on the copy of workflows. -/
set_option linter.unusedSectionVars false
set_option linter.unusedSimpArgs false
namespace DC.Wkf

variable {κ τ α δ J : Type} [Inhabited τ]

/-- The variables built by the constructors of the blocks.  Used in proofs only (no code). -/
def protos (w : World κ τ α δ J) (bs : List (BlockO κ)) : List (Proto τ α) :=
  bs.flatMap fun b => w.ins b.kind ++ w.outs b.kind

theorem copyBlocks_ok {w : World κ τ α δ J} {s : Store τ α} {L : List Nat} (hn : L.Nodup) (n : Nat) :
    ∀ (bs : List (BlockO κ)) (A B : List Nat) (S : Store τ α),
      L = A ++ (bs.flatMap fun b => b.inputs ++ b.outputs) ++ B → S.length = n + A.length →
      (∀ b ∈ bs, List.Forall₂ (Port s) b.inputs (w.ins b.kind) ∧ List.Forall₂ (Port s) b.outputs (w.outs b.kind)) →
      copyBlocks w S bs = (bs.map (BlockO.rename (shift n L)), S ++ (protos w bs).map Proto.var) := by
  intro bs
  induction bs with
  | nil => intro A B S _ _ _; simp [copyBlocks, protos]
  | cons b bs ih =>
    intro A B S hL hS h
    obtain ⟨h1, h2⟩ := h b (by simp)
    simp only [List.flatMap_cons] at hL
    have i1 : b.inputs.map (shift n L) = List.range' S.length (w.ins b.kind).length := by
      rw [hS, ← h1.length_eq]
      exact shift_mid hn (B := b.outputs ++ (bs.flatMap fun b => b.inputs ++ b.outputs) ++ B) (by rw [hL]; simp)
    have i2 : b.outputs.map (shift n L) = List.range' (S.length + (w.ins b.kind).length) (w.outs b.kind).length := by
      rw [hS, Nat.add_assoc, ← h1.length_eq, ← h2.length_eq]
      have := shift_mid (n := n) hn (A := A ++ b.inputs) (I := b.outputs)
        (B := (bs.flatMap fun b => b.inputs ++ b.outputs) ++ B) (by rw [hL]; simp)
      rw [List.length_append] at this
      exact this
    have := ih (A ++ (b.inputs ++ b.outputs)) B (copyBlock w S b).2
      (by rw [hL]; simp) (by simp [copyBlock, hS, h1.length_eq, h2.length_eq]; omega) (fun c hc => h c (by simp [hc]))
    simp only [copyBlocks]
    rw [this]
    simp only [copyBlock, List.map_cons, BlockO.rename, List.length_map, i1, i2, protos, List.flatMap_cons,
      List.map_append, List.append_assoc]

theorem protos_ports {w : World κ τ α δ J} {s : Store τ α} : ∀ (bs : List (BlockO κ)),
    (∀ b ∈ bs, List.Forall₂ (Port s) b.inputs (w.ins b.kind) ∧ List.Forall₂ (Port s) b.outputs (w.outs b.kind)) →
    List.Forall₂ (Port s) (bs.flatMap fun b => b.inputs ++ b.outputs) (protos w bs) := by
  intro bs
  induction bs with
  | nil => intro _; exact .nil
  | cons b bs ih =>
    intro h
    obtain ⟨h1, h2⟩ := h b (by simp)
    simp only [List.flatMap_cons, protos]
    exact List.rel_append (List.rel_append h1 h2) (ih fun c hc => h c (by simp [hc]))

theorem look_mid {S0 S2 : Store τ α} {S1 : List (Var τ α)} {k : Nat} (hk : k < S1.length) :
    look (S0 ++ S1 ++ S2) (S0.length + k) = S1[k] := by
  rw [look_append_left (by simp; omega), look_append_right]
  unfold look
  rw [List.getD_eq_getElem?_getD, List.getElem?_eq_getElem hk]
  rfl

/-- Each port of the copy is what the constructor of its block has built. -/
theorem protos_look {S0 S2 : Store τ α} {L : List Nat} (hn : L.Nodup) :
    ∀ {I : List Nat} {P : List (Proto τ α)} {A B : List Nat} {PA PB : List (Proto τ α)}, L = A ++ I ++ B →
      PA.length = A.length → I.length = P.length →
      List.Forall₂ (fun v p => look (S0 ++ (PA ++ P ++ PB).map Proto.var ++ S2) (shift S0.length L v) = p.var) I P := by
  intro I P A B PA PB hL hA hI
  rw [List.forall₂_iff_get]
  refine ⟨hI, fun i h1 h2 => ?_⟩
  have hidx : L.idxOf (I.get ⟨i, h1⟩) = A.length + i := by
    apply idxOf_of_nodup hn
    rw [hL, List.append_assoc, List.getElem?_append_right (by omega), Nat.add_sub_cancel_left,
      List.getElem?_append_left h1, List.getElem?_eq_getElem h1]
    rfl
  rw [shift, hidx]
  have hlt : A.length + i < ((PA ++ P ++ PB).map Proto.var).length := by simp; omega
  rw [look_mid hlt]
  simp only [List.getElem_map, List.get_eq_getElem]
  congr 1
  rw [List.getElem_append_left (by simp; omega), List.getElem_append_right (by omega)]
  congr 1
  omega

/-! ### Pipes -/

theorem port_from {κ : Type} {blocks : List (BlockO κ)} {G H : Workflow α}
    {ev : κ → List α → Except PyErr (List α)} {ρ : Nat → Nat}
    (hG : G.blocks = blocks.map fun b => ⟨b.inputs, b.outputs, ev b.kind⟩)
    (hH : H.blocks = (blocks.map (BlockO.rename ρ)).map fun b => ⟨b.inputs, b.outputs, ev b.kind⟩)
    {v : Nat} (hv : v ∈ blockVars G) :
    ∃ j side i, variableIndices G v = .ok (.port j side i) ∧ variableFromIndex H (.port j side i) = .ok (ρ v) := by
  obtain ⟨j, side, i, b, h1, -, h3, h4⟩ := addr_port hv
  refine ⟨j, side, i, h1, ?_⟩
  rw [hG, List.getElem?_map] at h3
  obtain ⟨c, hc, rfl⟩ := Option.map_eq_some_iff.1 h3
  simp only [variableFromIndex, hH, List.getElem?_map, hc, Option.map_some, BlockO.rename]
  cases side with
  | true =>
    simp only [if_true] at h4 ⊢
    rw [List.getElem?_map, h4]; rfl
  | false =>
    simp only [Bool.false_eq_true, if_false] at h4 ⊢
    rw [List.getElem?_map, h4]; rfl

/-- The copy of a free variable.  Used in proofs only (no code). -/
def freeCopy (x : Var τ α) : Var τ α := ⟨x.name, x.type, "", (0, 0), x.default, x.lockFlag⟩

theorem copyVar_ok {x : Var τ α} (h : x.lockFlag = true → x.default.isSome = true) : copyVar x = .ok (freeCopy x) := by
  unfold copyVar
  rw [locked_ok h]
  simp only [bind, Except.bind]
  cases hl : x.lockFlag with
  | true =>
    simp only [if_true, Var.lock, h hl, freeCopy, hl]
  | false =>
    simp only [Bool.false_eq_true, if_false, freeCopy, hl]

theorem handlePipe_prefix : ∀ (ps : List Pipe) (vs ns : List Nat), ∃ r, (ps.foldl handlePipe (vs, ns)).2 = ns ++ r := by
  intro ps
  induction ps with
  | nil => intro vs ns; exact ⟨[], by simp⟩
  | cons p ps ih =>
    intro vs ns
    rw [List.foldl_cons]
    obtain ⟨r, hr⟩ := ih (handlePipe (vs, ns) p).1 (handlePipe (vs, ns) p).2
    have : ∃ q, (handlePipe (vs, ns) p).2 = ns ++ q := by
      unfold handlePipe
      by_cases h1 : p.input ∈ vs
      · simp only [h1, if_true]
        split
        · exact ⟨[], by simp⟩
        · exact ⟨_, rfl⟩
      · simp only [h1, if_false]
        split
        · exact ⟨_, rfl⟩
        · exact ⟨[p.input, p.output], by simp⟩
    obtain ⟨q, hq⟩ := this
    exact ⟨q ++ r, by rw [← List.append_assoc, ← hq, ← hr]⟩

theorem copyPipes_ok {w : World κ τ α δ J} {s : Store τ α} {W C : Wf κ δ} (hb : Built w s W) {S1 : Store τ α}
    (hS1 : S1.length = s.length + (blockVars (skel w s W)).length)
    (hC : C.blocks = W.blocks.map (BlockO.rename (shift s.length (allVariables (skel w s W))))) :
    ∀ (ps : List (Nat × Nat)) (ns : List Nat) (memo : List (Nat × Nat)), (∀ p ∈ ps, p ∈ W.pipes) →
      (∀ v ∈ ns, v ∉ blockVars (skel w s W)) →
      (ps.map fun p => (⟨p.1, p.2, false⟩ : Pipe)).foldl handlePipe (blockVars (skel w s W) ++ ns, ns) =
        varsAndNbvs (skel w s W) →
      (∀ v ∈ allVariables (skel w s W), memo.lookup ((allVariables (skel w s W)).idxOf v) =
        if v ∈ ns then some (shift s.length (allVariables (skel w s W)) v) else none) →
      copyPipes w s W C (S1 ++ ns.map fun v => freeCopy (look s v)) memo ps =
        .ok (ps.map (fun p => (shift s.length (allVariables (skel w s W)) p.1,
          shift s.length (allVariables (skel w s W)) p.2)),
          S1 ++ (nbvs (skel w s W)).map fun v => freeCopy (look s v)) := by
  intro ps
  have hLe := (nbvs_spec (skel w s W)).1
  induction ps with
  | nil =>
    intro ns memo _ _ hf _
    simp only [List.map_nil, List.foldl_nil] at hf
    have : nbvs (skel w s W) = ns := by unfold nbvs; rw [← hf]
    simp only [copyPipes, this, List.map_nil]
  | cons p ps ih =>
    intro ns memo hps hns hf hm
    have hp := hps p (by simp)
    have hpG : (⟨p.1, p.2, false⟩ : Pipe) ∈ (skel w s W).pipes := List.mem_map.2 ⟨p, hp, rfl⟩
    have hv1 : p.1 ∈ allVariables (skel w s W) := mem_allVariables.2 (.inr ⟨_, hpG, .inl rfl⟩)
    obtain ⟨bt, hbt, hin⟩ := hb.skel_target _ hpG
    have hb2 : p.2 ∈ blockVars (skel w s W) := mem_blockVars.2 ⟨bt, hbt, .inl hin⟩
    have htgt : ∀ S : Store τ α, ∃ a, variableIndices (skel w s W) p.2 = .ok a ∧
        variableFromIndex (skel w S C) a = .ok (shift s.length (allVariables (skel w s W)) p.2) := by
      intro S
      obtain ⟨j, side, i, h1, h2⟩ := port_from (G := skel w s W) (H := skel w S C) (ev := w.eval) (blocks := W.blocks)
        (ρ := shift s.length (allVariables (skel w s W))) rfl (by simp only [skel, hC]) hb2
      exact ⟨_, h1, h2⟩
    simp only [List.map_cons, List.foldl_cons] at hf
    have hcase := hv1
    rw [hLe, List.mem_append] at hcase
    by_cases hk : p.1 ∈ blockVars (skel w s W) ++ ns
    · -- nothing new
      have hstep : handlePipe (blockVars (skel w s W) ++ ns, ns) ⟨p.1, p.2, false⟩ =
          (blockVars (skel w s W) ++ ns, ns) := by
        unfold handlePipe
        simp only [hk, if_true]
        rw [if_pos (List.mem_append.2 (.inl hb2))]
      rw [hstep] at hf
      have hrec := ih ns memo (fun q hq => hps q (by simp [hq])) hns hf hm
      have hone : copyPipe w s W C (S1 ++ ns.map fun v => freeCopy (look s v)) memo p =
          .ok ((shift s.length (allVariables (skel w s W)) p.1, shift s.length (allVariables (skel w s W)) p.2), memo,
            S1 ++ ns.map fun v => freeCopy (look s v)) := by
        obtain ⟨a, ha1, ha2⟩ := htgt (S1 ++ ns.map fun v => freeCopy (look s v))
        rcases hcase with hbv | hnb
        · obtain ⟨j, side, i, h1, h2⟩ := port_from (G := skel w s W)
            (H := skel w (S1 ++ ns.map fun v => freeCopy (look s v)) C) (ev := w.eval) (blocks := W.blocks)
            (ρ := shift s.length (allVariables (skel w s W))) rfl (by simp only [skel, hC]) hbv
          simp only [copyPipe, h1, h2, ha1, ha2, bind, Except.bind]
        · have h1 := (addr_free hb.skel_target hnb).1
          have hin' : p.1 ∈ ns := (List.mem_append.1 hk).resolve_left ((nbvs_spec _).2.2.1 _ hnb)
          have h2 := hm p.1 hv1
          rw [if_pos hin'] at h2
          simp only [copyPipe, h1, h2, ha1, ha2, bind, Except.bind]
      simp only [copyPipes, hone, bind, Except.bind]
      rw [hrec]
      rfl
    · -- a free variable met for the first time
      rw [List.mem_append, not_or] at hk
      have hnb : p.1 ∈ nbvs (skel w s W) := hcase.resolve_left hk.1
      have hstep : handlePipe (blockVars (skel w s W) ++ ns, ns) ⟨p.1, p.2, false⟩ =
          (blockVars (skel w s W) ++ (ns ++ [p.1]), ns ++ [p.1]) := by
        unfold handlePipe
        have : p.1 ∉ blockVars (skel w s W) ++ ns := by simp [hk]
        simp only [this, if_false]
        rw [if_pos (by simp [hb2])]
        simp
      rw [hstep] at hf
      obtain ⟨r, hr⟩ := handlePipe_prefix (ps.map fun p => (⟨p.1, p.2, false⟩ : Pipe))
        (blockVars (skel w s W) ++ (ns ++ [p.1])) (ns ++ [p.1])
      rw [hf] at hr
      have hNB : nbvs (skel w s W) = ns ++ [p.1] ++ r := hr
      have hρ : shift s.length (allVariables (skel w s W)) p.1 =
          (S1 ++ ns.map fun v => freeCopy (look s v)).length := by
        unfold shift
        rw [hLe, List.idxOf_append_of_notMem hk.1, hNB, List.append_assoc, List.idxOf_append_of_notMem hk.2]
        simp [hS1]
        omega
      obtain ⟨a, ha1, ha2⟩ := htgt (S1 ++ ns.map fun v => freeCopy (look s v))
      have h1 := (addr_free hb.skel_target hnb).1
      have h2 := hm p.1 hv1
      rw [if_neg hk.2] at h2
      have h3 := copyVar_ok (hb.locks p.1 (.inl (.inr ⟨p, hp, .inl rfl⟩)))
      have hone : copyPipe w s W C (S1 ++ ns.map fun v => freeCopy (look s v)) memo p =
          .ok ((shift s.length (allVariables (skel w s W)) p.1, shift s.length (allVariables (skel w s W)) p.2),
            Dict.set memo ((allVariables (skel w s W)).idxOf p.1) (shift s.length (allVariables (skel w s W)) p.1),
            S1 ++ (ns ++ [p.1]).map fun v => freeCopy (look s v)) := by
        simp only [copyPipe, h1, h2, h3, ha1, ha2, bind, Except.bind, hρ]
        simp
      have hrec := ih (ns ++ [p.1]) (Dict.set memo ((allVariables (skel w s W)).idxOf p.1)
        (shift s.length (allVariables (skel w s W)) p.1)) (fun q hq => hps q (by simp [hq]))
        (fun v hv => by
          rcases List.mem_append.1 hv with hv | hv
          · exact hns v hv
          · simp only [List.mem_singleton] at hv; rw [hv]; exact hk.1) hf (fun v hv => by
          rw [Dict.lookup_set, hm v hv]
          by_cases he : v = p.1
          · subst he
            simp
          · have : (allVariables (skel w s W)).idxOf v ≠ (allVariables (skel w s W)).idxOf p.1 :=
              fun hc => he ((List.idxOf_inj hv).1 hc)
            simp [this, he])
      simp only [copyPipes, hone, bind, Except.bind]
      rw [hrec]
      rfl

/-! ### Locks -/

theorem copyLocks_ok {s : Store τ α} {ρ : Nat → Nat} : ∀ (vs : List Nat) (S : Store τ α), vs.Nodup →
    (∀ u ∈ vs, ∀ v ∈ vs, ρ u = ρ v → u = v) → (∀ v ∈ vs, ρ v < S.length) →
    (∀ v ∈ vs, (look s v).lockFlag = true → (look s v).default.isSome = true) →
    ∃ S', copyLocks s S vs (vs.map ρ) = .ok S' ∧ S'.length = S.length ∧
      (∀ u, (∀ v ∈ vs, u ≠ ρ v) → look S' u = look S u) ∧
      ∀ v ∈ vs, look S' (ρ v) = if (look s v).lockFlag then
        { look S (ρ v) with default := (look s v).default, lockFlag := true } else look S (ρ v) := by
  intro vs
  induction vs with
  | nil => intro S _ _ _ _; exact ⟨S, rfl, rfl, fun _ _ => rfl, by simp⟩
  | cons v vs ih =>
    intro S hn hinj hlt hl
    have hlk := locked_ok (hl v (by simp))
    rw [List.nodup_cons] at hn
    have hne : ∀ u ∈ vs, ρ u ≠ ρ v := fun u hu he => hn.1 (hinj u (by simp [hu]) v (by simp) he ▸ hu)
    cases hf : (look s v).lockFlag with
    | false =>
      obtain ⟨S', h1, h2, h3, h4⟩ := ih S hn.2 (fun u hu v hv => hinj u (by simp [hu]) v (by simp [hv]))
        (fun u hu => hlt u (by simp [hu])) (fun u hu => hl u (by simp [hu]))
      refine ⟨S', ?_, h2, fun u hu => h3 u fun x hx => hu x (by simp [hx]), fun u hu => ?_⟩
      · simp only [copyLocks, List.map_cons, hlk, hf, bind, Except.bind, List.tail_cons, h1]
      · rcases List.mem_cons.1 hu with rfl | hu
        · rw [hf, if_neg (by simp)]
          exact h3 _ (fun x hx he => hne x hx he.symm)
        · exact h4 u hu
    | true =>
      obtain ⟨a, ha⟩ := Option.isSome_iff_exists.1 (hl v (by simp) hf)
      have hlt' := hlt v (by simp)
      obtain ⟨S', h1, h2, h3, h4⟩ := ih (S.set (ρ v) { look S (ρ v) with default := some a, lockFlag := true }) hn.2
        (fun u hu v hv => hinj u (by simp [hu]) v (by simp [hv]))
        (fun u hu => by simpa using hlt u (by simp [hu])) (fun u hu => hl u (by simp [hu]))
      refine ⟨S', ?_, by simpa using h2, fun u hu => ?_, fun u hu => ?_⟩
      · simp only [copyLocks, List.map_cons, hlk, hf, bind, Except.bind, ha, Var.lock, h1]
      · rw [h3 u fun x hx => hu x (by simp [hx]), look_set hlt', if_neg (hu v (by simp))]
      · rcases List.mem_cons.1 hu with rfl | hu
        · rw [hf, if_pos rfl, h3 _ (fun x hx he => hne x hx he.symm), look_set hlt', if_pos rfl, ha]
        · rw [h4 u hu, look_set hlt', if_neg (hne u hu)]

end DC.Wkf
