import Verif.Workflow.Persist
import Verif.Workflow.StructLemmas
import Verif.Util.PyList
/- Specification and lemmas for the serialization and the copy of workflows. -/
set_option linter.unusedSectionVars false
set_option linter.unusedSimpArgs false
namespace DC.Wkf

variable {κ τ α δ J : Type} [Inhabited τ]

/-! ### Specification -/

/-- The block with other variables. -/
def BlockO.rename (ρ : Nat → Nat) (b : BlockO κ) : BlockO κ :=
  { b with inputs := b.inputs.map ρ, outputs := b.outputs.map ρ }

/-- The step with other variables. -/
def StepO.rename (ρ : Nat → Nat) (t : StepO δ) : StepO δ :=
  { t with inputs := t.inputs.map ρ, groupInputs := t.groupInputs.map ρ }

/-- `v` is a variable of the workflow: a port of one of its blocks or an end of one of its pipes. -/
def VarOf (W : Wf κ δ) (v : Nat) : Prop :=
  (∃ b ∈ W.blocks, v ∈ b.inputs ∨ v ∈ b.outputs) ∨ ∃ p ∈ W.pipes, v = p.1 ∨ v = p.2

/-- `v` is a port of a block of the workflow. -/
def PortOf (W : Wf κ δ) (v : Nat) : Prop := ∃ b ∈ W.blocks, v ∈ b.inputs ∨ v ∈ b.outputs

/-- `W'` is the workflow `W` where each variable `v` is replaced by a new variable `ρ v`: the same blocks, in order, with
ports which correspond, pipes which join the corresponding variables, the corresponding output and steps.  `s` is the
store before, `s'` the store after. -/
structure Replica (s : Store τ α) (W : Wf κ δ) (s' : Store τ α) (W' : Wf κ δ) (ρ : Nat → Nat) : Prop where
  inj : ∀ u v, VarOf W u → VarOf W v → ρ u = ρ v → u = v
  fresh : ∀ v, VarOf W v → s.length ≤ ρ v ∧ ρ v < s'.length
  kept : ∀ v, v < s.length → look s' v = look s v
  blocks : W'.blocks = W.blocks.map (BlockO.rename ρ)
  pipes : W'.pipes = W.pipes.map fun p => (ρ p.1, ρ p.2)
  output : W'.output = W.output.map ρ
  steps : W'.steps = W.steps.map (StepO.rename ρ)

/-- The variable `v` has the name, the annotation and the position its block's constructor gives to it. -/
def Port (s : Store τ α) (v : Nat) (p : Proto τ α) : Prop :=
  (look s v).name = p.name ∧ (look s v).type = p.type ∧ (look s v).position = p.position

/-- A workflow as its users build it, from blocks whose ports are those of their constructors. -/
structure Built (w : World κ τ α δ J) (s : Store τ α) (W : Wf κ δ) : Prop where
  distinct : (W.blocks.flatMap fun b => b.inputs ++ b.outputs).Nodup
  target : ∀ p ∈ W.pipes, ∃ b ∈ W.blocks, p.2 ∈ b.inputs
  source : ∀ p ∈ W.pipes, ∀ b ∈ W.blocks, p.1 ∉ b.inputs
  alloc : ∀ v, VarOf W v → v < s.length
  locks : ∀ v, VarOf W v ∨ v ∈ W.detached → (look s v).lockFlag = true → (look s v).default.isSome = true
  ins : ∀ b ∈ W.blocks, List.Forall₂ (Port s) b.inputs (w.ins b.kind)
  outs : ∀ b ∈ W.blocks, List.Forall₂ (Port s) b.outputs (w.outs b.kind)
  output : ∀ o, W.output = some o → ∃ b ∈ W.blocks, o ∈ b.outputs
  steps : ∀ t ∈ W.steps, ∀ v ∈ t.inputs ++ t.groupInputs, VarOf W v

/-! ### Lists -/

theorem mapM_pure {β γ ε : Type} {f : β → Except ε γ} {g : β → γ} {l : List β} (h : ∀ x ∈ l, f x = .ok (g x)) :
    l.mapM f = .ok (l.map g) := by
  rw [Py.mapM_ok]
  induction l with
  | nil => exact .nil
  | cons x xs ih => exact .cons (h x (by simp)) (ih fun y hy => h y (by simp [hy]))

/-- The new variable in the place of `v`. -/
def shift (n : Nat) (L : List Nat) (v : Nat) : Nat := n + L.idxOf v

theorem shift_mid {n : Nat} {L A I B : List Nat} (hn : L.Nodup) (h : L = A ++ I ++ B) :
    I.map (shift n L) = List.range' (n + A.length) I.length := by
  apply List.ext_getElem?
  intro k
  rw [List.getElem?_map]
  by_cases hk : k < I.length
  · have hL : L[A.length + k]? = some I[k] := by
      rw [h, List.append_assoc, List.getElem?_append_right (by omega), Nat.add_sub_cancel_left,
        List.getElem?_append_left hk, List.getElem?_eq_getElem hk]
    have := idxOf_of_nodup hn hL
    rw [List.getElem?_eq_getElem hk, Option.map_some, List.getElem?_range' hk, shift, this]
    congr 1
    omega
  · rw [List.getElem?_eq_none (by omega), List.getElem?_eq_none (by simpa using Nat.not_lt.1 hk)]
    rfl

theorem shift_inj {n : Nat} {L : List Nat} {u v : Nat} (hu : u ∈ L) (_ : v ∈ L) (h : shift n L u = shift n L v) :
    u = v := by
  unfold shift at h
  exact (List.idxOf_inj hu).1 (by omega)

theorem shift_fresh {n : Nat} {L : List Nat} {v : Nat} (hv : v ∈ L) : n ≤ shift n L v ∧ shift n L v < n + L.length := by
  have := List.idxOf_lt_length_of_mem hv
  unfold shift
  omega

theorem look_append_left {s t : Store τ α} {v : Nat} (h : v < s.length) : look (s ++ t) v = look s v := by
  unfold look
  rw [List.getD_eq_getElem?_getD, List.getD_eq_getElem?_getD, List.getElem?_append_left h]

theorem look_append_right {s t : Store τ α} (k : Nat) : look (s ++ t) (s.length + k) = look t k := by
  unfold look
  rw [List.getD_eq_getElem?_getD, List.getD_eq_getElem?_getD, List.getElem?_append_right (by omega),
    Nat.add_sub_cancel_left]

theorem look_map {f : Nat → Var τ α} {L : List Nat} {v : Nat} (hv : v ∈ L) :
    look (L.map f) (L.idxOf v) = f v := by
  have := List.idxOf_lt_length_of_mem hv
  unfold look
  rw [List.getD_eq_getElem?_getD, List.getElem?_map, List.getElem?_eq_getElem this, List.getElem_idxOf]
  rfl

theorem look_modify {s : Store τ α} {f : Var τ α → Var τ α} {i v : Nat} (hi : i < s.length) :
    look (s.modify i f) v = if v = i then f (look s i) else look s v := by
  unfold look
  rw [List.getD_eq_getElem?_getD, List.getElem?_modify]
  by_cases h : i = v
  · subst h
    rw [if_pos rfl, List.getD_eq_getElem?_getD, List.getElem?_eq_getElem hi]
    simp
  · rw [if_neg (Ne.symm h), List.getD_eq_getElem?_getD]
    simp [h]

theorem look_set {s : Store τ α} {x : Var τ α} {i v : Nat} (hi : i < s.length) :
    look (s.set i x) v = if v = i then x else look s v := by
  unfold look
  rw [List.getD_eq_getElem?_getD, List.getElem?_set]
  by_cases h : i = v
  · subst h
    rw [if_pos rfl, if_pos rfl, if_pos hi]
    rfl
  · rw [if_neg h, if_neg (Ne.symm h), List.getD_eq_getElem?_getD]

/-! ### The graph -/

section
variable (w : World κ τ α δ J) (s : Store τ α) (W : Wf κ δ)

theorem blockVars_skel : blockVars (skel w s W) = W.blocks.flatMap fun b => b.inputs ++ b.outputs := by
  simp [blockVars, skel, List.flatMap_map]

theorem mem_allVariables_skel {v : Nat} : v ∈ allVariables (skel w s W) ↔ VarOf W v := by
  rw [mem_allVariables, blockVars_skel]
  simp [skel, VarOf]

theorem mem_blockVars_skel {v : Nat} : v ∈ blockVars (skel w s W) ↔ PortOf W v := by
  rw [blockVars_skel]
  simp [PortOf]

/-- The variables do not depend on what they hold. -/
theorem varsAndNbvs_skel (s' : Store τ α) : varsAndNbvs (skel w s W) = varsAndNbvs (skel w s' W) := rfl

end

/-- A graph with other variables. -/
def ren (ρ : Nat → Nat) (G : Workflow α) (H : Workflow α) : Prop :=
  H.blocks = G.blocks.map (fun b => ⟨b.inputs.map ρ, b.outputs.map ρ, b.eval⟩) ∧
  H.pipes = G.pipes.map (fun p => ⟨ρ p.input, ρ p.output, p.memorize⟩)

section
variable {ρ : Nat → Nat} {G H : Workflow α}

theorem ren_blockVars (h : ren ρ G H) : blockVars H = (blockVars G).map ρ := by
  unfold blockVars
  rw [h.1, List.flatMap_map, List.map_flatMap]
  simp

theorem handlePipe_mem {bv ns : List Nat} {p : Pipe} {v : Nat} (hv : v ∈ (handlePipe (bv, ns) p).1) :
    v ∈ bv ∨ v = p.input ∨ v = p.output := by
  unfold handlePipe at hv
  by_cases h1 : p.input ∈ bv
  · simp only [h1, if_true] at hv
    by_cases h2 : p.output ∈ bv
    · simp only [h2, if_true] at hv; exact .inl hv
    · simp only [h2, if_false, List.mem_append, List.mem_singleton] at hv
      rcases hv with hv | hv
      · exact .inl hv
      · exact .inr (.inr hv)
  · simp only [h1, if_false] at hv
    by_cases h2 : p.output ∈ bv ++ [p.input]
    · simp only [h2, if_true, List.mem_append, List.mem_singleton] at hv
      rcases hv with hv | hv
      · exact .inl hv
      · exact .inr (.inl hv)
    · simp only [h2, if_false, List.mem_append, List.mem_singleton] at hv
      rcases hv with (hv | hv) | hv
      · exact .inl hv
      · exact .inr (.inl hv)
      · exact .inr (.inr hv)

theorem ren_fold (L : List Nat) (hinj : ∀ u ∈ L, ∀ v ∈ L, ρ u = ρ v → u = v) :
    ∀ (ps : List Pipe) (bv ns : List Nat), (∀ v ∈ bv, v ∈ L) → (∀ p ∈ ps, p.input ∈ L ∧ p.output ∈ L) →
      (ps.map fun p => (⟨ρ p.input, ρ p.output, p.memorize⟩ : Pipe)).foldl handlePipe (bv.map ρ, ns.map ρ) =
        ((ps.foldl handlePipe (bv, ns)).1.map ρ, (ps.foldl handlePipe (bv, ns)).2.map ρ) := by
  have hmem : ∀ (l : List Nat), (∀ v ∈ l, v ∈ L) → ∀ a ∈ L, (ρ a ∈ l.map ρ ↔ a ∈ l) := by
    intro l hl a ha
    constructor
    · intro h
      obtain ⟨c, hc, he⟩ := List.mem_map.1 h
      rw [← hinj c (hl c hc) a ha he]
      exact hc
    · exact List.mem_map_of_mem
  have step : ∀ (bv ns : List Nat) (a : Nat), (∀ v ∈ bv, v ∈ L) → a ∈ L →
      (if ρ a ∈ bv.map ρ then (bv.map ρ, ns.map ρ) else (bv.map ρ ++ [ρ a], ns.map ρ ++ [ρ a])) =
      ((if a ∈ bv then (bv, ns) else (bv ++ [a], ns ++ [a])).1.map ρ,
        (if a ∈ bv then (bv, ns) else (bv ++ [a], ns ++ [a])).2.map ρ) := by
    intro bv ns a hbv ha
    by_cases h : a ∈ bv
    · rw [if_pos ((hmem bv hbv a ha).2 h), if_pos h]
    · rw [if_neg (fun hc => h ((hmem bv hbv a ha).1 hc)), if_neg h]
      simp
  intro ps
  induction ps with
  | nil => intro bv ns _ _; rfl
  | cons p ps ih =>
    intro bv ns hbv hps
    obtain ⟨h1, h2⟩ := hps p (by simp)
    simp only [List.map_cons, List.foldl_cons]
    have e : handlePipe (bv.map ρ, ns.map ρ) ⟨ρ p.input, ρ p.output, p.memorize⟩ =
        ((handlePipe (bv, ns) p).1.map ρ, (handlePipe (bv, ns) p).2.map ρ) := by
      unfold handlePipe
      simp only
      rw [step bv ns p.input hbv h1]
      rw [step _ _ p.output _ h2]
      intro v hv
      split at hv
      · exact hbv v hv
      · rcases List.mem_append.1 hv with hv | hv
        · exact hbv v hv
        · simp only [List.mem_singleton] at hv; subst hv; exact h1
    rw [e, ih _ _ _ (fun q hq => hps q (by simp [hq]))]
    intro v hv
    rcases handlePipe_mem hv with hv | rfl | rfl
    · exact hbv v hv
    · exact h1
    · exact h2

theorem ren_vars (h : ren ρ G H) (hinj : ∀ u ∈ allVariables G, ∀ v ∈ allVariables G, ρ u = ρ v → u = v) :
    allVariables H = (allVariables G).map ρ ∧ nbvs H = (nbvs G).map ρ := by
  have := ren_fold (allVariables G) hinj G.pipes (blockVars G) []
    (fun v hv => mem_allVariables.2 (.inl hv))
    (fun p hp => ⟨mem_allVariables.2 (.inr ⟨p, hp, .inl rfl⟩), mem_allVariables.2 (.inr ⟨p, hp, .inr rfl⟩)⟩)
  unfold allVariables nbvs varsAndNbvs
  rw [ren_blockVars h, h.2]
  simp only [List.map_nil] at this
  rw [this]
  exact ⟨rfl, rfl⟩

theorem ren_ancestor (h : ren ρ G H) (hinj : ∀ u ∈ allVariables G, ∀ v ∈ allVariables G, ρ u = ρ v → u = v) {v : Nat}
    (hv : v ∈ allVariables G) : hasAncestor H (ρ v) = hasAncestor G v := by
  have hb : ∀ b ∈ G.blocks, ((b.outputs.map ρ).contains (ρ v)) = b.outputs.contains v := by
    intro b hb
    rw [Bool.eq_iff_iff]
    simp only [List.contains_iff_mem, List.mem_map]
    constructor
    · rintro ⟨u, hu, he⟩
      rw [← hinj u (mem_allVariables.2 (.inl (mem_blockVars.2 ⟨b, hb, .inr hu⟩))) v hv he]
      exact hu
    · intro hu; exact ⟨v, hu, rfl⟩
  have heq : ∀ u ∈ allVariables G, (ρ u == ρ v) = (u == v) := by
    intro u hu
    rw [Bool.eq_iff_iff, beq_iff_eq, beq_iff_eq]
    exact ⟨hinj u hu v hv, fun e => by rw [e]⟩
  unfold hasAncestor
  rw [h.1, h.2, List.any_map, List.any_map]
  have e1 : (G.blocks.any ((fun b : Block α => b.outputs.contains (ρ v)) ∘
      fun b => ⟨b.inputs.map ρ, b.outputs.map ρ, b.eval⟩)) = G.blocks.any (fun b => b.outputs.contains v) := by
    rw [Bool.eq_iff_iff, List.any_eq_true, List.any_eq_true]
    exact ⟨fun ⟨b, h1, h2⟩ => ⟨b, h1, (hb b h1) ▸ h2⟩, fun ⟨b, h1, h2⟩ => ⟨b, h1, (hb b h1).trans h2⟩⟩
  have e2 : ∀ p ∈ G.pipes, (ρ p.output == ρ v && ρ p.input != ρ v) = (p.output == v && p.input != v) := by
    intro p hp
    unfold bne
    rw [heq _ (mem_allVariables.2 (.inr ⟨p, hp, .inr rfl⟩)), heq _ (mem_allVariables.2 (.inr ⟨p, hp, .inl rfl⟩))]
  rw [e1]
  congr 1
  rw [Bool.eq_iff_iff, List.any_eq_true, List.any_eq_true]
  exact ⟨fun ⟨b, h1, h2⟩ => ⟨b, h1, (e2 b h1) ▸ h2⟩, fun ⟨b, h1, h2⟩ => ⟨b, h1, (e2 b h1).trans h2⟩⟩

theorem ren_inputs (h : ren ρ G H) (hinj : ∀ u ∈ allVariables G, ∀ v ∈ allVariables G, ρ u = ρ v → u = v) :
    inputs H = (inputs G).map ρ := by
  unfold inputs
  rw [(ren_vars h hinj).1, List.filter_map]
  congr 1
  apply List.filter_congr
  intro v hv
  simp only [Function.comp]
  rw [ren_ancestor h hinj hv]

theorem ren_den (h : ren ρ G H) (hinj : ∀ u ∈ allVariables G, ∀ v ∈ allVariables G, ρ u = ρ v → u = v)
    {vals : Nat → Option α} {v : Nat} {x : α} (hd : Den G vals v x) : Den H vals (ρ v) x := by
  induction hd with
  | @input k v x h1 h2 =>
    refine .input (k := k) ?_ h2
    rw [ren_inputs h hinj, List.getElem?_map, h1]; rfl
  | @pipe p x hp _ ih =>
    have : (⟨ρ p.input, ρ p.output, p.memorize⟩ : Pipe) ∈ H.pipes := by
      rw [h.2]; exact List.mem_map.2 ⟨p, hp, rfl⟩
    exact Den.pipe this ih
  | @block b xs ys o y hb hl _ he ho ih =>
    have hm : (⟨b.inputs.map ρ, b.outputs.map ρ, b.eval⟩ : Block α) ∈ H.blocks := by
      rw [h.1]; exact List.mem_map.2 ⟨b, hb, rfl⟩
    refine .block (xs := xs) (ys := ys) hm (by simpa using hl) ?_ he ?_
    · intro vx hvx
      rw [List.zip_map_left] at hvx
      obtain ⟨ux, hux, rfl⟩ := List.mem_map.1 hvx
      exact ih ux hux
    · rw [List.zip_map_left]
      exact List.mem_map.2 ⟨(o, y), ho, rfl⟩

theorem Den.var {vals : Nat → Option α} {v : Nat} {x : α} (hd : Den G vals v x) : v ∈ allVariables G := by
  cases hd with
  | input h1 _ => exact (mem_inputs.1 (List.mem_of_getElem? h1)).1
  | pipe hp _ => exact mem_allVariables.2 (.inr ⟨_, hp, .inr rfl⟩)
  | block hb _ _ _ ho => exact mem_allVariables.2 (.inl (mem_blockVars.2 ⟨_, hb, .inr (List.of_mem_zip ho).1⟩))

/-- What the graph with other variables computes is computed by the graph. -/
theorem ren_den_back (h : ren ρ G H) (hinj : ∀ u ∈ allVariables G, ∀ v ∈ allVariables G, ρ u = ρ v → u = v)
    {vals : Nat → Option α} {u : Nat} {x : α} (hd : Den H vals u x) :
    ∀ v ∈ allVariables G, u = ρ v → Den G vals v x := by
  induction hd with
  | @input k v x h1 h2 =>
    intro v' hv' e
    rw [ren_inputs h hinj, List.getElem?_map, Option.map_eq_some_iff] at h1
    obtain ⟨c, hc, rfl⟩ := h1
    have := hinj c (mem_inputs.1 (List.mem_of_getElem? hc)).1 v' hv' e
    subst this
    exact .input hc h2
  | @pipe p x hp _ ih =>
    intro v' hv' e
    rw [h.2] at hp
    obtain ⟨q, hq, rfl⟩ := List.mem_map.1 hp
    have := hinj q.output (mem_allVariables.2 (.inr ⟨q, hq, .inr rfl⟩)) v' hv' e
    subst this
    exact .pipe hq (ih q.input (mem_allVariables.2 (.inr ⟨q, hq, .inl rfl⟩)) rfl)
  | @block b xs ys o y hb hl _ he ho ih =>
    intro v' hv' e
    rw [h.1] at hb
    obtain ⟨c, hc, rfl⟩ := List.mem_map.1 hb
    simp only [List.zip_map_left] at ho ih
    obtain ⟨oy, hoy, e'⟩ := List.mem_map.1 ho
    obtain ⟨o', y'⟩ := oy
    simp only [Prod.map, id_eq, Prod.mk.injEq] at e'
    obtain ⟨e1, rfl⟩ := e'
    have := hinj o' (mem_allVariables.2 (.inl (mem_blockVars.2 ⟨c, hc, .inr (List.of_mem_zip hoy).1⟩))) v' hv'
      (e1.trans e)
    subst this
    refine .block (xs := xs) (ys := ys) hc (by simpa using hl) ?_ he hoy
    intro vx hvx
    exact ih (ρ vx.1, vx.2) (List.mem_map.2 ⟨vx, hvx, rfl⟩) vx.1
      (mem_allVariables.2 (.inl (mem_blockVars.2 ⟨c, hc, .inl (List.of_mem_zip hvx).1⟩))) rfl

end

end DC.Wkf
