import Verif.Workflow.UnfoldProps
/-
Properties C187 and C188: pipes and blocks replaced by what they give, and variables replaced by others.
-/
namespace DC.Wkf

variable {α : Type}

/-! ### Specification -/

/-- The workflow without the pipe `p`. -/
def cutPipe (W : Workflow α) (p : Pipe) : Workflow α := { W with pipes := W.pipes.filter fun q => q != p }

/-- The block `b'` has the variables of `b` and gives what `b` gives, or raises as `b` does, on the values which its inputs get in the runs of `W`. -/
structure SameHere (W : Workflow α) (user : List (Nat × α)) (b b' : Block α) : Prop where
  inputs : b'.inputs = b.inputs
  outputs : b'.outputs = b.outputs
  eval : ∀ xs : List α, xs.length = b.inputs.length → (∀ vx ∈ b.inputs.zip xs, Den W (expected W user) vx.1 vx.2) → ∀ ys : List α, b'.eval xs = .ok ys ↔ b.eval xs = .ok ys

/-- `W'` is `W` with each of its variables `v` replaced by `ρ v`. -/
structure RenamedBy (ρ : Nat → Nat) (W W' : Workflow α) : Prop where
  blocks : W'.blocks = W.blocks.map fun b => { b with inputs := b.inputs.map ρ, outputs := b.outputs.map ρ }
  pipes : W'.pipes = W.pipes.map fun p => { p with input := ρ p.input, output := ρ p.output }
  output : W'.output = W.output.map ρ
  default : ∀ v, W'.default (ρ v) = W.default v
  lockFlag : ∀ v, W'.lockFlag (ρ v) = W.lockFlag v

/-! ### Cutting a pipe -/

theorem cut_pipes {W : Workflow α} {p q : Pipe} : q ∈ (cutPipe W p).pipes ↔ q ∈ W.pipes ∧ q ≠ p := by
  simp [cutPipe]

theorem cut_wf {W : Workflow α} (hw : WellFormed W) (p : Pipe) : WellFormed (cutPipe W p) := by
  obtain ⟨r, h1, h2⟩ := hw.acyclic
  exact ⟨hw.distinct, hw.single.sublist (List.filter_sublist.map _), fun q hq => hw.target q (cut_pipes.1 hq).1, fun q hq => hw.source q (cut_pipes.1 hq).1,
    r, fun q hq => h1 q (cut_pipes.1 hq).1, h2⟩

theorem cut_vars {W : Workflow α} {p : Pipe} {v : Nat} (h : v ∈ allVariables (cutPipe W p)) : v ∈ allVariables W := by
  rcases mem_allVariables.1 h with h | ⟨q, hq, hv⟩
  · exact mem_allVariables.2 (.inl h)
  · exact mem_allVariables.2 (.inr ⟨q, (cut_pipes.1 hq).1, hv⟩)

/-- An input of the workflow without the pipe is the end of the pipe or an input of the workflow. -/
theorem cut_input {W : Workflow α} (hw : WellFormed W) {p : Pipe} {v : Nat} (h : v ∈ inputs (cutPipe W p)) : v = p.output ∨ v ∈ inputs W := by
  obtain ⟨h1, h2, -⟩ := mem_inputs.1 h
  by_cases e : v = p.output
  · exact .inl e
  · refine .inr (mem_inputs.2 ⟨cut_vars h1, h2, fun q hq hqv => absurd hqv ((cut_wf hw p).input_free h q (cut_pipes.2 ⟨hq, ?_⟩))⟩)
    rintro rfl
    exact e hqv.symm

theorem input_cut {W : Workflow α} {p : Pipe} {v : Nat} (h : v ∈ inputs W) (hv : v ∈ allVariables (cutPipe W p)) : v ∈ inputs (cutPipe W p) := by
  obtain ⟨h1, h2, h3⟩ := mem_inputs.1 h
  exact mem_inputs.2 ⟨hv, h2, fun q hq => h3 q (cut_pipes.1 hq).1⟩

theorem end_cut {W : Workflow α} (hw : WellFormed W) {p : Pipe} (hp : p ∈ W.pipes) : p.output ∈ inputs (cutPipe W p) := by
  obtain ⟨b, hb, hbi⟩ := hw.target p hp
  exact free_input (W := cutPipe W p) hw.distinct hb hbi fun q hq e => (cut_pipes.1 hq).2 (output_single hw (cut_pipes.1 hq).1 hp e)

/-! ### C187 -/

/-- Cutting a pipe and giving to its end the value that went through it does not change the result. -/
theorem C187_cut {W : Workflow α} (hw : WellFormed W) (hl : LocksOk W) {i : Nat} (ho : OutputOf W i) {p : Pipe} (hp : p ∈ W.pipes) {user user' : List (Nat × α)} {x : α}
    (hx : Den W (expected W user) p.input x) (hk : ∀ kx ∈ user, kx.1 < (inputs W).length) (hk' : ∀ kx ∈ user', kx.1 < (inputs (cutPipe W p)).length)
    (hgp : givenTo (cutPipe W p) user' p.output = some x) (hg : ∀ v ∈ inputs W, v ∈ inputs (cutPipe W p) → givenTo (cutPipe W p) user' v = givenTo W user v)
    (so so' : SetOrder) (y : α) : GivesResult W so user y ↔ GivesResult (cutPipe W p) so' user' y := by
  have hw' := cut_wf hw p
  obtain ⟨b, o, hb, hout, hbo⟩ := id ho
  have ho' : OutputOf (cutPipe W p) i := ⟨b, o, hb, hout, hbo⟩
  have back : ∀ {v : Nat} {z : α}, Den (cutPipe W p) (expected (cutPipe W p) user') v z → Den W (expected W user) v z := by
    intro v z hd
    induction hd with
    | @input k v z hkv hz =>
      rw [expected_given hw' user' hkv] at hz
      have hv' := List.mem_of_getElem? hkv
      rcases cut_input hw hv' with rfl | hv
      · rw [hgp] at hz
        cases hz
        exact .pipe hp hx
      · obtain ⟨k', hk'⟩ := List.getElem?_of_mem hv
        exact .input hk' (by rw [expected_given hw user hk', ← hg v hv hv', hz])
    | pipe hq _ ih => exact .pipe (cut_pipes.1 hq).1 ih
    | block hb hl _ hev hz ih => exact .block hb hl ih hev hz
  have forth : ∀ {v : Nat} {z : α}, Den W (expected W user) v z → v ∈ allVariables (cutPipe W p) → Den (cutPipe W p) (expected (cutPipe W p) user') v z := by
    intro v z hd
    induction hd with
    | @input k v z hkv hz =>
      intro hv
      have hvi := List.mem_of_getElem? hkv
      have hv' := input_cut hvi hv
      obtain ⟨k', hk'⟩ := List.getElem?_of_mem hv'
      refine .input hk' ?_
      rw [expected_given hw' user' hk', hg v hvi hv', ← expected_given hw user hkv, hz]
    | @pipe q z hq hd ih =>
      intro hv
      by_cases e : q = p
      · subst e
        rw [hd.unique hw hx]
        obtain ⟨k', hk'⟩ := List.getElem?_of_mem (end_cut hw hp)
        exact .input hk' (by rw [expected_given hw' user' hk', hgp])
      · exact .pipe (W := cutPipe W p) (cut_pipes.2 ⟨hq, e⟩) (ih (HasSub.var_input (cut_pipes.2 ⟨hq, e⟩)))
    | block hb hl _ hev hz ih =>
      intro hv
      exact .block (W := cutPipe W p) hb hl (fun vx hvx => ih vx hvx (HasSub.var_block (W := cutPipe W p) hb (.inl (List.of_mem_zip hvx).1))) hev hz
  rw [gives_iff hw hl ho hout, gives_iff hw' hl ho' (o := o) hout]
  constructor
  · rintro ⟨hu, hd⟩
    refine ⟨⟨hk', fun v hv => ?_⟩, forth hd (HasSub.var_block (W := cutPipe W p) (List.mem_of_getElem? hb) (.inr hbo))⟩
    rcases cut_input hw hv with rfl | hvi
    · rw [hgp]
      rfl
    · rw [hg v hvi hv]
      exact hu.value v hvi
  · rintro ⟨hu, hd⟩
    refine ⟨⟨hk, fun v hv => ?_⟩, back hd⟩
    by_cases hv' : v ∈ allVariables (cutPipe W p)
    · have := input_cut hv hv'
      rw [← hg v hv this]
      exact hu.value v this
    · have e : v = p.input := by
        rcases mem_allVariables.1 (mem_inputs.1 hv).1 with h | ⟨q, hq, hqv⟩
        · exact absurd (mem_allVariables (W := cutPipe W p).2 (.inl h)) hv'
        · by_cases e : q = p
          · subst e
            rcases hqv with h | h
            · exact h
            · exact absurd h.symm (hw.input_free hv q hq)
          · exact absurd (mem_allVariables.2 (.inr ⟨q, cut_pipes.2 ⟨hq, e⟩, hqv⟩)) hv'
      subst e
      obtain ⟨k', hk'⟩ := List.getElem?_of_mem hv
      rw [← expected_given hw user hk']
      generalize p.input = v at *
      cases hx with
      | input hkv hz =>
        have hn := inputs_nodup hw.distinct
        rw [← (idxOf_of_nodup hn hk'), idxOf_of_nodup hn hkv, hz]
        rfl
      | pipe hq _ => exact absurd rfl (hw.input_free hv _ hq)
      | block hb _ _ _ hz => exact absurd (List.of_mem_zip hz).1 ((mem_inputs.1 hv).2.1 _ hb)

theorem same_vars {W W' : Workflow α} {user : List (Nat × α)} (hb : List.Forall₂ (SameHere W user) W.blocks W'.blocks) : blockVars W' = blockVars W := by
  unfold blockVars
  generalize W.blocks = l at hb
  generalize W'.blocks = l' at hb
  induction hb with
  | nil => rfl
  | cons h _ ih => rw [List.flatMap_cons, List.flatMap_cons, ih, h.inputs, h.outputs]

theorem pairs_left {β γ : Type} {R : β → γ → Prop} {l : List β} {r : List γ} (h : List.Forall₂ R l r) {a : β} (ha : a ∈ l) : ∃ b ∈ r, R a b := by
  induction h with
  | nil => cases ha
  | cons h1 _ ih =>
    rcases List.mem_cons.1 ha with rfl | ha
    · exact ⟨_, .head _, h1⟩
    · obtain ⟨b, hb, hr⟩ := ih ha
      exact ⟨b, .tail _ hb, hr⟩

theorem pairs_right {β γ : Type} {R : β → γ → Prop} {l : List β} {r : List γ} (h : List.Forall₂ R l r) {b : γ} (hb : b ∈ r) : ∃ a ∈ l, R a b := by
  induction h with
  | nil => cases hb
  | cons h1 _ ih =>
    rcases List.mem_cons.1 hb with rfl | hb
    · exact ⟨_, .head _, h1⟩
    · obtain ⟨a, ha, hr⟩ := ih hb
      exact ⟨a, .tail _ ha, hr⟩

/-- Blocks can be replaced by others with the same variables which give the same on the values they get: the result is the same.  They may differ on all other values. -/
theorem C187_replace {W W' : Workflow α} (hw : WellFormed W) (hl : LocksOk W) {i : Nat} (ho : OutputOf W i) {user : List (Nat × α)} (hb : List.Forall₂ (SameHere W user) W.blocks W'.blocks)
    (hp : W'.pipes = W.pipes) (hout : W'.output = W.output) (hd : W'.default = W.default) (hf : W'.lockFlag = W.lockFlag) (so so' : SetOrder) (y : α) :
    GivesResult W so user y ↔ GivesResult W' so' user y := by
  have hvars := same_vars hb
  have hall : allVariables W' = allVariables W := by simp only [allVariables, varsAndNbvs, hvars, hp]
  have hin : inputs W' = inputs W := by
    have : ∀ v, hasAncestor W' v = hasAncestor W v := by
      intro v
      have hany : W'.blocks.any (fun b => b.outputs.contains v) = W.blocks.any fun b => b.outputs.contains v := by
        rw [Bool.eq_iff_iff, List.any_eq_true, List.any_eq_true]
        constructor
        · rintro ⟨b', hb', hc⟩
          obtain ⟨b, hbm, hs⟩ := pairs_right hb hb'
          exact ⟨b, hbm, hs.outputs ▸ hc⟩
        · rintro ⟨b, hbm, hc⟩
          obtain ⟨b', hb', hs⟩ := pairs_left hb hbm
          exact ⟨b', hb', hs.outputs ▸ hc⟩
      simp only [hasAncestor, hany, hp]
    simp only [inputs, hall, this]
  have hexp : expected W' user = expected W user := by
    funext k
    simp only [expected, hin, hd, hf]
  have hw' : WellFormed W' := by
    obtain ⟨r, h1, h2⟩ := hw.acyclic
    refine ⟨hvars ▸ hw.distinct, hp ▸ hw.single, fun q hq => ?_, fun q hq b' hb' => ?_, r, fun q hq => h1 q (hp ▸ hq), fun b' hb' i hi o ho => ?_⟩
    · obtain ⟨b, hbm, hbi⟩ := hw.target q (hp ▸ hq)
      obtain ⟨b', hb', hs⟩ := pairs_left hb hbm
      exact ⟨b', hb', hs.inputs ▸ hbi⟩
    · obtain ⟨b, hbm, hs⟩ := pairs_right hb hb'
      exact hs.inputs ▸ hw.source q (hp ▸ hq) b hbm
    · obtain ⟨b, hbm, hs⟩ := pairs_right hb hb'
      exact h2 b hbm i (hs.inputs ▸ hi) o (hs.outputs ▸ ho)
  have hl' : LocksOk W' := fun v hv => hd ▸ hl v (hf ▸ hv)
  have forth : ∀ {v : Nat} {z : α}, Den W (expected W user) v z → Den W' (expected W' user) v z := by
    intro v z hz
    induction hz with
    | input hk hx => exact .input (hin ▸ hk) (hexp ▸ hx)
    | pipe hq _ ih => exact .pipe (hp ▸ hq) ih
    | @block b xs ys o y hbm hlen hds hev hoz ih =>
      obtain ⟨b', hb', hs⟩ := pairs_left hb hbm
      exact .block hb' (hs.inputs ▸ hlen) (by rw [hs.inputs]; exact ih) ((hs.eval xs hlen hds _).2 hev) (hs.outputs ▸ hoz)
  have back : ∀ {v : Nat} {z : α}, Den W' (expected W' user) v z → Den W (expected W user) v z := by
    intro v z hz
    induction hz with
    | input hk hx => exact .input (hin ▸ hk) (hexp ▸ hx)
    | pipe hq _ ih => exact .pipe (hp ▸ hq) ih
    | @block b' xs ys o y hb' hlen _ hev hoz ih =>
      obtain ⟨b, hbm, hs⟩ := pairs_right hb hb'
      rw [hs.inputs] at hlen ih
      rw [hs.eval xs hlen ih] at hev
      exact .block hbm hlen ih hev (hs.outputs ▸ hoz)
  obtain ⟨b, o, hbm, ho1, hbo⟩ := id ho
  obtain ⟨b', hb', hs⟩ := pairs_left hb (List.mem_of_getElem? hbm)
  obtain ⟨j, hj⟩ := List.getElem?_of_mem hb'
  have ho' : OutputOf W' j := ⟨b', o, hj, hout.trans ho1, hs.outputs ▸ hbo⟩
  have hgiven : GivenSame W' user ↔ GivenSame W user := by
    have : ∀ v, givenTo W' user v = givenTo W user v := fun v => by simp only [givenTo, hin, hd, hf]
    exact ⟨fun h => ⟨hin ▸ h.range, fun v hv => this v ▸ h.value v (hin ▸ hv)⟩, fun h => ⟨hin ▸ h.range, fun v hv => by rw [this v]; exact h.value v (hin ▸ hv)⟩⟩
  rw [gives_iff hw hl ho ho1, gives_iff hw' hl' ho' (hout.trans ho1), hgiven]
  exact ⟨fun h => ⟨h.1, forth h.2⟩, fun h => ⟨h.1, back h.2⟩⟩

/-! ### C188 -/

theorem rename_vars {ρ : Nat → Nat} (hρ : Function.Injective ρ) {W W' : Workflow α} (h : RenamedBy ρ W W') : allVariables W' = (allVariables W).map ρ := by
  have hb : blockVars W' = (blockVars W).map ρ := by
    simp only [blockVars, h.blocks, List.flatMap_map, List.map_flatMap, List.map_append]
  have step : ∀ (ps : List Pipe) (a b : List Nat), (ps.map fun p : Pipe => { p with input := ρ p.input, output := ρ p.output }).foldl handlePipe (a.map ρ, b.map ρ) =
      ((ps.foldl handlePipe (a, b)).1.map ρ, (ps.foldl handlePipe (a, b)).2.map ρ) := by
    intro ps
    induction ps with
    | nil => intros; rfl
    | cons p ps ih =>
      intro a b
      have one : handlePipe (a.map ρ, b.map ρ) { p with input := ρ p.input, output := ρ p.output } = ((handlePipe (a, b) p).1.map ρ, (handlePipe (a, b) p).2.map ρ) := by
        simp only [handlePipe, List.mem_map_of_injective hρ]
        by_cases h1 : p.input ∈ a
        · simp only [h1, if_true, List.mem_map_of_injective hρ]
          by_cases h2 : p.output ∈ a <;> simp [h2]
        · simp only [h1, if_false]
          have e : a.map ρ ++ [ρ p.input] = (a ++ [p.input]).map ρ := by simp
          simp only [e, List.mem_map_of_injective hρ]
          by_cases h2 : p.output ∈ a ++ [p.input]
          · simp [h2]
          · simp [h2]
      rw [List.map_cons, List.foldl_cons, List.foldl_cons, one, ih]
  have := step W.pipes (blockVars W) []
  simp only [allVariables, varsAndNbvs, hb, h.pipes]
  exact congrArg Prod.fst this

theorem rename_inputs {ρ : Nat → Nat} (hρ : Function.Injective ρ) {W W' : Workflow α} (h : RenamedBy ρ W W') : inputs W' = (inputs W).map ρ := by
  simp only [inputs, rename_vars hρ h, List.filter_map]
  congr 1
  apply List.filter_congr
  intro v _
  have e1 : ∀ l : List Nat, (l.map ρ).contains (ρ v) = l.contains v := fun l => by
    rw [Bool.eq_iff_iff, List.contains_iff_mem, List.contains_iff_mem, List.mem_map_of_injective hρ]
  have e2 : ∀ a : Nat, (ρ a == ρ v) = (a == v) := fun a => by
    rw [Bool.eq_iff_iff, beq_iff_eq, beq_iff_eq, hρ.eq_iff]
  simp only [Function.comp_def, hasAncestor, h.blocks, h.pipes, List.any_map, e1, e2, bne]

/-- The result does not depend on which variables a workflow is made of: with each variable replaced by another one, different for different variables, and the same values in
the same order, the result is the same. -/
theorem C188_renamed {ρ : Nat → Nat} (hρ : Function.Injective ρ) {W W' : Workflow α} (h : RenamedBy ρ W W') (hw : WellFormed W) (hl : LocksOk W) (hl' : LocksOk W') {i : Nat} (ho : OutputOf W i)
    (user : List (Nat × α)) (so so' : SetOrder) (y : α) : GivesResult W so user y ↔ GivesResult W' so' user y := by
  have hin := rename_inputs hρ h
  have hmemb : ∀ b', b' ∈ W'.blocks ↔ ∃ b ∈ W.blocks, { b with inputs := b.inputs.map ρ, outputs := b.outputs.map ρ } = b' := fun b' => by rw [h.blocks, List.mem_map]
  have hmemp : ∀ q, q ∈ W'.pipes ↔ ∃ p ∈ W.pipes, ({ p with input := ρ p.input, output := ρ p.output } : Pipe) = q := fun q => by rw [h.pipes, List.mem_map]
  have hexp : expected W' user = expected W user := by
    funext k
    simp only [expected, hin, List.getElem?_map]
    cases (inputs W)[k]? with
    | none => rfl
    | some v => simp only [Option.map_some, h.default, h.lockFlag]
  have hw' : WellFormed W' := by
    obtain ⟨r, h1, h2⟩ := hw.acyclic
    have hinv : ∀ v, Function.invFun ρ (ρ v) = v := Function.leftInverse_invFun hρ
    refine ⟨?_, ?_, ?_, ?_, fun v => r (Function.invFun ρ v), ?_, ?_⟩
    · have hb : blockVars W' = (blockVars W).map ρ := by
        simp only [blockVars, h.blocks, List.flatMap_map, List.map_flatMap, List.map_append]
      rw [hb]
      exact hw.distinct.map hρ
    · have e : W'.pipes.map (·.output) = (W.pipes.map (·.output)).map ρ := by simp [h.pipes]
      rw [e]
      exact hw.single.map hρ
    · intro q hq
      obtain ⟨p, hp, rfl⟩ := (hmemp q).1 hq
      obtain ⟨b, hb, hbi⟩ := hw.target p hp
      exact ⟨_, (hmemb _).2 ⟨b, hb, rfl⟩, List.mem_map_of_mem hbi⟩
    · intro q hq b' hb'
      obtain ⟨p, hp, rfl⟩ := (hmemp q).1 hq
      obtain ⟨b, hb, rfl⟩ := (hmemb b').1 hb'
      exact fun hm => hw.source p hp b hb ((List.mem_map_of_injective hρ).1 hm)
    · intro q hq
      obtain ⟨p, hp, rfl⟩ := (hmemp q).1 hq
      simp only [hinv]
      exact h1 p hp
    · intro b' hb' i hi o ho
      obtain ⟨b, hb, rfl⟩ := (hmemb b').1 hb'
      obtain ⟨i', hi', rfl⟩ := List.mem_map.1 hi
      obtain ⟨o', ho', rfl⟩ := List.mem_map.1 ho
      simp only [hinv]
      exact h2 b hb i' hi' o' ho'
  have zipm : ∀ (l : List Nat) (xs : List α) (vx : Nat × α), vx ∈ (l.map ρ).zip xs ↔ ∃ v, (v, vx.2) ∈ l.zip xs ∧ ρ v = vx.1 := by
    intro l xs vx
    rw [List.zip_map_left, List.mem_map]
    constructor
    · rintro ⟨⟨v, x⟩, hm, rfl⟩
      exact ⟨v, hm, rfl⟩
    · rintro ⟨v, hm, e⟩
      exact ⟨(v, vx.2), hm, by simp [Prod.map, e]⟩
  have forth : ∀ {v : Nat} {z : α}, Den W (expected W user) v z → Den W' (expected W' user) (ρ v) z := by
    intro v z hz
    induction hz with
    | @input k v x hk hx => exact .input (k := k) (by rw [hin, List.getElem?_map, hk]; rfl) (hexp ▸ hx)
    | @pipe p x hp _ ih => exact .pipe (p := { p with input := ρ p.input, output := ρ p.output }) ((hmemp _).2 ⟨p, hp, rfl⟩) ih
    | @block b xs ys o y hb hlen _ hev hoz ih =>
      refine .block (b := { b with inputs := b.inputs.map ρ, outputs := b.outputs.map ρ }) ((hmemb _).2 ⟨b, hb, rfl⟩) (by simpa using hlen) (fun vx hvx => ?_) hev ((zipm _ _ _).2 ⟨o, hoz, rfl⟩)
      obtain ⟨v, hm, e⟩ := (zipm _ _ _).1 hvx
      rw [← e]
      exact ih _ hm
  have back : ∀ {u : Nat} {z : α}, Den W' (expected W' user) u z → ∃ v, ρ v = u ∧ Den W (expected W user) v z := by
    intro u z hz
    induction hz with
    | @input k u x hk hx =>
      rw [hin, List.getElem?_map, Option.map_eq_some_iff] at hk
      obtain ⟨v, hv, e⟩ := hk
      exact ⟨v, e, .input hv (hexp ▸ hx)⟩
    | @pipe q x hq _ ih =>
      obtain ⟨p, hp, rfl⟩ := (hmemp q).1 hq
      obtain ⟨v, e, hd⟩ := ih
      rw [hρ e] at hd
      exact ⟨p.output, rfl, .pipe hp hd⟩
    | @block b' xs ys o' y hb' hlen _ hev hoz ih =>
      obtain ⟨b, hb, rfl⟩ := (hmemb b').1 hb'
      obtain ⟨o, hoz, e⟩ := (zipm _ _ _).1 hoz
      refine ⟨o, e, .block hb (by simpa using hlen) (fun vx hvx => ?_) hev hoz⟩
      obtain ⟨v, e, hd⟩ := ih (ρ vx.1, vx.2) ((zipm _ _ _).2 ⟨vx.1, hvx, rfl⟩)
      rw [hρ e] at hd
      exact hd
  obtain ⟨b, o, hb, hout, hbo⟩ := id ho
  have ho' : OutputOf W' i := ⟨_, ρ o, by rw [h.blocks, List.getElem?_map, hb]; rfl, by rw [h.output, hout]; rfl, List.mem_map_of_mem hbo⟩
  have hgiven : GivenSame W' user ↔ GivenSame W user := by
    have hval : ∀ v ∈ inputs W, givenTo W' user (ρ v) = givenTo W user v := by
      intro v hv
      obtain ⟨k, hk⟩ := List.getElem?_of_mem hv
      rw [← expected_given hw user hk, ← hexp]
      exact (expected_given hw' user (by rw [hin, List.getElem?_map, hk]; rfl)).symm
    constructor
    · exact fun hg => ⟨fun kx hkx => by have := hg.range kx hkx; rwa [hin, List.length_map] at this,
        fun v hv => by rw [← hval v hv]; exact hg.value _ (by rw [hin]; exact List.mem_map_of_mem hv)⟩
    · refine fun hg => ⟨fun kx hkx => by rw [hin, List.length_map]; exact hg.range kx hkx, fun u hu => ?_⟩
      rw [hin] at hu
      obtain ⟨v, hv, rfl⟩ := List.mem_map.1 hu
      rw [hval v hv]
      exact hg.value v hv
  rw [gives_iff hw hl ho hout, gives_iff hw' hl' ho' (by rw [h.output, hout]; rfl), hgiven]
  refine and_congr_right fun _ => ⟨forth, fun hd => ?_⟩
  obtain ⟨v, e, hd⟩ := back hd
  rw [hρ e] at hd
  exact hd

/-! ### Examples -/

theorem exAround_wf : WellFormed exAround := exAround_sub.outer.1
theorem exAround_locks : LocksOk exAround := exAround_sub.outer.2.1
theorem exAround_out : OutputOf exAround 2 := ⟨_, 7, rfl, rfl, by decide⟩

theorem exAround_zero : Den exAround (expected exAround [(0, 5), (2, 100)]) 0 5 := .input (k := 0) (by rw [exAround_inputs]; rfl) (by rfl)

/-- In the example, 6 goes through the first pipe. -/
theorem exAround_one : Den exAround (expected exAround [(0, 5), (2, 100)]) 1 6 :=
  .block (b := ⟨[0], [1], fun xs => .ok [xs.sum + 1]⟩) (xs := [5]) (ys := [6]) (by simp [exAround]) rfl (fun vx hvx => by
    simp only [List.zip_cons_cons, List.zip_nil_right, List.mem_singleton] at hvx
    subst hvx
    exact exAround_zero) rfl (by simp)

theorem exAround_cut : inputs (cutPipe exAround ⟨1, 2, false⟩) = [0, 2, 3, 6] := by decide

/-- The example without its first pipe, 6 being given to the end of the pipe. -/
example (so so' : SetOrder) (y : Int) : GivesResult exAround so [(0, 5), (2, 100)] y ↔ GivesResult (cutPipe exAround ⟨1, 2, false⟩) so' [(0, 5), (1, 6), (3, 100)] y := by
  refine C187_cut exAround_wf exAround_locks exAround_out (by simp [exAround]) exAround_one (by rw [exAround_inputs]; simp) (by rw [exAround_cut]; simp) (by rfl) (fun v hv _ => ?_) so so' y
  rw [exAround_inputs] at hv
  simp only [List.mem_cons, List.not_mem_nil, or_false] at hv
  rcases hv with rfl | rfl | rfl <;> rfl

/-- The example with a first block which gives 6 whatever it gets. -/
def exConstant : Workflow Int := { exAround with blocks := ⟨[0], [1], fun _ => .ok [6]⟩ :: exAround.blocks.drop 1 }

example (so so' : SetOrder) (y : Int) : GivesResult exAround so [(0, 5), (2, 100)] y ↔ GivesResult exConstant so' [(0, 5), (2, 100)] y := by
  refine C187_replace (W := exAround) (W' := exConstant) exAround_wf exAround_locks exAround_out (.cons ⟨rfl, rfl, fun xs hx hd => ?_⟩ (.cons ⟨rfl, rfl, fun _ _ _ _ => Iff.rfl⟩ (.cons ⟨rfl, rfl, fun _ _ _ _ => Iff.rfl⟩ .nil))) rfl rfl rfl rfl so so' y
  match xs, hx with
  | [x], _ =>
    have : Den exAround (expected exAround [(0, 5), (2, 100)]) 0 x := hd (0, x) (by simp)
    rw [this.unique exAround_wf exAround_zero]
    exact fun _ => Iff.rfl

/-- The example with its variables numbered from 100. -/
def exHundred : Workflow Int where
  blocks := exAround.blocks.map fun b => { b with inputs := b.inputs.map (100 + ·), outputs := b.outputs.map (100 + ·) }
  pipes := exAround.pipes.map fun p => { p with input := 100 + p.input, output := 100 + p.output }
  output := some 107
  default v := exAround.default (v - 100)
  lockFlag v := exAround.lockFlag (v - 100)

example (so so' : SetOrder) (x z y : Int) : GivesResult exAround so [(0, x), (2, z)] y ↔ GivesResult exHundred so' [(0, x), (2, z)] y :=
  C188_renamed (ρ := fun v => 100 + v) (fun a b h => by simpa using h) ⟨rfl, rfl, rfl, fun v => by simp [exHundred], fun v => by simp [exHundred]⟩ exAround_wf exAround_locks
    (fun v hv => by simp [exHundred, exAround] at hv) exAround_out _ so so' y

/-- They do give a result. -/
example : (match run exHundred dedupOrder [(0, 5), (2, 100)], run exConstant dedupOrder [(0, 5), (2, 100)], run (cutPipe exAround ⟨1, 2, false⟩) dedupOrder [(0, 5), (1, 6), (3, 100)] with
    | .ok (some s), .ok (some t), .ok (some u) => [s.outputValue, t.outputValue, u.outputValue]
    | _, _, _ => []) = [some 132, some 132, some 132] := by decide +kernel

end DC.Wkf
