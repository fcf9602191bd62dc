import Verif.Workflow.Props
import Verif.Workflow.Form
/-
Properties C174, C175 and C176: what the result of a run depends on.
-/
namespace DC.Wkf

variable {α : Type}

/-! ### Specification -/

/-- The output needs the variable `v`: it is the output, or is piped to a variable it needs, or is an input of a block which computes one. -/
inductive DependsOn (W : Workflow α) : Nat → Prop where
  | output {o : Nat} : W.output = some o → DependsOn W o
  | pipe {p : Pipe} : p ∈ W.pipes → DependsOn W p.output → DependsOn W p.input
  | block {b : Block α} {i o : Nat} : b ∈ W.blocks → o ∈ b.outputs → DependsOn W o → i ∈ b.inputs → DependsOn W i

/-- The value with which a run starts in the input `v`: its default value if it is locked, otherwise the one given by the user, or else its default value. -/
def givenTo (W : Workflow α) (user : List (Nat × α)) (v : Nat) : Option α :=
  if W.lockFlag v then W.default v else match user.lookup ((inputs W).idxOf v) with
    | some x => some x
    | none => W.default v

/-- A run can start: the indices given are those of inputs, and each input has a value. -/
structure GivenSame (W : Workflow α) (user : List (Nat × α)) : Prop where
  range : ∀ kx ∈ user, kx.1 < (inputs W).length
  value : ∀ v ∈ inputs W, (givenTo W user v).isSome

/-- The part of `W` which its output needs is in `W'`, and the inputs in it are inputs of `W'` with the same values. -/
structure SamePart (W : Workflow α) (user : List (Nat × α)) (W' : Workflow α) (user' : List (Nat × α)) : Prop where
  output : W'.output = W.output
  block : ∀ b ∈ W.blocks, ∀ o ∈ b.outputs, DependsOn W o → b ∈ W'.blocks
  pipe : ∀ p ∈ W.pipes, DependsOn W p.output → ∃ q ∈ W'.pipes, q.input = p.input ∧ q.output = p.output
  input : ∀ v ∈ inputs W, DependsOn W v → v ∈ inputs W' ∧ givenTo W' user' v = givenTo W user v

/-- The two runs succeed together, with the same result. -/
def SameResult (r r' : Except PyErr (Option (St α))) : Prop :=
  (∀ s, r = .ok (some s) → ∃ t, r' = .ok (some t) ∧ t.outputValue = s.outputValue) ∧
  ∀ t, r' = .ok (some t) → ∃ s, r = .ok (some s) ∧ t.outputValue = s.outputValue

/-! ### Lemmas -/

theorem expected_given {W : Workflow α} (hw : WellFormed W) (user : List (Nat × α)) {k v : Nat} (hk : (inputs W)[k]? = some v) :
    expected W user k = givenTo W user v := by
  have := idxOf_of_nodup (inputs_nodup hw.distinct) hk
  simp only [expected, hk, givenTo, this]
  split
  · rfl
  · cases user.lookup k <;> rfl

theorem needs_leads {W : Workflow α} {i : Nat} (h : Leads W i) : ∀ b, W.blocks[i]? = some b → ∃ o ∈ b.outputs, DependsOn W o := by
  induction h with
  | output ho =>
    intro b hb
    obtain ⟨c, o, hc, h1, h2⟩ := ho
    rw [hb] at hc
    cases hc
    exact ⟨o, h2, .output h1⟩
  | @feeds i j _ hf ih =>
    intro c hc
    obtain ⟨b, c', p, hb, hc', hp, h1, h2⟩ := hf
    rw [hc] at hc'
    cases hc'
    obtain ⟨o, ho, hn⟩ := ih b hb
    exact ⟨p.input, h2, .pipe hp (.block (List.mem_of_getElem? hb) ho hn h1)⟩

theorem needs_input {W : Workflow α} {i : Nat} (h : Leads W i) {b : Block α} (hb : W.blocks[i]? = some b) {v : Nat} (hv : v ∈ b.inputs) : DependsOn W v := by
  obtain ⟨o, ho, hn⟩ := needs_leads h b hb
  exact .block (List.mem_of_getElem? hb) ho hn hv

theorem out_block {W : Workflow α} (hw : WellFormed W) {b c : Block α} {v : Nat} (hb : b ∈ W.blocks) (hc : c ∈ W.blocks) (h1 : v ∈ b.outputs)
    (h2 : v ∈ c.outputs) : b = c := by
  obtain ⟨i, hi⟩ := List.getElem?_of_mem hb
  obtain ⟨j, hj⟩ := List.getElem?_of_mem hc
  have e := out_unique hw.distinct hi hj h1 h2
  subst e
  rw [hi] at hj
  exact Option.some.inj hj

theorem output_single {W : Workflow α} (hw : WellFormed W) {p q : Pipe} (hp : p ∈ W.pipes) (hq : q ∈ W.pipes) (h : p.output = q.output) : p = q :=
  List.inj_on_of_nodup_map hw.single hp hq h

/-- What a variable must hold in the part which the output needs, it must hold in the other workflow. -/
theorem SamePart.den {W W' : Workflow α} {user user' : List (Nat × α)} (h : SamePart W user W' user') (hw : WellFormed W) (hw' : WellFormed W') {v : Nat} {x : α}
    (hd : Den W (expected W user) v x) : DependsOn W v → Den W' (expected W' user') v x := by
  induction hd with
  | @input k v x hk hx =>
    intro hn
    obtain ⟨h1, h2⟩ := h.input v (List.mem_of_getElem? hk) hn
    obtain ⟨k', hk'⟩ := List.getElem?_of_mem h1
    refine .input hk' ?_
    rw [expected_given hw' user' hk', h2, ← expected_given hw user hk, hx]
  | @pipe p x hp _ ih =>
    intro hn
    obtain ⟨q, hq, e1, e2⟩ := h.pipe p hp hn
    rw [← e2]
    exact .pipe hq (by rw [e1]; exact ih (.pipe hp hn))
  | @block b xs ys o y hb hl _ hev ho ih =>
    intro hn
    have hom := (List.of_mem_zip ho).1
    exact .block (h.block b hb o hom hn) hl (fun vx hvx => ih vx hvx (.block hb hom hn (List.of_mem_zip hvx).1)) hev ho

/-- What leads to the output in the other workflow is in the part. -/
theorem SamePart.leads {W W' : Workflow α} {user user' : List (Nat × α)} (h : SamePart W user W' user') (hw : WellFormed W) (hw' : WellFormed W')
    {o : Nat} (ho : OutputOf W o) {i' : Nat} (hi : Leads W' i') :
    ∃ (i : Nat) (b : Block α), Leads W i ∧ W.blocks[i]? = some b ∧ W'.blocks[i']? = some b := by
  induction hi with
  | @output i' hi' =>
    obtain ⟨b, v, hb, hv, hvb⟩ := ho
    obtain ⟨b', v', hb', hv', hvb'⟩ := hi'
    rw [h.output, hv] at hv'
    cases hv'
    have := out_block hw' (h.block b (List.mem_of_getElem? hb) v hvb (.output hv)) (List.mem_of_getElem? hb') hvb hvb'
    subst this
    exact ⟨o, b, .output ⟨b, v, hb, hv, hvb⟩, hb, hb'⟩
  | @feeds i' j' _ hf ih =>
    obtain ⟨i, b, hl, hb, hb'⟩ := ih
    obtain ⟨b1, c, p', hb1, hc, hp', h1, h2⟩ := hf
    rw [hb'] at hb1
    cases hb1
    have hbm := List.mem_of_getElem? hb
    have hn := needs_input hl hb h1
    have hfed : ∃ p ∈ W.pipes, p.output = p'.output := by
      by_contra hcon
      push Not at hcon
      have hin := free_input hw.distinct hbm h1 hcon
      exact hw'.input_free (h.input _ hin hn).1 p' hp' rfl
    obtain ⟨p, hp, hpo⟩ := hfed
    obtain ⟨q, hq, e1, e2⟩ := h.pipe p hp (hpo ▸ hn)
    have hqp := output_single hw' hq hp' (e2.trans hpo)
    subst hqp
    have hnp : DependsOn W p.input := .pipe hp (hpo ▸ hn)
    have hsrc : ∃ c0 ∈ W.blocks, p.input ∈ c0.outputs := by
      by_contra hcon
      push Not at hcon
      have hin : p.input ∈ inputs W := by
        rw [mem_inputs]
        refine ⟨mem_allVariables.2 (.inr ⟨p, hp, .inl rfl⟩), hcon, fun r hr e => ?_⟩
        obtain ⟨d, hd, hdi⟩ := hw.target r hr
        exact absurd (e ▸ hdi) (hw.source p hp d hd)
      exact (mem_inputs.1 (h.input _ hin hnp).1).2.1 c (List.mem_of_getElem? hc) (e1 ▸ h2)
    obtain ⟨c0, hc0, hc0o⟩ := hsrc
    have hcc := out_block hw' (h.block c0 hc0 _ hc0o hnp) (List.mem_of_getElem? hc) hc0o (e1 ▸ h2)
    subst hcc
    obtain ⟨j, hj⟩ := List.getElem?_of_mem hc0
    exact ⟨j, c0, .feeds hl ⟨b, c0, p, hb, hj, hp, hpo ▸ h1, hc0o⟩, hj, hc⟩

/-- In a run which succeeds, the blocks which lead to the output were evaluated on what their inputs must hold. -/
theorem run_leading {W : Workflow α} (hw : WellFormed W) (hl : LocksOk W) {o : Nat} (ho : OutputOf W o) {so : SetOrder} {user : List (Nat × α)} {s : St α}
    (h : run W so user = .ok (some s)) {i : Nat} (hi : Leads W i) : s.actBlock i = true ∧ ∃ b xs ys, W.blocks[i]? = some b ∧ xs.length = b.inputs.length ∧
      (∀ vx ∈ b.inputs.zip xs, Den W (expected W user) vx.1 vx.2) ∧ b.eval xs = .ok ys ∧ (∀ v ∈ b.inputs, s.actVar v = true) ∧
      ∀ oy ∈ b.outputs.zip ys, s.actVar oy.1 = true := by
  have hg := (run_reached h).good hw
  have ha : s.actBlock i = true := by
    obtain ⟨vals, s0, s1, rt, h1, h2, h3, h4, s', h5, h6, h7⟩ := run_ok h
    cases h7
    obtain ⟨rt', hrt', -, hm'⟩ := runtimeBlocks_spec hw hl so ho
    rw [h4] at hrt'
    cases hrt'
    exact (progress_one (runtimeBlocks_ne h4)).1 h6 i ((hm' i).2 hi)
  exact ⟨ha, hg.blk i ha⟩

theorem den_same {W : Workflow α} {V : Nat → Option α} (hw : WellFormed W) {l : List Nat} {xs ys : List α} (hx : xs.length = l.length) (hy : ys.length = l.length)
    (h1 : ∀ vx ∈ l.zip xs, Den W V vx.1 vx.2) (h2 : ∀ vx ∈ l.zip ys, Den W V vx.1 vx.2) : xs = ys := by
  apply List.ext_getElem (by omega)
  intro n g1 g2
  have hn : n < l.length := by omega
  refine (h1 (l[n], xs[n]) ?_).unique hw (h2 (l[n], ys[n]) ?_)
  · exact List.mem_of_getElem? (List.getElem?_zip_eq_some.2 ⟨by simp [hn], by simp⟩ : _ = some _) (i := n)
  · exact List.mem_of_getElem? (List.getElem?_zip_eq_some.2 ⟨by simp [hn], by simp⟩ : _ = some _) (i := n)

/-- The result of a run which succeeds is what the output must hold. -/
theorem run_output {W : Workflow α} (hw : WellFormed W) (hl : LocksOk W) {i : Nat} (ho : OutputOf W i) {so : SetOrder} {user : List (Nat × α)} {s : St α}
    (h : run W so user = .ok (some s)) {o : Nat} (hout : W.output = some o) (x : α) : s.outputValue = some x ↔ Den W (expected W user) o x := by
  have hg := (run_reached h).good hw
  constructor
  · intro hx
    obtain ⟨o', ho', hd⟩ := hg.out x hx
    rw [hout] at ho'
    cases ho'
    exact hd
  · intro hd
    obtain ⟨-, b, xs, ys, hb, hlen, hden, hev, -, hact⟩ := run_leading hw hl ho h (.output ho)
    obtain ⟨b', o', hb', ho', hbo⟩ := ho
    rw [hb] at hb'
    cases hb'
    rw [hout] at ho'
    cases ho'
    have hbm := List.mem_of_getElem? hb
    have hz : ∃ y, (o, y) ∈ b.outputs.zip ys := by
      cases hd with
      | input hk _ => exact absurd hbo ((mem_inputs.1 (List.mem_of_getElem? hk)).2.1 b hbm)
      | pipe hp _ =>
        obtain ⟨c, hc, hin⟩ := hw.target _ hp
        exact (in_ne_out hw.distinct hc hbm hin hbo).elim
      | @block c xs' ys' _ _ hc hl' hd' hev' hz' =>
        have := out_block hw hc hbm (List.of_mem_zip hz').1 hbo
        subst this
        have := den_same hw hl' hlen hd' hden
        subst this
        rw [hev] at hev'
        cases hev'
        exact ⟨_, hz'⟩
    obtain ⟨y, hy⟩ := hz
    obtain ⟨x', hx', -, -, h3⟩ := hg.var o (hact _ hy)
    rw [h3 o hout .refl, hx'.unique hw hd]

/-- Along a common part, a run succeeds if the other one does, with the same result. -/
theorem SamePart.run {W W' : Workflow α} {user user' : List (Nat × α)} (h : SamePart W user W' user') (hw : WellFormed W) (hl : LocksOk W) (hw' : WellFormed W')
    (hl' : LocksOk W') {o : Nat} (ho : OutputOf W o) (hu : GivenSame W' user') {so : SetOrder} (so' : SetOrder) {s : St α} (hr : run W so user = .ok (some s)) :
    ∃ t, run W' so' user' = .ok (some t) ∧ t.outputValue = s.outputValue := by
  have ho' : ∃ o', OutputOf W' o' := by
    obtain ⟨b, v, hb, hv, hvb⟩ := ho
    obtain ⟨j, hj⟩ := List.getElem?_of_mem (h.block b (List.mem_of_getElem? hb) v hvb (.output hv))
    exact ⟨j, b, v, hj, h.output.trans hv, hvb⟩
  obtain ⟨o', ho'⟩ := ho'
  have hblk : ∀ i', Leads W' i' → ∀ b, W'.blocks[i']? = some b → ∃ xs ys, xs.length = b.inputs.length ∧
      (∀ vx ∈ b.inputs.zip xs, Den W (expected W user) vx.1 vx.2 ∧ Den W' (expected W' user') vx.1 vx.2) ∧ b.eval xs = .ok ys ∧ b ∈ W.blocks ∧
      ∀ v ∈ b.inputs, ∃ x, Den W' (expected W' user') v x := by
    intro i' hi' b hb
    obtain ⟨i, b', hi, hb1, hb2⟩ := h.leads hw hw' ho hi'
    rw [hb] at hb2
    cases hb2
    obtain ⟨-, b', xs, ys, e1, e2, e3, e4, e5, -⟩ := run_leading hw hl ho hr hi
    rw [hb1] at e1
    cases e1
    refine ⟨xs, ys, e2, fun vx hvx => ⟨e3 vx hvx, h.den hw hw' (e3 vx hvx) (needs_input hi hb1 (List.of_mem_zip hvx).1)⟩, e4, List.mem_of_getElem? hb1, fun v hv => ?_⟩
    obtain ⟨x, hx, -⟩ := ((run_reached hr).good hw).var v (e5 v hv)
    exact ⟨x, h.den hw hw' hx (needs_input hi hb1 hv)⟩
  obtain ⟨t, ht⟩ := run_completes hw' hl' ho' so' user' hu.range
    (fun k hk => by
      have hk' : (inputs W')[k]? = some (inputs W')[k] := by simp [hk]
      rw [expected_given hw' user' hk']
      exact hu.value _ (List.getElem_mem hk))
    (fun i hi b xs hb hx hd => by
      obtain ⟨xs', ys, e1, e2, e3, -⟩ := hblk i hi b hb
      rw [den_same hw' hx e1 hd fun vx hvx => (e2 vx hvx).2]
      exact ⟨ys, e3⟩)
    (fun i hi b hb v hv => by
      obtain ⟨_, _, _, _, _, _, e⟩ := hblk i hi b hb
      exact e v hv)
  refine ⟨t, ht, ?_⟩
  obtain ⟨b, v, hb, hv, hvb⟩ := id ho
  have hv' : W'.output = some v := h.output.trans hv
  have e1 := run_output hw hl ho hr hv
  have e2 := run_output hw' hl' ho' ht hv'
  have key : ∀ x, Den W (expected W user) v x ↔ Den W' (expected W' user') v x := by
    refine fun x => ⟨fun hd => h.den hw hw' hd (.output hv), fun hd => ?_⟩
    cases hs : s.outputValue with
    | some y =>
      have := (h.den hw hw' ((e1 y).1 hs) (.output hv)).unique hw' hd
      subst this
      exact (e1 y).1 hs
    | none =>
      obtain ⟨c, v', hc, hv2, hcv⟩ := id ho'
      rw [hv'] at hv2
      cases hv2
      obtain ⟨xs, ys, f1, f2, f3, f4, -⟩ := hblk o' (.output ho') c hc
      have hcm := List.mem_of_getElem? hc
      cases hd with
      | input hk _ => exact absurd hcv ((mem_inputs.1 (List.mem_of_getElem? hk)).2.1 c hcm)
      | pipe hp _ =>
        obtain ⟨d, hd, hin⟩ := hw'.target _ hp
        exact (in_ne_out hw'.distinct hd hcm hin hcv).elim
      | @block d xs' ys' _ _ hd hl2 hd' hev' hz' =>
        have := out_block hw' hd hcm (List.of_mem_zip hz').1 hcv
        subst this
        have := den_same hw' hl2 f1 hd' fun vx hvx => (f2 vx hvx).2
        subst this
        exact .block f4 f1 (fun vx hvx => (f2 vx hvx).1) hev' hz'
  apply Option.ext
  intro x
  rw [e1 x, e2 x]
  exact (key x).symm

/-- A run which succeeds was given what it needs. -/
theorem run_given {W : Workflow α} (hw : WellFormed W) {so : SetOrder} {user : List (Nat × α)} {s : St α} (h : run W so user = .ok (some s)) : GivenSame W user := by
  obtain ⟨vals, s0, s1, rt, h1, h2, h3, -, -⟩ := run_ok h
  refine ⟨?_, fun v hv => ?_⟩
  · unfold inputValues at h1
    rw [bind_ok] at h1
    obtain ⟨a, ha, -⟩ := h1
    clear * - ha
    induction user generalizing a with
    | nil => simp
    | cons kx user ih =>
      obtain ⟨k, x⟩ := kx
      rw [allowedValues] at ha
      cases hk : (inputs W)[k]? with
      | none => rw [hk] at ha; simp at ha
      | some v =>
        rw [hk] at ha
        simp only [bind_ok] at ha
        obtain ⟨l, -, r, hr, -⟩ := ha
        intro kx hkx
        rcases List.mem_cons.1 hkx with rfl | hkx
        · exact (List.getElem?_eq_some_iff.1 hk).1
        · exact ih r hr kx hkx
  · obtain ⟨k, hk⟩ := List.getElem?_of_mem hv
    obtain ⟨hg, ha⟩ := (startRun_good hw h1 h2).activateInputs hw h3
    obtain ⟨x, hx⟩ := hg.fedIn k v hk (ha k v hk (.inr rfl))
    rw [← expected_given hw user hk, hg.iv k v x hk (by rw [hx]; rfl)]
    rfl

/-- With a common part in both directions, the runs have the same result. -/
theorem SamePart.same {W W' : Workflow α} {user user' : List (Nat × α)} (h : SamePart W user W' user') (h' : SamePart W' user' W user) (hw : WellFormed W) (hl : LocksOk W)
    (hw' : WellFormed W') (hl' : LocksOk W') {o o' : Nat} (ho : OutputOf W o) (ho' : OutputOf W' o') (hu : GivenSame W user) (hu' : GivenSame W' user') (so so' : SetOrder) :
    SameResult (Wkf.run W so user) (Wkf.run W' so' user') :=
  ⟨fun _ hr => h.run hw hl hw' hl' ho hu' so' hr, fun _ hr => by
    obtain ⟨s, hs, e⟩ := h'.run hw' hl' hw hl ho' hu so hr
    exact ⟨s, hs, e.symm⟩⟩

/-! ### C174 -/

/-- The result of a run depends only on the blocks, the pipes and the values which the output needs: when another workflow has them, and its inputs have values, its run succeeds
as well, for every order of its sets, with the same result. -/
theorem C174_part {W W' : Workflow α} {user user' : List (Nat × α)} (h : SamePart W user W' user') (hw : WellFormed W) (hl : LocksOk W) (hw' : WellFormed W')
    (hl' : LocksOk W') {o : Nat} (ho : OutputOf W o) (hu : GivenSame W' user') {so : SetOrder} (so' : SetOrder) {s : St α} (hr : run W so user = .ok (some s)) :
    ∃ t, run W' so' user' = .ok (some t) ∧ t.outputValue = s.outputValue := h.run hw hl hw' hl' ho hu so' hr

/-- The values given to the inputs which the output does not need do not matter. -/
theorem C174_inputs {W : Workflow α} {user user' : List (Nat × α)} (hw : WellFormed W) (hl : LocksOk W) {o : Nat} (ho : OutputOf W o) (hu : GivenSame W user) (hu' : GivenSame W user')
    (h : ∀ v ∈ inputs W, DependsOn W v → givenTo W user v = givenTo W user' v) (so so' : SetOrder) : SameResult (run W so user) (run W so' user') :=
  SamePart.same ⟨rfl, fun _ hb _ _ _ => hb, fun p hp _ => ⟨p, hp, rfl, rfl⟩, fun v hv hn => ⟨hv, (h v hv hn).symm⟩⟩
    ⟨rfl, fun _ hb _ _ _ => hb, fun p hp _ => ⟨p, hp, rfl, rfl⟩, fun v hv hn => ⟨hv, h v hv hn⟩⟩ hw hl hw hl ho ho hu hu' so so'

/-- The workflow with more blocks and pipes. -/
def addBlocks (W : Workflow α) (bs : List (Block α)) (ps : List Pipe) : Workflow α := { W with blocks := W.blocks ++ bs, pipes := W.pipes ++ ps }

theorem needs_added {W : Workflow α} {bs : List (Block α)} {ps : List Pipe} {i : Nat} (ho : OutputOf W i)
    (hb : ∀ b ∈ bs, ∀ v ∈ b.outputs, v ∉ allVariables W) (hp : ∀ p ∈ ps, p.output ∉ allVariables W) {v : Nat} (h : DependsOn (addBlocks W bs ps) v) : DependsOn W v ∧ v ∈ allVariables W := by
  induction h with
  | output h =>
    refine ⟨.output h, mem_allVariables.2 (.inl ?_)⟩
    obtain ⟨b, o', hb', ho', hv⟩ := ho
    have e : some _ = some _ := ho'.symm.trans h
    cases e
    exact mem_blockVars.2 ⟨b, List.mem_of_getElem? hb', .inr hv⟩
  | @pipe p hpm _ ih =>
    rcases List.mem_append.1 hpm with hpm | hpm
    · exact ⟨.pipe hpm ih.1, mem_allVariables.2 (.inr ⟨p, hpm, .inl rfl⟩)⟩
    · exact absurd ih.2 (hp p hpm)
  | @block b i o hbm hom _ him ih =>
    rcases List.mem_append.1 hbm with hbm | hbm
    · exact ⟨.block hbm hom ih.1 him, mem_allVariables.2 (.inl (mem_blockVars.2 ⟨b, hbm, .inl him⟩))⟩
    · exact absurd ih.2 (hb b hbm o hom)

/-- Adding blocks which do not feed the existing ones, and giving values to their inputs, changes no result. -/
theorem C174_extra {W : Workflow α} {bs : List (Block α)} {ps : List Pipe} (hw : WellFormed W) (hl : LocksOk W) (hw' : WellFormed (addBlocks W bs ps)) {o : Nat} (ho : OutputOf W o)
    (hb : ∀ b ∈ bs, ∀ v ∈ b.outputs, v ∉ allVariables W) (hp : ∀ p ∈ ps, p.output ∉ allVariables W) {user user' : List (Nat × α)} (hu : GivenSame W user)
    (hu' : GivenSame (addBlocks W bs ps) user') (h : ∀ v ∈ inputs W, givenTo (addBlocks W bs ps) user' v = givenTo W user v) (so so' : SetOrder) :
    SameResult (run W so user) (run (addBlocks W bs ps) so' user') := by
  have hin : ∀ v ∈ allVariables W, v ∈ inputs (addBlocks W bs ps) ↔ v ∈ inputs W := by
    intro v hv
    have hv' : v ∈ allVariables (addBlocks W bs ps) := by
      rcases mem_allVariables.1 hv with hv | ⟨p, hp, hv⟩
      · obtain ⟨b, hb, hv⟩ := mem_blockVars.1 hv
        exact mem_allVariables.2 (.inl (mem_blockVars.2 ⟨b, List.mem_append_left _ hb, hv⟩))
      · exact mem_allVariables.2 (.inr ⟨p, List.mem_append_left _ hp, hv⟩)
    simp only [mem_inputs, hv, hv', true_and]
    constructor
    · rintro ⟨h1, h2⟩
      exact ⟨fun b hb => h1 b (List.mem_append_left _ hb), fun p hp => h2 p (List.mem_append_left _ hp)⟩
    · rintro ⟨h1, h2⟩
      refine ⟨fun b hbm => ?_, fun p hpm => ?_⟩
      · rcases List.mem_append.1 hbm with hbm | hbm
        · exact h1 b hbm
        · exact fun hvb => hb b hbm v hvb hv
      · rcases List.mem_append.1 hpm with hpm | hpm
        · exact h2 p hpm
        · intro e
          exact absurd hv (e ▸ hp p hpm)
  have ho' : OutputOf (addBlocks W bs ps) o := by
    obtain ⟨b, v, h1, h2, h3⟩ := ho
    exact ⟨b, v, List.getElem?_append_left (List.getElem?_eq_some_iff.1 h1).1 |>.trans h1, h2, h3⟩
  refine SamePart.same (W := W) (W' := addBlocks W bs ps) ⟨rfl, fun b hb _ _ _ => List.mem_append_left _ hb, fun p hp _ => ⟨p, List.mem_append_left _ hp, rfl, rfl⟩, fun v hv _ => ?_⟩
    ⟨rfl, fun b hbm v hv hn => ?_, fun p hpm hn => ?_, fun v hv hn => ?_⟩ hw hl hw' hl ho ho' hu hu' so so'
  · exact ⟨(hin v (mem_inputs.1 hv).1).2 hv, h v hv⟩
  · rcases List.mem_append.1 hbm with hbm | hbm
    · exact hbm
    · exact absurd (needs_added ho hb hp hn).2 (hb b hbm v hv)
  · rcases List.mem_append.1 hpm with hpm | hpm
    · exact ⟨p, hpm, rfl, rfl⟩
    · exact absurd (needs_added ho hb hp hn).2 (hp p hpm)
  · have hv' := (hin v (needs_added ho hb hp hn).2).1 hv
    exact ⟨hv', (h v hv').symm⟩

/-! ### C175 -/

/-- The workflow with its blocks and pipes in another order. -/
structure Reordered (W W' : Workflow α) : Prop where
  blocks : W'.blocks.Perm W.blocks
  pipes : W'.pipes.Perm W.pipes
  output : W'.output = W.output
  default : W'.default = W.default
  lockFlag : W'.lockFlag = W.lockFlag

theorem Reordered.wellFormed {W W' : Workflow α} (h : Reordered W W') (hw : WellFormed W) : WellFormed W' where
  distinct := (h.blocks.flatMap_right _).nodup_iff.2 hw.distinct
  single := (h.pipes.map _).nodup_iff.2 hw.single
  target p hp := by
    obtain ⟨b, hb, hv⟩ := hw.target p (h.pipes.mem_iff.1 hp)
    exact ⟨b, h.blocks.mem_iff.2 hb, hv⟩
  source p hp b hb := hw.source p (h.pipes.mem_iff.1 hp) b (h.blocks.mem_iff.1 hb)
  acyclic := by
    obtain ⟨rank, h1, h2⟩ := hw.acyclic
    exact ⟨rank, fun p hp => h1 p (h.pipes.mem_iff.1 hp), fun b hb => h2 b (h.blocks.mem_iff.1 hb)⟩

theorem Reordered.mem_inputs {W W' : Workflow α} (h : Reordered W W') (v : Nat) : v ∈ inputs W' ↔ v ∈ inputs W := by
  simp only [Wkf.mem_inputs, mem_allVariables, mem_blockVars, h.blocks.mem_iff, h.pipes.mem_iff]

theorem Reordered.symm {W W' : Workflow α} (h : Reordered W W') : Reordered W' W :=
  ⟨h.blocks.symm, h.pipes.symm, h.output.symm, h.default.symm, h.lockFlag.symm⟩

theorem Reordered.part {W W' : Workflow α} (h : Reordered W W') {user user' : List (Nat × α)} (hg : ∀ v ∈ inputs W, givenTo W' user' v = givenTo W user v) :
    SamePart W user W' user' :=
  ⟨h.output, fun _ hb _ _ _ => h.blocks.mem_iff.2 hb, fun p hp _ => ⟨p, h.pipes.mem_iff.2 hp, rfl, rfl⟩, fun v hv _ => ⟨(h.mem_inputs v).2 hv, hg v hv⟩⟩

theorem Reordered.outputOf {W W' : Workflow α} (h : Reordered W W') {o : Nat} (ho : OutputOf W o) : ∃ o', OutputOf W' o' := by
  obtain ⟨b, v, hb, hv, hvb⟩ := ho
  obtain ⟨j, hj⟩ := List.getElem?_of_mem (h.blocks.mem_iff.2 (List.mem_of_getElem? hb))
  exact ⟨j, b, v, hj, h.output.trans hv, hvb⟩

/-- The order in which the blocks and the pipes of a workflow are listed, and that in which its input values are given, do not matter: with the same value for each input, the runs
succeed together with the same result. -/
theorem C175_order {W W' : Workflow α} (h : Reordered W W') (hw : WellFormed W) (hl : LocksOk W) {o : Nat} (ho : OutputOf W o) {user user' : List (Nat × α)}
    (hk : (∀ kx ∈ user, kx.1 < (inputs W).length) ∧ ∀ kx ∈ user', kx.1 < (inputs W').length)
    (hg : ∀ v ∈ inputs W, givenTo W' user' v = givenTo W user v) (so so' : SetOrder) : SameResult (run W so user) (run W' so' user') := by
  have hw' := h.wellFormed hw
  have hl' : LocksOk W' := fun v hv => by rw [h.default]; exact hl v (h.lockFlag ▸ hv)
  obtain ⟨o', ho'⟩ := h.outputOf ho
  refine ⟨fun s hr => ?_, fun t hr => ?_⟩
  · have hu := run_given hw hr
    exact (h.part hg).run hw hl hw' hl' ho ⟨hk.2, fun v hv => by rw [hg v ((h.mem_inputs v).1 hv)]; exact hu.value v ((h.mem_inputs v).1 hv)⟩ so' hr
  · have hu := run_given hw' hr
    obtain ⟨s, hs, e⟩ := (h.symm.part fun v hv => (hg v ((h.mem_inputs v).1 hv)).symm).run hw' hl' hw hl ho'
      ⟨hk.1, fun v hv => by rw [← hg v hv]; exact hu.value v ((h.mem_inputs v).2 hv)⟩ so hr
    exact ⟨s, hs, e.symm⟩

/-- The order in which the values are given does not matter. -/
theorem C175_given {W : Workflow α} (hw : WellFormed W) (hl : LocksOk W) {o : Nat} (ho : OutputOf W o) {user user' : List (Nat × α)} (hn : (user.map (·.1)).Nodup)
    (hp : user'.Perm user) (so so' : SetOrder) : SameResult (run W so user) (run W so' user') := by
  have hlook : ∀ k, user'.lookup k = user.lookup k := by
    intro k
    have hn' := (hp.map (·.1)).nodup_iff.2 hn
    have key : ∀ {l : List (Nat × α)}, (l.map (·.1)).Nodup → ∀ x, l.lookup k = some x ↔ (k, x) ∈ l := by
      intro l
      induction l with
      | nil => simp
      | cons a l ih =>
        obtain ⟨j, y⟩ := a
        intro hl x
        simp only [List.map_cons, List.nodup_cons] at hl
        rw [List.lookup_cons]
        by_cases e : k = j
        · subst e
          have : (k, x) ∉ l := fun hm => hl.1 (List.mem_map_of_mem (f := (·.1)) hm)
          simp [this, eq_comm]
        · have e' : (k == j) = false := by simpa using e
          simp only [e', ih hl.2, List.mem_cons, Prod.mk.injEq, e, false_and, false_or]
    apply Option.ext
    intro x
    rw [key hn', key hn, hp.mem_iff]
  have hg : ∀ v, givenTo W user' v = givenTo W user v := fun v => by simp only [givenTo, hlook]
  refine ⟨fun s hr => ?_, fun t hr => ?_⟩
  · have hu := run_given hw hr
    exact SamePart.run (W := W) (user := user) (W' := W) (user' := user')
      ⟨rfl, fun _ hb _ _ _ => hb, fun p hp _ => ⟨p, hp, rfl, rfl⟩, fun v hv _ => ⟨hv, hg v⟩⟩ hw hl hw hl ho
      ⟨fun kx hkx => hu.range kx (hp.mem_iff.1 hkx), fun v hv => by rw [hg]; exact hu.value v hv⟩ so' hr
  · have hu := run_given hw hr
    obtain ⟨s, hs, e⟩ := SamePart.run (W := W) (user := user') (W' := W) (user' := user)
      ⟨rfl, fun _ hb _ _ _ => hb, fun p hp _ => ⟨p, hp, rfl, rfl⟩, fun v hv _ => ⟨hv, (hg v).symm⟩⟩ hw hl hw hl ho
      ⟨fun kx hkx => hu.range kx (hp.mem_iff.2 hkx), fun v hv => by rw [← hg]; exact hu.value v hv⟩ so hr
    exact ⟨s, hs, e.symm⟩

/-! ### C176 -/

theorem revalued_same {W W' : Workflow α} (hb : W'.blocks = W.blocks) (hp : W'.pipes = W.pipes) (hout : W'.output = W.output) (hw : WellFormed W) (hl : LocksOk W) (hl' : LocksOk W')
    {o : Nat} (ho : OutputOf W o) {user user' : List (Nat × α)}
    (hk : (∀ kx ∈ user, kx.1 < (inputs W).length) ↔ ∀ kx ∈ user', kx.1 < (inputs W).length) (hg : ∀ v ∈ inputs W, givenTo W' user' v = givenTo W user v) (so so' : SetOrder) :
    SameResult (run W so user) (run W' so' user') := by
  have hin : inputs W' = inputs W := by simp only [inputs, allVariables, varsAndNbvs, blockVars, hasAncestor, hb, hp]
  have hw' : WellFormed W' := by
    refine ⟨?_, ?_, ?_, ?_, ?_⟩
    · simpa only [blockVars, hb] using hw.distinct
    · simpa only [hp] using hw.single
    · simpa only [hb, hp] using hw.target
    · simpa only [hb, hp] using hw.source
    · simpa only [hb, hp] using hw.acyclic
  have ho' : OutputOf W' o := by simpa only [OutputOf, hb, hout] using ho
  refine ⟨fun s hr => ?_, fun t hr => ?_⟩
  · have hu := run_given hw hr
    refine SamePart.run (W := W) (user := user) (W' := W') (user' := user') ⟨hout, fun _ h _ _ _ => hb ▸ h, fun p h _ => ⟨p, hp ▸ h, rfl, rfl⟩, fun v hv _ => ⟨hin ▸ hv, hg v hv⟩⟩
      hw hl hw' hl' ho ⟨?_, fun v hv => ?_⟩ so' hr
    · rw [hin]
      exact hk.1 hu.range
    · rw [hin] at hv
      rw [hg v hv]
      exact hu.value v hv
  · have hu := run_given hw' hr
    obtain ⟨s, hs, e⟩ := SamePart.run (W := W') (user := user') (W' := W) (user' := user)
      ⟨hout.symm, fun _ h _ _ _ => hb ▸ h, fun p h _ => ⟨p, hp ▸ h, rfl, rfl⟩, fun v hv _ => ⟨hin ▸ hv, (hg v (hin ▸ hv)).symm⟩⟩
      hw' hl' hw hl ho' ⟨hk.2 (hin ▸ hu.range), fun v hv => by rw [← hg v hv]; exact hu.value v (hin ▸ hv)⟩ so hr
    exact ⟨s, hs, e.symm⟩

theorem given_first {W : Workflow α} {v u : Nat} {x : α} {user : List (Nat × α)} (hu : u ∈ inputs W) (hne : u ≠ v) :
    givenTo W (((inputs W).idxOf v, x) :: user) u = givenTo W user u := by
  have e : ((inputs W).idxOf u == (inputs W).idxOf v) = false := by
    rw [beq_eq_false_iff_ne]
    exact fun h => hne ((List.idxOf_inj hu).1 h)
  simp only [givenTo, List.lookup_cons, e]

/-- Locking an input with a value is the same as giving it this value, whatever else is given, even to this input. -/
theorem C176_lock {W W' : Workflow α} (hw : WellFormed W) (hl : LocksOk W) {o : Nat} (ho : OutputOf W o) {v : Nat} (hv : v ∈ inputs W) (hlock : W.lockFlag v = false) {x : α}
    (h : lockVar W v (some x) = .ok W') (user : List (Nat × α)) (so so' : SetOrder) :
    SameResult (run W so (((inputs W).idxOf v, x) :: user)) (run W' so' user) := by
  simp only [lockVar, Except.ok.injEq] at h
  subst h
  refine revalued_same (W := W) (W' := { W with default := setAt W.default v (some x), lockFlag := setAt W.lockFlag v true }) rfl rfl rfl hw hl (fun u hu => ?_) ho ?_ (fun u hu => ?_) so so'
  · simp only [setAt] at hu ⊢
    split
    · rfl
    · rename_i hne
      rw [if_neg hne] at hu
      exact hl u hu
  · simp [List.idxOf_lt_length_iff, hv]
  · by_cases e : u = v
    · subst e
      simp [givenTo, setAt, hlock]
    · rw [given_first hu e]
      simp only [givenTo, setAt, e, if_false]
      rfl

/-- A default value is the same as giving it, when the user gives none to this input. -/
theorem C176_default {W : Workflow α} (hw : WellFormed W) (hl : LocksOk W) {o : Nat} (ho : OutputOf W o) {v : Nat} (hv : v ∈ inputs W) (hlock : W.lockFlag v = false) (x : α)
    {user : List (Nat × α)} (hn : user.lookup ((inputs W).idxOf v) = none) (so so' : SetOrder) :
    SameResult (run W so (((inputs W).idxOf v, x) :: user)) (run { W with default := setAt W.default v (some x) } so' user) := by
  refine revalued_same (W := W) (W' := { W with default := setAt W.default v (some x) }) rfl rfl rfl hw hl (fun u hu => ?_) ho ?_ (fun u hu => ?_) so so'
  · simp only [setAt]
    split
    · rfl
    · exact hl u hu
  · simp [List.idxOf_lt_length_iff, hv]
  · by_cases e : u = v
    · subst e
      have hn' : List.lookup ((inputs { W with default := setAt W.default u (some x) }).idxOf u) user = none := hn
      simp only [givenTo, hn', hlock]
      simp [setAt]
    · rw [given_first hu e]
      simp only [givenTo, setAt, e, if_false]
      rfl

/-! ### Examples -/

theorem exW_not_needed : ¬ DependsOn exW 6 := by
  have key : ∀ v, DependsOn exW v → v ∈ [4, 3, 2, 0, 1, 10] := by
    intro v h
    induction h with
    | output h =>
      simp only [exW, Option.some.injEq] at h
      subst h
      decide
    | @pipe p hp _ ih =>
      have : ∀ p ∈ exW.pipes, p.output ∈ [4, 3, 2, 0, 1, 10] → p.input ∈ [4, 3, 2, 0, 1, 10] := by decide
      exact this p hp ih
    | @block b i o hb ho _ hi ih =>
      simp only [exW, List.mem_cons, List.not_mem_nil, or_false] at hb
      rcases hb with rfl | rfl | rfl
      · simp at hi; subst hi; decide
      · simp at hi; rcases hi with rfl | rfl <;> decide
      · simp at ho; subst ho; exact absurd ih (by decide)
  exact fun h => absurd (key 6 h) (by decide)

theorem exW_given (n : Int) : GivenSame exW [(1, n), (2, 5)] where
  range := by
    rw [exW_inputs]
    simp
  value := by
    rw [exW_inputs]
    intro v hv
    simp only [List.mem_cons, List.not_mem_nil, or_false] at hv
    rcases hv with rfl | rfl | rfl <;> rfl

/-- The result of the example does not depend on the input of the block which does not lead to the output. -/
example (so so' : SetOrder) : SameResult (run exW so [(1, 1), (2, 5)]) (run exW so' [(1, 100), (2, 5)]) := by
  refine C174_inputs exW_wf exW_locks (o := 0) ⟨_, 4, rfl, rfl, by decide⟩ (exW_given 1) (exW_given 100) (fun v hv hn => ?_) so so'
  rw [exW_inputs] at hv
  simp only [List.mem_cons, List.not_mem_nil, or_false] at hv
  rcases hv with rfl | rfl | rfl
  · rfl
  · exact absurd hn exW_not_needed
  · rfl

/-- The example with its blocks and pipes in another order: its inputs come in another order as well. -/
def exChain0 : Workflow Int := { exW with blocks := exW.blocks.reverse, pipes := exW.pipes.reverse }

theorem exR_reordered : Reordered exW exChain0 := ⟨List.reverse_perm _, List.reverse_perm _, rfl, rfl, rfl⟩

theorem exR_inputs : inputs exChain0 = [6, 0, 10] := by decide

example (so so' : SetOrder) : SameResult (run exW so [(1, 1), (2, 5)]) (run exChain0 so' [(2, 5), (0, 1)]) := by
  refine C175_order exR_reordered exW_wf exW_locks (o := 0) ⟨_, 4, rfl, rfl, by decide⟩ ⟨(exW_given 1).range, ?_⟩ (fun v hv => ?_) so so'
  · rw [exR_inputs]
    simp
  · rw [exW_inputs] at hv
    simp only [List.mem_cons, List.not_mem_nil, or_false] at hv
    rcases hv with rfl | rfl | rfl <;> rfl

/-- Locking the first input of the example with 3 is the same as giving it 3, even when 9 is given to it. -/
example (so so' : SetOrder) : ∃ W, lockVar exW 0 (some 3) = .ok W ∧ SameResult (run exW so [(0, 3), (0, 9), (1, 1), (2, 5)]) (run W so' [(0, 9), (1, 1), (2, 5)]) :=
  ⟨_, rfl, C176_lock (v := 0) exW_wf exW_locks (o := 0) ⟨_, 4, rfl, rfl, by decide⟩ (by rw [exW_inputs]; decide) rfl rfl _ so so'⟩

example (so so' : SetOrder) : SameResult (run exW so [(2, 5), (1, 1)]) (run { exW with default := setAt exW.default 10 (some 5) } so' [(1, 1)]) :=
  C176_default (v := 10) exW_wf exW_locks (o := 0) ⟨_, 4, rfl, rfl, by decide⟩ (by rw [exW_inputs]; decide) rfl 5 rfl so so'

/-- The runs of the example with another order of the blocks do succeed. -/
example : (match run exChain0 dedupOrder [(2, 5), (0, 1)] with
    | .ok (some s) => s.outputValue
    | _ => none) = some 24 := by decide +kernel

/-- The example without its last block, and the example as it grows from it. -/
def exTwins : Workflow Int := { exW with blocks := exW.blocks.take 2, pipes := exW.pipes.take 2 }

theorem exS_inputs : inputs exTwins = [0, 10] := by decide

example (so so' : SetOrder) : SameResult (run exTwins so [(1, 5)]) (run (addBlocks exTwins (exW.blocks.drop 2) (exW.pipes.drop 2)) so' [(1, 1), (2, 5)]) := by
  refine C174_extra (W := exTwins) (bs := exW.blocks.drop 2) (ps := exW.pipes.drop 2) ⟨by decide, by decide, by decide, by decide, exRank, by decide, by decide⟩ (fun _ h => by simp [exTwins, exW] at h) exW_wf (o := 0)
    ⟨_, 4, rfl, rfl, by decide⟩ (by decide) (by decide) ⟨?_, fun v hv => ?_⟩ (exW_given 1) (fun v hv => ?_) so so'
  · rw [exS_inputs]
    simp
  · rw [exS_inputs] at hv
    simp only [List.mem_cons, List.not_mem_nil, or_false] at hv
    rcases hv with rfl | rfl <;> rfl
  · rw [exS_inputs] at hv
    simp only [List.mem_cons, List.not_mem_nil, or_false] at hv
    rcases hv with rfl | rfl <;> rfl

end DC.Wkf
