import Verif.Workflow.LawsProps
/-
Property C186: a workflow used as a block of another one gives what its blocks give in its place.
-/
namespace DC.Wkf

variable {α : Type}

/-! ### Definitions -/

/-- A `WorkflowBlock` of the workflow `I`, with input variables `ins` and output variable `out`: blocks.py 384-395, 416-420.  Simplification: a run
that has no output value, whose output value is None in the code, raises here. -/
def subBlock (I : Workflow α) (so : SetOrder) (ins : List Nat) (out : Nat) : Block α where
  inputs := ins
  outputs := [out]
  eval xs :=
    match run I so ((List.range xs.length).zip xs) with
    | .error e => .error e
    | .ok none => .error .runtimeError
    | .ok (some s) =>
      match s.outputValue with
      | none => .error .runtimeError
      | some y => .ok [y]

/-- The variable of `I` which stands for a variable of the workflow around: the input of `I` for an input of the block, the output of `I` for its output.
(No function of the code: the workflow a user would write instead.) -/
def port (I : Workflow α) (ins : List Nat) (out v : Nat) : Nat :=
  match (ins.zip (inputs I)).lookup v with
  | some u => u
  | none => if v = out then I.output.getD out else v

/-- The workflow with the blocks and pipes of `I` in the place of its block, pipes being plugged to the variables of `I`; the inputs of `I` take the default
values and locks of the inputs of the block. (No function of the code: the workflow a user would write instead.) -/
def unfolded (W I : Workflow α) (pre post : List (Block α)) (ins : List Nat) (out : Nat) : Workflow α where
  blocks := pre ++ I.blocks ++ post
  pipes := W.pipes.map (fun p => { p with input := port I ins out p.input, output := port I ins out p.output }) ++ I.pipes
  output := W.output.map (port I ins out)
  default v := match ((inputs I).zip ins).lookup v with
    | some u => W.default u
    | none => if v ∈ allVariables I then I.default v else W.default v
  lockFlag v := match ((inputs I).zip ins).lookup v with
    | some u => W.lockFlag u
    | none => if v ∈ allVariables I then I.lockFlag v else W.lockFlag v

/-- `W` has a block for the workflow `I`: its blocks are those of `pre`, this one, and those of `post`.  The variables of `I` are its own, its inputs are
inputs of its blocks and none is locked. -/
structure HasSub (W I : Workflow α) (so : SetOrder) (pre post : List (Block α)) (ins : List Nat) (out : Nat) : Prop where
  blocks : W.blocks = pre ++ subBlock I so ins out :: post
  ports : ins.length = (inputs I).length
  outer : WellFormed W ∧ LocksOk W ∧ ∃ i, OutputOf W i
  inner : WellFormed I ∧ LocksOk I ∧ ∃ i, OutputOf I i
  apart : ∀ v ∈ allVariables W, v ∉ allVariables I
  direct : ∀ v ∈ inputs I, ∃ b ∈ I.blocks, v ∈ b.inputs
  unlocked : ∀ v ∈ inputs I, I.lockFlag v = false

/-- The run gives the result `y`. -/
def GivesResult (W : Workflow α) (so : SetOrder) (user : List (Nat × α)) (y : α) : Prop := ∃ s, run W so user = .ok (some s) ∧ s.outputValue = some y

/-! ### Lemmas on workflows -/

theorem den_at {W : Workflow α} {V : Nat → Option α} {l : List Nat} {xs : List α} (h : ∀ vx ∈ l.zip xs, Den W V vx.1 vx.2) {k v : Nat} {x : α}
    (hk : l[k]? = some v) (hx : xs[k]? = some x) : Den W V v x :=
  h (v, x) (List.mem_of_getElem? (List.getElem?_zip_eq_some.2 ⟨hk, hx⟩ : _ = some _) (i := k))

theorem den_choose {W : Workflow α} {V : Nat → Option α} : ∀ {l : List Nat}, (∀ v ∈ l, ∃ x, Den W V v x) →
    ∃ xs : List α, xs.length = l.length ∧ ∀ vx ∈ l.zip xs, Den W V vx.1 vx.2
  | [], _ => ⟨[], rfl, by simp⟩
  | v :: l, h => by
    obtain ⟨x, hx⟩ := h v (.head _)
    obtain ⟨xs, h1, h2⟩ := den_choose fun v hv => h v (.tail _ hv)
    refine ⟨x :: xs, by simp [h1], fun vx hvx => ?_⟩
    rcases List.mem_cons.1 (by simpa using hvx) with rfl | hvx
    · exact hx
    · exact h2 vx hvx

/-- Where the value of an output of a block comes from. -/
theorem den_block {W : Workflow α} {V : Nat → Option α} (hw : WellFormed W) {b : Block α} (hb : b ∈ W.blocks) {o : Nat} (ho : o ∈ b.outputs) {y : α} (h : Den W V o y) :
    ∃ xs ys, xs.length = b.inputs.length ∧ (∀ vx ∈ b.inputs.zip xs, Den W V vx.1 vx.2) ∧ b.eval xs = .ok ys ∧ (o, y) ∈ b.outputs.zip ys := by
  cases h with
  | input hk _ => exact absurd ho ((mem_inputs.1 (List.mem_of_getElem? hk)).2.1 b hb)
  | pipe hp _ =>
    obtain ⟨c, hc, hin⟩ := hw.target _ hp
    exact (in_ne_out hw.distinct hc hb hin ho).elim
  | @block c xs ys _ _ hc hl hd hev hz =>
    have := out_block hw hc hb (List.of_mem_zip hz).1 ho
    subst this
    exact ⟨xs, ys, hl, hd, hev, hz⟩

/-- Where the value of the end of a pipe comes from. -/
theorem den_pipe {W : Workflow α} {V : Nat → Option α} (hw : WellFormed W) {p : Pipe} (hp : p ∈ W.pipes) {y : α} (h : Den W V p.output y) : Den W V p.input y := by
  obtain ⟨d, hd, hdo⟩ := hw.target p hp
  generalize hv : p.output = v at h hdo
  cases h with
  | input hk _ => exact absurd hv (hw.input_free (List.mem_of_getElem? hk) p hp)
  | @pipe q _ hq h =>
    have := output_single hw hp hq hv
    subst this
    exact h
  | @block c _ _ _ _ hc _ _ _ hz => exact (in_ne_out hw.distinct hd hc hdo (List.of_mem_zip hz).1).elim

/-- What the output needs has a value when the output has one. -/
theorem den_needs {W : Workflow α} {V : Nat → Option α} (hw : WellFormed W) {I : Workflow α} (hb : ∀ b ∈ I.blocks, b ∈ W.blocks) (hp : ∀ p ∈ I.pipes, p ∈ W.pipes)
    (ho : ∀ o, I.output = some o → ∃ x, Den W V o x) {v : Nat} (h : DependsOn I v) : ∃ x, Den W V v x := by
  induction h with
  | output h => exact ho _ h
  | pipe hm _ ih =>
    obtain ⟨x, hx⟩ := ih
    exact ⟨x, den_pipe hw (hp _ hm) hx⟩
  | @block b i o hm hbo _ hi ih =>
    obtain ⟨y, hy⟩ := ih
    obtain ⟨xs, ys, h1, h2, -, -⟩ := den_block hw (hb b hm) hbo hy
    obtain ⟨k, hk⟩ := List.getElem?_of_mem hi
    have hlt := (List.getElem?_eq_some_iff.1 hk).1
    exact ⟨xs[k], den_at h2 hk (List.getElem?_eq_getElem (by omega))⟩

theorem bound_exists (f : Nat → Nat) : ∀ l : List Nat, ∃ N, ∀ v ∈ l, f v < N
  | [] => ⟨0, by simp⟩
  | v :: l => by
    obtain ⟨N, hN⟩ := bound_exists f l
    refine ⟨N + f v + 1, fun u hu => ?_⟩
    rcases List.mem_cons.1 hu with rfl | hu
    · omega
    · have := hN u hu
      omega

theorem zip_lookup {l r : List Nat} (hn : l.Nodup) {k u v : Nat} (hk : l[k]? = some v) (hu : r[k]? = some u) : (l.zip r).lookup v = some u := by
  induction l generalizing r k with
  | nil => simp at hk
  | cons a l ih =>
    cases r with
    | nil => simp at hu
    | cons b r =>
      simp only [List.nodup_cons] at hn
      rw [List.zip_cons_cons, List.lookup_cons]
      cases k with
      | zero => simp at hk hu; simp [hk, hu]
      | succ k =>
        have hne : (v == a) = false := by
          have : v ∈ l := List.mem_of_getElem? (i := k) (by simpa using hk)
          simp only [beq_eq_false_iff_ne]
          rintro rfl
          exact hn.1 this
        rw [hne]
        exact ih hn.2 (by simpa using hk) (by simpa using hu)

theorem zip_lookup_none {l r : List Nat} {v : Nat} (h : v ∉ l) : (l.zip r).lookup v = none := by
  induction l generalizing r with
  | nil => simp
  | cons a l ih =>
    cases r with
    | nil => simp
    | cons b r =>
      simp only [List.mem_cons, not_or] at h
      have hne : (v == a) = false := by simpa using h.1
      rw [List.zip_cons_cons, List.lookup_cons, hne]
      exact ih h.2

theorem range_lookup {xs : List α} {k : Nat} {x : α} : ((List.range xs.length).zip xs).lookup k = some x ↔ xs[k]? = some x := by
  have gen : ∀ (xs : List α) (n : Nat), ((List.range' n xs.length).zip xs).lookup k = some x ↔ n ≤ k ∧ xs[k - n]? = some x := by
    intro xs
    induction xs with
    | nil => intro n; simp
    | cons a xs ih =>
      intro n
      rw [List.length_cons, List.range'_succ, List.zip_cons_cons, List.lookup_cons]
      by_cases hk : k = n
      · subst hk
        simp
      · have hne : (k == n) = false := by simpa using hk
        rw [hne]
        simp only [ih]
        constructor
        · rintro ⟨h1, h2⟩
          refine ⟨by omega, ?_⟩
          rw [show k - n = (k - (n + 1)) + 1 by omega]
          simpa using h2
        · rintro ⟨h1, h2⟩
          refine ⟨by omega, ?_⟩
          rw [show k - n = (k - (n + 1)) + 1 by omega] at h2
          simpa using h2
  have := gen xs 0
  rw [← List.range_eq_range'] at this
  simpa using this

/-- What the block of a workflow computes. -/
theorem subBlock_eval {I : Workflow α} {so : SetOrder} {ins : List Nat} {out : Nat} {xs ys : List α} : (subBlock I so ins out).eval xs = .ok ys ↔
    ∃ y, GivesResult I so ((List.range xs.length).zip xs) y ∧ ys = [y] := by
  simp only [subBlock, GivesResult]
  cases hr : run I so ((List.range xs.length).zip xs) with
  | error e => simp
  | ok r =>
    cases r with
    | none => simp
    | some s =>
      cases hs : s.outputValue with
      | none => simp [hs]
      | some y =>
        simp only [hs, Except.ok.injEq]
        constructor
        · rintro rfl
          exact ⟨y, ⟨s, rfl, hs⟩, rfl⟩
        · rintro ⟨y', ⟨s', h1, h2⟩, rfl⟩
          cases h1
          rw [hs] at h2
          cases h2
          rfl

theorem expected_some {W : Workflow α} (hw : WellFormed W) {user : List (Nat × α)} (hu : GivenSame W user) (k : Nat) (hk : k < (inputs W).length) : (expected W user k).isSome := by
  have hk' : (inputs W)[k]? = some (inputs W)[k] := by simp [hk]
  rw [expected_given hw user hk']
  exact hu.value _ (List.getElem_mem hk)

/-- A run gives `y` exactly if it can start and `y` is what the output must hold. -/
theorem gives_iff {W : Workflow α} (hw : WellFormed W) (hl : LocksOk W) {i : Nat} (ho : OutputOf W i) {so : SetOrder} {user : List (Nat × α)} {o : Nat} (hout : W.output = some o) {y : α} :
    GivesResult W so user y ↔ GivenSame W user ∧ Den W (expected W user) o y := by
  constructor
  · rintro ⟨s, hs, hy⟩
    exact ⟨run_given hw hs, (run_output hw hl ho hs hout y).1 hy⟩
  · rintro ⟨hu, hd⟩
    have hblk : ∀ i, Leads W i → ∀ b, W.blocks[i]? = some b → ∃ xs ys, xs.length = b.inputs.length ∧
        (∀ vx ∈ b.inputs.zip xs, Den W (expected W user) vx.1 vx.2) ∧ b.eval xs = .ok ys := by
      intro i hi b hb
      obtain ⟨o', ho', hn⟩ := needs_leads hi b hb
      obtain ⟨x, hx⟩ := den_needs hw (fun _ h => h) (fun _ h => h) (fun o' h => by rw [hout] at h; cases h; exact ⟨y, hd⟩) hn
      obtain ⟨xs, ys, h1, h2, h3, -⟩ := den_block hw (List.mem_of_getElem? hb) ho' hx
      exact ⟨xs, ys, h1, h2, h3⟩
    obtain ⟨s, hs⟩ := run_completes hw hl ho so user hu.range (expected_some hw hu)
      (fun i hi b xs hb hx hd => by
        obtain ⟨xs', ys, e1, e2, e3⟩ := hblk i hi b hb
        rw [den_same hw hx e1 hd e2]
        exact ⟨ys, e3⟩)
      (fun i hi b hb v hv => by
        obtain ⟨xs, ys, e1, e2, -⟩ := hblk i hi b hb
        obtain ⟨k, hk⟩ := List.getElem?_of_mem hv
        have hlt := (List.getElem?_eq_some_iff.1 hk).1
        exact ⟨xs[k], den_at e2 hk (List.getElem?_eq_getElem (by omega))⟩)
    exact ⟨s, hs, (run_output hw hl ho hs hout y).2 hd⟩

namespace HasSub

variable {W I : Workflow α} {so : SetOrder} {pre post : List (Block α)} {ins : List Nat} {out : Nat}

local notation "φ" => port I ins out
local notation "U" => unfolded W I pre post ins out
local notation "B" => subBlock I so ins out

theorem mem (h : HasSub W I so pre post ins out) {b : Block α} : b ∈ W.blocks ↔ b = B ∨ b ∈ pre ++ post := by
  rw [h.blocks]
  simp only [List.mem_append, List.mem_cons]
  tauto

theorem sub_mem (h : HasSub W I so pre post ins out) : B ∈ W.blocks := h.mem.2 (.inl rfl)

theorem memU {b : Block α} : b ∈ (unfolded W I pre post ins out).blocks ↔ b ∈ pre ++ post ∨ b ∈ I.blocks := by
  simp only [unfolded, List.mem_append]
  tauto

theorem var_block {W : Workflow α} {b : Block α} (hb : b ∈ W.blocks) {v : Nat} (hv : v ∈ b.inputs ∨ v ∈ b.outputs) : v ∈ allVariables W :=
  mem_allVariables.2 (.inl (mem_blockVars.2 ⟨b, hb, hv⟩))

theorem var_input {W : Workflow α} {p : Pipe} (hp : p ∈ W.pipes) : p.input ∈ allVariables W := mem_allVariables.2 (.inr ⟨p, hp, .inl rfl⟩)
theorem var_output {W : Workflow α} {p : Pipe} (hp : p ∈ W.pipes) : p.output ∈ allVariables W := mem_allVariables.2 (.inr ⟨p, hp, .inr rfl⟩)

/-- The variables of the block are not those of the other blocks. -/
theorem split (h : HasSub W I so pre post ins out) : ins.Nodup ∧ out ∉ ins ∧ (∀ b ∈ pre ++ post, ∀ v, v ∈ b.inputs ∨ v ∈ b.outputs → v ∉ ins ∧ v ≠ out) ∧
    ((pre ++ post).flatMap fun b => b.inputs ++ b.outputs).Nodup := by
  have hd := h.outer.1.distinct
  unfold blockVars at hd
  rw [h.blocks, List.flatMap_append, List.flatMap_cons] at hd
  have hp : (pre.flatMap (fun b => b.inputs ++ b.outputs) ++ ((ins ++ [out]) ++ post.flatMap fun b => b.inputs ++ b.outputs)).Perm
      ((ins ++ [out]) ++ (pre ++ post).flatMap fun b => b.inputs ++ b.outputs) := by
    rw [List.flatMap_append]
    exact List.perm_append_comm_assoc _ _ _
  have hd := hp.nodup_iff.1 hd
  rw [List.nodup_append, List.nodup_append] at hd
  obtain ⟨⟨h1, -, h2⟩, h3, h4⟩ := hd
  refine ⟨h1, fun hm => h2 _ hm _ (by simp) rfl, fun b hb v hv => ?_, h3⟩
  have hm : v ∈ (pre ++ post).flatMap fun b => b.inputs ++ b.outputs := List.mem_flatMap.2 ⟨b, hb, by simpa using hv⟩
  exact ⟨fun hi => h4 v (by simp [hi]) v hm rfl, fun hi => h4 v (by simp [hi]) v hm rfl⟩

theorem out_io (h : HasSub W I so pre post ins out) : ∃ io, I.output = some io ∧ φ out = io ∧ ∃ b ∈ I.blocks, io ∈ b.outputs := by
  obtain ⟨i, b, io, hb, hio, hbo⟩ := h.inner.2.2
  refine ⟨io, hio, ?_, b, List.mem_of_getElem? hb, hbo⟩
  simp [port, zip_lookup_none h.split.2.1, hio]

theorem port_in (h : HasSub W I so pre post ins out) {k v : Nat} (hk : ins[k]? = some v) : ∃ u, (inputs I)[k]? = some u ∧ φ v = u := by
  have hlt := (List.getElem?_eq_some_iff.1 hk).1
  have hu : (inputs I)[k]? = some ((inputs I)[k]'(by rw [← h.ports]; exact hlt)) := List.getElem?_eq_getElem _
  exact ⟨_, hu, by simp only [port, zip_lookup h.split.1 hk hu]⟩

theorem port_else {v : Nat} (h1 : v ∉ ins) (h2 : v ≠ out) : φ v = v := by
  simp [port, zip_lookup_none h1, h2]

theorem port_outer (h : HasSub W I so pre post ins out) {b : Block α} (hb : b ∈ pre ++ post) {v : Nat} (hv : v ∈ b.inputs ∨ v ∈ b.outputs) : φ v = v :=
  port_else (h.split.2.2.1 b hb v hv).1 (h.split.2.2.1 b hb v hv).2

/-- The three kinds of variables. -/
theorem cases3 (h : HasSub W I so pre post ins out) (v : Nat) : (∃ k u : Nat, ins[k]? = some v ∧ (inputs I)[k]? = some u ∧ φ v = u) ∨
    (v = out ∧ ∃ io, I.output = some io ∧ φ v = io ∧ ∃ b ∈ I.blocks, io ∈ b.outputs) ∨ (v ∉ ins ∧ v ≠ out ∧ φ v = v) := by
  by_cases h1 : v ∈ ins
  · obtain ⟨k, hk⟩ := List.getElem?_of_mem h1
    obtain ⟨u, hu, e⟩ := h.port_in hk
    exact .inl ⟨k, u, hk, hu, e⟩
  · by_cases h2 : v = out
    · subst h2
      exact .inr (.inl ⟨rfl, h.out_io⟩)
    · exact .inr (.inr ⟨h1, h2, port_else h1 h2⟩)

theorem inner_of_input {k u : Nat} (hu : (inputs I)[k]? = some u) : u ∈ allVariables I := (mem_inputs.1 (List.mem_of_getElem? hu)).1

theorem inner_out (h : HasSub W I so pre post ins out) {io : Nat} (hio : I.output = some io) : io ∈ allVariables I ∧ io ∉ inputs I := by
  obtain ⟨io', h1, -, b, hb, hbo⟩ := h.out_io
  rw [hio] at h1
  cases h1
  exact ⟨var_block hb (.inr hbo), fun hm => (mem_inputs.1 hm).2.1 b hb hbo⟩

/-- The image of a variable is in the inner workflow exactly for the variables of the block. -/
theorem port_inner (h : HasSub W I so pre post ins out) {v : Nat} (hv : v ∈ allVariables W) : φ v ∈ allVariables I ↔ v ∈ ins ∨ v = out := by
  rcases h.cases3 v with ⟨k, u, hk, hu, e⟩ | ⟨rfl, io, hio, e, -⟩ | ⟨h1, h2, e⟩
  · rw [e]
    exact ⟨fun _ => .inl (List.mem_of_getElem? hk), fun _ => inner_of_input hu⟩
  · rw [e]
    exact ⟨fun _ => .inr rfl, fun _ => (h.inner_out hio).1⟩
  · rw [e]
    exact ⟨fun hm => absurd hm (h.apart v hv), fun hm => by tauto⟩

theorem port_inputs (h : HasSub W I so pre post ins out) {v : Nat} (hv : v ∈ allVariables W) : φ v ∈ inputs I ↔ v ∈ ins := by
  rcases h.cases3 v with ⟨k, u, hk, hu, e⟩ | ⟨rfl, io, hio, e, -⟩ | ⟨h1, h2, e⟩
  · rw [e]
    exact ⟨fun _ => List.mem_of_getElem? hk, fun _ => List.mem_of_getElem? hu⟩
  · rw [e]
    exact ⟨fun hm => absurd hm (h.inner_out hio).2, fun hm => absurd hm h.split.2.1⟩
  · rw [e]
    exact ⟨fun hm => absurd (mem_inputs.1 hm).1 (h.apart v hv), fun hm => absurd hm h1⟩

theorem port_inj (h : HasSub W I so pre post ins out) {v w : Nat} (hv : v ∈ allVariables W) (hw : w ∈ allVariables W) (e : φ v = φ w) : v = w := by
  have i1 := h.port_inner hv
  have i2 := h.port_inner hw
  have j1 := h.port_inputs hv
  have j2 := h.port_inputs hw
  rw [e] at i1 j1
  rcases h.cases3 v with ⟨k, u, hk, hu, e1⟩ | ⟨rfl, io, hio, e1, -⟩ | ⟨h1, h2, e1⟩
  · obtain ⟨k', hk'⟩ := List.getElem?_of_mem (j2.1 (j1.2 (List.mem_of_getElem? hk)))
    obtain ⟨u', hu', e2⟩ := h.port_in hk'
    have : u = u' := by rw [← e1, ← e2, e]
    subst this
    have hn := inputs_nodup h.inner.1.distinct
    have := (idxOf_of_nodup hn hu).symm.trans (idxOf_of_nodup hn hu')
    subst this
    rw [hk] at hk'
    exact Option.some.inj hk'
  · rcases i2.1 (i1.2 (.inr rfl)) with hm | hm
    · exact absurd (j1.1 (j2.2 hm)) h.split.2.1
    · exact hm.symm
  · have h3 : ¬ (w ∈ ins ∨ w = out) := fun hm => by rcases i1.1 (i2.2 hm) with hm | hm <;> tauto
    rw [← e1, e, port_else (fun hm => h3 (.inl hm)) fun hm => h3 (.inr hm)]

theorem mem_pipes {q : Pipe} : q ∈ (unfolded W I pre post ins out).pipes ↔ (∃ p ∈ W.pipes, q = { p with input := φ p.input, output := φ p.output }) ∨ q ∈ I.pipes := by
  simp only [unfolded, List.mem_append, List.mem_map]
  constructor
  · rintro (⟨p, hp, rfl⟩ | hq)
    · exact .inl ⟨p, hp, rfl⟩
    · exact .inr hq
  · rintro (⟨p, hp, rfl⟩ | hq)
    · exact .inl ⟨p, hp, rfl⟩
    · exact .inr hq

/-- No pipe of the workflow around starts from an input of the block. -/
theorem source_ins (h : HasSub W I so pre post ins out) {p : Pipe} (hp : p ∈ W.pipes) : p.input ∉ ins := h.outer.1.source p hp B h.sub_mem

/-- No pipe of the workflow around ends at the output of the block. -/
theorem target_out (h : HasSub W I so pre post ins out) {p : Pipe} (hp : p ∈ W.pipes) : p.output ≠ out := by
  obtain ⟨b, hb, hbo⟩ := h.outer.1.target p hp
  rintro e
  exact in_ne_out h.outer.1.distinct hb h.sub_mem hbo (e ▸ List.mem_singleton.2 rfl)

theorem outer_mem (h : HasSub W I so pre post ins out) {b : Block α} (hb : b ∈ pre ++ post) : b ∈ W.blocks := h.mem.2 (.inr hb)

/-- Variables of the other blocks are not in the inner workflow. -/
theorem outer_apart (h : HasSub W I so pre post ins out) {b : Block α} (hb : b ∈ pre ++ post) {v : Nat} (hv : v ∈ b.inputs ∨ v ∈ b.outputs) : v ∉ allVariables I :=
  h.apart v (var_block (h.outer_mem hb) hv)

theorem wf (h : HasSub W I so pre post ins out) : WellFormed (unfolded W I pre post ins out) := by
  have hw := h.outer.1
  have hi := h.inner.1
  refine ⟨?_, ?_, ?_, ?_, ?_⟩
  · have hp : (blockVars (unfolded W I pre post ins out)).Perm (((pre ++ post).flatMap fun b => b.inputs ++ b.outputs) ++ blockVars I) := by
      simp only [blockVars, unfolded, List.flatMap_append, List.append_assoc]
      exact List.Perm.append_left _ List.perm_append_comm
    rw [hp.nodup_iff, List.nodup_append]
    refine ⟨h.split.2.2.2, hi.distinct, fun v hv w hv' e => ?_⟩
    subst e
    obtain ⟨b, hb, hvb⟩ := List.mem_flatMap.1 hv
    exact h.outer_apart hb (by simpa using hvb) (mem_allVariables.2 (.inl hv'))
  · simp only [unfolded, List.map_append, List.map_map]
    rw [List.nodup_append]
    refine ⟨?_, hi.single, fun v hv w hv' e => ?_⟩
    · rw [List.nodup_map_iff_inj_on (List.Nodup.of_map _ hw.single)]
      intro p hp q hq e
      exact output_single hw hp hq (h.port_inj (var_output hp) (var_output hq) e)
    · subst e
      obtain ⟨p, hp, rfl⟩ := List.mem_map.1 hv
      obtain ⟨q, hq, e⟩ := List.mem_map.1 hv'
      simp only [Function.comp] at e
      have h1 : φ p.output ∈ allVariables I := e ▸ var_output hq
      rcases (h.port_inner (var_output hp)).1 h1 with h2 | h2
      · exact hi.input_free ((h.port_inputs (var_output hp)).2 h2) q hq e
      · exact h.target_out hp h2
  · intro q hq
    rcases mem_pipes.1 hq with ⟨p, hp, rfl⟩ | hq
    · obtain ⟨b, hb, hbo⟩ := hw.target p hp
      rcases h.mem.1 hb with rfl | hb
      · obtain ⟨c, hc, hco⟩ := h.direct _ ((h.port_inputs (var_output hp)).2 hbo)
        exact ⟨c, memU.2 (.inr hc), hco⟩
      · exact ⟨b, memU.2 (.inl hb), by simpa [h.port_outer hb (.inl hbo)] using hbo⟩
    · obtain ⟨c, hc, hco⟩ := hi.target q hq
      exact ⟨c, memU.2 (.inr hc), hco⟩
  · intro q hq b hb
    rcases mem_pipes.1 hq with ⟨p, hp, rfl⟩ | hq
    · rcases h.cases3 p.input with ⟨k, u, hk, -⟩ | ⟨e, io, hio, e', c, hc, hco⟩ | ⟨h1, h2, e⟩
      · exact absurd (List.mem_of_getElem? hk) (h.source_ins hp)
      · simp only [e']
        rcases memU.1 hb with hb | hb
        · exact fun hm => h.outer_apart hb (.inl hm) (h.inner_out hio).1
        · exact fun hm => in_ne_out hi.distinct hb hc hm hco
      · simp only [e]
        rcases memU.1 hb with hb | hb
        · exact hw.source p hp b (h.outer_mem hb)
        · exact fun hm => h.apart _ (var_input hp) (var_block hb (.inl hm))
    · rcases memU.1 hb with hb | hb
      · exact fun hm => h.outer_apart hb (.inl hm) (var_input hq)
      · exact hi.source q hq b hb
  · obtain ⟨rW, hW1, hW2⟩ := hw.acyclic
    obtain ⟨rI, hI1, hI2⟩ := hi.acyclic
    obtain ⟨N, hN⟩ := bound_exists (fun v => rI v + 1) (allVariables I)
    have hin : ∀ v ∈ ins, rW v < rW out := fun v hv => hW2 B h.sub_mem v hv out (List.mem_singleton.2 rfl)
    refine ⟨fun v => if v ∈ allVariables I then rW out * (N + 1) + 1 + rI v else rW v * (N + 1), ?_, ?_⟩
    · intro q hq
      dsimp only
      rcases mem_pipes.1 hq with ⟨p, hp, rfl⟩ | hq
      · have hr := hW1 p hp
        dsimp only
        by_cases hout : φ p.output ∈ allVariables I
        · have ho : p.output ∈ ins := ((h.port_inner (var_output hp)).1 hout).resolve_right (h.target_out hp)
          have h1 := hin _ ho
          have hnin : φ p.input ∉ allVariables I := by
            intro hm
            rcases (h.port_inner (var_input hp)).1 hm with hm | hm
            · exact h.source_ins hp hm
            · rw [hm] at hr
              omega
          have hid : φ p.input = p.input := port_else (h.source_ins hp) fun e => hnin ((h.port_inner (var_input hp)).2 (.inr e))
          rw [if_neg hnin, if_pos hout, hid]
          have : (rW p.input + 1) * (N + 1) ≤ rW out * (N + 1) := Nat.mul_le_mul_right _ (by omega)
          have e : (rW p.input + 1) * (N + 1) = rW p.input * (N + 1) + (N + 1) := by ring
          omega
        · have hoid : φ p.output = p.output := by
            have := mt (h.port_inner (var_output hp)).2 hout
            exact port_else (fun e => this (.inl e)) fun e => this (.inr e)
          rw [if_neg hout, hoid]
          have : (rW p.input + 1) * (N + 1) ≤ rW p.output * (N + 1) := Nat.mul_le_mul_right _ (by omega)
          have e : (rW p.input + 1) * (N + 1) = rW p.input * (N + 1) + (N + 1) := by ring
          by_cases hinn : φ p.input ∈ allVariables I
          · have hpo : p.input = out := ((h.port_inner (var_input hp)).1 hinn).resolve_left (h.source_ins hp)
            have hb := hN _ hinn
            rw [if_pos hinn]
            rw [hpo] at this e hb ⊢
            omega
          · have hid : φ p.input = p.input := by
              have := mt (h.port_inner (var_input hp)).2 hinn
              exact port_else (fun e => this (.inl e)) fun e => this (.inr e)
            rw [if_neg hinn, hid]
            omega
      · have := hI1 q hq
        rw [if_pos (var_input hq), if_pos (var_output hq)]
        omega
    · intro b hb i hi' o ho
      dsimp only
      rcases memU.1 hb with hb | hb
      · rw [if_neg (h.outer_apart hb (.inl hi')), if_neg (h.outer_apart hb (.inr ho))]
        exact Nat.mul_lt_mul_of_pos_right (hW2 b (h.outer_mem hb) i hi' o ho) (by omega)
      · have := hI2 b hb i hi' o ho
        rw [if_pos (var_block hb (.inl hi')), if_pos (var_block hb (.inr ho))]
        omega

theorem locks (h : HasSub W I so pre post ins out) : LocksOk (unfolded W I pre post ins out) := by
  intro v hv
  simp only [unfolded] at hv ⊢
  cases hl : ((inputs I).zip ins).lookup v with
  | some u => rw [hl] at hv; exact h.outer.2.1 u hv
  | none =>
    rw [hl] at hv
    dsimp only at hv ⊢
    split at hv
    · rename_i hm; rw [if_pos hm]; exact h.inner.2.1 v hv
    · rename_i hm; rw [if_neg hm]; exact h.outer.2.1 v hv

theorem outputOf (h : HasSub W I so pre post ins out) : ∃ i, OutputOf (unfolded W I pre post ins out) i := by
  obtain ⟨i, b, o, hb, ho, hbo⟩ := h.outer.2.2
  rcases h.mem.1 (List.mem_of_getElem? hb) with rfl | hb'
  · have : o = out := List.mem_singleton.1 hbo
    subst this
    obtain ⟨io, hio, e, c, hc, hco⟩ := h.out_io
    obtain ⟨j, hj⟩ := List.getElem?_of_mem (memU (W := W) (pre := pre) (post := post) (ins := ins) (out := o).2 (.inr hc))
    exact ⟨j, c, io, hj, by simp [unfolded, ho, e], hco⟩
  · obtain ⟨j, hj⟩ := List.getElem?_of_mem (memU (W := W) (I := I) (ins := ins) (out := out).2 (.inl hb'))
    exact ⟨j, b, o, hj, by simp [unfolded, ho, h.port_outer hb' (.inr hbo)], hbo⟩

/-- The inputs of the workflow are, by their image, those of the unfolded one. -/
theorem inputs_iff (h : HasSub W I so pre post ins out) {u : Nat} : u ∈ inputs (unfolded W I pre post ins out) ↔ ∃ v ∈ inputs W, φ v = u := by
  have hw := h.outer.1
  have hi := h.inner.1
  constructor
  · intro hu
    have hfree := h.wf.input_free hu
    obtain ⟨h1, h2, -⟩ := mem_inputs.1 hu
    by_cases hI : u ∈ allVariables I
    · have hin : u ∈ inputs I := mem_inputs.2 ⟨hI, fun b hb => h2 b (memU.2 (.inr hb)), fun p hp e => absurd e (hfree p (mem_pipes.2 (.inr hp)))⟩
      obtain ⟨k, hk⟩ := List.getElem?_of_mem hin
      have hlt := (List.getElem?_eq_some_iff.1 hk).1
      have hk' : ins[k]? = some (ins[k]'(by rw [h.ports]; exact hlt)) := List.getElem?_eq_getElem _
      obtain ⟨u', hu', e⟩ := h.port_in hk'
      rw [hk] at hu'
      cases hu'
      refine ⟨_, free_input hw.distinct h.sub_mem (List.mem_of_getElem? hk') fun p hp e' => hfree _ (mem_pipes.2 (.inl ⟨p, hp, rfl⟩)) ?_, e⟩
      dsimp only
      rw [e', e]
    · have key : ∀ v ∈ allVariables W, v = u → (∀ b ∈ W.blocks, v ∉ b.outputs) → φ v = v → ∃ v ∈ inputs W, φ v = u := by
        rintro v hv rfl hno e
        refine ⟨v, mem_inputs.2 ⟨hv, hno, fun p hp e' => absurd ?_ (hfree _ (mem_pipes.2 (.inl ⟨p, hp, rfl⟩)))⟩, e⟩
        dsimp only
        rw [e', e]
      have hno : ∀ v, v = u → φ v = v → v ≠ out → ∀ b ∈ W.blocks, v ∉ b.outputs := by
        rintro v rfl e hne b hb hm
        rcases h.mem.1 hb with rfl | hb
        · exact hne (List.mem_singleton.1 hm)
        · exact h2 b (memU.2 (.inl hb)) hm
      rcases mem_allVariables.1 h1 with hb | ⟨q, hq, hqu⟩
      · obtain ⟨b, hb, hub⟩ := mem_blockVars.1 hb
        rcases memU.1 hb with hb | hb
        · have e := h.port_outer hb hub
          exact key u (var_block (h.outer_mem hb) hub) rfl (hno u rfl e (h.split.2.2.1 b hb u hub).2) e
        · exact absurd (var_block hb hub) hI
      · rcases mem_pipes.1 hq with ⟨p, hp, rfl⟩ | hq
        · rcases hqu with hqu | hqu
          · dsimp only at hqu
            have hn : ¬ (p.input ∈ ins ∨ p.input = out) := fun hm => hI (hqu ▸ (h.port_inner (var_input hp)).2 hm)
            have e : φ p.input = p.input := port_else (fun e => hn (.inl e)) fun e => hn (.inr e)
            rw [e] at hqu
            exact key p.input (var_input hp) hqu.symm (hno _ hqu.symm e fun e => hn (.inr e)) e
          · exact absurd hqu.symm (hfree _ hq)
        · rcases hqu with rfl | rfl
          · exact absurd (var_input hq) hI
          · exact absurd (var_output hq) hI
  · rintro ⟨v, hv, rfl⟩
    obtain ⟨h1, h2, -⟩ := mem_inputs.1 hv
    have hfree := hw.input_free hv
    have hpipe : ∀ q ∈ (unfolded W I pre post ins out).pipes, q.output ≠ φ v := by
      intro q hq e
      rcases mem_pipes.1 hq with ⟨p, hp, rfl⟩ | hq
      · exact hfree p hp (h.port_inj (var_output hp) h1 e)
      · rcases (h.port_inner h1).1 (e ▸ var_output hq) with hm | hm
        · exact hi.input_free ((h.port_inputs h1).2 hm) q hq e
        · exact h2 B h.sub_mem (hm ▸ List.mem_singleton.2 rfl)
    by_cases hm : v ∈ ins
    · obtain ⟨c, hc, hco⟩ := h.direct _ ((h.port_inputs h1).2 hm)
      exact free_input h.wf.distinct (memU.2 (.inr hc)) hco hpipe
    · have hne : v ≠ out := fun e => h2 B h.sub_mem (e ▸ List.mem_singleton.2 rfl)
      have e : φ v = v := port_else hm hne
      rw [e] at hpipe ⊢
      refine mem_inputs.2 ⟨?_, fun b hb hbo => ?_, fun p hp e => absurd e (hpipe p hp)⟩
      · rcases mem_allVariables.1 h1 with hb | ⟨p, hp, hpv⟩
        · obtain ⟨b, hb, hvb⟩ := mem_blockVars.1 hb
          rcases h.mem.1 hb with rfl | hb
          · rcases hvb with hvb | hvb
            · exact absurd hvb hm
            · exact absurd (List.mem_singleton.1 hvb) hne
          · exact var_block (memU.2 (.inl hb)) hvb
        · rcases hpv with rfl | rfl
          · have := var_input (W := unfolded W I pre post ins out) (mem_pipes.2 (.inl ⟨p, hp, rfl⟩))
            dsimp only at this
            rwa [e] at this
          · exact absurd rfl (hfree p hp)
      · rcases memU.1 hb with hb | hb
        · exact h2 b (h.outer_mem hb) hbo
        · exact h.apart v h1 (var_block hb (.inr hbo))

/-- What the inner workflow makes of values which its inputs hold in the unfolded workflow, its variables hold there. -/
theorem den_inner {V V' : Nat → Option α} (hin : ∀ k u x, (inputs I)[k]? = some u → V k = some x → Den U V' u x) {v : Nat} {x : α} (hd : Den I V v x) : Den U V' v x := by
  induction hd with
  | input hk hx => exact hin _ _ _ hk hx
  | pipe hp _ ih => exact .pipe (mem_pipes.2 (.inr hp)) ih
  | block hb hl _ hev ho ih => exact .block (memU.2 (.inr hb)) hl ih hev ho

/-- The value with which the inner workflow starts. -/
theorem expected_inner (h : HasSub W I so pre post ins out) {xs : List α} (hl : xs.length = ins.length) {k u : Nat} (hu : (inputs I)[k]? = some u) {x : α} :
    expected I ((List.range xs.length).zip xs) k = some x ↔ xs[k]? = some x := by
  have hlt := (List.getElem?_eq_some_iff.1 hu).1
  have hx : xs[k]? = some (xs[k]'(by rw [hl, h.ports]; exact hlt)) := List.getElem?_eq_getElem _
  rw [hx]
  simp only [expected, hu, h.unlocked u (List.mem_of_getElem? hu), Bool.false_eq_true, if_false, range_lookup.2 hx]

/-- What a variable must hold, its image must hold in the unfolded workflow. -/
theorem den (h : HasSub W I so pre post ins out) {user user' : List (Nat × α)}
    (hg : ∀ v ∈ inputs W, givenTo U user' (φ v) = givenTo W user v) {v : Nat} {x : α} (hd : Den W (expected W user) v x) : Den U (expected U user') (φ v) x := by
  induction hd with
  | @input k v x hk hx =>
    have hv := List.mem_of_getElem? hk
    obtain ⟨k', hk'⟩ := List.getElem?_of_mem (h.inputs_iff.2 ⟨v, hv, rfl⟩)
    refine .input hk' ?_
    rw [expected_given h.wf user' hk', hg v hv, ← expected_given h.outer.1 user hk, hx]
  | @pipe p x hp _ ih => exact .pipe (p := { p with input := φ p.input, output := φ p.output }) (mem_pipes.2 (.inl ⟨p, hp, rfl⟩)) ih
  | @block b xs ys o y hb hl _ hev ho ih =>
    rcases h.mem.1 hb with rfl | hb
    · obtain ⟨y', ⟨s, hs, hy'⟩, rfl⟩ := subBlock_eval.1 hev
      have hz : o = out ∧ y = y' := by simpa [subBlock] using ho
      obtain ⟨rfl, rfl⟩ := hz
      obtain ⟨io, hio, e, -⟩ := h.out_io
      rw [e]
      obtain ⟨oi, hoi⟩ := h.inner.2.2
      refine den_inner (fun k u x hu hx => ?_) ((run_output h.inner.1 h.inner.2.1 hoi hs hio y).1 hy')
      rw [h.expected_inner hl hu] at hx
      have hlt := (List.getElem?_eq_some_iff.1 hx).1
      have hk : ins[k]? = some (ins[k]'(by rw [← show xs.length = ins.length from hl]; exact hlt)) := List.getElem?_eq_getElem _
      obtain ⟨u', hu', e'⟩ := h.port_in hk
      rw [hu] at hu'
      cases hu'
      rw [← e']
      exact ih (_, x) (List.mem_of_getElem? (List.getElem?_zip_eq_some.2 ⟨hk, hx⟩ : _ = some _) (i := k))
    · rw [h.port_outer hb (.inr (List.of_mem_zip ho).1)]
      refine .block (memU.2 (.inl hb)) hl (fun vx hvx => ?_) hev ho
      have := ih vx hvx
      rwa [h.port_outer hb (.inl (List.of_mem_zip hvx).1)] at this

theorem given (h : HasSub W I so pre post ins out) {user user' : List (Nat × α)} (hk : ∀ kx ∈ user', kx.1 < (inputs U).length)
    (hg : ∀ v ∈ inputs W, givenTo U user' (φ v) = givenTo W user v) (hs : ∀ v ∈ inputs W, (givenTo W user v).isSome) : GivenSame U user' := by
  refine ⟨hk, fun u hu => ?_⟩
  obtain ⟨v, hv, rfl⟩ := h.inputs_iff.1 hu
  rw [hg v hv]
  exact hs v hv

/-- What a variable of the inner workflow holds in the unfolded workflow, it must hold when the inner workflow starts from what its inputs hold there. -/
theorem den_outer (h : HasSub W I so pre post ins out) {V V' : Nat → Option α} (hin : ∀ k u x, (inputs I)[k]? = some u → Den U V' u x → V k = some x) {u : Nat} {x : α}
    (hd : Den U V' u x) (hu : u ∈ allVariables I) : Den I V u x := by
  induction hd with
  | @input k u x hk hx =>
    obtain ⟨v, hv, rfl⟩ := h.inputs_iff.1 (List.mem_of_getElem? hk)
    obtain ⟨h1, h2, -⟩ := mem_inputs.1 hv
    rcases (h.port_inner h1).1 hu with hm | hm
    · obtain ⟨k', hk'⟩ := List.getElem?_of_mem ((h.port_inputs h1).2 hm)
      exact .input hk' (hin _ _ _ hk' (.input hk hx))
    · exact absurd (hm ▸ List.mem_singleton.2 rfl) (h2 B h.sub_mem)
  | @pipe q x hq hd ih =>
    rcases mem_pipes.1 hq with ⟨p, hp, rfl⟩ | hqi
    · have hm : p.output ∈ ins := ((h.port_inner (var_output hp)).1 hu).resolve_right (h.target_out hp)
      obtain ⟨k', hk'⟩ := List.getElem?_of_mem ((h.port_inputs (var_output hp)).2 hm)
      exact .input hk' (hin _ _ _ hk' (.pipe (p := { p with input := φ p.input, output := φ p.output }) hq hd))
    · exact .pipe hqi (ih (var_input hqi))
  | @block b xs ys o y hb hl _ hev ho ih =>
    rcases memU.1 hb with hb' | hb'
    · exact absurd hu (h.outer_apart hb' (.inr (List.of_mem_zip ho).1))
    · exact .block hb' hl (fun vx hvx => ih vx hvx (var_block hb' (.inl (List.of_mem_zip hvx).1))) hev ho

/-- When the output of the inner workflow needs all its inputs, what the image of a variable must hold in the unfolded workflow, the variable must hold. -/
theorem den_back (h : HasSub W I so pre post ins out) (need : ∀ v ∈ inputs I, DependsOn I v) {user user' : List (Nat × α)}
    (hg : ∀ v ∈ inputs W, givenTo U user' (φ v) = givenTo W user v) : ∀ {v : Nat} {x : α}, v ∈ allVariables W → Den U (expected U user') (φ v) x → Den W (expected W user) v x := by
  obtain ⟨r, hr1, hr2⟩ := h.outer.1.acyclic
  have main : ∀ (n v : Nat) (x : α), r v = n → v ∈ allVariables W → Den U (expected U user') (φ v) x → Den W (expected W user) v x := by
    intro n
    induction n using Nat.strongRecOn with
    | ind n ih =>
      intro v x hn hv hd
      subst hn
      generalize hu : φ v = u at hd
      cases hd with
      | input hk hx =>
        obtain ⟨v', hv', e⟩ := h.inputs_iff.1 (List.mem_of_getElem? hk)
        have := h.port_inj (mem_inputs.1 hv').1 hv (e.trans hu.symm)
        subst this
        obtain ⟨k', hk'⟩ := List.getElem?_of_mem hv'
        refine .input hk' ?_
        rw [expected_given h.outer.1 user hk', ← hg v' hv', e, ← expected_given h.wf user' hk, hx]
      | @pipe q _ hq hd =>
        rcases mem_pipes.1 hq with ⟨p, hp, rfl⟩ | hqi
        · have := h.port_inj hv (var_output hp) hu
          subst this
          exact .pipe hp (ih _ (hr1 p hp) _ x rfl (var_input hp) hd)
        · exfalso
          rcases (h.port_inner hv).1 (hu ▸ var_output hqi) with hm | rfl
          · exact h.inner.1.input_free ((h.port_inputs hv).2 hm) q hqi hu.symm
          · obtain ⟨io, hio, e', c, hc, hco⟩ := h.out_io
            obtain ⟨d, hd, hdo⟩ := h.inner.1.target q hqi
            exact in_ne_out h.inner.1.distinct hd hc (by rw [← hu, e'] at hdo; exact hdo) hco
      | @block b xs ys o y hb hl hds hev ho =>
        have hbo := (List.of_mem_zip ho).1
        rcases memU.1 hb with hb' | hb'
        · have : v = u := h.port_inj hv (var_block (h.outer_mem hb') (.inr hbo)) (hu.trans (h.port_outer hb' (.inr hbo)).symm)
          subst this
          refine .block (h.outer_mem hb') hl (fun vx hvx => ?_) hev ho
          have hvi := (List.of_mem_zip hvx).1
          refine ih _ (hr2 b (h.outer_mem hb') _ hvi _ hbo) _ _ rfl (var_block (h.outer_mem hb') (.inl hvi)) ?_
          rw [h.port_outer hb' (.inl hvi)]
          exact hds vx hvx
        · have hvo : v = out := by
            refine ((h.port_inner hv).1 (hu ▸ var_block hb' (.inr hbo))).resolve_left fun hm => ?_
            exact (mem_inputs.1 ((h.port_inputs hv).2 hm)).2.1 b hb' (hu ▸ hbo)
          have hdu : Den U (expected U user') u x := .block hb hl hds hev ho
          have hro : r v = r out := by rw [hvo]
          rw [hvo] at hu ⊢
          rw [hro] at ih
          obtain ⟨io, hio, e', -⟩ := h.out_io
          have : io = u := by rw [← e', hu]
          subst this
          have hval : ∀ w ∈ inputs I, ∃ z, Den U (expected U user') w z := fun w hw =>
            den_needs (I := I) h.wf (fun b hb => memU.2 (.inr hb)) (fun p hp => mem_pipes.2 (.inr hp)) (fun o ho => by rw [hio] at ho; cases ho; exact ⟨x, hdu⟩) (need w hw)
          obtain ⟨zs, hz1, hz2⟩ := den_choose hval
          have hlen : zs.length = ins.length := by rw [hz1, h.ports]
          have hzs : ∀ (k w : Nat) (z : α), (inputs I)[k]? = some w → (zs[k]? = some z ↔ Den U (expected U user') w z) := by
            intro k w z hk
            have hlt := (List.getElem?_eq_some_iff.1 hk).1
            have hzk : zs[k]? = some (zs[k]'(by omega)) := List.getElem?_eq_getElem _
            have hdk := den_at hz2 hk hzk
            constructor
            · intro e
              rw [hzk] at e
              cases e
              exact hdk
            · intro e
              rw [hzk, hdk.unique h.wf e]
          have hgiv : GivenSame I ((List.range zs.length).zip zs) := by
            refine ⟨fun kx hkx => ?_, fun w hw => ?_⟩
            · have := (List.of_mem_zip hkx).1
              rw [List.mem_range, hz1] at this
              exact this
            · obtain ⟨k, hk⟩ := List.getElem?_of_mem hw
              have hlt := (List.getElem?_eq_some_iff.1 hk).1
              have hzk : zs[k]? = some (zs[k]'(by omega)) := List.getElem?_eq_getElem _
              rw [← expected_given h.inner.1 _ hk, (h.expected_inner hlen hk).2 hzk]
              rfl
          obtain ⟨oi, hoi⟩ := h.inner.2.2
          have hI : GivesResult I so ((List.range zs.length).zip zs) x := (gives_iff h.inner.1 h.inner.2.1 hoi hio).2
            ⟨hgiv, h.den_outer (fun k w z hk hd => (h.expected_inner hlen hk).2 ((hzs k w z hk).2 hd)) hdu (h.inner_out hio).1⟩
          refine .block (b := B) (ys := [x]) h.sub_mem hlen (fun vx hvx => ?_) (subBlock_eval.2 ⟨x, hI, rfl⟩) (by simp [subBlock])
          obtain ⟨k, hk⟩ := List.getElem?_of_mem hvx
          obtain ⟨hk1, hk2⟩ := List.getElem?_zip_eq_some.1 hk
          have hmem : vx.1 ∈ (subBlock I so ins out).inputs := List.mem_of_getElem? hk1
          refine ih _ (hr2 B h.sub_mem _ hmem _ (List.mem_singleton.2 rfl)) _ _ rfl (var_block h.sub_mem (.inl hmem)) ?_
          obtain ⟨w, hw, e⟩ := h.port_in hk1
          rw [e]
          exact (hzs k w _ hw).1 hk2
  exact fun {_ _} hv hd => main _ _ _ rfl hv hd

end HasSub

/-! ### C28 and C186 -/

/-- A run gives `y`, whatever the order of the sets, exactly if the indices given are those of inputs, each input has a value, and `y` is what the pipes and blocks make
the output hold from these values: no other thing decides on the result. -/
theorem C28_result {W : Workflow α} (hw : WellFormed W) (hl : LocksOk W) {i : Nat} (ho : OutputOf W i) (so : SetOrder) (user : List (Nat × α)) {o : Nat} (hout : W.output = some o) (y : α) :
    (∃ s, run W so user = .ok (some s) ∧ s.outputValue = some y) ↔ GivenSame W user ∧ Den W (expected W user) o y := gives_iff hw hl ho hout

/-- If a workflow which has a block for another one gives `y`, then the workflow with the blocks and pipes of the other one in its place gives `y` too, for
the same values of its inputs and any order of the sets. -/
theorem C186_unfold {W I : Workflow α} {so : SetOrder} {pre post : List (Block α)} {ins : List Nat} {out : Nat} (h : HasSub W I so pre post ins out) {user user' : List (Nat × α)}
    (hk : ∀ kx ∈ user', kx.1 < (inputs (unfolded W I pre post ins out)).length)
    (hg : ∀ v ∈ inputs W, givenTo (unfolded W I pre post ins out) user' (port I ins out v) = givenTo W user v) {so1 : SetOrder} (so2 : SetOrder) {y : α}
    (hy : GivesResult W so1 user y) : GivesResult (unfolded W I pre post ins out) so2 user' y := by
  obtain ⟨i, hi⟩ := h.outer.2.2
  obtain ⟨j, hj⟩ := h.outputOf
  obtain ⟨b, o, hb, hout, hbo⟩ := id hi
  obtain ⟨hu, hd⟩ := (gives_iff h.outer.1 h.outer.2.1 hi hout).1 hy
  exact (gives_iff h.wf h.locks hj (o := port I ins out o) (by simp [unfolded, hout])).2 ⟨h.given hk hg hu.value, h.den hg hd⟩

/-- The other way round, if the output of the other workflow needs all its inputs.  (Otherwise a block that raises may compute an input which is not needed: it is run
for the block, and is not run when its blocks are in its place.) -/
theorem C186_fold {W I : Workflow α} {so : SetOrder} {pre post : List (Block α)} {ins : List Nat} {out : Nat} (h : HasSub W I so pre post ins out) (need : ∀ v ∈ inputs I, DependsOn I v)
    {user user' : List (Nat × α)} (hk : ∀ kx ∈ user, kx.1 < (inputs W).length)
    (hg : ∀ v ∈ inputs W, givenTo (unfolded W I pre post ins out) user' (port I ins out v) = givenTo W user v) (so1 : SetOrder) {so2 : SetOrder} {y : α}
    (hy : GivesResult (unfolded W I pre post ins out) so2 user' y) : GivesResult W so1 user y := by
  obtain ⟨i, hi⟩ := h.outer.2.2
  obtain ⟨j, hj⟩ := h.outputOf
  obtain ⟨b, o, hb, hout, hbo⟩ := id hi
  obtain ⟨hu, hd⟩ := (gives_iff h.wf h.locks hj (o := port I ins out o) (by simp [unfolded, hout])).1 hy
  refine (gives_iff h.outer.1 h.outer.2.1 hi hout).2 ⟨⟨hk, fun v hv => ?_⟩, h.den_back need hg (HasSub.var_block (List.mem_of_getElem? hb) (.inr hbo)) hd⟩
  rw [← hg v hv]
  exact hu.value _ (h.inputs_iff.2 ⟨v, hv, rfl⟩)

/-! ### An example -/

/-- The inner workflow: twice the sum of its inputs. -/
def exInner : Workflow Int where
  blocks := [⟨[20, 21], [22], fun xs => .ok [xs.sum]⟩, ⟨[23], [24], fun xs => .ok [2 * xs.sum]⟩]
  pipes := [⟨22, 23, false⟩]
  output := some 24
  default _ := none
  lockFlag _ := false

/-- The workflow around: one block gives the first input of the inner workflow, another one adds its output to an input. -/
def exAround : Workflow Int where
  blocks := [⟨[0], [1], fun xs => .ok [xs.sum + 1]⟩, subBlock exInner dedupOrder [2, 3] 4, ⟨[5, 6], [7], fun xs => .ok [xs.sum]⟩]
  pipes := [⟨1, 2, false⟩, ⟨4, 5, false⟩]
  output := some 7
  default v := if v = 3 then some 10 else none
  lockFlag _ := false

def exAroundPre : List (Block Int) := [⟨[0], [1], fun xs => .ok [xs.sum + 1]⟩]
def exAroundPost : List (Block Int) := [⟨[5, 6], [7], fun xs => .ok [xs.sum]⟩]
def exUnfolded : Workflow Int := unfolded exAround exInner exAroundPre exAroundPost [2, 3] 4

theorem exInner_inputs : inputs exInner = [20, 21] := by decide
theorem exAround_inputs : inputs exAround = [0, 3, 6] := by decide
theorem exUnfolded_inputs : inputs exUnfolded = [0, 21, 6] := by decide

theorem exAround_sub : HasSub exAround exInner dedupOrder exAroundPre exAroundPost [2, 3] 4 where
  blocks := rfl
  ports := by decide
  outer := ⟨⟨by decide, by decide, by decide, by decide, id, by decide, by decide⟩, fun v h => by simp [exAround] at h, 2, _, 7, rfl, rfl, by decide⟩
  inner := ⟨⟨by decide, by decide, by decide, by decide, id, by decide, by decide⟩, fun v h => by simp [exInner] at h, 1, _, 24, rfl, rfl, by decide⟩
  apart := by decide
  direct := by decide
  unlocked := by decide

theorem exInner_needed : ∀ v ∈ inputs exInner, DependsOn exInner v := by
  have h : DependsOn exInner 22 := .pipe (p := ⟨22, 23, false⟩) (by simp [exInner])
    (.block (b := ⟨[23], [24], fun xs => .ok [2 * xs.sum]⟩) (o := 24) (by simp [exInner]) (by simp) (.output rfl) (by simp))
  rw [exInner_inputs]
  intro v hv
  exact .block (b := ⟨[20, 21], [22], fun xs => .ok [xs.sum]⟩) (o := 22) (by simp [exInner]) (by simp) h (by simpa using hv)

theorem exAround_given (x z : Int) : ∀ v ∈ inputs exAround, givenTo exUnfolded [(0, x), (2, z)] (port exInner [2, 3] 4 v) = givenTo exAround [(0, x), (2, z)] v := by
  rw [exAround_inputs]
  intro v hv
  simp only [List.mem_cons, List.not_mem_nil, or_false] at hv
  rcases hv with rfl | rfl | rfl <;> rfl

/-- The example and the example with the inner blocks in place give the same results, for all values given to their inputs: the default value of the
second input of the inner block is kept. -/
example (so1 so2 : SetOrder) (x z y : Int) : GivesResult exAround so1 [(0, x), (2, z)] y ↔ GivesResult exUnfolded so2 [(0, x), (2, z)] y :=
  ⟨C186_unfold exAround_sub (by rw [show inputs (unfolded exAround exInner exAroundPre exAroundPost [2, 3] 4) = _ from exUnfolded_inputs]; simp) (exAround_given x z) so2,
    C186_fold exAround_sub exInner_needed (by rw [exAround_inputs]; simp) (exAround_given x z) so1⟩

/-- And they do give one: 2 * ((5 + 1) + 10) + 100. -/
example : (match run exAround dedupOrder [(0, 5), (2, 100)] with
    | .ok (some s) => s.outputValue
    | _ => none) = some 132 := by decide +kernel

example : (match run exUnfolded dedupOrder [(0, 5), (2, 100)] with
    | .ok (some s) => s.outputValue
    | _ => none) = some 132 := by decide +kernel

/-- The hypotheses of C28_result are met by the example. -/
example (so : SetOrder) (y : Int) : (∃ s, run exAround so [(0, 5), (2, 100)] = .ok (some s) ∧ s.outputValue = some y) ↔
    GivenSame exAround [(0, 5), (2, 100)] ∧ Den exAround (expected exAround [(0, 5), (2, 100)]) 7 y :=
  C28_result exAround_sub.outer.1 exAround_sub.outer.2.1 (i := 2) ⟨_, 7, rfl, rfl, by decide⟩ so _ rfl y

/-- The inner workflow with a block in front of its first input which its output does not need. -/
def exLoose : Workflow Int := { exInner with blocks := [⟨[20], [22], fun xs => .ok [xs.sum]⟩, ⟨[21, 23], [24], fun xs => .ok [2 * xs.sum]⟩], pipes := [], output := some 22 }

def exRaising : List (Block Int) := [⟨[0], [1], fun _ => .error .valueError⟩]
def exLooseAround : Workflow Int :=
  { blocks := exRaising ++ subBlock exLoose dedupOrder [2, 3, 8] 4 :: [], pipes := [⟨1, 3, false⟩], output := some 4, default := fun _ => some 1, lockFlag := fun _ => false }

/-- In C186_fold, that all the inputs are needed matters: here the block that raises gives an input which is not. -/
example : (match run exLooseAround dedupOrder [(1, 5)] with
    | .error e => some e
    | _ => none) = some PyErr.valueError ∧
    (match run (unfolded exLooseAround exLoose exRaising [] [2, 3, 8] 4) dedupOrder [(1, 5)] with
    | .ok (some s) => s.outputValue
    | _ => none) = some 5 := by decide +kernel

end DC.Wkf
