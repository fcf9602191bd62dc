import Verif.Workflow.DisplayProps
import Verif.Values.LoadLemmas
/- C108 to C112: concrete cases, selectors, reference paths. -/
namespace DC.Wkf
set_option linter.unusedSectionVars false

variable {α : Type} {W : Workflow α} {V : Nat → Option α}

/-! ### A concrete workflow -/

/-- Block 0 gives the output; block 1 doubles it, block 2 doubles this, block 3 adds these two and is displayed; block 4
doubles the output and is exported.  Used in proofs only (no code). -/
def showW : Workflow Int where
  blocks := [⟨[0], [1], dblEval⟩, ⟨[2], [3], dblEval⟩, ⟨[4], [5], dblEval⟩, ⟨[6, 7], [8], addEval⟩, ⟨[9], [10], dblEval⟩]
  pipes := [⟨1, 2, false⟩, ⟨3, 4, false⟩, ⟨3, 6, false⟩, ⟨5, 7, false⟩, ⟨1, 9, false⟩]
  output := some 1
  default _ := none
  lockFlag _ := false

/-- Used in proofs only (no code). -/
def showF (i : Nat) : Face :=
  if i = 3 then ⟨"", .display "markdown" none 0⟩ else if i = 4 then ⟨"Text", .export "txt"⟩ else {}

theorem showW_wf : WellFormed showW where
  distinct := by decide
  single := by decide
  target := by decide
  source := by decide
  acyclic := ⟨id, by decide, by decide⟩

theorem showW_locks : LocksOk showW := fun _ h => by simp [showW] at h

theorem showW_output : OutputOf showW 0 := ⟨_, 1, rfl, rfl, by simp⟩

theorem dblEval_len (xs ys : List Int) (h : dblEval xs = .ok ys) : ys.length = 1 := by
  unfold dblEval at h
  split at h
  · simp only [Except.ok.injEq] at h
    rw [← h]; rfl
  · simp at h

theorem addEval_len (xs ys : List Int) (h : addEval xs = .ok ys) : ys.length = 1 := by
  unfold addEval at h
  split at h
  · simp only [Except.ok.injEq] at h
    rw [← h]; rfl
  · simp at h

theorem showW_arity : Arity showW := by
  intro b hb xs ys h
  simp only [showW, List.mem_cons, List.not_mem_nil, or_false] at hb
  rcases hb with rfl | rfl | rfl | rfl | rfl
  · exact dblEval_len xs ys h
  · exact dblEval_len xs ys h
  · exact dblEval_len xs ys h
  · exact addEval_len xs ys h
  · exact dblEval_len xs ys h

theorem dblEval_ok (xs : List Int) (h : xs.length = 1) : ∃ ys, dblEval xs = .ok ys := by
  match xs, h with
  | [a], _ => exact ⟨[2 * a], rfl⟩

theorem addEval_ok (xs : List Int) (h : xs.length = 2) : ∃ ys, addEval xs = .ok ys := by
  match xs, h with
  | [a, b], _ => exact ⟨[a + b], rfl⟩

theorem showW_ok (b : Block Int) (hb : b ∈ showW.blocks) (xs : List Int) (h : xs.length = b.inputs.length) :
    ∃ ys, b.eval xs = .ok ys := by
  simp only [showW, List.mem_cons, List.not_mem_nil, or_false] at hb
  rcases hb with rfl | rfl | rfl | rfl | rfl
  · exact dblEval_ok xs h
  · exact dblEval_ok xs h
  · exact dblEval_ok xs h
  · exact addEval_ok xs h
  · exact dblEval_ok xs h

theorem showW_total : Total showW := fun b hb xs h => by
  obtain ⟨ys, hy⟩ := showW_ok b hb xs h
  exact ⟨ys, hy, showW_arity b hb xs ys hy⟩

theorem showW_leads {i : Nat} (h : Leads showW i) : i = 0 := by
  have hm := (runtimeBlocks_spec showW_wf showW_locks dedupOrder showW_output)
  obtain ⟨rt, h1, -, h2⟩ := hm
  have h3 : runtimeBlocks showW dedupOrder = .ok [0] := by rfl
  rw [h3] at h1
  cases h1
  simpa using (h2 i).2 h

/-- The hypotheses of `C108_display_partial` are met. -/
example : ∃ vw s r, setUp showW dedupOrder showF = .ok vw ∧ run showW dedupOrder [(0, 3)] = .ok (some s) ∧
    keepRun showW vw s = .ok r ∧ ∀ t, Viewed showW dedupOrder showF vw r t → ∃ ys, Gives showW (expected showW [(0, 3)]) 3 ys := by
  obtain ⟨vw, hv, -⟩ := setUp_ok showW_wf showW_locks dedupOrder showW_output showF
  obtain ⟨s, hs⟩ := C27_completes showW_wf showW_locks showW_output showW_total dedupOrder [(0, 3)] (by decide) (by decide)
  obtain ⟨r, hr, h⟩ := C108_display_partial showW_wf showW_locks showW_arity showW_output hv hs (i := 3) (by decide) rfl
    (fun h => absurd (showW_leads h) (by decide)) (by decide)
    (fun j b xs _ hb hx _ => showW_ok b (List.mem_of_getElem? hb) xs hx)
  exact ⟨vw, s, r, hv, hs, hr, fun t ht => (h t ht).imp fun _ h => h.1⟩

/-- The hypotheses of `C108_export_partial` are met. -/
example : ∃ vw s r, setUp showW dedupOrder showF = .ok vw ∧ run showW dedupOrder [(0, 3)] = .ok (some s) ∧
    keepRun showW vw s = .ok r ∧ ∀ t, Viewed showW dedupOrder showF vw r t → ∃ ys, Gives showW (expected showW [(0, 3)]) 4 ys := by
  obtain ⟨vw, hv, -⟩ := setUp_ok showW_wf showW_locks dedupOrder showW_output showF
  obtain ⟨s, hs⟩ := C27_completes showW_wf showW_locks showW_output showW_total dedupOrder [(0, 3)] (by decide) (by decide)
  obtain ⟨r, hr, h⟩ := C108_export_partial showW_wf showW_locks showW_arity showW_output hv hs (i := 4) (by decide) rfl
    (fun h => absurd (showW_leads h) (by decide)) (by decide)
    (fun j b xs _ hb hx _ => showW_ok b (List.mem_of_getElem? hb) xs hx)
  exact ⟨vw, s, r, hv, hs, hr, fun t ht => (h t ht).imp fun _ h => h.1⟩

/-- A test on the run made after the blocks `l` were evaluated too.  Used in proofs only (no code). -/
def onRun (W : Workflow Int) (F : Nat → Face) (user : List (Nat × Int)) (l : List Nat) (c : Views → St Int → Bool) : Bool :=
  match setUp W dedupOrder F, runtimeBlocks W dedupOrder, run W dedupOrder user with
  | .ok vw, .ok rt, .ok (some s) => match evalAll W rt l s with
    | .ok s' => match keepRun W vw s' with
      | .ok r => c vw r
      | .error _ => false
    | .error _ => false
  | _, _, _ => false

theorem onRun_true {W : Workflow Int} {F : Nat → Face} {user : List (Nat × Int)} {l : List Nat} {c : Views → St Int → Bool}
    (h : onRun W F user l c = true) : ∃ vw rt s s' r, setUp W dedupOrder F = .ok vw ∧ runtimeBlocks W dedupOrder = .ok rt ∧
      run W dedupOrder user = .ok (some s) ∧ evalAll W rt l s = .ok s' ∧ keepRun W vw s' = .ok r ∧ c vw r = true := by
  unfold onRun at h
  split at h
  · rename_i vw rt s h1 h2 h3
    split at h
    · rename_i s' h4
      split at h
      · rename_i r h5
        exact ⟨vw, rt, s, s', r, h1, h2, h3, h4, h5, h⟩
      · simp at h
    · simp at h
  · simp at h

/-- Used in proofs only (no code). -/
def isOk {β : Type} [DecidableEq β] (r : Except PyErr β) (l : β) : Bool := match r with
  | .ok l' => l' == l
  | .error _ => false

/-- Used in proofs only (no code). -/
def isErr {β : Type} (r : Except PyErr β) (e : PyErr) : Bool := match r with
  | .ok _ => false
  | .error e' => e' == e

theorem isErr_eq {β : Type} {r : Except PyErr β} {e : PyErr} (h : isErr r e = true) : r = .error e := by
  unfold isErr at h
  split at h
  · simp at h
  · simp only [beq_iff_eq] at h
    rw [h]

/-- What a user sees: the display, the export, then the display again, of the run on the input 3. -/
example : onRun showW showF [(0, 3)] [] (fun vw r => isOk (do
    let (r, x) ← blockDisplay showW dedupOrder showF vw r 3
    let (r, y) ← blockExport showW dedupOrder showF vw r 4
    let (_, z) ← blockDisplay showW dedupOrder showF vw r 3
    .ok [x, y, z]) [36, 12, 36]) = true := by decide +kernel

/-! ### C108: what does not hold -/

/-- **C108** A display which leads to the output of the workflow cannot be shown on a run: WorkflowError. -/
theorem C108_leading_violated : ∃ (W : Workflow Int) (F : Nat → Face) (vw : Views) (user : List (Nat × Int)) (s r : St Int)
    (i : Nat), WellFormed W ∧ LocksOk W ∧ OutputOf W i ∧ (F i).isDisplay = true ∧ setUp W dedupOrder F = .ok vw ∧
      run W dedupOrder user = .ok (some s) ∧ keepRun W vw s = .ok r ∧
      blockDisplay W dedupOrder F vw r i = .error .workflowError := by
  obtain ⟨vw, rt, s, s', r, h1, h2, h3, h4, h5, h6⟩ := onRun_true (W := { showW with output := some 8 }) (F := showF)
    (user := [(0, 3)]) (l := []) (c := fun vw r => isErr (blockDisplay { showW with output := some 8 } dedupOrder showF vw r 3)
      .workflowError) (by decide +kernel)
  cases h4
  exact ⟨{ showW with output := some 8 }, showF, vw, _, s, r, 3, ⟨showW_wf.1, showW_wf.2, showW_wf.3, showW_wf.4, showW_wf.5⟩,
    fun v h => by simp [showW] at h, ⟨_, 8, rfl, rfl, by simp⟩, rfl, h1, h3, h5, isErr_eq h6⟩

/-- Blocks 3 and 4 are displays with the same selector.  Used in proofs only (no code). -/
def clashF (i : Nat) : Face :=
  if i = 3 ∨ i = 4 then ⟨"", .display "plot_data" (some "view") 0⟩ else {}

/-- **C108** Of two displays with the same selector, the first cannot be shown: WorkflowError. -/
theorem C108_selector_violated : ∃ (W : Workflow Int) (F : Nat → Face) (vw : Views) (user : List (Nat × Int)) (s r : St Int)
    (i o : Nat), WellFormed W ∧ LocksOk W ∧ OutputOf W o ∧ i < W.blocks.length ∧ ¬ Leads W i ∧ (F i).isDisplay = true ∧
      setUp W dedupOrder F = .ok vw ∧ run W dedupOrder user = .ok (some s) ∧ keepRun W vw s = .ok r ∧
      blockDisplay W dedupOrder F vw r i = .error .workflowError := by
  obtain ⟨vw, rt, s, s', r, h1, h2, h3, h4, h5, h6⟩ := onRun_true (W := showW) (F := clashF)
    (user := [(0, 3)]) (l := []) (c := fun vw r => isErr (blockDisplay showW dedupOrder clashF vw r 3)
      .workflowError) (by decide +kernel)
  cases h4
  exact ⟨_, clashF, vw, _, s, r, 3, 0, showW_wf, showW_locks, showW_output, by decide,
    fun h => absurd (showW_leads h) (by decide), rfl, h1, h3, h5, isErr_eq h6⟩

theorem evalAll_reached {W : Workflow α} {V : Nat → Option α} {rt : List Nat} (l : List Nat) (s s' : St α)
    (hr : Reached W V s) (h : evalAll W rt l s = .ok s') : Reached W V s' := by
  induction l generalizing s with
  | nil =>
    simp only [evalAll, Except.ok.injEq] at h
    rw [← h]; exact hr
  | cons i l ih =>
    rw [evalAll, bind_ok] at h
    obtain ⟨⟨s1, r⟩, h1, h2⟩ := h
    exact ih s1 (.block hr h1) h2

/-- **C108** When blocks out of the way to the output were evaluated before the run was made of the state, a display which
would have been shown otherwise is a KeyError. -/
theorem C108_evaluated_violated : ∃ (W : Workflow Int) (F : Nat → Face) (vw : Views) (user : List (Nat × Int)) (s r : St Int)
    (i o : Nat), WellFormed W ∧ LocksOk W ∧ OutputOf W o ∧ i < W.blocks.length ∧ ¬ Leads W i ∧ (F i).isDisplay = true ∧
      (∀ j, (F j).isDisplay = true → j = i) ∧
      setUp W dedupOrder F = .ok vw ∧ Reached W (expected W user) s ∧ (∀ j, Leads W j → s.actBlock j = true) ∧ keepRun W vw s = .ok r ∧
      blockDisplay W dedupOrder F vw r i = .error .keyError := by
  obtain ⟨vw, rt, s, s', r, h1, h2, h3, h4, h5, h6⟩ := onRun_true (W := showW) (F := showF)
    (user := [(0, 3)]) (l := [1, 2]) (c := fun vw r => isErr (blockDisplay showW dedupOrder showF vw r 3)
      .keyError && r.actBlock 0) (by decide +kernel)
  rw [Bool.and_eq_true] at h6
  have ho : ∀ j, Leads showW j → s'.actBlock j = true := fun j hj => by
    rw [showW_leads hj, ← h6.2, (activateInputs_frame h5).blk]
  refine ⟨_, showF, vw, _, s', r, 3, 0, showW_wf, showW_locks, showW_output, by decide,
    fun h => absurd (showW_leads h) (by decide), rfl, fun j hj => ?_, h1, evalAll_reached _ _ _ (run_reached h3) h4, ho, h5, isErr_eq h6.1⟩
  unfold showF at hj
  split at hj
  · assumption
  · split at hj <;> simp [Face.isDisplay] at hj

/-! ### C109 -/

/-- The branch of the display of the example has its three blocks, and the pipe from the block which leads to the output is
memorized for it. -/
example : secondaryBranch showW dedupOrder 3 = .ok ([2, 1, 3], [0]) := by rfl

example : Missing showW 3 1 ∧ ¬ Missing showW 3 0 := by
  obtain ⟨br, mk, h1, h2, -⟩ := C109_branch showW_wf showW_locks dedupOrder showW_output (i := 3) (by decide)
  have : secondaryBranch showW dedupOrder 3 = .ok ([2, 1, 3], [0]) := by rfl
  rw [this] at h1
  cases h1
  exact ⟨(h2 1).1 (by decide), fun h => absurd ((h2 0).2 h) (by decide)⟩

/-- Without output. -/
example : secondaryBranch { showW with output := none } dedupOrder 3 = .error .typeError :=
  C109_no_output (W := { showW with output := none }) (i := 3) dedupOrder ⟨showW_wf.1, showW_wf.2, showW_wf.3, showW_wf.4, showW_wf.5⟩ (fun v h => by simp [showW] at h) rfl
    (j := 1) (by decide) ⟨_, _, ⟨3, 6, false⟩, rfl, rfl, by simp [showW], by simp, by simp⟩

/-- Block 1 is the source of blocks 2 and 3, which feed the display 4.  Used in proofs only (no code). -/
def twiceW : Workflow Int where
  blocks := [⟨[0], [1], dblEval⟩, ⟨[2], [3], dblEval⟩, ⟨[4], [5], dblEval⟩, ⟨[6], [7], dblEval⟩, ⟨[8, 9], [10], addEval⟩]
  pipes := [⟨1, 2, false⟩, ⟨3, 4, false⟩, ⟨3, 6, false⟩, ⟨5, 8, false⟩, ⟨7, 9, false⟩]
  output := some 1
  default _ := none
  lockFlag _ := false

/-- Used in proofs only (no code). -/
def twiceF (i : Nat) : Face := if i = 4 then ⟨"", .display "markdown" none 0⟩ else {}

theorem twiceW_wf : WellFormed twiceW where
  distinct := by decide
  single := by decide
  target := by decide
  source := by decide
  acyclic := ⟨id, by decide, by decide⟩

/-- **C109** A missing block which gives values to two other missing blocks is evaluated twice for one display. -/
theorem C109_once_violated : ∃ (W : Workflow Int) (F : Nat → Face) (vw : Views) (user : List (Nat × Int)) (s r t : St Int)
    (i j o : Nat) (y : Int), WellFormed W ∧ LocksOk W ∧ OutputOf W o ∧ (F i).isDisplay = true ∧ i ≠ j ∧
      setUp W dedupOrder F = .ok vw ∧ run W dedupOrder user = .ok (some s) ∧ keepRun W vw s = .ok r ∧
      blockDisplay W dedupOrder F vw r i = .ok (t, y) ∧ r.evaluated.count j = 0 ∧ t.evaluated.count j = 2 := by
  obtain ⟨vw, rt, s, s', r, h1, h2, h3, h4, h5, h6⟩ := onRun_true (W := twiceW) (F := twiceF)
    (user := [(0, 3)]) (l := []) (c := fun vw r => match blockDisplay twiceW dedupOrder twiceF vw r 4 with
      | .ok (t, _) => r.evaluated.count 1 == 0 && (t.evaluated.count 1 == 2)
      | .error _ => false) (by decide +kernel)
  cases h4
  split at h6
  · rename_i t y h7
    simp only [Bool.and_eq_true, beq_iff_eq] at h6
    exact ⟨_, twiceF, vw, _, s, r, t, 4, 1, 0, y, twiceW_wf, fun v h => by simp [twiceW] at h, ⟨_, 1, rfl, rfl, by simp⟩, rfl,
      by decide, h1, h3, h5, h7, h6⟩
  · simp at h6

/-! ### C110 -/

example : ∃ r, upstreamInputs exW dedupOrder 4 = .ok r ∧ r = [0, 10] := ⟨_, rfl, rfl⟩

/-- The input number 1, of variable 6, does not matter for the output. -/
example {x : Int} (h : Den exW (expected exW [(1, 1), (2, 5)]) 4 x) : Den exW (expected exW [(1, 8), (2, 5)]) 4 x := by
  refine C110_enough exW_wf exW_locks dedupOrder (i := 0) (r := [0, 10]) rfl (.inr (by simp)) rfl (fun k w hk hw => ?_) h
  rw [exW_inputs] at hk
  match k, hk with
  | 0, hk => rfl
  | 1, hk =>
    simp only [List.getElem?_cons_succ, List.getElem?_cons_zero, Option.some.injEq] at hk
    subst hk
    simp [exW] at hw
  | 2, hk => rfl
  | n + 3, hk => simp at hk

/-! ### C111: selectors -/

theorem toString_noParen (n : Nat) : '(' ∉ (toString n).toList := by
  have e : (toString n).toList = Nat.toDigits 10 n := Nat.toList_repr
  rw [e]
  intro h
  have : ('(').isDigit := Nat.isDigit_of_mem_toDigits (by decide) (by decide) h
  exact absurd this (by decide)

theorem last_part {β : Type} {c : β} (a a' d d' : List β) (h : a ++ c :: d = a' ++ c :: d') (hd : c ∉ d) (hd' : c ∉ d') :
    d = d' := by
  induction a generalizing a' with
  | nil =>
    cases a' with
    | nil => simpa using h
    | cons x a' =>
      simp only [List.nil_append, List.cons_append, List.cons.injEq] at h
      exact absurd (by rw [h.2]; simp) hd
  | cons x a ih =>
    cases a' with
    | nil =>
      simp only [List.nil_append, List.cons_append, List.cons.injEq] at h
      exact absurd (by rw [← h.2]; simp) hd'
    | cons y a' =>
      simp only [List.cons_append, List.cons.injEq] at h
      exact ih a' h.2

theorem generated_eq {F : Nat → Face} {i : Nat} (hi : ∀ t s n, (F i).role ≠ .display t (some s) n) :
    blockSelector F i = selectorName (F i) ++ " (" ++ toString i ++ ")" := by
  unfold blockSelector
  split
  · rename_i t s n h
    exact absurd h (hi t s n)
  · rfl

/-- **C111** Two blocks with no selector of their own have different selectors, whatever their names. -/
theorem C111_generated (F : Nat → Face) {i j : Nat} (hi : ∀ t s n, (F i).role ≠ .display t (some s) n)
    (hj : ∀ t s n, (F j).role ≠ .display t (some s) n) (h : blockSelector F i = blockSelector F j) : i = j := by
  rw [generated_eq hi, generated_eq hj] at h
  have h := congrArg String.toList h
  simp only [String.toList_append] at h
  have e : " (".toList = [' ', '('] := by decide
  have e' : ")".toList = [')'] := by decide
  rw [e, e'] at h
  have h2 : ((selectorName (F i)).toList ++ [' ']) ++ '(' :: ((toString i).toList ++ [')']) =
      ((selectorName (F j)).toList ++ [' ']) ++ '(' :: ((toString j).toList ++ [')']) := by simpa using h
  have hp : ∀ n : Nat, '(' ∉ (toString n).toList ++ [')'] := by
    intro n hn
    rcases List.mem_append.1 hn with hn | hn
    · exact toString_noParen n hn
    · simp at hn
  have h3 := last_part _ _ _ _ h2 (hp i) (hp j)
  have h4 := List.append_cancel_right h3
  exact toString_inj (String.toList_inj.1 h4)

/-- Blocks of the same name. -/
example : blockSelector (fun _ => ⟨"Text", .export "txt"⟩) 1 ≠ blockSelector (fun _ => ⟨"Text", .export "txt"⟩) 12 :=
  fun h => absurd (C111_generated _ (by simp) (by simp) h) (by decide)

/-- **C111** Displays with selectors of their own may clash, with each other and with a generated one. -/
theorem C111_explicit_violated : (∃ (F : Nat → Face) (i j : Nat), i ≠ j ∧ (F i).isDisplay = true ∧ (F j).isDisplay = true ∧
      blockSelector F i = blockSelector F j) ∧
    ∃ (F : Nat → Face) (i j : Nat) (s : String), i ≠ j ∧ (F i).role = .display "plot_data" (some s) 0 ∧
      (∀ t s n, (F j).role ≠ .display t (some s) n) ∧ (F j).isDisplay = true ∧ blockSelector F i = blockSelector F j :=
  ⟨⟨clashF, 3, 4, by decide, rfl, rfl, rfl⟩,
    ⟨fun i => if i = 0 then ⟨"", .display "plot_data" (some "markdown (1)") 0⟩ else ⟨"", .display "markdown" none 0⟩, 0, 1,
      "markdown (1)", by decide, rfl, by simp, rfl, by decide⟩⟩

/-! ### C112: reference paths of the displays -/

/-- The pipe `m` enters the displayed input of the display block `i`.  Used in proofs only (no code). -/
def ShownBy (W : Workflow α) (F : Nat → Face) (i m : Nat) (p : Pipe) : Prop :=
  ∃ t s n b, (F i).role = .display t s n ∧ W.blocks[i]? = some b ∧ W.pipes[m]? = some p ∧ b.inputs[n]? = some p.output

theorem referencePipe_of (hw : WellFormed W) {F : Nat → Face} {i m : Nat} {p : Pipe} (h : ShownBy W F i m p) :
    referencePipe W F i = .ok (some m) := by
  obtain ⟨t, s, n, b, h1, h2, h3, h4⟩ := h
  unfold referencePipe
  simp only [h1, h2, h4, inputPipe_unique hw.single h3]

theorem ShownBy.wanted {F : Nat → Face} {i m : Nat} {p : Pipe} (h : ShownBy W F i m p) : Wanted W F p.output := by
  obtain ⟨t, s, n, b, h1, h2, h3, h4⟩ := h
  exact ⟨i, i, b, (List.getElem?_eq_some_iff.1 h2).1, .inl (by simp [Face.isDisplay, h1]), .self, h2, List.mem_of_getElem? h4⟩

theorem valueAt_of {F : Nat → Face} (hw : WellFormed W) {i m : Nat} {p : Pipe} (hp : ShownBy W F i m p) {s : St α}
    (hI : Viewable W V F s) (ha : s.actVar p.output = true) : ∃ x, valueAt W s m = .ok x ∧ Den W V p.input x := by
  have hw' := hp.wanted
  obtain ⟨t, s', n, b, h1, h2, h3, h4⟩ := hp
  have := hI.kept.fed p.output m hw' ha (inputPipe_unique hw.single h3)
  obtain ⟨x, hx⟩ := Option.isSome_iff_exists.1 this
  refine ⟨x, ?_, hI.kept.val m p x h3 hx⟩
  unfold valueAt
  rw [if_pos (List.getElem?_eq_some_iff.1 h3).1, hx]

/-- **C112** On a run, whatever displays and exports were asked before, the reference path of a display designates the
value which its displayed input must hold, when this value comes from an input of the workflow or from a block which leads
to the output.

Missing: a display whose input comes from an other block, before it is shown, or comes from no pipe. -/
theorem C112_run_partial (hw : WellFormed W) (hl : LocksOk W) (hlen : Arity W) {so so' : SetOrder} {o : Nat}
    (ho : OutputOf W o) {F : Nat → Face} {vw : Views} (hs : setUp W so F = .ok vw) {user : List (Nat × α)} {s r t : St α}
    (h : run W so' user = .ok (some s)) (hr : keepRun W vw s = .ok r) (ht : Viewed W so F vw r t) {i m : Nat} {p : Pipe}
    (hp : ShownBy W F i m p) (hsrc : p.input ∈ inputs W ∨ ∃ j c, W.blocks[j]? = some c ∧ p.input ∈ c.outputs ∧ Leads W j) :
    referencePipe W F i = .ok (some m) ∧ ∃ x, valueAt W t m = .ok x ∧ Den W (expected W user) p.input x := by
  have hI := ht.viewable hw (run_viewable hw hl ho hs h hr)
  refine ⟨referencePipe_of hw hp, valueAt_of hw hp hI ?_⟩
  obtain ⟨-, -, -, -, -, -, hpm, -⟩ := id hp
  have hact : t.actVar p.input = true := by
    rcases hsrc with hsrc | ⟨j, c, hc, hpc, hj⟩
    · exact hI.full _ hsrc
    · obtain ⟨c', xs, ys, k1, -, -, k4, -, k6⟩ := hI.kept.blk j (hI.lead j hj)
      rw [hc] at k1
      cases k1
      have hl' := hlen c (List.mem_of_getElem? hc) xs ys k4
      obtain ⟨n, hn⟩ := List.getElem?_of_mem hpc
      have hnl := (List.getElem?_eq_some_iff.1 hn).1
      exact k6 (p.input, ys[n]'(by omega)) (List.mem_of_getElem? (List.getElem?_zip_eq_some.2 ⟨hn, by simp⟩ : _ = some _) (i := n))
  obtain ⟨x, -, h3, -⟩ := hI.kept.var _ hact
  exact h3 _ (.single ⟨p, List.mem_of_getElem? hpm, rfl, rfl⟩)

/-- **C112** The run keeps the value which the execution left on each pipe that the user asked to memorize, and on each pipe
which enters the displayed input of a display. -/
theorem C112_kept (hw : WellFormed W) (hl : LocksOk W) {so so' : SetOrder} {o : Nat} (ho : OutputOf W o) {F : Nat → Face}
    {vw : Views} (hs : setUp W so F = .ok vw) {user : List (Nat × α)} {s r : St α} (h : run W so' user = .ok (some s))
    (hr : keepRun W vw s = .ok r) {m : Nat} {p : Pipe} (hp : W.pipes[m]? = some p)
    (hm : p.memorize = true ∨ ∃ i, ShownBy W F i m p) {x : α} (hx : s.values m = some x) : r.values m = some x := by
  have hk : memorized W vw m = true := by
    unfold memorized
    rw [hp]
    rcases hm with hm | ⟨i, t, e, n, b, h1, h2, -, h4⟩
    · simp [hm]
    · obtain ⟨vw', h0, -, -, -, -, h5⟩ := setUp_ok hw hl so ho F
      rw [hs] at h0
      cases h0
      have : m ∈ shownMark W F i := by
        unfold shownMark
        simp only [h1, h2, h4, inputPipe_unique hw.single hp, Option.toList_some, List.mem_singleton]
      simp [h5 i (List.getElem?_eq_some_iff.1 h2).1 m this]
  have hI := run_viewable hw hl ho hs h hr
  have hf := activateInputs_frame hr
  have := hf.val m (by simp [hk, hx])
  obtain ⟨y, hy⟩ := Option.isSome_iff_exists.1 this
  have h1 := ((run_reached h).good hw).val m p x hp hx
  rw [hy, (hI.kept.val m p y hp hy).unique hw h1]

theorem branchStepOut_act (l : List Nat) (d d' : List (Nat × List α)) (s s' : St α)
    (hd : ∀ j ∈ d.map (·.1), s.actBlock j = true) (h : branchStepOut W l d s = .ok (s', d')) :
    ∀ j ∈ d'.map (·.1), s'.actBlock j = true := by
  induction l generalizing s d with
  | nil =>
    simp only [branchStepOut, Except.ok.injEq, Prod.mk.injEq] at h
    rw [← h.1, ← h.2]; exact hd
  | cons i l ih =>
    rw [branchStepOut, bind_ok] at h
    obtain ⟨⟨s1, ys⟩, h1, h2⟩ := h
    refine ih _ s1 (fun j hj => ?_) h2
    rw [(evaluateBlock_step h1).blk]
    rw [setEntry_keys] at hj
    split at hj
    · exact .inl (hd j hj)
    · rcases List.mem_append.1 hj with hj | hj
      · exact .inl (hd j hj)
      · exact .inr (by simpa using hj)

theorem branchLoopOut_act {rt blocks : List Nat} (n : Nat) (d d' : List (Nat × List α)) (s s' : St α)
    (hd : ∀ j ∈ d.map (·.1), s.actBlock j = true) (h : branchLoopOut W rt blocks n d s = .ok (s', d')) :
    ∀ j ∈ d'.map (·.1), s'.actBlock j = true := by
  induction n generalizing d s with
  | zero =>
    simp only [branchLoopOut, Except.ok.injEq, Prod.mk.injEq] at h
    rw [← h.1, ← h.2]; exact hd
  | succ n ih =>
    rw [branchLoopOut] at h
    split at h
    · simp only [Except.ok.injEq, Prod.mk.injEq] at h
      rw [← h.1, ← h.2]; exact hd
    · rw [bind_ok] at h
      obtain ⟨⟨s1, d1⟩, h1, h2⟩ := h
      exact ih _ s1 (branchStepOut_act _ _ _ _ _ hd h1) h2

theorem lookup_key {β : Type} {l : List (Nat × β)} {k : Nat} {x : β} (h : l.lookup k = some x) : k ∈ l.map (·.1) := by
  induction l with
  | nil => simp at h
  | cons e l ih =>
    obtain ⟨k', y⟩ := e
    rw [List.lookup_cons] at h
    by_cases hk : k = k'
    · subst hk; simp
    · have hb : (k == k') = false := by simpa using hk
      rw [hb] at h
      exact .tail _ (ih h)

theorem blockDisplay_act {so : SetOrder} {F : Nat → Face} {vw : Views} {i : Nat} {y : α} {s s' : St α}
    (h : blockDisplay W so F vw s i = .ok (s', y)) : s'.actBlock i = true := by
  unfold blockDisplay at h
  rw [bind_ok] at h
  obtain ⟨s1, h1, h⟩ := h
  split at h
  · split at h
    · simp at h
    · rw [bind_ok] at h
      obtain ⟨rt, -, h⟩ := h
      rw [bind_ok] at h
      obtain ⟨⟨s2, d⟩, h2, h⟩ := h
      rw [bind_ok] at h
      obtain ⟨y', h3, h⟩ := h
      simp only [Except.ok.injEq, Prod.mk.injEq] at h
      rw [← h.1]
      unfold evaluateBranchOut at h2
      rw [bind_ok] at h2
      obtain ⟨s3, -, h2⟩ := h2
      split at h2
      · refine branchLoopOut_act _ _ _ _ _ (by simp) h2 i ?_
        unfold firstOutput at h3
        split at h3
        · simp at h3
        · simp at h3
        · rename_i hk
          exact lookup_key hk
      · simp at h2
  · simp at h

/-- **C112** Once the display was shown, its reference path designates the value which its displayed input must hold,
wherever it comes from.
Missing: displays which were not shown, or whose input comes from no pipe (`C112_secondary_violated`, `C112_unwired_violated`). -/
theorem C112_after_partial (hw : WellFormed W) (hl : LocksOk W) {so so' : SetOrder} {o : Nat}
    (ho : OutputOf W o) {F : Nat → Face} {vw : Views} (hs : setUp W so F = .ok vw) {user : List (Nat × α)} {s r t t' : St α}
    (h : run W so' user = .ok (some s)) (hr : keepRun W vw s = .ok r) (ht : Viewed W so F vw r t) {i m : Nat} {p : Pipe}
    (hp : ShownBy W F i m p) {y : α} (hd : blockDisplay W so F vw t i = .ok (t', y)) :
    referencePipe W F i = .ok (some m) ∧ ∃ x, valueAt W t' m = .ok x ∧ Den W (expected W user) p.input x := by
  have hI := (ht.viewable hw (run_viewable hw hl ho hs h hr)).display hw hd
  refine ⟨referencePipe_of hw hp, valueAt_of hw hp hI ?_⟩
  obtain ⟨-, -, n, b, -, hb, hpm, hn⟩ := id hp
  have hai := blockDisplay_act hd
  obtain ⟨b', xs, ys, k1, -, -, -, k5, -⟩ := hI.kept.blk i hai
  rw [hb] at k1
  cases k1
  exact k5 _ (List.mem_of_getElem? hn)

/-- The two theorems on a display fed by a block which leads to the output: `exW`, whose block 2 is displayed.  Used in proofs only (no code). -/
def readF (i : Nat) : Face := if i = 2 then ⟨"", .display "markdown" none 0⟩ else {}

theorem exW_arity : Arity exW := by
  intro b hb xs ys h
  simp only [exW, List.mem_cons, List.not_mem_nil, or_false] at hb
  rcases hb with rfl | rfl | rfl
  · exact dblEval_len xs ys h
  · exact addEval_len xs ys h
  · exact addEval_len xs ys h

example : ∃ vw s r x, setUp exW dedupOrder readF = .ok vw ∧ run exW dedupOrder [(1, 1), (2, 5)] = .ok (some s) ∧
    keepRun exW vw s = .ok r ∧ valueAt exW r 2 = .ok x ∧ Den exW (expected exW [(1, 1), (2, 5)]) 2 x := by
  obtain ⟨vw, hv, -⟩ := setUp_ok exW_wf exW_locks dedupOrder exW_output readF
  obtain ⟨s, hs⟩ := C27_completes exW_wf exW_locks exW_output exW_total dedupOrder [(1, 1), (2, 5)] (by decide) (by decide)
  obtain ⟨r, hr⟩ := activateInputs_total exW_wf exW_locks
    { s with values := fun j => if memorized exW vw j then s.values j else none }
  obtain ⟨-, x, h1, h2⟩ := C112_run_partial exW_wf exW_locks exW_arity exW_output hv hs hr .start (i := 2) (m := 2)
    (p := ⟨2, 5, true⟩) ⟨"markdown", none, 0, _, rfl, rfl, rfl, rfl⟩ (.inr ⟨1, _, rfl, by simp,
      .feeds (.output exW_output) ⟨_, _, ⟨2, 3, false⟩, rfl, rfl, by simp [exW], by simp, by simp⟩⟩)
  exact ⟨vw, s, r, x, hv, hs, hr, h1, h2⟩

/-- The value on a pipe which the user asked to memorize, and on the pipe which enters the display, are kept. -/
example : (exW.pipes[2]?.map (·.memorize)) = some true ∧ ShownBy exW readF 2 2 ⟨2, 5, true⟩ ∧
    onRun exW readF [(1, 1), (2, 5)] [] (fun _ r => r.values 2 == some 12) = true :=
  ⟨rfl, ⟨"markdown", none, 0, _, rfl, rfl, rfl, rfl⟩, by decide +kernel⟩

/-- Values on the path of the display, when its input comes from block 1, out of the way to the output: none before the
display is shown, 12 afterwards. -/
example : onRun showW showF [(0, 3)] [] (fun vw r => isErr (valueAt showW r 2) .keyError && isOk (do
    let (r, _) ← blockDisplay showW dedupOrder showF vw r 3
    valueAt showW r 2) 12) = true := by decide +kernel

/-- **C112** The reference path of a display of a run may designate nothing: KeyError, as long as the display was not shown,
when its input comes from a block out of the way to the output. -/
theorem C112_secondary_violated : ∃ (W : Workflow Int) (F : Nat → Face) (vw : Views) (user : List (Nat × Int)) (s r : St Int)
    (i o m : Nat) (p : Pipe), WellFormed W ∧ LocksOk W ∧ OutputOf W o ∧ ShownBy W F i m p ∧
      setUp W dedupOrder F = .ok vw ∧ run W dedupOrder user = .ok (some s) ∧ keepRun W vw s = .ok r ∧
      referencePipe W F i = .ok (some m) ∧ valueAt W r m = .error .keyError := by
  obtain ⟨vw, rt, s, s', r, h1, h2, h3, h4, h5, h6⟩ := onRun_true (W := showW) (F := showF)
    (user := [(0, 3)]) (l := []) (c := fun vw r => isErr (valueAt showW r 2) .keyError) (by decide +kernel)
  cases h4
  exact ⟨_, showF, vw, _, s, r, 3, 0, 2, ⟨3, 6, false⟩, showW_wf, showW_locks, showW_output,
    ⟨"markdown", none, 0, _, rfl, rfl, rfl, rfl⟩, h1, h3, h5, rfl, isErr_eq h6⟩

/-- **C112** The display settings of a workflow are a ValueError when the displayed input of a display is an input of the
workflow. -/
theorem C112_unwired_violated : ∃ (W : Workflow Int) (F : Nat → Face) (i o : Nat) (vw : Views), WellFormed W ∧ LocksOk W ∧ OutputOf W o ∧
    (F i).isDisplay = true ∧ i < W.blocks.length ∧ setUp W dedupOrder F = .ok vw ∧ referencePipe W F i = .error .valueError := by
  obtain ⟨vw, hv, -⟩ := setUp_ok exW_wf exW_locks dedupOrder exW_output
    (fun i => if i = 2 then ⟨"", .display "markdown" none 1⟩ else {})
  exact ⟨exW, _, 2, 0, vw, exW_wf, exW_locks, exW_output, rfl, by decide, hv, rfl⟩

end DC.Wkf
