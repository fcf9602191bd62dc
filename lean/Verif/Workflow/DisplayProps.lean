import Verif.Workflow.BranchProps
import Verif.Workflow.SavedProps
/- C108: displays and exports of a completed run. -/
namespace DC.Wkf
set_option linter.unusedSectionVars false

variable {α : Type} {W : Workflow α} {V : Nat → Option α}

/-! ### Selectors -/

theorem lastEntry_eq {β : Type} {l : List (String × β)} {k : String} {x : β} (h1 : (k, x) ∈ l)
    (h2 : ∀ e ∈ l, e.1 = k → e.2 = x) : lastEntry l k = some x := by
  unfold lastEntry
  have hne : l.filter (fun e => e.1 == k) ≠ [] := List.ne_nil_of_mem (List.mem_filter.2 ⟨h1, by simp⟩)
  rw [List.getLast?_eq_some_getLast hne]
  have := List.mem_filter.1 (List.getLast_mem hne)
  rw [Option.map_some, h2 _ this.1 (by simpa using this.2)]

theorem branchesOf_spec (hw : WellFormed W) (hl : LocksOk W) (so : SetOrder) {o : Nat} (ho : OutputOf W o) (F : Nat → Face)
    (l : List Nat) (hlt : ∀ i ∈ l, i < W.blocks.length) : ∃ d m, branchesOf W so F l = .ok (d, m) ∧
      (∀ i ∈ l, ∃ br mk, secondaryBranch W so i = .ok (br, mk) ∧ (blockSelector F i, br) ∈ d ∧ ∀ x ∈ mk, x ∈ m) ∧
      ∀ e ∈ d, ∃ i ∈ l, ∃ mk, e.1 = blockSelector F i ∧ secondaryBranch W so i = .ok (e.2, mk) := by
  induction l with
  | nil => exact ⟨[], [], rfl, by simp, by simp⟩
  | cons i l ih =>
    obtain ⟨d, m, h1, h2, h3⟩ := ih (fun j hj => hlt j (.tail _ hj))
    obtain ⟨br, mk, h4, -⟩ := C109_branch hw hl so ho (hlt i (.head _))
    refine ⟨(blockSelector F i, br) :: d, mk ++ m, ?_, fun j hj => ?_, fun e he => ?_⟩
    · rw [branchesOf]
      simp only [h4, h1, bind, Except.bind]
    · rcases List.mem_cons.1 hj with rfl | hj
      · exact ⟨br, mk, h4, .head _, fun x hx => List.mem_append_left _ hx⟩
      · obtain ⟨br', mk', h5, h6, h7⟩ := h2 j hj
        exact ⟨br', mk', h5, .tail _ h6, fun x hx => List.mem_append_right _ (h7 x hx)⟩
    · rcases List.mem_cons.1 he with rfl | he
      · exact ⟨i, .head _, mk, rfl, h4⟩
      · obtain ⟨j, hj, mk', h5, h6⟩ := h3 e he
        exact ⟨j, .tail _ hj, mk', h5, h6⟩

theorem setUp_ok (hw : WellFormed W) (hl : LocksOk W) (so : SetOrder) {o : Nat} (ho : OutputOf W o) (F : Nat → Face) :
    ∃ vw, setUp W so F = .ok vw ∧
      (∀ i ∈ displayBlocks W F, ∃ br mk, secondaryBranch W so i = .ok (br, mk) ∧ (blockSelector F i, br) ∈ vw.displays ∧
        ∀ x ∈ mk, x ∈ vw.marks) ∧
      (∀ e ∈ vw.displays, ∃ i ∈ displayBlocks W F, ∃ mk, e.1 = blockSelector F i ∧ secondaryBranch W so i = .ok (e.2, mk)) ∧
      (∀ i ∈ exportBlocks W F, ∃ br mk, secondaryBranch W so i = .ok (br, mk) ∧ (blockSelector F i, br) ∈ vw.exports ∧
        ∀ x ∈ mk, x ∈ vw.marks) ∧
      (∀ e ∈ vw.exports, ∃ i ∈ exportBlocks W F, ∃ mk, e.1 = blockSelector F i ∧ secondaryBranch W so i = .ok (e.2, mk)) ∧
      ∀ i, i < W.blocks.length → ∀ x ∈ shownMark W F i, x ∈ vw.marks := by
  obtain ⟨d, m, h1, h2, h3⟩ := branchesOf_spec hw hl so ho F (displayBlocks W F)
    (fun i hi => by simpa using (List.mem_filter.1 hi).1)
  obtain ⟨e, n, k1, k2, k3⟩ := branchesOf_spec hw hl so ho F (exportBlocks W F)
    (fun i hi => by simpa using (List.mem_filter.1 hi).1)
  refine ⟨⟨d, e, (List.range W.blocks.length).flatMap (shownMark W F) ++ m ++ n⟩, ?_, fun i hi => ?_, h3, fun i hi => ?_, k3,
    fun i hi x hx => ?_⟩
  · unfold setUp
    simp only [h1, k1, bind, Except.bind]
  · obtain ⟨br, mk, a, b, c⟩ := h2 i hi
    exact ⟨br, mk, a, b, fun x hx => List.mem_append_left _ (List.mem_append_right _ (c x hx))⟩
  · obtain ⟨br, mk, a, b, c⟩ := k2 i hi
    exact ⟨br, mk, a, b, fun x hx => List.mem_append_right _ (c x hx)⟩
  · exact List.mem_append_left _ (List.mem_append_left _ (List.mem_flatMap.2 ⟨i, by simpa using hi, hx⟩))

/-! ### Invariant of the runs -/

/-- The variable is an input of a block to evaluate for a display or an export. -/
def Wanted (W : Workflow α) (F : Nat → Face) (v : Nat) : Prop :=
  ∃ i k b, i < W.blocks.length ∧ ((F i).isDisplay = true ∨ (F i).isExport = true) ∧ Missing W i k ∧
    W.blocks[k]? = some b ∧ v ∈ b.inputs

structure Viewable (W : Workflow α) (V : Nat → Option α) (F : Nat → Face) (s : St α) : Prop where
  kept : Kept W V (Wanted W F) s
  full : ∀ v ∈ inputs W, s.actVar v = true
  lead : ∀ j, Leads W j → s.actBlock j = true

theorem Missing.lt {i j : Nat} (hi : i < W.blocks.length) (h : Missing W i j) : j < W.blocks.length := by
  cases h with
  | self => exact hi
  | up _ hf _ => exact hf.lt.1

theorem Missing.secondary {i j : Nat} (hi : ¬ Leads W i) (h : Missing W i j) : ¬ Leads W j := by
  cases h with
  | self => exact hi
  | up _ _ hn => exact hn

/-- The values which the displays and exports need are kept. -/
theorem keepRun_marked (hw : WellFormed W) (hl : LocksOk W) {so : SetOrder} {o : Nat} (ho : OutputOf W o) {F : Nat → Face}
    {vw : Views} (hs : setUp W so F = .ok vw) {v m j : Nat} {c : Block α} {p : Pipe} (hv : Wanted W F v)
    (hp : W.pipes[m]? = some p) (hpv : p.output = v) (hc : W.blocks[j]? = some c) (hpc : p.input ∈ c.outputs)
    (hj : Leads W j) : memorized W vw m = true := by
  obtain ⟨vw', h0, h1, -, h3, -, -⟩ := setUp_ok hw hl so ho F
  rw [hs] at h0
  cases h0
  obtain ⟨i, k, b, hi, hsh, hm, hb, hvb⟩ := hv
  have key : m ∈ vw.marks := by
    have : ∃ br mk, secondaryBranch W so i = .ok (br, mk) ∧ ∀ x ∈ mk, x ∈ vw.marks := by
      rcases hsh with hd | hd
      · obtain ⟨br, mk, a, -, b⟩ := h1 i (List.mem_filter.2 ⟨by simpa using hi, hd⟩)
        exact ⟨br, mk, a, b⟩
      · obtain ⟨br, mk, a, -, b⟩ := h3 i (List.mem_filter.2 ⟨by simpa using hi, hd⟩)
        exact ⟨br, mk, a, b⟩
    obtain ⟨br, mk, a, a'⟩ := this
    obtain ⟨br', mk', e1, -, e2⟩ := C109_branch hw hl so ho hi
    rw [a] at e1
    simp only [Except.ok.injEq, Prod.mk.injEq] at e1
    obtain ⟨rfl, rfl⟩ := e1
    exact a' m ((e2 m).2 ⟨k, b, j, c, p, hm, hb, hc, hj, hp, hpc, by rw [hpv]; exact hvb⟩)
  unfold memorized
  rw [hp]
  simp [key]

/-- The run made of a complete state. -/
theorem keepRun_viewable (hw : WellFormed W) (hl : LocksOk W) {so : SetOrder} {o : Nat} (ho : OutputOf W o) {F : Nat → Face}
    {vw : Views} (hs : setUp W so F = .ok vw) {s r : St α} (hg : Good W V s)
    (hin : ∀ k v, (inputs W)[k]? = some v → (s.inputValues k).isSome) (hlead : ∀ j, Leads W j → s.actBlock j = true)
    (hev : ∀ j ∈ s.evaluated, Leads W j) (h : keepRun W vw s = .ok r) : Viewable W V F r := by
  unfold keepRun at h
  have hI : Kept W V (fun _ => False) { s with values := fun j => if memorized W vw j then s.values j else none } := by
    refine ⟨hg.iv, fun j p x hp hx => ?_, hg.out, fun v hv => ?_, fun _ _ h => h.elim, fun _ _ h => h.elim, hg.blk, hg.src,
      fun i hi => ?_⟩
    · simp only at hx
      split at hx
      · exact hg.val j p x hp hx
      · simp at hx
    · obtain ⟨x, h1, -, h3, h4⟩ := hg.var v hv
      exact ⟨x, h1, h3, h4⟩
    · have := hev i hi
      cases this with
      | output h =>
        obtain ⟨b, -, hb, -⟩ := h
        exact (List.getElem?_eq_some_iff.1 hb).1
      | feeds _ hf => exact hf.lt.1
  obtain ⟨hI', hgv⟩ := hI.activateInputs hw h
  have hf := activateInputs_frame h
  have hgiven : ∀ k v, (inputs W)[k]? = some v → Given W r k v := fun k v hk => by
    refine hgv k v hk (.inl ?_)
    obtain ⟨x, hx⟩ := Option.isSome_iff_exists.1 (hin k v hk)
    show (s.inputValues k <|> _).isSome = true
    rw [hx]; rfl
  refine ⟨{ hI' with fed := fun v m hv ha hm => ?_, fedIn := fun k v _ hk _ => (hgiven k v hk).2.1 }, fun v hv => ?_,
    fun j hj => by rw [hf.blk]; exact hlead j hj⟩
  · obtain ⟨p, hp, hpv⟩ := inputPipe_some hm
    have hpm := List.mem_of_getElem? hp
    by_cases hc : ∃ c ∈ W.blocks, p.input ∈ c.outputs
    · obtain ⟨c, hcm, hpc⟩ := hc
      obtain ⟨j, hj⟩ := List.getElem?_of_mem hcm
      have hsv : s.actVar v = true := by
        rcases activateInputs_var hw h v ha with h | ⟨k, u, hk, hfl, -⟩
        · exact h
        · exfalso
          rcases Relation.ReflTransGen.cases_tail hfl with he | ⟨w, hw', q, hq, h4, h5⟩
          · subst he
            exact hw.input_free (List.mem_of_getElem? hk) p hpm hpv
          · obtain ⟨n, hn⟩ := List.getElem?_of_mem hq
            have e := inputPipe_unique hw.single hn
            rw [h5, hm] at e
            cases e
            rw [hp] at hn
            cases hn
            rw [← h4] at hw'
            have := flow_eq hw hw' (fun b' hb' h => hw.source p hpm b' hb' h)
            rw [this] at hpc
            exact (mem_inputs.1 (List.mem_of_getElem? hk)).2.1 c hcm hpc
      obtain ⟨p', x, hp', hx, hpa⟩ := hg.fed v m hsv hm
      rw [hp] at hp'
      cases hp'
      have hjl : Leads W j := hev j ((hg.src j c _ hj hpc hpa).resolve_right id)
      refine hf.val m ?_
      simp only [keepRun_marked hw hl ho hs hv hp hpv hj hpc hjl, if_true, hx]
      rfl
    · push Not at hc
      have hpin : p.input ∈ inputs W := by
        rw [mem_inputs]
        refine ⟨mem_allVariables.2 (.inr ⟨p, hpm, .inl rfl⟩), hc, fun q hq hqo => ?_⟩
        obtain ⟨c, hcm, hci⟩ := hw.target q hq
        rw [hqo] at hci
        exact absurd hci (hw.source p hpm c hcm)
      obtain ⟨k, hk⟩ := List.getElem?_of_mem hpin
      exact (hgiven k _ hk).2.2 m p hp .refl
  · obtain ⟨k, hk⟩ := List.getElem?_of_mem hv
    exact (hgiven k v hk).1

theorem Viewable.activate {F : Nat → Face} (hw : WellFormed W) {c : Bool} {s s' : St α} (h : Viewable W V F s)
    (ha : activateInputs W c s = .ok s') : Viewable W V F s' :=
  ⟨(h.kept.activateInputs hw ha).1, fun v hv => (activateInputs_frame ha).var v (h.full v hv),
    fun j hj => by rw [(activateInputs_frame ha).blk]; exact h.lead j hj⟩

theorem Viewable.evaluateBlock {F : Nat → Face} (hw : WellFormed W) {b : Block α} {i : Nat} (hb : W.blocks[i]? = some b)
    {s s' : St α} {ys : List α} (h : Viewable W V F s) (ha : byInputs s b = true)
    (he : Wkf.evaluateBlock W s i = .ok (s', ys)) : Viewable W V F s' :=
  ⟨h.kept.evaluateBlock hw hb ha he, fun v hv => (evaluateBlock_step he).var v (h.full v hv),
    fun j hj => ((evaluateBlock_step he).blk j).2 (.inl (h.lead j hj))⟩

theorem Viewable.branchStepOut {F : Nat → Face} (hw : WellFormed W) (l : List Nat) (d d' : List (Nat × List α)) (s s' : St α)
    (ha : ∀ i ∈ l, ∃ b, W.blocks[i]? = some b ∧ byInputs s b = true) (hI : Viewable W V F s)
    (h : Wkf.branchStepOut W l d s = .ok (s', d')) : Viewable W V F s' := by
  induction l generalizing s d with
  | nil =>
    simp only [Wkf.branchStepOut, Except.ok.injEq, Prod.mk.injEq] at h
    rw [← h.1]; exact hI
  | cons i l ih =>
    rw [Wkf.branchStepOut, bind_ok] at h
    obtain ⟨⟨s1, ys⟩, h1, h2⟩ := h
    obtain ⟨b, hb, hby⟩ := ha i (.head _)
    refine ih _ s1 (fun j hj => ?_) (hI.evaluateBlock hw hb hby h1) h2
    obtain ⟨c, hc, hbc⟩ := ha j (.tail _ hj)
    refine ⟨c, hc, ?_⟩
    simp only [byInputs, List.all_eq_true] at hbc ⊢
    exact fun v hv => (evaluateBlock_step h1).var v (hbc v hv)

theorem Viewable.branchLoopOut {F : Nat → Face} (hw : WellFormed W) {rt blocks : List Nat} (n : Nat)
    (d d' : List (Nat × List α)) (s s' : St α) (hI : Viewable W V F s)
    (h : Wkf.branchLoopOut W rt blocks n d s = .ok (s', d')) : Viewable W V F s' := by
  induction n generalizing d s with
  | zero =>
    simp only [Wkf.branchLoopOut, Except.ok.injEq, Prod.mk.injEq] at h
    rw [← h.1]; exact hI
  | succ n ih =>
    rw [Wkf.branchLoopOut] at h
    split at h
    · simp only [Except.ok.injEq, Prod.mk.injEq] at h
      rw [← h.1]; exact hI
    · rw [bind_ok] at h
      obtain ⟨⟨s1, d1⟩, h1, h2⟩ := h
      refine ih _ s1 (Viewable.branchStepOut hw _ _ _ s s1 (fun i hi => ?_) hI h1) h2
      rw [List.mem_filter, Bool.and_eq_true] at hi
      exact activable_byInputs hi.2.1

theorem Viewable.evaluateBranchOut {F : Nat → Face} (hw : WellFormed W) {rt blocks : List Nat} {d' : List (Nat × List α)}
    {s s' : St α} (hI : Viewable W V F s) (h : Wkf.evaluateBranchOut W rt blocks s = .ok (s', d')) : Viewable W V F s' := by
  unfold Wkf.evaluateBranchOut at h
  rw [bind_ok] at h
  obtain ⟨s1, h1, h⟩ := h
  split at h
  · exact Viewable.branchLoopOut hw _ _ _ _ _ (hI.activate hw h1) h
  · simp at h

theorem Viewable.display {F : Nat → Face} (hw : WellFormed W) {so : SetOrder} {vw : Views} {i : Nat} {y : α} {s s' : St α}
    (hI : Viewable W V F s) (h : blockDisplay W so F vw s i = .ok (s', y)) : Viewable W V F s' := by
  unfold blockDisplay at h
  rw [bind_ok] at h
  obtain ⟨s1, h1, h⟩ := h
  split at h
  · split at h
    · simp at h
    · rw [bind_ok] at h
      obtain ⟨rt, -, h⟩ := h
      rw [bind_ok] at h
      obtain ⟨⟨s2, d⟩, h2, h⟩ := h
      rw [bind_ok] at h
      obtain ⟨y', -, h⟩ := h
      simp only [Except.ok.injEq, Prod.mk.injEq] at h
      rw [← h.1]
      exact (hI.activate hw h1).evaluateBranchOut hw h2
  · simp at h

theorem Viewable.export {F : Nat → Face} (hw : WellFormed W) {so : SetOrder} {vw : Views} {i : Nat} {y : α} {s s' : St α}
    (hI : Viewable W V F s) (h : blockExport W so F vw s i = .ok (s', y)) : Viewable W V F s' := by
  unfold blockExport at h
  split at h
  · split at h
    · simp at h
    · rw [bind_ok] at h
      obtain ⟨rt, -, h⟩ := h
      rw [bind_ok] at h
      obtain ⟨⟨s2, d⟩, h2, h⟩ := h
      rw [bind_ok] at h
      obtain ⟨y', -, h⟩ := h
      simp only [Except.ok.injEq, Prod.mk.injEq] at h
      rw [← h.1]
      exact hI.evaluateBranchOut hw h2
  · simp at h

/-! ### Evaluation of a branch -/

/-- What the block `j` gives. -/
def Gives (W : Workflow α) (V : Nat → Option α) (j : Nat) (ys : List α) : Prop :=
  ∃ b xs, W.blocks[j]? = some b ∧ xs.length = b.inputs.length ∧ (∀ vx ∈ b.inputs.zip xs, Den W V vx.1 vx.2) ∧
    b.eval xs = .ok ys

/-- A block gives as many values as it has outputs. -/
def Arity (W : Workflow α) : Prop := ∀ b ∈ W.blocks, ∀ xs ys, b.eval xs = .ok ys → ys.length = b.outputs.length

theorem setEntry_keys {β : Type} (l : List (Nat × β)) (k : Nat) (x : β) :
    (setEntry l k x).map (·.1) = if k ∈ l.map (·.1) then l.map (·.1) else l.map (·.1) ++ [k] := by
  unfold setEntry
  simp only [List.contains_eq_mem, decide_eq_true_eq]
  split
  · rw [List.map_map]
    apply List.map_congr_left
    intro e _
    simp only [Function.comp]
    split
    · rename_i h; exact h.symm
    · rfl
  · simp

theorem setEntry_mem {β : Type} (l : List (Nat × β)) (k : Nat) (x : β) (e : Nat × β) (h : e ∈ setEntry l k x) :
    e = (k, x) ∨ e ∈ l := by
  unfold setEntry at h
  split at h
  · obtain ⟨e', he', h⟩ := List.mem_map.1 h
    split at h
    · exact .inl h.symm
    · rw [← h]; exact .inr he'
  · rcases List.mem_append.1 h with h | h
    · exact .inr h
    · exact .inl (by simpa using h)

/-- What is known of the blocks evaluated so far in a branch. -/
structure Evaluated (W : Workflow α) (V : Nat → Option α) (s : St α) (done : List (Nat × List α)) : Prop where
  gives : ∀ e ∈ done, Gives W V e.1 e.2
  act : ∀ j ∈ done.map (·.1), ∀ b, W.blocks[j]? = some b → ∀ o ∈ b.outputs, s.actVar o = true
  nodup : (done.map (·.1)).Nodup

theorem evaluateBlock_gives {F : Nat → Face} (hw : WellFormed W) (hlen : Arity W) {j : Nat} {s : St α}
    (hI : Viewable W V F s) {b : Block α} (hb : W.blocks[j]? = some b) (hwt : ∀ v ∈ b.inputs, Wanted W F v)
    (hev : ∀ xs, xs.length = b.inputs.length → (∀ vx ∈ b.inputs.zip xs, Den W V vx.1 vx.2) → ∃ ys, b.eval xs = .ok ys)
    (hby : byInputs s b = true) : ∃ s' ys, evaluateBlock W s j = .ok (s', ys) ∧ Viewable W V F s' ∧ Gives W V j ys ∧
      ∀ o ∈ b.outputs, s'.actVar o = true := by
  have hbm := List.mem_of_getElem? hb
  have ha := hby
  simp only [byInputs, List.all_eq_true] at ha
  obtain ⟨xs, s1, h1⟩ := hI.kept.readInputs_total hw hbm b.inputs (fun _ h => h) s hwt ha
  obtain ⟨hx, hz, ⟨e, he, -⟩ | ⟨ys, s', he, h2, h3⟩⟩ := hI.kept.evaluateRead hw hb s s1 xs hby h1
  · obtain ⟨ys, hy⟩ := hev xs hx hz
    rw [hy] at he
    simp at he
  · refine ⟨s', ys, h2, hI.evaluateBlock hw hb hby h2, ⟨b, xs, hb, hx, hz, he⟩, fun o ho => ?_⟩
    obtain ⟨b', xs', ys', k1, k2, k3, k4, -, k6⟩ := h3.blk j (((evaluateBlock_step h2).blk j).2 (.inr rfl))
    rw [hb] at k1
    cases k1
    have hl' := hlen b hbm xs' ys' k4
    obtain ⟨n, hn⟩ := List.getElem?_of_mem ho
    have hnl := (List.getElem?_eq_some_iff.1 hn).1
    exact k6 (o, ys'[n]'(by omega)) (List.mem_of_getElem? (List.getElem?_zip_eq_some.2 ⟨hn, by simp⟩ : _ = some _) (i := n))

theorem branchStepOut_total {F : Nat → Face} (hw : WellFormed W) (hlen : Arity W) {i : Nat} (hi : i < W.blocks.length)
    (hsh : (F i).isDisplay = true ∨ (F i).isExport = true)
    (hev : ∀ j b xs, Missing W i j → W.blocks[j]? = some b → xs.length = b.inputs.length →
      (∀ vx ∈ b.inputs.zip xs, Den W V vx.1 vx.2) → ∃ ys, b.eval xs = .ok ys)
    (l : List Nat) (hm : ∀ j ∈ l, Missing W i j) (done : List (Nat × List α)) (s : St α) (hI : Viewable W V F s)
    (hd : Evaluated W V s done) (hby : ∀ j ∈ l, ∃ b, W.blocks[j]? = some b ∧ byInputs s b = true) :
    ∃ s' done', branchStepOut W l done s = .ok (s', done') ∧ Viewable W V F s' ∧ Evaluated W V s' done' ∧
      (∀ j, j ∈ done'.map (·.1) ↔ j ∈ done.map (·.1) ∨ j ∈ l) ∧ s'.evaluated = s.evaluated ++ l ∧
      ∀ v, s.actVar v = true → s'.actVar v = true := by
  induction l generalizing done s with
  | nil => exact ⟨s, done, rfl, hI, hd, by simp, by simp, fun _ h => h⟩
  | cons j l ih =>
    obtain ⟨b, hb, hbj⟩ := hby j (.head _)
    have hmj := hm j (.head _)
    obtain ⟨s1, ys, h1, h2, h3, h4⟩ := evaluateBlock_gives hw hlen hI hb
      (fun v hv => ⟨i, j, b, hi, hsh, hmj, hb, hv⟩) (fun xs hx hz => hev j b xs hmj hb hx hz) hbj
    have hst := evaluateBlock_step h1
    have hd1 : Evaluated W V s1 (setEntry done j ys) := by
      refine ⟨fun e he => ?_, fun k hk c hc o ho => ?_, ?_⟩
      · rcases setEntry_mem _ _ _ _ he with rfl | he
        · exact h3
        · exact hd.gives e he
      · rw [setEntry_keys] at hk
        have : k ∈ done.map (·.1) ∨ k = j := by
          split at hk
          · exact .inl hk
          · rcases List.mem_append.1 hk with hk | hk
            · exact .inl hk
            · exact .inr (by simpa using hk)
        rcases this with hk | rfl
        · exact hst.var o (hd.act k hk c hc o ho)
        · rw [hb] at hc
          cases hc
          exact h4 o ho
      · rw [setEntry_keys]
        split
        · exact hd.nodup
        · rename_i hn
          rw [List.nodup_append]
          refine ⟨hd.nodup, by simp, fun a ha c hc hac => ?_⟩
          simp only [List.mem_singleton] at hc
          subst hac hc
          exact hn ha
    obtain ⟨s2, d2, k1, k2, k3, k4, k5, k6⟩ := ih (fun k hk => hm k (.tail _ hk)) _ s1 h2 hd1 (fun k hk => by
      obtain ⟨c, hc, hbc⟩ := hby k (.tail _ hk)
      refine ⟨c, hc, ?_⟩
      simp only [byInputs, List.all_eq_true] at hbc ⊢
      exact fun v hv => hst.var v (hbc v hv))
    refine ⟨s2, d2, by rw [branchStepOut, h1]; exact k1, k2, k3, fun k => ?_, by rw [k5, hst.ev]; simp,
      fun v hv => k6 v (hst.var v hv)⟩
    rw [k4, setEntry_keys, List.mem_cons]
    split
    · constructor
      · rintro (h | h)
        · exact .inl h
        · exact .inr (.inr h)
      · rintro (h | rfl | h)
        · exact .inl h
        · left; assumption
        · exact .inr h
    · rw [List.mem_append, List.mem_singleton]
      tauto

/-- A block to evaluate whose inputs are not all active waits for an other one. -/
theorem missing_waits {F : Nat → Face} (hw : WellFormed W) (hlen : Arity W) {i : Nat} {s : St α} (hI : Viewable W V F s)
    {done : List (Nat × List α)} (hd : Evaluated W V s done) {j : Nat} (hj : Missing W i j) {b : Block α}
    (hb : W.blocks[j]? = some b) (hby : byInputs s b ≠ true) : ∃ k, Missing W i k ∧ k ∉ done.map (·.1) ∧ Feeds W k j := by
  simp only [byInputs, ne_eq, List.all_eq_true, not_forall] at hby
  obtain ⟨v, hv, hna⟩ := hby
  have hbm := List.mem_of_getElem? hb
  cases hm : inputPipe W v with
  | none => exact absurd (hI.full v (free_input hw.distinct hbm hv (inputPipe_none.1 hm))) hna
  | some m =>
    obtain ⟨p, hp, hpv⟩ := inputPipe_some hm
    have hpm := List.mem_of_getElem? hp
    have hna' : ¬ s.actVar p.input = true := by
      intro h
      obtain ⟨x, -, h3, -⟩ := hI.kept.var _ h
      exact hna (by rw [← hpv]; exact h3 _ (.single ⟨p, hpm, rfl, rfl⟩))
    by_cases hc : ∃ c ∈ W.blocks, p.input ∈ c.outputs
    · obtain ⟨c, hcm, hpc⟩ := hc
      obtain ⟨k, hk⟩ := List.getElem?_of_mem hcm
      have hf : Feeds W k j := ⟨b, c, p, hb, hk, hpm, by rw [hpv]; exact hv, hpc⟩
      have hnl : ¬ Leads W k := by
        intro hl
        obtain ⟨c', xs, ys, k1, -, -, k4, -, k6⟩ := hI.kept.blk k (hI.lead k hl)
        rw [hk] at k1
        cases k1
        have hl' := hlen c hcm xs ys k4
        obtain ⟨n, hn⟩ := List.getElem?_of_mem hpc
        have hnl := (List.getElem?_eq_some_iff.1 hn).1
        exact hna' (k6 (p.input, ys[n]'(by omega))
          (List.mem_of_getElem? (List.getElem?_zip_eq_some.2 ⟨hn, by simp⟩ : _ = some _) (i := n)))
      refine ⟨k, .up hj hf hnl, fun hkd => hna' (hd.act k hkd c hk _ hpc), hf⟩
    · push Not at hc
      have hpin : p.input ∈ inputs W := by
        rw [mem_inputs]
        refine ⟨mem_allVariables.2 (.inr ⟨p, hpm, .inl rfl⟩), hc, fun q hq hqo => ?_⟩
        obtain ⟨c, hcm, hci⟩ := hw.target q hq
        rw [hqo] at hci
        exact absurd hci (hw.source p hpm c hcm)
      exact absurd (hI.full _ hpin) hna'

/-- The blocks are fed in a well-founded way. -/
theorem feeds_measure (hw : WellFormed W) : ∃ μ : Nat → Nat, ∀ k j, Feeds W k j → μ k < μ j := by
  obtain ⟨rank, hr, hr2⟩ := hw.acyclic
  refine ⟨fun j => match W.blocks[j]? with
    | some b => (b.inputs.map rank).foldr max 0
    | none => 0, ?_⟩
  have hmax : ∀ (l : List Nat) (n : Nat), n ∈ l → n ≤ l.foldr max 0 := by
    intro l
    induction l with
    | nil => intro n h; simp at h
    | cons a l ih =>
      intro n h
      rcases List.mem_cons.1 h with rfl | h
      · simp
      · have := ih n h
        simp only [List.foldr_cons]
        omega
  have hlt : ∀ (l : List Nat) (n : Nat), 0 < n → (∀ m ∈ l, m < n) → l.foldr max 0 < n := by
    intro l n hn
    induction l with
    | nil => intro _; exact hn
    | cons a l ih =>
      intro h
      have := ih (fun m hm => h m (.tail _ hm))
      have := h a (.head _)
      simp only [List.foldr_cons]
      omega
  rintro k j ⟨b, c, p, hb, hc, hp, h1, h2⟩
  simp only [hb, hc]
  have e1 := hmax (b.inputs.map rank) (rank p.output) (List.mem_map.2 ⟨_, h1, rfl⟩)
  have e2 := hr p hp
  refine Nat.lt_of_lt_of_le (hlt _ (rank p.output) (by omega) (fun m hm => ?_)) e1
  obtain ⟨v, hv, rfl⟩ := List.mem_map.1 hm
  have := hr2 c (List.mem_of_getElem? hc) v hv _ h2
  omega

/-- While blocks are missing, one of them can be evaluated. -/
theorem missing_next {F : Nat → Face} (hw : WellFormed W) (hlen : Arity W) {i : Nat} (hi : i < W.blocks.length) {s : St α}
    (hI : Viewable W V F s) {done : List (Nat × List α)} (hd : Evaluated W V s done) {j : Nat} (hj : Missing W i j)
    (hjd : j ∉ done.map (·.1)) :
    ∃ k b, Missing W i k ∧ k ∉ done.map (·.1) ∧ W.blocks[k]? = some b ∧ byInputs s b = true := by
  obtain ⟨μ, hμ⟩ := feeds_measure hw
  have key : ∀ n j, μ j = n → Missing W i j → j ∉ done.map (·.1) →
      ∃ k b, Missing W i k ∧ k ∉ done.map (·.1) ∧ W.blocks[k]? = some b ∧ byInputs s b = true := by
    intro n
    induction n using Nat.strong_induction_on with
    | _ n ih =>
      intro j hn hj hjd
      have hlt := hj.lt hi
      obtain ⟨b, hb⟩ : ∃ b, W.blocks[j]? = some b := ⟨W.blocks[j], by simp [hlt]⟩
      by_cases hby : byInputs s b = true
      · exact ⟨j, b, hj, hjd, hb, hby⟩
      · obtain ⟨k, hk, hkd, hf⟩ := missing_waits hw hlen hI hd hj hb hby
        exact ih (μ k) (by have := hμ k j hf; omega) k rfl hk hkd
  exact key _ j rfl hj hjd

theorem branchLoopOut_total {F : Nat → Face} (hw : WellFormed W) (hlen : Arity W) {i : Nat} (hi : i < W.blocks.length)
    (hsh : (F i).isDisplay = true ∨ (F i).isExport = true) (hni : ¬ Leads W i)
    (hev : ∀ j b xs, Missing W i j → W.blocks[j]? = some b → xs.length = b.inputs.length →
      (∀ vx ∈ b.inputs.zip xs, Den W V vx.1 vx.2) → ∃ ys, b.eval xs = .ok ys)
    {rt bs : List Nat} (hrt : ∀ j, j ∈ rt ↔ Leads W j) (hbs : ∀ j, j ∈ bs ↔ Missing W i j) (n : Nat)
    (done : List (Nat × List α)) (s : St α) (hI : Viewable W V F s) (hd : Evaluated W V s done)
    (hsub : ∀ j ∈ done.map (·.1), j ∈ bs) (hn : (bs.toFinset \ (done.map (·.1)).toFinset).card ≤ n) :
    ∃ s' done' l, branchLoopOut W rt bs n done s = .ok (s', done') ∧ Evaluated W V s' done' ∧
      (∀ j, j ∈ done'.map (·.1) ↔ j ∈ bs) ∧ s'.evaluated = s.evaluated ++ l ∧
      (∀ j, j ∈ l ↔ j ∈ bs ∧ j ∉ done.map (·.1)) ∧ (bs.Nodup → l.Nodup) := by
  induction n generalizing done s with
  | zero =>
    have he : ∀ j ∈ bs, j ∈ done.map (·.1) := by
      intro j hj
      by_contra hc
      have : j ∈ bs.toFinset \ (done.map (·.1)).toFinset := by
        rw [Finset.mem_sdiff, List.mem_toFinset, List.mem_toFinset]
        exact ⟨hj, hc⟩
      have := Finset.card_pos.2 ⟨j, this⟩
      omega
    exact ⟨s, done, [], rfl, hd, fun j => ⟨hsub j, he j⟩, by simp, fun j => by simpa using fun h => by simpa using he j h,
      fun _ => by simp⟩
  | succ n ih =>
    rw [branchLoopOut]
    by_cases hall : ∀ j ∈ bs, j ∈ done.map (·.1)
    · have hfil : bs.filter (fun i => activable W rt s i && !(done.map (·.1)).contains i) = [] := by
        rw [List.filter_eq_nil_iff]
        intro j hj
        have := hall j hj
        simp only [List.contains_eq_mem, Bool.and_eq_true, not_and, Bool.not_eq_true', decide_eq_false_iff_not, not_not]
        exact fun _ => this
      split
      · exact ⟨s, done, [], rfl, hd, fun j => ⟨hsub j, hall j⟩, by simp,
          fun j => by simpa using fun h => by simpa using hall j h, fun _ => by simp⟩
      · rw [hfil]
        simp only [branchStepOut, bind, Except.bind]
        refine ih done s hI hd hsub ?_
        have : bs.toFinset \ (done.map (·.1)).toFinset = ∅ := by
          rw [Finset.sdiff_eq_empty_iff_subset]
          intro j hj
          rw [List.mem_toFinset] at hj ⊢
          exact hall j hj
        rw [this]
        simp
    · have hne : ¬ done.length = bs.length := by
        intro he
        apply hall
        have hsubp : (done.map (·.1)).Subperm bs := List.subperm_of_subset hd.nodup hsub
        have := hsubp.perm_of_length_le (by simp [he])
        exact fun j hj => this.mem_iff.2 hj
      rw [if_neg hne]
      push Not at hall
      obtain ⟨j, hj, hjd⟩ := hall
      obtain ⟨k, b, hk, hkd, hkb, hby⟩ := missing_next hw hlen hi hI hd ((hbs j).1 hj) hjd
      have hfil : ∀ m, m ∈ bs.filter (fun i => activable W rt s i && !(done.map (·.1)).contains i) ↔
          m ∈ bs ∧ m ∉ done.map (·.1) ∧ activable W rt s m = true := by
        intro m
        rw [List.mem_filter]
        simp only [List.contains_eq_mem, Bool.and_eq_true, Bool.not_eq_true', decide_eq_false_iff_not]
        tauto
      obtain ⟨s1, d1, h1, h2, h3, h4, h5, h6⟩ := branchStepOut_total hw hlen hi hsh hev
        (bs.filter (fun i => activable W rt s i && !(done.map (·.1)).contains i))
        (fun m hm => (hbs m).1 ((hfil m).1 hm).1) done s hI hd (fun m hm => activable_byInputs ((hfil m).1 hm).2.2)
      rw [h1]
      simp only [bind, Except.bind]
      have hkl : k ∈ bs.filter (fun i => activable W rt s i && !(done.map (·.1)).contains i) := by
        rw [hfil]
        refine ⟨(hbs k).2 hk, hkd, ?_⟩
        unfold activable
        rw [hkb]
        have : k ∉ rt := fun h => hk.secondary hni ((hrt k).1 h)
        simp [hby, this]
      obtain ⟨s2, d2, l, k1, k2, k3, k4, k5, k6⟩ := ih d1 s1 h2 h3 (fun m hm => by
        rcases (h4 m).1 hm with h | h
        · exact hsub m h
        · exact ((hfil m).1 h).1) (by
        have : (bs.toFinset \ (d1.map (·.1)).toFinset).card < (bs.toFinset \ (done.map (·.1)).toFinset).card := by
          apply Finset.card_lt_card
          rw [Finset.ssubset_iff_of_subset]
          · refine ⟨k, ?_, ?_⟩
            · rw [Finset.mem_sdiff, List.mem_toFinset, List.mem_toFinset]
              exact ⟨(hbs k).2 hk, hkd⟩
            · rw [Finset.mem_sdiff, List.mem_toFinset, List.mem_toFinset, not_and, not_not]
              exact fun _ => (h4 k).2 (.inr hkl)
          · intro m hm
            rw [Finset.mem_sdiff, List.mem_toFinset, List.mem_toFinset] at hm ⊢
            exact ⟨hm.1, fun h => hm.2 ((h4 m).2 (.inl h))⟩
        omega)
      refine ⟨s2, d2, bs.filter (fun i => activable W rt s i && !(done.map (·.1)).contains i) ++ l, k1, k2, k3, by rw [k4, h5, List.append_assoc], fun m => ?_, fun hnd => ?_⟩
      swap
      · rw [List.nodup_append]
        refine ⟨hnd.filter _, k6 hnd, fun a ha c hc hac => ?_⟩
        subst hac
        exact ((k5 a).1 hc).2 ((h4 a).2 (.inr ha))
      rw [List.mem_append, k5, h4, hfil]
      constructor
      · rintro (⟨h, h', -⟩ | ⟨h, h'⟩)
        · exact ⟨h, h'⟩
        · exact ⟨h, fun hc => h' (.inl hc)⟩
      · rintro ⟨h, h'⟩
        by_cases ha : activable W rt s m = true
        · exact .inl ⟨h, h', ha⟩
        · refine .inr ⟨h, fun hc => hc.elim h' (fun hc => ha hc.2.2)⟩

theorem evaluateBranchOut_total {F : Nat → Face} (hw : WellFormed W) (hl : LocksOk W) (hlen : Arity W) {i : Nat}
    (hi : i < W.blocks.length) (hsh : (F i).isDisplay = true ∨ (F i).isExport = true) (hni : ¬ Leads W i)
    (hev : ∀ j b xs, Missing W i j → W.blocks[j]? = some b → xs.length = b.inputs.length →
      (∀ vx ∈ b.inputs.zip xs, Den W V vx.1 vx.2) → ∃ ys, b.eval xs = .ok ys)
    {rt bs : List Nat} (hrt : ∀ j, j ∈ rt ↔ Leads W j) (hbs : ∀ j, j ∈ bs ↔ Missing W i j) (s : St α) (hI : Viewable W V F s) :
    ∃ s' done l, evaluateBranchOut W rt bs s = .ok (s', done) ∧ Evaluated W V s' done ∧
      (∀ j, j ∈ done.map (·.1) ↔ Missing W i j) ∧ s'.evaluated = s.evaluated ++ l ∧ (∀ j, j ∈ l ↔ Missing W i j) ∧
      (bs.Nodup → l.Nodup) := by
  obtain ⟨s1, h1⟩ := activateInputs_total hw hl s
  have hI1 := hI.activate hw h1
  have hd : Evaluated W V s1 [] := ⟨by simp, by simp, by simp⟩
  obtain ⟨k, b, hk, -, hkb, hby⟩ := missing_next hw hlen hi hI1 hd (.self : Missing W i i) (by simp)
  have hany : bs.any (activable W rt s1) = true := by
    rw [List.any_eq_true]
    refine ⟨k, (hbs k).2 hk, ?_⟩
    unfold activable
    rw [hkb]
    have : k ∉ rt := fun h => hk.secondary hni ((hrt k).1 h)
    simp [hby, this]
  obtain ⟨s2, d, l, h2, h3, h4, h5, h6, h7⟩ := branchLoopOut_total hw hlen hi hsh hni hev hrt hbs (bs.length + 1) [] s1 hI1 hd
    (by simp) (by
      have := List.toFinset_card_le bs
      simp
      omega)
  refine ⟨s2, d, l, ?_, h3, fun j => (h4 j).trans (hbs j), by rw [h5, (activateInputs_frame h1).ev], fun j => ?_, h7⟩
  · unfold evaluateBranchOut
    rw [h1]
    simp only [bind, Except.bind, hany, if_true]
    exact h2
  · rw [h6, hbs]
    simp

theorem lookup_of_key {β : Type} (l : List (Nat × β)) (k : Nat) (h : k ∈ l.map (·.1)) :
    ∃ x, l.lookup k = some x ∧ (k, x) ∈ l := by
  induction l with
  | nil => simp at h
  | cons e l ih =>
    obtain ⟨k', x⟩ := e
    rw [List.lookup_cons]
    by_cases hk : k = k'
    · subst hk
      exact ⟨x, by simp, .head _⟩
    · have hb : (k == k') = false := by simpa using hk
      obtain ⟨y, h1, h2⟩ := ih (by simpa [hk] using h)
      exact ⟨y, by rw [hb]; exact h1, .tail _ h2⟩

/-! ### Specification -/

/-- The states of a run `r` on which displays and exports were asked. -/
inductive Viewed (W : Workflow α) (so : SetOrder) (F : Nat → Face) (vw : Views) (r : St α) : St α → Prop
  | start : Viewed W so F vw r r
  | display {s s' i y} : Viewed W so F vw r s → blockDisplay W so F vw s i = .ok (s', y) → Viewed W so F vw r s'
  | export {s s' i y} : Viewed W so F vw r s → blockExport W so F vw s i = .ok (s', y) → Viewed W so F vw r s'

theorem Viewed.viewable {F : Nat → Face} (hw : WellFormed W) {so : SetOrder} {vw : Views} {r s : St α}
    (hI : Viewable W V F r) (h : Viewed W so F vw r s) : Viewable W V F s := by
  induction h with
  | start => exact hI
  | display _ h ih => exact ih.display hw h
  | «export» _ h ih => exact ih.export hw h


/-- Each block missing for the block `i` gives values to a single missing block. -/
def Tree (W : Workflow α) (i : Nat) : Prop :=
  ∀ j k k', ¬ Leads W j → Missing W i k → Missing W i k' → Feeds W j k → Feeds W j k' → k = k'

theorem gatherTurn_nodup {W : Workflow α} {so : SetOrder} {rt : List Nat} (hrt : runtimeBlocks W so = .ok rt) {ups : Nat → List Nat}
    (level : List Nat) (hups : ∀ u ∈ level, upstreamBlocks W so u = .ok (ups u)) (branch : List Nat) :
    gatherTurn W so (isSecondary W so) false level branch = .ok ((level.filter (fun u => !rt.contains u)).flatMap ups,
      (level.filter (fun u => !rt.contains u)).reverse ++ branch) := by
  induction level generalizing branch with
  | nil => rfl
  | cons u rest ih =>
    have hc : isSecondary W so u = .ok (!rt.contains u) := by
      unfold isSecondary
      rw [hrt]
      rfl
    rw [gatherTurn, hc]
    have ih' := fun b => ih (fun v hv => hups v (.tail _ hv)) b
    cases hr : rt.contains u with
    | true =>
      simp only [bind, Except.bind, Bool.not_true, Bool.false_eq_true, if_false, ih', List.filter_cons, hr]
    | false =>
      simp only [bind, Except.bind, Bool.not_false, if_true, ih', List.filter_cons, hr, hups u (.head _), List.flatMap_cons,
        List.reverse_cons, List.append_assoc, List.cons_append, List.nil_append]

theorem gatherLoop_nodup {W : Workflow α} {so : SetOrder} {rt : List Nat} (hrt : runtimeBlocks W so = .ok rt)
    (hm : ∀ j, j ∈ rt ↔ Leads W j) {ups : Nat → List Nat}
    (hups : ∀ u, u < W.blocks.length → upstreamBlocks W so u = .ok (ups u) ∧ (ups u).Nodup ∧ ∀ j, j ∈ ups u ↔ Feeds W j u)
    {i : Nat} (ht : Tree W i) (n : Nat) (cs level branch r : List Nat) (hlt : ∀ u ∈ level, u < W.blocks.length)
    (hb : branch.Nodup) (hl : (level.filter (fun u => !rt.contains u)).Nodup)
    (hmis : ∀ u ∈ level, ¬ Leads W u → u ∉ branch ∧ Missing W i u)
    (h : gatherLoop W so (isSecondary W so) false n cs level branch = .ok r) : r.Nodup := by
  induction n generalizing cs level branch with
  | zero =>
    simp only [gatherLoop, Except.ok.injEq] at h
    rw [← h]; exact hb
  | succ n ih =>
    rw [gatherLoop] at h
    split at h
    · simp only [Except.ok.injEq] at h
      rw [← h]; exact hb
    · rw [gatherTurn_nodup hrt level (fun u hu => (hups u (hlt u hu)).1) branch] at h
      simp only [bind, Except.bind] at h
      have hsec : ∀ u, u ∈ level.filter (fun u => !rt.contains u) ↔ u ∈ level ∧ ¬ Leads W u := by
        intro u
        rw [List.mem_filter, ← hm u]
        simp
      have hmem : ∀ x ∈ (level.filter (fun u => !rt.contains u)).flatMap ups, ∃ u ∈ level, ¬ Leads W u ∧ Feeds W x u := by
        intro x hx
        obtain ⟨u, hu, hxu⟩ := List.mem_flatMap.1 hx
        obtain ⟨h1, h2⟩ := (hsec u).1 hu
        exact ⟨u, h1, h2, ((hups u (hlt u h1)).2.2 x).1 hxu⟩
      refine ih _ _ _ (fun x hx => ?_) ?_ ?_ (fun x hx hnl => ?_) h
      · obtain ⟨u, -, -, hf⟩ := hmem x (List.mem_filter.1 hx).1
        exact hf.lt.1
      · rw [List.nodup_append]
        refine ⟨List.nodup_reverse.2 hl, hb, fun a ha c hc hac => ?_⟩
        subst hac
        obtain ⟨h1, h2⟩ := (hsec a).1 (List.mem_reverse.1 ha)
        exact (hmis a h1 h2).1 hc
      · rw [List.filter_filter]
        have : ((level.filter (fun u => !rt.contains u)).flatMap ups).filter (fun u => !rt.contains u) =
            (level.filter (fun u => !rt.contains u)).flatMap (fun u => (ups u).filter (fun u => !rt.contains u)) := by
          rw [List.filter_flatMap]
        have hnd : (((level.filter (fun u => !rt.contains u)).flatMap ups).filter (fun u => !rt.contains u)).Nodup := by
          rw [this, List.nodup_flatMap]
          refine ⟨fun u hu => ((hups u (hlt u ((hsec u).1 hu).1)).2.1).filter _, ?_⟩
          refine hl.pairwise_of_forall_ne (fun u hu v hv huv => ?_)
          intro x hx hx'
          obtain ⟨u1, u2⟩ := (hsec u).1 hu
          obtain ⟨v1, v2⟩ := (hsec v).1 hv
          rw [List.mem_filter] at hx hx'
          have hxn : ¬ Leads W x := by
            rw [← hm]
            simpa using hx.2
          exact huv (ht x u v hxn (hmis u u1 u2).2 (hmis v v1 v2).2 (((hups u (hlt u u1)).2.2 x).1 hx.1)
            (((hups v (hlt v v1)).2.2 x).1 hx'.1))
        have := hnd.filter (fun a => !((level.filter (fun u => !rt.contains u)).reverse ++ branch).contains a)
        rw [List.filter_filter] at this
        simp only [Bool.and_comm] at this ⊢
        exact this
      · obtain ⟨hx1, hx2⟩ := List.mem_filter.1 hx
        obtain ⟨u, hu, hul, hf⟩ := hmem x hx1
        exact ⟨by simpa only [Bool.not_eq_true', List.contains_eq_mem, decide_eq_false_iff_not] using hx2, .up (hmis u hu hul).2 hf hnl⟩

theorem branch_nodup (hw : WellFormed W) (hl : LocksOk W) {so : SetOrder} {o : Nat} (ho : OutputOf W o) {i : Nat}
    (hi : i < W.blocks.length) (ht : Tree W i) {br mk : List Nat} (hbr : secondaryBranch W so i = .ok (br, mk)) : br.Nodup := by
  obtain ⟨rt, hrt, -, hm⟩ := runtimeBlocks_spec hw hl so ho
  have hups : ∀ u, u < W.blocks.length → ∃ l, upstreamBlocks W so u = .ok l ∧ l.Nodup ∧ ∀ j, j ∈ l ↔ Feeds W j u :=
    fun u hu => upstreamBlocks_spec hw hl so hu
  classical
  let ups : Nat → List Nat := fun u => if hu : u < W.blocks.length then (hups u hu).choose else []
  have hups' : ∀ u, u < W.blocks.length → upstreamBlocks W so u = .ok (ups u) ∧ (ups u).Nodup ∧ ∀ j, j ∈ ups u ↔ Feeds W j u := by
    intro u hu
    simp only [ups, hu, dif_pos]
    exact (hups u hu).choose_spec
  unfold secondaryBranch gather at hbr
  rw [(hups' i hi).1] at hbr
  simp only [bind, Except.bind] at hbr
  split at hbr
  · simp at hbr
  · rename_i r hr
    split at hbr
    · simp at hbr
    · simp only [Except.ok.injEq, Prod.mk.injEq] at hbr
      rw [← hbr.1]
      refine gatherLoop_nodup hrt hm hups' ht _ _ _ _ _ (fun u hu => (((hups' i hi).2.2 u).1 hu).lt.1) (by simp)
        ((hups' i hi).2.1.filter _) (fun u hu hnl => ?_) hr
      have hf := ((hups' i hi).2.2 u).1 hu
      refine ⟨fun he => ?_, .up .self hf hnl⟩
      simp only [List.mem_singleton] at he
      subst he
      exact Feeds.irrefl hw hf

/-- Evaluation of the branch kept for the block `i`, then reading of its first output. -/
theorem branch_shown {F : Nat → Face} (hw : WellFormed W) (hl : LocksOk W) (hlen : Arity W) {so : SetOrder} {o : Nat}
    (ho : OutputOf W o) {i : Nat} (hi : i < W.blocks.length)
    (hsh : (F i).isDisplay = true ∨ (F i).isExport = true) (hni : ¬ Leads W i)
    (hev : ∀ j b xs, Missing W i j → W.blocks[j]? = some b → xs.length = b.inputs.length →
      (∀ vx ∈ b.inputs.zip xs, Den W V vx.1 vx.2) → ∃ ys, b.eval xs = .ok ys)
    {br mk : List Nat} (hbr : secondaryBranch W so i = .ok (br, mk)) (s : St α) (hI : Viewable W V F s) :
    ∃ ys, Gives W V i ys ∧ match ys with
      | [] => (do
          let rt ← runtimeBlocks W so
          let (s, done) ← evaluateBranchOut W rt br s
          let y ← firstOutput done i
          .ok (s, y)) = .error .indexError
      | y :: _ => ∃ s' l, (do
          let rt ← runtimeBlocks W so
          let (s, done) ← evaluateBranchOut W rt br s
          let y ← firstOutput done i
          .ok (s, y)) = .ok (s', y) ∧ s'.evaluated = s.evaluated ++ l ∧ (∀ j, j ∈ l ↔ Missing W i j) ∧
            (br.Nodup → l.Nodup) := by
  obtain ⟨rt, hrt, -, hm⟩ := runtimeBlocks_spec hw hl so ho
  obtain ⟨br', mk', e1, e2, -⟩ := C109_branch hw hl so ho hi
  rw [hbr] at e1
  simp only [Except.ok.injEq, Prod.mk.injEq] at e1
  obtain ⟨rfl, rfl⟩ := e1
  obtain ⟨s', done, l, h1, h2, h3, h4, h5, h6⟩ := evaluateBranchOut_total hw hl hlen hi hsh hni hev hm e2 s hI
  obtain ⟨ys, hy, hym⟩ := lookup_of_key done i ((h3 i).2 .self)
  refine ⟨ys, h2.gives _ hym, ?_⟩
  cases ys with
  | nil => simp only [hrt, h1, bind, Except.bind, firstOutput, hy]
  | cons y ys => exact ⟨s', l, by simp only [hrt, h1, bind, Except.bind, firstOutput, hy], h4, h5, h6⟩

/-- A run, complete, in which each block evaluated leads to the output. -/
theorem run_viewable (hw : WellFormed W) (hl : LocksOk W) {so : SetOrder} {o : Nat} (ho : OutputOf W o) {F : Nat → Face}
    {vw : Views} (hs : setUp W so F = .ok vw) {so' : SetOrder} {user : List (Nat × α)} {s r : St α}
    (h : run W so' user = .ok (some s)) (hr : keepRun W vw s = .ok r) : Viewable W (expected W user) F r := by
  obtain ⟨-, hm⟩ := C27_needed hw hl ho h
  have hg := (run_reached h).good hw
  refine keepRun_viewable hw hl ho hs hg (fun k v hk => ?_) (fun j hj => ?_) (fun j hj => (hm j).1 hj) hr
  · obtain ⟨x, hx, -⟩ := C31_run hw h k v hk
    rw [hx]; rfl
  · obtain ⟨vals, s0, s1, rt, h1, h2, h3, h4, s', h5, h6, h7⟩ := run_ok h
    cases h7
    obtain ⟨rt', hrt', -, hm'⟩ := runtimeBlocks_spec hw hl so' ho
    rw [h4] at hrt'
    cases hrt'
    exact (progress_one (runtimeBlocks_ne h4)).1 h6 j ((hm' j).2 hj)

/-- **C108** The run made of an execution of the workflow exists; and, on this run, whatever displays and exports were
asked before, the display of a block which is out of the way to the output is the first value which this block gives on
the values that its inputs must hold, although the blocks of its branch were not executed and the values of most pipes
were dropped.  It is computed by evaluating exactly the missing blocks,
each once if none of them gives values to several of them.

Missing: a block which leads to the output, two displays with the same selector, and states whose secondary blocks were
evaluated beforehand (see the theorems below). -/
theorem C108_display_partial (hw : WellFormed W) (hl : LocksOk W) (hlen : Arity W) {so so' : SetOrder} {o : Nat}
    (ho : OutputOf W o) {F : Nat → Face} {vw : Views} (hs : setUp W so F = .ok vw) {user : List (Nat × α)} {s : St α}
    (h : run W so' user = .ok (some s)) {i : Nat} (hi : i < W.blocks.length) (hd : (F i).isDisplay = true)
    (hni : ¬ Leads W i) (huniq : ∀ j, j < W.blocks.length → (F j).isDisplay = true → blockSelector F j = blockSelector F i → j = i)
    (hev : ∀ j b xs, Missing W i j → W.blocks[j]? = some b → xs.length = b.inputs.length →
      (∀ vx ∈ b.inputs.zip xs, Den W (expected W user) vx.1 vx.2) → ∃ ys, b.eval xs = .ok ys) :
    ∃ r, keepRun W vw s = .ok r ∧ ∀ t, Viewed W so F vw r t → ∃ ys, Gives W (expected W user) i ys ∧ match ys with
      | [] => blockDisplay W so F vw t i = .error .indexError
      | y :: _ => ∃ t' l, blockDisplay W so F vw t i = .ok (t', y) ∧ t'.evaluated = t.evaluated ++ l ∧
          (∀ j, j ∈ l ↔ Missing W i j) ∧ (Tree W i → l.Nodup) := by
  obtain ⟨r, hr⟩ := activateInputs_total hw hl { s with values := fun j => if memorized W vw j then s.values j else none }
  refine ⟨r, hr, fun t ht => ?_⟩
  have hI := ht.viewable hw (run_viewable hw hl ho hs h hr)
  obtain ⟨t1, ht1⟩ := activateInputs_total hw hl t
  obtain ⟨vw', h0, h1, h2, -⟩ := setUp_ok hw hl so ho F
  rw [hs] at h0
  cases h0
  obtain ⟨br, mk, hbr, hmem, -⟩ := h1 i (List.mem_filter.2 ⟨by simpa using hi, hd⟩)
  have he : lastEntry vw.displays (blockSelector F i) = some br := by
    refine lastEntry_eq hmem (fun e hem hk => ?_)
    obtain ⟨j, hj, mk', e1, e2⟩ := h2 e hem
    obtain ⟨hj1, hj2⟩ := List.mem_filter.1 hj
    obtain rfl := huniq j (by simpa using hj1) hj2 (by rw [← e1, hk])
    rw [hbr] at e2
    simp only [Except.ok.injEq, Prod.mk.injEq] at e2
    exact e2.1.symm
  obtain ⟨ys, hy, hres⟩ := branch_shown hw hl hlen ho hi (.inl hd) hni hev hbr t1 (hI.activate hw ht1)
  refine ⟨ys, hy, ?_⟩
  have hdef : blockDisplay W so F vw t i = (do
          let rt ← runtimeBlocks W so
          let (s, done) ← evaluateBranchOut W rt br t1
          let y ← firstOutput done i
          .ok (s, y)) := by
    unfold blockDisplay
    rw [ht1]
    simp only [bind, Except.bind, hi, if_true, he]
  rw [hdef, ← (activateInputs_frame ht1).ev]
  cases ys with
  | nil => exact hres
  | cons y ys =>
    obtain ⟨t', l, g1, g2, g3, g4⟩ := hres
    exact ⟨t', l, g1, g2, g3, fun ht => g4 (branch_nodup hw hl ho hi ht hbr)⟩

/-- **C108** The same for the exports.
Missing: as for `C108_display_partial`. -/
theorem C108_export_partial (hw : WellFormed W) (hl : LocksOk W) (hlen : Arity W) {so so' : SetOrder} {o : Nat}
    (ho : OutputOf W o) {F : Nat → Face} {vw : Views} (hs : setUp W so F = .ok vw) {user : List (Nat × α)} {s : St α}
    (h : run W so' user = .ok (some s)) {i : Nat} (hi : i < W.blocks.length) (hd : (F i).isExport = true)
    (hni : ¬ Leads W i) (huniq : ∀ j, j < W.blocks.length → (F j).isExport = true → blockSelector F j = blockSelector F i → j = i)
    (hev : ∀ j b xs, Missing W i j → W.blocks[j]? = some b → xs.length = b.inputs.length →
      (∀ vx ∈ b.inputs.zip xs, Den W (expected W user) vx.1 vx.2) → ∃ ys, b.eval xs = .ok ys) :
    ∃ r, keepRun W vw s = .ok r ∧ ∀ t, Viewed W so F vw r t → ∃ ys, Gives W (expected W user) i ys ∧ match ys with
      | [] => blockExport W so F vw t i = .error .indexError
      | y :: _ => ∃ t' l, blockExport W so F vw t i = .ok (t', y) ∧ t'.evaluated = t.evaluated ++ l ∧
          (∀ j, j ∈ l ↔ Missing W i j) ∧ (Tree W i → l.Nodup) := by
  obtain ⟨r, hr⟩ := activateInputs_total hw hl { s with values := fun j => if memorized W vw j then s.values j else none }
  refine ⟨r, hr, fun t ht => ?_⟩
  have hI := ht.viewable hw (run_viewable hw hl ho hs h hr)
  obtain ⟨vw', h0, -, -, h1, h2, -⟩ := setUp_ok hw hl so ho F
  rw [hs] at h0
  cases h0
  obtain ⟨br, mk, hbr, hmem, -⟩ := h1 i (List.mem_filter.2 ⟨by simpa using hi, hd⟩)
  have he : lastEntry vw.exports (blockSelector F i) = some br := by
    refine lastEntry_eq hmem (fun e hem hk => ?_)
    obtain ⟨j, hj, mk', e1, e2⟩ := h2 e hem
    obtain ⟨hj1, hj2⟩ := List.mem_filter.1 hj
    obtain rfl := huniq j (by simpa using hj1) hj2 (by rw [← e1, hk])
    rw [hbr] at e2
    simp only [Except.ok.injEq, Prod.mk.injEq] at e2
    exact e2.1.symm
  obtain ⟨ys, hy, hres⟩ := branch_shown hw hl hlen ho hi (.inr hd) hni hev hbr t hI
  refine ⟨ys, hy, ?_⟩
  have hdef : blockExport W so F vw t i = (do
          let rt ← runtimeBlocks W so
          let (s, done) ← evaluateBranchOut W rt br t
          let y ← firstOutput done i
          .ok (s, y)) := by
    unfold blockExport
    simp only [bind, Except.bind, hi, if_true, he]
  rw [hdef]
  cases ys with
  | nil => exact hres
  | cons y ys =>
    obtain ⟨t', l, g1, g2, g3, g4⟩ := hres
    exact ⟨t', l, g1, g2, g3, fun ht => g4 (branch_nodup hw hl ho hi ht hbr)⟩

end DC.Wkf
