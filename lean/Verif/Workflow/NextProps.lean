import Verif.Workflow.Props
/- Property C77: evaluating the blocks one by one. -/
namespace DC.Wkf

variable {α : Type}

/-- Spec: `n` successive calls of `evaluate_next_block`, with the blocks returned. -/
def nextN (W : Workflow α) (rt : List Nat) : Nat → St α → Except PyErr (St α × List (Option Nat))
  | 0, s => .ok (s, [])
  | n + 1, s => do
    let (s, r) ← evaluateNext W rt s
    let (s, rs) ← nextN W rt n s
    .ok (s, r :: rs)

theorem evaluateNext_some {W : Workflow α} {rt : List Nat} {s s' : St α} {i : Nat}
    (h : evaluateNext W rt s = .ok (s', some i)) : ∃ s1 s2, activateInputs W false s = .ok s1 ∧
      activateInputs W false s1 = .ok s2 ∧ i < W.blocks.length ∧ activable W rt s1 i = true ∧
      (∀ j < i, activable W rt s1 j = false) ∧ ∃ ys, evaluateBlock W s2 i = .ok (s', ys) := by
  unfold evaluateNext at h
  rw [bind_ok] at h
  obtain ⟨s1, h1, h⟩ := h
  split at h
  · simp at h
  · rename_i j l hf
    rw [bind_ok] at h
    obtain ⟨⟨s3, r⟩, h2, h⟩ := h
    simp only [Except.ok.injEq, Prod.mk.injEq, Option.some.injEq] at h
    obtain ⟨rfl, rfl⟩ := h
    have hm : j ∈ (List.range W.blocks.length).filter (activable W rt s1) := by rw [hf]; exact .head _
    rw [List.mem_filter, List.mem_range] at hm
    have hlt : ∀ k < j, activable W rt s1 k = false := by
      intro k hk
      by_contra hc
      have hkm : k ∈ (List.range W.blocks.length).filter (activable W rt s1) := by
        rw [List.mem_filter, List.mem_range]; exact ⟨by omega, by simpa using hc⟩
      have hs : ((List.range W.blocks.length).filter (activable W rt s1)).Pairwise (· < ·) :=
        List.pairwise_lt_range.sublist List.filter_sublist
      rw [hf] at hkm hs
      rcases List.mem_cons.1 hkm with rfl | hkm
      · omega
      · have := (List.pairwise_cons.1 hs).1 k hkm
        omega
    obtain ⟨s2, h3, hfr, ⟨-, -, ha⟩ | ⟨-, -, ys, he, -⟩⟩ := blockEvaluation_ok h2
    · rw [hfr.activable hm.2] at ha
      simp at ha
    · exact ⟨s1, s2, h1, h3, hm.1, hm.2, hlt, ys, he⟩

theorem evaluateNext_none {W : Workflow α} {rt : List Nat} {s s' : St α}
    (h : evaluateNext W rt s = .ok (s', none)) : activateInputs W false s = .ok s' ∧
      ∀ i < W.blocks.length, activable W rt s' i = false := by
  unfold evaluateNext at h
  rw [bind_ok] at h
  obtain ⟨s1, h1, h⟩ := h
  split at h
  · rename_i hf
    simp only [Except.ok.injEq, Prod.mk.injEq, and_true] at h
    subst h
    refine ⟨h1, fun i hi => ?_⟩
    by_contra hc
    have : i ∈ (List.range W.blocks.length).filter (activable W rt s1) := by
      rw [List.mem_filter, List.mem_range]; exact ⟨hi, by simpa using hc⟩
    rw [hf] at this
    simp at this
  · rw [bind_ok] at h
    obtain ⟨⟨s3, r⟩, h2, h⟩ := h
    simp at h

/-- A call returns a block which had all its inputs, the first such one in the order of the blocks, which is then
evaluated; it returns nothing only when no block can be evaluated. -/
theorem C77_next {W : Workflow α} {rt : List Nat} {s s' : St α} {r : Option Nat}
    (h : evaluateNext W rt s = .ok (s', r)) : ∃ s1, activateInputs W false s = .ok s1 ∧
      match r with
      | none => s' = s1 ∧ ∀ i < W.blocks.length, activable W rt s1 i = false
      | some i => activable W rt s1 i = true ∧ (∀ j < i, activable W rt s1 j = false) ∧ s'.actBlock i = true ∧
          s'.evaluated = s.evaluated ++ [i] := by
  cases r with
  | none =>
    obtain ⟨h1, h2⟩ := evaluateNext_none h
    exact ⟨s', h1, rfl, h2⟩
  | some i =>
    obtain ⟨s1, s2, h1, h2, -, h4, h5, ys, h6⟩ := evaluateNext_some h
    have hs := evaluateBlock_step h6
    refine ⟨s1, h1, h4, h5, (hs.blk i).2 (.inr rfl), ?_⟩
    rw [hs.ev, (activateInputs_frame h2).ev, (activateInputs_frame h1).ev]

theorem evaluateNext_left {W : Workflow α} {rt : List Nat} (hall : ∀ i < W.blocks.length, i ∈ rt) {s s' : St α} {i : Nat}
    (h : evaluateNext W rt s = .ok (s', some i)) : left W s' < left W s := by
  obtain ⟨s1, s2, h1, h2, hi, h4, -, ys, h6⟩ := evaluateNext_some h
  have hf1 := activateInputs_frame h1
  have hf2 := activateInputs_frame h2
  have hs := evaluateBlock_step h6
  have hn := activable_new h4 (hall i hi)
  unfold left
  refine filter_length_lt (a := i) ?_ (by simpa using hi) ?_ ?_
  · intro j _ hj
    by_contra hc
    simp only [Bool.not_eq_true, Bool.not_eq_false'] at hc
    have := (hs.blk j).2 (.inl (by rw [hf2.blk, hf1.blk]; exact hc))
    simp [this] at hj
  · rw [hf1.blk] at hn
    simp [hn]
  · simp [(hs.blk i).2 (.inr rfl)]

/-- When all the blocks lead to the output, evaluating them one by one ends: among more calls than there are blocks, one
returns nothing.
Missing: blocks which do not lead to the output (`C77_violated`). -/
theorem C77_ends_partial {W : Workflow α} {rt : List Nat} (hall : ∀ i < W.blocks.length, i ∈ rt) {s s' : St α} {n : Nat}
    {rs : List (Option Nat)} (hn : W.blocks.length < n) (h : nextN W rt n s = .ok (s', rs)) : none ∈ rs := by
  have key : ∀ n s s' rs, left W s < n → nextN W rt n s = .ok (s', rs) → none ∈ rs := by
    intro n
    induction n with
    | zero => intro s s' rs hl; omega
    | succ n ih =>
      intro s s' rs hl h
      rw [nextN, bind_ok] at h
      obtain ⟨⟨s1, r⟩, h1, h⟩ := h
      rw [bind_ok] at h
      obtain ⟨⟨s2, rs'⟩, h2, h⟩ := h
      simp only [Except.ok.injEq, Prod.mk.injEq] at h
      obtain ⟨rfl, rfl⟩ := h
      cases r with
      | none => exact .head _
      | some i =>
        have := evaluateNext_left hall h1
        exact .tail _ (ih s1 s2 rs' (by omega) h2)
  exact key n s s' rs (by have := left_le W s; omega) h

/-- Like `exW`, with the block which does not lead to the output in first position. -/
def exS : Workflow Int where
  blocks := [⟨[5], [7], dblEval⟩, ⟨[3], [4], dblEval⟩]
  pipes := []
  output := some 4
  default _ := some 1
  lockFlag _ := false

theorem exS_wf : WellFormed exS where
  distinct := by decide
  single := by decide
  target := by decide
  source := by decide
  acyclic := ⟨fun v => v, by decide, by decide⟩

theorem exS_total : Total exS := by
  intro b hb xs hx
  simp only [exS, List.mem_cons, List.not_mem_nil, or_false] at hb
  rcases hb with rfl | rfl
  · match xs, hx with
    | [a], _ => exact ⟨[2 * a], rfl, rfl⟩
  · match xs, hx with
    | [a], _ => exact ⟨[2 * a], rfl, rfl⟩

theorem exS_next (s : St Int) (hI : Good exS (fun _ => some 1) s) : ∃ s', evaluateNext exS [1] s = .ok (s', some 0) ∧
    Good exS (fun _ => some 1) s' ∧ (s'.actBlock 1 = s.actBlock 1) := by
  have hl : LocksOk exS := fun _ h => by simp [exS] at h
  have hlt : ∀ i ∈ [1], i < exS.blocks.length := by decide
  obtain ⟨s1, h1⟩ := activateInputs_total exS_wf hl s
  obtain ⟨hI1, ha⟩ := hI.activateInputs exS_wf h1
  have h5 : s1.actVar 5 = true := ha 0 5 (by decide) (.inl (by
    cases s.inputValues 0 <;> rfl))
  have hact : ∀ t : St Int, t.actVar 5 = true → activable exS [1] t 0 = true := by
    intro t ht
    simp [activable, exS, byInputs, ht]
  obtain ⟨s2, h2⟩ := activateInputs_total exS_wf hl s1
  obtain ⟨hI2, -⟩ := hI1.activateInputs exS_wf h2
  have hf1 := activateInputs_frame h1
  have hf2 := activateInputs_frame h2
  have hb : exS.blocks[0]? = some ⟨[5], [7], dblEval⟩ := rfl
  have h52 : s2.actVar 5 = true := hf2.var 5 h5
  obtain ⟨xs, hx, -, ⟨e, he, -⟩ | ⟨ys, s3, -, he, hg⟩⟩ := Inv.evaluateBlock exS_wf hb s2 hI2 (by simp [byInputs, h52])
  · obtain ⟨ys, hy, -⟩ := exS_total _ (List.mem_of_getElem? hb) xs hx
    rw [hy] at he
    simp at he
  · refine ⟨s3, ?_, hg, ?_⟩
    · have hr : (List.range exS.blocks.length).filter (activable exS [1] s1) =
          0 :: [1].filter (activable exS [1] s1) := by
        show [0, 1].filter _ = _
        rw [List.filter_cons, if_pos (hact s1 h5)]
      unfold evaluateNext
      simp only [h1, bind, Except.bind, hr]
      unfold blockEvaluation
      simp only [hb, h2, bind, Except.bind, hact s2 h52, if_true, he]
    · have hs := evaluateBlock_step he
      have := hs.blk 1
      rw [hf2.blk, hf1.blk] at this
      simp only [or_false, one_ne_zero] at this
      exact Bool.eq_iff_iff.2 this

/-- A block which does not lead to the output is returned again and again once it has its inputs: here, whatever the number
of calls, the block of the output is never evaluated and the progress stays at zero. -/
theorem C77_violated : ∃ (W : Workflow Int) (rt : List Nat) (s : St Int), WellFormed W ∧ Total W ∧
    runtimeBlocks W dedupOrder = .ok rt ∧ startRun W (fun _ => none) = .ok s ∧
    ∀ n, ∃ s', nextN W rt n s = .ok (s', List.replicate n (some 0)) ∧ progress rt s' = 0 := by
  have hl : LocksOk exS := fun _ h => by simp [exS] at h
  obtain ⟨s, hs⟩ := activateInputs_total exS_wf hl ({ inputValues := fun _ => none } : St Int)
  have hI : Good exS (fun _ => some 1) s := ((Inv.init (V := fun _ => some 1) (vals := fun _ => none)
    (fun k v x hk hx => by simpa [exS] using hx)).activateInputs exS_wf hs).1
  have hrt : runtimeBlocks exS dedupOrder = .ok [1] := by
    cases h : runtimeBlocks exS dedupOrder with
    | error e =>
      have : (runtimeBlocks exS dedupOrder).toOption = some [1] := by decide
      rw [h] at this; simp [Except.toOption] at this
    | ok r =>
      have : (runtimeBlocks exS dedupOrder).toOption = some [1] := by decide
      rw [h] at this; simp [Except.toOption] at this
      rw [this]
  refine ⟨exS, [1], s, exS_wf, exS_total, hrt, hs, fun n => ?_⟩
  have h0 : s.actBlock 1 = false := by rw [(activateInputs_frame hs).blk]
  have key : ∀ n (s : St Int), Good exS (fun _ => some 1) s → s.actBlock 1 = false → ∃ s',
      nextN exS [1] n s = .ok (s', List.replicate n (some 0)) ∧ s'.actBlock 1 = false := by
    intro n
    induction n with
    | zero => intro s _ h; exact ⟨s, rfl, h⟩
    | succ n ih =>
      intro s hg hb
      obtain ⟨s1, h1, hg1, hb1⟩ := exS_next s hg
      obtain ⟨s2, h2, hb2⟩ := ih s1 hg1 (by rw [hb1]; exact hb)
      exact ⟨s2, by rw [nextN, h1]; simp only [bind, Except.bind, h2]; rfl, hb2⟩
  obtain ⟨s', h1, h2⟩ := key n s hI h0
  exact ⟨s', h1, by simp [progress, h2]⟩

/-- The hypothesis of the partial theorem is met by a workflow where all the blocks lead to the output. -/
example : (match runtimeBlocks { exW with blocks := exW.blocks.take 2, pipes := exW.pipes.take 2 } dedupOrder with
    | .ok rt => rt | .error _ => []) = [0, 1] := by decide

end DC.Wkf
