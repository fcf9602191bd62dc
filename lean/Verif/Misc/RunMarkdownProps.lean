import Verif.Misc.RunMarkdown
import Verif.Misc.MarkdownProps
/-
C212: the Markdown of a run has one line for each block that was evaluated, with the memory before and after its last evaluation.
-/
namespace DC.Txt

/-! ### Specification -/

/-- The last evaluation of a block found `start` and left `fin`. -/
def LastUse (evals : List (Nat × Int × Int)) (b : Nat) (start fin : Int) : Prop :=
  ∃ pre post, evals = pre ++ (b, start, fin) :: post ∧ ∀ x ∈ post, x.1 ≠ b

/-- The line which shows a block: its name, the memory at start, at end and the difference, cut to 25 characters. -/
def LineOf (name : Nat → List Char) (size : Int → List Char) (evals : List (Nat × Int × Int)) (b : Nat) (line : List (List Char)) : Prop :=
  ∃ s e, LastUse evals b s e ∧ line = [cell 25 (name b), cell 25 (size s), cell 25 (size e), cell 25 (size (e - s))]

/-! ### Proofs -/

theorem dictOf_append (l : List (Nat × Int)) (p : Nat × Int) : dictOf (l ++ [p]) = Dict.set (dictOf l) p.1 p.2 := by
  simp [dictOf]

theorem dictOf_nodup (l : List (Nat × Int)) : ((dictOf l).map (·.1)).Nodup := by
  induction l using List.reverseRecOn with
  | nil => simp [dictOf]
  | append_singleton l p ih => rw [dictOf_append]; exact Dict.nodup_set ih _ _

theorem dictOf_keys (l : List (Nat × Int)) (q : Nat) : q ∈ (dictOf l).map (·.1) ↔ q ∈ l.map (·.1) := by
  induction l using List.reverseRecOn with
  | nil => simp [dictOf]
  | append_singleton l p ih =>
    rw [dictOf_append, Dict.mem_keys_set, ih]
    simp only [List.map_append, List.map_cons, List.map_nil, List.mem_append, List.mem_singleton]
    tauto

theorem dictOf_keys_nodup (l : List (Nat × Int)) (h : (l.map (·.1)).Nodup) : (dictOf l).map (·.1) = l.map (·.1) := by
  induction l using List.reverseRecOn with
  | nil => simp [dictOf]
  | append_singleton l p ih =>
    rw [List.map_append, List.nodup_append] at h
    have hp : p.1 ∉ (dictOf l).map (·.1) := by
      rw [dictOf_keys]
      intro hm
      exact h.2.2 _ hm _ (by simp) rfl
    rw [dictOf_append, Dict.keys_set, if_neg hp, ih h.1]
    simp

theorem recorded_append (evals : List (Nat × Int × Option Int)) (e : Nat × Int × Option Int) :
    ExecInfo.recorded (evals ++ [e]) = (ExecInfo.recorded evals).add e.1 e.2.1 e.2.2 := by
  simp [ExecInfo.recorded]

theorem recorded_before (evals : List (Nat × Int × Option Int)) :
    (ExecInfo.recorded evals).before = evals.map fun e => (e.1, e.2.1) := by
  induction evals using List.reverseRecOn with
  | nil => rfl
  | append_singleton l p ih => rw [recorded_append]; simp [ExecInfo.add, ih]

theorem recorded_after (evals : List (Nat × Int × Int)) :
    (ExecInfo.recorded (evals.map fun e => (e.1, e.2.1, some e.2.2))).after = evals.map fun e => (e.1, e.2.2) := by
  induction evals using List.reverseRecOn with
  | nil => rfl
  | append_singleton l p ih => rw [List.map_append, List.map_singleton, recorded_append]; simp [ExecInfo.add, ih]

theorem last_use (evals : List (Nat × Int × Int)) (b : Nat) (s : Int) (h : (dictOf (evals.map fun e => (e.1, e.2.1))).lookup b = some s) :
    ∃ e, (dictOf (evals.map fun e => (e.1, e.2.2))).lookup b = some e ∧ LastUse evals b s e := by
  induction evals using List.reverseRecOn with
  | nil => simp [dictOf] at h
  | append_singleton l p ih =>
    simp only [List.map_append, List.map_cons, List.map_nil, dictOf_append, Dict.lookup_set] at h ⊢
    by_cases hb : b = p.1
    · rw [if_pos hb] at h ⊢
      refine ⟨_, rfl, l, [], ?_, by simp⟩
      simp only [Option.some.injEq] at h
      rw [hb, ← h]
    · rw [if_neg hb] at h ⊢
      obtain ⟨e, h1, pre, post, h2, h3⟩ := ih h
      refine ⟨e, h1, pre, post ++ [p], by rw [h2]; simp, ?_⟩
      intro x hx
      rcases List.mem_append.1 hx with hx | hx
      · exact h3 x hx
      · rw [List.mem_singleton.1 hx]; exact fun h => hb h.symm

theorem info_rows (name : Nat → List Char) (size : Int → List Char) (order : List (List Char) → List (List Char)) (after : List (Nat × Int))
    (hname : ∀ b, name b ≠ []) (hsize : ∀ m, size m ≠ []) : ∀ before : List (Nat × Int), (∀ p ∈ before, ∃ e, after.lookup p.1 = some e) →
    ∃ rows strs, infoRows name size after before = .ok rows ∧ matrixStrings order rows = .ok strs ∧
      List.Forall₂ (fun p r => ∃ e, after.lookup p.1 = some e ∧ r = [name p.1, size p.2, size e, size (e - p.2)]) before strs
  | [], _ => ⟨[], [], rfl, rfl, .nil⟩
  | (b, m) :: rest, h => by
    obtain ⟨rows, strs, h1, h2, h3⟩ := info_rows name size order after hname hsize rest fun p hp => h p (.tail _ hp)
    obtain ⟨e, he⟩ := h _ (.head _)
    simp only at he
    refine ⟨[.text (name b), .text (size m), .text (size e), .text (size (e - m))] :: rows, [name b, size m, size e, size (e - m)] :: strs, ?_, ?_, .cons ⟨e, he, rfl⟩ h3⟩
    · simp only [infoRows, he, h1]
    · simp only [matrixStrings, rowStrings, valueToStr, if_pos (hname b), if_pos (hsize _), h2]

/-- **C212** (part): when every evaluated block finished, the Markdown of a run whose output is shown by `out` says the name of the run, that of the
workflow and `out`, and has a table which is read as the titles and one line for each evaluated block, each of them once, with the memory before
and after its last evaluation and their difference.  When no block is evaluated twice, the lines are in the order of the evaluations.
Missing for the full property: outputs which are no objects and no sequences (`C212_plain_violated`), blocks which did not finish
(`C212_unfinished_violated`), states (`C212_state_violated`), and names with bars or newlines. -/
theorem C212_partial {capitalize : List Char → List Char} {order : List (List Char) → List (List Char)} {name : Nat → List Char}
    {size : Int → List Char} (hcap : ∀ t ∈ infoTitles, capitalize t = t) (hname : ∀ b, name b ≠ [] ∧ InCell (name b))
    (hsize : ∀ m, size m ≠ [] ∧ InCell (size m)) (runName flowName out : List Char) {output : RunOutput}
    (hout : outputTable capitalize order output = .ok out) (evals : List (Nat × Int × Int)) :
    ∃ table blocks lines, runMarkdown capitalize order name size runName flowName output
        (ExecInfo.recorded (evals.map fun e => (e.1, e.2.1, some e.2.2))) =
          .ok ("# WorkflowRun ".toList ++ runName ++ "\n\nRun of workflow ".toList ++ flowName ++ "\n\n# Output\n\n".toList ++ out ++
            "\n\n# Execution informations\n\n".toList ++ table ++ "\n\n".toList) ∧
      readTable table = ["Block".toList, "Memory usage at start".toList, "Memory usage at end".toList, "Memory diff".toList] ::
        List.replicate 4 "------".toList :: lines ∧
      blocks.Nodup ∧ (∀ b, b ∈ blocks ↔ b ∈ evals.map (·.1)) ∧ ((evals.map (·.1)).Nodup → blocks = evals.map (·.1)) ∧
      List.Forall₂ (LineOf name size evals) blocks lines := by
  have hb : (ExecInfo.recorded (evals.map fun e => (e.1, e.2.1, some e.2.2))).before = evals.map fun e => (e.1, e.2.1) := by
    rw [recorded_before, List.map_map]; rfl
  have key : ∀ p ∈ dictOf (evals.map fun e => (e.1, e.2.1)), ∃ e, (dictOf (evals.map fun e => (e.1, e.2.2))).lookup p.1 = some e ∧
      LastUse evals p.1 p.2 e := fun p hp => last_use evals p.1 p.2 (Dict.mem_lookup (dictOf_nodup _) hp)
  obtain ⟨rows, strs, h1, h2, h3⟩ := info_rows name size order (dictOf (evals.map fun e => (e.1, e.2.2))) (fun b => (hname b).1)
    (fun m => (hsize m).1) (dictOf (evals.map fun e => (e.1, e.2.1))) fun p hp => (key p hp).imp fun _ h => h.1
  refine ⟨headTable capitalize infoTitles ++ (contentTable none strs).flatMap (writeLine 25),
    (dictOf (evals.map fun e => (e.1, e.2.1))).map (·.1), strs.map fun r => r.map (cell 25), ?_, ?_, dictOf_nodup _, ?_, ?_, ?_⟩
  · simp only [runMarkdown, hout, namedOnly, if_true, infoMarkdown, hb, recorded_after, h1, matrixTable, h2]
  · rw [table_read (by decide) rfl]
    · have e : infoTitles.map capitalize = infoTitles := by
        conv_rhs => rw [← List.map_id infoTitles]
        exact List.map_congr_left hcap
      rw [e]
      rfl
    · intro n hn
      rw [hcap n hn]
      simp only [infoTitles, List.mem_cons, List.not_mem_nil, or_false] at hn
      rcases hn with rfl | rfl | rfl | rfl <;> exact ⟨by decide, by decide⟩
    · clear h1 h2 key
      generalize dictOf (evals.map fun e => (e.1, e.2.1)) = d at h3
      induction h3 with
      | nil => intro r hr; simp at hr
      | cons h _ ih =>
        obtain ⟨e, _, rfl⟩ := h
        intro r hr c hc
        rcases List.mem_cons.1 hr with rfl | hr
        · simp only [List.mem_cons, List.not_mem_nil, or_false] at hc
          rcases hc with rfl | rfl | rfl | rfl
          · exact (hname _).2
          · exact (hsize _).2
          · exact (hsize _).2
          · exact (hsize _).2
        · exact ih r hr c hc
  · intro b
    rw [dictOf_keys, List.map_map]
    rfl
  · intro hn
    rw [dictOf_keys_nodup, List.map_map]
    · rfl
    · rw [List.map_map]; exact hn
  · clear h1 h2
    rw [List.forall₂_map_left_iff, List.forall₂_map_right_iff]
    generalize dictOf (evals.map fun e => (e.1, e.2.1)) = d at h3 key
    induction h3 with
    | nil => exact .nil
    | cons h _ ih =>
      obtain ⟨e, he, rfl⟩ := h
      obtain ⟨e', he', hl⟩ := key _ (.head _)
      rw [he'] at he
      simp only [Option.some.injEq] at he
      subst he
      exact .cons ⟨_, _, hl, rfl⟩ (ih fun p hp => key p (.tail _ hp))

theorem infoRows_missing (name : Nat → List Char) (size : Int → List Char) (after : List (Nat × Int)) {b : Nat} (hb : after.lookup b = none) :
    ∀ before : List (Nat × Int), b ∈ before.map (·.1) → infoRows name size after before = .error .keyError
  | (q, m) :: rest, h => by
    unfold infoRows
    cases hq : after.lookup q with
    | none => rfl
    | some e =>
      have : b ∈ rest.map (·.1) := by
        rcases List.mem_cons.1 h with h | h
        · simp only at h; rw [h, hq] at hb; simp at hb
        · exact h
      simp only [infoRows_missing name size after hb rest this]

/-- The execution information of a workflow of which one block raised an error, and was not evaluated again, has no Markdown: KeyError. -/
theorem C212_unfinished_violated (capitalize : List Char → List Char) (order : List (List Char) → List (List Char)) (name : Nat → List Char)
    (size : Int → List Char) (evals : List (Nat × Int × Option Int)) (b : Nat) (start : Int) (hb : (b, start, none) ∈ evals)
    (hn : ∀ e ∈ evals, e.1 = b → e.2.2 = none) :
    infoMarkdown capitalize order name size (ExecInfo.recorded evals) = .error .keyError := by
  have ha : ∀ l : List (Nat × Int × Option Int), (∀ e ∈ l, e.1 = b → e.2.2 = none) → b ∉ (ExecInfo.recorded l).after.map (·.1) := by
    intro l
    induction l using List.reverseRecOn with
    | nil => intro _; simp [ExecInfo.recorded]
    | append_singleton l p ih =>
      intro h
      have h1 := ih fun e he => h e (List.mem_append_left _ he)
      have h2 := h p (by simp)
      rw [recorded_append]
      unfold ExecInfo.add
      cases hp : p.2.2 with
      | none => exact h1
      | some m =>
        simp only [List.map_append, List.map_cons, List.map_nil, List.mem_append, List.mem_singleton, not_or]
        refine ⟨h1, fun e => ?_⟩
        rw [h2 e.symm] at hp
        simp at hp
  have hk : (dictOf (ExecInfo.recorded evals).after).lookup b = none := by
    rw [Dict.lookup_none, dictOf_keys]; exact ha evals hn
  unfold infoMarkdown
  rw [infoRows_missing name size _ hk]
  rw [dictOf_keys, recorded_before, List.map_map]
  exact List.mem_map.2 ⟨_, hb, rfl⟩

/-- A state of a workflow has no Markdown, whatever was evaluated: TypeError. -/
theorem C212_state_violated (capitalize : List Char → List Char) (order : List (List Char) → List (List Char)) (name : Nat → List Char)
    (size : Int → List Char) (stateName flowName progress : List Char) (i : ExecInfo) :
    stateMarkdown capitalize order name size stateName flowName progress i = .error .typeError := rfl

/-- A run whose output is a number, a string, a dictionary or None has no Markdown: AttributeError. -/
theorem C212_plain_violated (capitalize : List Char → List Char) (order : List (List Char) → List (List Char)) (name : Nat → List Char)
    (size : Int → List Char) (runName flowName : List Char) (i : ExecInfo) :
    runMarkdown capitalize order name size runName flowName .plain i = .error .attributeError := rfl

/-! ### Examples -/

/-- A name of each block, here. -/
def someBlockName (b : Nat) : List Char := 'B' :: (toString b).toList

/-- A written form of sizes, here: that of the absolute value. -/
def someSize (m : Int) : List Char := (toString m.natAbs).toList ++ " Bytes".toList

/-- The hypotheses of `C212_partial` are met by such names and sizes, and by a run with a sequence or an object as output. -/
example : (∀ t ∈ infoTitles, id t = t) ∧ (∀ b, someBlockName b ≠ [] ∧ InCell (someBlockName b)) ∧ (∀ m, someSize m ≠ [] ∧ InCell (someSize m)) ∧
    outputTable id someOrder (.seq 3) = .ok "Output is a sequence of 3 elements".toList ∧
    ∃ t, outputTable id someOrder (.obj someMdObject) = .ok t := by
  refine ⟨fun _ _ => rfl, fun b => ⟨by simp [someBlockName], ?_⟩, fun m => ⟨by simp [someSize], inCell_append (inCell_digits _) ⟨by decide, by decide⟩⟩,
    rfl, _, rfl⟩
  exact inCell_append (a := ['B']) ⟨by decide, by decide⟩ (inCell_digits b)

/-- Block 4 is evaluated, then block 2, then block 4 again: the table has two lines, that of block 4 with its last evaluation. -/
example : (match infoMarkdown id someOrder someBlockName someSize
      (ExecInfo.recorded [(4, 100, some 150), (2, 150, some 170), (4, 170, some 260)]) with
    | .ok t => some (readTable t)
    | .error _ => none) = some
    [["Block".toList, "Memory usage at start".toList, "Memory usage at end".toList, "Memory diff".toList], List.replicate 4 "------".toList,
      ["B4".toList, "170 Bytes".toList, "260 Bytes".toList, "90 Bytes".toList],
      ["B2".toList, "150 Bytes".toList, "170 Bytes".toList, "20 Bytes".toList]] := by decide +kernel

/-- Block 2 raised an error. -/
example : infoMarkdown id someOrder someBlockName someSize (ExecInfo.recorded [(4, 100, some 150), (2, 150, none)]) = .error .keyError :=
  C212_unfinished_violated _ _ _ _ _ 2 150 (by decide) (by decide)

end DC.Txt
