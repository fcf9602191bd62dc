import Verif.Workflow.StructLemmas
/- What the steps of the engine leave unchanged, without any hypothesis on the workflow. -/
namespace DC.Wkf

variable {α : Type}

/-- From `s` to `s'` no block was evaluated, and nothing was deactivated. -/
structure Frame (s s' : St α) : Prop where
  blk : s'.actBlock = s.actBlock
  ev : s'.evaluated = s.evaluated
  var : ∀ v, s.actVar v = true → s'.actVar v = true
  inp : ∀ k, (s.inputValues k).isSome → (s'.inputValues k).isSome
  val : ∀ j, (s.values j).isSome → (s'.values j).isSome
  pipe : ∀ j, s.actPipe j = true → s'.actPipe j = true

theorem Frame.refl (s : St α) : Frame s s := ⟨rfl, rfl, fun _ h => h, fun _ h => h, fun _ h => h, fun _ h => h⟩

theorem Frame.trans {s s' s'' : St α} (h : Frame s s') (h' : Frame s' s'') : Frame s s'' where
  blk := h'.blk.trans h.blk
  ev := h'.ev.trans h.ev
  var v hv := h'.var v (h.var v hv)
  inp v hv := h'.inp v (h.inp v hv)
  val v hv := h'.val v (h.val v hv)
  pipe v hv := h'.pipe v (h.pipe v hv)

theorem Pushed.frame {P T : Nat → Prop} {O : Prop} {x : α} {s s' : St α} (h : Pushed P T O x s s') : Frame s s' where
  blk := h.blk
  ev := h.ev
  var v hv := (h.var v).2 (.inl hv)
  inp k hk := by rw [h.inp]; exact hk
  val j hj := by
    by_cases hp : P j
    · rw [h.valIn j hp]; rfl
    · rw [h.valOut j hp]; exact hj
  pipe j hj := (h.pipe j).2 (.inl hj)

theorem noteInput_frame (W : Workflow α) (s : St α) (v : Nat) (x : α) : Frame s (noteInput W s v x) := by
  unfold noteInput
  split
  · refine ⟨rfl, rfl, fun _ h => h, fun k hk => ?_, fun _ h => h, fun _ h => h⟩
    simp only [upd]
    split
    · rfl
    · exact hk
  · exact Frame.refl s

theorem activateInput_frame {W : Workflow α} {s s' : St α} {v : Nat} {x : α} (h : activateInput W s v x = .ok s') :
    Frame s s' := (noteInput_frame W s v x).trans (activateInput_pushed h).frame

theorem activateInputsLoop_frame {W : Workflow α} {c : Bool} (l : List Nat) (k : Nat) (s s' : St α)
    (h : activateInputsLoop W c k l s = .ok s') : Frame s s' := by
  induction l generalizing k s with
  | nil =>
    simp only [activateInputsLoop, Except.ok.injEq] at h
    subst h; exact .refl s
  | cons v l ih =>
    rw [activateInputsLoop, bind_ok] at h
    obtain ⟨s1, h1, h2⟩ := h
    refine Frame.trans ?_ (ih _ _ h2)
    unfold activateOne at h1
    split at h1
    · exact activateInput_frame h1
    · split at h1
      · exact activateInput_frame h1
      · split at h1
        · simp at h1
        · split at h1
          · simp at h1
          · simp only [Except.ok.injEq] at h1
            subst h1; exact .refl s

theorem activateInputs_frame {W : Workflow α} {c : Bool} {s s' : St α} (h : activateInputs W c s = .ok s') :
    Frame s s' := activateInputsLoop_frame _ _ _ _ h

theorem readInputs_frame {W : Workflow α} (l : List Nat) (s s' : St α) (xs : List α)
    (h : readInputs W l s = .ok (xs, s')) : Frame s s' := by
  induction l generalizing s s' xs with
  | nil =>
    simp only [readInputs, Except.ok.injEq, Prod.mk.injEq] at h
    rw [← h.2]; exact .refl s
  | cons v l ih =>
    rw [readInputs, bind_ok] at h
    obtain ⟨x, -, h⟩ := h
    rw [bind_ok] at h
    obtain ⟨s1, h1, h⟩ := h
    rw [bind_ok] at h
    obtain ⟨⟨xs', s2⟩, h2, h⟩ := h
    simp only [Except.ok.injEq, Prod.mk.injEq] at h
    rw [← h.2]
    exact (activateVar_pushed _ _ _ _ h1).frame.trans (ih _ _ _ h2)

theorem activateOutputs_frame {W : Workflow α} (os : List Nat) (ys : List α) (s s' : St α)
    (h : activateOutputs W os ys s = .ok s') : Frame s s' := by
  induction os generalizing ys s with
  | nil =>
    simp only [activateOutputs, Except.ok.injEq] at h
    rw [← h]; exact .refl s
  | cons o os ih =>
    cases ys with
    | nil =>
      simp only [activateOutputs, Except.ok.injEq] at h
      rw [← h]; exact .refl s
    | cons y ys =>
      rw [activateOutputs, bind_ok] at h
      obtain ⟨s1, h1, h2⟩ := h
      exact (activateVar_pushed _ _ _ _ h1).frame.trans (ih _ _ h2)

/-- From `s` to `s'` the block `i` was evaluated, and nothing was deactivated. -/
structure Step (i : Nat) (s s' : St α) : Prop where
  blk : ∀ j, s'.actBlock j = true ↔ s.actBlock j = true ∨ j = i
  ev : s'.evaluated = s.evaluated ++ [i]
  var : ∀ v, s.actVar v = true → s'.actVar v = true
  inp : ∀ k, (s.inputValues k).isSome → (s'.inputValues k).isSome

theorem evaluateBlock_step {W : Workflow α} {s s' : St α} {i : Nat} {ys : List α}
    (h : evaluateBlock W s i = .ok (s', ys)) : Step i s s' := by
  unfold evaluateBlock at h
  split at h
  · simp at h
  · rename_i b hb
    rw [bind_ok] at h
    obtain ⟨⟨xs, s1⟩, h1, h⟩ := h
    simp only [bind_ok] at h
    obtain ⟨ys', -, s2, h2, h⟩ := h
    simp only [Except.ok.injEq, Prod.mk.injEq] at h
    obtain ⟨rfl, rfl⟩ := h
    have f1 := readInputs_frame _ _ _ _ h1
    have f2 := activateOutputs_frame _ _ _ _ h2
    refine ⟨fun j => ?_, ?_, fun v hv => f2.var v (f1.var v hv), fun k hk => f2.inp k (f1.inp k hk)⟩
    · show upd s2.actBlock i true j = true ↔ _
      rw [f2.blk]
      simp only [f1.blk]
      by_cases hj : j = i <;> simp [upd, hj]
    · show s2.evaluated = _
      rw [f2.ev]
      simp only [f1.ev]

theorem Frame.activable {W : Workflow α} {rt : List Nat} {s s' : St α} {i : Nat} (h : Frame s s')
    (ha : activable W rt s i = true) : activable W rt s' i = true := by
  unfold Wkf.activable at ha ⊢
  split at ha
  · simp at ha
  · rename_i b hb
    simp only [byInputs, Bool.and_eq_true, List.all_eq_true, h.blk] at ha ⊢
    exact ⟨fun v hv => h.var v (ha.1 v hv), ha.2⟩

theorem blockEvaluation_ok {W : Workflow α} {rt : List Nat} {s s' : St α} {i : Nat} {r : Bool}
    (h : blockEvaluation W rt s i = .ok (s', r)) : ∃ s1, activateInputs W false s = .ok s1 ∧ Frame s s1 ∧
      ((r = false ∧ s' = s1 ∧ activable W rt s1 i = false) ∨
       (r = true ∧ activable W rt s1 i = true ∧ ∃ ys, evaluateBlock W s1 i = .ok (s', ys) ∧ Step i s1 s')) := by
  unfold blockEvaluation at h
  split at h
  · simp at h
  · rw [bind_ok] at h
    obtain ⟨s1, h1, h⟩ := h
    refine ⟨s1, h1, activateInputs_frame h1, ?_⟩
    split at h
    · rename_i ha
      rw [bind_ok] at h
      obtain ⟨⟨s2, ys⟩, h2, h⟩ := h
      simp only [Except.ok.injEq, Prod.mk.injEq] at h
      obtain ⟨rfl, rfl⟩ := h
      exact .inr ⟨rfl, ha, ys, h2, evaluateBlock_step h2⟩
    · rename_i ha
      simp only [Except.ok.injEq, Prod.mk.injEq] at h
      obtain ⟨rfl, rfl⟩ := h
      exact .inl ⟨rfl, rfl, by simpa using ha⟩

/-- The number of blocks not yet evaluated. -/
def left (W : Workflow α) (s : St α) : Nat := ((List.range W.blocks.length).filter (fun i => !s.actBlock i)).length

theorem left_le (W : Workflow α) (s : St α) : left W s ≤ W.blocks.length := by
  have := List.length_filter_le (fun i => !s.actBlock i) (List.range W.blocks.length)
  rwa [List.length_range] at this

theorem filter_length_mono {l : List Nat} {p q : Nat → Bool} (h : ∀ i ∈ l, q i = true → p i = true) :
    (l.filter q).length ≤ (l.filter p).length := by
  induction l with
  | nil => simp
  | cons a l ih =>
    have := ih (fun i hi => h i (.tail _ hi))
    have ha := h a (.head _)
    rw [List.filter_cons, List.filter_cons]
    split <;> split <;> simp_all <;> omega

theorem filter_length_lt {l : List Nat} {p q : Nat → Bool} (h : ∀ i ∈ l, q i = true → p i = true) {a : Nat} (ha : a ∈ l)
    (hp : p a = true) (hq : q a = false) : (l.filter q).length < (l.filter p).length := by
  induction l with
  | nil => simp at ha
  | cons b l ih =>
    have hm := filter_length_mono (p := p) (q := q) (l := l) (fun i hi => h i (.tail _ hi))
    rw [List.filter_cons, List.filter_cons]
    by_cases hab : a = b
    · subst hab
      simp only [hp, hq, if_true, Bool.false_eq_true, if_false, List.length_cons]
      omega
    · have hl : a ∈ l := (List.mem_cons.1 ha).resolve_left hab
      have := ih (fun i hi => h i (.tail _ hi)) hl
      have hb := h b (.head _)
      split <;> split <;> simp_all <;> omega

/-- Blocks stay evaluated. -/
def Keeps (s s' : St α) : Prop := ∀ j, s.actBlock j = true → s'.actBlock j = true

theorem blockEvaluation_keeps {W : Workflow α} {rt : List Nat} {s s' : St α} {i : Nat} {r : Bool}
    (h : blockEvaluation W rt s i = .ok (s', r)) : Keeps s s' := by
  obtain ⟨s1, -, hf, ⟨-, rfl, -⟩ | ⟨-, -, ys, -, hs⟩⟩ := blockEvaluation_ok h
  · intro j hj; rw [hf.blk]; exact hj
  · intro j hj
    rw [hs.blk, hf.blk]
    exact .inl hj

theorem evalAll_keeps {W : Workflow α} {rt : List Nat} (l : List Nat) (s s' : St α) (h : evalAll W rt l s = .ok s') :
    Keeps s s' := by
  induction l generalizing s with
  | nil =>
    simp only [evalAll, Except.ok.injEq] at h
    subst h; exact fun _ h => h
  | cons i l ih =>
    rw [evalAll, bind_ok] at h
    obtain ⟨⟨s1, r⟩, h1, h2⟩ := h
    exact fun j hj => ih _ h2 j (blockEvaluation_keeps h1 j hj)

theorem left_keeps {W : Workflow α} {s s' : St α} (h : Keeps s s') : left W s' ≤ left W s := by
  unfold left
  apply filter_length_mono
  intro i _ hi
  by_contra hc
  simp only [Bool.not_eq_true, Bool.not_eq_false'] at hc
  have := h i hc
  simp [this] at hi

theorem activable_lt {W : Workflow α} {rt : List Nat} {s : St α} {i : Nat} (h : activable W rt s i = true) :
    i < W.blocks.length := by
  unfold activable at h
  split at h
  · simp at h
  · rename_i b hb
    exact (List.getElem?_eq_some_iff.1 hb).1

theorem activable_new {W : Workflow α} {rt : List Nat} {s : St α} {i : Nat} (h : activable W rt s i = true)
    (hi : i ∈ rt) : s.actBlock i = false := by
  unfold activable at h
  split at h
  · simp at h
  · simp only [Bool.and_eq_true, Bool.or_eq_true, Bool.not_eq_true'] at h
    rcases h.2 with h | h
    · exact h
    · simp [hi] at h

theorem continueLoop_turn {W : Workflow α} {rt : List Nat} {s s' : St α} {i : Nat} {l : List Nat}
    (hb : rt.filter (activable W rt s) = i :: l) (h : evalAll W rt (i :: l) s = .ok s') : left W s' < left W s := by
  have hi : i ∈ rt.filter (activable W rt s) := by rw [hb]; exact .head _
  rw [List.mem_filter] at hi
  rw [evalAll, bind_ok] at h
  obtain ⟨⟨s1, r⟩, h1, h2⟩ := h
  refine Nat.lt_of_le_of_lt (left_keeps (evalAll_keeps _ _ _ h2)) ?_
  obtain ⟨s0, -, hf, ⟨-, -, ha⟩ | ⟨-, -, ys, -, hs⟩⟩ := blockEvaluation_ok h1
  · rw [hf.activable hi.2] at ha
    simp at ha
  · unfold left
    refine filter_length_lt (a := i) ?_ (by simpa using activable_lt hi.2) ?_ ?_
    · intro j _ hj
      by_contra hc
      simp only [Bool.not_eq_true, Bool.not_eq_false'] at hc
      have := (hs.blk j).2 (.inl (by rw [hf.blk]; exact hc))
      simp [this] at hj
    · simp [activable_new hi.2 hi.1]
    · simp [(hs.blk i).2 (.inr rfl)]

/-- More turns than blocks left are enough. -/
theorem continueLoop_ends {W : Workflow α} {rt : List Nat} (n : Nat) (s : St α) (h : left W s < n) (m : Nat) (hm : n ≤ m) :
    continueLoop W rt n s ≠ .ok none ∧ continueLoop W rt m s = continueLoop W rt n s := by
  induction n generalizing s m with
  | zero => omega
  | succ n ih =>
    obtain ⟨m, rfl⟩ : ∃ m', m = m' + 1 := ⟨m - 1, by omega⟩
    rw [continueLoop, continueLoop]
    cases hb : rt.filter (activable W rt s) with
    | nil => simp
    | cons i l =>
      simp only
      cases he : evalAll W rt (i :: l) s with
      | error e => simp [bind, Except.bind]
      | ok s1 =>
        have := continueLoop_turn hb he
        have h2 := ih s1 (by omega) m (by omega)
        simp only [bind, Except.bind]
        exact h2

/-! ### Invariants carried by the loops -/

/-- An invariant of each evaluation of a block is one of `continue_run`. -/
theorem evalAll_inv {W : Workflow α} {rt : List Nat} {P : St α → Prop}
    (hp : ∀ s s' i r, i ∈ rt → P s → blockEvaluation W rt s i = .ok (s', r) → P s') (l : List Nat) (hl : ∀ i ∈ l, i ∈ rt)
    (s s' : St α) (hs : P s) (h : evalAll W rt l s = .ok s') : P s' := by
  induction l generalizing s with
  | nil =>
    simp only [evalAll, Except.ok.injEq] at h
    subst h; exact hs
  | cons i l ih =>
    rw [evalAll, bind_ok] at h
    obtain ⟨⟨s1, r⟩, h1, h2⟩ := h
    exact ih (fun j hj => hl j (.tail _ hj)) s1 (hp _ _ _ _ (hl i (.head _)) hs h1) h2

theorem continueLoop_inv {W : Workflow α} {rt : List Nat} {P : St α → Prop}
    (hp : ∀ s s' i r, i ∈ rt → P s → blockEvaluation W rt s i = .ok (s', r) → P s') (n : Nat)
    (s s' : St α) (hs : P s) (h : continueLoop W rt n s = .ok (some s')) :
    P s' ∧ ∀ i ∈ rt, activable W rt s' i = false := by
  induction n generalizing s with
  | zero => simp [continueLoop] at h
  | succ n ih =>
    rw [continueLoop] at h
    split at h
    · rename_i hb
      simp only [Except.ok.injEq, Option.some.injEq] at h
      subst h
      refine ⟨hs, fun i hi => ?_⟩
      by_contra hc
      have : i ∈ rt.filter (activable W rt s) := List.mem_filter.2 ⟨hi, by simpa using hc⟩
      rw [hb] at this
      simp at this
    · rename_i bs hb
      rw [bind_ok] at h
      obtain ⟨s1, h1, h2⟩ := h
      exact ih s1 (evalAll_inv hp _ (fun i hi => (List.mem_filter.1 hi).1) s s1 hs h1) h2

theorem continueRun_inv {W : Workflow α} {rt : List Nat} {P : St α → Prop}
    (ha : ∀ s s', P s → activateInputs W false s = .ok s' → P s')
    (hp : ∀ s s' i r, i ∈ rt → P s → blockEvaluation W rt s i = .ok (s', r) → P s') (n : Nat)
    (s s' : St α) (hs : P s) (h : continueRun W rt n s = .ok (some s')) :
    P s' ∧ ∀ i ∈ rt, activable W rt s' i = false := by
  unfold continueRun at h
  rw [bind_ok] at h
  obtain ⟨s1, h1, h2⟩ := h
  exact continueLoop_inv hp n s1 s' (ha _ _ hs h1) h2

/-- Each block was evaluated at most once, and only blocks of the list were. -/
structure Once (rt : List Nat) (s : St α) : Prop where
  nodup : s.evaluated.Nodup
  act : ∀ i, s.actBlock i = true ↔ i ∈ s.evaluated
  sub : ∀ i ∈ s.evaluated, i ∈ rt

theorem Once.frame {rt : List Nat} {s s' : St α} (h : Once rt s) (hf : Frame s s') : Once rt s' :=
  ⟨by rw [hf.ev]; exact h.nodup, by rw [hf.ev, hf.blk]; exact h.act, by rw [hf.ev]; exact h.sub⟩

theorem Once.block {W : Workflow α} {rt : List Nat} (s s' : St α) (i : Nat) (r : Bool) (hi : i ∈ rt) (h : Once rt s)
    (hb : blockEvaluation W rt s i = .ok (s', r)) : Once rt s' := by
  obtain ⟨s1, -, hf, ⟨-, rfl, -⟩ | ⟨-, ha, ys, -, hs⟩⟩ := blockEvaluation_ok hb
  · exact h.frame hf
  · have h1 := h.frame hf
    have hn := activable_new ha hi
    refine ⟨?_, fun j => ?_, fun j hj => ?_⟩
    · rw [hs.ev, List.nodup_append]
      refine ⟨h1.nodup, by simp, fun a hm b hb hab => ?_⟩
      simp only [List.mem_singleton] at hb
      subst hab hb
      rw [(h1.act a).2 hm] at hn
      simp at hn
    · rw [hs.blk, hs.ev, h1.act]
      simp
    · rw [hs.ev] at hj
      rcases List.mem_append.1 hj with hj | hj
      · exact h1.sub j hj
      · simp only [List.mem_singleton] at hj
        rw [hj]; exact hi

end DC.Wkf
