import Verif.Workflow.Spec
import Verif.Values.DiffLemmas
/- Effect of the propagation of a value along the pipes. -/
namespace DC.Wkf

variable {α : Type}

/-- The state `s'` is `s` where the value `x` was put on the pipes `P`, the variables `T` were activated, and the output
received `x` if `O`. -/
structure Pushed (P T : Nat → Prop) (O : Prop) (x : α) (s s' : St α) : Prop where
  inp : s'.inputValues = s.inputValues
  blk : s'.actBlock = s.actBlock
  ev : s'.evaluated = s.evaluated
  valIn : ∀ j, P j → s'.values j = some x
  valOut : ∀ j, ¬ P j → s'.values j = s.values j
  pipe : ∀ j, s'.actPipe j = true ↔ s.actPipe j = true ∨ P j
  var : ∀ w, s'.actVar w = true ↔ s.actVar w = true ∨ T w
  outIn : O → s'.outputValue = some x
  outOut : ¬ O → s'.outputValue = s.outputValue

theorem Pushed.trans {P T P' T' : Nat → Prop} {O O' : Prop} {x : α} {s s' s'' : St α} (h : Pushed P T O x s s')
    (h' : Pushed P' T' O' x s' s'') :
    Pushed (fun j => P j ∨ P' j) (fun w => T w ∨ T' w) (O ∨ O') x s s'' where
  inp := h'.inp.trans h.inp
  blk := h'.blk.trans h.blk
  ev := h'.ev.trans h.ev
  valIn j hj := by
    by_cases hp : P' j
    · exact h'.valIn j hp
    · rw [h'.valOut j hp]; exact h.valIn j (hj.resolve_right hp)
  valOut j hj := by
    rw [not_or] at hj
    rw [h'.valOut j hj.2, h.valOut j hj.1]
  pipe j := by rw [h'.pipe, h.pipe, or_assoc]
  var w := by rw [h'.var, h.var, or_assoc]
  outIn ho := by
    by_cases hp : O'
    · exact h'.outIn hp
    · rw [h'.outOut hp]; exact h.outIn (ho.resolve_right hp)
  outOut ho := by
    rw [not_or] at ho
    rw [h'.outOut ho.2, h.outOut ho.1]

theorem Pushed.congr {P T P' T' : Nat → Prop} {O O' : Prop} {x : α} {s s' : St α} (h : Pushed P T O x s s')
    (hP : ∀ j, P j ↔ P' j) (hT : ∀ w, T w ↔ T' w) (hO : O ↔ O') : Pushed P' T' O' x s s' := by
  have e1 : P = P' := funext fun j => propext (hP j)
  have e2 : T = T' := funext fun j => propext (hT j)
  have e3 : O = O' := propext hO
  rw [← e1, ← e2, ← e3]
  exact h

theorem Pushed.refl (x : α) (s : St α) : Pushed (fun _ => False) (fun _ => False) False x s s where
  inp := rfl
  blk := rfl
  ev := rfl
  valIn _ h := h.elim
  valOut _ _ := rfl
  pipe _ := by simp
  var _ := by simp
  outIn h := h.elim
  outOut _ := rfl

/-- The pipes reached from `v`. -/
def FlowPipe (W : Workflow α) (v j : Nat) : Prop := ∃ p, W.pipes[j]? = some p ∧ Flow W v p.input

/-- The output is reached from `v`. -/
def FlowOut (W : Workflow α) (v : Nat) : Prop := ∃ o, W.output = some o ∧ Flow W v o

theorem mem_outputPipes {W : Workflow α} {v : Nat} {ip : Pipe × Nat} :
    ip ∈ outputPipes W v ↔ W.pipes[ip.2]? = some ip.1 ∧ ip.1.input = v := by
  unfold outputPipes
  rw [List.mem_filter, List.mem_zipIdx_iff_getElem?]
  simp

theorem flow_head {W : Workflow α} {v w : Nat} :
    Flow W v w ↔ w = v ∨ ∃ ip ∈ outputPipes W v, Flow W ip.1.output w := by
  constructor
  · intro h
    rcases Relation.ReflTransGen.cases_head h with h | ⟨c, ⟨p, hp, h1, h2⟩, hc⟩
    · exact .inl h.symm
    · obtain ⟨j, hj⟩ := List.getElem?_of_mem hp
      exact .inr ⟨(p, j), mem_outputPipes.2 ⟨hj, h1⟩, by rw [h2]; exact hc⟩
  · rintro (rfl | ⟨ip, hip, h⟩)
    · exact .refl
    · rw [mem_outputPipes] at hip
      exact .head ⟨ip.1, List.mem_of_getElem? hip.1, hip.2, rfl⟩ h

theorem flowPipe_head {W : Workflow α} {v j : Nat} :
    FlowPipe W v j ↔ ∃ ip ∈ outputPipes W v, j = ip.2 ∨ FlowPipe W ip.1.output j := by
  constructor
  · rintro ⟨p, hp, hf⟩
    rcases flow_head.1 hf with h | ⟨ip, hip, h⟩
    · exact ⟨(p, j), mem_outputPipes.2 ⟨hp, h⟩, .inl rfl⟩
    · exact ⟨ip, hip, .inr ⟨p, hp, h⟩⟩
  · rintro ⟨ip, hip, h | ⟨p, hp, h⟩⟩
    · rw [h]
      rw [mem_outputPipes] at hip
      exact ⟨ip.1, hip.1, by rw [hip.2]; exact .refl⟩
    · exact ⟨p, hp, flow_head.2 (.inr ⟨ip, hip, h⟩)⟩

theorem foldlM_pushed {x : α} {f : St α → Pipe × Nat → Except PyErr (St α)}
    {Q : Pipe × Nat → (Nat → Prop) × (Nat → Prop) × Prop}
    (hf : ∀ s ip s', f s ip = .ok s' → Pushed (Q ip).1 (Q ip).2.1 (Q ip).2.2 x s s') (l : List (Pipe × Nat))
    (s s' : St α) (h : l.foldlM f s = .ok s') :
    Pushed (fun j => ∃ ip ∈ l, (Q ip).1 j) (fun w => ∃ ip ∈ l, (Q ip).2.1 w) (∃ ip ∈ l, (Q ip).2.2) x s s' := by
  induction l generalizing s with
  | nil =>
    simp only [List.foldlM_nil, pure, Except.pure, Except.ok.injEq] at h
    subst h
    exact (Pushed.refl x s).congr (by simp) (by simp) (by simp)
  | cons ip l ih =>
    rw [List.foldlM_cons, bind_ok] at h
    obtain ⟨s1, h1, h2⟩ := h
    exact ((hf _ _ _ h1).trans (ih s1 h2)).congr (by simp) (by simp) (by simp)

/-- Setting the value of one pipe. -/
theorem Pushed.setPipe (x : α) (s : St α) (k : Nat) : Pushed (fun j => j = k) (fun _ => False) False x s
    { s with values := upd s.values k (some x), actPipe := upd s.actPipe k true } where
  inp := rfl
  blk := rfl
  ev := rfl
  valIn j h := by simp [upd, h]
  valOut j h := by simp [upd, h]
  pipe j := by
    by_cases h : j = k <;> simp [upd, h]
  var _ := by simp
  outIn h := h.elim
  outOut _ := rfl

theorem activateVar_pushed {W : Workflow α} {x : α} (n : Nat) (s : St α) (v : Nat) (s' : St α)
    (h : activateVar W n s v x = .ok s') : Pushed (FlowPipe W v) (Flow W v) (FlowOut W v) x s s' := by
  induction n generalizing s v s' with
  | zero => simp [activateVar] at h
  | succ n ih =>
    rw [activateVar] at h
    simp only [bind_ok] at h
    obtain ⟨s2, h2, h3⟩ := h
    simp only [Except.ok.injEq] at h3
    subst h3
    have p1 : Pushed (fun _ => False) (fun _ => False) (W.output = some v) x s
        (if W.output = some v then { s with outputValue := some x } else s) := by
      by_cases ho : W.output = some v
      · rw [if_pos ho]
        exact ⟨rfl, rfl, rfl, fun _ h => h.elim, fun _ _ => rfl, by simp, by simp, fun _ => rfl, fun h => absurd ho h⟩
      · rw [if_neg ho]
        exact (Pushed.refl x s).congr (by simp) (by simp) (by simp [ho])
    have p2 := foldlM_pushed (x := x)
      (Q := fun ip => (fun j => j = ip.2 ∨ FlowPipe W ip.1.output j, fun w => False ∨ Flow W ip.1.output w,
        False ∨ FlowOut W ip.1.output)) (fun s ip s' hs => (Pushed.setPipe x s ip.2).trans (ih _ _ _ hs)) _ _ _ h2
    have p3 : Pushed (fun _ => False) (fun w => w = v) False x s2 { s2 with actVar := upd s2.actVar v true } := by
      refine ⟨rfl, rfl, rfl, fun _ h => h.elim, fun _ _ => rfl, by simp, fun w => ?_, fun h => h.elim, fun _ => rfl⟩
      by_cases h : w = v <;> simp [upd, h]
    refine ((p1.trans p2).trans p3).congr (fun j => ?_) (fun w => ?_) ?_
    · rw [flowPipe_head]; simp
    · rw [flow_head (w := w)]
      simp only [false_or]
      exact or_comm
    · constructor
      · rintro ((h | ⟨ip, hip, h⟩) | h)
        · exact ⟨v, h, .refl⟩
        · obtain ⟨o, ho, hf⟩ := h.resolve_left id
          exact ⟨o, ho, flow_head.2 (.inr ⟨ip, hip, hf⟩)⟩
        · exact h.elim
      · rintro ⟨o, ho, hf⟩
        rcases flow_head.1 hf with rfl | ⟨ip, hip, hf⟩
        · exact .inl (.inl ho)
        · exact .inl (.inr ⟨ip, hip, .inr ⟨o, ho, hf⟩⟩)

theorem activatePipe_pushed {W : Workflow α} {x : α} {s s' : St α} {ip : Pipe × Nat}
    (h : activatePipe W s ip x = .ok s') : Pushed (fun j => j = ip.2 ∨ FlowPipe W ip.1.output j)
      (Flow W ip.1.output) (FlowOut W ip.1.output) x s s' :=
  ((Pushed.setPipe x s ip.2).trans (activateVar_pushed _ _ _ _ h)).congr (by simp) (by simp) (by simp)

/-- Effect of the activation of an input. -/
theorem activateInput_pushed {W : Workflow α} {x : α} {s s' : St α} {v : Nat} (h : activateInput W s v x = .ok s') :
    Pushed (FlowPipe W v) (Flow W v) (FlowOut W v) x (noteInput W s v x) s' := by
  unfold activateInput at h
  simp only [bind_ok] at h
  obtain ⟨s1, h1, h2⟩ := h
  refine ((activateVar_pushed _ _ _ _ h1).trans (foldlM_pushed (x := x)
    (Q := fun ip => (fun j => j = ip.2 ∨ FlowPipe W ip.1.output j, Flow W ip.1.output, FlowOut W ip.1.output))
    (fun s ip s' hs => activatePipe_pushed hs) _ _ _ h2)).congr (fun j => ?_) (fun w => ?_) ?_
  · rw [← flowPipe_head, or_self]
  · constructor
    · rintro (h | ⟨ip, hip, h⟩)
      · exact h
      · exact flow_head.2 (.inr ⟨ip, hip, h⟩)
    · exact .inl
  · constructor
    · rintro (h | ⟨ip, hip, o, ho, h⟩)
      · exact h
      · exact ⟨o, ho, flow_head.2 (.inr ⟨ip, hip, h⟩)⟩
    · exact .inl

/-! ### The propagation ends when the pipes have no cycle -/

/-- A chain of `n` pipes starts at `v`. -/
inductive PipeChain (W : Workflow α) : Nat → List Pipe → Prop
  | nil {v} : PipeChain W v []
  | cons {p l} : p ∈ W.pipes → PipeChain W p.output l → PipeChain W p.input (p :: l)

theorem foldlM_error {β γ : Type} {f : β → γ → Except PyErr β} {l : List γ} {s : β} {e : PyErr}
    (h : l.foldlM f s = .error e) : ∃ s' c, c ∈ l ∧ f s' c = .error e := by
  induction l generalizing s with
  | nil => simp [pure, Except.pure] at h
  | cons c l ih =>
    rw [List.foldlM_cons] at h
    cases hf : f s c with
    | error e' =>
      rw [hf] at h
      simp only [bind, Except.bind, Except.error.injEq] at h
      subst h
      exact ⟨s, c, .head _, hf⟩
    | ok s1 =>
      rw [hf] at h
      obtain ⟨s', c', hc, h'⟩ := ih h
      exact ⟨s', c', .tail _ hc, h'⟩

theorem activateVar_error {W : Workflow α} {x : α} (n : Nat) (s : St α) (v : Nat) (e : PyErr)
    (h : activateVar W n s v x = .error e) : e = .recursionError ∧ ∃ l, PipeChain W v l ∧ l.length = n := by
  induction n generalizing s v e with
  | zero =>
    simp only [activateVar, Except.error.injEq] at h
    exact ⟨h.symm, [], .nil, rfl⟩
  | succ n ih =>
    rw [activateVar] at h
    cases hf : (outputPipes W v).foldlM (fun s ip => activateVar W n
        { s with values := upd s.values ip.2 (some x), actPipe := upd s.actPipe ip.2 true } ip.1.output x)
        (if W.output = some v then { s with outputValue := some x } else s) with
    | ok s1 => rw [hf] at h; simp [bind, Except.bind] at h
    | error e' =>
      rw [hf] at h
      simp only [bind, Except.bind, Except.error.injEq] at h
      subst h
      obtain ⟨s', ip, hip, h'⟩ := foldlM_error hf
      obtain ⟨he, l, hl, hn⟩ := ih _ _ _ h'
      rw [mem_outputPipes] at hip
      refine ⟨he, ip.1 :: l, ?_, by simp [hn]⟩
      rw [← hip.2]
      exact .cons (List.mem_of_getElem? hip.1) hl

theorem PipeChain.nodup {W : Workflow α} {rank : Nat → Nat} (hr : ∀ p ∈ W.pipes, rank p.input < rank p.output)
    {v : Nat} {l : List Pipe} (h : PipeChain W v l) :
    l.Nodup ∧ (∀ p ∈ l, p ∈ W.pipes ∧ rank v ≤ rank p.input) := by
  induction h with
  | nil => simp
  | @cons p l hp hl ih =>
    obtain ⟨i1, i2⟩ := ih
    refine ⟨List.nodup_cons.2 ⟨fun hm => ?_, i1⟩, fun q hq => ?_⟩
    · have := (i2 p hm).2
      have := hr p hp
      omega
    · rcases List.mem_cons.1 hq with rfl | hq
      · exact ⟨hp, le_refl _⟩
      · have := (i2 q hq).2
        have := hr p hp
        exact ⟨(i2 q hq).1, by omega⟩

/-- Without cycle of pipes, the fuel given is enough. -/
theorem activateVar_total {W : Workflow α} {rank : Nat → Nat} (hr : ∀ p ∈ W.pipes, rank p.input < rank p.output)
    (s : St α) (v : Nat) (x : α) : ∃ s', activateVar W (fuelOf W) s v x = .ok s' := by
  cases h : activateVar W (fuelOf W) s v x with
  | ok s' => exact ⟨s', rfl⟩
  | error e =>
    obtain ⟨-, l, hl, hn⟩ := activateVar_error _ _ _ _ h
    obtain ⟨h1, h2⟩ := hl.nodup hr
    have := (List.subperm_of_subset h1 (fun p hp => (h2 p hp).1)).length_le
    unfold fuelOf at hn
    omega

theorem foldlM_total {β γ : Type} {f : β → γ → Except PyErr β} (hf : ∀ s c, ∃ s', f s c = .ok s') (l : List γ) (s : β) :
    ∃ s', l.foldlM f s = .ok s' := by
  cases h : l.foldlM f s with
  | ok s' => exact ⟨s', rfl⟩
  | error e =>
    obtain ⟨s', c, -, h'⟩ := foldlM_error h
    obtain ⟨s'', h''⟩ := hf s' c
    rw [h''] at h'
    simp at h'

theorem activateInput_total {W : Workflow α} {rank : Nat → Nat} (hr : ∀ p ∈ W.pipes, rank p.input < rank p.output)
    (s : St α) (v : Nat) (x : α) : ∃ s', activateInput W s v x = .ok s' := by
  unfold activateInput
  obtain ⟨s1, h1⟩ := activateVar_total hr (noteInput W s v x) v x
  rw [h1]
  exact foldlM_total (fun s c => activateVar_total hr _ _ _) _ _

end DC.Wkf
