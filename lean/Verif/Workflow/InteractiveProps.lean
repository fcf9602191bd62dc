import Verif.Workflow.Interactive
import Verif.Workflow.Props
/- Property C159: giving the values of the inputs to a state. -/
namespace DC.Wkf

variable {α : Type}

/-! ### Specification -/

/-- Spec: the workflow input of index `k` feeds the block of index `i`: it is an input of the block, or pipes lead from it to one. -/
def InputOf (W : Workflow α) (i k : Nat) : Prop :=
  ∃ b u v, W.blocks[i]? = some b ∧ v ∈ b.inputs ∧ (inputs W)[k]? = some u ∧ Flow W u v

/-- Spec: the inputs which a call is about. -/
def Give.About (W : Workflow α) : Give α → Nat → Prop
  | .one k _, j => j = k
  | .several ks _, j => j ∈ ks
  | .block i _, j => InputOf W i j

/-- Spec: the values which a call gives. -/
def Give.value : Give α → Nat → Option α
  | .one _ x, _ => some x
  | .several _ vals, j => vals j
  | .block _ vals, j => vals j

open Classical in
/-- Spec: the values of the inputs after a history of calls, from the values `V` on: those given by the last call about each
input which gives it a value. -/
noncomputable def finalValues (W : Workflow α) : (Nat → Option α) → List (Give α) → Nat → Option α
  | V, [] => V
  | V, g :: gs => finalValues W (fun k => if g.About W k then (g.value k).or (V k) else V k) gs

/-- Spec: the values with which a state begins: those given to the constructor, then the default values. -/
def firstValues (W : Workflow α) (vals : Nat → Option α) (k : Nat) : Option α := (vals k).or (defaultValues W k)

/-! ### States in which no block was evaluated -/

theorem flow_to_input {W : Workflow α} (hw : WellFormed W) {u v : Nat} (hv : v ∈ inputs W) (h : Flow W u v) : u = v := by
  rcases Relation.ReflTransGen.cases_tail h with h | ⟨c, -, p, hp, -, ho⟩
  · exact h.symm
  · exact absurd ho (hw.input_free hv p hp)

theorem pipe_single {W : Workflow α} (hw : WellFormed W) {p q : Pipe} (hp : p ∈ W.pipes) (hq : q ∈ W.pipes)
    (h : p.output = q.output) : p = q := by
  obtain ⟨i, hi⟩ := List.getElem?_of_mem hp
  obtain ⟨j, hj⟩ := List.getElem?_of_mem hq
  have h1 := inputPipe_unique hw.single hi
  have h2 := inputPipe_unique hw.single hj
  rw [h, h2] at h1
  cases h1
  rw [hi] at hj
  exact Option.some.inj hj

theorem flow_unique {W : Workflow α} (hw : WellFormed W) {u u' w : Nat} (hu : u ∈ inputs W) (hu' : u' ∈ inputs W)
    (h : Flow W u w) (h' : Flow W u' w) : u = u' := by
  induction h with
  | refl => exact (flow_to_input hw hu h').symm
  | tail h1 h2 ih =>
    obtain ⟨p, hp, rfl, rfl⟩ := h2
    rcases Relation.ReflTransGen.cases_tail h' with h | ⟨c, hc, q, hq, rfl, ho⟩
    · exact absurd h (hw.input_free hu' p hp)
    · rw [pipe_single hw hq hp ho] at hc
      exact ih hc

theorem den_flow {W : Workflow α} {V : Nat → Option α} {v w : Nat} {x : α} (hd : Den W V v x) (h : Flow W v w) : Den W V w x := by
  induction h with
  | refl => exact hd
  | tail _ h2 ih =>
    obtain ⟨p, hp, rfl, rfl⟩ := h2
    exact .pipe hp ih

/-- The state in which no block was evaluated and the inputs `A` were activated with the values `G`. -/
structure Fresh (W : Workflow α) (G : Nat → Option α) (A : Nat → Prop) (s : St α) : Prop where
  ev : s.evaluated = []
  blk : ∀ i, s.actBlock i = false
  act : ∀ k, A k → ∃ v x, (inputs W)[k]? = some v ∧ G k = some x
  inp : ∀ k v, (inputs W)[k]? = some v → s.inputValues k = G k
  var : ∀ w, s.actVar w = true ↔ ∃ k v, A k ∧ (inputs W)[k]? = some v ∧ Flow W v w
  val : ∀ j p x, W.pipes[j]? = some p → (s.values j = some x ↔
    ∃ k v, A k ∧ (inputs W)[k]? = some v ∧ G k = some x ∧ Flow W v p.input)
  out : ∀ x, s.outputValue = some x ↔ ∃ o k v, W.output = some o ∧ A k ∧ (inputs W)[k]? = some v ∧ G k = some x ∧ Flow W v o

theorem Fresh.init (W : Workflow α) (G : Nat → Option α) : Fresh W G (fun _ => False) { inputValues := G } where
  ev := rfl
  blk _ := rfl
  act _ h := h.elim
  inp _ _ _ := rfl
  var w := by simp
  val j p x _ := by simp
  out x := by simp

theorem get_unique {W : Workflow α} (hw : WellFormed W) {k k' v : Nat} (h : (inputs W)[k]? = some v)
    (h' : (inputs W)[k']? = some v) : k = k' := by
  rw [← idxOf_of_nodup (inputs_nodup hw.distinct) h, idxOf_of_nodup (inputs_nodup hw.distinct) h']

theorem Fresh.give {W : Workflow α} (hw : WellFormed W) {G : Nat → Option α} {A : Nat → Prop} {s s' : St α} (hF : Fresh W G A s)
    {k v : Nat} {x : α} (hk : (inputs W)[k]? = some v) (h : activateInput W s v x = .ok s') :
    Fresh W (upd G k (some x)) (fun j => A j ∨ j = k) s' := by
  have hv := List.mem_of_getElem? hk
  have he : inputIndex W v = some k := inputIndex_input hw.distinct hk (hw.input_free hv)
  have hn : noteInput W s v x = { s with inputValues := upd s.inputValues k (some x) } := by
    unfold noteInput
    rw [he]
  have hp := activateInput_pushed h
  rw [hn] at hp
  have hflow : ∀ {j u w y}, (A j ∨ j = k) → (inputs W)[j]? = some u → upd G k (some x) j = some y → Flow W u w →
      (Flow W v w → y = x) ∧ (¬ Flow W v w → A j ∧ G j = some y) := by
    intro j u w y hA hj hy hf
    constructor
    · intro hvw
      have e := flow_unique hw (List.mem_of_getElem? hj) hv hf hvw
      subst e
      have e := get_unique hw hj hk
      subst e
      simpa [upd] using hy.symm
    · intro hvw
      have hne : j ≠ k := by
        rintro rfl
        rw [hk] at hj
        cases hj
        exact hvw hf
      rcases hA with hA | hA
      · exact ⟨hA, by simpa [upd, hne] using hy⟩
      · exact absurd hA hne
  have hback : ∀ {j u w y}, A j → (inputs W)[j]? = some u → G j = some y → Flow W u w → ¬ Flow W v w →
      upd G k (some x) j = some y := by
    intro j u w y hA hj hy hf hvw
    have hne : j ≠ k := by
      rintro rfl
      rw [hk] at hj
      cases hj
      exact hvw hf
    simpa [upd, hne] using hy
  constructor
  · rw [hp.ev]; exact hF.ev
  · intro i; rw [hp.blk]; exact hF.blk i
  · intro j hj
    by_cases e : j = k
    · subst e
      exact ⟨v, x, hk, by simp [upd]⟩
    · obtain ⟨u, y, h1, h2⟩ := hF.act j (by tauto)
      exact ⟨u, y, h1, by simpa [upd, e] using h2⟩
  · intro j u hj
    rw [hp.inp]
    show upd s.inputValues k (some x) j = _
    unfold upd
    split
    · rfl
    · exact hF.inp j u hj
  · intro w
    rw [hp.var]
    show s.actVar w = true ∨ _ ↔ _
    rw [hF.var]
    constructor
    · rintro (⟨j, u, h1, h2, h3⟩ | h)
      · exact ⟨j, u, .inl h1, h2, h3⟩
      · exact ⟨k, v, .inr rfl, hk, h⟩
    · rintro ⟨j, u, h1 | rfl, h2, h3⟩
      · exact .inl ⟨j, u, h1, h2, h3⟩
      · rw [hk] at h2
        cases h2
        exact .inr h3
  · intro j p y hj
    by_cases hvw : Flow W v p.input
    · rw [hp.valIn j ⟨p, hj, hvw⟩]
      constructor
      · rintro hy
        cases hy
        exact ⟨k, v, .inr rfl, hk, by simp [upd], hvw⟩
      · rintro ⟨m, u, h1, h2, h3, h4⟩
        rw [(hflow h1 h2 h3 h4).1 hvw]
    · rw [hp.valOut j (fun ⟨q, hq, hf⟩ => by rw [hj] at hq; cases hq; exact hvw hf)]
      show s.values j = some y ↔ _
      rw [hF.val j p y hj]
      constructor
      · rintro ⟨m, u, h1, h2, h3, h4⟩
        exact ⟨m, u, .inl h1, h2, hback h1 h2 h3 h4 hvw, h4⟩
      · rintro ⟨m, u, h1, h2, h3, h4⟩
        obtain ⟨h5, h6⟩ := (hflow h1 h2 h3 h4).2 hvw
        exact ⟨m, u, h5, h2, h6, h4⟩
  · intro y
    by_cases hvw : FlowOut W v
    · rw [hp.outIn hvw]
      obtain ⟨o, ho, hvo⟩ := hvw
      constructor
      · rintro hy
        cases hy
        exact ⟨o, k, v, ho, .inr rfl, hk, by simp [upd], hvo⟩
      · rintro ⟨o', m, u, h0, h1, h2, h3, h4⟩
        rw [ho] at h0
        cases h0
        rw [(hflow h1 h2 h3 h4).1 hvo]
    · rw [hp.outOut hvw]
      show s.outputValue = some y ↔ _
      rw [hF.out]
      constructor
      · rintro ⟨o, m, u, h0, h1, h2, h3, h4⟩
        exact ⟨o, m, u, h0, .inl h1, h2, hback h1 h2 h3 h4 (fun hc => hvw ⟨o, h0, hc⟩), h4⟩
      · rintro ⟨o, m, u, h0, h1, h2, h3, h4⟩
        obtain ⟨h5, h6⟩ := (hflow h1 h2 h3 h4).2 (fun hc => hvw ⟨o, h0, hc⟩)
        exact ⟨o, m, u, h0, h5, h2, h6, h4⟩

theorem Fresh.good {W : Workflow α} (hw : WellFormed W) {G V : Nat → Option α} {A : Nat → Prop} {s : St α} (hF : Fresh W G A s)
    (hV : ∀ k v x, (inputs W)[k]? = some v → (G k).or (W.default v) = some x → V k = some x) : Good W V s := by
  have hd : ∀ {k v x w}, (inputs W)[k]? = some v → G k = some x → Flow W v w → Den W V w x := by
    intro k v x w h1 h2 h3
    exact den_flow (.input h1 (hV k v x h1 (by simp [h2]))) h3
  constructor
  · intro k v x hk hx
    rw [hF.inp k v hk] at hx
    apply hV k v x hk
    cases hg : G k <;> simp_all
  · intro j p x hj hx
    obtain ⟨k, v, -, h2, h3, h4⟩ := (hF.val j p x hj).1 hx
    exact hd h2 h3 h4
  · intro x hx
    obtain ⟨o, k, v, h0, -, h2, h3, h4⟩ := (hF.out x).1 hx
    exact ⟨o, h0, hd h2 h3 h4⟩
  · intro v hv
    obtain ⟨k, u, h1, h2, h3⟩ := (hF.var v).1 hv
    obtain ⟨-, x, -, hx⟩ := hF.act k h1
    refine ⟨x, hd h2 hx h3, fun j p hj hf => ?_, fun w hf => ?_, fun o ho hf => ?_⟩
    · exact (hF.val j p x hj).2 ⟨k, u, h1, h2, hx, h3.trans hf⟩
    · exact (hF.var w).2 ⟨k, u, h1, h2, h3.trans hf⟩
    · exact (hF.out x).2 ⟨o, k, u, ho, h1, h2, hx, h3.trans hf⟩
  · intro v j hv hj
    obtain ⟨p, hp, rfl⟩ := inputPipe_some hj
    obtain ⟨k, u, h1, h2, h3⟩ := (hF.var _).1 hv
    obtain ⟨-, x, -, hx⟩ := hF.act k h1
    rcases Relation.ReflTransGen.cases_tail h3 with h | ⟨c, hc, q, hq, rfl, ho⟩
    · exact absurd h (hw.input_free (List.mem_of_getElem? h2) p (List.mem_of_getElem? hp))
    · rw [pipe_single hw hq (List.mem_of_getElem? hp) ho] at hc
      exact ⟨p, x, hp, (hF.val j p x hp).2 ⟨k, u, h1, h2, hx, hc⟩, (hF.var _).2 ⟨k, u, h1, h2, hc⟩⟩
  · intro k v hk hv
    obtain ⟨m, u, h1, h2, h3⟩ := (hF.var v).1 hv
    have e := flow_to_input hw (List.mem_of_getElem? hk) h3
    subst e
    have e := get_unique hw hk h2
    subst e
    obtain ⟨-, x, -, hx⟩ := hF.act k h1
    exact ⟨x, by rw [hF.inp k u hk, hx]⟩
  · intro i hi
    rw [hF.blk i] at hi
    simp at hi
  · intro i b o hb ho ha
    obtain ⟨k, u, h1, h2, h3⟩ := (hF.var o).1 ha
    have e := flow_eq hw h3 (fun c hc hin => in_ne_out hw.distinct hc (List.mem_of_getElem? hb) hin ho)
    subst e
    exact absurd ho ((mem_inputs.1 (List.mem_of_getElem? h2)).2.1 b (List.mem_of_getElem? hb))

theorem Fresh.congr {W : Workflow α} {G G' : Nat → Option α} {A A' : Nat → Prop} {s : St α} (hF : Fresh W G A s)
    (hG : ∀ k, k < (inputs W).length → G' k = G k) (hA : ∀ k, A' k ↔ A k) : Fresh W G' A' s := by
  have e : ∀ {k v}, (inputs W)[k]? = some v → G' k = G k := fun h => hG _ (List.getElem?_eq_some_iff.1 h).1
  constructor
  · exact hF.ev
  · exact hF.blk
  · intro k hk
    obtain ⟨v, x, h1, h2⟩ := hF.act k ((hA k).1 hk)
    exact ⟨v, x, h1, by rw [e h1, h2]⟩
  · intro k v hk
    rw [hF.inp k v hk, e hk]
  · intro w
    rw [hF.var]
    exact exists_congr fun k => exists_congr fun v => by rw [hA]
  · intro j p x hj
    rw [hF.val j p x hj]
    refine exists_congr fun k => exists_congr fun v => ?_
    rw [hA]
    constructor <;> rintro ⟨h1, h2, h3, h4⟩
    · exact ⟨h1, h2, by rw [e h2, h3], h4⟩
    · exact ⟨h1, h2, by rw [← e h2, h3], h4⟩
  · intro x
    rw [hF.out]
    refine exists_congr fun o => exists_congr fun k => exists_congr fun v => ?_
    rw [hA]
    constructor <;> rintro ⟨h0, h1, h2, h3, h4⟩
    · exact ⟨h0, h1, h2, by rw [e h2, h3], h4⟩
    · exact ⟨h0, h1, h2, by rw [← e h2, h3], h4⟩

/-- The activation of the inputs from the index `k` on. -/
theorem Fresh.loop {W : Workflow α} (hw : WellFormed W) (l : List Nat) (k : Nat) (hl : ∀ m, l[m]? = (inputs W)[k + m]?) (G : Nat → Option α)
    (A : Nat → Prop) (s s' : St α) (hF : Fresh W G A s) (h : activateInputsLoop W false k l s = .ok s') :
    ∃ G' A', Fresh W G' A' s' ∧ (∀ m, m < k → G' m = G m ∧ (A' m ↔ A m)) ∧
      ∀ m, k ≤ m → m < (inputs W).length → G' m = firstValues W G m ∧ (A' m ↔ A m ∨ (G' m).isSome) := by
  induction l generalizing k G A s with
  | nil =>
    simp only [activateInputsLoop, Except.ok.injEq] at h
    subst h
    refine ⟨G, A, hF, fun m _ => ⟨rfl, Iff.rfl⟩, fun m hm hlt => ?_⟩
    have := hl (m - k)
    rw [Nat.add_sub_cancel' hm, List.getElem?_eq_getElem hlt] at this
    simp at this
  | cons v l ih =>
    rw [activateInputsLoop, bind_ok] at h
    obtain ⟨s1, h1, h⟩ := h
    have hk : (inputs W)[k]? = some v := by simpa using (hl 0).symm
    have hl' : ∀ m, l[m]? = (inputs W)[k + 1 + m]? := by
      intro m
      have := hl (m + 1)
      simp only [List.getElem?_cons_succ] at this
      rw [this]
      congr 1
      omega
    have hdef : defaultValues W k = W.default v := by simp [defaultValues, hk]
    unfold activateOne at h1
    rw [hF.inp k v hk] at h1
    have fin : ∀ G1 A1, Fresh W G1 A1 s1 → (∀ m, m ≠ k → G1 m = G m ∧ (A1 m ↔ A m)) → G1 k = firstValues W G k →
        (A1 k ↔ A k ∨ (G1 k).isSome) → ∃ G' A', Fresh W G' A' s' ∧ (∀ m, m < k → G' m = G m ∧ (A' m ↔ A m)) ∧
          ∀ m, k ≤ m → m < (inputs W).length → G' m = firstValues W G m ∧ (A' m ↔ A m ∨ (G' m).isSome) := by
      intro G1 A1 hF1 hne hG hA
      obtain ⟨G', A', g1, g2, g3⟩ := ih (k + 1) hl' G1 A1 s1 hF1 h
      refine ⟨G', A', g1, fun m hm => ?_, fun m hm hlt => ?_⟩
      · obtain ⟨e1, e2⟩ := g2 m (by omega)
        obtain ⟨e3, e4⟩ := hne m (by omega)
        exact ⟨e1.trans e3, e2.trans e4⟩
      · by_cases e : m = k
        · subst e
          obtain ⟨e1, e2⟩ := g2 m (by omega)
          rw [e1, e2, hA, hG]
          exact ⟨rfl, Iff.rfl⟩
        · obtain ⟨e1, e2⟩ := g3 m (by omega) hlt
          obtain ⟨e3, e4⟩ := hne m e
          refine ⟨?_, by rw [e2, e4]⟩
          rw [e1]
          simp [firstValues, e3]
    cases hg : G k with
    | some x =>
      rw [hg] at h1
      refine fin _ _ (hF.give hw hk h1) (fun m hm => ⟨by simp [upd, hm], by simp [hm]⟩) ?_ ?_
      · simp [upd, firstValues, hg]
      · simp [upd]
    | none =>
      rw [hg] at h1
      simp only at h1
      cases hd : W.default v with
      | some d =>
        rw [hd] at h1
        refine fin _ _ (hF.give hw hk h1) (fun m hm => ⟨by simp [upd, hm], by simp [hm]⟩) ?_ ?_
        · simp [upd, firstValues, hg, hdef, hd]
        · simp [upd]
      | none =>
        rw [hd] at h1
        simp only [Bool.false_eq_true, if_false] at h1
        split at h1
        · simp at h1
        · simp only [Except.ok.injEq] at h1
          subst h1
          refine fin G A hF (fun m _ => ⟨rfl, Iff.rfl⟩) ?_ ?_
          · simp [firstValues, hg, hdef, hd]
          · simp [hg]

/-- A state just created. -/
theorem startRun_fresh {W : Workflow α} (hw : WellFormed W) {vals : Nat → Option α} {s : St α} (h : startRun W vals = .ok s) :
    Fresh W (firstValues W vals) (fun k => k < (inputs W).length ∧ (firstValues W vals k).isSome) s := by
  obtain ⟨G, A, h1, -, h3⟩ := Fresh.loop hw (inputs W) 0 (by simp) vals _ _ s (Fresh.init W vals) h
  refine h1.congr (fun k hk => ((h3 k (by omega) hk).1).symm) (fun k => ?_)
  constructor
  · rintro ⟨hk, hs⟩
    obtain ⟨e1, e2⟩ := h3 k (by omega) hk
    rw [e2, e1]
    exact .inr hs
  · intro hA
    obtain ⟨v, x, hk, -⟩ := h1.act k hA
    have hk := (List.getElem?_eq_some_iff.1 hk).1
    obtain ⟨e1, e2⟩ := h3 k (by omega) hk
    rw [e2, e1] at hA
    simpa [hk] using hA

/-- The state in which the inputs which have a value in `G` were activated. -/
abbrev FreshOf (W : Workflow α) (G : Nat → Option α) (s : St α) : Prop :=
  Fresh W G (fun k => k < (inputs W).length ∧ (G k).isSome) s

theorem FreshOf.give {W : Workflow α} (hw : WellFormed W) {G : Nat → Option α} {s s' : St α} (hF : FreshOf W G s)
    {k v : Nat} {x : α} (hk : (inputs W)[k]? = some v) (h : activateInput W s v x = .ok s') : FreshOf W (upd G k (some x)) s' := by
  refine (Fresh.give hw hF hk h).congr (fun _ _ => rfl) (fun j => ?_)
  by_cases e : j = k
  · subst e
    simp [upd, (List.getElem?_eq_some_iff.1 hk).1]
  · simp [upd, e]

theorem FreshOf.active {W : Workflow α} (hw : WellFormed W) {G : Nat → Option α} {s : St α} (hF : FreshOf W G s)
    {k v : Nat} (hk : (inputs W)[k]? = some v) : s.actVar v = (G k).isSome := by
  rw [Bool.eq_iff_iff, hF.var]
  constructor
  · rintro ⟨j, u, h1, h2, h3⟩
    have e := flow_to_input hw (List.mem_of_getElem? hk) h3
    subst e
    have e := get_unique hw hk h2
    subst e
    exact h1.2
  · intro hs
    exact ⟨k, v, ⟨(List.getElem?_eq_some_iff.1 hk).1, hs⟩, hk, .refl⟩

theorem valueToAdd_fresh {W : Workflow α} (hw : WellFormed W) {G : Nat → Option α} {s : St α} (hF : FreshOf W G s)
    (vals : Nat → Option α) {k v : Nat} (hk : (inputs W)[k]? = some v) :
    valueToAdd vals s k v = match (vals k).or (G k) with
      | some x => .ok x
      | none => .error .valueError := by
  unfold valueToAdd
  rw [hF.active hw hk, hF.inp k v hk]
  cases vals k <;> cases G k <;> simp

theorem FreshOf.several {W : Workflow α} (hw : WellFormed W) (vals : Nat → Option α) (ks : List Nat) (G : Nat → Option α) (s : St α)
    (hF : FreshOf W G s) (hks : ∀ k ∈ ks, k < (inputs W).length) :
    (∃ s', addSeveral W vals ks s = .ok s' ∧ FreshOf W (fun k => if k ∈ ks then (vals k).or (G k) else G k) s' ∧
      ∀ k ∈ ks, ((vals k).or (G k)).isSome) ∨
    (addSeveral W vals ks s = .error .valueError ∧ ∃ k ∈ ks, vals k = none ∧ G k = none) := by
  induction ks generalizing G s with
  | nil => exact .inl ⟨s, rfl, by simpa using hF, by simp⟩
  | cons k ks ih =>
    obtain ⟨rank, hr, -⟩ := hw.acyclic
    have hlt := hks k (by simp)
    have hk : (inputs W)[k]? = some (inputs W)[k] := by simp [hlt]
    rw [addSeveral, hk]
    simp only [valueToAdd_fresh hw hF vals hk]
    cases hx : (vals k).or (G k) with
    | none =>
      right
      rw [Option.or_eq_none_iff] at hx
      exact ⟨rfl, k, by simp, hx⟩
    | some x =>
      obtain ⟨s1, h1⟩ := activateInput_total hr s (inputs W)[k] x
      have h2 : addInputValue W s k x = .ok s1 := by
        unfold addInputValue
        rw [hk]
        exact h1
      simp only [bind, Except.bind, h2]
      have hupd : ∀ j, (vals j).or (upd G k (some x) j) = (vals j).or (G j) := by
        intro j
        by_cases e : j = k
        · subst e
          simp only [upd, if_true]
          rw [hx]
          cases hv : vals j with
          | none => rfl
          | some y => rw [hv] at hx; simpa using hx
        · simp [upd, e]
      rcases ih _ s1 (hF.give hw hk h1) (fun j hj => hks j (by simp [hj])) with ⟨s', e1, e2, e3⟩ | ⟨e1, j, hj, e2, e3⟩
      · refine .inl ⟨s', e1, e2.congr (fun j hj => ?_) (fun j => ?_), fun j hj => ?_⟩
        · show _ = if j ∈ ks then (vals j).or (upd G k (some x) j) else upd G k (some x) j
          rw [hupd]
          by_cases e : j = k
          · subst e; simp [upd, hx]
          · simp [upd, e]
        · show _ ↔ _ ∧ (if j ∈ ks then (vals j).or (upd G k (some x) j) else upd G k (some x) j).isSome = true
          rw [hupd]
          by_cases e : j = k
          · subst e; simp [upd, hx]
          · simp [upd, e]
        · rcases List.mem_cons.1 hj with rfl | hj
          · simp [hx]
          · rw [← hupd]; exact e3 j hj
      · refine .inr ⟨e1, j, by simp [hj], e2, ?_⟩
        have := hupd j
        rw [e2, e3] at this
        simpa using this.symm

/-- The inputs of the workflow which feed a block. -/
theorem mem_blockInputs {W : Workflow α} (hw : WellFormed W) {b : Block α} (hb : b ∈ W.blocks) {v k : Nat} (hv : v ∈ b.inputs) :
    inputIndex W v = some k ↔ ∃ u, (inputs W)[k]? = some u ∧ Flow W u v := by
  have hidx : ∀ {u}, u ∈ inputs W → (inputs W)[(inputs W).idxOf u]? = some u := by
    intro u hu
    rw [List.getElem?_eq_getElem (List.idxOf_lt_length_iff.2 hu)]
    simp
  by_cases hp : ∀ p ∈ W.pipes, p.output ≠ v
  · have hin := free_input hw.distinct hb hv hp
    rw [inputIndex_input hw.distinct (hidx hin) hp]
    constructor
    · intro e
      cases e
      exact ⟨v, hidx hin, .refl⟩
    · rintro ⟨u, h1, h2⟩
      have e := flow_to_input hw hin h2
      subst e
      rw [idxOf_of_nodup (inputs_nodup hw.distinct) h1]
  · push Not at hp
    obtain ⟨p, hp, rfl⟩ := hp
    obtain ⟨j, hj⟩ := List.getElem?_of_mem hp
    have hnv : p.output ∉ inputs W := fun hin => hw.input_free hin p hp rfl
    have hup : upstreamVar W p.output = some p.input := by
      unfold upstreamVar
      rw [inputPipe_unique hw.single hj]
      simp [hj]
    have hflow : ∀ {u}, u ∈ inputs W → (Flow W u p.output ↔ u = p.input) := by
      intro u hu
      constructor
      · intro h
        rcases Relation.ReflTransGen.cases_tail h with h | ⟨c, hc, q, hq, rfl, ho⟩
        · rw [h] at hnv; exact absurd hu hnv
        · rw [pipe_single hw hq hp ho] at hc
          exact (flow_eq hw hc (hw.source p hp)).symm
      · rintro rfl
        exact .single ⟨p, hp, rfl, rfl⟩
    have hnb : p.input ∈ inputs W → p.input ∈ nbvs W := by
      intro hin
      refine ((nbvs_spec W).2.2.2 _).2 ⟨fun hc => ?_, p, hp, .inl rfl⟩
      obtain ⟨c, hc, hi | ho⟩ := mem_blockVars.1 hc
      · exact hw.source p hp c hc hi
      · exact (mem_inputs.1 hin).2.1 c hc ho
    have hnbv : upstreamNbv W p.output = if (nbvs W).contains p.input then p.input else p.output := by
      unfold upstreamNbv
      rw [hup]
      by_cases he : (nbvs W).isEmpty
      · rw [if_pos he]
        rw [List.isEmpty_iff] at he
        simp [he]
      · rw [if_neg he]
    by_cases hin : p.input ∈ inputs W
    · have : upstreamNbv W p.output = p.input := by
        rw [hnbv, if_pos (by simpa using hnb hin)]
      unfold inputIndex
      simp only [this, hin, if_true, Option.some.injEq]
      constructor
      · rintro rfl
        exact ⟨p.input, hidx hin, (hflow hin).2 rfl⟩
      · rintro ⟨u, h1, h2⟩
        have e := (hflow (List.mem_of_getElem? h1)).1 h2
        subst e
        exact idxOf_of_nodup (inputs_nodup hw.distinct) h1
    · have : upstreamNbv W p.output ∉ inputs W := by
        rw [hnbv]
        split <;> assumption
      unfold inputIndex
      simp only [this, if_false]
      constructor
      · intro h; simp at h
      · rintro ⟨u, h1, h2⟩
        have e := (hflow (List.mem_of_getElem? h1)).1 h2
        subst e
        exact absurd (List.mem_of_getElem? h1) hin

theorem blockInputIndices_spec {W : Workflow α} (hw : WellFormed W) {i : Nat} (hi : i < W.blocks.length) :
    ∃ ks, blockInputIndices W i = .ok ks ∧ ∀ k, k ∈ ks ↔ InputOf W i k := by
  have hb : W.blocks[i]? = some W.blocks[i] := by simp [hi]
  refine ⟨_, by unfold blockInputIndices; rw [hb], fun k => ?_⟩
  rw [List.mem_filterMap]
  constructor
  · rintro ⟨v, hv, hk⟩
    obtain ⟨u, h1, h2⟩ := (mem_blockInputs hw (List.getElem_mem hi) hv).1 hk
    exact ⟨_, u, v, hb, hv, h1, h2⟩
  · rintro ⟨b, u, v, hb', hv, h1, h2⟩
    rw [hb] at hb'
    cases hb'
    exact ⟨v, hv, (mem_blockInputs hw (List.getElem_mem hi) hv).2 ⟨u, h1, h2⟩⟩

open Classical in
/-- One call. -/
theorem FreshOf.step {W : Workflow α} (hw : WellFormed W) {G : Nat → Option α} {s s' : St α} (hF : FreshOf W G s) {g : Give α}
    (h : giveStep W s g = .ok s') : FreshOf W (fun k => if g.About W k then (g.value k).or (G k) else G k) s' := by
  have hsev : ∀ {ks vals} {s : St α}, addSeveral W vals ks s = .ok s' → ∀ k ∈ ks, k < (inputs W).length := by
    intro ks vals s h
    clear * - h
    induction ks generalizing s with
    | nil => simp
    | cons k ks ih =>
      rw [addSeveral] at h
      split at h
      · simp at h
      · rename_i v hv
        rw [bind_ok] at h
        obtain ⟨x, -, h⟩ := h
        rw [bind_ok] at h
        obtain ⟨s1, -, h⟩ := h
        intro j hj
        rcases List.mem_cons.1 hj with rfl | hj
        · exact (List.getElem?_eq_some_iff.1 hv).1
        · exact ih h j hj
  have hmany : ∀ {ks vals}, addSeveral W vals ks s = .ok s' →
      FreshOf W (fun k => if k ∈ ks then (vals k).or (G k) else G k) s' := by
    intro ks vals h
    rcases hF.several hw vals ks G s (hsev h) with ⟨s1, h1, h2, -⟩ | ⟨h1, -⟩
    · rw [h] at h1
      cases h1
      exact h2
    · rw [h] at h1
      simp at h1
  cases g with
  | one k x =>
    simp only [giveStep] at h
    unfold addInputValue at h
    split at h
    · simp at h
    · rename_i v hv
      have e : (fun j => if (Give.one k x).About W j then ((Give.one k x).value j).or (G j) else G j) = upd G k (some x) := by
        funext j
        unfold upd
        by_cases hj : j = k
        · rw [if_pos hj, if_pos (show (Give.one k x).About W j from hj)]
          rfl
        · rw [if_neg hj, if_neg (show ¬ (Give.one k x).About W j from hj)]
      rw [e]
      exact hF.give hw hv h
  | several ks vals =>
    have e : (fun k => if (Give.several ks vals).About W k then ((Give.several ks vals).value k).or (G k) else G k) =
        fun k => if k ∈ ks then (vals k).or (G k) else G k := by
      funext k
      exact if_congr Iff.rfl rfl rfl
    rw [e]
    exact hmany h
  | block i vals =>
    simp only [giveStep, addBlockValues] at h
    rw [bind_ok] at h
    obtain ⟨ks, h1, h2⟩ := h
    have hi : i < W.blocks.length := by
      unfold blockInputIndices at h1
      split at h1
      · simp at h1
      · rename_i b hb
        exact (List.getElem?_eq_some_iff.1 hb).1
    obtain ⟨ks', e1, e2⟩ := blockInputIndices_spec hw hi
    rw [h1] at e1
    cases e1
    have e : (fun k => if (Give.block i vals).About W k then ((Give.block i vals).value k).or (G k) else G k) =
        fun k => if k ∈ ks then (vals k).or (G k) else G k := by
      funext k
      refine if_congr ?_ rfl rfl
      exact (e2 k).symm
    rw [e]
    exact hmany h2

theorem FreshOf.all {W : Workflow α} (hw : WellFormed W) (gs : List (Give α)) (G : Nat → Option α) (s s' : St α) (hF : FreshOf W G s)
    (h : giveAll W gs s = .ok s') : FreshOf W (finalValues W G gs) s' := by
  induction gs generalizing G s with
  | nil =>
    simp only [giveAll, Except.ok.injEq] at h
    subst h
    exact hF
  | cons g gs ih =>
    rw [giveAll, bind_ok] at h
    obtain ⟨s1, h1, h2⟩ := h
    exact ih _ s1 (hF.step hw h1) h2

/-! ### C159: giving the inputs, then running -/

/-- **C159** After any history of calls which give values to a new state, the state holds, for each input, the value given last, else the
value given to the constructor, else the default value; nothing was evaluated. -/
theorem C159_values {W : Workflow α} (hw : WellFormed W) {vals : Nat → Option α} {s0 s : St α} {gs : List (Give α)}
    (h0 : startRun W vals = .ok s0) (h : giveAll W gs s0 = .ok s) :
    (∀ k, k < (inputs W).length → s.inputValues k = finalValues W (firstValues W vals) gs k) ∧ s.evaluated = [] ∧
      ∀ rt, rt ≠ [] → progress rt s = 0 := by
  have hF := FreshOf.all hw gs _ _ _ (startRun_fresh hw h0) h
  refine ⟨fun k hk => hF.inp k _ (List.getElem?_eq_getElem hk), hF.ev, fun rt _ => ?_⟩
  have : rt.filter s.actBlock = [] := by
    rw [List.filter_eq_nil_iff]
    intro i _
    simp [hF.blk i]
  simp [progress, this]

/-- **C159** Giving the inputs of a block raises ValueError exactly when an input which feeds it is neither given nor has a value already;
otherwise it succeeds.  Values given for inputs which do not feed the block are ignored (`C159_values`). -/
theorem C159_missing {W : Workflow α} (hw : WellFormed W) {vals : Nat → Option α} {s0 s : St α} {gs : List (Give α)}
    (h0 : startRun W vals = .ok s0) (h : giveAll W gs s0 = .ok s) {i : Nat} (hi : i < W.blocks.length) (given : Nat → Option α) :
    (addBlockValues W i given s = .error .valueError ↔
      ∃ k, InputOf W i k ∧ given k = none ∧ finalValues W (firstValues W vals) gs k = none) ∧
    (addBlockValues W i given s ≠ .error .valueError → ∃ s', addBlockValues W i given s = .ok s') := by
  have hF := FreshOf.all hw gs _ _ _ (startRun_fresh hw h0) h
  obtain ⟨ks, e1, e2⟩ := blockInputIndices_spec hw hi
  have hks : ∀ k ∈ ks, k < (inputs W).length := by
    intro k hk
    obtain ⟨b, u, v, -, -, h3, -⟩ := (e2 k).1 hk
    exact (List.getElem?_eq_some_iff.1 h3).1
  have e3 : addBlockValues W i given s = addSeveral W given ks s := by
    unfold addBlockValues
    rw [e1]
    rfl
  rw [e3]
  rcases FreshOf.several hw given ks _ s hF hks with ⟨s', h1, -, h3⟩ | ⟨h1, k, hk, h2, h3⟩
  · refine ⟨⟨fun hc => ?_, fun ⟨k, hk, h4, h5⟩ => ?_⟩, fun _ => ⟨s', h1⟩⟩
    · rw [h1] at hc; simp at hc
    · have := h3 k ((e2 k).2 hk)
      rw [h4, h5] at this
      simp at this
  · exact ⟨⟨fun _ => ⟨k, (e2 k).1 hk, h2, h3⟩, fun _ => h1⟩, fun hc => absurd h1 hc⟩

/-- **C159** When the values given one after the other end up being those of a run which succeeds, continuing the state succeeds, and
gives the result of the run.  Missing: locked inputs, whose values can be changed in a state but not in a run (`C159_locked_violated`),
and calls made after blocks were evaluated (`C76_violated`). -/
theorem C159_result_partial {W : Workflow α} (hw : WellFormed W) (hl : LocksOk W) {o : Nat} (ho : OutputOf W o) {vals : Nat → Option α}
    {s0 s r : St α} {gs : List (Give α)} (h0 : startRun W vals = .ok s0) (h : giveAll W gs s0 = .ok s) {user : List (Nat × α)}
    (hu : ∀ k, k < (inputs W).length → expected W user k = finalValues W (firstValues W vals) gs k) {so so' : SetOrder}
    (hr : run W so user = .ok (some r)) {rt : List Nat} (hrt : runtimeBlocks W so' = .ok rt) :
    ∃ t, continueRun W rt (W.blocks.length + 1) s = .ok (some t) ∧ toWorkflowRun rt t = .ok t ∧ t.outputValue = r.outputValue ∧
      ∀ k, k < (inputs W).length → t.inputValues k = r.inputValues k := by
  have hF := FreshOf.all hw gs _ _ _ (startRun_fresh hw h0) h
  obtain ⟨vs, t0, t1, rt', h1, h2, h3, h4, r', h5, h6, h7⟩ := run_ok hr
  cases h7
  obtain ⟨hg1, ha1⟩ := (startRun_good hw h1 h2).activateInputs hw h3
  have hV : ∀ k v, (inputs W)[k]? = some v → ∃ x, expected W user k = some x := by
    intro k v hv
    obtain ⟨x, hx⟩ := hg1.fedIn k v hv (ha1 k v hv (.inr rfl))
    exact ⟨x, hg1.iv k v x hv (by rw [hx]; rfl)⟩
  have hG : Good W (expected W user) s := by
    refine hF.good hw (fun k v x hk hx => ?_)
    have hlt := (List.getElem?_eq_some_iff.1 hk).1
    obtain ⟨y, hy⟩ := hV k v hk
    rw [← hu k hlt, hy] at hx
    rw [hy]
    simpa using hx
  have hgr := (run_reached hr).good hw
  obtain ⟨rt1, hrt1, -, hm⟩ := runtimeBlocks_spec hw hl so' ho
  rw [hrt] at hrt1
  cases hrt1
  obtain ⟨rt2, hrt2, -, hm2⟩ := runtimeBlocks_spec hw hl so ho
  rw [h4] at hrt2
  cases hrt2
  have hact : ∀ i, Leads W i → r.actBlock i = true := fun i hi => (progress_one (runtimeBlocks_ne h4)).1 h6 i ((hm2 i).2 hi)
  have hlt : ∀ i ∈ rt, i < W.blocks.length := by
    intro i hi
    cases (hm i).1 hi with
    | output h =>
      obtain ⟨b, v, hb, -⟩ := h
      exact (List.getElem?_eq_some_iff.1 hb).1
    | feeds _ h => exact h.lt.1
  have he : EvalsOk W (expected W user) rt := by
    intro i hi b xs hb hx hd
    obtain ⟨b', xs', ys, e1, e2, e3, e4, -, -⟩ := hgr.blk i (hact i ((hm i).1 hi))
    rw [hb] at e1
    cases e1
    have hxx : xs = xs' := by
      apply List.ext_getElem (by omega)
      intro n g1 g2
      have hn : n < b.inputs.length := by omega
      refine (hd (b.inputs[n], xs[n]) ?_).unique hw (e3 (b.inputs[n], xs'[n]) ?_)
      · exact List.mem_of_getElem? (List.getElem?_zip_eq_some.2 ⟨by simp [hn], by simp⟩ : _ = some _) (i := n)
      · exact List.mem_of_getElem? (List.getElem?_zip_eq_some.2 ⟨by simp [hn], by simp⟩ : _ = some _) (i := n)
    rw [hxx]
    exact ⟨ys, e4⟩
  obtain ⟨t, ht⟩ := continueRun_total hw hl he hlt s hG
  have hall : ∀ (k v : Nat), (inputs W)[k]? = some v → s.actVar v = true := by
    intro k v hk
    obtain ⟨x, hx⟩ := hV k v hk
    rw [hF.active hw hk, ← hu k (List.getElem?_eq_some_iff.1 hk).1, hx]
    rfl
  have hinv := continueRun_inv (P := fun s => Good W (expected W user) s ∧ ∀ k v, (inputs W)[k]? = some v → s.actVar v = true)
    (fun s s' hs ha => ⟨(hs.1.activateInputs hw ha).1, fun k v hk => (activateInputs_frame ha).var v (hs.2 k v hk)⟩)
    (fun s s' i r _ hs hb => ⟨Good.blockEvaluation hw hs.1 hb, fun k v hk => by
      obtain ⟨s1, -, hf, ⟨-, rfl, -⟩ | ⟨-, -, ys, -, hstep⟩⟩ := blockEvaluation_ok hb
      · exact hf.var v (hs.2 k v hk)
      · exact hstep.var v (hf.var v (hs.2 k v hk))⟩) _ _ _
    ⟨hG, hall⟩ ht
  have hdone : ∀ i ∈ rt, t.actBlock i = true := by
    intro i hi
    obtain ⟨b, hb⟩ : ∃ b, W.blocks[i]? = some b := ⟨W.blocks[i]'(hlt i hi), by simp [hlt i hi]⟩
    refine hinv.1.1.complete hw (fun k v hk _ => hinv.1.2 k v hk)
      (fun i hi j hj => (hm j).2 (.feeds ((hm i).1 hi) hj)) hinv.2 hi hb (fun v hv => ?_)
    obtain ⟨b', xs', ys, e1, -, -, -, e5, -⟩ := hgr.blk i (hact i ((hm i).1 hi))
    rw [hb] at e1
    cases e1
    obtain ⟨x, hx, -⟩ := hgr.var v (e5 v hv)
    exact ⟨x, hx⟩
  have hone := (progress_one (s := t) (runtimeBlocks_ne hrt)).2 hdone
  refine ⟨t, ht, by simp [toWorkflowRun, hone], ?_, fun k hk => ?_⟩
  · exact complete_output hw ho hinv.1.1 hgr (hdone o ((hm o).2 (.output ho))) (hact o (.output ho))
  · have hk' := List.getElem?_eq_getElem hk
    obtain ⟨x, hx⟩ := hinv.1.1.fedIn k _ hk' (hinv.1.2 k _ hk')
    have e1 := hinv.1.1.iv k _ x hk' (by rw [hx]; rfl)
    have hact' : r.actVar (inputs W)[k] = true := by
      have := continueRun_inv (P := fun s => ∀ (k v : Nat), (inputs W)[k]? = some v → s.actVar v = true)
        (fun s s' hs ha => fun k v hk => (activateInputs_frame ha).var v (hs k v hk))
        (fun s s' i r _ hs hb => fun k v hk => by
          obtain ⟨s1, -, hf, ⟨-, rfl, -⟩ | ⟨-, -, ys, -, hstep⟩⟩ := blockEvaluation_ok hb
          · exact hf.var v (hs k v hk)
          · exact hstep.var v (hf.var v (hs k v hk))) _ _ _
        (fun k v hk => ha1 k v hk (.inr rfl)) h5
      exact this.1 k _ hk'
    obtain ⟨y, hy⟩ := hgr.fedIn k _ hk' hact'
    have e2 := hgr.iv k _ y hk' (by rw [hy]; rfl)
    rw [hx, hy, ← e1, ← e2]

theorem giveAll_append {W : Workflow α} : ∀ (gs : List (Give α)) (g : Give α) (s s1 s2 : St α), giveAll W gs s = .ok s1 →
    giveStep W s1 g = .ok s2 → giveAll W (gs ++ [g]) s = .ok s2
  | [], g, s, s1, s2, h, hg => by
    cases h
    simp only [List.nil_append, giveAll, hg, bind, Except.bind]
  | g' :: gs, g, s, s1, s2, h, hg => by
    simp only [giveAll, bind, Except.bind] at h
    cases h1 : giveStep W s g' with
    | error e => rw [h1] at h; simp at h
    | ok s' =>
      rw [h1] at h
      simp only [List.cons_append, giveAll, h1, bind, Except.bind]
      exact giveAll_append gs g s' s1 s2 h hg

open Classical in
theorem finalValues_append {W : Workflow α} (k : Nat) (x : α) : ∀ (gs : List (Give α)) (V : Nat → Option α),
    finalValues W V (gs ++ [.one k x]) = fun j => if j = k then some x else finalValues W V gs j
  | [], V => by
    funext j
    simp only [List.nil_append, finalValues, Give.About, Give.value]
    by_cases h : j = k
    · subst h; simp
    · simp [h]
  | g :: gs, V => by
    simp only [List.cons_append, finalValues]
    exact finalValues_append k x gs _

/-- An other value given to an input before the blocks are evaluated: continuing gives the result of a run made with this value from
the start.  Missing: values given after blocks were evaluated (`C76_violated`). -/
theorem C76_partial {W : Workflow α} (hw : WellFormed W) (hl : LocksOk W) {o : Nat} (ho : OutputOf W o) {vals : Nat → Option α}
    {s0 s s1 r : St α} {gs : List (Give α)} (h0 : startRun W vals = .ok s0) (h : giveAll W gs s0 = .ok s) {k : Nat} {x : α}
    (h1 : addInputValue W s k x = .ok s1) {user : List (Nat × α)}
    (hu : ∀ j, j < (inputs W).length → expected W user j = if j = k then some x else s.inputValues j) {so so' : SetOrder}
    (hr : run W so user = .ok (some r)) {rt : List Nat} (hrt : runtimeBlocks W so' = .ok rt) :
    ∃ t, continueRun W rt (W.blocks.length + 1) s1 = .ok (some t) ∧ t.outputValue = r.outputValue := by
  obtain ⟨t, h2, -, h3, -⟩ := C159_result_partial hw hl ho h0 (giveAll_append gs (.one k x) s0 s s1 h h1) (user := user) (fun j hj => by
    rw [hu j hj, finalValues_append, (C159_values hw h0 h).1 j hj]) hr hrt
  exact ⟨t, h2, h3⟩

/-- The values given in the example: those of the block 1, then, two times, the one of the block 2. -/
def exGive : List (Give Int) :=
  [.block 1 (fun k => if k = 2 then some 5 else none), .several [1] (fun _ => some 0), .one 1 1]

theorem exGive_ok : ∃ s0 s, startRun exW (fun _ => none) = .ok s0 ∧ giveAll exW exGive s0 = .ok s ∧
    (s.inputValues 0, s.inputValues 1, s.inputValues 2) = (some 7, some 1, some 5) := by
  have e : (match startRun exW (fun _ => none) with
    | .ok s0 => (match giveAll exW exGive s0 with
      | .ok s => some (s.inputValues 0, s.inputValues 1, s.inputValues 2)
      | _ => none)
    | _ => none) = some (some 7, some 1, some 5) := by decide +kernel
  split at e
  · rename_i s0 h0
    split at e
    · rename_i s h
      exact ⟨s0, s, h0, h, Option.some.inj e⟩
    · simp at e
  · simp at e

example : ∃ s0 s t, startRun exW (fun _ => none) = .ok s0 ∧ giveAll exW exGive s0 = .ok s ∧
    continueRun exW [0, 1] 4 s = .ok (some t) ∧ t.outputValue = some 24 := by
  obtain ⟨s0, s, h0, h, hv⟩ := exGive_ok
  obtain ⟨r, hr⟩ := C27_completes exW_wf exW_locks exW_output exW_total dedupOrder [(1, 1), (2, 5)] (by decide) (by decide)
  have hrt : runtimeBlocks exW dedupOrder = .ok [0, 1] := by
    cases h : runtimeBlocks exW dedupOrder with
    | error e =>
      have : (runtimeBlocks exW dedupOrder).toOption = some [0, 1] := by decide
      rw [h] at this; simp [Except.toOption] at this
    | ok r =>
      have : (runtimeBlocks exW dedupOrder).toOption = some [0, 1] := by decide
      rw [h] at this; simp [Except.toOption] at this
      rw [this]
  obtain ⟨t, ht, -, ho, -⟩ := C159_result_partial exW_wf exW_locks exW_output h0 h (user := [(1, 1), (2, 5)]) (fun k hk => by
    rw [← (C159_values exW_wf h0 h).1 k hk]
    have hk : k < 3 := hk
    simp only [Prod.mk.injEq] at hv
    match k, hk with
    | 0, _ => rw [hv.1]; rfl
    | 1, _ => rw [hv.2.1]; rfl
    | 2, _ => rw [hv.2.2]; rfl) hr hrt
  refine ⟨s0, s, t, h0, h, ht, ?_⟩
  have e2 : (match run exW dedupOrder [(1, 1), (2, 5)] with
    | .ok (some s) => s.outputValue
    | _ => none) = some 24 := by decide +kernel
  rw [hr] at e2
  rw [ho]
  exact e2

/-- The block 2 of the example cannot be given without its input. -/
example : ∃ s0, startRun exW (fun _ => none) = .ok s0 ∧ addBlockValues exW 2 (fun _ => none) s0 = .error .valueError := by
  obtain ⟨s0, h0⟩ := activateInputs_total exW_wf exW_locks ({ inputValues := fun _ => none } : St Int)
  refine ⟨s0, h0, ((C159_missing exW_wf (gs := []) h0 rfl (by decide) _).1).2 ⟨1, ?_, rfl, rfl⟩⟩
  exact ⟨⟨[5, 6], [7], addEval⟩, 6, 6, rfl, by decide, by decide, .refl⟩

/-- The workflow of the example, with its first input locked. -/
def exLock : Workflow Int := { exW with lockFlag := fun v => v = 0 }

/-- **C159** A state takes a value for a locked input, which a run with the same values does not: the results differ. -/
theorem C159_locked_violated : ∃ (W : Workflow Int) (s0 s t r : St Int) (rt : List Nat) (given : Nat → Option Int),
    WellFormed W ∧ LocksOk W ∧ W.lockFlag 0 = true ∧ W.default 0 = some 7 ∧ (inputs W)[0]? = some 0 ∧
    startRun W (fun k => if k = 1 then some 1 else none) = .ok s0 ∧ addBlockValues W 1 given s0 = .ok s ∧
    given 0 = some 9 ∧ given 2 = some 5 ∧ runtimeBlocks W dedupOrder = .ok rt ∧ continueRun W rt 4 s = .ok (some t) ∧ t.outputValue = some 28 ∧
    run W dedupOrder [(0, 9), (1, 1), (2, 5)] = .ok (some r) ∧ r.outputValue = some 24 := by
  have e : (match startRun exLock (fun k => if k = 1 then some 1 else none) with
    | .ok s0 => (match addBlockValues exLock 1 (fun k => if k = 0 then some 9 else if k = 2 then some 5 else none) s0 with
      | .ok s => (match runtimeBlocks exLock dedupOrder with
        | .ok rt => (match continueRun exLock rt 4 s with
          | .ok (some t) => (match run exLock dedupOrder [(0, 9), (1, 1), (2, 5)] with
            | .ok (some r) => some (t.outputValue, r.outputValue)
            | _ => none)
          | _ => none)
        | _ => none)
      | _ => none)
    | _ => none) = some (some 28, some 24) := by decide +kernel
  split at e
  · rename_i s0 h0
    split at e
    · rename_i s h1
      split at e
      · rename_i rt h2
        split at e
        · rename_i t h3
          split at e
          · rename_i r h4
            simp only [Option.some.injEq, Prod.mk.injEq] at e
            exact ⟨exLock, s0, s, t, r, rt, _, ⟨exW_wf.distinct, exW_wf.single, exW_wf.target, exW_wf.source, exW_wf.acyclic⟩,
              fun v hv => by simp [exLock] at hv; subst hv; rfl, rfl, rfl, by decide, h0, h1, rfl, rfl, h2, h3, e.1, h4, e.2⟩
          · simp at e
        · simp at e
      · simp at e
    · simp at e
  · simp at e

end DC.Wkf
