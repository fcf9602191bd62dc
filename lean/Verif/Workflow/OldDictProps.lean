import Verif.Workflow.OldDict
import Verif.Workflow.PersistProps
import Verif.Workflow.LawsProps
/-
Property C206: documents of workflows of former versions.
-/
namespace DC.Wkf

variable {κ τ α δ J : Type} [Inhabited τ]

/-- The same document written by the present version, without the imposed values: missing entries are empty ones. -/
def OldD.now (d : OldD κ δ J) : WfD κ δ J :=
  ⟨d.name, d.blocks, d.pipes, d.output, d.free.getD [], d.steps.getD [], d.description.getD "", d.documentation.getD ""⟩

/-- The variables to which the addresses of the imposed values lead, with these values. -/
def ImposedOn (w : World κ τ α δ J) (s : Store τ α) (W : Wf κ δ) (l : List (Addr × J)) (vs : List (Nat × J)) : Prop :=
  List.Forall₂ (fun a v => variableFromIndex (skel w s W) a.1 = .ok v.1 ∧ a.2 = v.2) l vs

/-! ### Lemmas -/

/-- The two workflows have the same blocks and pipes. -/
theorem fromIndex_congr (w : World κ τ α δ J) (s s' : Store τ α) {W W' : Wf κ δ} (hb : W.blocks = W'.blocks) (hp : W.pipes = W'.pipes) (a : Addr) :
    variableFromIndex (skel w s W) a = variableFromIndex (skel w s' W') a := by
  have h : nbvs (skel w s W) = nbvs (skel w s' W') := by simp only [nbvs, varsAndNbvs, skel, hb, hp, blockVars]
  cases a with
  | nbv i => simp only [variableFromIndex, h]
  | port b side i => simp only [variableFromIndex, skel, hb]

theorem mkWf_names (w : World κ τ α δ J) {s s' : Store τ α} (h : ∀ v, (look s v).name = (look s' v).name) (blocks : List (BlockO κ)) (pipes : List (Nat × Nat)) (output : Option Nat)
    (steps : List (StepO δ)) (description documentation name : String) :
    mkWf w s blocks pipes output steps description documentation name = mkWf w s' blocks pipes output steps description documentation name := by
  have e : nbvs (skel w s (⟨blocks, pipes, output, steps, [], description, documentation, name⟩ : Wf κ δ)) =
      nbvs (skel w s' (⟨blocks, pipes, output, steps, [], description, documentation, name⟩ : Wf κ δ)) := by
    simp only [nbvs, varsAndNbvs, skel, blockVars]
  unfold mkWf
  simp only [e, h]

theorem mkWf_holds {w : World κ τ α δ J} {s : Store τ α} {blocks : List (BlockO κ)} {pipes : List (Nat × Nat)} {output : Option Nat}
    {steps : List (StepO δ)} {description documentation name : String} {W : Wf κ δ}
    (h : mkWf w s blocks pipes output steps description documentation name = .ok W) :
    W.blocks = blocks ∧ W.pipes = pipes ∧ W.output = output := by
  unfold mkWf at h
  cases output with
  | none => cases h; exact ⟨rfl, rfl, rfl⟩
  | some o =>
    simp only at h
    split at h
    · cases h; exact ⟨rfl, rfl, rfl⟩
    · cases h

theorem stepOfDict_congr (w : World κ τ α δ J) (s s' : Store τ α) {W W' : Wf κ δ} (hb : W.blocks = W'.blocks) (hp : W.pipes = W'.pipes) (d : StepDict δ) :
    stepOfDict w s W d = stepOfDict w s' W' d := by
  have h : variableFromIndex (skel w s W) = variableFromIndex (skel w s' W') := funext (fromIndex_congr w s s' hb hp)
  simp only [stepOfDict, h]

theorem ok_then {β γ : Type} (x : β) (f : β → Except PyErr γ) : (Except.ok x >>= f) = f x := rfl

/-- The effect of the loop, for addresses which all lead to variables of the store. -/
theorem imposeAll_spec (w : World κ τ α δ J) {W : Wf κ δ} (l : List (Addr × J)) : ∀ (s : Store τ α),
    (∀ a v, variableFromIndex (skel w s W) a = .ok v → v < s.length) →
    ((∃ s', imposeAll w W s l = .ok s') ↔ ∃ vs, ImposedOn w s W l vs) ∧
    ∀ s', imposeAll w W s l = .ok s' → ∀ vs, ImposedOn w s W l vs → s'.length = s.length ∧ ∀ u, look s' u = match vs.reverse.lookup u with
      | some j => { look s u with default := some (w.des j), lockFlag := true }
      | none => look s u := by
  induction l with
  | nil =>
    intro s _
    refine ⟨⟨fun _ => ⟨[], .nil⟩, fun _ => ⟨s, rfl⟩⟩, ?_⟩
    intro s' h vs hv
    cases hv
    cases h
    exact ⟨rfl, fun u => rfl⟩
  | cons p l ih =>
    obtain ⟨a, j⟩ := p
    intro s hlt
    have e : imposeAll w W s ((a, j) :: l) = (do
        let v ← variableFromIndex (skel w s W) a
        let x ← Var.lock { look s v with default := some (w.des j) } none
        imposeAll w W (s.set v x) l) := rfl
    cases ha : variableFromIndex (skel w s W) a with
    | error er =>
      rw [e, ha]
      refine ⟨⟨fun ⟨_, h⟩ => (nomatch h), fun ⟨vs, h⟩ => ?_⟩, fun _ h => (nomatch h)⟩
      cases h with
      | cons h _ => rw [ha] at h; exact nomatch h.1
    | ok v =>
      have hv := hlt a v ha
      have e' : imposeAll w W s ((a, j) :: l) = imposeAll w W (s.set v { look s v with default := some (w.des j), lockFlag := true }) l := by
        rw [e, ha]
        rfl
      generalize hs1 : s.set v { look s v with default := some (w.des j), lockFlag := true } = s1 at e'
      have hlen : s1.length = s.length := by rw [← hs1]; simp
      have hc : ∀ b, variableFromIndex (skel w s1 W) b = variableFromIndex (skel w s W) b := fun b => fromIndex_congr w _ _ rfl rfl b
      have hL : ∀ vs, ImposedOn w s1 W l vs ↔ ImposedOn w s W l vs := by
        intro vs
        simp only [ImposedOn, hc]
      obtain ⟨ih1, ih2⟩ := ih s1 (fun b u hb => by rw [hlen]; exact hlt b u (hc b ▸ hb))
      rw [e']
      refine ⟨⟨fun h => ?_, fun ⟨vs, h⟩ => ?_⟩, fun s' h vs hvs => ?_⟩
      · obtain ⟨vs, hvs⟩ := ih1.1 h
        exact ⟨(v, j) :: vs, .cons ⟨ha, rfl⟩ ((hL vs).1 hvs)⟩
      · cases h with
        | cons _ h => exact ih1.2 ⟨_, (hL _).2 h⟩
      · cases hvs with
        | @cons _ q _ vs h1 h2 =>
          obtain ⟨v', j'⟩ := q
          obtain ⟨h1, rfl⟩ := h1
          rw [ha] at h1
          cases h1
          obtain ⟨g1, g2⟩ := ih2 s' h vs ((hL vs).2 h2)
          refine ⟨g1.trans hlen, fun u => ?_⟩
          simp only at hs1 hv ⊢
          rw [g2 u, ← hs1, look_set hv, List.reverse_cons, List.lookup_append]
          cases hu : vs.reverse.lookup u with
          | some k =>
            simp only [Option.some_or]
            split
            · rename_i h; subst h; rfl
            · rfl
          | none =>
            simp only [Option.none_or, List.lookup_cons, List.lookup_nil]
            by_cases h : u = v'
            · subst h; simp
            · have : (u == v') = false := by simpa using h
              simp [h, this]

omit [Inhabited τ] in
theorem blocksOfDict_lt (w : World κ τ α δ J) : ∀ (ds : List (BlockD κ J)) {s s' : Store τ α} {bs : List (BlockO κ)},
    blocksOfDict w s ds = .ok (bs, s') → s.length ≤ s'.length ∧ ∀ b ∈ bs, ∀ v ∈ b.inputs ++ b.outputs, v < s'.length := by
  intro ds
  induction ds with
  | nil =>
    intro s s' bs h
    cases h
    exact ⟨le_rfl, fun b hb => by simp at hb⟩
  | cons d ds ih =>
    intro s s' bs h
    obtain ⟨⟨b, s1⟩, h1, h⟩ := bind_ok.1 h
    obtain ⟨⟨bs', s2⟩, h2, h⟩ := bind_ok.1 h
    cases h
    obtain ⟨ins, hi, h1⟩ := bind_ok.1 h1
    obtain ⟨outs, ho, h1⟩ := bind_ok.1 h1
    cases h1
    obtain ⟨g1, g2⟩ := ih h2
    simp only [List.length_append] at g1
    refine ⟨by omega, fun c hc v hv => ?_⟩
    rcases List.mem_cons.1 hc with rfl | hc
    · simp only [List.mem_append, List.mem_range'_1] at hv
      omega
    · exact g2 c hc v hv

theorem endVar_mem {blocks : List (BlockO κ)} {free : List Nat} {source : Bool} {a : Addr} {v : Nat} (h : endVar blocks free source a = .ok v) :
    v ∈ free ∨ ∃ b ∈ blocks, v ∈ b.inputs ++ b.outputs := by
  cases a with
  | nbv i =>
    simp only [endVar] at h
    split at h
    · cases h
      exact .inl (List.mem_of_getElem? ‹_›)
    · cases h
  | port b side i =>
    simp only [endVar] at h
    split at h
    · cases h
    · rename_i blk hb
      split at h
      · rename_i u hu
        cases h
        refine .inr ⟨blk, List.mem_of_getElem? hb, ?_⟩
        have := List.mem_of_getElem? hu
        cases source <;> simp_all
      · cases h

theorem pipesOfDict_mem {blocks : List (BlockO κ)} {free : List Nat} : ∀ (l : List (Addr × Addr)) {s s' : Store τ α} {ps : List (Nat × Nat)},
    pipesOfDict blocks free s l = .ok (ps, s') → s'.length = s.length ∧
      ∀ p ∈ ps, ∀ v, v = p.1 ∨ v = p.2 → v ∈ free ∨ ∃ b ∈ blocks, v ∈ b.inputs ++ b.outputs := by
  intro l
  induction l with
  | nil =>
    intro s s' ps h
    cases h
    exact ⟨rfl, fun p hp => by simp at hp⟩
  | cons q l ih =>
    obtain ⟨a, b⟩ := q
    intro s s' ps h
    obtain ⟨v, h1, h⟩ := bind_ok.1 h
    obtain ⟨u, h2, h⟩ := bind_ok.1 h
    obtain ⟨⟨ps', s2⟩, h3, h⟩ := bind_ok.1 h
    cases h
    obtain ⟨g1, g2⟩ := ih h3
    refine ⟨g1.trans ?_, fun p hp x hx => ?_⟩
    · cases a <;> simp [resetType]
    · rcases List.mem_cons.1 hp with rfl | hp
      · rcases hx with rfl | rfl
        · exact endVar_mem h1
        · exact endVar_mem h2
      · exact g2 p hp x hx

theorem fromIndex_varOf {w : World κ τ α δ J} {s : Store τ α} {W : Wf κ δ} {a : Addr} {v : Nat} (h : variableFromIndex (skel w s W) a = .ok v) : VarOf W v := by
  cases a with
  | nbv i =>
    simp only [variableFromIndex] at h
    split at h
    · cases h
      exact (Built.mem_nbvs.1 (List.mem_of_getElem? ‹_›)).1
    · cases h
  | port b side i =>
    simp only [variableFromIndex] at h
    split at h
    · cases h
    · rename_i blk hb
      split at h
      · rename_i u hu
        cases h
        simp only [skel, List.getElem?_map, Option.map_eq_some_iff] at hb
        obtain ⟨c, hc, rfl⟩ := hb
        have := List.mem_of_getElem? hu
        refine .inl ⟨c, List.mem_of_getElem? hc, ?_⟩
        cases side <;> simp_all
      · cases h

theorem imposeAll_congr (w : World κ τ α δ J) {W W' : Wf κ δ} (hb : W.blocks = W'.blocks) (hp : W.pipes = W'.pipes) (l : List (Addr × J)) :
    ∀ s : Store τ α, imposeAll w W s l = imposeAll w W' s l := by
  induction l with
  | nil => exact fun _ => rfl
  | cons p l ih =>
    intro s
    simp only [imposeAll, fromIndex_congr w s s hb hp, ih]

theorem imposeAll_names (w : World κ τ α δ J) {W : Wf κ δ} (l : List (Addr × J)) :
    ∀ s s' : Store τ α, imposeAll w W s l = .ok s' → ∀ v, (look s v).name = (look s' v).name := by
  induction l with
  | nil =>
    intro s s' h v
    cases h
    rfl
  | cons p l ih =>
    intro s s' h v
    obtain ⟨u, h1, h⟩ := bind_ok.1 h
    obtain ⟨x, h2, h⟩ := bind_ok.1 h
    rw [← ih _ _ h v]
    cases h2
    by_cases hu : u < s.length
    · rw [look_set hu]
      split
      · rename_i e; subst e; rfl
      · rfl
    · rw [List.set_eq_of_length_le (by omega)]

/-- The document in its present form is read: the imposed values come after. -/
theorem ofOld_eq {w : World κ τ α δ J} {s s0 : Store τ α} {d : OldD κ δ J} {W : Wf κ δ} (h : ofDict w s d.now = .ok (W, s0)) :
    ofOld w s d = (imposeAll w W s0 (d.imposed.getD [])).map (fun s' => (W, s')) ∧
      ∀ a v, variableFromIndex (skel w s0 W) a = .ok v → v < s0.length := by
  obtain ⟨⟨blocks, s1⟩, h1, h⟩ := bind_ok.1 h
  obtain ⟨⟨pipes, s3⟩, h2, h⟩ := bind_ok.1 h
  obtain ⟨output, h3, h⟩ := bind_ok.1 h
  obtain ⟨init, h4, h⟩ := bind_ok.1 h
  obtain ⟨steps, h5, h⟩ := bind_ok.1 h
  obtain ⟨W', h6, h⟩ := bind_ok.1 h
  cases h
  obtain ⟨i1, i2, i3⟩ := mkWf_holds h4
  obtain ⟨j1, j2, j3⟩ := mkWf_holds h6
  constructor
  · have e : ofOld w s d = (do
        let s4 ← imposeAll w init s0 (d.imposed.getD [])
        let steps ← stepsOfDict w s4 init d.steps
        let W ← mkWf w s4 init.blocks init.pipes init.output steps (d.description.getD "") (d.documentation.getD "") d.name
        .ok (W, s4)) := by
      unfold ofOld
      simp only [OldD.now] at h1 h2 h3
      rw [h1]
      simp only [ok_then]
      rw [h2]
      simp only [ok_then]
      rw [h3]
      simp only [ok_then]
      rw [h4]
      rfl
    rw [e, imposeAll_congr w (j1.symm : init.blocks = W.blocks) (j2.symm : init.pipes = W.pipes)]
    cases hi : imposeAll w W s0 (d.imposed.getD []) with
    | error er => rfl
    | ok s4 =>
      have hn := imposeAll_names w _ _ _ hi
      have hst : stepsOfDict w s4 init d.steps = .ok steps := by
        rw [← h5]
        simp only [OldD.now]
        cases d.steps with
        | none => rfl
        | some l => simp only [stepsOfDict, Option.getD_some, funext (stepOfDict_congr w s4 s0 (rfl : init.blocks = init.blocks) rfl)]
      simp only [ok_then, hst]
      rw [mkWf_names w (s' := s0) (fun v => (hn v).symm)]
      simp only [OldD.now] at h6
      rw [h6]
      rfl
  · intro a v ha
    obtain ⟨k1, k2⟩ := blocksOfDict_lt w _ h1
    obtain ⟨l1, l2⟩ := pipesOfDict_mem _ h2
    simp only [List.length_append, List.length_map] at l1
    have hport : ∀ u, (∃ b ∈ blocks, u ∈ b.inputs ++ b.outputs) → u < s0.length := by
      rintro u ⟨b, hb, hu⟩
      have := k2 b hb u hu
      omega
    rcases fromIndex_varOf ha with ⟨b, hb, hu⟩ | ⟨p, hp, hu⟩
    · rw [j1, i1] at hb
      exact hport v ⟨b, hb, by simpa using hu⟩
    · rw [j2, i2] at hp
      rcases l2 p hp v hu with h | h
      · rw [List.mem_range'_1] at h
        omega
      · exact hport v h

/-- If a document is read, so is its present form. -/
theorem ofOld_now {w : World κ τ α δ J} {s : Store τ α} {d : OldD κ δ J} {r : Wf κ δ × Store τ α} (h : ofOld w s d = .ok r) :
    ∃ W s0, ofDict w s d.now = .ok (W, s0) := by
  obtain ⟨⟨blocks, s1⟩, h1, h⟩ := bind_ok.1 h
  obtain ⟨⟨pipes, s3⟩, h2, h⟩ := bind_ok.1 h
  obtain ⟨output, h3, h⟩ := bind_ok.1 h
  obtain ⟨init, h4, h⟩ := bind_ok.1 h
  obtain ⟨s4, h5, h⟩ := bind_ok.1 h
  obtain ⟨steps, h6, h⟩ := bind_ok.1 h
  obtain ⟨W, h7, h⟩ := bind_ok.1 h
  have hn := imposeAll_names w _ _ _ h5
  have hst : (d.steps.getD []).mapM (stepOfDict w s3 init) = .ok steps := by
    rw [← h6, funext (stepOfDict_congr w s3 s4 (rfl : init.blocks = init.blocks) rfl)]
    cases d.steps <;> rfl
  rw [mkWf_names w (s' := s3) (fun v => (hn v).symm)] at h7
  refine ⟨W, s3, ?_⟩
  unfold ofDict
  simp only [OldD.now]
  rw [h1]
  simp only [ok_then]
  rw [h2]
  simp only [ok_then]
  rw [h3]
  simp only [ok_then]
  rw [h4]
  simp only [ok_then]
  rw [hst]
  simp only [ok_then]
  rw [h7]
  rfl

/-! ### C206 -/

/-- C206.  A document without imposed values, in which entries may be missing, is read as its present form. -/
theorem C206_missing (w : World κ τ α δ J) (s : Store τ α) {d : OldD κ δ J} (h : d.imposed = none ∨ d.imposed = some []) (r : Wf κ δ × Store τ α) :
    ofOld w s d = .ok r ↔ ofDict w s d.now = .ok r := by
  have e : d.imposed.getD [] = [] := by rcases h with h | h <;> rw [h] <;> rfl
  constructor
  · intro hr
    obtain ⟨W, s0, h0⟩ := ofOld_now hr
    rw [(ofOld_eq h0).1, e] at hr
    rw [h0]
    exact hr
  · intro hr
    obtain ⟨W, s0⟩ := r
    rw [(ofOld_eq hr).1, e]
    rfl

/-- C206.  A document is read exactly when its present form is and its addresses all lead to variables of the workflow. -/
theorem C206_readable (w : World κ τ α δ J) (s : Store τ α) (d : OldD κ δ J) :
    (∃ r, ofOld w s d = .ok r) ↔ ∃ W s0, ofDict w s d.now = .ok (W, s0) ∧ ∃ vs, ImposedOn w s0 W (d.imposed.getD []) vs := by
  constructor
  · rintro ⟨r, hr⟩
    obtain ⟨W, s0, h0⟩ := ofOld_now hr
    obtain ⟨h1, h2⟩ := ofOld_eq h0
    refine ⟨W, s0, h0, (imposeAll_spec w _ s0 h2).1.1 ?_⟩
    rw [h1] at hr
    cases hi : imposeAll w W s0 (d.imposed.getD []) with
    | error er => rw [hi] at hr; cases hr
    | ok s' => exact ⟨s', rfl⟩
  · rintro ⟨W, s0, h0, hv⟩
    obtain ⟨h1, h2⟩ := ofOld_eq h0
    obtain ⟨s', hs⟩ := (imposeAll_spec w _ s0 h2).1.2 hv
    exact ⟨(W, s'), by rw [h1, hs]; rfl⟩

/-- C206.  What is read is the workflow of the present form of the document, in which each variable with an imposed value is locked on
it, on the last one if there are several; nothing else changes. -/
theorem C206_imposed {w : World κ τ α δ J} {s s' : Store τ α} {d : OldD κ δ J} {W : Wf κ δ} (h : ofOld w s d = .ok (W, s')) :
    ∃ s0 vs, ofDict w s d.now = .ok (W, s0) ∧ ImposedOn w s0 W (d.imposed.getD []) vs ∧ s'.length = s0.length ∧
      (∀ v, (∀ p ∈ vs, p.1 ≠ v) → look s' v = look s0 v) ∧
      ∀ pre v j post, vs = pre ++ (v, j) :: post → (∀ p ∈ post, p.1 ≠ v) →
        look s' v = { look s0 v with default := some (w.des j), lockFlag := true } := by
  obtain ⟨W', s0, h0⟩ := ofOld_now h
  obtain ⟨h1, h2⟩ := ofOld_eq h0
  rw [h1] at h
  cases hi : imposeAll w W' s0 (d.imposed.getD []) with
  | error er => rw [hi] at h; cases h
  | ok s4 =>
    rw [hi] at h
    cases h
    obtain ⟨k1, k2⟩ := imposeAll_spec w (d.imposed.getD []) s0 h2
    obtain ⟨vs, hvs⟩ := k1.1 ⟨_, hi⟩
    obtain ⟨l1, l2⟩ := k2 _ hi vs hvs
    refine ⟨s0, vs, h0, hvs, l1, fun v hv => ?_, fun pre v j post e hp => ?_⟩
    · have : vs.reverse.lookup v = none := by
        rw [List.lookup_eq_none_iff]
        intro p hp
        have := hv p (List.mem_reverse.1 hp)
        simpa using Ne.symm this
      rw [l2, this]
    · have : vs.reverse.lookup v = some j := by
        rw [e]
        have hn : post.reverse.lookup v = none := by
          rw [List.lookup_eq_none_iff]
          intro p h
          have := hp p (List.mem_reverse.1 h)
          simpa using Ne.symm this
        simp [List.lookup_append, hn]
      rw [l2, this]

/-- C206.  When the values are imposed to inputs, the workflow read runs as its present form with these values given by the user. -/
theorem C206_runs {w : World κ τ α δ J} {s s0 s' : Store τ α} {d : OldD κ δ J} {W : Wf κ δ} (h0 : ofDict w s d.now = .ok (W, s0))
    (h : ofOld w s d = .ok (W, s')) {vs : List (Nat × J)} (hvs : ImposedOn w s0 W (d.imposed.getD []) vs)
    (hw : WellFormed (skel w s0 W)) (hl : LocksOk (skel w s0 W)) {o : Nat} (ho : OutputOf (skel w s0 W) o)
    (hin : ∀ p ∈ vs, p.1 ∈ inputs (skel w s0 W) ∧ (look s0 p.1).lockFlag = false) (user : List (Nat × α)) (so so' : SetOrder) :
    SameResult (run (skel w s0 W) so (vs.reverse.map (fun p => ((inputs (skel w s0 W)).idxOf p.1, w.des p.2)) ++ user))
      (run (skel w s' W) so' user) := by
  obtain ⟨h1, h2⟩ := ofOld_eq h0
  have hi : imposeAll w W s0 (d.imposed.getD []) = .ok s' := by
    rw [h1] at h
    cases hi : imposeAll w W s0 (d.imposed.getD []) with
    | error er => rw [hi] at h; cases h
    | ok s4 => rw [hi] at h; cases h; rfl
  obtain ⟨-, l2⟩ := (imposeAll_spec w (d.imposed.getD []) s0 h2).2 _ hi vs hvs
  have hins : inputs (skel w s' W) = inputs (skel w s0 W) := by simp only [inputs, allVariables, varsAndNbvs, blockVars, hasAncestor, skel]
  have hlk : ∀ l : List (Nat × J), (∀ p ∈ l, p.1 ∈ inputs (skel w s0 W)) → ∀ v ∈ inputs (skel w s0 W),
      (l.map (fun p => ((inputs (skel w s0 W)).idxOf p.1, w.des p.2)) ++ user).lookup ((inputs (skel w s0 W)).idxOf v) =
        ((l.lookup v).map w.des).or (user.lookup ((inputs (skel w s0 W)).idxOf v)) := by
    intro l hl v hv
    induction l with
    | nil => simp
    | cons p l ih =>
      obtain ⟨u, j⟩ := p
      have ih := ih fun p hp => hl p (by simp [hp])
      have hu := hl (u, j) (by simp)
      by_cases e : v = u
      · subst e
        simp
      · have e1 : ((inputs (skel w s0 W)).idxOf v == (inputs (skel w s0 W)).idxOf u) = false := by
          rw [beq_eq_false_iff_ne]
          exact fun h => e ((List.idxOf_inj hv).1 h)
        have e2 : (v == u) = false := by simpa using e
        simp only [List.map_cons, List.cons_append, List.lookup_cons, e1, e2]
        exact ih
  refine revalued_same (W := skel w s0 W) (W' := skel w s' W) rfl rfl rfl hw hl (fun v hv => ?_) ho ?_ (fun v hv => ?_) so so'
  · simp only [skel, l2] at hv ⊢
    cases hv' : vs.reverse.lookup v with
    | some j => rfl
    | none => simp only [hv'] at hv ⊢; exact hl v hv
  · constructor
    · intro hk kx hkx
      exact hk kx (by simp [hkx])
    · intro hk kx hkx
      rcases List.mem_append.1 hkx with h | h
      · obtain ⟨p, hp, rfl⟩ := List.mem_map.1 h
        exact List.idxOf_lt_length_of_mem (hin p (List.mem_reverse.1 hp)).1
      · exact hk kx h
  · have e := hlk vs.reverse (fun p hp => (hin p (List.mem_reverse.1 hp)).1) v hv
    simp only [givenTo, hins, e]
    cases hv' : vs.reverse.lookup v with
    | some j =>
      have hm : (look s0 v).lockFlag = false := (hin (v, j) (List.mem_reverse.1 (DC.Dict.lookup_mem hv'))).2
      simp [skel, l2, hv', hm]
    | none =>
      simp only [skel, l2, hv', Option.map_none, Option.none_or]
      rfl

/-! ### Examples -/

/-- The document of `demoW` with two values imposed, one after the other, to its free variable; the entries for texts are missing. -/
def exOld : OldD Kd String Int :=
  ⟨"wf", [⟨.dbl, "first", (1, 1), [⟨"x", "int", "my x", (0, 0), true, some 8⟩], []⟩, ⟨.add, "second", (2, 2), [], []⟩],
    [(.port 0 true 0, .port 1 false 0), (.nbv 0, .port 1 false 1)], some (.port 1 true 0), some [⟨"free", "int", "mine", (3, 4), false, some 5⟩],
    none, none, none, some [(.nbv 0, 4), (.nbv 0, 9)]⟩

/-- What is read of it. -/
def exOldW : Wf Kd String := { demoW with steps := [], description := "", documentation := "" }

theorem exOld_now : ofDict demo (demoS.take 1) exOld.now = .ok (exOldW, demoS) := by rfl

theorem exOld_read : ofOld demo (demoS.take 1) exOld = .ok (exOldW, demoS.set 6 ⟨"free", 1, "mine", (3, 4), some 9, true⟩) := by rfl

theorem exOld_on : ImposedOn demo demoS exOldW (exOld.imposed.getD []) [(6, 4), (6, 9)] :=
  .cons ⟨by decide, rfl⟩ (.cons ⟨by decide, rfl⟩ .nil)

/-- The hypotheses of `C206_runs` are met: its runs give 2 * 8 + 9. -/
example (so so' : SetOrder) : SameResult
    (run (skel demo demoS exOldW) so ([(6, 4), (6, 9)].reverse.map (fun p => ((inputs (skel demo demoS exOldW)).idxOf p.1, demo.des p.2)) ++ []))
    (run (skel demo (demoS.set 6 ⟨"free", 1, "mine", (3, 4), some 9, true⟩) exOldW) so' []) := by
  refine C206_runs exOld_now exOld_read exOld_on ⟨by decide, by decide, by decide, by decide, fun v => if v = 6 then 0 else v, by decide, by decide⟩ ?_
    (o := 1) ⟨_, 5, rfl, rfl, by decide⟩ (by decide) [] so so'
  intro v hv
  have : ∀ v < 7, (look demoS v).lockFlag = true → (look demoS v).default.isSome = true := by decide
  by_cases h : v < 7
  · exact this v h hv
  · have e : look demoS v = default := by
      unfold look
      rw [List.getD_eq_getElem?_getD, List.getElem?_eq_none (by simp [demoS]; omega)]
      rfl
    simp only [skel, e] at hv
    exact absurd hv (by decide)

example : (match run (skel demo (demoS.set 6 ⟨"free", 1, "mine", (3, 4), some 9, true⟩) exOldW) dedupOrder [] with
    | .ok (some s) => s.outputValue
    | _ => none) = some 25 := by decide +kernel

end DC.Wkf
