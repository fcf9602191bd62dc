import Verif.Workflow.ReplaceProps
/-
Property C189: a `ForEach` block runs its workflow on each element, and two of them in a row are one on the two workflows in a row.
-/
namespace DC.Wkf

variable {α : Type}

/-! ### Definitions -/

/-- The loop of `ForEach.evaluate` on the elements of the iterated input, of index `k`: blocks.py 503-506.  `c` is the workflow block. -/
def eachLoop (c : Block α) (k : Nat) : List α → List α → Except PyErr (List α)
  | _, [] => .ok []
  | args, e :: es =>
    match c.eval (args.set k e) with
    | .error x => .error x
    | .ok [] => .error .indexError
    | .ok (y :: _) =>
      match eachLoop c k (args.set k e) es with
      | .error x => .error x
      | .ok ys => .ok (y :: ys)

/-- How Python iterates on values, and makes lists of them: `elems` is the iteration, with its error, and `listOf` a list.  (Contract of Python, no function of the
code.) -/
structure Lists (α : Type) where
  elems : α → Except PyErr (List α)
  listOf : List α → α
  elems_listOf : ∀ xs, elems (listOf xs) = .ok xs

/-- A `ForEach` on the workflow block `c`, for its input of index `k`, with input variables `ins` and output variable `out`: blocks.py 460-477, 499-507. -/
def eachBlock (L : Lists α) (c : Block α) (k : Nat) (ins : List Nat) (out : Nat) : Block α where
  inputs := ins
  outputs := [out]
  eval args :=
    match args[k]? with
    | none => .error .keyError
    | some l =>
      match L.elems l with
      | .error x => .error x
      | .ok es =>
        match eachLoop c k args es with
        | .error x => .error x
        | .ok ys => .ok [L.listOf ys]

/-- The workflow of two blocks in a row: the output `o1` of the first one is piped to the input `t` of the second one, whose output is `o2`.  (No function of the code:
the workflow a user would write.) -/
def chain (b1 b2 : Block α) (o1 o2 t : Nat) : Workflow α where
  blocks := [b1, b2]
  pipes := [⟨o1, t, false⟩]
  output := some o2
  default _ := none
  lockFlag _ := false

/-- The two blocks have their own variables and one output each, and the pipe enters the input of index `k` of the second one. -/
structure Chained (b1 b2 : Block α) (k o1 o2 t : Nat) : Prop where
  out1 : b1.outputs = [o1]
  out2 : b2.outputs = [o2]
  target : b2.inputs[k]? = some t
  distinct : (b1.inputs ++ [o1] ++ (b2.inputs ++ [o2])).Nodup

/-- What a block with one output gives on some values. -/
def Gives1 (b : Block α) (args : List α) (y : α) : Prop := ∃ t, b.eval args = .ok (y :: t)

/-! ### Elements -/

theorem eachLoop_iff {c : Block α} {k : Nat} : ∀ {es : List α} {args ys : List α}, eachLoop c k args es = .ok ys ↔
    List.Forall₂ (fun e y => Gives1 c (args.set k e) y) es ys
  | [], args, ys => by
    simp only [eachLoop, Except.ok.injEq, List.forall₂_nil_left_iff]
    exact eq_comm
  | e :: es, args, ys => by
    simp only [eachLoop]
    cases hc : c.eval (args.set k e) with
    | error x =>
      simp only [reduceCtorEq, false_iff]
      intro h
      cases h with
      | cons h _ =>
        obtain ⟨t, ht⟩ := h
        rw [hc] at ht
        cases ht
    | ok zs =>
      cases zs with
      | nil =>
        simp only [reduceCtorEq, false_iff]
        intro h
        cases h with
        | cons h _ =>
          obtain ⟨t, ht⟩ := h
          rw [hc] at ht
          cases ht
      | cons z zs =>
        have ih := @eachLoop_iff c k es (args.set k e)
        simp only [List.set_set] at ih
        dsimp only
        cases hr : eachLoop c k (args.set k e) es with
        | error x =>
          simp only [reduceCtorEq, false_iff]
          intro h
          cases h with
          | cons _ h =>
            rw [ih.2 h] at hr
            cases hr
        | ok rs =>
          simp only [Except.ok.injEq]
          constructor
          · rintro rfl
            exact .cons ⟨zs, hc⟩ (ih.1 hr)
          · intro h
            cases h with
            | @cons _ y _ ys' h1 h2 =>
              obtain ⟨t, ht⟩ := h1
              rw [hc] at ht
              have := ih.2 h2
              rw [hr] at this
              cases ht
              cases this
              rfl

theorem each_eval {L : Lists α} {c : Block α} {k : Nat} {ins : List Nat} {out : Nat} {args ys : List α} :
    (eachBlock L c k ins out).eval args = .ok ys ↔ ∃ l es rs, args[k]? = some l ∧ L.elems l = .ok es ∧
      List.Forall₂ (fun e r => Gives1 c (args.set k e) r) es rs ∧ ys = [L.listOf rs] := by
  constructor
  · intro h
    simp only [eachBlock] at h
    split at h
    · cases h
    · rename_i l hl
      split at h
      · cases h
      · rename_i es he
        split at h
        · cases h
        · rename_i rs hr
          cases h
          exact ⟨l, es, rs, hl, he, eachLoop_iff.1 hr, rfl⟩
  · rintro ⟨l, es, rs, hl, he, hr, rfl⟩
    simp only [eachBlock, hl, he, eachLoop_iff.2 hr]

/-! ### Two blocks in a row -/

section
variable {b1 b2 : Block α} {k o1 o2 t : Nat}

theorem erase_filter {l : List Nat} (hn : l.Nodup) (h : l[k]? = some t) : l.filter (fun v => !(t == v)) = l.eraseIdx k := by
  obtain ⟨hk, rfl⟩ := List.getElem?_eq_some_iff.1 h
  rw [← hn.erase_getElem k hk, hn.erase_eq_filter]
  apply List.filter_congr
  intro v _
  rw [Bool.eq_iff_iff]
  simp only [Bool.not_eq_true', beq_eq_false_iff_ne, bne_iff_ne, ne_eq]
  exact not_congr eq_comm

theorem Chained.inputs (h : Chained b1 b2 k o1 o2 t) : inputs (chain b1 b2 o1 o2 t) = b1.inputs ++ b2.inputs.eraseIdx k := by
  have hd := h.distinct
  have ht : t ∈ b2.inputs := List.mem_of_getElem? h.target
  simp only [List.nodup_append, List.mem_append, List.mem_singleton] at hd
  obtain ⟨⟨d1, -, d2⟩, ⟨d3, -, d4⟩, d5⟩ := hd
  have hv : allVariables (chain b1 b2 o1 o2 t) = b1.inputs ++ [o1] ++ (b2.inputs ++ [o2]) := by
    simp [allVariables, varsAndNbvs, chain, blockVars, handlePipe, h.out1, h.out2, ht]
  have ha : ∀ v, hasAncestor (chain b1 b2 o1 o2 t) v = (v == o1 || v == o2 || (t == v && o1 != v)) := by
    intro v
    rw [Bool.eq_iff_iff]
    simp [hasAncestor, chain, h.out1, h.out2]
  unfold Wkf.inputs
  rw [hv]
  simp only [List.filter_append, ha]
  have e1 : b1.inputs.filter (fun v => !(v == o1 || v == o2 || (t == v && o1 != v))) = b1.inputs := by
    rw [List.filter_eq_self]
    intro v hv
    have n1 : v ≠ o1 := d2 v hv o1 rfl
    have n2 : v ≠ o2 := d5 v (.inl hv) o2 (.inr rfl)
    have n3 : t ≠ v := fun e => d5 v (.inl hv) t (.inl ht) e.symm
    simp [n1, n2, n3]
  have e2 : b2.inputs.filter (fun v => !(v == o1 || v == o2 || (t == v && o1 != v))) = b2.inputs.eraseIdx k := by
    rw [← erase_filter d3 h.target]
    apply List.filter_congr
    intro v hv
    have n1 : v ≠ o1 := fun e => d5 o1 (.inr rfl) v (.inl hv) e.symm
    have n2 : v ≠ o2 := d4 v hv o2 rfl
    have n3 : o1 ≠ v := fun e => n1 e.symm
    rw [Bool.eq_iff_iff]
    simp [n1, n2, n3]
  rw [e1, e2]
  simp

theorem Chained.wf (h : Chained b1 b2 k o1 o2 t) : WellFormed (chain b1 b2 o1 o2 t) := by
  have hd := h.distinct
  have ht : t ∈ b2.inputs := List.mem_of_getElem? h.target
  refine ⟨by simpa [chain, blockVars, h.out1, h.out2] using hd, by simp [chain], ?_, ?_, ?_⟩
  · intro p hp
    simp only [chain, List.mem_singleton] at hp
    subst hp
    exact ⟨b2, by simp [chain], ht⟩
  · intro p hp b hb
    simp only [chain, List.mem_singleton] at hp
    subst hp
    simp only [List.nodup_append, List.mem_append, List.mem_singleton] at hd
    obtain ⟨⟨-, -, d2⟩, -, d5⟩ := hd
    simp only [chain, List.mem_cons, List.not_mem_nil, or_false] at hb
    rcases hb with rfl | rfl
    · exact fun hv => d2 o1 hv o1 rfl rfl
    · exact fun hv => d5 o1 (.inr rfl) o1 (.inl hv) rfl
  · refine ⟨fun v => if v ∈ b1.inputs then 0 else if v = o1 then 1 else if v ∈ b2.inputs then 2 else 3, ?_, ?_⟩ <;>
    simp only [List.nodup_append, List.mem_append, List.mem_singleton] at hd <;> obtain ⟨⟨-, -, d2⟩, ⟨-, -, d4⟩, d5⟩ := hd
    · intro p hp
      simp only [chain, List.mem_singleton] at hp
      subst hp
      have n1 : o1 ∉ b1.inputs := fun hv => d2 o1 hv o1 rfl rfl
      have n2 : t ∉ b1.inputs := fun hv => d5 t (.inl hv) t (.inl ht) rfl
      have n3 : t ≠ o1 := fun e => d5 o1 (.inr rfl) t (.inl ht) e.symm
      simp [n1, n2, n3, ht]
    · intro b hb i hi o ho
      simp only [chain, List.mem_cons, List.not_mem_nil, or_false] at hb
      rcases hb with rfl | rfl
      · rw [h.out1, List.mem_singleton] at ho
        subst ho
        have n1 : o ∉ b.inputs := fun hv => d2 o hv o rfl rfl
        simp [hi, n1]
      · rw [h.out2, List.mem_singleton] at ho
        subst ho
        have n1 : i ∉ b1.inputs := fun hv => d5 i (.inl hv) i (.inl hi) rfl
        have n2 : i ≠ o1 := fun e => d5 o1 (.inr rfl) i (.inl hi) e.symm
        have n3 : o ∉ b1.inputs := fun hv => d5 o (.inl hv) o (.inr rfl) rfl
        have n4 : o ≠ o1 := fun e => d5 o1 (.inr rfl) o (.inr rfl) e.symm
        have n5 : o ∉ b.inputs := fun hv => d4 o hv o rfl rfl
        simp [hi, n1, n2, n3, n4, n5]

theorem chain_locks : LocksOk (chain b1 b2 o1 o2 t) := fun v h => by simp [chain] at h

theorem Chained.outputOf (h : Chained b1 b2 k o1 o2 t) : OutputOf (chain b1 b2 o1 o2 t) 1 :=
  ⟨b2, o2, rfl, rfl, by simp [h.out2]⟩

theorem zip_single {o y : Nat} {ys : List α} {x : α} (h : (y, x) ∈ [o].zip ys) : ∃ t, ys = x :: t := by
  cases ys with
  | nil => simp at h
  | cons z zs =>
    simp only [List.zip_cons_cons, List.zip_nil_left, List.mem_singleton, Prod.mk.injEq] at h
    exact ⟨zs, by rw [h.2]⟩

theorem chain_gives (h : Chained b1 b2 k o1 o2 t) {so : SetOrder} {args : List α} {y : α} :
    GivesResult (chain b1 b2 o1 o2 t) so ((List.range args.length).zip args) y ↔
      args.length = b1.inputs.length + (b2.inputs.length - 1) ∧
      ∃ z, Gives1 b1 (args.take b1.inputs.length) z ∧ Gives1 b2 ((args.drop b1.inputs.length).insertIdx k z) y := by
  rw [gives_iff h.wf chain_locks h.outputOf rfl]
  have hin := h.inputs
  have hk : k < b2.inputs.length := (List.getElem?_eq_some_iff.1 h.target).1
  have hlen : (Wkf.inputs (chain b1 b2 o1 o2 t)).length = b1.inputs.length + (b2.inputs.length - 1) := by
    rw [hin, List.length_append, List.length_eraseIdx_of_lt hk]
  have hexp : ∀ {j v : Nat}, (Wkf.inputs (chain b1 b2 o1 o2 t))[j]? = some v → expected (chain b1 b2 o1 o2 t) ((List.range args.length).zip args) j = args[j]? := by
    intro j v hj
    simp only [expected, hj]
    simp only [chain, Bool.false_eq_true, if_false]
    cases ha : args[j]? with
    | some x => rw [range_lookup.2 ha]
    | none =>
      cases hl : ((List.range args.length).zip args).lookup j with
      | none => rfl
      | some x =>
        rw [range_lookup, ha] at hl
        cases hl
  have hgiven : GivenSame (chain b1 b2 o1 o2 t) ((List.range args.length).zip args) ↔ args.length = b1.inputs.length + (b2.inputs.length - 1) := by
    constructor
    · intro hg
      rcases Nat.lt_trichotomy args.length (b1.inputs.length + (b2.inputs.length - 1)) with hlt | he | hgt
      · exfalso
        rw [← hlen] at hlt
        have hv : (Wkf.inputs (chain b1 b2 o1 o2 t))[args.length]? = some (Wkf.inputs (chain b1 b2 o1 o2 t))[args.length] := List.getElem?_eq_getElem hlt
        have := expected_some h.wf hg args.length hlt
        rw [hexp hv] at this
        simp at this
      · exact he
      · exfalso
        have hpos : args.length - 1 < args.length := by omega
        have hm : (args.length - 1, args[args.length - 1]) ∈ (List.range args.length).zip args :=
          List.mem_of_getElem? (i := args.length - 1) (List.getElem?_zip_eq_some.2 ⟨by simp [hpos], List.getElem?_eq_getElem hpos⟩)
        have := hg.range _ hm
        rw [hlen] at this
        simp only at this
        omega
    · intro he
      refine ⟨fun kx hkx => ?_, fun v hv => ?_⟩
      · have := (List.of_mem_zip (a := kx.1) (b := kx.2) hkx).1
        rw [List.mem_range] at this
        rw [hlen]
        omega
      · obtain ⟨j, hj⟩ := List.getElem?_of_mem hv
        rw [← expected_given h.wf _ hj, hexp hj]
        have := (List.getElem?_eq_some_iff.1 hj).1
        rw [List.getElem?_eq_getElem (by omega)]
        rfl
  rw [hgiven]
  refine and_congr_right fun hargs => ?_
  have hA : ∀ vx ∈ b1.inputs.zip (args.take b1.inputs.length),
      Den (chain b1 b2 o1 o2 t) (expected (chain b1 b2 o1 o2 t) ((List.range args.length).zip args)) vx.1 vx.2 := by
    intro vx hvx
    obtain ⟨j, hj⟩ := List.getElem?_of_mem hvx
    obtain ⟨j1, j2⟩ := List.getElem?_zip_eq_some.1 (show (b1.inputs.zip (args.take b1.inputs.length))[j]? = some (vx.1, vx.2) from hj)
    have hlt := (List.getElem?_eq_some_iff.1 j1).1
    have hi : (Wkf.inputs (chain b1 b2 o1 o2 t))[j]? = some vx.1 := by rw [hin, List.getElem?_append_left hlt, j1]
    refine .input hi ?_
    rw [hexp hi, ← j2, List.getElem?_take_of_lt hlt]
  have hB : ∀ {z : α}, Den (chain b1 b2 o1 o2 t) (expected (chain b1 b2 o1 o2 t) ((List.range args.length).zip args)) o1 z →
      ∀ vx ∈ b2.inputs.zip ((args.drop b1.inputs.length).insertIdx k z),
        Den (chain b1 b2 o1 o2 t) (expected (chain b1 b2 o1 o2 t) ((List.range args.length).zip args)) vx.1 vx.2 := by
    intro z hz vx hvx
    obtain ⟨j, hj⟩ := List.getElem?_of_mem hvx
    obtain ⟨j1, j2⟩ := List.getElem?_zip_eq_some.1 (show (b2.inputs.zip ((args.drop b1.inputs.length).insertIdx k z))[j]? = some (vx.1, vx.2) from hj)
    have hdl : (args.drop b1.inputs.length).length = b2.inputs.length - 1 := by rw [List.length_drop]; omega
    rcases Nat.lt_trichotomy j k with hlt | rfl | hgt
    · rw [List.getElem?_insertIdx_of_lt hlt, List.getElem?_drop] at j2
      have hi : (Wkf.inputs (chain b1 b2 o1 o2 t))[b1.inputs.length + j]? = some vx.1 := by
        rw [hin, List.getElem?_append_right (by omega), Nat.add_sub_cancel_left, List.getElem?_eraseIdx_of_lt hlt, j1]
      exact .input hi ((hexp hi).trans j2)
    · rw [List.getElem?_insertIdx_self, if_pos (by omega)] at j2
      rw [h.target] at j1
      cases j1
      cases j2
      exact Den.pipe (p := ⟨o1, vx.1, false⟩) (by simp [chain]) hz
    · rw [List.getElem?_insertIdx_of_gt hgt, List.getElem?_drop] at j2
      have hi : (Wkf.inputs (chain b1 b2 o1 o2 t))[b1.inputs.length + (j - 1)]? = some vx.1 := by
        rw [hin, List.getElem?_append_right (by omega), Nat.add_sub_cancel_left, List.getElem?_eraseIdx_of_ge (by omega), show j - 1 + 1 = j by omega, j1]
      exact .input hi ((hexp hi).trans j2)
  have l1 : (args.take b1.inputs.length).length = b1.inputs.length := by rw [List.length_take]; omega
  have l2 : ∀ z, ((args.drop b1.inputs.length).insertIdx k z).length = b2.inputs.length := by
    intro z
    rw [List.length_insertIdx_of_le_length (by rw [List.length_drop]; omega), List.length_drop]
    omega
  constructor
  · intro hd
    obtain ⟨xs, ys, hx, hx2, he, hz⟩ := den_block h.wf (b := b2) (by simp [chain]) (by simp [h.out2]) hd
    rw [h.out2] at hz
    obtain ⟨ys', rfl⟩ := zip_single hz
    have hkx : xs[k]? = some (xs[k]'(by omega)) := List.getElem?_eq_getElem (by omega)
    have hmid : Den (chain b1 b2 o1 o2 t) (expected (chain b1 b2 o1 o2 t) ((List.range args.length).zip args)) o1 (xs[k]'(by omega)) :=
      den_pipe h.wf (p := ⟨o1, t, false⟩) (by simp [chain]) (den_at hx2 h.target hkx)
    obtain ⟨xs1, zs, g1, g2, g3, g4⟩ := den_block h.wf (b := b1) (by simp [chain]) (by simp [h.out1]) hmid
    rw [h.out1] at g4
    obtain ⟨zs', rfl⟩ := zip_single g4
    refine ⟨xs[k]'(by omega), ⟨zs', ?_⟩, ys', ?_⟩
    · rw [← den_same h.wf g1 l1 g2 hA]
      exact g3
    · rw [← den_same h.wf hx (l2 _) hx2 (hB hmid)]
      exact he
  · rintro ⟨z, ⟨zs, h1⟩, ys, h2⟩
    have hmid : Den (chain b1 b2 o1 o2 t) (expected (chain b1 b2 o1 o2 t) ((List.range args.length).zip args)) o1 z :=
      .block (b := b1) (by simp [chain]) l1 hA h1 (by simp [h.out1])
    exact .block (b := b2) (by simp [chain]) (l2 z) (hB hmid) h2 (by simp [h.out2])

end

/-! ### Lists -/

theorem pairs_comp {β γ δ : Type} {R : β → γ → Prop} {S : γ → δ → Prop} : ∀ {as : List β} {cs : List δ},
    List.Forall₂ (fun a c => ∃ b, R a b ∧ S b c) as cs ↔ ∃ bs, List.Forall₂ R as bs ∧ List.Forall₂ S bs cs
  | [], cs => by
    constructor
    · intro h
      cases h
      exact ⟨[], .nil, .nil⟩
    · rintro ⟨bs, h1, h2⟩
      cases h1
      cases h2
      exact .nil
  | a :: as, cs => by
    constructor
    · intro h
      cases h with
      | cons h1 h2 =>
        obtain ⟨b, hb, hc⟩ := h1
        obtain ⟨bs, g1, g2⟩ := pairs_comp.1 h2
        exact ⟨b :: bs, .cons hb g1, .cons hc g2⟩
    · rintro ⟨bs, h1, h2⟩
      cases h1 with
      | cons hb g1 =>
        cases h2 with
        | cons hc g2 => exact .cons ⟨_, hb, hc⟩ (pairs_comp.2 ⟨_, g1, g2⟩)

theorem pairs_perm {β γ : Type} {R : β → γ → Prop} {as as' : List β} (hp : as.Perm as') : ∀ {cs : List γ}, List.Forall₂ R as cs →
    ∃ cs', cs.Perm cs' ∧ List.Forall₂ R as' cs' := by
  induction hp with
  | nil =>
    intro cs h
    exact ⟨cs, .refl _, h⟩
  | cons a _ ih =>
    intro cs h
    cases h with
    | cons h1 h2 =>
      obtain ⟨cs', p, g⟩ := ih h2
      exact ⟨_, p.cons _, .cons h1 g⟩
  | swap a b l =>
    intro cs h
    cases h with
    | cons h1 h2 =>
      cases h2 with
      | cons h3 h4 => exact ⟨_, .swap _ _ _, .cons h3 (.cons h1 h4)⟩
  | trans _ _ ih1 ih2 =>
    intro cs h
    obtain ⟨cs1, p1, g1⟩ := ih1 h
    obtain ⟨cs2, p2, g2⟩ := ih2 g1
    exact ⟨cs2, p1.trans p2, g2⟩

/-! ### C189 -/

/-- A ForEach block on a workflow gives the list of the results of the runs of this workflow, one for each element in the place of the iterated input, in order; it
gives a result exactly if each of these runs does, and the other inputs are the same in all of them. -/
theorem C189_runs {L : Lists α} {I : Workflow α} {so : SetOrder} {wins ins : List Nat} {wout out k : Nat} {args ys : List α} :
    (eachBlock L (subBlock I so wins wout) k ins out).eval args = .ok ys ↔ ∃ l es rs, args[k]? = some l ∧ L.elems l = .ok es ∧
      List.Forall₂ (fun e r => GivesResult I so ((List.range args.length).zip (args.set k e)) r) es rs ∧ ys = [L.listOf rs] := by
  rw [each_eval]
  have : ∀ e r, Gives1 (subBlock I so wins wout) (args.set k e) r ↔ GivesResult I so ((List.range args.length).zip (args.set k e)) r := by
    intro e r
    unfold Gives1
    constructor
    · rintro ⟨t, ht⟩
      obtain ⟨y, hy, e'⟩ := subBlock_eval.1 ht
      cases e'
      rwa [List.length_set] at hy
    · intro h
      exact ⟨[], subBlock_eval.2 ⟨r, by rwa [List.length_set], rfl⟩⟩
  simp only [this]

/-- The elements can be given by parts: the results of the parts, one after the other, are the results of the whole; and reordered: the results are reordered. -/
theorem C189_parts {L : Lists α} {c : Block α} {k : Nat} (ins : List Nat) (out : Nat) {args : List α} (hk : k < args.length) (es es' : List α) :
    (∀ y, Gives1 (eachBlock L c k ins out) (args.set k (L.listOf (es ++ es'))) y ↔ ∃ rs rs',
      Gives1 (eachBlock L c k ins out) (args.set k (L.listOf es)) (L.listOf rs) ∧ Gives1 (eachBlock L c k ins out) (args.set k (L.listOf es')) (L.listOf rs') ∧
      y = L.listOf (rs ++ rs')) ∧
    (es.Perm es' → ∀ rs, Gives1 (eachBlock L c k ins out) (args.set k (L.listOf es)) (L.listOf rs) →
      ∃ rs', rs.Perm rs' ∧ Gives1 (eachBlock L c k ins out) (args.set k (L.listOf es')) (L.listOf rs')) ∧
    ∀ rs, Gives1 (eachBlock L c k ins out) (args.set k (L.listOf es)) (L.listOf rs) → rs.length = es.length := by
  have key : ∀ xs y, Gives1 (eachBlock L c k ins out) (args.set k (L.listOf xs)) y ↔
      ∃ rs, List.Forall₂ (fun e r => Gives1 c (args.set k e) r) xs rs ∧ y = L.listOf rs := by
    intro xs y
    have hg : (args.set k (L.listOf xs))[k]? = some (L.listOf xs) := by simp [hk]
    constructor
    · rintro ⟨t, ht⟩
      obtain ⟨l, es, rs, h1, h2, h3, h4⟩ := each_eval.1 ht
      rw [hg] at h1
      cases h1
      rw [L.elems_listOf] at h2
      cases h2
      simp only [List.set_set] at h3
      cases h4
      exact ⟨rs, h3, rfl⟩
    · rintro ⟨rs, h, rfl⟩
      exact ⟨[], each_eval.2 ⟨_, xs, rs, hg, L.elems_listOf xs, by simpa only [List.set_set] using h, rfl⟩⟩
  have linj : ∀ {xs ys : List α}, L.listOf xs = L.listOf ys → xs = ys := by
    intro xs ys h
    have := L.elems_listOf xs
    rw [h, L.elems_listOf] at this
    cases this
    rfl
  refine ⟨fun y => ?_, fun hp rs h => ?_, fun rs h => ?_⟩
  · rw [key]
    constructor
    · rintro ⟨rs, h, rfl⟩
      obtain ⟨h1, h2⟩ : List.Forall₂ (fun e r => Gives1 c (args.set k e) r) es (rs.take es.length) ∧
          List.Forall₂ (fun e r => Gives1 c (args.set k e) r) es' (rs.drop es.length) := by
        refine ⟨?_, ?_⟩
        · have := List.forall₂_take es.length h
          simpa using this
        · have := List.forall₂_drop es.length h
          simpa using this
      exact ⟨_, _, (key _ _).2 ⟨_, h1, rfl⟩, (key _ _).2 ⟨_, h2, rfl⟩, by rw [List.take_append_drop]⟩
    · rintro ⟨rs, rs', h1, h2, rfl⟩
      obtain ⟨q1, g1, e1⟩ := (key _ _).1 h1
      obtain ⟨q2, g2, e2⟩ := (key _ _).1 h2
      cases linj e1
      cases linj e2
      exact ⟨_, List.rel_append g1 g2, rfl⟩
  · obtain ⟨q, g, e⟩ := (key _ _).1 h
    cases linj e
    obtain ⟨rs', p, g'⟩ := pairs_perm hp g
    exact ⟨rs', p, (key _ _).2 ⟨_, g', rfl⟩⟩
  · obtain ⟨q, g, e⟩ := (key _ _).1 h
    cases linj e
    exact g.length_eq.symm

/-- Two ForEach blocks in a row, the second one on the results of the first one, give what one ForEach block gives on the two workflow blocks in a row. -/
theorem C189_fusion {L : Lists α} {c1 c2 : Block α} {k1 k2 o1 o2 t : Nat} (hc : Chained c1 c2 k2 o1 o2 t) {ins1 ins2 : List Nat} {p1 p2 u : Nat}
    (he : Chained (eachBlock L c1 k1 ins1 p1) (eachBlock L c2 k2 ins2 p2) k2 p1 p2 u) (h1 : ins1.length = c1.inputs.length)
    (h2 : ins2.length = c2.inputs.length) (hk : k1 < ins1.length) (so so' : SetOrder) (ins ins' : List Nat) (out out' : Nat) {args : List α}
    (hargs : args.length = ins1.length + (ins2.length - 1)) (r : List α) :
    (subBlock (chain (eachBlock L c1 k1 ins1 p1) (eachBlock L c2 k2 ins2 p2) p1 p2 u) so ins out).eval args = .ok r ↔
    (eachBlock L (subBlock (chain c1 c2 o1 o2 t) so' ins' out') k1 ins out).eval args = .ok r := by
  have hk2 : k2 < ins2.length := (List.getElem?_eq_some_iff.1 he.target).1
  rw [subBlock_eval, C189_runs]
  have hi1 : (eachBlock L c1 k1 ins1 p1).inputs = ins1 := rfl
  have hi2 : (eachBlock L c2 k2 ins2 p2).inputs = ins2 := rfl
  have hchain : ∀ e y, GivesResult (chain c1 c2 o1 o2 t) so' ((List.range args.length).zip (args.set k1 e)) y ↔
      ∃ z, Gives1 c1 ((args.take ins1.length).set k1 e) z ∧ Gives1 c2 ((args.drop ins1.length).insertIdx k2 z) y := by
    intro e y
    have := chain_gives hc (so := so') (args := args.set k1 e) (y := y)
    rw [List.length_set] at this
    rw [this, ← h1, ← h2, List.take_set, List.drop_set_of_lt (by omega)]
    exact and_iff_right hargs
  simp only [hchain]
  have hget : (args.take ins1.length)[k1]? = args[k1]? := List.getElem?_take_of_lt hk
  have hd : (args.drop ins1.length).length = ins2.length - 1 := by rw [List.length_drop]; omega
  have hset : ∀ z z', ((args.drop ins1.length).insertIdx k2 z).set k2 z' = (args.drop ins1.length).insertIdx k2 z' := by
    intro z z'
    apply List.ext_getElem?
    intro j
    rw [List.getElem?_set]
    rcases Nat.lt_trichotomy j k2 with hlt | rfl | hgt
    · rw [if_neg (by omega), List.getElem?_insertIdx_of_lt hlt, List.getElem?_insertIdx_of_lt hlt]
    · rw [if_pos rfl, if_pos (by rw [List.length_insertIdx_of_le_length (by omega)]; omega), List.getElem?_insertIdx_self, if_pos (by omega)]
    · rw [if_neg (by omega), List.getElem?_insertIdx_of_gt hgt, List.getElem?_insertIdx_of_gt hgt]
  constructor
  · rintro ⟨y, hy, rfl⟩
    obtain ⟨-, z, ⟨_, hz⟩, _, hy⟩ := (chain_gives he).1 hy
    rw [hi1] at hz hy
    obtain ⟨l, es, rs, g1, g2, g3, g4⟩ := each_eval.1 hz
    obtain ⟨l', es', ys, f1, f2, f3, f4⟩ := each_eval.1 hy
    cases g4
    cases f4
    rw [List.getElem?_insertIdx_self, if_pos (by omega)] at f1
    cases f1
    rw [L.elems_listOf] at f2
    cases f2
    simp only [hset] at f3
    rw [hget] at g1
    exact ⟨l, es, ys, g1, g2, pairs_comp.2 ⟨rs, g3, f3⟩, rfl⟩
  · rintro ⟨l, es, ys, g1, g2, g3, rfl⟩
    obtain ⟨rs, f1, f2⟩ := pairs_comp.1 g3
    refine ⟨L.listOf ys, (chain_gives he).2 ⟨hargs, L.listOf rs, ⟨[], ?_⟩, [], ?_⟩, rfl⟩
    · rw [hi1]
      exact each_eval.2 ⟨l, es, rs, by rw [hget]; exact g1, g2, f1, rfl⟩
    · rw [hi1]
      exact each_eval.2 ⟨L.listOf rs, rs, ys, by rw [List.getElem?_insertIdx_self, if_pos (by omega)], L.elems_listOf rs, by simpa only [hset] using f2, rfl⟩

theorem Chained.needed {b1 b2 : Block α} {k o1 o2 t : Nat} (h : Chained b1 b2 k o1 o2 t) : ∀ v ∈ Wkf.inputs (chain b1 b2 o1 o2 t), DependsOn (chain b1 b2 o1 o2 t) v := by
  have ht : t ∈ b2.inputs := List.mem_of_getElem? h.target
  have two : ∀ v ∈ b2.inputs, DependsOn (chain b1 b2 o1 o2 t) v := fun v hv =>
    .block (b := b2) (o := o2) (by simp [chain]) (by simp [h.out2]) (.output rfl) hv
  have one : DependsOn (chain b1 b2 o1 o2 t) o1 := .pipe (p := ⟨o1, t, false⟩) (by simp [chain]) (two t ht)
  rw [h.inputs]
  intro v hv
  rcases List.mem_append.1 hv with hv | hv
  · exact .block (b := b1) (o := o1) (by simp [chain]) (by simp [h.out1]) one hv
  · exact two v (List.mem_of_mem_eraseIdx hv)

/-- In a workflow, two ForEach blocks in a row, each with its own output, can be replaced by one ForEach block on the workflow of their two workflow blocks in a row: the
results are the same, for all values given to the inputs.  `W` is the workflow with the two of them in a block of their own, `unfolded W …` the one with the two of
them in place. -/
theorem C189_chain {L : Lists α} {c1 c2 : Block α} {k1 k2 o1 o2 t : Nat} (hc : Chained c1 c2 k2 o1 o2 t) {ins1 ins2 : List Nat} {p1 p2 u : Nat}
    (he : Chained (eachBlock L c1 k1 ins1 p1) (eachBlock L c2 k2 ins2 p2) k2 p1 p2 u) (h1 : ins1.length = c1.inputs.length)
    (h2 : ins2.length = c2.inputs.length) (hk : k1 < ins1.length) {W : Workflow α} {so so' : SetOrder} {pre post : List (Block α)} {ins ins' : List Nat} {out out' : Nat}
    (hs : HasSub W (chain (eachBlock L c1 k1 ins1 p1) (eachBlock L c2 k2 ins2 p2) p1 p2 u) so pre post ins out) {user user' : List (Nat × α)}
    (hu : ∀ kx ∈ user, kx.1 < (inputs W).length)
    (hu' : ∀ kx ∈ user', kx.1 < (inputs (unfolded W (chain (eachBlock L c1 k1 ins1 p1) (eachBlock L c2 k2 ins2 p2) p1 p2 u) pre post ins out)).length)
    (hg : ∀ v ∈ inputs W, givenTo (unfolded W (chain (eachBlock L c1 k1 ins1 p1) (eachBlock L c2 k2 ins2 p2) p1 p2 u) pre post ins out) user'
      (port (chain (eachBlock L c1 k1 ins1 p1) (eachBlock L c2 k2 ins2 p2) p1 p2 u) ins out v) = givenTo W user v) (so1 so2 : SetOrder) (y : α) :
    GivesResult (unfolded W (chain (eachBlock L c1 k1 ins1 p1) (eachBlock L c2 k2 ins2 p2) p1 p2 u) pre post ins out) so1 user' y ↔
    GivesResult { W with blocks := pre ++ eachBlock L (subBlock (chain c1 c2 o1 o2 t) so' ins' out') k1 ins out :: post } so2 user y := by
  obtain ⟨i, hi⟩ := hs.outer.2.2
  have hlen : ins.length = ins1.length + (ins2.length - 1) := by
    rw [hs.ports, he.inputs, List.length_append]
    show ins1.length + (ins2.eraseIdx k2).length = _
    rw [List.length_eraseIdx_of_lt (show k2 < ins2.length from (List.getElem?_eq_some_iff.1 he.target).1)]
  have same : ∀ b : Block α, SameHere W user b b := fun b => ⟨rfl, rfl, fun _ _ _ _ => Iff.rfl⟩
  have hrep : GivesResult W so2 user y ↔ GivesResult { W with blocks := pre ++ eachBlock L (subBlock (chain c1 c2 o1 o2 t) so' ins' out') k1 ins out :: post } so2 user y := by
    refine C187_replace (W := W) (W' := { W with blocks := pre ++ eachBlock L (subBlock (chain c1 c2 o1 o2 t) so' ins' out') k1 ins out :: post }) hs.outer.1 hs.outer.2.1 hi ?_ rfl rfl rfl rfl so2 so2 y
    rw [hs.blocks]
    exact List.rel_append (List.forall₂_same.2 fun b _ => same b) (.cons ⟨rfl, rfl, fun xs hx _ ys =>
      (C189_fusion hc he h1 h2 hk so so' ins ins' out out' (hx.trans hlen) ys).symm⟩ (List.forall₂_same.2 fun b _ => same b))
  rw [← hrep]
  exact ⟨C186_fold hs he.needed hu hg so2, C186_unfold hs hu' hg so1⟩

/-! ### An example -/

/-- Numbers and lists of them. -/
inductive EachVal where
  | num (n : Int)
  | list (l : List EachVal)

/-- Lists are iterated, numbers are not. -/
def exLists : Lists EachVal where
  elems
    | .list l => .ok l
    | .num _ => .error .typeError
  listOf := .list
  elems_listOf _ := rfl

/-- The number of a value. -/
def EachVal.toInt : EachVal → Int
  | .num n => n
  | .list l => l.length

/-- Twice its input. -/
def exTwice : Block EachVal := ⟨[20], [21], fun xs => match xs with
  | [x] => .ok [.num (2 * x.toInt)]
  | _ => .error .typeError⟩

/-- The first input minus the second one, which must not be 8. -/
def exMinus : Block EachVal := ⟨[22, 23], [24], fun xs => match xs with
  | [x, z] => if z.toInt = 8 then .error .valueError else .ok [.num (x.toInt - z.toInt)]
  | _ => .error .typeError⟩

theorem exChained : Chained exTwice exMinus 1 21 24 23 := ⟨rfl, rfl, rfl, by decide⟩
theorem exChained_each : Chained (eachBlock exLists exTwice 0 [30] 31) (eachBlock exLists exMinus 1 [32, 33] 34) 1 31 34 33 := ⟨rfl, rfl, rfl, by decide⟩

/-- The two ForEach blocks give [100 - 2 * 1, 100 - 2 * 2, 100 - 2 * 3] on [1, 2, 3] and 100. -/
example (so so' : SetOrder) : (eachBlock exLists (subBlock (chain exTwice exMinus 21 24 23) so' [40, 41] 42) 0 [50, 51] 52).eval [.list [.num 1, .num 2, .num 3], .num 100] =
    .ok [.list [.num 98, .num 96, .num 94]] ∧
    (subBlock (chain (eachBlock exLists exTwice 0 [30] 31) (eachBlock exLists exMinus 1 [32, 33] 34) 31 34 33) so [50, 51] 52).eval
      [.list [.num 1, .num 2, .num 3], .num 100] = .ok [.list [.num 98, .num 96, .num 94]] := by
  have h := C189_fusion exChained exChained_each rfl rfl (by decide) so so' [50, 51] [40, 41] 52 42 (args := [.list [.num 1, .num 2, .num 3], .num 100]) rfl
    [.list [.num 98, .num 96, .num 94]]
  have run1 : ∀ n : Int, n ≠ 4 → GivesResult (chain exTwice exMinus 21 24 23) so' ((List.range 2).zip [.num n, .num 100]) (.num (100 - 2 * n)) := by
    intro n hn
    refine (chain_gives exChained (args := [.num n, .num 100])).2 ⟨rfl, .num (2 * n), ⟨[], rfl⟩, [], ?_⟩
    have : ¬ (2 * n = 8) := by omega
    simp [exMinus, exTwice, EachVal.toInt, this]
  refine ⟨?_, h.2 ?_⟩ <;>
  exact C189_runs.2 ⟨_, _, [.num 98, .num 96, .num 94], rfl, rfl, .cons (run1 1 (by decide)) (.cons (run1 2 (by decide)) (.cons (run1 3 (by decide)) .nil)), rfl⟩

/-- By parts, and reordered. -/
example (y : EachVal) (h : Gives1 (eachBlock exLists exMinus 1 [32, 33] 34) [.num 100, .list [.num 1, .num 2, .num 3]] y) :
    ∃ rs rs', Gives1 (eachBlock exLists exMinus 1 [32, 33] 34) [.num 100, .list [.num 1]] (.list rs) ∧
      Gives1 (eachBlock exLists exMinus 1 [32, 33] 34) [.num 100, .list [.num 2, .num 3]] (.list rs') ∧ y = .list (rs ++ rs') :=
  ((C189_parts (L := exLists) (c := exMinus) (k := 1) [32, 33] 34 (args := [.num 100, .num 0]) (by decide) [.num 1] [.num 2, .num 3]).1 y).1 h

example : Gives1 (eachBlock exLists exMinus 1 [32, 33] 34) [.num 100, .list [.num 1, .num 2, .num 3]] (.list [.num 99, .num 98, .num 97]) := ⟨[], rfl⟩

/-- A workflow with the two ForEach blocks in a row, in a block of their own, after a block which gives the list. -/
def exEachPre : List (Block EachVal) := [⟨[0], [1], fun xs => match xs with
  | [x] => .ok [.list [x, .num 2, .num 3]]
  | _ => .error .typeError⟩]
def exEachAround : Workflow EachVal where
  blocks := exEachPre ++ subBlock (chain (eachBlock exLists exTwice 0 [30] 31) (eachBlock exLists exMinus 1 [32, 33] 34) 31 34 33) dedupOrder [50, 51] 52 :: []
  pipes := [⟨1, 50, false⟩]
  output := some 52
  default v := if v = 51 then some (.num 100) else none
  lockFlag _ := false

theorem exEachAround_inputs : inputs exEachAround = [0, 51] := by decide

theorem exEachAround_sub : HasSub exEachAround (chain (eachBlock exLists exTwice 0 [30] 31) (eachBlock exLists exMinus 1 [32, 33] 34) 31 34 33) dedupOrder exEachPre []
    [50, 51] 52 where
  blocks := rfl
  ports := by decide
  outer := ⟨⟨by decide, by decide, by decide, by decide, id, by decide, by decide⟩, fun v h => by simp [exEachAround] at h, 1, _, 52, rfl, rfl, by decide⟩
  inner := ⟨exChained_each.wf, chain_locks, 1, exChained_each.outputOf⟩
  apart := by decide
  direct := by decide
  unlocked := by decide

example (so1 so2 : SetOrder) (x y : EachVal) :
    GivesResult (unfolded exEachAround (chain (eachBlock exLists exTwice 0 [30] 31) (eachBlock exLists exMinus 1 [32, 33] 34) 31 34 33) exEachPre [] [50, 51] 52) so1
      [(0, x)] y ↔
    GivesResult { exEachAround with blocks := exEachPre ++ eachBlock exLists (subBlock (chain exTwice exMinus 21 24 23) dedupOrder [40, 41] 42) 0 [50, 51] 52 :: [] } so2
      [(0, x)] y := by
  refine C189_chain exChained exChained_each rfl rfl (by decide) exEachAround_sub (by rw [exEachAround_inputs]; simp) ?_ ?_ so1 so2 y
  · have : inputs (unfolded exEachAround (chain (eachBlock exLists exTwice 0 [30] 31) (eachBlock exLists exMinus 1 [32, 33] 34) 31 34 33) exEachPre [] [50, 51] 52) =
      [0, 32] := by decide
    rw [this]
    simp
  · rw [exEachAround_inputs]
    intro v hv
    simp only [List.mem_cons, List.not_mem_nil, or_false] at hv
    rcases hv with rfl | rfl <;> rfl

end DC.Wkf
