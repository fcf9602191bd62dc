import Verif.Workflow.InvLemmas
import Mathlib.Data.Finset.Card
/- The blocks which lead to the output. -/
namespace DC.Wkf

variable {α : Type}

theorem findPort_some {v : Nat} (bs : List (Block α)) (k : Nat) (b : Block α) (i : Nat) (hb : bs[i]? = some b)
    (hv : v ∈ b.inputs ++ b.outputs) : ∃ j c side n, findPort v k bs = some (.port (k + j) side n) ∧
      bs[j]? = some c ∧ v ∈ c.inputs ++ c.outputs := by
  induction bs generalizing k i with
  | nil => simp at hb
  | cons c bs ih =>
    rw [findPort]
    by_cases h1 : v ∈ c.inputs
    · exact ⟨0, c, _, _, by rw [if_pos h1]; rfl, rfl, by simp [h1]⟩
    · rw [if_neg h1]
      by_cases h2 : v ∈ c.outputs
      · exact ⟨0, c, _, _, by rw [if_pos h2]; rfl, rfl, by simp [h2]⟩
      · rw [if_neg h2]
        cases i with
        | zero =>
          simp only [List.getElem?_cons_zero, Option.some.injEq] at hb
          subst hb
          simp [h1, h2] at hv
        | succ i =>
          obtain ⟨j, d, sd, n, h3, h4, h5⟩ := ih (k + 1) i (by simpa using hb)
          exact ⟨j + 1, d, sd, n, by rw [h3]; congr 2; omega, by simpa using h4, h5⟩

theorem blockFromVariable_port {W : Workflow α} (hd : (blockVars W).Nodup) {v i : Nat} {b : Block α}
    (hb : W.blocks[i]? = some b) (hv : v ∈ b.inputs ++ b.outputs) : blockFromVariable W (some v) = .ok i := by
  obtain ⟨j, c, side, n, h1, h2, h3⟩ := findPort_some W.blocks 0 b i hb hv
  have : j = i := nodup_blocks_disjoint hd h2 hb h3 hv
  subst this
  have e : variableIndices W v = .ok (.port j side n) := by
    unfold variableIndices
    rw [h1]
    simp
  simp only [blockFromVariable, e]

/-- No variable is locked without a default value. -/
def LocksOk (W : Workflow α) : Prop := ∀ v, W.lockFlag v = true → (W.default v).isSome

theorem LocksOk.locked {W : Workflow α} (h : LocksOk W) (v : Nat) : locked W v = .ok (W.lockFlag v) := by
  unfold Wkf.locked
  cases hl : W.lockFlag v with
  | true => simp [h v hl]
  | false => simp

theorem upstreamLoop_wired {W : Workflow α} (hl : LocksOk W) (l : List Nat) (u : Upstream) :
    ∃ u', upstreamLoop W u l = .ok u' ∧
      ∀ w, w ∈ u'.wired ↔ w ∈ u.wired ∨ ∃ i ∈ l, upstreamVar W i = some w ∧ w ∉ nbvs W := by
  induction l generalizing u with
  | nil => exact ⟨u, rfl, by simp⟩
  | cons i l ih =>
    rw [upstreamLoop]
    cases hu : upstreamVar W i with
    | none =>
      simp only [hl.locked, bind, Except.bind]
      obtain ⟨u', h1, h2⟩ := ih (if W.lockFlag i = true then { u with locked := u.locked ++ [i] }
        else { u with available := u.available ++ [i] })
      refine ⟨u', h1, fun w => ?_⟩
      rw [h2]
      have : (if W.lockFlag i = true then { u with locked := u.locked ++ [i] }
        else { u with available := u.available ++ [i] } : Upstream).wired = u.wired := by split <;> rfl
      rw [this]
      simp [hu]
    | some w0 =>
      simp only
      by_cases hn : w0 ∈ nbvs W
      · rw [if_pos hn]
        simp only [hl.locked, bind, Except.bind]
        obtain ⟨u', h1, h2⟩ := ih (if W.lockFlag w0 = true then { u with locked := u.locked ++ [w0] }
          else { u with nonblock := u.nonblock ++ [w0] })
        refine ⟨u', h1, fun w => ?_⟩
        rw [h2]
        have : (if W.lockFlag w0 = true then { u with locked := u.locked ++ [w0] }
          else { u with nonblock := u.nonblock ++ [w0] } : Upstream).wired = u.wired := by split <;> rfl
        rw [this]
        constructor
        · rintro (h | ⟨j, hj, h⟩)
          · exact .inl h
          · exact .inr ⟨j, .tail _ hj, h⟩
        · rintro (h | ⟨j, hj, h⟩)
          · exact .inl h
          · rcases List.mem_cons.1 hj with rfl | hj
            · rw [hu] at h
              cases h.1
              exact absurd hn h.2
            · exact .inr ⟨j, hj, h⟩
      · rw [if_neg hn]
        obtain ⟨u', h1, h2⟩ := ih { u with wired := u.wired ++ [w0] }
        refine ⟨u', h1, fun w => ?_⟩
        rw [h2]
        rw [List.mem_append, List.mem_singleton]
        simp only [List.mem_cons, exists_eq_or_imp, hu, Option.some.injEq]
        constructor
        · rintro ((h | rfl) | h)
          · exact .inl h
          · exact .inr (.inl ⟨rfl, hn⟩)
          · exact .inr (.inr h)
        · rintro (h | ⟨rfl, -⟩ | h)
          · exact .inl (.inl h)
          · exact .inl (.inr rfl)
          · exact .inr h

theorem blocksOf_spec {W : Workflow α} (l : List Nat) (h : ∀ v ∈ l, ∃ i, blockFromVariable W (some v) = .ok i) :
    ∃ bs, blocksOf W l = .ok bs ∧ ∀ i, i ∈ bs ↔ ∃ v ∈ l, blockFromVariable W (some v) = .ok i := by
  induction l with
  | nil => exact ⟨[], rfl, by simp⟩
  | cons v l ih =>
    obtain ⟨i, hi⟩ := h v (.head _)
    obtain ⟨bs, h1, h2⟩ := ih (fun w hw => h w (.tail _ hw))
    refine ⟨i :: bs, by rw [blocksOf, hi, h1]; rfl, fun j => ?_⟩
    rw [List.mem_cons, h2]
    simp only [List.mem_cons, exists_eq_or_imp, hi, Except.ok.injEq]
    exact or_congr_left eq_comm

/-- The blocks upstream of a block are those which feed it. -/
theorem upstreamBlocks_spec {W : Workflow α} (hw : WellFormed W) (hl : LocksOk W) (so : SetOrder) {i : Nat}
    (hi : i < W.blocks.length) : ∃ us, upstreamBlocks W so i = .ok us ∧ us.Nodup ∧ ∀ j, j ∈ us ↔ Feeds W j i := by
  obtain ⟨b, hb⟩ : ∃ b, W.blocks[i]? = some b := ⟨W.blocks[i], by simp [hi]⟩
  obtain ⟨u, h1, h2⟩ := upstreamLoop_wired hl b.inputs {}
  have key : ∀ v ∈ u.wired, ∃ (c : Block α) (j : Nat) (p : Pipe), W.blocks[j]? = some c ∧ v ∈ c.outputs ∧ p ∈ W.pipes ∧ p.input = v ∧
      p.output ∈ b.inputs := by
    intro v hv
    rw [h2] at hv
    obtain ⟨w, hw', hu, hn⟩ := hv.resolve_left (by simp)
    obtain ⟨p, hp, rfl, rfl⟩ := upstreamVar_some hu
    have hbv : p.input ∈ blockVars W := by
      by_contra hc
      exact hn (((nbvs_spec W).2.2.2 _).2 ⟨hc, p, hp, .inl rfl⟩)
    obtain ⟨c, hc, hcv⟩ := mem_blockVars.1 hbv
    obtain ⟨j, hj⟩ := List.getElem?_of_mem hc
    exact ⟨c, j, p, hj, hcv.resolve_left (hw.source p hp c hc), hp, rfl, hw'⟩
  obtain ⟨bs, h3, h4⟩ := blocksOf_spec u.wired (fun v hv => by
    obtain ⟨c, j, p, hj, hv, -⟩ := key v hv
    exact ⟨j, blockFromVariable_port hw.distinct hj (by simp [hv])⟩)
  refine ⟨so.list bs, ?_, so.nodup _, fun j => ?_⟩
  · unfold upstreamBlocks blockUpstream
    rw [hb]
    simp only [h1, h3, bind, Except.bind]
  · rw [so.mem, h4]
    constructor
    · rintro ⟨v, hv, hj⟩
      obtain ⟨c, j', p, hc, hvc, hp, rfl, ho⟩ := key v hv
      rw [blockFromVariable_port hw.distinct hc (by simp [hvc])] at hj
      cases hj
      exact ⟨b, c, p, hb, hc, hp, ho, hvc⟩
    · rintro ⟨b', c, p, hb', hc, hp, ho, hpc⟩
      rw [hb] at hb'
      cases hb'
      refine ⟨p.input, (h2 _).2 (.inr ⟨p.output, ho, upstreamVar_piped hw.single ⟨p, hp, rfl, rfl⟩, ?_⟩),
        blockFromVariable_port hw.distinct hc (by simp [hpc])⟩
      intro hn
      exact ((nbvs_spec W).2.2.1 _ hn) (mem_blockVars.2 ⟨c, List.mem_of_getElem? hc, .inr hpc⟩)

theorem Feeds.lt {W : Workflow α} {j i : Nat} (h : Feeds W j i) : j < W.blocks.length ∧ i < W.blocks.length := by
  obtain ⟨b, c, p, hb, hc, -⟩ := h
  exact ⟨(List.getElem?_eq_some_iff.1 hc).1, (List.getElem?_eq_some_iff.1 hb).1⟩

theorem levelUp_spec {W : Workflow α} (hw : WellFormed W) (hl : LocksOk W) (so : SetOrder) (l : List Nat)
    (h : ∀ i ∈ l, i < W.blocks.length) : ∃ us, levelUp W so l = .ok us ∧ ∀ j, j ∈ us ↔ ∃ i ∈ l, Feeds W j i := by
  induction l with
  | nil => exact ⟨[], rfl, by simp⟩
  | cons i l ih =>
    obtain ⟨us, h1, -, h2⟩ := upstreamBlocks_spec hw hl so (h i (.head _))
    obtain ⟨vs, h3, h4⟩ := ih (fun w hw => h w (.tail _ hw))
    refine ⟨us ++ vs, by rw [levelUp, h1, h3]; rfl, fun j => ?_⟩
    rw [List.mem_append, h2, h4]
    simp

theorem addNew_mem (l acc : List Nat) (x : Nat) : x ∈ addNew acc l ↔ x ∈ acc ∨ x ∈ l := by
  unfold addNew
  induction l generalizing acc with
  | nil => simp
  | cons c l ih =>
    rw [List.foldl_cons, ih]
    split
    · rename_i h
      constructor
      · rintro (h' | h')
        · exact .inl h'
        · exact .inr (.tail _ h')
      · rintro (h' | h')
        · exact .inl h'
        · rcases List.mem_cons.1 h' with rfl | h'
          · exact .inl h
          · exact .inr h'
    · simp [or_assoc]

theorem addNew_nodup (l acc : List Nat) (h : acc.Nodup) : (addNew acc l).Nodup := by
  unfold addNew
  induction l generalizing acc with
  | nil => exact h
  | cons c l ih =>
    rw [List.foldl_cons]
    apply ih
    split
    · exact h
    · rename_i hc
      rw [List.nodup_append]
      refine ⟨h, by simp, fun a ha b hb hab => ?_⟩
      simp only [List.mem_singleton] at hb
      subst hab hb
      exact hc ha

theorem runtimeLoop_spec {W : Workflow α} (hw : WellFormed W) (hl : LocksOk W) (so : SetOrder) (n : Nat)
    (level acc : List Nat) (h1 : ∀ i ∈ level, i ∈ acc) (h2 : ∀ i ∈ acc, i < W.blocks.length)
    (h3 : ∀ i ∈ acc, i ∈ level ∨ ∀ j, Feeds W j i → j ∈ acc) : ∃ r, runtimeLoop W so n level acc = .ok r ∧
      (∀ i ∈ acc, i ∈ r) ∧ (∀ i ∈ r, i < W.blocks.length) ∧ (∀ P : Nat → Prop, (∀ i ∈ acc, P i) →
        (∀ i j, P i → Feeds W j i → P j) → ∀ i ∈ r, P i) ∧ (acc.Nodup → r.Nodup) ∧
      ((∀ i ∈ r, ∀ j, Feeds W j i → j ∈ r) ∨ acc.toFinset.card + n ≤ r.toFinset.card) := by
  induction n generalizing level acc with
  | zero => exact ⟨acc, rfl, fun _ h => h, h2, fun P hP _ => hP, id, .inr (by omega)⟩
  | succ n ih =>
    rw [runtimeLoop]
    split
    · rename_i he
      rw [List.isEmpty_iff] at he
      subst he
      exact ⟨acc, rfl, fun _ h => h, h2, fun P hP _ => hP, id, .inl (fun i hi => (h3 i hi).resolve_left (by simp))⟩
    · obtain ⟨us, e1, e2⟩ := levelUp_spec hw hl so level (fun i hi => h2 i (h1 i hi))
      rw [e1]
      simp only [bind, Except.bind]
      obtain ⟨r, r1, r2, r3, r4, r5, r6⟩ := ih us (addNew acc us) (fun i hi => (addNew_mem _ _ _).2 (.inr hi))
        (fun i hi => by
          rcases (addNew_mem _ _ _).1 hi with hi | hi
          · exact h2 i hi
          · obtain ⟨k, -, hk⟩ := (e2 i).1 hi
            exact hk.lt.1)
        (fun i hi => by
          rcases (addNew_mem _ _ _).1 hi with hi | hi
          · right
            intro j hj
            rw [addNew_mem]
            rcases h3 i hi with h | h
            · exact .inr ((e2 j).2 ⟨i, h, hj⟩)
            · exact .inl (h j hj)
          · exact .inl hi)
      refine ⟨r, r1, fun i hi => r2 i ((addNew_mem _ _ _).2 (.inl hi)), r3, fun P hP hF => ?_,
        fun hn => r5 (addNew_nodup _ _ hn), ?_⟩
      · refine r4 P (fun i hi => ?_) hF
        rcases (addNew_mem _ _ _).1 hi with hi | hi
        · exact hP i hi
        · obtain ⟨k, hk, hf⟩ := (e2 i).1 hi
          exact hF k i (hP k (h1 k hk)) hf
      · by_cases hsub : ∀ i ∈ us, i ∈ acc
        · left
          have hc : ∀ i j, i ∈ acc → Feeds W j i → j ∈ acc := by
            intro i j hi hj
            rcases h3 i hi with h | h
            · exact hsub j ((e2 j).2 ⟨i, h, hj⟩)
            · exact h j hj
          have hall : ∀ i ∈ r, i ∈ acc := r4 (· ∈ acc) (fun i hi => by
            rcases (addNew_mem _ _ _).1 hi with hi | hi
            · exact hi
            · exact hsub i hi) hc
          intro i hi j hj
          exact r2 j ((addNew_mem _ _ _).2 (.inl (hc i j (hall i hi) hj)))
        · refine r6.imp id (fun r6 => ?_)
          push Not at hsub
          obtain ⟨x, hx, hxa⟩ := hsub
          have : acc.toFinset.card < (addNew acc us).toFinset.card := by
            apply Finset.card_lt_card
            rw [Finset.ssubset_iff_of_subset]
            · exact ⟨x, by simp [addNew_mem, hx], by simp [hxa]⟩
            · intro y hy
              simp only [List.mem_toFinset] at hy ⊢
              exact (addNew_mem _ _ _).2 (.inl hy)
          omega

/-- The runtime blocks are those which lead to the output. -/
theorem runtimeBlocks_spec {W : Workflow α} (hw : WellFormed W) (hl : LocksOk W) (so : SetOrder) {o : Nat}
    (ho : OutputOf W o) : ∃ rt, runtimeBlocks W so = .ok rt ∧ rt.Nodup ∧ ∀ i, i ∈ rt ↔ Leads W i := by
  obtain ⟨b, v, hb, hv, hvb⟩ := ho
  have hlt := (List.getElem?_eq_some_iff.1 hb).1
  have e1 : blockFromVariable W W.output = .ok o := by
    rw [hv]; exact blockFromVariable_port hw.distinct hb (by simp [hvb])
  obtain ⟨ups, e2, un, e3⟩ := upstreamBlocks_spec hw hl so hlt
  have hout : ∀ i, OutputOf W i → i = o := by
    rintro i ⟨c, w, hc, hw', hwc⟩
    rw [hv] at hw'
    cases hw'
    exact out_unique hw.distinct hc hb hwc hvb
  have hself : o ∉ ups := by
    intro hm
    obtain ⟨b', c, p, hb', hc, hp, h1, h2⟩ := (e3 o).1 hm
    rw [hb'] at hc
    cases hc
    obtain ⟨rank, hr, hr2⟩ := hw.acyclic
    have := hr p hp
    have := hr2 b' (List.mem_of_getElem? hb') _ h1 _ h2
    omega
  obtain ⟨r, r1, r2, r3, r4, r5, r6⟩ := runtimeLoop_spec hw hl so (W.blocks.length + 1) ups ([o] ++ ups)
    (fun i hi => by simp [hi])
    (fun i hi => by
      rcases List.mem_append.1 hi with hi | hi
      · simp only [List.mem_singleton] at hi; rw [hi]; exact hlt
      · exact ((e3 i).1 hi).lt.1)
    (fun i hi => by
      rcases List.mem_append.1 hi with hi | hi
      · simp only [List.mem_singleton] at hi
        subst hi
        exact .inr (fun j hj => by simp [(e3 j).2 hj])
      · exact .inl hi)
  have hclosed : ∀ i ∈ r, ∀ j, Feeds W j i → j ∈ r := by
    refine r6.resolve_right (fun h => ?_)
    have : r.toFinset.card ≤ (Finset.range W.blocks.length).card := by
      apply Finset.card_le_card
      intro i hi
      simp only [List.mem_toFinset, Finset.mem_range] at hi ⊢
      exact r3 i hi
    rw [Finset.card_range] at this
    omega
  refine ⟨r, ?_, ?_, fun i => ⟨fun hi => ?_, fun hi => ?_⟩⟩
  · unfold runtimeBlocks
    rw [e1]
    simp only [bind, Except.bind, e2]
    exact r1
  · exact r5 (by simp [un, hself])
  · refine r4 (Leads W) (fun i hi => ?_) (fun i j h hf => .feeds h hf) i hi
    have ho : Leads W o := .output ⟨b, v, hb, hv, hvb⟩
    rcases List.mem_append.1 hi with hi | hi
    · simp only [List.mem_singleton] at hi; rw [hi]; exact ho
    · exact .feeds ho ((e3 i).1 hi)
  · induction hi with
    | output h => rw [hout _ h]; exact r2 o (by simp)
    | feeds _ hf ih => exact hclosed _ ih _ hf

end DC.Wkf
