import Verif.Workflow.StepDisplay
import Verif.Workflow.StepsProps
import Verif.Workflow.DisplayEnd
/- Properties C150 and C151: displays offered and computed at the steps of a workflow. -/
namespace DC.Wkf

variable {α δ β : Type} {W : Workflow α}

/-! ### Specification -/

/-- The variable is an output of a block. -/
def IsOutput (W : Workflow α) (o : Nat) : Prop := ∃ b ∈ W.blocks, o ∈ b.outputs

/-- The input `w` of the workflow, which the user may set, is needed to compute `o`: its value flows to the block of `o` or
to a block on which this one depends. -/
def NeedsInput (W : Workflow α) (w o : Nat) : Prop :=
  w ∈ inputs W ∧ W.lockFlag w = false ∧ ∃ i b j c u, W.blocks[i]? = some b ∧ o ∈ b.outputs ∧
    Relation.ReflTransGen (Feeds W) j i ∧ W.blocks[j]? = some c ∧ u ∈ c.inputs ∧ Flow W w u

/-- The variable of index `k` is an output which has displays. -/
def Displayable (W : Workflow α) (avail : Nat → List δ) (k o : Nat) : Prop :=
  IsOutput W o ∧ avail o ≠ [] ∧ (allVariables W)[k]? = some o

/-! ### Lemmas -/

theorem mem_displayable {avail : Nat → List δ} {o : Nat} :
    o ∈ displayableOutputs W avail ↔ IsOutput W o ∧ avail o ≠ [] := by
  unfold displayableOutputs IsOutput
  simp [List.mem_filter, List.mem_flatMap]

theorem upstream_needs (hw : WellFormed W) (hl : LocksOk W) (so : SetOrder) {o : Nat} (ho : IsOutput W o) :
    ∃ r, upstreamInputs W so o = .ok r ∧ ∀ w, w ∈ r ↔ NeedsInput W w o := by
  obtain ⟨b, hb, hob⟩ := ho
  obtain ⟨i, hi⟩ := List.getElem?_of_mem hb
  obtain ⟨r, h1, -, h2⟩ := C110_inputs hw hl so hi (.inr hob)
  refine ⟨r, h1, fun w => (h2 w).trans ⟨?_, ?_⟩⟩
  · rintro ⟨h3, h4, j, c, u, h5⟩
    exact ⟨h3, h4, i, b, j, c, u, hi, hob, h5⟩
  · rintro ⟨h3, h4, i', b', j, c, u, h5, h6, h7⟩
    have := out_unique hw.distinct h5 hi h6 hob
    subst this
    exact ⟨h3, h4, j, c, u, h7⟩

theorem indexIn_ok {l : List Nat} {v : Nat} (h : v ∈ l) : indexIn l v = .ok (l.idxOf v) := by
  unfold indexIn
  rw [if_pos h]

theorem mapM_indexIn {l vs : List Nat} (h : ∀ v ∈ vs, v ∈ l) : vs.mapM (indexIn l) = .ok (vs.map l.idxOf) := by
  induction vs with
  | nil => rfl
  | cons v vs ih =>
    rw [List.mapM_cons, indexIn_ok (h v (.head _)), ih (fun w hw => h w (.tail _ hw))]
    rfl

theorem outputInputs_spec (hw : WellFormed W) (hl : LocksOk W) (so : SetOrder) {os : List Nat}
    (ho : ∀ o ∈ os, IsOutput W o) : ∃ ds, outputInputs W so os = .ok ds ∧ ds.map (·.1) = os ∧
      ∀ e ∈ ds, ∃ r : List Nat, e.2 = r.map (inputs W).idxOf ∧ ∀ w, w ∈ r ↔ NeedsInput W w e.1 := by
  induction os with
  | nil => exact ⟨[], rfl, rfl, by simp⟩
  | cons o os ih =>
    obtain ⟨ds, h1, h2, h3⟩ := ih (fun o' h => ho o' (.tail _ h))
    obtain ⟨r, h4, h5⟩ := upstream_needs hw hl so (ho o (.head _))
    refine ⟨(o, r.map (inputs W).idxOf) :: ds, ?_, by simp [h2], fun e he => ?_⟩
    · rw [outputInputs, h4]
      simp only [bind, Except.bind, mapM_indexIn (fun v hv => ((h5 v).1 hv).1), h1]
    · rcases List.mem_cons.1 he with rfl | he
      · exact ⟨r, rfl, h5⟩
      · exact h3 e he

/-- The outputs offered when the inputs of indices `missing` are not known. -/
def offerList (W : Workflow α) (ds : List (Nat × List Nat)) (missing : List Nat) : List (Nat × Nat) :=
  (ds.filter (fun e => e.2.all (fun k => !missing.contains k))).map (fun e => ((allVariables W).idxOf e.1, e.1))

theorem offeredAt_spec {ds : List (Nat × List Nat)} (h : ∀ e ∈ ds, e.1 ∈ allVariables W) (missing : List Nat) :
    offeredAt W missing ds = .ok (offerList W ds missing) := by
  induction ds with
  | nil => rfl
  | cons e ds ih =>
    obtain ⟨o, ks⟩ := e
    have ih := ih (fun e he => h e (.tail _ he))
    rw [offeredAt]
    by_cases hc : ks.all (fun k => !missing.contains k) = true
    · rw [if_pos hc, indexIn_ok (h _ (.head _)), ih]
      simp only [bind, Except.bind, offerList]
      rw [List.filter_cons_of_pos (by exact hc)]
      rfl
    · rw [if_neg hc, ih]
      unfold offerList
      rw [List.filter_cons_of_neg (by exact hc)]

theorem offersLoop_spec {ds : List (Nat × List Nat)} (h : ∀ e ∈ ds, e.1 ∈ allVariables W) {steps : List (List Nat)}
    (hs : ∀ s ∈ steps, ∀ v ∈ s, v ∈ inputs W) (missing : List Nat) :
    ∃ l, offersLoop W ds steps missing = .ok l ∧ l.length = steps.length ∧ ∀ n, n < steps.length →
      l[n]? = some (offerList W ds (missing ++ (steps.take n).flatMap (fun s => s.map (inputs W).idxOf))) := by
  induction steps generalizing missing with
  | nil => exact ⟨[], rfl, rfl, by simp⟩
  | cons s steps ih =>
    obtain ⟨l, h1, h2, h3⟩ := ih (fun s' h' => hs s' (.tail _ h')) (missing ++ s.map (inputs W).idxOf)
    refine ⟨offerList W ds missing :: l, ?_, by simp [h2], fun n hn => ?_⟩
    · rw [offersLoop, offeredAt_spec h]
      simp only [bind, Except.bind, mapM_indexIn (hs s (.head _)), h1]
    · cases n with
      | zero => simp
      | succ n =>
        rw [List.getElem?_cons_succ, h3 n (by simpa using hn)]
        simp [List.flatMap_cons]

theorem setEntry_nodup {β : Type} {l : List (Nat × β)} (h : (l.map (·.1)).Nodup) (k : Nat) (x : β) :
    ((setEntry l k x).map (·.1)).Nodup := by
  rw [setEntry_keys]
  split
  · exact h
  · rename_i hn
    rw [List.nodup_append]
    refine ⟨h, by simp, fun a ha c hc hac => ?_⟩
    simp only [List.mem_singleton] at hc
    subst hac hc
    exact hn ha

/-- Filling a dictionary with values which depend on the key. -/
theorem fold_entries {f : Nat → β} (l : List Nat) (d : List (Nat × β)) (hd : ∀ e ∈ d, e.2 = f e.1) (k : Nat) (t : β) :
    (k, t) ∈ l.foldl (fun d n => setEntry d n (f n)) d ↔ t = f k ∧ (k ∈ d.map (·.1) ∨ k ∈ l) := by
  induction l generalizing d with
  | nil =>
    simp only [List.foldl_nil, List.not_mem_nil, or_false]
    constructor
    · intro h
      exact ⟨hd _ h, List.mem_map.2 ⟨_, h, rfl⟩⟩
    · rintro ⟨rfl, h⟩
      obtain ⟨⟨k', t'⟩, he, rfl⟩ := List.mem_map.1 h
      have := hd _ he
      simp only at this
      rw [this] at he
      exact he
  | cons n l ih =>
    rw [List.foldl_cons, ih]
    · rw [setEntry_keys]
      constructor
      · rintro ⟨h, h' | h'⟩
        · split at h'
          · exact ⟨h, .inl h'⟩
          · rcases List.mem_append.1 h' with h' | h'
            · exact ⟨h, .inl h'⟩
            · exact ⟨h, .inr (by simpa using .inl (by simpa using h'))⟩
        · exact ⟨h, .inr (.tail _ h')⟩
      · rintro ⟨h, h' | h'⟩
        · refine ⟨h, .inl ?_⟩
          split
          · exact h'
          · exact List.mem_append_left _ h'
        · rcases List.mem_cons.1 h' with rfl | h'
          · refine ⟨h, .inl ?_⟩
            split
            · assumption
            · simp
          · exact ⟨h, .inr h'⟩
    · intro e he
      rcases setEntry_mem _ _ _ _ he with rfl | he
      · rfl
      · exact hd e he

theorem idxOf_get {l : List Nat} (hn : l.Nodup) {v k : Nat} (h : v ∈ l) : l.idxOf v = k ↔ l[k]? = some v := by
  constructor
  · rintro rfl
    rw [List.getElem?_eq_getElem (List.idxOf_lt_length_of_mem h), List.getElem_idxOf]
  · exact fun hk => idxOf_of_nodup hn hk

theorem mem_offerList (hw : WellFormed W) {ds : List (Nat × List Nat)} (hd : ∀ e ∈ ds, e.1 ∈ allVariables W)
    {missing : List Nat} {k o : Nat} : (k, o) ∈ offerList W ds missing ↔ (allVariables W)[k]? = some o ∧
      ∃ ks, (o, ks) ∈ ds ∧ ∀ m ∈ ks, m ∉ missing := by
  unfold offerList
  simp only [List.mem_map, List.mem_filter, List.all_eq_true, Bool.not_eq_true', List.contains_eq_mem, decide_eq_false_iff_not,
    Prod.mk.injEq]
  constructor
  · rintro ⟨⟨o', ks⟩, ⟨h1, h2⟩, h3, rfl⟩
    exact ⟨(idxOf_get (allVariables_nodup hw.distinct) (hd _ h1)).1 h3, ks, h1, h2⟩
  · rintro ⟨h1, ks, h2, h3⟩
    exact ⟨(o, ks), ⟨h2, h3⟩, (idxOf_get (allVariables_nodup hw.distinct) (hd _ h2)).2 h1, rfl⟩

/-! ### Displays offered -/

/-- **C150** At each step, the displays offered are those of the outputs of blocks which do not need an input of a later step:
all of them, by index of variable, each once.  The labels are those of the outputs which have displays, as soon as there is a
step. -/
theorem C150_settings (hw : WellFormed W) (hl : LocksOk W) (so : SetOrder) (avail : Nat → List δ) (label : Nat → String)
    {e : Ed δ} (hs : Sound e) (he : e.inputs = inputs W) :
    ∃ r, displayableSettings W so avail label e = .ok r ∧ r.settings.length = e.steps.length ∧
      (∀ (n : Nat) (offers : List (Nat × List δ)), r.settings[n]? = some offers → (offers.map (·.1)).Nodup ∧
        ∀ k ds, (k, ds) ∈ offers ↔ ∃ o, Displayable W avail k o ∧ ds = avail o ∧
          ∀ m a w, n < m → e.steps[m]? = some a → w ∈ (e.obj a).inputs → ¬ NeedsInput W w o) ∧
      ∀ k t, (k, t) ∈ r.labels ↔ e.steps ≠ [] ∧ ∃ o, Displayable W avail k o ∧ t = label o := by
  have hout : ∀ o ∈ displayableOutputs W avail, IsOutput W o := fun o ho => (mem_displayable.1 ho).1
  obtain ⟨ds, d1, d2, d3⟩ := outputInputs_spec hw hl so hout
  have hvar : ∀ x ∈ ds, x.1 ∈ allVariables W := by
    intro x hx
    have : x.1 ∈ displayableOutputs W avail := by rw [← d2]; exact List.mem_map.2 ⟨x, hx, rfl⟩
    obtain ⟨b, hb, hob⟩ := hout _ this
    exact mem_allVariables.2 (.inl (mem_blockVars.2 ⟨b, hb, .inr hob⟩))
  have hin : ∀ a ∈ e.steps, ∀ v ∈ (e.obj a).inputs, v ∈ inputs W := by
    intro a ha v hv
    rw [← he]
    refine hs.perm.subset ?_
    exact List.mem_append_left _ (List.mem_flatMap.2 ⟨a, ha, hv⟩)
  obtain ⟨l, l1, l2, l3⟩ := offersLoop_spec hvar (steps := e.steps.reverse.map fun a => (e.obj a).inputs) (by
    intro s hs' v hv
    obtain ⟨a, ha, rfl⟩ := List.mem_map.1 hs'
    exact hin a (List.mem_reverse.1 ha) v hv) []
  simp only [List.length_map, List.length_reverse] at l2 l3
  have hnd : (ds.map (·.1)).Nodup := by
    rw [d2]
    refine List.Nodup.filter _ ?_
    have := hw.distinct
    unfold blockVars at this
    refine List.Nodup.sublist ?_ this
    generalize W.blocks = bs
    induction bs with
    | nil => simp
    | cons b bs ih =>
      simp only [List.flatMap_cons]
      exact List.Sublist.append (List.sublist_append_right _ _) ih
  have hnodup : ∀ missing, ((offerList W ds missing).map (·.1)).Nodup := by
    intro missing
    unfold offerList
    rw [List.map_map]
    have h1 : ((ds.filter (fun e => e.2.all (fun k => !missing.contains k))).map (·.1)).Nodup :=
      hnd.sublist (List.filter_sublist.map _)
    have h2 : (((ds.filter (fun e => e.2.all (fun k => !missing.contains k))).map (·.1)).map (allVariables W).idxOf).Nodup := by
      refine List.Nodup.map_on ?_ h1
      intro x hx y hy hxy
      obtain ⟨x', hx', rfl⟩ := List.mem_map.1 hx
      obtain ⟨y', hy', rfl⟩ := List.mem_map.1 hy
      exact (List.idxOf_inj (hvar _ (List.mem_of_mem_filter hx'))).1 hxy
    rw [List.map_map] at h2
    exact h2
  have hdisp : ∀ {k o ks}, (o, ks) ∈ ds → ((allVariables W)[k]? = some o ↔ Displayable W avail k o) := by
    intro k o ks hm
    have : o ∈ displayableOutputs W avail := by rw [← d2]; exact List.mem_map.2 ⟨_, hm, rfl⟩
    have := mem_displayable.1 this
    exact ⟨fun h => ⟨this.1, this.2, h⟩, fun h => h.2.2⟩
  have hds : ∀ {k o}, Displayable W avail k o → ∃ ks, (o, ks) ∈ ds := by
    intro k o h
    have : o ∈ ds.map (·.1) := by rw [d2]; exact mem_displayable.2 ⟨h.1, h.2.1⟩
    obtain ⟨⟨o', ks⟩, h1, rfl⟩ := List.mem_map.1 this
    exact ⟨ks, h1⟩
  refine ⟨_, by unfold displayableSettings; simp only [d1, l1, bind, Except.bind]; rfl, by simp [l2], fun n offers hn => ?_, fun k t => ?_⟩
  · have hlt : n < e.steps.length := by
      have := (List.getElem?_eq_some_iff.1 hn).1
      simpa [l2] using this
    rw [List.getElem?_reverse (by simpa [l2] using hlt), List.getElem?_map] at hn
    simp only [List.length_map, l2] at hn
    rw [l3 _ (by omega)] at hn
    simp only [Option.map_some, Option.some.injEq, List.nil_append] at hn
    subst hn
    have hmiss : ∀ x, x ∈ ((e.steps.reverse.map fun a => (e.obj a).inputs).take (e.steps.length - 1 - n)).flatMap
        (fun s => s.map (inputs W).idxOf) ↔ ∃ m a w, n < m ∧ e.steps[m]? = some a ∧ w ∈ (e.obj a).inputs ∧
          (inputs W).idxOf w = x := by
      intro x
      rw [← List.map_take, List.take_reverse, show e.steps.length - (e.steps.length - 1 - n) = n + 1 by omega]
      simp only [List.mem_flatMap, List.mem_map, List.mem_reverse]
      constructor
      · rintro ⟨s, ⟨a, ha, rfl⟩, w, hw', rfl⟩
        obtain ⟨m, hm⟩ := List.getElem?_of_mem ha
        rw [List.getElem?_drop] at hm
        exact ⟨n + 1 + m, a, w, by omega, hm, hw', rfl⟩
      · rintro ⟨m, a, w, h1, h2, h3, rfl⟩
        refine ⟨_, ⟨a, ?_, rfl⟩, w, h3, rfl⟩
        refine List.mem_of_getElem? (i := m - (n + 1)) ?_
        rw [List.getElem?_drop, show n + 1 + (m - (n + 1)) = m by omega]
        exact h2
    refine ⟨by rw [List.map_map]; exact hnodup _, fun k s => ?_⟩
    simp only [List.mem_map, Prod.mk.injEq]
    constructor
    · rintro ⟨⟨k', o⟩, h1, rfl, rfl⟩
      obtain ⟨h2, ks, h3, h4⟩ := (mem_offerList hw hvar).1 h1
      refine ⟨o, (hdisp h3).1 h2, rfl, fun m a w hm ha hwa hneed => ?_⟩
      obtain ⟨r, h5, h6⟩ := d3 _ h3
      exact h4 ((inputs W).idxOf w) (by simp only at h5; rw [h5]; exact List.mem_map.2 ⟨w, (h6 w).2 hneed, rfl⟩)
        ((hmiss _).2 ⟨m, a, w, hm, ha, hwa, rfl⟩)
    · rintro ⟨o, h1, rfl, h2⟩
      obtain ⟨ks, h3⟩ := hds h1
      refine ⟨(k, o), (mem_offerList hw hvar).2 ⟨h1.2.2, ks, h3, fun x hx hxm => ?_⟩, rfl, rfl⟩
      obtain ⟨r, h5, h6⟩ := d3 _ h3
      simp only at h5
      rw [h5] at hx
      obtain ⟨w, hwr, rfl⟩ := List.mem_map.1 hx
      obtain ⟨m, a, w', hm, ha, hwa, hidx⟩ := (hmiss _).1 hxm
      have := (List.idxOf_inj (hin a (List.mem_of_getElem? ha) w' hwa)).1 hidx
      subst this
      exact h2 m a w' hm ha hwa ((h6 w').1 hwr)
  · have hconv : ∀ (l' : List (Nat × Nat)) (d : List (Nat × String)), (∀ x ∈ l', (allVariables W)[x.1]? = some x.2) →
        l'.foldl (fun d no => setEntry d no.1 (label no.2)) d =
          (l'.map (·.1)).foldl (fun d n => setEntry d n (label ((allVariables W)[n]?.getD 0))) d := by
      intro l'
      induction l' with
      | nil => intros; rfl
      | cons x l' ih =>
        intro d hx
        simp only [List.map_cons, List.foldl_cons, hx x (.head _), Option.getD_some]
        exact ih _ (fun y hy => hx y (.tail _ hy))
    have hmem : ∀ x, x ∈ l.flatten → ∃ n, n < e.steps.length ∧ x ∈ offerList W ds
        ([] ++ ((e.steps.reverse.map fun a => (e.obj a).inputs).take n).flatMap (fun s => s.map (inputs W).idxOf)) := by
      intro x hx
      obtain ⟨s, h1, h2⟩ := List.mem_flatten.1 hx
      obtain ⟨n, hn⟩ := List.getElem?_of_mem h1
      have hlt : n < e.steps.length := by rw [← l2]; exact (List.getElem?_eq_some_iff.1 hn).1
      rw [l3 n hlt] at hn
      simp only [Option.some.injEq] at hn
      exact ⟨n, hlt, by rw [hn]; exact h2⟩
    show (k, t) ∈ List.foldl (fun d no => setEntry d no.1 (label no.2)) [] l.flatten ↔ _
    rw [hconv _ _ (fun x hx => by
      obtain ⟨n, -, h⟩ := hmem x hx
      exact ((mem_offerList hw hvar (k := x.1) (o := x.2)).1 h).1), fold_entries _ _ (by simp)]
    simp only [List.map_nil, List.not_mem_nil, false_or]
    constructor
    · rintro ⟨rfl, h⟩
      obtain ⟨⟨k', o⟩, hx, rfl⟩ := List.mem_map.1 h
      obtain ⟨n, hn, h⟩ := hmem _ hx
      obtain ⟨h2, ks, h3, -⟩ := (mem_offerList hw hvar).1 h
      refine ⟨fun hc => by simp [hc] at hn, o, (hdisp h3).1 h2, ?_⟩
      simp [h2]
    · rintro ⟨hne, o, h1, rfl⟩
      refine ⟨by simp [h1.2.2], ?_⟩
      have hpos : 0 < e.steps.length := List.length_pos_iff.2 hne
      obtain ⟨ks, h3⟩ := hds h1
      refine List.mem_map.2 ⟨(k, o), List.mem_flatten.2 ⟨_, List.mem_of_getElem? (l3 0 hpos), ?_⟩, rfl⟩
      exact (mem_offerList hw hvar).2 ⟨h1.2.2, ks, h3, by simp⟩

/-- **C150** Whenever a display is offered at a step, and no spare input is needed for it, the inputs of this step and of
the steps before it determine the output to display, with the locked inputs.
Missing: the displays of outputs which need an input placed in no step (`C150_spare_violated`). -/
theorem C150_partial (hw : WellFormed W) (hl : LocksOk W) (so : SetOrder) (avail : Nat → List δ) (label : Nat → String)
    {e : Ed δ} (hs : Sound e) (he : e.inputs = inputs W) {r : StepOffer δ} (hr : displayableSettings W so avail label e = .ok r)
    {n k o : Nat} {offers : List (Nat × List δ)} {ds : List δ} (hn : r.settings[n]? = some offers) (hk : (k, ds) ∈ offers)
    (ho : (allVariables W)[k]? = some o) (hsp : ∀ w ∈ e.spare, ¬ NeedsInput W w o) {V V' : Nat → Option α}
    (hV : ∀ k w, (inputs W)[k]? = some w → (∃ m a, m ≤ n ∧ e.steps[m]? = some a ∧ w ∈ (e.obj a).inputs) ∨ W.lockFlag w = true →
      V' k = V k) {x : α} (hd : Den W V o x) : Den W V' o x := by
  obtain ⟨r', h1, -, h2, -⟩ := C150_settings hw hl so avail label hs he
  rw [hr] at h1
  cases h1
  obtain ⟨o', ⟨hout, -, ho'⟩, -, hlater⟩ := ((h2 n offers hn).2 k ds).1 hk
  rw [ho] at ho'
  cases ho'
  obtain ⟨up, hup, hneed⟩ := upstream_needs hw hl so hout
  obtain ⟨b, hb, hob⟩ := hout
  obtain ⟨i, hi⟩ := List.getElem?_of_mem hb
  refine C110_enough hw hl so hi (.inr hob) hup (fun k w hk hw' => hV k w hk ?_) hd
  rcases hw' with hw' | hw'
  · left
    have hn' := (hneed w).1 hw'
    have : w ∈ e.placed := hs.perm.symm.subset (by rw [he]; exact hn'.1)
    rcases List.mem_append.1 this with h | h
    · obtain ⟨a, ha, hwa⟩ := List.mem_flatMap.1 h
      obtain ⟨m, hm⟩ := List.getElem?_of_mem ha
      refine ⟨m, a, ?_, hm, hwa⟩
      by_contra hlt
      exact hlater m a w (by omega) hm hwa hn'
    · exact absurd hn' (hsp w h)
  · exact .inr hw'

/-- Two steps on `exW`: the inputs of its block 1 are set at the second one at the latest, input 6 is spare. -/
def exSteps : Ed Unit := Ed.init (inputs exW) [{ label := "a", inputs := [0] }, { label := "b", inputs := [10] }]

theorem exSteps_sound : Sound exSteps := C33_init (by decide) (by decide) (by decide)

/-- Outputs 2 and 7 of `exW` have a display. -/
def exAvail (v : Nat) : List Unit := if v = 2 ∨ v = 7 then [()] else []

/-- Nothing is offered at the first step; at the second one, output 2 (variable 4 of the workflow) and output 7 (variable 7),
which needs the spare input 6. -/
theorem exSteps_offers : displayableSettings exW dedupOrder exAvail toString exSteps =
    .ok ⟨[[], [(4, [()]), (7, [()])]], [(4, "2"), (7, "7")]⟩ := by decide +kernel

example : ∃ r, displayableSettings exW dedupOrder exAvail toString exSteps = .ok r ∧
    ∃ offers, r.settings[1]? = some offers ∧ (4, [()]) ∈ offers ∧ (allVariables exW)[4]? = some 2 ∧
    ∀ w ∈ exSteps.spare, ¬ NeedsInput exW w 2 := by
  refine ⟨_, exSteps_offers, _, rfl, by decide, by decide, ?_⟩
  have hsp : exSteps.spare = [6] := by decide
  intro w hw hn
  rw [hsp, List.mem_singleton] at hw
  subst hw
  obtain ⟨r, h1, h2⟩ := upstream_needs exW_wf exW_locks dedupOrder (o := 2) ⟨⟨[0, 1], [2], addEval⟩, by simp [exW], by simp⟩
  have h3 : upstreamInputs exW dedupOrder 2 = .ok [0, 10] := rfl
  rw [h3] at h1
  cases h1
  have := (h2 6).2 hn
  simp at this

/-- **C150** A display is offered although it needs an input which the user was asked for at no step: the value to display
is not determined by what the steps gave. -/
theorem C150_spare_violated : ∃ (W : Workflow Int) (e : Ed Unit) (avail : Nat → List Unit) (r : StepOffer Unit)
    (offers : List (Nat × List Unit)) (k o : Nat) (V V' : Nat → Option Int) (x x' : Int), WellFormed W ∧ LocksOk W ∧ Sound e ∧
      e.inputs = inputs W ∧ displayableSettings W dedupOrder avail toString e = .ok r ∧ r.settings[1]? = some offers ∧
      (k, avail o) ∈ offers ∧ (allVariables W)[k]? = some o ∧
      (∀ k w, (inputs W)[k]? = some w → w ∈ e.stepped ∨ W.lockFlag w = true → V' k = V k) ∧
      Den W V o x ∧ Den W V' o x' ∧ x ≠ x' := by
  have den : ∀ y : Int, Den exW (fun k => if k = 1 then some y else some 1) 7 (2 + y) := by
    intro y
    refine .block (b := ⟨[5, 6], [7], addEval⟩) (xs := [2, y]) (ys := [2 + y]) (by simp [exW]) rfl ?_ rfl (by simp)
    intro vx hvx
    simp only [List.zip_cons_cons, List.zip_nil_right, List.mem_cons, List.not_mem_nil, or_false] at hvx
    rcases hvx with rfl | rfl
    · refine .pipe (p := ⟨2, 5, true⟩) (by simp [exW]) ?_
      refine .block (b := ⟨[0, 1], [2], addEval⟩) (xs := [1, 1]) (ys := [2]) (by simp [exW]) rfl ?_ rfl (by simp)
      intro vx hvx
      simp only [List.zip_cons_cons, List.zip_nil_right, List.mem_cons, List.not_mem_nil, or_false] at hvx
      rcases hvx with rfl | rfl
      · exact .input (k := 0) (by decide) rfl
      · refine .pipe (p := ⟨10, 1, false⟩) (by simp [exW]) ?_
        exact .input (k := 2) (by decide) rfl
    · exact .input (k := 1) (by rw [exW_inputs]; rfl) rfl
  refine ⟨exW, exSteps, exAvail, _, _, 7, 7, _, _, _, _, exW_wf, exW_locks, exSteps_sound, rfl, exSteps_offers, rfl, by decide,
    by decide, fun k w hk hw => ?_, den 0, den 1, by decide⟩
  have hk1 : k ≠ 1 := by
    rintro rfl
    rw [exW_inputs] at hk
    simp only [List.getElem?_cons_succ, List.getElem?_cons_zero, Option.some.injEq] at hk
    subst hk
    revert hw
    decide
  simp [hk1]

/-! ### Evaluation of the branch of an output -/

theorem upstreamBranch_spec (hw : WellFormed W) (hl : LocksOk W) (so : SetOrder) {i : Nat} (hi : i < W.blocks.length) :
    ∃ br, upstreamBranch W so i = .ok br ∧ ∀ j, j ∈ br ↔ Relation.ReflTransGen (Feeds W) j i := by
  have hcond : ∀ u, u < W.blocks.length → ∃ c, hasUpstream W so u = .ok c ∧ (c = true ↔ ∃ j, Feeds W j u) := by
    intro u hu
    obtain ⟨us, e1, -, e2⟩ := upstreamBlocks_spec hw hl so hu
    refine ⟨!us.isEmpty, by unfold hasUpstream; rw [e1]; rfl, ?_⟩
    cases us with
    | nil =>
      simp only [List.not_mem_nil, false_iff] at e2
      simp [e2]
    | cons x us =>
      simp only [List.isEmpty_cons, Bool.not_false, true_iff]
      exact ⟨x, (e2 x).1 (.head _)⟩
  obtain ⟨br, r1, r2, r3, -, r5, r6⟩ := gatherBlocks_spec (last := true) hw hl so hi hcond
  refine ⟨br, r1, fun j => ⟨?_, fun h => ?_⟩⟩
  · exact r5 (fun j => Relation.ReflTransGen (Feeds W) j i) .refl (fun j c hj _ hf _ => .head hf hj) j
  · induction h using Relation.ReflTransGen.head_induction_on with
    | refl => exact r2
    | head hf _ ih => exact r6 _ ih (.inr ⟨_, hf⟩) _ hf (.inr rfl)

variable {V : Nat → Option α}

/-- What an output of a block must hold comes from its block. -/
theorem den_output (hw : WellFormed W) {i o : Nat} {b : Block α} {x : α} (hb : W.blocks[i]? = some b) (ho : o ∈ b.outputs)
    (hd : Den W V o x) : ∃ ys, Gives W V i ys ∧ (o, x) ∈ b.outputs.zip ys := by
  have hbm := List.mem_of_getElem? hb
  cases hd with
  | input hk _ => exact absurd ho ((mem_inputs.1 (List.mem_of_getElem? hk)).2.1 b hbm)
  | pipe hp _ =>
    obtain ⟨c, hc, hin⟩ := hw.target _ hp
    exact (in_ne_out hw.distinct hc hbm hin ho).elim
  | @block c xs ys _ _ hc hx hz he hoy =>
    obtain ⟨j, hj⟩ := List.getElem?_of_mem hc
    have := out_unique hw.distinct hj hb (List.of_mem_zip hoy).1 ho
    subst this
    rw [hb] at hj
    cases hj
    exact ⟨ys, ⟨b, xs, hb, hx, hz, he⟩, hoy⟩

/-- What an input of a block, fed by a pipe, must hold comes through this pipe. -/
theorem den_piped (hw : WellFormed W) {p : Pipe} {x : α} (hp : p ∈ W.pipes) (hd : Den W V p.output x) : Den W V p.input x := by
  obtain ⟨b, hb, hin⟩ := hw.target p hp
  generalize hv : p.output = v at hd
  cases hd with
  | input hk _ => exact absurd hv (hw.input_free (List.mem_of_getElem? hk) p hp)
  | @pipe q _ hq h =>
    obtain ⟨m, hm⟩ := List.getElem?_of_mem hp
    obtain ⟨n, hn⟩ := List.getElem?_of_mem hq
    have e1 := inputPipe_unique hw.single hm
    have e2 := inputPipe_unique hw.single hn
    rw [hv, e2] at e1
    cases e1
    rw [hm] at hn
    cases hn
    exact h
  | block hc _ _ _ ho =>
    rw [hv] at hin
    exact (in_ne_out hw.distinct hb hc hin (List.of_mem_zip ho).1).elim

theorem mem_zip_left {l : List Nat} {xs : List α} (h : xs.length = l.length) {v : Nat} (hv : v ∈ l) : ∃ x, (v, x) ∈ l.zip xs := by
  obtain ⟨n, hn⟩ := List.getElem?_of_mem hv
  have hlt := (List.getElem?_eq_some_iff.1 hn).1
  exact ⟨xs[n]'(by omega), List.mem_of_getElem? (i := n) (List.getElem?_zip_eq_some.2 ⟨hn, by simp⟩)⟩

/-- When an output of a block has a value, all the blocks on which it depends give values. -/
theorem gives_upstream (hw : WellFormed W) {i o : Nat} {b : Block α} {x : α} (hb : W.blocks[i]? = some b) (ho : o ∈ b.outputs)
    (hd : Den W V o x) {j : Nat} (hj : Relation.ReflTransGen (Feeds W) j i) : ∃ ys, Gives W V j ys := by
  induction hj using Relation.ReflTransGen.head_induction_on with
  | refl =>
    obtain ⟨ys, h, -⟩ := den_output hw hb ho hd
    exact ⟨ys, h⟩
  | head hf _ ih =>
    obtain ⟨bk, cj, p, hbk, hcj, hp, h1, h2⟩ := hf
    obtain ⟨ys, bk', xs, hk, hx, hz, -⟩ := ih
    rw [hbk] at hk
    cases hk
    obtain ⟨y, hy⟩ := mem_zip_left hx h1
    obtain ⟨ys', h, -⟩ := den_output hw hcj h2 (den_piped hw hp (hz _ hy))
    exact ⟨ys', h⟩

/-- The inputs which have a value are active. -/
def HasIn (W : Workflow α) (V : Nat → Option α) (s : St α) : Prop :=
  ∀ k v, (inputs W)[k]? = some v → (V k).isSome → s.actVar v = true

/-- A block which gives values and whose feeding blocks were evaluated can be evaluated. -/
theorem ready (hw : WellFormed W) {s : St α} (hI : Good W V s) (hf : HasIn W V s) {j : Nat} {b : Block α} {ys : List α}
    (hb : W.blocks[j]? = some b) (hg : Gives W V j ys)
    (hup : ∀ k c, Feeds W k j → W.blocks[k]? = some c → ∀ o ∈ c.outputs, s.actVar o = true) : byInputs s b = true := by
  obtain ⟨b', xs, hb', hx, hz, -⟩ := hg
  rw [hb] at hb'
  cases hb'
  have hbm := List.mem_of_getElem? hb
  simp only [byInputs, List.all_eq_true]
  intro v hv
  obtain ⟨x, hvx⟩ := mem_zip_left hx hv
  have hd := hz _ hvx
  simp only at hd
  have hinput : ∀ w y, w ∈ inputs W → Den W V w y → s.actVar w = true := by
    intro w y hwi hdw
    obtain ⟨k, hk⟩ := List.getElem?_of_mem hwi
    refine hf k w hk ?_
    cases hdw with
    | @input k' _ _ hk' hx' =>
      have e := idxOf_of_nodup (inputs_nodup hw.distinct) hk
      rw [idxOf_of_nodup (inputs_nodup hw.distinct) hk'] at e
      subst e
      simp [hx']
    | pipe hp _ => exact absurd rfl (hw.input_free hwi _ hp)
    | block hc _ _ _ ho => exact absurd (List.of_mem_zip ho).1 ((mem_inputs.1 hwi).2.1 _ hc)
  cases hm : inputPipe W v with
  | none => exact hinput v x (free_input hw.distinct hbm hv (inputPipe_none.1 hm)) hd
  | some m =>
    obtain ⟨p, hp, rfl⟩ := inputPipe_some hm
    have hpm := List.mem_of_getElem? hp
    have hact : s.actVar p.input = true := by
      by_cases hc : ∃ c ∈ W.blocks, p.input ∈ c.outputs
      · obtain ⟨c, hcm, hpc⟩ := hc
        obtain ⟨k, hk⟩ := List.getElem?_of_mem hcm
        exact hup k c ⟨b, c, p, hb, hk, hpm, hv, hpc⟩ hk _ hpc
      · push Not at hc
        refine hinput _ x ?_ (den_piped hw hpm hd)
        rw [mem_inputs]
        refine ⟨mem_allVariables.2 (.inr ⟨p, hpm, .inl rfl⟩), hc, fun q hq hqo => ?_⟩
        obtain ⟨c, hcm, hci⟩ := hw.target q hq
        rw [hqo] at hci
        exact absurd hci (hw.source p hpm c hcm)
    obtain ⟨y, -, -, h, -⟩ := hI.var _ hact
    exact h _ (.single ⟨p, hpm, rfl, rfl⟩)

/-- Evaluating a block which can be: what it returns is what it gives. -/
theorem evaluateBlock_sound (hw : WellFormed W) {s s' : St α} (hI : Good W V s) {j : Nat} {b : Block α} {ys : List α}
    (hb : W.blocks[j]? = some b) (hby : byInputs s b = true) (h : evaluateBlock W s j = .ok (s', ys)) :
    Good W V s' ∧ Gives W V j ys := by
  obtain ⟨xs, hx, hz, ⟨e, -, h1⟩ | ⟨ys', s1, he, h1, h2⟩⟩ := Inv.evaluateBlock hw hb s hI hby
  · rw [h1] at h; simp at h
  · rw [h1] at h
    simp only [Except.ok.injEq, Prod.mk.injEq] at h
    obtain ⟨rfl, rfl⟩ := h
    exact ⟨h2, b, xs, hb, hx, hz, he⟩

theorem branchStepOut_sound (hw : WellFormed W) (l : List Nat) (d d' : List (Nat × List α)) (s s' : St α)
    (ha : ∀ i ∈ l, ∃ b, W.blocks[i]? = some b ∧ byInputs s b = true) (hI : Good W V s) (hd : ∀ e ∈ d, Gives W V e.1 e.2)
    (h : branchStepOut W l d s = .ok (s', d')) : Good W V s' ∧ ∀ e ∈ d', Gives W V e.1 e.2 := by
  induction l generalizing s d with
  | nil =>
    simp only [branchStepOut, Except.ok.injEq, Prod.mk.injEq] at h
    rw [← h.1, ← h.2]; exact ⟨hI, hd⟩
  | cons i l ih =>
    rw [branchStepOut, bind_ok] at h
    obtain ⟨⟨s1, ys⟩, h1, h2⟩ := h
    obtain ⟨b, hb, hby⟩ := ha i (.head _)
    obtain ⟨g1, g2⟩ := evaluateBlock_sound hw hI hb hby h1
    refine ih _ s1 (fun j hj => ?_) g1 (fun e he => ?_) h2
    · obtain ⟨c, hc, hbc⟩ := ha j (.tail _ hj)
      refine ⟨c, hc, ?_⟩
      simp only [byInputs, List.all_eq_true] at hbc ⊢
      exact fun v hv => (evaluateBlock_step h1).var v (hbc v hv)
    · rcases setEntry_mem _ _ _ _ he with rfl | he
      · exact g2
      · exact hd e he

theorem branchLoopOut_sound (hw : WellFormed W) {rt blocks : List Nat} (n : Nat) (d d' : List (Nat × List α)) (s s' : St α)
    (hI : Good W V s) (hd : ∀ e ∈ d, Gives W V e.1 e.2) (h : branchLoopOut W rt blocks n d s = .ok (s', d')) :
    ∀ e ∈ d', Gives W V e.1 e.2 := by
  induction n generalizing d s with
  | zero =>
    simp only [branchLoopOut, Except.ok.injEq, Prod.mk.injEq] at h
    rw [← h.2]; exact hd
  | succ n ih =>
    rw [branchLoopOut] at h
    split at h
    · simp only [Except.ok.injEq, Prod.mk.injEq] at h
      rw [← h.2]; exact hd
    · rw [bind_ok] at h
      obtain ⟨⟨s1, d1⟩, h1, h2⟩ := h
      obtain ⟨g1, g2⟩ := branchStepOut_sound hw _ _ _ s s1 (fun i hi => by
        rw [List.mem_filter, Bool.and_eq_true] at hi
        exact activable_byInputs hi.2.1) hI hd h1
      exact ih _ s1 g1 g2 h2

/-- The state of the evaluation of a branch, from the start of a run. -/
structure Going (W : Workflow α) (V : Nat → Option α) (s : St α) (done : List (Nat × List α)) : Prop where
  good : Good W V s
  fed : HasIn W V s
  act : ∀ j ∈ done.map (·.1), ∀ b, W.blocks[j]? = some b → ∀ o ∈ b.outputs, s.actVar o = true
  blk : ∀ j, s.actBlock j = true → j ∈ done.map (·.1)
  nodup : (done.map (·.1)).Nodup

theorem mem_setEntry_keys {l : List (Nat × β)} {k : Nat} {x : β} {j : Nat} :
    j ∈ (setEntry l k x).map (·.1) ↔ j ∈ l.map (·.1) ∨ j = k := by
  rw [setEntry_keys]
  split
  · rename_i h
    constructor
    · exact .inl
    · rintro (h' | rfl)
      · exact h'
      · exact h
  · simp

theorem Going.block (hw : WellFormed W) (hlen : Arity W) {s : St α} {done : List (Nat × List α)} (hG : Going W V s done) {j : Nat}
    {b : Block α} {zs : List α} (hb : W.blocks[j]? = some b) (hg : Gives W V j zs) (hby : byInputs s b = true) :
    ∃ s' ys, evaluateBlock W s j = .ok (s', ys) ∧ Going W V s' (setEntry done j ys) ∧
      ∀ v, s.actVar v = true → s'.actVar v = true := by
  obtain ⟨xs, hx, hz, h | ⟨ys, s', he, h1, h2⟩⟩ := Inv.evaluateBlock hw hb s hG.good hby
  · obtain ⟨e, he, -⟩ := h
    obtain ⟨b', xs', hb', hx', hz', he'⟩ := hg
    rw [hb] at hb'
    cases hb'
    rw [den_list hw hx hx' hz hz', he'] at he
    simp at he
  · have hst := evaluateBlock_step h1
    refine ⟨s', ys, h1, ⟨h2, fun k v hk hv => hst.var v (hG.fed k v hk hv), fun i hi c hc o ho => ?_, fun i hi => ?_,
      setEntry_nodup hG.nodup _ _⟩, hst.var⟩
    · rcases mem_setEntry_keys.1 hi with hi | rfl
      · exact hst.var o (hG.act i hi c hc o ho)
      · obtain ⟨b', xs', ys', k1, -, -, k4, -, k6⟩ := h2.blk i ((hst.blk i).2 (.inr rfl))
        rw [hc] at k1
        cases k1
        obtain ⟨y, hy⟩ := mem_zip_left (hlen c (List.mem_of_getElem? hc) xs' ys' k4) ho
        exact k6 _ hy
    · rw [mem_setEntry_keys]
      exact ((hst.blk i).1 hi).imp (hG.blk i) id

theorem Going.step (hw : WellFormed W) (hlen : Arity W) (l : List Nat) (hg : ∀ j ∈ l, ∃ ys, Gives W V j ys)
    (done : List (Nat × List α)) (s : St α) (hG : Going W V s done)
    (hby : ∀ j ∈ l, ∃ b, W.blocks[j]? = some b ∧ byInputs s b = true) :
    ∃ s' done', branchStepOut W l done s = .ok (s', done') ∧ Going W V s' done' ∧
      ∀ j, j ∈ done'.map (·.1) ↔ j ∈ done.map (·.1) ∨ j ∈ l := by
  induction l generalizing done s with
  | nil => exact ⟨s, done, rfl, hG, by simp⟩
  | cons j l ih =>
    obtain ⟨b, hb, hbj⟩ := hby j (.head _)
    obtain ⟨zs, hz⟩ := hg j (.head _)
    obtain ⟨s1, ys, h1, h2, h3⟩ := hG.block hw hlen hb hz hbj
    obtain ⟨s2, d2, k1, k2, k3⟩ := ih (fun k hk => hg k (.tail _ hk)) _ s1 h2 (fun k hk => by
      obtain ⟨c, hc, hbc⟩ := hby k (.tail _ hk)
      refine ⟨c, hc, ?_⟩
      simp only [byInputs, List.all_eq_true] at hbc ⊢
      exact fun v hv => h3 v (hbc v hv))
    refine ⟨s2, d2, by rw [branchStepOut, h1]; exact k1, k2, fun k => ?_⟩
    rw [k3, mem_setEntry_keys, List.mem_cons, or_assoc]

/-- While blocks of the branch are missing, one of them can be evaluated. -/
theorem Going.next (hw : WellFormed W) {s : St α} {done : List (Nat × List α)} (hG : Going W V s done) {bs : List Nat}
    (hg : ∀ j ∈ bs, ∃ ys, Gives W V j ys) (hup : ∀ j ∈ bs, ∀ k, Feeds W k j → k ∈ bs) {j : Nat} (hj : j ∈ bs)
    (hjd : j ∉ done.map (·.1)) : ∃ k b, k ∈ bs ∧ k ∉ done.map (·.1) ∧ W.blocks[k]? = some b ∧ byInputs s b = true := by
  obtain ⟨μ, hμ⟩ := feeds_measure hw
  have key : ∀ n j, μ j = n → j ∈ bs → j ∉ done.map (·.1) →
      ∃ k b, k ∈ bs ∧ k ∉ done.map (·.1) ∧ W.blocks[k]? = some b ∧ byInputs s b = true := by
    intro n
    induction n using Nat.strong_induction_on with
    | _ n ih =>
      intro j hn hj hjd
      obtain ⟨ys, hgj⟩ := hg j hj
      obtain ⟨b, -, hb, -⟩ := id hgj
      by_cases hall : ∀ k, Feeds W k j → k ∈ done.map (·.1)
      · refine ⟨j, b, hj, hjd, hb, ready hw hG.good hG.fed hb hgj (fun k c hf hc o ho => hG.act k (hall k hf) c hc o ho)⟩
      · push Not at hall
        obtain ⟨k, hf, hk⟩ := hall
        exact ih (μ k) (by have := hμ k j hf; omega) k rfl (hup j hj k hf) hk
  exact key _ j rfl hj hjd

theorem Going.loop (hw : WellFormed W) (hlen : Arity W) {rt bs : List Nat} (hg : ∀ j ∈ bs, ∃ ys, Gives W V j ys)
    (hup : ∀ j ∈ bs, ∀ k, Feeds W k j → k ∈ bs) (n : Nat) (done : List (Nat × List α)) (s : St α) (hG : Going W V s done)
    (hsub : ∀ j ∈ done.map (·.1), j ∈ bs) (hn : (bs.toFinset \ (done.map (·.1)).toFinset).card ≤ n) :
    ∃ s' done', branchLoopOut W rt bs n done s = .ok (s', done') ∧ ∀ j, j ∈ done'.map (·.1) ↔ j ∈ bs := by
  induction n generalizing done s with
  | zero =>
    refine ⟨s, done, rfl, fun j => ⟨hsub j, fun hj => ?_⟩⟩
    by_contra hc
    have : j ∈ bs.toFinset \ (done.map (·.1)).toFinset := by
      rw [Finset.mem_sdiff, List.mem_toFinset, List.mem_toFinset]
      exact ⟨hj, hc⟩
    have := Finset.card_pos.2 ⟨j, this⟩
    omega
  | succ n ih =>
    rw [branchLoopOut]
    by_cases hne : done.length = bs.length
    · rw [if_pos hne]
      refine ⟨s, done, rfl, fun j => ⟨hsub j, fun hj => ?_⟩⟩
      have hsubp : (done.map (·.1)).Subperm bs := List.subperm_of_subset hG.nodup hsub
      exact (hsubp.perm_of_length_le (by simp [hne])).mem_iff.2 hj
    rw [if_neg hne]
    have hfil : ∀ m, m ∈ bs.filter (fun i => activable W rt s i && !(done.map (·.1)).contains i) ↔
        m ∈ bs ∧ m ∉ done.map (·.1) ∧ activable W rt s m = true := by
      intro m
      rw [List.mem_filter]
      simp only [List.contains_eq_mem, Bool.and_eq_true, Bool.not_eq_true', decide_eq_false_iff_not]
      constructor
      · rintro ⟨a, b, c⟩; exact ⟨a, c, b⟩
      · rintro ⟨a, c, b⟩; exact ⟨a, b, c⟩
    obtain ⟨s1, d1, h1, h2, h3⟩ := hG.step hw hlen
      (bs.filter (fun i => activable W rt s i && !(done.map (·.1)).contains i)) (fun m hm => hg m ((hfil m).1 hm).1)
      done s (fun m hm => activable_byInputs ((hfil m).1 hm).2.2)
    rw [h1]
    simp only [bind, Except.bind]
    refine ih d1 s1 h2 (fun m hm => ?_) ?_
    · rcases (h3 m).1 hm with h | h
      · exact hsub m h
      · exact ((hfil m).1 h).1
    · by_cases hall : ∀ j ∈ bs, j ∈ done.map (·.1)
      · have : bs.toFinset \ (d1.map (·.1)).toFinset = ∅ := by
          rw [Finset.sdiff_eq_empty_iff_subset]
          intro j hj
          rw [List.mem_toFinset] at hj ⊢
          exact (h3 j).2 (.inl (hall j hj))
        rw [this]
        simp
      · push Not at hall
        obtain ⟨j, hj, hjd⟩ := hall
        obtain ⟨k, b, hk, hkd, hkb, hby⟩ := hG.next hw hg hup hj hjd
        have hkl : k ∈ bs.filter (fun i => activable W rt s i && !(done.map (·.1)).contains i) := by
          rw [hfil]
          refine ⟨hk, hkd, ?_⟩
          unfold activable
          rw [hkb]
          have : s.actBlock k = false := by
            cases hc : s.actBlock k with
            | false => rfl
            | true => exact absurd (hG.blk k hc) hkd
          simp [hby, this]
        have : (bs.toFinset \ (d1.map (·.1)).toFinset).card < (bs.toFinset \ (done.map (·.1)).toFinset).card := by
          apply Finset.card_lt_card
          rw [Finset.ssubset_iff_of_subset]
          · refine ⟨k, ?_, ?_⟩
            · rw [Finset.mem_sdiff, List.mem_toFinset, List.mem_toFinset]
              exact ⟨hk, hkd⟩
            · rw [Finset.mem_sdiff, List.mem_toFinset, List.mem_toFinset, not_and, not_not]
              exact fun _ => (h3 k).2 (.inr hkl)
          · intro m hm
            rw [Finset.mem_sdiff, List.mem_toFinset, List.mem_toFinset] at hm ⊢
            exact ⟨hm.1, fun h => hm.2 ((h3 m).2 (.inl h))⟩
        omega

theorem lookup_entry {l : List (Nat × β)} {k : Nat} {x : β} (h : l.lookup k = some x) : (k, x) ∈ l := by
  induction l with
  | nil => simp at h
  | cons e l ih =>
    obtain ⟨k', y⟩ := e
    rw [List.lookup_cons] at h
    by_cases hk : k = k'
    · subst hk
      simp only [beq_self_eq_true, Option.some.injEq] at h
      subst h
      exact .head _
    · have hb : (k == k') = false := by simpa using hk
      rw [hb] at h
      exact .tail _ (ih h)

theorem gives_den {i n o : Nat} {b : Block α} {ys : List α} {x : α} (hb : W.blocks[i]? = some b) (ho : b.outputs[n]? = some o)
    (hg : Gives W V i ys) (hx : ys[n]? = some x) : Den W V o x := by
  obtain ⟨b', xs, hb', h1, h2, h3⟩ := hg
  rw [hb] at hb'
  cases hb'
  exact .block (List.mem_of_getElem? hb) h1 h2 h3 (List.mem_of_getElem? (i := n) (List.getElem?_zip_eq_some.2 ⟨ho, hx⟩))

/-- The start of a run with the values of the user. -/
theorem start_going (hw : WellFormed W) {user : List (Nat × α)} {vals : Nat → Option α} {s s1 : St α}
    (hv : inputValues W user = .ok vals) (hs : startRun W vals = .ok s) (h1 : activateInputs W false s = .ok s1) :
    Going W (expected W user) s1 [] := by
  have h0 : Good W (expected W user) { inputValues := vals } := Inv.init (fun k v x hk hx => by
    rw [inputValues_spec hv k v hk] at hx
    exact expected_default hk hx)
  obtain ⟨g, gf⟩ := h0.activateInputs hw hs
  obtain ⟨g1, -⟩ := g.activateInputs hw h1
  refine ⟨g1, fun k v hk hx => (activateInputs_frame h1).var v (gf k v hk (.inl ?_)), by simp, fun j hj => ?_, by simp⟩
  · show (vals k <|> W.default v).isSome = true
    rw [inputValues_spec hv k v hk]
    obtain ⟨x, hx⟩ := Option.isSome_iff_exists.1 hx
    rw [hx]; rfl
  · rw [(activateInputs_frame h1).blk, (activateInputs_frame hs).blk] at hj
    simp at hj

/-- The value computed for an output is the one it must hold, given the values of the user. -/
theorem branchValue_iff (hw : WellFormed W) (hl : LocksOk W) (hlen : Arity W) (so : SetOrder) {out : Nat} (hout : OutputOf W out)
    {i n o : Nat} {b : Block α} (hb : W.blocks[i]? = some b) (ho : b.outputs[n]? = some o) {user : List (Nat × α)}
    (hu : ∀ kx ∈ user, kx.1 < (inputs W).length) (x : α) :
    branchValue W so i n user = .ok x ↔ Den W (expected W user) o x := by
  have hi := (List.getElem?_eq_some_iff.1 hb).1
  obtain ⟨br, b1, b2⟩ := upstreamBranch_spec hw hl so hi
  obtain ⟨a, ha⟩ := allowedValues_total hl user hu
  obtain ⟨vals, hv⟩ : ∃ vals, inputValues W user = .ok vals := by
    unfold inputValues
    rw [ha]
    exact ⟨_, rfl⟩
  obtain ⟨s, hs⟩ := activateInputs_total hw hl { inputValues := vals : St α }
  have hs' : startRun W vals = .ok s := hs
  obtain ⟨rt, r1, r2⟩ := C40_runtime hw hl so hout
  obtain ⟨s1, h1⟩ := activateInputs_total hw hl s
  have hG := start_going hw hv hs' h1
  unfold branchValue
  simp only [b1, hv, hs', r1, bind, Except.bind]
  constructor
  · intro h
    cases he : evaluateBranchOut W rt br s with
    | error err => rw [he] at h; simp at h
    | ok sd =>
      obtain ⟨s2, done⟩ := sd
      rw [he] at h
      unfold evaluateBranchOut at he
      simp only [h1, bind, Except.bind] at he
      split at he
      · have hgv := branchLoopOut_sound hw _ _ _ _ _ hG.good (by simp) he
        simp only [outputOf] at h
        cases hlk : done.lookup i with
        | none => rw [hlk] at h; simp at h
        | some ys =>
          rw [hlk] at h
          simp only at h
          cases hy : ys[n]? with
          | none => rw [hy] at h; simp at h
          | some y =>
            rw [hy] at h
            simp only [Except.ok.injEq] at h
            subst h
            exact gives_den hb ho (hgv _ (lookup_entry hlk)) hy
      · simp at he
  · intro hd
    have hom := List.mem_of_getElem? ho
    have hg : ∀ j ∈ br, ∃ ys, Gives W (expected W user) j ys := fun j hj => gives_upstream hw hb hom hd ((b2 j).1 hj)
    have hup : ∀ j ∈ br, ∀ k, Feeds W k j → k ∈ br := fun j hj k hf => (b2 k).2 (.head hf ((b2 j).1 hj))
    obtain ⟨k, c, hk, -, hc, hby⟩ := hG.next hw hg hup ((b2 i).2 .refl) (by simp)
    have hany : br.any (activable W rt s1) = true := by
      rw [List.any_eq_true]
      refine ⟨k, hk, ?_⟩
      unfold activable
      rw [hc]
      have : s1.actBlock k = false := by
        cases hc : s1.actBlock k with
        | false => rfl
        | true => simpa using hG.blk k hc
      simp [hby, this]
    obtain ⟨s2, done, h2, h3⟩ := hG.loop (rt := rt) hw hlen hg hup (br.length + 1) [] s1 (by simp) (by
      have := List.toFinset_card_le br
      simp
      omega)
    have he : evaluateBranchOut W rt br s = .ok (s2, done) := by
      unfold evaluateBranchOut
      simp only [h1, bind, Except.bind, hany, if_true, h2]
    have hgv := branchLoopOut_sound hw _ _ _ _ _ hG.good (by simp) h2
    rw [he]
    obtain ⟨ys, hlk, hm⟩ := lookup_of_key done i ((h3 i).2 ((b2 i).2 .refl))
    have hgi := hgv _ hm
    have hn : n < ys.length := by
      obtain ⟨b', xs, hb', -, -, he'⟩ := hgi
      rw [hb] at hb'
      cases hb'
      rw [hlen b (List.mem_of_getElem? hb) xs ys he']
      exact (List.getElem?_eq_some_iff.1 ho).1
    simp only [outputOf, hlk, List.getElem?_eq_getElem hn, Except.ok.injEq]
    exact (gives_den hb ho hgi (List.getElem?_eq_getElem hn)).unique hw hd

theorem indices_output (hw : WellFormed W) {v : Nat} (ho : IsOutput W v) :
    ∃ i n b, variableIndices W v = .ok (.port i true n) ∧ W.blocks[i]? = some b ∧ b.outputs[n]? = some v := by
  obtain ⟨b, hb, hv⟩ := ho
  obtain ⟨i, hi⟩ := List.getElem?_of_mem hb
  obtain ⟨j, c, side, n, h1, -, -⟩ := findPort_some W.blocks 0 b i hi (List.mem_append_right _ hv)
  obtain ⟨j', side', n', c', h2, h3, h4⟩ := findPort_get W.blocks 0 _ h1
  cases side' with
  | false =>
    exact (in_ne_out hw.distinct (List.mem_of_getElem? h3) hb (List.mem_of_getElem? h4) hv).elim
  | true =>
    refine ⟨j', n', c', ?_, h3, h4⟩
    unfold variableIndices
    rw [h1, h2]
    simp

/-- **C151** The display of a step on an output shows the value which the values given by the user, and the default values of
the other inputs, determine for this output; it raises when they determine none, or when the object cannot be shown.
Missing: a display on an input of a block, which `add_step_display` accepts (`C151_input_violated`). -/
theorem C151_partial (hw : WellFormed W) (hl : LocksOk W) (hlen : Arity W) (so : SetOrder) {out : Nat} (hout : OutputOf W out)
    (view : α → δ → Except PyErr β) {e : Ed δ} {k vi : Int} {a v : Nat} {d : δ} (hk : Py.get e.steps k = .ok a)
    (hdis : (e.obj a).display = some (d, vi)) (hv : Py.get (allVariables W) vi = .ok v) (ho : IsOutput W v)
    {user : List (Nat × α)} (hu : ∀ kx ∈ user, kx.1 < (inputs W).length) (r : Option β) :
    computeStepDisplay W so view e k user = .ok r ↔ ∃ x y, Den W (expected W user) v x ∧ view x d = .ok y ∧ r = some y := by
  obtain ⟨i, n, b, h1, h2, h3⟩ := indices_output hw ho
  have key := branchValue_iff hw hl hlen so hout h2 h3 hu
  unfold computeStepDisplay
  simp only [hk, hdis, hv, h1]
  cases hbv : branchValue W so i n user with
  | error err =>
    simp only [reduceCtorEq, false_iff, not_exists, not_and]
    intro x y hd
    rw [(key x).2 hd] at hbv
    simp at hbv
  | ok x =>
    have hd := (key x).1 hbv
    simp only
    constructor
    · intro h
      cases hvw : view x d with
      | error err => rw [hvw] at h; simp [Except.map] at h
      | ok y =>
        rw [hvw] at h
        simp only [Except.map, Except.ok.injEq] at h
        exact ⟨x, y, hd, hvw, h.symm⟩
    · rintro ⟨x', y, hd', hy, rfl⟩
      rw [hd.unique hw hd', hy]
      rfl

/-- **C151** A step without display has nothing to show. -/
theorem C151_none (so : SetOrder) (view : α → δ → Except PyErr β) {e : Ed δ} {k : Int} {a : Nat} (hk : Py.get e.steps k = .ok a)
    (hdis : (e.obj a).display = none) (user : List (Nat × α)) : computeStepDisplay W so view e k user = .ok none := by
  unfold computeStepDisplay
  simp only [hk, hdis]

/-- **C151** Once a display is added to a step, on an output, the values given at this step and at the steps before it are all
that counts for it: two users who agree on them are shown the same. -/
theorem C151_steps (hw : WellFormed W) (hl : LocksOk W) (hlen : Arity W) (so : SetOrder) {out : Nat} (hout : OutputOf W out)
    (view : α → δ → Except PyErr β) {e e' : Ed δ} (hs : Sound e) {select : Nat → Except PyErr δ} {k vi : Int} {n a v : Nat}
    (hk : Py.idx e.steps.length k = some n) (ha : e.steps[n]? = some a) (hv : Py.get (allVariables W) vi = .ok v)
    (ho : IsOutput W v) (hadd : addDisplayAt W so select vi k e = (e', none)) {user user' : List (Nat × α)}
    (hu : ∀ kx ∈ user, kx.1 < (inputs W).length) (hu' : ∀ kx ∈ user', kx.1 < (inputs W).length)
    (hsame : ∀ j w, (inputs W)[j]? = some w → (∃ m c, m ≤ n ∧ e'.steps[m]? = some c ∧ w ∈ (e'.obj c).inputs) →
      user'.lookup j = user.lookup j) {r : Option β} (hr : computeStepDisplay W so view e' k user = .ok r) :
    computeStepDisplay W so view e' k user' = .ok r := by
  obtain ⟨up, hup, hneed⟩ := upstream_needs hw hl so ho
  unfold addDisplayAt at hadd
  simp only [hv, hup] at hadd
  cases hsel : select v with
  | error err =>
    rw [hsel] at hadd
    unfold addStepDisplay at hadd
    dsimp only at hadd
    split at hadd
    · simp at hadd
    · split at hadd <;> simp at hadd
  | ok d =>
    rw [hsel] at hadd
    obtain ⟨h1, h2, -, h3⟩ := C78_display hs hk ha hadd
    have hget : Py.get e'.steps k = .ok a := by rw [h1]; exact Py.get_ok.2 ⟨n, hk, ha⟩
    rw [C151_partial hw hl hlen so hout view hget h2 hv ho hu'] 
    obtain ⟨x, y, hd, hy, rfl⟩ := (C151_partial hw hl hlen so hout view hget h2 hv ho hu r).1 hr
    refine ⟨x, y, ?_, hy, rfl⟩
    obtain ⟨b, hb, hob⟩ := ho
    obtain ⟨i, hi⟩ := List.getElem?_of_mem hb
    refine C110_enough hw hl so hi (.inr hob) hup (fun j w hj hjw => ?_) hd
    unfold expected
    rw [hj]
    simp only
    rcases hjw with hjw | hjw
    · rw [hsame j w hj (h3 w hjw)]
    · rw [if_pos hjw, if_pos hjw]

/-- A display on output 2 at the first step of `exSteps`: the needed inputs are moved to this step. -/
theorem exSteps_add : ∃ e', addDisplayAt exW dedupOrder (fun _ => .ok ()) 4 0 exSteps = (e', none) ∧
    (e'.obj 0).inputs = [0, 10] ∧ (e'.obj 1).inputs = [] ∧
    computeStepDisplay exW dedupOrder (fun (x : Int) _ => .ok x) e' 0 [(2, 5)] = .ok (some 12) ∧
    computeStepDisplay exW dedupOrder (fun (x : Int) _ => .ok x) e' 0 [(1, 3)] = .error .workflowError :=
  ⟨_, rfl, by decide, by decide, by decide +kernel, by decide +kernel⟩

example : Arity exW ∧ OutputOf exW 0 ∧ Py.idx exSteps.steps.length 0 = some 0 ∧ exSteps.steps[0]? = some 0 ∧
    Py.get (allVariables exW) 4 = .ok 2 ∧ IsOutput exW 2 :=
  ⟨exW_arity, exW_output, rfl, rfl, rfl, ⟨[0, 1], [2], addEval⟩, by simp [exW], by simp⟩

/-- **C151** A display can be added on an input of a block, but computing it is a ValueError. -/
theorem C151_input_violated : ∃ (W : Workflow Int) (e e' : Ed Unit) (vi : Int) (user : List (Nat × Int)), WellFormed W ∧ LocksOk W ∧
    Sound e ∧ e.inputs = inputs W ∧ addDisplayAt W dedupOrder (fun _ => .ok ()) vi 0 e = (e', none) ∧
    (∀ k < (inputs W).length, (expected W user k).isSome) ∧
    computeStepDisplay W dedupOrder (fun (x : Int) _ => .ok x) e' 0 user = .error .valueError :=
  ⟨exW, exSteps, _, 2, [(1, 1), (2, 5)], exW_wf, exW_locks, exSteps_sound, rfl, rfl, by decide +kernel, by decide +kernel⟩

end DC.Wkf
