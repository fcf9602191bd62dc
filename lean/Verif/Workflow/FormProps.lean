import Verif.Workflow.Form
import Verif.Workflow.Props
import Verif.Workflow.StepsProps
/- Properties C117 and C118: the form of a run, and the edition of inputs. -/
namespace DC.Wkf

set_option linter.unusedSimpArgs false
set_option linter.unusedSectionVars false

variable {α τ δ : Type}

/-- Spec: what the form must show for the input `v`: its index, its default value, whether the user can edit it, its title, its type. -/
def entryOf (E : Editor α τ δ) (v : Nat) : FormAttr α × τ :=
  ({ key := some ((inputs E.base).idxOf v), default := E.base.default v, editable := !E.base.lockFlag v,
     title := inputTitle E v (some ((inputs E.base).idxOf v)) }, E.typ v)

/-- Spec: what the form must show for a step. -/
def stepOf (E : Editor α τ δ) (s : StepObj δ) : StepForm α τ δ :=
  { label := s.label, documentation := s.documentation, display := s.display,
    attributes := (s.inputs.filter fun v => !s.groupInputs.contains v).map (entryOf E),
    group := (s.inputs.filter fun v => s.groupInputs.contains v).map (entryOf E) }

/-- Spec: all the entries of a form. -/
def RunForm.entries (F : RunForm α τ δ) : List (FormAttr α × τ) := F.steps.flatMap (fun s => s.attributes ++ s.group) ++ F.spare

theorem inputIndex_mem {W : Workflow α} (hw : WellFormed W) {v : Nat} (hv : v ∈ inputs W) : inputIndex W v = some ((inputs W).idxOf v) := by
  have hk : (inputs W)[(inputs W).idxOf v]? = some v := by
    rw [List.getElem?_eq_getElem (List.idxOf_lt_length_iff.2 hv)]
    simp
  exact inputIndex_input hw.distinct hk (hw.input_free hv)

theorem inputSchema_ok {E : Editor α τ δ} (hw : WellFormed E.base) (hl : LocksOk E.base) {v : Nat} (hv : v ∈ inputs E.base) :
    inputSchema E v = .ok (entryOf E v).1 := by
  unfold inputSchema
  rw [hl.locked]
  simp only [bind, Except.bind, inputIndex_mem hw hv, entryOf]

theorem mapE_map {β γ : Type} {f : β → Except PyErr γ} {g : β → γ} {l : List β} (h : ∀ x ∈ l, f x = .ok (g x)) : Arg.mapE f l = .ok (l.map g) := by
  induction l with
  | nil => rfl
  | cons x l ih =>
    rw [Arg.mapE, h x (.head _), ih (fun y hy => h y (.tail _ hy))]
    rfl

theorem annotations_lookup {E : Editor α τ δ} (hw : WellFormed E.base) {vs : List Nat} (hvs : ∀ v ∈ vs, v ∈ inputs E.base) {v : Nat} (hv : v ∈ vs) :
    (inputAnnotations E vs).lookup (some ((inputs E.base).idxOf v)) = some (E.typ v) := by
  have key : ∀ (l : List Nat) (d : List (Option Nat × τ)), (∀ u ∈ l, u ∈ inputs E.base) → (v ∈ l ∨ d.lookup (some ((inputs E.base).idxOf v)) = some (E.typ v)) →
      (l.foldl (fun d v => Dict.set d (inputIndex E.base v) (E.typ v)) d).lookup (some ((inputs E.base).idxOf v)) = some (E.typ v) := by
    intro l
    induction l with
    | nil => intro d _ h; simpa using h
    | cons u l ih =>
      intro d hu h
      rw [List.foldl_cons]
      refine ih _ (fun w hw => hu w (.tail _ hw)) ?_
      rw [Dict.lookup_set, inputIndex_mem hw (hu u (.head _))]
      by_cases huv : v = u
      · subst huv; simp
      · have hne : some ((inputs E.base).idxOf v) ≠ some ((inputs E.base).idxOf u) := by
          intro he
          simp only [Option.some.injEq] at he
          exact huv ((List.idxOf_inj (hvs v hv)).1 he)
        rw [if_neg hne]
        rcases h with h | h
        · rcases List.mem_cons.1 h with h | h
          · exact absurd h huv
          · exact .inl h
        · exact .inr h
  exact key vs [] hvs (.inl hv)

theorem lookup_filter {κ β : Type} [BEq κ] [LawfulBEq κ] {d : List (κ × β)} {k q : κ} (h : q ≠ k) : (d.filter fun e => e.1 != k).lookup q = d.lookup q := by
  induction d with
  | nil => rfl
  | cons e d ih =>
    obtain ⟨k', x⟩ := e
    by_cases hk : k' = k
    · subst hk
      have hne : (q == k') = false := by simpa using h
      rw [List.filter_cons_of_neg (by simp), List.lookup_cons, hne]
      exact ih
    · rw [List.filter_cons_of_pos (by simpa using hk), List.lookup_cons, List.lookup_cons, ih]

theorem popAll_ok {E : Editor α τ δ} {gs : List Nat} (hn : gs.Nodup) (hin : ∀ v ∈ gs, v ∈ inputs E.base) {d : List (Option Nat × τ)}
    (hd : ∀ v ∈ gs, d.lookup (some ((inputs E.base).idxOf v)) = some (E.typ v)) :
    ∃ d', popAll d (gs.map fun v => (entryOf E v).1) = .ok (gs.map (entryOf E), d') ∧
      ∀ v, v ∉ gs → v ∈ inputs E.base → d'.lookup (some ((inputs E.base).idxOf v)) = d.lookup (some ((inputs E.base).idxOf v)) := by
  induction gs generalizing d with
  | nil => exact ⟨d, rfl, fun _ _ _ => rfl⟩
  | cons g gs ih =>
    rw [List.nodup_cons] at hn
    have hne : ∀ v, v ∈ inputs E.base → v ≠ g → some ((inputs E.base).idxOf v) ≠ some ((inputs E.base).idxOf g) := by
      intro v hv hvg he
      simp only [Option.some.injEq] at he
      exact hvg ((List.idxOf_inj hv).1 he)
    obtain ⟨d', h1, h2⟩ := ih hn.2 (fun v hv => hin v (.tail _ hv)) (d := d.filter fun e => e.1 != some ((inputs E.base).idxOf g)) (fun v hv => by
      rw [lookup_filter (hne v (hin v (.tail _ hv)) (fun he => hn.1 (he ▸ hv)))]
      exact hd v (.tail _ hv))
    refine ⟨d', ?_, fun v hv hvi => ?_⟩
    · rw [List.map_cons, popAll]
      simp only [show (entryOf E g).1.key = some ((inputs E.base).idxOf g) from rfl, hd g (.head _), h1, bind, Except.bind, List.map_cons]
      rfl
    · simp only [List.mem_cons, not_or] at hv
      rw [h2 v hv.2 hvi, lookup_filter (hne v hvi hv.1)]

theorem properties_ok {E : Editor α τ δ} {vs : List Nat} {d : List (Option Nat × τ)}
    (hd : ∀ v ∈ vs, d.lookup (some ((inputs E.base).idxOf v)) = some (E.typ v)) :
    properties d (vs.map fun v => (entryOf E v).1) = .ok (vs.map (entryOf E)) := by
  induction vs with
  | nil => rfl
  | cons v vs ih =>
    rw [List.map_cons, properties]
    simp only [show (entryOf E v).1.key = some ((inputs E.base).idxOf v) from rfl, hd v (.head _), ih (fun u hu => hd u (.tail _ hu)), bind, Except.bind,
      List.map_cons]
    rfl

theorem stepSchema_ok {E : Editor α τ δ} (hw : WellFormed E.base) (hl : LocksOk E.base) {s : StepObj δ} (hn : s.inputs.Nodup)
    (hin : ∀ v ∈ s.inputs, v ∈ inputs E.base) : stepSchema E s = .ok (stepOf E s) := by
  unfold stepSchema
  rw [mapE_map (g := fun v => (entryOf E v).1) (fun v hv => inputSchema_ok hw hl (hin v hv))]
  have htag : s.inputs.zip (s.inputs.map fun v => (entryOf E v).1) = s.inputs.map fun v => (v, (entryOf E v).1) := by
    generalize s.inputs = l
    induction l with
    | nil => rfl
    | cons x l ih => simp [ih]
  simp only [bind, Except.bind, htag, List.filter_map, List.map_map, Function.comp_def]
  have hsub : ∀ (p : Nat → Bool) v, v ∈ s.inputs.filter p → v ∈ s.inputs := fun p v hv => (List.mem_filter.1 hv).1
  obtain ⟨d', h1, h2⟩ := popAll_ok (E := E) (gs := s.inputs.filter fun v => s.groupInputs.contains v) (hn.filter _) (fun v hv => hin v (hsub _ v hv))
    (d := inputAnnotations E s.inputs) (fun v hv => annotations_lookup hw hin (hsub _ v hv))
  rw [h1]
  simp only
  rw [properties_ok (E := E) (fun v hv => ?_)]
  · rfl
  · have hmem := List.mem_filter.1 hv
    rw [h2 v (fun hc => ?_) (hin v hmem.1), annotations_lookup hw hin hmem.1]
    have := (List.mem_filter.1 hc).2
    rw [this] at hmem
    simp at hmem

/-- **C117** The form of a run of a workflow whose inputs are each in one step or spare shows each step as it is, and, for each of the
inputs, its index, its default value, whether it can be edited, its title and its type; there is exactly one entry for each input. -/
theorem C117_form {E : Editor α τ δ} (hw : WellFormed E.base) (hl : LocksOk E.base) (hs : Sound E.ed) (hin : E.ed.inputs = inputs E.base) :
    ∃ F, runForm E = .ok F ∧ F.steps = E.ed.steps.map (fun a => stepOf E (E.ed.obj a)) ∧ F.spare = E.ed.spare.map (entryOf E) ∧
      F.entries.Perm ((inputs E.base).map (entryOf E)) := by
  have hmem : ∀ v ∈ E.ed.placed, v ∈ inputs E.base := fun v hv => hin ▸ hs.perm.mem_iff.1 hv
  have hnd := hs.nodup_placed
  unfold Ed.placed at hnd hmem
  rw [List.nodup_append] at hnd
  have hstep : ∀ a ∈ E.ed.steps, ∀ v ∈ (E.ed.obj a).inputs, v ∈ E.ed.stepped := fun a ha v hv => List.mem_flatMap.2 ⟨a, ha, hv⟩
  have h1 : Arg.mapE (fun a => stepSchema E (E.ed.obj a)) E.ed.steps = .ok (E.ed.steps.map fun a => stepOf E (E.ed.obj a)) :=
    mapE_map fun a ha => stepSchema_ok hw hl (by
      have := hnd.1
      unfold Ed.stepped at this
      rw [List.nodup_flatMap] at this
      exact this.1 a ha) (fun v hv => hmem v (List.mem_append_left _ (hstep a ha v hv)))
  have h2 : Arg.mapE (inputSchema E) E.ed.spare = .ok (E.ed.spare.map fun v => (entryOf E v).1) :=
    mapE_map fun v hv => inputSchema_ok hw hl (hmem v (List.mem_append_right _ hv))
  have h3 : Arg.mapE (spareSchema (inputAnnotations E E.ed.spare)) (E.ed.spare.map fun v => (entryOf E v).1) = .ok (E.ed.spare.map (entryOf E)) := by
    have : ∀ l : List Nat, (∀ v ∈ l, v ∈ E.ed.spare) → Arg.mapE (spareSchema (inputAnnotations E E.ed.spare)) (l.map fun v => (entryOf E v).1) = .ok (l.map (entryOf E)) := by
      intro l
      induction l with
      | nil => intro _; rfl
      | cons v l ih =>
        intro hsub
        rw [List.map_cons, Arg.mapE, ih (fun u hu => hsub u (.tail _ hu))]
        unfold spareSchema
        simp only [show (entryOf E v).1.key = some ((inputs E.base).idxOf v) from rfl,
          annotations_lookup hw (fun u hu => hmem u (List.mem_append_right _ hu)) (hsub v (.head _)), bind, Except.bind, List.map_cons]
        rfl
    exact this _ (fun _ h => h)
  refine ⟨⟨E.ed.steps.map (fun a => stepOf E (E.ed.obj a)), E.ed.spare.map (entryOf E)⟩, ?_, rfl, rfl, ?_⟩
  · unfold runForm
    simp only [h1, h2, h3, bind, Except.bind]
  · have hperm : E.ed.placed.Perm (inputs E.base) := hin ▸ hs.perm
    refine .trans ?_ (hperm.map (entryOf E))
    unfold RunForm.entries Ed.placed Ed.stepped
    rw [List.map_append, List.map_flatMap]
    refine List.Perm.append_right _ ?_
    rw [List.flatMap_map]
    refine List.Perm.flatMap_left _ (fun a _ => ?_)
    simp only [stepOf]
    rw [← List.map_append]
    refine List.Perm.map _ ?_
    exact (List.perm_append_comm).trans (List.filter_append_perm _ _)

/-! ### Editions -/

/-- Spec: `op` was called on `E`, returned the form `F` and left `E'`. -/
def Edited (E : Editor α τ δ) (op : FormOp α δ) (E' : Editor α τ δ) (F : RunForm α τ δ) : Prop := op.run E = (E', .ok F)

theorem Edited.change {E E' : Editor α τ δ} {op : FormOp α δ} {F : RunForm α τ δ} (h : Edited E op E' F) : op.change E = (E', none) ∧ runForm E' = .ok F := by
  unfold Edited FormOp.run at h
  split at h
  · simp at h
  · rename_i E1 h1
    simp only [Prod.mk.injEq] at h
    obtain ⟨rfl, h⟩ := h
    exact ⟨h1, h⟩

/-- Spec: the editors reached from `E` by editions which return a form, those of steps being careful (see C33). -/
inductive EditedFrom (E : Editor α τ δ) : Editor α τ δ → Prop
  | start : EditedFrom E E
  | edit {E1 E2 : Editor α τ δ} {op : FormOp α δ} {F : RunForm α τ δ} (h : EditedFrom E E1) (hop : Edited E1 op E2 F)
      (hc : ∀ o, op = .step o → Careful E1.ed o) : EditedFrom E E2

/-- Spec: the same workflow, apart from default values and locks. -/
def SameGraph (W W' : Workflow α) : Prop := W'.blocks = W.blocks ∧ W'.pipes = W.pipes ∧ W'.output = W.output

theorem SameGraph.inputs {W W' : Workflow α} (h : SameGraph W W') : inputs W' = Wkf.inputs W := by
  obtain ⟨b, p, o, d, l⟩ := W
  obtain ⟨b', p', o', d', l'⟩ := W'
  obtain ⟨h1, h2, h3⟩ := h
  simp only at h1 h2 h3
  subst h1 h2 h3
  rfl

theorem SameGraph.wf {W W' : Workflow α} (h : SameGraph W W') (hw : WellFormed W) : WellFormed W' := by
  obtain ⟨b, p, o, d, l⟩ := W
  obtain ⟨b', p', o', d', l'⟩ := W'
  obtain ⟨h1, h2, h3⟩ := h
  simp only at h1 h2 h3
  subst h1 h2 h3
  exact ⟨hw.distinct, hw.single, hw.target, hw.source, hw.acyclic⟩

/-- Spec: the default value of a variable which is locked with the value `x`, if given. -/
def lockedValue (W : Workflow α) (v : Nat) : Option α → Option α
  | some y => some y
  | none => W.default v

theorem lockVar_ok {W W' : Workflow α} {v : Nat} {x : Option α} (h : lockVar W v x = .ok W') : SameGraph W W' ∧
    W'.lockFlag = setAt W.lockFlag v true ∧ W'.default = setAt W.default v (lockedValue W v x) ∧ (lockedValue W v x).isSome := by
  cases x with
  | some y =>
    simp only [lockVar, Except.ok.injEq] at h
    subst h
    exact ⟨⟨rfl, rfl, rfl⟩, rfl, rfl, rfl⟩
  | none =>
    simp only [lockVar] at h
    split at h
    · rename_i hd
      simp only [Except.ok.injEq] at h
      subst h
      refine ⟨⟨rfl, rfl, rfl⟩, rfl, ?_, hd⟩
      funext u
      unfold setAt lockedValue
      split
      · rename_i hu; rw [hu]
      · rfl
    · simp at h

theorem change_graph {E E' : Editor α τ δ} {op : FormOp α δ} {r : Option PyErr} (h : op.change E = (E', r)) : SameGraph E.base E'.base := by
  cases op with
  | renameInput i l =>
    simp only [FormOp.change] at h
    split at h <;> (simp only [Prod.mk.injEq] at h; obtain ⟨rfl, -⟩ := h; exact ⟨rfl, rfl, rfl⟩)
  | lockInput i x =>
    simp only [FormOp.change] at h
    split at h
    · simp only [Prod.mk.injEq] at h; obtain ⟨rfl, -⟩ := h; exact ⟨rfl, rfl, rfl⟩
    · split at h
      · simp only [Prod.mk.injEq] at h; obtain ⟨rfl, -⟩ := h; exact ⟨rfl, rfl, rfl⟩
      · rename_i hW
        simp only [Prod.mk.injEq] at h
        obtain ⟨rfl, -⟩ := h
        exact (lockVar_ok hW).1
  | setDefault i x =>
    simp only [FormOp.change, setDefaultAt] at h
    split at h <;> (simp only [Prod.mk.injEq] at h; obtain ⟨rfl, -⟩ := h; exact ⟨rfl, rfl, rfl⟩)
  | resetDefault i =>
    simp only [FormOp.change, setDefaultAt] at h
    split at h <;> (simp only [Prod.mk.injEq] at h; obtain ⟨rfl, -⟩ := h; exact ⟨rfl, rfl, rfl⟩)
  | step op =>
    simp only [FormOp.change, Prod.mk.injEq] at h
    obtain ⟨rfl, -⟩ := h
    exact ⟨rfl, rfl, rfl⟩

theorem change_ed {E E' : Editor α τ δ} {op : FormOp α δ} {r : Option PyErr} (h : op.change E = (E', r)) :
    E'.ed = E.ed ∨ ∃ o, op = .step o ∧ E'.ed = (o.run E.ed).1 := by
  cases op with
  | renameInput i l =>
    simp only [FormOp.change] at h
    split at h <;> (simp only [Prod.mk.injEq] at h; obtain ⟨rfl, -⟩ := h; exact .inl rfl)
  | lockInput i x =>
    simp only [FormOp.change] at h
    split at h
    · simp only [Prod.mk.injEq] at h; obtain ⟨rfl, -⟩ := h; exact .inl rfl
    · split at h <;> (simp only [Prod.mk.injEq] at h; obtain ⟨rfl, -⟩ := h; exact .inl rfl)
  | setDefault i x =>
    simp only [FormOp.change, setDefaultAt] at h
    split at h <;> (simp only [Prod.mk.injEq] at h; obtain ⟨rfl, -⟩ := h; exact .inl rfl)
  | resetDefault i =>
    simp only [FormOp.change, setDefaultAt] at h
    split at h <;> (simp only [Prod.mk.injEq] at h; obtain ⟨rfl, -⟩ := h; exact .inl rfl)
  | step op =>
    simp only [FormOp.change, Prod.mk.injEq] at h
    obtain ⟨rfl, -⟩ := h
    exact .inr ⟨op, rfl, rfl⟩

theorem mapE_ok_of {β γ : Type} {f : β → Except PyErr γ} {l : List β} {r : List γ} (h : Arg.mapE f l = .ok r) : ∀ x ∈ l, ∃ y, f x = .ok y := by
  induction l generalizing r with
  | nil => simp
  | cons x l ih =>
    rw [Arg.mapE, bind_ok] at h
    obtain ⟨y, h1, h⟩ := h
    rw [bind_ok] at h
    obtain ⟨r', h2, -⟩ := h
    intro z hz
    rcases List.mem_cons.1 hz with rfl | hz
    · exact ⟨y, h1⟩
    · exact ih h2 z hz

theorem inputSchema_locks {E : Editor α τ δ} {v : Nat} {a : FormAttr α} (h : inputSchema E v = .ok a) (hl : E.base.lockFlag v = true) : (E.base.default v).isSome := by
  unfold inputSchema locked at h
  rw [hl] at h
  simp only [if_true] at h
  split at h
  · assumption
  · simp [bind, Except.bind] at h

/-- A form which is computed shows that the inputs which are locked have a default value. -/
theorem runForm_locks {E : Editor α τ δ} {F : RunForm α τ δ} (h : runForm E = .ok F) {v : Nat} (hv : v ∈ E.ed.placed) (hl : E.base.lockFlag v = true) :
    (E.base.default v).isSome := by
  unfold runForm at h
  rw [bind_ok] at h
  obtain ⟨st, h1, h⟩ := h
  rw [bind_ok] at h
  obtain ⟨l, h2, -⟩ := h
  rcases List.mem_append.1 hv with hv | hv
  · obtain ⟨a, ha, hv⟩ := List.mem_flatMap.1 hv
    obtain ⟨y, hy⟩ := mapE_ok_of h1 a ha
    unfold stepSchema at hy
    rw [bind_ok] at hy
    obtain ⟨l', h3, -⟩ := hy
    obtain ⟨z, hz⟩ := mapE_ok_of h3 v hv
    exact inputSchema_locks hz hl
  · obtain ⟨z, hz⟩ := mapE_ok_of h2 v hv
    exact inputSchema_locks hz hl

/-- The locks and default values of other variables than the inputs do not change. -/
theorem change_others {E E' : Editor α τ δ} {op : FormOp α δ} {r : Option PyErr} (h : op.change E = (E', r)) {v : Nat} (hv : v ∉ inputs E.base) :
    E'.base.lockFlag v = E.base.lockFlag v ∧ E'.base.default v = E.base.default v := by
  have hne : ∀ {i : Int} {u : Nat}, Py.get (inputs E.base) i = .ok u → v ≠ u := fun hu he => hv (he ▸ Py.get_mem hu)
  cases op with
  | renameInput i l =>
    simp only [FormOp.change] at h
    split at h <;> (simp only [Prod.mk.injEq] at h; obtain ⟨rfl, -⟩ := h; exact ⟨rfl, rfl⟩)
  | lockInput i x =>
    simp only [FormOp.change] at h
    split at h
    · simp only [Prod.mk.injEq] at h; obtain ⟨rfl, -⟩ := h; exact ⟨rfl, rfl⟩
    · rename_i u hu
      split at h
      · simp only [Prod.mk.injEq] at h; obtain ⟨rfl, -⟩ := h; exact ⟨rfl, rfl⟩
      · rename_i hW
        simp only [Prod.mk.injEq] at h
        obtain ⟨rfl, -⟩ := h
        obtain ⟨-, h1, h2, -⟩ := lockVar_ok hW
        simp only [h1, h2, setAt, if_neg (hne hu), and_self]
  | setDefault i x =>
    simp only [FormOp.change, setDefaultAt] at h
    split at h
    · simp only [Prod.mk.injEq] at h; obtain ⟨rfl, -⟩ := h; exact ⟨rfl, rfl⟩
    · rename_i u hu
      simp only [Prod.mk.injEq] at h
      obtain ⟨rfl, -⟩ := h
      simp only [setAt, if_neg (hne hu), and_self]
  | resetDefault i =>
    simp only [FormOp.change, setDefaultAt] at h
    split at h
    · simp only [Prod.mk.injEq] at h; obtain ⟨rfl, -⟩ := h; exact ⟨rfl, rfl⟩
    · rename_i u hu
      simp only [Prod.mk.injEq] at h
      obtain ⟨rfl, -⟩ := h
      simp only [setAt, if_neg (hne hu), and_self]
  | step op =>
    simp only [FormOp.change, Prod.mk.injEq] at h
    obtain ⟨rfl, -⟩ := h
    exact ⟨rfl, rfl⟩

/-- Spec: a workflow which is well formed, whose locked variables have a default value, and whose steps hold its inputs. -/
structure EditorOk (E : Editor α τ δ) : Prop where
  wf : WellFormed E.base
  locks : LocksOk E.base
  sound : Sound E.ed
  inputs : E.ed.inputs = inputs E.base

theorem changeInputStep_inputs (i k : Int) (e : Ed δ) : (changeInputStep i k e).1.inputs = e.inputs := by
  unfold changeInputStep
  split
  · rfl
  split
  · rfl
  split
  · rfl
  simp only
  split <;> split <;> rfl

theorem changeInputsStep_inputs (is : List Int) (k : Int) (e : Ed δ) : (changeInputsStep is k e).1.inputs = e.inputs := by
  induction is generalizing e with
  | nil => rfl
  | cons i is ih =>
    have h := changeInputStep_inputs i k e
    rw [changeInputsStep]
    split
    · rename_i e1 h1
      rw [h1] at h
      rw [ih, h]
    · rename_i e1 err h1
      rw [h1] at h
      exact h

theorem removeInputFromStep_inputs (i : Int) (e : Ed δ) : (removeInputFromStep i e).1.inputs = e.inputs := by
  unfold removeInputFromStep
  split
  · rfl
  simp only
  split
  · rfl
  · rfl
  · split <;> rfl

theorem removeInputs_inputs (a k : Nat) (e : Ed δ) : (removeInputs a k e).1.inputs = e.inputs := by
  induction k generalizing e with
  | zero => rfl
  | succ k ih =>
    rw [removeInputs]
    split
    · rfl
    · rename_i v hv
      split
      · have h := removeInputFromStep_inputs (e.inputs.idxOf v : Nat) e
        split
        · rename_i e1 h1
          rw [h1] at h
          rw [ih, h]
        · rename_i e1 err h1
          rw [h1] at h
          exact h
      · rfl

theorem removeStep_inputs (k : Int) (e : Ed δ) : (removeStep k e).1.inputs = e.inputs := by
  unfold removeStep
  split
  · rfl
  · rename_i a ha
    have h := removeInputs_inputs a (e.obj a).inputs.length e
    split
    · rename_i e1 err h1
      rw [h1] at h
      exact h
    · rename_i e1 h1
      rw [h1] at h
      split <;> exact h

theorem resetLoop_inputs (k : Nat) (e : Ed δ) : (resetLoop k e).1.inputs = e.inputs := by
  induction k generalizing e with
  | zero => rfl
  | succ k ih =>
    have h := removeStep_inputs (k : Int) e
    rw [resetLoop]
    split
    · rename_i e1 h1
      rw [h1] at h
      rw [ih, h]
    · rename_i e1 err h1
      rw [h1] at h
      exact h

theorem gatherInputs_inputs (p : List Nat) (k : Int) (vs : List Nat) (e : Ed δ) : (gatherInputs p k vs e).1.inputs = e.inputs := by
  induction vs generalizing e with
  | nil => rfl
  | cons v vs ih =>
    have h := changeInputStep_inputs (e.inputs.idxOf v : Nat) k e
    rw [gatherInputs]
    split
    · exact ih e
    · split
      · split
        · rename_i e1 h1
          rw [h1] at h
          rw [ih, h]
        · rename_i e1 err h1
          rw [h1] at h
          exact h
      · rfl

/-- An edition of the steps keeps the list of inputs. -/
theorem run_inputs (e : Ed δ) (op : EditOp δ) : (op.run e).1.inputs = e.inputs := by
  cases op with
  | changeInputs is k => exact changeInputsStep_inputs is k e
  | removeInput i => exact removeInputFromStep_inputs i e
  | reorderInputs k o =>
    show (reorderStepInputs k o e).1.inputs = e.inputs
    unfold reorderStepInputs
    split
    · rfl
    · split
      · split <;> rfl
      · rfl
  | insert l k => rfl
  | rename k l =>
    show (renameStep k l e).1.inputs = e.inputs
    unfold renameStep
    split <;> rfl
  | document k t =>
    show (saveStepDocumentation k t e).1.inputs = e.inputs
    unfold saveStepDocumentation
    split <;> rfl
  | reorder o =>
    show (reorderSteps o e).1.inputs = e.inputs
    unfold reorderSteps
    split
    · rfl
    · split
      · rfl
      · split <;> rfl
  | remove k => exact removeStep_inputs k e
  | reset => exact resetLoop_inputs _ e
  | addDisplay u v k d =>
    show (addStepDisplay u v k d e).1.inputs = e.inputs
    unfold addStepDisplay
    simp only
    have h := gatherInputs_inputs ((Py.prefixSlice e.steps k).flatMap fun a => (e.obj a).inputs) k u e
    split
    · rename_i e1 err h1
      rw [h1] at h
      exact h
    · rename_i e1 h1
      rw [h1] at h
      split
      · exact h
      · split <;> exact h
  | removeDisplay k =>
    show (removeStepDisplay k e).1.inputs = e.inputs
    unfold removeStepDisplay
    split <;> rfl

theorem EditorOk.change {E E' : Editor α τ δ} (h : EditorOk E) {op : FormOp α δ} {F : RunForm α τ δ} (hop : Edited E op E' F)
    (hc : ∀ o, op = .step o → Careful E.ed o) : EditorOk E' := by
  obtain ⟨h1, h2⟩ := hop.change
  have hg := change_graph h1
  have hed : Sound E'.ed ∧ E'.ed.inputs = E.ed.inputs := by
    rcases change_ed h1 with he | ⟨o, ho, he⟩
    · rw [he]; exact ⟨h.sound, rfl⟩
    · rw [he]; exact ⟨C33_step h.sound (hc o ho), run_inputs E.ed o⟩
  have hin : E'.ed.inputs = Wkf.inputs E'.base := by rw [hed.2, h.inputs, hg.inputs]
  refine ⟨hg.wf h.wf, fun v hv => ?_, hed.1, hin⟩
  by_cases hvi : v ∈ Wkf.inputs E.base
  · refine runForm_locks h2 (hed.1.perm.mem_iff.2 ?_) hv
    rw [hin, hg.inputs]
    exact hvi
  · obtain ⟨h3, h4⟩ := change_others h1 hvi
    rw [h4]
    exact h.locks v (h3 ▸ hv)

theorem EditorOk.history {E E' : Editor α τ δ} (h : EditorOk E) (hh : EditedFrom E E') : EditorOk E' ∧ SameGraph E.base E'.base := by
  induction hh with
  | start => exact ⟨h, rfl, rfl, rfl⟩
  | edit _ hop hc ih =>
    obtain ⟨i1, i2, i3, i4⟩ := ih
    obtain ⟨g1, g2, g3⟩ := change_graph hop.change.1
    exact ⟨i1.change hop hc, g1.trans i2, g2.trans i3, g3.trans i4⟩

/-- **C117** After any history of editions of inputs and (careful) editions of steps which return, the form shows each input once, as it
is.  Missing: editions of steps which are not careful (those of C33), and those which raise. -/
theorem C117_history_partial {E E' : Editor α τ δ} (h : EditorOk E) (hh : EditedFrom E E') : ∃ F, runForm E' = .ok F ∧
    F.steps = E'.ed.steps.map (fun a => stepOf E' (E'.ed.obj a)) ∧ F.spare = E'.ed.spare.map (entryOf E') ∧
    F.entries.Perm ((inputs E.base).map (entryOf E')) := by
  obtain ⟨h1, h2⟩ := h.history hh
  obtain ⟨F, a, b, c, d⟩ := C117_form h1.wf h1.locks h1.sound h1.inputs
  exact ⟨F, a, b, c, h2.inputs ▸ d⟩

/-- **C118** After any history of editions which return, the workflow can be run as soon as its inputs without default value are
given.  Missing: the editions which raise (`C118_locked_violated`). -/
theorem C118_runnable_partial {E E' : Editor α τ δ} (h : EditorOk E) (hh : EditedFrom E E') {o : Nat} (ho : OutputOf E.base o) (ht : Total E.base)
    (so : SetOrder) (user : List (Nat × α)) (hu : ∀ x ∈ user, x.1 < (inputs E.base).length)
    (hreq : ∀ (k : Nat) v, (inputs E.base)[k]? = some v → E'.base.default v = none → (user.lookup k).isSome) :
    ∃ s, run E'.base so user = .ok (some s) := by
  obtain ⟨h1, h2⟩ := h.history hh
  refine C27_completes h1.wf h1.locks (o := o) ?_ ?_ so user (by rw [h2.inputs]; exact hu) (fun k hk => ?_)
  · unfold OutputOf
    rw [h2.1, h2.2.2]
    exact ho
  · unfold Total
    rw [h2.1]
    exact ht
  · rw [h2.inputs] at hk
    have hv : (inputs E.base)[k]? = some ((inputs E.base)[k]) := List.getElem?_eq_getElem hk
    unfold expected
    rw [h2.inputs, hv]
    simp only
    cases hl : E'.base.lockFlag (inputs E.base)[k] with
    | true => simpa using h1.locks _ hl
    | false =>
      simp only [Bool.false_eq_true, if_false]
      cases hd : E'.base.default (inputs E.base)[k] with
      | some d => cases user.lookup k <;> rfl
      | none =>
        have := hreq k _ hv hd
        cases hx : user.lookup k with
        | none => rw [hx] at this; cases this
        | some x => rfl

theorem expected_of {W W' : Workflow α} (hg : SameGraph W W') {user : List (Nat × α)} {k v : Nat} (hk : (inputs W)[k]? = some v) :
    expected W' user k = if W'.lockFlag v then W'.default v else match user.lookup k with
      | some x => some x
      | none => W'.default v := by
  unfold expected
  simp only [hg.inputs, hk]
  cases W'.lockFlag v <;> cases user.lookup k <;> rfl

theorem nodup_index {W : Workflow α} (hw : WellFormed W) {j k v : Nat} (hj : (inputs W)[j]? = some v) (hk : (inputs W)[k]? = some v) : j = k := by
  have h1 := inputIndex_input hw.distinct hj (hw.input_free (List.mem_of_getElem? hj))
  have h2 := inputIndex_input hw.distinct hk (hw.input_free (List.mem_of_getElem? hk))
  rw [h1] at h2
  simpa using h2

/-- **C118** An input which is locked has the value it was locked with in every run, whatever the user gives for it; the values of
the other inputs are what they were. -/
theorem C118_lock {E E' : Editor α τ δ} (hw : WellFormed E.base) {i : Int} {n : Nat} {x : Option α} {F : RunForm α τ δ}
    (h : Edited E (.lockInput i x) E' F) (hn : Py.idx (inputs E.base).length i = some n) (user : List (Nat × α)) :
    (∃ v, (inputs E.base)[n]? = some v ∧ (lockedValue E.base v x).isSome ∧ expected E'.base user n = lockedValue E.base v x) ∧
    ∀ k, k ≠ n → expected E'.base user k = expected E.base user k := by
  have hg := change_graph h.change.1
  have h1 := h.change.1
  have hv : (inputs E.base)[n]? = some ((inputs E.base)[n]'(Py.idx_lt hn)) := List.getElem?_eq_getElem _
  simp only [FormOp.change, Py.get_ok.2 ⟨n, hn, hv⟩] at h1
  split at h1
  · simp at h1
  · rename_i W' hW
    simp only [Prod.mk.injEq, and_true] at h1
    obtain ⟨-, l1, l2, l3⟩ := lockVar_ok hW
    rw [← h1] at hg ⊢
    simp only at hg ⊢
    refine ⟨⟨_, hv, l3, ?_⟩, fun k hk => ?_⟩
    · rw [expected_of hg hv, l1, l2]
      simp [setAt]
    · cases hkv : (inputs E.base)[k]? with
      | none => unfold expected; rw [hg.inputs, hkv]
      | some u =>
        have hne : u ≠ (inputs E.base)[n]'(Py.idx_lt hn) := fun he => hk (nodup_index hw (he ▸ hkv) hv)
        rw [expected_of hg hkv, expected_of (W' := E.base) ⟨rfl, rfl, rfl⟩ hkv, l1, l2]
        simp only [setAt, if_neg hne]

/-- **C118** A default value is the value of the input in the runs in which the user gives none, and in all runs if the input is locked;
the values of the other inputs are what they were. -/
theorem C118_default {E E' : Editor α τ δ} (hw : WellFormed E.base) {i : Int} {n : Nat} {x : Option α} {F : RunForm α τ δ}
    (h : Edited E (.setDefault i x) E' F) (hn : Py.idx (inputs E.base).length i = some n) (user : List (Nat × α)) :
    (∃ v, (inputs E.base)[n]? = some v ∧ E'.base.lockFlag v = E.base.lockFlag v ∧
      expected E'.base user n = if E.base.lockFlag v then x else match user.lookup n with
        | some y => some y
        | none => x) ∧
    ∀ k, k ≠ n → expected E'.base user k = expected E.base user k := by
  have hg := change_graph h.change.1
  have h1 := h.change.1
  have hv : (inputs E.base)[n]? = some ((inputs E.base)[n]'(Py.idx_lt hn)) := List.getElem?_eq_getElem _
  simp only [FormOp.change, setDefaultAt, Py.get_ok.2 ⟨n, hn, hv⟩, Prod.mk.injEq, and_true] at h1
  rw [← h1] at hg ⊢
  simp only at hg ⊢
  refine ⟨⟨_, hv, trivial, ?_⟩, fun k hk => ?_⟩
  · rw [expected_of hg hv]
    simp [setAt]
  · cases hkv : (inputs E.base)[k]? with
    | none => unfold expected; rw [hg.inputs, hkv]
    | some u =>
      have hne : u ≠ (inputs E.base)[n]'(Py.idx_lt hn) := fun he => hk (nodup_index hw (he ▸ hkv) hv)
      rw [expected_of hg hkv, expected_of (W' := E.base) ⟨rfl, rfl, rfl⟩ hkv]
      simp only [setAt, if_neg hne]

theorem resetDefault_eq (E : Editor α τ δ) (i : Int) : (FormOp.resetDefault i : FormOp α δ).run E = (FormOp.setDefault i none : FormOp α δ).run E := rfl

/-- **C118** An input whose default value is reset must be given in each run: a run without it raises. -/
theorem C118_reset {E E' : Editor α τ δ} (hw : WellFormed E.base) {i : Int} {n : Nat} {F : RunForm α τ δ}
    (h : Edited E (.resetDefault i) E' F) (hn : Py.idx (inputs E.base).length i = some n) (so : SetOrder) (user : List (Nat × α))
    (hu : user.lookup n = none) : ∃ e, run E'.base so user = .error e := by
  have hg := change_graph h.change.1
  have h1 := h.change.1
  have hv : (inputs E.base)[n]? = some ((inputs E.base)[n]'(Py.idx_lt hn)) := List.getElem?_eq_getElem _
  simp only [FormOp.change, setDefaultAt, Py.get_ok.2 ⟨n, hn, hv⟩, Prod.mk.injEq, and_true] at h1
  have hv' : (inputs E'.base)[n]? = some ((inputs E.base)[n]'(Py.idx_lt hn)) := by rw [hg.inputs]; exact hv
  refine (C30_missing (hg.wf hw) so user hv' hu ?_).1
  rw [← h1]
  simp [setAt]

/-- **C118** The label of an input is its title in the form; a label has no effect on the values. -/
theorem C118_rename {E E' : Editor α τ δ} {i : Int} {n v : Nat} {l : String} {F : RunForm α τ δ}
    (h : Edited E (.renameInput i l) E' F) (hn : Py.idx (inputs E.base).length i = some n) (hv : (inputs E.base)[n]? = some v) :
    E'.base = E.base ∧ (l ≠ "" → (entryOf E' v).1.title = l) ∧ ∀ u, u ≠ v → entryOf E' u = entryOf E u := by
  have h1 := h.change.1
  simp only [FormOp.change, Py.get_ok.2 ⟨n, hn, hv⟩, Prod.mk.injEq, and_true] at h1
  subst h1
  refine ⟨rfl, fun hl => ?_, fun u hu => ?_⟩
  · simp [entryOf, inputTitle, setAt, hl]
  · simp [entryOf, inputTitle, setAt, hu]

theorem allowedValues_locked {W : Workflow α} {n v : Nat} (hv : (inputs W)[n]? = some v) (hl : W.lockFlag v = true) (hd : W.default v = none)
    {user a : List (Nat × α)} (h : allowedValues W user = .ok a) : user.lookup n = none := by
  induction user generalizing a with
  | nil => rfl
  | cons x user ih =>
    obtain ⟨k, x⟩ := x
    rw [allowedValues] at h
    split at h
    · simp at h
    · rename_i u hu
      rw [bind_ok] at h
      obtain ⟨c, h1, h⟩ := h
      rw [bind_ok] at h
      obtain ⟨r, h2, -⟩ := h
      by_cases hk : n = k
      · subst hk
        rw [hv] at hu
        cases hu
        simp [locked, hl, hd] at h1
      · have hne : (n == k) = false := by simpa using hk
        rw [List.lookup_cons, hne]
        exact ih h2

/-- **C118** Resetting the default value of a locked input raises, but the input is left locked without default value: then every run
raises, and so does the edition of the label of any input. -/
theorem C118_locked_violated {E : Editor α τ δ} (h : EditorOk E) {n v : Nat} (hv : (inputs E.base)[n]? = some v) (hl : E.base.lockFlag v = true) :
    ∃ E' e, (FormOp.resetDefault (n : Int) : FormOp α δ).run E = (E', .error e) ∧ (∀ so user, ∃ e, run E'.base so user = .error e) ∧
      ∀ i l, ∃ e, ((FormOp.renameInput i l : FormOp α δ).run E').2 = .error e := by
  have hin : v ∈ E.ed.placed := h.sound.perm.mem_iff.2 (h.inputs ▸ List.mem_of_getElem? hv)
  have hn : Py.idx (inputs E.base).length (n : Int) = some n := by
    rw [Py.idx_nat, if_pos (List.getElem?_eq_some_iff.1 hv).1]
  have hfail : ∀ E' : Editor α τ δ, E'.ed = E.ed → E'.base.lockFlag v = true → E'.base.default v = none → ∃ e, runForm E' = .error e := by
    intro E' h1 h2 h3
    cases hF : runForm E' with
    | error e => exact ⟨e, rfl⟩
    | ok F =>
      have := runForm_locks hF (by rw [h1]; exact hin) h2
      rw [h3] at this
      cases this
  have hd : setAt E.base.default v none v = none := by simp [setAt]
  obtain ⟨e, he⟩ := hfail { E with base := { E.base with default := setAt E.base.default v none } } rfl hl hd
  refine ⟨{ E with base := { E.base with default := setAt E.base.default v none } }, e, ?_, fun so user => ?_, fun i l => ?_⟩
  · unfold FormOp.run
    simp only [FormOp.change, setDefaultAt, Py.get_ok.2 ⟨n, hn, hv⟩, he]
  · have hg : SameGraph E.base { E.base with default := setAt E.base.default v none } := ⟨rfl, rfl, rfl⟩
    have hv' : (inputs { E.base with default := setAt E.base.default v none })[n]? = some v := by rw [hg.inputs]; exact hv
    cases hr : run { E.base with default := setAt E.base.default v none } so user with
    | error e => exact ⟨e, rfl⟩
    | ok r =>
      obtain ⟨vals, s0, s1, rt, h1, -⟩ := run_ok hr
      unfold inputValues at h1
      rw [bind_ok] at h1
      obtain ⟨a, h1, -⟩ := h1
      have hu := allowedValues_locked hv' hl hd h1
      rw [← hr]
      exact (C30_missing (hg.wf h.wf) so user hv' hu hd).1
  · unfold FormOp.run
    simp only [FormOp.change]
    split
    · rename_i h1
      split at h1
      · exact ⟨_, rfl⟩
      · simp at h1
    · rename_i E2 h1
      split at h1
      · simp at h1
      · simp only [Prod.mk.injEq, and_true] at h1
        subst h1
        exact hfail _ rfl hl hd

/-! ### Examples -/

/-- The workflow `exW`, whose inputs are 0, 6 and 10, with one step and its group. -/
def exForm : Editor Int Nat Unit where
  base := exW
  label v := if v = 6 then "Six" else ""
  auto v := "auto " ++ toString v
  typ v := v
  ed := Ed.init [0, 6, 10] [{ label := "Step", inputs := [10, 0], groupInputs := [0] }]

theorem exForm_ok : EditorOk exForm :=
  ⟨exW_wf, exW_locks, C33_init (by decide) (by decide) (by decide), exW_inputs.symm⟩

theorem edited_of {E : Editor α τ δ} {op : FormOp α δ} (h : (op.run E).2.isOk = true) : ∃ F, Edited E op (op.run E).1 F := by
  unfold Edited
  rcases hr : op.run E with ⟨E', r⟩
  rw [hr] at h
  cases r with
  | ok F => exact ⟨F, rfl⟩
  | error e => cases h

/-- An edition of each sort: the first input is locked to 3, the second one receives a default value and a label, the third one leaves
its step. -/
def exForm1 : Editor Int Nat Unit := ((.lockInput 0 (some 3) : FormOp Int Unit).run exForm).1
def exForm2 : Editor Int Nat Unit := ((.setDefault 1 (some 4) : FormOp Int Unit).run exForm1).1
def exForm3 : Editor Int Nat Unit := ((.renameInput (-2) "Second" : FormOp Int Unit).run exForm2).1
def exForm4 : Editor Int Nat Unit := ((.step (.removeInput 2) : FormOp Int Unit).run exForm3).1

theorem exForm4_from : EditedFrom exForm exForm4 := by
  obtain ⟨F1, h1⟩ := edited_of (E := exForm) (op := .lockInput 0 (some 3)) (by decide +kernel)
  obtain ⟨F2, h2⟩ := edited_of (E := exForm1) (op := .setDefault 1 (some 4)) (by decide +kernel)
  obtain ⟨F3, h3⟩ := edited_of (E := exForm2) (op := .renameInput (-2) "Second") (by decide +kernel)
  obtain ⟨F4, h4⟩ := edited_of (E := exForm3) (op := .step (.removeInput 2)) (by decide +kernel)
  refine .edit (.edit (.edit (.edit .start h1 (by simp)) h2 (by simp)) h3 (by simp)) h4 (fun o ho => ?_)
  simp only [FormOp.step.injEq] at ho
  subst ho
  intro v hv
  change Py.get exForm3.ed.inputs 2 = .ok v at hv
  have : Py.get exForm3.ed.inputs 2 = .ok 10 := rfl
  rw [this] at hv
  cases hv
  show 10 ∉ exForm3.ed.spare
  decide +kernel

example : (match runForm exForm4 with
    | .ok F => decide (F.entries = [(⟨some 0, some 3, false, "auto 0"⟩, 0), (⟨some 1, some 4, true, "Second"⟩, 6), (⟨some 2, none, true, "auto 10"⟩, 10)])
    | .error _ => false) = true := by decide +kernel

/-- **C117** is violated after an edition which raises: asking to remove a spare input from its step raises, and the form then shows this
input twice. -/
theorem C117_violated : ∃ (E : Editor Int Nat Unit) (e : PyErr), EditorOk E ∧
    ((FormOp.step (.removeInput 1) : FormOp Int Unit).run E).2.isOk = false ∧
    ((FormOp.step (.removeInput 1) : FormOp Int Unit).change E).2 = some e ∧
    (match runForm ((FormOp.step (.removeInput 1) : FormOp Int Unit).run E).1 with
      | .ok F => decide (F.spare.map (fun x => x.1.key) = [some 1, some 1])
      | .error _ => false) = true :=
  ⟨exForm, .attributeError, exForm_ok, by decide +kernel, by rfl, by decide +kernel⟩

/-- Only the last input must be given, and what is given for the first one is ignored. -/
example : ∃ s, run exForm4.base dedupOrder [(2, 5), (0, 9)] = .ok (some s) := by
  refine C118_runnable_partial exForm_ok exForm4_from exW_output exW_total dedupOrder _ (by decide) (fun k v hk hd => ?_)
  rw [show inputs exForm.base = [0, 6, 10] from exW_inputs] at hk
  match k with
  | 0 => cases hk; revert hd; decide +kernel
  | 1 => cases hk; revert hd; decide +kernel
  | 2 => rfl
  | k + 3 => simp at hk

/-- The input locked in `exForm1`, once reset, cannot be repaired by a label. -/
example : ∃ E' e, (FormOp.resetDefault 0 : FormOp Int Unit).run exForm1 = (E', .error e) ∧ (∀ so user, ∃ e, run E'.base so user = .error e) ∧
    ∀ i l, ∃ e, ((FormOp.renameInput i l : FormOp Int Unit).run E').2 = .error e := by
  obtain ⟨F1, h1⟩ := edited_of (E := exForm) (op := .lockInput 0 (some 3)) (by decide +kernel)
  exact C118_locked_violated (n := 0) (v := 0) (exForm_ok.change h1 (by simp)) rfl rfl

end DC.Wkf
