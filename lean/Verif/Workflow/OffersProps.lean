import Verif.Workflow.Offers
import Verif.Workflow.DisplayEnd
import Verif.Views.DisplayProps
/- Properties C138 and C139: the displays and exports which a run offers show and write what their blocks give. -/
namespace DC.Wkf
set_option linter.unusedSectionVars false

open DC.Txt (Display displayFromSelector)
open DC.View (Content Data Shown serialized mkShown)

variable {α : Type} {W : Workflow α}

/-! ### Specification -/

/-- Specification: the display blocks of a workflow, in order. -/
def shownBlocks (W : Workflow α) (F : Nat → Face) : List Nat :=
  (List.range W.blocks.length).filter fun i => (F i).isDisplay

/-- Specification: the setting which a display block must have, when the pipe `m` enters the input that it displays. -/
def settingFor (F : Nat → Face) (L : Nat → Look) (i m : Nat) : Display where
  selector := some (blockSelector F i)
  type := displayType (F i)
  method := "block_display"
  arguments := [("block_index", .int i), ("reference_path", .str ("#/values/" ++ toString m))]
  serializeData := (L i).serialize
  loadByDefault := (L i).load

/-- Specification: each display has a view as selector, and its displayed input comes from a pipe. -/
def Offered (W : Workflow α) (F : Nat → Face) (L : Nat → Look) : Prop :=
  ∀ i ∈ shownBlocks W F, (L i).viewed = true ∧ ∃ m p, ShownBy W F i m p

/-- Specification: what is shown of a value: it is serialized if asked, and a markdown which is not empty is cleaned. -/
def rendered (D : Data α) (type : String) (ser : Bool) (y : α) : Except PyErr α :=
  match if ser then D.ser y else .ok y with
  | .error e => .error e
  | .ok x => if type = "markdown" ∧ D.truthy x = true then D.clean x else .ok x

/-! ### The settings -/

theorem blockSetting_ok (hw : WellFormed W) {F : Nat → Face} {L : Nat → Look} {i m : Nat} {p : Pipe} (hv : (L i).viewed = true)
    (hp : ShownBy W F i m p) : blockSetting W F L i = .ok (settingFor F L i m) := by
  simp only [blockSetting, referencePipe_of hw hp, hv, if_true]
  rfl

theorem settingsLoop_ok (hw : WellFormed W) {F : Nat → Face} {L : Nat → Look} (l : List Nat)
    (h : ∀ i ∈ l, (L i).viewed = true ∧ ∃ m p, ShownBy W F i m p) :
    ∃ ss, settingsLoop W F L l = .ok ss ∧ List.Forall₂ (fun i d => ∃ m p, ShownBy W F i m p ∧ d = settingFor F L i m) l ss := by
  induction l with
  | nil => exact ⟨[], rfl, .nil⟩
  | cons i l ih =>
    obtain ⟨ss, h1, h2⟩ := ih fun j hj => h j (.tail _ hj)
    obtain ⟨hv, m, p, hp⟩ := h i (.head _)
    refine ⟨settingFor F L i m :: ss, ?_, .cons ⟨m, p, hp, rfl⟩ h2⟩
    simp only [settingsLoop, blockSetting_ok hw hv hp, h1]

theorem any_load {F : Nat → Face} {L : Nat → Look} {l : List Nat} {ss : List Display}
    (h : List.Forall₂ (fun i d => ∃ m p, ShownBy W F i m p ∧ d = settingFor F L i m) l ss) :
    ss.any (·.loadByDefault) = l.any fun i => (L i).load := by
  induction h with
  | nil => rfl
  | cons h _ ih =>
    obtain ⟨m, p, -, rfl⟩ := h
    simp only [List.any_cons, ih, settingFor]

/-- **C138** (settings): when each display has a view and a pipe to its displayed input, the run offers its documentation, then one display
for each display block, in order, under its selector, with its type, which shows this block with the path of what it displays.  The
documentation is loaded by default exactly when no block is. -/
theorem C138_settings (hw : WellFormed W) (F : Nat → Face) (L : Nat → Look) (ho : Offered W F L) :
    ∃ d ss, runSettings W F L = .ok (d :: ss) ∧ d.selector = some "Documentation" ∧ d.type = "markdown" ∧ d.method = "to_markdown" ∧
      d.arguments = [] ∧ d.serializeData = false ∧ (d.loadByDefault = true ↔ ∀ i ∈ shownBlocks W F, (L i).load = false) ∧
      List.Forall₂ (fun i d => ∃ m p, ShownBy W F i m p ∧ d = settingFor F L i m) (shownBlocks W F) ss := by
  obtain ⟨ss, h1, h2⟩ := settingsLoop_ok hw (shownBlocks W F) ho
  refine ⟨documentation ss, ss, ?_, rfl, rfl, rfl, rfl, rfl, ?_, h2⟩
  · have : blocksSettings W F L = .ok ss := h1
    simp only [runSettings, this]
  · simp only [documentation, Display.init, any_load h2]
    simp

/-! ### What is shown -/

theorem call_block (S : Stage α) (s : St α) (i m : Nat) :
    S.call s (settingFor S.F S.L i m) = blockDisplay S.W S.so S.F S.vw s i := by
  unfold Stage.call
  rw [if_pos (by rfl)]
  have : (settingFor S.F S.L i m).arguments.lookup "block_index" = some (.int i) := by
    simp [settingFor]
  rw [this]
  simp

theorem path_block (F : Nat → Face) (L : Nat → Look) (i m : Nat) :
    (settingFor F L i m).referencePath = "#/values/" ++ toString m := by
  have : (settingFor F L i m).arguments.lookup "reference_path" = some (.str ("#/values/" ++ toString m)) := by
    simp [settingFor, List.lookup_cons]
  unfold Display.referencePath
  rw [this]

theorem shown_rendered (D : Data α) (d : Display) (y : α) (path : String) (s : St α) :
    (match serialized D d (some y) with
      | .error e => (Except.error e : Except PyErr (St α × Shown α))
      | .ok x => match mkShown D d.type x path false with
        | .error e => .error e
        | .ok r => .ok (s, r)) =
    match rendered D d.type d.serializeData y with
      | .error e => .error e
      | .ok x => .ok (s, ⟨d.type, some x, path, false⟩) := by
  simp only [serialized, rendered]
  cases hs : d.serializeData
  · simp only [Bool.false_eq_true, if_false, mkShown]
    by_cases ht : D.truthy y = true ∧ d.type = "markdown"
    · rw [if_pos (by simp [ht.1, ht.2]), if_pos ht.symm]
      cases D.clean y <;> rfl
    · rw [if_neg (by simpa using ht), if_neg fun h => ht h.symm]
  · simp only [if_true]
    cases D.ser y with
    | error e => rfl
    | ok x =>
      simp only [mkShown]
      by_cases ht : D.truthy x = true ∧ d.type = "markdown"
      · rw [if_pos (by simp [ht.1, ht.2]), if_pos ht.symm]
        cases D.clean x <;> rfl
      · rw [if_neg (by simpa using ht), if_neg fun h => ht h.symm]

/-- The display of a block which is evaluated. -/
theorem shows_block (S : Stage α) (s s' : St α) (i m : Nat) (y : α) (h : blockDisplay S.W S.so S.F S.vw s i = .ok (s', y)) :
    S.shows s (settingFor S.F S.L i m) = match rendered S.data (displayType (S.F i)) (S.L i).serialize y with
      | .error e => .error e
      | .ok x => .ok (s', ⟨displayType (S.F i), some x, "#/values/" ++ toString m, false⟩) := by
  unfold Stage.shows
  rw [call_block, h]
  simp only [path_block]
  exact shown_rendered S.data (settingFor S.F S.L i m) y ("#/values/" ++ toString m) s'

/-- The display of a block whose evaluation raises. -/
theorem shows_failed (S : Stage α) (s : St α) (i m : Nat) (e : PyErr) (h : blockDisplay S.W S.so S.F S.vw s i = .error e) :
    S.shows s (settingFor S.F S.L i m) = .ok (s, ⟨displayType (S.F i), none, "#/values/" ++ toString m, true⟩) := by
  unfold Stage.shows
  rw [call_block, h]
  simp only [path_block]
  rfl

theorem ShownBy.unique (hw : WellFormed W) {F : Nat → Face} {i m m' : Nat} {p p' : Pipe} (h : ShownBy W F i m p) (h' : ShownBy W F i m' p') :
    m = m' := by
  have := referencePipe_of hw h
  rw [referencePipe_of hw h'] at this
  simpa using this.symm

theorem forall₂_left {β γ : Type} {R : β → γ → Prop} {l : List β} {l' : List γ} (h : List.Forall₂ R l l') {x : β} (hx : x ∈ l) :
    ∃ y ∈ l', R x y := by
  induction h with
  | nil => simp at hx
  | cons h _ ih =>
    rcases List.mem_cons.1 hx with rfl | hx
    · exact ⟨_, .head _, h⟩
    · obtain ⟨y, hy, hr⟩ := ih hx
      exact ⟨y, .tail _ hy, hr⟩

theorem forall₂_right {β γ : Type} {R : β → γ → Prop} {l : List β} {l' : List γ} (h : List.Forall₂ R l l') {y : γ} (hy : y ∈ l') :
    ∃ x ∈ l, R x y := by
  induction h with
  | nil => simp at hy
  | cons h _ ih =>
    rcases List.mem_cons.1 hy with rfl | hy
    · exact ⟨_, .head _, h⟩
    · obtain ⟨x, hx, hr⟩ := ih hy
      exact ⟨x, .tail _ hx, hr⟩

/-- The setting found by the selector of a block. -/
theorem find_block (hw : WellFormed W) {F : Nat → Face} {L : Nat → Look} (ho : Offered W F L) {i m : Nat} {p : Pipe}
    (hi : i ∈ shownBlocks W F) (hp : ShownBy W F i m p) (hdoc : blockSelector F i ≠ "Documentation")
    (huniq : ∀ j ∈ shownBlocks W F, blockSelector F j = blockSelector F i → j = i) {ss : List Display}
    (hs : runSettings W F L = .ok ss) : displayFromSelector ss (some (blockSelector F i)) = .ok (settingFor F L i m) := by
  obtain ⟨d, ss', h1, h2, -, -, -, -, -, h3⟩ := C138_settings hw F L ho
  rw [hs] at h1
  cases h1
  have hf : (d :: ss').find? (fun d => d.selector == some (blockSelector F i)) = some (settingFor F L i m) := by
    obtain ⟨d', hd', m', p', hp', rfl⟩ := forall₂_left h3 hi
    cases hf : (d :: ss').find? (fun d => d.selector == some (blockSelector F i)) with
    | none =>
      rw [List.find?_eq_none] at hf
      exact absurd (hf _ (.tail _ hd')) (by simp [settingFor])
    | some x =>
      have hx := List.find?_some hf
      simp only [beq_iff_eq] at hx
      rcases List.mem_cons.1 (List.mem_of_find?_eq_some hf) with rfl | hm
      · rw [h2] at hx
        exact absurd (by simpa using hx.symm) hdoc
      · obtain ⟨j, hj, mj, pj, hpj, rfl⟩ := forall₂_right h3 hm
        obtain rfl := huniq j hj (by simpa [settingFor] using hx)
        rw [hpj.unique hw hp]
  simp only [displayFromSelector, hf]

/-- **C138** (result): on a run, whatever displays and exports were asked before, asking a display by its selector shows the first value
which the block gives on the values that its inputs must hold, with the type of the block and the path of what it displays; a block which gives
nothing is shown as failed.

Missing: a block which leads to the output, two displays with the same selector or one with the selector of the documentation, deprecated
displays, displayed inputs which come from no pipe. -/
theorem C138_partial (S : Stage α) (hw : WellFormed S.W) (hl : LocksOk S.W) (hlen : Arity S.W) {so' : SetOrder} {o : Nat}
    (ho : OutputOf S.W o) (hs : setUp S.W S.so S.F = .ok S.vw) {user : List (Nat × α)} {s : St α}
    (h : run S.W so' user = .ok (some s)) (hoff : Offered S.W S.F S.L) {i m : Nat} {p : Pipe} (hi : i ∈ shownBlocks S.W S.F)
    (hp : ShownBy S.W S.F i m p) (hni : ¬ Leads S.W i) (hdoc : blockSelector S.F i ≠ "Documentation")
    (huniq : ∀ j ∈ shownBlocks S.W S.F, blockSelector S.F j = blockSelector S.F i → j = i)
    (hev : ∀ j b xs, Missing S.W i j → S.W.blocks[j]? = some b → xs.length = b.inputs.length →
      (∀ vx ∈ b.inputs.zip xs, Den S.W (expected S.W user) vx.1 vx.2) → ∃ ys, b.eval xs = .ok ys) :
    ∃ r, keepRun S.W S.vw s = .ok r ∧ ∀ t, Viewed S.W S.so S.F S.vw r t → ∃ ys, Gives S.W (expected S.W user) i ys ∧ match ys with
      | [] => S.display t (blockSelector S.F i) = .ok (t, ⟨displayType (S.F i), none, "#/values/" ++ toString m, true⟩)
      | y :: _ => match rendered S.data (displayType (S.F i)) (S.L i).serialize y with
        | .error e => S.display t (blockSelector S.F i) = .error e
        | .ok x => ∃ t', S.display t (blockSelector S.F i) = .ok (t', ⟨displayType (S.F i), some x, "#/values/" ++ toString m, false⟩) ∧
            Viewed S.W S.so S.F S.vw r t' := by
  have hi' := List.mem_filter.1 hi
  have hil : i < S.W.blocks.length := by simpa using hi'.1
  obtain ⟨d, ss, hset, -⟩ := C138_settings hw S.F S.L hoff
  have hfind := find_block hw hoff hi hp hdoc huniq hset
  obtain ⟨r, hr, hall⟩ := C108_display_partial hw hl hlen ho hs h hil hi'.2 hni
    (fun j hj hd => huniq j (List.mem_filter.2 ⟨by simpa using hj, hd⟩)) hev
  refine ⟨r, hr, fun t ht => ?_⟩
  obtain ⟨ys, hg, hm⟩ := hall t ht
  refine ⟨ys, hg, ?_⟩
  have hdisp : S.display t (blockSelector S.F i) = S.shows t (settingFor S.F S.L i m) := by
    simp only [Stage.display, hset, hfind]
  cases ys with
  | nil =>
    show S.display t (blockSelector S.F i) = _
    rw [hdisp]
    exact shows_failed S t i m _ hm
  | cons y ys =>
    obtain ⟨t', l, hb, -⟩ := hm
    show (match rendered S.data (displayType (S.F i)) (S.L i).serialize y with
        | .error e => S.display t (blockSelector S.F i) = .error e
        | .ok x => ∃ t', S.display t (blockSelector S.F i) = .ok (t', ⟨displayType (S.F i), some x, "#/values/" ++ toString m, false⟩) ∧
            Viewed S.W S.so S.F S.vw r t')
    have := shows_block S t t' i m y hb
    rw [hdisp, this]
    cases rendered S.data (displayType (S.F i)) (S.L i).serialize y with
    | error e => rfl
    | ok x => exact ⟨t', rfl, .display ht hb⟩

/-- **C138** (documentation): the selector of the documentation always shows the markdown of the run, cleaned if it is not empty. -/
theorem C138_documentation (S : Stage α) (hw : WellFormed S.W) (hoff : Offered S.W S.F S.L) (s : St α) (x : α) (hx : S.doc s = .ok x) :
    S.display s "Documentation" = match rendered S.data "markdown" false x with
      | .error e => .error e
      | .ok y => .ok (s, ⟨"markdown", some y, "#", false⟩) := by
  obtain ⟨d, ss, hset, h1, h2, h3, h4, h5, -⟩ := C138_settings hw S.F S.L hoff
  have hfind : displayFromSelector (d :: ss) (some "Documentation") = .ok d := by
    simp only [displayFromSelector, List.find?_cons, h1, beq_self_eq_true]
  have hcall : S.call s d = .ok (s, x) := by
    unfold Stage.call
    rw [if_neg (by rw [h3]; decide), if_pos (by rw [h3]; rfl), hx]
  have hpath : d.referencePath = "#" := by
    unfold Display.referencePath
    rw [h4]; rfl
  have := shown_rendered S.data d x "#" s
  rw [h2, h5] at this
  simp only [Stage.display, hset, hfind, Stage.shows, hcall, hpath, h2]
  exact this

/-- Specification: what is expected of the display of the block `i`: the first value it gives, as shown. -/
def ShownAs (S : Stage α) (user : List (Nat × α)) (i : Nat) (x : Shown α) : Prop :=
  ∃ y ys z m p, Gives S.W (expected S.W user) i (y :: ys) ∧ rendered S.data (displayType (S.F i)) (S.L i).serialize y = .ok z ∧
    ShownBy S.W S.F i m p ∧ x = ⟨displayType (S.F i), some z, "#/values/" ++ toString m, false⟩

/-- **C138** (all): when each display of the workflow is out of the way to the output, has a selector of its own, gives a value and can
be shown, the displays of the run are its documentation, then each display, in order, as expected, whatever was asked before.

Missing: as for `C138_partial`; a display which cannot be serialized makes the list raise. -/
theorem C138_all_partial (S : Stage α) (hw : WellFormed S.W) (hl : LocksOk S.W) (hlen : Arity S.W) {so' : SetOrder} {o : Nat}
    (ho : OutputOf S.W o) (hs : setUp S.W S.so S.F = .ok S.vw) {user : List (Nat × α)} {s : St α}
    (h : run S.W so' user = .ok (some s)) (hoff : Offered S.W S.F S.L) (hni : ∀ i ∈ shownBlocks S.W S.F, ¬ Leads S.W i)
    (hdoc : ∀ i ∈ shownBlocks S.W S.F, blockSelector S.F i ≠ "Documentation")
    (huniq : ∀ i ∈ shownBlocks S.W S.F, ∀ j ∈ shownBlocks S.W S.F, blockSelector S.F j = blockSelector S.F i → j = i)
    (hev : ∀ i ∈ shownBlocks S.W S.F, ∀ j b xs, Missing S.W i j → S.W.blocks[j]? = some b → xs.length = b.inputs.length →
      (∀ vx ∈ b.inputs.zip xs, Den S.W (expected S.W user) vx.1 vx.2) → ∃ ys, b.eval xs = .ok ys)
    (hone : ∀ i ∈ shownBlocks S.W S.F, ∀ ys, Gives S.W (expected S.W user) i ys → ∃ y ys' z, ys = y :: ys' ∧
      rendered S.data (displayType (S.F i)) (S.L i).serialize y = .ok z)
    (hmark : ∀ t, ∃ x z, S.doc t = .ok x ∧ rendered S.data "markdown" false x = .ok z) :
    ∃ r, keepRun S.W S.vw s = .ok r ∧ ∀ t, Viewed S.W S.so S.F S.vw r t → ∃ t' x z xs,
      S.displays t = .ok (t', ⟨"markdown", some z, "#", false⟩ :: xs) ∧ S.doc t = .ok x ∧ rendered S.data "markdown" false x = .ok z ∧
      List.Forall₂ (ShownAs S user) (shownBlocks S.W S.F) xs ∧ Viewed S.W S.so S.F S.vw r t' := by
  obtain ⟨r, hr⟩ := activateInputs_total hw hl { s with values := fun j => if memorized S.W S.vw j then s.values j else none }
  refine ⟨r, hr, fun t ht => ?_⟩
  obtain ⟨d, ss, hset, h1, -, -, -, -, -, h2⟩ := C138_settings hw S.F S.L hoff
  have loop (l : List Nat) (ds : List Display)
      (hf : List.Forall₂ (fun i d => ∃ m p, ShownBy S.W S.F i m p ∧ d = settingFor S.F S.L i m) l ds)
      (hin : ∀ i ∈ l, i ∈ shownBlocks S.W S.F) (t : St α) (ht : Viewed S.W S.so S.F S.vw r t) :
      ∃ t' xs, S.displaysLoop ds t = .ok (t', xs) ∧ List.Forall₂ (ShownAs S user) l xs ∧ Viewed S.W S.so S.F S.vw r t' := by
    induction hf generalizing t with
    | nil => exact ⟨t, [], rfl, .nil, ht⟩
    | @cons i d' l ds hd _ ih =>
      obtain ⟨m, p, hp, rfl⟩ := hd
      have hi := hin i (.head _)
      obtain ⟨r', hr', hall⟩ := C138_partial S hw hl hlen ho hs h hoff hi hp (hni i hi) (hdoc i hi) (huniq i hi) (hev i hi)
      have : r' = r := by
        have e : keepRun S.W S.vw s = .ok r := hr
        rw [hr'] at e
        exact Except.ok.inj e
      subst this
      obtain ⟨ys, hg, hm⟩ := hall t ht
      obtain ⟨y, ys', z, rfl, hz⟩ := hone i hi ys hg
      simp only [hz] at hm
      obtain ⟨t1, hd1, hv1⟩ := hm
      obtain ⟨t2, xs, e1, e2, e3⟩ := ih (fun j hj => hin j (.tail _ hj)) t1 hv1
      refine ⟨t2, _ :: xs, ?_, .cons ⟨y, ys', z, m, p, hg, hz, hp, rfl⟩ e2, e3⟩
      have hsel : (settingFor S.F S.L i m).selector.getD "" = blockSelector S.F i := rfl
      simp only [Stage.displaysLoop, hsel, hd1, e1]
  obtain ⟨x, z, hx, hz⟩ := hmark t
  have hD := C138_documentation S hw hoff t x hx
  simp only [hz] at hD
  obtain ⟨t', xs, e1, e2, e3⟩ := loop _ _ h2 (fun _ h => h) t ht
  refine ⟨t', x, z, xs, ?_, hx, hz, e2, e3⟩
  have hsel : d.selector.getD "" = "Documentation" := by rw [h1]; rfl
  simp only [Stage.displays, hset, Stage.displaysLoop, hsel, hD, e1]

/-! ### What fails -/

theorem settingsLoop_error {F : Nat → Face} {L : Nat → Look} {i : Nat} {e : PyErr} (l : List Nat) (hi : i ∈ l)
    (h : blockSetting W F L i = .error e) : ∃ e, settingsLoop W F L l = .error e := by
  induction l with
  | nil => simp at hi
  | cons j l ih =>
    simp only [settingsLoop]
    cases hj : blockSetting W F L j with
    | error e' => exact ⟨e', rfl⟩
    | ok d =>
      rcases List.mem_cons.1 hi with rfl | hi
      · rw [h] at hj; cases hj
      · obtain ⟨e', he⟩ := ih hi
        exact ⟨e', by simp only [he]⟩

/-- **C138**, violated: as soon as one display of the workflow is a deprecated one, or displays an input which comes from no pipe, no
display of the run can be shown, not even its documentation: the settings raise. -/
theorem C138_violated (S : Stage α) {i n v : Nat} {t : String} {sel : Option String} {b : Block α} (hi : i ∈ shownBlocks S.W S.F)
    (hr : (S.F i).role = .display t sel n) (hb : S.W.blocks[i]? = some b) (hv : b.inputs[n]? = some v)
    (h : (S.L i).viewed = false ∨ inputPipe S.W v = none) : ∃ e, ∀ s selector, S.display s selector = .error e := by
  have : ∃ e, blockSetting S.W S.F S.L i = .error e := by
    unfold blockSetting referencePipe
    simp only [hr, hb, hv]
    cases hp : inputPipe S.W v with
    | none => exact ⟨_, rfl⟩
    | some j =>
      rcases h with h | h
      · exact ⟨.attributeError, by simp [h]⟩
      · rw [h] at hp; cases hp
  obtain ⟨e, he⟩ := this
  obtain ⟨e', he'⟩ := settingsLoop_error (shownBlocks S.W S.F) hi he
  refine ⟨e', fun s selector => ?_⟩
  have : blocksSettings S.W S.F S.L = .error e' := he'
  simp only [Stage.display, runSettings, this]

/-- **C138**, violated: the display of a block whose selector is that of the documentation cannot be asked: the documentation is shown. -/
theorem C138_documentation_violated (S : Stage α) (hw : WellFormed S.W) (hoff : Offered S.W S.F S.L) (i : Nat)
    (hi : blockSelector S.F i = "Documentation") (s : St α) (x z : α) (hx : S.doc s = .ok x)
    (hz : rendered S.data "markdown" false x = .ok z) :
    S.display s (blockSelector S.F i) = .ok (s, ⟨"markdown", some z, "#", false⟩) := by
  rw [hi, C138_documentation S hw hoff s x hx, hz]

/-- **C138**, violated: a state which is not a run shows nothing, although it has settings. -/
theorem C138_state_violated (S : Stage α) (s : St α) (selector : String) : S.stateDisplay s selector = .error .typeError := rfl

/-! ### Exports -/

/-- Specification: the export blocks of a workflow, in order. -/
def writtenBlocks (W : Workflow α) (F : Nat → Face) : List Nat :=
  (List.range W.blocks.length).filter fun i => (F i).isExport

theorem export_generated {F : Nat → Face} {i : Nat} (h : (F i).isExport = true) (t : String) (s : String) (n : Nat) :
    (F i).role ≠ .display t (some s) n := by
  intro e
  simp [Face.isExport, e] at h

theorem selector_last {F : Nat → Face} {i : Nat} (h : (F i).isExport = true) : (blockSelector F i).toList.getLast? = some ')' := by
  rw [generated_eq (export_generated h), String.toList_append]
  have : ")".toList = [')'] := by decide
  rw [this, List.getLast?_append]
  rfl

/-- **C139** (formats): a run offers the exports of every object, one for each export block under its own selector, with its extension and
its kind of stream, and its script; of those of every object and the script, the JSON and the script are texts.  No two of them have the same selector. -/
theorem C139_formats (W : Workflow α) (F : Nat → Face) (L : Nat → Look) :
    (∀ i ∈ writtenBlocks W F, ∃ f ∈ runOffers W F L, f.selector = blockSelector F i ∧ (F i).role = .export f.extension ∧
      f.text = (L i).text ∧ f.block = some i) ∧
    (∀ n ∈ ["json", "xlsx", "docx", "zip", "py"], ∃ f ∈ runOffers W F L, f.selector = n ∧ f.extension = n ∧ f.block = none ∧
      (f.text = true ↔ n ∈ ["json", "py"])) ∧
    (runOffers W F L).length = 5 + (writtenBlocks W F).length ∧
    ((runOffers W F L).map (·.selector)).Nodup := by
  refine ⟨fun i hi => ?_, fun n hn => ?_, ?_, ?_⟩
  · refine ⟨blockOffer F L i, ?_, rfl, ?_, rfl, rfl⟩
    · simp only [runOffers, stateOffers, List.mem_append]
      exact .inl (.inr (List.mem_map_of_mem (f := blockOffer F L) hi))
    · have := (List.mem_filter.1 hi).2
      unfold Face.isExport at this
      simp only [blockOffer, exportExtension]
      split at this
      · rename_i e he; rw [he]
      · cases this
  · simp only [List.mem_cons, List.not_mem_nil, or_false] at hn
    rcases hn with rfl | rfl | rfl | rfl | rfl <;> simp [runOffers, stateOffers, genericOffers, scriptOffer]
  · simp only [runOffers, stateOffers, genericOffers, blocksOffers, scriptOffer, List.length_append, List.length_map, List.length_cons,
      List.length_nil]
    show 0 + 1 + 1 + 1 + 1 + (writtenBlocks W F).length + (0 + 1) = _
    omega
  · have hb : (blocksOffers W F L).map (·.selector) = (writtenBlocks W F).map (blockSelector F) := by
      simp only [blocksOffers, List.map_map]; rfl
    have hne (n : String) (hn : n.toList.getLast? ≠ some ')') : n ∉ (writtenBlocks W F).map (blockSelector F) := by
      intro h
      obtain ⟨i, hi, e⟩ := List.mem_map.1 h
      exact hn (e ▸ selector_last (List.mem_filter.1 hi).2)
    have hnd : ((writtenBlocks W F).map (blockSelector F)).Nodup := by
      refine List.Nodup.map_on (fun i hi j hj e => ?_) (List.nodup_range.filter _)
      exact C111_generated F (export_generated (List.mem_filter.1 hi).2) (export_generated (List.mem_filter.1 hj).2) e
    simp only [runOffers, stateOffers, List.map_append, hb]
    have hg : genericOffers.map (·.selector) = ["json", "xlsx", "docx", "zip"] := rfl
    have hp : [scriptOffer].map (·.selector) = ["py"] := rfl
    rw [hg, hp, List.nodup_append, List.nodup_append]
    refine ⟨⟨by decide, hnd, ?_⟩, by decide, ?_⟩
    · intro a ha b hb e
      subst e
      simp only [List.mem_cons, List.not_mem_nil, or_false] at ha
      rcases ha with rfl | rfl | rfl | rfl <;> exact hne _ (by decide) hb
    · intro a ha b hb e
      subst e
      rw [List.mem_singleton] at hb
      subst hb
      rcases List.mem_append.1 ha with ha | ha
      · exact absurd ha (by decide)
      · exact hne _ (by decide) ha

/-- Specification: an export block gives a file of its kind. -/
def GivesFile (S : Stage α) (file : α → Option (String × Content)) (user : List (Nat × α)) (i : Nat) (e : String × Option Content) : Prop :=
  ∃ y ys n c, Gives S.W (expected S.W user) i (y :: ys) ∧ file y = some (n, c) ∧ ((S.L i).text = true ↔ ∃ s, c = .text s) ∧ e = (n, some c)

/-- **C139** (archive): on a run, whatever was asked before, when each export block which is not an archive is out of the way to the
output and gives a file of its kind, the streams of the archive of the run are, in the order of the blocks, these files with their names and
contents.

Missing: an export block which leads to the output, and the files of an archive which have the same name. -/
theorem C139_partial (S : Stage α) (file : α → Option (String × Content)) (hw : WellFormed S.W) (hl : LocksOk S.W) (hlen : Arity S.W)
    {so' : SetOrder} {o : Nat} (ho : OutputOf S.W o) (hs : setUp S.W S.so S.F = .ok S.vw) {user : List (Nat × α)} {s : St α}
    (h : run S.W so' user = .ok (some s))
    (hni : ∀ i ∈ writtenBlocks S.W S.F, (S.F i).role ≠ .export "zip" → ¬ Leads S.W i)
    (hev : ∀ i ∈ writtenBlocks S.W S.F, (S.F i).role ≠ .export "zip" → ∀ j b xs, Missing S.W i j → S.W.blocks[j]? = some b →
      xs.length = b.inputs.length → (∀ vx ∈ b.inputs.zip xs, Den S.W (expected S.W user) vx.1 vx.2) → ∃ ys, b.eval xs = .ok ys)
    (hfile : ∀ i ∈ writtenBlocks S.W S.F, (S.F i).role ≠ .export "zip" → ∀ ys, Gives S.W (expected S.W user) i ys →
      ∃ y ys' n c, ys = y :: ys' ∧ file y = some (n, c) ∧ ((S.L i).text = true ↔ ∃ s, c = .text s)) :
    ∃ r, keepRun S.W S.vw s = .ok r ∧ ∀ t, Viewed S.W S.so S.F S.vw r t → ∃ t' es, S.zip file t = .ok (t', es) ∧
      List.Forall₂ (GivesFile S file user) ((writtenBlocks S.W S.F).filter fun i => (S.F i).role ≠ .export "zip") es ∧
      Viewed S.W S.so S.F S.vw r t' := by
  obtain ⟨r, hr⟩ := activateInputs_total hw hl { s with values := fun j => if memorized S.W S.vw j then s.values j else none }
  refine ⟨r, hr, fun t ht => ?_⟩
  have loop (l : List Nat) (hin : ∀ i ∈ l, i ∈ writtenBlocks S.W S.F) (t : St α) (ht : Viewed S.W S.so S.F S.vw r t) :
      ∃ t' es, S.zipLoop file (l.map (blockOffer S.F S.L)) t = .ok (t', es) ∧
        List.Forall₂ (GivesFile S file user) (l.filter fun i => (S.F i).role ≠ .export "zip") es ∧ Viewed S.W S.so S.F S.vw r t' := by
    induction l generalizing t with
    | nil => exact ⟨t, [], rfl, .nil, ht⟩
    | cons i l ih =>
      have hi := hin i (.head _)
      have hex := (List.mem_filter.1 hi).2
      have hil : i < S.W.blocks.length := by simpa using (List.mem_filter.1 hi).1
      obtain ⟨x, hx⟩ : ∃ x, (S.F i).role = .export x := by
        unfold Face.isExport at hex
        split at hex
        · rename_i e he; exact ⟨e, he⟩
        · cases hex
      have hxe : (blockOffer S.F S.L i).extension = x := by simp [blockOffer, exportExtension, hx]
      rw [List.map_cons, List.filter_cons]
      by_cases hz : x = "zip"
      · obtain ⟨t', es, e1, e2, e3⟩ := ih (fun j hj => hin j (.tail _ hj)) t ht
        refine ⟨t', es, ?_, ?_, e3⟩
        · rw [Stage.zipLoop, if_neg (by simp [hxe, hz])]
          exact e1
        · rw [if_neg (by simp [hx, hz])]
          exact e2
      · have hrole : (S.F i).role ≠ .export "zip" := by rw [hx]; simpa using hz
        obtain ⟨r', hr', hall⟩ := C108_export_partial hw hl hlen ho hs h hil hex (hni i hi hrole)
          (fun j hj hd e => C111_generated S.F (export_generated hd) (export_generated hex) e) (hev i hi hrole)
        have : r' = r := by
          have e : keepRun S.W S.vw s = .ok r := hr
          rw [hr'] at e
          exact Except.ok.inj e
        subst this
        obtain ⟨ys, hg, hm⟩ := hall t ht
        obtain ⟨y, ys', n, c, rfl, hf, hc⟩ := hfile i hi hrole ys hg
        obtain ⟨t1, l', hb, -⟩ := hm
        obtain ⟨t2, es, e1, e2, e3⟩ := ih (fun j hj => hin j (.tail _ hj)) t1 (.export ht hb)
        have hwr : writeStream file (if (S.L i).text then .string else .binary) y = .ok (some c, n) := by
          unfold writeStream
          rw [hf]
          cases htx : (S.L i).text
          · cases c with
            | text q => exact absurd (hc.2 ⟨q, rfl⟩) (by simp [htx])
            | bytes q => rfl
          · obtain ⟨q, rfl⟩ := hc.1 htx
            rfl
        refine ⟨t2, (n, some c) :: es, ?_, ?_, e3⟩
        · rw [Stage.zipLoop, if_pos (by simpa [hxe] using hz)]
          have hbl : (blockOffer S.F S.L i).block = some i := rfl
          have htx : (blockOffer S.F S.L i).text = (S.L i).text := rfl
          simp only [hbl, htx, Stage.export, hb, hwr, e1]
        · rw [if_pos (by simpa [hx] using hz)]
          exact .cons ⟨y, ys', n, c, hg, hf, hc, rfl⟩ e2
  exact loop _ (fun _ h => h) t ht

theorem saveLoop_find (S : Stage α) (file : α → Option (String × Content)) (generic : String → Except PyErr Content) (s : St α)
    (path : String) (l : List Offer) (hn : (l.map (·.selector)).Nodup) (f : Offer) (hf : f ∈ l) (i : Nat) (hi : f.block = some i) :
    S.saveLoop file generic s f.selector path l = match S.export file s .handle i with
      | .error e => .error e
      | .ok (s', c, _) => .ok (s', DC.View.exportPath path f.extension, c) := by
  induction l with
  | nil => simp at hf
  | cons g l ih =>
    rw [List.map_cons, List.nodup_cons] at hn
    rcases List.mem_cons.1 hf with rfl | hf
    · rw [Stage.saveLoop, if_pos rfl]
      simp only [hi]
      cases S.export file s .handle i <;> rfl
    · have : g.selector ≠ f.selector := fun e => hn.1 (e ▸ List.mem_map_of_mem (f := (·.selector)) hf)
      rw [Stage.saveLoop, if_neg this]
      exact ih hn.2 hf

/-- **C139**, violated: the file saved by the export of a block of a run, when the block gives a file, is made with the asked extension
but nothing is written in it. -/
theorem C139_file_violated (S : Stage α) (file : α → Option (String × Content)) (generic : String → Except PyErr Content) (s s' : St α)
    (path : String) (i : Nat) (hi : i ∈ writtenBlocks S.W S.F) (y : α) (h : blockExport S.W S.so S.F S.vw s i = .ok (s', y)) (n : String)
    (c : Content) (hf : file y = some (n, c)) :
    ∃ path', S.save file generic s (blockSelector S.F i) path = .ok (s', path', none) := by
  obtain ⟨h1, -, -, hn⟩ := C139_formats S.W S.F S.L
  obtain ⟨f, hm, hsel, -, -, hb⟩ := h1 i hi
  refine ⟨DC.View.exportPath path f.extension, ?_⟩
  unfold Stage.save
  rw [← hsel, saveLoop_find S file generic s path _ hn f hm i hb]
  have : writeStream file .handle y = .ok (none, n) := by unfold writeStream; rw [hf]
  simp only [Stage.export, h, this]

/-- **C139**, violated: the format of an export block is never found by its selector on a state. -/
theorem C139_lookup_violated (W : Workflow α) (F : Nat → Face) (L : Nat → Look) (selector : String) :
    ∃ e, offerFromSelector W F L selector = .error e := by
  unfold offerFromSelector
  split <;> exact ⟨_, rfl⟩

/-! ### A concrete run -/

/-- The views of `showW`. -/
def showVw : Views :=
  match setUp showW dedupOrder showF with
  | .ok vw => vw
  | .error _ => ⟨[], [], []⟩

theorem showVw_ok : setUp showW dedupOrder showF = .ok showVw := by rfl

/-- The displays of the runs of `showW`: values are serialized as their opposites, and markdowns cleaned by adding 1. -/
def showS : Stage Int where
  W := showW
  so := dedupOrder
  F := showF
  L := fun i => { load := i == 3, serialize := true, text := true }
  vw := showVw
  doc := fun _ => .ok 7
  data := ⟨fun x => .ok (-x), fun x => x != 0, fun x => .ok (x + 1)⟩

theorem showS_offered : Offered showS.W showS.F showS.L := by
  intro i hi
  have : shownBlocks showS.W showS.F = [3] := by decide
  rw [this, List.mem_singleton] at hi
  subst hi
  exact ⟨rfl, 2, ⟨3, 6, false⟩, "markdown", none, 0, _, rfl, rfl, rfl, rfl⟩

/-- The settings of the runs of `showW`: the display is loaded by default, so that the documentation is not. -/
example : ∃ d ss, runSettings showS.W showS.F showS.L = .ok (d :: ss) ∧ ¬ d.loadByDefault = true := by
  obtain ⟨d, ss, h, -, -, -, -, -, h1, -⟩ := C138_settings showW_wf showS.F showS.L showS_offered
  exact ⟨d, ss, h, fun e => absurd (h1.1 e 3 (by decide)) (by decide)⟩

/-- The hypotheses of `C138_partial` are met by the display of `showW`. -/
example : ∃ s r, run showW dedupOrder [(0, 3)] = .ok (some s) ∧ keepRun showW showVw s = .ok r ∧
    ∀ t, Viewed showW dedupOrder showF showVw r t → ∃ ys, Gives showW (expected showW [(0, 3)]) 3 ys := by
  obtain ⟨s, hs⟩ := C27_completes showW_wf showW_locks showW_output showW_total dedupOrder [(0, 3)] (by decide) (by decide)
  obtain ⟨r, hr, h⟩ := C138_partial showS showW_wf showW_locks showW_arity showW_output showVw_ok hs showS_offered (i := 3) (m := 2)
    (p := ⟨3, 6, false⟩) (by decide) ⟨"markdown", none, 0, _, rfl, rfl, rfl, rfl⟩ (fun h => absurd (showW_leads h) (by decide))
    (by decide) (by decide) (fun j b xs _ hb hx _ => showW_ok b (List.mem_of_getElem? hb) xs hx)
  exact ⟨s, r, hs, hr, fun t ht => (h t ht).imp fun _ h => h.1⟩

theorem showW_gives {i : Nat} {b : Block Int} {ys : List Int} {V : Nat → Option Int} (hb : showW.blocks[i]? = some b)
    (h : Gives showW V i ys) : ∃ y, ys = [y] := by
  obtain ⟨b', xs, h1, -, -, h2⟩ := h
  rw [hb] at h1
  cases h1
  have : ys.length = 1 := by
    have hb' := List.mem_of_getElem? hb
    simp only [showW, List.mem_cons, List.not_mem_nil, or_false] at hb'
    rcases hb' with rfl | rfl | rfl | rfl | rfl
    · exact dblEval_len _ _ h2
    · exact dblEval_len _ _ h2
    · exact dblEval_len _ _ h2
    · exact addEval_len _ _ h2
    · exact dblEval_len _ _ h2
  match ys, this with
  | [y], _ => exact ⟨y, rfl⟩

/-- The hypotheses of `C138_all_partial` are met. -/
example : ∃ s r, run showW dedupOrder [(0, 3)] = .ok (some s) ∧ keepRun showW showVw s = .ok r ∧
    ∃ t x, showS.displays r = .ok (t, [⟨"markdown", some 8, "#", false⟩, x]) ∧ ShownAs showS [(0, 3)] 3 x := by
  obtain ⟨s, hs⟩ := C27_completes showW_wf showW_locks showW_output showW_total dedupOrder [(0, 3)] (by decide) (by decide)
  have hb : shownBlocks showS.W showS.F = [3] := by decide
  have hm (i : Nat) (hi : i ∈ shownBlocks showS.W showS.F) : i = 3 := by rw [hb] at hi; simpa using hi
  have hrend (t : String) (b : Bool) (y : Int) : ∃ z, rendered showS.data t b y = .ok z := by
    unfold rendered
    cases b
    · simp only [Bool.false_eq_true, if_false]
      split
      · exact ⟨_, rfl⟩
      · exact ⟨_, rfl⟩
    · have : showS.data.ser y = .ok (-y) := rfl
      simp only [if_true, this]
      split
      · exact ⟨_, rfl⟩
      · exact ⟨_, rfl⟩
  obtain ⟨r, hr, h⟩ := C138_all_partial showS showW_wf showW_locks showW_arity showW_output showVw_ok hs showS_offered
    (fun i hi h => by rw [hm i hi] at h; exact absurd (showW_leads h) (by decide)) (fun i hi => by rw [hm i hi]; decide)
    (fun i hi j hj _ => by rw [hm i hi, hm j hj]) (fun i _ j b xs _ hb hx _ => showW_ok b (List.mem_of_getElem? hb) xs hx)
    (fun i hi ys hg => by
      rw [hm i hi] at hg ⊢
      obtain ⟨y, rfl⟩ := showW_gives (i := 3) rfl hg
      obtain ⟨z, hz⟩ := hrend (displayType (showS.F 3)) (showS.L 3).serialize y
      exact ⟨y, [], z, rfl, hz⟩)
    (fun t => ⟨7, 8, rfl, rfl⟩)
  obtain ⟨t, x, z, xs, h1, h2, h3, h4, -⟩ := h r .start
  rw [hb] at h4
  obtain ⟨x', _, hx', h5, rfl⟩ := List.forall₂_cons_left_iff.1 h4
  cases h5
  have e : x = 7 := (Except.ok.inj h2).symm
  subst e
  have e : z = 8 := (Except.ok.inj h3).symm
  subst e
  exact ⟨s, r, hs, hr, t, x', h1, hx'⟩

/-- What a user sees on the run on the input 3: the display gives 36, serialized as -36 and cleaned as -35. -/
example : onRun showW showF [(0, 3)] [] (fun vw r => match ({ showS with vw := vw } : Stage Int).displays r with
    | .ok (_, xs) => xs == [⟨"markdown", some 8, "#", false⟩, ⟨"markdown", some (-35), "#/values/2", false⟩]
    | .error _ => false) = true := by decide +kernel

/-- A deprecated display. -/
example : ∃ e, ∀ s selector, ({ showS with L := fun _ => { viewed := false } } : Stage Int).display s selector = .error e :=
  C138_violated { showS with L := fun _ => { viewed := false } } (i := 3) (n := 0) (by decide) rfl rfl rfl (.inl rfl)

/-- A display with the selector of the documentation. -/
example (s : St Int) : ({ showS with F := fun i => if i = 3 then ⟨"", .display "markdown" (some "Documentation") 0⟩ else {} } : Stage Int).display s
    "Documentation" = .ok (s, ⟨"markdown", some 8, "#", false⟩) :=
  C138_documentation_violated { showS with F := fun i => if i = 3 then ⟨"", .display "markdown" (some "Documentation") 0⟩ else {} } showW_wf
    (fun i hi => by
      have : shownBlocks showW (fun i => if i = 3 then ⟨"", .display "markdown" (some "Documentation") 0⟩ else {}) = [3] := by decide
      have hi : i ∈ shownBlocks showW (fun i => if i = 3 then ⟨"", .display "markdown" (some "Documentation") 0⟩ else {}) := hi
      rw [this, List.mem_singleton] at hi
      subst hi
      exact ⟨rfl, 2, ⟨3, 6, false⟩, "markdown", some "Documentation", 0, _, rfl, rfl, rfl, rfl⟩) 3 rfl s 7 8 rfl rfl

/-- The file given by the export of `showW`. -/
def showFile (y : Int) : Option (String × Content) := some ("export.txt", .text (toString y))

/-- The hypotheses of `C139_partial` are met by the export of `showW`. -/
example : ∃ s r, run showW dedupOrder [(0, 3)] = .ok (some s) ∧ keepRun showW showVw s = .ok r ∧
    ∃ t e, showS.zip showFile r = .ok (t, [e]) ∧ GivesFile showS showFile [(0, 3)] 4 e := by
  obtain ⟨s, hs⟩ := C27_completes showW_wf showW_locks showW_output showW_total dedupOrder [(0, 3)] (by decide) (by decide)
  have hb : writtenBlocks showS.W showS.F = [4] := by decide
  have hm (i : Nat) (hi : i ∈ writtenBlocks showS.W showS.F) : i = 4 := by rw [hb] at hi; simpa using hi
  obtain ⟨r, hr, h⟩ := C139_partial showS showFile showW_wf showW_locks showW_arity showW_output showVw_ok hs
    (fun i hi _ h => by rw [hm i hi] at h; exact absurd (showW_leads h) (by decide))
    (fun i _ _ j b xs _ hb hx _ => showW_ok b (List.mem_of_getElem? hb) xs hx)
    (fun i hi _ ys hg => by
      rw [hm i hi] at hg ⊢
      obtain ⟨y, rfl⟩ := showW_gives (i := 4) rfl hg
      exact ⟨y, [], _, _, rfl, rfl, fun _ => ⟨_, rfl⟩, fun _ => rfl⟩)
  obtain ⟨t, es, h1, h2, -⟩ := h r .start
  have hl : ((writtenBlocks showS.W showS.F).filter fun i => (showS.F i).role ≠ .export "zip") = [4] := by decide
  rw [hl] at h2
  obtain ⟨e, _, he, h5, rfl⟩ := List.forall₂_cons_left_iff.1 h2
  cases h5
  exact ⟨s, r, hs, hr, t, e, h1, he⟩

/-- What a user gets for the run on the input 3: the archive holds the text 12, and the saved file is empty. -/
example : onRun showW showF [(0, 3)] [] (fun vw r =>
    (match ({ showS with vw := vw } : Stage Int).zip showFile r with
      | .ok (_, es) => es == [("export.txt", some (.text "12"))]
      | .error _ => false) &&
    match ({ showS with vw := vw } : Stage Int).save showFile (fun _ => .error .typeError) r "Text (4)" "out" with
      | .ok (_, path, c) => path == "out.txt" && c == none
      | .error _ => false) = true := by decide +kernel

/-- Blocks 3 and 4 are exports with the same file name. -/
def sameF (i : Nat) : Face := if i = 3 ∨ i = 4 then ⟨"", .export "txt"⟩ else {}

/-- **C139**, violated: two exports of the same file name and extension make an archive in which only the last one can be read by its name. -/
theorem C139_taken_violated : ∃ (S : Stage Int) (file : Int → Option (String × Content)) (user : List (Nat × Int)) (s r t : St Int)
    (n : String) (c d : Content), WellFormed S.W ∧ setUp S.W S.so S.F = .ok S.vw ∧ run S.W S.so user = .ok (some s) ∧
      keepRun S.W S.vw s = .ok r ∧ S.zip file r = .ok (t, [(n, some c), (n, some d)]) ∧ c ≠ d ∧
      DC.View.readEntry [(n, c), (n, d)] n = some d := by
  obtain ⟨vw, rt, s, s', r, h1, h2, h3, h4, h5, h6⟩ := onRun_true (W := showW) (F := sameF) (user := [(0, 3)]) (l := [])
    (c := fun vw r => match ({ showS with F := sameF, vw := vw } : Stage Int).zip showFile r with
      | .ok (_, es) => es == [("export.txt", some (.text "36")), ("export.txt", some (.text "12"))]
      | .error _ => false) (by decide +kernel)
  cases h4
  split at h6
  · rename_i t es he
    have : es = [("export.txt", some (.text "36")), ("export.txt", some (.text "12"))] := by simpa using h6
    subst this
    exact ⟨{ showS with F := sameF, vw := vw }, showFile, _, s, r, t, "export.txt", .text "36", .text "12", showW_wf, h1, h3, h5, he,
      by decide, by simp [DC.View.readEntry]⟩
  · cases h6

end DC.Wkf
