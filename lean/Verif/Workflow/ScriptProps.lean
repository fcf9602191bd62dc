import Verif.Workflow.ScriptRuns
/- Properties of the scripts of workflows: C119. -/
set_option linter.unusedSectionVars false
set_option linter.unusedSimpArgs false
namespace DC.Scr
open DC.Wkf

variable {β τ α δ π : Type} [Inhabited τ]

/-! ### The classes a script names -/

mutual
/-- The class is named in the script of the workflow. -/
inductive UsesW (L : Lang β τ α π) (s : Store τ α) : Flow β δ → Cls → Prop
  | block {W b c} (hb : b ∈ W.blocks) (h : UsesB L s b c) : UsesW L s W c
  | type {W v c} (hv : VarOf W v) (hn : ¬ PortOf W v) (h : c ∈ L.typeImports (look s v).type) : UsesW L s W c
  | var {W v} (hv : VarOf W v) (hn : ¬ PortOf W v) : UsesW L s W variableC
  | pipe {W} (h : W.pipes ≠ []) : UsesW L s W pipeC
  | workflow {W} : UsesW L s W workflowC
/-- The class is named in the script of the block. -/
inductive UsesB (L : Lang β τ α π) (s : Store τ α) : Blk β δ → Cls → Prop
  | leaf {b k c} (hk : b.kind = .leaf k) (h : c ∈ L.classes k) : UsesB L s b c
  | sub {b W c} (hk : b.kind = .sub W) (h : UsesW L s W c) : UsesB L s b c
  | subBlock {b W} (hk : b.kind = .sub W) : UsesB L s b workflowBlockC
  | each {b d i c} (hk : b.kind = .each d i) (h : UsesB L s d c) : UsesB L s b c
  | eachBlock {b d i} (hk : b.kind = .each d i) : UsesB L s b forEachC
end

theorem blockStmts_uses {L : Lang β τ α π} {s : Store τ α} {p : String} {f : Blk β δ → Except PyErr (List (Stmt π) × Decl π × List Cls)} :
    ∀ {bs : List (Blk β δ)} {k : Nat} {r}, (∀ b ∈ bs, ∀ r, f b = .ok r → ∀ c ∈ r.2.2, UsesB L s b c) → blockStmts s p f k bs = .ok r →
      ∀ c ∈ r.2, ∃ b ∈ bs, UsesB L s b c := by
  intro bs
  induction bs with
  | nil => intro k r _ h c hc; cases h; simp at hc
  | cons b bs ih =>
    intro k r hf h c hc
    simp only [blockStmts] at h
    cases hb : f b with
    | error e => rw [hb] at h; cases h
    | ok d =>
      rw [hb] at h
      simp only [bind, Except.bind] at h
      cases hl : lockStmts (π := π) s (blockName p k) 0 b.inputs with
      | error e => rw [hl] at h; cases h
      | ok l =>
        rw [hl] at h
        simp only at h
        cases hr : blockStmts s p f (k + 1) bs with
        | error e => rw [hr] at h; cases h
        | ok q =>
          rw [hr] at h
          cases h
          simp only [List.mem_append] at hc
          rcases hc with hc | hc
          · exact ⟨b, by simp, hf b (by simp) d hb c hc⟩
          · obtain ⟨b', h1, h2⟩ := ih (fun b hb => hf b (by simp [hb])) hr c hc
            exact ⟨b', by simp [h1], h2⟩

theorem script_uses {L : Lang β τ α π} {s : Store τ α} : ∀ n p, (∀ (W : Flow β δ) r, flowScript L s n p W = .ok r → ∀ c ∈ r.2, UsesW L s W c) ∧
    ∀ (b : Blk β δ) r, blockScript L s n p b = .ok r → ∀ c ∈ r.2.2, UsesB L s b c := by
  intro n
  induction n with
  | zero => intro p; exact ⟨fun W r h => by simp [flowScript] at h, fun b r h => by simp [blockScript] at h⟩
  | succ n ih =>
    intro p
    constructor
    · intro W r h c hc
      simp only [flowScript] at h
      cases ho : W.output with
      | none => rw [ho] at h; cases h
      | some o =>
        rw [ho] at h
        simp only [bind, Except.bind] at h
        cases ha : variableIndices (graph s W) o with
        | error e => rw [ha] at h; cases h
        | ok a =>
          rw [ha] at h
          simp only at h
          cases hb : blockStmts s p (blockScript L s n p) 0 W.blocks with
          | error e => rw [hb] at h; cases h
          | ok bs =>
            rw [hb] at h
            simp only at h
            cases hp : pipeStmts (π := π) s p W 0 W.pipes with
            | error e => rw [hp] at h; cases h
            | ok ps =>
              rw [hp] at h
              simp only at h
              cases hr : outputRef p a with
              | error e => rw [hr] at h; cases h
              | ok r' =>
                rw [hr] at h
                cases h
                simp only [List.mem_append, List.mem_flatMap, List.mem_singleton] at hc
                rcases hc with ((hc | ⟨v, hv, hc⟩) | hc) | rfl
                · obtain ⟨b, h1, h2⟩ := blockStmts_uses (fun b _ r h => (ih p).2 b r h) hb c hc
                  exact .block h1 h2
                · obtain ⟨h1, h2⟩ := (mem_nbvs_graph s W).1 hv
                  rcases hc with hc | rfl
                  · exact .type h1 h2 hc
                  · exact .var h1 h2
                · by_cases he : W.pipes.isEmpty = true
                  · rw [if_pos he] at hc; simp at hc
                  · rw [if_neg he, List.mem_singleton] at hc
                    subst hc
                    exact .pipe (by simpa [List.isEmpty_iff] using he)
                · exact .workflow
    · intro b r h c hc
      simp only [blockScript] at h
      cases hk : b.kind with
      | leaf k =>
        rw [hk] at h
        cases h
        exact .leaf hk hc
      | sub W =>
        rw [hk] at h
        simp only [bind, Except.bind] at h
        cases hf : flowScript L s n (subPrefix p) W with
        | error e => rw [hf] at h; cases h
        | ok q =>
          rw [hf] at h
          cases h
          simp only [List.mem_append, List.mem_singleton] at hc
          rcases hc with hc | rfl
          · exact .sub hk ((ih _).1 W q hf c hc)
          · exact .subBlock hk
      | each d i =>
        rw [hk] at h
        simp only [bind, Except.bind] at h
        cases hf : blockScript L s n p d with
        | error e => rw [hf] at h; cases h
        | ok q =>
          rw [hf] at h
          cases h
          simp only [List.mem_append, List.mem_singleton] at hc
          rcases hc with hc | rfl
          · exact .each hk ((ih _).2 d q hf c hc)
          · exact .eachBlock hk

theorem mem_importLines {I : List Cls} {c : Cls} : c ∈ importLines I ↔ c ∈ I := by
  unfold importLines
  simp only [List.mem_flatMap, List.mem_eraseDups, List.mem_map, List.mem_filter, beq_iff_eq]
  constructor
  · rintro ⟨m, -, h, -⟩; exact h
  · intro h; exact ⟨c.1, ⟨c, h, rfl⟩, h, rfl⟩

/-- The import lines give its class to each name, when two classes do not share a name. -/
theorem resolve_ok {I : List Cls} (h : ∀ c ∈ I, ∀ d ∈ I, c.2 = d.2 → c = d) {c : Cls} (hc : c ∈ I) : resolve I c.2 = some c := by
  unfold resolve
  cases hf : (importLines I).reverse.find? (·.2 == c.2) with
  | none =>
    have := List.find?_eq_none.1 hf c (by simpa using mem_importLines.2 hc)
    simp at this
  | some d =>
    have h1 := List.find?_some hf
    have h2 := mem_importLines.1 (by simpa using List.mem_of_find?_eq_some hf)
    rw [h d h2 c hc (by simpa using h1)]

/-! ### C119: the script of a workflow rebuilds it -/

/-- C119.  The script of a workflow, run in a new process, builds a workflow like it: the same blocks in the same order, workflows in blocks
and blocks to repeat included, with ports which are alike (names, annotations, positions, default values, locks), pipes which join the
counterparts, the same output, the same name; the variables of the new process are as they were.  Missing: the ports must be as the
constructors of the blocks make them, except for locks on inputs with default values; free variables have no default value; the texts must be
read as they are between quotes and two classes must not share a name; the documentation is kept without workflows in blocks only; steps,
description and detached variables are lost (see the theorems below). -/
theorem C119_partial {L : Lang β τ α π} {s : Store τ α} {W : Flow β δ} (hW : FlowOk L s W)
    (hnames : ∀ c d, UsesW L s W c → UsesW L s W d → c.2 = d.2 → c = d) :
    ∃ n, ∀ limit, n ≤ limit → ∀ s0 : Store τ α, ∃ W' s', rebuild L limit s W s0 = .ok (W', s') ∧ SameW s s' W W' ∧ Ext s0 s' := by
  obtain ⟨n, hn⟩ := hW.runs
  refine ⟨n, fun limit hl s0 => ?_⟩
  obtain ⟨st, I, hs, run⟩ := hn limit hl ""
  have huse : ∀ c ∈ I, UsesW L s W c := (script_uses limit "").1 W _ hs
  obtain ⟨σ', W', h1, h2, h3, h4, -, -⟩ := run (resolve I) (fun c hc => resolve_ok (fun c hc d hd => hnames c d (huse c hc) (huse d hd)) hc)
    { env := fun _ => none, store := s0 }
  refine ⟨W', σ'.store, ?_, h3, h4⟩
  have hg : getFlow σ' (flowName "") = .ok W' := by simp only [getFlow, h2]
  simp only [rebuild, hs, bind, Except.bind, h1, hg]

/-- The graph of a workflow whose blocks compute `ev`. -/
def graphWith (ev : Store τ α → Kd β δ → List α → Except PyErr (List α)) (s : Store τ α) (W : Flow β δ) : Workflow α where
  blocks := W.blocks.map fun b => ⟨b.inputs, b.outputs, ev s b.kind⟩
  pipes := W.pipes.map fun p => ⟨p.1, p.2, false⟩
  output := W.output
  default v := (look s v).default
  lockFlag v := (look s v).lockFlag

/-- Workflows which are alike compute the same values, when blocks built from the same things do: inputs and outputs correspond, the values
expected from the user are the same, and each variable must hold the value its counterpart must hold. -/
theorem C119_runs {s s' : Store τ α} {W W' : Flow β δ} (h : SameW s s' W W')
    (ev : Store τ α → Kd β δ → List α → Except PyErr (List α)) (hev : ∀ k k', SameK s s' k k' → ev s' k' = ev s k) :
    ∃ ρ : Nat → Nat, inputs (graphWith ev s' W') = (inputs (graphWith ev s W)).map ρ ∧ W'.output = W.output.map ρ ∧
      (∀ user k, expected (graphWith ev s' W') user k = expected (graphWith ev s W) user k) ∧
      ∀ v, VarOf W v → ∀ vals x, Den (graphWith ev s' W') vals (ρ v) x ↔ Den (graphWith ev s W) vals v x := by
  cases h with
  | mk ρ inj twin len blocks ports pipes output outTwin name doc =>
  have hren : ren ρ (graphWith ev s W) (graphWith ev s' W') := by
    constructor
    · apply ext_get
      · simp [graphWith, len]
      · intro i x y hx hy
        simp only [graphWith, List.getElem?_map, Option.map_eq_some_iff] at hx hy
        obtain ⟨b, hb, rfl⟩ := hx
        obtain ⟨b', hb', rfl⟩ := hy
        obtain ⟨h1, h2⟩ := ports i b b' hb hb'
        have h3 : ev s' b'.kind = ev s b.kind := by
          cases blocks i b b' hb hb' with
          | mk kind _ _ _ _ => exact hev _ _ kind
        simp only [h1, h2, h3]
    · simp only [graphWith, pipes, List.map_map]
      rfl
  have hvar : ∀ v, v ∈ allVariables (graphWith ev s W) ↔ VarOf W v := by
    intro v
    rw [mem_allVariables]
    simp [blockVars, graphWith, VarOf, List.flatMap_map]
  have hinj : ∀ u ∈ allVariables (graphWith ev s W), ∀ v ∈ allVariables (graphWith ev s W), ρ u = ρ v → u = v :=
    fun u hu v hv he => inj u v ((hvar u).1 hu) ((hvar v).1 hv) he
  have hin := ren_inputs hren hinj
  refine ⟨ρ, hin, output, fun user k => ?_, fun v hv vals x => ⟨fun h => ?_, fun h => ren_den hren hinj h⟩⟩
  · unfold expected
    rw [hin, List.getElem?_map]
    cases hk : (inputs (graphWith ev s W))[k]? with
    | none => rfl
    | some u =>
      have hu : VarOf W u := (hvar u).1 (mem_inputs.1 (List.mem_of_getElem? hk)).1
      simp only [Option.map_some, graphWith, (twin u hu).1]
      rfl
  · exact ren_den_back hren hinj h v ((hvar v).2 hv) rfl

/-! ### Concrete workflows -/

/-- Classes of blocks; two of them have the same name, in two modules. -/
inductive Op where
  | dbl
  | add
  | old
  | new
  deriving DecidableEq, Repr

/-- Their classes. -/
def Op.cls : Op → Cls
  | .dbl => ("demo.ops", "Dbl")
  | .add => ("demo.ops", "Add")
  | .old => ("demo.old", "Round")
  | .new => ("demo.new", "Round")

/-- The blocks, annotations and literals of the examples. -/
def demoL : Lang Op String Int Op where
  ins
    | .add => [{ name := "a", type := "Int" }, { name := "b", type := "Int", default := some 5 }]
    | _ => [{ name := "x", type := "Int" }]
  outs _ := [{ name := "out", type := "Int" }]
  classes k := [k.cls]
  args k _ := k
  make cs k := match [Op.dbl, .add, .old, .new].find? fun o => cs == [o.cls] with
    | some o => if o.cls.2 = k.cls.2 then .ok o else .error .typeError
    | none => .error .typeError
  noType := ""
  pretty t := t
  typeImports t := if t = "Int" then [] else [("demo.types", t)]
  readT res t := if t = "Int" then .ok t else match res t with
    | some c => .ok c.2
    | none => .error .nameError
  lit q t := if (match q with | .single => '\'' | _ => '"') ∈ t.toList then .error .syntaxError else .ok t

/-- The variables of the example. -/
def exS : Store String Int :=
  [⟨"Result Name", "str", "", (0, 0), none, false⟩,
   ⟨"a", "Int", "", (0, 0), none, false⟩, ⟨"b", "Int", "", (0, 0), some 5, true⟩, ⟨"out", "Int", "", (0, 0), none, false⟩,
   ⟨"wb - a", "Int", "", (0, 0), none, false⟩, ⟨"wb - b", "Int", "", (0, 0), some 5, true⟩, ⟨"out", "Int", "", (0, 0), none, false⟩,
   ⟨"Iterable input: wb - a", "", "", (0, 0), none, false⟩, ⟨"Binding: wb - b", "Int", "", (0, 0), some 5, true⟩,
   ⟨"Foreach output", "", "", (0, 0), none, false⟩,
   ⟨"x", "Int", "", (0, 0), none, false⟩, ⟨"out", "Int", "", (0, 0), none, false⟩,
   ⟨"free", "Length", "a length", (1, 2), none, false⟩]

/-- The sum of its input and of a locked input. -/
def exInner : Flow Op Unit where
  blocks := [⟨.leaf .add, "sum", (3, 4), [1, 2], [3]⟩]
  pipes := []
  output := some 3
  steps := []
  detached := []
  description := ""
  documentation := "inner doc"
  name := "inner"

/-- The block which runs it. -/
def exWb : Blk Op Unit := ⟨.sub exInner, "wb", (5, 6), [4, 5], [6]⟩

/-- A free variable goes to a block, whose output is iterated. -/
def exFlow : Flow Op Unit where
  blocks := [⟨.leaf .dbl, "double", (7, 8), [10], [11]⟩, ⟨.each exWb 0, "loop", (9, 10), [7, 8], [9]⟩]
  pipes := [(12, 10), (11, 7)]
  output := some 9
  steps := []
  detached := []
  description := ""
  documentation := "outer doc"
  name := "outer"

theorem exInner_ok : FlowOk demoL exS exInner := by
  refine .mk (by decide) (by decide) (by decide) ?_ ⟨3, rfl, by decide⟩ ?_ (by rfl) (by rfl)
  · intro b hb
    simp only [exInner, List.mem_singleton] at hb
    subst hb
    refine .leaf rfl rfl ⟨by rfl, _, _, rfl, ?_, rfl⟩
    exact .cons ⟨rfl, by simp [Proto.var], by simp [look, exS]⟩ (.cons ⟨rfl, by simp [Proto.var], fun _ => rfl⟩ .nil)
  · rintro v (h | ⟨p, hp, -⟩) hn
    · exact absurd h hn
    · simp [exInner] at hp

theorem exWb_ok : BlockOk demoL exS exWb := by
  refine .sub rfl exInner_ok ⟨by rfl, _, _, rfl, ?_, rfl⟩
  exact .cons ⟨rfl, fun h => h, by simp [look, exS]⟩ (.cons ⟨rfl, fun h => h, fun _ => rfl⟩ .nil)

theorem exFlow_ok : FlowOk demoL exS exFlow := by
  refine .mk (by decide) (by decide) (by decide) ?_ ⟨9, rfl, by decide⟩ ?_ (by rfl) (by rfl)
  · intro b hb
    simp only [exFlow, List.mem_cons, List.not_mem_nil, or_false] at hb
    rcases hb with rfl | rfl
    · refine .leaf rfl rfl ⟨by rfl, _, _, rfl, ?_, rfl⟩
      exact .cons ⟨rfl, by simp [Proto.var], by simp [look, exS]⟩ .nil
    · refine .each rfl exWb_ok ?_ ⟨by rfl, _, _, rfl, ?_, rfl⟩
      · intro xs ys h
        have h' : (Except.ok (exWb.inputs.map (look exS), [look exS 6]) : Except PyErr _) = .ok (xs, ys) := h
        cases h'
        rfl
      · exact .cons ⟨rfl, by simp, by simp [look, exS]⟩ (.cons ⟨rfl, fun h => h, fun _ => rfl⟩ .nil)
  · intro v hv hn
    have h12 : v = 12 := by
      rcases hv with h | ⟨p, hp, h⟩
      · exact absurd h hn
      · simp only [exFlow, List.mem_cons, List.not_mem_nil, or_false] at hp
        have hport : ∀ u : Nat, u = 10 ∨ u = 11 ∨ u = 7 → PortOf exFlow u := by
          rintro u (rfl | rfl | rfl)
          · exact ⟨_, .head _, by decide⟩
          · exact ⟨_, .head _, by decide⟩
          · exact ⟨_, .tail _ (.head _), by decide⟩
        rcases hp with rfl | rfl
        · rcases h with rfl | rfl
          · rfl
          · exact absurd (hport _ (.inl rfl)) hn
        · rcases h with rfl | rfl
          · exact absurd (hport _ (.inr (.inl rfl))) hn
          · exact absurd (hport _ (.inr (.inr rfl))) hn
    subst h12
    refine ⟨by rfl, by rfl, rfl, rfl, fun res hres => ?_⟩
    have hr := hres ("demo.types", "Length") (by decide)
    show (if "Length" = "Int" then Except.ok "Length" else match res "Length" with
      | some c => .ok c.2
      | none => .error PyErr.nameError) = Except.ok "Length"
    rw [if_neg (by decide), hr]

/-- The classes named in the script of the example. -/
def exClasses : List Cls :=
  [("demo.ops", "Dbl"), ("demo.ops", "Add"), ("demo.types", "Length"), workflowBlockC, forEachC, workflowC, pipeC, variableC]

theorem exInner_uses {c : Cls} (h : UsesW demoL exS exInner c) : c ∈ exClasses := by
  cases h with
  | block hb h =>
    simp only [exInner, List.mem_singleton] at hb
    subst hb
    cases h with
    | leaf hk h => cases hk; simp only [demoL, List.mem_singleton, Op.cls] at h; subst h; decide
    | sub hk _ => cases hk
    | subBlock hk => cases hk
    | each hk _ => cases hk
    | eachBlock hk => cases hk
  | type hv hn h => rcases hv with h | ⟨p, hp, -⟩; exact absurd h hn; simp [exInner] at hp
  | var => decide
  | pipe => decide
  | workflow => decide

theorem exFlow_uses {c : Cls} (h : UsesW demoL exS exFlow c) : c ∈ exClasses := by
  cases h with
  | block hb h =>
    simp only [exFlow, List.mem_cons, List.not_mem_nil, or_false] at hb
    rcases hb with rfl | rfl
    · cases h with
      | leaf hk h => cases hk; simp only [demoL, List.mem_singleton, Op.cls] at h; subst h; decide
      | sub hk _ => cases hk
      | subBlock hk => cases hk
      | each hk _ => cases hk
      | eachBlock hk => cases hk
    · cases h with
      | leaf hk h => cases hk
      | sub hk _ => cases hk
      | subBlock hk => cases hk
      | each hk h =>
        cases hk
        cases h with
        | leaf hk h => cases hk
        | sub hk h => cases hk; exact exInner_uses h
        | subBlock hk => decide
        | each hk _ => cases hk
        | eachBlock hk => cases hk
      | eachBlock hk => decide
  | @type _ v _ hv hn h =>
    have hall : ∀ v ∈ List.range 13, ∀ c ∈ demoL.typeImports (look exS v).type, v = 12 → c ∈ exClasses := by decide
    have h12 : v = 12 ∨ v = 10 ∨ v = 11 ∨ v = 7 := by
      rcases hv with h | ⟨p, hp, h⟩
      · exact absurd h hn
      · simp only [exFlow, List.mem_cons, List.not_mem_nil, or_false] at hp
        rcases hp with rfl | rfl <;> simp only at h <;> omega
    have hport : ∀ u : Nat, u = 10 ∨ u = 11 ∨ u = 7 → PortOf exFlow u := by
      rintro u (rfl | rfl | rfl)
      · exact ⟨_, .head _, by decide⟩
      · exact ⟨_, .head _, by decide⟩
      · exact ⟨_, .tail _ (.head _), by decide⟩
    rcases h12 with rfl | h12
    · exact hall 12 (by decide) c h rfl
    · exact absurd (hport v h12) hn
  | var => decide
  | pipe => decide
  | workflow => decide

theorem exFlow_names : ∀ c d, UsesW demoL exS exFlow c → UsesW demoL exS exFlow d → c.2 = d.2 → c = d := by
  intro c d hc hd
  have : ∀ c ∈ exClasses, ∀ d ∈ exClasses, c.2 = d.2 → c = d := by decide
  exact this c (exFlow_uses hc) d (exFlow_uses hd)

/-- The variables of a new process. -/
def newS : Store String Int := [⟨"Result Name", "str", "", (0, 0), none, false⟩]

/-- A workflow with a free variable, a repeated workflow and a locked input meets the hypotheses of C119. -/
example : ∃ n, ∀ limit, n ≤ limit → ∀ s0, ∃ W' s', rebuild demoL limit exS exFlow s0 = .ok (W', s') ∧ SameW exS s' exFlow W' ∧ Ext s0 s' :=
  C119_partial exFlow_ok exFlow_names

/-- What the script of the workflow builds is as the check says. -/
def checked (s : Store String Int) (W : Flow Op Unit) (ok : Flow Op Unit → Store String Int → Bool) : Bool :=
  match rebuild demoL 20 s W newS with
  | .ok (W', s') => ok W' s'
  | .error _ => false

theorem of_checked {s : Store String Int} {W : Flow Op Unit} {ok : Flow Op Unit → Store String Int → Bool} (h : checked s W ok = true) :
    ∃ W' s', rebuild demoL 20 s W newS = .ok (W', s') ∧ ok W' s' = true := by
  unfold checked at h
  cases hr : rebuild demoL 20 s W newS with
  | error e => rw [hr] at h; cases h
  | ok r => rw [hr] at h; exact ⟨r.1, r.2, rfl, h⟩

/-- A workflow of one block. -/
def one (k : Op) (v o : Nat) (name : String) : Flow Op Unit := ⟨[⟨.leaf k, "b", (0, 0), [v], [o]⟩], [], some o, [], [], "", "doc", name⟩

/-- The workflow gets the documentation of the workflow in its blocks. -/
theorem C119_documentation_violated : ∃ (s : Store String Int) (W W' : Flow Op Unit) (s' : Store String Int),
    FlowOk demoL s W ∧ rebuild demoL 20 s W newS = .ok (W', s') ∧ W.documentation = "outer doc" ∧ W'.documentation = "inner doc" := by
  obtain ⟨W', s', h1, h2⟩ := of_checked (s := exS) (W := exFlow) (ok := fun W' _ => W'.documentation == "inner doc") (by decide)
  exact ⟨exS, exFlow, W', s', exFlow_ok, h1, rfl, by simpa using h2⟩

/-- The default value given by the user to the input of a block is lost. -/
theorem C119_default_violated : ∃ (s : Store String Int) (W W' : Flow Op Unit) (s' : Store String Int) (v v' : Nat),
    rebuild demoL 20 s W newS = .ok (W', s') ∧ W.blocks.map (·.inputs) = [[v]] ∧ W'.blocks.map (·.inputs) = [[v']] ∧
      (look s v).default = some 7 ∧ (look s' v').default = none := by
  obtain ⟨W', s', h1, h2⟩ := of_checked (s := [⟨"x", "Int", "", (0, 0), some 7, false⟩, ⟨"out", "Int", "", (0, 0), none, false⟩])
    (W := one .dbl 0 1 "w") (ok := fun W' s' => W'.blocks.map (·.inputs) == [[1]] && (look s' 1).default.isNone) (by decide)
  simp only [Bool.and_eq_true, beq_iff_eq, Option.isNone_iff_eq_none] at h2
  exact ⟨_, _, W', s', 0, 1, h1, rfl, h2.1, rfl, h2.2⟩

/-- The script of a workflow with an input locked on a value given by the user raises a ValueError. -/
theorem C119_lock_violated : ∃ (s : Store String Int) (W : Flow Op Unit) (v : Nat), W.blocks.map (·.inputs) = [[v]] ∧
    (look s v).default = some 7 ∧ (look s v).lockFlag = true ∧ rebuild demoL 20 s W newS = .error .valueError :=
  ⟨[⟨"x", "Int", "", (0, 0), some 7, true⟩, ⟨"out", "Int", "", (0, 0), none, false⟩], one .dbl 0 1 "w", 0, rfl, rfl, rfl, rfl⟩

/-- The default value of a free variable is lost. -/
theorem C119_free_violated : ∃ (s : Store String Int) (W W' : Flow Op Unit) (s' : Store String Int) (v t v' t' : Nat),
    rebuild demoL 20 s W newS = .ok (W', s') ∧ W.pipes = [(v, t)] ∧ W'.pipes = [(v', t')] ∧ (look s v).default = some 7 ∧
      (look s' v').default = none := by
  obtain ⟨W', s', h1, h2⟩ := of_checked (s := [⟨"x", "Int", "", (0, 0), none, false⟩, ⟨"out", "Int", "", (0, 0), none, false⟩,
    ⟨"free", "Int", "", (0, 0), some 7, false⟩])
    (W := { one .dbl 0 1 "w" with pipes := [(2, 0)] }) (ok := fun W' s' => W'.pipes == [(3, 1)] && (look s' 3).default.isNone) (by decide)
  simp only [Bool.and_eq_true, beq_iff_eq, Option.isNone_iff_eq_none] at h2
  exact ⟨_, _, W', s', 2, 0, 3, 1, h1, rfl, h2.1, rfl, h2.2⟩

/-- The steps and the description of the workflow are lost. -/
theorem C119_steps_violated : ∃ (s : Store String Int) (W W' : Flow Op Unit) (s' : Store String Int),
    rebuild demoL 20 s W newS = .ok (W', s') ∧ W.steps.length = 1 ∧ W'.steps = [] ∧ W.description = "text" ∧ W'.description = "" := by
  obtain ⟨W', s', h1, h2⟩ := of_checked (s := [⟨"x", "Int", "", (0, 0), none, false⟩, ⟨"out", "Int", "", (0, 0), none, false⟩])
    (W := { one .dbl 0 1 "w" with steps := [⟨"step", [0], "", [], none, "", none, ""⟩], description := "text" })
    (ok := fun W' s' => W'.steps.isEmpty && W'.description == "") (by decide)
  simp only [Bool.and_eq_true, beq_iff_eq, List.isEmpty_iff] at h2
  exact ⟨_, _, W', s', h1, rfl, h2.1, rfl, h2.2⟩

/-- The name of a workflow with a quote in it makes a script which Python does not read. -/
theorem C119_quote_violated : ∃ (s : Store String Int) (W : Flow Op Unit), W.name = "my \"best\" one" ∧
    rebuild demoL 20 s W newS = .error .syntaxError :=
  ⟨[⟨"x", "Int", "", (0, 0), none, false⟩, ⟨"out", "Int", "", (0, 0), none, false⟩], one .dbl 0 1 "my \"best\" one", rfl, rfl⟩

/-- Two blocks of the second class. -/
def bothNew : List (Kd Op Unit) → Bool
  | [.leaf .new, .leaf .new] => true
  | _ => false

theorem bothNew_eq {l : List (Kd Op Unit)} (h : bothNew l = true) : l = [.leaf .new, .leaf .new] := by
  unfold bothNew at h
  split at h
  · rfl
  · cases h

/-- With two classes of the same name, the script builds a block of the other class. -/
theorem C119_class_violated : ∃ (s : Store String Int) (W W' : Flow Op Unit) (s' : Store String Int),
    rebuild demoL 20 s W newS = .ok (W', s') ∧ W.blocks.map (·.kind) = [.leaf .old, .leaf .new] ∧
      W'.blocks.map (·.kind) = [.leaf .new, .leaf .new] := by
  obtain ⟨W', s', h1, h2⟩ := of_checked (s := [⟨"x", "Int", "", (0, 0), none, false⟩, ⟨"out", "Int", "", (0, 0), none, false⟩,
    ⟨"x", "Int", "", (0, 0), none, false⟩, ⟨"out", "Int", "", (0, 0), none, false⟩])
    (W := ⟨[⟨.leaf .old, "b", (0, 0), [0], [1]⟩, ⟨.leaf .new, "c", (0, 0), [2], [3]⟩], [(1, 2)], some 3, [], [], "", "doc", "w"⟩)
    (ok := fun W' _ => bothNew (W'.blocks.map (·.kind))) (by decide)
  exact ⟨_, _, W', s', h1, rfl, bothNew_eq h2⟩

end DC.Scr
