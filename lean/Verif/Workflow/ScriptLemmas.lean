import Verif.Workflow.Script
import Verif.Workflow.PersistProps
import Verif.Values.LoadLemmas
/- What is stated on the scripts of workflows, and lemmas for Verif/Workflow/ScriptProps.lean. -/
set_option linter.unusedSectionVars false
set_option linter.unusedSimpArgs false
namespace DC.Scr
open DC.Wkf

variable {β τ α δ π : Type} [Inhabited τ]

/-! ### What is stated -/

/-- The variable `v'` of the store `s'` is like the variable `v` of the store `s`: name, type, label, position, default value, lock. -/
def Twin (s s' : Store τ α) (v v' : Nat) : Prop := look s' v' = look s v ∧ v' < s'.length

mutual
/-- The workflow `W'` of the store `s'` is like the workflow `W` of the store `s`: each variable `v` of `W` has a counterpart `ρ v`, which is
like it; the blocks are alike and in the same order; the pipes join the counterparts; the output is the counterpart of the output; the name
is the same, and the documentation too when there is no workflow in the blocks. -/
inductive SameW (s s' : Store τ α) : Flow β δ → Flow β δ → Prop
  | mk {W W' : Flow β δ} (ρ : Nat → Nat) (inj : ∀ u v, VarOf W u → VarOf W v → ρ u = ρ v → u = v)
      (twin : ∀ v, VarOf W v → Twin s s' v (ρ v)) (len : W'.blocks.length = W.blocks.length)
      (blocks : ∀ (i : Nat) b b', W.blocks[i]? = some b → W'.blocks[i]? = some b' → SameB s s' b b')
      (ports : ∀ (i : Nat) b b', W.blocks[i]? = some b → W'.blocks[i]? = some b' →
        b'.inputs = b.inputs.map ρ ∧ b'.outputs = b.outputs.map ρ)
      (pipes : W'.pipes = W.pipes.map fun p => (ρ p.1, ρ p.2)) (output : W'.output = W.output.map ρ)
      (outTwin : ∀ o, W.output = some o → Twin s s' o (ρ o)) (name : W'.name = W.name)
      (doc : (∀ b ∈ W.blocks, ∃ k, b.kind = .leaf k) → W'.documentation = W.documentation) : SameW s s' W W'
/-- Blocks which are alike: same name, same position, ports which are alike, built from the same things. -/
inductive SameB (s s' : Store τ α) : Blk β δ → Blk β δ → Prop
  | mk {b b' : Blk β δ} (kind : SameK s s' b.kind b'.kind) (name : b'.name = b.name) (position : b'.position = b.position)
      (ins : List.Forall₂ (Twin s s') b.inputs b'.inputs) (outs : List.Forall₂ (Twin s s') b.outputs b'.outputs) : SameB s s' b b'
/-- Blocks built from the same things: the same class and arguments, workflows which are alike, or blocks to repeat which are alike. -/
inductive SameK (s s' : Store τ α) : Kd β δ → Kd β δ → Prop
  | leaf (k : β) : SameK s s' (.leaf k) (.leaf k)
  | sub {W W' : Flow β δ} (h : SameW s s' W W') : SameK s s' (.sub W) (.sub W')
  | each {b b' : Blk β δ} (i : Int) (h : SameB s s' b b') : SameK s s' (.each b i) (.each b' i)
end

/-- The text between quotes is read as it is. -/
def Written (L : Lang β τ α π) (q : Quote) (t : String) : Prop := L.lit q t = .ok t

/-- A port as the constructor of its block makes it, or locked since then. -/
def AsBuilt (x y : Var τ α) : Prop :=
  x = { y with lockFlag := x.lockFlag } ∧ (y.lockFlag = true → x.lockFlag = true) ∧ (x.lockFlag = true → x.default.isSome = true)

/-- The ports of the block are as its constructor makes them, except that inputs may have been locked. -/
structure PortsOk (L : Lang β τ α π) (s : Store τ α) (b : Blk β δ) : Prop where
  name : Written L .double b.name
  ports : ∃ xs ys, portsOf L s b.name b.kind = .ok (xs, ys) ∧ List.Forall₂ AsBuilt (b.inputs.map (look s)) xs ∧ b.outputs.map (look s) = ys

/-- A free variable without default value, whose annotation is read from what is written of it. -/
structure FreeOk (L : Lang β τ α π) (x : Var τ α) : Prop where
  name : Written L .single x.name
  label : Written L .single x.label
  default : x.default = none
  lock : x.lockFlag = false
  type : ∀ res : String → Option Cls, (∀ c ∈ L.typeImports x.type, res c.2 = some c) → L.readT res (L.pretty x.type) = .ok x.type

mutual
/-- A workflow which scripts can write: its ports are as the constructors of its blocks make them, its pipes go from outputs or free
variables to inputs, it has an output, and its texts are read as they are. -/
inductive FlowOk (L : Lang β τ α π) (s : Store τ α) : Flow β δ → Prop
  | mk {W : Flow β δ} (distinct : (W.blocks.flatMap fun b => b.inputs ++ b.outputs).Nodup)
      (target : ∀ p ∈ W.pipes, ∃ b ∈ W.blocks, p.2 ∈ b.inputs) (source : ∀ p ∈ W.pipes, ∀ b ∈ W.blocks, p.1 ∉ b.inputs)
      (blocks : ∀ b ∈ W.blocks, BlockOk L s b) (output : ∃ o, W.output = some o ∧ ∃ b ∈ W.blocks, o ∈ b.outputs)
      (free : ∀ v, VarOf W v → ¬ PortOf W v → FreeOk L (look s v)) (name : Written L .double W.name)
      (doc : Written L .triple W.documentation) : FlowOk L s W
/-- A block which scripts can write. -/
inductive BlockOk (L : Lang β τ α π) (s : Store τ α) : Blk β δ → Prop
  | leaf {b : Blk β δ} {k : β} (kind : b.kind = .leaf k) (make : L.make (L.classes k) (L.args k (L.ins k).length) = .ok k)
      (ports : PortsOk L s b) : BlockOk L s b
  | sub {b : Blk β δ} {W : Flow β δ} (kind : b.kind = .sub W) (flow : FlowOk L s W) (ports : PortsOk L s b) : BlockOk L s b
  | each {b c : Blk β δ} {i : Int} (kind : b.kind = .each c i) (block : BlockOk L s c)
      (exact : ∀ xs ys, portsOf L s c.name c.kind = .ok (xs, ys) → c.inputs.map (look s) = xs) (ports : PortsOk L s b) : BlockOk L s b
end

/-! ### Names -/

theorem append_inj {p a b : String} (h : p ++ a = p ++ b) : a = b := by
  have := congrArg String.toList h
  simp only [String.toList_append, List.append_cancel_left_eq] at this
  exact String.toList_inj.1 this

theorem ne_of_head {a b : String} (h : a.toList.head? ≠ b.toList.head?) : a ≠ b := fun e => h (by rw [e])

theorem blockName_inj {p : String} {i j : Nat} (h : blockName p i = blockName p j) : i = j :=
  toString_inj (append_inj (append_inj h))
theorem varName_inj {p : String} {i j : Nat} (h : varName p i = varName p j) : i = j :=
  toString_inj (append_inj (append_inj h))
theorem pipeName_inj {p : String} {i j : Nat} (h : pipeName p i = pipeName p j) : i = j :=
  toString_inj (append_inj (append_inj h))

theorem block_ne_var {p : String} {i j : Nat} : blockName p i ≠ varName p j := fun h =>
  absurd (append_inj h) (ne_of_head (by simp [String.toList_append]))
theorem block_ne_pipe {p : String} {i j : Nat} : blockName p i ≠ pipeName p j := fun h =>
  absurd (append_inj h) (ne_of_head (by simp [String.toList_append]))
theorem var_ne_pipe {p : String} {i j : Nat} : varName p i ≠ pipeName p j := fun h =>
  absurd (append_inj h) (ne_of_head (by simp [String.toList_append]))
theorem blocks_ne_block {p : String} {i : Nat} : blockName p i ≠ blocksName p := fun h => by
  have := congrArg (fun s : String => s.toList[5]?) (append_inj h)
  simp [String.toList_append] at this
theorem blocks_ne_var {p : String} {i : Nat} : varName p i ≠ blocksName p := fun h =>
  absurd (append_inj h) (ne_of_head (by simp [String.toList_append]))
theorem blocks_ne_pipe {p : String} {i : Nat} : pipeName p i ≠ blocksName p := fun h =>
  absurd (append_inj h) (ne_of_head (by simp [String.toList_append]))
theorem pipes_ne_block {p : String} {i : Nat} : blockName p i ≠ pipesName p := fun h =>
  absurd (append_inj h) (ne_of_head (by simp [String.toList_append]))
theorem flow_ne_block {p : String} {i : Nat} : blockName p i ≠ flowName p := fun h =>
  absurd (append_inj h) (ne_of_head (by simp [String.toList_append]))
theorem flow_ne_var {p : String} {i : Nat} : varName p i ≠ flowName p := fun h =>
  absurd (append_inj h) (ne_of_head (by simp [String.toList_append]))
theorem pipes_ne_blocks {p : String} : blocksName p ≠ pipesName p := fun h =>
  absurd (append_inj h) (by decide)

/-- The names which the script of a workflow inside the blocks may set. -/
def Inner (p x : String) : Prop := (subPrefix p).toList <+: x.toList ∨ x = "wfblock" ∨ x = "documentation"

theorem not_prefix {p a : String} (h : a.toList.head? ≠ some 's') : ¬ (subPrefix p).toList <+: (p ++ a).toList := by
  rintro ⟨t, ht⟩
  simp only [subPrefix, String.toList_append, List.append_assoc, List.append_cancel_left_eq] at ht
  exact h (by rw [← ht]; simp)

theorem under_ne {x y : String} (hx : '_' ∈ x.toList) (hy : '_' ∉ y.toList) : x ≠ y := fun h => hy (h ▸ hx)

theorem block_not_inner {p : String} {i : Nat} : ¬ Inner p (blockName p i) := by
  have hu : '_' ∈ (blockName p i).toList := by simp [blockName, String.toList_append]
  rintro (h | h | h)
  · exact not_prefix (by simp [String.toList_append]) h
  · exact under_ne hu (by decide) h
  · exact under_ne hu (by decide) h

theorem doc_ne_block {p : String} {i : Nat} : blockName p i ≠ "documentation" := fun h => block_not_inner (.inr (.inr h))
theorem doc_ne_var {p : String} {i : Nat} : varName p i ≠ "documentation" :=
  under_ne (by simp [varName, String.toList_append]) (by decide)
theorem doc_ne_pipe {p : String} {i : Nat} : pipeName p i ≠ "documentation" :=
  under_ne (by simp [pipeName, String.toList_append]) (by decide)
theorem doc_ne_last {p a : String} {c : Char} (h : a.toList.getLast? = some c) (hc : c ≠ 'n') : p ++ a ≠ "documentation" := fun e => by
  have := congrArg (fun s : String => s.toList.getLast?) e
  simp only [String.toList_append, List.getLast?_append, h, Option.some_or] at this
  exact hc (by simpa using this)
theorem pipes_ne_var {p : String} {i : Nat} : varName p i ≠ pipesName p := fun h =>
  absurd (append_inj h) (ne_of_head (by simp [String.toList_append]))

/-! ### The graph -/

section
variable (s : Store τ α) (W : Flow β δ)

theorem blockVars_graph : blockVars (graph s W) = W.blocks.flatMap fun b => b.inputs ++ b.outputs := by
  simp [blockVars, graph, List.flatMap_map]

theorem mem_allVariables_graph {v : Nat} : v ∈ allVariables (graph s W) ↔ VarOf W v := by
  rw [mem_allVariables, blockVars_graph]
  simp [graph, VarOf]

theorem mem_blockVars_graph {v : Nat} : v ∈ blockVars (graph s W) ↔ PortOf W v := by
  rw [blockVars_graph]
  simp [PortOf]

theorem mem_nbvs_graph {v : Nat} : v ∈ nbvs (graph s W) ↔ VarOf W v ∧ ¬ PortOf W v := by
  obtain ⟨e, -, h, -⟩ := nbvs_spec (graph s W)
  rw [← mem_allVariables_graph s W, ← mem_blockVars_graph s W, e, List.mem_append]
  exact ⟨fun hv => ⟨.inr hv, h v hv⟩, fun ⟨h1, h2⟩ => h1.resolve_left h2⟩
end

theorem ext_get {γ γ' : Type} {f : γ → γ'} {l : List γ} {l' : List γ'} (hl : l'.length = l.length)
    (h : ∀ (i : Nat) x y, l[i]? = some x → l'[i]? = some y → y = f x) : l' = l.map f := by
  apply List.ext_getElem?
  intro i
  rw [List.getElem?_map]
  cases hx : l[i]? with
  | none =>
    have := List.getElem?_eq_none_iff.1 hx
    rw [List.getElem?_eq_none (by omega)]
    rfl
  | some x =>
    have : i < l'.length := by
      rw [hl]
      exact (List.getElem?_eq_some_iff.1 hx).1
    rw [List.getElem?_eq_getElem this]
    exact congrArg some (h i x _ hx (List.getElem?_eq_getElem this))

theorem ren_graph {s s' : Store τ α} {W W' : Flow β δ} {ρ : Nat → Nat} (len : W'.blocks.length = W.blocks.length)
    (ports : ∀ (i : Nat) b b', W.blocks[i]? = some b → W'.blocks[i]? = some b' →
        b'.inputs = b.inputs.map ρ ∧ b'.outputs = b.outputs.map ρ)
    (pipes : W'.pipes = W.pipes.map fun p => (ρ p.1, ρ p.2)) : ren ρ (graph s W) (graph s' W') := by
  constructor
  · apply ext_get
    · simp [graph, len]
    · intro i x y hx hy
      simp only [graph, List.getElem?_map, Option.map_eq_some_iff] at hx hy
      obtain ⟨b, hb, rfl⟩ := hx
      obtain ⟨b', hb', rfl⟩ := hy
      obtain ⟨h1, h2⟩ := ports i b b' hb hb'
      simp only [h1, h2]
  · simp only [graph, pipes, List.map_map]
    rfl

/-! ### Ports -/

theorem eachInputs_congr (L : Lang β τ α π) {s s' : Store τ α} (i : Int) {l l' : List Nat} (h : List.Forall₂ (Twin s s') l l') :
    ∀ k, eachInputs L s' i k l' = eachInputs L s i k l := by
  induction h with
  | nil => intro k; rfl
  | cons hx _ ih =>
    intro k
    simp only [eachInputs, hx.1, ih]

theorem get_ok_iff (l : List Nat) (i : Int) : Py.get l i = (Py.idx l.length i).elim (.error .indexError) (fun k => Py.get l k) := by
  unfold Py.get
  cases h : Py.idx l.length i with
  | none => rfl
  | some k =>
    simp only [Option.elim, Py.idx_nat, Py.idx_lt h, if_true]

theorem get_same {γ : Type} {l l' : List Nat} (h : l'.length = l.length) (i : Int) (r : Except PyErr γ) :
    (do let _ ← Py.get l' i; r) = (do let _ ← Py.get l i; r) := by
  unfold Py.get
  rw [h]
  cases hi : Py.idx l.length i with
  | none => rfl
  | some k =>
    have hk := Py.idx_lt hi
    simp only
    rw [List.getElem?_eq_getElem hk, List.getElem?_eq_getElem (by omega)]
    rfl

theorem portsOf_congr (L : Lang β τ α π) {s s' : Store τ α} {k k' : Kd β δ} (h : SameK s s' k k') (name : String) :
    portsOf L s' name k' = portsOf L s name k := by
  cases h with
  | leaf k => rfl
  | @sub W W' h =>
    cases h with
    | mk ρ inj twin len blocks ports pipes output outTwin nm doc =>
      have hinj : ∀ u ∈ allVariables (graph s W), ∀ v ∈ allVariables (graph s W), ρ u = ρ v → u = v :=
        fun u hu v hv he => inj u v ((mem_allVariables_graph s W).1 hu) ((mem_allVariables_graph s W).1 hv) he
      have hin := ren_inputs (ren_graph (s := s) (s' := s') len ports pipes) hinj
      have e : (inputs (graph s W)).map (fun v => copyAs (fun n => name ++ " - " ++ n) (look s' (ρ v))) =
          (inputs (graph s W)).map (fun v => copyAs (fun n => name ++ " - " ++ n) (look s v)) := by
        apply List.map_congr_left
        intro v hv
        rw [(twin v ((mem_allVariables_graph s W).1 (mem_inputs.1 hv).1)).1]
      have e' : ((inputs (graph s W)).map ρ).mapM (fun v => copyAs (fun n => name ++ " - " ++ n) (look s' v)) =
          (inputs (graph s W)).mapM (fun v => copyAs (fun n => name ++ " - " ++ n) (look s v)) := by
        rw [List.mapM_map]
        have := congrArg (List.mapM id) e
        rw [List.mapM_map, List.mapM_map] at this
        exact this
      simp only [portsOf, hin, e', output]
      cases ho : W.output with
      | none => rfl
      | some o => simp only [Option.map_some, (outTwin o ho).1]
  | @each b b' i h =>
    cases h with
    | mk kind nm pos ins outs =>
      simp only [portsOf]
      rw [get_same ins.length_eq.symm, eachInputs_congr L i ins]

/-! ### Stores -/

/-- The variables of `s` are as they were in `s'`, which may have more of them. -/
def Ext (s s' : Store τ α) : Prop := s.length ≤ s'.length ∧ ∀ v, v < s.length → look s' v = look s v

theorem Ext.refl (s : Store τ α) : Ext s s := ⟨Nat.le_refl _, fun _ _ => rfl⟩

theorem Ext.trans {s s' s'' : Store τ α} (h : Ext s s') (h' : Ext s' s'') : Ext s s'' :=
  ⟨Nat.le_trans h.1 h'.1, fun v hv => (h'.2 v (Nat.lt_of_lt_of_le hv h.1)).trans (h.2 v hv)⟩

theorem Ext.append (s t : Store τ α) : Ext s (s ++ t) := ⟨by simp, fun _ hv => look_append_left hv⟩

theorem Twin.mono {s s' s'' : Store τ α} (h : Ext s' s'') {v v' : Nat} (ht : Twin s s' v v') : Twin s s'' v v' :=
  ⟨(h.2 v' ht.2).trans ht.1, Nat.lt_of_lt_of_le ht.2 h.1⟩

mutual
theorem SameW.mono {s s' s'' : Store τ α} (h : Ext s' s'') {W W' : Flow β δ} : SameW s s' W W' → SameW s s'' W W'
  | .mk ρ inj twin len blocks ports pipes output outTwin name doc =>
    .mk ρ inj (fun v hv => (twin v hv).mono h) len (fun i b b' hb hb' => (blocks i b b' hb hb').mono h) ports pipes output
      (fun o ho => (outTwin o ho).mono h) name doc
theorem SameB.mono {s s' s'' : Store τ α} (h : Ext s' s'') {b b' : Blk β δ} : SameB s s' b b' → SameB s s'' b b'
  | .mk kind name position ins outs =>
    .mk (kind.mono h) name position (ins.imp fun _ _ ht => ht.mono h) (outs.imp fun _ _ ht => ht.mono h)
theorem SameK.mono {s s' s'' : Store τ α} (h : Ext s' s'') {k k' : Kd β δ} : SameK s s' k k' → SameK s s'' k k'
  | .leaf k => .leaf k
  | .sub hW => .sub (hW.mono h)
  | .each i hb => .each i (hb.mono h)
end

/-- New variables, with what they hold. -/
theorem look_new {s : Store τ α} {xs : List (Var τ α)} (ys : List (Var τ α)) :
    (List.range' s.length xs.length).map (look (s ++ xs ++ ys)) = xs := by
  apply List.ext_getElem?
  intro i
  rw [List.getElem?_map]
  by_cases hi : i < xs.length
  · rw [List.getElem?_range' hi, Option.map_some, List.getElem?_eq_getElem hi, Nat.one_mul, look_append_left (by simp; omega),
      look_append_right]
    simp [look, List.getD_eq_getElem?_getD, hi]
  · rw [List.getElem?_eq_none (by simpa using hi), List.getElem?_eq_none (by omega)]
    rfl

theorem forall2_map {γ : Type} {R : γ → γ → Prop} {f g : Nat → γ} {l l' : List Nat} (h : List.Forall₂ R (l.map f) (l'.map g)) :
    List.Forall₂ (fun a b => R (f a) (g b)) l l' := by
  simpa [List.forall₂_map_left_iff, List.forall₂_map_right_iff] using h

theorem forall2_eq {γ : Type} {f g : Nat → γ} {l l' : List Nat} (h : l.map f = l'.map g) :
    List.Forall₂ (fun a b => g b = f a) l l' := by
  have : List.Forall₂ Eq (l.map f) (l'.map g) := by rw [h]; exact List.forall₂_refl _
  exact (forall2_map this).imp fun _ _ h => h.symm

theorem forall2_bound {γ γ' : Type} {R : γ → γ' → Prop} {P : γ' → Prop} {l : List γ} {l' : List γ'} (h : List.Forall₂ R l l')
    (hP : ∀ y ∈ l', P y) : List.Forall₂ (fun a b => R a b ∧ P b) l l' := by
  induction h with
  | nil => exact .nil
  | cons hx _ ih => exact .cons ⟨hx, hP _ (by simp)⟩ (ih fun y hy => hP y (by simp [hy]))

/-! ### Executions -/

theorem execAll_append (L : Lang β τ α π) (res : String → Option Cls) (l l' : List (Stmt π)) :
    ∀ σ : St β τ α δ, execAll L res σ (l ++ l') = (do let σ ← execAll L res σ l; execAll L res σ l') := by
  induction l with
  | nil => intro σ; rfl
  | cons c cs ih =>
    intro σ
    simp only [List.cons_append, execAll]
    cases exec L res σ c with
    | error e => rfl
    | ok σ => exact ih σ

theorem execAll_trans {L : Lang β τ α π} {res : String → Option Cls} {l l' : List (Stmt π)} {σ σ' σ'' : St β τ α δ}
    (h : execAll L res σ l = .ok σ') (h' : execAll L res σ' l' = .ok σ'') : execAll L res σ (l ++ l') = .ok σ'' := by
  rw [execAll_append, h]
  exact h'

theorem execAll_cons {L : Lang β τ α π} {res : String → Option Cls} {c : Stmt π} {l : List (Stmt π)} {σ σ' σ'' : St β τ α δ}
    (h : exec L res σ c = .ok σ') (h' : execAll L res σ' l = .ok σ'') : execAll L res σ (c :: l) = .ok σ'' := by
  simp only [execAll, h]
  exact h'

theorem bind_same (σ : St β τ α δ) (x : String) (o : Obj β δ) : (σ.bind x o).env x = some o := by simp [St.bind]
theorem bind_other (σ : St β τ α δ) {x y : String} (o : Obj β δ) (h : y ≠ x) : (σ.bind x o).env y = σ.env y := by simp [St.bind, h]
theorem bind_store (σ : St β τ α δ) (x : String) (o : Obj β δ) : (σ.bind x o).store = σ.store := rfl

theorem calls_ok {res : String → Option Cls} {c : Cls} (h : res c.2 = some c) : calls res c = .ok () := by
  unfold calls classOf
  rw [h]
  simp [bind, Except.bind]

theorem classes_ok {res : String → Option Cls} {l : List Cls} (h : ∀ c ∈ l, res c.2 = some c) :
    (l.map (·.2)).mapM (classOf res) = .ok l := by
  rw [List.mapM_map]
  have := mapM_pure (f := fun c : Cls => classOf res c.2) (g := id) (l := l) (fun c hc => by
    unfold classOf
    rw [h c hc]
    rfl)
  rw [List.map_id] at this
  exact this

/-! ### Locks -/

theorem lockStmts_ok {s : Store τ α} (x : String) {vs : List Nat}
    (h : ∀ v ∈ vs, (look s v).lockFlag = true → (look s v).default.isSome = true) :
    ∀ k, ∃ st : List (Stmt π), lockStmts s x k vs = .ok st := by
  induction vs with
  | nil => intro k; exact ⟨[], rfl⟩
  | cons v vs ih =>
    intro k
    obtain ⟨st, hst⟩ := ih (fun u hu => h u (by simp [hu])) (k + 1)
    refine ⟨if (look s v).lockFlag then .lock x k :: st else st, ?_⟩
    simp only [lockStmts, locked_ok (h v (by simp)), hst]
    rfl

theorem locks {L : Lang β τ α π} {res : String → Option Cls} {s : Store τ α} {x : String} {b : Blk β δ} {vs us : List Nat} :
    ∀ {k : Nat} {st : List (Stmt π)} {σ : St β τ α δ}, lockStmts s x k vs = .ok st → σ.env x = some (.block b) →
      (∀ (i : Nat) u, us[i]? = some u → b.inputs[k + i]? = some u) → us.Nodup → (∀ u ∈ us, u < σ.store.length) →
      List.Forall₂ (fun v u => AsBuilt (look s v) (look σ.store u)) vs us →
      ∃ σ', execAll L res σ st = .ok σ' ∧ σ'.env = σ.env ∧ σ'.store.length = σ.store.length ∧
        List.Forall₂ (fun v u => look σ'.store u = look s v) vs us ∧ ∀ u, u ∉ us → look σ'.store u = look σ.store u := by
  induction vs generalizing us with
  | nil =>
    intro k st σ hst _ _ _ _ hb
    cases hst
    cases hb
    exact ⟨σ, rfl, rfl, rfl, .nil, fun _ _ => rfl⟩
  | cons v vs ih =>
    intro k st σ hst hx hget hn hlt hb
    cases hb with
    | @cons _ u _ us hv hb =>
    simp only [lockStmts, locked_ok hv.2.2] at hst
    obtain ⟨r, hr, hst⟩ : ∃ r, lockStmts s x (k + 1) vs = .ok r ∧ st = if (look s v).lockFlag then .lock x k :: r else r := by
      cases hr : lockStmts (π := π) s x (k + 1) vs with
      | error e => rw [hr] at hst; cases hst
      | ok r => rw [hr] at hst; exact ⟨r, rfl, by cases hst; rfl⟩
    obtain ⟨hu, hn⟩ := List.nodup_cons.1 hn
    have hget' : ∀ (i : Nat) w, us[i]? = some w → b.inputs[k + 1 + i]? = some w := by
      intro i w hw
      have := hget (i + 1) w (by simpa using hw)
      rwa [Nat.add_assoc, Nat.add_comm 1 i]
    by_cases hl : (look s v).lockFlag = true
    · rw [if_pos hl] at hst
      subst hst
      have h0 := hget 0 u (by simp)
      have hd : (look σ.store u).default = (look s v).default := by rw [hv.1]
      have hlock : (look σ.store u).lock none = .ok (look s v) := by
        unfold Var.lock
        simp only [hd, hv.2.2 hl, if_true]
        congr 1
        conv_rhs => rw [hv.1]
        rw [hl, hd]
      have he : exec L res σ (.lock x k) = .ok { σ with store := σ.store.set u (look s v) } := by
        simp only [exec, getVar, getBlock, hx, at']
        simp only [Nat.add_zero] at h0
        simp only [bind, Except.bind, h0, hlock]
      obtain ⟨σ', h1, h2, h3, h4, h5⟩ := ih (us := us) (k := k + 1) (st := r) (σ := { σ with store := σ.store.set u (look s v) }) hr hx hget' hn
        (fun w hw => by simpa using hlt w (by simp [hw]))
        (by
          refine (forall2_bound hb (P := fun w => w ∈ us) fun w hw => hw).imp fun a w h => ?_
          show AsBuilt _ (look (σ.store.set u (look s v)) w)
          have hne : w ≠ u := fun e => hu (e ▸ h.2)
          rw [look_set (hlt u (by simp)), if_neg hne]
          exact h.1)
      refine ⟨σ', execAll_cons he h1, h2, by simpa using h3, .cons ?_ h4, fun w hw => ?_⟩
      · rw [h5 u hu, look_set (hlt u (by simp)), if_pos (by rfl)]
      · rw [h5 w (fun h => hw (by simp [h])), look_set (hlt u (by simp)), if_neg (fun e => hw (by simp [e]))]
    · rw [if_neg hl] at hst
      subst hst
      obtain ⟨σ', h1, h2, h3, h4, h5⟩ := ih (us := us) (k := k + 1) (σ := σ) hr hx hget' hn (fun w hw => hlt w (by simp [hw])) hb
      refine ⟨σ', h1, h2, h3, .cons ?_ h4, fun w hw => h5 w (fun h => hw (by simp [h]))⟩
      rw [h5 u hu, hv.1]
      have hy : (look σ.store u).lockFlag = false := by
        cases e : (look σ.store u).lockFlag with
        | false => rfl
        | true => exact absurd (hv.2.1 e) hl
      have hx' : (look s v).lockFlag = false := by simpa using hl
      rw [hx', ← hy]

/-! ### Blocks -/

/-- The script of the block is made, and its execution builds a block which is like it, up to the locks of its inputs. -/
def BlockRuns (L : Lang β τ α π) (s : Store τ α) (m : Nat) (p : String) (b : Blk β δ) : Prop :=
  ∃ st d I, blockScript L s m p b = .ok (st, d, I) ∧ ∀ res : String → Option Cls, (∀ c ∈ I, res c.2 = some c) → ∀ σ : St β τ α δ,
    ∃ σ' b' xs ys, execAll L res σ st = .ok σ' ∧ Ext σ.store σ'.store ∧ (∀ x, ¬ Inner p x → σ'.env x = σ.env x) ∧
      ((∃ k, b.kind = .leaf k) → σ'.env = σ.env) ∧
      ((∃ t, σ.env "documentation" = some (.text t)) → ∃ t, σ'.env "documentation" = some (.text t)) ∧ portsOf L s b.name b.kind = .ok (xs, ys) ∧
      evalDecl L res σ' d = .ok (b', σ'.store ++ xs ++ ys) ∧ SameK s σ'.store b.kind b'.kind ∧ b'.name = b.name ∧
      b'.position = b.position ∧ b'.inputs = List.range' σ'.store.length xs.length ∧
      b'.outputs = List.range' (σ'.store.length + xs.length) ys.length

/-- The names of the blocks and of the free variables stand for their counterparts. -/
def Reads (p : String) (bs : List (Blk β δ)) (free : List Nat) (ρ : Nat → Nat) (σ : St β τ α δ) : Prop :=
  (∀ (j : Nat) b, bs[j]? = some b → σ.env (blockName p j) = some (.block b)) ∧
  ∀ (i : Nat) v, free[i]? = some v → σ.env (varName p i) = some (.var (ρ v))

theorem Reads.frame {p : String} {bs : List (Blk β δ)} {free : List Nat} {ρ : Nat → Nat} {σ σ' : St β τ α δ} (h : Reads p bs free ρ σ)
    (hb : ∀ j, σ'.env (blockName p j) = σ.env (blockName p j)) (hv : ∀ j, σ'.env (varName p j) = σ.env (varName p j)) :
    Reads p bs free ρ σ' := ⟨fun j b e => (hb j).trans (h.1 j b e), fun i v e => (hv i).trans (h.2 i v e)⟩

/-- The script of the workflow is made, and its execution builds a workflow which is like it. -/
def FlowRuns (L : Lang β τ α π) (s : Store τ α) (m : Nat) (p : String) (W : Flow β δ) : Prop :=
  ∃ st I, flowScript L s m p W = .ok (st, I) ∧ ∀ res : String → Option Cls, (∀ c ∈ I, res c.2 = some c) → ∀ σ : St β τ α δ,
    ∃ σ' W', execAll L res σ st = .ok σ' ∧ σ'.env (flowName p) = some (.flow W') ∧ SameW s σ'.store W W' ∧ Ext σ.store σ'.store ∧
      (∃ t, σ'.env "documentation" = some (.text t)) ∧
      (∀ x, ¬ (p.toList <+: x.toList) → x ≠ "wfblock" → x ≠ "documentation" → σ'.env x = σ.env x) ∧
      Reads p W'.blocks (nbvs (graph σ'.store W')) id σ'

/-- The block which the script builds, with its locks. -/
theorem block_step {L : Lang β τ α π} {s : Store τ α} {b : Blk β δ} (hP : PortsOk L s b) {x : String}
    {l : List (Stmt π)} (hl : lockStmts s x 0 b.inputs = .ok l) {res : String → Option Cls} {σ : St β τ α δ} {d : Decl π}
    {b' : Blk β δ} {xs ys : List (Var τ α)} (hp : portsOf L s b.name b.kind = .ok (xs, ys))
    (he : evalDecl L res σ d = .ok (b', σ.store ++ xs ++ ys)) (hk : SameK s σ.store b.kind b'.kind) (hn : b'.name = b.name)
    (hpos : b'.position = b.position) (hi : b'.inputs = List.range' σ.store.length xs.length)
    (ho : b'.outputs = List.range' (σ.store.length + xs.length) ys.length) :
    ∃ σ', execAll L res σ (.setBlock x d :: l) = .ok σ' ∧ Ext σ.store σ'.store ∧ σ'.env x = some (.block b') ∧
      (∀ y, y ≠ x → σ'.env y = σ.env y) ∧ SameB s σ'.store b b' ∧ (b'.inputs ++ b'.outputs).Nodup ∧
      ∀ v ∈ b'.inputs ++ b'.outputs, σ.store.length ≤ v ∧ v < σ'.store.length := by
  obtain ⟨xs', ys', hp', hins, houts⟩ := hP.ports
  rw [hp] at hp'
  cases hp'
  have hnd : (b'.inputs ++ b'.outputs).Nodup := by
    rw [hi, ho, List.range'_append_1]
    exact List.nodup_range'
  have hrange : ∀ v ∈ b'.inputs ++ b'.outputs, σ.store.length ≤ v ∧ v < (σ.store ++ xs ++ ys).length := by
    intro v hv
    rw [hi, ho, List.range'_append_1, List.mem_range'_1] at hv
    simp only [List.length_append]
    omega
  have hex : exec L res σ (.setBlock x d) = .ok ({ σ with store := σ.store ++ xs ++ ys }.bind x (.block b')) := by
    simp only [exec, he]
    rfl
  have hbuilt : List.Forall₂ (fun v u => AsBuilt (look s v) (look (σ.store ++ xs ++ ys) u)) b.inputs b'.inputs := by
    apply forall2_map
    rw [hi, look_new]
    exact hins
  obtain ⟨σ', h1, h2, h3, h4, h5⟩ := locks (L := L) (res := res) (b := b') (us := b'.inputs)
    (σ := { σ with store := σ.store ++ xs ++ ys }.bind x (.block b')) hl
    (bind_same _ _ _) (fun i u hu => by rwa [Nat.zero_add]) (List.nodup_append.1 hnd).1
    (fun u hu => (hrange u (List.mem_append_left _ hu)).2) hbuilt
  rw [bind_store] at h3
  simp only [bind_store] at h5
  have hE : Ext σ.store σ'.store := by
    constructor
    · rw [h3]; simp only [List.length_append]; omega
    · intro v hv
      rw [h5 v (fun hm => by have := (hrange v (List.mem_append_left _ hm)).1; omega), List.append_assoc, look_append_left hv]
  refine ⟨σ', execAll_cons hex h1, hE, ?_, fun y hy => ?_, ?_, hnd, fun v hv => ?_⟩
  · rw [h2, bind_same]
  · rw [h2, bind_other _ _ hy]
  · refine .mk (hk.mono hE) hn hpos ?_ ?_
    · refine forall2_bound h4 fun u hu => ?_
      rw [h3]
      exact (hrange u (List.mem_append_left _ hu)).2
    · have hlook : b'.outputs.map (look σ'.store) = ys := by
        have h6 : b'.outputs.map (look (σ.store ++ xs ++ ys)) = ys := by
          have := look_new (s := σ.store ++ xs) (xs := ys) []
          rw [List.append_nil, List.length_append] at this
          rw [ho, this]
        rw [← h6]
        apply List.map_congr_left
        intro v hv
        exact h5 v fun hm => (List.nodup_append.1 hnd).2.2 v hm v hv rfl
      refine forall2_bound (forall2_eq (houts.trans hlook.symm)) fun u hu => ?_
      rw [h3]
      exact (hrange u (List.mem_append_right _ hu)).2
  · obtain ⟨h6, h7⟩ := hrange v hv
    exact ⟨h6, by rw [h3]; exact h7⟩

theorem PortsOk.locks {L : Lang β τ α π} {s : Store τ α} {b : Blk β δ} (h : PortsOk L s b) :
    ∀ v ∈ b.inputs, (look s v).lockFlag = true → (look s v).default.isSome = true := by
  obtain ⟨xs, ys, -, h2, -⟩ := h.ports
  intro v hv
  obtain ⟨i, hi, rfl⟩ := List.getElem_of_mem hv
  have := (List.forall₂_iff_get.1 h2).2 i (by simpa using hi) (by rw [← h2.length_eq]; simpa using hi)
  simp only [List.get_eq_getElem, List.getElem_map] at this
  exact this.2.2

theorem blocks_loop {L : Lang β τ α π} {s : Store τ α} {m : Nat} {p : String} {bs : List (Blk β δ)}
    (h : ∀ b ∈ bs, PortsOk L s b ∧ BlockRuns L s m p b) : ∀ k, ∃ st I, blockStmts s p (blockScript L s m p) k bs = .ok (st, I) ∧
      ∀ res : String → Option Cls, (∀ c ∈ I, res c.2 = some c) → ∀ σ : St β τ α δ, ∃ σ' bs', execAll L res σ st = .ok σ' ∧
        Ext σ.store σ'.store ∧ (∀ x, ¬ Inner p x → (∀ j, k ≤ j → x ≠ blockName p j) → σ'.env x = σ.env x) ∧
        ((∀ b ∈ bs, ∃ k, b.kind = .leaf k) → σ'.env "documentation" = σ.env "documentation") ∧
        ((∃ t, σ.env "documentation" = some (.text t)) → ∃ t, σ'.env "documentation" = some (.text t)) ∧
        List.Forall₂ (SameB s σ'.store) bs bs' ∧
        (∀ (j : Nat) b', bs'[j]? = some b' → σ'.env (blockName p (k + j)) = some (.block b')) ∧
        (bs'.flatMap fun b => b.inputs ++ b.outputs).Nodup ∧
        ∀ v ∈ bs'.flatMap fun b => b.inputs ++ b.outputs, σ.store.length ≤ v ∧ v < σ'.store.length := by
  induction bs with
  | nil =>
    intro k
    refine ⟨[], [], rfl, fun res _ σ => ⟨σ, [], rfl, Ext.refl _, fun _ _ _ => rfl, fun _ => rfl, id, .nil, ?_, ?_, ?_⟩⟩
    · intro j b' hb'; simp at hb'
    · simp
    · simp
  | cons b bs ih =>
    intro k
    obtain ⟨hP, st1, d, I1, hb, hrun⟩ := h b (by simp)
    obtain ⟨st2, I2, hbs, hrest⟩ := ih (fun c hc => h c (by simp [hc])) (k + 1)
    obtain ⟨l, hl⟩ := lockStmts_ok (π := π) (blockName p k) hP.locks 0
    refine ⟨st1 ++ .setBlock (blockName p k) d :: (l ++ st2), I1 ++ I2, ?_, ?_⟩
    · simp only [blockStmts, hb, hl, hbs]
      rfl
    · intro res hres σ
      obtain ⟨σ1, b', xs, ys, a1, a2, a3, a4, a4', a5, a6, a7, a8, a9, a10, a11⟩ := hrun res (fun c hc => hres c (by simp [hc])) σ
      obtain ⟨σ2, b1, b2, b3, b4, b5, b6, b7⟩ := block_step hP hl a5 a6 a7 a8 a9 a10 a11
      obtain ⟨σ3, bs', c1, c2, c3, c4, c4', c5, c6, c7, c8⟩ := hrest res (fun c hc => hres c (by simp [hc])) σ2
      have hE : Ext σ.store σ3.store := (a2.trans b2).trans c2
      refine ⟨σ3, b' :: bs', ?_, hE, ?_, ?_, ?_, ?_, ?_, ?_, ?_⟩
      · refine execAll_trans a1 ?_
        have := execAll_trans b1 c1
        simpa using this
      · intro x hx hj
        rw [c3 x hx (fun j h => hj j (by omega)), b4 x (hj k (Nat.le_refl _)), a3 x hx]
      · intro hleaf
        rw [c4 (fun c hc => hleaf c (by simp [hc])), b4 _ (fun e => doc_ne_block e.symm), a4 (hleaf b (by simp))]
      · intro ht
        apply c4'
        rw [b4 _ (fun e => doc_ne_block e.symm)]
        exact a4' ht
      · exact .cons (b5.mono c2) c5
      · intro j c hc
        cases j with
        | zero =>
          simp only [List.getElem?_cons_zero, Option.some.injEq] at hc
          subst hc
          rw [Nat.add_zero, c3 _ block_not_inner (fun j hj e => by have := blockName_inj e; omega), b3]
        | succ j =>
          have := c6 j c (by simpa using hc)
          rwa [Nat.add_assoc, Nat.add_comm 1 j] at this
      · rw [List.flatMap_cons, List.nodup_append]
        refine ⟨b6, c7, fun u hu v hv e => ?_⟩
        have h1 := (b7 u hu).2
        have h2 := (c8 v hv).1
        omega
      · intro v hv
        rw [List.flatMap_cons, List.mem_append] at hv
        rcases hv with hv | hv
        · have h1 := b7 v hv
          have h2 := a2.1
          have h3 := c2.1
          omega
        · have h1 := c8 v hv
          have h2 := (a2.trans b2).1
          omega

/-! ### Free variables -/

theorem vars_loop {L : Lang β τ α π} {s : Store τ α} {p : String} {res : String → Option Cls} {vs : List Nat}
    (hres : ∀ v ∈ vs, ∀ c ∈ L.typeImports (look s v).type ++ [variableC], res c.2 = some c) (h : ∀ v ∈ vs, FreeOk L (look s v)) :
    ∀ k (σ : St β τ α δ), ∃ σ', execAll L res σ (varStmts L s p k vs) = .ok σ' ∧ Ext σ.store σ'.store ∧
      (∀ x, (∀ j, k ≤ j → x ≠ varName p j) → σ'.env x = σ.env x) ∧
      (∀ j, j < vs.length → σ'.env (varName p (k + j)) = some (.var (σ.store.length + j))) ∧
      List.Forall₂ (Twin s σ'.store) vs (List.range' σ.store.length vs.length) := by
  induction vs with
  | nil => intro k σ; exact ⟨σ, rfl, Ext.refl _, fun _ _ => rfl, fun j hj => by simp at hj, .nil⟩
  | cons v vs ih =>
    intro k σ
    obtain ⟨f1, f2, f3, f4, f5⟩ := h v (by simp)
    have hcall : calls res variableC = .ok () := calls_ok (hres v (by simp) variableC (by simp))
    have ht := f5 res (fun c hc => hres v (by simp) c (by simp [hc]))
    have hex : exec L res σ (.setVar (varName p k) (look s v).name (look s v).label (look s v).position (L.pretty (look s v).type)) =
        .ok ({ σ with store := σ.store ++ [look s v] }.bind (varName p k) (.var σ.store.length)) := by
      have hv : (⟨(look s v).name, (look s v).type, (look s v).label, (look s v).position, none, false⟩ : Var τ α) = look s v := by
        rw [← f3, ← f4]
      simp only [exec, hcall, bind, Except.bind]
      rw [show L.lit .single (look s v).name = _ from f1]
      simp only
      rw [show L.lit .single (look s v).label = _ from f2]
      simp only [ht, hv]
    obtain ⟨σ', h1, h2, h3, h4, h5⟩ := ih (fun u hu => hres u (by simp [hu])) (fun u hu => h u (by simp [hu])) (k + 1)
      ({ σ with store := σ.store ++ [look s v] }.bind (varName p k) (.var σ.store.length))
    simp only [bind_store, List.length_append, List.length_singleton] at h2 h4 h5
    refine ⟨σ', execAll_cons hex h1, (Ext.append _ _).trans h2, fun x hx => ?_, fun j hj => ?_, ?_⟩
    · rw [h3 x (fun j hj => hx j (by omega)), bind_other _ _ (hx k (Nat.le_refl _))]
    · cases j with
      | zero => rw [Nat.add_zero, h3 _ (fun j hj e => by have := varName_inj e; omega), bind_same, Nat.add_zero]
      | succ j =>
        have := h4 j (by simpa using hj)
        rw [Nat.add_assoc, Nat.add_comm 1 j] at this
        rw [this]
        congr 2
        omega
    · refine .cons ⟨?_, ?_⟩ h5
      · rw [h2.2 _ (by simp)]
        have := look_append_right (s := σ.store) (t := [look s v]) 0
        rw [Nat.add_zero] at this
        rw [this]
        rfl
      · have := h2.1
        simp only [List.length_append, List.length_singleton] at this
        omega

/-! ### The correspondence of variables -/

/-- The element of `B` at the place of `v` in `A`. -/
def pairing (A B : List Nat) (v : Nat) : Nat := B.getD (A.idxOf v) 0

theorem pairing_get {A B : List Nat} (hA : A.Nodup) {i v u : Nat} (hv : A[i]? = some v)
    (hu : B[i]? = some u) : pairing A B v = u := by
  unfold pairing
  rw [idxOf_of_nodup hA hv, List.getD_eq_getElem?_getD, hu]
  rfl

theorem pairing_map {A B : List Nat} (hA : A.Nodup) (hl : A.length = B.length) : A.map (pairing A B) = B :=
  (ext_get hl.symm fun _ _ _ hx hy => (pairing_get hA hx hy).symm).symm

theorem pairing_inj {A B : List Nat} (hA : A.Nodup) (hB : B.Nodup) (hl : A.length = B.length) {u v : Nat} (hu : u ∈ A) (hv : v ∈ A)
    (h : pairing A B u = pairing A B v) : u = v := by
  obtain ⟨i, hi, rfl⟩ := List.getElem_of_mem hu
  obtain ⟨j, hj, rfl⟩ := List.getElem_of_mem hv
  rw [pairing_get hA (List.getElem?_eq_getElem hi) (List.getElem?_eq_getElem (hl ▸ hi)),
    pairing_get hA (List.getElem?_eq_getElem hj) (List.getElem?_eq_getElem (hl ▸ hj))] at h
  have := (List.Nodup.getElem_inj_iff hB).1 h
  subst this
  rfl

theorem pairing_forall {R : Nat → Nat → Prop} {A B : List Nat} (hA : A.Nodup) (h : List.Forall₂ R A B) {v : Nat} (hv : v ∈ A) :
    R v (pairing A B v) := by
  obtain ⟨i, hi, rfl⟩ := List.getElem_of_mem hv
  have hl := h.length_eq
  rw [pairing_get hA (List.getElem?_eq_getElem hi) (List.getElem?_eq_getElem (hl ▸ hi))]
  exact (List.forall₂_iff_get.1 h).2 i hi (hl ▸ hi)

theorem SameB.lens {s s' : Store τ α} {b b' : Blk β δ} (h : SameB s s' b b') :
    b.inputs.length = b'.inputs.length ∧ b.outputs.length = b'.outputs.length := by
  cases h with
  | mk _ _ _ ins outs => exact ⟨ins.length_eq, outs.length_eq⟩

theorem SameB.twins {s s' : Store τ α} {b b' : Blk β δ} (h : SameB s s' b b') :
    List.Forall₂ (Twin s s') (b.inputs ++ b.outputs) (b'.inputs ++ b'.outputs) := by
  cases h with
  | mk _ _ _ ins outs => exact List.rel_append ins outs

theorem flat_twins {s s' : Store τ α} {bs bs' : List (Blk β δ)} (h : List.Forall₂ (SameB s s') bs bs') :
    List.Forall₂ (Twin s s') (bs.flatMap fun b => b.inputs ++ b.outputs) (bs'.flatMap fun b => b.inputs ++ b.outputs) := by
  induction h with
  | nil => exact .nil
  | cons hb _ ih => exact List.rel_append hb.twins ih

theorem flat_ports {s s' : Store τ α} {ρ : Nat → Nat} {bs bs' : List (Blk β δ)} (h : List.Forall₂ (SameB s s') bs bs') :
    (bs.flatMap fun b => b.inputs ++ b.outputs).map ρ = (bs'.flatMap fun b => b.inputs ++ b.outputs) →
    ∀ (i : Nat) b b', bs[i]? = some b → bs'[i]? = some b' → b'.inputs = b.inputs.map ρ ∧ b'.outputs = b.outputs.map ρ := by
  induction h with
  | nil => intro _ i b b' hb; simp at hb
  | @cons c c' cs cs' hb _ ih =>
    intro e i b b' h1 h2
    rw [List.flatMap_cons, List.flatMap_cons, List.map_append, List.map_append] at e
    obtain ⟨e1, e2⟩ := List.append_inj e (by simp [hb.lens.1, hb.lens.2])
    obtain ⟨e3, e4⟩ := List.append_inj e1 (by simp [hb.lens.1])
    cases i with
    | zero =>
      simp only [List.getElem?_cons_zero, Option.some.injEq] at h1 h2
      subst h1 h2
      exact ⟨e3.symm, e4.symm⟩
    | succ i => exact ih e2 i b b' (by simpa using h1) (by simpa using h2)

end DC.Scr
