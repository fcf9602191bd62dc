import Verif.Workflow.CatalogueProps
import Verif.Values.LoadLemmas
/-
C194: the ports of a new block.
-/
set_option linter.unusedSectionVars false
namespace DC.Cat
open DC.Wkf

variable {τ α ω : Type} (E : Setting τ α ω)

/-! ### Specification -/

/-- The classes of blocks whose inputs are numbered: a block made with the argument `n` has `n` inputs, with a word before their numbers, and
the first of these numbers. -/
def Numbers (k : Kind τ α ω) (n : Nat) (word : String) (first : Nat) : Prop :=
  (k = .sequence n ∧ word = "Sequence element " ∧ first = 0) ∨ (k = .concatenate n ∧ word = "Sequence element " ∧ first = 0) ∨
  (k = .product n ∧ word = "Sequence " ∧ first = 0) ∨ (k = .sum n ∧ word = "Sum element " ∧ first = 1) ∨
  (∃ s, k = .strings n s ∧ word = "Substring " ∧ first = 1)

/-- A port as it is before anyone touches it: without label, at the origin. -/
def Untouched (x : Var τ α) : Prop := x.label = "" ∧ x.position = (0, 0)

/-- What inspection gives for parameters: variables without label, at the origin, of different names. -/
def Inspected (ps : List (Proto τ α)) : Prop := (∀ p ∈ ps, p.label = "" ∧ p.position = (0, 0)) ∧ (ps.map (·.name)).Nodup

/-- The ports have different names. -/
def Apart (xs : List (Var τ α)) : Prop := (xs.map (·.name)).Nodup

/-- `y` stands for the input `x` of a workflow, under another name. -/
def StandsFor (name : String) (x y : Var τ α) : Prop :=
  y.name = name ∧ y.type = x.type ∧ y.default = x.default ∧ y.lockFlag = x.lockFlag

/-! ### Lemmas -/

theorem copyVar_ok {x y : Var τ α} (h : copyVar x = .ok y) : y = ⟨x.name, x.type, "", (0, 0), x.default, x.lockFlag⟩ := by
  unfold copyVar Var.locked at h
  rcases x with ⟨n, t, l, p, d, f⟩
  cases f <;> cases d <;> simp [Var.lock, bind, Except.bind] at h <;> exact h.symm

theorem copyNamed_ok {f : String → String} {x y : Var τ α} (h : copyNamed f x = .ok y) :
    y = ⟨f x.name, x.type, "", (0, 0), x.default, x.lockFlag⟩ := by
  unfold copyNamed at h
  cases hc : copyVar x with
  | error e => simp [hc, bind, Except.bind] at h
  | ok z => simp only [hc, bind, Except.bind, Except.ok.injEq] at h; rw [← h, copyVar_ok hc]

theorem copyNamed_none {f : String → String} {x : Var τ α} {e : PyErr} (h : copyNamed f x = .error e) :
    x.lockFlag = true ∧ x.default = none := by
  rcases x with ⟨n, t, l, p, d, b⟩
  cases b <;> cases d <;> simp [copyNamed, copyVar, Var.locked, Var.lock, bind, Except.bind] at h ⊢

theorem eachIns_ok (i : Int) : ∀ (k : Nat) (xs ys : List (Var τ α)), eachIns E i k xs = .ok ys → ys.length = xs.length ∧
    ∀ j x y, xs[j]? = some x → ys[j]? = some y →
      ((((k + j : Nat) : Int) = i → y = untyped E ("Iterable input: " ++ x.name)) ∧
      (((k + j : Nat) : Int) ≠ i → y = ⟨"Binding: " ++ x.name, x.type, "", (0, 0), x.default, x.lockFlag⟩)) := by
  intro k xs
  induction xs generalizing k with
  | nil =>
    intro ys h
    simp only [eachIns, Except.ok.injEq] at h
    subst h
    simp
  | cons x xs ih =>
    intro ys h
    rw [eachIns] at h
    have key : ∃ y zs, ys = y :: zs ∧ eachIns E i (k + 1) xs = .ok zs ∧
        (((k : Int) = i → y = untyped E ("Iterable input: " ++ x.name)) ∧
        ((k : Int) ≠ i → y = ⟨"Binding: " ++ x.name, x.type, "", (0, 0), x.default, x.lockFlag⟩)) := by
      by_cases hk : (k : Int) = i
      · simp only [if_pos hk, bind, Except.bind] at h
        cases hz : eachIns E i (k + 1) xs with
        | error e => simp [hz] at h
        | ok zs =>
          simp only [hz, Except.ok.injEq] at h
          exact ⟨_, zs, h.symm, rfl, fun _ => rfl, fun hn => absurd hk hn⟩
      · simp only [if_neg hk, bind, Except.bind] at h
        cases hc : copyNamed ("Binding: " ++ ·) x with
        | error e => simp [hc] at h
        | ok y =>
          simp only [hc] at h
          cases hz : eachIns E i (k + 1) xs with
          | error e => simp [hz] at h
          | ok zs =>
            simp only [hz, Except.ok.injEq] at h
            exact ⟨y, zs, h.symm, rfl, fun hp => absurd hp hk, fun _ => copyNamed_ok hc⟩
    obtain ⟨y, zs, rfl, hz, h1, h2⟩ := key
    obtain ⟨hl, ha⟩ := ih (k + 1) zs hz
    refine ⟨by simp [hl], ?_⟩
    intro j a b hj hb
    cases j with
    | zero =>
      simp only [List.getElem?_cons_zero, Option.some.injEq] at hj hb
      subst hj hb
      exact ⟨fun e => h1 (by simpa using e), fun e => h2 (by simpa using e)⟩
    | succ j =>
      simp only [List.getElem?_cons_succ] at hj hb
      have := ha j a b hj hb
      rw [show k + 1 + j = k + (j + 1) by omega] at this
      exact this

theorem numbered_name (p : String) (k n : Nat) (i : Nat) (x : Var τ α) (h : (numbered E p k n)[i]? = some x) :
    x = untyped E (p ++ toString (k + i)) := by
  unfold numbered at h
  rw [List.getElem?_map] at h
  by_cases hi : i < n
  · rw [List.getElem?_range hi] at h
    simp only [Option.map_some, Option.some.injEq] at h
    rw [← h, Nat.add_comm]
  · rw [List.getElem?_eq_none (by simpa using hi)] at h
    cases h

theorem word_inj (p : String) {i j : Nat} (h : p ++ toString i = p ++ toString j) : i = j := by
  have := congrArg String.toList h
  simp only [String.toList_append] at this
  exact DC.toString_inj (String.toList_inj.mp (List.append_cancel_left this))

theorem numbered_nodup (p : String) (k n : Nat) (f : String → Var τ α) (hf : ∀ s, (f s).name = s) :
    (((List.range n).map fun i => f (p ++ toString (i + k))).map (·.name)).Nodup := by
  rw [List.map_map]
  refine List.Nodup.map_on ?_ List.nodup_range
  intro a _ b _ h
  simp only [Function.comp, hf] at h
  have := word_inj p h
  omega

/-! ### The theorems -/

/-- A new `Sequence`, `Concatenate`, `Product`, `Sum` or `ConcatenateStrings` has as many inputs as it was asked for, whose names are numbered
in order without gap. -/
theorem C194_numbers (k : Kind τ α ω) (n : Nat) (word : String) (first : Nat) (name : String) (p : Int × Int) (b : Blk τ α ω)
    (hk : Numbers k n word first) (h : construct E k name p = .ok b) :
    b.ins.length = n ∧ ∀ i x, b.ins[i]? = some x → x.name = word ++ toString (first + i) := by
  rcases hk with ⟨rfl, rfl, rfl⟩ | ⟨rfl, rfl, rfl⟩ | ⟨rfl, rfl, rfl⟩ | ⟨rfl, rfl, rfl⟩ | ⟨s, rfl, rfl, rfl⟩ <;>
    simp only [construct, Kind.kept, ports, bind, Except.bind, Except.ok.injEq] at h <;> subst h
  · exact ⟨by simp [numbered], fun i x hx => by rw [numbered_name E _ _ _ _ _ hx]; rfl⟩
  · exact ⟨by simp [numbered], fun i x hx => by rw [numbered_name E _ _ _ _ _ hx]; rfl⟩
  · exact ⟨by simp [numbered], fun i x hx => by rw [numbered_name E _ _ _ _ _ hx]; rfl⟩
  · exact ⟨by simp [numbered], fun i x hx => by rw [numbered_name E _ _ _ _ _ hx]; rfl⟩
  · refine ⟨by simp, fun i x hx => ?_⟩
    rw [List.getElem?_map] at hx
    by_cases hi : i < n
    · rw [List.getElem?_range hi] at hx
      simp only [Option.map_some, Option.some.injEq] at hx
      rw [← hx, Nat.add_comm]
      rfl
    · rw [List.getElem?_eq_none (by simpa using hi)] at hx
      cases hx

example : (made (.sum 3)).ins.map (·.name) = ["Sum element 1", "Sum element 2", "Sum element 3"] := by decide
example : Numbers (.sum 3 : Kind DTy String Nat) 3 "Sum element " 1 ∧ construct shop (.sum 3) "b" (0, 0) = .ok (made (.sum 3)) :=
  ⟨by simp [Numbers], rfl⟩

/-- A new `Archive` has one numbered input per export and then the name of the file, of which it has a value. -/
theorem C194_archive (n : Nat) (f name : String) (p : Int × Int) (b : Blk τ α ω) (h : construct E (.archive n f) name p = .ok b) :
    b.ins.length = n + 1 ∧ (∀ i x, i < n → b.ins[i]? = some x → x.name = "Export " ++ toString i ∧ x.default = none) ∧
    ∃ x, b.ins[n]? = some x ∧ x.name = "Filename" ∧ x.default = some (E.text f) := by
  simp only [construct, Kind.kept, ports, bind, Except.bind, Except.ok.injEq] at h
  subst h
  have hl : (numbered E "Export " 0 n).length = n := by simp [numbered]
  refine ⟨by simp [hl], ?_, ?_⟩
  · intro i x hi hx
    simp only at hx
    rw [List.getElem?_append_left (by omega)] at hx
    rw [numbered_name E _ _ _ _ _ hx, Nat.zero_add]
    exact ⟨rfl, rfl⟩
  · simp only
    rw [List.getElem?_append_right (by omega), hl]
    simp [filled]

example : (made (.archive 2 "all")).ins.map (fun x => (x.name, x.default)) =
    [("Export 0", none), ("Export 1", none), ("Filename", some "all")] := by decide

/-- An `Unpacker` has one output for each index that it is asked for, with the index in its name. -/
theorem C194_unpacker (l : List Int) (name : String) (p : Int × Int) (b : Blk τ α ω) (h : construct E (.unpacker l) name p = .ok b) :
    b.outs.map (·.name) = l.map fun i => "Element " ++ toString i := by
  simp only [construct, Kind.kept, ports, bind, Except.bind, Except.ok.injEq] at h
  subst h
  simp only [List.map_map]
  rfl

example : (made (.unpacker [2, -1])).outs.map (·.name) = ["Element 2", "Element -1"] := by decide

/-- The names of the inputs and of the outputs of the other new blocks. -/
theorem C194_fixed (name : String) (p : Int × Int) :
    let told := fun (k : Kind τ α ω) (xs ys : List String) => ∀ b, construct E k name p = .ok b →
      b.ins.map (·.name) = xs ∧ b.outs.map (·.name) = ys
    (∀ n, ∀ b, construct E (.sequence n) name p = .ok b → b.outs.map (·.name) = ["Sequence"]) ∧
    (∀ n, ∀ b, construct E (.concatenate n) name p = .ok b → b.outs.map (·.name) = ["Sequence"]) ∧
    (∀ n, ∀ b, construct E (.product n) name p = .ok b → b.outs.map (·.name) = ["Product"]) ∧
    (∀ n, ∀ b, construct E (.sum n) name p = .ok b → b.outs.map (·.name) = ["Sum"]) ∧
    (∀ n s, ∀ b, construct E (.strings n s) name p = .ok b → b.outs.map (·.name) = ["Concatenation"]) ∧
    (∀ n f, ∀ b, construct E (.archive n f) name p = .ok b → b.outs.map (·.name) = ["Archive"]) ∧
    (∀ l, ∀ b, construct E (.unpacker l) name p = .ok b → b.ins.map (·.name) = ["Sequence"]) ∧
    (∀ c i, ∀ b, construct E (.forEach c i) name p = .ok b → b.outs.map (·.name) = ["Foreach output"]) ∧
    told .flatten ["Sequence"] ["Flattened sequence"] ∧ (∀ fs o, told (.filter fs o) ["Sequence"] ["Filtered sequence"]) ∧
    (∀ as l, told (.oldMultiPlot as l) ["Input List"] ["Display Object"]) ∧
    (∀ s as l, told (.multiPlot s as l) ["Sequence"] ["Display Object"]) ∧
    (∀ s vs l, told (.multiObject s vs l) ["Sequence"] ["Display Object"]) ∧
    (∀ t s l, told (.oldDisplay t s l) ["Model to display"] ["Display Object"]) ∧
    (∀ t s l, told (.display t s l) ["Model"] ["Display Object"]) ∧
    (∀ a, told (.modelAttribute a) ["Model"] ["Attribute value"]) ∧ (∀ r, told (.getAttribute r) ["Model"] ["Attribute"]) ∧
    (∀ r, told (.setAttribute r) ["Model", "Value"] ["Model"]) ∧ told .substraction ["+", "-"] ["Substraction"] ∧
    (∀ m t e f, told (.export m t e f) ["Model", "Filename"] ["Stream"]) := by
  intro told
  simp only [told]
  refine ⟨?_, ?_, ?_, ?_, ?_, ?_, ?_, ?_, ?_, ?_, ?_, ?_, ?_, ?_, ?_, ?_, ?_, ?_, ?_, ?_⟩
  case refine_8 =>
    intro c i b h
    simp only [construct, Kind.kept, ports, bind, Except.bind] at h
    cases hg : Py.get c.ins i with
    | error e => simp [hg] at h
    | ok g =>
      simp only [hg] at h
      cases hc : eachIns E i 0 c.ins with
      | error e => simp [hc] at h
      | ok zs =>
        simp only [hc, Except.ok.injEq] at h
        subst h
        rfl
  case refine_17 =>
    intro r b h
    simp only [construct, Kind.kept, ports, bind, Except.bind] at h
    cases hg : E.attrType r.cls r.name with
    | error e => simp [hg] at h
    | ok g => simp only [hg, Except.ok.injEq] at h; subst h; exact ⟨rfl, rfl⟩
  case refine_18 =>
    intro r b h
    simp only [construct, Kind.kept, ports, bind, Except.bind] at h
    cases hg : E.attrType r.cls r.name with
    | error e => simp [hg] at h
    | ok g => simp only [hg, Except.ok.injEq] at h; subst h; exact ⟨rfl, rfl⟩
  case refine_20 =>
    intro m t e f b h
    simp only [construct, Kind.kept, ports, bind, Except.bind] at h
    cases hg : E.method m.cls m.name with
    | error e => simp [hg] at h
    | ok g => simp only [hg, Except.ok.injEq] at h; subst h; exact ⟨rfl, rfl⟩
  all_goals
    intros
    rename_i b h
    simp only [construct, Kind.kept, ports, bind, Except.bind, Except.ok.injEq] at h
    subst h
    first | rfl | exact ⟨rfl, rfl⟩

example : construct shop (.oldDisplay .plot "p" true) "b" (0, 0) = .ok (made (.oldDisplay .plot "p" true)) ∧
    (made (.oldDisplay .plot "p" true)).ins.map (·.name) = ["Model to display"] := ⟨rfl, by decide⟩

/-- The name of the file of an `Export` is the value of its second input; an `Export` made without a name of file is given `export`. -/
theorem C194_export (m : Ref) (t : Bool) (e f name : String) (p : Int × Int) (b : Blk τ α ω)
    (h : construct E (.export m t e f) name p = .ok b) :
    ∃ x, b.ins[1]? = some x ∧ x.default = some (E.text (if f = "" then "export" else f)) ∧
      b.kind = .export m t e (if f = "" then "export" else f) := by
  simp only [construct, Kind.kept, ports, bind, Except.bind] at h
  cases hg : E.method m.cls m.name with
  | error e => simp [hg] at h
  | ok g =>
    simp only [hg, Except.ok.injEq] at h
    subst h
    exact ⟨_, rfl, rfl, rfl⟩

example : (made (.export ⟨.method, car, "drive"⟩ true "txt" "")).ins.map (·.default) = [none, some "export"] := by decide

/-- Every port of a new block is without label and at the origin, and no output has a value (but the output of a workflow used as a
block). -/
theorem C194_untouched (hi : ∀ c ps, E.initIns c = .ok ps → Inspected ps) (hm : ∀ c m ps t, E.method c m = .ok (ps, t) → Inspected ps)
    (k : Kind τ α ω) (name : String) (p : Int × Int) (b : Blk τ α ω) (h : construct E k name p = .ok b) :
    (∀ x ∈ b.ins ++ b.outs, Untouched x) ∧ ((∀ W, k ≠ .workflow W) → ∀ x ∈ b.outs, x.default = none ∧ x.lockFlag = false) := by
  have hu : ∀ s, Untouched (untyped E s : Var τ α) := fun s => ⟨rfl, rfl⟩
  have ht : ∀ t s, Untouched (typed t s : Var τ α) := fun t s => ⟨rfl, rfl⟩
  have hf : ∀ t s d, Untouched (filled t s d : Var τ α) := fun t s d => ⟨rfl, rfl⟩
  have hn : ∀ w f n, ∀ x ∈ (numbered E w f n : List (Var τ α)), Untouched x := by
    intro w f n x hx
    simp only [numbered, List.mem_map] at hx
    obtain ⟨i, _, rfl⟩ := hx
    exact hu _
  have hp : ∀ ps : List (Proto τ α), Inspected ps → ∀ x ∈ ps.map Proto.var, Untouched x := by
    intro ps hps x hx
    simp only [List.mem_map] at hx
    obtain ⟨q, hq, rfl⟩ := hx
    exact hps.1 q hq
  unfold construct at h
  cases hq : ports E name k.kept with
  | error e => simp [hq, bind, Except.bind] at h
  | ok r =>
    obtain ⟨xs, ys⟩ := r
    simp only [hq, bind, Except.bind, Except.ok.injEq] at h
    subst h
    simp only [List.mem_append]
    cases k with
    | instantiate c =>
      simp only [Kind.kept, ports, bind, Except.bind] at hq
      cases hc : E.initIns c with
      | error e => simp [hc] at hq
      | ok ps =>
        simp only [hc, Except.ok.injEq, Prod.mk.injEq] at hq
        obtain ⟨rfl, rfl⟩ := hq
        refine ⟨?_, ?_⟩
        · rintro x (hx | hx)
          · exact hp ps (hi c ps hc) x hx
          · simp only [List.mem_singleton] at hx; subst hx; exact ht _ _
        · intro _ x hx; simp only [List.mem_singleton] at hx; subst hx; exact ⟨rfl, rfl⟩
    | classMethod m =>
      simp only [Kind.kept, ports, bind, Except.bind] at hq
      cases hc : E.method m.cls m.name with
      | error e => simp [hc] at hq
      | ok ps =>
        simp only [hc, Except.ok.injEq, Prod.mk.injEq] at hq
        obtain ⟨rfl, rfl⟩ := hq
        refine ⟨?_, ?_⟩
        · rintro x (hx | hx)
          · exact hp ps.1 (hm _ _ _ ps.2 hc) x hx
          · simp only [List.mem_singleton] at hx; subst hx; exact ht _ _
        · intro _ x hx; simp only [List.mem_singleton] at hx; subst hx; exact ⟨rfl, rfl⟩
    | modelMethod m =>
      simp only [Kind.kept, ports, bind, Except.bind] at hq
      cases hc : E.method m.cls m.name with
      | error e => simp [hc] at hq
      | ok ps =>
        simp only [hc, Except.ok.injEq, Prod.mk.injEq] at hq
        obtain ⟨rfl, rfl⟩ := hq
        refine ⟨?_, ?_⟩
        · rintro x (hx | hx)
          · rcases List.mem_cons.mp hx with rfl | hx
            · exact ht _ _
            · exact hp ps.1 (hm _ _ _ ps.2 hc) x hx
          · simp only [List.mem_cons, List.not_mem_nil, or_false] at hx
            rcases hx with rfl | rfl <;> exact ht _ _
        · intro _ x hx
          simp only [List.mem_cons, List.not_mem_nil, or_false] at hx
          rcases hx with rfl | rfl <;> exact ⟨rfl, rfl⟩
    | workflow W =>
      simp only [Kind.kept, ports, subPorts, bind, Except.bind] at hq
      cases hc : (E.wfIns W).mapM (copyNamed fun n => name ++ " - " ++ n) with
      | error e => simp [hc] at hq
      | ok zs =>
        simp only [hc] at hq
        cases ho : E.wfOut W with
        | none => simp [ho] at hq
        | some o =>
          simp only [ho] at hq
          cases hy : copyVar o with
          | error e => simp [hy] at hq
          | ok y =>
            simp only [hy, Except.ok.injEq, Prod.mk.injEq] at hq
            obtain ⟨rfl, rfl⟩ := hq
            refine ⟨?_, fun hw => absurd rfl (hw W)⟩
            rintro x (hx | hx)
            · obtain ⟨a, _, ha⟩ := Py.forall2_right (Py.mapM_ok.mp hc) hx
              rw [copyNamed_ok ha]; exact ⟨rfl, rfl⟩
            · simp only [List.mem_singleton] at hx; subst hx; rw [copyVar_ok hy]; exact ⟨rfl, rfl⟩
    | forEach c i =>
      simp only [Kind.kept, ports, bind, Except.bind] at hq
      cases hg : Py.get c.ins i with
      | error e => simp [hg] at hq
      | ok g =>
        simp only [hg] at hq
        cases hc : eachIns E i 0 c.ins with
        | error e => simp [hc] at hq
        | ok zs =>
          simp only [hc, Except.ok.injEq, Prod.mk.injEq] at hq
          obtain ⟨rfl, rfl⟩ := hq
          obtain ⟨hl, ha⟩ := eachIns_ok E i 0 _ _ hc
          refine ⟨?_, ?_⟩
          · rintro x (hx | hx)
            · obtain ⟨j, hj⟩ := List.getElem?_of_mem hx
              have hlt : j < c.ins.length := by
                rw [← hl]; exact (List.getElem?_eq_some_iff.mp hj).1
              obtain ⟨h1, h2⟩ := ha j _ x (List.getElem?_eq_getElem hlt) hj
              by_cases he : ((0 + j : Nat) : Int) = i
              · rw [h1 he]; exact hu _
              · rw [h2 he]; exact ⟨rfl, rfl⟩
            · simp only [List.mem_singleton] at hx; subst hx; exact hu _
          · intro _ x hx; simp only [List.mem_singleton] at hx; subst hx; exact ⟨rfl, rfl⟩
    | getAttribute r =>
      simp only [Kind.kept, ports, bind, Except.bind] at hq
      cases hc : E.attrType r.cls r.name with
      | error e => simp [hc] at hq
      | ok t =>
        simp only [hc, Except.ok.injEq, Prod.mk.injEq] at hq
        obtain ⟨rfl, rfl⟩ := hq
        refine ⟨?_, ?_⟩
        · rintro x (hx | hx) <;> (simp only [List.mem_singleton] at hx; subst hx; exact ht _ _)
        · intro _ x hx; simp only [List.mem_singleton] at hx; subst hx; exact ⟨rfl, rfl⟩
    | setAttribute r =>
      simp only [Kind.kept, ports, bind, Except.bind] at hq
      cases hc : E.attrType r.cls r.name with
      | error e => simp [hc] at hq
      | ok t =>
        simp only [hc, Except.ok.injEq, Prod.mk.injEq] at hq
        obtain ⟨rfl, rfl⟩ := hq
        refine ⟨?_, ?_⟩
        · rintro x (hx | hx)
          · simp only [List.mem_cons, List.not_mem_nil, or_false] at hx
            rcases hx with rfl | rfl <;> exact ht _ _
          · simp only [List.mem_singleton] at hx; subst hx; exact ht _ _
        · intro _ x hx; simp only [List.mem_singleton] at hx; subst hx; exact ⟨rfl, rfl⟩
    | «export» m t e f =>
      simp only [Kind.kept, ports, bind, Except.bind] at hq
      cases hc : E.method m.cls m.name with
      | error e => simp [hc] at hq
      | ok ps =>
        simp only [hc, Except.ok.injEq, Prod.mk.injEq] at hq
        obtain ⟨rfl, rfl⟩ := hq
        refine ⟨?_, ?_⟩
        · rintro x (hx | hx)
          · simp only [List.mem_cons, List.not_mem_nil, or_false] at hx
            rcases hx with rfl | rfl
            · exact ht _ _
            · exact hf _ _ _
          · simp only [List.mem_singleton] at hx; subst hx; exact ht _ _
        · intro _ x hx; simp only [List.mem_singleton] at hx; subst hx; exact ⟨rfl, rfl⟩
    | unpacker l =>
      simp only [Kind.kept, ports, Except.ok.injEq, Prod.mk.injEq] at hq
      obtain ⟨rfl, rfl⟩ := hq
      refine ⟨?_, ?_⟩
      · rintro x (hx | hx)
        · simp only [List.mem_singleton] at hx; subst hx; exact hu _
        · simp only [List.mem_map] at hx
          obtain ⟨i, _, rfl⟩ := hx
          exact hu _
      · intro _ x hx
        simp only [List.mem_map] at hx
        obtain ⟨i, _, rfl⟩ := hx
        exact ⟨rfl, rfl⟩
    | strings n s =>
      simp only [Kind.kept, ports, Except.ok.injEq, Prod.mk.injEq] at hq
      obtain ⟨rfl, rfl⟩ := hq
      refine ⟨?_, ?_⟩
      · rintro x (hx | hx)
        · simp only [List.mem_map] at hx
          obtain ⟨i, _, rfl⟩ := hx
          exact hf _ _ _
        · simp only [List.mem_singleton] at hx; subst hx; exact ht _ _
      · intro _ x hx; simp only [List.mem_singleton] at hx; subst hx; exact ⟨rfl, rfl⟩
    | archive n f =>
      simp only [Kind.kept, ports, Except.ok.injEq, Prod.mk.injEq] at hq
      obtain ⟨rfl, rfl⟩ := hq
      refine ⟨?_, ?_⟩
      · rintro x (hx | hx)
        · rcases List.mem_append.mp hx with hx | hx
          · exact hn _ _ _ x hx
          · simp only [List.mem_singleton] at hx; subst hx; exact hf _ _ _
        · simp only [List.mem_singleton] at hx; subst hx; exact hu _
      · intro _ x hx; simp only [List.mem_singleton] at hx; subst hx; exact ⟨rfl, rfl⟩
    | substraction =>
      simp only [Kind.kept, ports, Except.ok.injEq, Prod.mk.injEq] at hq
      obtain ⟨rfl, rfl⟩ := hq
      refine ⟨?_, ?_⟩
      · rintro x (hx | hx)
        · simp only [List.mem_cons, List.not_mem_nil, or_false] at hx
          rcases hx with rfl | rfl <;> exact hu _
        · simp only [List.mem_singleton] at hx; subst hx; exact hu _
      · intro _ x hx; simp only [List.mem_singleton] at hx; subst hx; exact ⟨rfl, rfl⟩
    | _ =>
      simp only [Kind.kept, ports, Except.ok.injEq, Prod.mk.injEq] at hq
      obtain ⟨rfl, rfl⟩ := hq
      refine ⟨?_, ?_⟩
      · rintro x (hx | hx)
        · first
            | exact hn _ _ _ x hx
            | (simp only [List.mem_singleton] at hx; subst hx; first | exact hu _ | exact ht _ _)
        · simp only [List.mem_singleton] at hx; subst hx; first | exact hu _ | exact ht _ _
      · intro _ x hx; simp only [List.mem_singleton] at hx; subst hx; exact ⟨rfl, rfl⟩

theorem inspected_init (c : Cls) (ps : List (Proto DTy String)) (h : shop.initIns c = .ok ps) : Inspected ps := by
  simp only [shop, Except.ok.injEq] at h
  subst h
  exact ⟨by simp, by simp⟩

theorem inspected_method (c : Cls) (m : String) (ps : List (Proto DTy String)) (t : DTy) (h : shop.method c m = .ok (ps, t)) :
    Inspected ps := by
  simp only [shop, Except.ok.injEq, Prod.mk.injEq] at h
  obtain ⟨rfl, _⟩ := h
  exact ⟨by simp, by simp⟩

example : ∀ x ∈ (made (.modelMethod ⟨.method, car, "drive"⟩)).ins ++ (made (.modelMethod ⟨.method, car, "drive"⟩)).outs, Untouched x :=
  (C194_untouched shop inspected_init inspected_method (.modelMethod ⟨.method, car, "drive"⟩) "b" (0, 0) _ rfl).1

/-- The `ForEach` of a workflow block over one of its inputs has one input per input of the block.  The one iterated over is free, the others
keep their type, their value and their lock.
Missing: negative indices (`C194_forEach_violated`). -/
theorem C194_forEach_partial (c : Inner τ α ω) (i : Nat) (name : String) (p : Int × Int) (b : Blk τ α ω)
    (h : construct E (.forEach c i) name p = .ok b) :
    b.ins.length = c.ins.length ∧ i < c.ins.length ∧
    ∀ j x y, c.ins[j]? = some x → b.ins[j]? = some y →
      (j = i → StandsFor ("Iterable input: " ++ x.name) ⟨"", E.noType, "", (0, 0), none, false⟩ y) ∧
      (j ≠ i → StandsFor ("Binding: " ++ x.name) x y) := by
  simp only [construct, Kind.kept, ports, bind, Except.bind] at h
  cases hg : Py.get c.ins i with
  | error e => simp [hg] at h
  | ok g =>
    simp only [hg] at h
    cases hc : eachIns E i 0 c.ins with
    | error e => simp [hc] at h
    | ok zs =>
      simp only [hc, Except.ok.injEq] at h
      subst h
      obtain ⟨hl, ha⟩ := eachIns_ok E i 0 _ _ hc
      refine ⟨hl, ?_, ?_⟩
      · obtain ⟨k, hk, _⟩ := Py.get_ok.mp hg
        rw [Py.idx_nat] at hk
        by_contra hn
        rw [if_neg hn] at hk
        cases hk
      · intro j x y hx hy
        obtain ⟨h1, h2⟩ := ha j x y hx hy
        refine ⟨fun e => ?_, fun e => ?_⟩
        · rw [h1 (by omega)]; exact ⟨rfl, rfl, rfl, rfl⟩
        · rw [h2 (by omega)]; exact ⟨rfl, rfl, rfl, rfl⟩

/-- A workflow block with a free input and a locked one. -/
def twoInputs : Inner DTy String Nat :=
  ⟨0, "w", (0, 0), [⟨"x", .int, "", (0, 0), none, false⟩, ⟨"y", .str, "lab", (3, 4), some "v", true⟩], []⟩

example : ((made (.forEach twoInputs 0)).ins.map fun x => (x.name, x.default, x.lockFlag)) =
    [("Iterable input: x", none, false), ("Binding: y", some "v", true)] := by decide
example : construct shop (.forEach twoInputs (0 : Nat)) "b" (0, 0) = .ok (made (.forEach twoInputs 0)) := rfl

/-- **The code violates the property**: a `ForEach` whose index counts from the end is made without error, and none of its inputs is the one
iterated over. -/
theorem C194_forEach_violated : ∃ b, construct shop (.forEach twoInputs (-1)) "b" (0, 0) = .ok b ∧
    b.ins.map (·.name) = ["Binding: x", "Binding: y"] := ⟨_, rfl, by decide⟩

/-- The inputs of a `ForEach` have different names if those of its block have. -/
theorem C194_forEach_names (c : Inner τ α ω) (i : Int) (name : String) (p : Int × Int) (b : Blk τ α ω) (hd : Apart c.ins)
    (h : construct E (.forEach c i) name p = .ok b) : Apart b.ins := by
  simp only [construct, Kind.kept, ports, bind, Except.bind] at h
  cases hg : Py.get c.ins i with
  | error e => simp [hg] at h
  | ok g =>
    simp only [hg] at h
    cases hc : eachIns E i 0 c.ins with
    | error e => simp [hc] at h
    | ok zs =>
      simp only [hc, Except.ok.injEq] at h
      subst h
      obtain ⟨hl, ha⟩ := eachIns_ok E i 0 _ _ hc
      show (zs.map (·.name)).Nodup
      rw [List.nodup_iff_injective_get]
      intro a d had
      have hla : a.1 < c.ins.length := by have := a.2; simp only [List.length_map] at this; omega
      have hld : d.1 < c.ins.length := by have := d.2; simp only [List.length_map] at this; omega
      obtain ⟨a1, a2⟩ := ha a.1 _ _ (List.getElem?_eq_getElem hla) (List.getElem?_eq_getElem (by omega))
      obtain ⟨d1, d2⟩ := ha d.1 _ _ (List.getElem?_eq_getElem hld) (List.getElem?_eq_getElem (by omega))
      simp only [List.get_eq_getElem, List.getElem_map] at had
      have hinj : ∀ w : String, w ++ (c.ins[a.1]).name = w ++ (c.ins[d.1]).name → a = d := by
        intro w hw
        have hw' := congrArg String.toList hw
        simp only [String.toList_append] at hw'
        have hn := String.toList_inj.mp (List.append_cancel_left hw')
        have := (List.nodup_iff_injective_get.mp hd) (a₁ := ⟨a.1, by simpa using hla⟩) (a₂ := ⟨d.1, by simpa using hld⟩)
          (by simpa using hn)
        exact Fin.ext (by simpa using this)
      have hne : ∀ s t : String, "Iterable input: " ++ s ≠ "Binding: " ++ t := by
        intro s t hst
        have := congrArg String.toList hst
        simp only [String.toList_append] at this
        simp at this
      by_cases ea : ((0 + a.1 : Nat) : Int) = i <;> by_cases ed : ((0 + d.1 : Nat) : Int) = i
      · exact Fin.ext (by omega)
      · rw [a1 ea, d2 ed] at had; exact absurd had (hne _ _)
      · rw [a2 ea, d1 ed] at had; exact absurd had.symm (hne _ _)
      · rw [a2 ea, d2 ed] at had; exact hinj _ had

example : Apart twoInputs.ins := by unfold Apart; decide

/-- The inputs of a new block which is not made of a workflow have different names, if no parameter of a method is called `Model`.
Missing: such parameters (`C194_names_violated`). -/
theorem C194_names_partial (hi : ∀ c ps, E.initIns c = .ok ps → Inspected ps)
    (hm : ∀ c m ps t, E.method c m = .ok (ps, t) → Inspected ps ∧ ∀ q ∈ ps, q.name ≠ "Model")
    (k : Kind τ α ω) (hw : ∀ W, k ≠ .workflow W) (hf : ∀ c i, k ≠ .forEach c i) (name : String) (p : Int × Int) (b : Blk τ α ω)
    (h : construct E k name p = .ok b) : Apart b.ins := by
  have hv : ∀ ps : List (Proto τ α), (ps.map Proto.var).map (·.name) = ps.map (·.name) := by
    intro ps; rw [List.map_map]; rfl
  unfold construct at h
  cases hq : ports E name k.kept with
  | error e => simp [hq, bind, Except.bind] at h
  | ok r =>
    obtain ⟨xs, ys⟩ := r
    simp only [hq, bind, Except.bind, Except.ok.injEq] at h
    subst h
    show (xs.map (·.name)).Nodup
    cases k with
    | workflow W => exact absurd rfl (hw W)
    | forEach c i => exact absurd rfl (hf c i)
    | instantiate c =>
      simp only [Kind.kept, ports, bind, Except.bind] at hq
      cases hc : E.initIns c with
      | error e => simp [hc] at hq
      | ok ps =>
        simp only [hc, Except.ok.injEq, Prod.mk.injEq] at hq
        obtain ⟨rfl, rfl⟩ := hq
        rw [hv]; exact (hi c ps hc).2
    | classMethod m =>
      simp only [Kind.kept, ports, bind, Except.bind] at hq
      cases hc : E.method m.cls m.name with
      | error e => simp [hc] at hq
      | ok ps =>
        simp only [hc, Except.ok.injEq, Prod.mk.injEq] at hq
        obtain ⟨rfl, rfl⟩ := hq
        rw [hv]; exact (hm _ _ _ ps.2 hc).1.2
    | modelMethod m =>
      simp only [Kind.kept, ports, bind, Except.bind] at hq
      cases hc : E.method m.cls m.name with
      | error e => simp [hc] at hq
      | ok ps =>
        simp only [hc, Except.ok.injEq, Prod.mk.injEq] at hq
        obtain ⟨rfl, rfl⟩ := hq
        rw [List.map_cons, hv, List.nodup_cons]
        refine ⟨?_, (hm _ _ _ ps.2 hc).1.2⟩
        intro hin
        obtain ⟨q, hq, he⟩ := List.mem_map.mp hin
        exact (hm _ _ _ ps.2 hc).2 q hq he
    | getAttribute r =>
      simp only [Kind.kept, ports, bind, Except.bind] at hq
      cases hc : E.attrType r.cls r.name with
      | error e => simp [hc] at hq
      | ok t =>
        simp only [hc, Except.ok.injEq, Prod.mk.injEq] at hq
        obtain ⟨rfl, rfl⟩ := hq
        simp
    | setAttribute r =>
      simp only [Kind.kept, ports, bind, Except.bind] at hq
      cases hc : E.attrType r.cls r.name with
      | error e => simp [hc] at hq
      | ok t =>
        simp only [hc, Except.ok.injEq, Prod.mk.injEq] at hq
        obtain ⟨rfl, rfl⟩ := hq
        simp [typed]
    | «export» m t e f =>
      simp only [Kind.kept, ports, bind, Except.bind] at hq
      cases hc : E.method m.cls m.name with
      | error e => simp [hc] at hq
      | ok ps =>
        simp only [hc, Except.ok.injEq, Prod.mk.injEq] at hq
        obtain ⟨rfl, rfl⟩ := hq
        simp [typed, filled]
    | strings n s =>
      simp only [Kind.kept, ports, Except.ok.injEq, Prod.mk.injEq] at hq
      obtain ⟨rfl, rfl⟩ := hq
      exact numbered_nodup "Substring " 1 n (fun s => filled E.strT s (E.text "")) (fun _ => rfl)
    | archive n f =>
      simp only [Kind.kept, ports, Except.ok.injEq, Prod.mk.injEq] at hq
      obtain ⟨rfl, rfl⟩ := hq
      rw [List.map_append, List.nodup_append]
      refine ⟨numbered_nodup "Export " 0 n (untyped E) (fun _ => rfl), by simp, ?_⟩
      intro a ha b hb hab
      subst hab
      simp only [numbered, List.map_map, List.mem_map] at ha
      obtain ⟨i, _, hi⟩ := ha
      simp only [List.map_cons, List.map_nil, List.mem_singleton] at hb
      rw [hb] at hi
      have := congrArg String.toList hi
      simp [untyped, filled, String.toList_append] at this
    | substraction =>
      simp only [Kind.kept, ports, Except.ok.injEq, Prod.mk.injEq] at hq
      obtain ⟨rfl, rfl⟩ := hq
      simp [untyped]
    | _ =>
      simp only [Kind.kept, ports, Except.ok.injEq, Prod.mk.injEq] at hq
      obtain ⟨rfl, rfl⟩ := hq
      first
        | exact numbered_nodup _ _ _ (untyped E) (fun _ => rfl)
        | simp

example : Apart (made (.archive 2 "all")).ins := by unfold Apart; decide
example : ∀ c m ps t, shop.method c m = .ok (ps, t) → Inspected ps ∧ ∀ q ∈ ps, q.name ≠ "Model" := by
  intro c m ps t h
  refine ⟨inspected_method c m ps t h, ?_⟩
  simp only [shop, Except.ok.injEq, Prod.mk.injEq] at h
  obtain ⟨rfl, _⟩ := h
  simp

/-- The library whose methods take a parameter called `Model`. -/
def modelShop : Setting DTy String Nat := { shop with method := fun _ _ => .ok ([⟨"Model", .int, "", (0, 0), none⟩], .str) }

/-- **The code violates the property**: the block of a method which has a parameter `Model` has two inputs of this name. -/
theorem C194_names_violated : ∃ b, construct modelShop (.modelMethod ⟨.method, car, "drive"⟩) "b" (0, 0) = .ok b ∧
    b.ins.map (·.name) = ["Model", "Model"] := ⟨_, rfl, by decide⟩

end DC.Cat
