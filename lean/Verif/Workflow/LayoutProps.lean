import Verif.Workflow.LayoutLemmas
import Mathlib.Tactic.IntervalCases
/-
C134: in the layout of a workflow, each block comes after those on which it depends.
-/
set_option linter.unusedSectionVars false
namespace DC.Wkf

variable {α : Type}

/-! ### Specification -/

/-- A variable belongs to a node of the layout: the block of this number, or the non-block variable which comes after the blocks. -/
def NodeOf (W : Workflow α) (v a : Nat) : Prop :=
  (∃ b, W.blocks[a]? = some b ∧ (v ∈ b.inputs ∨ v ∈ b.outputs)) ∨ ∃ i, a = W.blocks.length + i ∧ (nbvs W)[i]? = some v

/-- A node is in a column before that of the other, in one of the drawn graphs. -/
def ColumnBefore (gs : List (List (List Nat))) (a b : Nat) : Prop :=
  ∃ g ∈ gs, ∃ (i j : Nat) (ci cj : List Nat), g[i]? = some ci ∧ g[j]? = some cj ∧ i < j ∧ a ∈ ci ∧ b ∈ cj

/-- What is assumed of networkx: the connected parts divide the nodes, and its answers on each are those of `PartOf`. -/
def Networkx (W : Workflow α) (parts : List (Nat × Nat) → List Part) : Prop :=
  ∀ es, layoutEdges W W.pipes = .ok es →
    ((parts es).flatMap (·.nodes)).Perm (List.range (W.blocks.length + (nbvs W).length)) ∧
    ∀ P ∈ parts es, PartOf (fun a b => (a, b) ∈ es) P

/-! ### Edges -/

theorem findPort_spec {v : Nat} : ∀ {bs : List (Block α)} {k : Nat} {a : Addr}, findPort v k bs = some a →
    ∃ n side i b, a = .port (k + n) side i ∧ bs[n]? = some b ∧ (v ∈ b.inputs ∨ v ∈ b.outputs)
  | [], _, _, h => by simp [findPort] at h
  | b :: bs, k, a, h => by
    simp only [findPort] at h
    by_cases h1 : v ∈ b.inputs
    · rw [if_pos h1] at h
      simp only [Option.some.injEq] at h
      exact ⟨0, _, _, b, h.symm, rfl, .inl h1⟩
    · rw [if_neg h1] at h
      by_cases h2 : v ∈ b.outputs
      · rw [if_pos h2] at h
        simp only [Option.some.injEq] at h
        exact ⟨0, _, _, b, h.symm, rfl, .inr h2⟩
      · rw [if_neg h2] at h
        obtain ⟨n, side, i, b', h3, h4, h5⟩ := findPort_spec h
        exact ⟨n + 1, side, i, b', by rw [h3, show k + 1 + n = k + (n + 1) by omega], by simpa using h4, h5⟩

theorem blockFromVariable_node {W : Workflow α} {v b : Nat} (h : blockFromVariable W (some v) = .ok b) : NodeOf W v b := by
  simp only [blockFromVariable, variableIndices] at h
  cases hf : findPort v 0 W.blocks with
  | some a =>
    obtain ⟨n, side, i, blk, h1, h2, h3⟩ := findPort_spec hf
    rw [hf, h1] at h
    simp only [Nat.zero_add, Except.ok.injEq] at h
    subst h
    exact .inl ⟨blk, h2, h3⟩
  | none =>
    rw [hf] at h
    dsimp only at h
    by_cases hu : upstreamNbv W v ∈ nbvs W
    · rw [if_pos hu] at h; simp at h
    · rw [if_neg hu] at h; simp at h

theorem layoutSource_node {W : Workflow α} {v a : Nat} (h : layoutSource W v = .ok a) : NodeOf W v a := by
  simp only [layoutSource] at h
  by_cases hv : v ∈ nbvs W
  · rw [if_pos hv] at h
    simp only [Except.ok.injEq] at h
    refine .inr ⟨_, h.symm, ?_⟩
    rw [List.getElem?_eq_getElem (List.idxOf_lt_length_of_mem hv), List.getElem_idxOf]
  · rw [if_neg hv] at h
    exact blockFromVariable_node h

theorem layoutEdges_mem {W : Workflow α} : ∀ {ps : List Pipe} {es : List (Nat × Nat)}, layoutEdges W ps = .ok es → ∀ p ∈ ps,
    ∃ a b, (a, b) ∈ es ∧ NodeOf W p.input a ∧ NodeOf W p.output b
  | [], _, _, p, hp => by simp at hp
  | q :: ps, es, h, p, hp => by
    simp only [layoutEdges] at h
    cases h1 : layoutSource W q.input with
    | error e => rw [h1] at h; simp at h
    | ok a =>
      rw [h1] at h
      dsimp only at h
      cases h2 : blockFromVariable W (some q.output) with
      | error e => rw [h2] at h; simp at h
      | ok b =>
        rw [h2] at h
        dsimp only at h
        cases h3 : layoutEdges W ps with
        | error e => rw [h3] at h; simp at h
        | ok es' =>
          rw [h3] at h
          simp only [Except.ok.injEq] at h
          subst h
          rcases List.mem_cons.mp hp with hpq | hp
          · rw [hpq]
            exact ⟨a, b, by simp, layoutSource_node h1, blockFromVariable_node h2⟩
          · obtain ⟨a', b', h4, h5⟩ := layoutEdges_mem h3 p hp
            exact ⟨a', b', by simp [h4], h5⟩

/-! ### Parts -/

variable {E : Nat → Nat → Prop} {P : Part}

theorem graphColumns_spec (H : PartOf E P) {g : List (List Nat)} (h : graphColumns P = .ok g) :
    g.flatten.Perm P.nodes ∧ (∀ c ∈ g, c ≠ []) ∧
    ∀ a b, E a b → a ∈ P.nodes → ∃ (i j : Nat) (ci cj : List Nat), g[i]? = some ci ∧ g[j]? = some cj ∧ i < j ∧ a ∈ ci ∧ b ∈ cj := by
  obtain ⟨d, m, last, -, hl, K, hn, hm, rfl⟩ := graphColumns_ok H h
  have hlast : last ∈ P.nodes := H.longest_mem _ (List.mem_of_getLast? hl)
  have hmem : ∀ c x, x ∈ (d.filter fun y => y.2 = c).map (·.1) ↔ d.lookup x = some c := by
    intro c x
    simp only [List.mem_map, List.mem_filter, decide_eq_true_eq, Prod.exists, exists_and_right, exists_eq_right]
    constructor
    · exact fun h1 => Dict.mem_lookup K.nodup h1
    · exact fun h1 => Dict.lookup_mem h1
  have hcol : ∀ x ∈ P.nodes, ∃ c, d.lookup x = some c ∧ c < m := by
    intro x hx
    have hx' := (hn x).mp hx
    cases hc : d.lookup x with
    | none => exact absurd hx' (Dict.lookup_none.mp hc)
    | some c => exact ⟨c, rfl, (hm c).mp (List.mem_map.mpr ⟨_, Dict.lookup_mem hc, rfl⟩)⟩
  have hget : ∀ c < m, ((List.range m).map fun c => (d.filter fun y => y.2 = c).map (·.1))[c]? = some ((d.filter fun y => y.2 = c).map (·.1)) := by
    intro c hc
    simp [List.getElem?_range hc]
  refine ⟨?_, ?_, ?_⟩
  · rw [List.perm_ext_iff_of_nodup _ H.nodup]
    · intro x
      simp only [List.mem_flatten, List.mem_map, List.mem_range, exists_exists_and_eq_and]
      constructor
      · rintro ⟨c, -, y, hy, rfl⟩
        rw [hn]
        exact List.mem_map.mpr ⟨y, (List.mem_filter.mp hy).1, rfl⟩
      · intro hx
        obtain ⟨c, hc, hlt⟩ := hcol x hx
        exact ⟨c, hlt, List.mem_map.mp ((hmem c x).mpr hc)⟩
    · rw [List.nodup_flatten]
      constructor
      · intro l hl
        obtain ⟨c, -, rfl⟩ := List.mem_map.mp hl
        exact K.nodup.sublist (List.Sublist.map _ List.filter_sublist)
      · rw [List.pairwise_map]
        refine List.nodup_range.imp ?_
        intro c c' hne x h1 h2
        rw [hmem] at h1 h2
        rw [h1] at h2
        exact hne (Option.some.inj h2)
  · intro l hl
    obtain ⟨c, hc, rfl⟩ := List.mem_map.mp hl
    have := (hm c).mpr (List.mem_range.mp hc)
    obtain ⟨y, hy, rfl⟩ := List.mem_map.mp this
    intro hnil
    have : y.1 ∈ (d.filter fun z => z.2 = y.2).map (·.1) := List.mem_map.mpr ⟨y, List.mem_filter.mpr ⟨hy, by simp⟩, rfl⟩
    rw [hnil] at this
    simp at this
  · intro a b e ha
    have hb := (H.closed a b e).mp ha
    obtain ⟨ca, hca, hla⟩ := hcol a ha
    obtain ⟨cb, hcb, hlb⟩ := hcol b hb
    have := K.walk H hlast hca hcb (Steps.cons e (.refl _))
    exact ⟨ca, cb, _, _, hget ca hla, hget cb hlb, by omega, (hmem ca a).mpr hca, (hmem cb b).mpr hcb⟩

theorem layout_parts : ∀ {Ps : List Part} {gs : List (List (List Nat))}, (∀ P ∈ Ps, PartOf E P) → layout Ps = .ok gs →
    gs.flatten.flatten.Perm (Ps.flatMap (·.nodes)) ∧ (∀ g ∈ gs, ∀ c ∈ g, c ≠ []) ∧
    ∀ a b, E a b → a ∈ Ps.flatMap (·.nodes) → ColumnBefore gs a b
  | [], gs, _, h => by
    simp only [layout, Except.ok.injEq] at h
    subst h
    simp
  | P :: Ps, gs, H, h => by
    simp only [layout] at h
    cases h1 : graphColumns P with
    | error e => rw [h1] at h; simp at h
    | ok g =>
      rw [h1] at h
      dsimp only at h
      cases h2 : layout Ps with
      | error e => rw [h2] at h; simp at h
      | ok gs' =>
        rw [h2] at h
        simp only [Except.ok.injEq] at h
        subst h
        obtain ⟨a1, a2, a3⟩ := graphColumns_spec (H P (by simp)) h1
        obtain ⟨b1, b2, b3⟩ := layout_parts (fun Q hQ => H Q (by simp [hQ])) h2
        refine ⟨?_, ?_, ?_⟩
        · simp only [List.flatten_cons, List.flatten_append, List.flatMap_cons]
          exact a1.append b1
        · intro g' hg'
          rcases List.mem_cons.mp hg' with hg' | hg'
          · rw [hg']; exact a2
          · exact b2 g' hg'
        · intro a b e ha
          rw [List.flatMap_cons, List.mem_append] at ha
          rcases ha with ha | ha
          · exact ⟨g, by simp, a3 a b e ha⟩
          · obtain ⟨g', hg', r⟩ := b3 a b e ha
            exact ⟨g', by simp [hg'], r⟩

/-! ### C134 -/

/-- When a layout is returned, each block and each non-block variable is in exactly one column, no column is empty, and each pipe goes
from a column to a later one of the same graph.  Missing: the layout is not always returned, see `C134_violated`; it is if the conditions
of `C134_returns` hold. -/
theorem C134_partial {W : Workflow α} {parts : List (Nat × Nat) → List Part} (hx : Networkx W parts) {gs : List (List (List Nat))}
    (h : layoutOf W parts = .ok gs) :
    gs.flatten.flatten.Perm (List.range (W.blocks.length + (nbvs W).length)) ∧ (∀ g ∈ gs, ∀ c ∈ g, c ≠ []) ∧
    ∀ p ∈ W.pipes, ∃ a b, NodeOf W p.input a ∧ NodeOf W p.output b ∧ ColumnBefore gs a b := by
  simp only [layoutOf] at h
  cases he : layoutEdges W W.pipes with
  | error e => rw [he] at h; simp at h
  | ok es =>
    rw [he] at h
    dsimp only at h
    obtain ⟨h1, h2⟩ := hx es he
    obtain ⟨a1, a2, a3⟩ := layout_parts h2 h
    refine ⟨a1.trans h1, a2, ?_⟩
    intro p hp
    obtain ⟨a, b, hab, ha, hb⟩ := layoutEdges_mem he p hp
    refine ⟨a, b, ha, hb, a3 a b hab (h1.mem_iff.mpr ?_)⟩
    rw [List.mem_range]
    rcases ha with ⟨blk, h3, -⟩ | ⟨i, rfl, h3⟩
    · have := (List.getElem?_eq_some_iff.mp h3).1
      omega
    · have := (List.getElem?_eq_some_iff.mp h3).1
      omega

/-- A connected part is placed in columns if each of its nodes leads to the end of the longest path, or is listed after all the nodes
which lead to it (except those of the longest path), of which there is at least one listed before it. -/
theorem C134_returns (H : PartOf E P) {last : Nat} (hl : P.longest.getLast? = some last)
    (Hord : ∀ a x b, P.nodes = a ++ x :: b → x ∉ P.longest → P.path x last = none →
      (∃ o ∈ a, (P.path o x).isSome) ∧ ∀ o ∈ P.nodes, o ≠ x → (P.path o x).isSome → o ∈ a ∨ o ∈ P.longest) :
    ∃ g, graphColumns P = .ok g := by
  have he := placeLongest_eq H.longest_nodup P.longest [] rfl
  rw [List.map_nil] at he
  have hk : (placeLongest P.longest P.longest []).map (·.1) = P.longest := by rw [he]; simp [Function.comp_def]
  have hv : (placeLongest P.longest P.longest []).map (·.2) = List.range P.longest.length := by
    rw [he]
    apply List.ext_getElem
    · simp
    · intro i h1 h2
      simp only [List.map_map, List.getElem_map, Function.comp_apply, List.getElem_range]
      exact H.longest_nodup.idxOf_getElem i (by simpa using h1)
  obtain ⟨d, hd⟩ := placeOthers_total H hl Hord P.nodes [] _ rfl (placed_longest H hl)
    (fun c hc => by rw [hv]; exact List.mem_range.mpr hc) (fun x => by rw [hk]; simp)
  simp only [graphColumns, columnByNode, hl, hd]
  exact ⟨_, rfl⟩

/-- Nothing is returned for a part with a node to which no edge comes, and from which no path leads to the end of the longest path. -/
theorem C134_source (H : PartOf E P) {last x : Nat} (hl : P.longest.getLast? = some last) (hx : x ∈ P.nodes)
    (hout : ∀ p, ¬ Walk E x last p) (hin : ∀ o, ¬ E o x) (g : List (List Nat)) : graphColumns P ≠ .ok g := by
  intro h
  obtain ⟨d, m, last', -, hl', K, hn, -, -⟩ := graphColumns_ok H h
  rw [hl] at hl'
  simp only [Option.some.injEq] at hl'
  subst hl'
  cases hc : d.lookup x with
  | none => exact absurd ((hn x).mp hx) (Dict.lookup_none.mp hc)
  | some c =>
    obtain ⟨o, m, hs⟩ := K.origin x c hc (fun n hs => by
      obtain ⟨p, hp, -⟩ := hs.walk
      exact hout p hp)
    obtain ⟨y, -, hy⟩ := hs.last
    exact hin y hy

/-! ### Witnesses -/

namespace Witness

/-- Four blocks in which 0 gives to 1 and to 3, and 1 gives to 2 (variables 0 to 6). -/
def four : Workflow Unit :=
  { blocks := [⟨[0], [1], fun _ => .ok [()]⟩, ⟨[2], [3], fun _ => .ok [()]⟩, ⟨[4], [5], fun _ => .ok [()]⟩, ⟨[6], [7], fun _ => .ok [()]⟩],
    pipes := [⟨1, 2, false⟩, ⟨3, 4, false⟩, ⟨1, 6, false⟩], output := some 5, default := fun _ => none, lockFlag := fun _ => false }

/-- One more block, which gives to block 3 as well. -/
def five : Workflow Unit :=
  { blocks := four.blocks.set 3 ⟨[6, 8], [7], fun _ => .ok [()]⟩ ++ [⟨[9], [10], fun _ => .ok [()]⟩],
    pipes := four.pipes ++ [⟨10, 8, false⟩], output := some 5, default := fun _ => none, lockFlag := fun _ => false }

def edges4 : List (Nat × Nat) := [(0, 1), (1, 2), (0, 3)]
def edges5 : List (Nat × Nat) := edges4 ++ [(4, 3)]

def path5 : Nat → Nat → Option (List Nat)
  | 0, 0 => some [0] | 0, 1 => some [0, 1] | 0, 2 => some [0, 1, 2] | 0, 3 => some [0, 3]
  | 1, 1 => some [1] | 1, 2 => some [1, 2]
  | 2, 2 => some [2]
  | 3, 3 => some [3]
  | 4, 4 => some [4] | 4, 3 => some [4, 3]
  | _, _ => none

def part4 : Part := ⟨[0, 1, 2, 3], [0, 1, 2], path5⟩
def part5 : Part := ⟨[0, 1, 2, 3, 4], [0, 1, 2], path5⟩

theorem steps5 {n u v : Nat} (h : Steps (fun a b => (a, b) ∈ edges5) n u v) (hu : u < 5) : ∃ p, path5 u v = some p ∧ n + 1 ≤ p.length ∧ p.length ≤ 3 := by
  induction h with
  | refl u => interval_cases u <;> exact ⟨_, rfl, by decide, by decide⟩
  | @cons n u v w e k ih =>
    simp only [edges5, edges4, List.cons_append, List.nil_append, List.mem_cons, Prod.mk.injEq, List.not_mem_nil, or_false] at e
    have hv : v < 5 := by omega
    obtain ⟨p, hp, hl, _⟩ := ih hv
    have hw : w < 5 := by
      by_contra hw
      obtain ⟨w', rfl⟩ : ∃ w', w = w' + 5 := ⟨w - 5, by omega⟩
      interval_cases v <;> simp [path5] at hp
    rcases e with ⟨rfl, rfl⟩ | ⟨rfl, rfl⟩ | ⟨rfl, rfl⟩ | ⟨rfl, rfl⟩ <;>
    · interval_cases w <;> simp [path5] at hp ⊢ <;> subst hp <;> simp at hl ⊢ <;> omega

theorem steps4 {n u v : Nat} (h : Steps (fun a b => (a, b) ∈ edges4) n u v) : Steps (fun a b => (a, b) ∈ edges5) n u v := by
  induction h with
  | refl => exact .refl _
  | cons e _ ih => exact .cons (by simp [edges5, e]) ih

theorem walk5 : ∀ u < 5, ∀ v < 5, ∀ p, path5 u v = some p → Walk (fun a b => (a, b) ∈ edges5) u v p := by
  intro u hu v hv p hp
  interval_cases u <;> interval_cases v <;> simp [path5] at hp <;> subst hp <;> exact ⟨by simp [edges5, edges4], rfl, rfl⟩

theorem walk4 : ∀ u < 4, ∀ v < 4, ∀ p, path5 u v = some p → Walk (fun a b => (a, b) ∈ edges4) u v p := by
  intro u hu v hv p hp
  interval_cases u <;> interval_cases v <;> simp [path5] at hp <;> subst hp <;> exact ⟨by simp [edges4], rfl, rfl⟩

theorem mem5 {u : Nat} : u ∈ part5.nodes ↔ u < 5 := by
  show u ∈ [0, 1, 2, 3, 4] ↔ u < 5
  simp; omega

theorem mem4 {u : Nat} : u ∈ part4.nodes ↔ u < 4 := by
  show u ∈ [0, 1, 2, 3] ↔ u < 4
  simp; omega

theorem partOf5 : PartOf (fun a b => (a, b) ∈ edges5) part5 where
  nodup := by decide
  closed := by
    intro u v e
    rw [mem5, mem5]
    simp [edges5, edges4] at e
    omega
  longest_walk := ⟨0, 2, by simp [part5, edges5, edges4], rfl, rfl⟩
  longest_mem := by decide
  longest_max := by
    intro u hu v p hp
    obtain ⟨q, -, h1, h2⟩ := steps5 hp.steps (mem5.mp hu)
    show p.length ≤ 3
    omega
  path_some := by
    intro u hu v hv p hp
    refine ⟨walk5 u (mem5.mp hu) v (mem5.mp hv) p hp, ?_⟩
    intro q hq
    obtain ⟨p', hp', h1, -⟩ := steps5 hq.steps (mem5.mp hu)
    rw [show path5 u v = some p from hp] at hp'
    cases hp'
    omega
  path_none := by
    intro u hu v hv hp q hq
    obtain ⟨p', hp', -⟩ := steps5 hq.steps (mem5.mp hu)
    rw [show path5 u v = none from hp] at hp'
    cases hp'

theorem partOf4 : PartOf (fun a b => (a, b) ∈ edges4) part4 where
  nodup := by decide
  closed := by
    intro u v e
    rw [mem4, mem4]
    simp [edges4] at e
    omega
  longest_walk := ⟨0, 2, by simp [part4, edges4], rfl, rfl⟩
  longest_mem := by decide
  longest_max := by
    intro u hu v p hp
    obtain ⟨q, -, h1, h2⟩ := steps5 (steps4 hp.steps) (by have := mem4.mp hu; omega)
    show p.length ≤ 3
    omega
  path_some := by
    intro u hu v hv p hp
    refine ⟨walk4 u (mem4.mp hu) v (mem4.mp hv) p hp, ?_⟩
    intro q hq
    obtain ⟨p', hp', h1, -⟩ := steps5 (steps4 hq.steps) (by have := mem4.mp hu; omega)
    rw [show path5 u v = some p from hp] at hp'
    cases hp'
    omega
  path_none := by
    intro u hu v hv hp q hq
    obtain ⟨p', hp', -⟩ := steps5 (steps4 hq.steps) (by have := mem4.mp hu; omega)
    rw [show path5 u v = none from hp] at hp'
    cases hp'

theorem networkx4 : Networkx four (fun _ => [part4]) := by
  intro es he
  have : layoutEdges four four.pipes = .ok edges4 := by decide
  rw [this] at he
  cases he
  refine ⟨by decide, ?_⟩
  intro P hP
  rw [List.mem_singleton.mp hP]
  exact partOf4

theorem networkx5 : Networkx five (fun _ => [part5]) := by
  intro es he
  have : layoutEdges five five.pipes = .ok edges5 := by decide
  rw [this] at he
  cases he
  refine ⟨by decide, ?_⟩
  intro P hP
  rw [List.mem_singleton.mp hP]
  exact partOf5

end Witness

/-- Some workflows without cycles have no layout: KeyError is raised for two blocks which give to the same third one, when the first also
begins a longer path of which the second is no part. -/
theorem C134_violated : ∃ (W : Workflow Unit) (parts : List (Nat × Nat) → List Part), Networkx W parts ∧ layoutOf W parts = .error .keyError :=
  ⟨Witness.five, fun _ => [Witness.part5], Witness.networkx5, by decide⟩

/-- The hypotheses of `C134_partial` hold of a workflow with two ends. -/
example : Networkx Witness.four (fun _ => [Witness.part4]) ∧ layoutOf Witness.four (fun _ => [Witness.part4]) = .ok [[[0], [1, 3], [2]]] :=
  ⟨Witness.networkx4, by decide⟩

/-- The hypotheses of `C134_returns` hold of the same. -/
example : ∃ g, graphColumns Witness.part4 = .ok g := by
  refine C134_returns Witness.partOf4 (last := 2) rfl ?_
  intro a x b hab hx hp
  have hlen : a.length < 4 := by
    have := congrArg List.length hab
    simp [Witness.part4] at this
    omega
  have hxm : x ∈ Witness.part4.nodes := by rw [hab]; simp
  have hx3 : x = 3 := by
    simp [Witness.part4] at hxm hx
    omega
  subst hx3
  have ha : a = [0, 1, 2] := by
    match a, hab with
    | [], h => simp [Witness.part4] at h
    | [_], h => simp [Witness.part4] at h
    | [_, _], h => simp [Witness.part4] at h
    | [_, _, _], h => simp [Witness.part4] at h; simp [h.1.symm, h.2.1.symm, h.2.2.1.symm]
    | _ :: _ :: _ :: _ :: _, h => simp [Witness.part4] at h
  subst ha
  exact ⟨⟨0, by simp, rfl⟩, by decide⟩

/-- The hypotheses of `C134_source` hold of the last block of `five`. -/
example (g : List (List Nat)) : graphColumns Witness.part5 ≠ .ok g := by
  refine C134_source Witness.partOf5 (last := 2) (x := 4) rfl (by decide) (fun p hp => ?_) (fun o ho => ?_) g
  · obtain ⟨q, hq, -⟩ := Witness.steps5 hp.steps (by decide)
    cases hq
  · simp [Witness.edges5, Witness.edges4] at ho

end DC.Wkf
