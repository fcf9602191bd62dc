import Mathlib.Data.List.Forall2
import Verif.Misc.Visjs
/- Property C146: the data shown for a graph. -/
namespace DC.Vis
set_option linter.unusedSimpArgs false

/-! ### Specification -/

/-- The graph is one that `networkx` makes: nodes are distinct, edges are between nodes. -/
structure IsGraph (g : Graph) : Prop where
  nodup : (g.nodes.map (·.1)).Nodup
  ends : ∀ u v a, (u, v, a) ∈ g.edges → u ∈ g.nodes.map (·.1) ∧ v ∈ g.nodes.map (·.1)

/-- The text which is shown when the pointer is on a node, or its label if there is none. -/
def NodeData.text (d : NodeData) : String := d.title.getD d.label

/-- The text which tells a node: its name followed by its label, or the node itself. -/
def nodeText : NodeKey → NodeAttrs → String
  | _, ⟨some n, some l, _, _⟩ => n ++ l
  | _, ⟨some n, none, _, _⟩ => n
  | .str s, _ => s
  | .int i, _ => toString i
  | .other _, _ => ""

/-- What is shown for a node, from its attributes. -/
structure ShowsNode (pos : NodeKey → Option (Rat × Rat)) (k : NodeKey) (a : NodeAttrs) (d : NodeData) : Prop where
  pos : d.pos = pos k
  text : d.text = nodeText k a
  /-- the label is this text, except for a long text of a node without a name -/
  label : d.label = nodeText k a ∨ a.name = none ∧ 10 < (nodeText k a).length
  shape : d.shape = a.shape.getD "circular"
  color : d.color = a.color

/-- What is shown for an edge: the ids of its ends are those of the data of its nodes. -/
structure ShowsEdge (g : Graph) (data : Data) (u v : NodeKey) (a : EdgeAttrs) (d : EdgeData) : Prop where
  source : ∃ (i : Nat) (n : NodeAttrs) (x : NodeData), g.nodes[i]? = some (u, n) ∧ data.nodes[i]? = some x ∧ d.source = x.id
  target : ∃ (i : Nat) (n : NodeAttrs) (x : NodeData), g.nodes[i]? = some (v, n) ∧ data.nodes[i]? = some x ∧ d.target = x.id
  undirected : g.directed = false → d.arrows = .none
  directed : g.directed = true → d.arrows = (match a.headType with | some t => .typed t | none => .to)
  color : d.color = a.color

/-! ### Lemmas -/

theorem nodesData_ok (pos : NodeKey → Option (Rat × Rat)) : (i : Nat) → (l : List (NodeKey × NodeAttrs)) →
    (∀ k a, (k, a) ∈ l → a.label ≠ none → a.name ≠ none) →
    ∃ ns, nodesData pos i l = .ok ns ∧ List.Forall₂ (fun ka d => ShowsNode pos ka.1 ka.2 d) l ns ∧ ns.map (·.id) = List.range' i l.length
  | _, [], _ => ⟨[], rfl, .nil, rfl⟩
  | i, (k, a) :: l, h => by
    obtain ⟨ns, h1, h2, h3⟩ := nodesData_ok pos (i + 1) l fun k' a' hm => h k' a' (by simp [hm])
    have hk := h k a (by simp)
    have : ∃ d, nodeData pos i k a = .ok d ∧ ShowsNode pos k a d ∧ d.id = i := by
      rw [nodeData, labels]
      obtain ⟨name, label, shape, color⟩ := a
      cases name with
      | none =>
        cases label with
        | none =>
          have e : ownLabel k = nodeText k ⟨none, none, shape, color⟩ := by cases k <;> rfl
          refine ⟨_, rfl, ⟨rfl, e, ?_, rfl, rfl⟩, rfl⟩
          simp only [e]
          split
          · exact .inr ⟨trivial, by assumption⟩
          · exact .inl rfl
        | some l => exact absurd rfl (hk (by simp))
      | some n =>
        cases label with
        | none => exact ⟨_, rfl, ⟨rfl, by cases k <;> rfl, .inl (by cases k <;> rfl), rfl, rfl⟩, rfl⟩
        | some l => exact ⟨_, rfl, ⟨rfl, by cases k <;> rfl, .inl (by cases k <;> rfl), rfl, rfl⟩, rfl⟩
    obtain ⟨d, h4, h5, h6⟩ := this
    refine ⟨d :: ns, by rw [nodesData, h4]; simp only [h1], .cons h5 h2, ?_⟩
    rw [List.map_cons, h3, h6, List.length_cons, List.range'_succ]

theorem indexOf_ok (k : NodeKey) : (l : List NodeKey) → k ∈ l → ∃ i, indexOf k l = .ok i ∧ l[i]? = some k
  | [], h => by simp at h
  | x :: l, h => by
    rw [indexOf]
    by_cases hx : x = k
    · exact ⟨0, by rw [if_pos hx], by simp [hx]⟩
    · rw [if_neg hx]
      obtain ⟨i, h1, h2⟩ := indexOf_ok k l ((List.mem_cons.1 h).resolve_left fun e => hx e.symm)
      exact ⟨i + 1, by rw [h1], by simpa using h2⟩

theorem edgesData_ok (g : Graph) (data : Data) (hid : data.nodes.map (·.id) = List.range' 0 g.nodes.length) :
    (l : List (NodeKey × NodeKey × EdgeAttrs)) → (∀ u v a, (u, v, a) ∈ l → u ∈ g.nodes.map (·.1) ∧ v ∈ g.nodes.map (·.1)) →
    ∃ es, edgesData g.directed (g.nodes.map (·.1)) l = .ok es ∧
      List.Forall₂ (fun uva d => ShowsEdge g data uva.1 uva.2.1 uva.2.2 d) l es
  | [], _ => ⟨[], rfl, .nil⟩
  | (u, v, a) :: l, h => by
    obtain ⟨es, h1, h2⟩ := edgesData_ok g data hid l fun u' v' a' hm => h u' v' a' (by simp [hm])
    obtain ⟨hu, hv⟩ := h u v a (by simp)
    have hend : ∀ w, w ∈ g.nodes.map (·.1) → ∃ i, indexOf w (g.nodes.map (·.1)) = .ok i ∧
        ∃ (j : Nat) (n : NodeAttrs) (x : NodeData), g.nodes[j]? = some (w, n) ∧ data.nodes[j]? = some x ∧ i = x.id := by
      intro w hw
      obtain ⟨i, h3, h4⟩ := indexOf_ok w _ hw
      refine ⟨i, h3, i, ?_⟩
      rw [List.getElem?_map] at h4
      cases hn : g.nodes[i]? with
      | none => rw [hn] at h4; simp at h4
      | some kn =>
        obtain ⟨k, n⟩ := kn
        rw [hn] at h4
        simp at h4; subst h4
        obtain ⟨hi, -⟩ := List.getElem?_eq_some_iff.1 hn
        have : (data.nodes.map (·.id))[i]? = some i := by
          rw [hid, List.getElem?_eq_getElem (by simpa using hi)]
          simp
        rw [List.getElem?_map] at this
        cases hx : data.nodes[i]? with
        | none => rw [hx] at this; simp at this
        | some x =>
          rw [hx] at this
          simp at this
          exact ⟨n, x, rfl, rfl, this.symm⟩
    obtain ⟨i, h3, hi⟩ := hend u hu
    obtain ⟨j, h4, hj⟩ := hend v hv
    refine ⟨_, by rw [edgesData, edgeData, h3]; simp only [h4, h1]; rfl, .cons ⟨hi, hj, ?_, ?_, rfl⟩ h2⟩
    · intro hd; simp [hd]
    · intro hd; simp only [hd, if_true]; cases a.headType <;> rfl

/-! ### Theorems -/

/-- **C146.** The data shown for a graph has one item for each node, in order, with distinct ids, which tells the node, and one
item for each edge, in order, between the ids of its ends, with an arrow if the graph is directed.
Missing: nodes with a label and no name (`C146_label_violated`), long labels of nodes without a name, which are only in the
title (`C146_long_violated`), nodes which are neither strings nor integers, which are not told (`C146_other_violated`). -/
theorem C146_partial (pos : NodeKey → Option (Rat × Rat)) (g : Graph) (hg : IsGraph g)
    (hl : ∀ k a, (k, a) ∈ g.nodes → a.label ≠ none → a.name ≠ none) :
    ∃ data, toVisjs pos g = .ok data ∧ data.name = g.name ∧ (data.nodes.map (·.id)).Nodup ∧
      List.Forall₂ (fun ka d => ShowsNode pos ka.1 ka.2 d) g.nodes data.nodes ∧
      List.Forall₂ (fun uva d => ShowsEdge g data uva.1 uva.2.1 uva.2.2 d) g.edges data.edges := by
  obtain ⟨ns, h1, h2, h3⟩ := nodesData_ok pos 0 g.nodes hl
  -- the edges do not depend on the data of the edges
  have hshow : ∀ es es' u v a d, ShowsEdge g ⟨g.name, ns, es⟩ u v a d → ShowsEdge g ⟨g.name, ns, es'⟩ u v a d :=
    fun es es' u v a d h => ⟨h.source, h.target, h.undirected, h.directed, h.color⟩
  obtain ⟨es, h4, h5⟩ := edgesData_ok g ⟨g.name, ns, []⟩ h3 g.edges hg.ends
  refine ⟨⟨g.name, ns, es⟩, by rw [toVisjs, h1]; simp only [h4], rfl, ?_, h2, h5.imp fun _ _ h => hshow [] es _ _ _ _ h⟩
  simp only [h3]
  exact List.nodup_range'

/-- **C146** is violated by the code: a graph with a node which has a label and no name cannot be shown. -/
theorem C146_label_violated (pos : NodeKey → Option (Rat × Rat)) (name l : String) (k : NodeKey) (rest : List (NodeKey × NodeAttrs))
    (edges : List (NodeKey × NodeKey × EdgeAttrs)) :
    toVisjs pos ⟨name, true, (k, { label := some l }) :: rest, edges⟩ = .error .keyError := rfl

/-- **C146** is violated by the code: two nodes named by long texts have the same label. -/
theorem C146_long_violated (pos : NodeKey → Option (Rat × Rat)) (s t : String) (hs : 10 < s.length) (ht : 10 < t.length) :
    ∃ a b, toVisjs pos ⟨"", false, [(.str s, {}), (.str t, {})], []⟩ = .ok ⟨"", [a, b], []⟩ ∧ a.label = b.label := by
  refine ⟨_, _, rfl, ?_⟩
  simp [ownLabel, hs, ht]

/-- **C146** is violated by the code: nodes which are objects are shown with no text. -/
theorem C146_other_violated (pos : NodeKey → Option (Rat × Rat)) (n m : Nat) :
    ∃ a b, toVisjs pos ⟨"", false, [(.other n, {}), (.other m, {})], []⟩ = .ok ⟨"", [a, b], []⟩ ∧ a.text = "" ∧ b.text = "" :=
  ⟨_, _, rfl, rfl, rfl⟩

/-- A directed graph with a named node, an integer and an edge. -/
def demo : Graph := ⟨"g", true, [(.str "a", { name := some "A", label := some "1" }), (.int 7, { color := some "red" })],
  [(.int 7, .str "a", { headType := some "circle" })]⟩

/-- The hypotheses of `C146_partial` hold for it, and this is what is shown. -/
example : IsGraph demo ∧ (∀ k a, (k, a) ∈ demo.nodes → a.label ≠ none → a.name ≠ none) ∧
    toVisjs (fun _ => none) demo = .ok ⟨"g",
      [⟨0, none, "A1", none, "circular", none⟩, ⟨1, none, "7", some "7", "circular", some "red"⟩],
      [⟨1, 0, .typed "circle", none⟩]⟩ := by
  refine ⟨⟨by decide, ?_⟩, ?_, by rfl⟩
  · intro u v a h
    simp only [demo, List.mem_singleton, Prod.mk.injEq] at h
    obtain ⟨rfl, rfl, -⟩ := h
    decide
  · intro k a h
    simp only [demo, List.mem_cons, Prod.mk.injEq, List.not_mem_nil, or_false] at h
    rcases h with ⟨rfl, rfl⟩ | ⟨rfl, rfl⟩ <;> simp

end DC.Vis
