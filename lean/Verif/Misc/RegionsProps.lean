import Verif.Misc.Regions
import Mathlib.Tactic.Push
/- Properties C164 and C165: final branches and regions of graphs. -/
namespace DC.Reg
set_option linter.unusedSectionVars false

variable {V : Type} [DecidableEq V]

/-! ### Specification -/

/-- Nodes and edges are not repeated, and edges are between nodes. -/
def Sound (g : Gr V) : Prop := g.nodes.Nodup ∧ g.edges.Nodup ∧ ∀ e ∈ g.edges, e.1 ∈ g.nodes ∧ e.2 ∈ g.nodes

/-- The nodes that belong to final branches: they have exactly one predecessor, and so have all that follow them. -/
inductive Final (g : Gr V) : V → Prop
  | mk {v} : v ∈ g.nodes → (∃ u, (u, v) ∈ g.edges ∧ ∀ u', (u', v) ∈ g.edges → u' = u) → (∀ w, (v, w) ∈ g.edges → Final g w) → Final g v

/-- There is a path with this number of edges from a node to another. -/
inductive Steps (g : Gr V) : Nat → V → V → Prop
  | refl (v) : Steps g 0 v v
  | tail {n u v w} : Steps g n u v → (v, w) ∈ g.edges → Steps g (n + 1) u w

/-! ### Degrees -/

theorem length_one_iff {l : List (V × V)} (hn : l.Nodup) {v : V} :
    (l.filter fun e => e.2 = v).length = 1 ↔ ∃ u, (u, v) ∈ l ∧ ∀ u', (u', v) ∈ l → u' = u := by
  have hm : ∀ e, e ∈ (l.filter fun e => e.2 = v) ↔ e ∈ l ∧ e.2 = v := fun e => by simp
  have hn' : (l.filter fun e => e.2 = v).Nodup := hn.filter _
  generalize (l.filter fun e => decide (e.2 = v)) = f at hm hn'
  constructor
  · intro h
    obtain ⟨e, rfl⟩ := List.length_eq_one_iff.1 h
    obtain ⟨h1, h2⟩ := (hm e).1 (by simp)
    refine ⟨e.1, by rw [← h2]; exact h1, fun u' hu => ?_⟩
    have := (hm (u', v)).2 ⟨hu, rfl⟩
    simp only [List.mem_singleton] at this
    rw [← this]
  · rintro ⟨u, h1, h2⟩
    have hall : ∀ e ∈ f, e = (u, v) := fun e he => by
      obtain ⟨h3, h4⟩ := (hm e).1 he
      have := h2 e.1 (by rw [← h4]; exact h3)
      rw [← this, ← h4]
    have hmem := (hm (u, v)).2 ⟨h1, rfl⟩
    match f, hall, hmem, hn' with
    | [], _, hmem, _ => simp at hmem
    | [x], _, _, _ => rfl
    | x :: y :: f, hall, _, hn' =>
      have h3 := hall x (by simp)
      have h4 := hall y (by simp)
      rw [h3, h4] at hn'
      simp at hn'

theorem outDegree_zero {g : Gr V} {v : V} : g.outDegree v = 0 ↔ ∀ w, (v, w) ∉ g.edges := by
  unfold Gr.outDegree
  rw [List.length_eq_zero_iff, List.filter_eq_nil_iff]
  exact ⟨fun h w hw => by simpa using h (v, w) hw, fun h e he hv => h e.2 (by rw [← of_decide_eq_true hv]; exact he)⟩

theorem mem_toDelete {g : Gr V} (hs : Sound g) {v : V} : v ∈ g.toDelete ↔ v ∈ g.nodes ∧ (∀ w, (v, w) ∉ g.edges) ∧
    ∃ u, (u, v) ∈ g.edges ∧ ∀ u', (u', v) ∈ g.edges → u' = u := by
  unfold Gr.toDelete
  rw [List.mem_filter, decide_eq_true_iff, outDegree_zero, Gr.inDegree, length_one_iff hs.2.1]

theorem mem_subgraph {g : Gr V} {ns : List V} {v : V} : v ∈ (g.subgraph ns).nodes ↔ v ∈ g.nodes ∧ v ∈ ns := by
  simp [Gr.subgraph]

theorem edge_subgraph {g : Gr V} {ns : List V} {e : V × V} : e ∈ (g.subgraph ns).edges ↔ e ∈ g.edges ∧ e.1 ∈ ns ∧ e.2 ∈ ns := by
  simp [Gr.subgraph]

theorem sound_subgraph {g : Gr V} (h : Sound g) (ns : List V) : Sound (g.subgraph ns) := by
  refine ⟨h.1.filter _, h.2.1.filter _, fun e he => ?_⟩
  obtain ⟨h1, h2, h3⟩ := edge_subgraph.1 he
  exact ⟨mem_subgraph.2 ⟨(h.2.2 e h1).1, h2⟩, mem_subgraph.2 ⟨(h.2.2 e h1).2, h3⟩⟩

/-! ### Cutting -/

/-- What the rounds keep true: the graph is the part of the first one left by nodes of final branches. -/
structure Left (g g' : Gr V) : Prop where
  nodes : ∀ v ∈ g'.nodes, v ∈ g.nodes
  edges : ∀ e, e ∈ g'.edges ↔ e ∈ g.edges ∧ e.1 ∈ g'.nodes ∧ e.2 ∈ g'.nodes
  removed : ∀ v ∈ g.nodes, v ∉ g'.nodes → Final g v
  below : ∀ e ∈ g.edges, e.1 ∉ g'.nodes → e.2 ∉ g'.nodes

theorem left_step {g g' : Gr V} (hg : Sound g) (hg' : Sound g') (h : Left g g') :
    Left g (g'.subgraph (g'.nodes.filter fun v => v ∉ g'.toDelete)) := by
  have hm : ∀ v, v ∈ (g'.subgraph (g'.nodes.filter fun v => v ∉ g'.toDelete)).nodes ↔ v ∈ g'.nodes ∧ v ∉ g'.toDelete := by
    intro v
    rw [mem_subgraph]
    simp
  refine ⟨fun v hv => h.nodes v ((hm v).1 hv).1, fun e => ?_, fun v hv hn => ?_, fun e he hn => ?_⟩
  · rw [edge_subgraph, hm, hm, h.edges]
    simp only [List.mem_filter, decide_eq_true_eq]
    tauto
  · rw [hm] at hn
    by_cases hv' : v ∈ g'.nodes
    · have hd : v ∈ g'.toDelete := by
        by_contra hc
        exact hn ⟨hv', hc⟩
      obtain ⟨-, h1, u, h2, h3⟩ := (mem_toDelete hg').1 hd
      refine .mk hv ⟨u, ((h.edges _).1 h2).1, fun u' hu' => h3 u' ((h.edges _).2 ⟨hu', ?_, hv'⟩)⟩ fun w hw => ?_
      · by_contra hc
        exact h.below _ hu' hc hv'
      · refine h.removed w (hg.2.2 _ hw).2 fun hc => ?_
        exact h1 w ((h.edges _).2 ⟨hw, hv', hc⟩)
    · exact h.removed v hv hv'
  · rw [hm] at hn ⊢
    rintro ⟨h1, h2⟩
    by_cases hv' : e.1 ∈ g'.nodes
    · have hd : e.1 ∈ g'.toDelete := by
        by_contra hc
        exact hn ⟨hv', hc⟩
      exact ((mem_toDelete hg').1 hd).2.1 e.2 ((h.edges e).2 ⟨he, hv', h1⟩)
    · exact h.below e he hv' h1

theorem shorter {g : Gr V} (hn : g.toDelete.length ≠ 0) :
    (g.subgraph (g.nodes.filter fun v => v ∉ g.toDelete)).nodes.length < g.nodes.length := by
  obtain ⟨v, hv⟩ := List.exists_mem_of_length_pos (Nat.pos_of_ne_zero hn)
  have hv' : v ∈ g.nodes := (List.mem_filter.1 hv).1
  refine List.length_filter_lt_length_iff_exists.2 ⟨v, hv', ?_⟩
  simp [hv]

theorem cutLoop_spec {g : Gr V} (hg : Sound g) : ∀ (n : Nat) (g' : Gr V), Sound g' → Left g g' → g'.nodes.length ≤ n →
    Sound (g'.cutLoop n) ∧ Left g (g'.cutLoop n) ∧ (g'.cutLoop n).toDelete = []
  | 0, g', hs, h, hn => by
    refine ⟨hs, h, ?_⟩
    have : g'.nodes = [] := List.length_eq_zero_iff.1 (by omega)
    simp [Gr.cutLoop, Gr.toDelete, this]
  | n + 1, g', hs, h, hn => by
    simp only [Gr.cutLoop]
    by_cases h0 : g'.toDelete.length = 0
    · rw [if_pos h0]
      exact ⟨hs, h, List.length_eq_zero_iff.1 h0⟩
    · rw [if_neg h0]
      exact cutLoop_spec hg n _ (sound_subgraph hs _) (left_step hg hs h) (by have := shorter h0; omega)

/-- Cutting the final branches of a graph removes the nodes of final branches, and only them; the edges between the nodes left are kept. -/
theorem C164_cut {g : Gr V} (hg : Sound g) : (∀ v, v ∈ g.cut.nodes ↔ v ∈ g.nodes ∧ ¬ Final g v) ∧
    ∀ e, e ∈ g.cut.edges ↔ e ∈ g.edges ∧ ¬ Final g e.1 ∧ ¬ Final g e.2 := by
  have h0 : Left g g := ⟨fun _ h => h, fun e => ⟨fun h => ⟨h, hg.2.2 e h⟩, fun h => h.1⟩, fun v h hn => absurd h hn,
    fun e he hn => absurd (hg.2.2 e he).1 hn⟩
  obtain ⟨hs, hl, hd⟩ := cutLoop_spec hg g.nodes.length g hg h0 (Nat.le_refl _)
  have key : ∀ v, Final g v → v ∉ (g.cutLoop g.nodes.length).nodes := by
    intro v hf
    induction hf with
    | @mk v hv h1 _ ih =>
      intro hc
      obtain ⟨u, h2, h3⟩ := h1
      have : v ∈ (g.cutLoop g.nodes.length).toDelete := by
        refine (mem_toDelete hs).2 ⟨hc, fun w hw => ?_, u, (hl.edges _).2 ⟨h2, ?_, hc⟩, fun u' hu' => h3 u' ((hl.edges _).1 hu').1⟩
        · obtain ⟨h4, -, h5⟩ := (hl.edges _).1 hw
          exact ih w h4 h5
        · by_contra hu
          exact hl.below _ h2 hu hc
      rw [hd] at this
      simp at this
  have hn : ∀ v, v ∈ g.cut.nodes ↔ v ∈ g.nodes ∧ ¬ Final g v := fun v =>
    ⟨fun h => ⟨hl.nodes v h, fun hf => key v hf h⟩, fun ⟨h1, h2⟩ => by
      by_contra hc
      exact h2 (hl.removed v h1 hc)⟩
  refine ⟨hn, fun e => ?_⟩
  rw [show e ∈ g.cut.edges ↔ _ from hl.edges e]
  constructor
  · rintro ⟨h1, h2, h3⟩
    exact ⟨h1, ((hn _).1 h2).2, ((hn _).1 h3).2⟩
  · rintro ⟨h1, h2, h3⟩
    exact ⟨h1, (hn _).2 ⟨(hg.2.2 e h1).1, h2⟩, (hn _).2 ⟨(hg.2.2 e h1).2, h3⟩⟩

theorem steps_head {g : Gr V} {n : Nat} {u v w : V} (h : (u, v) ∈ g.edges) (hs : Steps g n v w) : Steps g (n + 1) u w := by
  induction hs with
  | refl v => exact .tail (.refl _) h
  | tail _ he ih => exact .tail (ih h) he

/-- In a graph without cycles, a node is kept exactly when it, or a node it leads to, has not exactly one predecessor. -/
theorem C164_acyclic {g : Gr V} (hg : Sound g) {rank : V → Nat} (hr : ∀ e ∈ g.edges, rank e.2 < rank e.1) (v : V) :
    v ∈ g.cut.nodes ↔ v ∈ g.nodes ∧ ∃ n w, Steps g n v w ∧ ¬ ∃ u, (u, w) ∈ g.edges ∧ ∀ u', (u', w) ∈ g.edges → u' = u := by
  rw [(C164_cut hg).1]
  refine and_congr_right fun hv => ⟨fun h => ?_, ?_⟩
  · by_contra hc
    push Not at hc
    refine h ?_
    clear h
    generalize hk : rank v = k
    induction k using Nat.strongRecOn generalizing v with
    | ind k ih =>
      subst hk
      exact .mk hv (hc 0 v (.refl v)) fun w hw => ih (rank w) (hr _ hw) w (hg.2.2 _ hw).2 (fun n x hx => hc (n + 1) x (steps_head hw hx)) rfl
  · rintro ⟨n, w, hs, hn⟩ hf
    have : Final g w := by
      clear hn
      induction hs with
      | refl => exact hf
      | tail _ he ih =>
        cases ih hv hf with
        | mk _ _ h3 => exact h3 _ he
    cases this with
    | mk _ h2 _ => exact hn h2

/-- Of a tree, only the root is left. -/
theorem C164_tree {g : Gr V} (hg : Sound g) {rank : V → Nat} (hr : ∀ e ∈ g.edges, rank e.2 < rank e.1) {root : V} (h0 : root ∈ g.nodes)
    (hroot : ∀ u, (u, root) ∉ g.edges) (h : ∀ v ∈ g.nodes, v ≠ root → ∃ u, (u, v) ∈ g.edges ∧ ∀ u', (u', v) ∈ g.edges → u' = u) (v : V) :
    v ∈ g.cut.nodes ↔ v = root := by
  rw [C164_acyclic hg hr]
  constructor
  · rintro ⟨hv, n, w, hs, hn⟩
    cases hs with
    | refl =>
      by_contra hc
      exact hn (h v hv hc)
    | @tail _ _ x _ _ he =>
      exact absurd (h w (hg.2.2 _ he).2 fun hc => hroot x (hc ▸ he)) hn
  · rintro rfl
    exact ⟨h0, 0, v, .refl v, fun ⟨u, hu, _⟩ => hroot u hu⟩

/-! ### Depth first search -/

theorem mem_children {g : Gr V} {v w : V} : w ∈ g.children v ↔ (v, w) ∈ g.edges := by
  unfold Gr.children
  simp only [List.mem_map, List.mem_filter, decide_eq_true_eq]
  exact ⟨fun ⟨e, ⟨h1, h2⟩, h3⟩ => by rw [← h2, ← h3]; exact h1, fun h => ⟨_, ⟨h, rfl⟩, rfl⟩⟩

/-- What a search gives: it forgets no node, and each new one is at the end of an edge found. -/
theorem dfsChildren_seen {go : V → List V → List (V × V) × List V} (v : V)
    (hgo : ∀ c seen x, x ∈ (go c seen).2 ↔ x ∈ seen ∨ ∃ e ∈ (go c seen).1, e.2 = x) : ∀ (cs seen : List V) (x : V),
    x ∈ (dfsChildren go v cs seen).2 ↔ x ∈ seen ∨ ∃ e ∈ (dfsChildren go v cs seen).1, e.2 = x
  | [], seen, x => by simp [dfsChildren]
  | c :: cs, seen, x => by
    simp only [dfsChildren]
    split
    · exact dfsChildren_seen v hgo cs seen x
    · simp only [List.cons_append, List.mem_cons, List.mem_append, exists_eq_or_imp]
      rw [dfsChildren_seen v hgo cs, hgo, List.mem_cons]
      constructor
      · rintro (((rfl | h) | ⟨e, he, rfl⟩) | ⟨e, he, rfl⟩)
        · exact .inr (.inl rfl)
        · exact .inl h
        · exact .inr (.inr ⟨e, .inl he, rfl⟩)
        · exact .inr (.inr ⟨e, .inr he, rfl⟩)
      · rintro (h | rfl | ⟨e, he | he, rfl⟩)
        · exact .inl (.inl (.inr h))
        · exact .inl (.inl (.inl rfl))
        · exact .inl (.inr ⟨e, he, rfl⟩)
        · exact .inr ⟨e, he, rfl⟩

theorem dfs_seen (g : Gr V) : ∀ (n : Nat) (v : V) (seen : List V) (x : V),
    x ∈ (g.dfs n v seen).2 ↔ x ∈ seen ∨ ∃ e ∈ (g.dfs n v seen).1, e.2 = x
  | 0, v, seen, x => dfsChildren_seen v (fun _ _ _ => by simp) _ _ _
  | n + 1, v, seen, x => dfsChildren_seen v (dfs_seen g n) _ _ _

theorem dfsChildren_edges {g : Gr V} {go : V → List V → List (V × V) × List V} {k : Nat} {s v : V} (hs : ∃ i, i ≤ k ∧ Steps g i s v)
    (hgo : ∀ c seen, (∃ i, i ≤ k + 1 ∧ Steps g i s c) → ∀ e ∈ (go c seen).1, e ∈ g.edges ∧ (∃ i, i ≤ m ∧ Steps g i s e.1) ∧
      ∃ i, i ≤ m + 1 ∧ Steps g i s e.2) (hk : k ≤ m) : ∀ (cs seen : List V), (∀ c ∈ cs, (v, c) ∈ g.edges) →
    ∀ e ∈ (dfsChildren go v cs seen).1, e ∈ g.edges ∧ (∃ i, i ≤ m ∧ Steps g i s e.1) ∧ ∃ i, i ≤ m + 1 ∧ Steps g i s e.2
  | [], seen, _ => by simp [dfsChildren]
  | c :: cs, seen, hc => by
    obtain ⟨i, hi, hp⟩ := hs
    simp only [dfsChildren]
    split
    · exact dfsChildren_edges ⟨i, hi, hp⟩ hgo hk cs seen fun x hx => hc x (.tail _ hx)
    · intro e he
      simp only [List.cons_append, List.mem_cons, List.mem_append] at he
      have hvc := hc c (.head _)
      rcases he with rfl | he | he
      · exact ⟨hvc, ⟨i, by omega, hp⟩, i + 1, by omega, .tail hp hvc⟩
      · exact hgo c _ ⟨i + 1, by omega, .tail hp hvc⟩ e he
      · exact dfsChildren_edges ⟨i, hi, hp⟩ hgo hk cs _ (fun x hx => hc x (.tail _ hx)) e he

theorem dfs_edges {g : Gr V} {s : V} : ∀ (n k : Nat) (v : V) (seen : List V), (∃ i, i ≤ k ∧ Steps g i s v) →
    ∀ e ∈ (g.dfs n v seen).1, e ∈ g.edges ∧ (∃ i, i ≤ k + n ∧ Steps g i s e.1) ∧ ∃ i, i ≤ k + n + 1 ∧ Steps g i s e.2
  | 0, k, v, seen, h => dfsChildren_edges (m := k + 0) h (fun _ _ _ _ he => by simp at he) (by omega) _ _ fun _ hc => mem_children.1 hc
  | n + 1, k, v, seen, h => dfsChildren_edges (m := k + (n + 1)) h (fun c seen' hc e he => by
      have := dfs_edges n (k + 1) c seen' hc e he
      rwa [show k + 1 + n = k + (n + 1) by omega] at this) (by omega) _ _ fun _ hc => mem_children.1 hc

/-- A search forgets no node. -/
theorem dfs_mono (g : Gr V) (n : Nat) (v : V) (seen : List V) {x : V} (h : x ∈ seen) : x ∈ (g.dfs n v seen).2 :=
  (dfs_seen g n v seen x).2 (.inl h)

/-- What a search closes: the children of its new nodes, but for the deepest. -/
def Closed (g : Gr V) (rank : V → Nat) (limit : Nat) (old new : List V) : Prop :=
  ∀ u ∈ new, u ∉ old → rank u < limit → ∀ w ∈ g.children u, w ∈ new

theorem dfsChildren_closed {g : Gr V} {rank : V → Nat} {limit : Nat} {go : V → List V → List (V × V) × List V} {v : V}
    (hmono : ∀ c seen, ∀ x ∈ seen, x ∈ (go c seen).2)
    (hgo : ∀ c seen, rank c = rank v + 1 → Closed g rank limit seen (go c seen).2 ∧ (rank c < limit → ∀ w ∈ g.children c, w ∈ (go c seen).2)) :
    ∀ (cs seen : List V), (∀ c ∈ cs, rank c = rank v + 1) →
    (∀ x ∈ seen, x ∈ (dfsChildren go v cs seen).2) ∧ Closed g rank limit seen (dfsChildren go v cs seen).2 ∧
      ∀ c ∈ cs, c ∈ (dfsChildren go v cs seen).2
  | [], seen, _ => ⟨fun _ h => h, fun u h hn => absurd h hn, fun c h => by simp at h⟩
  | c :: cs, seen, hc => by
    simp only [dfsChildren]
    split
    · rename_i hm
      obtain ⟨h1, h2, h3⟩ := dfsChildren_closed hmono hgo cs seen fun x hx => hc x (.tail _ hx)
      refine ⟨h1, h2, fun x hx => ?_⟩
      rcases List.mem_cons.1 hx with rfl | hx
      · exact h1 _ hm
      · exact h3 x hx
    · obtain ⟨h1, h2, h3⟩ := dfsChildren_closed hmono hgo cs (go c (c :: seen)).2 fun x hx => hc x (.tail _ hx)
      obtain ⟨g1, g2⟩ := hgo c (c :: seen) (hc c (.head _))
      have hin : ∀ x ∈ c :: seen, x ∈ (dfsChildren go v cs (go c (c :: seen)).2).2 := fun x hx => h1 x (hmono c _ x hx)
      refine ⟨fun x hx => hin x (.tail _ hx), fun u hu hn hr w hw => ?_, fun x hx => ?_⟩
      · by_cases hu2 : u ∈ (go c (c :: seen)).2
        · by_cases huc : u = c
          · subst huc
            exact h1 w (g2 hr w hw)
          · exact h1 w (g1 u hu2 (by simp [huc, hn]) hr w hw)
        · exact h2 u hu hu2 hr w hw
      · rcases List.mem_cons.1 hx with rfl | hx
        · exact hin _ (.head _)
        · exact h3 x hx

theorem dfs_closed {g : Gr V} {rank : V → Nat} {limit : Nat} (hr : ∀ e ∈ g.edges, rank e.2 = rank e.1 + 1) : ∀ (n : Nat) (v : V) (seen : List V),
    limit = rank v + n + 1 → Closed g rank limit seen (g.dfs n v seen).2 ∧ ∀ w ∈ g.children v, w ∈ (g.dfs n v seen).2
  | 0, v, seen, hl => by
    have := dfsChildren_closed (g := g) (rank := rank) (limit := limit) (v := v) (go := fun _ s => (([] : List (V × V)), s))
      (fun _ _ _ h => h) (fun c s hc => ⟨fun u h hn => absurd h hn, fun h => by omega⟩) (g.children v) seen
      fun c hc => hr (v, c) (mem_children.1 hc)
    exact this.2
  | n + 1, v, seen, hl => by
    have := dfsChildren_closed (g := g) (rank := rank) (limit := limit) (v := v) (go := g.dfs n)
      (fun c s x h => dfs_mono g n c s h) (fun c s hc => by
        obtain ⟨h1, h2⟩ := dfs_closed hr n c s (limit := limit) (by omega)
        exact ⟨h1, fun _ => h2⟩) (g.children v) seen fun c hc => hr (v, c) (mem_children.1 hc)
    exact this.2

/-! ### Regions -/

theorem regionLoop_spec {g : Gr V} {anc : V → List V} {distance : Int} : ∀ (ns region : List V),
    (∀ v ∈ ns, v ∈ g.nodes) → ∃ r, g.regionLoop anc distance ns region = .ok r ∧
      ∀ x, x ∈ r ↔ x ∈ region ∨ ∃ v ∈ ns, x ∈ g.succs distance v ∨ x ∈ g.preds distance v ∨ x ∈ anc v
  | [], region, _ => ⟨region, rfl, fun x => by simp⟩
  | v :: ns, region, h => by
    obtain ⟨r, h1, h2⟩ := regionLoop_spec ns (region ++ g.succs distance v ++ g.preds distance v ++ anc v) fun x hx => h x (.tail _ hx)
    refine ⟨r, by rw [Gr.regionLoop, if_neg (by simpa using h v (.head _)), h1], fun x => ?_⟩
    rw [h2]
    simp only [List.mem_append, List.mem_cons, exists_eq_or_imp, or_assoc]

theorem mem_succs {g : Gr V} {distance : Int} {v x : V} : x ∈ g.succs distance v ↔ ∃ w, (x, w) ∈ g.dfsEdges distance v := by
  simp [Gr.succs]

theorem mem_preds {g : Gr V} {distance : Int} {v x : V} : x ∈ g.preds distance v ↔ ∃ u, (u, x) ∈ g.dfsEdges distance v := by
  simp [Gr.preds]

/-- The region holds the nodes given, nodes they lead to by at most as many edges as the distance, and all those that lead to them, with all
the edges between them.  A distance less than 1 counts as 1. -/
theorem C165_sound {g : Gr V} (hg : Sound g) {anc : V → List V} (hanc : ∀ v u, u ∈ anc v ↔ u ≠ v ∧ ∃ n, Steps g n u v) {nodes : List V}
    (hn : ∀ v ∈ nodes, v ∈ g.nodes) (distance : Int) : ∃ r, g.extractRegion anc nodes distance = .ok r ∧
      (∀ v ∈ nodes, v ∈ r.nodes) ∧ (∀ v ∈ nodes, ∀ u ∈ g.nodes, (∃ n, Steps g n u v) → u ∈ r.nodes) ∧
      (∀ x ∈ r.nodes, x ∈ g.nodes ∧ (x ∈ nodes ∨ ∃ v ∈ nodes, (∃ n, n ≤ max distance.toNat 1 ∧ Steps g n v x) ∨ ∃ n, Steps g n x v)) ∧
      ∀ e, e ∈ r.edges ↔ e ∈ g.edges ∧ e.1 ∈ r.nodes ∧ e.2 ∈ r.nodes := by
  obtain ⟨r, h1, h2⟩ := regionLoop_spec (g := g) (anc := anc) (distance := distance) nodes nodes hn
  refine ⟨g.subgraph r, by simp only [Gr.extractRegion, h1], fun v hv => mem_subgraph.2 ⟨hn v hv, (h2 v).2 (.inl hv)⟩, fun v hv u hu hs => ?_,
    fun x hx => ?_, fun e => ?_⟩
  · refine mem_subgraph.2 ⟨hu, (h2 u).2 ?_⟩
    by_cases hc : u = v
    · exact .inl (hc ▸ hv)
    · exact .inr ⟨v, hv, .inr (.inr ((hanc v u).2 ⟨hc, hs⟩))⟩
  · obtain ⟨hx1, hx2⟩ := mem_subgraph.1 hx
    refine ⟨hx1, ?_⟩
    rcases (h2 x).1 hx2 with h | ⟨v, hv, h⟩
    · exact .inl h
    · refine .inr ⟨v, hv, ?_⟩
      have hd : ∀ e ∈ g.dfsEdges distance v, _ := dfs_edges (s := v) (distance - 1).toNat 0 v [v] ⟨0, Nat.le_refl _, .refl v⟩
      rcases h with h | h | h
      · obtain ⟨w, hw⟩ := mem_succs.1 h
        obtain ⟨-, ⟨i, hi, hp⟩, -⟩ := hd _ hw
        exact .inl ⟨i, by omega, hp⟩
      · obtain ⟨u, hu⟩ := mem_preds.1 h
        obtain ⟨-, -, i, hi, hp⟩ := hd _ hu
        exact .inl ⟨i, by omega, hp⟩
      · exact .inr ((hanc v x).1 h).2
  · rw [edge_subgraph, mem_subgraph, mem_subgraph]
    constructor
    · rintro ⟨h3, h4, h5⟩
      exact ⟨h3, ⟨(hg.2.2 e h3).1, h4⟩, (hg.2.2 e h3).2, h5⟩
    · rintro ⟨h3, h4, h5⟩
      exact ⟨h3, h4.2, h5.2⟩

/-- In a graph in which all paths between two nodes have the same length, as in a tree, the region holds all nodes the given ones lead
to by at most as many edges as the distance.  Missing for other graphs: `C165_missed_violated`. -/
theorem C165_complete_partial {g : Gr V} (hg : Sound g) {anc : V → List V} {rank : V → Nat} (hr : ∀ e ∈ g.edges, rank e.2 = rank e.1 + 1)
    {nodes : List V} (hn : ∀ v ∈ nodes, v ∈ g.nodes) (distance : Int) : ∃ r, g.extractRegion anc nodes distance = .ok r ∧
      ∀ v ∈ nodes, ∀ (n : Nat) (x : V), Steps g n v x → n ≤ distance.toNat → x ∈ r.nodes := by
  obtain ⟨r, h1, h2⟩ := regionLoop_spec (g := g) (anc := anc) (distance := distance) nodes nodes hn
  refine ⟨g.subgraph r, by simp only [Gr.extractRegion, h1], fun v hv n x hs hd => ?_⟩
  obtain ⟨hc, hch⟩ := dfs_closed hr (limit := rank v + (distance - 1).toNat + 1) (distance - 1).toNat v [v] rfl
  have key : rank x = rank v + n ∧ x ∈ g.nodes ∧ x ∈ (g.dfs (distance - 1).toNat v [v]).2 := by
    clear h2
    induction hs with
    | refl v => exact ⟨rfl, hn v hv, dfs_mono _ _ _ _ (.head _)⟩
    | @tail n v y x hs' he ih =>
      obtain ⟨i1, i2, i3⟩ := ih hv (by omega) hc hch
      refine ⟨by rw [hr _ he]; simp only; omega, (hg.2.2 _ he).2, ?_⟩
      by_cases hy : y = v
      · subst hy
        exact hch x (mem_children.2 he)
      · exact hc y i3 (by simpa using hy) (by omega) x (mem_children.2 he)
  refine mem_subgraph.2 ⟨key.2.1, (h2 x).2 ?_⟩
  rcases (dfs_seen g _ v [v] x).1 key.2.2 with h | ⟨e, he, rfl⟩
  · rw [List.mem_singleton.1 h]
    exact .inl hv
  · exact .inr ⟨v, hv, .inr (.inl (mem_preds.2 ⟨e.1, he⟩))⟩

/-- A node at the distance is missed when the search comes first to the one before it by a longer path. -/
theorem C165_missed_violated : ∃ (g : Gr Nat) (r : Gr Nat), Sound g ∧ Steps g 2 0 3 ∧ g.extractRegion (fun _ => []) [0] 2 = .ok r ∧ 3 ∉ r.nodes :=
  ⟨⟨[0, 1, 2, 3], [(0, 1), (0, 2), (1, 2), (2, 3)]⟩, _, by unfold Sound; decide, .tail (.tail (.refl 0) (v := 0) (w := 2) (by decide)) (by decide), rfl, by decide⟩

/-- The distance does not bound the nodes before the given ones: all of them are in the region. -/
theorem C165_ancestors_violated : ∃ (g r : Gr Nat), Sound g ∧ Steps g 3 0 3 ∧ (∀ n, Steps g n 0 3 → 2 ≤ n) ∧
    g.extractRegion (fun v => if v = 3 then [0, 1, 2] else []) [3] 1 = .ok r ∧ 0 ∈ r.nodes := by
  refine ⟨⟨[0, 1, 2, 3], [(0, 1), (1, 2), (2, 3)]⟩, _, by unfold Sound; decide,
    .tail (.tail (.tail (.refl 0) (v := 0) (w := 1) (by decide)) (w := 2) (by decide)) (by decide), fun n h => ?_, rfl, by decide⟩
  cases h with
  | @tail n _ v _ h he =>
    have hv : v = 2 := by
      simp only [List.mem_cons, Prod.mk.injEq, List.not_mem_nil, or_false] at he
      omega
    subst hv
    cases h with
    | tail h he => omega

/-- A node which is not in the graph raises a ValueError. -/
theorem C165_raises {g : Gr V} {anc : V → List V} {nodes : List V} (h : ∃ v ∈ nodes, v ∉ g.nodes) (distance : Int) :
    g.extractRegion anc nodes distance = .error .valueError := by
  have key : ∀ (ns region : List V), (∃ v ∈ ns, v ∉ g.nodes) → g.regionLoop anc distance ns region = .error .valueError := by
    intro ns
    induction ns with
    | nil => rintro _ ⟨v, hv, -⟩; simp at hv
    | cons x ns ih =>
      rintro region ⟨v, hv, hn⟩
      simp only [Gr.regionLoop]
      by_cases hx : x ∉ g.nodes
      · rw [if_pos hx]
      · rw [if_neg hx]
        rcases List.mem_cons.1 hv with rfl | hv
        · exact absurd hn hx
        · exact ih _ ⟨v, hv, hn⟩
  simp only [Gr.extractRegion, key nodes nodes h]

/-! ### Examples -/

/-- A graph with a final branch 3, 4 and a node 2 with two predecessors. -/
def sampleGr : Gr Nat := ⟨[0, 1, 2, 3, 4], [(0, 1), (0, 2), (1, 2), (1, 3), (3, 4)]⟩

example : sampleGr.cut = ⟨[0, 1, 2], [(0, 1), (0, 2), (1, 2)]⟩ := by decide

/-- Not vacuous: the graph is sound and without cycles. -/
example : Sound sampleGr ∧ ∀ e ∈ sampleGr.edges, (fun v => 5 - v) e.2 < (fun v => 5 - v) e.1 := by
  unfold Sound; decide

/-- A tree: its root is left; the region of its root at distance 1. -/
example : (Gr.cut (⟨[0, 1, 2, 3], [(0, 1), (0, 2), (1, 3)]⟩ : Gr Nat)).nodes = [0] ∧
    ((Gr.extractRegion (⟨[0, 1, 2, 3], [(0, 1), (0, 2), (1, 3)]⟩ : Gr Nat) (fun _ => []) [0] 1).map (·.nodes)) = .ok [0, 1, 2] := by
  decide

/-- Not vacuous: in this tree ranks follow the edges, and the root alone has no predecessor. -/
example : Sound (⟨[0, 1, 2, 3], [(0, 1), (0, 2), (1, 3)]⟩ : Gr Nat) ∧
    ∀ e ∈ ([(0, 1), (0, 2), (1, 3)] : List (Nat × Nat)), (fun v => if v = 0 then 0 else if v = 3 then 2 else 1) e.2 =
      (fun v => if v = 0 then 0 else if v = 3 then 2 else 1) e.1 + 1 := by
  unfold Sound; decide

end DC.Reg
