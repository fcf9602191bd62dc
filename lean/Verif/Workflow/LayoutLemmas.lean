import Verif.Workflow.Layout
import Mathlib.Data.List.Chain
import Mathlib.Data.List.Nodup
import Mathlib.Data.List.Perm.Basic
/-
Specification of paths and of what networkx answers, and lemmas on the placement in columns.  No file of /repo is modelled here.
-/
set_option linter.unusedSectionVars false
namespace DC.Wkf

variable {E : Nat → Nat → Prop} {β : Type}

/-- A path from a node to an other along the edges. -/
def Walk (E : Nat → Nat → Prop) (u v : Nat) (p : List Nat) : Prop := p.IsChain E ∧ p.head? = some u ∧ p.getLast? = some v

/-- What is assumed of networkx on a connected part: no edge leaves or enters the part, the longest path is a path of the part than which
none is longer (there is one iff there are no cycles), and the path between two nodes is a longest one, if there is one. -/
structure PartOf (E : Nat → Nat → Prop) (P : Part) : Prop where
  nodup : P.nodes.Nodup
  closed : ∀ u v, E u v → (u ∈ P.nodes ↔ v ∈ P.nodes)
  longest_walk : ∃ u v, Walk E u v P.longest
  longest_mem : ∀ x ∈ P.longest, x ∈ P.nodes
  longest_max : ∀ u ∈ P.nodes, ∀ v p, Walk E u v p → p.length ≤ P.longest.length
  path_some : ∀ u ∈ P.nodes, ∀ v ∈ P.nodes, ∀ p, P.path u v = some p → Walk E u v p ∧ ∀ q, Walk E u v q → q.length ≤ p.length
  path_none : ∀ u ∈ P.nodes, ∀ v ∈ P.nodes, P.path u v = none → ∀ q, ¬ Walk E u v q

/-- A number of edges from a node to an other. -/
inductive Steps (E : Nat → Nat → Prop) : Nat → Nat → Nat → Prop
  | refl (u : Nat) : Steps E 0 u u
  | cons {n u v w : Nat} : E u v → Steps E n v w → Steps E (n + 1) u w

theorem Steps.trans {m n u v w : Nat} (h : Steps E m u v) (k : Steps E n v w) : Steps E (m + n) u w := by
  induction h with
  | refl => simpa using k
  | cons e _ ih => rw [show ∀ a : Nat, a + 1 + n = (a + n) + 1 by intro a; omega]; exact .cons e (ih k)

theorem Steps.walk {n u v : Nat} (h : Steps E n u v) : ∃ p, Walk E u v p ∧ p.length = n + 1 := by
  induction h with
  | refl u => exact ⟨[u], ⟨by simp, rfl, rfl⟩, rfl⟩
  | @cons n u v w e _ ih =>
    obtain ⟨p, ⟨h1, h2, h3⟩, hl⟩ := ih
    cases p with
    | nil => simp at h2
    | cons x p =>
      simp only [List.head?_cons, Option.some.injEq] at h2
      subst h2
      exact ⟨u :: x :: p, ⟨by simp [h1, e], rfl, by rw [List.getLast?_cons_cons]; exact h3⟩, by simpa using hl⟩

theorem Walk.ne_nil {u v : Nat} {p : List Nat} (h : Walk E u v p) : p ≠ [] := by
  rintro rfl
  simp [Walk] at h

theorem Walk.steps {v : Nat} : ∀ {p : List Nat} {u : Nat}, Walk E u v p → Steps E (p.length - 1) u v
  | [], _, h => absurd rfl h.ne_nil
  | [x], u, h => by
    obtain ⟨_, h2, h3⟩ := h
    simp at h2 h3
    subst h2 h3
    exact .refl _
  | x :: y :: p, u, ⟨h1, h2, h3⟩ => by
    simp only [List.head?_cons, Option.some.injEq] at h2
    subst h2
    rw [List.isChain_cons_cons] at h1
    have := Walk.steps (p := y :: p) (u := y) ⟨h1.2, rfl, by rwa [List.getLast?_cons_cons] at h3⟩
    simp only [List.length_cons, Nat.add_sub_cancel] at this ⊢
    exact .cons h1.1 this

theorem Steps.last {n u w : Nat} (h : Steps E (n + 1) u w) : ∃ v, Steps E n u v ∧ E v w := by
  induction n generalizing u with
  | zero =>
    cases h with
    | cons e k => cases k; exact ⟨u, .refl _, e⟩
  | succ n ih =>
    cases h with
    | cons e k =>
      obtain ⟨v, h1, h2⟩ := ih k
      exact ⟨v, .cons e h1, h2⟩

theorem chain_steps {L : List Nat} (h : L.IsChain E) : ∀ (j i : Nat) (hj : j < L.length) (hi : i ≤ j), Steps E (j - i) L[i] L[j]
  | 0, i, hj, hi => by
    obtain rfl : i = 0 := by omega
    exact .refl _
  | j + 1, i, hj, hi => by
    by_cases hij : i = j + 1
    · subst hij
      simpa using Steps.refl _
    · have h1 := chain_steps h j i (by omega) (by omega)
      have h2 : E L[j] L[j + 1] := by
        rw [List.isChain_iff_getElem] at h
        exact h j hj
      have := h1.trans (Steps.cons h2 (.refl _))
      rwa [show j - i + (0 + 1) = j + 1 - i by omega] at this

variable {P : Part}

theorem PartOf.steps_mem (H : PartOf E P) {n u v : Nat} (h : Steps E n u v) : u ∈ P.nodes ↔ v ∈ P.nodes := by
  induction h with
  | refl => rfl
  | cons e _ ih => exact (H.closed _ _ e).trans ih

theorem PartOf.steps_le (H : PartOf E P) {n u v : Nat} (hu : u ∈ P.nodes) (h : Steps E n u v) : n + 1 ≤ P.longest.length := by
  obtain ⟨p, hp, hl⟩ := h.walk
  have := H.longest_max u hu v p hp
  omega

/-- The path found has the most edges. -/
theorem PartOf.path_steps (H : PartOf E P) {u v : Nat} (hu : u ∈ P.nodes) (hv : v ∈ P.nodes) {p : List Nat} (h : P.path u v = some p) :
    ∃ m, p.length = m + 1 ∧ p.head? = some u ∧ Steps E m u v ∧ ∀ n, Steps E n u v → n ≤ m := by
  obtain ⟨h1, h2⟩ := H.path_some u hu v hv p h
  have hp : 0 < p.length := List.length_pos_iff.mpr h1.ne_nil
  refine ⟨p.length - 1, by omega, h1.2.1, h1.steps, ?_⟩
  intro n hn
  obtain ⟨q, hq, hl⟩ := hn.walk
  have := h2 q hq
  omega

theorem PartOf.path_exists (H : PartOf E P) {u v n : Nat} (hu : u ∈ P.nodes) (hv : v ∈ P.nodes) (h : Steps E n u v) : ∃ p, P.path u v = some p := by
  cases hp : P.path u v with
  | some p => exact ⟨p, rfl⟩
  | none =>
    obtain ⟨q, hq, _⟩ := h.walk
    exact absurd hq (H.path_none u hu v hv hp q)

theorem PartOf.no_cycle (H : PartOf E P) {x m : Nat} (hx : x ∈ P.nodes) (h : Steps E m x x) : m = 0 := by
  obtain ⟨p, hp⟩ := H.path_exists hx hx h
  obtain ⟨k, -, -, hk, hmax⟩ := H.path_steps hx hx hp
  have := hmax _ (h.trans hk)
  omega

theorem PartOf.path_self (H : PartOf E P) {x : Nat} (hx : x ∈ P.nodes) {p : List Nat} (h : P.path x x = some p) : p.length = 1 := by
  obtain ⟨k, hk, -, hs, -⟩ := H.path_steps hx hx h
  have := H.no_cycle hx hs
  omega

theorem PartOf.longest_nodup (H : PartOf E P) : P.longest.Nodup := by
  obtain ⟨a, b, h1, -, -⟩ := H.longest_walk
  rw [List.nodup_iff_injective_get, Function.Injective]
  have key : ∀ i j : Fin P.longest.length, i < j → P.longest.get i = P.longest.get j → False := by
    intro i j hij he
    have := chain_steps h1 j i j.2 (by omega)
    simp only [List.get_eq_getElem] at he
    rw [← he] at this
    have := H.no_cycle (H.longest_mem _ (List.getElem_mem _)) this
    omega
  intro i j he
  rcases Nat.lt_trichotomy i.1 j.1 with h | h | h
  · exact (key i j h he).elim
  · exact Fin.ext h
  · exact (key j i h he.symm).elim

/-! ### Dictionaries -/

theorem Dict_set_new {d : List (Nat × β)} {k : Nat} {v : β} (h : k ∉ d.map (·.1)) : Dict.set d k v = d ++ [(k, v)] := by
  induction d with
  | nil => rfl
  | cons x d ih =>
    obtain ⟨k', v'⟩ := x
    simp only [List.map_cons, List.mem_cons, not_or] at h
    unfold Dict.set
    rw [if_neg (fun hc => h.1 hc.symm), ih h.2]
    rfl

theorem Dict_set_last {d : List (Nat × β)} {k : Nat} {c v : β} (h : k ∉ d.map (·.1)) : Dict.set (d ++ [(k, c)]) k v = d ++ [(k, v)] := by
  induction d with
  | nil => simp [Dict.set]
  | cons x d ih =>
    obtain ⟨k', v'⟩ := x
    simp only [List.map_cons, List.mem_cons, not_or] at h
    rw [List.cons_append]
    unfold Dict.set
    rw [if_neg (fun hc => h.1 hc.symm), ih h.2]
    rfl

theorem lookup_last {d : List (Nat × β)} {k : Nat} {c : β} (h : k ∉ d.map (·.1)) (q : Nat) :
    (d ++ [(k, c)]).lookup q = if q = k then some c else d.lookup q := by
  rw [← Dict_set_new h, Dict.lookup_set]

/-! ### The columns of the longest path -/

theorem placeLongest_eq {L : List Nat} (hL : L.Nodup) : ∀ (b a : List Nat), L = a ++ b →
    placeLongest L b (a.map fun n => (n, L.idxOf n)) = L.map fun n => (n, L.idxOf n)
  | [], a, h => by simp [placeLongest, h]
  | x :: b, a, h => by
    have hx : x ∉ a := by
      rw [h] at hL
      have := (List.nodup_append.mp hL).2.2
      intro hc
      exact this x hc x (by simp) rfl
    rw [placeLongest, Dict_set_new (by simpa [Function.comp_def] using hx)]
    have := placeLongest_eq hL b (a ++ [x]) (by simp [h])
    simpa using this

/-! ### The columns of the nodes which do not lead to the end of the longest path -/

/-- The column of a node is the furthest given by the paths from the nodes already in columns. -/
structure After (node : Nat) (ps : List (List Nat)) (d : List (Nat × Nat)) (c : Nat) : Prop where
  all : ∀ p ∈ ps, ∀ h, p.head? = some h → h ≠ node → ∃ ch, d.lookup h = some ch ∧ ch + p.length - 1 ≤ c

def Attained (node : Nat) (ps : List (List Nat)) (d : List (Nat × Nat)) (c : Nat) : Prop :=
  ∃ p ∈ ps, ∃ h, p.head? = some h ∧ h ≠ node ∧ ∃ ch, d.lookup h = some ch ∧ c = ch + p.length - 1

theorem placeAfter_set {node : Nat} {d0 d : List (Nat × Nat)} (hn : node ∉ d0.map (·.1)) : ∀ {ps : List (List Nat)} {c : Nat},
    (∀ p ∈ ps, p.head? = some node → p.length = 1) → placeAfter node ps (d0 ++ [(node, c)]) = .ok d →
    ∃ c', d = d0 ++ [(node, c')] ∧ c ≤ c' ∧ After node ps d0 c' ∧ (c' = c ∨ Attained node ps d0 c')
  | [], c, _, h => by
    simp only [placeAfter, Except.ok.injEq] at h
    exact ⟨c, h.symm, le_refl _, ⟨by simp⟩, .inl rfl⟩
  | p :: ps, c, hs, h => by
    simp only [placeAfter] at h
    cases hh : p.head? with
    | none => rw [hh] at h; simp at h
    | some x =>
      rw [hh] at h
      dsimp only at h
      cases hx : (d0 ++ [(node, c)]).lookup x with
      | none => rw [hx] at h; simp at h
      | some cx =>
        rw [hx] at h
        have hself : (d0 ++ [(node, c)]).lookup node = some c := by rw [lookup_last hn, if_pos rfl]
        rw [hself] at h
        dsimp only at h
        have hs' : ∀ p ∈ ps, p.head? = some node → p.length = 1 := fun q hq => hs q (by simp [hq])
        rw [lookup_last hn] at hx
        by_cases hlt : c < cx + p.length - 1
        · rw [if_pos hlt, Dict_set_last hn] at h
          obtain ⟨c', h1, h2, h3, h4⟩ := placeAfter_set hn hs' h
          have hxn : x ≠ node := by
            rintro rfl
            rw [if_pos rfl] at hx
            have := hs p (by simp) hh
            simp only [Option.some.injEq] at hx
            omega
          rw [if_neg hxn] at hx
          refine ⟨c', h1, by omega, ⟨?_⟩, ?_⟩
          · intro q hq y hy hyn
            rcases List.mem_cons.mp hq with hq | hq
            · rw [hq, hh] at hy
              simp only [Option.some.injEq] at hy
              rw [← hy]
              exact ⟨cx, hx, by rw [hq]; omega⟩
            · exact h3.all q hq y hy hyn
          · right
            rcases h4 with h4 | ⟨q, hq, r⟩
            · exact ⟨p, by simp, x, hh, hxn, cx, hx, h4⟩
            · exact ⟨q, by simp [hq], r⟩
        · rw [if_neg hlt] at h
          obtain ⟨c', h1, h2, h3, h4⟩ := placeAfter_set hn hs' h
          refine ⟨c', h1, h2, ⟨?_⟩, ?_⟩
          · intro q hq y hy hyn
            rcases List.mem_cons.mp hq with hq | hq
            · rw [hq, hh] at hy
              simp only [Option.some.injEq] at hy
              subst hy
              rw [if_neg hyn] at hx
              exact ⟨cx, hx, by rw [hq]; omega⟩
            · exact h3.all q hq y hy hyn
          · rcases h4 with h4 | ⟨q, hq, r⟩
            · exact .inl h4
            · exact .inr ⟨q, by simp [hq], r⟩

theorem placeAfter_new {node : Nat} {d0 d : List (Nat × Nat)} (hn : node ∉ d0.map (·.1)) {ps : List (List Nat)} (hne : ps ≠ [])
    (hs : ∀ p ∈ ps, p.head? = some node → p.length = 1) (h : placeAfter node ps d0 = .ok d) :
    ∃ c, d = d0 ++ [(node, c)] ∧ After node ps d0 c ∧ Attained node ps d0 c := by
  cases ps with
  | nil => exact absurd rfl hne
  | cons p ps =>
    simp only [placeAfter] at h
    cases hh : p.head? with
    | none => rw [hh] at h; simp at h
    | some x =>
      rw [hh] at h
      dsimp only at h
      cases hx : d0.lookup x with
      | none => rw [hx] at h; simp at h
      | some cx =>
        rw [hx, Dict.lookup_none.mpr hn] at h
        dsimp only at h
        rw [Dict_set_new hn] at h
        have hs' : ∀ p ∈ ps, p.head? = some node → p.length = 1 := fun q hq => hs q (by simp [hq])
        obtain ⟨c', h1, h2, h3, h4⟩ := placeAfter_set hn hs' h
        have hxn : x ≠ node := by
          rintro rfl
          rw [Dict.lookup_none.mpr hn] at hx
          simp at hx
        refine ⟨c', h1, ⟨?_⟩, ?_⟩
        · intro q hq y hy hyn
          rcases List.mem_cons.mp hq with hq | hq
          · rw [hq, hh] at hy
            simp only [Option.some.injEq] at hy
            rw [← hy]
            exact ⟨cx, hx, by rw [hq]; exact h2⟩
          · exact h3.all q hq y hy hyn
        · rcases h4 with h4 | ⟨q, hq, r⟩
          · exact ⟨p, by simp, x, hh, hxn, cx, hx, h4⟩
          · exact ⟨q, by simp [hq], r⟩

/-! ### The columns of all nodes -/

/-- Each column comes after those with smaller indices. -/
inductive Contig : List Nat → Prop
  | nil : Contig []
  | snoc {cs : List Nat} {c : Nat} : Contig cs → (∀ c' < c, c' ∈ cs) → Contig (cs ++ [c])

theorem Contig.range : ∀ n, Contig (List.range n)
  | 0 => .nil
  | n + 1 => by rw [List.range_succ]; exact .snoc (Contig.range n) (fun c hc => List.mem_range.mpr hc)

theorem Contig.lower {cs : List Nat} (h : Contig cs) : ∀ c ∈ cs, ∀ c' < c, c' ∈ cs := by
  induction h with
  | nil => simp
  | snoc _ h2 ih =>
    intro c hc c' hlt
    rw [List.mem_append] at hc ⊢
    rcases hc with hc | hc
    · exact .inl (ih c hc c' hlt)
    · simp only [List.mem_singleton] at hc
      subst hc
      exact .inl (h2 c' hlt)

/-- What holds of the columns found so far. -/
structure Placed (E : Nat → Nat → Prop) (P : Part) (last : Nat) (d : List (Nat × Nat)) : Prop where
  nodup : (d.map (·.1)).Nodup
  mem : ∀ x ∈ d.map (·.1), x ∈ P.nodes
  lead : ∀ x c, d.lookup x = some c → ∀ m, Steps E m x last → (∀ n, Steps E n x last → n ≤ m) → c + m + 1 = P.longest.length
  apart : ∀ x c, d.lookup x = some c → (∀ n, ¬ Steps E n x last) → ∀ o m, Steps E m o x → o ≠ x → ∃ co, d.lookup o = some co ∧ co + m ≤ c
  origin : ∀ x c, d.lookup x = some c → (∀ n, ¬ Steps E n x last) → ∃ o m, Steps E (m + 1) o x
  contig : Contig (d.map (·.2))

theorem Placed.walk (H : PartOf E P) {last : Nat} (hl : last ∈ P.nodes) {d : List (Nat × Nat)} (K : Placed E P last d) {a b ca cb m : Nat}
    (ha : d.lookup a = some ca) (hb : d.lookup b = some cb) (h : Steps E m a b) : ca + m ≤ cb := by
  have hma : a ∈ P.nodes := K.mem a (List.mem_map.mpr ⟨(a, ca), Dict.lookup_mem ha, rfl⟩)
  have hmb : b ∈ P.nodes := K.mem b (List.mem_map.mpr ⟨(b, cb), Dict.lookup_mem hb, rfl⟩)
  by_cases hr : ∃ n, Steps E n b last
  · obtain ⟨n, hn⟩ := hr
    obtain ⟨p, hp⟩ := H.path_exists hmb hl hn
    obtain ⟨kb, -, -, hkb, hkb'⟩ := H.path_steps hmb hl hp
    obtain ⟨q, hq⟩ := H.path_exists hma hl (h.trans hkb)
    obtain ⟨ka, -, -, hka, hka'⟩ := H.path_steps hma hl hq
    have h1 := K.lead a ca ha ka hka hka'
    have h2 := K.lead b cb hb kb hkb hkb'
    have h3 := hka' _ (h.trans hkb)
    omega
  · by_cases hab : a = b
    · subst hab
      have := H.no_cycle hma h
      rw [ha] at hb
      simp only [Option.some.injEq] at hb
      omega
    · obtain ⟨co, h1, h2⟩ := K.apart b cb hb (fun n hn => hr ⟨n, hn⟩) a m h hab
      rw [ha] at h1
      simp only [Option.some.injEq] at h1
      omega

theorem placed_longest (H : PartOf E P) {last : Nat} (hl : P.longest.getLast? = some last) :
    Placed E P last (placeLongest P.longest P.longest []) := by
  have hnd := H.longest_nodup
  have he := placeLongest_eq hnd P.longest [] rfl
  rw [List.map_nil] at he
  rw [he]
  obtain ⟨a, b, hw, -, -⟩ := H.longest_walk
  have hk : (P.longest.map fun n => (n, P.longest.idxOf n)).map (·.1) = P.longest := by simp [Function.comp_def]
  have hlast : ∃ h : P.longest.length - 1 < P.longest.length, P.longest[P.longest.length - 1] = last := by
    rw [List.getLast?_eq_getElem?] at hl
    exact List.getElem?_eq_some_iff.mp hl
  obtain ⟨hlt, hle⟩ := hlast
  have hlook : ∀ x c, (P.longest.map fun n => (n, P.longest.idxOf n)).lookup x = some c → x ∈ P.longest ∧ c = P.longest.idxOf x := by
    intro x c h
    have := Dict.lookup_mem h
    simp only [List.mem_map, Prod.mk.injEq] at this
    obtain ⟨n, h1, rfl, h2⟩ := this
    exact ⟨h1, h2.symm⟩
  have hreach : ∀ x ∈ P.longest, Steps E (P.longest.length - 1 - P.longest.idxOf x) x last := by
    intro x hx
    have hi := List.idxOf_lt_length_of_mem hx
    have := chain_steps hw (P.longest.length - 1) (P.longest.idxOf x) hlt (by omega)
    rwa [hle, List.getElem_idxOf] at this
  refine ⟨by rw [hk]; exact hnd, by rw [hk]; exact H.longest_mem, ?_, ?_, ?_, ?_⟩
  · intro x c hc m hm hmax
    obtain ⟨hx, rfl⟩ := hlook x c hc
    have hi := List.idxOf_lt_length_of_mem hx
    have h1 := hmax _ (hreach x hx)
    have h2 := chain_steps hw (P.longest.idxOf x) 0 hi (by omega)
    rw [List.getElem_idxOf] at h2
    have h3 := H.steps_le (H.longest_mem _ (List.getElem_mem _)) (h2.trans hm)
    omega
  · intro x c hc hno
    exact absurd (hreach x (hlook x c hc).1) (hno _)
  · intro x c hc hno
    exact absurd (hreach x (hlook x c hc).1) (hno _)
  · have : (P.longest.map fun n => (n, P.longest.idxOf n)).map (·.2) = List.range P.longest.length := by
      apply List.ext_getElem
      · simp
      · intro i h1 h2
        simp only [List.map_map, List.getElem_map, Function.comp_apply, List.getElem_range]
        exact hnd.idxOf_getElem i (by simpa using h1)
    rw [this]
    exact Contig.range _

theorem placed_node (H : PartOf E P) {last node : Nat} (hl : P.longest.getLast? = some last) {d d' : List (Nat × Nat)}
    (K : Placed E P last d) (hlen : ∀ c < P.longest.length, c ∈ d.map (·.2))
    (hn : node ∈ P.nodes) (hnew : node ∉ d.map (·.1)) (h : placeNode P last node d = .ok d') :
    Placed E P last d' ∧ ∃ c, d' = d ++ [(node, c)] := by
  have hlast : last ∈ P.nodes := H.longest_mem _ (List.mem_of_getLast? hl)
  simp only [placeNode] at h
  cases hp : P.path node last with
  | some p =>
    rw [hp] at h
    simp only [Except.ok.injEq] at h
    rw [Dict_set_new hnew] at h
    obtain ⟨k, hk, -, hs, hmax⟩ := H.path_steps hn hlast hp
    have hle := H.steps_le hn hs
    refine ⟨?_, _, h.symm⟩
    subst h
    refine ⟨?_, ?_, ?_, ?_, ?_, ?_⟩
    · rw [← Dict_set_new hnew]; exact Dict.nodup_set K.nodup _ _
    · intro x hx
      simp only [List.map_append, List.map_cons, List.map_nil, List.mem_append, List.mem_singleton] at hx
      rcases hx with hx | rfl
      · exact K.mem x hx
      · exact hn
    · intro x c hc m hm hmm
      rw [lookup_last hnew] at hc
      by_cases hx : x = node
      · rw [if_pos hx] at hc
        subst hx
        simp only [Option.some.injEq] at hc
        have h1 := hmm _ hs
        have h2 := hmax _ hm
        omega
      · rw [if_neg hx] at hc
        exact K.lead x c hc m hm hmm
    · intro x c hc hno o m hm ho
      rw [lookup_last hnew] at hc
      by_cases hx : x = node
      · subst hx; exact absurd hs (hno _)
      · rw [if_neg hx] at hc
        obtain ⟨co, h1, h2⟩ := K.apart x c hc hno o m hm ho
        refine ⟨co, ?_, h2⟩
        rw [lookup_last hnew, if_neg, h1]
        rintro rfl
        exact hnew (List.mem_map.mpr ⟨_, Dict.lookup_mem h1, rfl⟩)
    · intro x c hc hno
      rw [lookup_last hnew] at hc
      by_cases hx : x = node
      · subst hx; exact absurd hs (hno _)
      · rw [if_neg hx] at hc
        exact K.origin x c hc hno
    · rw [List.map_append]
      exact .snoc K.contig (fun c hc => hlen c (by dsimp only at hc; omega))
  | none =>
    rw [hp] at h
    dsimp only at h
    have hno : ∀ n, ¬ Steps E n node last := by
      intro n hs
      obtain ⟨p, hp'⟩ := H.path_exists hn hlast hs
      rw [hp] at hp'
      simp at hp'
    have hself := H.path_exists hn hn (Steps.refl node)
    obtain ⟨ps0, hps0⟩ := hself
    have hne : (P.nodes.filterMap fun o => P.path o node) ≠ [] := by
      intro hc
      have : ps0 ∈ (P.nodes.filterMap fun o => P.path o node) := List.mem_filterMap.mpr ⟨node, hn, hps0⟩
      rw [hc] at this
      simp at this
    have hone : ∀ p ∈ (P.nodes.filterMap fun o => P.path o node), p.head? = some node → p.length = 1 := by
      intro p hp hh
      obtain ⟨o, ho, hpo⟩ := List.mem_filterMap.mp hp
      obtain ⟨k, hk, hhd, -, -⟩ := H.path_steps ho hn hpo
      rw [hh] at hhd
      simp only [Option.some.injEq] at hhd
      subst hhd
      exact H.path_self hn hpo
    obtain ⟨c, h1, h2, h3⟩ := placeAfter_new hnew hne hone h
    have hall : ∀ o m, Steps E m o node → o ≠ node → ∃ co, d.lookup o = some co ∧ co + m ≤ c := by
      intro o m hm ho
      have hon : o ∈ P.nodes := (H.steps_mem hm).mpr hn
      obtain ⟨p, hpo⟩ := H.path_exists hon hn hm
      obtain ⟨k, hk, hhd, hs, hmax⟩ := H.path_steps hon hn hpo
      obtain ⟨co, h4, h5⟩ := h2.all p (List.mem_filterMap.mpr ⟨o, hon, hpo⟩) o hhd ho
      have := hmax _ hm
      exact ⟨co, h4, by omega⟩
    obtain ⟨p, hpm, o, hhd, ho, co, hco, hc⟩ := h3
    obtain ⟨o', hon, hpo⟩ := List.mem_filterMap.mp hpm
    obtain ⟨k, hk, hhd', hs, hmax⟩ := H.path_steps hon hn hpo
    rw [hhd] at hhd'
    simp only [Option.some.injEq] at hhd'
    subst hhd'
    obtain ⟨k, rfl⟩ : ∃ j, k = j + 1 := by
      cases k with
      | zero => cases hs; exact absurd rfl ho
      | succ k => exact ⟨k, rfl⟩
    refine ⟨?_, c, h1⟩
    subst h1
    refine ⟨?_, ?_, ?_, ?_, ?_, ?_⟩
    · rw [← Dict_set_new hnew]; exact Dict.nodup_set K.nodup _ _
    · intro x hx
      simp only [List.map_append, List.map_cons, List.map_nil, List.mem_append, List.mem_singleton] at hx
      rcases hx with hx | rfl
      · exact K.mem x hx
      · exact hn
    · intro x c' hc' m hm hmm
      rw [lookup_last hnew] at hc'
      by_cases hx : x = node
      · subst hx; exact absurd hm (hno _)
      · rw [if_neg hx] at hc'
        exact K.lead x c' hc' m hm hmm
    · intro x c' hc' hno' o' m hm ho'
      rw [lookup_last hnew] at hc'
      have key : ∃ co, d.lookup o' = some co ∧ co + m ≤ c' := by
        by_cases hx : x = node
        · subst hx
          rw [if_pos rfl] at hc'
          simp only [Option.some.injEq] at hc'
          subst hc'
          exact hall o' m hm ho'
        · rw [if_neg hx] at hc'
          exact K.apart x c' hc' hno' o' m hm ho'
      obtain ⟨co', h4, h5⟩ := key
      refine ⟨co', ?_, h5⟩
      rw [lookup_last hnew, if_neg, h4]
      rintro rfl
      exact hnew (List.mem_map.mpr ⟨_, Dict.lookup_mem h4, rfl⟩)
    · intro x c' hc' hno'
      rw [lookup_last hnew] at hc'
      by_cases hx : x = node
      · subst hx; exact ⟨o, k, hs⟩
      · rw [if_neg hx] at hc'
        exact K.origin x c' hc' hno'
    · rw [List.map_append]
      refine .snoc K.contig ?_
      obtain ⟨y, hy1, hy2⟩ := hs.last
      have hyn : y ≠ node := by
        rintro rfl
        have := H.no_cycle hn (Steps.cons hy2 (.refl _))
        omega
      obtain ⟨cy, hcy, hcy'⟩ := hall y 1 (Steps.cons hy2 (.refl _)) hyn
      have h6 := K.walk H hlast hco hcy hy1
      have h7 : cy + 1 = c := by omega
      have h8 : cy ∈ d.map (·.2) := List.mem_map.mpr ⟨_, Dict.lookup_mem hcy, rfl⟩
      intro c' hc'
      by_cases hcc : c' = cy
      · rw [hcc]; exact h8
      · exact K.contig.lower cy h8 c' (by dsimp only at hc'; omega)

theorem placed_others (H : PartOf E P) {last : Nat} (hl : P.longest.getLast? = some last) : ∀ {ns : List Nat} {d d' : List (Nat × Nat)},
    Placed E P last d → (∀ c < P.longest.length, c ∈ d.map (·.2)) →
    ns.Nodup → (∀ x ∈ ns, x ∈ P.nodes ∧ x ∉ d.map (·.1)) → placeOthers P last ns d = .ok d' →
    Placed E P last d' ∧ d'.map (·.1) = d.map (·.1) ++ ns
  | [], d, d', K, _, _, _, h => by
    simp only [placeOthers, Except.ok.injEq] at h
    subst h
    exact ⟨K, by simp⟩
  | n :: ns, d, d', K, hlen, hnd, hm, h => by
    simp only [placeOthers] at h
    cases hp : placeNode P last n d with
    | error e => rw [hp] at h; simp at h
    | ok d1 =>
      rw [hp] at h
      dsimp only at h
      obtain ⟨K1, c, hc⟩ := placed_node H hl K hlen (hm n (by simp)).1 (hm n (by simp)).2 hp
      have hk : d1.map (·.1) = d.map (·.1) ++ [n] := by rw [hc]; simp
      have hv : d1.map (·.2) = d.map (·.2) ++ [c] := by rw [hc]; simp
      rw [List.nodup_cons] at hnd
      obtain ⟨K2, h2⟩ := placed_others H hl K1
        (fun x hx => by rw [hv]; exact List.mem_append_left _ (hlen x hx)) hnd.2
        (fun x hx => ⟨(hm x (by simp [hx])).1, by
          rw [hk, List.mem_append, List.mem_singleton, not_or]
          exact ⟨(hm x (by simp [hx])).2, by rintro rfl; exact hnd.1 hx⟩⟩) h
      exact ⟨K2, by rw [h2, hk]; simp⟩

/-- Nothing is raised when the paths to a node start from nodes already in columns, the first of them from an other node. -/
theorem placeAfter_total {node : Nat} : ∀ {ps : List (List Nat)} {d : List (Nat × Nat)},
    (∀ p ∈ ps, ∃ h, p.head? = some h ∧ h ∈ d.map (·.1)) → ∃ d', placeAfter node ps d = .ok d'
  | [], d, _ => ⟨d, rfl⟩
  | p :: ps, d, h => by
    obtain ⟨x, hx, hm⟩ := h p (by simp)
    simp only [placeAfter, hx]
    cases hl : d.lookup x with
    | none => exact absurd hm (Dict.lookup_none.mp hl)
    | some c =>
      dsimp only
      have hps : ∀ v, ∀ q ∈ ps, ∃ y, q.head? = some y ∧ y ∈ (Dict.set d node v).map (·.1) := by
        intro v q hq
        obtain ⟨y, hy, hym⟩ := h q (by simp [hq])
        exact ⟨y, hy, (Dict.mem_keys_set d node v y).mpr (.inr hym)⟩
      cases d.lookup node with
      | none => exact placeAfter_total (hps _)
      | some old =>
        dsimp only
        by_cases hlt : old < c + p.length - 1
        · rw [if_pos hlt]; exact placeAfter_total (hps _)
        · rw [if_neg hlt]; exact placeAfter_total (fun q hq => h q (by simp [hq]))

theorem placeAfter_first {node : Nat} {p : List Nat} {ps : List (List Nat)} {d : List (Nat × Nat)} (hn : node ∉ d.map (·.1))
    (hp : ∃ h, p.head? = some h ∧ h ∈ d.map (·.1)) (hs : ∀ p ∈ ps, ∃ h, p.head? = some h ∧ (h = node ∨ h ∈ d.map (·.1))) :
    ∃ d', placeAfter node (p :: ps) d = .ok d' := by
  obtain ⟨x, hx, hm⟩ := hp
  simp only [placeAfter, hx]
  cases hl : d.lookup x with
  | none => exact absurd hm (Dict.lookup_none.mp hl)
  | some c =>
    rw [Dict.lookup_none.mpr hn]
    dsimp only
    apply placeAfter_total
    intro q hq
    obtain ⟨y, hy, hym⟩ := hs q hq
    exact ⟨y, hy, (Dict.mem_keys_set d node _ y).mpr hym⟩

theorem placeOthers_total (H : PartOf E P) {last : Nat} (hl : P.longest.getLast? = some last)
    (Hord : ∀ a x b, P.nodes = a ++ x :: b → x ∉ P.longest → P.path x last = none →
      (∃ o ∈ a, (P.path o x).isSome) ∧ ∀ o ∈ P.nodes, o ≠ x → (P.path o x).isSome → o ∈ a ∨ o ∈ P.longest) :
    ∀ (b a : List Nat) (d : List (Nat × Nat)), P.nodes = a ++ b → Placed E P last d → (∀ c < P.longest.length, c ∈ d.map (·.2)) →
    (∀ x, x ∈ d.map (·.1) ↔ x ∈ P.longest ∨ x ∈ a) → ∃ d', placeOthers P last (b.filter fun n => n ∉ P.longest) d = .ok d'
  | [], a, d, _, _, _, _ => ⟨d, rfl⟩
  | x :: b, a, d, hab, K, hlen, hk => by
    by_cases hx : x ∈ P.longest
    · rw [List.filter_cons_of_neg (by simpa using hx)]
      refine placeOthers_total H hl Hord b (a ++ [x]) d (by simp [hab]) K hlen (fun y => ?_)
      rw [hk, List.mem_append, List.mem_singleton]
      constructor
      · tauto
      · rintro (h | h | rfl)
        · exact .inl h
        · exact .inr h
        · exact .inl hx
    · rw [List.filter_cons_of_pos (by simpa using hx)]
      have hxa : x ∉ a := by
        have := H.nodup
        rw [hab, List.nodup_append] at this
        intro hc
        exact this.2.2 x hc x (by simp) rfl
      have hnew : x ∉ d.map (·.1) := by rw [hk]; tauto
      have hxn : x ∈ P.nodes := by rw [hab]; simp
      have hd1 : ∃ d1, placeNode P last x d = .ok d1 := by
        simp only [placeNode]
        cases hp : P.path x last with
        | some p => exact ⟨_, rfl⟩
        | none =>
          dsimp only
          obtain ⟨⟨o, ho, hop⟩, hall⟩ := Hord a x b hab hx hp
          have hheads : ∀ q ∈ P.nodes.filterMap (fun o => P.path o x), ∃ h, q.head? = some h ∧ (h = x ∨ h ∈ d.map (·.1)) := by
            intro q hq
            obtain ⟨y, hy, hyp⟩ := List.mem_filterMap.mp hq
            obtain ⟨m, -, hhd, -, -⟩ := H.path_steps hy hxn hyp
            refine ⟨y, hhd, ?_⟩
            by_cases hyx : y = x
            · exact .inl hyx
            · right
              rw [hk]
              exact (hall y hy hyx (by rw [hyp]; rfl)).symm
          have hne : a.filterMap (fun o => P.path o x) ≠ [] := by
            intro hc
            rw [Option.isSome_iff_exists] at hop
            obtain ⟨q, hq⟩ := hop
            have : q ∈ a.filterMap (fun o => P.path o x) := List.mem_filterMap.mpr ⟨o, ho, hq⟩
            rw [hc] at this
            simp at this
          cases hf : a.filterMap (fun o => P.path o x) with
          | nil => exact absurd hf hne
          | cons q qs =>
            have hqm : q ∈ a.filterMap (fun o => P.path o x) := by rw [hf]; simp
            have he : P.nodes.filterMap (fun o => P.path o x) = q :: (qs ++ (x :: b).filterMap (fun o => P.path o x)) := by
              rw [hab, List.filterMap_append, hf, List.cons_append]
            rw [he] at hheads ⊢
            refine placeAfter_first hnew ?_ (fun r hr => hheads r (by simp [hr]))
            obtain ⟨y, hy, hyp⟩ := List.mem_filterMap.mp hqm
            obtain ⟨m, -, hhd, -, -⟩ := H.path_steps (by rw [hab]; simp [hy]) hxn hyp
            exact ⟨y, hhd, (hk y).mpr (.inr hy)⟩
      obtain ⟨d1, hd1⟩ := hd1
      obtain ⟨K1, c, hc⟩ := placed_node H hl K hlen hxn hnew hd1
      simp only [placeOthers, hd1]
      refine placeOthers_total H hl Hord b (a ++ [x]) d1 (by simp [hab]) K1 (fun c' h => ?_) (fun y => ?_)
      · rw [hc, List.map_append]; exact List.mem_append_left _ (hlen c' h)
      · have := hk y
        simp only [hc, List.map_append, List.map_cons, List.map_nil, List.mem_append, List.mem_singleton]
        rw [this]
        tauto

theorem columnByNode_ok (H : PartOf E P) {d : List (Nat × Nat)} (h : columnByNode P = .ok d) :
    ∃ last, P.longest.getLast? = some last ∧ Placed E P last d ∧ ∀ x, x ∈ P.nodes ↔ x ∈ d.map (·.1) := by
  simp only [columnByNode] at h
  cases hl : P.longest.getLast? with
  | none => rw [hl] at h; simp at h
  | some last =>
    rw [hl] at h
    dsimp only at h
    have he := placeLongest_eq H.longest_nodup P.longest [] rfl
    rw [List.map_nil] at he
    have K := placed_longest H hl
    have hk : (placeLongest P.longest P.longest []).map (·.1) = P.longest := by rw [he]; simp [Function.comp_def]
    have hv : (placeLongest P.longest P.longest []).map (·.2) = List.range P.longest.length := by
      rw [he]
      apply List.ext_getElem
      · simp
      · intro i h1 h2
        simp only [List.map_map, List.getElem_map, Function.comp_apply, List.getElem_range]
        exact H.longest_nodup.idxOf_getElem i (by simpa using h1)
    obtain ⟨K2, h2⟩ := placed_others H hl K (fun c hc => by rw [hv]; exact List.mem_range.mpr hc)
      (H.nodup.filter _) (fun x hx => by
        rw [hk]
        simpa using hx) h
    refine ⟨last, rfl, K2, fun x => ?_⟩
    rw [h2, hk, List.mem_append, List.mem_filter]
    constructor
    · intro hx
      by_cases hx' : x ∈ P.longest
      · exact .inl hx'
      · exact .inr ⟨hx, by simpa using hx'⟩
    · rintro (hx | hx)
      · exact H.longest_mem x hx
      · exact hx.1

/-! ### From columns by node to nodes by column -/

theorem groupColumns_eq : ∀ {b : List (Nat × Nat)} {a : List (Nat × Nat)} {m : Nat}, Contig ((a ++ b).map (·.2)) →
    (∀ c, c ∈ a.map (·.2) ↔ c < m) → ∃ m', m ≤ m' ∧ (∀ c, c ∈ (a ++ b).map (·.2) ↔ c < m') ∧
    groupColumns b ((List.range m).map fun c => (c, (a.filter fun x => x.2 = c).map (·.1)))
      = (List.range m').map fun c => (c, ((a ++ b).filter fun x => x.2 = c).map (·.1)) := by
  intro b
  induction b with
  | nil => intro a m _ hm; exact ⟨m, le_refl _, by simpa using hm, by simp [groupColumns]⟩
  | cons x b ih =>
    intro a m hc hm
    obtain ⟨n, c⟩ := x
    have happ : a ++ (n, c) :: b = (a ++ [(n, c)]) ++ b := by simp
    have hcle : c ≤ m := by
      have : ∀ {l : List Nat}, Contig l → ∀ (u v : List Nat), l = u ++ c :: v → ∀ c' < c, c' ∈ u := by
        intro l hl
        induction hl with
        | nil => intro u v h; simp at h
        | @snoc cs c0 h1 h2 ih =>
          intro u v h c' hlt
          rcases List.eq_nil_or_concat v with rfl | ⟨v', z, rfl⟩
          · have := List.append_inj' h (by simp)
            rw [← this.1]
            simp only [List.cons.injEq, and_true] at this
            exact h2 c' (by omega)
          · rw [List.concat_eq_append, ← List.cons_append, ← List.append_assoc] at h
            exact ih u v' (List.append_inj' h (by simp)).1 c' hlt
      by_contra hlt
      have := this hc (a.map (·.2)) (b.map (·.2)) (by simp) m (by omega)
      rw [hm] at this
      omega
    have hkeys : ((List.range m).map fun c => (c, (a.filter fun x => x.2 = c).map (·.1))).map (·.1) = List.range m := by
      simp [Function.comp_def]
    rw [happ] at hc
    by_cases hlt : c < m
    · have hset : Dict.set ((List.range m).map fun c => (c, (a.filter fun x => x.2 = c).map (·.1))) c
          (((((List.range m).map fun c => (c, (a.filter fun x => x.2 = c).map (·.1))).lookup c).getD []) ++ [n])
          = (List.range m).map fun c' => (c', ((a ++ [(n, c)]).filter fun x => x.2 = c').map (·.1)) := by
        have hlook : ((List.range m).map fun c => (c, (a.filter fun x => x.2 = c).map (·.1))).lookup c = some ((a.filter fun x => x.2 = c).map (·.1)) := by
          apply Dict.mem_lookup
          · rw [hkeys]; exact List.nodup_range
          · exact List.mem_map.mpr ⟨c, List.mem_range.mpr hlt, rfl⟩
        rw [hlook, Option.getD_some]
        have gen : ∀ (ks : List Nat) (f : Nat → List Nat) (w : List Nat), ks.Nodup → c ∈ ks →
            Dict.set (ks.map fun k => (k, f k)) c w = ks.map fun k => (k, if k = c then w else f k) := by
          intro ks f w hnd hmem
          induction ks with
          | nil => simp at hmem
          | cons k ks ih =>
            rw [List.nodup_cons] at hnd
            simp only [List.map_cons]
            unfold Dict.set
            by_cases hk : k = c
            · rw [if_pos hk]
              simp only [hk, if_true, List.cons.injEq, true_and]
              apply List.map_congr_left
              intro k' hk'
              rw [if_neg]
              rintro rfl
              exact hnd.1 (hk ▸ hk')
            · rw [if_neg hk, ih hnd.2 ((List.mem_cons.mp hmem).resolve_left (fun h => hk h.symm))]
              simp [hk]
        rw [gen _ _ _ List.nodup_range (List.mem_range.mpr hlt)]
        apply List.map_congr_left
        intro k _
        by_cases hk : k = c
        · subst hk; simp
        · have hk' : ¬ c = k := fun h => hk h.symm
          rw [if_neg hk]; simp [hk']
      obtain ⟨m', h1, h2, h3⟩ := ih (m := m) hc (by
        intro c'
        simp only [List.map_append, List.map_cons, List.map_nil, List.mem_append, List.mem_singleton, hm]
        omega)
      refine ⟨m', h1, by rw [happ]; exact h2, ?_⟩
      rw [groupColumns, hset, h3, happ]
    · obtain rfl : c = m := by omega
      have hset : Dict.set ((List.range c).map fun c => (c, (a.filter fun x => x.2 = c).map (·.1))) c
          (((((List.range c).map fun c => (c, (a.filter fun x => x.2 = c).map (·.1))).lookup c).getD []) ++ [n])
          = (List.range (c + 1)).map fun c' => (c', ((a ++ [(n, c)]).filter fun x => x.2 = c').map (·.1)) := by
        have hnk : c ∉ ((List.range c).map fun c => (c, (a.filter fun x => x.2 = c).map (·.1))).map (·.1) := by rw [hkeys]; simp
        rw [Dict.lookup_none.mpr hnk, Dict_set_new hnk, List.range_succ, List.map_append]
        congr 1
        · apply List.map_congr_left
          intro k hk
          have := List.mem_range.mp hk
          simp [show ¬ c = k by omega]
        · have : a.filter (fun x => x.2 = c) = [] := by
            rw [List.filter_eq_nil_iff]
            intro x hx
            have := (hm x.2).mp (List.mem_map.mpr ⟨x, hx, rfl⟩)
            simp; omega
          simp [this]
      obtain ⟨m', h1, h2, h3⟩ := ih (m := c + 1) hc (by
        intro c'
        simp only [List.map_append, List.map_cons, List.map_nil, List.mem_append, List.mem_singleton, hm]
        omega)
      refine ⟨m', by omega, by rw [happ]; exact h2, ?_⟩
      rw [groupColumns, hset, h3, happ]

theorem graphColumns_ok (H : PartOf E P) {g : List (List Nat)} (h : graphColumns P = .ok g) :
    ∃ d m last, columnByNode P = .ok d ∧ P.longest.getLast? = some last ∧ Placed E P last d ∧ (∀ x, x ∈ P.nodes ↔ x ∈ d.map (·.1)) ∧
      (∀ c, c ∈ d.map (·.2) ↔ c < m) ∧ g = (List.range m).map fun c => (d.filter fun x => x.2 = c).map (·.1) := by
  simp only [graphColumns] at h
  cases hd : columnByNode P with
  | error e => rw [hd] at h; simp at h
  | ok d =>
    rw [hd] at h
    simp only [Except.ok.injEq] at h
    obtain ⟨last, hl, K, hn⟩ := columnByNode_ok H hd
    obtain ⟨m, -, h2, h3⟩ := groupColumns_eq (b := d) (a := []) (m := 0) (by simpa using K.contig) (by simp)
    simp only [List.range_zero, List.map_nil, List.nil_append] at h2 h3
    refine ⟨d, m, last, rfl, hl, K, hn, h2, ?_⟩
    rw [← h, h3]
    simp [Function.comp_def]

end DC.Wkf
