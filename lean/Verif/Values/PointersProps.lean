import Verif.Values.PointersLemmas
/-
C14, C15: analysis of the JSON pointers of a serialized value.
`pointerGraph fuel v` is `pointer_graph(v)`, its loops being stopped after `fuel` steps (`.ok none`);
`deserializationOrder fuel v` is `deserialization_order(v)`.
-/
namespace DC

/-! ### C14 -/

theorem needs_way {v : V} {q : Path} (hn : ∀ a s b, q = a ++ s :: b → a ≠ [] → Needs v a (a ++ [s])) :
    ∀ (u w : List String), q = ["#"] ++ u ++ w → u ≠ [] → Relation.TransGen (Needs v) ["#"] (["#"] ++ u) := by
  intro u
  induction u using List.reverseRecOn with
  | nil => intro w _ hu; exact absurd rfl hu
  | append_singleton u s ih =>
    intro w hw _
    have h := hn (["#"] ++ u) s w (by rw [hw]; simp) (by simp)
    rw [← List.append_assoc]
    by_cases hu : u = []
    · subst hu; exact .single (by simpa using h)
    · exact .tail (ih ([s] ++ w) (by rw [hw]; simp) hu) h

theorem needs_root {v : V} {p : Path} {r : V} (h : RefAt ["#"] v p r) (hp : p ≠ ["#"]) :
    Relation.TransGen (Needs v) ["#"] p := by
  obtain ⟨t, ht⟩ := refAt_prefix h
  have hu : t ≠ [] := by rintro rfl; exact hp (by rw [ht]; simp)
  rw [ht]
  exact needs_way (fun a s b => Needs.wayTo h) t [] (by rw [ht]; simp) hu

theorem transGen_mono {v : V} {g : PGraph} (hg : GraphOk v g) {a b : Path} (h : Relation.TransGen (Needs v) a b) :
    Relation.TransGen (EdgeOf g.edges) a b := by
  induction h with
  | single h => exact .single (hg.needs _ _ h)
  | tail _ h ih => exact .tail ih (hg.needs _ _ h)

/-- C14: in the order of dereferencing, each element comes after everything it needs: the targets of its references,
and the elements inside it on the way to a reference or to a target. -/
theorem C14_order (fuel : Nat) (v : V) (order : List (Path × Option Path))
    (h : deserializationOrder fuel v = .ok (some order)) :
    (order.map (·.1)).Nodup ∧
    ∀ a b, Needs v a b → a ≠ ["#"] → Before (order.map (·.1)) b a := by
  obtain ⟨g, hg, h⟩ := order_ok h
  have ok := graphOk hg
  rcases h with ⟨hno, rfl⟩ | ⟨o, ho, rfl⟩
  · refine ⟨by simp, ?_⟩
    intro a b hab _
    cases hab with
    | target h => exact absurd h (hno _ _)
    | wayTo h => exact absurd h (hno _ _)
    | wayToTarget h => exact absurd h (hno _ _)
  · obtain ⟨h1, h2, h3, h4⟩ := fromLeaves_sound _ _ _ ho ok.nodup
    have e : ((o.filter (· ≠ ["#"])).map (fun n => (n, g.equals.lookup n))).map (·.1) = o.filter (· ≠ ["#"]) := by
      rw [List.map_map]
      conv_rhs => rw [← List.map_id (o.filter (· ≠ ["#"]))]
      rfl
    rw [e]
    refine ⟨h1.filter _, ?_⟩
    intro a b hab ha
    have hE := ok.needs a b hab
    have hends := ok.ends _ hE
    have hb := edge_before h1 h3 h4 ((h2 a).2 hends.1) ((h2 b).2 hends.2) hE
    refine before_filter hb ?_ (by simpa using ha)
    have hacy := acyclic_of_order h1 h3 h4 (fun e he => ⟨(h2 _).2 (ok.ends e he).1, (h2 _).2 (ok.ends e he).2⟩)
    have : b ≠ ["#"] := by
      intro hbr
      have hreach : Relation.TransGen (Needs v) ["#"] a ∨ b.length ≠ 1 := by
        cases hab with
        | target hr => exact .inl (needs_root hr ha)
        | @wayTo p r a s b hr hp hne =>
          right
          cases a with
          | nil => exact absurd rfl hne
          | cons x a => simp
        | @wayToTarget p r a s b hr hp hne =>
          right
          cases a with
          | nil => exact absurd rfl hne
          | cons x a => simp
      rcases hreach with hreach | hreach
      · exact hacy ["#"] (.tail (transGen_mono ok hreach) (by rw [hbr] at hE; exact hE))
      · rw [hbr] at hreach; simp at hreach
    simpa using this

/-- C14: an element replaced by an other one (`equals`) comes after it. -/
theorem C14_renamed_available (fuel : Nat) (v : V) (order l₁ l₂ : List (Path × Option Path)) (n r : Path)
    (h : deserializationOrder fuel v = .ok (some order)) (ho : order = l₁ ++ (n, some r) :: l₂) :
    r ∈ l₁.map (·.1) := by
  obtain ⟨g, hg, h⟩ := order_ok h
  have ok := graphOk hg
  rcases h with ⟨hno, rfl⟩ | ⟨o, hl, rfl⟩
  · simp at ho
  · obtain ⟨h1, h2, h3, h4⟩ := fromLeaves_sound _ _ _ hl ok.nodup
    have hmem : (n, some r) ∈ (o.filter (· ≠ ["#"])).map (fun n => (n, g.equals.lookup n)) := by rw [ho]; simp
    rw [List.mem_map] at hmem
    obtain ⟨n', hn', e⟩ := hmem
    simp only [Prod.mk.injEq] at e
    obtain ⟨rfl, e⟩ := e
    have hE := ok.renamed n' r e
    have hends := ok.ends _ hE
    have hacy := acyclic_of_order h1 h3 h4 (fun e he => ⟨(h2 _).2 (ok.ends e he).1, (h2 _).2 (ok.ends e he).2⟩)
    have hr : r ≠ ["#"] := by
      intro hrr
      have hn1 : n' ≠ ["#"] := by simpa using (List.mem_filter.1 hn').2
      obtain ⟨hn0, p, s, t, hra, hs⟩ := ok.renamedFrom n' r e
      have hroot := (fromRoot_iff s).1 (ok.fromRoot p s hra)
      obtain ⟨u, hu⟩ : ∃ u, n' = ["#"] ++ u := by
        cases n' with
        | nil => exact absurd rfl hn0
        | cons x u => rw [hs] at hroot; simp at hroot; exact ⟨u, by rw [hroot]; rfl⟩
      have hune : u ≠ [] := by rintro rfl; exact hn1 (by rw [hu]; rfl)
      have hT := needs_way (v := v) (q := splitSlash s) (fun a s' b => Needs.wayToTarget hra) u t (by rw [hs, hu]) hune
      rw [← hu] at hT
      exact hacy ["#"] (.tail (transGen_mono ok hT) (by rw [hrr] at hE; exact hE))
    have hb := before_filter (f := fun x => decide (x ≠ ["#"])) (edge_before h1 h3 h4 ((h2 _).2 hends.1)
      ((h2 _).2 hends.2) hE) (by simpa using hr) (List.mem_filter.1 hn').2
    have e2 : o.filter (· ≠ ["#"]) = l₁.map (·.1) ++ n' :: l₂.map (·.1) := by
      have := congrArg (List.map (·.1)) ho
      rw [List.map_map, List.map_append, List.map_cons] at this
      rw [← this]
      conv_lhs => rw [← List.map_id (o.filter (· ≠ ["#"]))]
      rfl
    rw [e2] at hb
    have hnd : (l₁.map (·.1) ++ n' :: l₂.map (·.1)).Nodup := by rw [← e2]; exact h1.filter _
    have hidx := hb.idx hnd
    have hrm : r ∈ l₁.map (·.1) ++ n' :: l₂.map (·.1) := hb.subset (by simp)
    rw [List.mem_append] at hrm
    rcases hrm with hrm | hrm
    · exact hrm
    · exfalso
      rw [List.nodup_append] at hnd
      have hn1 : n' ∉ l₁.map (·.1) := fun hc => hnd.2.2 n' hc n' (by simp) rfl
      have hr1 : r ∉ l₁.map (·.1) := fun hc => hnd.2.2 r hc r hrm rfl
      rw [List.idxOf_append_of_notMem hn1, List.idxOf_append_of_notMem hr1, List.idxOf_cons_self] at hidx
      omega

/-- C14: cyclic pointers are rejected: no order is returned. -/
theorem C14_cycle_rejected (fuel : Nat) (v : V) (a : Path) (hc : Relation.TransGen (Needs v) a a) :
    (∀ order, deserializationOrder fuel v ≠ .ok (some order)) ∧
    (∀ g, pointerGraph fuel v = .ok (some g) → deserializationOrder fuel v = .error .notImplemented) := by
  have key : ∀ order, deserializationOrder fuel v ≠ .ok (some order) := by
    intro order h
    obtain ⟨g, hg, h⟩ := order_ok h
    have ok := graphOk hg
    rcases h with ⟨hno, rfl⟩ | ⟨o, ho, rfl⟩
    · have : ∀ x y, ¬ Needs v x y := by
        intro x y h
        cases h with
        | target h => exact absurd h (hno _ _)
        | wayTo h => exact absurd h (hno _ _)
        | wayToTarget h => exact absurd h (hno _ _)
      cases hc with
      | single h => exact this _ _ h
      | tail _ h => exact this _ _ h
    · obtain ⟨h1, h2, h3, h4⟩ := fromLeaves_sound _ _ _ ho ok.nodup
      exact acyclic_of_order h1 h3 h4 (fun e he => ⟨(h2 _).2 (ok.ends e he).1, (h2 _).2 (ok.ends e he).2⟩) a
        (transGen_mono ok hc)
  refine ⟨key, ?_⟩
  intro g hg
  have hk := key
  unfold deserializationOrder at hk ⊢
  rw [hg] at hk ⊢
  simp only [bind, Except.bind] at hk ⊢
  split at hk
  · exact absurd rfl (hk [])
  · rename_i hr
    rw [if_neg hr]
    split at hk
    · rfl
    · exact absurd rfl (hk _)

/-- C14: pointers are rejected only when the pointer graph has a cycle; otherwise an order is returned. -/
theorem C14_acyclic_accepted (fuel : Nat) (v : V) (g : PGraph) (hg : pointerGraph fuel v = .ok (some g))
    (hc : ∀ a, ¬ Relation.TransGen (fun x y => (x, y) ∈ g.edges) a a) :
    ∃ order, deserializationOrder fuel v = .ok (some order) := by
  unfold deserializationOrder
  rw [hg]
  simp only [bind, Except.bind]
  split
  · exact ⟨_, rfl⟩
  · split
    · rename_i h
      obtain ⟨a, ha⟩ := fromLeaves_none _ _ (Nat.le_refl _) h
      exact absurd ha (hc a)
    · exact ⟨_, rfl⟩

/-- A value with a shared part, referred to twice, one reference being inside the other target. -/
def ptrDemo : V := .dict [
  (.str "a", .dict [(.str "$ref", .str "#/_references/1")]),
  (.str "b", .list [.dict [(.str "$ref", .str "#/_references/2")]]),
  (.str "_references", .dict [
    (.str "1", .dict [(.str "x", .dict [(.str "$ref", .str "#/_references/2")])]),
    (.str "2", .dict [(.str "y", .int 3)])])]

example : RefAt ["#"] ptrDemo ["#", "_references", "1", "x"] (.str "#/_references/2") := by
  have h : ∀ rs, findRefs ["#"] ptrDemo = .ok rs → (["#", "_references", "1", "x"], V.str "#/_references/2") ∈ rs →
      RefAt ["#"] ptrDemo ["#", "_references", "1", "x"] (.str "#/_references/2") :=
    fun rs h1 h2 => (mem_findRefs _ _ rs h1 _ _).1 h2
  exact h _ rfl (by simp [splitSlash, splitChars, keyStr, Path.key])

example : (deserializationOrder 10 ptrDemo).map (fun o => o.map (fun l => l.map (·.1))) =
    .ok (some [["#", "_references", "2"], ["#", "b", "0"], ["#", "_references", "1", "x"], ["#", "b"],
      ["#", "_references", "1"], ["#", "a"], ["#", "_references"]]) := by
  rfl

/-- Two parts referring to each other: a cycle, refused. -/
def ptrCycle : V := .dict [
  (.str "a", .dict [(.str "x", .dict [(.str "$ref", .str "#/b")])]),
  (.str "b", .dict [(.str "x", .dict [(.str "$ref", .str "#/a")])])]

example : Relation.TransGen (Needs ptrCycle) ["#", "a"] ["#", "a"] := by
  have h : ∀ p r, (p, r) ∈ [(["#", "a", "x"], V.str "#/b"), (["#", "b", "x"], V.str "#/a")] → RefAt ["#"] ptrCycle p r :=
    fun p r hm => (mem_findRefs ptrCycle ["#"] _ rfl p r).1 hm
  have ha := h _ _ List.mem_cons_self
  have hb := h _ _ (List.mem_cons_of_mem _ List.mem_cons_self)
  have e1 : splitSlash "#/b" = ["#", "b"] := rfl
  have e2 : splitSlash "#/a" = ["#", "a"] := rfl
  have n1 : Needs ptrCycle ["#", "a"] ["#", "a", "x"] := .wayTo (a := ["#", "a"]) ha rfl (by simp)
  have n2 : Needs ptrCycle ["#", "a", "x"] ["#", "b"] := e1 ▸ .target ha
  have n3 : Needs ptrCycle ["#", "b"] ["#", "b", "x"] := .wayTo (a := ["#", "b"]) hb rfl (by simp)
  have n4 : Needs ptrCycle ["#", "b", "x"] ["#", "a"] := e2 ▸ .target hb
  exact .tail (.tail (.tail (.single n1) n2) n3) n4
example : deserializationOrder 10 ptrCycle = .error .notImplemented := by rfl

/-! ### C15 -/

/-- The analysis of a dictionary holding the reference `'x'`, not rooted at `#`, never ends. -/
theorem C15_loop_violated : ∃ v : V, IsJson False v ∧ ∀ fuel, pointerGraph fuel v = .ok none := by
  refine ⟨.dict [(.str "a", .dict [(.str "$ref", .str "x")])], ?_, ?_⟩
  · refine .obj ?_
    simp only [List.mem_singleton, forall_eq]
    refine .obj ?_
    simp only [List.mem_singleton, forall_eq]
    exact .str
  · intro fuel
    have h1 : findRefs ["#"] (.dict [(.str "a", .dict [(.str "$ref", .str "x")])]) = .ok [(["#", "a"], .str "x")] := rfl
    have h2 : refPaths [(["#", "a"], V.str "x")] = .ok [(["#", "a"], ["x"])] := rfl
    rw [pointerGraph, h1]
    simp only [bind, Except.bind, h2]
    cases hx : extras fuel (lastWins [(["#", "a"], ["x"])]) [(["#", "a"], ["x"])] with
    | none => rfl
    | some r =>
      obtain ⟨c, hc⟩ := extras_some_iff.1 ⟨r, hx⟩ (["#", "a"], ["x"]) (by simp)
      have := climb_head (by simp) hc
      simp at this

/-- C15, when all the references start at the root `#`: the analysis ends.
Missing: other reference strings, for which the code loops for ever (`C15_loops`). -/
theorem C15_ends_partial (v : V) (h : ∀ p s, RefAt ["#"] v p (.str s) → FromRoot s) :
    Ends (fun fuel => pointerGraph fuel v) ∧ Ends (fun fuel => deserializationOrder fuel v) := by
  have key : Ends (fun fuel => pointerGraph fuel v) := by
    unfold Ends
    simp only [forall_eq']
    cases h1 : findRefs ["#"] v with
    | error e => exact ⟨0, fun n _ => by rw [pointerGraph, h1]; simp [bind, Except.bind]⟩
    | ok rs =>
      cases h2 : refPaths rs with
      | error e => exact ⟨0, fun n _ => by rw [pointerGraph, h1]; simp [bind, Except.bind, h2]⟩
      | ok refs =>
        have hb : ∃ N, ∀ e ∈ refs, e.2.length ≤ N := by
          clear h2
          induction refs with
          | nil => exact ⟨0, by simp⟩
          | cons e l ih =>
            obtain ⟨N, hN⟩ := ih
            refine ⟨max N e.2.length, ?_⟩
            intro x hx
            rw [List.mem_cons] at hx
            rcases hx with rfl | hx
            · omega
            · have := hN x hx; omega
        obtain ⟨N, hN⟩ := hb
        refine ⟨N, fun n hn => ?_⟩
        have hc : ∀ e ∈ refs, ∃ c, climb n e.2 = some c := by
          intro e he
          obtain ⟨s, hm, hs⟩ := ((refPaths_ok h2).2 e.1 e.2).1 he
          apply climb_rooted
          · rw [hs]; exact (fromRoot_iff s).1 (h _ s ((mem_findRefs v _ rs h1 _ _).1 hm))
          · exact Nat.le_trans (hN e he) hn
        obtain ⟨r, hr⟩ := (extras_some_iff (refs := lastWins refs)).2 hc
        rw [pointerGraph, h1]
        simp [bind, Except.bind, h2, hr]
  refine ⟨key, ?_⟩
  obtain ⟨N, hN⟩ := key
  refine ⟨N, ?_⟩
  rintro n hn _ rfl
  have := hN n hn _ rfl
  simp only [deserializationOrder]
  cases hg : pointerGraph n v with
  | error e => simp [bind, Except.bind]
  | ok og =>
    cases og with
    | none => exact absurd hg this
    | some g =>
      simp only [bind, Except.bind]
      split
      · simp
      · split <;> simp

mutual
theorem findRefs_json {F : Prop} : (v : V) → (p : Path) → IsJson F v → ∃ rs, findRefs p v = .ok rs
  | .dict d, p, h => by
    rw [findRefs]
    cases d.lookup (.str "$ref") with
    | some r => exact ⟨_, rfl⟩
    | none =>
      cases h with
      | obj h => exact findRefs_jsonD d p h
  | .list l, p, h => by
    cases h with
    | arr h => rw [findRefs]; exact findRefs_jsonL l p 0 h
  | .tuple l, p, h => by cases h
  | .cls _, p, h => by cases h
  | .other _, p, h => by cases h
  | .none, p, h | .bool _, p, h | .int _, p, h | .flt _, p, h | .measure _ _, p, h
  | .str _, p, h | .file _ _ _, p, h | .obj _ _, p, h => ⟨[], by rw [findRefs] <;> simp⟩
theorem findRefs_jsonL {F : Prop} : (l : List V) → (p : Path) → (i : Nat) → (∀ x ∈ l, IsJson F x) →
    ∃ rs, findRefsL p i l = .ok rs
  | [], p, i, h => ⟨[], rfl⟩
  | v :: vs, p, i, h => by
    obtain ⟨r, hr⟩ := findRefs_json v (p.idx i) (h v (by simp))
    obtain ⟨rs, hrs⟩ := findRefs_jsonL vs p (i + 1) (fun x hx => h x (by simp [hx]))
    exact ⟨r ++ rs, by rw [findRefsL, hr]; simp [bind, Except.bind, hrs]⟩
theorem findRefs_jsonD {F : Prop} : (d : List (Key × V)) → (p : Path) → (∀ kv ∈ d, IsJson F kv.2) →
    ∃ rs, findRefsD p d = .ok rs
  | [], p, h => ⟨[], rfl⟩
  | (k, v) :: kvs, p, h => by
    obtain ⟨rs, hrs⟩ := findRefs_jsonD kvs p (fun x hx => h x (by simp [hx]))
    rw [findRefsD]
    split
    · exact ⟨rs, hrs⟩
    · obtain ⟨r, hr⟩ := findRefs_json v (p.key k) (h (k, v) (by simp))
      exact ⟨r ++ rs, by rw [hr]; simp [bind, Except.bind, hrs]⟩
end

/-- C15, exact condition on JSON data whose references are strings: the analysis ends if and only if every reference
starts at the root `#`. -/
theorem C15_ends_iff (F : Prop) (v : V) (hj : IsJson F v) (hs : ∀ p r, RefAt ["#"] v p r → ∃ s, r = .str s) :
    Ends (fun fuel => pointerGraph fuel v) ↔ ∀ p s, RefAt ["#"] v p (.str s) → FromRoot s := by
  refine ⟨?_, fun h => (C15_ends_partial v h).1⟩
  rintro ⟨N, hN⟩ p s hr
  have h1 := hN N (Nat.le_refl _) _ rfl
  obtain ⟨rs, hrs⟩ := findRefs_json v ["#"] hj
  have hm := mem_findRefs v ["#"] rs hrs
  obtain ⟨refs, hrefs⟩ := refPaths_total (fun p r h => hs p r ((hm p r).1 h))
  have hg : ∃ g, pointerGraph N v = .ok (some g) := by
    simp only [pointerGraph, hrs, bind, Except.bind, hrefs] at h1 ⊢
    cases hx : extras N (lastWins refs) refs with
    | none => rw [hx] at h1; exact absurd rfl h1
    | some r => exact ⟨_, rfl⟩
  obtain ⟨g, hg⟩ := hg
  exact (graphOk hg).fromRoot p s hr

example : IsJson False ptrCycle := by
  refine .obj ?_
  simp only [List.mem_cons, List.not_mem_nil, or_false, forall_eq_or_imp, forall_eq]
  refine ⟨.obj ?_, .obj ?_⟩ <;> simp only [List.mem_singleton, forall_eq] <;> refine .obj ?_ <;>
    simp only [List.mem_singleton, forall_eq] <;> exact .str
example : ∀ p s, RefAt ["#"] ptrCycle p (.str s) → FromRoot s := by
  intro p s h
  have := (mem_findRefs ptrCycle ["#"] [(["#", "a", "x"], V.str "#/b"), (["#", "b", "x"], V.str "#/a")] rfl _ _).2 h
  simp only [List.mem_cons, Prod.mk.injEq, V.str.injEq, List.not_mem_nil, or_false] at this
  rcases this with ⟨_, rfl⟩ | ⟨_, rfl⟩
  · exact .inr ⟨['b'], by decide⟩
  · exact .inr ⟨['a'], by decide⟩

end DC
