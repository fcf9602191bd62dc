import Verif.Values.PointerStats
/- Property C168: statistics on the pointers of an object. -/
namespace DC

/-! ### Specification -/

/-- The class at a path, if any. -/
def classOf? (classAt : Path → Except PyErr String) (p : Path) : Option String := (classAt p).toOption

/-- The uses of a class: the edges, not from the root, to a value of this class. -/
def usesOf (classAt : Path → Except PyErr String) (edges : List (Path × Path)) (c : String) : Nat :=
  edges.countP fun e => decide (e.1 ≠ ["#"] ∧ classOf? classAt e.2 = some c)

/-- The uses of a class, or of values without class, by values of another class. -/
def usesBy (classAt : Path → Except PyErr String) (edges : List (Path × Path)) (c1 : String) (c2 : Option String) : Nat :=
  edges.countP fun e => decide (e.1 ≠ ["#"] ∧ classOf? classAt e.1 = some c1 ∧ classOf? classAt e.2 = c2 ∧ c2 ≠ some c1)

/-- A number that is absent when there is nothing to count. -/
def counted (k : Nat) : Option Nat := if k = 0 then none else some k

/-! ### Proofs -/

/-- What the classes kept are. -/
def MemoOk (classAt : Path → Except PyErr String) (memo : List (Path × String)) : Prop :=
  ∀ p c, memo.lookup p = some c → classAt p = .ok c

theorem classAndMemo_spec {classAt : Path → Except PyErr String} {memo : List (Path × String)} (hm : MemoOk classAt memo) {p : Path}
    {r : Option String × List (Path × String)} (h : classAndMemo classAt memo p = .ok r) :
    r.1 = classOf? classAt p ∧ MemoOk classAt r.2 := by
  unfold classAndMemo at h
  split at h
  · rename_i c hc
    simp only [Except.ok.injEq] at h
    subst h
    exact ⟨by simp [classOf?, hm p c hc, Except.toOption], hm⟩
  · split at h
    · rename_i c hc
      simp only [Except.ok.injEq] at h
      subst h
      refine ⟨by simp [classOf?, hc, Except.toOption], fun q c' hq => ?_⟩
      rw [Dict.lookup_set] at hq
      split at hq
      · rename_i hqp
        simp only [Option.some.injEq] at hq
        rw [hqp, ← hq]; exact hc
      · exact hm q c' hq
    · rename_i hc
      simp only [Except.ok.injEq] at h
      subst h
      exact ⟨by simp [classOf?, hc, Except.toOption], hm⟩
    · simp at h

/-- The counters hold these numbers. -/
def Holds (s : PStats) (n : String → Nat) (u : String → Option String → Nat) : Prop :=
  (∀ c, s.number.lookup c = counted (n c)) ∧ ∀ c1 c2, ((s.composed.lookup c2).bind fun d => d.lookup c1) = counted (u c1 c2)

theorem counted_succ (k : Nat) : counted (k + 1) = some (k + 1) := by simp [counted]

theorem countUse_spec {composed : List (Option String × List (String × Nat))} {u : String → Option String → Nat} {c1 c2 : Option String}
    (hu : ∀ a b, ((composed.lookup b).bind fun d => d.lookup a) = counted (u a b)) {r : List (Option String × List (String × Nat))}
    (h : countUse composed c1 c2 = .ok r) (a : String) (b : Option String) :
    ((r.lookup b).bind fun d => d.lookup a) = counted (u a b + if c1 = some a ∧ c2 = b ∧ b ≠ some a then 1 else 0) := by
  unfold countUse at h
  split at h
  · rename_i hc
    simp only [Except.ok.injEq] at h
    subst h
    rw [if_neg (fun ⟨h1, h2, h3⟩ => h3 (by rw [← h2, ← hc, h1])), Nat.add_zero]
    exact hu a b
  · rename_i hc
    cases c1 with
    | none => simp at h
    | some u1 =>
      simp only at h
      have key : ∀ k, ((composed.lookup c2).getD []).lookup u1 = counted k → r = Dict.set composed c2 (Dict.set ((composed.lookup c2).getD []) u1 (k + 1)) := by
        intro k hk
        rw [hk] at h
        unfold counted at h
        split at h
        · rename_i hn
          split at hn
          · rename_i h0
            simp only [Except.ok.injEq] at h
            rw [← h, h0]
          · simp at hn
        · rename_i j hn
          split at hn
          · simp at hn
          · simp only [Option.some.injEq] at hn
            simp only [Except.ok.injEq] at h
            rw [← h, hn]
      have hl : ∀ x, ((composed.lookup c2).getD []).lookup x = counted (u x c2) := by
        intro x
        rw [← hu x c2]
        cases composed.lookup c2 <;> rfl
      rw [key _ (hl u1), Dict.lookup_set]
      by_cases hb : b = c2
      · subst hb
        simp only [if_true, Option.bind_some, Dict.lookup_set]
        by_cases ha : a = u1
        · subst ha
          rw [if_pos rfl, if_pos (by simpa using fun h => hc h.symm), counted_succ]
        · rw [if_neg ha, if_neg (fun h => ha (Option.some.inj h.1).symm), Nat.add_zero, hl]
      · rw [if_neg hb, if_neg (fun h => hb h.2.1.symm), Nat.add_zero, hu]

theorem countEdge_spec {classAt : Path → Except PyErr String} {s s' : PStats} {e : Path × Path} {n : String → Nat}
    {u : String → Option String → Nat} (hm : MemoOk classAt s.fromPath) (hs : Holds s n u) (h : countEdge classAt s e = .ok s') :
    MemoOk classAt s'.fromPath ∧
    Holds s' (fun c => n c + usesOf classAt [e] c) (fun c1 c2 => u c1 c2 + usesBy classAt [e] c1 c2) := by
  unfold countEdge at h
  split at h
  · rename_i hr
    simp only [Except.ok.injEq] at h
    subst h
    refine ⟨hm, ?_⟩
    simpa [usesOf, usesBy, hr] using hs
  · rename_i hr
    split at h
    · simp at h
    · rename_i c2 memo h2
      split at h
      · simp at h
      · rename_i c1 memo' h1
        split at h
        · simp at h
        · rename_i composed hcu
          simp only [Except.ok.injEq] at h
          subst h
          obtain ⟨e2, m2⟩ := classAndMemo_spec hm h2
          obtain ⟨e1, m1⟩ := classAndMemo_spec m2 h1
          simp only at e1 e2
          refine ⟨m1, fun c => ?_, fun a b => ?_⟩
          · simp only [usesOf, List.countP_cons, List.countP_nil, Nat.zero_add, ← e2, hr, ne_eq, not_false_eq_true, true_and, decide_eq_true_eq]
            cases c2 with
            | none => simpa [countClass] using hs.1 c
            | some x =>
              simp only [countClass, Dict.lookup_set, Option.some.injEq]
              by_cases hx : c = x
              · subst hx
                rw [if_pos rfl, if_pos rfl, counted_succ, hs.1, counted]
                split <;> simp_all
              · rw [if_neg hx, if_neg (fun h => hx h.symm), Nat.add_zero]
                exact hs.1 c
          · simp only [usesBy, List.countP_cons, List.countP_nil, Nat.zero_add, ← e2, ← e1, hr, ne_eq, not_false_eq_true, true_and,
              decide_eq_true_eq]
            exact countUse_spec hs.2 hcu a b

theorem countEdges_spec {classAt : Path → Except PyErr String} : ∀ (es : List (Path × Path)) {s s' : PStats} {n : String → Nat}
    {u : String → Option String → Nat}, MemoOk classAt s.fromPath → Holds s n u → countEdges classAt s es = .ok s' →
    Holds s' (fun c => n c + usesOf classAt es c) (fun c1 c2 => u c1 c2 + usesBy classAt es c1 c2)
  | [], s, s', n, u, _, hs, h => by
    simp only [countEdges, Except.ok.injEq] at h
    subst h
    simpa [usesOf, usesBy] using hs
  | e :: es, s, s', n, u, hm, hs, h => by
    simp only [countEdges] at h
    split at h
    · simp at h
    · rename_i s1 h1
      obtain ⟨hm1, hs1⟩ := countEdge_spec hm hs h1
      have := countEdges_spec es hm1 hs1 h
      have e1 : ∀ c, usesOf classAt (e :: es) c = usesOf classAt [e] c + usesOf classAt es c := fun c => by
        simp only [usesOf, List.countP_cons, List.countP_nil]; omega
      have e2 : ∀ a b, usesBy classAt (e :: es) a b = usesBy classAt [e] a b + usesBy classAt es a b := fun a b => by
        simp only [usesBy, List.countP_cons, List.countP_nil]; omega
      simp only [e1, e2, ← Nat.add_assoc]
      exact this

/-- The numbers returned: for each class the edges, other than from the root, to its values, and for each two classes those from a value of one
to a value of the other.  A class without uses is in no dictionary. -/
theorem C168_numbers {fuel : Nat} {classAt : Path → Except PyErr String} {v : V} {g : PGraph} {s : PStats} (hg : pointerGraph fuel v = .ok (some g))
    (h : pointersAnalysis fuel classAt v = .ok (some s)) :
    (∀ c, s.number.lookup c = counted (usesOf classAt g.edges.dedup c)) ∧
    ∀ c1 c2, ((s.composed.lookup c2).bind fun d => d.lookup c1) = counted (usesBy classAt g.edges.dedup c1 c2) := by
  simp only [pointersAnalysis, hg] at h
  split at h
  · simp at h
  · rename_i s' hs
    simp only [Except.ok.injEq, Option.some.injEq] at h
    subst h
    have := countEdges_spec (n := fun _ => 0) (u := fun _ _ => 0) _ (by intro p c h; simp at h) ⟨by intro c; rfl, by intro a b; rfl⟩ hs
    simp only [Nat.zero_add] at this
    exact this

theorem countEdges_total {classAt : Path → Except PyErr String} : ∀ (es : List (Path × Path)) (s : PStats), MemoOk classAt s.fromPath →
    (∀ e ∈ es, e.1 ≠ ["#"] → (∃ c, classAt e.1 = .ok c) ∧ ((∃ c, classAt e.2 = .ok c) ∨ classAt e.2 = .error .attributeError)) →
    ∃ s', countEdges classAt s es = .ok s'
  | [], s, _, _ => ⟨s, rfl⟩
  | e :: es, s, hm, he => by
    have h1 : ∃ s1, countEdge classAt s e = .ok s1 := by
      unfold countEdge
      split
      · exact ⟨_, rfl⟩
      · rename_i hr
        obtain ⟨⟨c1, hc1⟩, hc2⟩ := he e List.mem_cons_self hr
        have h2 : ∃ r, classAndMemo classAt s.fromPath e.2 = .ok r := by
          unfold classAndMemo
          split
          · exact ⟨_, rfl⟩
          · obtain ⟨c2, hc2⟩ | hc2 := hc2 <;> rw [hc2] <;> exact ⟨_, rfl⟩
        obtain ⟨⟨c2, memo⟩, h2⟩ := h2
        have h3 : ∃ r, classAndMemo classAt memo e.1 = .ok r := by
          unfold classAndMemo
          split
          · exact ⟨_, rfl⟩
          · rw [hc1]; exact ⟨_, rfl⟩
        obtain ⟨⟨c1', memo'⟩, h3⟩ := h3
        have hx : c1' = some c1 := by
          have := (classAndMemo_spec (classAndMemo_spec hm h2).2 h3).1
          simpa [classOf?, hc1, Except.toOption] using this
        subst hx
        have h4 : ∃ r, countUse s.composed (some c1) c2 = .ok r := by
          unfold countUse
          split
          · exact ⟨_, rfl⟩
          · simp only
            split <;> exact ⟨_, rfl⟩
        obtain ⟨r, h4⟩ := h4
        simp only [h2, h3, h4]
        exact ⟨_, rfl⟩
    obtain ⟨s1, h1⟩ := h1
    simp only [countEdges, h1]
    refine countEdges_total es s1 ?_ fun e' he' => he e' (List.mem_cons_of_mem _ he')
    clear he
    unfold countEdge at h1
    split at h1
    · simp only [Except.ok.injEq] at h1; subst h1; exact hm
    · split at h1
      · simp at h1
      · rename_i h2
        split at h1
        · simp at h1
        · rename_i h3
          split at h1
          · simp at h1
          · simp only [Except.ok.injEq] at h1
            subst h1
            exact (classAndMemo_spec (classAndMemo_spec hm h2).2 h3).2

/-- The analysis succeeds on every object whose pointers can be followed, when the values that hold others have a class.
Missing: attributes of the dictionary that are none of the object (`C168_succeeds_violated`). -/
theorem C168_succeeds_partial {fuel : Nat} {classAt : Path → Except PyErr String} {v : V} {g : PGraph} (hg : pointerGraph fuel v = .ok (some g))
    (hc : ∀ e ∈ g.edges, e.1 ≠ ["#"] → (∃ c, classAt e.1 = .ok c) ∧ ((∃ c, classAt e.2 = .ok c) ∨ classAt e.2 = .error .attributeError)) :
    ∃ s, pointersAnalysis fuel classAt v = .ok (some s) := by
  obtain ⟨s, hs⟩ := countEdges_total (classAt := classAt) g.edges.dedup ⟨[], [], []⟩ (by intro p c h; simp at h)
    fun e he => hc e (List.mem_dedup.1 he)
  exact ⟨s, by simp only [pointersAnalysis, hg, hs]⟩

/-- The dictionary of an object whose second attribute refers to a value in the first one. -/
def shared : V := .dict [(.str "parts", .list [.dict [(.str "axle", .dict [(.str "length", .int 3)])]]),
  (.str "spare", .dict [(.str "$ref", .str "#/parts/0/axle")])]

/-- The classes of its values. -/
def sharedClass (p : Path) : Except PyErr String :=
  if p = ["#", "parts"] then .ok "builtins.list"
  else if p = ["#", "parts", "0"] then .ok "cars.Wheel"
  else if p = ["#", "parts", "0", "axle"] ∨ p = ["#", "spare"] then .ok "cars.Axle"
  else .error .attributeError

/-- An attribute of the dictionary that is none of the object, and holds others, is a KeyError. -/
theorem C168_succeeds_violated :
    (pointersAnalysis 10 (fun p => if p = ["#", "parts"] then .error .attributeError else sharedClass p) shared).toOption.isNone = true ∧
    (pointersAnalysis 10 sharedClass shared).toOption.isSome = true := by decide +kernel

/-- The numbers of an analysis. -/
def numbersOf : Except PyErr (Option PStats) → List (String × Nat) × List (Option String × List (String × Nat))
  | .ok (some s) => (s.number, s.composed)
  | _ => ([], [])

/-- Not vacuous: the axle is used by the wheel and by the spare, of its own class, and the wheel by the list. -/
example : (∃ g, pointerGraph 10 shared = .ok (some g)) ∧
    numbersOf (pointersAnalysis 10 sharedClass shared) = ([("cars.Wheel", 1), ("cars.Axle", 2)],
      [(some "cars.Wheel", [("builtins.list", 1)]), (some "cars.Axle", [("cars.Wheel", 1)])]) := by
  refine ⟨⟨_, rfl⟩, by decide +kernel⟩

end DC
