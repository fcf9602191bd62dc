import Verif.Workflow.Callback
import Verif.Workflow.Props
import Mathlib.Algebra.Order.Field.Basic
import Mathlib.Tactic.Positivity
import Mathlib.Tactic.Linarith
/- Properties C152 and C153: what the callback of a run is told; running again a completed run. -/
namespace DC.Wkf

variable {α : Type} {W : Workflow α}

/-! ### Specification -/

/-- What is told about the `k`-th block evaluated, among the `n` blocks to evaluate of the `N` blocks: the values which its
method tells, counted from the fraction of the blocks evaluated, a value which is too high, and twice the new fraction. -/
def toldOf (n N k : Nat) (own : List Rat) : List Rat :=
  own.map (fun x => (k : Rat) / n + x / N) ++
    [((k + 1 : Nat) : Rat) / n + ((k + 1 : Nat) : Rat) / n / N, ((k + 1 : Nat) : Rat) / n, ((k + 1 : Nat) : Rat) / n]

/-- What is told about the blocks from the `k`-th on. -/
def toldFrom (n N : Nat) : Nat → List (List Rat) → List Rat
  | _, [] => []
  | k, own :: rest => toldOf n N k own ++ toldFrom n N (k + 1) rest

theorem toldFrom_append (n N k : Nat) (a b : List (List Rat)) :
    toldFrom n N k (a ++ b) = toldFrom n N k a ++ toldFrom n N (k + a.length) b := by
  induction a generalizing k with
  | nil => simp [toldFrom]
  | cons x a ih => simp [toldFrom, ih, Nat.add_assoc, Nat.add_comm 1]

/-- What the method of the `k`-th block evaluated tells, given the values of its inputs. -/
def OwnTold (W : Workflow α) (V : Nat → Option α) (tells : Nat → List α → List Rat) (order : List Nat) (owns : List (List Rat)) : Prop :=
  owns.length = order.length ∧ ∀ (k : Nat) (own : List Rat), owns[k]? = some own → ∃ i b xs, order[k]? = some i ∧ W.blocks[i]? = some b ∧
    xs.length = b.inputs.length ∧ (∀ vx ∈ b.inputs.zip xs, Den W V vx.1 vx.2) ∧ own = tells i xs

/-! ### The runs with and without trace -/

theorem tellOwn_ok {cb : Rat → Except PyErr Unit} (hcb : ∀ x, cb x = .ok ()) (l : List Rat) : tellOwn cb l = .ok l := by
  induction l with
  | nil => rfl
  | cons x l ih => simp [tellOwn, hcb, ih, Except.map]

theorem blockEvaluationT_erase {rt : List Nat} {tells : Nat → List α → List Rat} {cb : Rat → Except PyErr Unit}
    (hcb : ∀ x, cb x = .ok ()) (s : St α) (i : Nat) :
    (blockEvaluationT W rt tells cb s i).map (fun r => (r.1, r.2.1)) = blockEvaluation W rt s i := by
  unfold blockEvaluationT blockEvaluation
  cases hb : W.blocks[i]? with
  | none => rfl
  | some b =>
    simp only
    cases activateInputs W false s with
    | error e => rfl
    | ok s =>
      simp only [bind, Except.bind]
      by_cases ha : activable W rt s i = true
      · simp only [ha, if_true]
        cases hr : readInputs W b.inputs s with
        | error e => simp [evaluateBlock, hb, hr, bind, Except.bind, Except.map]
        | ok p =>
          obtain ⟨xs, s1⟩ := p
          simp only [tellOwn_ok hcb]
          cases evaluateBlock W s i with
          | error e => rfl
          | ok q => simp [hcb, Except.map]
      · simp [ha, Except.map]

theorem evalAllT_erase {rt : List Nat} {tells : Nat → List α → List Rat} {cb : Rat → Except PyErr Unit}
    (hcb : ∀ x, cb x = .ok ()) (l : List Nat) (s : St α) : (evalAllT W rt tells cb l s).map Prod.fst = evalAll W rt l s := by
  induction l generalizing s with
  | nil => rfl
  | cons i l ih =>
    rw [evalAllT, evalAll, ← blockEvaluationT_erase (tells := tells) hcb]
    cases blockEvaluationT W rt tells cb s i with
    | error e => rfl
    | ok r =>
      obtain ⟨s1, b, t⟩ := r
      simp only [bind, Except.bind, Except.map, hcb]
      rw [← ih]
      cases evalAllT W rt tells cb l s1 <;> rfl

theorem continueLoopT_erase {rt : List Nat} {tells : Nat → List α → List Rat} {cb : Rat → Except PyErr Unit}
    (hcb : ∀ x, cb x = .ok ()) (n : Nat) (s : St α) :
    (continueLoopT W rt tells cb n s).map Prod.fst = continueLoop W rt n s := by
  induction n generalizing s with
  | zero => rfl
  | succ n ih =>
    rw [continueLoopT, continueLoop]
    cases hb : rt.filter (activable W rt s) with
    | nil => rfl
    | cons i l =>
      simp only
      rw [← evalAllT_erase (tells := tells) hcb]
      cases evalAllT W rt tells cb (i :: l) s with
      | error e => rfl
      | ok r =>
        obtain ⟨s1, t⟩ := r
        simp only [bind, Except.bind, Except.map]
        rw [← ih]
        cases continueLoopT W rt tells cb n s1 <;> rfl

theorem runT_erase {tells : Nat → List α → List Rat} {cb : Rat → Except PyErr Unit}
    (hcb : ∀ x, cb x = .ok ()) (so : SetOrder) (user : List (Nat × α)) :
    (runT W so tells cb user).map Prod.fst = run W so user := by
  unfold runT run continueRun
  cases inputValues W user with
  | error e => rfl
  | ok vals =>
    simp only [bind, Except.bind]
    cases startRun W vals with
    | error e => rfl
    | ok s0 =>
      simp only
      cases activateInputs W true s0 with
      | error e => rfl
      | ok s1 =>
        simp only
        cases runtimeBlocks W so with
        | error e => rfl
        | ok rt =>
          simp only
          cases activateInputs W false s1 with
          | error e => rfl
          | ok s2 =>
            simp only
            rw [← continueLoopT_erase (tells := tells) hcb]
            cases continueLoopT W rt tells cb (W.blocks.length + 1) s2 with
            | error e => rfl
            | ok r =>
              obtain ⟨r, t⟩ := r
              cases r with
              | none => rfl
              | some s3 =>
                simp only [Except.map]
                cases toWorkflowRun rt s3 <;> rfl

theorem map_ok {β γ : Type} {x : Except PyErr β} {f : β → γ} {c : γ} (h : x.map f = .ok c) : ∃ b, x = .ok b ∧ f b = c := by
  cases x with
  | error e => simp [Except.map] at h
  | ok b => exact ⟨b, rfl, by simpa [Except.map] using h⟩

/-! ### What is told -/

theorem progress_once {rt : List Nat} (hn : rt.Nodup) {s : St α} (h : Once rt s) :
    progress rt s = (s.evaluated.length : Rat) / rt.length := by
  have : (rt.filter s.actBlock).length = s.evaluated.length := by
    apply List.Perm.length_eq
    rw [List.perm_ext_iff_of_nodup (hn.filter _) h.nodup]
    intro i
    rw [List.mem_filter, h.act]
    exact ⟨fun h => h.2, fun hi => ⟨h.sub i hi, hi⟩⟩
  unfold progress
  rw [this]

theorem blockEvaluationT_told (hw : WellFormed W) {V : Nat → Option α} {rt : List Nat} (hn : rt.Nodup)
    {tells : Nat → List α → List Rat} {cb : Rat → Except PyErr Unit} (hcb : ∀ x, cb x = .ok ()) {s s' : St α} {i : Nat} {r : Bool}
    {t : List Rat} (hi : i ∈ rt) (ha : activable W rt s i = true) (ho : Once rt s) (hg : Good W V s)
    (h : blockEvaluationT W rt tells cb s i = .ok (s', r, t)) :
    Once rt s' ∧ Good W V s' ∧ s'.evaluated = s.evaluated ++ [i] ∧ (∀ j, activable W rt s j = true → j ≠ i → activable W rt s' j = true) ∧
    ∃ own, OwnTold W V tells [i] [own] ∧ t ++ [progress rt s'] = toldOf rt.length W.blocks.length s.evaluated.length own := by
  have he := blockEvaluationT_erase (W := W) (rt := rt) (tells := tells) hcb s i
  rw [h] at he
  have he' : blockEvaluation W rt s i = .ok (s', r) := he.symm
  have o' := Once.block s s' i r hi ho he'
  have g' := Good.blockEvaluation hw hg he'
  obtain ⟨s1, h1, hf, ⟨-, -, hna⟩ | ⟨rfl, ha1, ys, hev, hs⟩⟩ := blockEvaluation_ok he'
  · rw [hf.activable ha] at hna
    simp at hna
  obtain ⟨b, hb, hby⟩ := activable_byInputs ha1
  have g1 := (hg.activateInputs hw h1).1
  obtain ⟨xs, s2, hr, -, hf2, hlen, hden⟩ := g1.readInputs hw (List.mem_of_getElem? hb) b.inputs (fun _ hv => hv) s1 (by
    simpa [byInputs, List.all_eq_true] using hby)
  refine ⟨o', g', by rw [hs.ev, hf.ev], ?_, tells i xs, ⟨rfl, ?_⟩, ?_⟩
  · intro j hj hji
    have hj1 := hf.activable hj
    obtain ⟨c, hc, hcy⟩ := activable_byInputs hj1
    unfold activable at hj1 ⊢
    rw [hc] at hj1 ⊢
    simp only [byInputs, Bool.and_eq_true, List.all_eq_true, Bool.or_eq_true, Bool.not_eq_true'] at hj1 ⊢
    refine ⟨fun v hv => hs.var v (hj1.1 v hv), hj1.2.imp (fun hk => ?_) id⟩
    by_contra hc
    simp only [Bool.not_eq_false] at hc
    rcases (hs.blk j).1 hc with h | h
    · rw [h] at hk; simp at hk
    · exact hji h
  · intro k own hk
    cases k with
    | zero =>
      simp only [List.getElem?_cons_zero, Option.some.injEq] at hk
      exact ⟨i, b, xs, rfl, hb, hlen, hden, hk.symm⟩
    | succ k => simp at hk
  · have p' : progress rt s' = ((s.evaluated.length + 1 : Nat) : Rat) / rt.length := by
      rw [progress_once hn o', hs.ev, hf.ev]
      simp
    have p2 : progress rt s2 = (s.evaluated.length : Rat) / rt.length := by
      rw [progress_once hn ((ho.frame hf).frame hf2), hf2.ev, hf.ev]
    unfold blockEvaluationT at h
    rw [hb] at h
    simp only [h1, bind, Except.bind, ha1, if_true, hr, tellOwn_ok hcb, hev, hcb, Except.ok.injEq, Prod.mk.injEq, true_and] at h
    rw [← h]
    simp only [toldOf, p', p2, List.append_assoc, List.cons_append, List.nil_append]

theorem evalAllT_told (hw : WellFormed W) {V : Nat → Option α} {rt : List Nat} (hn : rt.Nodup)
    {tells : Nat → List α → List Rat} {cb : Rat → Except PyErr Unit} (hcb : ∀ x, cb x = .ok ()) (l : List Nat) (hl : l.Nodup)
    (s s' : St α) (t : List Rat) (hi : ∀ i ∈ l, i ∈ rt ∧ activable W rt s i = true) (ho : Once rt s) (hg : Good W V s)
    (h : evalAllT W rt tells cb l s = .ok (s', t)) :
    Once rt s' ∧ Good W V s' ∧ s'.evaluated = s.evaluated ++ l ∧
    ∃ owns, OwnTold W V tells l owns ∧ t = toldFrom rt.length W.blocks.length s.evaluated.length owns := by
  induction l generalizing s t with
  | nil =>
    simp only [evalAllT, Except.ok.injEq, Prod.mk.injEq] at h
    obtain ⟨rfl, rfl⟩ := h
    exact ⟨ho, hg, by simp, [], ⟨rfl, by simp⟩, rfl⟩
  | cons i l ih =>
    rw [evalAllT, bind_ok] at h
    obtain ⟨⟨s1, r, t1⟩, h1, h⟩ := h
    simp only [hcb] at h
    simp only [bind, Except.bind] at h
    cases h2 : evalAllT W rt tells cb l s1 with
    | error e => rw [h2] at h; simp at h
    | ok q =>
      obtain ⟨s2, t2⟩ := q
      rw [h2] at h
      simp only [Except.ok.injEq, Prod.mk.injEq] at h
      obtain ⟨rfl, rfl⟩ := h
      obtain ⟨o1, g1, e1, a1, own, ⟨-, w1⟩, rfl'⟩ :=
        blockEvaluationT_told hw hn hcb (hi i (.head _)).1 (hi i (.head _)).2 ho hg h1
      rw [List.nodup_cons] at hl
      obtain ⟨o2, g2, e2, owns, ⟨wl, w2⟩, ht⟩ := ih hl.2 s1 t2 (fun j hj => ⟨(hi j (.tail _ hj)).1, a1 j (hi j (.tail _ hj)).2
        (fun hc => hl.1 (hc ▸ hj))⟩) o1 g1 h2
      refine ⟨o2, g2, by rw [e2, e1]; simp, own :: owns, ⟨by simp [wl], ?_⟩, ?_⟩
      · intro k w hk
        cases k with
        | zero =>
          simp only [List.getElem?_cons_zero, Option.some.injEq] at hk
          subst hk
          exact w1 0 own rfl
        | succ k => exact w2 k w (by simpa using hk)
      · rw [toldFrom, ← rfl', ht, e1]
        simp

theorem OwnTold.append {V : Nat → Option α} {tells : Nat → List α → List Rat} {l l' : List Nat} {o o' : List (List Rat)}
    (h : OwnTold W V tells l o) (h' : OwnTold W V tells l' o') : OwnTold W V tells (l ++ l') (o ++ o') := by
  refine ⟨by simp [h.1, h'.1], fun k own hk => ?_⟩
  by_cases hlt : k < o.length
  · rw [List.getElem?_append_left hlt] at hk
    rw [List.getElem?_append_left (by rw [← h.1]; exact hlt)]
    exact h.2 k own hk
  · rw [List.getElem?_append_right (by omega)] at hk
    rw [List.getElem?_append_right (by rw [← h.1]; omega), ← h.1]
    exact h'.2 _ own hk

theorem continueLoopT_told (hw : WellFormed W) {V : Nat → Option α} {rt : List Nat} (hn : rt.Nodup)
    {tells : Nat → List α → List Rat} {cb : Rat → Except PyErr Unit} (hcb : ∀ x, cb x = .ok ()) (n : Nat)
    (s s' : St α) (t : List Rat) (ho : Once rt s) (hg : Good W V s)
    (h : continueLoopT W rt tells cb n s = .ok (some s', t)) :
    Once rt s' ∧ ∃ l owns, s'.evaluated = s.evaluated ++ l ∧ OwnTold W V tells l owns ∧
      t = toldFrom rt.length W.blocks.length s.evaluated.length owns := by
  induction n generalizing s t with
  | zero => simp [continueLoopT] at h
  | succ n ih =>
    rw [continueLoopT] at h
    cases hb : rt.filter (activable W rt s) with
    | nil =>
      rw [hb] at h
      simp only [Except.ok.injEq, Prod.mk.injEq, Option.some.injEq] at h
      obtain ⟨rfl, rfl⟩ := h
      exact ⟨ho, [], [], by simp, ⟨rfl, by simp⟩, rfl⟩
    | cons i l =>
      rw [hb] at h
      simp only at h
      rw [← hb, bind_ok] at h
      obtain ⟨⟨s1, t1⟩, h1, h⟩ := h
      simp only [bind, Except.bind] at h
      cases h2 : continueLoopT W rt tells cb n s1 with
      | error e => rw [h2] at h; simp at h
      | ok q =>
        obtain ⟨r2, t2⟩ := q
        rw [h2] at h
        simp only [Except.ok.injEq, Prod.mk.injEq] at h
        obtain ⟨rfl, rfl⟩ := h
        obtain ⟨o1, g1, e1, owns1, w1, rfl⟩ := evalAllT_told hw hn hcb _ (hn.filter _) s s1 t1
          (fun i hi => List.mem_filter.1 hi) ho hg h1
        obtain ⟨o2, l2, owns2, e2, w2, rfl⟩ := ih s1 t2 o1 g1 h2
        refine ⟨o2, _, owns1 ++ owns2, by rw [e2, e1, List.append_assoc], w1.append w2, ?_⟩
        rw [toldFrom_append, e1, List.length_append, w1.1]

/-- **C152** The callback of a run is told, after each block, the fraction of the blocks evaluated, and in between what the method of
the block tells, counted from the fraction reached: the values told are exactly these, in the order in which the
blocks are evaluated.
Missing: once a block is evaluated, a value which is too high is told first (`C152_violated`). -/
theorem C152_partial (hw : WellFormed W) (hl : LocksOk W) (so : SetOrder) {o : Nat} (hout : OutputOf W o)
    {tells : Nat → List α → List Rat} {cb : Rat → Except PyErr Unit} (hcb : ∀ x, cb x = .ok ()) {user : List (Nat × α)} {s : St α}
    {t : List Rat} (h : runT W so tells cb user = .ok (some s, t)) :
    ∃ owns, OwnTold W (expected W user) tells s.evaluated owns ∧ t = toldFrom s.evaluated.length W.blocks.length 0 owns := by
  obtain ⟨rt, hrt, hn, -⟩ := C40_runtime hw hl so hout
  unfold runT at h
  simp only [bind_ok] at h
  obtain ⟨vals, h1, s0, h2, s1, h3, rt', h4, s2, h5, ⟨r, t'⟩, h6, h⟩ := h
  rw [hrt] at h4
  cases h4
  cases r with
  | none => simp at h
  | some s3 =>
    simp only [bind_ok] at h
    obtain ⟨s4, h7, h⟩ := h
    simp only [Except.ok.injEq, Prod.mk.injEq, Option.some.injEq] at h
    obtain ⟨rfl, rfl⟩ := h
    unfold toWorkflowRun at h7
    split at h7
    · rename_i hp
      simp only [Except.ok.injEq] at h7
      subst h7
      have hf := ((activateInputs_frame h2).trans (activateInputs_frame h3)).trans (activateInputs_frame h5)
      have ho : Once rt s2 := (⟨by simp, by simp, by simp⟩ : Once rt ({ inputValues := vals } : St α)).frame hf
      have hg : Good W (expected W user) s2 :=
        (((startRun_good hw h1 h2).activateInputs hw h3).1.activateInputs hw h5).1
      obtain ⟨o', l, owns, e, w, rfl⟩ := continueLoopT_told hw hn hcb _ _ _ _ ho hg h6
      have e0 : s2.evaluated = [] := by rw [hf.ev]
      rw [e0] at e
      simp only [List.nil_append] at e
      have hlen : rt.length = s3.evaluated.length := by
        apply List.Perm.length_eq
        rw [List.perm_ext_iff_of_nodup hn o'.nodup]
        intro i
        refine ⟨fun hi => ?_, o'.sub i⟩
        rw [← o'.act]
        exact (progress_one (runtimeBlocks_ne hrt)).1 hp i hi
      rw [e]
      refine ⟨owns, w, ?_⟩
      rw [e0, ← e, hlen]
      rfl
    · simp at h7

theorem toldFrom_last (n N k : Nat) (owns : List (List Rat)) (hne : owns ≠ []) :
    ∃ pre, toldFrom n N k owns = pre ++ [((k + owns.length : Nat) : Rat) / n + ((k + owns.length : Nat) : Rat) / n / N,
      ((k + owns.length : Nat) : Rat) / n, ((k + owns.length : Nat) : Rat) / n] := by
  obtain ⟨a, own, rfl⟩ := (List.eq_nil_or_concat' owns).resolve_left hne
  refine ⟨toldFrom n N k a ++ own.map (fun x => ((k + a.length : Nat) : Rat) / n + x / N), ?_⟩
  rw [toldFrom_append]
  simp [toldFrom, toldOf, Nat.add_assoc]

/-- The list of the blocks evaluated by a run which ends is not empty. -/
theorem runT_ends (hw : WellFormed W) (hl : LocksOk W) (so : SetOrder) {o : Nat} (hout : OutputOf W o)
    {tells : Nat → List α → List Rat} {cb : Rat → Except PyErr Unit} (hcb : ∀ x, cb x = .ok ()) {user : List (Nat × α)} {s : St α}
    {t : List Rat} (h : runT W so tells cb user = .ok (some s, t)) :
    0 < s.evaluated.length ∧ ∃ pre, t = pre ++ [1 + 1 / (W.blocks.length : Rat), 1, 1] := by
  have hr : run W so user = .ok (some s) := by
    rw [← runT_erase (tells := tells) hcb, h]; rfl
  obtain ⟨owns, w, rfl⟩ := C152_partial hw hl so hout hcb h
  obtain ⟨-, rt, hrt, hm⟩ := C27_once hr
  have hpos : 0 < s.evaluated.length := by
    obtain ⟨i, hi⟩ := List.exists_mem_of_ne_nil _ (runtimeBlocks_ne hrt)
    exact List.length_pos_of_mem ((hm i).2 hi)
  have hne : owns ≠ [] := by
    intro hc
    rw [hc] at w
    simp [OwnTold] at w
    omega
  obtain ⟨pre, hp⟩ := toldFrom_last s.evaluated.length W.blocks.length 0 owns hne
  have h1 : ((s.evaluated.length : Nat) : Rat) / s.evaluated.length = 1 := div_self (by exact_mod_cast hpos.ne')
  rw [Nat.zero_add, w.1, h1] at hp
  exact ⟨hpos, pre, hp⟩

/-- **C152** The last value told in a run which ends is one. -/
theorem C152_last (hw : WellFormed W) (hl : LocksOk W) (so : SetOrder) {o : Nat} (hout : OutputOf W o)
    {tells : Nat → List α → List Rat} {cb : Rat → Except PyErr Unit} (hcb : ∀ x, cb x = .ok ()) {user : List (Nat × α)} {s : St α}
    {t : List Rat} (h : runT W so tells cb user = .ok (some s, t)) : t.getLast? = some 1 := by
  obtain ⟨-, pre, rfl⟩ := runT_ends hw hl so hout hcb h
  simp

/-- **C152** In every run which ends, whatever the workflow, the callback is told more than one, and then less than before. -/
theorem C152_violated (hw : WellFormed W) (hl : LocksOk W) (so : SetOrder) {o : Nat} (hout : OutputOf W o)
    {tells : Nat → List α → List Rat} {cb : Rat → Except PyErr Unit} (hcb : ∀ x, cb x = .ok ()) {user : List (Nat × α)} {s : St α}
    {t : List Rat} (h : runT W so tells cb user = .ok (some s, t)) :
    (∃ x ∈ t, 1 < x) ∧ ¬ t.Pairwise (· ≤ ·) := by
  obtain ⟨-, pre, rfl⟩ := runT_ends hw hl so hout hcb h
  have hN : (0 : Rat) < W.blocks.length := by
    obtain ⟨_, _, hb, -, -⟩ := hout
    have := (List.getElem?_eq_some_iff.1 hb).1
    have : 0 < W.blocks.length := by omega
    exact_mod_cast this
  have hx : (1 : Rat) < 1 + 1 / W.blocks.length := by
    have : (0 : Rat) < 1 / W.blocks.length := by positivity
    linarith
  refine ⟨⟨_, by simp, hx⟩, fun hp => ?_⟩
  rw [List.pairwise_append] at hp
  have := (List.pairwise_cons.1 hp.2.1).1 1 (by simp)
  linarith

theorem mem_toldFrom {n N k : Nat} {owns : List (List Rat)} {x : Rat} (h : x ∈ toldFrom n N k owns) :
    ∃ j own, owns[j]? = some own ∧ x ∈ toldOf n N (k + j) own := by
  induction owns generalizing k with
  | nil => simp [toldFrom] at h
  | cons own owns ih =>
    rw [toldFrom, List.mem_append] at h
    rcases h with h | h
    · exact ⟨0, own, rfl, h⟩
    · obtain ⟨j, o', h1, h2⟩ := ih h
      exact ⟨j + 1, o', by simpa using h1, by rw [show k + (j + 1) = k + 1 + j by omega]; exact h2⟩

/-- **C152** When the methods tell fractions, all the values told are between zero and `1 + 1 / N`, where `N` is the number of
blocks; those which the methods tell are at most one. -/
theorem C152_bounds (hw : WellFormed W) (hl : LocksOk W) (so : SetOrder) {o : Nat} (hout : OutputOf W o)
    {tells : Nat → List α → List Rat} (htell : ∀ i xs, ∀ x ∈ tells i xs, 0 ≤ x ∧ x ≤ 1)
    {cb : Rat → Except PyErr Unit} (hcb : ∀ x, cb x = .ok ()) {user : List (Nat × α)} {s : St α}
    {t : List Rat} (h : runT W so tells cb user = .ok (some s, t)) : ∀ x ∈ t, 0 ≤ x ∧ x ≤ 1 + 1 / (W.blocks.length : Rat) := by
  obtain ⟨hpos, -⟩ := runT_ends hw hl so hout hcb h
  obtain ⟨owns, w, rfl⟩ := C152_partial hw hl so hout hcb h
  have hn : (0 : Rat) < s.evaluated.length := by exact_mod_cast hpos
  have hN0 : (0 : Rat) ≤ 1 / W.blocks.length := by positivity
  intro x hx
  obtain ⟨j, own, hj, hm⟩ := mem_toldFrom hx
  rw [Nat.zero_add] at hm
  have hlt : j < s.evaluated.length := by rw [← w.1]; exact (List.getElem?_eq_some_iff.1 hj).1
  have hj0 : (0 : Rat) ≤ (j : Rat) / s.evaluated.length := by positivity
  have hj1 : ((j + 1 : Nat) : Rat) / s.evaluated.length ≤ 1 := by
    rw [div_le_one hn]
    exact_mod_cast hlt
  have hj2 : (j : Rat) / s.evaluated.length ≤ 1 := by
    refine le_trans (div_le_div_of_nonneg_right ?_ hn.le) hj1
    exact_mod_cast Nat.le_succ j
  have hj3 : (0 : Rat) ≤ ((j + 1 : Nat) : Rat) / s.evaluated.length := by positivity
  have hdiv : ∀ y : Rat, 0 ≤ y → y ≤ 1 → 0 ≤ y / W.blocks.length ∧ y / W.blocks.length ≤ 1 / W.blocks.length := fun y h0 h1 =>
    ⟨by positivity, div_le_div_of_nonneg_right h1 (by positivity)⟩
  simp only [toldOf, List.mem_append, List.mem_map, List.mem_cons, List.not_mem_nil, or_false] at hm
  rcases hm with ⟨y, hy, rfl⟩ | rfl | rfl | rfl
  · obtain ⟨i, b, xs, -, -, -, -, rfl⟩ := w.2 j own hj
    obtain ⟨y0, y1⟩ := htell i xs y hy
    have := hdiv y y0 y1
    exact ⟨by linarith, by linarith⟩
  · have := hdiv _ hj3 hj1
    exact ⟨by linarith, by linarith⟩
  · exact ⟨hj3, by linarith⟩
  · exact ⟨hj3, by linarith⟩

/-- What the callback is told by a run of the example, whose first method tells a half. -/
theorem exW_told : (match runT exW dedupOrder (fun i _ => if i = 1 then [1 / 2] else []) (fun _ => .ok ()) [(1, 1), (2, 5)] with
    | .ok (some s, t) => (s.evaluated, t)
    | _ => ([], [])) = ([1, 0], [1 / 6, 2 / 3, 1 / 2, 1 / 2, 4 / 3, 1, 1]) := by decide +kernel

/-! ### C153: running again -/

/-- **C153** A completed run is run again, with a callback which does not raise, as its workflow is run: with the same results and
the same errors.
Missing: without callback it raises (`C153_violated`). -/
theorem C153_partial (so : SetOrder) (tells : Nat → List α → List Rat) (user : List (Nat × α)) {cb : Rat → Except PyErr Unit}
    (hcb : ∀ x, cb x = .ok ()) : (runAgain W so tells user (some cb)).map Prod.fst = run W so user :=
  runT_erase hcb so user

theorem tellOwn_none (l : List Rat) : tellOwn (callback none) l = .ok [] := by
  cases l <;> rfl

/-- **C153** Without callback, as is the default, running again raises a TypeError, whenever the workflow can be run. -/
theorem C153_violated {so : SetOrder} {user : List (Nat × α)} {s : St α} (h : run W so user = .ok (some s))
    (tells : Nat → List α → List Rat) : runAgain W so tells user = .error .typeError := by
  obtain ⟨vals, s0, s1, rt, h1, h2, h3, h4, s', h5, h6, h7⟩ := run_ok h
  cases h7
  unfold continueRun at h5
  rw [bind_ok] at h5
  obtain ⟨s2, h8, h9⟩ := h5
  have hf := ((activateInputs_frame h2).trans (activateInputs_frame h3)).trans (activateInputs_frame h8)
  have key : continueLoopT W rt tells (callback none) (W.blocks.length + 1) s2 = .error .typeError := by
    rw [continueLoop] at h9
    rw [continueLoopT]
    cases hb : rt.filter (activable W rt s2) with
    | nil =>
      rw [hb] at h9
      simp only [Except.ok.injEq, Option.some.injEq] at h9
      subst h9
      obtain ⟨i, hi⟩ := List.exists_mem_of_ne_nil _ (runtimeBlocks_ne h4)
      have := (progress_one (runtimeBlocks_ne h4)).1 h6 i hi
      rw [hf.blk] at this
      simp at this
    | cons i l =>
      rw [hb] at h9
      simp only at h9 ⊢
      rw [bind_ok] at h9
      obtain ⟨s3, h10, -⟩ := h9
      rw [evalAll, bind_ok] at h10
      obtain ⟨⟨s4, r⟩, h11, -⟩ := h10
      have hia : activable W rt s2 i = true := by
        have : i ∈ rt.filter (activable W rt s2) := by rw [hb]; exact .head _
        exact (List.mem_filter.1 this).2
      obtain ⟨s5, h12, hf5, ⟨-, -, hna⟩ | ⟨-, ha5, ys, hev, -⟩⟩ := blockEvaluation_ok h11
      · rw [hf5.activable hia] at hna
        simp at hna
      · obtain ⟨b, hb5, -⟩ := activable_byInputs ha5
        have hbt : blockEvaluationT W rt tells (callback none) s2 i = .error .typeError := by
          unfold blockEvaluationT
          rw [hb5]
          simp only [h12, bind, Except.bind, ha5, if_true]
          cases hr : readInputs W b.inputs s5 with
          | error e => simp [evaluateBlock, hb5, hr, bind, Except.bind] at hev
          | ok q => simp only [tellOwn_none, hev]; rfl
        simp [evalAllT, hbt, bind, Except.bind]
  unfold runAgain runT
  simp [h1, h2, h3, h4, h8, key, bind, Except.bind]

/-- The hypotheses are met. -/
example : (∃ s, run exW dedupOrder [(1, 1), (2, 5)] = .ok (some s)) ∧ WellFormed exW ∧ LocksOk exW ∧ OutputOf exW 0 :=
  ⟨C27_completes exW_wf exW_locks exW_output exW_total _ _ (by decide) (by decide), exW_wf, exW_locks, exW_output⟩

end DC.Wkf
