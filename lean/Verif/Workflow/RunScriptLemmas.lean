import Verif.Workflow.RunScript
import Verif.Workflow.ScriptProps
/- Lemmas for Verif/Workflow/RunScriptProps.lean. -/
set_option linter.unusedSectionVars false
set_option linter.unusedSimpArgs false
namespace DC.Scr
open DC.Wkf

variable {β τ α δ π : Type} [Inhabited τ]

/-! ### Names -/

theorem toString_digit (n : Nat) : ∀ c ∈ (toString n).toList, c.isDigit = true := by
  intro c hc
  have hr : toString n = Nat.repr n := rfl
  rw [hr, Nat.toList_repr] at hc
  exact Nat.isDigit_of_mem_toDigits (by decide) (by decide) hc

theorem digit_ne {n : Nat} {c : Char} (h : c.isDigit = false) : c ∉ (toString n).toList := fun hc => by
  rw [toString_digit n c hc] at h; cases h

theorem split_unique {c : Char} {a a' b b' : List Char} (ha : c ∉ a) (ha' : c ∉ a') (h : a ++ c :: b = a' ++ c :: b') : a = a' ∧ b = b' := by
  induction a generalizing a' with
  | nil =>
    cases a' with
    | nil => exact ⟨rfl, (List.cons.inj h).2⟩
    | cons y a' => exact absurd (List.cons.inj h).1 (fun e => ha' (by simp [e]))
  | cons x a ih =>
    cases a' with
    | nil => exact absurd (List.cons.inj h).1 (fun e => ha (by simp [e]))
    | cons y a' =>
      obtain ⟨h1, h2⟩ := List.cons.inj h
      obtain ⟨h3, h4⟩ := ih (fun hm => ha (by simp [hm])) (fun hm => ha' (by simp [hm])) h2
      exact ⟨by rw [h1, h3], h4⟩

/-- The addresses of inputs: those the script of a run writes. -/
def InAddr : Addr → Prop
  | .nbv _ => True
  | .port _ side _ => side = false

theorem valueName_inj {a b : Addr} (ha : InAddr a) (hb : InAddr b) (h : valueName a = valueName b) : a = b := by
  cases a with
  | nbv k =>
    cases b with
    | nbv k' => rw [toString_inj (append_inj h)]
    | port j side i =>
      have h := congrArg String.toList (append_inj h)
      have : '_' ∈ (toString k).toList := by rw [h]; simp [String.toList_append]
      exact absurd this (digit_ne (by decide))
  | port j side i =>
    cases b with
    | nbv k =>
      have h := congrArg String.toList (append_inj h)
      have : '_' ∈ (toString k).toList := by rw [← h]; simp [String.toList_append]
      exact absurd this (digit_ne (by decide))
    | port j' side' i' =>
      have h := congrArg String.toList (append_inj h)
      simp only [String.toList_append] at h
      obtain ⟨h1, h2⟩ := split_unique (digit_ne (by decide)) (digit_ne (by decide)) (show (toString j).toList ++ '_' :: (toString i).toList =
        (toString j').toList ++ '_' :: (toString i').toList from h)
      cases ha
      cases hb
      rw [toString_inj (String.toList_inj.1 h1), toString_inj (String.toList_inj.1 h2)]

/-! ### The lists of values -/

theorem valuesAt_ok {vals valO : Nat → Option α} {keep : Nat → Bool} : ∀ {vs : List Nat} {k : Nat},
    (∀ (i v : Nat), vs[i]? = some v → valO v = vals (k + i) ∧ (vals (k + i)).isSome) →
      ∃ l, valuesAt vals keep k vs = .ok l ∧ l.map some = (vs.filter keep).map valO := by
  intro vs
  induction vs with
  | nil => intro k _; exact ⟨[], rfl, rfl⟩
  | cons v vs ih =>
    intro k h
    obtain ⟨l, h1, h2⟩ := ih (k := k + 1) (fun i w hw => by
      have := h (i + 1) w (by simpa using hw)
      rwa [show k + (i + 1) = k + 1 + i by omega] at this)
    obtain ⟨h3, h4⟩ := h 0 v rfl
    rw [Nat.add_zero] at h3 h4
    by_cases hk : keep v = true
    · obtain ⟨x, hx⟩ := Option.isSome_iff_exists.1 h4
      refine ⟨x :: l, ?_, ?_⟩
      · simp only [valuesAt, hk, if_true, hx, h1]
        rfl
      · rw [List.filter_cons_of_pos hk, List.map_cons, List.map_cons, h2, h3, hx]
    · refine ⟨l, ?_, ?_⟩
      · simp only [valuesAt, hk, h1]
        rfl
      · rw [List.filter_cons_of_neg hk, h2]

/-- What an entry says: the value of the variable `v`, at the address `a`. -/
def Says (V : Vals τ α) (s : Store τ α) (valO : Nat → Option α) (e : Entry) (av : Addr × Nat) : Prop :=
  e.ref = endRef "" false av.1 ∧ e.name = valueName av.1 ∧ (∃ x, valO av.2 = some x ∧ e.text = processValue V x) ∧
    V.imports (look s av.2).type (look s av.2).name = .ok e.imports

/-- The inputs of block number `j` which are not fed, from input number `i` on, with their addresses. -/
def openFrom (fed : Nat → Bool) (j : Nat) : Nat → List Nat → List (Addr × Nat)
  | _, [] => []
  | i, v :: vs => if fed v then openFrom fed j (i + 1) vs else (.port j false i, v) :: openFrom fed j (i + 1) vs

theorem openFrom_snd {fed : Nat → Bool} {j : Nat} : ∀ {vs : List Nat} {i : Nat},
    (openFrom fed j i vs).map (·.2) = vs.filter (fun v => !fed v) := by
  intro vs
  induction vs with
  | nil => intro i; rfl
  | cons v vs ih =>
    intro i
    cases h : fed v <;> simp [openFrom, h, ih]

theorem mem_openFrom {fed : Nat → Bool} {j : Nat} : ∀ {vs : List Nat} {i : Nat} {a : Addr × Nat}, a ∈ openFrom fed j i vs →
    ∃ n, vs[n]? = some a.2 ∧ a.1 = .port j false (i + n) ∧ fed a.2 = false := by
  intro vs
  induction vs with
  | nil => intro i a h; simp [openFrom] at h
  | cons v vs ih =>
    intro i a h
    have tail : a ∈ openFrom fed j (i + 1) vs → ∃ n, (v :: vs)[n]? = some a.2 ∧ a.1 = .port j false (i + n) ∧ fed a.2 = false := by
      intro h
      obtain ⟨n, h1, h2, h3⟩ := ih h
      exact ⟨n + 1, by simpa using h1, by rw [h2]; congr 1; omega, h3⟩
    cases hv : fed v with
    | true => simp only [openFrom, hv, if_true] at h; exact tail h
    | false =>
      simp only [openFrom, hv, Bool.false_eq_true, if_false, List.mem_cons] at h
      rcases h with rfl | h
      · exact ⟨0, rfl, rfl, hv⟩
      · exact tail h

/-- The inputs of the blocks which are not fed, from block number `j` on. -/
def openAll (fed : Nat → Bool) : Nat → List (Blk β δ) → List (Addr × Nat)
  | _, [] => []
  | j, b :: bs => openFrom fed j 0 b.inputs ++ openAll fed (j + 1) bs

theorem openAll_snd {fed : Nat → Bool} : ∀ {bs : List (Blk β δ)} {j : Nat},
    (openAll fed j bs).map (·.2) = (bs.flatMap (·.inputs)).filter (fun v => !fed v) := by
  intro bs
  induction bs with
  | nil => intro j; rfl
  | cons b bs ih => intro j; simp [openAll, openFrom_snd, ih]

theorem mem_openAll {fed : Nat → Bool} : ∀ {bs : List (Blk β δ)} {j : Nat} {a : Addr × Nat}, a ∈ openAll fed j bs →
    ∃ n b i, bs[n]? = some b ∧ b.inputs[i]? = some a.2 ∧ a.1 = .port (j + n) false i ∧ fed a.2 = false := by
  intro bs
  induction bs with
  | nil => intro j a h; simp [openAll] at h
  | cons b bs ih =>
    intro j a h
    simp only [openAll, List.mem_append] at h
    rcases h with h | h
    · obtain ⟨n, h1, h2, h3⟩ := mem_openFrom h
      exact ⟨0, b, n, rfl, h1, by rw [h2]; simp, h3⟩
    · obtain ⟨n, c, i, h1, h2, h3, h4⟩ := ih h
      exact ⟨n + 1, c, i, by simpa using h1, h2, by rw [h3]; congr 1; omega, h4⟩

theorem entry_ok {V : Vals τ α} {s : Store τ α} {valO : Nat → Option α} {a : Addr} {v : Nat} {x : α} (hx : valO v = some x)
    {I : List Cls} (hI : V.imports (look s v).type (look s v).name = .ok I) :
    ∃ e, entry V s a v (some x) = .ok e ∧ Says V s valO e (a, v) ∧ e.imports = I := by
  refine ⟨⟨endRef "" false a, valueName a, processValue V x, I⟩, ?_, ⟨rfl, rfl, ⟨x, hx, rfl⟩, hI⟩, rfl⟩
  simp only [entry, hI]
  rfl

theorem drop_map_cons {l : List α} {n : Nat} {o : Option α} {r : List (Option α)} (h : (l.drop n).map some = o :: r) :
    ∃ x, o = some x ∧ l[n]? = some x ∧ (l.drop (n + 1)).map some = r := by
  cases hl : l.drop n with
  | nil => rw [hl] at h; cases h
  | cons x t =>
    rw [hl] at h
    simp only [List.map_cons, List.cons.injEq] at h
    refine ⟨x, h.1.symm, ?_, ?_⟩
    · have := congrArg (fun l => l[0]?) hl
      simpa using this
    · have : l.drop (n + 1) = t := by
        rw [← List.drop_drop, hl]
        rfl
      rw [this, h.2]

theorem portEntries_ok {V : Vals τ α} {s : Store τ α} {valO : Nat → Option α} {inText : String → Bool} {bv : List α} {fed : Nat → Bool}
    {imp : Nat → List Cls} {j : Nat} : ∀ {vs : List Nat} {i n : Nat} {rest : List (Option α)},
    (∀ (k v : Nat), vs[k]? = some v → inText (refText (.input (blockName "" j) (i + k))) = fed v) →
    (∀ v ∈ vs, fed v = false → V.imports (look s v).type (look s v).name = .ok (imp v)) →
    (bv.drop n).map some = (vs.filter fun v => !fed v).map valO ++ rest →
    ∃ es m, portEntries V s inText bv j i vs n = .ok (es, m) ∧ List.Forall₂ (Says V s valO) es (openFrom fed j i vs) ∧
      (bv.drop m).map some = rest ∧ (∀ e ∈ es, ∃ v ∈ vs, fed v = false ∧ e.imports = imp v) := by
  intro vs
  induction vs with
  | nil => intro i n rest _ _ h; exact ⟨[], n, rfl, .nil, by simpa using h, by simp⟩
  | cons v vs ih =>
    intro i n rest hT hI h
    have hT' : ∀ (k w : Nat), vs[k]? = some w → inText (refText (.input (blockName "" j) (i + 1 + k))) = fed w := fun k w hw => by
      have := hT (k + 1) w (by simpa using hw)
      rwa [show i + (k + 1) = i + 1 + k by omega] at this
    have h0 := hT 0 v rfl
    rw [Nat.add_zero] at h0
    cases hv : fed v with
    | true =>
      rw [List.filter_cons_of_neg (by simp [hv])] at h
      obtain ⟨es, m, h1, h2, h3, h4⟩ := ih hT' (fun w hw => hI w (by simp [hw])) h
      refine ⟨es, m, ?_, by simpa [openFrom, hv] using h2, h3, fun e he => ?_⟩
      · simp only [portEntries, h0, hv, if_true, h1]
      · obtain ⟨w, hw, h5⟩ := h4 e he
        exact ⟨w, by simp [hw], h5⟩
    | false =>
      rw [List.filter_cons_of_pos (by simp [hv]), List.map_cons, List.cons_append] at h
      obtain ⟨x, hx, hn, hr⟩ := drop_map_cons h
      obtain ⟨e, he, hs, hi⟩ := entry_ok (V := V) (a := .port j false i) hx (hI v (by simp) hv)
      obtain ⟨es, m, h1, h2, h3, h4⟩ := ih hT' (fun w hw => hI w (by simp [hw])) hr
      refine ⟨e :: es, m, ?_, ?_, h3, fun e' he' => ?_⟩
      · simp only [portEntries, h0, hv, Bool.false_eq_true, if_false, hn, he, h1]
        rfl
      · simp only [openFrom, hv, Bool.false_eq_true, if_false]
        exact .cons hs h2
      · rcases List.mem_cons.1 he' with rfl | he'
        · exact ⟨v, by simp, hv, hi⟩
        · obtain ⟨w, hw, h5⟩ := h4 e' he'
          exact ⟨w, by simp [hw], h5⟩

theorem blockEntries_ok {V : Vals τ α} {s : Store τ α} {valO : Nat → Option α} {inText : String → Bool} {bv : List α} {fed : Nat → Bool}
    {imp : Nat → List Cls} : ∀ {bs : List (Blk β δ)} {j n : Nat},
    (∀ (q : Nat) b (k v : Nat), bs[q]? = some b → b.inputs[k]? = some v → inText (refText (.input (blockName "" (j + q)) k)) = fed v) →
    (∀ b ∈ bs, ∀ v ∈ b.inputs, fed v = false → V.imports (look s v).type (look s v).name = .ok (imp v)) →
    (bv.drop n).map some = ((bs.flatMap (·.inputs)).filter fun v => !fed v).map valO →
    ∃ es, blockEntries V s inText bv j bs n = .ok es ∧ List.Forall₂ (Says V s valO) es (openAll fed j bs) ∧
      (∀ e ∈ es, ∃ v, fed v = false ∧ (∃ b ∈ bs, v ∈ b.inputs) ∧ e.imports = imp v) := by
  intro bs
  induction bs with
  | nil => intro j n _ _ _; exact ⟨[], rfl, .nil, by simp⟩
  | cons b bs ih =>
    intro j n hT hI h
    rw [List.flatMap_cons, List.filter_append, List.map_append] at h
    obtain ⟨es, m, h1, h2, h3, h4⟩ := portEntries_ok (V := V) (s := s) (i := 0) (j := j) (inText := inText) (imp := imp) (fun k v hv => by
      have := hT 0 b k v rfl hv
      rwa [Nat.add_zero, ← Nat.zero_add k] at this) (hI b (by simp)) h
    obtain ⟨q, g1, g2, g3⟩ := ih (j := j + 1) (n := m) (fun q c k v hc hv => by
      have := hT (q + 1) c k v (by simpa using hc) hv
      rwa [show j + (q + 1) = j + 1 + q by omega] at this) (fun c hc => hI c (by simp [hc])) h3
    refine ⟨es ++ q, ?_, List.rel_append h2 g2, fun e he => ?_⟩
    · simp only [blockEntries, h1, bind, Except.bind, g1]
    · rcases List.mem_append.1 he with he | he
      · obtain ⟨v, h5, h6, h7⟩ := h4 e he
        exact ⟨v, h6, ⟨b, by simp, h5⟩, h7⟩
      · obtain ⟨v, h5, ⟨c, hc, h6⟩, h7⟩ := g3 e he
        exact ⟨v, h5, ⟨c, by simp [hc], h6⟩, h7⟩

/-- The free variables with their addresses, from number `k` on. -/
def freeAll : Nat → List Nat → List (Addr × Nat)
  | _, [] => []
  | k, v :: vs => (.nbv k, v) :: freeAll (k + 1) vs

theorem mem_freeAll : ∀ {vs : List Nat} {k : Nat} {a : Addr × Nat}, a ∈ freeAll k vs → ∃ n, vs[n]? = some a.2 ∧ a.1 = .nbv (k + n) := by
  intro vs
  induction vs with
  | nil => intro k a h; simp [freeAll] at h
  | cons v vs ih =>
    intro k a h
    rcases List.mem_cons.1 h with rfl | h
    · exact ⟨0, rfl, rfl⟩
    · obtain ⟨n, h1, h2⟩ := ih h
      exact ⟨n + 1, by simpa using h1, by rw [h2]; congr 1; omega⟩

theorem freeAll_snd : ∀ {vs : List Nat} {k : Nat}, (freeAll k vs).map (·.2) = vs := by
  intro vs
  induction vs with
  | nil => intro k; rfl
  | cons v vs ih => intro k; simp [freeAll, ih]

theorem freeEntries_ok {V : Vals τ α} {s : Store τ α} {valO : Nat → Option α} {nv : List α} {imp : Nat → List Cls} :
    ∀ {vs : List Nat} {k : Nat}, (∀ v ∈ vs, V.imports (look s v).type (look s v).name = .ok (imp v)) →
    (nv.drop k).map some = vs.map valO →
    ∃ es, freeEntries V s nv k vs = .ok es ∧ List.Forall₂ (Says V s valO) es (freeAll k vs) ∧ (∀ e ∈ es, ∃ v ∈ vs, e.imports = imp v) := by
  intro vs
  induction vs with
  | nil => intro k _ _; exact ⟨[], rfl, .nil, by simp⟩
  | cons v vs ih =>
    intro k hI h
    obtain ⟨x, hx, hn, hr⟩ := drop_map_cons h
    obtain ⟨e, he, hs, hi⟩ := entry_ok (V := V) (a := .nbv k) hx (hI v (by simp))
    obtain ⟨es, h1, h2, h3⟩ := ih (fun w hw => hI w (by simp [hw])) hr
    refine ⟨e :: es, ?_, .cons hs h2, fun e' he' => ?_⟩
    · simp only [freeEntries, hn, he, h1]
      rfl
    · rcases List.mem_cons.1 he' with rfl | he'
      · exact ⟨v, by simp, hi⟩
      · obtain ⟨w, hw, h5⟩ := h3 e' he'
        exact ⟨w, by simp [hw], h5⟩

/-! ### Running -/

theorem assign_ok {V : Vals τ α} {s : Store τ α} {valO : Nat → Option α} {res : String → Option Cls} {es : List Entry} {T : List (Addr × Nat)}
    (h : List.Forall₂ (Says V s valO) es T) (hread : ∀ av ∈ T, ∀ x, valO av.2 = some x → V.read res (processValue V x) = .ok x) :
    ∃ env, assign V res es = .ok env ∧ List.Forall₂ (fun nx av => nx.1 = valueName av.1 ∧ valO av.2 = some nx.2) env T := by
  induction h with
  | nil => exact ⟨[], rfl, .nil⟩
  | @cons e av es T h1 _ ih =>
    obtain ⟨env, h2, h3⟩ := ih (fun av hav => hread av (by simp [hav]))
    obtain ⟨-, hn, ⟨x, hx, ht⟩, -⟩ := h1
    refine ⟨(e.name, x) :: env, ?_, .cons ⟨hn, hx⟩ h3⟩
    unfold assign at h2 ⊢
    rw [List.mapM_cons, ht, hread av (by simp) x hx, h2]
    rfl

theorem forall₂_of_mem {γ γ' : Type} {R : γ → γ' → Prop} {l : List γ} {l' : List γ'} (h : List.Forall₂ R l l') :
    (∀ x ∈ l, ∃ y ∈ l', R x y) ∧ ∀ y ∈ l', ∃ x ∈ l, R x y := by
  induction h with
  | nil => simp
  | cons h _ ih =>
    refine ⟨fun x hx => ?_, fun y hy => ?_⟩
    · rcases List.mem_cons.1 hx with rfl | hx
      · exact ⟨_, by simp, h⟩
      · obtain ⟨y, h1, h2⟩ := ih.1 x hx
        exact ⟨y, by simp [h1], h2⟩
    · rcases List.mem_cons.1 hy with rfl | hy
      · exact ⟨_, by simp, h⟩
      · obtain ⟨x, h1, h2⟩ := ih.2 y hy
        exact ⟨x, by simp [h1], h2⟩

theorem getValue_ok {valO : Nat → Option α} {env : List (String × α)} {T : List (Addr × Nat)}
    (h : List.Forall₂ (fun nx av => nx.1 = valueName av.1 ∧ valO av.2 = some nx.2) env T)
    (hA : ∀ av ∈ T, InAddr av.1) (hu : ∀ av ∈ T, ∀ bw ∈ T, av.1 = bw.1 → av.2 = bw.2) {av : Addr × Nat} (hav : av ∈ T) :
    ∃ x, valO av.2 = some x ∧ getValue env (valueName av.1) = .ok x := by
  obtain ⟨nx, hm, hn, hx⟩ := (forall₂_of_mem h).2 av hav
  have hk : ∃ y, env.reverse.lookup (valueName av.1) = some y := by
    cases hl : env.reverse.lookup (valueName av.1) with
    | none => exact absurd (List.mem_map.2 ⟨nx, by simpa using hm, hn⟩) (Dict.lookup_none.1 hl)
    | some y => exact ⟨y, rfl⟩
  obtain ⟨y, hy⟩ := hk
  have hmem := Dict.lookup_mem hy
  rw [List.mem_reverse] at hmem
  obtain ⟨bw, hb, h1, h2⟩ := (forall₂_of_mem h).1 _ hmem
  have he := valueName_inj (hA av hav) (hA bw hb) h1
  rw [← hu av hav bw hb he] at h2
  exact ⟨y, h2, by simp only [getValue, hy]⟩

/-- A dictionary which holds values of `F` under keys which are indices below `N`. -/
def DictOk (F : Nat → Option α) (N : Nat) (d : List (Option Nat × α)) : Prop :=
  (d.map (·.1)).Nodup ∧ ∀ kx ∈ d, ∃ k, kx.1 = some k ∧ k < N ∧ F k = some kx.2

theorem mem_set {κ γ : Type} [DecidableEq κ] {d : List (κ × γ)} {k : κ} {x : γ} {p : κ × γ} (h : p ∈ Dict.set d k x) :
    p ∈ d ∨ p = (k, x) := by
  induction d with
  | nil => simpa [Dict.set] using h
  | cons q d ih =>
    unfold Dict.set at h
    split at h
    · rename_i e
      rcases List.mem_cons.1 h with h | h
      · right; rw [h, e]
      · left; simp [h]
    · rcases List.mem_cons.1 h with h | h
      · left; simp [h]
      · rcases ih h with h | h
        · left; simp [h]
        · exact .inr h

theorem dictOf_ok {σ : St β τ α δ} {W' : Flow β δ} {V : Vals τ α} {s : Store τ α} {valO : Nat → Option α} {env : List (String × α)} {F : Nat → Option α}
    {N : Nat} {es : List Entry} {T : List (Addr × Nat)} (h : List.Forall₂ (Says V s valO) es T)
    (hT : ∀ av ∈ T, ∃ v' k, getVar σ (endRef "" false av.1) = .ok v' ∧ inputIndex (graph σ.store W') v' = some k ∧ k < N ∧
      F k = valO av.2 ∧ ∃ x, valO av.2 = some x ∧ getValue env (valueName av.1) = .ok x) :
    ∀ {d : List (Option Nat × α)}, DictOk F N d → ∃ d', dictOf σ W' env d es = .ok d' ∧ DictOk F N d' ∧
      (∀ q ∈ d.map (·.1), q ∈ d'.map (·.1)) ∧
      ∀ av ∈ T, ∃ v', getVar σ (endRef "" false av.1) = .ok v' ∧ inputIndex (graph σ.store W') v' ∈ d'.map (·.1) := by
  induction h with
  | nil => intro d hd; exact ⟨d, rfl, hd, fun q hq => hq, by simp⟩
  | @cons e av es T h1 _ ih =>
    intro d hd
    obtain ⟨v', k, hv, hk, hN, hF, x, hx, hg⟩ := hT av (by simp)
    obtain ⟨hr, hn, -⟩ := h1
    obtain ⟨d', g1, g2, g3, g4⟩ := ih (fun av hav => hT av (by simp [hav])) (d := Dict.set d (some k) x) ⟨Dict.nodup_set hd.1 _ _, fun kx hkx => by
      rcases mem_set hkx with h | rfl
      · exact hd.2 kx h
      · exact ⟨k, rfl, hN, by rw [hF, hx]⟩⟩
    refine ⟨d', ?_, g2, fun q hq => g3 q ((Dict.mem_keys_set _ _ _ _).2 (.inr hq)), fun bw hbw => ?_⟩
    · simp only [dictOf, hr, hv, hn, hg, bind, Except.bind, hk, g1]
    · rcases List.mem_cons.1 hbw with rfl | hbw
      · exact ⟨v', hv, by rw [hk]; exact g3 _ ((Dict.mem_keys_set _ _ _ _).2 (.inl rfl))⟩
      · exact g4 bw hbw

theorem asUser_ok {F : Nat → Option α} {N : Nat} : ∀ {d : List (Option Nat × α)}, DictOk F N d →
    ∃ user, asUser d = .ok user ∧ (∀ kx ∈ user, kx.1 < N ∧ F kx.1 = some kx.2) ∧ ∀ k, some k ∈ d.map (·.1) → k ∈ user.map (·.1) := by
  intro d
  induction d with
  | nil => intro _; exact ⟨[], rfl, by simp, by simp⟩
  | cons p d ih =>
    intro h
    obtain ⟨k, hk, hN, hF⟩ := h.2 p (by simp)
    obtain ⟨user, h1, h2, h3⟩ := ih ⟨(List.nodup_cons.1 h.1).2, fun kx hkx => h.2 kx (by simp [hkx])⟩
    refine ⟨(k, p.2) :: user, ?_, fun kx hkx => ?_, fun q hq => ?_⟩
    · unfold asUser at h1 ⊢
      rw [List.mapM_cons, hk, h1]
      rfl
    · rcases List.mem_cons.1 hkx with rfl | hkx
      · exact ⟨hN, hF⟩
      · exact h2 kx hkx
    · simp only [List.map_cons, List.mem_cons] at hq ⊢
      rcases hq with hq | hq
      · rw [hk] at hq; exact .inl (Option.some.inj hq)
      · exact .inr (h3 q hq)

theorem user_lookup {F : Nat → Option α} {user : List (Nat × α)} (h : ∀ kx ∈ user, F kx.1 = some kx.2) {k : Nat} (hk : k ∈ user.map (·.1)) :
    user.lookup k = F k := by
  cases hl : user.lookup k with
  | none => exact absurd hk (Dict.lookup_none.1 hl)
  | some x => rw [h _ (Dict.lookup_mem hl)]

/-! ### Graphs -/

/-- An input of a workflow is not replaced by a free variable upstream. -/
theorem upstreamNbv_input {G : Workflow α} {v : Nat} (hv : v ∈ inputs G) : upstreamNbv G v = v := by
  unfold upstreamNbv
  split
  · rfl
  · cases hu : upstreamVar G v with
    | none => rfl
    | some u =>
      simp only [upstreamVar, inputPipe, Option.bind_eq_bind, Option.bind_eq_some_iff, Option.some.injEq] at hu
      obtain ⟨i, hi, p, hp, rfl⟩ := hu
      rw [List.findIdx?_eq_some_iff_getElem] at hi
      obtain ⟨h1, h2, -⟩ := hi
      rw [List.getElem?_eq_getElem h1] at hp
      cases hp
      rw [(mem_inputs.1 hv).2.2 _ (List.getElem_mem _) (by simpa using h2)]
      show (if (nbvs G).contains v = true then v else v) = v
      exact ite_self _

theorem inputIndex_input {G : Workflow α} {v : Nat} (hv : v ∈ inputs G) : inputIndex G v = some ((inputs G).idxOf v) := by
  unfold inputIndex
  simp only [upstreamNbv_input hv, hv, if_true]

theorem idxOf_get {l : List Nat} (h : l.Nodup) {i v : Nat} (hv : l[i]? = some v) : l.idxOf v = i := by
  obtain ⟨hi, rfl⟩ := List.getElem?_eq_some_iff.1 hv
  exact h.idxOf_getElem i hi

end DC.Scr
