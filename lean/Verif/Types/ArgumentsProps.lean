import Verif.Types.Arguments
import Verif.Values.SerializeProps
/- C113, C114, C116: arguments read from documents. -/
namespace DC.Arg
set_option linter.unusedSimpArgs false

variable {W : World} {fuel : Nat} {mro : Ann → Option Nat}

/-! ### C113: arguments saved and read -/

/-- The object can be read from its document. -/
def ObjectOk (W : World) (v : V) : Prop := ∃ c a, v = .obj c a ∧ WF (.obj c a) ∧ Readable W (.obj c a)

/-- The arguments which are read from their saved form, by annotation: None, numbers and strings, files, objects, classes, sequences of
such arguments, and JSON data where the annotation says nothing of the parts. -/
inductive Saved (W : World) (mro : Ann → Option Nat) : Ann → V → Prop
  | none {T} : Saved W mro T .none
  | int {i : Int} : -2 ^ 63 ≤ i → i < 2 ^ 64 → Saved W mro (.builtin .int) (.int i)
  | boolInt {b} : Saved W mro (.builtin .int) (.bool b)
  | flt {q} : Saved W mro (.builtin .float) (.flt q)
  | bool {b} : Saved W mro (.builtin .bool) (.bool b)
  | str {s} : Saved W mro (.builtin .str) (.str s)
  | any {v} : IsJson True v → Saved W mro .any v
  | dict {k t d} : IsJson True (.dict d) → Saved W mro (.dict k t) (.dict d)
  | literal {vs v} : v ∈ vs → IsJson True v → Saved W mro (.literal vs) v
  | file {b n t} : Saved W mro (.file b) (.file b n t)
  | list {t l} : (∀ x ∈ l, Saved W mro t x) → Saved W mro (.list t) (.list l)
  | tuple {ts l} : ts.length = l.length → (∀ (i : Nat) t x, ts[i]? = some t → l[i]? = some x → Saved W mro t x) →
      Saved W mro (.tuple ts) (.tuple l)
  | optional {t v} : Saved W mro t v → Saved W mro (.union [t, .noneType]) v
  | object {c v} : ObjectOk W v → Saved W mro (.cls c) v
  | instanceOf {c v} : ObjectOk W v → Saved W mro (.instanceOf c) v
  | union {ts v} : ts ≠ [] → (∀ t ∈ ts, ∃ c, t = .cls c ∧ (mro t).isSome) → ObjectOk W v → Saved W mro (.union ts) v
  | classType {n} : n ∉ ["builtins.int", "builtins.float", "builtins.bool", "builtins.str"] → W.hasSchema n = true →
      W.resolve n = some (.cls n) → Saved W mro .classType (.cls n)

/-- The sequences held by the objects are of the annotated kinds. -/
def KindsOk (Γ : Env) (v : V) : Prop := ∀ c a, Occurs v (.obj c a) → SeqKinds Γ false (.obj c a)

/-- What is shown of an argument and its saved form. -/
structure Back (W : World) (v v' : V) : Prop where
  same : Same W.toEnv (· = ·) v v'
  wf : WF v'
  exact_ : KindsOk W.toEnv v → v' = v

theorem Back.refl {v : V} (h : WF v) : Back W v v := ⟨Same.refl (fun _ => rfl) _ _ (Nat.lt_succ_self _) h, h, fun _ => rfl⟩

theorem object_back {v : V} (h : ObjectOk W v) (c' : String) : ∃ s v', serialize W v = .ok s ∧ passes s = false ∧
    (∀ r, unlessFile s r = r) ∧ readObject W fuel c' s = .ok v' ∧ Back W v v' := by
  obtain ⟨c, a, rfl, hv, hr⟩ := h
  obtain ⟨s, h1, h2, h3⟩ := roundTrip_aux W _ hv hr
  have hd : ∃ r, s = .dict (dictUpdate [(.str "object_class", .str c)] r) := by
    rw [serialize, bind_ok] at h1
    obtain ⟨r, _, h⟩ := h1
    simp only [Except.ok.injEq] at h
    exact ⟨_, h.symm⟩
  obtain ⟨r, rfl⟩ := hd
  refine ⟨_, _, h1, rfl, fun _ => rfl, ?_, ⟨same_reread W.toEnv false _ hv, WF_reread W.toEnv false _ hv, fun hk =>
    reread_id W.toEnv false _ (hk c a .self)⟩⟩
  have hl : ∃ x, (dictUpdate [(Key.str "object_class", V.str c)] r).lookup (.str "object_class") = some x := by
    have : Key.str "object_class" ∈ keysOf (dictUpdate [(Key.str "object_class", V.str c)] r) := by
      have key : ∀ (e d : List (Key × V)), Key.str "object_class" ∈ keysOf d → Key.str "object_class" ∈ keysOf (dictUpdate d e) := by
        intro e
        induction e with
        | nil => exact fun d h => h
        | cons kv e ih =>
          intro d h
          refine ih _ ?_
          clear ih
          show Key.str "object_class" ∈ keysOf (dictSet d kv.1 kv.2)
          induction d with
          | nil => simp [keysOf] at h
          | cons x d ihd =>
            obtain ⟨k', v'⟩ := x
            rw [dictSet]
            by_cases hk : k' = kv.1
            · rw [if_pos hk]; exact h
            · rw [if_neg hk]
              simp only [keysOf, List.map_cons, List.mem_cons] at h ⊢
              exact h.imp id ihd
      exact key r _ (by simp [keysOf])
    exact Option.isSome_iff_exists.1 ((lookup_isSome_iff _ _).2 this)
  obtain ⟨x, hx⟩ := hl
  unfold readObject
  simp only [hx, loadDict_noRefs W fuel _ (h3 _) _ (h2 _ _)]

theorem list_back {t : Ann} (l : List V) (hw : WFL l) (h : ∀ x ∈ l, ∃ s v', serialize W x = .ok s ∧
    deserArg W fuel mro t s = .ok v' ∧ Back W x v') : ∃ ss vs, serializeL W l = .ok ss ∧
      mapE (fun x => deserArg W fuel mro t x) ss = .ok vs ∧ l.length = vs.length ∧ WFL vs ∧
      (∀ (i : Nat) x y, l[i]? = some x → vs[i]? = some y → Same W.toEnv (· = ·) x y) ∧ ((∀ x ∈ l, KindsOk W.toEnv x) → vs = l) := by
  induction l with
  | nil => exact ⟨[], [], by rw [serializeL], rfl, rfl, trivial, by simp, fun _ => rfl⟩
  | cons x l ih =>
    simp only [WFL] at hw
    obtain ⟨ss, vs, h1, h2, h3, h4, h5, h6⟩ := ih hw.2 (fun y hy => h y (.tail _ hy))
    obtain ⟨s, v', e1, e2, e3⟩ := h x (.head _)
    refine ⟨s :: ss, v' :: vs, ?_, ?_, by simp [h3], ⟨e3.wf, h4⟩, ?_, fun hk => ?_⟩
    · simp only [serializeL, e1, h1, bind, Except.bind]
    · simp only [mapE, e2, h2, bind, Except.bind]
    · intro i a b ha hb
      cases i with
      | zero => simp at ha hb; subst ha hb; exact e3.same
      | succ i => exact h5 i a b (by simpa using ha) (by simpa using hb)
    · rw [e3.exact_ (hk x (.head _)), h6 (fun y hy => hk y (.tail _ hy))]

theorem zip_back (l : List V) (ts : List Ann) (hl : ts.length = l.length) (hw : WFL l) (h : ∀ (i : Nat) t x, ts[i]? = some t → l[i]? = some x →
    ∃ s v', serialize W x = .ok s ∧ deserArg W fuel mro t s = .ok v' ∧ Back W x v') : ∃ ss vs, serializeL W l = .ok ss ∧
      deserZip W fuel mro ts ss = .ok vs ∧ l.length = vs.length ∧ WFL vs ∧
      (∀ (i : Nat) x y, l[i]? = some x → vs[i]? = some y → Same W.toEnv (· = ·) x y) ∧ ((∀ x ∈ l, KindsOk W.toEnv x) → vs = l) := by
  induction l generalizing ts with
  | nil => exact ⟨[], [], by rw [serializeL], by cases ts <;> rfl, rfl, trivial, by simp, fun _ => rfl⟩
  | cons x l ih =>
    cases ts with
    | nil => simp at hl
    | cons t ts =>
      simp only [WFL] at hw
      obtain ⟨ss, vs, h1, h2, h3, h4, h5, h6⟩ := ih ts (by simpa using hl) hw.2 (fun i t y ht hy => h (i + 1) t y (by simpa using ht) (by simpa using hy))
      obtain ⟨s, v', e1, e2, e3⟩ := h 0 t x rfl rfl
      refine ⟨s :: ss, v' :: vs, ?_, ?_, by simp [h3], ⟨e3.wf, h4⟩, ?_, fun hk => ?_⟩
      · simp only [serializeL, e1, h1, bind, Except.bind]
      · simp only [deserZip, e2, h2, bind, Except.bind]
      · intro i a b ha hb
        cases i with
        | zero => simp at ha hb; subst ha hb; exact e3.same
        | succ i => exact h5 i a b (by simpa using ha) (by simpa using hb)
      · rw [e3.exact_ (hk x (.head _)), h6 (fun y hy => hk y (.tail _ hy))]

theorem mroLen_all (ts : List Ann) (h : ∀ t ∈ ts, (mro t).isSome) : ∃ l, mapE (mroLen mro) ts = .ok l ∧ l.length = ts.length := by
  induction ts with
  | nil => exact ⟨[], rfl, rfl⟩
  | cons t ts ih =>
    obtain ⟨l, h1, h2⟩ := ih (fun u hu => h u (.tail _ hu))
    obtain ⟨n, hn⟩ := Option.isSome_iff_exists.1 (h t (.head _))
    exact ⟨n :: l, by simp only [mapE, mroLen, hn, h1, bind, Except.bind], by simp [h2]⟩

theorem foldl_max_mem (l : List Nat) (a : Nat) : l.foldl max a = a ∨ l.foldl max a ∈ l := by
  induction l generalizing a with
  | nil => exact .inl rfl
  | cons b l ih =>
    rw [List.foldl_cons]
    rcases ih (max a b) with h | h
    · rw [h]
      rcases Nat.le_total a b with h' | h'
      · rw [Nat.max_eq_right h']; exact .inr (.head _)
      · rw [Nat.max_eq_left h']; exact .inl rfl
    · exact .inr (.tail _ h)

theorem foldl_max_ge (l : List Nat) (a : Nat) : a ≤ l.foldl max a := by
  induction l generalizing a with
  | nil => exact Nat.le_refl _
  | cons b l ih => exact Nat.le_trans (Nat.le_max_left a b) (ih _)

theorem firstMax_lt (l : List Nat) (h : l ≠ []) : firstMax l < l.length := by
  unfold firstMax
  refine List.idxOf_lt_length_iff.2 ?_
  rcases foldl_max_mem l 0 with he | he
  · cases l with
    | nil => exact absurd rfl h
    | cons b l =>
      rw [he]
      have := foldl_max_ge l (max 0 b)
      rw [List.foldl_cons] at he
      rw [he] at this
      have hb : b = 0 := by omega
      rw [hb]; exact .head _
  · exact he

theorem saved_back {T : Ann} {v : V} (h : Saved W mro T v) : WF v → ∃ s v', serialize W v = .ok s ∧
    deserArg W fuel mro T s = .ok v' ∧ Back W v v' := by
  induction h with
  | @none T =>
    intro hv
    refine ⟨.none, .none, by rw [serialize], ?_, .refl hv⟩
    cases T <;> rfl
  | @int i h1 h2 =>
    intro hv
    refine ⟨.int i, .int i, ?_, rfl, .refl hv⟩
    rw [serialize, if_pos ((jsonInt_iff i).2 ⟨h1, h2⟩)]
  | boolInt => intro hv; exact ⟨_, _, by rw [serialize], rfl, .refl hv⟩
  | flt => intro hv; exact ⟨_, _, by rw [serialize], rfl, .refl hv⟩
  | bool => intro hv; exact ⟨_, _, by rw [serialize], rfl, .refl hv⟩
  | str => intro hv; exact ⟨_, _, by rw [serialize], rfl, .refl hv⟩
  | any h => intro hv; exact ⟨_, _, serialize_of_json W h, by rw [deserArg], .refl hv⟩
  | dict h => intro hv; exact ⟨_, _, serialize_of_json W h, by rw [deserArg], .refl hv⟩
  | literal _ h => intro hv; exact ⟨_, _, serialize_of_json W h, by rw [deserArg], .refl hv⟩
  | file => intro hv; exact ⟨_, _, by rw [serialize], rfl, .refl hv⟩
  | @list t l _ ih =>
    intro hv
    simp only [WF] at hv
    have hwf : ∀ x ∈ l, WF x := by
      clear ih
      induction l with
      | nil => simp
      | cons y l ihl =>
        simp only [WFL] at hv
        intro x hx
        rcases List.mem_cons.1 hx with rfl | hx
        · exact hv.1
        · exact ihl (fun z hz => by rename_i h _; exact h z (.tail _ hz)) hv.2 x hx
    obtain ⟨ss, vs, h1, h2, h3, h4, h5, h6⟩ := list_back l hv (fun x hx => ih x hx (hwf x hx))
    refine ⟨.list ss, .list vs, ?_, ?_, ⟨.seq (a := l) (b := vs) rfl rfl h3 h5, by simpa [WF] using h4, fun hk => ?_⟩⟩
    · simp only [serialize, h1, bind, Except.bind]
    · simp only [deserArg, passes, items, h2, bind, Except.bind]; rfl
    · rw [h6 (fun x hx c a ho => hk c a (.list hx ho))]
  | @tuple ts l hl _ ih =>
    intro hv
    simp only [WF] at hv
    have hwf : ∀ l : List V, WFL l → ∀ x ∈ l, WF x := by
      intro l
      induction l with
      | nil => simp
      | cons y l ihl =>
        intro hv x hx
        simp only [WFL] at hv
        rcases List.mem_cons.1 hx with rfl | hx
        · exact hv.1
        · exact ihl hv.2 x hx
    obtain ⟨ss, vs, h1, h2, h3, h4, h5, h6⟩ := zip_back l ts hl hv (fun i t x ht hx => ih i t x ht hx (hwf l hv x (List.mem_of_getElem? hx)))
    refine ⟨.list ss, .tuple vs, ?_, ?_, ⟨.seq (a := l) (b := vs) rfl rfl h3 h5, by simpa [WF] using h4, fun hk => ?_⟩⟩
    · simp only [serialize, h1, bind, Except.bind]
    · simp only [deserArg, passes, items, h2, bind, Except.bind]; rfl
    · rw [h6 (fun x hx c a ho => hk c a (.tuple hx ho))]
  | @optional t v _ ih =>
    intro hv
    obtain ⟨s, v', h1, h2, h3⟩ := ih hv
    refine ⟨s, v', h1, ?_, h3⟩
    have hopt : isOptional [t, .noneType] = true := by simp [isOptional, isNoneType]
    have hp : passes s = true → deserArg W fuel mro t s = .ok s := by
      intro hp
      cases s <;> simp [passes] at hp
      · cases t <;> rfl
      · cases t <;> rfl
    rw [deserArg]
    by_cases hps : passes s = true
    · rw [if_pos hps, ← h2, hp hps]
    · rw [if_neg hps, if_pos hopt, deserFirst, h2]
  | object h =>
    intro _
    obtain ⟨s, v', h1, h2, h3, h4, h5⟩ := object_back h _
    exact ⟨s, v', h1, by rw [deserArg, if_neg (by simp [h2]), h3, h4], h5⟩
  | instanceOf h =>
    intro _
    obtain ⟨s, v', h1, h2, h3, h4, h5⟩ := object_back h _
    exact ⟨s, v', h1, by rw [deserArg, if_neg (by simp [h2]), h4], h5⟩
  | @union ts v hne hts h =>
    intro _
    obtain ⟨lens, g1, g2⟩ := mroLen_all ts (fun t ht => by obtain ⟨c, -, h⟩ := hts t ht; exact h)
    have hlt : firstMax lens < ts.length := by
      rw [← g2]
      exact firstMax_lt _ (fun h => hne (List.length_eq_zero_iff.1 (by rw [← g2, h]; rfl)))
    obtain ⟨c, hc, -⟩ := hts ts[firstMax lens] (List.getElem_mem hlt)
    obtain ⟨s, v', h1, h2, h3, h4, h5⟩ := object_back (fuel := fuel) h c
    have hopt : isOptional ts = false := by
      unfold isOptional
      have : ts.any isNoneType = false := by
        rw [List.any_eq_false]
        intro t ht
        obtain ⟨c, rfl, -⟩ := hts t ht
        simp [isNoneType]
      rw [this, Bool.and_false]
    refine ⟨s, v', h1, ?_, h5⟩
    rw [deserArg, if_neg (by simp [h2]), if_neg (by simp [hopt])]
    obtain ⟨n, hn⟩ : ∃ n, ts.length = n + 1 := ⟨ts.length - 1, by omega⟩
    rw [hn, unionLoop]
    simp only [g1, bind, Except.bind]
    rw [List.getElem?_eq_getElem hlt, hc]
    simp only [classRead, h4]
  | @classType n h1 h2 h3 =>
    intro hv
    refine ⟨.str n, .cls n, ?_, ?_, .refl hv⟩
    · simp only [List.mem_cons, List.not_mem_nil, or_false, not_or] at h1
      simp only [serialize, annotationString, h1.1, h1.2.1, h1.2.2.1, h1.2.2.2, h2, if_false, if_true, bind, Except.bind]
    · simp only [deserArg, passes, unlessFile, classTransform, h3]; rfl

/-- **C113** An argument of the supported kinds is read from its saved form: the value obtained holds the same data, and is the very
argument when the objects it holds keep their sequences in the annotated kinds.

Missing: the cases of the theorems below. -/
theorem C113_partial {T : Ann} {v : V} (h : Saved W mro T v) (hv : WF v) : ∃ s v', serialize W v = .ok s ∧
    deserArg W fuel mro T s = .ok v' ∧ dataEq W.toEnv v v' = true ∧ dataEq W.toEnv v' v = true ∧
    (KindsOk W.toEnv v → v' = v) := by
  obtain ⟨s, v', h1, h2, h3⟩ := saved_back h hv
  have hc : Same W.toEnv Close v v' := h3.same.mono (fun a b hab => hab ▸ Close.refl _)
  exact ⟨s, v', h1, h2, same_imp_dataEq hc hv, same_imp_dataEq (hc.symm (fun _ _ => Close.symm)) h3.wf, h3.exact_⟩

theorem seqKindsL_mem {Γ : Env} {l : List V} (h : SeqKindsL Γ l) {x : V} (hx : x ∈ l) : SeqKinds Γ false x := by
  induction l with
  | nil => cases hx
  | cons y l ih =>
    simp only [SeqKindsL] at h
    rcases List.mem_cons.1 hx with rfl | hx
    · exact h.1
    · exact ih h.2 hx

theorem seqKindsD_mem {Γ : Env} {tup : Key → Bool} {d : List (Key × V)} (h : SeqKindsD Γ tup d) {k : Key} {x : V}
    (hx : (k, x) ∈ d) : SeqKinds Γ (tup k) x := by
  induction d with
  | nil => cases hx
  | cons y d ih =>
    obtain ⟨k', y⟩ := y
    simp only [SeqKindsD] at h
    rcases List.mem_cons.1 hx with he | hx
    · simp only [Prod.mk.injEq] at he
      rw [he.1, he.2]; exact h.1
    · exact ih h.2 hx

theorem kindsOk_of {Γ : Env} {tup : Bool} {v : V} (h : SeqKinds Γ tup v) : KindsOk Γ v := by
  intro c a ho
  generalize hw : V.obj c a = w at ho
  induction ho generalizing tup with
  | self => subst hw; simpa only [SeqKinds] using h
  | list hm _ ih => simp only [SeqKinds] at h; exact ih (seqKindsL_mem h.2 hm) hw
  | tuple hm _ ih => simp only [SeqKinds] at h; exact ih (seqKindsL_mem h.2 hm) hw
  | dict hm _ ih => simp only [SeqKinds] at h; exact ih (seqKindsD_mem h hm) hw
  | obj hm _ ih => simp only [SeqKinds] at h; exact ih (seqKindsD_mem h hm) hw

/-- The annotation and the argument of the example: a list of optional numbers, an object of one of two classes, and a string which
names a module. -/
def demoAnn : Ann := .tuple [.list (.union [.builtin .int, .noneType]), .union [.cls "m.Q", .cls "m.P"], .builtin .str]

def demoArg : V := .tuple [.list [.int 1, .none], serDemo, .str "os.path"]

theorem demo_saved : Saved serWorld (fun _ => some 2) demoAnn demoArg := by
  obtain ⟨h1, h2, -⟩ := serDemo_ok
  refine .tuple rfl (fun i t x ht hx => ?_)
  match i with
  | 0 =>
    simp at ht hx
    subst ht hx
    refine .list (fun y hy => .optional ?_)
    simp at hy
    rcases hy with rfl | rfl
    · exact .int (by decide) (by decide)
    · exact .none
  | 1 =>
    simp at ht hx
    subst ht hx
    refine .union (by simp) (fun u hu => ?_) ⟨_, _, rfl, h1, h2⟩
    simp at hu
    rcases hu with rfl | rfl
    · exact ⟨_, rfl, rfl⟩
    · exact ⟨_, rfl, rfl⟩
  | 2 =>
    simp at ht hx
    subst ht hx
    exact .str
  | n + 3 => simp at ht

example : ∃ s, serialize serWorld demoArg = .ok s ∧ deserArg serWorld 0 (fun _ => some 2) demoAnn s = .ok demoArg := by
  have hv : WF demoArg := by simp [demoArg, WF, WFL]; exact serDemo_ok.1
  obtain ⟨s, v', h1, h2, -, -, h3⟩ := C113_partial (fuel := 0) demo_saved hv
  refine ⟨s, h1, ?_⟩
  rw [h2, h3 ?_]
  refine kindsOk_of (tup := true) ?_
  have := serDemo_ok.2.2
  simp only [demoArg, SeqKinds, SeqKindsL, true_and, and_true]
  exact this

/-- **C113** A measure given for a measure is read as a dictionary, and one given for a float is refused. -/
theorem C113_measure_violated : ∃ s, serialize serWorld (.measure "u.Distance" 1) = .ok s ∧
    deserArg serWorld fuel mro (.measure "u.Distance") s = .ok s ∧ dataEq serWorld.toEnv (.measure "u.Distance" 1) s = false ∧
    deserArg serWorld fuel mro (.builtin .float) s = .error .typeError := by
  refine ⟨_, by rw [serialize], rfl, by decide +kernel, rfl⟩

/-- **C113** An object held by a dictionary, or given for an argument of type Any, is read as a dictionary. -/
theorem C113_unread_violated : ∃ s, serialize serWorld (serObj "a" .none .none) = .ok s ∧
    deserArg serWorld fuel mro .any s = .ok s ∧
    serialize serWorld (.dict [(.str "k", serObj "a" .none .none)]) = .ok (.dict [(.str "k", s)]) ∧
    deserArg serWorld fuel mro (.dict (.builtin .str) (.cls "m.P")) (.dict [(.str "k", s)]) = .ok (.dict [(.str "k", s)]) ∧
    dataEq serWorld.toEnv (serObj "a" .none .none) s = false := by
  refine ⟨_, rfl, rfl, rfl, rfl, by decide⟩

/-- **C113** A builtin class is read as False. -/
theorem C113_class_violated : ∃ s, serialize serWorld (.cls "builtins.int") = .ok s ∧
    deserArg serWorld fuel mro .classType s = .ok (.bool false) := ⟨_, rfl, rfl⟩

/-- **C113** No number is accepted for a union of builtins, nor for an optional type whose None is written first. -/
theorem C113_union_violated (i : Int) : deserArg W fuel (fun _ => some 2) (.union [.builtin .int, .builtin .str]) (.int i) = .error .attributeError ∧
    deserArg W fuel mro (.union [.noneType, .builtin .int]) (.int i) = .error .typeError := ⟨rfl, rfl⟩

/-- **C113** A tuple of documents is read as the list of these documents, for an argument which is a list, an iterator or a tuple, and the
argument has the class of its annotation in both cases. -/
theorem C113_sequence (t : Ann) (ts : List Ann) (l : List V) :
    deserArg W fuel mro (.list t) (.tuple l) = deserArg W fuel mro (.list t) (.list l) ∧
    deserArg W fuel mro (.iterator t) (.tuple l) = deserArg W fuel mro (.iterator t) (.list l) ∧
    deserArg W fuel mro (.tuple ts) (.tuple l) = deserArg W fuel mro (.tuple ts) (.list l) ∧
    (∀ v, deserArg W fuel mro (.list t) (.tuple l) = .ok v → ∃ r, v = .list r ∧ r.length = l.length) ∧
    ∀ v, deserArg W fuel mro (.tuple ts) (.list l) = .ok v → ∃ r, v = .tuple r := by
  have size : ∀ {f : V → Except PyErr V} {l r : List V}, mapE f l = .ok r → r.length = l.length := by
    intro f l
    induction l with
    | nil => intro r h; simp [mapE] at h; simp [← h]
    | cons x l ih =>
      intro r h
      rw [mapE] at h
      cases hx : f x with
      | error e => simp [hx, bind, Except.bind] at h
      | ok y =>
        cases hl : mapE f l with
        | error e => simp [hx, hl, bind, Except.bind] at h
        | ok ys => simp [hx, hl, bind, Except.bind] at h; rw [← h, List.length_cons, ih hl, List.length_cons]
  refine ⟨by simp [deserArg, passes, items], by simp [deserArg, passes, items], by simp [deserArg, passes, items], fun v h => ?_, fun v h => ?_⟩
  · simp only [deserArg, passes, items, bind, Except.bind] at h
    cases hm : mapE (fun x => deserArg W fuel mro t x) l with
    | error e => simp [hm] at h
    | ok r => simp [hm] at h; exact ⟨r, h.symm, size hm⟩
  · simp only [deserArg, passes, items, bind, Except.bind] at h
    cases hm : deserZip W fuel mro ts l with
    | error e => simp [hm] at h
    | ok r => simp [hm] at h; exact ⟨r, h.symm⟩

/-- A case of `C113_sequence`. -/
example : deserArg serWorld 5 (fun _ => none) (.list (.builtin .float)) (.tuple [.int 1, .flt 2]) = .ok (.list [.flt 1, .flt 2]) := by rfl

/-- **C113** A tuple of any length is cut after its first element or refused. -/
theorem C113_variadic_violated (i j : Int) : deserArg W fuel mro (.tuple [.builtin .int, .ellipsis]) (.list [.int i]) = .ok (.tuple [.int i]) ∧
    deserArg W fuel mro (.tuple [.builtin .int, .ellipsis]) (.list [.int i, .int j]) = .error .typeError := ⟨rfl, rfl⟩

/-! ### C114: the type of what is read -/

/-- The annotations made of builtins, lists, tuples, optional types and Any. -/
inductive Basic : Ann → Prop
  | builtin {b} : Basic (.builtin b)
  | any : Basic .any
  | list {t} : Basic t → Basic (.list t)
  | iterator {t} : Basic t → Basic (.iterator t)
  | tuple {ts} : (∀ t ∈ ts, Basic t) → Basic (.tuple ts)
  | optional {t} : Basic t → Basic (.union [t, .noneType])

/-- The value is of the annotated type, except that None is allowed anywhere and that the last elements of a tuple may be missing. -/
inductive Within : Ann → V → Prop
  | none {T} : Within T .none
  | int {i} : Within (.builtin .int) (.int i)
  | boolInt {b} : Within (.builtin .int) (.bool b)
  | flt {q} : Within (.builtin .float) (.flt q)
  | bool {b} : Within (.builtin .bool) (.bool b)
  | str {s} : Within (.builtin .str) (.str s)
  | any {v} : Within .any v
  | list {t l} : (∀ x ∈ l, Within t x) → Within (.list t) (.list l)
  | iterator {t l} : (∀ x ∈ l, Within t x) → Within (.iterator t) (.list l)
  | tuple {ts l} : l.length ≤ ts.length → (∀ (i : Nat) t x, ts[i]? = some t → l[i]? = some x → Within t x) →
      Within (.tuple ts) (.tuple l)
  | optional {t v} : Within t v → Within (.union [t, .noneType]) v

theorem IsJson.of_items {F : Prop} {a : V} {l : List V} (h : IsJson F a) (hi : items a = .ok l) : ∀ x ∈ l, IsJson F x ∨ ∃ k, x = keyV k := by
  cases h with
  | arr h => simp [items] at hi; subst hi; exact fun x hx => .inl (h x hx)
  | str =>
    simp only [items, Except.ok.injEq] at hi
    subst hi
    intro x hx
    obtain ⟨c, -, rfl⟩ := List.mem_map.1 hx
    exact .inl .str
  | obj h =>
    simp only [items, Except.ok.injEq] at hi
    subst hi
    intro x hx
    obtain ⟨e, -, rfl⟩ := List.mem_map.1 hx
    exact .inr ⟨_, rfl⟩
  | _ => simp [items] at hi

/-- JSON data, or an integer of any size, as the key of a dictionary. -/
def Doc (a : V) : Prop := IsJson False a ∨ ∃ k, a = keyV k

theorem Doc.items {a : V} {l : List V} (h : Doc a) (hi : Arg.items a = .ok l) : ∀ x ∈ l, Doc x := by
  rcases h with h | ⟨k, rfl⟩
  · exact IsJson.of_items h hi
  · cases k with
    | str s =>
      simp only [keyV, Arg.items, Except.ok.injEq] at hi
      subst hi
      intro x hx
      obtain ⟨c, -, rfl⟩ := List.mem_map.1 hx
      exact .inl .str
    | int i => simp [keyV, Arg.items] at hi

theorem mapE_ok {α β : Type} {f : α → Except PyErr β} {l : List α} {r : List β} (h : mapE f l = .ok r) :
    ∀ y ∈ r, ∃ x ∈ l, f x = .ok y := by
  induction l generalizing r with
  | nil => simp only [mapE, Except.ok.injEq] at h; subst h; simp
  | cons x l ih =>
    rw [mapE, bind_ok] at h
    obtain ⟨y, h1, h⟩ := h
    rw [bind_ok] at h
    obtain ⟨r', h2, h⟩ := h
    simp only [Except.ok.injEq] at h
    subst h
    intro z hz
    rcases List.mem_cons.1 hz with rfl | hz
    · exact ⟨x, .head _, h1⟩
    · obtain ⟨w, hw, hf⟩ := ih h2 z hz
      exact ⟨w, .tail _ hw, hf⟩

theorem deserZip_ok {ts : List Ann} {l r : List V} (h : deserZip W fuel mro ts l = .ok r) : r.length ≤ ts.length ∧
    ∀ (i : Nat) t y, ts[i]? = some t → r[i]? = some y → ∃ x, l[i]? = some x ∧ deserArg W fuel mro t x = .ok y := by
  induction ts generalizing l r with
  | nil => cases l <;> simp only [deserZip, Except.ok.injEq] at h <;> subst h <;> simp
  | cons t ts ih =>
    cases l with
    | nil => simp only [deserZip, Except.ok.injEq] at h; subst h; simp
    | cons x l =>
      rw [deserZip, bind_ok] at h
      obtain ⟨y, h1, h⟩ := h
      rw [bind_ok] at h
      obtain ⟨r', h2, h⟩ := h
      simp only [Except.ok.injEq] at h
      subst h
      obtain ⟨k1, k2⟩ := ih h2
      refine ⟨by simpa using k1, fun i u z hu hz => ?_⟩
      cases i with
      | zero => simp at hu hz; subst hu hz; exact ⟨x, rfl, h1⟩
      | succ i => simpa using k2 i u z (by simpa using hu) (by simpa using hz)

theorem builtin_within {b : Builtin} {a v : V} (ha : Doc a) (h : readBuiltin b a = .ok v) : Within (.builtin b) v := by
  unfold readBuiltin at h
  split at h
  · rename_i hi
    simp only [Except.ok.injEq] at h
    subst h
    cases b <;> cases a <;> simp [isInstance] at hi
    · exact .boolInt
    · exact .int
    · exact .flt
    · rcases ha with h | ⟨k, h⟩
      · cases h
      · cases k <;> cases h
    · exact .bool
    · exact .str
  · split at h
    · simp only [Except.ok.injEq] at h; subst h; exact .flt
    · simp only [Except.ok.injEq] at h; subst h; exact .flt
    · simp at h

theorem passes_doc {a : V} (ha : Doc a) (h : passes a = true) : a = .none := by
  rcases ha with ha | ⟨k, rfl⟩
  · cases ha <;> simp [passes] at h <;> rfl
  · cases k <;> simp [passes, keyV] at h

/-- **C114** What is read from JSON data for an annotation made of builtins, lists, tuples, optional types and Any is of this type, with None
allowed anywhere, and tuples possibly cut short.

Missing: see the theorems below. -/
theorem C114_partial {T : Ann} (hT : Basic T) {a v : V} (ha : IsJson False a) (h : deserArg W fuel mro T a = .ok v) : Within T v := by
  replace ha : Doc a := .inl ha
  induction hT generalizing a v with
  | builtin =>
    rw [deserArg] at h
    split at h
    · rename_i hp
      simp only [Except.ok.injEq] at h
      subst h
      rw [passes_doc ha hp]; exact .none
    · have : ∀ r, unlessFile a r = r := by
        intro r
        rcases ha with ha | ⟨k, rfl⟩
        · cases ha <;> first | rfl | contradiction
        · cases k <;> rfl
      rw [this] at h
      exact builtin_within ha h
  | any => exact .any
  | list _ ih =>
    rw [deserArg] at h
    split at h
    · rename_i hp
      simp only [Except.ok.injEq] at h
      subst h
      rw [passes_doc ha hp]; exact .none
    · rw [bind_ok] at h
      obtain ⟨l, h1, h⟩ := h
      rw [bind_ok] at h
      obtain ⟨r, h2, h⟩ := h
      simp only [Except.ok.injEq] at h
      subst h
      refine .list (fun y hy => ?_)
      obtain ⟨x, hx, hf⟩ := mapE_ok h2 y hy
      exact ih hf (ha.items h1 x hx)
  | iterator _ ih =>
    rw [deserArg] at h
    split at h
    · rename_i hp
      simp only [Except.ok.injEq] at h
      subst h
      rw [passes_doc ha hp]; exact .none
    · rw [bind_ok] at h
      obtain ⟨l, h1, h⟩ := h
      rw [bind_ok] at h
      obtain ⟨r, h2, h⟩ := h
      simp only [Except.ok.injEq] at h
      subst h
      refine .iterator (fun y hy => ?_)
      obtain ⟨x, hx, hf⟩ := mapE_ok h2 y hy
      exact ih hf (ha.items h1 x hx)
  | tuple _ ih =>
    rw [deserArg] at h
    split at h
    · rename_i hp
      simp only [Except.ok.injEq] at h
      subst h
      rw [passes_doc ha hp]; exact .none
    · rw [bind_ok] at h
      obtain ⟨l, h1, h⟩ := h
      rw [bind_ok] at h
      obtain ⟨r, h2, h⟩ := h
      simp only [Except.ok.injEq] at h
      subst h
      obtain ⟨k1, k2⟩ := deserZip_ok h2
      refine .tuple k1 (fun i t y ht hy => ?_)
      obtain ⟨x, hx, hf⟩ := k2 i t y ht hy
      exact ih t (List.mem_of_getElem? ht) hf (ha.items h1 x (List.mem_of_getElem? hx))
  | @optional t _ ih =>
    rw [deserArg] at h
    split at h
    · rename_i hp
      simp only [Except.ok.injEq] at h
      subst h
      rw [passes_doc ha hp]; exact .none
    · rw [if_pos (by simp [isOptional, isNoneType]), deserFirst] at h
      exact .optional (ih h ha)

/-- Pairs of numbers, the second one optional. -/
example : ∃ v, deserArg W fuel mro (.list (.tuple [.builtin .float, .union [.builtin .int, .noneType]])) (.list [.list [.int 1, .none], .list [.flt (1/2), .int 3]]) = .ok v ∧
    Within (.list (.tuple [.builtin .float, .union [.builtin .int, .noneType]])) v := by
  refine ⟨.list [.tuple [.flt 1, .none], .tuple [.flt (1/2), .int 3]], rfl, ?_⟩
  refine C114_partial (W := W) (fuel := fuel) (mro := mro) (a := .list [.list [.int 1, .none], .list [.flt (1/2), .int 3]]) (.list (.tuple fun t ht => ?_)) (.arr fun x hx => ?_) rfl
  · simp at ht
    rcases ht with rfl | rfl
    · exact .builtin
    · exact .optional .builtin
  · simp at hx
    rcases hx with rfl | rfl
    · refine .arr fun y hy => ?_
      simp at hy
      rcases hy with rfl | rfl
      · exact .int (by decide) (by decide)
      · exact .none
    · refine .arr fun y hy => ?_
      simp at hy
      rcases hy with rfl | rfl
      · exact .flt
      · exact .int (by decide) (by decide)

theorem foldl_max_le (l : List Nat) (m : Nat) : m ≤ l.foldl max m ∧ ∀ x ∈ l, x ≤ l.foldl max m := by
  induction l generalizing m with
  | nil => simp
  | cons y l ih =>
    obtain ⟨h1, h2⟩ := ih (max m y)
    rw [List.foldl_cons]
    refine ⟨by omega, fun x hx => ?_⟩
    rcases List.mem_cons.1 hx with rfl | hx
    · omega
    · exact h2 x hx

theorem firstMax_get {l : List Nat} (hl : l ≠ []) : ∃ x, l[firstMax l]? = some x ∧ ∀ y ∈ l, y ≤ x := by
  have hmem : l.foldl max 0 ∈ l := by
    rcases foldl_max_mem l 0 with h | h
    · cases l with
      | nil => exact absurd rfl hl
      | cons y l =>
        have := (foldl_max_le (y :: l) 0).2 y (.head _)
        rw [h] at this ⊢
        have : y = 0 := by omega
        exact this ▸ .head _
    · exact h
  refine ⟨l.foldl max 0, ?_, (foldl_max_le l 0).2⟩
  unfold firstMax
  rw [List.getElem?_eq_getElem (List.idxOf_lt_length_iff.2 hmem)]
  simp

theorem mapE_mroLen {f : Ann → Nat} {l : List Ann} (h : ∀ t ∈ l, mro t = some (f t)) : mapE (mroLen mro) l = .ok (l.map f) := by
  induction l with
  | nil => rfl
  | cons t l ih =>
    rw [mapE, ih (fun u hu => h u (.tail _ hu))]
    simp only [mroLen, h t (.head _), bind, Except.bind, List.map_cons]

theorem mem_or_erased {β : Type} {l : List β} {n : Nat} {t u : β} (ht : l[n]? = some t) (hu : u ∈ l) : u = t ∨ u ∈ l.eraseIdx n := by
  induction l generalizing n with
  | nil => simp at hu
  | cons x l ih =>
    cases n with
    | zero =>
      simp only [List.getElem?_cons_zero, Option.some.injEq] at ht
      subst ht
      rcases List.mem_cons.1 hu with h | h
      · exact .inl h
      · exact .inr (by simpa using h)
    | succ n =>
      rw [List.eraseIdx_cons_succ]
      rcases List.mem_cons.1 hu with h | h
      · exact .inr (h ▸ .head _)
      · rcases ih (by simpa using ht) h with h | h
        · exact .inl h
        · exact .inr (.tail _ h)

/-- The step of the loop on the classes of a union: the class tried has the most ancestors. -/
theorem unionLoop_step {f : Ann → Nat} {a : V} {ts : List Ann} (h : ∀ t ∈ ts, mro t = some (f t)) (hne : ts ≠ []) :
    ∃ m t, ts[m]? = some t ∧ t ∈ ts ∧ (∀ u ∈ ts, f u ≤ f t) ∧ (ts.eraseIdx m).length + 1 = ts.length ∧
      unionLoop W fuel mro a ts.length ts = match classRead W fuel t a with
        | .error .keyError => unionLoop W fuel mro a (ts.eraseIdx m).length (ts.eraseIdx m)
        | r => r := by
  obtain ⟨x, h1, h2⟩ := firstMax_get (l := ts.map f) (by simpa using hne)
  rw [List.getElem?_map] at h1
  cases ht : ts[firstMax (ts.map f)]? with
  | none => rw [ht] at h1; cases h1
  | some t =>
    rw [ht] at h1
    simp only [Option.map_some, Option.some.injEq] at h1
    have hlt := (List.getElem?_eq_some_iff.1 ht).1
    have hlen : (ts.eraseIdx (firstMax (ts.map f))).length + 1 = ts.length := by rw [List.length_eraseIdx_of_lt hlt]; omega
    refine ⟨_, t, ht, List.mem_of_getElem? ht, fun u hu => h1 ▸ h2 _ (List.mem_map_of_mem hu), hlen, ?_⟩
    rw [← hlen, unionLoop, mapE_mroLen h]
    simp only [bind, Except.bind, ht]
    cases classRead W fuel t a with
    | ok v => rfl
    | error e => cases e <;> rfl

/-- **C114** What is read for a union of several types is what one of them reads, when those with more ancestors all lack a key.
Missing: unions of which one of the first types raises another error (`C114_union_violated`, `C114_union_measure_violated`). -/
theorem C114_union_partial {f : Ann → Nat} {a v : V} {ts : List Ann} (hm : ∀ t ∈ ts, mro t = some (f t)) (ho : isOptional ts = false)
    (ha : passes a = false) (h : deserArg W fuel mro (.union ts) a = .ok v) :
    ∃ t ∈ ts, classRead W fuel t a = .ok v ∧ ∀ u ∈ ts, f t < f u → classRead W fuel u a = .error .keyError := by
  rw [deserArg, if_neg (by simp [ha]), if_neg (by simp [ho])] at h
  clear ho
  generalize hn : ts.length = n at h
  induction n generalizing ts with
  | zero => simp [unionLoop] at h
  | succ n ih =>
    obtain ⟨m, t, h1, h2, h3, h4, h5⟩ := unionLoop_step (W := W) (fuel := fuel) (a := a) hm (by rintro rfl; simp at hn)
    rw [← hn, h5] at h
    split at h
    · rename_i hk
      obtain ⟨u, g1, g2, g3⟩ := ih (fun x hx => hm x (List.mem_of_mem_eraseIdx hx)) (ts := ts.eraseIdx m) (by omega) (by
        rwa [show n = (ts.eraseIdx m).length by omega])
      refine ⟨u, List.mem_of_mem_eraseIdx g1, g2, fun w hw hlt => ?_⟩
      rcases mem_or_erased h1 hw with rfl | hw
      · exact hk
      · exact g3 w hw hlt
    · exact ⟨t, h2, h, fun u hu hlt => absurd (h3 u hu) (by omega)⟩

/-- **C114** A document which one of the types of a union reads, the others lacking a key at most, is read. -/
theorem C114_union_read {f : Ann → Nat} {a : V} {ts : List Ann} (hm : ∀ t ∈ ts, mro t = some (f t)) (ho : isOptional ts = false)
    (ha : passes a = false) (hall : ∀ t ∈ ts, (∃ v, classRead W fuel t a = .ok v) ∨ classRead W fuel t a = .error .keyError)
    (hone : ∃ t ∈ ts, ∃ v, classRead W fuel t a = .ok v) : ∃ v, deserArg W fuel mro (.union ts) a = .ok v := by
  rw [deserArg, if_neg (by simp [ha]), if_neg (by simp [ho])]
  clear ho
  generalize hn : ts.length = n
  induction n generalizing ts with
  | zero =>
    obtain ⟨t, ht, -⟩ := hone
    rw [List.length_eq_zero_iff.1 hn] at ht
    cases ht
  | succ n ih =>
    obtain ⟨m, t, h1, h2, h3, h4, h5⟩ := unionLoop_step (W := W) (fuel := fuel) (a := a) hm (by rintro rfl; simp at hn)
    rw [← hn, h5]
    rcases hall t h2 with ⟨v, hv⟩ | hk
    · exact ⟨v, by rw [hv]⟩
    · rw [hk]
      simp only
      have := ih (ts := ts.eraseIdx m) (fun x hx => hm x (List.mem_of_mem_eraseIdx hx)) (fun x hx => hall x (List.mem_of_mem_eraseIdx hx)) (by
        obtain ⟨u, hu, v, hv⟩ := hone
        rcases mem_or_erased h1 hu with rfl | hu
        · rw [hk] at hv; cases hv
        · exact ⟨u, hu, v, hv⟩) (by omega)
      rwa [show (ts.eraseIdx m).length = n by omega]

/-- Two classes, the second with less arguments.  Example only. -/
def pairWorld : World where
  info := fun c => if c = "m.P" then { initArgs := ["name", "size"] } else if c = "m.Q" then { initArgs := ["name"] } else {}
  kind := fun c => if c = "m.P" ∨ c = "m.Q" then some .generic else if c = "u.Distance" then some .measure else none
  resolve := fun _ => none

/-- A document with a measure without value.  Example only. -/
def pairDoc : V := .dict [(.str "name", .str "x"), (.str "size", .dict [(.str "object_class", .str "u.Distance")])]

/-- The ancestors of the two classes.  Example only. -/
def pairMro : Ann → Nat
  | .cls "m.P" => 4
  | _ => 3

theorem pairDoc_read : classRead pairWorld fuel (.cls "m.P") pairDoc = .error .keyError ∧
    classRead pairWorld fuel (.cls "m.Q") pairDoc = .ok (.obj "m.Q" [(.str "name", .str "x")]) := by
  refine ⟨rfl, rfl⟩

example : ∃ v, deserArg pairWorld fuel (fun t => some (pairMro t)) (.union [.cls "m.P", .cls "m.Q"]) pairDoc = .ok v :=
  C114_union_read (f := pairMro) (fun _ _ => rfl) rfl rfl (fun t ht => by
    simp at ht
    rcases ht with rfl | rfl
    · exact .inr pairDoc_read.1
    · exact .inl ⟨_, pairDoc_read.2⟩) ⟨.cls "m.Q", by simp, _, pairDoc_read.2⟩

/-- **C114** A document of the class with less arguments is refused: a missing argument is a TypeError, not a KeyError, so that the
other class is never tried. -/
theorem C114_union_violated : deserArg pairWorld fuel (fun t => some (pairMro t)) (.union [.cls "m.P", .cls "m.Q"]) (.dict [(.str "name", .str "x")]) = .error .typeError ∧
    classRead pairWorld fuel (.cls "m.Q") (.dict [(.str "name", .str "x")]) = .ok (.obj "m.Q" [(.str "name", .str "x")]) := by
  refine ⟨rfl, rfl⟩

/-- **C114** A union whose type of most ancestors is a measure refuses all documents with a TypeError, the other types not being tried. -/
theorem C114_union_measure_violated {f : Ann → Nat} {a : V} {c : String} {ts : List Ann} (hm : ∀ t ∈ ts, mro t = some (f t)) (ho : isOptional ts = false)
    (ha : passes a = false) (hc : .measure c ∈ ts) (hmax : ∀ t ∈ ts, t ≠ .measure c → f t < f (.measure c)) : deserArg W fuel mro (.union ts) a = .error .typeError := by
  rw [deserArg, if_neg (by simp [ha]), if_neg (by simp [ho])]
  obtain ⟨m, t, h1, h2, h3, h4, h5⟩ := unionLoop_step (W := W) (fuel := fuel) (a := a) hm (by rintro rfl; cases hc)
  have ht : t = .measure c := by
    by_contra hne
    have := hmax t h2 hne
    have := h3 _ hc
    omega
  subst ht
  rw [h5]
  rfl

/-- A union of a measure, which has five ancestors, and of two classes. -/
example : deserArg pairWorld fuel (fun t => some (match t with | .measure _ => 5 | _ => 4)) (.union [.cls "m.Q", .measure "u.Distance", .cls "m.P"]) (.dict [(.str "name", .str "x")]) =
    .error .typeError :=
  C114_union_measure_violated (f := fun t => match t with | .measure _ => 5 | _ => 4) (c := "u.Distance") (fun _ _ => rfl) rfl rfl (by simp) (by
    intro t ht hne
    simp only [List.mem_cons, List.not_mem_nil, or_false] at ht
    rcases ht with rfl | rfl | rfl
    · decide
    · exact absurd rfl hne
    · decide)

/-- **C113** A file is read as it is, alone or in a list of one file, as forms give it.  Several files are refused. -/
theorem C113_file (b c : Bool) (n x : String) : deserArg W fuel mro (.file b) (.file c n x) = .ok (.file c n x) ∧
    deserArg W fuel mro (.file b) (.list [.file c n x]) = .ok (.file c n x) ∧
    ∀ f g l, deserArg W fuel mro (.file b) (.list (f :: g :: l)) = .error .typeError := ⟨rfl, rfl, fun _ _ _ => rfl⟩

/-- **C114** None, whatever the type, an object for a number, a tuple which is too short, and any value for a dictionary, a literal or a measure,
are accepted. -/
theorem C114_unchecked_violated (T : Ann) (v : V) (c : String) (a : List (Key × V)) : deserArg W fuel mro T .none = .ok .none ∧
    deserArg W fuel mro T (.obj c a) = .ok (.obj c a) ∧
    deserArg W fuel mro (.tuple [.builtin .int, .builtin .str]) (.list [.int 1]) = .ok (.tuple [.int 1]) ∧
    deserArg W fuel mro (.dict (.builtin .str) (.builtin .int)) v = .ok v ∧ deserArg W fuel mro (.literal [.str "a"]) v = .ok v ∧
    deserArg W fuel mro (.measure c) v = .ok v := by
  refine ⟨by cases T <;> rfl, by cases T <;> rfl, rfl, rfl, rfl, rfl⟩

theorem dereference_keys (v : V) (order : List (Path × Option Path)) (M M' : PMemo) (h : dereference W v order M = .ok M') (p : Path)
    (hp : p ∉ order.map (·.1)) : M'.lookup p = M.lookup p := by
  induction order generalizing M with
  | nil => simp only [dereference, Except.ok.injEq] at h; rw [h]
  | cons e order ih =>
    obtain ⟨node, r⟩ := e
    simp only [List.map_cons, List.mem_cons, not_or] at hp
    have hne : (p == node) = false := by simpa using hp.1
    cases r with
    | none =>
      rw [dereference, bind_ok] at h
      obtain ⟨x, -, h⟩ := h
      rw [bind_ok] at h
      obtain ⟨o, -, h⟩ := h
      rw [ih _ h hp.2, List.lookup_cons, hne]
    | some r =>
      rw [dereference] at h
      split at h
      · simp at h
      · rw [ih _ h hp.2, List.lookup_cons, hne]

theorem construct_keys {defaults : List (String × V)} {sub : List (Key × V)} {args : List String} {r : List (Key × V)}
    (h : construct defaults sub args = .ok r) : keysOf r = args.map Key.str := by
  induction args generalizing r with
  | nil => simp only [construct, Except.ok.injEq] at h; subst h; rfl
  | cons a args ih =>
    rw [construct] at h
    split at h
    · rw [bind_ok] at h
      obtain ⟨r', h1, h⟩ := h
      simp only [Except.ok.injEq] at h
      subst h
      simp only [keysOf, List.map_cons] at ih ⊢
      rw [ih h1]
    · split at h
      · rw [bind_ok] at h
        obtain ⟨r', h1, h⟩ := h
        simp only [Except.ok.injEq] at h
        subst h
        simp only [keysOf, List.map_cons] at ih ⊢
        rw [ih h1]
      · simp at h

theorem loadDict_class {d : List (Key × V)} {c : String} {v : V} (href : d.lookup (.str "$ref") = none)
    (hc : d.lookup (.str "object_class") = some (.str c)) (hk : W.kind c = some .generic) (h : loadDict W fuel d = .ok (some v)) :
    ∃ a, v = .obj c a ∧ keysOf a = (W.info c).initArgs.map Key.str := by
  unfold loadDict at h
  rw [bind_ok] at h
  obtain ⟨order, h1, h⟩ := h
  cases order with
  | none => simp at h
  | some order =>
    simp only at h
    rw [bind_ok] at h
    obtain ⟨M, h2, h⟩ := h
    rw [bind_ok] at h
    obtain ⟨o, h3, h⟩ := h
    simp only [Except.ok.injEq, Option.some.injEq] at h
    subst h
    have hroot : M.lookup ["#"] = none := by
      rw [dereference_keys _ _ _ _ h2 ["#"] ?_]
      · rfl
      · unfold deserializationOrder at h1
        rw [bind_ok] at h1
        obtain ⟨g, -, h1⟩ := h1
        cases g with
        | none => simp at h1
        | some g =>
          simp only at h1
          split at h1
          · simp only [Except.ok.injEq, Option.some.injEq] at h1; subst h1; simp
          · split at h1
            · simp at h1
            · simp only [Except.ok.injEq, Option.some.injEq] at h1
              subst h1
              simp
    rw [deser] at h3
    simp only [hroot, href, hc, hk] at h3
    rw [bind_ok] at h3
    obtain ⟨s, -, h3⟩ := h3
    rw [bind_ok] at h3
    obtain ⟨a, h4, h3⟩ := h3
    simp only [Except.ok.injEq] at h3
    exact ⟨a, h3.symm, construct_keys h4⟩

/-- The class which a document names, else the one which is expected. -/
def NamedClass (d : List (Key × V)) (c c' : String) : Prop :=
  (d.lookup (.str "object_class") = none ∧ c' = c) ∨ d.lookup (.str "object_class") = some (.str c')

/-- **C114** What is read from a dictionary for an argument which is an object is an object, with the attributes of its class: the class
which the dictionary names, whatever the annotation, and that of the annotation if it names none.
Missing: the class read may be another one than that of the annotation (`C114_class_violated`). -/
theorem C114_object_partial {c c' : String} {d : List (Key × V)} {v : V} (href : d.lookup (.str "$ref") = none)
    (hn : NamedClass d c c') (hk : W.kind c' = some .generic) (h : deserArg W fuel mro (.cls c) (.dict d) = .ok v) :
    ∃ a, v = .obj c' a ∧ keysOf a = (W.info c').initArgs.map Key.str := by
  rw [deserArg, if_neg (by simp [passes])] at h
  simp only [unlessFile, readObject] at h
  rcases hn with ⟨h1, rfl⟩ | h1
  · simp only [h1] at h
    split at h
    · rename_i x hx
      simp only [Except.ok.injEq] at h
      subst h
      refine loadDict_class ?_ ?_ hk hx
      · rw [List.lookup_append, href]; rfl
      · rw [List.lookup_append, h1]; simp [List.lookup_cons]
    · simp at h
    · simp at h
  · simp only [h1] at h
    split at h
    · rename_i x hx
      simp only [Except.ok.injEq] at h
      subst h
      exact loadDict_class href h1 hk hx
    · simp at h
    · simp at h

/-- A document without class, and one which names an other class than expected. -/
example : ∃ a, deserArg serWorld 0 mro (.cls "m.P") (.dict [(.str "name", .str "x"), (.str "pos", .none), (.str "data", .int 1)]) = .ok (.obj "m.P" a) :=
  ⟨_, rfl⟩

/-- **C114** An object of an other class than the expected one is accepted. -/
theorem C114_class_violated : ∃ a v, deserArg serWorld fuel mro (.cls "m.Q") (.dict a) = .ok v ∧ (∃ b, v = .obj "m.P" b) ∧ serWorld.sub "m.P" "m.Q" = false := by
  refine ⟨[(.str "object_class", .str "m.P"), (.str "name", .str "x"), (.str "pos", .none), (.str "data", .int 1)], serObj "x" .none (.int 1), ?_, ⟨_, rfl⟩, rfl⟩
  rw [deserArg, if_neg (by simp [passes])]
  simp only [unlessFile, readObject]
  have hl := loadDict_noRefs serWorld fuel [(.str "object_class", .str "m.P"), (.str "name", .str "x"), (.str "pos", .none), (.str "data", .int 1)] (by rfl)
    (serObj "x" .none (.int 1)) (by rfl)
  simp [List.lookup, hl]

/-! ### C116: arguments of a method -/

/-- **C116** If the reading succeeds, the argument of each position is the value read, for its annotation, from the entry of this
position; the arguments without entry are left out, and other entries are ignored. -/
theorem argsLoop_ok {s : Spec} {d : List (String × V)} {i : Nat} {args : List String} {r : List (String × V)} (hnd : args.Nodup)
    (h : argsLoop W fuel mro s d i args = .ok r) : (∀ e ∈ r, e.1 ∈ args) ∧ ∀ (n : Nat) arg, args[n]? = some arg → match d.lookup (toString (i + n)) with
      | none => r.lookup arg = none
      | some x => ∃ t v, s.annotations.lookup arg = some t ∧ deserArg W fuel mro t x = .ok v ∧ r.lookup arg = some v := by
  induction args generalizing i r with
  | nil => simp only [argsLoop, Except.ok.injEq] at h; subst h; simp
  | cons a args ih =>
    rw [List.nodup_cons] at hnd
    rw [argsLoop] at h
    split at h
    · rename_i hd
      obtain ⟨k1, k2⟩ := ih hnd.2 h
      refine ⟨fun e he => .tail _ (k1 e he), fun n arg hn => ?_⟩
      cases n with
      | zero =>
        simp at hn
        subst hn
        rw [Nat.add_zero, hd]
        refine List.lookup_eq_none_iff.2 (fun e he => ?_)
        have := k1 e he
        simp only [beq_eq_false_iff_ne, ne_eq, bne_iff_ne]
        intro heq
        exact hnd.1 (heq ▸ this)
      | succ n =>
        have := k2 n arg (by simpa using hn)
        rwa [show i + 1 + n = i + (n + 1) by omega] at this
    · rename_i x hd
      split at h
      · simp at h
      · rename_i t ht
        rw [bind_ok] at h
        obtain ⟨v, h1, h⟩ := h
        rw [bind_ok] at h
        obtain ⟨r', h2, h⟩ := h
        simp only [Except.ok.injEq] at h
        subst h
        obtain ⟨k1, k2⟩ := ih hnd.2 h2
        refine ⟨fun e he => ?_, fun n arg hn => ?_⟩
        · rcases List.mem_cons.1 he with rfl | he
          · exact .head _
          · exact .tail _ (k1 e he)
        · cases n with
          | zero =>
            simp at hn
            subst hn
            rw [Nat.add_zero, hd]
            exact ⟨t, v, ht, h1, by simp [List.lookup_cons]⟩
          | succ n =>
            have := k2 n arg (by simpa using hn)
            rw [show i + 1 + n = i + (n + 1) by omega] at this
            have hne : (arg == a) = false := by
              have : arg ≠ a := fun he => hnd.1 (he ▸ List.mem_of_getElem? (by simpa using hn))
              simpa using this
            rw [List.lookup_cons, hne]
            exact this

/-- **C116** If the reading succeeds, the argument of each position is the value read, for its annotation, from the entry of this
position; the arguments without entry are left out, so that their default values apply; other entries are ignored.
Missing: entries under the names of the arguments, which are ignored, and arguments without annotation (`C116_names_violated`, `C116_annotation_violated`). -/
theorem C116_positions_partial {s : Spec} (hnd : s.args.Nodup) {d : List (String × V)} {r : List (String × V)}
    (h : dictToArguments W fuel mro s d = .ok r) : (∀ e ∈ r, e.1 ∈ s.args.drop 1) ∧ ∀ (n : Nat) arg, s.args[n + 1]? = some arg →
      match d.lookup (toString n) with
      | none => r.lookup arg = none
      | some x => ∃ t v, s.annotations.lookup arg = some t ∧ deserArg W fuel mro t x = .ok v ∧ r.lookup arg = some v := by
  obtain ⟨h1, h2⟩ := argsLoop_ok ((List.drop_sublist 1 _).nodup hnd) h
  refine ⟨h1, fun n arg hn => ?_⟩
  have := h2 n arg (by rw [List.getElem?_drop, Nat.add_comm]; exact hn)
  rwa [Nat.zero_add] at this

/-- The saved arguments of a call are read as the arguments of the call. -/
theorem argsLoop_total {s : Spec} {d : List (String × V)} {i : Nat} {args : List String}
    (h : ∀ (n : Nat) arg x, args[n]? = some arg → d.lookup (toString (i + n)) = some x → ∃ t v, s.annotations.lookup arg = some t ∧
      deserArg W fuel mro t x = .ok v) : ∃ r, argsLoop W fuel mro s d i args = .ok r := by
  induction args generalizing i with
  | nil => exact ⟨[], rfl⟩
  | cons a args ih =>
    obtain ⟨r, hr⟩ := ih (i := i + 1) (fun n arg x hn hx => h (n + 1) arg x (by simpa using hn) (by rwa [show i + (n + 1) = i + 1 + n by omega]))
    rw [argsLoop]
    split
    · exact ⟨r, hr⟩
    · rename_i x hx
      obtain ⟨t, v, h1, h2⟩ := h 0 a x rfl hx
      exact ⟨(a, v) :: r, by simp only [h1, h2, hr, bind, Except.bind]⟩

/-- **C116** The arguments of a call, saved under their positions, are read as arguments which hold the same data, each under its
name.
Missing: as for `C116_positions_partial`. -/
theorem C116_call_partial {s : Spec} (hnd : s.args.Nodup) {call : List (String × V)} {d : List (String × V)}
    (hcall : ∀ (n : Nat) arg, s.args[n + 1]? = some arg → match call.lookup arg with
      | none => d.lookup (toString n) = none
      | some v => ∃ t x, s.annotations.lookup arg = some t ∧ WF v ∧ Saved W mro t v ∧ serialize W v = .ok x ∧
          d.lookup (toString n) = some x) :
    ∃ r, dictToArguments W fuel mro s d = .ok r ∧ ∀ arg ∈ s.args.drop 1, match call.lookup arg with
      | none => r.lookup arg = none
      | some v => ∃ v', r.lookup arg = some v' ∧ dataEq W.toEnv v v' = true ∧ (KindsOk W.toEnv v → v' = v) := by
  have hread : ∀ (n : Nat) arg x, s.args[n + 1]? = some arg → d.lookup (toString n) = some x → ∃ t v v', call.lookup arg = some v ∧
      s.annotations.lookup arg = some t ∧ deserArg W fuel mro t x = .ok v' ∧ dataEq W.toEnv v v' = true ∧ (KindsOk W.toEnv v → v' = v) := by
    intro n arg x hn hx
    have := hcall n arg hn
    split at this
    · rw [this] at hx; cases hx
    · rename_i v hv
      obtain ⟨t, x', h1, h2, h3, h4, h5⟩ := this
      rw [h5] at hx
      cases hx
      obtain ⟨s', v', e1, e2, e3, -, e4⟩ := C113_partial (fuel := fuel) h3 h2
      rw [h4] at e1
      cases e1
      exact ⟨t, v, v', hv, h1, e2, e3, e4⟩
  obtain ⟨r, hr⟩ := argsLoop_total (W := W) (fuel := fuel) (mro := mro) (s := s) (d := d) (i := 0) (args := s.args.drop 1) (fun n arg x hn hx => by
    rw [List.getElem?_drop, Nat.add_comm] at hn
    rw [Nat.zero_add] at hx
    obtain ⟨t, v, v', -, h1, h2, -⟩ := hread n arg x hn hx
    exact ⟨t, v', h1, h2⟩)
  refine ⟨r, hr, fun arg ha => ?_⟩
  obtain ⟨n, hn⟩ := List.getElem?_of_mem ha
  rw [List.getElem?_drop, Nat.add_comm] at hn
  have h1 := (C116_positions_partial hnd hr).2 n arg hn
  have h2 := hcall n arg hn
  split at h2
  · rw [h2] at h1; exact h1
  · obtain ⟨t, x, -, -, -, -, hd⟩ := h2
    obtain ⟨t', v, v', e1, e2, e3, e4, e5⟩ := hread n arg x hn hd
    rename_i v0 hv0
    rw [hv0] at e1
    cases e1
    rw [hd] at h1
    obtain ⟨t'', v'', g1, g2, g3⟩ := h1
    rw [e2] at g1
    cases g1
    rw [e3] at g2
    cases g2
    exact ⟨v', g3, e4, e5⟩

/-- A method with two arguments, whose second one is given. -/
example : dictToArguments serWorld 0 mro ⟨["self", "a", "b"], [("a", .builtin .int), ("b", .builtin .float)]⟩ [("1", .int 3), ("x", .none)] =
    .ok [("b", .flt 3)] := by rfl

/-- **C116** The entries named after the arguments, as `method_dict` writes them, are all ignored. -/
theorem C116_names_violated {s : Spec} {d : List (String × V)} (h : ∀ e ∈ d, ∀ n : Nat, e.1 ≠ toString n) :
    dictToArguments W fuel mro s d = .ok [] := by
  unfold dictToArguments
  generalize s.args.drop 1 = args
  generalize 0 = i
  induction args generalizing i with
  | nil => rfl
  | cons a args ih =>
    have : d.lookup (toString i) = none := by
      refine List.lookup_eq_none_iff.2 (fun e he => ?_)
      have := h e he i
      simpa using fun he => this he.symm
    rw [argsLoop, this]
    exact ih _

/-- The default dictionary of a method of one argument. -/
example : dictToArguments serWorld 0 mro ⟨["self", "a"], [("a", .builtin .int)]⟩ [("a", .int 3)] = .ok [] := by rfl

/-- **C116** An argument without annotation, when it is given, is a KeyError. -/
theorem C116_annotation_violated (x : V) : dictToArguments W fuel mro ⟨["self", "a"], []⟩ [("0", x)] = .error .keyError := rfl

end DC.Arg
