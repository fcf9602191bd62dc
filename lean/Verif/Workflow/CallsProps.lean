import Verif.Workflow.Calls
/-
Specification and properties of blocks that call a function (C154, C155).
-/
namespace DC.Calls
open DC.Types
variable {τ δ σ : Type}

/-! ### C154: the inputs -/

/-- The parameters a block offers: all but self, cls and progress_callback. -/
def offered (ps : List (String × Option δ)) : List (String × Option δ) := ps.filter fun p => p.1 ∉ skipped

theorem offered_cons_in {p : String × Option δ} (ps : List (String × Option δ)) (h : p.1 ∈ skipped) : offered (p :: ps) = offered ps := by
  unfold offered
  rw [List.filter_cons_of_neg (by simpa using h)]

theorem offered_cons_out {p : String × Option δ} (ps : List (String × Option δ)) (h : p.1 ∉ skipped) : offered (p :: ps) = p :: offered ps := by
  unfold offered
  rw [List.filter_cons_of_pos (by simpa using h)]

/-- The default of the parameter at an index, in a valid signature. -/
theorem default_at {sig : Signature δ} (hv : sig.Valid) {i : Nat} {a : String} {o : Option δ} (hi : sig.params[i]? = some (a, o)) :
    ((splitArgspecs sig.spec).1 - (splitArgspecs sig.spec).2 < (i : Int) ∧ ∃ ds d, o = some d ∧ sig.spec.defaults = some ds ∧
      Py.get ds ((splitArgspecs sig.spec).2 - (splitArgspecs sig.spec).1 + i - 1) = .ok d) ∨
    (¬ (splitArgspecs sig.spec).1 - (splitArgspecs sig.spec).2 < (i : Int) ∧ o = none) := by
  obtain ⟨-, pa, pb, hab, hna, hnb⟩ := hv
  have hdef : sig.params.filterMap (·.2) = pb.filterMap (·.2) := by
    rw [hab, List.filterMap_append, filterMap_none hna, List.nil_append]
  have hlen : (pb.filterMap (·.2)).length = pb.length := by
    have := congrArg List.length (filterMap_some hnb)
    simpa using this.symm
  have hn : (splitArgspecs sig.spec).1 = (pa.length + pb.length : Int) - 1 := by
    simp [splitArgspecs, Signature.spec, hab]
  have hd : (splitArgspecs sig.spec).2 = pb.length := by
    simp only [splitArgspecs, Signature.spec, hdef]
    split
    · rename_i d hd
      split at hd
      · simp at hd
      · simp only [Option.some.injEq] at hd
        rw [← hd, hlen]
    · rename_i hd
      split at hd
      · rename_i h0
        rw [← hlen, h0]
        rfl
      · simp at hd
  rw [hn, hd]
  by_cases hge : pa.length ≤ i
  · left
    refine ⟨by omega, ?_⟩
    have hbget : pb[i - pa.length]? = some (a, o) := by
      rw [hab, List.getElem?_append_right hge] at hi
      exact hi
    have hone : o ≠ none := hnb (a, o) (List.mem_of_getElem? hbget)
    obtain ⟨d, rfl⟩ := Option.ne_none_iff_exists'.1 hone
    have hdget : (pb.filterMap (·.2))[i - pa.length]? = some d := by
      have h1 : (pb.map (·.2))[i - pa.length]? = some (some d) := by
        rw [List.getElem?_map, hbget]
        rfl
      rw [filterMap_some hnb, List.getElem?_map] at h1
      cases h2 : (pb.filterMap (·.2))[i - pa.length]? with
      | none => rw [h2] at h1; simp at h1
      | some d' => rw [h2] at h1; simpa using h1
    have hne : pb.filterMap (·.2) ≠ [] := by
      intro h0
      rw [h0] at hdget
      simp at hdget
    refine ⟨pb.filterMap (·.2), d, rfl, ?_, ?_⟩
    · simp only [Signature.spec, hdef]
      rw [if_neg hne]
    · have : ((pb.length : Int) - ((pa.length + pb.length : Int) - 1) + (i : Nat) - 1) = ((i - pa.length : Nat) : Int) := by omega
      rw [this, Py.get_nat, hdget]
  · right
    refine ⟨by omega, ?_⟩
    have haget : pa[i]? = some (a, o) := by
      rw [hab, List.getElem?_append_left (by omega)] at hi
      exact hi
    exact hna (a, o) (List.mem_of_getElem? haget)

/-- The inputs a user expects for parameters whose types are all known. -/
def Expected (hints : List (String × τ)) (ps : List (String × Option δ)) (is : List (Input τ δ)) : Prop :=
  is.map (fun i => (i.name, i.default)) = ps ∧ ∀ i ∈ is, hints.lookup i.name = some i.type

theorem inputsLoop_ok {sig : Signature δ} (hv : sig.Valid) {hints : List (String × τ)} : ∀ (todo done : List (String × Option δ)),
    sig.params = done ++ todo → (∀ p ∈ offered todo, hints.lookup p.1 ≠ none) →
    ∃ is, inputsLoop hints (splitArgspecs sig.spec).1 (splitArgspecs sig.spec).2 sig.spec.defaults done.length (todo.map (·.1)) = .ok is ∧
      Expected hints (offered todo) is
  | [], done, _, _ => ⟨[], rfl, rfl, by simp⟩
  | (a, o) :: todo, done, hp, ht => by
    have hp' : sig.params = (done ++ [(a, o)]) ++ todo := by rw [hp]; simp
    rw [List.map_cons, inputsLoop]
    have hlen : (done ++ [(a, o)]).length = done.length + 1 := by simp
    by_cases hs : a ∈ skipped
    · rw [if_pos hs, offered_cons_in _ hs]
      rw [offered_cons_in _ hs] at ht
      have := inputsLoop_ok hv todo (done ++ [(a, o)]) hp' ht
      rwa [hlen] at this
    · rw [if_neg hs, offered_cons_out _ hs]
      rw [offered_cons_out _ hs] at ht
      obtain ⟨is, his, h1, h2⟩ := inputsLoop_ok hv todo (done ++ [(a, o)]) hp' fun p hp => ht p (.tail _ hp)
      rw [hlen] at his
      have ha := ht _ (.head _)
      obtain ⟨t, hta⟩ := Option.ne_none_iff_exists'.1 ha
      dsimp only at hta
      rw [hta]
      dsimp only
      have hget : sig.params[done.length]? = some (a, o) := by rw [hp]; simp
      rcases default_at hv hget with ⟨hlt, ds, d, rfl, hds, hd⟩ | ⟨hlt, rfl⟩
      · rw [if_pos hlt]
        rw [hds] at his ⊢
        dsimp only
        rw [hd, his]
        dsimp only
        refine ⟨_, rfl, by simp [h1], ?_⟩
        intro i hi
        rcases List.mem_cons.1 hi with rfl | hi
        · exact hta
        · exact h2 i hi
      · rw [if_neg hlt, his]
        dsimp only
        refine ⟨_, rfl, by simp [h1], ?_⟩
        intro i hi
        rcases List.mem_cons.1 hi with rfl | hi
        · exact hta
        · exact h2 i hi

theorem inputsLoop_typed {hints : List (String × τ)} {nargs ndef : Int} {defaults : Option (List δ)} : ∀ {as : List String} {i : Nat}
    {is : List (Input τ δ)}, inputsLoop hints nargs ndef defaults i as = .ok is → ∀ a ∈ as, a ∉ skipped → hints.lookup a ≠ none
  | [], _, _, _, _, h, _ => by simp at h
  | b :: as, i, is, h, a, ha, hs => by
    rw [inputsLoop] at h
    split at h
    · rename_i hb
      rcases List.mem_cons.1 ha with rfl | ha
      · exact absurd hb hs
      · exact inputsLoop_typed h a ha hs
    · split at h
      · simp at h
      · rename_i t ht
        have rest : ∃ l, inputsLoop hints nargs ndef defaults (i + 1) as = .ok l := by
          split at h
          · split at h
            · simp at h
            · split at h
              · simp at h
              · split at h
                · simp at h
                · exact ⟨_, by assumption⟩
          · split at h
            · simp at h
            · exact ⟨_, by assumption⟩
        obtain ⟨l, hl⟩ := rest
        rcases List.mem_cons.1 ha with rfl | ha
        · rw [ht]; simp
        · exact inputsLoop_typed hl a ha hs

/-- For every signature all of whose positional parameters other than self, cls and progress_callback are typed, the block has one
input for each of them, in their order, with its name, its default if there is one, and its type.  Missing for the full property:
keyword-only parameters (`C154_violated`). -/
theorem C154_partial {sig : Signature δ} (hv : sig.Valid) {hints : List (String × τ)} (ht : ∀ p ∈ offered sig.params, hints.lookup p.1 ≠ none) :
    ∃ is, methodInputs sig.spec hints = .ok is ∧ is.map (fun i => (i.name, i.default)) = offered sig.params ∧
      ∀ i ∈ is, hints.lookup i.name = some i.type :=
  inputsLoop_ok hv sig.params [] rfl ht

/-- If one of them has no type, no block is made. -/
theorem C154_untyped {sig : Signature δ} {hints : List (String × τ)} {p : String × Option δ} (hp : p ∈ offered sig.params)
    (ht : hints.lookup p.1 = none) (is : List (Input τ δ)) : methodInputs sig.spec hints ≠ .ok is := by
  intro h
  rw [offered, List.mem_filter] at hp
  exact inputsLoop_typed h p.1 (List.mem_map_of_mem hp.1) (by simpa using hp.2) ht

/-- Keyword-only parameters have no input, whatever the signature: the inputs are those of the positional parameters. -/
theorem C154_violated {sig : Signature δ} (hv : sig.Valid) {hints : List (String × τ)} {is : List (Input τ δ)}
    (h : methodInputs sig.spec hints = .ok is) {p : String × Option δ} (hp : p ∈ sig.kwonly) : p.1 ∉ is.map (·.name) := by
  have ht : ∀ p ∈ offered sig.params, hints.lookup p.1 ≠ none := fun q hq hn => C154_untyped hq hn is h
  obtain ⟨is', h1, h2, -⟩ := C154_partial hv ht
  rw [h] at h1
  obtain rfl := Except.ok.inj h1
  have hnames : is.map (·.name) = (offered sig.params).map (·.1) := by rw [← h2, List.map_map]; rfl
  rw [hnames]
  intro hc
  obtain ⟨q, hq, hqp⟩ := List.mem_map.1 hc
  have hn := hv.1
  rw [List.map_append, List.nodup_append] at hn
  exact hn.2.2 _ (List.mem_map_of_mem (List.mem_filter.1 hq).1) _ (List.mem_map_of_mem hp) hqp

/-- `def f(self, a, b=1, progress_callback=2, c=3)`. -/
def exSig : Signature Nat := ⟨[("self", none), ("a", none), ("b", some 1), ("progress_callback", some 2), ("c", some 3)], []⟩

theorem exSig_valid : exSig.Valid :=
  ⟨by decide, [("self", none), ("a", none)], [("b", some 1), ("progress_callback", some 2), ("c", some 3)], rfl, by simp, by simp⟩

/-- `def f(x=1, y=2)`, a static method. -/
def exStatic : Signature Nat := ⟨[("x", some 1), ("y", some 2)], []⟩

theorem exStatic_valid : exStatic.Valid := ⟨by decide, [], _, rfl, by simp, by simp⟩

/-- Types of these parameters. -/
def exHints : List (String × String) := [("a", "int"), ("b", "int"), ("c", "float"), ("x", "int"), ("y", "int")]

example : ∃ is, methodInputs exSig.spec exHints = .ok is ∧ is.map (fun i => (i.name, i.default)) = [("a", none), ("b", some 1), ("c", some 3)] ∧
    ∀ i ∈ is, exHints.lookup i.name = some i.type := C154_partial exSig_valid (by decide)

example : ∃ is, methodInputs exStatic.spec exHints = .ok is ∧ is.map (fun i => (i.name, i.default)) = [("x", some 1), ("y", some 2)] ∧
    ∀ i ∈ is, exHints.lookup i.name = some i.type := C154_partial exStatic_valid (by decide)

/-! ### C155: the calls -/

theorem bindParams_ok {kw : List (String × δ)} : ∀ {ps : List (String × Option δ)}, (∀ p ∈ ps, kw.lookup p.1 ≠ none ∨ p.2 ≠ none) →
    ∃ vs, bindParams kw ps = .ok vs ∧ vs.map (·.1) = ps.map (·.1) ∧
      ∀ n, vs.lookup n = if n ∈ ps.map (·.1) then (kw.lookup n).or (ps.lookup n).join else none
  | [], _ => ⟨[], rfl, rfl, by simp⟩
  | (n, d) :: ps, h => by
    obtain ⟨vs, h1, h2, h3⟩ := bindParams_ok fun p hp => h p (.tail _ hp)
    have hn := h _ (.head _)
    rw [bindParams]
    cases hc : (kw.lookup n).or d with
    | none =>
      rw [Option.or_eq_none_iff] at hc
      exact absurd hn (by simp [hc])
    | some v =>
      dsimp only
      rw [h1]
      refine ⟨_, rfl, by simp [h2], ?_⟩
      intro m
      rw [List.lookup_cons, List.lookup_cons]
      by_cases hm : m = n
      · subst hm
        simp [hc]
      · have : (m == n) = false := by simpa using hm
        rw [this]
        dsimp only
        rw [h3]
        exact if_congr (by rw [List.map_cons, List.mem_cons]; simp only [hm, false_or]) rfl rfl

theorem bindParams_missing {kw : List (String × δ)} {n : String} (hk : kw.lookup n = none) : ∀ {ps : List (String × Option δ)}, (n, none) ∈ ps →
    bindParams kw ps = .error .typeError
  | [], h => by simp at h
  | (m, d) :: ps, h => by
    rw [bindParams]
    rcases List.mem_cons.1 h with h | h
    · simp only [Prod.mk.injEq] at h
      obtain ⟨rfl, rfl⟩ := h
      simp [hk]
    · split
      · rfl
      · rw [bindParams_missing hk h]

/-- A call accepted by Python runs the body once, each parameter having the value given, or its default. -/
theorem call_ok {f : Func σ δ} {kw : List (String × δ)} (hd : (kw.map (·.1)).Nodup)
    (hk : ∀ k ∈ kw, k.1 ∈ f.params.map (·.1) ∨ (f.anyKey = true ∧ k.1 ∉ f.self)) (hp : ∀ p ∈ f.params, kw.lookup p.1 ≠ none ∨ p.2 ≠ none) (s : σ) :
    ∃ vs, call f kw s = f.body vs s ∧ ∀ n, vs.lookup n = (kw.lookup n).or (f.params.lookup n).join := by
  obtain ⟨vs, h1, h2, h3⟩ := bindParams_ok hp
  rw [call, if_neg (by simpa using hd), if_neg, h1]
  · refine ⟨_, rfl, ?_⟩
    intro n
    rw [List.lookup_append, h3]
    by_cases hn : n ∈ f.params.map (·.1)
    · rw [if_pos hn]
      have : (kw.filter fun k => decide (k.1 ∉ f.params.map (·.1))).lookup n = none := by
        rw [Dict.lookup_none]
        intro hc
        obtain ⟨k, hk, rfl⟩ := List.mem_map.1 hc
        exact absurd hn (by simpa using (List.mem_filter.1 hk).2)
      rw [this, Option.or_none]
    · rw [if_neg hn, Option.none_or]
      have hpn : f.params.lookup n = none := Dict.lookup_none.2 hn
      rw [hpn]
      simp only [Option.join_none, Option.or_none]
      cases hc : kw.lookup n with
      | none =>
        rw [Dict.lookup_none] at hc ⊢
        intro h
        apply hc
        obtain ⟨k, hk, rfl⟩ := List.mem_map.1 h
        exact List.mem_map_of_mem (List.mem_filter.1 hk).1
      | some v =>
        apply Dict.mem_lookup
        · exact hd.sublist ((List.filter_sublist (l := kw)).map _)
        · exact List.mem_filter.2 ⟨Dict.lookup_mem hc, by simpa using hn⟩
  · rw [List.any_eq_true]
    rintro ⟨k, hkk, hb⟩
    rw [Bool.and_eq_true, decide_eq_true_eq, Bool.or_eq_true] at hb
    rcases hk k hkk with h | ⟨h, h'⟩
    · exact hb.1 h
    · rcases hb.2 with hb | hb
      · rw [h] at hb; simp at hb
      · exact h' (by simpa using hb)

/-- A keyword which is not a parameter is a TypeError, and the body is not run. -/
theorem call_unknown {f : Func σ δ} {kw : List (String × δ)} {k : String × δ} (hk : k ∈ kw) (h1 : k.1 ∉ f.params.map (·.1)) (h2 : f.anyKey = false)
    (s : σ) : call f kw s = (s, .error .typeError) := by
  rw [call]
  split
  · rfl
  · rw [if_pos]
    rw [List.any_eq_true]
    exact ⟨k, hk, by simp [h2] at *; exact h1⟩

/-- A parameter without value nor default is a TypeError, and the body is not run. -/
theorem call_missing {f : Func σ δ} {kw : List (String × δ)} {n : String} (h : (n, none) ∈ f.params) (hk : kw.lookup n = none) (s : σ) :
    call f kw s = (s, .error .typeError) := by
  rw [call]
  split
  · rfl
  · split
    · rfl
    · rw [bindParams_missing hk h]

/-- Names and values of the inputs. -/
def given (is : List (Input τ δ)) (vs : List δ) : List (String × δ) := (is.map (·.name)).zip vs

theorem arguments_given : ∀ {is : List (Input τ δ)} {vs : List δ} {d : List (String × δ)}, ((d.map (·.1)) ++ is.map (·.name)).Nodup →
    arguments is (vs.map some) d = d ++ given is vs
  | [], vs, d, _ => by simp [arguments, given]
  | i :: is, [], d, _ => by simp [arguments, given]
  | i :: is, v :: vs, d, h => by
    rw [List.map_cons, arguments]
    have hf : i.name ∉ d.map (·.1) := by
      rw [List.nodup_append] at h
      intro hc
      exact h.2.2 _ hc _ (List.mem_map_of_mem (.head _)) rfl
    rw [set_fresh hf, arguments_given (by simpa using h)]
    simp [given]

theorem given_keys {is : List (Input τ δ)} {vs : List δ} (hl : vs.length = is.length) : (given is vs).map (·.1) = is.map (·.name) := by
  rw [given, List.map_fst_zip]
  simp [hl]

/-- What a block of this kind is made for: a valid signature, whose bound parameter, if there is one, is called self or cls; with the
inputs `_method_inputs` makes of it. -/
structure Made (f : Func σ δ) (hints : List (String × τ)) (is : List (Input τ δ)) : Prop where
  valid : f.sig.Valid
  self : ∀ n ∈ f.self, n = "self" ∨ n = "cls"
  inputs : methodInputs f.sig.spec hints = .ok is

theorem Made.names {f : Func σ δ} {hints : List (String × τ)} {is : List (Input τ δ)} (h : Made f hints is) :
    is.map (·.name) = (offered f.sig.params).map (·.1) := by
  have ht : ∀ p ∈ offered f.sig.params, hints.lookup p.1 ≠ none := fun q hq hn => C154_untyped hq hn is h.inputs
  obtain ⟨is', h1, h2, -⟩ := C154_partial h.valid ht
  rw [h.inputs] at h1
  obtain rfl := Except.ok.inj h1
  rw [← h2, List.map_map]
  rfl

theorem Made.nodup {f : Func σ δ} {hints : List (String × τ)} {is : List (Input τ δ)} (h : Made f hints is) : (is.map (·.name)).Nodup := by
  rw [h.names]
  have := h.valid.1
  rw [List.map_append, List.nodup_append] at this
  exact this.1.sublist ((List.filter_sublist (l := f.sig.params)).map _)

theorem Made.keys {f : Func σ δ} {hints : List (String × τ)} {is : List (Input τ δ)} (h : Made f hints is) {n : String} (hn : n ∈ is.map (·.name)) :
    n ∈ f.params.map (·.1) ∧ n ∉ skipped := by
  rw [h.names] at hn
  obtain ⟨p, hp, rfl⟩ := List.mem_map.1 hn
  rw [offered, List.mem_filter] at hp
  have hs : p.1 ∉ skipped := by simpa using hp.2
  refine ⟨?_, hs⟩
  rw [Func.params, List.map_append, List.mem_append]
  left
  split
  · rename_i hb
    cases hps : f.sig.params with
    | nil => rw [hps] at hp; simp at hp
    | cons q qs =>
      rw [hps] at hp
      rcases List.mem_cons.1 hp.1 with rfl | hp
      · exfalso
        have := h.self p.1 (by simp [Func.self, hb, hps])
        apply hs
        rcases this with h | h <;> rw [h] <;> decide
      · exact List.mem_map_of_mem hp
  · exact List.mem_map_of_mem hp.1

theorem Made.positional {f : Func σ δ} {hints : List (String × τ)} {is : List (Input τ δ)} (h : Made f hints is) {p : String × Option δ}
    (hp : p ∈ f.params) (h1 : p ∉ f.sig.kwonly) (h2 : p.1 ∉ skipped) : p.1 ∈ is.map (·.name) := by
  rw [h.names]
  apply List.mem_map_of_mem
  rw [offered, List.mem_filter]
  refine ⟨?_, by simpa using h2⟩
  rw [Func.params, List.mem_append] at hp
  rcases hp with hp | hp
  · split at hp
    · exact List.mem_of_mem_drop hp
    · exact hp
  · exact absurd hp h1

theorem Made.absent {f : Func σ δ} {hints : List (String × τ)} {is : List (Input τ δ)} (h : Made f hints is) {vs : List δ} (hl : vs.length = is.length)
    {p : String × Option δ} (hp : p ∈ f.sig.kwonly ∨ p.1 ∈ skipped) : (given is vs).lookup p.1 = none := by
  rw [Dict.lookup_none, given_keys hl]
  rcases hp with hp | hp
  · exact C154_violated h.valid h.inputs hp
  · intro hn
    exact (h.keys hn).2 hp

/-- The arguments a body receives: those given, and the defaults of the others. -/
def Received (f : Func σ δ) (kw vs : List (String × δ)) : Prop := ∀ n, vs.lookup n = (kw.lookup n).or (f.params.lookup n).join

theorem call_given {f : Func σ δ} {hints : List (String × τ)} {is : List (Input τ δ)} (h : Made f hints is) {vs : List δ} (hl : vs.length = is.length)
    (hd : ∀ p ∈ f.params, p ∈ f.sig.kwonly ∨ p.1 ∈ skipped → p.2 ≠ none) (s : σ) :
    ∃ as, call f (given is vs) s = f.body as s ∧ Received f (given is vs) as := by
  apply call_ok
  · rw [given_keys hl]; exact h.nodup
  · intro k hk
    left
    have := List.mem_map_of_mem (f := (·.1)) hk
    rw [given_keys hl] at this
    exact (h.keys this).1
  · intro p hp
    by_cases hq : p ∈ f.sig.kwonly ∨ p.1 ∈ skipped
    · exact .inr (hd p hp hq)
    · rw [not_or] at hq
      left
      have := h.positional hp hq.1 hq.2
      rw [← given_keys hl] at this
      exact fun hc => Dict.lookup_none.1 hc this

theorem arguments_made {f : Func σ δ} {hints : List (String × τ)} {is : List (Input τ δ)} (h : Made f hints is) (vs : List δ) :
    arguments is (vs.map some) [] = given is vs := by
  rw [arguments_given (by simpa using h.nodup)]
  rfl

/-- The outcome of a block with the given other outputs. -/
def outcome (r : σ × Except PyErr δ) (more : List δ) : σ × Except PyErr (List δ) := (r.1, r.2.map fun v => v :: more)

/-- A class method or static method block, all of whose inputs have values, runs the method once: each parameter receives the value
of the input of its name, the others their default; and the block gives what the method returns, or raises what it raises.  Missing
for the full property: parameters without default that have no input, `C155_keyword_violated` and `C155_callback_violated`. -/
theorem C155_class_partial {f : Func σ δ} {hints : List (String × τ)} {is : List (Input τ δ)} (h : Made f hints is) {vs : List δ} (hl : vs.length = is.length)
    (hd : ∀ p ∈ f.params, p ∈ f.sig.kwonly ∨ p.1 ∈ skipped → p.2 ≠ none) (s : σ) :
    ∃ as, classMethod f is (vs.map some) s = outcome (f.body as s) [] ∧ Received f (given is vs) as := by
  obtain ⟨as, h1, h2⟩ := call_given h hl hd s
  refine ⟨as, ?_, h2⟩
  rw [classMethod, arguments_made h, h1]
  rcases f.body as s with ⟨s', _ | r⟩ <;> rfl

/-- The same for a block that instantiates a class.
Missing: see the `_violated` theorems of C155. -/
theorem C155_instantiate_partial {f : Func σ δ} {hints : List (String × τ)} {is : List (Input τ δ)} (h : Made f hints is) {vs : List δ}
    (hl : vs.length = is.length) (hd : ∀ p ∈ f.params, p ∈ f.sig.kwonly ∨ p.1 ∈ skipped → p.2 ≠ none) (s : σ) :
    ∃ as, instantiate f is (vs.map some) s = outcome (f.body as s) [] ∧ Received f (given is vs) as := by
  obtain ⟨as, h1, h2⟩ := call_given h hl hd s
  refine ⟨as, ?_, h2⟩
  rw [instantiate, if_neg (by simp), arguments_made h, h1]
  rcases f.body as s with ⟨s', _ | r⟩ <;> rfl

/-- The method has a parameter progress_callback, or takes any keyword. -/
def Accepts (f : Func σ δ) : Prop := callbackName ∈ f.params.map (·.1) ∨ f.anyKey = true

/-- A block that calls a method of its model without parameter progress_callback runs it once, as above, and gives its result and the
model.
Missing: methods with such a parameter (`C155_twice_violated`, `C155_callback_violated`). -/
theorem C155_method_partial {f : Func σ δ} {hints : List (String × τ)} {is : List (Input τ δ)} (h : Made f hints is) {vs : List δ} (hl : vs.length = is.length)
    (hd : ∀ p ∈ f.params, p ∈ f.sig.kwonly ∨ p.1 ∈ skipped → p.2 ≠ none) (ha : ¬ Accepts f) (model callback : δ) (s : σ) :
    ∃ as, modelMethod f is (vs.map some) model callback s = outcome (f.body as s) [model] ∧ Received f (given is vs) as := by
  obtain ⟨as, h1, h2⟩ := call_given h hl hd s
  refine ⟨as, ?_, h2⟩
  rw [Accepts, not_or] at ha
  rw [modelMethod, arguments_made h, call_unknown (k := (callbackName, callback)) (.head _) ha.1 (by simpa using ha.2)]
  dsimp only
  rw [h1]
  rcases f.body as s with ⟨s', _ | r⟩ <;> rfl

theorem call_callback {f : Func σ δ} {hints : List (String × τ)} {is : List (Input τ δ)} (h : Made f hints is) {vs : List δ} (hl : vs.length = is.length)
    (hd : ∀ p ∈ f.params, p ∈ f.sig.kwonly ∨ p.1 ∈ skipped → p.1 ≠ callbackName → p.2 ≠ none) (ha : Accepts f) (callback : δ) (s : σ) :
    ∃ as, call f ((callbackName, callback) :: given is vs) s = f.body as s ∧ Received f ((callbackName, callback) :: given is vs) as := by
  apply call_ok
  · rw [List.map_cons, given_keys hl, List.nodup_cons]
    refine ⟨fun hn => (h.keys hn).2 (show callbackName ∈ skipped by decide), h.nodup⟩
  · intro k hk
    rcases List.mem_cons.1 hk with rfl | hk
    · rcases ha with ha | ha
      · exact .inl ha
      · refine .inr ⟨ha, fun hc => ?_⟩
        have := h.self _ hc
        revert this
        show ¬ (callbackName = "self" ∨ callbackName = "cls")
        decide
    · left
      have := List.mem_map_of_mem (f := (·.1)) hk
      rw [given_keys hl] at this
      exact (h.keys this).1
  · intro p hp
    by_cases hc : p.1 = callbackName
    · left
      rw [hc]
      simp
    · rw [List.lookup_cons]
      have : (p.1 == callbackName) = false := by simpa using hc
      rw [this]
      dsimp only
      by_cases hq : p ∈ f.sig.kwonly ∨ p.1 ∈ skipped
      · exact .inr (hd p hp hq hc)
      · rw [not_or] at hq
        left
        have := h.positional hp hq.1 hq.2
        rw [← given_keys hl] at this
        exact fun hc => Dict.lookup_none.1 hc this

/-- A block that calls a method of its model which has a parameter progress_callback (even without default), runs it once, the callback
being given to this parameter, unless the body raises a TypeError.  Missing: `C155_twice_violated`. -/
theorem C155_callback_partial {f : Func σ δ} {hints : List (String × τ)} {is : List (Input τ δ)} (h : Made f hints is) {vs : List δ} (hl : vs.length = is.length)
    (hd : ∀ p ∈ f.params, p ∈ f.sig.kwonly ∨ p.1 ∈ skipped → p.1 ≠ callbackName → p.2 ≠ none) (ha : Accepts f) (model callback : δ) (s : σ)
    (hb : ∀ as, Received f ((callbackName, callback) :: given is vs) as → (f.body as s).2 ≠ .error .typeError) :
    ∃ as, modelMethod f is (vs.map some) model callback s = outcome (f.body as s) [model] ∧
      Received f ((callbackName, callback) :: given is vs) as := by
  obtain ⟨as, h1, h2⟩ := call_callback h hl hd ha callback s
  refine ⟨as, ?_, h2⟩
  have hb := hb as h2
  rw [modelMethod, arguments_made h, h1]
  revert hb
  rcases f.body as s with ⟨s', e | r⟩
  · intro hb
    cases e <;> first | rfl | exact absurd rfl hb
  · intro _; rfl

/-- Whenever the body of a method with an optional progress_callback raises a TypeError, it is run a second time, from the state its
first run left, and the block gives what this second run gives. -/
theorem C155_twice_violated {f : Func σ δ} {hints : List (String × τ)} {is : List (Input τ δ)} (h : Made f hints is) {vs : List δ} (hl : vs.length = is.length)
    (hd : ∀ p ∈ f.params, p ∈ f.sig.kwonly ∨ p.1 ∈ skipped → p.2 ≠ none) (ha : Accepts f) (model callback : δ) (s : σ)
    (hb : ∀ as, Received f ((callbackName, callback) :: given is vs) as → (f.body as s).2 = .error .typeError) :
    ∃ as as', modelMethod f is (vs.map some) model callback s = outcome (f.body as' (f.body as s).1) [model] ∧
      Received f ((callbackName, callback) :: given is vs) as ∧ Received f (given is vs) as' := by
  obtain ⟨as, h1, h2⟩ := call_callback h hl (fun p hp hq _ => hd p hp hq) ha callback s
  obtain ⟨as', h3, h4⟩ := call_given h hl hd (f.body as s).1
  refine ⟨as, as', ?_, h2, h4⟩
  have hb := hb as h2
  rw [modelMethod, arguments_made h, h1]
  have : f.body as s = ((f.body as s).1, .error .typeError) := by rw [← hb]
  rw [this]
  dsimp only
  rw [h3]
  rcases f.body as' (f.body as s).1 with ⟨s', _ | r⟩ <;> rfl

/-- No class, class method or method with a keyword-only parameter without default can be called by a block, whatever the values of
its inputs: a TypeError, unless this parameter is the progress_callback of a method. -/
theorem C155_keyword_violated {f : Func σ δ} {hints : List (String × τ)} {is : List (Input τ δ)} (h : Made f hints is) {vs : List δ} (hl : vs.length = is.length)
    {n : String} (hn : (n, none) ∈ f.sig.kwonly) (s : σ) :
    classMethod f is (vs.map some) s = (s, .error .typeError) ∧ instantiate f is (vs.map some) s = (s, .error .typeError) ∧
    (n ≠ callbackName → ∀ model callback, modelMethod f is (vs.map some) model callback s = (s, .error .typeError)) := by
  have hp : (n, none) ∈ f.params := by rw [Func.params, List.mem_append]; exact .inr hn
  have ha := h.absent hl (vs := vs) (p := (n, none)) (.inl hn)
  have h1 := fun s => call_missing hp ha s
  refine ⟨?_, ?_, ?_⟩
  · rw [classMethod, arguments_made h, h1]
  · rw [instantiate, if_neg (by simp), arguments_made h, h1]
  · intro hc model callback
    rw [modelMethod, arguments_made h, call_missing hp]
    · dsimp only
      rw [h1]
    · rw [List.lookup_cons]
      have : (n == callbackName) = false := by simpa using hc
      rw [this]
      exact ha

/-- Nor can a class or a class method with a progress_callback without default. -/
theorem C155_callback_violated {f : Func σ δ} {hints : List (String × τ)} {is : List (Input τ δ)} (h : Made f hints is) {vs : List δ} (hl : vs.length = is.length)
    (hn : (callbackName, none) ∈ f.params) (s : σ) :
    classMethod f is (vs.map some) s = (s, .error .typeError) ∧ instantiate f is (vs.map some) s = (s, .error .typeError) := by
  have ha := h.absent hl (vs := vs) (p := (callbackName, none)) (.inr (show callbackName ∈ skipped by decide))
  have h1 := fun s => call_missing hn ha s
  refine ⟨?_, ?_⟩
  · rw [classMethod, arguments_made h, h1]
  · rw [instantiate, if_neg (by simp), arguments_made h, h1]

/-- Nor can anything without `**kwargs` once an input was given a name which is not the one of a parameter: the name of an input is not
only a label. -/
theorem C155_renamed_violated {f : Func σ δ} (hk : f.anyKey = false) {is : List (Input τ δ)} {vs : List δ} (hl : vs.length = is.length)
    (hd : (is.map (·.name)).Nodup) {n : String} (hn : n ∈ is.map (·.name)) (hp : n ∉ f.params.map (·.1)) (s : σ) :
    classMethod f is (vs.map some) s = (s, .error .typeError) ∧ instantiate f is (vs.map some) s = (s, .error .typeError) ∧
    ∀ model callback, modelMethod f is (vs.map some) model callback s = (s, .error .typeError) := by
  have hg : arguments is (vs.map some) [] = given is vs := by
    rw [arguments_given (by simpa using hd)]
    rfl
  rw [← given_keys hl] at hn
  obtain ⟨k, hk1, rfl⟩ := List.mem_map.1 hn
  have h1 := fun s => call_unknown hk1 hp hk s
  refine ⟨?_, ?_, ?_⟩
  · rw [classMethod, hg, h1]
  · rw [instantiate, if_neg (by simp), hg, h1]
  · intro model callback
    rw [modelMethod, hg, call_unknown (.tail _ hk1) hp hk]
    dsimp only
    rw [h1]

/-- A display block runs the display method once, with the arguments of the display when it takes all of them, and with its defaults when
it does not, unless its body raises a TypeError.
Missing: methods whose body raises a TypeError, which run twice (`C155_twice_violated`). -/
theorem C155_display_partial {f : Func σ δ} {kwargs : List (String × δ)} (hd : (kwargs.map (·.1)).Nodup)
    (hp : ∀ p ∈ f.params, p.2 ≠ none) (hs : ∀ n ∈ f.self, n ∉ kwargs.map (·.1)) (s : σ)
    (hb : ∀ as, (f.body as s).2 ≠ .error .typeError) :
    ∃ as, display f kwargs s = outcome (f.body as s) [] ∧
      (((∀ k ∈ kwargs, k.1 ≠ callbackName → k.1 ∈ f.params.map (·.1) ∨ f.anyKey = true) ∧
          Received f (kwargs.filter fun k => k.1 ≠ callbackName) as) ∨
       (¬ (∀ k ∈ kwargs, k.1 ≠ callbackName → k.1 ∈ f.params.map (·.1) ∨ f.anyKey = true) ∧ Received f [] as)) := by
  have key : ∀ as : List (String × δ), (match f.body as s with
      | (s', .ok r) => (s', .ok [r])
      | (s', .error .typeError) =>
        match call f [] s' with
        | (s'', .error e) => (s'', .error e)
        | (s'', .ok r) => (s'', .ok [r])
      | (s', .error e) => (s', .error e) : σ × Except PyErr (List δ)) = outcome (f.body as s) [] := by
    intro as
    have := hb as
    revert this
    rcases f.body as s with ⟨s', e | r⟩
    · intro hb
      cases e <;> first | rfl | exact absurd rfl hb
    · intro _; rfl
  by_cases hall : ∀ k ∈ kwargs, k.1 ≠ callbackName → k.1 ∈ f.params.map (·.1) ∨ f.anyKey = true
  · obtain ⟨as, h1, h2⟩ := call_ok (f := f) (kw := kwargs.filter fun k => k.1 ≠ callbackName) (hd.sublist ((List.filter_sublist (l := kwargs)).map _))
      (by
        intro k hk
        rw [List.mem_filter] at hk
        rcases hall k hk.1 (by simpa using hk.2) with h | h
        · exact .inl h
        · exact .inr ⟨h, fun hc => hs _ hc (List.mem_map_of_mem hk.1)⟩)
      (fun p h => .inr (hp p h)) s
    refine ⟨as, ?_, .inl ⟨hall, h2⟩⟩
    rw [display, h1]
    exact key as
  · obtain ⟨as, h1, h2⟩ := call_ok (f := f) (kw := []) (by simp) (by simp) (fun p h => .inr (hp p h)) s
    refine ⟨as, ?_, .inr ⟨hall, h2⟩⟩
    simp only [Classical.not_forall, not_or] at hall
    obtain ⟨k, hk, hc, hk1, hk2⟩ := hall
    rw [display, call_unknown (k := k) (List.mem_filter.2 ⟨hk, by simpa using hc⟩) hk1 (by simpa using hk2)]
    dsimp only
    rw [h1]
    rcases f.body as s with ⟨s', _ | r⟩ <;> rfl

/-! Cases of these theorems: the method `f(self, a, b=1, progress_callback=2, c=3)`, which counts its calls and returns 100 a + 10 b + c
and raises a TypeError the first time if a is 0. -/

def exFunc : Func Nat Nat :=
  { sig := exSig, anyKey := false, bound := true
    body := fun as n =>
      (n + 1, if as.lookup "a" = some 0 ∧ n = 0 then .error .typeError
        else .ok (100 * (as.lookup "a").getD 0 + 10 * (as.lookup "b").getD 0 + (as.lookup "c").getD 0)) }

def exInputs : List (Input String Nat) := [⟨"a", "int", none⟩, ⟨"b", "int", some 1⟩, ⟨"c", "float", some 3⟩]

theorem exMade : Made exFunc exHints exInputs := ⟨exSig_valid, by decide, rfl⟩

example : ∃ as, classMethod exFunc exInputs ([4, 5, 6].map some) 0 = outcome (exFunc.body as 0) [] ∧ Received exFunc (given exInputs [4, 5, 6]) as :=
  C155_class_partial exMade rfl (by decide) 0

example : classMethod exFunc exInputs [some 4, some 5, some 6] 0 = (1, .ok [456]) := by decide

example : ∃ as, modelMethod exFunc exInputs ([4, 5, 6].map some) 7 8 0 = outcome (exFunc.body as 0) [7] ∧
    Received exFunc ((callbackName, 8) :: given exInputs [4, 5, 6]) as :=
  C155_callback_partial exMade rfl (by decide) (.inl (by decide)) 7 8 0 (by
    intro as h
    have : as.lookup "a" = some 4 := by rw [h "a"]; decide
    simp [exFunc, this])

/-- With a = 0 the method raises a TypeError; the block runs it twice, and gives the result of the second run. -/
example : (exFunc.body [("a", 0), ("b", 5), ("progress_callback", 8), ("c", 6)] 0).2 = .error .typeError ∧
    modelMethod exFunc exInputs [some 0, some 5, some 6] 7 8 0 = (2, .ok [56, 7]) := by decide

example : ∃ as as', modelMethod exFunc exInputs ([0, 5, 6].map some) 7 8 0 = outcome (exFunc.body as' (exFunc.body as 0).1) [7] ∧
    Received exFunc ((callbackName, 8) :: given exInputs [0, 5, 6]) as ∧ Received exFunc (given exInputs [0, 5, 6]) as' :=
  C155_twice_violated exMade rfl (by decide) (.inl (by decide)) 7 8 0 (by
    intro as h
    have : as.lookup "a" = some 0 := by rw [h "a"]; decide
    simp [exFunc, this])

/-- `def f(self, a, *, k)`. -/
def exKeyword : Func Nat Nat := { exFunc with sig := ⟨[("self", none), ("a", none)], [("k", none)]⟩ }

example : classMethod exKeyword (exInputs.take 1) ([4].map some) 0 = (0, .error .typeError) :=
  (C155_keyword_violated (f := exKeyword) (hints := exHints) (n := "k")
    ⟨⟨by decide, [("self", none), ("a", none)], [], rfl, by simp, by simp⟩, by decide, rfl⟩ rfl (by decide) 0).1

/-- The display method `show(self, k=2)`. -/
def exShow : Func Nat Nat :=
  { sig := ⟨[("self", none), ("k", some 2)], []⟩, anyKey := false, bound := true
    body := fun as n => (n + 1, .ok ((as.lookup "k").getD 0)) }

example : display exShow [("k", 9), ("progress_callback", 2)] 5 = (6, .ok [9]) ∧ display exShow [("reference_path", 9)] 5 = (6, .ok [2]) := by decide

example : ∃ as, display exShow [("k", 9), ("progress_callback", 2)] 5 = outcome (exShow.body as 5) [] :=
  (C155_display_partial (f := exShow) (by decide) (by decide) (by decide) 5 (by simp [exShow])).imp fun _ h => h.1

end DC.Calls
