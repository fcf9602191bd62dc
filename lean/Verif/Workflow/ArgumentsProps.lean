import Verif.Workflow.Arguments
import Verif.Workflow.Props
import Verif.Values.EmitLemmas
/- Property C115: the arguments of a run which are read from a document. -/
namespace DC.Wkf

set_option linter.unusedSimpArgs false

variable {α δ ν : Type} {R : ArgReader α δ ν} {W : Workflow α}

/-- The entry of a document for the input of index `k`: the last one whose key is written as an integer equal to `k`. -/
def EntryFor (d : List (String × δ)) (k : Nat) : Option δ := (d.reverse.find? (fun e => int? e.1 == some (k : Int))).map (·.2)

theorem intKeys_entry {d : List (String × δ)} {e : List (Int × δ)} (h : intKeys d = .ok e) (k : Nat) : entryAt e k = EntryFor d k := by
  have key : e = d.filterMap (fun x => (int? x.1).map (·, x.2)) := by
    unfold intKeys at h
    induction d generalizing e with
    | nil => simp only [Arg.mapE, Except.ok.injEq] at h; subst h; rfl
    | cons x d ih =>
      rw [Arg.mapE, bind_ok] at h
      obtain ⟨y, h1, h⟩ := h
      rw [bind_ok] at h
      obtain ⟨r, h2, h⟩ := h
      simp only [Except.ok.injEq] at h
      subst h
      split at h1
      · simp at h1
      · rename_i i hi
        simp only [Except.ok.injEq] at h1
        subst h1
        rw [List.filterMap_cons, hi]
        simp [← ih h2]
  subst key
  unfold entryAt EntryFor
  rw [← List.filterMap_reverse]
  generalize d.reverse = l
  induction l with
  | nil => rfl
  | cons x l ih =>
    rw [List.filterMap_cons, List.find?_cons]
    cases hx : int? x.1 with
    | none => simpa using ih
    | some i =>
      simp only [Option.map_some, List.lookup_cons]
      by_cases hik : (k : Int) = i
      · subst hik; simp
      · have h1 : ((k : Int) == i) = false := by simpa using hik
        have h2 : (some i == some (k : Int)) = false := by simpa using fun h => hik h.symm
        rw [h1, h2]
        exact ih

theorem intKeys_error {d : List (String × δ)} {er : PyErr} (h : intKeys d = .error er) : er = .valueError := by
  unfold intKeys at h
  induction d with
  | nil => simp [Arg.mapE] at h
  | cons x d ih =>
    rw [Arg.mapE] at h
    cases hx : int? x.1 with
    | none => simp [hx, bind, Except.bind] at h; exact h.symm
    | some i =>
      simp only [hx, bind, Except.bind] at h
      split at h
      · rename_i er' he
        simp only [Except.error.injEq] at h
        subst h
        exact ih he
      · simp at h

/-- What is read for an input: nothing if it is locked or if the document has no entry for it. -/
inductive ReadFor (R : ArgReader α δ ν) (W : Workflow α) (v : Nat) : Option δ → Option α → Prop
  | locked (x : Option δ) (h : W.lockFlag v = true) (hd : (W.default v).isSome) : ReadFor R W v x none
  | absent (h : W.lockFlag v = false) (hd : (W.default v).isSome) : ReadFor R W v none none
  | given {x : δ} {y : α} (h : W.lockFlag v = false) (hy : R.read v x = .ok y) : ReadFor R W v (some x) (some y)

theorem takesArg_ok {v : Nat} {x : Option δ} {c : Bool} (h : takesArg W v x = .ok c) : (c = true → W.lockFlag v = false) ∧
    (c = false → (W.default v).isSome ∧ (x = none ∨ W.lockFlag v = true)) := by
  unfold takesArg locked at h
  cases hl : W.lockFlag v <;> cases hd : W.default v <;> cases x <;> simp_all [Except.map]

theorem takesArg_locked {v : Nat} {x : Option δ} {c : Bool} (h : takesArg W v x = .ok c) (hl : W.lockFlag v = true) : c = false ∧ (W.default v).isSome := by
  unfold takesArg locked at h
  cases hd : W.default v <;> cases x <;> simp_all [Except.map]

theorem argLoop_ok {e : List (Int × δ)} {vs : List Nat} {i : Nat} {nm : Option ν} {r : List (Nat × α) × Option ν}
    (h : argLoop R W e i vs nm = .ok r) : (∀ x ∈ r.1, i ≤ x.1 ∧ x.1 < i + vs.length) ∧ (r.1.map (·.1)).Pairwise (· < ·) ∧
    ∀ (k : Nat) v, vs[k]? = some v → ReadFor R W v (entryAt e (i + k)) (r.1.lookup (i + k)) := by
  induction vs generalizing i nm r with
  | nil => simp only [argLoop, Except.ok.injEq] at h; subst h; simp
  | cons v vs ih =>
    rw [argLoop, bind_ok] at h
    obtain ⟨c, h1, h⟩ := h
    have hc := takesArg_ok h1
    cases c with
    | true =>
      rw [if_pos rfl] at h
      split at h
      · simp at h
      · rename_i x hx
        rw [bind_ok] at h
        obtain ⟨y, h2, h⟩ := h
        rw [bind_ok] at h
        obtain ⟨r', h3, h⟩ := h
        simp only [Except.ok.injEq] at h
        subst h
        obtain ⟨k1, k2, k3⟩ := ih h3
        refine ⟨fun z hz => ?_, ?_, fun k u hk => ?_⟩
        · rcases List.mem_cons.1 hz with rfl | hz
          · simp
          · have := k1 z hz; simp only [List.length_cons]; omega
        · simp only [List.map_cons, List.pairwise_cons]
          refine ⟨fun z hz => ?_, k2⟩
          obtain ⟨w, hw, rfl⟩ := List.mem_map.1 hz
          have := (k1 w hw).1
          omega
        · cases k with
          | zero =>
            simp only [List.getElem?_cons_zero, Option.some.injEq] at hk
            subst hk
            rw [Nat.add_zero, hx]
            simp only [List.lookup_cons, beq_self_eq_true]
            exact .given (hc.1 rfl) h2
          | succ k =>
            have h4 := k3 k u (by simpa using hk)
            have hne : (i + (k + 1) == i) = false := by simp
            simp only [List.lookup_cons, hne]
            rwa [show i + 1 + k = i + (k + 1) by omega] at h4
    | false =>
      rw [if_neg (by simp)] at h
      obtain ⟨k1, k2, k3⟩ := ih h
      refine ⟨fun z hz => by have := k1 z hz; simp only [List.length_cons]; omega, k2, fun k u hk => ?_⟩
      cases k with
      | zero =>
        simp only [List.getElem?_cons_zero, Option.some.injEq] at hk
        subst hk
        have hno : r.1.lookup (i + 0) = none := by
          refine List.lookup_eq_none_iff.2 (fun z hz => ?_)
          have := (k1 z hz).1
          simp; omega
        rw [hno]
        obtain ⟨hd, hx⟩ := hc.2 rfl
        cases hl : W.lockFlag v with
        | true => exact .locked _ hl hd
        | false =>
          rcases hx with hx | hx
          · rw [Nat.add_zero, hx]; exact .absent hl hd
          · rw [hl] at hx; cases hx
      | succ k =>
        have h4 := k3 k u (by simpa using hk)
        rwa [show i + 1 + k = i + (k + 1) by omega] at h4

/-- The name which is read: that of the last input named after the result which is read, or else the one given so far. -/
theorem argLoop_name {e : List (Int × δ)} {vs : List Nat} {i : Nat} {nm : Option ν} {r : List (Nat × α) × Option ν}
    (h : argLoop R W e i vs nm = .ok r) : ((∀ v ∈ vs, R.isName v = false) → r.2 = nm) ∧
    ∀ (k : Nat) v, vs[k]? = some v → R.isName v = true → (∀ (j : Nat) u, vs[j]? = some u → R.isName u = true → j = k) →
      r.2 = match r.1.lookup (i + k) with
        | some y => R.nameOf y
        | none => nm := by
  induction vs generalizing i nm r with
  | nil => simp only [argLoop, Except.ok.injEq] at h; subst h; simp
  | cons v vs ih =>
    have hsub := (argLoop_ok h).1
    rw [argLoop, bind_ok] at h
    obtain ⟨c, h1, h⟩ := h
    cases c with
    | true =>
      rw [if_pos rfl] at h
      split at h
      · simp at h
      · rename_i x hx
        rw [bind_ok] at h
        obtain ⟨y, h2, h⟩ := h
        rw [bind_ok] at h
        obtain ⟨r', h3, h⟩ := h
        simp only [Except.ok.injEq] at h
        subst h
        obtain ⟨k1, k2⟩ := ih h3
        refine ⟨fun hn => ?_, fun k u hk hu hone => ?_⟩
        · show r'.2 = nm
          rw [k1 (fun w hw => hn w (.tail _ hw)), if_neg (by rw [hn v (.head _)]; simp)]
        · cases k with
          | zero =>
            simp only [List.getElem?_cons_zero, Option.some.injEq] at hk
            subst hk
            simp only [Nat.add_zero, List.lookup_cons, beq_self_eq_true]
            rw [k1 (fun w hw => ?_), if_pos hu]
            obtain ⟨j, hj⟩ := List.getElem?_of_mem hw
            cases hw' : R.isName w with
            | false => rfl
            | true => exact absurd (hone (j + 1) w (by simpa using hj) hw') (by simp)
          | succ k =>
            have hv : R.isName v = false := by
              cases hw' : R.isName v with
              | false => rfl
              | true => exact absurd (hone 0 v rfl hw') (by simp)
            have h4 := k2 k u (by simpa using hk) hu (fun j w hj hw => by
              have := hone (j + 1) w (by simpa using hj) hw
              omega)
            have hne : (i + (k + 1) == i) = false := by simp
            simp only [List.lookup_cons, hne]
            rw [h4, show i + 1 + k = i + (k + 1) by omega, if_neg (by rw [hv]; simp)]
    | false =>
      rw [if_neg (by simp)] at h
      obtain ⟨k1, k2⟩ := ih h
      refine ⟨fun hn => k1 (fun w hw => hn w (.tail _ hw)), fun k u hk hu hone => ?_⟩
      cases k with
      | zero =>
        simp only [List.getElem?_cons_zero, Option.some.injEq] at hk
        subst hk
        have hno : r.1.lookup (i + 0) = none := by
          refine List.lookup_eq_none_iff.2 (fun z hz => ?_)
          have := ((argLoop_ok h).1 z hz).1
          simp; omega
        rw [hno]
        refine k1 (fun w hw => ?_)
        obtain ⟨j, hj⟩ := List.getElem?_of_mem hw
        cases hw' : R.isName w with
        | false => rfl
        | true => exact absurd (hone (j + 1) w (by simpa using hj) hw') (by simp)
      | succ k =>
        have h4 := k2 k u (by simpa using hk) hu (fun j w hj hw => by
          have := hone (j + 1) w (by simpa using hj) hw
          omega)
        rw [h4, show i + 1 + k = i + (k + 1) by omega]

theorem dictToArguments_ok {allowed : List String} {d : List (String × δ)} {method : String} {r : List (Nat × α) × Option ν}
    (h : dictToArguments R W allowed d method = .ok r) : method ∈ allowed ∧ ∃ e q, intKeys d = .ok e ∧
      argLoop R W e 0 (inputs W) none = .ok q ∧ r = (q.1, lateName R (entryAt e (inputs W).length) q.2) := by
  unfold dictToArguments at h
  rw [bind_ok] at h
  obtain ⟨e, h1, h⟩ := h
  split at h
  · rename_i hm
    rw [bind_ok] at h
    obtain ⟨q, h2, h⟩ := h
    simp only [Except.ok.injEq] at h
    exact ⟨hm, e, q, h1, h2, h.symm⟩
  · simp at h

/-- **C115** The arguments which are read: one value for each input which is not locked and has an entry, read for the type of this
input; none for locked inputs nor for those without entry, which then have a default value.  Other entries of the document are
ignored. -/
theorem C115_values {allowed : List String} {d : List (String × δ)} {method : String} {r : List (Nat × α) × Option ν}
    (h : dictToArguments R W allowed d method = .ok r) : (∀ x ∈ r.1, x.1 < (inputs W).length) ∧ (r.1.map (·.1)).Nodup ∧
    ∀ (k : Nat) v, (inputs W)[k]? = some v → ReadFor R W v (EntryFor d k) (r.1.lookup k) := by
  obtain ⟨-, e, q, h1, h2, rfl⟩ := dictToArguments_ok h
  obtain ⟨k1, k2, k3⟩ := argLoop_ok h2
  refine ⟨fun x hx => by have := k1 x hx; omega, k2.imp (fun h => Nat.ne_of_lt h), fun k v hk => ?_⟩
  have := k3 k v hk
  rwa [Nat.zero_add, intKeys_entry h1] at this

/-- **C115** An input which is neither locked nor has a default value, and has no entry, is an error. -/
theorem C115_missing {allowed : List String} {d : List (String × δ)} {method : String} {k v : Nat} (hk : (inputs W)[k]? = some v)
    (hl : W.lockFlag v = false) (hd : W.default v = none) (he : EntryFor d k = none) :
    ∃ er, dictToArguments R W allowed d method = .error er := by
  cases h : dictToArguments R W allowed d method with
  | error er => exact ⟨er, rfl⟩
  | ok r =>
    have := (C115_values h).2.2 k v hk
    rw [he] at this
    generalize r.1.lookup k = z at this
    cases this with
    | locked _ h _ => rw [hl] at h; cases h
    | absent _ h => rw [hd] at h; simp at h

/-- The first missing entry is a KeyError, if what precedes can be read. -/
theorem C115_key_error : dictToArguments (ν := ν) ⟨fun _ x => .ok x, fun _ => false, fun _ => none, fun _ => none⟩ exW ["run"] [("1", 1)] "run" =
    .error .keyError := by rfl

theorem argLoop_congr {e e' : List (Int × δ)} {vs : List Nat} {i : Nat} {nm : Option ν}
    (h : ∀ (k : Nat) v, vs[k]? = some v → W.lockFlag v = false → entryAt e (i + k) = entryAt e' (i + k)) (hl : LocksOk W) :
    argLoop R W e i vs nm = argLoop R W e' i vs nm := by
  induction vs generalizing i nm with
  | nil => rfl
  | cons v vs ih =>
    have ih' : ∀ nm, argLoop R W e (i + 1) vs nm = argLoop R W e' (i + 1) vs nm := fun nm => ih (fun k u hk hu => by
      have := h (k + 1) u (by simpa using hk) hu
      rwa [show i + (k + 1) = i + 1 + k by omega] at this)
    rw [argLoop, argLoop]
    cases hv : W.lockFlag v with
    | true =>
      have hf : ∀ x : Option δ, takesArg W v x = .ok false := fun x => by
        unfold takesArg
        rw [hl.locked, hv]
        split <;> rfl
      simp only [hf, bind, Except.bind, Bool.false_eq_true, if_false, ih']
    | false =>
      have := h 0 v rfl hv
      rw [Nat.add_zero] at this
      simp only [this, ih']

/-- **C115** The entries of locked inputs have no effect on what is read. -/
theorem C115_locked {allowed : List String} (hl : LocksOk W) {d d' : List (String × δ)} {method : String} (hd : (∃ e, intKeys d = .ok e) ↔ (∃ e, intKeys d' = .ok e))
    (h : ∀ k : Nat, (∀ v, (inputs W)[k]? = some v → W.lockFlag v = false) → EntryFor d k = EntryFor d' k) :
    dictToArguments R W allowed d method = dictToArguments R W allowed d' method := by
  unfold dictToArguments
  cases h1 : intKeys d with
  | error er =>
    cases h2 : intKeys d' with
    | error er' => rw [intKeys_error h1, intKeys_error h2]
    | ok e' => exact absurd (hd.2 ⟨e', h2⟩) (by simp [h1])
  | ok e =>
    obtain ⟨e', h2⟩ := hd.1 ⟨e, h1⟩
    rw [h2]
    simp only [bind, Except.bind]
    have hlast : entryAt e (inputs W).length = entryAt e' (inputs W).length := by
      rw [intKeys_entry h1, intKeys_entry h2]
      exact h _ (fun v hv => by simp at hv)
    rw [argLoop_congr (R := R) (e' := e') (fun k v hk hv => by
      rw [Nat.zero_add, intKeys_entry h1, intKeys_entry h2]
      exact h k (fun u hu => by rw [hk] at hu; cases hu; exact hv)) hl, hlast]

/-- **C115** The name of the result: the value of the input named after the result if it is read and is not None, and otherwise the
string after the last input, if any. -/
theorem C115_name {allowed : List String} {d : List (String × δ)} {method : String} {r : List (Nat × α) × Option ν} {k v : Nat}
    (h : dictToArguments R W allowed d method = .ok r) (hk : (inputs W)[k]? = some v) (hn : R.isName v = true)
    (hone : ∀ (j : Nat) u, (inputs W)[j]? = some u → R.isName u = true → j = k) :
    r.2 = match (r.1.lookup k).bind R.nameOf with
      | some n => some n
      | none => (EntryFor d (inputs W).length).bind R.strOf := by
  obtain ⟨-, e, q, h1, h2, rfl⟩ := dictToArguments_ok h
  have h3 := (argLoop_name h2).2 k v hk hn hone
  rw [Nat.zero_add] at h3
  simp only [h3, intKeys_entry h1]
  cases q.1.lookup k with
  | none => unfold lateName; cases EntryFor d (inputs W).length <;> rfl
  | some y =>
    simp only [Option.bind_some]
    cases R.nameOf y with
    | none => unfold lateName; cases EntryFor d (inputs W).length <;> rfl
    | some n => rfl

/-- **C115** Only `run` has arguments. -/
theorem C115_method {d : List (String × δ)} {method : String} (h : method ≠ "run") :
    dictToArguments R W ["run"] d method = .error .notImplemented ∨ dictToArguments R W ["run"] d method = .error .valueError := by
  unfold dictToArguments
  cases h1 : intKeys d with
  | error er => rw [intKeys_error h1]; exact .inr rfl
  | ok e => simp [bind, Except.bind, h]

/-- **C115** What is read is enough for a run: each input has a value, the one read or its default value, and the run succeeds if the
blocks do. -/
theorem C115_run (hw : WellFormed W) (hl : LocksOk W) {o : Nat} (ho : OutputOf W o) (ht : Total W) (so : SetOrder) {allowed : List String}
    {d : List (String × δ)} {method : String} {r : List (Nat × α) × Option ν} (h : dictToArguments R W allowed d method = .ok r) :
    (∃ s, run W so r.1 = .ok (some s)) ∧ ∀ (k : Nat) v, (inputs W)[k]? = some v →
      expected W r.1 k = if W.lockFlag v then W.default v else match EntryFor d k with
        | some x => (R.read v x).toOption
        | none => W.default v := by
  obtain ⟨h1, -, h3⟩ := C115_values h
  have key : ∀ (k : Nat) v, (inputs W)[k]? = some v → (expected W r.1 k).isSome ∧
      expected W r.1 k = if W.lockFlag v then W.default v else match EntryFor d k with
        | some x => (R.read v x).toOption
        | none => W.default v := by
    intro k v hk
    have := h3 k v hk
    unfold expected
    rw [hk]
    simp only
    generalize EntryFor d k = x at this
    generalize r.1.lookup k = y at this
    cases this with
    | locked _ h hd => simp [h, hd]
    | absent h hd => simp [h, hd]
    | given h hy => simp [h, hy, Except.toOption]
  refine ⟨C27_completes hw hl ho ht so r.1 h1 (fun k hk => ?_), fun k v hk => (key k v hk).2⟩
  exact (key k _ (List.getElem?_eq_getElem hk)).1

theorem inputValues_eq (hl : LocksOk W) {user user' : List (Nat × α)} (hu : ∀ x ∈ user, x.1 < (inputs W).length)
    (hu' : ∀ x ∈ user', x.1 < (inputs W).length) (h : ∀ k, expected W user k = expected W user' k) : inputValues W user = inputValues W user' := by
  have high : ∀ (l a : List (Nat × α)), (∀ x ∈ l, x.1 < (inputs W).length) → allowedValues W l = .ok a → ∀ k, (inputs W).length ≤ k → a.lookup k = none := by
    intro l
    induction l with
    | nil => intro a _ ha k _; simp only [allowedValues, Except.ok.injEq] at ha; subst ha; rfl
    | cons x l ih =>
      intro a hx ha k hk
      obtain ⟨k', x⟩ := x
      rw [allowedValues] at ha
      split at ha
      · simp at ha
      · rw [bind_ok] at ha
        obtain ⟨c, -, ha⟩ := ha
        rw [bind_ok] at ha
        obtain ⟨r, h1, ha⟩ := ha
        simp only [Except.ok.injEq] at ha
        have := ih r (fun y hy => hx y (.tail _ hy)) h1 k hk
        subst ha
        split
        · exact this
        · have hne : (k == k') = false := by
            have := hx _ (.head _)
            simp only at this
            simp; omega
          rw [List.lookup_cons, hne]
          exact this
  obtain ⟨a, ha⟩ := allowedValues_total hl user hu
  obtain ⟨a', ha'⟩ := allowedValues_total hl user' hu'
  have e1 : inputValues W user = .ok (fun k => match a.lookup k with
    | some x => some x
    | none => defaultValues W k) := by unfold inputValues; rw [ha]; rfl
  have e2 : inputValues W user' = .ok (fun k => match a'.lookup k with
    | some x => some x
    | none => defaultValues W k) := by unfold inputValues; rw [ha']; rfl
  rw [e1, e2]
  congr 1
  funext k
  by_cases hk : k < (inputs W).length
  · have hv : (inputs W)[k]? = some ((inputs W)[k]) := List.getElem?_eq_getElem hk
    rw [inputValues_spec e1 k _ hv, inputValues_spec e2 k _ hv, h]
  · rw [high user a hu ha k (by omega), high user' a' hu' ha' k (by omega)]

/-- **C115** A call saved and read back is the same call: if each value of `user` was written under the index of its input as a document
which reads as this value, the run of what is read does what the run of `user` does. -/
theorem C115_call (hl : LocksOk W) {allowed : List String} {user : List (Nat × α)} (hu : ∀ x ∈ user, x.1 < (inputs W).length)
    {d : List (String × δ)} {method : String} {r : List (Nat × α) × Option ν} (h : dictToArguments R W allowed d method = .ok r)
    (hsaved : ∀ (k : Nat) v, (inputs W)[k]? = some v → match user.lookup k with
      | none => EntryFor d k = none
      | some x => ∃ j, EntryFor d k = some j ∧ R.read v j = .ok x) (so : SetOrder) : run W so r.1 = run W so user := by
  obtain ⟨h1, -, h3⟩ := C115_values h
  unfold run
  rw [inputValues_eq hl h1 hu (fun k => ?_)]
  unfold expected
  cases hk : (inputs W)[k]? with
  | none => rfl
  | some v =>
    have a1 := h3 k v hk
    have a2 := hsaved k v hk
    simp only
    split
    · rfl
    · rename_i hlk
      cases hx : user.lookup k with
      | none =>
        rw [hx] at a2
        simp only at a2
        rw [a2] at a1
        generalize r.1.lookup k = z at a1 ⊢
        cases a1 <;> rfl
      | some x =>
        rw [hx] at a2
        simp only at a2
        obtain ⟨j, a2, a3⟩ := a2
        rw [a2] at a1
        generalize r.1.lookup k = z at a1 ⊢
        cases a1 with
        | locked _ h _ => exact absurd h hlk
        | given _ hy => rw [a3] at hy; cases hy; rfl

/-- Entries are the integers themselves; input 10 is the name of the result. -/
def exReader : ArgReader Int Int Int := ⟨fun _ x => if x < 100 then .ok x else .error .typeError, fun v => v == 10, some, some⟩

theorem exArguments : dictToArguments exReader exW ["run"] [("2", 5), ("1", 1), ("7", 3)] "run" = .ok ([(1, 1), (2, 5)], some 5) := by rfl

example : ∃ s, run exW dedupOrder [(1, 1), (2, 5)] = .ok (some s) :=
  (C115_run exW_wf exW_locks exW_output exW_total dedupOrder exArguments).1

/-- With its first input locked, an entry for it is ignored. -/
example : dictToArguments exReader exL ["run"] [("0", 99), ("1", 1), ("2", 5)] "run" = .ok ([(1, 1), (2, 5)], some 5) := by rfl

example : ∃ er, dictToArguments exReader exW ["run"] [("2", 5)] "run" = .error er :=
  C115_missing (k := 1) (v := 6) rfl rfl rfl rfl

example : run exW dedupOrder [(1, 1), (2, 5)] = run exW dedupOrder [(2, 5), (1, 1)] :=
  C115_call exW_locks (user := [(2, 5), (1, 1)]) (by decide) exArguments (fun k v hk => by
    match k with
    | 0 => rfl
    | 1 => exact ⟨1, rfl, rfl⟩
    | 2 => exact ⟨5, rfl, rfl⟩
    | k + 3 => rw [exW_inputs] at hk; simp at hk) _

end DC.Wkf
