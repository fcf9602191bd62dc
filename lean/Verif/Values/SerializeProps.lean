import Verif.Values.SerializeLemmas
import Verif.Values.EqualityProps
/- Property theorems on serialization without pointers: C11, C12, C73. -/
namespace DC

/-- A class `m.P` with arguments `name`, `pos` (a tuple) and `data`, a measure class, a module `os.path`.
Example only. -/
def serWorld : World where
  info := fun c => if c = "m.P" then { initArgs := ["name", "pos", "data"], tupleArgs := ["pos"] } else {}
  kind := fun c => if c = "m.P" then some .generic else if c = "u.Distance" then some .measure else none
  resolve := fun s => if s = "os.path" then some (.other 0) else if s = "m.P" then some (.cls "m.P") else none

/-- An object of class `m.P`.  Example only. -/
def serObj (name : String) (pos data : V) : V :=
  .obj "m.P" [(.str "name", .str name), (.str "pos", pos), (.str "data", data)]

/-! ### C11 -/

/-- C11 is violated by the code: a file is left as is in the output, which is not JSON data. -/
theorem C11_files_violated (W : World) : serialize W (.list [.file false "a.txt" "x"]) =
    .ok (.list [.file false "a.txt" "x"]) ∧ ¬ IsJson False (.list [.file false "a.txt" "x"]) := by
  refine ⟨by simp [serialize, serializeL, bind, Except.bind], ?_⟩
  intro h
  cases h with
  | arr h => have := h _ (List.mem_singleton.2 rfl); cases this with | file h => exact h

/-- C11, what holds: the output of `serialize` on a value without files is JSON data. Missing: files
(`C11_files_violated`). -/
theorem C11_json_partial (W : World) (v s : V) (hf : NoFile v) (h : serialize W v = .ok s) : IsJson False s :=
  serialize_json W False v s h (fun b n t ho => hf b n t ho)

/-- C11: in any case the output is made of JSON data and files. -/
theorem C11_json_or_files (W : World) (v s : V) (h : serialize W v = .ok s) : IsJson True s :=
  serialize_json W True v s h (fun _ _ _ _ => trivial)

/-- C11: serializing again changes nothing. -/
theorem C11_idempotent (W : World) (v s : V) (h : serialize W v = .ok s) : serialize W s = .ok s :=
  serialize_of_json W (C11_json_or_files W v s h)

example : ∃ s, serialize serWorld (serObj "a" (.tuple [.flt 1, .measure "u.Distance" 2]) (.dict [(.int 3, .cls "m.P")])) =
    .ok s ∧ NoFile (serObj "a" (.tuple [.flt 1, .measure "u.Distance" 2]) (.dict [(.int 3, .cls "m.P")])) := by
  refine ⟨_, rfl, ?_⟩
  intro b n t h
  unfold serObj at h
  cases h with
  | obj hm h =>
    simp only [List.mem_cons, Prod.mk.injEq, List.not_mem_nil, or_false] at hm
    rcases hm with ⟨_, rfl⟩ | ⟨_, rfl⟩ | ⟨_, rfl⟩
    · cases h
    · cases h with
      | tuple hm h => simp at hm; rcases hm with rfl | rfl <;> cases h
    · cases h with
      | dict hm h => simp at hm; rw [hm.2] at h; cases h

/-! ### C12 -/

/-- C12 is violated by the code: an object holding a string that happens to name something importable is read back
with the imported thing instead of the string. -/
theorem C12_string_violated (fuel : Nat) : ∃ d w, serialize serWorld (serObj "a" .none (.str "os.path")) = .ok (.dict d) ∧
    loadDict serWorld fuel d = .ok (some w) ∧
    dataEq serWorld.toEnv (serObj "a" .none (.str "os.path")) w = false := by
  refine ⟨_, serObj "a" .none (.other 0), rfl, ?_, by decide⟩
  exact loadDict_noRefs _ _ _ (by rfl) _ (by rfl)

/-- C12 is violated by the code: an object holding a dictionary with the key `object_class` cannot be read back. -/
theorem C12_dict_violated (fuel : Nat) : ∃ d,
    serialize serWorld (serObj "a" .none (.dict [(.str "object_class", .str "x")])) = .ok (.dict d) ∧
    loadDict serWorld fuel d = .error .importError := by
  refine ⟨_, rfl, ?_⟩
  unfold loadDict
  have : deserializationOrder fuel (.dict [(.str "object_class", .str "m.P"), (.str "name", .str "a"),
    (.str "pos", .none), (.str "data", .dict [(.str "object_class", .str "x")])]) = .ok (some []) := by
    unfold deserializationOrder pointerGraph
    rfl
  exact (congrArg (fun x => x >>= _) this).trans rfl

/-- C12, what holds: an object whose data is `Readable` is serialized, and read back as an object of the same class
with the same data, sequences becoming tuples or lists according to the annotations. Missing: strings naming importable
things, dictionaries with reserved keys, builtin classes (`Readable` excludes them, see the `_violated` theorems). -/
theorem C12_roundtrip_partial (W : World) (fuel : Nat) (c : String) (a : List (Key × V)) (hv : WF (.obj c a))
    (hr : Readable W (.obj c a)) : ∃ d a', serialize W (.obj c a) = .ok (.dict d) ∧
      loadDict W fuel d = .ok (some (.obj c a')) ∧ V.obj c a' = reread W.toEnv false (.obj c a) ∧
      dataEq W.toEnv (.obj c a) (.obj c a') = true ∧ dataEq W.toEnv (.obj c a') (.obj c a) = true := by
  obtain ⟨s, h1, h2, h3⟩ := roundTrip_aux W _ hv hr
  have hd : ∃ d, s = .dict d := by
    rw [serialize, bind_ok] at h1
    obtain ⟨r, _, h⟩ := h1
    simp only [Except.ok.injEq] at h
    exact ⟨_, h.symm⟩
  obtain ⟨d, rfl⟩ := hd
  have hs := same_reread W.toEnv false _ hv
  have hc : Same W.toEnv Close _ _ := hs.mono (fun a b hab => hab ▸ Close.refl _)
  have hw := WF_reread W.toEnv false _ hv
  exact ⟨d, _, h1, loadDict_noRefs W fuel d (h3 _) _ (h2 _ _), rfl, same_imp_dataEq hc hv,
    same_imp_dataEq (hc.symm (fun _ _ => Close.symm)) hw⟩

/-- C12: if moreover the sequences are of the annotated kinds, exactly the same object is read back.
Missing: what `Readable` excludes (`C12_string_violated`, `C12_dict_violated`). -/
theorem C12_exact_partial (W : World) (fuel : Nat) (c : String) (a : List (Key × V)) (hv : WF (.obj c a))
    (hr : Readable W (.obj c a)) (hk : SeqKinds W.toEnv false (.obj c a)) :
    ∃ d, serialize W (.obj c a) = .ok (.dict d) ∧ loadDict W fuel d = .ok (some (.obj c a)) := by
  obtain ⟨d, a', h1, h2, h3, _⟩ := C12_roundtrip_partial W fuel c a hv hr
  rw [reread_id W.toEnv false _ hk] at h3
  exact ⟨d, h1, h3 ▸ h2⟩

/-- An object with a tuple, a measure, a class and a nested object.  Example only. -/
def serDemo : V := serObj "a" (.tuple [.flt 1, .measure "u.Distance" 2])
  (.list [.cls "m.P", serObj "b" .none (.dict [(.int 3, .int 7)])])

/-- An object with a tuple, a measure, a class and a nested object meets the hypotheses of the theorems above. -/
theorem serDemo_ok : WF serDemo ∧ Readable serWorld serDemo ∧ SeqKinds serWorld.toEnv false serDemo := by
  unfold serDemo
  have occ : ∀ x, Occurs (serObj "a" (.tuple [.flt 1, .measure "u.Distance" 2])
      (.list [.cls "m.P", serObj "b" .none (.dict [(.int 3, .int 7)])])) x →
      x ∈ [serObj "a" (.tuple [.flt 1, .measure "u.Distance" 2])
      (.list [.cls "m.P", serObj "b" .none (.dict [(.int 3, .int 7)])]), .str "a",
      .tuple [.flt 1, .measure "u.Distance" 2], .flt 1, .measure "u.Distance" 2,
      .list [.cls "m.P", serObj "b" .none (.dict [(.int 3, .int 7)])], .cls "m.P",
      serObj "b" .none (.dict [(.int 3, .int 7)]), .str "b", .none, .dict [(.int 3, .int 7)], .int 7] := by
    intro x h
    unfold serObj at h ⊢
    cases h with
    | self => simp
    | obj hm h =>
      simp only [List.mem_cons, Prod.mk.injEq, List.not_mem_nil, or_false] at hm
      rcases hm with ⟨_, rfl⟩ | ⟨_, rfl⟩ | ⟨_, rfl⟩
      · cases h; simp
      · cases h with
        | self => simp
        | tuple hm h => simp at hm; rcases hm with rfl | rfl <;> cases h <;> simp
      · cases h with
        | self => simp
        | list hm h =>
          simp at hm
          rcases hm with rfl | rfl
          · cases h; simp
          · cases h with
            | self => simp
            | obj hm h =>
              simp only [List.mem_cons, Prod.mk.injEq, List.not_mem_nil, or_false] at hm
              rcases hm with ⟨_, rfl⟩ | ⟨_, rfl⟩ | ⟨_, rfl⟩
              · cases h; simp
              · cases h; simp
              · cases h with
                | self => simp
                | dict hm h => simp at hm; rw [hm.2] at h; cases h; simp
  refine ⟨by simp [serObj, WF, WFL, WFD, keysOf], ⟨?_, ?_, ?_, ?_, ?_, ?_⟩, ?_⟩
  · intro i h; have := occ _ h; simp [serObj] at this; subst this; decide
  · intro s h; have := occ _ h; simp [serObj] at this; rcases this with rfl | rfl <;> decide
  · intro s h; have := occ _ h; simp [serObj] at this; subst this; refine ⟨by decide, rfl, rfl⟩
  · intro c q h; have := occ _ h; simp [serObj] at this; obtain ⟨rfl, _⟩ := this; rfl
  · intro d h; have := occ _ h; simp [serObj] at this; subst this; simp [keysOf]
  · intro c d h
    have := occ _ h
    simp only [serObj, List.mem_cons, V.obj.injEq, reduceCtorEq, false_or, or_false, List.not_mem_nil] at this
    rcases this with ⟨rfl, rfl⟩ | ⟨rfl, rfl⟩ <;>
    · refine ⟨rfl, rfl, ?_, by decide, by decide⟩
      simp only [keysOf, List.map_cons, List.map_nil, List.mem_cons, List.not_mem_nil, or_false]
      rintro k (rfl | rfl | rfl)
      · exact ⟨_, rfl, by decide, by decide⟩
      · exact ⟨_, rfl, by decide, by decide⟩
      · exact ⟨_, rfl, by decide, by decide⟩
  · simp [serObj, SeqKinds, SeqKindsL, SeqKindsD, serWorld]

/-! ### C73 -/

/-- C73: `serialize` succeeds exactly on the values all of whose serialized parts are supported. -/
theorem C73_serialize_ok_iff (W : World) (v : V) : (∃ s, serialize W v = .ok s) ↔ Supported W v :=
  ⟨fun ⟨s, h⟩ => supported_of_serialize W v s h, serialize_of_supported W⟩

/-- A private attribute may hold anything; a public one may not. -/
example : Supported serWorld (.obj "m.P" [(.str "_cache", .other 3), (.str "data", .int 1)]) ∧
    ¬ Supported serWorld (.obj "m.P" [(.str "cache", .other 3)]) := by
  constructor
  · refine .obj ?_
    simp only [List.mem_cons, List.not_mem_nil, or_false]
    rintro kv (rfl | rfl)
    · rintro ⟨s, hs, _, h⟩
      simp at hs; subst hs; exact absurd rfl h
    · exact fun _ => .int (by decide) (by decide)
  · intro h
    cases h with
    | obj h =>
      have := h _ (List.mem_singleton.2 rfl) ⟨"cache", rfl, by decide, by decide⟩
      cases this

end DC
