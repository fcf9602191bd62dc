import Verif.Values.IsSer
import Verif.Values.SerializeProps
/- Property C147: is_serializable tells which values can be serialized. -/
namespace DC
set_option linter.unusedSimpArgs false

/-! ### Specification -/

/-- The value can be written as JSON data: it is serialized, without files in the result. -/
def Writable (W : World) (v : V) : Prop := ∃ s, serialize W v = .ok s ∧ IsJson False s

/-- `x` is a part of `v` which is not in an object. -/
inductive Outside : V → V → Prop
  | self {v} : Outside v v
  | list {l v x} : v ∈ l → Outside v x → Outside (.list l) x
  | tuple {l v x} : v ∈ l → Outside v x → Outside (.tuple l) x
  | dict {d : List (Key × V)} {kv : Key × V} {x} : kv ∈ d → Outside kv.2 x → Outside (.dict d) x

/-- Neither classes nor measures are parts of the value, except in objects. -/
def NoBare (v : V) : Prop := (∀ n, ¬ Outside v (.cls n)) ∧ ∀ c q, ¬ Outside v (.measure c q)

/-! ### Lemmas -/

mutual
theorem writable_of_jsonable (W : World) : (v : V) → isJsonable v = true → Writable W v
  | .none, _ => ⟨_, rfl, .none⟩
  | .bool _, _ => ⟨_, rfl, .bool⟩
  | .int i, h => by
    rw [isJsonable] at h
    have := (jsonInt_iff i).1 h
    exact ⟨.int i, by simp [serialize, h], .int this.1 this.2⟩
  | .flt _, _ => ⟨_, rfl, .flt⟩
  | .str _, _ => ⟨_, rfl, .str⟩
  | .list l, h => by
    obtain ⟨r, h1, h2⟩ := writable_of_jsonableL W l (by rwa [isJsonable] at h)
    exact ⟨.list r, by simp [serialize, h1, bind, Except.bind], .arr h2⟩
  | .tuple l, h => by
    obtain ⟨r, h1, h2⟩ := writable_of_jsonableL W l (by rwa [isJsonable] at h)
    exact ⟨.list r, by simp [serialize, h1, bind, Except.bind], .arr h2⟩
  | .dict d, h => by
    obtain ⟨r, h1, h2⟩ := writable_of_jsonableD W d (by rwa [isJsonable] at h)
    exact ⟨.dict r, by simp [serialize, h1, bind, Except.bind], .obj h2⟩
  | .measure _ _, h => by simp [isJsonable] at h
  | .obj _ _, h => by simp [isJsonable] at h
  | .file _ _ _, h => by simp [isJsonable] at h
  | .cls _, h => by simp [isJsonable] at h
  | .other _, h => by simp [isJsonable] at h
theorem writable_of_jsonableL (W : World) : (l : List V) → isJsonableL l = true → ∃ r, serializeL W l = .ok r ∧ ∀ y ∈ r, IsJson False y
  | [], _ => ⟨[], rfl, by simp⟩
  | v :: l, h => by
    rw [isJsonableL, Bool.and_eq_true] at h
    obtain ⟨s, h1, h2⟩ := writable_of_jsonable W v h.1
    obtain ⟨r, h3, h4⟩ := writable_of_jsonableL W l h.2
    exact ⟨s :: r, by simp [serializeL, h1, h3, bind, Except.bind], by
      intro y hy
      rcases List.mem_cons.1 hy with rfl | hy
      · exact h2
      · exact h4 y hy⟩
theorem writable_of_jsonableD (W : World) : (d : List (Key × V)) → isJsonableD d = true →
    ∃ r, serializeD W (fun _ => true) d = .ok r ∧ ∀ y ∈ r, IsJson False y.2
  | [], _ => ⟨[], rfl, by simp⟩
  | (k, v) :: d, h => by
    rw [isJsonableD, Bool.and_eq_true] at h
    obtain ⟨s, h1, h2⟩ := writable_of_jsonable W v h.1
    obtain ⟨r, h3, h4⟩ := writable_of_jsonableD W d h.2
    exact ⟨(k, s) :: r, by simp [serializeD, h1, h3, bind, Except.bind], by
      intro y hy
      rcases List.mem_cons.1 hy with rfl | hy
      · exact h2
      · exact h4 y hy⟩
end

mutual
theorem jsonable_of_json : (v : V) → IsJson False v → isJsonable v = true
  | .none, _ => rfl
  | .bool _, _ => rfl
  | .int i, h => by
    cases h with
    | int h1 h2 => exact (jsonInt_iff i).2 ⟨h1, h2⟩
  | .flt _, _ => rfl
  | .str _, _ => rfl
  | .list l, h => by
    cases h with
    | arr h => rw [isJsonable]; exact jsonable_of_jsonL l h
  | .tuple l, h => by cases h
  | .dict d, h => by
    cases h with
    | obj h => rw [isJsonable]; exact jsonable_of_jsonD d h
  | .measure _ _, h => by cases h
  | .obj _ _, h => by cases h
  | .file _ _ _, h => by cases h with | file h => exact h.elim
  | .cls _, h => by cases h
  | .other _, h => by cases h
theorem jsonable_of_jsonL : (l : List V) → (∀ x ∈ l, IsJson False x) → isJsonableL l = true
  | [], _ => rfl
  | v :: l, h => by
    rw [isJsonableL, Bool.and_eq_true]
    exact ⟨jsonable_of_json v (h v (by simp)), jsonable_of_jsonL l fun x hx => h x (by simp [hx])⟩
theorem jsonable_of_jsonD : (d : List (Key × V)) → (∀ kv ∈ d, IsJson False kv.2) → isJsonableD d = true
  | [], _ => rfl
  | kv :: d, h => by
    rw [isJsonableD, Bool.and_eq_true]
    exact ⟨jsonable_of_json kv.2 (h kv (by simp)), jsonable_of_jsonD d fun x hx => h x (by simp [hx])⟩
end

theorem json_of_jsonable (W : World) {s : V} (h1 : IsJson True s) (h2 : isJsonable s = true) : IsJson False s := by
  obtain ⟨t, h3, h4⟩ := writable_of_jsonable W s h2
  rw [serialize_of_json W h1] at h3
  simp only [Except.ok.injEq] at h3
  rw [h3]; exact h4

mutual
theorem isSerializable_sound (W : World) : (v : V) → isSerializable W v = .ok true → Writable W v
  | .obj c d, h => by
    rw [isSerializable] at h
    cases hs : serialize W (.obj c d) with
    | error e => rw [hs] at h; simp at h
    | ok s =>
      rw [hs] at h
      simp only [Except.ok.injEq] at h
      exact ⟨s, hs, json_of_jsonable W (C11_json_or_files W _ s hs) h⟩
  | .none, _ => writable_of_jsonable W _ rfl
  | .bool _, _ => writable_of_jsonable W _ rfl
  | .int i, h => by
    rw [isSerializable] at h
    simp only [Except.ok.injEq] at h
    exact writable_of_jsonable W _ (by rw [isJsonable]; exact h)
  | .flt _, _ => writable_of_jsonable W _ rfl
  | .str _, _ => writable_of_jsonable W _ rfl
  | .list l, h => by
    rw [isSerializable] at h
    split at h
    · exact writable_of_jsonable W _ (by rw [isJsonable]; assumption)
    · obtain ⟨r, h1, h2⟩ := isSerializable_soundL W l h
      exact ⟨.list r, by simp [serialize, h1, bind, Except.bind], .arr h2⟩
  | .tuple l, h => by
    rw [isSerializable] at h
    split at h
    · exact writable_of_jsonable W _ (by rw [isJsonable]; assumption)
    · obtain ⟨r, h1, h2⟩ := isSerializable_soundL W l h
      exact ⟨.list r, by simp [serialize, h1, bind, Except.bind], .arr h2⟩
  | .dict d, h => by
    rw [isSerializable] at h
    split at h
    · exact writable_of_jsonable W _ (by rw [isJsonable]; assumption)
    · obtain ⟨r, h1, h2⟩ := isSerializable_soundD W d h
      exact ⟨.dict r, by simp [serialize, h1, bind, Except.bind], .obj h2⟩
  | .measure _ _, h => by simp [isSerializable] at h
  | .file _ _ _, h => by simp [isSerializable] at h
  | .cls _, h => by simp [isSerializable] at h
  | .other _, h => by simp [isSerializable] at h
theorem isSerializable_soundL (W : World) : (l : List V) → isSerializableL W l = .ok true →
    ∃ r, serializeL W l = .ok r ∧ ∀ y ∈ r, IsJson False y
  | [], _ => ⟨[], rfl, by simp⟩
  | v :: l, h => by
    rw [isSerializableL] at h
    split at h
    · simp at h
    · simp at h
    · rename_i hv
      obtain ⟨s, h1, h2⟩ := isSerializable_sound W v hv
      obtain ⟨r, h3, h4⟩ := isSerializable_soundL W l h
      exact ⟨s :: r, by simp [serializeL, h1, h3, bind, Except.bind], by
        intro y hy
        rcases List.mem_cons.1 hy with rfl | hy
        · exact h2
        · exact h4 y hy⟩
theorem isSerializable_soundD (W : World) : (d : List (Key × V)) → isSerializableD W d = .ok true →
    ∃ r, serializeD W (fun _ => true) d = .ok r ∧ ∀ y ∈ r, IsJson False y.2
  | [], _ => ⟨[], rfl, by simp⟩
  | (k, v) :: d, h => by
    rw [isSerializableD] at h
    split at h
    · simp at h
    · simp at h
    · rename_i hv
      obtain ⟨s, h1, h2⟩ := isSerializable_sound W v hv
      obtain ⟨r, h3, h4⟩ := isSerializable_soundD W d h
      exact ⟨(k, s) :: r, by simp [serializeD, h1, h3, bind, Except.bind], by
        intro y hy
        rcases List.mem_cons.1 hy with rfl | hy
        · exact h2
        · exact h4 y hy⟩
end

theorem writable_list {W : World} {l : List V} (h : Writable W (.list l) ∨ Writable W (.tuple l)) : ∀ v ∈ l, Writable W v := by
  have hl : ∃ r, serializeL W l = .ok r ∧ ∀ y ∈ r, IsJson False y := by
    rcases h with h | h <;>
    · obtain ⟨s, h1, h2⟩ := h
      rw [serialize, bind_ok] at h1
      obtain ⟨r, h1, h3⟩ := h1
      simp only [Except.ok.injEq] at h3; subst h3
      cases h2 with
      | arr h2 => exact ⟨r, h1, h2⟩
  clear h
  induction l with
  | nil => simp
  | cons v l ih =>
    obtain ⟨r, h1, h2⟩ := hl
    rw [serializeL, bind_ok] at h1
    obtain ⟨s, h3, h1⟩ := h1
    rw [bind_ok] at h1
    obtain ⟨r', h4, h1⟩ := h1
    simp only [Except.ok.injEq] at h1; subst h1
    intro x hx
    rcases List.mem_cons.1 hx with rfl | hx
    · exact ⟨s, h3, h2 s (by simp)⟩
    · exact ih ⟨r', h4, fun y hy => h2 y (by simp [hy])⟩ x hx

theorem writable_dict {W : World} {d : List (Key × V)} (h : Writable W (.dict d)) : ∀ kv ∈ d, Writable W kv.2 := by
  have hl : ∃ r, serializeD W (fun _ => true) d = .ok r ∧ ∀ y ∈ r, IsJson False y.2 := by
    obtain ⟨s, h1, h2⟩ := h
    rw [serialize, bind_ok] at h1
    obtain ⟨r, h1, h3⟩ := h1
    simp only [Except.ok.injEq] at h3; subst h3
    cases h2 with
    | obj h2 => exact ⟨r, h1, h2⟩
  clear h
  induction d with
  | nil => simp
  | cons kv d ih =>
    obtain ⟨k, v⟩ := kv
    obtain ⟨r, h1, h2⟩ := hl
    rw [serializeD, if_pos rfl, bind_ok] at h1
    obtain ⟨s, h3, h1⟩ := h1
    rw [bind_ok] at h1
    obtain ⟨r', h4, h1⟩ := h1
    simp only [Except.ok.injEq] at h1; subst h1
    intro x hx
    rcases List.mem_cons.1 hx with rfl | hx
    · exact ⟨s, h3, h2 (k, s) (by simp)⟩
    · exact ih ⟨r', h4, fun y hy => h2 y (by simp [hy])⟩ x hx

mutual
theorem isSerializable_complete (W : World) : (v : V) → NoBare v → Writable W v → isSerializable W v = .ok true
  | .obj c d, _, h => by
    obtain ⟨s, h1, h2⟩ := h
    rw [isSerializable, h1]
    simp only [jsonable_of_json s h2]
  | .none, _, _ => rfl
  | .bool _, _, _ => rfl
  | .int i, _, h => by
    obtain ⟨s, h1, -⟩ := h
    rw [serialize] at h1
    split at h1
    · rename_i hi; rw [isSerializable, hi]
    · simp at h1
  | .flt _, _, _ => rfl
  | .str _, _, _ => rfl
  | .list l, hb, h => by
    rw [isSerializable]
    split
    · rfl
    · exact isSerializable_completeL W l
        (fun x hx => ⟨fun n ho => hb.1 n (.list hx ho), fun c q ho => hb.2 c q (.list hx ho)⟩) (writable_list (.inl h))
  | .tuple l, hb, h => by
    rw [isSerializable]
    split
    · rfl
    · exact isSerializable_completeL W l
        (fun x hx => ⟨fun n ho => hb.1 n (.tuple hx ho), fun c q ho => hb.2 c q (.tuple hx ho)⟩) (writable_list (.inr h))
  | .dict d, hb, h => by
    rw [isSerializable]
    split
    · rfl
    · exact isSerializable_completeD W d
        (fun x hx => ⟨fun n ho => hb.1 n (.dict hx ho), fun c q ho => hb.2 c q (.dict hx ho)⟩) (writable_dict h)
  | .measure c q, hb, _ => absurd .self (hb.2 c q)
  | .file _ _ _, _, h => by
    obtain ⟨s, h1, h2⟩ := h
    rw [serialize] at h1
    simp only [Except.ok.injEq] at h1; subst h1
    cases h2 with | file h => exact h.elim
  | .cls n, hb, _ => absurd .self (hb.1 n)
  | .other _, _, h => by
    obtain ⟨s, h1, -⟩ := h
    simp [serialize] at h1
theorem isSerializable_completeL (W : World) : (l : List V) → (∀ x ∈ l, NoBare x) → (∀ x ∈ l, Writable W x) → isSerializableL W l = .ok true
  | [], _, _ => rfl
  | v :: l, hb, h => by
    rw [isSerializableL, isSerializable_complete W v (hb v (by simp)) (h v (by simp))]
    exact isSerializable_completeL W l (fun x hx => hb x (by simp [hx])) fun x hx => h x (by simp [hx])
theorem isSerializable_completeD (W : World) : (d : List (Key × V)) → (∀ x ∈ d, NoBare x.2) → (∀ x ∈ d, Writable W x.2) →
    isSerializableD W d = .ok true
  | [], _, _ => rfl
  | kv :: d, hb, h => by
    rw [isSerializableD, isSerializable_complete W kv.2 (hb kv (by simp)) (h kv (by simp))]
    exact isSerializable_completeD W d (fun x hx => hb x (by simp [hx])) fun x hx => h x (by simp [hx])
end

/-! ### Theorems -/

/-- **C147.** A value which `is_serializable` accepts can be written as JSON data, and a value without bare classes or
measures which can be written is accepted.
Missing: it raises instead of answering for some objects (`C147_raises_violated`), and refuses measures and classes which
can be written (`C147_measure_violated`, `C147_class_violated`). -/
theorem C147_partial (W : World) (v : V) :
    (isSerializable W v = .ok true → Writable W v) ∧ (NoBare v → Writable W v → isSerializable W v = .ok true) :=
  ⟨isSerializable_sound W v, isSerializable_complete W v⟩

/-- **C147** is violated by the code: for an object which has an attribute that cannot be serialized, no answer is given: the
error of the serialization is raised. -/
theorem C147_raises_violated (W : World) (c : String) (k : String) (n : Nat) (h : PublicAttr W.toEnv c (.str k)) :
    ∃ e, isSerializable W (.obj c [(.str k, .other n)]) = .error e := by
  cases hs : serialize W (.obj c [(.str k, .other n)]) with
  | error e => exact ⟨e, by rw [isSerializable, hs]⟩
  | ok s =>
    have := (C73_serialize_ok_iff W _).1 ⟨s, hs⟩
    cases this with
    | obj h' => have := h' _ (List.mem_singleton.2 rfl) h; cases this

/-- **C147** is violated by the code: a measure can be written, but is said not to be serializable. -/
theorem C147_measure_violated (W : World) (c : String) (q : Rat) :
    Writable W (.measure c q) ∧ isSerializable W (.measure c q) = .ok false := by
  refine ⟨⟨_, rfl, .obj ?_⟩, rfl⟩
  intro kv hkv
  simp at hkv
  rcases hkv with rfl | rfl
  · exact .str
  · exact .flt

/-- **C147** is violated by the code: a class can be written by its name, but is said not to be serializable. -/
theorem C147_class_violated (W : World) (n : String) (h : W.hasSchema n = true) :
    Writable W (.cls n) ∧ isSerializable W (.cls n) = .ok false := by
  refine ⟨?_, rfl⟩
  obtain ⟨s, hs⟩ := (C73_serialize_ok_iff W (.cls n)).2 (.cls (.inr h))
  exact ⟨s, hs, C11_json_partial W _ s (by intro b m t ho; cases ho) hs⟩

/-- A list of an object and a dictionary: accepted, without bare classes. -/
example : isSerializable serWorld (.list [serObj "a" (.tuple [.flt 1, .measure "u.Distance" 2]) (.cls "m.P"), .dict [(.int 3, .none)]]) =
    .ok true := by rfl

/-- A measure in an object is not bare. -/
example : NoBare (.list [serObj "a" (.measure "u.Distance" 2) .none]) := by
  constructor
  · intro n h
    cases h with
    | list hm h => simp at hm; subst hm; cases h
  · intro c q h
    cases h with
    | list hm h => simp at hm; subst hm; cases h

/-- The class of `C147_raises_violated` may be the one of the examples. -/
example : PublicAttr serWorld.toEnv "m.P" (.str "data") := ⟨"data", rfl, by decide, by decide⟩

end DC
