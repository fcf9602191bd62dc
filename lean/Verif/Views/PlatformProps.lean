import Verif.Views.Platform
import Verif.Views.DisplayProps
import Verif.Checks.Props
import Verif.Checks.BsonProps
/- Property C137: the checks of the platform tell what fails. -/
set_option linter.unusedSimpArgs false

namespace DC.View

variable {ω : Type}

/-- Specification: the dictionary of an object, without pointers when the one with pointers is a type error. -/
def DictOf (h : Hosted ω) (d : V) : Prop := h.toDict true = .ok d ∨ (h.toDict true = .error .typeError ∧ h.toDict false = .ok d)

/-- Specification: the object written as json and read again is the same. -/
def ReadAgain (h : Hosted ω) : Prop := ∃ d j w, DictOf h d ∧ h.json d = .ok j ∧ h.ofDict j = .ok w ∧ h.dataEq w = .ok true

/-- Specification: the copy of the object is the same. -/
def CopiedSame (h : Hosted ω) : Prop := ∃ w, h.copy = .ok w ∧ h.dataEq w = .ok true

/-- Specification: the dictionary of the object, with the keys as strings, can be stored. -/
def StoredSame (h : Hosted ω) : Prop := ∃ d, DictOf h d ∧ ∀ x, Occurs (strKeys d) x → StorableHere false x

/-- Specification: the list of displays is computed and can be written as json. -/
def Displayed (h : Hosted ω) : Prop := ∃ ds, displays h.data h.obj = .ok ds ∧ h.jsonDisplays ds = true

/-- Specification: the schemas are computed and can be written as json. -/
def HasSchemas (h : Hosted ω) : Prop := ∃ s, h.schemas = .ok s ∧ h.jsonSchemas s = true

/-- Specification: a check tells that something holds. -/
def Tells (c : Check) (p : Prop) : Prop := (p → c.passed = true ∧ c.level = "info") ∧ (¬ p → c.passed = false ∧ c.level = "error")

theorem tells_of {c : Check} {p : Prop} (h : (p ∧ ∃ m, c = passedCheck m) ∨ (¬ p ∧ ∃ m, c = failedCheck m)) : Tells c p := by
  rcases h with ⟨h, m, rfl⟩ | ⟨h, m, rfl⟩
  · exact ⟨fun _ => ⟨rfl, rfl⟩, fun n => absurd h n⟩
  · exact ⟨fun p => absurd p h, fun _ => ⟨rfl, rfl⟩⟩

theorem platformDict_iff (h : Hosted ω) (d : V) : platformDict h = .ok d ↔ DictOf h d := by
  unfold platformDict DictOf
  match hd : h.toDict true with
  | .ok x => simp
  | .error e => cases e <;> simp

theorem dictOf_unique {h : Hosted ω} {d d' : V} (h1 : DictOf h d) (h2 : DictOf h d') : d = d' := by
  have := ((platformDict_iff h d).2 h1).symm.trans ((platformDict_iff h d').2 h2)
  injection this

theorem checkSerialization_ok {h : Hosted ω} {c : Check} {d : V} (hc : checkSerialization h = .ok (c, d)) :
    ∃ j w, DictOf h d ∧ h.json d = .ok j ∧ h.ofDict j = .ok w ∧ checkRead h w = .ok c := by
  cases hd : platformDict h with
  | error e => simp [checkSerialization, hd] at hc
  | ok d' =>
    cases hj : h.json d' with
    | error e => simp [checkSerialization, hd, hj] at hc
    | ok j =>
      cases hw : h.ofDict j with
      | error e => simp [checkSerialization, hd, hj, hw] at hc
      | ok w =>
        cases hr : checkRead h w with
        | error e => simp [checkSerialization, hd, hj, hw, hr] at hc
        | ok c' =>
          simp only [checkSerialization, hd, hj, hw, hr] at hc
          cases hc
          exact ⟨j, w, (platformDict_iff h d).1 hd, hj, hw, hr⟩

theorem checkRead_ok {h : Hosted ω} {w : ω} {c : Check} (hr : checkRead h w = .ok c) :
    (h.dataEq w = .ok true ∧ ∃ m, c = passedCheck m) ∨ (h.dataEq w = .ok false ∧ h.dataDiff w = .ok () ∧ ∃ m, c = failedCheck m) := by
  cases he : h.dataEq w with
  | error e => simp [checkRead, he] at hr
  | ok b =>
    cases b
    · cases hf : h.dataDiff w with
      | error e => simp [checkRead, he, hf] at hr
      | ok u =>
        simp only [checkRead, he, hf] at hr
        cases hr
        exact .inr ⟨rfl, rfl, _, rfl⟩
    · simp only [checkRead, he] at hr
      cases hr
      exact .inl ⟨rfl, _, rfl⟩

theorem checkSerialization_tells {h : Hosted ω} {c : Check} {d : V} (hc : checkSerialization h = .ok (c, d)) :
    DictOf h d ∧ Tells c (ReadAgain h) := by
  obtain ⟨j, w, hd, hj, hw, hr⟩ := checkSerialization_ok hc
  refine ⟨hd, tells_of ?_⟩
  rcases checkRead_ok hr with ⟨he, hm⟩ | ⟨he, -, hm⟩
  · exact .inl ⟨⟨d, j, w, hd, hj, hw, he⟩, hm⟩
  · refine .inr ⟨?_, hm⟩
    rintro ⟨d', j', w', h1, h2, h3, h4⟩
    cases dictOf_unique hd h1
    rw [hj] at h2
    cases h2
    rw [hw] at h3
    cases h3
    rw [he] at h4
    cases h4

theorem checkCopy_ok {h : Hosted ω} {c : Check} (hc : checkCopy h = .ok c) : ∃ w b, h.copy = .ok w ∧ h.dataEq w = .ok b ∧
    ∃ m, c = if b then passedCheck m else failedCheck m := by
  cases hw : h.copy with
  | error e => simp [checkCopy, hw] at hc
  | ok w =>
    cases he : h.dataEq w with
    | error e => simp [checkCopy, hw, he] at hc
    | ok b =>
      cases b <;> simp only [checkCopy, hw, he] at hc <;> cases hc
      · exact ⟨w, false, rfl, he, _, rfl⟩
      · exact ⟨w, true, rfl, he, _, rfl⟩

theorem checkCopy_tells {h : Hosted ω} {c : Check} (hc : checkCopy h = .ok c) : Tells c (CopiedSame h) := by
  obtain ⟨w, b, hw, he, m, rfl⟩ := checkCopy_ok hc
  apply tells_of
  cases b
  · refine .inr ⟨?_, m, rfl⟩
    rintro ⟨w', h1, h2⟩
    rw [hw] at h1
    cases h1
    rw [he] at h2
    cases h2
  · exact .inl ⟨⟨w, hw, he⟩, m, rfl⟩

theorem checkBson_tells {h : Hosted ω} {d : V} (hd : DictOf h d) : Tells (checkBson d) (StoredSame h) := by
  apply tells_of
  unfold checkBson
  by_cases hb : bsonValid false (strKeys d) = true
  · rw [if_pos hb]
    exact .inl ⟨⟨d, hd, (bsonValid_iff false _).1 hb⟩, _, rfl⟩
  · rw [if_neg hb]
    refine .inr ⟨?_, _, rfl⟩
    rintro ⟨d', h1, h2⟩
    cases dictOf_unique hd h1
    exact hb ((bsonValid_iff false _).2 h2)

theorem checkDisplays_tells (h : Hosted ω) : Tells (checkDisplays h) (Displayed h) := by
  apply tells_of
  unfold checkDisplays Displayed
  match displays h.data h.obj with
  | .error e => exact .inr ⟨by simp, _, rfl⟩
  | .ok ds =>
    cases hj : h.jsonDisplays ds
    · exact .inr ⟨by simp [hj], _, by simp only [hj, if_true, Bool.false_eq_true, if_false]; rfl⟩
    · exact .inl ⟨⟨ds, rfl, hj⟩, _, by simp only [hj, if_true, Bool.false_eq_true, if_false]; rfl⟩

theorem checkSchemas_tells (h : Hosted ω) : Tells (checkSchemas h) (HasSchemas h) := by
  apply tells_of
  unfold checkSchemas HasSchemas
  match h.schemas with
  | .error e => exact .inr ⟨by simp, _, rfl⟩
  | .ok s =>
    cases hj : h.jsonSchemas s
    · exact .inr ⟨by simp [hj], _, by simp only [hj, if_true, Bool.false_eq_true, if_false]; rfl⟩
    · exact .inl ⟨⟨s, rfl, hj⟩, _, by simp only [hj, if_true, Bool.false_eq_true, if_false]; rfl⟩

theorem checkPlatform_ok {h : Hosted ω} {cs : List Check} (hc : checkPlatform h = .ok cs) : ∃ c d c', checkSerialization h = .ok (c, d) ∧
    checkCopy h = .ok c' ∧ cs = [c, c', checkBson d, checkDisplays h, checkSchemas h] := by
  cases hs : checkSerialization h with
  | error e => simp [checkPlatform, hs] at hc
  | ok cd =>
    cases hp : checkCopy h with
    | error e => simp [checkPlatform, hs, hp] at hc
    | ok c' =>
      simp only [checkPlatform, hs, hp] at hc
      cases hc
      exact ⟨cd.1, cd.2, c', rfl, rfl, rfl⟩

/-- **C137**: when the checks of the platform are computed, they are five, which tell in this order whether the object read again is the same,
whether its copy is, whether its dictionary can be stored, and whether its displays and its schemas are computed and written.
Missing: an object whose dictionary or copy raises has no checks, the error is raised; and views that raise are not told (see
`C137_violated`). -/
theorem C137_partial (h : Hosted ω) (cs : List Check) (hc : checkPlatform h = .ok cs) :
    List.Forall₂ Tells cs [ReadAgain h, CopiedSame h, StoredSame h, Displayed h, HasSchemas h] := by
  obtain ⟨c, d, c', hs, hp, rfl⟩ := checkPlatform_ok hc
  obtain ⟨hd, h1⟩ := checkSerialization_tells hs
  exact .cons h1 (.cons (checkCopy_tells hp) (.cons (checkBson_tells hd) (.cons (checkDisplays_tells h)
    (.cons (checkSchemas_tells h) .nil))))

theorem tells_levelled {cs : List Check} {ps : List Prop} (h : List.Forall₂ Tells cs ps) : Levelled cs := by
  classical
  intro c hc
  induction h with
  | nil => simp at hc
  | cons h1 _ ih =>
    rename_i p _ _ _
    rcases List.mem_cons.1 hc with rfl | hc
    · by_cases hp : p
      · exact ⟨.info, (h1.1 hp).2⟩
      · exact ⟨.error, (h1.2 hp).2⟩
    · exact ih hc

theorem tells_above {cs : List Check} {ps : List Prop} (h : List.Forall₂ Tells cs ps) (l : Level) (hl : l = .warning ∨ l = .error) :
    (∃ c ∈ cs, Above l c) ↔ ∃ p ∈ ps, ¬ p := by
  classical
  induction h with
  | nil => simp
  | cons h1 _ ih =>
    rename_i c p _ _ _
    simp only [List.exists_mem_cons_iff, ih]
    apply or_congr_left
    by_cases hp : p
    · rw [above_iff l .info c (h1.1 hp).2]
      rcases hl with rfl | rfl <;> simp [Level.rank, hp]
    · rw [above_iff l .error c (h1.2 hp).2]
      rcases hl with rfl | rfl <;> simp [Level.rank, hp]

theorem checkList_true (h : Hosted ω) : checkList h true = checkPlatform h := by
  unfold checkList
  match checkPlatform h with
  | .error e => rfl
  | .ok cs => rfl

/-- **C137** (valid): an object is valid, at the levels of warnings and errors, if and only if all those hold, whenever they are told. -/
theorem C137_valid (h : Hosted ω) (l : Level) (hl : l = .warning ∨ l = .error) (b : Bool) (hv : isValid h l.name = .ok b) :
    b = true ↔ ReadAgain h ∧ CopiedSame h ∧ StoredSame h ∧ Displayed h ∧ HasSchemas h := by
  unfold isValid at hv
  rw [checkList_true] at hv
  match hc : checkPlatform h, hv with
  | .ok cs, hv =>
    have h2 := C137_partial h cs hc
    obtain ⟨p, r, h3, h4, h5⟩ := C23_above_exact cs (tells_levelled h2) l
    simp only [h3] at hv
    cases hv
    have h6 := (tells_above h2 l hl).not
    have h7 : r = [] ↔ ¬ ∃ c ∈ cs, Above l c := by
      rw [h4, List.filter_eq_nil_iff]
      constructor
      · rintro h ⟨c, hc, ha⟩
        exact h c hc ((h5 c hc).2 ha)
      · intro h c hc hp
        exact h ⟨c, hc, (h5 c hc).1 hp⟩
    rw [List.isEmpty_iff, h7, h6]
    simp only [List.mem_cons, List.not_mem_nil, or_false, not_exists, not_and, not_not]
    constructor
    · intro h
      exact ⟨h _ (.inl rfl), h _ (.inr (.inl rfl)), h _ (.inr (.inr (.inl rfl))), h _ (.inr (.inr (.inr (.inl rfl)))),
        h _ (.inr (.inr (.inr (.inr rfl))))⟩
    · rintro ⟨h1, h2, h3, h4, h5⟩ p (rfl | rfl | rfl | rfl | rfl) <;> assumption

/-- **C137** (raise): `_check_platform` raises if and only if something does not hold or the checks cannot be computed. -/
theorem C137_raises (h : Hosted ω) (l : Level) (hl : l = .warning ∨ l = .error) : raisePlatform h l.name = .ok () ↔
    (∃ cs, checkPlatform h = .ok cs) ∧ ReadAgain h ∧ CopiedSame h ∧ StoredSame h ∧ Displayed h ∧ HasSchemas h := by
  unfold raisePlatform
  match hc : checkPlatform h with
  | .error e => simp
  | .ok cs =>
    have h2 := C137_partial h cs hc
    have h3 := C23_raises_iff cs (tells_levelled h2) l
    have h4 := tells_above h2 l hl
    by_cases ha : ∃ c ∈ cs, Above l c
    · simp only [h3.1 ha, reduceCtorEq, false_iff, not_and]
      rintro - h1 h2 h3 h4' h5
      obtain ⟨p, hp, hn⟩ := h4.1 ha
      simp only [List.mem_cons, List.not_mem_nil, or_false] at hp
      rcases hp with rfl | rfl | rfl | rfl | rfl <;> contradiction
    · have h5 := h4.not.1 ha
      simp only [List.mem_cons, List.not_mem_nil, or_false, not_exists, not_and, not_not] at h5
      simp only [h3.2 ha, true_iff]
      exact ⟨⟨cs, rfl⟩, h5 _ (.inl rfl), h5 _ (.inr (.inl rfl)), h5 _ (.inr (.inr (.inl rfl))), h5 _ (.inr (.inr (.inr (.inl rfl)))),
        h5 _ (.inr (.inr (.inr (.inr rfl))))⟩

/-- **C137** (errors): the checks are computed if and only if the object is read again and copied without error; when it is not the same
after reading, the difference is computed too. -/
theorem C137_computed (h : Hosted ω) : (∃ cs, checkPlatform h = .ok cs) ↔
    (∃ d j w b, DictOf h d ∧ h.json d = .ok j ∧ h.ofDict j = .ok w ∧ h.dataEq w = .ok b ∧ (b = false → h.dataDiff w = .ok ())) ∧
    (∃ w b, h.copy = .ok w ∧ h.dataEq w = .ok b) := by
  constructor
  · rintro ⟨cs, hc⟩
    obtain ⟨c, d, c', hs, hp, -⟩ := checkPlatform_ok hc
    constructor
    · obtain ⟨j, w, hd, hj, hw, hr⟩ := checkSerialization_ok hs
      rcases checkRead_ok hr with ⟨he, -⟩ | ⟨he, hf, -⟩
      · exact ⟨d, j, w, true, hd, hj, hw, he, by simp⟩
      · exact ⟨d, j, w, false, hd, hj, hw, he, fun _ => hf⟩
    · obtain ⟨w, b, hw, he, -⟩ := checkCopy_ok hp
      exact ⟨w, b, hw, he⟩
  · rintro ⟨⟨d, j, w, b, h1, h2, h3, h4, h5⟩, w', b', h6, h7⟩
    have hs : ∃ c, checkSerialization h = .ok (c, d) := by
      cases b
      · exact ⟨_, by simp only [checkSerialization, (platformDict_iff h d).2 h1, h2, h3, checkRead, h4, h5 rfl]; rfl⟩
      · exact ⟨_, by simp only [checkSerialization, (platformDict_iff h d).2 h1, h2, h3, checkRead, h4]; rfl⟩
    have hp : ∃ c, checkCopy h = .ok c := by
      cases b'
      · exact ⟨_, by simp only [checkCopy, h6, h7]; rfl⟩
      · exact ⟨_, by simp only [checkCopy, h6, h7]; rfl⟩
    obtain ⟨c, hs⟩ := hs
    obtain ⟨c', hp⟩ := hp
    exact ⟨_, by simp only [checkPlatform, hs, hp]; rfl⟩

/-! ### What fails -/

theorem displays_failing (D : Data V) (o : Obj V) (L : List Txt.Display) (hL : displaySettings o.cls = .ok L)
    (hf : ∀ n, ∃ e, o.call n = .error e) : ∃ ds, displays D o = .ok ds ∧ ds.length = L.length ∧ ∀ s ∈ ds, s.failed = true ∧ s.data = none := by
  have h1 : ∀ s ∈ L, ∃ r, displayOf D o s.selector = .ok r ∧ r.failed = true ∧ r.data = none := by
    intro s hs
    match hx : Txt.displayFromSelector L s.selector with
    | .error e =>
      simp only [Txt.displayFromSelector] at hx
      cases hy : L.find? (fun d => d.selector == s.selector) with
      | none =>
        rw [List.find?_eq_none] at hy
        exact absurd (hy s hs) (by simp)
      | some d => simp [hy] at hx
    | .ok t =>
      have : ∃ e, o.get t.method = .error e := by
        unfold Obj.get
        by_cases he : t.method = ""
        · exact ⟨_, if_pos he⟩
        · rw [if_neg he]
          exact hf _
      obtain ⟨e, he⟩ := this
      exact ⟨⟨t.type, none, t.referencePath, true⟩, by simp only [displayOf, hL, hx, showSetting, he, serialized, mkShown], rfl, rfl⟩
  have h2 : ∀ ss : List Txt.Display, (∀ s ∈ ss, s ∈ L) → ∃ ds, displaysLoop D o ss = .ok ds ∧ ds.length = ss.length ∧
      ∀ s ∈ ds, s.failed = true ∧ s.data = none := by
    intro ss
    induction ss with
    | nil => exact fun _ => ⟨[], rfl, rfl, by simp⟩
    | cons s ss ih =>
      intro hss
      obtain ⟨r, hr, h3⟩ := h1 s (hss s (by simp))
      obtain ⟨ds, hd, hl, h4⟩ := ih fun s hs => hss s (by simp [hs])
      refine ⟨r :: ds, by simp only [displaysLoop, hr, hd], by simp [hl], ?_⟩
      intro x hx
      rcases List.mem_cons.1 hx with rfl | hx
      · exact h3
      · exact h4 x hx
  obtain ⟨ds, hd, h3⟩ := h2 L fun _ h => h
  exact ⟨ds, by simp only [displays, hL, hd], h3⟩

/-- **C137** (displays) is violated: the check of displays passes for an object all of whose views raise. -/
theorem C137_violated (h : Hosted ω) (L : List Txt.Display) (hL : displaySettings h.obj.cls = .ok L)
    (hf : ∀ n, ∃ e, h.obj.call n = .error e)
    (hj : ∀ ds, (∀ s ∈ ds, s.failed = true ∧ s.data = none) → h.jsonDisplays ds = true) :
    (checkDisplays h).passed = true ∧ ∃ ds, displays h.data h.obj = .ok ds ∧ ds.length = L.length ∧ ∀ s ∈ ds, s.failed = true := by
  obtain ⟨ds, h1, h2, h3⟩ := displays_failing h.data h.obj L hL hf
  exact ⟨((checkDisplays_tells h).1 ⟨ds, h1, hj ds h3⟩).1, ds, h1, h2, fun s hs => (h3 s hs).1⟩

/-- **C137** (valid) is violated at the level of information: no object is valid, the checks which pass being above this level. -/
theorem C137_info_violated (h : Hosted ω) (b : Bool) (hv : isValid h "info" = .ok b) : b = false := by
  unfold isValid at hv
  rw [checkList_true] at hv
  match hc : checkPlatform h, hv with
  | .ok cs, hv =>
    have h2 := C137_partial h cs hc
    obtain ⟨p, r, h3, h4, h5⟩ := C23_above_exact cs (tells_levelled h2) .info
    simp only [show "info" = Level.info.name from rfl, h3] at hv
    cases hv
    classical
    cases h2 with
    | cons h1 _ =>
      rename_i c cs' _
      have ha : Above .info c := by
        by_cases hp : ReadAgain h
        · exact ⟨.info, (h1.1 hp).2, trivial⟩
        · exact ⟨.error, (h1.2 hp).2, trivial⟩
      have : c ∈ r := by
        rw [h4]
        exact List.mem_filter.2 ⟨by simp, (h5 c (by simp)).2 ha⟩
      cases r with
      | nil => simp at this
      | cons _ _ => rfl

/-- An object whose dictionary with pointers fails, which is read again without, and whose plot fails. -/
def sampleHosted : Hosted V where
  toDict p := if p then .error .typeError else .ok (.dict [(.str "a", .int 1)])
  json d := .ok d
  ofDict d := .ok d
  dataEq w := .ok (match w with | .dict _ => true | _ => false)
  dataDiff _ := .ok ()
  copy := .ok (.int 0)
  obj := ⟨sampleClass, fun _ => .error .valueError, fun _ => .error .valueError⟩
  data := ⟨fun d => .ok d, fun _ => true, fun d => .ok d⟩
  jsonDisplays _ := true
  schemas := .error .valueError
  jsonSchemas _ := true

example : ∃ cs, checkPlatform sampleHosted = .ok cs ∧ cs.map (·.passed) = [true, false, true, true, false] :=
  ⟨_, rfl, by decide +kernel⟩

example : isValid sampleHosted Level.error.name = .ok false ∧ ReadAgain sampleHosted ∧ ¬ CopiedSame sampleHosted := by
  refine ⟨by rfl, ⟨_, _, _, .inr ⟨rfl, rfl⟩, rfl, rfl, rfl⟩, ?_⟩
  rintro ⟨w, h1, h2⟩
  cases h1
  cases h2

example : (checkDisplays sampleHosted).passed = true :=
  (C137_violated sampleHosted sampleSettings sample_settings (fun _ => ⟨_, rfl⟩) (fun _ _ => rfl)).1

/-- The same object, copied and described well: it is valid. -/
def soundHosted : Hosted V := { sampleHosted with copy := .ok (.dict []), schemas := .ok .none }

example : isValid soundHosted Level.error.name = .ok true ∧ isValid soundHosted "info" = .ok false ∧
    raisePlatform soundHosted Level.warning.name = .ok () := by
  refine ⟨by rfl, by rfl, by rfl⟩

example : ReadAgain soundHosted ∧ CopiedSame soundHosted ∧ StoredSame soundHosted ∧ Displayed soundHosted ∧ HasSchemas soundHosted :=
  (C137_valid soundHosted .error (.inr rfl) true (by rfl)).1 rfl

example : ∃ cs, checkPlatform soundHosted = .ok cs :=
  (C137_computed soundHosted).2 ⟨⟨_, _, _, true, .inr ⟨rfl, rfl⟩, rfl, rfl, rfl, by simp⟩, _, true, rfl, rfl⟩

/-- The checks raise instead of telling when the object cannot be read again. -/
example : checkPlatform { soundHosted with ofDict := fun _ => .error .keyError } = .error .keyError := by rfl

end DC.View
