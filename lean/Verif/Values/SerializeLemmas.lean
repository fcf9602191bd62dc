import Verif.Values.SerializeSpec
import Verif.Values.Pointers
import Verif.Values.CopyLemmas
import Verif.Values.DiffLemmas
/- Helper lemmas for Verif/Values/SerializeProps.lean. -/
namespace DC

theorem serKeep_iff (Γ : Env) (c : String) (k : Key) : serKeep Γ c k = true ↔ PublicAttr Γ c k := by
  cases k with
  | str s => simp [serKeep, PublicAttr]
  | int i => simp [serKeep, PublicAttr]

theorem tupleArg_eq (Γ : Env) (c : String) (k : Key) :
    tupleArg Γ c k = decide (∃ s ∈ (Γ.info c).tupleArgs, k = .str s) := by
  cases k with
  | str s => simp [tupleArg]
  | int i => simp [tupleArg]

theorem dictSet_new {α : Type} (d : List (Key × α)) (k : Key) (v : α) (h : k ∉ d.map (·.1)) :
    dictSet d k v = d ++ [(k, v)] := by
  induction d with
  | nil => rfl
  | cons kv d ih =>
    obtain ⟨k', v'⟩ := kv
    simp only [List.map_cons, List.mem_cons, not_or] at h
    simp [dictSet, ih h.2, Ne.symm h.1]

theorem dictUpdate_disjoint {α : Type} (d e : List (Key × α)) (hn : (e.map (·.1)).Nodup)
    (h : ∀ k ∈ e.map (·.1), k ∉ d.map (·.1)) : dictUpdate d e = d ++ e := by
  induction e generalizing d with
  | nil => simp [dictUpdate]
  | cons kv e ih =>
    obtain ⟨k, v⟩ := kv
    simp only [List.map_cons, List.nodup_cons] at hn
    have hk : k ∉ d.map (·.1) := h k (by simp)
    have := ih (d ++ [(k, v)]) hn.2 (by
      intro k' hk'
      simp only [List.map_append, List.map_cons, List.map_nil, List.mem_append, List.mem_singleton, not_or]
      exact ⟨h k' (by simp at hk' ⊢; exact .inr hk'), fun e => hn.1 (e ▸ hk')⟩)
    simp only [dictUpdate, List.foldl_cons] at this ⊢
    rw [dictSet_new _ _ _ hk, this]; simp

theorem mem_dictSet {α : Type} {d : List (Key × α)} {k : Key} {v : α} {x : Key × α} (h : x ∈ dictSet d k v) :
    x ∈ d ∨ x.2 = v := by
  induction d with
  | nil => simp [dictSet] at h; right; rw [h]
  | cons kv d ih =>
    obtain ⟨k', v'⟩ := kv
    rw [dictSet] at h
    split at h
    · rcases List.mem_cons.1 h with h | h
      · right; rw [h]
      · left; simp [h]
    · rcases List.mem_cons.1 h with h | h
      · left; simp [h]
      · rcases ih h with h | h
        · left; simp [h]
        · right; exact h

theorem mem_dictUpdate {α : Type} {d e : List (Key × α)} {x : Key × α} (h : x ∈ dictUpdate d e) :
    x ∈ d ∨ ∃ kv ∈ e, x.2 = kv.2 := by
  induction e generalizing d with
  | nil => left; exact h
  | cons kv e ih =>
    simp only [dictUpdate, List.foldl_cons] at h ih
    rcases ih h with h | ⟨kv', hm, h⟩
    · rcases mem_dictSet h with h | h
      · exact .inl h
      · exact .inr ⟨kv, by simp, h⟩
    · exact .inr ⟨kv', by simp [hm], h⟩

theorem jsonInt_iff (i : Int) : jsonInt i = true ↔ -2 ^ 63 ≤ i ∧ i < 2 ^ 64 := by
  unfold jsonInt; rw [decide_eq_true_iff]; constructor <;> intro h <;> omega

/-! ### Output of serialize -/

mutual
/-- The output of `serialize` is JSON data, files apart. -/
theorem serialize_json (W : World) (F : Prop) : (v : V) → (s : V) → serialize W v = .ok s →
    (∀ b n t, Occurs v (.file b n t) → F) → IsJson F s
  | .obj c d, s, h, hf => by
    rw [serialize, bind_ok] at h
    obtain ⟨r, hr, h⟩ := h
    simp only [Except.ok.injEq] at h; subst h
    refine .obj ?_
    intro kv hkv
    rcases mem_dictUpdate hkv with h | ⟨e, he, h⟩
    · simp at h; rw [h]; exact .str
    · rw [h]
      exact serialize_jsonD W F _ d r hr (fun kv hm b n t ho => hf b n t (.obj (k := kv.1) hm ho)) e he
  | .dict d, s, h, hf => by
    rw [serialize, bind_ok] at h
    obtain ⟨r, hr, h⟩ := h
    simp only [Except.ok.injEq] at h; subst h
    exact .obj (serialize_jsonD W F _ d r hr (fun kv hm b n t ho => hf b n t (.dict (k := kv.1) hm ho)))
  | .list l, s, h, hf => by
    rw [serialize, bind_ok] at h
    obtain ⟨r, hr, h⟩ := h
    simp only [Except.ok.injEq] at h; subst h
    exact .arr (serialize_jsonL W F l r hr (fun x hm b n t ho => hf b n t (.list hm ho)))
  | .tuple l, s, h, hf => by
    rw [serialize, bind_ok] at h
    obtain ⟨r, hr, h⟩ := h
    simp only [Except.ok.injEq] at h; subst h
    exact .arr (serialize_jsonL W F l r hr (fun x hm b n t ho => hf b n t (.tuple hm ho)))
  | .file b n t, s, h, hf => by
    rw [serialize] at h
    simp only [Except.ok.injEq] at h; subst h
    exact .file (hf b n t .self)
  | .cls n, s, h, hf => by
    rw [serialize, bind_ok] at h
    obtain ⟨r, hr, h⟩ := h
    simp only [Except.ok.injEq] at h; subst h
    exact .str
  | .measure c q, s, h, hf => by
    rw [serialize] at h
    simp only [Except.ok.injEq] at h; subst h
    refine .obj ?_
    simp only [List.mem_cons, List.not_mem_nil, or_false]
    rintro kv (rfl | rfl)
    · exact .str
    · exact .flt
  | .none, s, h, hf => by
    rw [serialize] at h
    simp only [Except.ok.injEq] at h; subst h; exact .none
  | .bool b, s, h, hf => by
    rw [serialize] at h
    simp only [Except.ok.injEq] at h; subst h; exact .bool
  | .int i, s, h, hf => by
    rw [serialize] at h
    split at h
    · rename_i hi
      simp only [Except.ok.injEq] at h; subst h
      have := (jsonInt_iff i).1 hi
      exact .int this.1 this.2
    · simp at h
  | .flt q, s, h, hf => by
    rw [serialize] at h
    simp only [Except.ok.injEq] at h; subst h; exact .flt
  | .str t, s, h, hf => by
    rw [serialize] at h
    simp only [Except.ok.injEq] at h; subst h; exact .str
  | .other n, s, h, hf => by simp [serialize] at h
theorem serialize_jsonL (W : World) (F : Prop) : (l : List V) → (r : List V) → serializeL W l = .ok r →
    (∀ x ∈ l, ∀ b n t, Occurs x (.file b n t) → F) → ∀ y ∈ r, IsJson F y
  | [], r, h, _ => by
    rw [serializeL] at h; simp only [Except.ok.injEq] at h; subst h; simp
  | x :: l, r, h, hf => by
    rw [serializeL, bind_ok] at h
    obtain ⟨s, hs, h⟩ := h
    rw [bind_ok] at h
    obtain ⟨r', hr, h⟩ := h
    simp only [Except.ok.injEq] at h; subst h
    intro y hy
    rcases List.mem_cons.1 hy with rfl | hy
    · exact serialize_json W F x y hs (hf x (by simp))
    · exact serialize_jsonL W F l r' hr (fun z hz => hf z (by simp [hz])) y hy
theorem serialize_jsonD (W : World) (F : Prop) (keep : Key → Bool) : (d : List (Key × V)) → (r : List (Key × V)) →
    serializeD W keep d = .ok r →
    (∀ kv ∈ d, ∀ b n t, Occurs kv.2 (.file b n t) → F) → ∀ kv ∈ r, IsJson F kv.2
  | [], r, h, _ => by
    rw [serializeD] at h; simp only [Except.ok.injEq] at h; subst h; simp
  | (k, x) :: l, r, h, hf => by
    rw [serializeD] at h
    split at h
    · rw [bind_ok] at h
      obtain ⟨s, hs, h⟩ := h
      rw [bind_ok] at h
      obtain ⟨r', hr, h⟩ := h
      simp only [Except.ok.injEq] at h; subst h
      intro y hy
      rcases List.mem_cons.1 hy with rfl | hy
      · exact serialize_json W F x s hs (hf (k, x) (by simp))
      · exact serialize_jsonD W F keep l r' hr (fun z hz => hf z (by simp [hz])) y hy
    · exact serialize_jsonD W F keep l r h (fun z hz => hf z (by simp [hz]))
end

/-- JSON data (and files) is left unchanged by `serialize`. -/
theorem serialize_of_json (W : World) {v : V} (h : IsJson True v) : serialize W v = .ok v := by
  have hD : ∀ d : List (Key × V), (∀ kv ∈ d, serialize W kv.2 = .ok kv.2) →
      serializeD W (fun _ => true) d = .ok d := by
    intro d
    induction d with
    | nil => intro _; rw [serializeD]
    | cons kv d ih =>
      intro h
      obtain ⟨k, v⟩ := kv
      rw [serializeD]
      simp only [if_true]
      rw [h (k, v) (by simp), ih (fun kv hm => h kv (by simp [hm]))]
      rfl
  have hL : ∀ l : List V, (∀ x ∈ l, serialize W x = .ok x) → serializeL W l = .ok l := by
    intro l
    induction l with
    | nil => intro _; rw [serializeL]
    | cons x l ih =>
      intro h
      rw [serializeL, h x (by simp), ih (fun y hm => h y (by simp [hm]))]
      rfl
  induction h with
  | none => rw [serialize]
  | bool => rw [serialize]
  | int h1 h2 => rw [serialize, if_pos ((jsonInt_iff _).2 ⟨h1, h2⟩)]
  | flt => rw [serialize]
  | str => rw [serialize]
  | arr _ ih => rw [serialize, hL _ ih]; rfl
  | obj _ ih => rw [serialize, hD _ ih]; rfl
  | file _ => rw [serialize]

/-! ### Totality -/

theorem annotationString_ok (W : World) (n : String) : (∃ s, annotationString W n = .ok s) ↔
    n ∈ ["builtins.int", "builtins.float", "builtins.bool", "builtins.str"] ∨ W.hasSchema n = true := by
  unfold annotationString
  split
  · simp_all
  split
  · simp_all
  split
  · simp_all
  split
  · simp_all
  split
  · simp_all
  · simp_all

theorem serialize_of_supported (W : World) {v : V} (h : Supported W v) : ∃ s, serialize W v = .ok s := by
  have hL : ∀ l : List V, (∀ x ∈ l, ∃ s, serialize W x = .ok s) → ∃ r, serializeL W l = .ok r := by
    intro l
    induction l with
    | nil => intro _; exact ⟨[], by rw [serializeL]⟩
    | cons x l ih =>
      intro h
      obtain ⟨s, hs⟩ := h x (by simp)
      obtain ⟨r, hr⟩ := ih (fun y hm => h y (by simp [hm]))
      exact ⟨s :: r, by rw [serializeL, hs, hr]; rfl⟩
  have hD : ∀ (keep : Key → Bool) (d : List (Key × V)), (∀ kv ∈ d, keep kv.1 = true → ∃ s, serialize W kv.2 = .ok s) →
      ∃ r, serializeD W keep d = .ok r := by
    intro keep d
    induction d with
    | nil => intro _; exact ⟨[], by rw [serializeD]⟩
    | cons kv d ih =>
      intro h
      obtain ⟨k, v⟩ := kv
      obtain ⟨r, hr⟩ := ih (fun y hm => h y (by simp [hm]))
      rw [serializeD]
      split
      · rename_i hk
        obtain ⟨s, hs⟩ := h (k, v) (by simp) hk
        exact ⟨(k, s) :: r, by rw [hs, hr]; rfl⟩
      · exact ⟨r, hr⟩
  induction h with
  | none => exact ⟨_, by rw [serialize]⟩
  | bool => exact ⟨_, by rw [serialize]⟩
  | int h1 h2 => exact ⟨_, by rw [serialize, if_pos ((jsonInt_iff _).2 ⟨h1, h2⟩)]⟩
  | flt => exact ⟨_, by rw [serialize]⟩
  | measure => exact ⟨_, by rw [serialize]⟩
  | str => exact ⟨_, by rw [serialize]⟩
  | file => exact ⟨_, by rw [serialize]⟩
  | cls h =>
    obtain ⟨s, hs⟩ := (annotationString_ok W _).2 h
    exact ⟨.str s, by rw [serialize, hs]; rfl⟩
  | list _ ih => obtain ⟨r, hr⟩ := hL _ ih; exact ⟨_, by rw [serialize, hr]; rfl⟩
  | tuple _ ih => obtain ⟨r, hr⟩ := hL _ ih; exact ⟨_, by rw [serialize, hr]; rfl⟩
  | dict _ ih => obtain ⟨r, hr⟩ := hD (fun _ => true) _ (fun kv hm _ => ih kv hm); exact ⟨_, by rw [serialize, hr]; rfl⟩
  | @obj c d _ ih =>
    obtain ⟨r, hr⟩ := hD (serKeep W.toEnv c) d (fun kv hm hk => ih kv hm ((serKeep_iff _ _ _).1 hk))
    exact ⟨_, by rw [serialize, hr]; rfl⟩

mutual
theorem supported_of_serialize (W : World) : (v : V) → (s : V) → serialize W v = .ok s → Supported W v
  | .obj c d, s, h => by
    rw [serialize, bind_ok] at h
    obtain ⟨r, hr, h⟩ := h
    exact .obj (fun kv hm hk => supported_of_serializeD W _ d r hr kv hm ((serKeep_iff _ _ _).2 hk))
  | .dict d, s, h => by
    rw [serialize, bind_ok] at h
    obtain ⟨r, hr, h⟩ := h
    exact .dict (fun kv hm => supported_of_serializeD W _ d r hr kv hm rfl)
  | .list l, s, h => by
    rw [serialize, bind_ok] at h
    obtain ⟨r, hr, h⟩ := h
    exact .list (supported_of_serializeL W l r hr)
  | .tuple l, s, h => by
    rw [serialize, bind_ok] at h
    obtain ⟨r, hr, h⟩ := h
    exact .tuple (supported_of_serializeL W l r hr)
  | .file b n t, s, h => .file
  | .cls n, s, h => by
    rw [serialize, bind_ok] at h
    obtain ⟨r, hr, h⟩ := h
    exact .cls ((annotationString_ok W n).1 ⟨r, hr⟩)
  | .measure c q, s, h => .measure
  | .none, s, h => .none
  | .bool b, s, h => .bool
  | .int i, s, h => by
    rw [serialize] at h
    split at h
    · rename_i hi
      have := (jsonInt_iff i).1 hi
      exact .int this.1 this.2
    · simp at h
  | .flt q, s, h => .flt
  | .str t, s, h => .str
  | .other n, s, h => by simp [serialize] at h
theorem supported_of_serializeL (W : World) : (l : List V) → (r : List V) → serializeL W l = .ok r →
    ∀ x ∈ l, Supported W x
  | [], r, h => by simp
  | x :: l, r, h => by
    rw [serializeL, bind_ok] at h
    obtain ⟨s, hs, h⟩ := h
    rw [bind_ok] at h
    obtain ⟨r', hr, h⟩ := h
    intro y hy
    rcases List.mem_cons.1 hy with he | hy
    · rw [he]; exact supported_of_serialize W x s hs
    · exact supported_of_serializeL W l r' hr y hy
theorem supported_of_serializeD (W : World) (keep : Key → Bool) : (d : List (Key × V)) → (r : List (Key × V)) →
    serializeD W keep d = .ok r → ∀ kv ∈ d, keep kv.1 = true → Supported W kv.2
  | [], r, h => by simp
  | (k, x) :: l, r, h => by
    rw [serializeD] at h
    split at h
    · rw [bind_ok] at h
      obtain ⟨s, hs, h⟩ := h
      rw [bind_ok] at h
      obtain ⟨r', hr, h⟩ := h
      intro y hy hk
      rcases List.mem_cons.1 hy with he | hy
      · rw [he]; exact supported_of_serialize W x s hs
      · exact supported_of_serializeD W keep l r' hr y hy hk
    · rename_i hk'
      intro y hy hk
      rcases List.mem_cons.1 hy with he | hy
      · rw [he] at hk; exact absurd hk hk'
      · exact supported_of_serializeD W keep l r h y hy hk
end

/-! ### Round trip -/

theorem deserD_keys {W : World} {M : PMemo} {p : Path} {keep tup : Key → Bool} : {d r : List (Key × V)} →
    deserD W M p keep tup d = .ok r → keysOf r = (keysOf d).filter keep
  | [], r, h => by rw [deserD] at h; simp only [Except.ok.injEq] at h; subst h; rfl
  | (k, x) :: d, r, h => by
    rw [deserD] at h
    split at h
    · rename_i hk
      rw [bind_ok] at h
      obtain ⟨s, hs, h⟩ := h
      rw [bind_ok] at h
      obtain ⟨r', hr, h⟩ := h
      simp only [Except.ok.injEq] at h; subst h
      have := deserD_keys hr
      simp only [keysOf, List.map_cons, List.filter_cons, hk, if_true] at this ⊢
      rw [this]
    · rename_i hk
      have := deserD_keys h
      simp only [keysOf, List.map_cons, List.filter_cons, hk] at this ⊢
      exact this

theorem construct_built (defaults : List (String × V)) (sub : List (Key × V)) (hn : (keysOf sub).Nodup) :
    (args : List String) → (rest : List (Key × V)) → keysOf rest = args.map Key.str → (∀ kv ∈ rest, kv ∈ sub) →
    construct defaults sub args = .ok rest
  | [], rest, h, _ => by
    have : rest = [] := by simpa [keysOf] using h
    rw [this]; rfl
  | a :: args, rest, h, hs => by
    cases rest with
    | nil => simp [keysOf] at h
    | cons x rest =>
      obtain ⟨k, x⟩ := x
      simp only [keysOf, List.map_cons, List.cons.injEq] at h
      obtain ⟨rfl, h⟩ := h
      rw [construct, lookup_of_mem hn (hs (Key.str a, x) (by simp))]
      simp only
      rw [construct_built defaults sub hn args rest h (fun kv hm => hs kv (by simp [hm]))]
      rfl

theorem keysOf_rereadD (Γ : Env) (tup : Key → Bool) (d : List (Key × V)) : keysOf (rereadD Γ tup d) = keysOf d := by
  induction d with
  | nil => rfl
  | cons kv d ih => obtain ⟨k, v⟩ := kv; simp only [rereadD, keysOf, List.map_cons, List.cons.injEq, true_and] at ih ⊢; exact ih

theorem Readable.occurs {W : World} {v w : V} (h : Readable W v) (ho : Occurs v w) : Readable W w where
  ints i hi := h.ints i (ho.trans hi)
  strs s hs := h.strs s (ho.trans hs)
  classes n hn := h.classes n (ho.trans hn)
  measures c q hm := h.measures c q (ho.trans hm)
  dicts d hd := h.dicts d (ho.trans hd)
  objs c d hd := h.objs c d (ho.trans hd)

/-- What is shown of the serialized form of `v`. -/
structure RoundTrip (W : World) (v s : V) : Prop where
  ser : serialize W v = .ok s
  des : ∀ p tup, deser W [] p tup s = .ok (reread W.toEnv tup v)
  refs : ∀ p, findRefs p s = .ok []

mutual
theorem roundTrip_aux (W : World) : (v : V) → WF v → Readable W v → ∃ s, RoundTrip W v s
  | .obj c d, hv, hr => by
    obtain ⟨hk, hargs, hpub, href, hoc⟩ := hr.objs c d .self
    simp only [WF] at hv
    obtain ⟨r, hser, hkr, hdes, hrefs⟩ := roundTrip_auxD W (serKeep W.toEnv c) d
      (fun kv hm => (serKeep_iff _ _ _).2 (hpub kv.1 (List.mem_map_of_mem hm))) hv.2
      (fun kv hm => hr.occurs (.obj (k := kv.1) hm .self))
    have hocr : Key.str "object_class" ∉ keysOf r := by rw [hkr, hargs]; simpa using hoc
    have hrefr : Key.str "$ref" ∉ keysOf r := by rw [hkr, hargs]; simpa using href
    have hupd : dictUpdate [(Key.str "object_class", V.str c)] r = (Key.str "object_class", V.str c) :: r := by
      rw [dictUpdate_disjoint]
      · rfl
      · have : (keysOf r).Nodup := by rw [hkr]; exact hv.1
        exact this
      · intro k hk'
        simp only [List.map_cons, List.map_nil, List.mem_singleton]
        intro e; subst e; exact hocr hk'
    have hl : ((Key.str "object_class", V.str c) :: r).lookup (.str "$ref") = none := by
      have h1 : r.lookup (.str "$ref") = none :=
        Option.not_isSome_iff_eq_none.1 (fun h => hrefr ((lookup_isSome_iff _ _).1 h))
      have e1 : (Key.str "$ref" == Key.str "object_class") = false := by decide
      simp [List.lookup_cons, h1, e1]
    refine ⟨.dict ((Key.str "object_class", V.str c) :: r), ?_, ?_, ?_⟩
    · rw [serialize, hser]; simp only [bind, Except.bind]; rw [hupd]
    · intro p tup
      rw [deser]
      simp only [List.lookup_nil]
      rw [hl]
      simp only [List.lookup_cons, beq_self_eq_true]
      rw [hk]
      simp only
      rw [deserD, if_neg (by simpa [initKeep] using hoc)]
      have hd := hdes p (initKeep W.toEnv c) (tupleArg W.toEnv c) (by
        intro k hkm
        rw [hargs] at hkm
        obtain ⟨a, ha, rfl⟩ := List.mem_map.1 hkm
        simpa [initKeep] using ha)
      have htup : tupleArg W.toEnv c = fun k => decide (∃ s ∈ (W.info c).tupleArgs, k = .str s) := by
        funext k; exact tupleArg_eq _ _ _
      rw [hd]
      simp only [bind, Except.bind]
      rw [construct_built (W.defaults c) _ (by rw [keysOf_rereadD]; exact hv.1) _ _ (by rw [keysOf_rereadD]; exact hargs)
        (fun _ h => h)]
      simp only [reread]
      rw [htup]
    · intro p
      rw [findRefs]
      rw [hl]
      simp only
      rw [findRefsD, if_pos (by rfl)]
      exact hrefs p
  | .dict d, hv, hr => by
    have hd := hr.dicts d .self
    simp only [WF] at hv
    obtain ⟨r, hser, hkr, hdes, hrefs⟩ := roundTrip_auxD W (fun _ => true) d (fun _ _ => rfl) hv.2
      (fun kv hm => hr.occurs (.dict (k := kv.1) hm .self))
    have h1 : r.lookup (.str "$ref") = none :=
      Option.not_isSome_iff_eq_none.1 (fun h => hd.1 (hkr ▸ (lookup_isSome_iff _ _).1 h))
    have h2 : r.lookup (.str "object_class") = none :=
      Option.not_isSome_iff_eq_none.1 (fun h => hd.2 (hkr ▸ (lookup_isSome_iff _ _).1 h))
    refine ⟨.dict r, ?_, ?_, ?_⟩
    · rw [serialize, hser]; rfl
    · intro p tup
      rw [deser]
      simp only [List.lookup_nil]
      rw [h1, h2]
      simp only
      rw [hdes p _ _ (fun _ _ => rfl)]
      rfl
    · intro p
      rw [findRefs, h1]; exact hrefs p
  | .list l, hv, hr => by
    simp only [WF] at hv
    obtain ⟨r, hser, hdes, hrefs⟩ := roundTrip_auxL W l hv (fun x hm => hr.occurs (.list hm .self))
    refine ⟨.list r, ?_, ?_, ?_⟩
    · rw [serialize, hser]; rfl
    · intro p tup
      rw [deser]
      simp only [List.lookup_nil]
      rw [hdes p 0]; rfl
    · intro p; rw [findRefs]; exact hrefs p 0
  | .tuple l, hv, hr => by
    simp only [WF] at hv
    obtain ⟨r, hser, hdes, hrefs⟩ := roundTrip_auxL W l hv (fun x hm => hr.occurs (.tuple hm .self))
    refine ⟨.list r, ?_, ?_, ?_⟩
    · rw [serialize, hser]; rfl
    · intro p tup
      rw [deser]
      simp only [List.lookup_nil]
      rw [hdes p 0]; rfl
    · intro p; rw [findRefs]; exact hrefs p 0
  | .file b n t, hv, hr => ⟨.file b n t, by rw [serialize], by intro p tup; simp [deser, reread], by
      intro p; simp [findRefs]⟩
  | .cls n, hv, hr => by
    obtain ⟨h1, h2, h3⟩ := hr.classes n .self
    simp only [List.mem_cons, List.not_mem_nil, or_false, not_or] at h1
    refine ⟨.str n, ?_, ?_, ?_⟩
    · rw [serialize, annotationString, if_neg h1.1, if_neg h1.2.1, if_neg h1.2.2.1, if_neg h1.2.2.2, if_pos h2]; rfl
    · intro p tup; rw [deser]; simp only [List.lookup_nil]; rw [h3]; rfl
    · intro p; simp [findRefs]
  | .measure c q, hv, hr => by
    have h := hr.measures c q .self
    refine ⟨_, by rw [serialize], ?_, ?_⟩
    · intro p tup
      rw [deser]
      simp only [List.lookup_nil]
      simp only [List.lookup_cons, beq_self_eq_true]
      rw [h]
      have e1 : (Key.str "$ref" == Key.str "object_class") = false := by decide
      have e2 : (Key.str "$ref" == Key.str "value") = false := by decide
      have e3 : (Key.str "value" == Key.str "object_class") = false := by decide
      simp [e1, e2, e3, measureFrom, List.lookup_cons, reread]
    · intro p
      rw [findRefs]
      have e1 : (Key.str "$ref" == Key.str "object_class") = false := by decide
      have e2 : (Key.str "$ref" == Key.str "value") = false := by decide
      simp [List.lookup_cons, e1, e2, findRefsD, isBase]
  | .none, hv, hr => ⟨_, by rw [serialize], by intro p tup; simp [deser, reread], by intro p; simp [findRefs]⟩
  | .bool b, hv, hr => ⟨_, by rw [serialize], by intro p tup; simp [deser, reread], by intro p; simp [findRefs]⟩
  | .int i, hv, hr => ⟨.int i, by rw [serialize, if_pos ((jsonInt_iff i).2 (hr.ints i .self))],
      by intro p tup; simp [deser, reread], by intro p; simp [findRefs]⟩
  | .flt q, hv, hr => ⟨_, by rw [serialize], by intro p tup; simp [deser, reread], by intro p; simp [findRefs]⟩
  | .str t, hv, hr => ⟨.str t, by rw [serialize], by intro p tup; simp [deser, reread, hr.strs t .self],
      by intro p; simp [findRefs]⟩
  | .other n, hv, hr => by simp [WF] at hv
theorem roundTrip_auxL (W : World) : (l : List V) → WFL l → (∀ x ∈ l, Readable W x) →
    ∃ r, serializeL W l = .ok r ∧ (∀ p i, deserL W [] p i r = .ok (rereadL W.toEnv l)) ∧
      (∀ p i, findRefsL p i r = .ok [])
  | [], _, _ => ⟨[], by rw [serializeL], by intro p i; rw [deserL]; rfl, by intro p i; rw [findRefsL]⟩
  | x :: l, hv, hr => by
    simp only [WFL] at hv
    obtain ⟨s, hs⟩ := roundTrip_aux W x hv.1 (hr x (by simp))
    obtain ⟨r, h1, h2, h3⟩ := roundTrip_auxL W l hv.2 (fun y hy => hr y (by simp [hy]))
    refine ⟨s :: r, ?_, ?_, ?_⟩
    · rw [serializeL, hs.ser, h1]; rfl
    · intro p i; rw [deserL, hs.des, h2]; rfl
    · intro p i; rw [findRefsL, hs.refs, h3]; rfl
theorem roundTrip_auxD (W : World) (keep : Key → Bool) : (d : List (Key × V)) → (∀ kv ∈ d, keep kv.1 = true) → WFD d →
    (∀ kv ∈ d, Readable W kv.2) →
    ∃ r, serializeD W keep d = .ok r ∧ keysOf r = keysOf d ∧
      (∀ p keep' tup, (∀ k ∈ keysOf d, keep' k = true) → deserD W [] p keep' tup r = .ok (rereadD W.toEnv tup d)) ∧
      (∀ p, findRefsD p r = .ok [])
  | [], _, _, _ => ⟨[], by rw [serializeD], rfl, by intro p k t _; rw [deserD]; rfl, by intro p; rw [findRefsD]⟩
  | (k, x) :: d, hk, hv, hr => by
    simp only [WFD] at hv
    obtain ⟨s, hs⟩ := roundTrip_aux W x hv.1 (hr (k, x) (by simp))
    obtain ⟨r, h1, hkr, h2, h3⟩ := roundTrip_auxD W keep d (fun kv hm => hk kv (by simp [hm])) hv.2
      (fun y hy => hr y (by simp [hy]))
    refine ⟨(k, s) :: r, ?_, ?_, ?_, ?_⟩
    · rw [serializeD, if_pos (hk (k, x) (by simp)), hs.ser, h1]; rfl
    · simp only [keysOf, List.map_cons] at hkr ⊢; rw [hkr]
    · intro p keep' tup hkeep
      rw [deserD, if_pos (hkeep k (by simp [keysOf])), hs.des, h2 _ _ _ (fun k' hm => hkeep k' (by
        simp only [keysOf, List.map_cons, List.mem_cons] at hm ⊢; exact .inr hm))]; rfl
    · intro p
      rw [findRefsD]
      split
      · exact h3 p
      · rw [hs.refs, h3]; rfl
end

/-- Reading the dictionary of an object without pointer analysis finds no pointer. -/
theorem loadDict_noRefs (W : World) (fuel : Nat) (d : List (Key × V)) (h : findRefs ["#"] (.dict d) = .ok []) (o : V)
    (hd : deser W [] ["#"] false (.dict d) = .ok o) : loadDict W fuel d = .ok (some o) := by
  have : deserializationOrder fuel (.dict d) = .ok (some []) := by
    unfold deserializationOrder pointerGraph
    rw [h]
    rfl
  unfold loadDict
  rw [this]
  simp only [bind, Except.bind, dereference]
  rw [hd]

/-! ### What is read holds the same data -/

mutual
theorem same_reread (Γ : Env) (tup : Bool) : (v : V) → WF v → Same Γ (· = ·) v (reread Γ tup v)
  | .list l, h => by
    simp only [WF] at h
    obtain ⟨hl, hs⟩ := same_rereadL Γ l h
    cases tup
    · exact .seq (a := l) (b := rereadL Γ l) rfl rfl hl hs
    · exact .seq (a := l) (b := rereadL Γ l) rfl rfl hl hs
  | .tuple l, h => by
    simp only [WF] at h
    obtain ⟨hl, hs⟩ := same_rereadL Γ l h
    cases tup
    · exact .seq (a := l) (b := rereadL Γ l) rfl rfl hl hs
    · exact .seq (a := l) (b := rereadL Γ l) rfl rfl hl hs
  | .dict d, h => by
    simp only [WF] at h
    simp only [reread]
    exact .dict (fun k => by rw [keysOf_rereadD]) (same_rereadD Γ _ d h.2)
  | .obj c d, h => by
    simp only [WF] at h
    simp only [reread]
    exact .obj (fun k _ => by rw [keysOf_rereadD]) (fun k x y _ => same_rereadD Γ _ d h.2 k x y)
  | .none, _ => Same.refl (fun _ => rfl) _ _ (Nat.lt_succ_self _) (by simp [WF])
  | .bool b, _ => Same.refl (fun _ => rfl) _ _ (Nat.lt_succ_self _) (by simp [WF])
  | .int i, _ => Same.refl (fun _ => rfl) _ _ (Nat.lt_succ_self _) (by simp [WF])
  | .flt q, _ => Same.refl (fun _ => rfl) _ _ (Nat.lt_succ_self _) (by simp [WF])
  | .measure c q, _ => Same.refl (fun _ => rfl) _ _ (Nat.lt_succ_self _) (by simp [WF])
  | .str s, _ => Same.refl (fun _ => rfl) _ _ (Nat.lt_succ_self _) (by simp [WF])
  | .cls n, _ => Same.refl (fun _ => rfl) _ _ (Nat.lt_succ_self _) (by simp [WF])
  | .file b n t, _ => Same.refl (fun _ => rfl) _ _ (Nat.lt_succ_self _) (by simp [WF])
  | .other n, h => by simp [WF] at h
theorem same_rereadL (Γ : Env) : (l : List V) → WFL l → l.length = (rereadL Γ l).length ∧
    ∀ (i : Nat) x y, l[i]? = some x → (rereadL Γ l)[i]? = some y → Same Γ (· = ·) x y
  | [], _ => by simp [rereadL]
  | v :: l, h => by
    simp only [WFL] at h
    obtain ⟨hl, hs⟩ := same_rereadL Γ l h.2
    have h1 := same_reread Γ false v h.1
    refine ⟨by simp [rereadL, hl], ?_⟩
    intro i x y hx hy
    cases i with
    | zero => simp [rereadL] at hx hy; subst hx hy; exact h1
    | succ i => simp [rereadL] at hx hy; exact hs i x y hx hy
theorem same_rereadD (Γ : Env) (tup : Key → Bool) : (d : List (Key × V)) → WFD d →
    ∀ k x y, d.lookup k = some x → (rereadD Γ tup d).lookup k = some y → Same Γ (· = ·) x y
  | [], _ => by simp
  | (k', v) :: d, h => by
    simp only [WFD] at h
    intro k x y hx hy
    have h1 := same_reread Γ (tup k') v h.1
    simp only [rereadD] at hy
    simp only [List.lookup_cons] at hx hy
    split at hx
    · rename_i he
      simp only [Option.some.injEq] at hx
      rw [he] at hy
      simp only [Option.some.injEq] at hy
      subst hx hy; exact h1
    · rename_i he
      rw [he] at hy
      exact same_rereadD Γ tup d h.2 k x y hx hy
end

mutual
theorem reread_id (Γ : Env) (tup : Bool) : (v : V) → SeqKinds Γ tup v → reread Γ tup v = v
  | .list l, h => by simp only [SeqKinds] at h; simp [reread, h.1, rereadL_id Γ l h.2]
  | .tuple l, h => by simp only [SeqKinds] at h; simp [reread, h.1, rereadL_id Γ l h.2]
  | .dict d, h => by simp only [SeqKinds] at h; simp [reread, rereadD_id Γ _ d h]
  | .obj c d, h => by simp only [SeqKinds] at h; simp only [reread]; rw [rereadD_id Γ _ d h]
  | .none, _ => rfl
  | .bool b, _ => rfl
  | .int i, _ => rfl
  | .flt q, _ => rfl
  | .measure c q, _ => rfl
  | .str s, _ => rfl
  | .cls n, _ => rfl
  | .file b n t, _ => rfl
  | .other n, _ => rfl
theorem rereadL_id (Γ : Env) : (l : List V) → SeqKindsL Γ l → rereadL Γ l = l
  | [], _ => rfl
  | v :: l, h => by simp only [SeqKindsL] at h; simp [rereadL, reread_id Γ false v h.1, rereadL_id Γ l h.2]
theorem rereadD_id (Γ : Env) (tup : Key → Bool) : (d : List (Key × V)) → SeqKindsD Γ tup d → rereadD Γ tup d = d
  | [], _ => rfl
  | (k, v) :: d, h => by simp only [SeqKindsD] at h; simp [rereadD, reread_id Γ (tup k) v h.1, rereadD_id Γ tup d h.2]
end

mutual
theorem WF_reread (Γ : Env) (tup : Bool) : (v : V) → WF v → WF (reread Γ tup v)
  | .list l, h => by
    simp only [WF] at h
    have := WF_rereadL Γ l h
    cases tup <;> simpa [reread, WF] using this
  | .tuple l, h => by
    simp only [WF] at h
    have := WF_rereadL Γ l h
    cases tup <;> simpa [reread, WF] using this
  | .dict d, h => by
    simp only [WF] at h
    simp only [reread, WF]; rw [keysOf_rereadD]; exact ⟨h.1, WF_rereadD Γ _ d h.2⟩
  | .obj c d, h => by
    simp only [WF] at h
    simp only [reread, WF]; rw [keysOf_rereadD]; exact ⟨h.1, WF_rereadD Γ _ d h.2⟩
  | .none, _ => by simp [reread, WF]
  | .bool b, _ => by simp [reread, WF]
  | .int i, _ => by simp [reread, WF]
  | .flt q, _ => by simp [reread, WF]
  | .measure c q, _ => by simp [reread, WF]
  | .str s, _ => by simp [reread, WF]
  | .cls n, _ => by simp [reread, WF]
  | .file b n t, _ => by simp [reread, WF]
  | .other n, h => by simp [WF] at h
theorem WF_rereadL (Γ : Env) : (l : List V) → WFL l → WFL (rereadL Γ l)
  | [], _ => by simp [rereadL, WFL]
  | v :: l, h => by simp only [WFL] at h; simp only [rereadL, WFL]; exact ⟨WF_reread Γ _ v h.1, WF_rereadL Γ l h.2⟩
theorem WF_rereadD (Γ : Env) (tup : Key → Bool) : (d : List (Key × V)) → WFD d → WFD (rereadD Γ tup d)
  | [], _ => by simp [rereadD, WFD]
  | (k, v) :: d, h => by simp only [WFD] at h; simp only [rereadD, WFD]; exact ⟨WF_reread Γ _ v h.1, WF_rereadD Γ tup d h.2⟩
end

end DC
