import Verif.Values.WrittenSpec
import Verif.Values.EmitShape
import Verif.Values.LoadOrder
/- Helper lemmas for Verif/Values/WrittenProps.lean. -/
namespace DC
set_option linter.unusedSimpArgs false

theorem WrittenDict.get {H : Heap} : {d : List (Key × SV)} → {e : List (Key × V)} → WrittenDict H d e → ∀ {k v}, (k, v) ∈ e →
    ∃ x, (k, x) ∈ d ∧ Written H x v
  | [], [], _, k, v, h => by simp at h
  | [], _ :: _, ⟨hk, _⟩, k, v, h => by simp [keysOf] at hk
  | _ :: _, [], ⟨hk, _⟩, k, v, h => by simp at h
  | (k1, x1) :: d, (k2, v2) :: e, ⟨hk, hv⟩, k, v, h => by
    simp only [keysOf, List.map_cons, List.cons.injEq] at hk
    rcases List.mem_cons.1 h with h | h
    · simp only [Prod.mk.injEq] at h
      obtain ⟨rfl, rfl⟩ := h
      exact ⟨x1, by simp [hk.1], hv 0 _ _ (by simp) (by simp)⟩
    · obtain ⟨x, h1, h2⟩ := WrittenDict.get (d := d) (e := e) ⟨hk.2, fun i x v a b => hv (i + 1) x v (by simpa using a) (by simpa using b)⟩ h
      exact ⟨x, by simp [h1], h2⟩

theorem WrittenDict.lookup {H : Heap} : {d : List (Key × SV)} → {e : List (Key × V)} → WrittenDict H d e → ∀ {k x}, d.lookup k = some x →
    ∃ v, e.lookup k = some v ∧ Written H x v
  | [], [], _, k, x, h => by simp at h
  | [], _ :: _, ⟨hk, _⟩, k, x, h => by simp [keysOf] at hk
  | _ :: _, [], ⟨hk, _⟩, k, x, h => by simp [keysOf] at hk
  | (k1, x1) :: d, (k2, v2) :: e, ⟨hk, hv⟩, k, x, h => by
    simp only [keysOf, List.map_cons, List.cons.injEq] at hk
    obtain ⟨rfl, hk⟩ := hk
    by_cases hkk : k = k2
    · subst hkk
      simp only [List.lookup_cons, beq_self_eq_true, Option.some.injEq] at h ⊢
      subst h
      exact ⟨v2, rfl, hv 0 _ _ (by simp) (by simp)⟩
    · have hb : (k == k2) = false := by simpa using hkk
      simp only [List.lookup_cons, hb] at h ⊢
      exact WrittenDict.lookup (d := d) (e := e) ⟨hk, fun i x v a b => hv (i + 1) x v (by simpa using a) (by simpa using b)⟩ h

theorem WrittenDict.none {H : Heap} {d : List (Key × SV)} {e : List (Key × V)} (h : WrittenDict H d e) {k} (hk : d.lookup k = .none) :
    e.lookup k = .none := by
  rw [Dict.lookup_none] at hk ⊢
  have := h.1
  rw [keysOf] at this
  rw [this]; exact hk

/-! ### The JSON data exists -/

theorem list_choose {α β : Type} (P : α → β → Prop) : (l : List α) → (∀ x ∈ l, ∃ y, P x y) →
    ∃ m : List β, l.length = m.length ∧ ∀ (i : Nat) x y, l[i]? = some x → m[i]? = some y → P x y
  | [], _ => ⟨[], rfl, by simp⟩
  | x :: l, h => by
    obtain ⟨y, hy⟩ := h x (by simp)
    obtain ⟨m, h1, h2⟩ := list_choose P l fun z hz => h z (by simp [hz])
    refine ⟨y :: m, by simp [h1], ?_⟩
    intro i a b ha hb
    cases i with
    | zero => simp at ha hb; rw [← ha, ← hb]; exact hy
    | succ i => exact h2 i a b (by simpa using ha) (by simpa using hb)

theorem dict_choose {H : Heap} (d : List (Key × SV)) (h : ∀ x ∈ d.map (·.2), ∃ v, Written H x v) : ∃ e, WrittenDict H d e := by
  obtain ⟨m, h1, h2⟩ := list_choose (Written H) _ h
  have h1' : (d.map (·.1)).length = m.length := by simpa using h1
  refine ⟨(d.map (·.1)).zip m, ?_, ?_⟩
  · rw [keysOf, List.map_fst_zip (by omega)]
  · rw [List.map_snd_zip (by omega)]
    exact h2

theorem Shape.written {n0 rk H} (h : Shape n0 rk H) : (r : Nat) → (b : Nat) → b < H.length →
    (if b < n0 then H.length + rk b + 1 else H.length - b) ≤ r → ∃ v, Written H (.ptr b) v
  | 0, b, hb, hr => by split at hr <;> omega
  | r + 1, b, hb, hr => by
    obtain ⟨c, hc⟩ : ∃ c, H[b]? = some c := ⟨_, List.getElem?_eq_getElem hb⟩
    have hx : ∀ x ∈ c.values, ∃ v, Written H x v := by
      intro x hx
      cases x with
      | atom v => exact ⟨v, .atom⟩
      | ptr p =>
        have hp : p < H.length := h.leaf b c hc _ hx
        refine Shape.written h r p hp ?_
        by_cases hb0 : b < n0
        · rw [if_pos hb0] at hr
          rcases h.old b c hc hb0 p hx with hpn | hpr
          · rw [if_neg (by omega)]; omega
          · split <;> omega
        · rw [if_neg hb0] at hr
          have := h.new b c hc (by omega) p hx
          rw [if_neg (by omega)]; omega
    cases c with
    | dict d =>
      obtain ⟨e, h1, h2⟩ := dict_choose d hx
      exact ⟨_, .dict hc h1 h2⟩
    | list l =>
      obtain ⟨m, h1, h2⟩ := list_choose (Written H) l hx
      exact ⟨_, .list hc h1 h2⟩

theorem Shape.exists {n0 rk H} (h : Shape n0 rk H) {x : SV} (hx : Low H.length x) : ∃ v, Written H x v := by
  cases x with
  | atom v => exact ⟨v, .atom⟩
  | ptr p => exact h.written _ p hx (Nat.le_refl _)

/-! ### It is a document -/

theorem JLeaf.plain {v : V} (h : JLeaf v) : PlainDoc v := by
  intro d ho
  obtain ⟨h1, h2, h3⟩ := h
  cases ho with
  | self => exact absurd rfl (h3 d)
  | list _ _ => exact absurd rfl (h2 _)
  | dict _ _ => exact absurd rfl (h3 _)
  | tuple _ _ => cases h1
  | obj _ _ => cases h1

theorem plainDoc_dict {e : List (Key × V)} (h1 : (keysOf e).Nodup) (h2 : ∀ k ∈ keysOf e, ∃ s, k = .str s ∧ '/' ∉ s.toList)
    (h3 : ∀ kv ∈ e, PlainDoc kv.2) : PlainDoc (.dict e) := by
  intro d ho
  cases ho with
  | self => exact ⟨h1, h2⟩
  | dict hm ho => exact h3 _ hm d ho

theorem plainDoc_list {l : List V} (h : ∀ x ∈ l, PlainDoc x) : PlainDoc (.list l) := by
  intro d ho
  cases ho with
  | list hm ho => exact h _ hm d ho

theorem Shape.json {n0 rk H} (h : Shape n0 rk H) {x t} (w : Written H x t) (hx : Low H.length x) : IsJson True t ∧ PlainDoc t := by
  induction w with
  | atom => exact ⟨hx.1, hx.plain⟩
  | @dict a d e h1 h2 h3 ih =>
    obtain ⟨k1, k2⟩ := h.keys a _ h1 d rfl
    have hv : ∀ kv ∈ e, IsJson True kv.2 ∧ PlainDoc kv.2 := by
      intro kv hm
      obtain ⟨i, hi⟩ := List.getElem?_of_mem (List.mem_map.2 ⟨kv, hm, rfl⟩ : kv.2 ∈ e.map (·.2))
      have hl : e.length = d.length := by simpa [keysOf] using congrArg List.length h2
      have hlt := (List.getElem?_eq_some_iff.1 hi).1
      obtain ⟨y, hy⟩ : ∃ y, (d.map (·.2))[i]? = some y := ⟨_, List.getElem?_eq_getElem (by simp at hlt ⊢; omega)⟩
      exact ih i y _ hy hi (h.leaf a _ h1 y (List.mem_of_getElem? hy))
    exact ⟨.obj (fun kv hm => (hv kv hm).1), plainDoc_dict (by rw [h2]; exact k1) (by rw [h2]; exact k2) fun kv hm => (hv kv hm).2⟩
  | @list a l m h1 h2 h3 ih =>
    have hv : ∀ z ∈ m, IsJson True z ∧ PlainDoc z := by
      intro z hm
      obtain ⟨i, hi⟩ := List.getElem?_of_mem hm
      have hlt := (List.getElem?_eq_some_iff.1 hi).1
      obtain ⟨y, hy⟩ : ∃ y, l[i]? = some y := ⟨_, List.getElem?_eq_getElem (by omega)⟩
      exact ih i y _ hy hi (h.leaf a _ h1 y (List.mem_of_getElem? hy))
    exact ⟨.arr (fun z hm => (hv z hm).1), plainDoc_list fun z hm => (hv z hm).2⟩

/-! ### What it means -/

theorem Reads.leaf {H refs x j} (hp : ∀ k y, refs.lookup k = some y → PlainDict H y) (r : Reads H refs x j)
    (hj : (∀ l, j ≠ .list l) ∧ ∀ d, j ≠ .dict d) : x = .atom j := by
  cases r with
  | atom => rfl
  | @ref a d k y _ h1 h2 h3 h4 =>
    exfalso
    obtain ⟨b, d', rfl, hb, hd⟩ := hp _ _ h3
    cases h4 with
    | ref g1 g2 => rw [hb] at g1; simp only [Option.some.injEq, Cell.dict.injEq] at g1; subst g1; rw [hd] at g2; simp at g2
    | dict => exact hj.2 _ rfl
    | list => exact hj.1 _ rfl
  | dict => exact absurd rfl (hj.2 _)
  | list => exact absurd rfl (hj.1 _)

/-- The objects. -/
theorem means_obj {W : World} {R e s : List (Key × V)} {c : String} {da : List (Key × V)}
    (hr : Readable W (.obj c da)) (hwf : WF (.obj c da)) (hser : serializeD W (serKeep W.toEnv c) da = .ok s)
    (href : e.lookup (.str "$ref") = none) (hoc : e.lookup (.str "object_class") = some (.str c))
    (hkeys : ∀ k, k ∈ keysOf e ↔ k = .str "object_class" ∨ k ∈ keysOf s)
    (hm : ∀ k x v j, (k, x) ∈ e → (k, v) ∈ da → (k, j) ∈ s → serialize W v = .ok j → StandsFor W R x v) :
    StandsFor W R (.dict e) (.obj c da) := by
  obtain ⟨hk, hargs, hpub, h1, h2⟩ := hr.objs c da .self
  obtain ⟨f1, f2⟩ := serializeD_facts hser
  have hkeep : ∀ kv ∈ da, serKeep W.toEnv c kv.1 = true := fun kv hm =>
    (serKeep_iff _ _ _).2 (hpub kv.1 (List.mem_map_of_mem hm))
  have hfil : (da.filter fun kv => serKeep W.toEnv c kv.1) = da := List.filter_eq_self.2 hkeep
  rw [hfil] at f1
  simp only [WF] at hwf
  have hoc' : Key.str "object_class" ∉ keysOf da := by rw [hargs]; simpa using h2
  refine .obj href hoc hk hargs hwf.1 hoc' ?_ ?_
  · intro k
    rw [hkeys k]
    have : keysOf s = keysOf da := f1
    rw [this]
  · intro k x v hx hv
    obtain ⟨j, g1, g2⟩ := f2 (k, v) hv (hkeep _ hv)
    exact hm k x v j hx hv g2 g1

theorem serialize_leaf {W : World} {v j : V} (hr : Readable W v) (hs : serialize W v = .ok j)
    (hj : (∀ l, j ≠ .list l) ∧ ∀ d, j ≠ .dict d) (R : List (Key × V)) : StandsFor W R j v := by
  cases v with
  | none => simp [serialize] at hs; subst hs; exact .none
  | bool b => simp [serialize] at hs; subst hs; exact .bool
  | int i =>
    rw [serialize] at hs
    split at hs
    · simp only [Except.ok.injEq] at hs; subst hs; exact .int
    · simp at hs
  | flt q => simp [serialize] at hs; subst hs; exact .flt
  | str s => simp [serialize] at hs; subst hs; exact .str (hr.strs s .self)
  | file b n t => simp [serialize] at hs; subst hs; exact .file
  | cls n =>
    obtain ⟨h1, h2, h3⟩ := hr.classes n .self
    simp only [List.mem_cons, List.not_mem_nil, or_false, not_or] at h1
    rw [serialize, annotationString, if_neg h1.1, if_neg h1.2.1, if_neg h1.2.2.1, if_neg h1.2.2.2, if_pos h2] at hs
    simp only [bind, Except.bind, Except.ok.injEq] at hs; subst hs
    exact .cls h3
  | measure c q => simp [serialize] at hs; exact absurd hs.symm (hj.2 _)
  | obj c d =>
    rw [serialize, bind_ok] at hs
    obtain ⟨s, -, hs⟩ := hs
    simp only [Except.ok.injEq] at hs; exact absurd hs.symm (hj.2 _)
  | dict d =>
    rw [serialize, bind_ok] at hs
    obtain ⟨s, -, hs⟩ := hs
    simp only [Except.ok.injEq] at hs; exact absurd hs.symm (hj.2 _)
  | list l =>
    rw [serialize, bind_ok] at hs
    obtain ⟨s, -, hs⟩ := hs
    simp only [Except.ok.injEq] at hs; exact absurd hs.symm (hj.1 _)
  | tuple l =>
    rw [serialize, bind_ok] at hs
    obtain ⟨s, -, hs⟩ := hs
    simp only [Except.ok.injEq] at hs; exact absurd hs.symm (hj.1 _)
  | other n => simp [serialize] at hs

theorem nodup_value {α : Type} {d : List (Key × α)} (h : (d.map (·.1)).Nodup) {k x y} (h1 : (k, x) ∈ d) (h2 : (k, y) ∈ d) : x = y := by
  have a := Dict.mem_lookup h h1
  have b := Dict.mem_lookup h h2
  rw [a] at b; simpa using b

/-- What a dictionary with the name of the class and the serialized attributes means. -/
theorem serialize_obj {W : World} {c : String} {da s ej : List (Key × V)} (hr : Readable W (.obj c da)) (hwf : WF (.obj c da))
    (hs : serializeD W (serKeep W.toEnv c) da = .ok s) (he : ej = dictUpdate [(.str "object_class", .str c)] s) :
    ej = (.str "object_class", .str c) :: s ∧ keysOf s = keysOf da := by
  obtain ⟨hk, hargs, hpub, h1, h2⟩ := hr.objs c da .self
  obtain ⟨f1, -⟩ := serializeD_facts hs
  have hfil : (da.filter fun kv => serKeep W.toEnv c kv.1) = da := List.filter_eq_self.2 fun kv hm =>
    (serKeep_iff _ _ _).2 (hpub kv.1 (List.mem_map_of_mem hm))
  rw [hfil] at f1
  simp only [WF] at hwf
  have hoc' : Key.str "object_class" ∉ keysOf da := by rw [hargs]; simpa using h2
  refine ⟨?_, f1⟩
  rw [he, dictUpdate_disjoint]
  · rfl
  · rw [f1]; exact hwf.1
  · intro k hk
    rw [f1] at hk
    simp only [List.map_cons, List.map_nil, List.mem_singleton]
    rintro rfl; exact hoc' hk

theorem reads_means {W : World} {H : Heap} {refs : List (Key × SV)} {R : List (Key × V)} {n0 rc : Nat} {rk : Nat → Nat} (hsh : Shape n0 rk H)
    (hrc : H[rc]? = some (.dict refs)) (hp : ∀ k y, refs.lookup k = some y → PlainDict H y) (hR : WrittenDict H refs R)
    {x : SV} {j : V} (r : Reads H refs x j) : ∀ {t v}, Low H.length x → Written H x t → serialize W v = .ok j → Readable W v → WF v →
      StandsFor W R t v := by
  induction r with
  | @atom j =>
    intro t v hx w hs hr hv
    cases w
    exact serialize_leaf hr hs hx.2 R
  | @ref a d k x j h1 h2 h3 h4 ih =>
    intro t v hx w hs hr hv
    cases w with
    | list g1 => rw [h1] at g1; simp at g1
    | @dict _ d' e g1 g2 g3 =>
      rw [h1] at g1; simp only [Option.some.injEq, Cell.dict.injEq] at g1; subst g1
      have hwd : WrittenDict H d e := ⟨g2, g3⟩
      obtain ⟨t1, b1, b2⟩ := hwd.lookup h2
      cases b2
      obtain ⟨t2, c1, c2⟩ := hR.lookup h3
      obtain ⟨s, hs1, hs2⟩ := (hsh.keys rc _ hrc refs rfl).2 (.str k) (List.mem_map.2 ⟨_, Dict.lookup_mem h3, rfl⟩)
      simp only [Key.str.injEq] at hs1; subst hs1
      exact .ref b1 hs2 c1 (ih (hsh.leaf rc _ hrc _ (List.mem_map.2 ⟨_, Dict.lookup_mem h3, rfl⟩)) c2 hs hr hv)
  | @dict a d ej f h1 h2 h3 h4 ih =>
    intro t v hx w hs hr hv
    cases w with
    | list g1 => rw [h1] at g1; simp at g1
    | @dict _ d' e g1 g2 g3 =>
      rw [h1] at g1; simp only [Option.some.injEq, Cell.dict.injEq] at g1; subst g1
      have hwd : WrittenDict H d e := ⟨g2, g3⟩
      obtain ⟨k1, k2⟩ := hsh.keys a _ h1 d rfl
      have hkp : (keysOf e).Perm (keysOf ej) := by
        have := h4.map (·.1)
        rw [List.map_map] at this
        rw [g2]
        exact this
      have hne : (keysOf e).Nodup := by rw [g2]; exact k1
      have hnj : (keysOf ej).Nodup := hkp.nodup_iff.1 hne
      have href : e.lookup (.str "$ref") = none := hwd.none h2
      -- the values
      have hval : ∀ k t j', (k, t) ∈ e → (k, j') ∈ ej → ∃ y, (k, y) ∈ d ∧ Written H y t ∧ Reads H refs y j' ∧ f k = j' := by
        intro k t j' ht hj'
        obtain ⟨y, hy, hw⟩ := hwd.get ht
        have : (k, f k) ∈ ej := h4.mem_iff.1 (List.mem_map.2 ⟨(k, y), hy, rfl⟩)
        have e1 := nodup_value hnj this hj'
        exact ⟨y, hy, hw, by rw [← e1]; exact h3 _ hy, e1⟩
      have hatom : ∀ k j', (k, j') ∈ ej → ((∀ l, j' ≠ .list l) ∧ ∀ d, j' ≠ .dict d) → (k, j') ∈ e := by
        intro k j' hj' hl
        obtain ⟨t, ht⟩ := keysOf_mem (hkp.mem_iff.2 (mem_keysOf hj'))
        obtain ⟨y, -, hw, hrd, -⟩ := hval k t j' ht hj'
        have := hrd.leaf hp hl
        subst this
        cases hw; exact ht
      cases v with
      | none => simp [serialize] at hs
      | bool b => simp [serialize] at hs
      | int i => rw [serialize] at hs; split at hs <;> simp at hs
      | flt q => simp [serialize] at hs
      | str s => simp [serialize] at hs
      | file b n t => simp [serialize] at hs
      | other n => simp [serialize] at hs
      | cls n =>
        rw [serialize, bind_ok] at hs
        obtain ⟨s, -, hs⟩ := hs
        simp at hs
      | list l =>
        rw [serialize, bind_ok] at hs
        obtain ⟨s, -, hs⟩ := hs
        simp at hs
      | tuple l =>
        rw [serialize, bind_ok] at hs
        obtain ⟨s, -, hs⟩ := hs
        simp at hs
      | measure c q =>
        simp only [serialize, Except.ok.injEq, V.dict.injEq] at hs
        subst hs
        refine .measure href (Dict.mem_lookup hne (hatom _ _ (by simp) ⟨by simp, by simp⟩)) (hr.measures c q .self)
          (Dict.mem_lookup hne (hatom _ _ (by simp) ⟨by simp, by simp⟩)) ?_
        intro kv hm
        have hkm := hkp.mem_iff.1 (mem_keysOf (k := kv.1) (v := kv.2) hm)
        simp only [keysOf, List.map_cons, List.map_nil, List.mem_cons, List.not_mem_nil, or_false] at hkm
        rcases hkm with hkm | hkm
        · left
          exact ⟨c, nodup_value hne (k := kv.1) hm (by rw [hkm]; exact hatom _ _ (by simp) ⟨by simp, by simp⟩)⟩
        · right
          exact ⟨q, nodup_value hne (k := kv.1) hm (by rw [hkm]; exact hatom _ _ (by simp) ⟨by simp, by simp⟩)⟩
      | dict dv =>
        rw [serialize, bind_ok] at hs
        obtain ⟨s, hs1, hs⟩ := hs
        simp only [Except.ok.injEq, V.dict.injEq] at hs; subst hs
        obtain ⟨f1, f2⟩ := serializeD_facts hs1
        have f1 : keysOf s = keysOf dv := by simpa [keysOf] using f1
        obtain ⟨-, hoc⟩ := hr.dicts dv .self
        simp only [WF] at hv
        refine .dict href (Dict.lookup_none.2 ?_) (by rw [← f1]; exact hkp) ?_
        · intro hm; exact hoc (by rw [← f1]; exact hkp.mem_iff.1 hm)
        · intro k t v ht hv'
          obtain ⟨j, g1, g2⟩ := f2 (k, v) hv' rfl
          obtain ⟨y, hy, hw, hrd, hf⟩ := hval k t j ht g2
          exact ih (k, y) hy (hsh.leaf a _ h1 _ (List.mem_map.2 ⟨_, hy, rfl⟩)) hw (by rw [g1, ← hf])
            (hr.occurs (.dict (k := k) hv' .self)) ((WFD_iff dv).1 hv.2 _ hv')
      | obj c da =>
        have hs0 := hs
        rw [serialize, bind_ok] at hs
        obtain ⟨s, hs1, hs⟩ := hs
        simp only [Except.ok.injEq, V.dict.injEq] at hs
        obtain ⟨e1, e2⟩ := serialize_obj hr hv hs1 hs.symm
        refine means_obj hr hv hs1 href (Dict.mem_lookup hne (hatom _ _ (by rw [e1]; simp) ⟨by simp, by simp⟩)) ?_ ?_
        · intro k
          rw [hkp.mem_iff, e1]
          simp [keysOf]
        · intro k t v j ht hv' hj hsv
          obtain ⟨y, hy, hw, hrd, hf⟩ := hval k t j ht (by rw [e1]; simp [hj])
          simp only [WF] at hv
          exact ih (k, y) hy (hsh.leaf a _ h1 _ (List.mem_map.2 ⟨_, hy, rfl⟩)) hw (by rw [hsv, ← hf])
            (hr.occurs (.obj (k := k) hv' .self)) ((WFD_iff da).1 hv.2 _ hv')
  | @list a l ej h1 h2 h3 ih =>
    intro t v hx w hs hr hv
    cases w with
    | dict g1 => rw [h1] at g1; simp at g1
    | @list _ l' m g1 g2 g3 =>
      rw [h1] at g1; simp only [Option.some.injEq, Cell.list.injEq] at g1; subst g1
      have key : ∀ lv : List V, (∀ x ∈ lv, Readable W x ∧ WF x) → serializeL W lv = .ok ej → m.length = lv.length ∧
          ∀ (i : Nat) x y, m[i]? = some x → lv[i]? = some y → StandsFor W R x y := by
        intro lv hlv hsl
        obtain ⟨f1, f2⟩ := serializeL_facts hsl
        refine ⟨by omega, ?_⟩
        intro i x y hx hy
        have hlt := (List.getElem?_eq_some_iff.1 hx).1
        obtain ⟨z, hz⟩ : ∃ z, l[i]? = some z := ⟨_, List.getElem?_eq_getElem (by omega)⟩
        obtain ⟨j, hj⟩ : ∃ j, ej[i]? = some j := ⟨_, List.getElem?_eq_getElem (by omega)⟩
        obtain ⟨q1, q2⟩ := hlv y (List.mem_of_getElem? hy)
        exact ih i z j hz hj (hsh.leaf a _ h1 _ (List.mem_of_getElem? hz)) (g3 i z x hz hx) (f2 i y j hy hj) q1 q2
      cases v with
      | none => simp [serialize] at hs
      | bool b => simp [serialize] at hs
      | int i => rw [serialize] at hs; split at hs <;> simp at hs
      | flt q => simp [serialize] at hs
      | str s => simp [serialize] at hs
      | file b n t => simp [serialize] at hs
      | other n => simp [serialize] at hs
      | measure c q => simp [serialize] at hs
      | cls n =>
        rw [serialize, bind_ok] at hs
        obtain ⟨s, -, hs⟩ := hs
        simp at hs
      | dict l =>
        rw [serialize, bind_ok] at hs
        obtain ⟨s, -, hs⟩ := hs
        simp at hs
      | obj c l =>
        rw [serialize, bind_ok] at hs
        obtain ⟨s, -, hs⟩ := hs
        simp at hs
      | list lv =>
        rw [serialize, bind_ok] at hs
        obtain ⟨s, hs1, hs⟩ := hs
        simp only [Except.ok.injEq, V.list.injEq] at hs; subst hs
        simp only [WF] at hv
        obtain ⟨q1, q2⟩ := key lv (fun x hx => ⟨hr.occurs (.list hx .self), (WFL_iff lv).1 hv x hx⟩) hs1
        exact .seq rfl q1 q2
      | tuple lv =>
        rw [serialize, bind_ok] at hs
        obtain ⟨s, hs1, hs⟩ := hs
        simp only [Except.ok.injEq, V.list.injEq] at hs; subst hs
        simp only [WF] at hv
        obtain ⟨q1, q2⟩ := key lv (fun x hx => ⟨hr.occurs (.tuple hx .self), (WFL_iff lv).1 hv x hx⟩) hs1
        exact .seq rfl q1 q2

end DC
