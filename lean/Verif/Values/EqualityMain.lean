import Verif.Values.EqualityLemmas
import Mathlib.Algebra.BigOperators.Group.List.Basic
import Mathlib.Data.List.Nodup
/- Main lemmas on data equality and hash, used in Verif/Values/EqualityProps.lean. -/
namespace DC

theorem same_imp_dataEq {Γ : Env} {v w : V} (h : Same Γ Close v w) (hv : WF v) : dataEq Γ v w = true := by
  induction h with
  | none => simp [dataEq]
  | @int v w i h1 h2 =>
    cases v <;> simp [intVal] at h1 <;> cases w <;> simp [intVal] at h2 <;> simp [dataEq, b2i, h1, h2]
    rename_i b b'
    subst h2
    cases b <;> cases b' <;> simp_all
  | @flt v w a b u u' h1 h2 hu hc =>
    have := (isclose_iff a b).2 hc
    cases v <;> simp [fltVal] at h1 <;> cases w <;> simp [fltVal] at h2 <;>
      (obtain ⟨rfl, rfl⟩ := h1; obtain ⟨rfl, rfl⟩ := h2; simp [dataEq, this])
    exact hu
  | str => simp [dataEq]
  | @seq v w a b h1 h2 hl _ ih =>
    have key : WFL a → seqAll Γ a b = true := by
      intro hw
      rw [seqAll_iff]
      intro i x y hx hy
      exact ih i x y hx hy ((WFL_iff a).1 hw x (List.mem_of_getElem? hx))
    cases v <;> simp [seqItems] at h1 <;> cases w <;> simp [seqItems] at h2 <;>
      (subst h1 h2; simp only [WF] at hv; simp [dataEq, hl, key hv])
  | @dict a b hk _ ih =>
    simp only [WF] at hv
    simp only [dataEq, dictAll_iff]
    intro k x hx _
    have hl := lookup_of_mem hv.1 hx
    have hkb : k ∈ keysOf b := (hk k).1 ((lookup_isSome_iff a k).1 (by simp [hl]))
    obtain ⟨y, hy⟩ := Option.isSome_iff_exists.1 ((lookup_isSome_iff b k).2 hkb)
    exact ⟨y, hy, ih k x y hl hy ((WFD_iff a).1 hv.2 _ hx)⟩
  | cls => simp [dataEq]
  | file => simp [dataEq]
  | @obj c a b hk _ ih =>
    simp only [WF] at hv
    simp only [dataEq, beq_self_eq_true, Bool.true_and, dictAll_iff, lookup_filter_eqKeep]
    intro k x hx hke
    have hd := (eqKeep_iff Γ c k).1 hke
    have hl := lookup_of_mem hv.1 hx
    have hkb : k ∈ keysOf b := (hk k hd).1 ((lookup_isSome_iff a k).1 (by simp [hl]))
    obtain ⟨y, hy⟩ := Option.isSome_iff_exists.1 ((lookup_isSome_iff b k).2 hkb)
    exact ⟨y, ⟨hd, hy⟩, ih k x y hd hl hy ((WFD_iff a).1 hv.2 _ hx)⟩

theorem Same.symm {Γ : Env} {R : Rat → Rat → Prop} (hR : ∀ a b, R a b → R b a) {v w : V} (h : Same Γ R v w) :
    Same Γ R w v := by
  induction h with
  | none => exact .none
  | int h1 h2 => exact .int h2 h1
  | @flt v w a b u u' h1 h2 hu hc =>
    refine .flt h2 h1 ?_ (hR _ _ hc)
    cases u <;> cases u' <;> simp_all [unitOk]
  | str => exact .str
  | seq h1 h2 hl _ ih => exact .seq h2 h1 hl.symm (fun i x y hx hy => ih i y x hy hx)
  | dict hk _ ih => exact .dict (fun k => (hk k).symm) (fun k x y hx hy => ih k y x hy hx)
  | cls => exact .cls
  | file => exact .file
  | obj hk _ ih => exact .obj (fun k hd => (hk k hd).symm) (fun k x y hd hx hy => ih k y x hd hy hx)

theorem Same.refl {Γ : Env} {R : Rat → Rat → Prop} (hR : ∀ a, R a a) : (n : Nat) → (v : V) → sizeOf v < n → WF v →
    Same Γ R v v
  | 0, _, h, _ => by omega
  | n+1, v, hn, hv => by
    cases v with
    | none => exact .none
    | bool b => exact .int rfl rfl
    | int i => exact .int rfl rfl
    | flt q => exact .flt rfl rfl (by simp [unitOk]) (hR q)
    | measure c q => exact .flt rfl rfl (by simp [unitOk]) (hR q)
    | str s => exact .str
    | list l =>
      simp only [WF, V.list.sizeOf_spec] at hv hn
      refine .seq rfl rfl rfl (fun i x y hx hy => ?_)
      have : x = y := by rw [hx] at hy; exact Option.some.inj hy
      subst this
      exact Same.refl hR n x (by have := sizeOf_getElem? hx; omega) ((WFL_iff l).1 hv x (List.mem_of_getElem? hx))
    | tuple l =>
      simp only [WF, V.tuple.sizeOf_spec] at hv hn
      refine .seq rfl rfl rfl (fun i x y hx hy => ?_)
      have : x = y := by rw [hx] at hy; exact Option.some.inj hy
      subst this
      exact Same.refl hR n x (by have := sizeOf_getElem? hx; omega) ((WFL_iff l).1 hv x (List.mem_of_getElem? hx))
    | dict d =>
      simp only [WF, V.dict.sizeOf_spec] at hv hn
      refine .dict (fun k => Iff.rfl) (fun k x y hx hy => ?_)
      have : x = y := by rw [hx] at hy; exact Option.some.inj hy
      subst this
      have hm := lookup_some_mem hx
      exact Same.refl hR n x (by have := sizeOf_mem_dict hm; omega) ((WFD_iff d).1 hv.2 _ hm)
    | obj c d =>
      simp only [WF, V.obj.sizeOf_spec] at hv hn
      refine .obj (fun k _ => Iff.rfl) (fun k x y _ hx hy => ?_)
      have : x = y := by rw [hx] at hy; exact Option.some.inj hy
      subst this
      have hm := lookup_some_mem hx
      exact Same.refl hR n x (by have := sizeOf_mem_dict hm; omega) ((WFD_iff d).1 hv.2 _ hm)
    | cls n => exact .cls
    | file k n t => exact .file
    | other n => simp [WF] at hv

theorem both_imp_same (Γ : Env) : (n : Nat) → (v w : V) → sizeOf v < n → WF v → WF w → NoCls v →
    dataEq Γ v w = true → dataEq Γ w v = true → Same Γ Close v w
  | 0, _, _, h, _, _, _, _, _ => by omega
  | n+1, v, w, hn, hv, hw, hc, h1, h2 => by
    have seqCase : ∀ a b : List V, sizeOf a < n → WFL a → WFL b → NoClsL a → a.length = b.length →
        seqAll Γ a b = true → seqAll Γ b a = true →
        ∀ (i : Nat) x y, a[i]? = some x → b[i]? = some y → Same Γ Close x y := by
      intro a b hs ha hb hca _ h1 h2 i x y hx hy
      exact both_imp_same Γ n x y (by have := sizeOf_getElem? hx; omega) ((WFL_iff a).1 ha x (List.mem_of_getElem? hx))
        ((WFL_iff b).1 hb y (List.mem_of_getElem? hy)) ((NoClsL_iff a).1 hca x (List.mem_of_getElem? hx))
        ((seqAll_iff Γ a b).1 h1 i x y hx hy) ((seqAll_iff Γ b a).1 h2 i y x hy hx)
    cases v with
    | none => cases w <;> simp [dataEq] at h1; exact .none
    | bool b => 
      cases w <;> simp [dataEq] at h1
      · subst h1; exact .int rfl rfl
      · subst h1; exact .int rfl rfl
    | int i =>
      cases w <;> simp [dataEq] at h1
      · subst h1; exact .int rfl rfl
      · subst h1; exact .int rfl rfl
    | flt q =>
      cases w <;> simp [dataEq] at h1
      · exact .flt rfl rfl (by simp [unitOk]) ((isclose_iff _ _).1 h1)
      · exact .flt rfl rfl (by simp [unitOk]) ((isclose_iff _ _).1 h1)
    | measure c q =>
      cases w <;> simp [dataEq] at h1
      · exact .flt rfl rfl (by simp [unitOk]) ((isclose_iff _ _).1 h1)
      · exact .flt rfl rfl (by simp [unitOk, h1.1]) ((isclose_iff _ _).1 h1.2)
    | str s => cases w <;> simp [dataEq] at h1; subst h1; exact .str
    | list l =>
      simp only [WF, NoCls, V.list.sizeOf_spec] at hv hn hc
      cases w <;> simp [dataEq] at h1 h2 <;>
        exact .seq rfl rfl h1.1 (seqCase _ _ (by omega) hv hw hc h1.1 h1.2 h2.2)
    | tuple l =>
      simp only [WF, NoCls, V.tuple.sizeOf_spec] at hv hn hc
      cases w <;> simp [dataEq] at h1 h2 <;>
        exact .seq rfl rfl h1.1 (seqCase _ _ (by omega) hv hw hc h1.1 h1.2 h2.2)
    | dict d =>
      cases w <;> simp only [dataEq, Bool.false_eq_true] at h1 h2
      rename_i d'
      simp only [WF, NoCls, V.dict.sizeOf_spec] at hv hn hw hc
      rw [dictAll_iff] at h1 h2
      refine .dict (fun k => ⟨fun hk => ?_, fun hk => ?_⟩) (fun k x y hx hy => ?_)
      · obtain ⟨x, hx⟩ := Option.isSome_iff_exists.1 ((lookup_isSome_iff d k).2 hk)
        obtain ⟨y, hy, _⟩ := h1 k x (lookup_some_mem hx) rfl
        exact (lookup_isSome_iff d' k).1 (by simp [hy])
      · obtain ⟨x, hx⟩ := Option.isSome_iff_exists.1 ((lookup_isSome_iff d' k).2 hk)
        obtain ⟨y, hy, _⟩ := h2 k x (lookup_some_mem hx) rfl
        exact (lookup_isSome_iff d k).1 (by simp [hy])
      · have hmx := lookup_some_mem hx
        have hmy := lookup_some_mem hy
        obtain ⟨y', hy', e1⟩ := h1 k x hmx rfl
        rw [hy] at hy'; cases hy'
        obtain ⟨x', hx', e2⟩ := h2 k y hmy rfl
        rw [hx] at hx'; cases hx'
        exact both_imp_same Γ n x y (by have := sizeOf_mem_dict hmx; omega) ((WFD_iff d).1 hv.2 _ hmx)
          ((WFD_iff d').1 hw.2 _ hmy) ((NoClsD_iff d).1 hc _ hmx) e1 e2
    | obj c d =>
      cases w <;> simp only [dataEq, Bool.false_eq_true, Bool.and_eq_true, beq_iff_eq] at h1 h2
      rename_i c' d'
      obtain ⟨rfl, h1⟩ := h1
      obtain ⟨_, h2⟩ := h2
      simp only [WF, NoCls, V.obj.sizeOf_spec] at hv hn hw hc
      simp only [dictAll_iff, lookup_filter_eqKeep] at h1 h2
      refine .obj (fun k hd => ⟨fun hk => ?_, fun hk => ?_⟩) (fun k x y hd hx hy => ?_)
      · obtain ⟨x, hx⟩ := Option.isSome_iff_exists.1 ((lookup_isSome_iff d k).2 hk)
        obtain ⟨y, ⟨_, hy⟩, _⟩ := h1 k x (lookup_some_mem hx) ((eqKeep_iff _ _ _).2 hd)
        exact (lookup_isSome_iff d' k).1 (by simp [hy])
      · obtain ⟨x, hx⟩ := Option.isSome_iff_exists.1 ((lookup_isSome_iff d' k).2 hk)
        obtain ⟨y, ⟨_, hy⟩, _⟩ := h2 k x (lookup_some_mem hx) ((eqKeep_iff _ _ _).2 hd)
        exact (lookup_isSome_iff d k).1 (by simp [hy])
      · have hmx := lookup_some_mem hx
        have hmy := lookup_some_mem hy
        obtain ⟨y', ⟨_, hy'⟩, e1⟩ := h1 k x hmx ((eqKeep_iff _ _ _).2 hd)
        rw [hy] at hy'; cases hy'
        obtain ⟨x', ⟨_, hx'⟩, e2⟩ := h2 k y hmy ((eqKeep_iff _ _ _).2 hd)
        rw [hx] at hx'; cases hx'
        exact both_imp_same Γ n x y (by have := sizeOf_mem_dict hmx; omega) ((WFD_iff d).1 hv.2 _ hmx)
          ((WFD_iff d').1 hw.2 _ hmy) ((NoClsD_iff d).1 hc _ hmx) e1 e2
    | cls n => simp [NoCls] at hc
    | file k n t =>
      cases w <;> simp [dataEq] at h1
      obtain ⟨⟨rfl, rfl⟩, rfl⟩ := h1
      exact .file
    | other n => simp [WF] at hv


theorem Same.mono {Γ : Env} {R S : Rat → Rat → Prop} (hRS : ∀ a b, R a b → S a b) {v w : V} (h : Same Γ R v w) :
    Same Γ S v w := by
  induction h with
  | none => exact .none
  | int h1 h2 => exact .int h1 h2
  | flt h1 h2 hu hab => exact .flt h1 h2 hu (hRS _ _ hab)
  | str => exact .str
  | seq h1 h2 hl _ ih => exact .seq h1 h2 hl ih
  | dict hk _ ih => exact .dict hk ih
  | cls => exact .cls
  | file => exact .file
  | obj hk _ ih => exact .obj hk ih

/-! ### Hash -/

theorem Key.le_trans (a b c : Key) : Key.le a b = true → Key.le b c = true → Key.le a c = true := by
  cases a <;> cases b <;> cases c <;> simp [Key.le]
  · exact String.le_trans
  · intro h1 h2; omega

theorem Key.le_total (a b : Key) : Key.le a b = true ∨ Key.le b a = true := by
  cases a <;> cases b <;> simp [Key.le]
  · exact String.le_total _ _
  · omega

theorem Key.le_antisymm (a b : Key) : Key.le a b = true → Key.le b a = true → a = b := by
  cases a <;> cases b <;> simp [Key.le]
  · exact String.le_antisymm
  · intro h1 h2; omega

theorem sequenceHash_congr {l l' : List Int} (h : l = l') : sequenceHash l = sequenceHash l' := by rw [h]

theorem dictHash_perm (H : HashFns) {a b : List (Key × Int)} (hn : (a.map (·.1)).Nodup) (h : a.Perm b) :
    dictHash H a = dictHash H b := by
  have hs : sortable (a.map (·.1)) = sortable (b.map (·.1)) := by
    unfold sortable
    rw [(h.map (·.1)).all_eq, (h.map (·.1)).all_eq]
  have hl : a.length = b.length := h.length_eq
  have hsort : sortBy (fun x y => Key.le x.1 y.1) a = sortBy (fun x y => Key.le x.1 y.1) b := by
    refine List.Perm.eq_of_pairwise (le := fun x y => Key.le x.1 y.1 = true) ?_
      (sortBy_pairwise (fun x y z => Key.le_trans x.1 y.1 z.1) (fun x y => Key.le_total x.1 y.1) a)
      (sortBy_pairwise (fun x y z => Key.le_trans x.1 y.1 z.1) (fun x y => Key.le_total x.1 y.1) b)
      ((sortBy_perm _ a).trans (h.trans (sortBy_perm _ b).symm))
    intro x y hx hy h1 h2
    have hx' : x ∈ a := (sortBy_perm _ a).mem_iff.1 hx
    have hy' : y ∈ a := h.mem_iff.2 ((sortBy_perm _ b).mem_iff.1 hy)
    exact List.inj_on_of_nodup_map hn hx' hy' (Key.le_antisymm _ _ h1 h2)
  have hsum : (a.map (fun kh => keyHash H kh.1 + kh.2)).sum = (b.map (fun kh => keyHash H kh.1 + kh.2)).sum :=
    (h.map _).sum_eq
  cases a with
  | nil => have := h.symm.eq_nil; subst this; rfl
  | cons x xs =>
    cases b with
    | nil => simp at hl
    | cons y ys => simp only [dictHash, hs, hsort, hl, hsum]

theorem hashes_eq_map (Γ : Env) (H : HashFns) (l : List V) : hashes Γ H l = l.map (chooseHash Γ H) := by
  induction l with
  | nil => simp [hashes]
  | cons x xs ih => simp [hashes, ih]

theorem hashesD_eq_map (Γ : Env) (H : HashFns) (d : List (Key × V)) :
    hashesD Γ H d = d.map (fun kv => (kv.1, chooseHash Γ H kv.2)) := by
  induction d with
  | nil => simp [hashesD]
  | cons x xs ih => obtain ⟨k, v⟩ := x; simp [hashesD, ih]

theorem attrHashSum_eq (Γ : Env) (H : HashFns) (c : String) (d : List (Key × V)) :
    attrHashSum Γ H c d = (((d.filter (fun kv => hashKeep Γ c kv.1)).map
      (fun kv => (kv.1, chooseHash Γ H kv.2))).map (·.2)).sum := by
  induction d with
  | nil => simp [attrHashSum]
  | cons x xs ih =>
    obtain ⟨k, v⟩ := x
    by_cases h : hashKeep Γ c k = true
    · simp [attrHashSum, ih, h]
    · simp [attrHashSum, ih, h]

theorem hashKeep_dataAttr {Γ : Env} {c : String} {k : Key} (h : hashKeep Γ c k = true) : DataAttr Γ c k := by
  rw [← eqKeep_iff]
  cases k with
  | str s => simp [hashKeep, eqKeep] at *; tauto
  | int i => simp [hashKeep, eqKeep] at *; exact h

/-- Two association lists with distinct keys, the same keys satisfying `p`, and equal hashes on them, are permutations
of each other once restricted to `p` and hashed. -/
theorem perm_of_lookup {Γ : Env} {H : HashFns} {p : Key → Bool} {a b : List (Key × V)}
    (ha : (keysOf a).Nodup) (hb : (keysOf b).Nodup)
    (hk : ∀ k, p k = true → (k ∈ keysOf a ↔ k ∈ keysOf b))
    (hv : ∀ k x y, p k = true → a.lookup k = some x → b.lookup k = some y → chooseHash Γ H x = chooseHash Γ H y) :
    ((a.filter (fun kv => p kv.1)).map (fun kv => (kv.1, chooseHash Γ H kv.2))).Perm
      ((b.filter (fun kv => p kv.1)).map (fun kv => (kv.1, chooseHash Γ H kv.2))) := by
  have nd : ∀ d : List (Key × V), (keysOf d).Nodup →
      ((d.filter (fun kv => p kv.1)).map (fun kv => (kv.1, chooseHash Γ H kv.2))).Nodup := by
    intro d hd
    have : (((d.filter (fun kv => p kv.1)).map (fun kv => (kv.1, chooseHash Γ H kv.2))).map (·.1)).Nodup := by
      rw [List.map_map]
      exact hd.sublist ((List.filter_sublist).map _)
    exact List.Nodup.of_map _ this
  rw [List.perm_ext_iff_of_nodup (nd a ha) (nd b hb)]
  have half : ∀ a b : List (Key × V), (keysOf a).Nodup → (keysOf b).Nodup →
      (∀ k, p k = true → (k ∈ keysOf a ↔ k ∈ keysOf b)) →
      (∀ k x y, p k = true → a.lookup k = some x → b.lookup k = some y → chooseHash Γ H x = chooseHash Γ H y) →
      ∀ q, q ∈ (a.filter (fun kv => p kv.1)).map (fun kv => (kv.1, chooseHash Γ H kv.2)) →
        q ∈ (b.filter (fun kv => p kv.1)).map (fun kv => (kv.1, chooseHash Γ H kv.2)) := by
    intro a b ha hb hk hv q hq
    obtain ⟨⟨k, x⟩, hm, rfl⟩ := List.mem_map.1 hq
    obtain ⟨hm, hp⟩ := List.mem_filter.1 hm
    have hx := lookup_of_mem ha hm
    have hkb : k ∈ keysOf b := (hk k hp).1 ((lookup_isSome_iff a k).1 (by simp [hx]))
    obtain ⟨y, hy⟩ := Option.isSome_iff_exists.1 ((lookup_isSome_iff b k).2 hkb)
    refine List.mem_map.2 ⟨(k, y), List.mem_filter.2 ⟨lookup_some_mem hy, hp⟩, ?_⟩
    simp [hv k x y hp hx hy]
  intro q
  exact ⟨half a b ha hb hk hv q, half b a hb ha (fun k hp => (hk k hp).symm)
    (fun k x y hp hx hy => (hv k y x hp hy hx).symm) q⟩

theorem same_imp_hash {Γ : Env} (H : HashFns) {v w : V} (h : Same Γ (· = ·) v w) (hv : WF v) (hw : WF w) :
    chooseHash Γ H v = chooseHash Γ H w := by
  induction h with
  | none => rfl
  | @int v w i h1 h2 =>
    cases v <;> simp [intVal] at h1 <;> cases w <;> simp [intVal] at h2 <;> simp [chooseHash, b2i, h1, h2]
  | @flt v w a b u u' h1 h2 hu hc =>
    subst hc
    cases v <;> simp [fltVal] at h1 <;> cases w <;> simp [fltVal] at h2 <;>
      (obtain ⟨rfl, rfl⟩ := h1; obtain ⟨rfl, rfl⟩ := h2; simp [chooseHash])
  | str => rfl
  | @seq v w a b h1 h2 hl _ ih =>
    have key : WFL a → WFL b → hashes Γ H a = hashes Γ H b := by
      intro ha hb
      rw [hashes_eq_map, hashes_eq_map]
      apply List.ext_getElem?
      intro i
      simp only [List.getElem?_map]
      cases hx : a[i]? with
      | none =>
        have : b[i]? = Option.none := by
          rw [List.getElem?_eq_none_iff] at *; omega
        rw [this]
      | some x =>
        cases hy : b[i]? with
        | none =>
          exfalso
          rw [List.getElem?_eq_none_iff] at hy
          have : i < a.length := (List.getElem?_eq_some_iff.1 hx).1
          omega
        | some y =>
          simp [ih i x y hx hy ((WFL_iff a).1 ha x (List.mem_of_getElem? hx))
            ((WFL_iff b).1 hb y (List.mem_of_getElem? hy))]
    cases v <;> simp [seqItems] at h1 <;> cases w <;> simp [seqItems] at h2 <;>
      (subst h1 h2; simp only [WF] at hv hw; simp [chooseHash, key hv hw])
  | @dict a b hk _ ih =>
    simp only [WF] at hv hw
    simp only [chooseHash, hashesD_eq_map]
    have := perm_of_lookup (Γ := Γ) (H := H) (p := fun _ => true) hv.1 hw.1 (fun k _ => hk k)
      (fun k x y _ hx hy => ih k x y hx hy ((WFD_iff a).1 hv.2 _ (lookup_some_mem hx))
        ((WFD_iff b).1 hw.2 _ (lookup_some_mem hy)))
    simp only [List.filter_true] at this
    refine dictHash_perm H ?_ this
    rw [List.map_map]; exact hv.1
  | cls => rfl
  | file => rfl
  | @obj c a b hk _ ih =>
    simp only [WF] at hv hw
    simp only [chooseHash, attrHashSum_eq]
    have := perm_of_lookup (Γ := Γ) (H := H) (p := hashKeep Γ c) hv.1 hw.1 (fun k hp => hk k (hashKeep_dataAttr hp))
      (fun k x y hp hx hy => ih k x y (hashKeep_dataAttr hp) hx hy ((WFD_iff a).1 hv.2 _ (lookup_some_mem hx))
        ((WFD_iff b).1 hw.2 _ (lookup_some_mem hy)))
    rw [(this.map (·.2)).sum_eq]

theorem UniformL_mem {attrs : String → List Key} {l : List V} (h : UniformL attrs l) : ∀ v ∈ l, Uniform attrs v := by
  induction l with
  | nil => simp
  | cons x xs ih => simp only [UniformL] at h; simp [h.1]; exact ih h.2

theorem UniformD_mem {attrs : String → List Key} {d : List (Key × V)} (h : UniformD attrs d) :
    ∀ kv ∈ d, Uniform attrs kv.2 := by
  induction d with
  | nil => simp
  | cons x xs ih =>
    obtain ⟨k, v⟩ := x; simp only [UniformD] at h
    intro kv hkv
    rcases List.mem_cons.1 hkv with rfl | hkv
    · exact h.1
    · exact ih h.2 kv hkv

theorem symm_aux (Γ : Env) (attrs : String → List Key) : (n : Nat) → (v w : V) → sizeOf v < n → WF v → WF w →
    Uniform attrs v → Uniform attrs w → dataEq Γ v w = true → dataEq Γ w v = true
  | 0, _, _, h, _, _, _, _, _ => by omega
  | n+1, v, w, hn, hv, hw, uv, uw, h => by
    have seqCase : ∀ a b : List V, sizeOf a < n → WFL a → WFL b → UniformL attrs a → UniformL attrs b →
        seqAll Γ a b = true → seqAll Γ b a = true := by
      intro a b hs ha hb ua ub h
      rw [seqAll_iff] at *
      intro i y x hy hx
      exact symm_aux Γ attrs n x y (by have := sizeOf_getElem? hx; omega)
        ((WFL_iff a).1 ha x (List.mem_of_getElem? hx)) ((WFL_iff b).1 hb y (List.mem_of_getElem? hy))
        (UniformL_mem ua x (List.mem_of_getElem? hx)) (UniformL_mem ub y (List.mem_of_getElem? hy)) (h i x y hx hy)
    cases v with
    | none => cases w <;> simp [dataEq] at h ⊢
    | bool b => cases w <;> simp [dataEq] at h ⊢ <;> exact h.symm
    | int i => cases w <;> simp [dataEq] at h ⊢ <;> exact h.symm
    | flt q =>
      cases w <;> simp [dataEq] at h ⊢ <;> rw [isclose_iff] at * <;> exact h.symm
    | measure c q =>
      cases w <;> simp [dataEq] at h ⊢
      · rw [isclose_iff] at *; exact h.symm
      · rw [isclose_iff] at *; exact ⟨h.1.symm, h.2.symm⟩
    | str s => cases w <;> simp [dataEq] at h ⊢; exact h.symm
    | list l =>
      simp only [WF, Uniform, V.list.sizeOf_spec] at hv uv hn
      cases w <;> simp [dataEq] at h ⊢ <;> simp only [WF, Uniform] at hw uw <;>
        exact ⟨h.1.symm, seqCase _ _ (by omega) hv hw uv uw h.2⟩
    | tuple l =>
      simp only [WF, Uniform, V.tuple.sizeOf_spec] at hv uv hn
      cases w <;> simp [dataEq] at h ⊢ <;> simp only [WF, Uniform] at hw uw <;>
        exact ⟨h.1.symm, seqCase _ _ (by omega) hv hw uv uw h.2⟩
    | dict d => simp [Uniform] at uv
    | obj c d =>
      cases w <;> simp only [dataEq, Bool.false_eq_true, Bool.and_eq_true, beq_iff_eq] at h ⊢
      rename_i c' d'
      obtain ⟨rfl, h⟩ := h
      refine ⟨rfl, ?_⟩
      simp only [WF, Uniform, V.obj.sizeOf_spec] at hv hw uv uw hn
      simp only [dictAll_iff, lookup_filter_eqKeep] at h ⊢
      intro k y hy hke
      have hk : k ∈ keysOf d := by rw [uv.1, ← uw.1]; exact List.mem_map.2 ⟨(k, y), hy, rfl⟩
      obtain ⟨x, hx⟩ := Option.isSome_iff_exists.1 ((lookup_isSome_iff d k).2 hk)
      have hmx := lookup_some_mem hx
      obtain ⟨y', ⟨hd, hy'⟩, e⟩ := h k x hmx hke
      rw [lookup_of_mem hw.1 hy] at hy'
      cases hy'
      exact ⟨x, ⟨hd, hx⟩, symm_aux Γ attrs n x y (by have := sizeOf_mem_dict hmx; omega) ((WFD_iff d).1 hv.2 _ hmx)
        ((WFD_iff d').1 hw.2 _ hy) (UniformD_mem uv.2 _ hmx) (UniformD_mem uw.2 _ hy) e⟩
    | cls n => cases w <;> simp [dataEq] at h ⊢
    | file k n t =>
      cases w <;> simp [dataEq] at h ⊢
      exact ⟨⟨h.1.1.symm, h.1.2.symm⟩, h.2.symm⟩
    | other n => simp [WF] at hv

theorem NoFloatL_mem {l : List V} (h : NoFloatL l) : ∀ v ∈ l, NoFloat v := by
  induction l with
  | nil => simp
  | cons x xs ih => simp only [NoFloatL] at h; simp [h.1]; exact ih h.2

theorem NoFloatD_mem {d : List (Key × V)} (h : NoFloatD d) : ∀ kv ∈ d, NoFloat kv.2 := by
  induction d with
  | nil => simp
  | cons x xs ih =>
    obtain ⟨k, v⟩ := x; simp only [NoFloatD] at h
    intro kv hkv
    rcases List.mem_cons.1 hkv with rfl | hkv
    · exact h.1
    · exact ih h.2 kv hkv

theorem trans_aux (Γ : Env) : (n : Nat) → (u v w : V) → sizeOf u < n → NoFloat u →
    dataEq Γ u v = true → dataEq Γ v w = true → dataEq Γ u w = true
  | 0, _, _, _, h, _, _, _ => by omega
  | n+1, u, v, w, hn, hu, h1, h2 => by
    have seqCase : ∀ a b c : List V, sizeOf a < n → NoFloatL a → a.length = b.length →
        seqAll Γ a b = true → seqAll Γ b c = true → seqAll Γ a c = true := by
      intro a b c hs ha hl h1 h2
      rw [seqAll_iff] at *
      intro i x z hx hz
      have : i < b.length := by have := (List.getElem?_eq_some_iff.1 hx).1; omega
      exact trans_aux Γ n x b[i] z (by have := sizeOf_getElem? hx; omega) (NoFloatL_mem ha x (List.mem_of_getElem? hx))
        (h1 i x _ hx (List.getElem?_eq_getElem this)) (h2 i _ z (List.getElem?_eq_getElem this) hz)
    cases u with
    | none => cases v <;> simp [dataEq] at h1; exact h2
    | bool b =>
      cases v <;> simp [dataEq] at h1
      · subst h1; exact h2
      · subst h1; cases w <;> simp [dataEq] at h2 ⊢
        · revert h2; cases b <;> rename_i b' <;> cases b' <;> simp [b2i]
        · exact h2
    | int i =>
      cases v <;> simp [dataEq] at h1
      · subst h1; cases w <;> simp [dataEq] at h2 ⊢
        · subst h2; rfl
        · exact h2
      · subst h1; exact h2
    | flt q => simp [NoFloat] at hu
    | measure c q => simp [NoFloat] at hu
    | str s => cases v <;> simp [dataEq] at h1; subst h1; exact h2
    | list l =>
      simp only [NoFloat, V.list.sizeOf_spec] at hu hn
      cases v <;> simp [dataEq] at h1 <;> cases w <;> simp [dataEq] at h2 ⊢ <;>
        exact ⟨h1.1.trans h2.1, seqCase _ _ _ (by omega) hu h1.1 h1.2 h2.2⟩
    | tuple l =>
      simp only [NoFloat, V.tuple.sizeOf_spec] at hu hn
      cases v <;> simp [dataEq] at h1 <;> cases w <;> simp [dataEq] at h2 ⊢ <;>
        exact ⟨h1.1.trans h2.1, seqCase _ _ _ (by omega) hu h1.1 h1.2 h2.2⟩
    | dict d =>
      simp only [NoFloat, V.dict.sizeOf_spec] at hu hn
      cases v <;> simp only [dataEq, Bool.false_eq_true] at h1
      cases w <;> simp only [dataEq, Bool.false_eq_true] at h2 ⊢
      rw [dictAll_iff] at *
      intro k x hx _
      obtain ⟨y, hy, e1⟩ := h1 k x hx rfl
      obtain ⟨z, hz, e2⟩ := h2 k y (lookup_some_mem hy) rfl
      exact ⟨z, hz, trans_aux Γ n x y z (by have := sizeOf_mem_dict hx; omega) (NoFloatD_mem hu _ hx) e1 e2⟩
    | obj c d =>
      simp only [NoFloat, V.obj.sizeOf_spec] at hu hn
      cases v <;> simp only [dataEq, Bool.false_eq_true, Bool.and_eq_true, beq_iff_eq] at h1
      cases w <;> simp only [dataEq, Bool.false_eq_true, Bool.and_eq_true, beq_iff_eq] at h2 ⊢
      obtain ⟨rfl, h1⟩ := h1
      obtain ⟨rfl, h2⟩ := h2
      refine ⟨rfl, ?_⟩
      simp only [dictAll_iff, lookup_filter_eqKeep] at h1 h2 ⊢
      intro k x hx hk
      obtain ⟨y, ⟨_, hy⟩, e1⟩ := h1 k x hx hk
      obtain ⟨z, ⟨hd, hz⟩, e2⟩ := h2 k y (lookup_some_mem hy) hk
      exact ⟨z, ⟨hd, hz⟩, trans_aux Γ n x y z (by have := sizeOf_mem_dict hx; omega) (NoFloatD_mem hu _ hx) e1 e2⟩
    | cls n =>
      cases v <;> simp [dataEq] at h1
      cases w <;> simp [dataEq] at h2 ⊢
    | file k n t =>
      cases v <;> simp [dataEq] at h1
      obtain ⟨⟨rfl, rfl⟩, rfl⟩ := h1; exact h2
    | other n => cases v <;> simp [dataEq] at h1

end DC
