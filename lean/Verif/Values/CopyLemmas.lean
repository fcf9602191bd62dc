import Verif.Values.Copy
import Verif.Values.CopySpec
import Verif.Values.EqualityMain
import Verif.Values.DiffLemmas
/- Helper lemmas for Verif/Values/CopyProps.lean. -/
namespace DC

theorem Occurs.trans {u v w : V} (h : Occurs u v) : Occurs v w → Occurs u w := by
  induction h with
  | self => exact id
  | list hm _ ih => exact fun h => .list hm (ih h)
  | tuple hm _ ih => exact fun h => .tuple hm (ih h)
  | dict hm _ ih => exact fun h => .dict hm (ih h)
  | obj hm _ ih => exact fun h => .obj hm (ih h)

theorem listifyL_eq (l : List V) : listifyL l = l.map listify := by
  induction l with
  | nil => rfl
  | cons x xs ih => simp [listifyL, ih]

theorem listifyD_eq (d : List (Key × V)) : listifyD d = d.map (fun kv => (kv.1, listify kv.2)) := by
  induction d with
  | nil => rfl
  | cons x xs ih => obtain ⟨k, v⟩ := x; simp [listifyD, ih]

theorem deepcopyArgs_nil (Γ : Env) (H : HashFns) (m : Memo) (d : List (Key × V)) :
    deepcopyArgs Γ H m [] d = .ok ([], m) := by rw [deepcopyArgs]

theorem deepcopyArgs_cons (Γ : Env) (H : HashFns) (m : Memo) (a : String) (rest : List String) (d : List (Key × V))
    (v : V) (h : d.lookup (.str a) = some v) :
    deepcopyArgs Γ H m (a :: rest) d = (do
      let (v', m) ← deepcopyValue Γ H m v
      let (r, m') ← deepcopyArgs Γ H m rest d
      .ok ((.str a, v') :: r, m')) := by
  rw [deepcopyArgs]; split
  · rename_i h'; rw [h] at h'; cases h'
  · rename_i h'; rw [h] at h'; cases h'; rfl

theorem searchMemo_some {Γ : Env} {H : HashFns} {m : Memo} {c : String} {d : List (Key × V)} {w : V}
    (h : searchMemo Γ H m c d = some w) : ∃ e ∈ m, objEq Γ H e.1.1 e.1.2 (.obj c d) = .ok true ∧ e.2 = w := by
  unfold searchMemo at h
  rw [Option.map_eq_some_iff] at h
  obtain ⟨e, he, hw⟩ := h
  refine ⟨e, List.mem_of_find?_eq_some he, ?_, hw⟩
  have := List.find?_some he
  unfold memoHit at this
  split at this
  · rename_i b hb; rw [hb, this]
  · cases this

theorem memoHit_iff {Γ : Env} {H : HashFns} {k : String × List (Key × V)} {c : String} {d : List (Key × V)} :
    memoHit Γ H k c d = true ↔ objEq Γ H k.1 k.2 (.obj c d) = .ok true := by
  unfold memoHit
  split
  · rename_i b hb; rw [hb]; simp
  · rename_i e he; rw [he]; simp

/-- A memo invariant that holds for the stored pairs is kept by an insertion. -/
theorem memoSet_inv {Γ : Env} {H : HashFns} {P : (String × List (Key × V)) → V → Prop} {m : Memo} {c : String}
    {d : List (Key × V)} {w : V} (hm : ∀ e ∈ m, P e.1 e.2) (hw : P (c, d) w)
    (hrep : ∀ k ∈ m.map (·.1), objEq Γ H k.1 k.2 (.obj c d) = .ok true → P k w) :
    ∀ e ∈ memoSet Γ H c d w m, P e.1 e.2 := by
  induction m with
  | nil => simp [memoSet, hw]
  | cons e rest ih =>
    intro x hx
    unfold memoSet at hx
    split at hx
    · rename_i hh
      rcases List.mem_cons.1 hx with rfl | hx
      · exact hrep e.1 (by simp) (memoHit_iff.1 hh)
      · exact hm x (by simp [hx])
    · rcases List.mem_cons.1 hx with rfl | hx
      · exact hm x (by simp)
      · exact ih (fun e he => hm e (by simp [he])) (fun k hk h => hrep k (by simp at hk ⊢; exact .inr hk) h) x hx

/-- Deep copy under a memo invariant: exact result. -/
theorem deepcopy_exact_aux (Γ : Env) (H : HashFns) (root : V)
    (sep : ∀ c d c' d', Occurs root (.obj c d) → Occurs root (.obj c' d') →
      objEq Γ H c d (.obj c' d') = .ok true → V.obj c d = V.obj c' d')
    (built : Built Γ root) (wf : ∀ x, Occurs root x → WF x) :
    (n : Nat) → (v : V) → (m : Memo) → sizeOf v < n → Occurs root v →
    (∀ e ∈ m, Occurs root (.obj e.1.1 e.1.2) ∧ e.2 = listify (.obj e.1.1 e.1.2)) →
    ∃ m', deepcopyValue Γ H m v = .ok (listify v, m') ∧
      (∀ e ∈ m', Occurs root (.obj e.1.1 e.1.2) ∧ e.2 = listify (.obj e.1.1 e.1.2))
  | 0, _, _, h, _, _ => by omega
  | n+1, v, m, hn, ho, hm => by
    have IH := deepcopy_exact_aux Γ H root sep built wf n
    have seqCase : ∀ (l : List V) (m : Memo), sizeOf l < n → (∀ x ∈ l, Occurs root x) →
        (∀ e ∈ m, Occurs root (.obj e.1.1 e.1.2) ∧ e.2 = listify (.obj e.1.1 e.1.2)) →
        ∃ m', deepcopySeq Γ H m l = .ok (listifyL l, m') ∧
          (∀ e ∈ m', Occurs root (.obj e.1.1 e.1.2) ∧ e.2 = listify (.obj e.1.1 e.1.2)) := by
      intro l
      induction l with
      | nil => intro m _ _ hm; exact ⟨m, by rw [deepcopySeq]; rfl, hm⟩
      | cons x xs ih =>
        intro m hs hx hm
        simp only [List.cons.sizeOf_spec] at hs
        obtain ⟨m1, h1, hm1⟩ := IH x m (by omega) (hx x (by simp)) hm
        obtain ⟨m2, h2, hm2⟩ := ih m1 (by omega) (fun y hy => hx y (by simp [hy])) hm1
        exact ⟨m2, by rw [deepcopySeq, h1]; simp only [bind, Except.bind]; rw [h2]; rfl, hm2⟩
    cases v with
    | list l =>
      simp only [V.list.sizeOf_spec] at hn
      obtain ⟨m', h, hm'⟩ := seqCase l m (by omega) (fun x hx => ho.trans (.list hx .self)) hm
      exact ⟨m', by rw [deepcopyValue, h]; rfl, hm'⟩
    | tuple l =>
      simp only [V.tuple.sizeOf_spec] at hn
      obtain ⟨m', h, hm'⟩ := seqCase l m (by omega) (fun x hx => ho.trans (.tuple hx .self)) hm
      exact ⟨m', by rw [deepcopyValue, h]; rfl, hm'⟩
    | dict d =>
      simp only [V.dict.sizeOf_spec] at hn
      have : ∀ (d : List (Key × V)) (m : Memo), sizeOf d < n → (∀ kv ∈ d, Occurs root kv.2) →
        (∀ e ∈ m, Occurs root (.obj e.1.1 e.1.2) ∧ e.2 = listify (.obj e.1.1 e.1.2)) →
        ∃ m', deepcopyDict Γ H m d = .ok (listifyD d, m') ∧
          (∀ e ∈ m', Occurs root (.obj e.1.1 e.1.2) ∧ e.2 = listify (.obj e.1.1 e.1.2)) := by
        intro d
        induction d with
        | nil => intro m _ _ hm; exact ⟨m, by rw [deepcopyDict]; rfl, hm⟩
        | cons x xs ih =>
          obtain ⟨k, x⟩ := x
          intro m hs hx hm
          simp only [List.cons.sizeOf_spec, Prod.mk.sizeOf_spec] at hs
          obtain ⟨m1, h1, hm1⟩ := IH x m (by omega) (hx (k, x) (by simp)) hm
          obtain ⟨m2, h2, hm2⟩ := ih m1 (by omega) (fun y hy => hx y (by simp [hy])) hm1
          exact ⟨m2, by rw [deepcopyDict, h1]; simp only [bind, Except.bind]; rw [h2]; rfl, hm2⟩
      obtain ⟨m', h, hm'⟩ := this d m (by omega) (fun kv hx => ho.trans (.dict (k := kv.1) hx .self)) hm
      exact ⟨m', by rw [deepcopyValue, h]; rfl, hm'⟩
    | obj c d =>
      simp only [V.obj.sizeOf_spec] at hn
      rw [deepcopyValue]
      split
      · rename_i w hw
        obtain ⟨e, he, heq, rfl⟩ := searchMemo_some hw
        have := sep _ _ _ _ (hm e he).1 ho heq
        exact ⟨m, by rw [(hm e he).2, this], hm⟩
      · have hk := built c d ho
        have hwf := wf _ ho
        simp only [WF] at hwf
        have : ∀ (args : List String) (rest : List (Key × V)) (m : Memo), keysOf rest = args.map Key.str →
            (∀ kv ∈ rest, kv ∈ d) →
            (∀ e ∈ m, Occurs root (.obj e.1.1 e.1.2) ∧ e.2 = listify (.obj e.1.1 e.1.2)) →
            ∃ m', deepcopyArgs Γ H m args d = .ok (listifyD rest, m') ∧
            (∀ e ∈ m', Occurs root (.obj e.1.1 e.1.2) ∧ e.2 = listify (.obj e.1.1 e.1.2)) := by
          intro args
          induction args with
          | nil =>
            intro rest m hkr _ hm
            have : rest = [] := by simpa [keysOf] using hkr
            subst this
            exact ⟨m, by rw [deepcopyArgs_nil]; rfl, hm⟩
          | cons a args ih =>
            intro rest m hkr hsub hm
            cases rest with
            | nil => simp [keysOf] at hkr
            | cons x rest =>
              obtain ⟨k, x⟩ := x
              simp only [keysOf, List.map_cons, List.cons.injEq] at hkr
              obtain ⟨rfl, hkr⟩ := hkr
              have hx : (Key.str a, x) ∈ d := hsub _ (by simp)
              obtain ⟨m1, h1, hm1⟩ := IH x m (by have := sizeOf_mem_dict hx; omega) (ho.trans (.obj hx .self)) hm
              obtain ⟨m2, h2, hm2⟩ := ih rest m1 hkr (fun kv h => hsub kv (by simp [h])) hm1
              refine ⟨m2, ?_, hm2⟩
              rw [deepcopyArgs_cons _ _ _ _ _ _ _ (lookup_of_mem hwf.1 hx), h1]
              simp only [bind, Except.bind]; rw [h2]; rfl
        obtain ⟨m', h, hm'⟩ := this _ d m hk (fun _ h => h) hm
        refine ⟨memoSet Γ H c d (.obj c (listifyD d)) m', by rw [h]; rfl, ?_⟩
        refine memoSet_inv (P := fun k w => Occurs root (.obj k.1 k.2) ∧ w = listify (.obj k.1 k.2)) hm'
          ⟨ho, rfl⟩ ?_
        intro k hk heq
        obtain ⟨e, he, rfl⟩ := List.mem_map.1 hk
        have := sep _ _ _ _ (hm' e he).1 ho heq
        exact ⟨(hm' e he).1, by rw [this]; rfl⟩
    | other k => exact absurd (wf _ ho) (by simp [WF])
    | _ => exact ⟨m, by rw [deepcopyValue]; rfl, hm⟩

/-- A value holds the same data as itself with tuples turned into lists. -/
theorem same_listify (Γ : Env) : (n : Nat) → (v : V) → sizeOf v < n → WF v → Same Γ (· = ·) v (listify v)
  | 0, _, h, _ => by omega
  | n+1, v, hn, hv => by
    have look : ∀ (d : List (Key × V)) (k : Key), (listifyD d).lookup k = (d.lookup k).map listify := by
      intro d k
      induction d with
      | nil => rfl
      | cons x xs ih =>
        obtain ⟨k', x⟩ := x
        simp only [listifyD, List.lookup_cons]
        split <;> simp [ih]
    have keys : ∀ d : List (Key × V), keysOf (listifyD d) = keysOf d := by
      intro d; rw [listifyD_eq]; simp [keysOf]
    have seqCase : ∀ l : List V, sizeOf l < n → WFL l → ∀ (i : Nat) x y, l[i]? = some x → (listifyL l)[i]? = some y →
        Same Γ (· = ·) x y := by
      intro l hs hw i x y hx hy
      rw [listifyL_eq, List.getElem?_map, hx] at hy
      simp only [Option.map_some, Option.some.injEq] at hy
      subst hy
      exact same_listify Γ n x (by have := sizeOf_getElem? hx; omega) ((WFL_iff l).1 hw x (List.mem_of_getElem? hx))
    cases v with
    | none => exact .none
    | bool b => exact .int (i := if b then 1 else 0) rfl rfl
    | int i => exact .int (i := i) rfl rfl
    | flt q => exact .flt (a := q) (b := q) rfl rfl trivial rfl
    | measure c q => exact .flt (a := q) (b := q) rfl rfl rfl rfl
    | str s => exact .str
    | cls n => exact .cls
    | file k n t => exact .file
    | other k => simp [WF] at hv
    | list l =>
      simp only [V.list.sizeOf_spec] at hn
      exact .seq (a := l) (b := listifyL l) rfl rfl (by simp [listifyL_eq]) (seqCase l (by omega) (by simpa [WF] using hv))
    | tuple l =>
      simp only [V.tuple.sizeOf_spec] at hn
      exact .seq (a := l) (b := listifyL l) rfl rfl (by simp [listifyL_eq]) (seqCase l (by omega) (by simpa [WF] using hv))
    | dict d =>
      simp only [V.dict.sizeOf_spec] at hn
      simp only [WF] at hv
      refine .dict (fun k => by rw [keys]) (fun k x y hx hy => ?_)
      rw [look, hx] at hy
      simp only [Option.map_some, Option.some.injEq] at hy
      subst hy
      have := lookup_some_mem hx
      exact same_listify Γ n x (by have := sizeOf_mem_dict this; omega) ((WFD_iff d).1 hv.2 _ this)
    | obj c d =>
      simp only [V.obj.sizeOf_spec] at hn
      simp only [WF] at hv
      refine .obj (fun k _ => by rw [keys]) (fun k x y _ hx hy => ?_)
      rw [look, hx] at hy
      simp only [Option.map_some, Option.some.injEq] at hy
      subst hy
      have := lookup_some_mem hx
      exact same_listify Γ n x (by have := sizeOf_mem_dict this; omega) ((WFD_iff d).1 hv.2 _ this)

theorem WF_listify : (n : Nat) → (v : V) → sizeOf v < n → WF v → WF (listify v)
  | 0, _, h, _ => by omega
  | n+1, v, hn, hv => by
    have seqCase : ∀ l : List V, sizeOf l < n → WFL l → WFL (listifyL l) := by
      intro l hs hw
      rw [WFL_iff, listifyL_eq]
      intro x hx
      obtain ⟨y, hy, rfl⟩ := List.mem_map.1 hx
      exact WF_listify n y (by have := List.sizeOf_lt_of_mem hy; omega) ((WFL_iff l).1 hw y hy)
    have dictCase : ∀ d : List (Key × V), sizeOf d < n → (keysOf d).Nodup ∧ WFD d →
        (keysOf (listifyD d)).Nodup ∧ WFD (listifyD d) := by
      intro d hs hw
      have hk : keysOf (listifyD d) = keysOf d := by rw [listifyD_eq]; simp [keysOf]
      refine ⟨by rw [hk]; exact hw.1, ?_⟩
      rw [WFD_iff, listifyD_eq]
      intro x hx
      obtain ⟨⟨k, y⟩, hy, rfl⟩ := List.mem_map.1 hx
      exact WF_listify n y (by have := sizeOf_mem_dict hy; omega) ((WFD_iff d).1 hw.2 _ hy)
    cases v with
    | list l => simp only [V.list.sizeOf_spec] at hn; simp only [listify, WF] at *; exact seqCase l (by omega) hv
    | tuple l => simp only [V.tuple.sizeOf_spec] at hn; simp only [listify, WF] at *; exact seqCase l (by omega) hv
    | dict d => simp only [V.dict.sizeOf_spec] at hn; simp only [listify, WF] at *; exact dictCase d (by omega) hv
    | obj c d => simp only [V.obj.sizeOf_spec] at hn; simp only [listify, WF] at *; exact dictCase d (by omega) hv
    | _ => simpa [listify] using hv

theorem WF_occurs {v x : V} (h : Occurs v x) : WF v → WF x := by
  induction h with
  | self => exact id
  | list hm _ ih => intro hw; simp only [WF] at hw; exact ih ((WFL_iff _).1 hw _ hm)
  | tuple hm _ ih => intro hw; simp only [WF] at hw; exact ih ((WFL_iff _).1 hw _ hm)
  | dict hm _ ih => intro hw; simp only [WF] at hw; exact ih ((WFD_iff _).1 hw.2 _ hm)
  | obj hm _ ih => intro hw; simp only [WF] at hw; exact ih ((WFD_iff _).1 hw.2 _ hm)

mutual
theorem listify_id : (v : V) → NoTuple v → listify v = v
  | .list l, h => by simp only [NoTuple] at h; simp only [listify, listify_idL l h]
  | .tuple l, h => by simp [NoTuple] at h
  | .dict d, h => by simp only [NoTuple] at h; simp only [listify, listify_idD d h]
  | .obj c d, h => by simp only [NoTuple] at h; simp only [listify, listify_idD d h]
  | .none, _ => rfl
  | .bool _, _ => rfl
  | .int _, _ => rfl
  | .flt _, _ => rfl
  | .measure _ _, _ => rfl
  | .str _, _ => rfl
  | .cls _, _ => rfl
  | .file _ _ _, _ => rfl
  | .other _, _ => rfl
theorem listify_idL : (l : List V) → NoTupleL l → listifyL l = l
  | [], _ => rfl
  | v :: vs, h => by simp only [NoTupleL] at h; simp only [listifyL, listify_id v h.1, listify_idL vs h.2]
theorem listify_idD : (d : List (Key × V)) → NoTupleD d → listifyD d = d
  | [], _ => rfl
  | (k, v) :: kvs, h => by simp only [NoTupleD] at h; simp only [listifyD, listify_id v h.1, listify_idD kvs h.2]
end

/-- Attributes of an object are its constructor arguments. -/
def argAttrs (Γ : Env) (c : String) : List Key := (Γ.info c).initArgs.map Key.str

theorem objEq_true_dataEq {Γ : Env} {H : HashFns} {c c' : String} {d d' : List (Key × V)}
    (h : objEq Γ H c d (.obj c' d') = .ok true) : dataEq Γ (.obj c d) (.obj c' d') = true := by
  simp only [objEq] at h
  split at h
  · simp at h
  · split at h
    · simp at h
    · simpa using h

/-- Entry-wise data equality of association lists with the same keys in the same order. -/
def EntryEq (Γ : Env) : List (Key × V) → List (Key × V) → Prop :=
  List.Forall₂ (fun a b => a.1 = b.1 ∧ dataEq Γ a.2 b.2 = true)

theorem EntryEq.lookup {Γ : Env} {a b : List (Key × V)} (h : EntryEq Γ a b) {k : Key} {x : V}
    (hx : a.lookup k = some x) : ∃ y, b.lookup k = some y ∧ dataEq Γ x y = true := by
  induction h with
  | nil => simp at hx
  | @cons p q l l' hpq _ ih =>
    obtain ⟨k1, v1⟩ := p; obtain ⟨k2, v2⟩ := q
    simp only at hpq
    obtain ⟨rfl, hd⟩ := hpq
    rw [List.lookup_cons] at hx ⊢
    split at hx
    · cases hx; exact ⟨v2, rfl, hd⟩
    · exact ih hx

/-- What is known of a memo entry in the absence of floats and dictionaries. -/
def EntryOk (Γ : Env) (k : String × List (Key × V)) (w : V) : Prop :=
  WF (.obj k.1 k.2) ∧ Uniform (argAttrs Γ) (.obj k.1 k.2) ∧ NoFloat (.obj k.1 k.2) ∧ dataEq Γ (.obj k.1 k.2) w = true

theorem deepcopy_dataEq_aux (Γ : Env) (H : HashFns) : (n : Nat) → (v : V) → (m : Memo) → sizeOf v < n →
    WF v → Uniform (argAttrs Γ) v → NoFloat v → (∀ e ∈ m, EntryOk Γ e.1 e.2) →
    ∃ w m', deepcopyValue Γ H m v = .ok (w, m') ∧ dataEq Γ v w = true ∧ (∀ e ∈ m', EntryOk Γ e.1 e.2)
  | 0, _, _, h, _, _, _, _ => by omega
  | n+1, v, m, hn, hv, uv, fv, hm => by
    have IH := deepcopy_dataEq_aux Γ H n
    have seqCase : ∀ (l : List V) (m : Memo), sizeOf l < n → (∀ x ∈ l, WF x ∧ Uniform (argAttrs Γ) x ∧ NoFloat x) →
        (∀ e ∈ m, EntryOk Γ e.1 e.2) → ∃ l' m', deepcopySeq Γ H m l = .ok (l', m') ∧ l.length = l'.length ∧
          seqAll Γ l l' = true ∧ (∀ e ∈ m', EntryOk Γ e.1 e.2) := by
      intro l
      induction l with
      | nil => intro m _ _ hm; exact ⟨[], m, by rw [deepcopySeq], rfl, by simp [seqAll], hm⟩
      | cons x xs ih =>
        intro m hs hx hm
        simp only [List.cons.sizeOf_spec] at hs
        obtain ⟨h1, h2, h3⟩ := hx x (by simp)
        obtain ⟨w, m1, e1, d1, hm1⟩ := IH x m (by omega) h1 h2 h3 hm
        obtain ⟨l', m2, e2, hl, d2, hm2⟩ := ih m1 (by omega) (fun y hy => hx y (by simp [hy])) hm1
        refine ⟨w :: l', m2, ?_, by simp [hl], by simp [seqAll, d1, d2], hm2⟩
        rw [deepcopySeq, e1]; simp only [bind, Except.bind]; rw [e2]
    have self : ∀ v : V, WF v → dataEq Γ v v = true := fun v h =>
      same_imp_dataEq (Same.refl Close.refl (sizeOf v + 1) v (by omega) h) h
    cases v with
    | list l =>
      simp only [V.list.sizeOf_spec, WF, Uniform, NoFloat] at hn hv uv fv
      obtain ⟨l', m', e, hl, d, hm'⟩ := seqCase l m (by omega) (fun x hx => ⟨(WFL_iff l).1 hv x hx, UniformL_mem uv x hx,
        NoFloatL_mem fv x hx⟩) hm
      exact ⟨.list l', m', by rw [deepcopyValue, e]; rfl, by simp [dataEq, hl, d], hm'⟩
    | tuple l =>
      simp only [V.tuple.sizeOf_spec, WF, Uniform, NoFloat] at hn hv uv fv
      obtain ⟨l', m', e, hl, d, hm'⟩ := seqCase l m (by omega) (fun x hx => ⟨(WFL_iff l).1 hv x hx, UniformL_mem uv x hx,
        NoFloatL_mem fv x hx⟩) hm
      exact ⟨.list l', m', by rw [deepcopyValue, e]; rfl, by simp [dataEq, hl, d], hm'⟩
    | dict d => simp [Uniform] at uv
    | flt q => simp [NoFloat] at fv
    | measure c q => simp [NoFloat] at fv
    | obj c d =>
      rw [deepcopyValue]
      split
      · rename_i w hw
        obtain ⟨e, he, heq, rfl⟩ := searchMemo_some hw
        obtain ⟨we, ue, fe, de⟩ := hm e he
        have h1 := objEq_true_dataEq heq
        have h2 := symm_aux Γ (argAttrs Γ) _ _ _ (Nat.lt_succ_self _) we hv ue uv h1
        exact ⟨e.2, m, rfl, trans_aux Γ _ _ _ _ (Nat.lt_succ_self _) fv h2 de, hm⟩
      · have hv' := hv; have uv' := uv; have fv' := fv
        simp only [V.obj.sizeOf_spec, WF, Uniform, NoFloat] at hn hv uv fv
        have : ∀ (args : List String) (rest : List (Key × V)) (m : Memo), keysOf rest = args.map Key.str →
            (∀ kv ∈ rest, kv ∈ d) → (∀ e ∈ m, EntryOk Γ e.1 e.2) →
            ∃ d' m', deepcopyArgs Γ H m args d = .ok (d', m') ∧ EntryEq Γ rest d' ∧
            (∀ e ∈ m', EntryOk Γ e.1 e.2) := by
          intro args
          induction args with
          | nil =>
            intro rest m hkr _ hm
            have : rest = [] := by simpa [keysOf] using hkr
            subst this
            exact ⟨[], m, by rw [deepcopyArgs_nil], .nil, hm⟩
          | cons a args ih =>
            intro rest m hkr hsub hm
            cases rest with
            | nil => simp [keysOf] at hkr
            | cons x rest =>
              obtain ⟨k, x⟩ := x
              simp only [keysOf, List.map_cons, List.cons.injEq] at hkr
              obtain ⟨rfl, hkr⟩ := hkr
              have hx : (Key.str a, x) ∈ d := hsub _ (by simp)
              obtain ⟨w, m1, e1, d1, hm1⟩ := IH x m (by have := sizeOf_mem_dict hx; omega)
                ((WFD_iff d).1 hv.2 _ hx) (UniformD_mem uv.2 _ hx) (NoFloatD_mem fv _ hx) hm
              obtain ⟨d', m2, e2, d2, hm2⟩ := ih rest m1 hkr (fun kv h => hsub kv (by simp [h])) hm1
              refine ⟨(Key.str a, w) :: d', m2, ?_, .cons ⟨rfl, d1⟩ d2, hm2⟩
              rw [deepcopyArgs_cons _ _ _ _ _ _ _ (lookup_of_mem hv.1 hx), e1]
              simp only [bind, Except.bind]; rw [e2]
        obtain ⟨d', m', e, he, hm'⟩ := this _ d m uv.1 (fun _ h => h) hm
        have hdq : dataEq Γ (.obj c d) (.obj c d') = true := by
          simp only [dataEq, beq_self_eq_true, Bool.true_and, dictAll_iff]
          intro k x hx hk
          obtain ⟨y, hy, hxy⟩ := he.lookup (lookup_of_mem hv.1 hx)
          exact ⟨y, by rw [lookup_filter _ _ _ hk]; exact hy, hxy⟩
        refine ⟨.obj c d', memoSet Γ H c d (.obj c d') m', by rw [e]; rfl, hdq, ?_⟩
        refine memoSet_inv (P := EntryOk Γ) hm' ⟨hv', uv', fv', hdq⟩ ?_
        intro k hk heq
        obtain ⟨e, he, rfl⟩ := List.mem_map.1 hk
        obtain ⟨we, ue, fe, de⟩ := hm' e he
        exact ⟨we, ue, fe, trans_aux Γ _ _ _ _ (Nat.lt_succ_self _) fe (objEq_true_dataEq heq) hdq⟩
    | other k => simp [WF] at hv
    | _ => exact ⟨_, m, by rw [deepcopyValue], self _ hv, hm⟩

theorem shallowArgs_cons (Γ : Env) (a : String) (rest : List String) (d : List (Key × V))
    (v : V) (h : d.lookup (.str a) = some v) :
    shallowArgs Γ (a :: rest) d = (do
      let v' ← shallowValue Γ v
      let r ← shallowArgs Γ rest d
      .ok ((.str a, v') :: r)) := by
  rw [shallowArgs]; split
  · rename_i h'; rw [h] at h'; cases h'
  · rename_i h'; rw [h] at h'; cases h'; rfl

theorem shallow_aux (Γ : Env) (root : V) (built : Built Γ root) (wf : ∀ x, Occurs root x → WF x) :
    (n : Nat) → (v : V) → sizeOf v < n → Occurs root v → shallowValue Γ v = .ok v
  | 0, _, h, _ => by omega
  | n+1, v, hn, ho => by
    cases v with
    | obj c d =>
      simp only [V.obj.sizeOf_spec] at hn
      have hwf := wf _ ho
      simp only [WF] at hwf
      have : ∀ (args : List String) (rest : List (Key × V)), keysOf rest = args.map Key.str →
          (∀ kv ∈ rest, kv ∈ d) → shallowArgs Γ args d = .ok rest := by
        intro args
        induction args with
        | nil =>
          intro rest hkr _
          have : rest = [] := by simpa [keysOf] using hkr
          subst this
          rw [shallowArgs]
        | cons a args ih =>
          intro rest hkr hsub
          cases rest with
          | nil => simp [keysOf] at hkr
          | cons x rest =>
            obtain ⟨k, x⟩ := x
            simp only [keysOf, List.map_cons, List.cons.injEq] at hkr
            obtain ⟨rfl, hkr⟩ := hkr
            have hx : (Key.str a, x) ∈ d := hsub _ (by simp)
            rw [shallowArgs_cons _ _ _ _ _ (lookup_of_mem hwf.1 hx),
              shallow_aux Γ root built wf n x (by have := sizeOf_mem_dict hx; omega) (ho.trans (.obj hx .self)),
              ih rest hkr (fun kv h => hsub kv (by simp [h]))]
            rfl
      rw [shallowValue, this _ d (built c d ho) (fun _ h => h)]; rfl
    | _ => rw [shallowValue]; intros; simp_all

end DC
