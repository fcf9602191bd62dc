import Verif.Values.Diff
import Verif.Values.EqualityMain
import Verif.Values.DiffSpec
/- Helper lemmas for Verif/Values/DiffProps.lean. -/
namespace DC

theorem Diff.add_isEmpty (a b : Diff) : (Diff.add a b).isEmpty = (a.isEmpty && b.isEmpty) := by
  cases a; cases b
  simp only [Diff.add, Diff.isEmpty]
  rw [Bool.eq_iff_iff]
  simp
  tauto

theorem Diff.add_empty (b : Diff) : Diff.add {} b = b := by
  cases b; simp [Diff.add]

theorem isEmpty_iff (d : Diff) : d.isEmpty = true ↔ d = {} := by
  cases d; simp [Diff.isEmpty, and_assoc]

theorem dictLoop_nil (Γ : Env) (other : List (Key × V)) (f : Bool) (p : List Key) :
    dictLoop Γ [] other f p = .ok {} := by rw [dictLoop]

theorem dictLoop_cons_none (Γ : Env) (k : Key) (v : V) (rest other : List (Key × V)) (f : Bool) (p : List Key)
    (h : other.lookup k = none) : dictLoop Γ ((k, v) :: rest) other f p =
      (do let r ← dictLoop Γ rest other f p; pure (Diff.add { missing := [(p ++ [k], f)] } r)) := by
  rw [dictLoop]; split
  · rfl
  · rename_i h'; rw [h] at h'; cases h'

theorem dictLoop_cons_some (Γ : Env) (k : Key) (v w : V) (rest other : List (Key × V)) (f : Bool) (p : List Key)
    (h : other.lookup k = some w) : dictLoop Γ ((k, v) :: rest) other f p =
      (do let x ← diff Γ v w (p ++ [k]); let r ← dictLoop Γ rest other f p; pure (Diff.add x r)) := by
  rw [dictLoop]; split
  · rename_i h'; rw [h] at h'; cases h'
  · rename_i h'; rw [h] at h'; cases h'; rfl

theorem seqLoop_nil_left (Γ : Env) (i : Nat) (b : List V) (p : List Key) : seqLoop Γ i [] b p = .ok {} := by
  rw [seqLoop]; intros; simp_all

theorem seqLoop_nil_right (Γ : Env) (i : Nat) (a : List V) (p : List Key) : seqLoop Γ i a [] p = .ok {} := by
  rw [seqLoop]; intros; simp_all

theorem seqLoop_cons (Γ : Env) (i : Nat) (x y : V) (xs ys : List V) (p : List Key) :
    seqLoop Γ i (x :: xs) (y :: ys) p =
      (do let d ← diff Γ x y (p ++ [.int i]); let r ← seqLoop Γ (i + 1) xs ys p; pure (Diff.add d r)) := by
  rw [seqLoop]

theorem bind_ok {α β : Type} {x : Except PyErr α} {f : α → Except PyErr β} {b : β} :
    (x >>= f) = .ok b ↔ ∃ a, x = .ok a ∧ f a = .ok b := by
  cases x with
  | error e => simp [bind, Except.bind]
  | ok a => simp [bind, Except.bind]

/-- An empty browsing of a dictionary: nothing is missing and all the sub diffs are empty. -/
theorem dictLoop_empty {Γ : Env} {other : List (Key × V)} {f : Bool} {p : List Key} :
    ∀ {d : List (Key × V)} {D : Diff}, dictLoop Γ d other f p = .ok D → D.isEmpty = true →
      ∀ k v, (k, v) ∈ d → ∃ w, other.lookup k = some w ∧ ∃ D', diff Γ v w (p ++ [k]) = .ok D' ∧ D'.isEmpty = true := by
  intro d
  induction d with
  | nil => simp
  | cons x rest ih =>
    obtain ⟨k', v'⟩ := x
    intro D h he k v hm
    cases hl : other.lookup k' with
    | none =>
      rw [dictLoop_cons_none _ _ _ _ _ _ _ hl, bind_ok] at h
      obtain ⟨r, _, hr⟩ := h
      simp only [pure, Except.pure, Except.ok.injEq] at hr
      subst hr
      rw [Diff.add_isEmpty] at he
      simp [Diff.isEmpty] at he
    | some w =>
      rw [dictLoop_cons_some _ _ _ _ _ _ _ _ hl, bind_ok] at h
      obtain ⟨x, hx, h⟩ := h
      rw [bind_ok] at h
      obtain ⟨r, hr, h⟩ := h
      simp only [pure, Except.pure, Except.ok.injEq] at h
      subst h
      rw [Diff.add_isEmpty, Bool.and_eq_true] at he
      rcases List.mem_cons.1 hm with heq | hm
      · cases heq; exact ⟨w, hl, x, hx, he.1⟩
      · exact ih hr he.2 k v hm

theorem seqLoop_empty {Γ : Env} {p : List Key} : ∀ {a b : List V} {i : Nat} {D : Diff}, seqLoop Γ i a b p = .ok D →
    D.isEmpty = true → ∀ (j : Nat) x y, a[j]? = some x → b[j]? = some y →
      ∃ D', diff Γ x y (p ++ [.int ((i + j : Nat) : Int)]) = .ok D' ∧ D'.isEmpty = true := by
  intro a
  induction a with
  | nil => simp
  | cons x xs ih =>
    intro b i D h he j u w hu hw
    cases b with
    | nil => simp at hw
    | cons y ys =>
      rw [seqLoop_cons, bind_ok] at h
      obtain ⟨d, hd, h⟩ := h
      rw [bind_ok] at h
      obtain ⟨r, hr, h⟩ := h
      simp only [pure, Except.pure, Except.ok.injEq] at h
      subst h
      rw [Diff.add_isEmpty, Bool.and_eq_true] at he
      cases j with
      | zero => simp at hu hw; subst hu hw; exact ⟨d, hd, he.1⟩
      | succ j =>
        simp at hu hw
        have := ih hr he.2 j u w hu hw
        rwa [show i + 1 + j = i + (j + 1) by omega] at this

theorem diff_refl_aux (Γ : Env) : (n : Nat) → (v : V) → (p : List Key) → sizeOf v < n → WF v →
    diff Γ v v p = .ok {}
  | 0, _, _, h, _ => by omega
  | n+1, v, p, hn, hv => by
    have seqCase : ∀ (l : List V) (i : Nat), sizeOf l < n → WFL l → seqLoop Γ i l l p = .ok {} := by
      intro l
      induction l with
      | nil => intros; exact seqLoop_nil_left ..
      | cons x xs ih =>
        intro i hs hw
        simp only [WFL, List.cons.sizeOf_spec] at hw hs
        rw [seqLoop_cons, diff_refl_aux Γ n x _ (by omega) hw.1, ih (i+1) (by omega) hw.2]
        rfl
    cases v with
    | none => simp [diff, isInst, leafSame]
    | bool b => simp [diff, isInst, leafSame]
    | int i => simp [diff, isInst, leafSame]
    | flt q => simp [diff, isInst, leafSame]
    | measure c q => simp [diff, isInst, leafSame]
    | str s => simp [diff, isInst, leafSame]
    | list l =>
      simp only [WF, V.list.sizeOf_spec] at hv hn
      rw [diff, seqDiff]; simp [seqCase l 0 (by omega) hv]
    | tuple l =>
      simp only [WF, V.tuple.sizeOf_spec] at hv hn
      rw [diff, seqDiff]; simp [seqCase l 0 (by omega) hv]
    | dict d =>
      simp only [WF, V.dict.sizeOf_spec] at hv hn
      rw [diff, dictDiff]
      simp only [gt_iff_lt, lt_self_iff_false, if_false]
      have : ∀ d' : List (Key × V), (∀ kv ∈ d', kv ∈ d) → dictLoop Γ d' d false p = .ok {} := by
        intro d'
        induction d' with
        | nil => intros; exact dictLoop_nil ..
        | cons x xs ih =>
          obtain ⟨k, v⟩ := x
          intro hsub
          have hm : (k, v) ∈ d := hsub _ (by simp)
          rw [dictLoop_cons_some _ _ _ _ _ _ _ _ (lookup_of_mem hv.1 hm),
            diff_refl_aux Γ n v _ (by have := sizeOf_mem_dict hm; omega) ((WFD_iff d).1 hv.2 _ hm),
            ih (fun kv h => hsub kv (by simp [h]))]
          rfl
      exact this d (fun _ h => h)
    | obj c d =>
      have := same_imp_dataEq (Same.refl (Γ := Γ) Close.refl (sizeOf (V.obj c d) + 1) _ (by omega) hv) hv
      simp [diff, isInst, this]
    | cls n => simp [diff, isInst, leafSame]
    | file k n t => simp [diff, isInst, leafSame]
    | other n => simp [WF] at hv

theorem NamedL_mem {Γ : Env} {l : List V} (h : NamedL Γ l) : ∀ v ∈ l, Named Γ v := by
  induction l with
  | nil => simp
  | cons x xs ih => simp only [NamedL] at h; simp [h.1]; exact ih h.2

theorem NamedD_mem {Γ : Env} {d : List (Key × V)} (h : NamedD Γ d) : ∀ kv ∈ d, Named Γ kv.2 := by
  induction d with
  | nil => simp
  | cons x xs ih =>
    obtain ⟨k, v⟩ := x; simp only [NamedD] at h
    intro kv hkv
    rcases List.mem_cons.1 hkv with rfl | hkv
    · exact h.1
    · exact ih h.2 kv hkv

theorem keys_subset_length {a b : List (Key × V)} (ha : (keysOf a).Nodup)
    (h : ∀ k ∈ keysOf a, k ∈ keysOf b) : a.length ≤ b.length := by
  have : (keysOf a).length ≤ (keysOf b).length := (List.subperm_of_subset ha h).length_le
  simpa [keysOf] using this

theorem nodup_filter {d : List (Key × V)} (p : Key × V → Bool) (h : (keysOf d).Nodup) :
    (keysOf (d.filter p)).Nodup := h.sublist (List.filter_sublist.map _)

/-- The diff of two objects that are not data-equal is never empty. -/
theorem obj_diff_nonempty {Γ : Env} {c c' : String} {a b : List (Key × V)} {p : List Key} {D : Diff}
    (ha : (keysOf a).Nodup) (hb : (keysOf b).Nodup)
    (hn : Key.str "name" ∈ keysOf b) (hs : "name" ∉ (Γ.info c').nonSerializable)
    (h : dictDiff Γ (diffAttrs1 Γ c a) (serializableDict Γ c' b) p = .ok D) : D.isEmpty = false := by
  by_contra hne
  have he : D.isEmpty = true := by simpa using hne
  have hnb : Key.str "name" ∈ keysOf (serializableDict Γ c' b) := by
    obtain ⟨kv, hm, hk⟩ := List.mem_map.1 hn
    refine List.mem_map.2 ⟨kv, List.mem_filter.2 ⟨hm, ?_⟩, hk⟩
    simp only [hk, serKeep]
    simp [hs]
  have hna : Key.str "name" ∉ keysOf (diffAttrs1 Γ c a) := by
    intro hm
    obtain ⟨kv, hm, hk⟩ := List.mem_map.1 hm
    have := (List.mem_filter.1 hm).2
    simp [hk] at this
  have nda := nodup_filter (fun kv => serKeep Γ c kv.1 && !(kv.1 == Key.str "name")) ha
  have ndb := nodup_filter (fun kv => serKeep Γ c' kv.1) hb
  rw [dictDiff] at h
  split at h
  · rename_i hlen
    have hall := dictLoop_empty h he
    obtain ⟨kv, hm, hk⟩ := List.mem_map.1 hnb
    obtain ⟨w, hw, _⟩ := hall kv.1 kv.2 hm
    rw [hk] at hw
    exact hna ((lookup_isSome_iff _ _).1 (by simp [hw]))
  · rename_i hlen
    have hall := dictLoop_empty h he
    have hsub : ∀ k ∈ Key.str "name" :: keysOf (diffAttrs1 Γ c a), k ∈ keysOf (serializableDict Γ c' b) := by
      intro k hk
      rcases List.mem_cons.1 hk with rfl | hk
      · exact hnb
      · obtain ⟨kv, hm, hkk⟩ := List.mem_map.1 hk
        obtain ⟨w, hw, _⟩ := hall kv.1 kv.2 hm
        rw [← hkk]
        exact (lookup_isSome_iff _ _).1 (by simp [hw])
    have hl : (Key.str "name" :: keysOf (diffAttrs1 Γ c a)).length ≤ (keysOf (serializableDict Γ c' b)).length :=
      (List.subperm_of_subset (List.nodup_cons.2 ⟨hna, nda⟩) hsub).length_le
    simp [keysOf] at hl
    omega

/-- Both values are sequences, or dictionaries, or objects. -/
def isPair : V → V → Bool
  | .list _, .list _ => true
  | .list _, .tuple _ => true
  | .tuple _, .list _ => true
  | .tuple _, .tuple _ => true
  | .dict _, .dict _ => true
  | .obj _ _, .obj _ _ => true
  | _, _ => false

/-- `diff` on the other pairs. -/
def leafDiff (Γ : Env) (v w : V) (path : List Key) : Except PyErr Diff :=
  if isInst Γ v w then
    if leafSame v w then .ok {}
    else match v with
      | .cls _ => .error .notImplemented
      | .file .. => .error .notImplemented
      | .other _ => .error .notImplemented
      | _ => .ok { different := [(path, v, w)] }
  else .ok { types := [(path, v, w)] }

theorem diff_leaf (Γ : Env) (v w : V) (p : List Key) (h : isPair v w = false) : diff Γ v w p = leafDiff Γ v w p := by
  unfold diff leafDiff
  split <;> first | (exfalso; simp [isPair] at h; done) | rfl

theorem leafDiff_empty {Γ : Env} {x y : V} {p : List Key} {D : Diff} (he : D.isEmpty = true)
    (h : leafDiff Γ x y p = .ok D) : isInst Γ x y = true ∧ leafSame x y = true := by
  unfold leafDiff at h
  split at h
  · rename_i hi
    split at h
    · rename_i hl; exact ⟨hi, hl⟩
    · exfalso
      split at h <;> simp at h <;> subst h <;> simp [Diff.isEmpty] at he
  · simp at h; subst h; simp [Diff.isEmpty] at he

theorem leaf_dataEq {Γ : Env} {x y : V} (hp : isPair x y = false) (hx : WF x) (h : isInst Γ x y = true)
    (h' : leafSame x y = true) : dataEq Γ x y = true := by
  have cl : ∀ a b : Rat, isclose a b = true ∨ a = b → isclose a b = true := by
    rintro a b (h | rfl)
    · exact h
    · rw [isclose_iff]; exact Close.refl _
  cases x <;> cases y <;> simp only [isInst, isPair, Bool.false_eq_true, reduceCtorEq, leafSame, Bool.or_eq_true,
    beq_iff_eq, dataEq, Bool.and_eq_true] at * <;> first | exact h' | exact cl _ _ h' | exact ⟨h, cl _ _ h'⟩ | simp [WF] at hx

theorem diff_empty_aux (Γ : Env) : (n : Nat) → (v w : V) → (p : List Key) → (D : Diff) → sizeOf v + sizeOf w < n →
    WF v → WF w → Named Γ v → Named Γ w → diff Γ v w p = .ok D → D.isEmpty = true → dataEq Γ v w = true
  | 0, _, _, _, _, h, _, _, _, _, _, _ => by omega
  | n+1, v, w, p, D, hn, hv, hw, nv, nw, h, he => by
    have seqCase : ∀ (a b : List V) (x y : V), sizeOf a + sizeOf b < n → WFL a → WFL b → NamedL Γ a → NamedL Γ b →
        seqDiff Γ x y a b p = .ok D → a.length = b.length ∧ seqAll Γ a b = true := by
      intro a b x y hs ha hb na nb h
      rw [seqDiff] at h
      split at h
      · simp at h; subst h; simp [Diff.isEmpty] at he
      · rename_i hl
        refine ⟨by simpa using hl, ?_⟩
        rw [seqAll_iff]
        intro i u w hu hw
        obtain ⟨D', hD, hE⟩ := seqLoop_empty h he i u w hu hw
        have m1 := List.mem_of_getElem? hu
        have m2 := List.mem_of_getElem? hw
        exact diff_empty_aux Γ n u w _ D' (by have := sizeOf_getElem? hu; have := sizeOf_getElem? hw; omega)
          ((WFL_iff a).1 ha u m1) ((WFL_iff b).1 hb w m2) (NamedL_mem na u m1) (NamedL_mem nb w m2) hD hE
    cases hp : isPair v w with
    | false =>
      rw [diff_leaf Γ v w p hp] at h
      have := leafDiff_empty he h
      exact leaf_dataEq hp hv this.1 this.2
    | true =>
      have hcases : (∃ a b, (v = .list a ∨ v = .tuple a) ∧ (w = .list b ∨ w = .tuple b)) ∨
          (∃ a b, v = .dict a ∧ w = .dict b) ∨ (∃ c a c' b, v = .obj c a ∧ w = .obj c' b) := by
        cases v <;> cases w <;> simp [isPair] at hp ⊢
      rcases hcases with ⟨a, b, hva, hwb⟩ | ⟨d, d', rfl, rfl⟩ | ⟨c, d, c', d', rfl, rfl⟩
      · have key : ∃ x y, seqDiff Γ x y a b p = .ok D := by
          rcases hva with rfl | rfl <;> rcases hwb with rfl | rfl <;> rw [diff] at h <;> exact ⟨_, _, h⟩
        obtain ⟨x, y, hk⟩ := key
        have e : sizeOf a + sizeOf b < n ∧ WFL a ∧ WFL b ∧ NamedL Γ a ∧ NamedL Γ b := by
          rcases hva with rfl | rfl <;> rcases hwb with rfl | rfl <;>
          simp only [WF, Named, V.list.sizeOf_spec, V.tuple.sizeOf_spec] at hv nv hn hw nw <;>
          exact ⟨by omega, hv, hw, nv, nw⟩
        have := seqCase a b x y e.1 e.2.1 e.2.2.1 e.2.2.2.1 e.2.2.2.2 hk
        rcases hva with rfl | rfl <;> rcases hwb with rfl | rfl <;> simp [dataEq, this]
      · simp only [WF, Named, V.dict.sizeOf_spec] at hv nv hn hw nw
        rw [diff, dictDiff] at h
        simp only [dataEq, dictAll_iff]
        split at h
        · rename_i hl
          exfalso
          have hall := dictLoop_empty h he
          have := keys_subset_length (b := d) hw.1 (fun k hk => by
            obtain ⟨kv, hm, rfl⟩ := List.mem_map.1 hk
            obtain ⟨w, hw, _⟩ := hall kv.1 kv.2 hm
            exact (lookup_isSome_iff _ _).1 (by simp [hw]))
          omega
        · intro k x hx _
          obtain ⟨y, hy, D', hD, hE⟩ := dictLoop_empty h he k x hx
          have my := lookup_some_mem hy
          exact ⟨y, hy, diff_empty_aux Γ n x y _ D'
            (by have := sizeOf_mem_dict hx; have := sizeOf_mem_dict my; omega)
            ((WFD_iff d).1 hv.2 _ hx) ((WFD_iff d').1 hw.2 _ my) (NamedD_mem nv _ hx) (NamedD_mem nw _ my) hD hE⟩
      · simp only [WF, Named] at hv nv hw nw
        rw [diff] at h
        split at h
        · split at h
          · assumption
          · exfalso
            have := obj_diff_nonempty hv.1 hw.1 nw.1 nw.2.1 h
            rw [he] at this; cases this
        · simp at h; subst h; simp [Diff.isEmpty] at he

/-- Entries of the browsing of a dictionary. -/
theorem dictLoop_entries {Γ : Env} {other : List (Key × V)} {f : Bool} {p : List Key} :
    ∀ {d : List (Key × V)} {D : Diff}, dictLoop Γ d other f p = .ok D →
      (∀ e ∈ D.different, ∃ k v w D', (k, v) ∈ d ∧ other.lookup k = some w ∧ diff Γ v w (p ++ [k]) = .ok D' ∧
        e ∈ D'.different) ∧
      (∀ e ∈ D.types, ∃ k v w D', (k, v) ∈ d ∧ other.lookup k = some w ∧ diff Γ v w (p ++ [k]) = .ok D' ∧
        e ∈ D'.types) ∧
      (∀ e, e ∈ D.missing ↔ (∃ k v, (k, v) ∈ d ∧ other.lookup k = none ∧ e = (p ++ [k], f)) ∨
        ∃ k v w D', (k, v) ∈ d ∧ other.lookup k = some w ∧ diff Γ v w (p ++ [k]) = .ok D' ∧ e ∈ D'.missing) := by
  intro d
  induction d with
  | nil =>
    intro D h
    rw [dictLoop_nil] at h
    simp only [Except.ok.injEq] at h; subst h; simp
  | cons x rest ih =>
    obtain ⟨k', v'⟩ := x
    intro D h
    cases hl : other.lookup k' with
    | none =>
      rw [dictLoop_cons_none _ _ _ _ _ _ _ hl, bind_ok] at h
      obtain ⟨r, hr, h⟩ := h
      simp only [pure, Except.pure, Except.ok.injEq] at h
      subst h
      obtain ⟨h1, h2, h3⟩ := ih hr
      refine ⟨fun e he => ?_, fun e he => ?_, fun e => ?_⟩
      · simp only [Diff.add, List.nil_append] at he
        obtain ⟨k, v, w, D', hm, hx⟩ := h1 e he
        exact ⟨k, v, w, D', by simp [hm], hx⟩
      · simp only [Diff.add, List.nil_append] at he
        obtain ⟨k, v, w, D', hm, hx⟩ := h2 e he
        exact ⟨k, v, w, D', by simp [hm], hx⟩
      · simp only [Diff.add, List.singleton_append, List.mem_cons, h3, Prod.mk.injEq]
        constructor
        · rintro (rfl | ⟨k, v, hm, hx⟩ | ⟨k, v, w, D', hm, hx⟩)
          · exact .inl ⟨k', v', by simp, hl, rfl⟩
          · exact .inl ⟨k, v, by simp [hm], hx⟩
          · exact .inr ⟨k, v, w, D', by simp [hm], hx⟩
        · rintro (⟨k, v, hm | hm, hn, rfl⟩ | ⟨k, v, w, D', hm | hm, hx⟩)
          · simp [hm.1]
          · exact .inr (.inl ⟨k, v, hm, hn, rfl⟩)
          · rw [hm.1, hl] at hx; simp at hx
          · exact .inr (.inr ⟨k, v, w, D', hm, hx⟩)
    | some w' =>
      rw [dictLoop_cons_some _ _ _ _ _ _ _ _ hl, bind_ok] at h
      obtain ⟨x, hx, h⟩ := h
      rw [bind_ok] at h
      obtain ⟨r, hr, h⟩ := h
      simp only [pure, Except.pure, Except.ok.injEq] at h
      subst h
      obtain ⟨h1, h2, h3⟩ := ih hr
      refine ⟨fun e he => ?_, fun e he => ?_, fun e => ?_⟩
      · rcases List.mem_append.1 he with he | he
        · exact ⟨k', v', w', x, by simp, hl, hx, he⟩
        · obtain ⟨k, v, w, D', hm, hx⟩ := h1 e he
          exact ⟨k, v, w, D', by simp [hm], hx⟩
      · rcases List.mem_append.1 he with he | he
        · exact ⟨k', v', w', x, by simp, hl, hx, he⟩
        · obtain ⟨k, v, w, D', hm, hx⟩ := h2 e he
          exact ⟨k, v, w, D', by simp [hm], hx⟩
      · simp only [Diff.add, List.mem_append, h3, List.mem_cons, Prod.mk.injEq]
        constructor
        · rintro (he | ⟨k, v, hm, hx⟩ | ⟨k, v, w, D', hm, hx⟩)
          · exact .inr ⟨k', v', w', x, by simp, hl, hx, he⟩
          · exact .inl ⟨k, v, by simp [hm], hx⟩
          · exact .inr ⟨k, v, w, D', by simp [hm], hx⟩
        · rintro (⟨k, v, hm | hm, hn, rfl⟩ | ⟨k, v, w, D', hm | hm, hx'⟩)
          · rw [hm.1, hl] at hn; cases hn
          · exact .inr (.inl ⟨k, v, hm, hn, rfl⟩)
          · rw [hm.1, hm.2, hl] at hx'
            simp only [Option.some.injEq] at hx'
            obtain ⟨rfl, h5, h6⟩ := hx'
            rw [hx] at h5; simp only [Except.ok.injEq] at h5
            subst h5; exact .inl h6
          · exact .inr (.inr ⟨k, v, w, D', hm, hx'⟩)

/-- Entries of the browsing of two sequences. -/
theorem seqLoop_entries {Γ : Env} {p : List Key} : ∀ {a b : List V} {i : Nat} {D : Diff}, seqLoop Γ i a b p = .ok D →
    (∀ e ∈ D.different, ∃ (j : Nat) (x y : V) (D' : Diff), a[j]? = some x ∧ b[j]? = some y ∧
      diff Γ x y (p ++ [.int ((i + j : Nat) : Int)]) = .ok D' ∧ e ∈ D'.different) ∧
    (∀ e ∈ D.types, ∃ (j : Nat) (x y : V) (D' : Diff), a[j]? = some x ∧ b[j]? = some y ∧
      diff Γ x y (p ++ [.int ((i + j : Nat) : Int)]) = .ok D' ∧ e ∈ D'.types) ∧
    (∀ e ∈ D.missing, ∃ (j : Nat) (x y : V) (D' : Diff), a[j]? = some x ∧ b[j]? = some y ∧
      diff Γ x y (p ++ [.int ((i + j : Nat) : Int)]) = .ok D' ∧ e ∈ D'.missing) := by
  intro a
  induction a with
  | nil =>
    intro b i D h
    rw [seqLoop_nil_left] at h
    simp only [Except.ok.injEq] at h; subst h; simp
  | cons x xs ih =>
    intro b i D h
    cases b with
    | nil =>
      rw [seqLoop_nil_right] at h
      simp only [Except.ok.injEq] at h; subst h; simp
    | cons y ys =>
      rw [seqLoop_cons, bind_ok] at h
      obtain ⟨d, hd, h⟩ := h
      rw [bind_ok] at h
      obtain ⟨r, hr, h⟩ := h
      simp only [pure, Except.pure, Except.ok.injEq] at h
      subst h
      obtain ⟨h1, h2, h3⟩ := ih hr
      have go : ∀ {e : Type} (q : Diff → e → Prop), (z : e) → (q d z ∨ ∃ (j : Nat) (u w : V) (D' : Diff), xs[j]? = some u ∧
          ys[j]? = some w ∧ diff Γ u w (p ++ [.int ((i + 1 + j : Nat) : Int)]) = .ok D' ∧ q D' z) →
          ∃ (j : Nat) (u w : V) (D' : Diff), (x :: xs)[j]? = some u ∧ (y :: ys)[j]? = some w ∧
            diff Γ u w (p ++ [.int ((i + j : Nat) : Int)]) = .ok D' ∧ q D' z := by
        rintro e q z (hz | ⟨j, u, w, D', hu, hw, hD, hz⟩)
        · exact ⟨0, x, y, d, by simp, by simp, by simpa using hd, hz⟩
        · exact ⟨j + 1, u, w, D', by simpa, by simpa, by rwa [show i + (j + 1) = i + 1 + j by omega], hz⟩
      refine ⟨fun e he => ?_, fun e he => ?_, fun e he => ?_⟩
      · exact go (fun D e => e ∈ D.different) e ((List.mem_append.1 he).imp id (h1 e))
      · exact go (fun D e => e ∈ D.types) e ((List.mem_append.1 he).imp id (h2 e))
      · exact go (fun D e => e ∈ D.missing) e ((List.mem_append.1 he).imp id (h3 e))

/-- How the diff of two values was obtained. -/
theorem diff_cases {Γ : Env} {v w : V} {p : List Key} {D : Diff} (h : diff Γ v w p = .ok D) :
    (isPair v w = false ∧ leafDiff Γ v w p = .ok D) ∨
    (∃ a b, seqItems v = some a ∧ seqItems w = some b ∧ a.length ≠ b.length ∧ D = { different := [(p, v, w)] }) ∨
    (∃ a b, seqItems v = some a ∧ seqItems w = some b ∧ a.length = b.length ∧ seqLoop Γ 0 a b p = .ok D) ∨
    (∃ a b, v = .dict a ∧ w = .dict b ∧ dictDiff Γ a b p = .ok D) ∨
    (∃ c a c' b, v = .obj c a ∧ w = .obj c' b ∧ isInst Γ v w = true ∧
      dictDiff Γ (diffAttrs1 Γ c a) (serializableDict Γ c' b) p = .ok D) ∨
    (∃ c a c' b, v = .obj c a ∧ w = .obj c' b ∧ D = {}) ∨
    (∃ c a c' b, v = .obj c a ∧ w = .obj c' b ∧ isInst Γ v w = false ∧ D = { types := [(p, v, w)] }) := by
  cases hp : isPair v w with
  | false => rw [diff_leaf Γ v w p hp] at h; exact .inl ⟨rfl, h⟩
  | true =>
    right
    have hcases : (∃ a b, seqItems v = some a ∧ seqItems w = some b ∧ diff Γ v w p = seqDiff Γ v w a b p) ∨
        (∃ a b, v = .dict a ∧ w = .dict b) ∨ (∃ c a c' b, v = .obj c a ∧ w = .obj c' b) := by
      cases v <;> cases w <;> simp [isPair, seqItems] at hp ⊢ <;> rw [diff]
    rcases hcases with ⟨a, b, hva, hwb, hd⟩ | ⟨d, d', rfl, rfl⟩ | ⟨c, d, c', d', rfl, rfl⟩
    · rw [hd, seqDiff] at h
      split at h
      · rename_i hl
        simp only [Except.ok.injEq] at h
        exact .inl ⟨a, b, hva, hwb, hl, h.symm⟩
      · rename_i hl
        exact .inr (.inl ⟨a, b, hva, hwb, by simpa using hl, h⟩)
    · rw [diff] at h
      exact .inr (.inr (.inl ⟨d, d', rfl, rfl, h⟩))
    · rw [diff] at h
      split at h
      · rename_i hi
        split at h
        · simp only [Except.ok.injEq] at h
          exact .inr (.inr (.inr (.inr (.inl ⟨c, d, c', d', rfl, rfl, h.symm⟩))))
        · exact .inr (.inr (.inr (.inl ⟨c, d, c', d', rfl, rfl, hi, h⟩)))
      · rename_i hi
        simp only [Except.ok.injEq] at h
        exact .inr (.inr (.inr (.inr (.inr ⟨c, d, c', d', rfl, rfl, by simpa using hi, h.symm⟩))))

theorem seqItems_sizeOf {v : V} {a : List V} (h : seqItems v = some a) : sizeOf a < sizeOf v := by
  cases v <;> simp [seqItems] at h <;> subst h <;> simp

theorem seqItems_child {v : V} {a : List V} (h : seqItems v = some a) (j : Nat) :
    child v (.int (j : Int)) = a[j]? := by
  cases v <;> simp [seqItems] at h <;> subst h <;> simp [child]

theorem leafDiff_entries {Γ : Env} {v w : V} {p : List Key} {D : Diff} (h : leafDiff Γ v w p = .ok D) :
    D.missing = [] ∧ (∀ e ∈ D.types, e = (p, v, w)) ∧ (∀ e ∈ D.different, e = (p, v, w) ∧ leafSame v w = false ∧
      isInst Γ v w = true ∧ ∀ n, v ≠ .cls n) := by
  unfold leafDiff at h
  split at h
  · rename_i hi
    split at h
    · simp only [Except.ok.injEq] at h; subst h; simp
    · rename_i hl
      split at h <;> simp only [reduceCtorEq, Except.ok.injEq] at h
      rename_i hc _ _
      subst h; simp [hl, hi]; exact hc
  · simp only [Except.ok.injEq] at h; subst h; simp

/-- `x` and `y` are the values at path `q` in `v` and `w`, in one order or the other. -/
def FoundAt (v w : V) (q : List Key) (x y : V) : Prop :=
  (valueAt v q = some x ∧ valueAt w q = some y) ∨ (valueAt v q = some y ∧ valueAt w q = some x)

theorem valueAt_cons {v v' : V} {k : Key} {q : List Key} (h : child v k = some v') :
    valueAt v (k :: q) = valueAt v' q := by simp [valueAt, h]

theorem FoundAt.cons {v w v' w' : V} {k : Key} {q : List Key} {x y : V} (hv : child v k = some v')
    (hw : child w k = some w') (h : FoundAt v' w' q x y) : FoundAt v w (k :: q) x y := by
  simpa [FoundAt, valueAt, hv, hw] using h

theorem FoundAt.swap {v w : V} {q : List Key} {x y : V} (h : FoundAt v w q x y) : FoundAt w v q x y := by
  unfold FoundAt at *; tauto

theorem seqItems_WF {v : V} {a : List V} (h : seqItems v = some a) (hv : WF v) : ∀ x ∈ a, WF x := by
  cases v <;> simp [seqItems] at h <;> subst h <;> simp only [WF] at hv <;> exact (WFL_iff _).1 hv

theorem leafSame_false {Γ : Env} {v w : V} (hp : isPair v w = false) (hi : isInst Γ v w = true)
    (h : leafSame v w = false) (hc : ∀ n, v ≠ .cls n) : dataEq Γ v w = false := by
  cases v <;> cases w <;> simp only [isInst, isPair, Bool.false_eq_true, reduceCtorEq, leafSame, Bool.or_eq_false_iff,
    dataEq] at * <;> first | exact h | exact h.1 | simp [h.1] | exact absurd rfl (hc _)

/-- Where the entries of a diff come from. -/
theorem diff_entries_aux (Γ : Env) : (n : Nat) → (v w : V) → (p : List Key) → (D : Diff) → sizeOf v + sizeOf w < n →
    WF v → WF w → diff Γ v w p = .ok D →
    (∀ e ∈ D.different, ∃ q, e.1 = p ++ q ∧ FoundAt v w q e.2.1 e.2.2 ∧ dataEq Γ e.2.1 e.2.2 = false) ∧
    (∀ e ∈ D.types, ∃ q, e.1 = p ++ q ∧ FoundAt v w q e.2.1 e.2.2) ∧
    (∀ e ∈ D.missing, ∃ q, q ≠ [] ∧ e.1 = p ++ q)
  | 0, _, _, _, _, h, _, _, _ => by omega
  | n+1, v, w, p, D, hn, hv, hw, h => by
    have dictCase : ∀ (d1 d2 : List (Key × V)) (D : Diff), dictDiff Γ d1 d2 p = .ok D →
        sizeOf d1 + sizeOf d2 < n → (∀ k x, (k, x) ∈ d1 → child v k = some x ∧ WF x) →
        (∀ k x, (k, x) ∈ d2 → child w k = some x ∧ WF x) →
        (∀ e ∈ D.different, ∃ q, e.1 = p ++ q ∧ FoundAt v w q e.2.1 e.2.2 ∧ dataEq Γ e.2.1 e.2.2 = false) ∧
        (∀ e ∈ D.types, ∃ q, e.1 = p ++ q ∧ FoundAt v w q e.2.1 e.2.2) ∧
        (∀ e ∈ D.missing, ∃ q, q ≠ [] ∧ e.1 = p ++ q) := by
      intro d1 d2 D h hs h1 h2
      rw [dictDiff] at h
      split at h
      · obtain ⟨e1, e2, e3⟩ := dictLoop_entries h
        refine ⟨fun e he => ?_, fun e he => ?_, fun e he => ?_⟩
        · obtain ⟨k, x, y, D', hx, hy, hd, he⟩ := e1 e he
          have hy' := lookup_some_mem hy
          obtain ⟨q, hq, hf, hdq⟩ := (diff_entries_aux Γ n x y _ D'
            (by have := sizeOf_mem_dict hx; have := sizeOf_mem_dict hy'; omega) (h2 k x hx).2 (h1 k y hy').2 hd).1 e he
          exact ⟨k :: q, by simp [hq], (FoundAt.cons (h2 k x hx).1 (h1 k y hy').1 hf).swap, hdq⟩
        · obtain ⟨k, x, y, D', hx, hy, hd, he⟩ := e2 e he
          have hy' := lookup_some_mem hy
          obtain ⟨q, hq, hf⟩ := (diff_entries_aux Γ n x y _ D'
            (by have := sizeOf_mem_dict hx; have := sizeOf_mem_dict hy'; omega) (h2 k x hx).2 (h1 k y hy').2 hd).2.1 e he
          exact ⟨k :: q, by simp [hq], (FoundAt.cons (h2 k x hx).1 (h1 k y hy').1 hf).swap⟩
        · rcases (e3 e).1 he with ⟨k, x, hx, hy, rfl⟩ | ⟨k, x, y, D', hx, hy, hd, he⟩
          · exact ⟨[k], by simp, rfl⟩
          · have hy' := lookup_some_mem hy
            obtain ⟨q, hne, hq⟩ := (diff_entries_aux Γ n x y _ D'
              (by have := sizeOf_mem_dict hx; have := sizeOf_mem_dict hy'; omega) (h2 k x hx).2 (h1 k y hy').2 hd).2.2 e he
            exact ⟨k :: q, by simp, by simp [hq]⟩
      · obtain ⟨e1, e2, e3⟩ := dictLoop_entries h
        refine ⟨fun e he => ?_, fun e he => ?_, fun e he => ?_⟩
        · obtain ⟨k, x, y, D', hx, hy, hd, he⟩ := e1 e he
          have hy' := lookup_some_mem hy
          obtain ⟨q, hq, hf, hdq⟩ := (diff_entries_aux Γ n x y _ D'
            (by have := sizeOf_mem_dict hx; have := sizeOf_mem_dict hy'; omega) (h1 k x hx).2 (h2 k y hy').2 hd).1 e he
          exact ⟨k :: q, by simp [hq], FoundAt.cons (h1 k x hx).1 (h2 k y hy').1 hf, hdq⟩
        · obtain ⟨k, x, y, D', hx, hy, hd, he⟩ := e2 e he
          have hy' := lookup_some_mem hy
          obtain ⟨q, hq, hf⟩ := (diff_entries_aux Γ n x y _ D'
            (by have := sizeOf_mem_dict hx; have := sizeOf_mem_dict hy'; omega) (h1 k x hx).2 (h2 k y hy').2 hd).2.1 e he
          exact ⟨k :: q, by simp [hq], FoundAt.cons (h1 k x hx).1 (h2 k y hy').1 hf⟩
        · rcases (e3 e).1 he with ⟨k, x, hx, hy, rfl⟩ | ⟨k, x, y, D', hx, hy, hd, he⟩
          · exact ⟨[k], by simp, rfl⟩
          · have hy' := lookup_some_mem hy
            obtain ⟨q, hne, hq⟩ := (diff_entries_aux Γ n x y _ D'
              (by have := sizeOf_mem_dict hx; have := sizeOf_mem_dict hy'; omega) (h1 k x hx).2 (h2 k y hy').2 hd).2.2 e he
            exact ⟨k :: q, by simp, by simp [hq]⟩
    rcases diff_cases h with ⟨hp, hl⟩ | ⟨a, b, ha, hb, hl, rfl⟩ | ⟨a, b, ha, hb, hl, hs⟩ | ⟨a, b, rfl, rfl, hd⟩ |
        ⟨c, a, c', b, rfl, rfl, hi, hd⟩ | ⟨c, a, c', b, rfl, rfl, rfl⟩ | ⟨c, a, c', b, rfl, rfl, hi, rfl⟩
    · obtain ⟨hm, ht, hd⟩ := leafDiff_entries hl
      refine ⟨fun e he => ?_, fun e he => ?_, by simp [hm]⟩
      · obtain ⟨rfl, h1, h2, h3⟩ := hd e he
        refine ⟨[], by simp, by simp [FoundAt, valueAt], ?_⟩
        exact leafSame_false hp h2 h1 h3
      · rw [ht e he]; exact ⟨[], by simp, by simp [FoundAt, valueAt]⟩
    · refine ⟨fun e he => ?_, by simp, by simp⟩
      simp only [List.mem_singleton] at he; subst he
      refine ⟨[], by simp, by simp [FoundAt, valueAt], ?_⟩
      cases v <;> simp [seqItems] at ha <;> cases w <;> simp [seqItems] at hb <;> subst ha hb <;> simp [dataEq, hl]
    · obtain ⟨e1, e2, e3⟩ := seqLoop_entries hs
      have sz : ∀ {j : Nat} {x y : V}, a[j]? = some x → b[j]? = some y → sizeOf x + sizeOf y < n := by
        intro j x y hx hy
        have := sizeOf_getElem? hx; have := sizeOf_getElem? hy
        have := seqItems_sizeOf ha; have := seqItems_sizeOf hb; omega
      have wa : ∀ {j : Nat} {x : V}, a[j]? = some x → WF x := fun hx => seqItems_WF ha hv _ (List.mem_of_getElem? hx)
      have wb : ∀ {j : Nat} {x : V}, b[j]? = some x → WF x := fun hx => seqItems_WF hb hw _ (List.mem_of_getElem? hx)
      refine ⟨fun e he => ?_, fun e he => ?_, fun e he => ?_⟩
      · obtain ⟨j, x, y, D', hx, hy, hd, he⟩ := e1 e he
        obtain ⟨q, hq, hf, hdq⟩ := (diff_entries_aux Γ n x y _ D' (sz hx hy) (wa hx) (wb hy) hd).1 e he
        exact ⟨_ :: q, by rw [hq]; simp; rfl, FoundAt.cons (by rw [seqItems_child ha, hx]) (by rw [seqItems_child hb, hy]) hf, hdq⟩
      · obtain ⟨j, x, y, D', hx, hy, hd, he⟩ := e2 e he
        obtain ⟨q, hq, hf⟩ := (diff_entries_aux Γ n x y _ D' (sz hx hy) (wa hx) (wb hy) hd).2.1 e he
        exact ⟨_ :: q, by rw [hq]; simp; rfl, FoundAt.cons (by rw [seqItems_child ha, hx]) (by rw [seqItems_child hb, hy]) hf⟩
      · obtain ⟨j, x, y, D', hx, hy, hd, he⟩ := e3 e he
        obtain ⟨q, hne, hq⟩ := (diff_entries_aux Γ n x y _ D' (sz hx hy) (wa hx) (wb hy) hd).2.2 e he
        exact ⟨_ :: q, by simp, by rw [hq]; simp; rfl⟩
    · simp only [WF, V.dict.sizeOf_spec] at hv hw hn
      exact dictCase a b D hd (by omega)
        (fun k x hx => ⟨lookup_of_mem hv.1 hx, (WFD_iff a).1 hv.2 _ hx⟩)
        (fun k x hx => ⟨lookup_of_mem hw.1 hx, (WFD_iff b).1 hw.2 _ hx⟩)
    · simp only [WF, V.obj.sizeOf_spec] at hv hw hn
      refine dictCase _ _ D hd ?_ ?_ ?_
      · have h1 := sizeOf_filter_le (fun kv => serKeep Γ c kv.1 && !(kv.1 == Key.str "name")) a
        have h2 := sizeOf_filter_le (fun kv => serKeep Γ c' kv.1) b
        simp only [diffAttrs1, serializableDict]; omega
      · intro k x hx
        have := (List.mem_filter.1 hx).1
        exact ⟨lookup_of_mem hv.1 this, (WFD_iff a).1 hv.2 _ this⟩
      · intro k x hx
        have := (List.mem_filter.1 hx).1
        exact ⟨lookup_of_mem hw.1 this, (WFD_iff b).1 hw.2 _ this⟩
    · simp
    · refine ⟨by simp, fun e he => ?_, by simp⟩
      simp only [List.mem_singleton] at he; subst he
      exact ⟨[], by simp, by simp [FoundAt, valueAt]⟩

theorem SeqOnlyL_mem {l : List V} (h : SeqOnlyL l) : ∀ v ∈ l, SeqOnly v := by
  induction l with
  | nil => simp
  | cons x xs ih => simp only [SeqOnlyL] at h; simp [h.1]; exact ih h.2

theorem seqItems_SeqOnly {v : V} {a : List V} (h : seqItems v = some a) (hv : SeqOnly v) : ∀ x ∈ a, SeqOnly x := by
  cases v <;> simp [seqItems] at h <;> subst h <;> simp only [SeqOnly] at hv <;> exact SeqOnlyL_mem hv

/-- On sequences the entries are reported in order. -/
theorem diff_order_aux (Γ : Env) : (n : Nat) → (v w : V) → (p : List Key) → (D : Diff) → sizeOf v + sizeOf w < n →
    SeqOnly v → diff Γ v w p = .ok D →
    (∀ e ∈ D.different, ∃ q, e.1 = p ++ q ∧ valueAt v q = some e.2.1 ∧ valueAt w q = some e.2.2) ∧
    (∀ e ∈ D.types, ∃ q, e.1 = p ++ q ∧ valueAt v q = some e.2.1 ∧ valueAt w q = some e.2.2)
  | 0, _, _, _, _, h, _, _ => by omega
  | n+1, v, w, p, D, hn, hv, h => by
    rcases diff_cases h with ⟨hp, hl⟩ | ⟨a, b, ha, hb, hl, rfl⟩ | ⟨a, b, ha, hb, hl, hs⟩ | ⟨a, b, rfl, rfl, hd⟩ |
        ⟨c, a, c', b, rfl, rfl, hi, hd⟩ | ⟨c, a, c', b, rfl, rfl, rfl⟩ | ⟨c, a, c', b, rfl, rfl, hi, rfl⟩
    · obtain ⟨hm, ht, hd⟩ := leafDiff_entries hl
      refine ⟨fun e he => ?_, fun e he => ?_⟩
      · obtain ⟨rfl, h1, h2, h3⟩ := hd e he
        exact ⟨[], by simp, by simp [valueAt]⟩
      · rw [ht e he]; exact ⟨[], by simp, by simp [valueAt]⟩
    · refine ⟨fun e he => ?_, by simp⟩
      simp only [List.mem_singleton] at he; subst he
      exact ⟨[], by simp, by simp [valueAt]⟩
    · obtain ⟨e1, e2, e3⟩ := seqLoop_entries hs
      have sz : ∀ {j : Nat} {x y : V}, a[j]? = some x → b[j]? = some y → sizeOf x + sizeOf y < n := by
        intro j x y hx hy
        have := sizeOf_getElem? hx; have := sizeOf_getElem? hy
        have := seqItems_sizeOf ha; have := seqItems_sizeOf hb; omega
      have wa : ∀ {j : Nat} {x : V}, a[j]? = some x → SeqOnly x :=
        fun hx => seqItems_SeqOnly ha hv _ (List.mem_of_getElem? hx)
      refine ⟨fun e he => ?_, fun e he => ?_⟩
      · obtain ⟨j, x, y, D', hx, hy, hd, he⟩ := e1 e he
        obtain ⟨q, hq, hf⟩ := (diff_order_aux Γ n x y _ D' (sz hx hy) (wa hx) hd).1 e he
        exact ⟨_ :: q, by rw [hq]; simp; rfl, by rw [valueAt_cons (by rw [seqItems_child ha, hx]), valueAt_cons (by rw [seqItems_child hb, hy])]; exact hf⟩
      · obtain ⟨j, x, y, D', hx, hy, hd, he⟩ := e2 e he
        obtain ⟨q, hq, hf⟩ := (diff_order_aux Γ n x y _ D' (sz hx hy) (wa hx) hd).2 e he
        exact ⟨_ :: q, by rw [hq]; simp; rfl, by rw [valueAt_cons (by rw [seqItems_child ha, hx]), valueAt_cons (by rw [seqItems_child hb, hy])]; exact hf⟩
    · simp [SeqOnly] at hv
    · simp [SeqOnly] at hv
    · simp
    · simp [SeqOnly] at hv

theorem NoSubL_mem {l : List V} (h : NoSubL l) : ∀ v ∈ l, NoSub v := by
  induction l with
  | nil => simp
  | cons x xs ih => simp only [NoSubL] at h; simp [h.1]; exact ih h.2

theorem NoSubD_mem {d : List (Key × V)} (h : NoSubD d) : ∀ kv ∈ d, NoSub kv.2 := by
  induction d with
  | nil => simp
  | cons x xs ih =>
    obtain ⟨k, v⟩ := x; simp only [NoSubD] at h
    intro kv hkv
    rcases List.mem_cons.1 hkv with rfl | hkv
    · exact h.1
    · exact ih h.2 kv hkv

/-- Same data and no boolean nor measure: the diff is empty. -/
theorem same_diff_empty {Γ : Env} {v w : V} (h : Same Γ Close v w) : WF v → WF w → NoSub v → NoSub w → ∀ p,
    diff Γ v w p = .ok {} := by
  induction h with
  | none => intros; simp [diff, isInst, leafSame]
  | @int v w i h1 h2 =>
    intro _ _ nv nw p
    cases v <;> simp [intVal, NoSub] at h1 nv <;> cases w <;> simp [intVal, NoSub] at h2 nw
    subst h1 h2; simp [diff, isInst, leafSame]
  | @flt v w a b u u' h1 h2 hu hR =>
    intro _ _ nv nw p
    cases v <;> simp [fltVal, NoSub] at h1 nv <;> cases w <;> simp [fltVal, NoSub] at h2 nw
    obtain ⟨rfl, rfl⟩ := h1; obtain ⟨rfl, rfl⟩ := h2
    rw [diff_leaf _ _ _ _ (by simp [isPair])]
    simp [leafDiff, isInst, leafSame, (isclose_iff _ _).2 hR]
  | str => intros; simp [diff, isInst, leafSame]
  | @seq v w a b ha hb hl hs ih =>
    intro hv hw nv nw p
    have wa := seqItems_WF ha hv
    have wb := seqItems_WF hb hw
    have na : ∀ x ∈ a, NoSub x := by
      cases v <;> simp [seqItems] at ha <;> subst ha <;> simp only [NoSub] at nv <;> exact NoSubL_mem nv
    have nb : ∀ x ∈ b, NoSub x := by
      cases w <;> simp [seqItems] at hb <;> subst hb <;> simp only [NoSub] at nw <;> exact NoSubL_mem nw
    have hd : diff Γ v w p = seqDiff Γ v w a b p := by
      cases v <;> simp [seqItems] at ha <;> cases w <;> simp [seqItems] at hb <;> subst ha hb <;> rw [diff]
    have : ∀ (a' b' : List V) (i k : Nat), a' = a.drop k → b' = b.drop k → seqLoop Γ i a' b' p = .ok {} := by
      intro a'
      induction a' with
      | nil => intros; exact seqLoop_nil_left ..
      | cons x xs ih' =>
        intro b' i k h1 h2
        cases b' with
        | nil => exact seqLoop_nil_right ..
        | cons y ys =>
          have hx : a[k]? = some x := by
            have := congrArg (·[0]?) h1; simpa using this.symm
          have hy : b[k]? = some y := by
            have := congrArg (·[0]?) h2; simpa using this.symm
          have hxs : xs = a.drop (k+1) := by
            have := congrArg List.tail h1; simpa using this
          have hys : ys = b.drop (k+1) := by
            have := congrArg List.tail h2; simpa using this
          rw [seqLoop_cons, ih k x y hx hy (wa x (List.mem_of_getElem? hx)) (wb y (List.mem_of_getElem? hy))
            (na x (List.mem_of_getElem? hx)) (nb y (List.mem_of_getElem? hy)), ih' ys (i+1) (k+1) hxs hys]
          rfl
    rw [hd, seqDiff]
    simp [hl, this a b 0 0 (by simp) (by simp)]
  | @dict a b hk hs ih =>
    intro hv hw nv nw p
    simp only [WF] at hv hw
    have nda := hv.1
    have ndb := hw.1
    simp only [NoSub] at nv nw
    rw [diff, dictDiff]
    have h1 := keys_subset_length nda (fun k hk' => (hk k).1 hk')
    have h2 := keys_subset_length ndb (fun k hk' => (hk k).2 hk')
    rw [if_neg (by omega)]
    have : ∀ d' : List (Key × V), (∀ kv ∈ d', kv ∈ a) → dictLoop Γ d' b false p = .ok {} := by
      intro d'
      induction d' with
      | nil => intros; exact dictLoop_nil ..
      | cons x xs ih' =>
        obtain ⟨k, v⟩ := x
        intro hsub
        have hm : (k, v) ∈ a := hsub _ (by simp)
        have hb : (b.lookup k).isSome := (lookup_isSome_iff b k).2 ((hk k).1 (List.mem_map.2 ⟨_, hm, rfl⟩))
        obtain ⟨w, hw'⟩ := Option.isSome_iff_exists.1 hb
        have mw := lookup_some_mem hw'
        rw [dictLoop_cons_some _ _ _ _ _ _ _ _ hw', ih k v w (lookup_of_mem nda hm) hw'
          ((WFD_iff a).1 hv.2 _ hm) ((WFD_iff b).1 hw.2 _ mw) (NoSubD_mem nv _ hm) (NoSubD_mem nw _ mw),
          ih' (fun kv h => hsub kv (by simp [h]))]
        rfl
    exact this a (fun _ h => h)
  | cls => intros; simp [diff, isInst, leafSame]
  | file => intros; simp [diff, isInst, leafSame]
  | obj hk hs ih =>
    intro hv hw nv nw p
    have := same_imp_dataEq (Same.obj hk hs) hv
    simp [diff, isInst, this]

theorem NoOpaqueL_mem {l : List V} (h : NoOpaqueL l) : ∀ v ∈ l, NoOpaque v := by
  induction l with
  | nil => simp
  | cons x xs ih => simp only [NoOpaqueL] at h; simp [h.1]; exact ih h.2

theorem NoOpaqueD_mem {d : List (Key × V)} (h : NoOpaqueD d) : ∀ kv ∈ d, NoOpaque kv.2 := by
  induction d with
  | nil => simp
  | cons x xs ih =>
    obtain ⟨k, v⟩ := x; simp only [NoOpaqueD] at h
    intro kv hkv
    rcases List.mem_cons.1 hkv with rfl | hkv
    · exact h.1
    · exact ih h.2 kv hkv

theorem dictLoop_total {Γ : Env} {other : List (Key × V)} {f : Bool} {p : List Key} :
    ∀ {d : List (Key × V)}, (∀ k v w, (k, v) ∈ d → other.lookup k = some w → ∃ D, diff Γ v w (p ++ [k]) = .ok D) →
      ∃ D, dictLoop Γ d other f p = .ok D := by
  intro d
  induction d with
  | nil => intro _; exact ⟨_, dictLoop_nil ..⟩
  | cons x rest ih =>
    obtain ⟨k, v⟩ := x
    intro h
    obtain ⟨D, hD⟩ := ih (fun k v w hm hl => h k v w (by simp [hm]) hl)
    cases hl : other.lookup k with
    | none => rw [dictLoop_cons_none _ _ _ _ _ _ _ hl, hD]; exact ⟨_, rfl⟩
    | some w =>
      obtain ⟨D', hD'⟩ := h k v w (by simp) hl
      rw [dictLoop_cons_some _ _ _ _ _ _ _ _ hl, hD, hD']; exact ⟨_, rfl⟩

theorem seqLoop_total {Γ : Env} {p : List Key} : ∀ {a b : List V} {i : Nat},
    (∀ x ∈ a, ∀ y ∈ b, ∀ q, ∃ D, diff Γ x y q = .ok D) → ∃ D, seqLoop Γ i a b p = .ok D := by
  intro a
  induction a with
  | nil => intros; exact ⟨_, seqLoop_nil_left ..⟩
  | cons x xs ih =>
    intro b i h
    cases b with
    | nil => exact ⟨_, seqLoop_nil_right ..⟩
    | cons y ys =>
      obtain ⟨D, hD⟩ := h x (by simp) y (by simp) (p ++ [.int i])
      obtain ⟨D', hD'⟩ := ih (b := ys) (i := i + 1) (fun u hu w hw q => h u (by simp [hu]) w (by simp [hw]) q)
      rw [seqLoop_cons, hD, hD']; exact ⟨_, rfl⟩

theorem diff_total_aux (Γ : Env) : (n : Nat) → (v w : V) → (p : List Key) → sizeOf v + sizeOf w < n →
    NoOpaque v → NoOpaque w → ∃ D, diff Γ v w p = .ok D
  | 0, _, _, _, h, _, _ => by omega
  | n+1, v, w, p, hn, hv, hw => by
    have dictCase : ∀ d1 d2 : List (Key × V), sizeOf d1 + sizeOf d2 < n → (∀ kv ∈ d1, NoOpaque kv.2) →
        (∀ kv ∈ d2, NoOpaque kv.2) → ∃ D, dictDiff Γ d1 d2 p = .ok D := by
      intro d1 d2 hs h1 h2
      rw [dictDiff]
      split
      · refine dictLoop_total (fun k x y hx hy => ?_)
        have hy' := lookup_some_mem hy
        exact diff_total_aux Γ n x y _ (by have := sizeOf_mem_dict hx; have := sizeOf_mem_dict hy'; omega)
          (h2 _ hx) (h1 _ hy')
      · refine dictLoop_total (fun k x y hx hy => ?_)
        have hy' := lookup_some_mem hy
        exact diff_total_aux Γ n x y _ (by have := sizeOf_mem_dict hx; have := sizeOf_mem_dict hy'; omega)
          (h1 _ hx) (h2 _ hy')
    cases hp : isPair v w with
    | false =>
      rw [diff_leaf Γ v w p hp]
      unfold leafDiff
      split
      · split
        · exact ⟨_, rfl⟩
        · cases v <;> simp [NoOpaque] at hv <;> exact ⟨_, rfl⟩
      · exact ⟨_, rfl⟩
    | true =>
      have hcases : (∃ a b, seqItems v = some a ∧ seqItems w = some b ∧ diff Γ v w p = seqDiff Γ v w a b p) ∨
          (∃ a b, v = .dict a ∧ w = .dict b) ∨ (∃ c a c' b, v = .obj c a ∧ w = .obj c' b) := by
        cases v <;> cases w <;> simp [isPair, seqItems] at hp ⊢ <;> rw [diff]
      rcases hcases with ⟨a, b, hva, hwb, hd⟩ | ⟨d, d', rfl, rfl⟩ | ⟨c, d, c', d', rfl, rfl⟩
      · rw [hd, seqDiff]
        split
        · exact ⟨_, rfl⟩
        · have h1 : ∀ x ∈ a, NoOpaque x := by
            cases v <;> simp [seqItems] at hva <;> subst hva <;> simp only [NoOpaque] at hv <;> exact NoOpaqueL_mem hv
          have h2 : ∀ x ∈ b, NoOpaque x := by
            cases w <;> simp [seqItems] at hwb <;> subst hwb <;> simp only [NoOpaque] at hw <;> exact NoOpaqueL_mem hw
          have := seqItems_sizeOf hva; have := seqItems_sizeOf hwb
          exact seqLoop_total (fun x hx y hy q => diff_total_aux Γ n x y q
            (by have := List.sizeOf_lt_of_mem hx; have := List.sizeOf_lt_of_mem hy; omega) (h1 x hx) (h2 y hy))
      · simp only [NoOpaque, V.dict.sizeOf_spec] at hv hw hn
        rw [diff]
        exact dictCase d d' (by omega) (NoOpaqueD_mem hv) (NoOpaqueD_mem hw)
      · simp only [NoOpaque, V.obj.sizeOf_spec] at hv hw hn
        rw [diff]
        split
        · split
          · exact ⟨_, rfl⟩
          · refine dictCase _ _ ?_ (fun kv h => NoOpaqueD_mem hv kv (List.mem_filter.1 h).1)
              (fun kv h => NoOpaqueD_mem hw kv (List.mem_filter.1 h).1)
            have h1 := sizeOf_filter_le (fun kv => serKeep Γ c kv.1 && !(kv.1 == Key.str "name")) d
            have h2 := sizeOf_filter_le (fun kv => serKeep Γ c' kv.1) d'
            simp only [diffAttrs1, serializableDict]; omega
        · exact ⟨_, rfl⟩

end DC
