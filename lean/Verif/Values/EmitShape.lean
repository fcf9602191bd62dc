import Verif.Values.EmitRefs
/- Helper lemmas for Verif/Values/EmitProps.lean: the result of `to_dict` is finite JSON data. -/
namespace DC
set_option linter.unusedSimpArgs false

/-- A leaf of JSON data (files included).  Used in proofs only (no code). -/
def JLeaf (v : V) : Prop := IsJson True v ∧ (∀ l, v ≠ .list l) ∧ ∀ d, v ≠ .dict d

/-- A leaf, or a dictionary or list of index less than `n`.  Used in proofs only (no code). -/
def Low (n : Nat) : SV → Prop
  | .atom v => JLeaf v
  | .ptr p => p < n

theorem Low.mono {n m : Nat} (h : n ≤ m) {x : SV} (l : Low n x) : Low m x := by
  cases x with
  | atom v => exact l
  | ptr p => exact Nat.lt_of_lt_of_le l h

/-- The keys are distinct strings without slash.  Used in proofs only (no code). -/
def KeysOk (c : Cell) : Prop :=
  ∀ d, c = .dict d → (d.map (·.1)).Nodup ∧ ∀ k ∈ d.map (·.1), ∃ s, k = .str s ∧ '/' ∉ s.toList

/-- What holds all along the serialization: a dictionary or list only holds older ones.  Used in proofs only (no code). -/
structure Tidy (st : PS) : Prop where
  values : ∀ (b : Nat) c, st.heap[b]? = some c → ∀ x ∈ c.values, Low b x
  keys : ∀ (b : Nat) c, st.heap[b]? = some c → KeysOk c
  memo : ∀ e ∈ st.memo, Low st.heap.length e.content
  refs : ∀ kv ∈ st.refs, Low st.heap.length kv.2

theorem Tidy.alloc {st} (h : Tidy st) {c : Cell} (hv : ∀ x ∈ c.values, Low st.heap.length x) (hk : KeysOk c) :
    Tidy (alloc c st).2 := by
  have hle : st.heap.length ≤ (st.heap ++ [c]).length := by simp
  refine ⟨?_, ?_, fun e he => (h.memo e he).mono hle, fun kv hm => (h.refs kv hm).mono hle⟩
  · intro b c' hb
    rcases getElem?_snoc_cases hb with hb | ⟨rfl, rfl⟩
    · exact h.values b c' hb
    · exact hv
  · intro b c' hb
    rcases getElem?_snoc_cases hb with hb | ⟨rfl, rfl⟩
    · exact h.keys b c' hb
    · exact hk

theorem refCell_low (n m : Nat) : (∀ x ∈ (refCell n).values, Low m x) ∧ KeysOk (refCell n) := by
  refine ⟨?_, ?_⟩
  · intro x hx
    simp [refCell, Cell.values] at hx
    subst hx
    exact ⟨.str, by simp, by simp⟩
  · intro d hd
    simp only [refCell, Cell.dict.injEq] at hd
    subst hd
    exact ⟨by simp, by simp⟩

theorem Tidy.setRefs {st} (h : Tidy st) (k : Key) {x : SV} (hx : Low st.heap.length x) :
    Tidy { st with refs := dictSet st.refs k x } := by
  refine ⟨h.values, h.keys, h.memo, ?_⟩
  intro kv hm
  rcases mem_dictSet hm with hm | hm
  · exact h.refs kv hm
  · simp only; rw [hm]; exact hx

theorem Tidy.hit {st} (h : Tidy st) (e : Entry) (he : Low st.heap.length e.content) :
    Tidy (hitRef e st).2 ∧ st.heap.length ≤ (hitRef e st).2.heap.length ∧ Low (hitRef e st).2.heap.length (hitRef e st).1 := by
  refine ⟨(h.setRefs (idKey e.id) he).alloc (refCell_low _ _).1 (refCell_low _ 0).2, by simp [hitRef, DC.alloc], ?_⟩
  simp [hitRef, DC.alloc, Low]

theorem Tidy.reg {st} (h : Tidy st) (same : V → V → Bool) (standalone : Bool) (v : V) {c : Cell} (path : Path)
    (hv : ∀ x ∈ c.values, Low st.heap.length x) (hk : KeysOk c) :
    Tidy (register same standalone v c path st).2 ∧ st.heap.length ≤ (register same standalone v c path st).2.heap.length ∧
      Low (register same standalone v c path st).2.heap.length (register same standalone v c path st).1 := by
  have h1 : Tidy ⟨st.heap ++ [c], setMemo same v (.ptr st.heap.length) st.next path st.memo, st.refs, st.next + 1⟩ := by
    have := h.alloc hv hk
    refine ⟨this.values, this.keys, ?_, this.refs⟩
    intro e he
    rcases mem_setMemo he with h0 | ⟨h1, -⟩
    · exact this.memo e h0
    · rw [h1]; simp [Low]
  cases standalone with
  | false =>
    simp only [register, Bool.false_eq_true, if_false]
    exact ⟨h1, by simp, by simp [Low]⟩
  | true =>
    have e0 : register same true v c path st =
      hitRef ⟨v, .ptr st.heap.length, st.next, path⟩
        ⟨st.heap ++ [c], setMemo same v (.ptr st.heap.length) st.next path st.memo, st.refs, st.next + 1⟩ := by
      simp [register, hitRef]
    rw [e0]
    obtain ⟨a1, a2, a3⟩ := h1.hit ⟨v, .ptr st.heap.length, st.next, path⟩ (by simp [Low])
    exact ⟨a1, Nat.le_trans (by simp) a2, a3⟩

/-- The three groups of entries. -/
theorem groups_keys {keep : Key → Bool} {d : List (Key × V)} {xs ys zs : List (Key × SV)} (hn : (keysOf d).Nodup)
    (h0 : xs.map (·.1) = (d.filter fun kv => keep kv.1 && rankOf kv.2 == 0).map (·.1))
    (h1 : ys.map (·.1) = (d.filter fun kv => keep kv.1 && rankOf kv.2 == 1).map (·.1))
    (h2 : zs.map (·.1) = (d.filter fun kv => keep kv.1 && rankOf kv.2 == 2).map (·.1)) :
    ((xs ++ ys ++ zs).map (·.1)).Nodup ∧ ∀ k ∈ (xs ++ ys ++ zs).map (·.1), k ∈ keysOf d := by
  have hp : ((xs ++ ys ++ zs).map (·.1)).Perm ((d.filter fun kv => keep kv.1).map (·.1)) := by
    rw [List.map_append, List.map_append, h0, h1, h2]; exact rank_perm keep d
  have hsub : List.Sublist ((d.filter fun kv => keep kv.1).map (·.1)) (keysOf d) := List.Sublist.map _ List.filter_sublist
  exact ⟨hp.nodup_iff.2 (hn.sublist hsub), fun k hk => hsub.subset (hp.subset hk)⟩

mutual
theorem serP_tidy {W : World} {same : V → V → Bool} {root : V} (hk : PlainKeys root) :
    (v : V) → (path : Path) → (st : PS) → (x : SV) → (st' : PS) → serP W same path st v = .ok (x, st') → Occurs root v →
    Tidy st → Tidy st' ∧ st.heap.length ≤ st'.heap.length ∧ Low st'.heap.length x
  | .none, path, st, x, st', h, ho, ht => by
    simp only [serP, Except.ok.injEq, Prod.mk.injEq] at h; obtain ⟨rfl, rfl⟩ := h
    exact ⟨ht, Nat.le_refl _, .none, by simp, by simp⟩
  | .bool b, path, st, x, st', h, ho, ht => by
    simp only [serP, Except.ok.injEq, Prod.mk.injEq] at h; obtain ⟨rfl, rfl⟩ := h
    exact ⟨ht, Nat.le_refl _, .bool, by simp, by simp⟩
  | .flt b, path, st, x, st', h, ho, ht => by
    simp only [serP, Except.ok.injEq, Prod.mk.injEq] at h; obtain ⟨rfl, rfl⟩ := h
    exact ⟨ht, Nat.le_refl _, .flt, by simp, by simp⟩
  | .str b, path, st, x, st', h, ho, ht => by
    simp only [serP, Except.ok.injEq, Prod.mk.injEq] at h; obtain ⟨rfl, rfl⟩ := h
    exact ⟨ht, Nat.le_refl _, .str, by simp, by simp⟩
  | .file b n t, path, st, x, st', h, ho, ht => by
    simp only [serP, Except.ok.injEq, Prod.mk.injEq] at h; obtain ⟨rfl, rfl⟩ := h
    exact ⟨ht, Nat.le_refl _, .file trivial, by simp, by simp⟩
  | .int i, path, st, x, st', h, ho, ht => by
    rw [serP] at h
    split at h
    · rename_i hi
      simp only [Except.ok.injEq, Prod.mk.injEq] at h; obtain ⟨rfl, rfl⟩ := h
      exact ⟨ht, Nat.le_refl _, .int ((jsonInt_iff i).1 hi).1 ((jsonInt_iff i).1 hi).2, by simp, by simp⟩
    · simp at h
  | .other n, path, st, x, st', h, ho, ht => by simp [serP] at h
  | .cls n, path, st, x, st', h, ho, ht => by
    rw [serP] at h
    split at h
    · simp only [Except.ok.injEq, Prod.mk.injEq] at h; obtain ⟨rfl, rfl⟩ := h
      exact ⟨ht, Nat.le_refl _, .str, by simp, by simp⟩
    · simp at h
  | .measure c q, path, st, x, st', h, ho, ht => by
    rw [serP] at h
    cases hf : findMemo same st.memo (.measure c q) with
    | some e =>
      rw [hf] at h
      simp only [Except.ok.injEq] at h
      have := ht.hit e (ht.memo e (List.mem_of_find?_eq_some hf))
      rw [h] at this; exact this
    | none =>
      rw [hf] at h
      simp only [Except.ok.injEq] at h
      have := ht.reg same false (.measure c q) (c := .dict [(.str "object_class", .atom (.str c)), (.str "value", .atom (.flt q))]) path (by
        intro x hx
        simp [Cell.values] at hx
        rcases hx with rfl | rfl
        · exact ⟨.str, by simp, by simp⟩
        · exact ⟨.flt, by simp, by simp⟩) (by
        intro d hd
        simp only [Cell.dict.injEq] at hd; subst hd
        refine ⟨by simp, ?_⟩
        intro k hk
        simp at hk
        rcases hk with rfl | rfl <;> exact ⟨_, rfl, by decide⟩)
      rw [h] at this; exact this
  | .obj c d, path, st, x, st', h, ho, ht => by
    rw [serP] at h
    cases hf : findMemo same st.memo (.obj c d) with
    | some e =>
      rw [hf] at h
      simp only [Except.ok.injEq] at h
      have := ht.hit e (ht.memo e (List.mem_of_find?_eq_some hf))
      rw [h] at this; exact this
    | none =>
      rw [hf] at h
      simp only at h
      have hocc : ∀ kv ∈ d, Occurs root kv.2 := fun kv hm => occurs_trans ho (.obj (k := kv.1) hm .self)
      cases e1 : serPD W same path st (serKeep W.toEnv c) 0 d with
      | error e => rw [e1] at h; simp at h
      | ok r1 =>
      obtain ⟨xs, st1⟩ := r1
      rw [e1] at h; simp only at h
      cases e2 : serPD W same path st1 (serKeep W.toEnv c) 1 d with
      | error e => rw [e2] at h; simp at h
      | ok r2 =>
      obtain ⟨ys, st2⟩ := r2
      rw [e2] at h; simp only at h
      cases e3 : serPD W same path st2 (serKeep W.toEnv c) 2 d with
      | error e => rw [e3] at h; simp at h
      | ok r3 =>
      obtain ⟨zs, st3⟩ := r3
      rw [e3] at h; simp only [Except.ok.injEq] at h
      obtain ⟨a1, a2, a3, a4⟩ := serPD_tidy hk _ _ d path st xs st1 e1 hocc ht
      obtain ⟨b1, b2, b3, b4⟩ := serPD_tidy hk _ _ d path st1 ys st2 e2 hocc a1
      obtain ⟨c1, c2, c3, c4⟩ := serPD_tidy hk _ _ d path st2 zs st3 e3 hocc b1
      obtain ⟨hn, hpk⟩ := hk.obj c d ho
      obtain ⟨g1, g2⟩ := groups_keys hn a4 b4 c4
      have u2 : dictUpdate [(Key.str "object_class", SV.atom (.str c))] (xs ++ ys ++ zs) =
          (.str "object_class", .atom (.str c)) :: (xs ++ ys ++ zs) := by
        rw [dictUpdate_disjoint _ _ g1 (by
          intro k hm
          simpa using (hpk k (g2 k hm)).2)]; rfl
      rw [u2] at h
      have := c1.reg same (W.info c).standalone (.obj c d) (c := .dict ((.str "object_class", .atom (.str c)) :: (xs ++ ys ++ zs))) path (by
        intro x hx
        rcases List.mem_cons.1 hx with rfl | hx
        · exact ⟨.str, by simp, by simp⟩
        · obtain ⟨kx, hm, rfl⟩ := List.mem_map.1 hx
          rcases List.mem_append.1 hm with hm | hm
          · rcases List.mem_append.1 hm with hm | hm
            · exact (a3 kx hm).mono (Nat.le_trans b2 c2)
            · exact (b3 kx hm).mono c2
          · exact c3 kx hm) (by
        intro d' hd
        simp only [Cell.dict.injEq] at hd; subst hd
        rw [List.map_cons, List.nodup_cons]
        refine ⟨⟨fun hm => (hpk _ (g2 _ hm)).2 rfl, g1⟩, ?_⟩
        intro k hm
        rcases List.mem_cons.1 hm with rfl | hm
        · exact ⟨_, rfl, by decide⟩
        · obtain ⟨s, h1, h2, -⟩ := (hpk k (g2 k hm)).1
          exact ⟨s, h1, h2⟩)
      rw [h] at this
      exact ⟨this.1, Nat.le_trans (Nat.le_trans (Nat.le_trans a2 b2) c2) this.2.1, this.2.2⟩
  | .dict d, path, st, x, st', h, ho, ht => by
    rw [serP] at h
    have hocc : ∀ kv ∈ d, Occurs root kv.2 := fun kv hm => occurs_trans ho (.dict (k := kv.1) hm .self)
    cases e1 : serPD W same path st (fun _ => true) 0 d with
    | error e => rw [e1] at h; simp at h
    | ok r1 =>
    obtain ⟨xs, st1⟩ := r1
    rw [e1] at h; simp only at h
    cases e2 : serPD W same path st1 (fun _ => true) 1 d with
    | error e => rw [e2] at h; simp at h
    | ok r2 =>
    obtain ⟨ys, st2⟩ := r2
    rw [e2] at h; simp only at h
    cases e3 : serPD W same path st2 (fun _ => true) 2 d with
    | error e => rw [e3] at h; simp at h
    | ok r3 =>
    obtain ⟨zs, st3⟩ := r3
    rw [e3] at h; simp only [Except.ok.injEq, alloc, Prod.mk.injEq] at h
    obtain ⟨rfl, rfl⟩ := h
    obtain ⟨a1, a2, a3, a4⟩ := serPD_tidy hk _ _ d path st xs st1 e1 hocc ht
    obtain ⟨b1, b2, b3, b4⟩ := serPD_tidy hk _ _ d path st1 ys st2 e2 hocc a1
    obtain ⟨c1, c2, c3, c4⟩ := serPD_tidy hk _ _ d path st2 zs st3 e3 hocc b1
    obtain ⟨hn, hpk⟩ := hk.dict d ho
    obtain ⟨g1, g2⟩ := groups_keys (keep := fun _ => true) hn a4 b4 c4
    refine ⟨c1.alloc (c := .dict (xs ++ ys ++ zs)) ?_ ?_, ?_, by simp [Low]⟩
    · intro x hx
      obtain ⟨kx, hm, rfl⟩ := List.mem_map.1 hx
      rcases List.mem_append.1 hm with hm | hm
      · rcases List.mem_append.1 hm with hm | hm
        · exact (a3 kx hm).mono (Nat.le_trans b2 c2)
        · exact (b3 kx hm).mono c2
      · exact c3 kx hm
    · intro d' hd
      simp only [Cell.dict.injEq] at hd; subst hd
      refine ⟨g1, ?_⟩
      intro k hm
      obtain ⟨s, h1, h2, -⟩ := hpk k (g2 k hm)
      exact ⟨s, h1, h2⟩
    · simp only [List.length_append, List.length_singleton]; omega
  | .list l, path, st, x, st', h, ho, ht => by
    rw [serP] at h
    cases e1 : serPL W same path 0 st l with
    | error e => rw [e1] at h; simp at h
    | ok r1 =>
    obtain ⟨xs, st1⟩ := r1
    rw [e1] at h; simp only [Except.ok.injEq, alloc, Prod.mk.injEq] at h
    obtain ⟨rfl, rfl⟩ := h
    obtain ⟨a1, a2, a3⟩ := serPL_tidy hk l path 0 st xs st1 e1 (fun v hm => occurs_trans ho (.list hm .self)) ht
    exact ⟨a1.alloc (c := .list xs) a3 (by intro d hd; simp at hd), by simp only [List.length_append, List.length_singleton]; omega, by simp [Low]⟩
  | .tuple l, path, st, x, st', h, ho, ht => by
    rw [serP] at h
    cases e1 : serPL W same path 0 st l with
    | error e => rw [e1] at h; simp at h
    | ok r1 =>
    obtain ⟨xs, st1⟩ := r1
    rw [e1] at h; simp only [Except.ok.injEq, alloc, Prod.mk.injEq] at h
    obtain ⟨rfl, rfl⟩ := h
    obtain ⟨a1, a2, a3⟩ := serPL_tidy hk l path 0 st xs st1 e1 (fun v hm => occurs_trans ho (.tuple hm .self)) ht
    exact ⟨a1.alloc (c := .list xs) a3 (by intro d hd; simp at hd), by simp only [List.length_append, List.length_singleton]; omega, by simp [Low]⟩

theorem serPL_tidy {W : World} {same : V → V → Bool} {root : V} (hk : PlainKeys root) :
    (l : List V) → (path : Path) → (i : Nat) → (st : PS) → (xs : List SV) → (st' : PS) → serPL W same path i st l = .ok (xs, st') →
    (∀ v ∈ l, Occurs root v) → Tidy st → Tidy st' ∧ st.heap.length ≤ st'.heap.length ∧ ∀ x ∈ xs, Low st'.heap.length x
  | [], path, i, st, xs, st', h, ho, ht => by
    simp only [serPL, Except.ok.injEq, Prod.mk.injEq] at h; obtain ⟨rfl, rfl⟩ := h
    exact ⟨ht, Nat.le_refl _, by simp⟩
  | v :: l, path, i, st, xs, st', h, ho, ht => by
    rw [serPL] at h
    cases e1 : serP W same (path.idx i) st v with
    | error e => rw [e1] at h; simp at h
    | ok r1 =>
    obtain ⟨x, st1⟩ := r1
    rw [e1] at h; simp only at h
    cases e2 : serPL W same path (i + 1) st1 l with
    | error e => rw [e2] at h; simp at h
    | ok r2 =>
    obtain ⟨ys, st2⟩ := r2
    rw [e2] at h; simp only [Except.ok.injEq, Prod.mk.injEq] at h
    obtain ⟨rfl, rfl⟩ := h
    obtain ⟨a1, a2, a3⟩ := serP_tidy hk v _ st x st1 e1 (ho v (by simp)) ht
    obtain ⟨b1, b2, b3⟩ := serPL_tidy hk l path (i + 1) st1 ys st2 e2 (fun w hw => ho w (by simp [hw])) a1
    refine ⟨b1, Nat.le_trans a2 b2, ?_⟩
    intro y hy
    rcases List.mem_cons.1 hy with rfl | hy
    · exact a3.mono b2
    · exact b3 y hy

theorem serPD_tidy {W : World} {same : V → V → Bool} {root : V} (hk : PlainKeys root) (keep : Key → Bool) (rank : Nat) :
    (d : List (Key × V)) → (path : Path) → (st : PS) → (xs : List (Key × SV)) → (st' : PS) →
    serPD W same path st keep rank d = .ok (xs, st') →
    (∀ kv ∈ d, Occurs root kv.2) → Tidy st → Tidy st' ∧ st.heap.length ≤ st'.heap.length ∧
      (∀ kx ∈ xs, Low st'.heap.length kx.2) ∧ xs.map (·.1) = (d.filter fun kv => keep kv.1 && rankOf kv.2 == rank).map (·.1)
  | [], path, st, xs, st', h, ho, ht => by
    simp only [serPD, Except.ok.injEq, Prod.mk.injEq] at h; obtain ⟨rfl, rfl⟩ := h
    exact ⟨ht, Nat.le_refl _, by simp, rfl⟩
  | (k, v) :: d, path, st, xs, st', h, ho, ht => by
    rw [serPD] at h
    by_cases hc : (keep k && rankOf v == rank) = true
    · rw [if_pos hc] at h
      cases e1 : serP W same (path.key k) st v with
      | error e => rw [e1] at h; simp at h
      | ok r1 =>
      obtain ⟨x, st1⟩ := r1
      rw [e1] at h; simp only at h
      cases e2 : serPD W same path st1 keep rank d with
      | error e => rw [e2] at h; simp at h
      | ok r2 =>
      obtain ⟨ys, st2⟩ := r2
      rw [e2] at h; simp only [Except.ok.injEq, Prod.mk.injEq] at h
      obtain ⟨rfl, rfl⟩ := h
      obtain ⟨a1, a2, a3⟩ := serP_tidy hk v _ st x st1 e1 (ho (k, v) (by simp)) ht
      obtain ⟨b1, b2, b3, b4⟩ := serPD_tidy hk keep rank d path st1 ys st2 e2 (fun w hw => ho w (by simp [hw])) a1
      refine ⟨b1, Nat.le_trans a2 b2, ?_, ?_⟩
      · intro y hy
        rcases List.mem_cons.1 hy with rfl | hy
        · exact a3.mono b2
        · exact b3 y hy
      · rw [List.filter_cons_of_pos (by exact hc), List.map_cons, List.map_cons, b4]
    · rw [if_neg hc] at h
      obtain ⟨b1, b2, b3, b4⟩ := serPD_tidy hk keep rank d path st xs st' h (fun w hw => ho w (by simp [hw])) ht
      exact ⟨b1, b2, b3, by rw [List.filter_cons_of_neg (by exact hc), b4]⟩
end

/-! ### Adding the references -/

/-- A dictionary or list of the first `n0` ones holds more recent ones, or ones of a lower rank; the others only hold more
recent ones.  Used in proofs only (no code). -/
structure Shape (n0 : Nat) (rk : Nat → Nat) (H : Heap) : Prop where
  len : n0 ≤ H.length
  leaf : ∀ (b : Nat) c, H[b]? = some c → ∀ x ∈ c.values, Low H.length x
  old : ∀ (b : Nat) c, H[b]? = some c → b < n0 → ∀ p, SV.ptr p ∈ c.values → n0 ≤ p ∨ rk p < rk b
  new : ∀ (b : Nat) c, H[b]? = some c → n0 ≤ b → ∀ p, SV.ptr p ∈ c.values → b < p
  keys : ∀ (b : Nat) c, H[b]? = some c → KeysOk c

theorem extractH_value {H : Heap} {x : SV} {s : String} {y : SV} (h : extractH H x s = .ok y) :
    ∃ b c, x = .ptr b ∧ H[b]? = some c ∧ y ∈ c.values := by
  cases x with
  | atom v => simp [extractH] at h
  | ptr b =>
    rw [extractH] at h
    cases hb : H[b]? with
    | none => rw [hb] at h; simp at h
    | some c =>
      refine ⟨b, c, rfl, hb, ?_⟩
      rw [hb] at h
      cases c with
      | list l =>
        simp only at h
        split at h
        · simp at h
        · split at h
          · simp at h
          · split at h
            · simp at h
            · rename_i hl
              simp only [Except.ok.injEq] at h; subst h
              exact List.mem_of_getElem? hl
      | dict d =>
        simp only at h
        split at h
        · rename_i hl
          simp only [Except.ok.injEq] at h; subst h
          exact List.mem_map.2 ⟨_, Dict.lookup_mem hl, rfl⟩
        · split at h
          · split at h
            · rename_i hl
              simp only [Except.ok.injEq] at h; subst h
              exact List.mem_map.2 ⟨_, Dict.lookup_mem hl, rfl⟩
            · simp at h
          · split at h <;> simp at h

/-- A pointer less than `m`, or no pointer.  Used in proofs only (no code). -/
def PtrLt (m : Nat) (x : SV) : Prop := ∀ p, x = .ptr p → p < m

theorem walkH_lt {H : Heap} {m : Nat} {jump : SV → Except PyErr SV} (hj : ∀ x y, PtrLt m x → jump x = .ok y → PtrLt m y)
    (hc : ∀ (b : Nat) c, b < m → H[b]? = some c → ∀ x ∈ c.values, PtrLt m x) :
    (p : Path) → (x y : SV) → PtrLt m x → walkH H jump x p = .ok y → PtrLt m y
  | [], x, y, hx, h => by simp only [walkH, Except.ok.injEq] at h; subst h; exact hx
  | s :: rest, x, y, hx, h => by
    rw [walkH] at h
    cases h1 : jump x with
    | error e => rw [h1] at h; simp at h
    | ok z =>
      rw [h1] at h; simp only at h
      cases h2 : extractH H z s with
      | error e => rw [h2] at h; simp at h
      | ok w =>
        rw [h2] at h; simp only at h
        obtain ⟨b, c, rfl, hb, hw⟩ := extractH_value h2
        exact walkH_lt hj hc rest w y (hc b c (hj x _ hx h1 b rfl) hb w hw) h

theorem getH_lt {H : Heap} {m : Nat} {root : SV} (hr : PtrLt m root)
    (hc : ∀ (b : Nat) c, b < m → H[b]? = some c → ∀ x ∈ c.values, PtrLt m x) :
    (fuel : Nat) → (p : Path) → (y : SV) → getH H root fuel p = .ok y → PtrLt m y
  | 0, p, y, h => by
    rw [getH] at h
    refine walkH_lt ?_ hc p root y hr h
    intro x z hx hz
    split at hz
    · simp only [Except.ok.injEq] at hz; subst hz; exact hx
    · simp at hz
  | fuel + 1, p, y, h => by
    rw [getH] at h
    refine walkH_lt ?_ hc p root y hr h
    intro x z hx hz
    split at hz
    · simp only [Except.ok.injEq] at hz; subst hz; exact hx
    · exact getH_lt hr hc fuel _ _ hz
    · simp at hz

theorem Shape.push {n0 rk H} (h : Shape n0 rk H) (n : Nat) : Shape n0 rk (H ++ [refCell n]) := by
  have hle : H.length ≤ (H ++ [refCell n]).length := by simp
  have hnp : ∀ p, SV.ptr p ∉ (refCell n).values := by
    intro p hp; simp [refCell, Cell.values] at hp
  refine ⟨Nat.le_trans h.len hle, ?_, ?_, ?_, ?_⟩
  · intro b c hb x hx
    rcases getElem?_snoc_cases hb with hb | ⟨rfl, rfl⟩
    · exact (h.leaf b c hb x hx).mono hle
    · exact (refCell_low _ _).1 x hx
  · intro b c hb hlt p hp
    rcases getElem?_snoc_cases hb with hb | ⟨rfl, rfl⟩
    · exact h.old b c hb hlt p hp
    · exact absurd hp (hnp p)
  · intro b c hb hlt p hp
    rcases getElem?_snoc_cases hb with hb | ⟨rfl, rfl⟩
    · exact h.new b c hb hlt p hp
    · exact absurd hp (hnp p)
  · intro b c hb
    rcases getElem?_snoc_cases hb with hb | ⟨rfl, rfl⟩
    · exact h.keys b c hb
    · exact (refCell_low _ 0).2

/-- Changing a dictionary or list, the new values being the more recent one. -/
theorem Shape.set {n0 rk H} (h : Shape n0 rk H) {b m : Nat} {c c' : Cell} (hb : H[b]? = some c) (hm : b < m) (hmH : m < H.length)
    (hn : n0 ≤ m) (hv : ∀ x ∈ c'.values, x ∈ c.values ∨ x = .ptr m) (hk : KeysOk c') : Shape n0 rk (H.set b c') := by
  have hbl := (List.getElem?_eq_some_iff.1 hb).1
  have key : ∀ (b' : Nat) c2, (H.set b c')[b']? = some c2 → (b' = b ∧ c2 = c') ∨ (H[b']? = some c2) := by
    intro b' c2 h2
    by_cases e : b = b'
    · subst e
      rw [List.getElem?_set_self hbl] at h2
      exact .inl ⟨rfl, by simpa using h2.symm⟩
    · rw [List.getElem?_set_ne e] at h2; exact .inr h2
  refine ⟨by rw [List.length_set]; exact h.len, ?_, ?_, ?_, ?_⟩
  · intro b' c2 h2 x hx
    rw [List.length_set]
    rcases key b' c2 h2 with ⟨rfl, rfl⟩ | h2
    · rcases hv x hx with hx | rfl
      · exact h.leaf _ c hb x hx
      · exact hmH
    · exact h.leaf b' c2 h2 x hx
  · intro b' c2 h2 hlt p hp
    rcases key b' c2 h2 with ⟨rfl, rfl⟩ | h2
    · rcases hv _ hp with hx | hx
      · exact h.old _ c hb hlt p hx
      · simp only [SV.ptr.injEq] at hx; subst hx; exact .inl hn
    · exact h.old b' c2 h2 hlt p hp
  · intro b' c2 h2 hlt p hp
    rcases key b' c2 h2 with ⟨rfl, rfl⟩ | h2
    · rcases hv _ hp with hx | hx
      · exact h.new _ c hb hlt p hx
      · simp only [SV.ptr.injEq] at hx; subst hx; exact hm
    · exact h.new b' c2 h2 hlt p hp
  · intro b' c2 h2
    rcases key b' c2 h2 with ⟨rfl, rfl⟩ | h2
    · exact hk
    · exact h.keys b' c2 h2

theorem assignH_shape {n0 rk H} (h : Shape n0 rk H) {x : SV} {s : String} {m : Nat} {H' : Heap} (hx : PtrLt m x) (hmH : m < H.length)
    (hn : n0 ≤ m) (hs : '/' ∉ s.toList) (ha : assignH H x s (.ptr m) = .ok H') : Shape n0 rk H' := by
  cases x with
  | atom v => simp [assignH] at ha
  | ptr b =>
    rw [assignH] at ha
    cases hb : H[b]? with
    | none => rw [hb] at ha; simp at ha
    | some c =>
      rw [hb] at ha
      cases c with
      | list l =>
        simp only at ha
        split at ha
        · simp at ha
        · split at ha
          · simp at ha
          · simp only [Except.ok.injEq] at ha; subst ha
            refine h.set hb (hx b rfl) hmH hn ?_ (by intro d hd; simp at hd)
            intro y hy
            rcases List.mem_or_eq_of_mem_set hy with hy | hy
            · exact .inl hy
            · exact .inr hy
      | dict d =>
        simp only [Except.ok.injEq] at ha; subst ha
        obtain ⟨k1, k2⟩ := h.keys b _ hb d rfl
        refine h.set hb (hx b rfl) hmH hn ?_ ?_
        · intro y hy
          obtain ⟨kv, hm, rfl⟩ := List.mem_map.1 hy
          rcases mem_dictSet hm with hm | hm
          · exact .inl (List.mem_map.2 ⟨kv, hm, rfl⟩)
          · rw [hm]; exact .inr rfl
        · intro d' hd
          simp only [Cell.dict.injEq] at hd; subst hd
          obtain ⟨q1, q2⟩ := dictSet_nodup' d (.str s) (SV.ptr m) k1
          refine ⟨q1, ?_⟩
          intro k hk
          rcases q2 k hk with hk | hk
          · exact k2 k hk
          · exact ⟨s, hk, hs⟩

theorem setH_shape {n0 rk H fuel id path root H'} (h : Shape n0 rk H) (hroot : PtrLt H.length root)
    (hs : '/' ∉ (path.getLastD "").toList) (hset : setH fuel (H ++ [refCell id]) root path (.ptr H.length) = .ok H') :
    Shape n0 rk H' := by
  have h1 := h.push id
  have hc : ∀ (b : Nat) c, b < H.length → (H ++ [refCell id])[b]? = some c → ∀ x ∈ c.values, PtrLt H.length x := by
    intro b c hb hbc x hx p hp
    rw [List.getElem?_append_left hb] at hbc
    have := h.leaf b c hbc x hx
    rw [hp] at this
    exact this
  rw [setH] at hset
  split at hset
  · exact assignH_shape h1 hroot (by simp) h.len hs hset
  · split at hset
    · simp at hset
    · rename_i x hx
      exact assignH_shape h1 (getH_lt hroot hc _ _ _ hx) (by simp) h.len hs hset

theorem assignH_length {H x s y H'} (h : assignH H x s y = .ok H') : H'.length = H.length := by
  cases x with
  | atom v => simp [assignH] at h
  | ptr b =>
    rw [assignH] at h
    split at h
    · simp at h
    · split at h
      · simp at h
      · split at h
        · simp at h
        · simp only [Except.ok.injEq] at h; subst h; simp
    · simp only [Except.ok.injEq] at h; subst h; simp

theorem setH_length {fuel H root path y H'} (h : setH fuel H root path y = .ok H') : H'.length = H.length := by
  rw [setH] at h
  split at h
  · exact assignH_length h
  · split at h
    · simp at h
    · exact assignH_length h

theorem rewriteAll_shape {n0 rk fuel root refs} : (m : List Entry) → (H H' : Heap) → Shape n0 rk H → PtrLt H.length root →
    (∀ e ∈ m, '/' ∉ (e.path.getLastD "").toList) → rewriteAll fuel root refs H m = .ok H' → Shape n0 rk H'
  | [], H, H', h, hr, hm, e => by simp only [rewriteAll, Except.ok.injEq] at e; subst e; exact h
  | en :: m, H, H', h, hr, hm, e => by
    rw [rewriteAll] at e
    cases h1 : rewriteOne fuel root refs H en with
    | error err => rw [h1] at e; simp at e
    | ok H1 =>
      rw [h1] at e; simp only at e
      rw [rewriteOne] at h1
      split at h1
      · refine rewriteAll_shape m H1 H' (setH_shape h hr (hm en (by simp)) h1) ?_ (fun e he => hm e (by simp [he])) e
        have := setH_length h1
        intro p hp
        have := hr p hp
        simp at *; omega
      · simp only [Except.ok.injEq] at h1; subst h1
        exact rewriteAll_shape m H H' h hr (fun e he => hm e (by simp [he])) e

theorem toString_noSlash (n : Nat) : '/' ∉ (toString n).toList := by
  have e : (toString n).toList = Nat.toDigits 10 n := Nat.toList_repr
  rw [e]
  intro h
  have : ('/').isDigit := Nat.isDigit_of_mem_toDigits (by decide) (by decide) h
  exact absurd this (by decide)

theorem Child.noSlash {H : Heap} (hk : ∀ (b : Nat) c, H[b]? = some c → KeysOk c) {x s z} (h : Child H x s z) : '/' ∉ s.toList := by
  cases h with
  | key h1 h2 =>
    obtain ⟨t, e, ht⟩ := (hk _ _ h1 _ rfl).2 (.str s) (List.mem_map.2 ⟨_, Dict.lookup_mem h2, rfl⟩)
    simp only [Key.str.injEq] at e; subst e; exact ht
  | idx => exact toString_noSlash _

theorem Follow.noSlash {H : Heap} {T} (hk : ∀ (b : Nat) c, H[b]? = some c → KeysOk c) {x p c} (h : Follow H T x p c) :
    ∀ s ∈ p, '/' ∉ s.toList := by
  induction h with
  | here => simp
  | step _ e _ ih =>
    intro s hs
    rcases List.mem_cons.1 hs with rfl | hs
    · exact e.noSlash hk
    · exact ih s hs

/-- What the result `R` of `to_dict` is made of.  Used in proofs only (no code). -/
structure Emitted (H : Heap) (c : String) (R refs : List (Key × SV)) : Prop where
  shape : ∃ n0 rk, Shape n0 rk H
  head : ∃ (a : Nat) (d : List (Key × SV)), R = (.str "object_class", .atom (.str c)) :: d ∧ H[a]? = some (.dict d)
  nodup : (R.map (·.1)).Nodup
  refsKeys : ∀ kv ∈ refs, ∃ n, kv.1 = idKey n
  refsPlain : ∀ k x, refs.lookup k = some x → PlainDict H x

theorem Sim.plainDict {H0 H T} (h : Sim H0 H T) {x} (p : PlainDict H0 x) : PlainDict H x := by
  obtain ⟨b, d, rfl, hb, hd⟩ := p
  obtain ⟨c', hb', hs⟩ := h b _ hb
  cases hs with
  | ref h1 _ => rw [hd] at h1; simp at h1
  | dict h1 h2 =>
    refine ⟨b, _, rfl, hb', ?_⟩
    rw [Dict.lookup_none] at h1 ⊢
    rw [forall2_keys h2]; exact h1

/-- The rank of the dictionaries and lists before the references are added: the object `a` holds its references `a + 1`.
Used in proofs only (no code). -/
def rank0 (a b : Nat) : Nat := if b = a then a + 1 else if b = a + 1 then a else b

end DC
