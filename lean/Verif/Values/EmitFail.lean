import Verif.Values.EmitProps
/- C13: `to_dict` does not accept more than the pointer-free serialization. -/
namespace DC
set_option linter.unusedSimpArgs false

/-- The values of the memo can be serialized.  Used in proofs only (no code). -/
def MemoSer (W : World) (root : V) (st : PS) : Prop :=
  ∀ e ∈ st.memo, Occurs root e.value ∧ ∃ j, serialize W e.value = .ok j

theorem MemoSer.reg {W root st same} (h : MemoSer W root st) {v : V} (ho : Occurs root v)
    (hj : ∃ j, serialize W v = .ok j) (b : Bool) (cell : Cell) (path : Path) : MemoSer W root (register same b v cell path st).2 := by
  have : ∀ e ∈ setMemo same v (.ptr st.heap.length) st.next path st.memo, Occurs root e.value ∧ ∃ j, serialize W e.value = .ok j := by
    intro e he
    rcases mem_setMemo he with h0 | ⟨-, -, -, h4 | ⟨h4, e', h5, h6⟩⟩
    · exact h e h0
    · rw [h4]; exact ⟨ho, hj⟩
    · rw [← h6]; exact h e' h5
  cases b <;> exact this

theorem serializeD_ok {W : World} {keep : Key → Bool} {d : List (Key × V)}
    (h : ∀ kv ∈ d, keep kv.1 = true → ∃ j, serialize W kv.2 = .ok j) : ∃ s, serializeD W keep d = .ok s := by
  induction d with
  | nil => exact ⟨[], rfl⟩
  | cons kv d ih =>
    obtain ⟨k, v⟩ := kv
    obtain ⟨r, hr⟩ := ih fun kv hm => h kv (List.mem_cons_of_mem _ hm)
    rw [serializeD]
    by_cases hk : keep k = true
    · obtain ⟨j, hj⟩ := h (k, v) List.mem_cons_self hk
      simp only at hj
      exact ⟨(k, j) :: r, by rw [if_pos hk, hj, hr]; rfl⟩
    · exact ⟨r, by rw [if_neg hk, hr]⟩

theorem rank_cases (v : V) : rankOf v = 0 ∨ rankOf v = 1 ∨ rankOf v = 2 := by cases v <;> simp [rankOf]

theorem memoSer_hit {W : World} {same : V → V → Bool} {root : V} (hs : SameSer W same root) {st : PS} (hm : MemoSer W root st) {v : V} (ho : Occurs root v) {e : Entry}
    (hf : findMemo same st.memo v = some e) : ∃ j, serialize W v = .ok j := by
  have he : e ∈ st.memo := List.mem_of_find?_eq_some hf
  have hse : same e.value v = true := by simpa using List.find?_some hf
  obtain ⟨o, j, hj⟩ := hm e he
  exact ⟨j, by rw [← hs _ _ o ho hse, hj]⟩

mutual
theorem serP_back {W : World} {same : V → V → Bool} {root : V} (hs : SameSer W same root) :
    (v : V) → (path : Path) → (st : PS) → (x : SV) → (st' : PS) → MemoSer W root st → Occurs root v →
    serP W same path st v = .ok (x, st') → (∃ j, serialize W v = .ok j) ∧ MemoSer W root st'
  | .none, path, st, x, st', hm, ho, h => by
    simp only [serP, Except.ok.injEq, Prod.mk.injEq] at h; rw [← h.2]; exact ⟨⟨_, rfl⟩, hm⟩
  | .bool b, path, st, x, st', hm, ho, h => by
    simp only [serP, Except.ok.injEq, Prod.mk.injEq] at h; rw [← h.2]; exact ⟨⟨_, rfl⟩, hm⟩
  | .flt b, path, st, x, st', hm, ho, h => by
    simp only [serP, Except.ok.injEq, Prod.mk.injEq] at h; rw [← h.2]; exact ⟨⟨_, rfl⟩, hm⟩
  | .str b, path, st, x, st', hm, ho, h => by
    simp only [serP, Except.ok.injEq, Prod.mk.injEq] at h; rw [← h.2]; exact ⟨⟨_, rfl⟩, hm⟩
  | .file b n t, path, st, x, st', hm, ho, h => by
    simp only [serP, Except.ok.injEq, Prod.mk.injEq] at h; rw [← h.2]; exact ⟨⟨_, rfl⟩, hm⟩
  | .int i, path, st, x, st', hm, ho, h => by
    rw [serP] at h
    by_cases hi : jsonInt i = true
    · rw [if_pos hi] at h
      simp only [Except.ok.injEq, Prod.mk.injEq] at h
      rw [← h.2]; exact ⟨⟨.int i, by rw [serialize, if_pos hi]⟩, hm⟩
    · rw [if_neg hi] at h; simp at h
  | .other n, path, st, x, st', hm, ho, h => by simp [serP] at h
  | .cls n, path, st, x, st', hm, ho, h => by
    rw [serP] at h
    cases ha : annotationString W n with
    | error e => rw [ha] at h; simp at h
    | ok s =>
      rw [ha] at h
      simp only [Except.ok.injEq, Prod.mk.injEq] at h
      rw [← h.2]; exact ⟨⟨.str s, by rw [serialize, ha]; rfl⟩, hm⟩
  | .measure c q, path, st, x, st', hm, ho, h => by
    have hj : ∃ j, serialize W (.measure c q) = .ok j := ⟨_, rfl⟩
    rw [serP] at h
    cases hf : findMemo same st.memo (.measure c q) with
    | some e =>
      rw [hf] at h
      simp only [Except.ok.injEq] at h
      rw [show st' = (hitRef e st).2 by rw [h]]
      exact ⟨hj, hm⟩
    | none =>
      rw [hf] at h
      simp only [Except.ok.injEq] at h
      refine ⟨hj, ?_⟩
      rw [show st' = (x, st').2 from rfl, ← h]
      exact hm.reg ho hj _ _ _
  | .obj c d, path, st, x, st', hm, ho, h => by
    rw [serP] at h
    cases hf : findMemo same st.memo (.obj c d) with
    | some e =>
      rw [hf] at h
      simp only [Except.ok.injEq] at h
      rw [show st' = (hitRef e st).2 by rw [h]]
      exact ⟨memoSer_hit hs hm ho hf, hm⟩
    | none =>
      rw [hf] at h
      simp only at h
      have hocc : ∀ kv ∈ d, Occurs root kv.2 := fun kv hm => occurs_trans ho (.obj (k := kv.1) hm .self)
      split at h
      · simp at h
      · rename_i xs st1 e1
        split at h
        · simp at h
        · rename_i ys st2 e2
          split at h
          · simp at h
          · rename_i zs st3 e3
            obtain ⟨i1, m1⟩ := serPD_back hs _ 0 d path st xs st1 hm hocc e1
            obtain ⟨i2, m2⟩ := serPD_back hs _ 1 d path st1 ys st2 m1 hocc e2
            obtain ⟨i3, m3⟩ := serPD_back hs _ 2 d path st2 zs st3 m2 hocc e3
            obtain ⟨s, hsd⟩ : ∃ s, serializeD W (serKeep W.toEnv c) d = .ok s := by
              refine serializeD_ok ?_
              intro kv hkv hk
              rcases rank_cases kv.2 with hr | hr | hr
              · exact i1 kv hkv hk hr
              · exact i2 kv hkv hk hr
              · exact i3 kv hkv hk hr
            have hj : ∃ j, serialize W (.obj c d) = .ok j := ⟨_, by rw [serialize, hsd]; rfl⟩
            refine ⟨hj, ?_⟩
            simp only [Except.ok.injEq] at h
            rw [show st' = (x, st').2 from rfl, ← h]
            exact m3.reg ho hj _ _ _
  | .dict d, path, st, x, st', hm, ho, h => by
      rw [serP] at h
      have hocc : ∀ kv ∈ d, Occurs root kv.2 := fun kv hm => occurs_trans ho (.dict (k := kv.1) hm .self)
      split at h
      · simp at h
      · rename_i xs st1 e1
        split at h
        · simp at h
        · rename_i ys st2 e2
          split at h
          · simp at h
          · rename_i zs st3 e3
            obtain ⟨i1, m1⟩ := serPD_back hs _ 0 d path st xs st1 hm hocc e1
            obtain ⟨i2, m2⟩ := serPD_back hs _ 1 d path st1 ys st2 m1 hocc e2
            obtain ⟨i3, m3⟩ := serPD_back hs _ 2 d path st2 zs st3 m2 hocc e3
            obtain ⟨s, hsd⟩ : ∃ s, serializeD W (fun _ => true) d = .ok s := by
              refine serializeD_ok ?_
              intro kv hkv hk
              rcases rank_cases kv.2 with hr | hr | hr
              · exact i1 kv hkv hk hr
              · exact i2 kv hkv hk hr
              · exact i3 kv hkv hk hr
            refine ⟨⟨.dict s, by rw [serialize, hsd]; rfl⟩, ?_⟩
            simp only [Except.ok.injEq] at h
            rw [show st' = (x, st').2 from rfl, ← h]
            exact m3
  | .list l, path, st, x, st', hm, ho, h => by
      rw [serP] at h
      split at h
      · simp at h
      · rename_i xs st1 e1
        obtain ⟨⟨s, hsl⟩, m1⟩ := serPL_back hs l path 0 st xs st1 hm (fun v hv => occurs_trans ho (.list hv .self)) e1
        simp only [Except.ok.injEq] at h
        refine ⟨⟨.list s, by rw [serialize, hsl]; rfl⟩, ?_⟩
        rw [show st' = (x, st').2 from rfl, ← h]
        exact m1
  | .tuple l, path, st, x, st', hm, ho, h => by
      rw [serP] at h
      split at h
      · simp at h
      · rename_i xs st1 e1
        obtain ⟨⟨s, hsl⟩, m1⟩ := serPL_back hs l path 0 st xs st1 hm (fun v hv => occurs_trans ho (.tuple hv .self)) e1
        simp only [Except.ok.injEq] at h
        refine ⟨⟨.list s, by rw [serialize, hsl]; rfl⟩, ?_⟩
        rw [show st' = (x, st').2 from rfl, ← h]
        exact m1

theorem serPL_back {W : World} {same : V → V → Bool} {root : V} (hs : SameSer W same root) :
    (l : List V) → (path : Path) → (i : Nat) → (st : PS) → (xs : List SV) → (st' : PS) → MemoSer W root st →
    (∀ v ∈ l, Occurs root v) → serPL W same path i st l = .ok (xs, st') →
    (∃ s, serializeL W l = .ok s) ∧ MemoSer W root st'
  | [], path, i, st, xs, st', hm, ho, h => by
    simp only [serPL, Except.ok.injEq, Prod.mk.injEq] at h; rw [← h.2]; exact ⟨⟨_, rfl⟩, hm⟩
  | v :: l, path, i, st, xs, st', hm, ho, h => by
    rw [serPL] at h
    split at h
    · simp at h
    · rename_i x st1 e1
      split at h
      · simp at h
      · rename_i xs st2 e2
        simp only [Except.ok.injEq, Prod.mk.injEq] at h
        rw [← h.2]
        obtain ⟨⟨j, hj⟩, m1⟩ := serP_back hs v _ st x st1 hm (ho v (by simp)) e1
        obtain ⟨⟨s, hsl⟩, m2⟩ := serPL_back hs l path (i + 1) st1 xs st2 m1 (fun w hw => ho w (by simp [hw])) e2
        exact ⟨⟨j :: s, by rw [serializeL, hj, hsl]; rfl⟩, m2⟩

theorem serPD_back {W : World} {same : V → V → Bool} {root : V} (hs : SameSer W same root) (keep : Key → Bool) (rank : Nat) :
    (d : List (Key × V)) → (path : Path) → (st : PS) → (xs : List (Key × SV)) → (st' : PS) → MemoSer W root st →
    (∀ kv ∈ d, Occurs root kv.2) → serPD W same path st keep rank d = .ok (xs, st') →
    (∀ kv ∈ d, keep kv.1 = true → rankOf kv.2 = rank → ∃ j, serialize W kv.2 = .ok j) ∧ MemoSer W root st'
  | [], path, st, xs, st', hm, ho, h => by
    simp only [serPD, Except.ok.injEq, Prod.mk.injEq] at h; rw [← h.2]; exact ⟨by simp, hm⟩
  | (k, v) :: d, path, st, xs, st', hm, ho, h => by
    rw [serPD] at h
    by_cases hc : (keep k && rankOf v == rank) = true
    · rw [if_pos hc] at h
      split at h
      · simp at h
      · rename_i x st1 e1
        split at h
        · simp at h
        · rename_i xs st2 e2
          simp only [Except.ok.injEq, Prod.mk.injEq] at h
          rw [← h.2]
          obtain ⟨hj, m1⟩ := serP_back hs v _ st x st1 hm (ho (k, v) (by simp)) e1
          obtain ⟨hd, m2⟩ := serPD_back hs keep rank d path st1 xs st2 m1 (fun w hw => ho w (by simp [hw])) e2
          refine ⟨?_, m2⟩
          intro kv hkv hk hr
          rcases List.mem_cons.1 hkv with rfl | hkv
          · exact hj
          · exact hd kv hkv hk hr
    · rw [if_neg hc] at h
      obtain ⟨hd, m2⟩ := serPD_back hs keep rank d path st xs st' hm (fun w hw => ho w (by simp [hw])) h
      refine ⟨?_, m2⟩
      intro kv hkv hk hr
      rcases List.mem_cons.1 hkv with rfl | hkv
      · exact absurd (by simp only at hk hr; simp [hk, hr]) hc
      · exact hd kv hkv hk hr
end

/-- **C13.** `to_dict()` succeeds only if the pointer-free serialization succeeds, when equal objects have the same
serialization.
Missing: equal objects with different serializations (see the `_violated` theorems of C13). -/
theorem C13_failures_partial (W : World) (same : V → V → Bool) (fuel : Nat) (c : String) (d : List (Key × V))
    (r : List (Key × SV) × Heap) (h : toDictP W same fuel c d = .ok r)
    (hs : ∀ u v, Occurs (.obj c d) u → Occurs (.obj c d) v → same u v = true → serialize W u = serialize W v) :
    ∃ e, serialize W (.obj c d) = .ok (.dict e) := by
  have hs : SameSer W same (.obj c d) := hs
  have hocc : ∀ kv ∈ d, Occurs (.obj c d) kv.2 := fun kv hm => .obj (k := kv.1) hm .self
  rw [toDictP] at h
  split at h
  · simp at h
  · rename_i xs st1 e1
    split at h
    · simp at h
    · rename_i ys st2 e2
      split at h
      · simp at h
      · rename_i zs st3 e3
        obtain ⟨i1, m1⟩ := serPD_back hs _ 0 d ["#"] _ xs st1 (by intro e he; simp at he) hocc e1
        obtain ⟨i2, m2⟩ := serPD_back hs _ 1 d ["#"] st1 ys st2 m1 hocc e2
        obtain ⟨i3, m3⟩ := serPD_back hs _ 2 d ["#"] st2 zs st3 m2 hocc e3
        obtain ⟨s, hsd⟩ : ∃ s, serializeD W (serKeep W.toEnv c) d = .ok s := by
          refine serializeD_ok ?_
          intro kv hkv hk
          rcases rank_cases kv.2 with hr | hr | hr
          · exact i1 kv hkv hk hr
          · exact i2 kv hkv hk hr
          · exact i3 kv hkv hk hr
        exact ⟨_, by rw [serialize, hsd]; rfl⟩

/-- The hypotheses hold for the object of the examples. -/
example : (∃ r fuel, toDictP emitWorld (emitSame emitWorld.toEnv demoHash) fuel "m.R" emitAttrs = .ok r) ∧
    ∀ u v, Occurs (.obj "m.R" emitAttrs) u → Occurs (.obj "m.R" emitAttrs) v →
      emitSame emitWorld.toEnv demoHash u v = true → serialize emitWorld u = serialize emitWorld v := by
  obtain ⟨⟨e, he⟩, h2, h3, h4⟩ := emitAttrs_ok
  obtain ⟨R, H, refs, h, -⟩ := C13_partial _ _ 0 _ _ _ he h2 h3 h4
  exact ⟨⟨_, _, h⟩, h4⟩

end DC
