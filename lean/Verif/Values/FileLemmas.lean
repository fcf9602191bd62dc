import Verif.Values.File
import Verif.Values.WrittenProps
/- Helper lemmas for Verif/Values/FileProps.lean. -/
namespace DC
set_option linter.unusedSimpArgs false

/-! ### No file object in the serialized data -/

/-- Not a file object. -/
def NotFile (x : SV) : Prop := ∀ b n t, x ≠ .atom (.file b n t)

/-- No file object in the dictionaries and lists. -/
def Clean (H : Heap) : Prop := ∀ (b : Nat) c, H[b]? = some c → ∀ x ∈ c.values, NotFile x

theorem Clean.push {H : Heap} (h : Clean H) {c : Cell} (hc : ∀ x ∈ c.values, NotFile x) : Clean (H ++ [c]) := by
  intro b c' hb
  rcases getElem?_snoc_cases hb with hb | ⟨rfl, rfl⟩
  · exact h b c' hb
  · exact hc

/-- No file object along the serialization. -/
structure CleanPS (st : PS) : Prop where
  heap : Clean st.heap
  refs : ∀ kv ∈ st.refs, NotFile kv.2
  memo : ∀ e ∈ st.memo, NotFile e.content

theorem NotFile.ptr (a : Nat) : NotFile (.ptr a) := fun _ _ _ h => nomatch h

theorem refCell_clean (n : Nat) : ∀ x ∈ (refCell n).values, NotFile x := by
  intro x hx
  simp [refCell, Cell.values] at hx
  subst hx
  intro b n t h
  simp at h

theorem CleanPS.alloc {st} (h : CleanPS st) {c : Cell} (hc : ∀ x ∈ c.values, NotFile x) :
    CleanPS (alloc c st).2 ∧ NotFile (alloc c st).1 := ⟨⟨h.heap.push hc, h.refs, h.memo⟩, .ptr _⟩

theorem CleanPS.setRefs {st} (h : CleanPS st) (k : Key) {x : SV} (hx : NotFile x) : CleanPS { st with refs := dictSet st.refs k x } := by
  refine ⟨h.heap, ?_, h.memo⟩
  intro kv hm
  rcases mem_dictSet hm with hm | hm
  · exact h.refs kv hm
  · rw [hm]; exact hx

theorem CleanPS.hit {st} (h : CleanPS st) (e : Entry) (he : e ∈ st.memo) : CleanPS (hitRef e st).2 ∧ NotFile (hitRef e st).1 :=
  (h.setRefs (idKey e.id) (h.memo e he)).alloc (refCell_clean _)

theorem CleanPS.reg {st} (h : CleanPS st) (same : V → V → Bool) (standalone : Bool) (v : V) {c : Cell} (path : Path)
    (hc : ∀ x ∈ c.values, NotFile x) : CleanPS (register same standalone v c path st).2 ∧ NotFile (register same standalone v c path st).1 := by
  have h1 : CleanPS ⟨st.heap ++ [c], setMemo same v (.ptr st.heap.length) st.next path st.memo, st.refs, st.next + 1⟩ := by
    refine ⟨h.heap.push hc, h.refs, ?_⟩
    intro e he
    rcases mem_setMemo he with h0 | ⟨h1, -⟩
    · exact h.memo e h0
    · rw [h1]; exact .ptr _
  cases standalone with
  | false =>
    simp only [register, Bool.false_eq_true, if_false]
    exact ⟨h1, .ptr _⟩
  | true =>
    simp only [register, if_true]
    exact (h1.setRefs (idKey st.next) (.ptr st.heap.length)).alloc (refCell_clean _)

theorem dictUpdate_clean {d e : List (Key × SV)} (hd : ∀ kv ∈ d, NotFile kv.2) (he : ∀ kv ∈ e, NotFile kv.2) :
    ∀ kv ∈ dictUpdate d e, NotFile kv.2 := by
  induction e generalizing d with
  | nil => exact hd
  | cons kv e ih =>
    refine ih (d := dictSet d kv.1 kv.2) ?_ fun x hx => he x (by simp [hx])
    intro x hx
    rcases mem_dictSet hx with hx | hx
    · exact hd x hx
    · rw [hx]; exact he kv (by simp)

theorem values_clean {d : List (Key × SV)} (h : ∀ kv ∈ d, NotFile kv.2) : ∀ x ∈ (Cell.dict d).values, NotFile x := by
  intro x hx
  obtain ⟨kv, hm, rfl⟩ := List.mem_map.1 hx
  exact h kv hm

theorem append3_clean {xs ys zs : List (Key × SV)} (h1 : ∀ kv ∈ xs, NotFile kv.2) (h2 : ∀ kv ∈ ys, NotFile kv.2)
    (h3 : ∀ kv ∈ zs, NotFile kv.2) : ∀ kv ∈ xs ++ ys ++ zs, NotFile kv.2 := by
  intro kv hm
  simp only [List.mem_append] at hm
  rcases hm with (hm | hm) | hm
  exacts [h1 kv hm, h2 kv hm, h3 kv hm]

mutual
theorem serP_clean {W : World} {same : V → V → Bool} : (v : V) → (path : Path) → (st : PS) → (x : SV) → (st' : PS) →
    serP W same path st v = .ok (x, st') → NoFile v → CleanPS st → CleanPS st' ∧ NotFile x
  | .none, path, st, x, st', h, hf, ht => by
    simp only [serP, Except.ok.injEq, Prod.mk.injEq] at h; obtain ⟨rfl, rfl⟩ := h
    exact ⟨ht, by intro _ _ _ h; simp at h⟩
  | .bool b, path, st, x, st', h, hf, ht => by
    simp only [serP, Except.ok.injEq, Prod.mk.injEq] at h; obtain ⟨rfl, rfl⟩ := h
    exact ⟨ht, by intro _ _ _ h; simp at h⟩
  | .flt b, path, st, x, st', h, hf, ht => by
    simp only [serP, Except.ok.injEq, Prod.mk.injEq] at h; obtain ⟨rfl, rfl⟩ := h
    exact ⟨ht, by intro _ _ _ h; simp at h⟩
  | .str b, path, st, x, st', h, hf, ht => by
    simp only [serP, Except.ok.injEq, Prod.mk.injEq] at h; obtain ⟨rfl, rfl⟩ := h
    exact ⟨ht, by intro _ _ _ h; simp at h⟩
  | .file b n t, path, st, x, st', h, hf, ht => absurd Occurs.self (hf b n t)
  | .int i, path, st, x, st', h, hf, ht => by
    rw [serP] at h
    split at h
    · simp only [Except.ok.injEq, Prod.mk.injEq] at h; obtain ⟨rfl, rfl⟩ := h
      exact ⟨ht, by intro _ _ _ h; simp at h⟩
    · simp at h
  | .other n, path, st, x, st', h, hf, ht => by simp [serP] at h
  | .cls n, path, st, x, st', h, hf, ht => by
    rw [serP] at h
    split at h
    · simp only [Except.ok.injEq, Prod.mk.injEq] at h; obtain ⟨rfl, rfl⟩ := h
      exact ⟨ht, by intro _ _ _ h; simp at h⟩
    · simp at h
  | .measure c q, path, st, x, st', h, hf, ht => by
    rw [serP] at h
    cases hf : findMemo same st.memo (.measure c q) with
    | some e =>
      rw [hf] at h
      simp only [Except.ok.injEq] at h
      have := ht.hit e (List.mem_of_find?_eq_some hf)
      rw [h] at this; exact this
    | none =>
      rw [hf] at h
      simp only [Except.ok.injEq] at h
      have := ht.reg same false (.measure c q) (c := .dict [(.str "object_class", .atom (.str c)), (.str "value", .atom (.flt q))]) path
        (values_clean (by
          intro kv hx
          simp at hx
          rcases hx with rfl | rfl <;> (intro _ _ _ h; simp at h)))
      rw [h] at this; exact this
  | .obj c d, path, st, x, st', h, hf, ht => by
    have hd : ∀ kv ∈ d, NoFile kv.2 := fun kv hm b n t ho => hf b n t (.obj (k := kv.1) hm ho)
    rw [serP] at h
    cases hfm : findMemo same st.memo (.obj c d) with
    | some e =>
      rw [hfm] at h
      simp only [Except.ok.injEq] at h
      have := ht.hit e (List.mem_of_find?_eq_some hfm)
      rw [h] at this; exact this
    | none =>
      rw [hfm] at h
      simp only at h
      split at h
      · simp at h
      · rename_i xs st1 e1
        split at h
        · simp at h
        · rename_i ys st2 e2
          split at h
          · simp at h
          · rename_i zs st3 e3
            obtain ⟨t1, n1⟩ := serPD_clean _ 0 d path st xs st1 e1 hd ht
            obtain ⟨t2, n2⟩ := serPD_clean _ 1 d path st1 ys st2 e2 hd t1
            obtain ⟨t3, n3⟩ := serPD_clean _ 2 d path st2 zs st3 e3 hd t2
            simp only [Except.ok.injEq] at h
            have := t3.reg same (W.info c).standalone (.obj c d)
              (c := .dict (dictUpdate [(.str "object_class", .atom (.str c))] (xs ++ ys ++ zs))) path
              (values_clean (dictUpdate_clean (by
                intro kv hx; simp at hx; subst hx; intro _ _ _ h; simp at h) (append3_clean n1 n2 n3)))
            rw [h] at this; exact this
  | .dict d, path, st, x, st', h, hf, ht => by
    have hd : ∀ kv ∈ d, NoFile kv.2 := fun kv hm b n t ho => hf b n t (.dict (k := kv.1) hm ho)
    rw [serP] at h
    split at h
    · simp at h
    · rename_i xs st1 e1
      split at h
      · simp at h
      · rename_i ys st2 e2
        split at h
        · simp at h
        · rename_i zs st3 e3
          obtain ⟨t1, n1⟩ := serPD_clean _ 0 d path st xs st1 e1 hd ht
          obtain ⟨t2, n2⟩ := serPD_clean _ 1 d path st1 ys st2 e2 hd t1
          obtain ⟨t3, n3⟩ := serPD_clean _ 2 d path st2 zs st3 e3 hd t2
          simp only [Except.ok.injEq] at h
          have := t3.alloc (c := .dict (xs ++ ys ++ zs)) (values_clean (append3_clean n1 n2 n3))
          rw [h] at this; exact this
  | .list l, path, st, x, st', h, hf, ht => by
    have hd : ∀ v ∈ l, NoFile v := fun v hm b n t ho => hf b n t (.list hm ho)
    rw [serP] at h
    split at h
    · simp at h
    · rename_i xs st1 e1
      obtain ⟨t1, n1⟩ := serPL_clean l path 0 st xs st1 e1 hd ht
      simp only [Except.ok.injEq] at h
      have := t1.alloc (c := .list xs) n1
      rw [h] at this; exact this
  | .tuple l, path, st, x, st', h, hf, ht => by
    have hd : ∀ v ∈ l, NoFile v := fun v hm b n t ho => hf b n t (.tuple hm ho)
    rw [serP] at h
    split at h
    · simp at h
    · rename_i xs st1 e1
      obtain ⟨t1, n1⟩ := serPL_clean l path 0 st xs st1 e1 hd ht
      simp only [Except.ok.injEq] at h
      have := t1.alloc (c := .list xs) n1
      rw [h] at this; exact this
theorem serPL_clean {W : World} {same : V → V → Bool} : (l : List V) → (path : Path) → (i : Nat) → (st : PS) → (xs : List SV) →
    (st' : PS) → serPL W same path i st l = .ok (xs, st') → (∀ v ∈ l, NoFile v) → CleanPS st →
    CleanPS st' ∧ ∀ x ∈ xs, NotFile x
  | [], path, i, st, xs, st', h, hf, ht => by
    simp only [serPL, Except.ok.injEq, Prod.mk.injEq] at h; obtain ⟨rfl, rfl⟩ := h
    exact ⟨ht, by simp⟩
  | v :: l, path, i, st, xs, st', h, hf, ht => by
    rw [serPL] at h
    split at h
    · simp at h
    · rename_i x st1 e1
      split at h
      · simp at h
      · rename_i xs' st2 e2
        simp only [Except.ok.injEq, Prod.mk.injEq] at h; obtain ⟨rfl, rfl⟩ := h
        obtain ⟨t1, n1⟩ := serP_clean v _ st x st1 e1 (hf v (by simp)) ht
        obtain ⟨t2, n2⟩ := serPL_clean l path (i + 1) st1 xs' st2 e2 (fun w hw => hf w (by simp [hw])) t1
        refine ⟨t2, ?_⟩
        intro y hy
        rcases List.mem_cons.1 hy with rfl | hy
        · exact n1
        · exact n2 y hy
theorem serPD_clean {W : World} {same : V → V → Bool} (keep : Key → Bool) (rank : Nat) : (d : List (Key × V)) → (path : Path) →
    (st : PS) → (xs : List (Key × SV)) → (st' : PS) → serPD W same path st keep rank d = .ok (xs, st') →
    (∀ kv ∈ d, NoFile kv.2) → CleanPS st → CleanPS st' ∧ ∀ kv ∈ xs, NotFile kv.2
  | [], path, st, xs, st', h, hf, ht => by
    simp only [serPD, Except.ok.injEq, Prod.mk.injEq] at h; obtain ⟨rfl, rfl⟩ := h
    exact ⟨ht, by simp⟩
  | (k, v) :: d, path, st, xs, st', h, hf, ht => by
    rw [serPD] at h
    split at h
    · split at h
      · simp at h
      · rename_i x st1 e1
        split at h
        · simp at h
        · rename_i xs' st2 e2
          simp only [Except.ok.injEq, Prod.mk.injEq] at h; obtain ⟨rfl, rfl⟩ := h
          obtain ⟨t1, n1⟩ := serP_clean v _ st x st1 e1 (hf (k, v) (by simp)) ht
          obtain ⟨t2, n2⟩ := serPD_clean keep rank d path st1 xs' st2 e2 (fun w hw => hf w (by simp [hw])) t1
          refine ⟨t2, ?_⟩
          intro y hy
          rcases List.mem_cons.1 hy with rfl | hy
          · exact n1
          · exact n2 y hy
    · exact serPD_clean keep rank d path st xs st' h (fun w hw => hf w (by simp [hw])) ht
end

theorem Clean.set {H : Heap} (h : Clean H) (a : Nat) {c : Cell} (hc : ∀ x ∈ c.values, NotFile x) : Clean (H.set a c) := by
  intro b c' hb
  rw [List.getElem?_set] at hb
  split at hb
  · split at hb
    · simp only [Option.some.injEq] at hb; subst hb; exact hc
    · simp at hb
  · exact h b c' hb

theorem assignH_clean {H x s m H'} (h : Clean H) (he : assignH H x s (.ptr m) = .ok H') : Clean H' := by
  cases x with
  | atom v => simp [assignH] at he
  | ptr b =>
    rw [assignH] at he
    split at he
    · simp at he
    · rename_i l hl
      split at he
      · simp at he
      · split at he
        · simp at he
        · rename_i i n hn
          simp only [Except.ok.injEq] at he; subst he
          refine h.set b ?_
          intro x hx
          rcases List.mem_or_eq_of_mem_set hx with hx | rfl
          · exact h b _ hl x hx
          · exact .ptr _
    · rename_i d hd
      simp only [Except.ok.injEq] at he; subst he
      refine h.set b (values_clean ?_)
      intro kv hm
      rcases mem_dictSet hm with hm | hm
      · exact h b _ hd _ (List.mem_map.2 ⟨kv, hm, rfl⟩)
      · rw [hm]; exact .ptr _

theorem setH_clean {fuel H root path m H'} (h : Clean H) (he : setH fuel H root path (.ptr m) = .ok H') : Clean H' := by
  rw [setH] at he
  split at he
  · exact assignH_clean h he
  · split at he
    · simp at he
    · exact assignH_clean h he

theorem rewriteAll_clean {fuel root refs} : (m : List Entry) → (H H' : Heap) → Clean H → rewriteAll fuel root refs H m = .ok H' → Clean H'
  | [], H, H', h, e => by simp only [rewriteAll, Except.ok.injEq] at e; subst e; exact h
  | en :: m, H, H', h, e => by
    rw [rewriteAll] at e
    cases h1 : rewriteOne fuel root refs H en with
    | error err => rw [h1] at e; simp at e
    | ok H1 =>
      rw [h1] at e; simp only at e
      rw [rewriteOne] at h1
      split at h1
      · exact rewriteAll_clean m H1 H' (setH_clean (h.push (refCell_clean _)) h1) e
      · simp only [Except.ok.injEq] at h1; subst h1
        exact rewriteAll_clean m H H' h e

theorem entriesOf_clean {H : Heap} (h : Clean H) (a : Nat) : ∀ kv ∈ entriesOf H a, NotFile kv.2 := by
  intro kv hm
  rw [entriesOf] at hm
  split at hm
  · rename_i d hd
    exact h a _ hd _ (List.mem_map.2 ⟨kv, hm, rfl⟩)
  · simp at hm

theorem toDictP_clean {W : World} {same : V → V → Bool} {fuel c d R H} (h : toDictP W same fuel c d = .ok (R, H))
    (hf : NoFile (.obj c d)) : Clean H ∧ ∀ kv ∈ R, NotFile kv.2 := by
  have hd : ∀ kv ∈ d, NoFile kv.2 := fun kv hm b n t ho => hf b n t (.obj (k := kv.1) hm ho)
  rw [toDictP] at h
  split at h
  · simp at h
  · rename_i xs st1 e1
    split at h
    · simp at h
    · rename_i ys st2 e2
      split at h
      · simp at h
      · rename_i zs st3 e3
        have h0 : CleanPS ⟨[], [], [], 0⟩ := ⟨by intro b c hb; simp at hb, by simp, by simp⟩
        obtain ⟨t1, n1⟩ := serPD_clean _ 0 d _ _ xs st1 e1 hd h0
        obtain ⟨t2, n2⟩ := serPD_clean _ 1 d _ st1 ys st2 e2 hd t1
        obtain ⟨t3, n3⟩ := serPD_clean _ 2 d _ st2 zs st3 e3 hd t2
        split at h
        · simp at h
        · rename_i H1 e4
          simp only [Except.ok.injEq, Prod.mk.injEq] at h; obtain ⟨rfl, rfl⟩ := h
          have hall := append3_clean n1 n2 n3
          have ta := t3.alloc (c := .dict (xs ++ ys ++ zs)) (values_clean hall)
          have hH : Clean H1 := by
            rw [addReferences] at e4
            refine rewriteAll_clean _ _ _ ?_ e4
            refine (ta.1.heap.push (values_clean ta.1.refs)).set _ (values_clean ?_)
            intro kv hm
            rcases mem_dictSet hm with hm | hm
            · exact hall kv hm
            · rw [hm]; exact .ptr _
          refine ⟨hH, dictUpdate_clean ?_ (entriesOf_clean hH _)⟩
          intro kv hx; simp at hx; subst hx; intro _ _ _ h; simp at h

/-! ### What is written is read -/

theorem eachOk_ok {α β : Type} {f : α → Except PyErr β} : {l : List α} → {m : List β} → l.length = m.length →
    (∀ (i : Nat) x y, l[i]? = some x → m[i]? = some y → f x = .ok y) → eachOk f l = .ok m
  | [], [], _, _ => rfl
  | [], _ :: _, h, _ => by simp at h
  | _ :: _, [], h, _ => by simp at h
  | x :: l, y :: m, h, hf => by
    rw [eachOk, hf 0 x y rfl rfl]
    simp only
    rw [eachOk_ok (by simpa using h) fun i a b ha hb => hf (i + 1) a b (by simpa using ha) (by simpa using hb)]

theorem eachOk_map {α β γ : Type} (g : α → β) (f : β → Except PyErr γ) : (l : List α) → eachOk (fun x => f (g x)) l = eachOk f (l.map g)
  | [] => rfl
  | x :: l => by rw [eachOk, List.map_cons, eachOk, eachOk_map g f l]

theorem dictUpdate_id {d e : List (Key × V)} (h : ((d ++ e).map (·.1)).Nodup) : dictUpdate d e = d ++ e := by
  induction e generalizing d with
  | nil => simp [dictUpdate]
  | cons kv e ih =>
    have hk : kv.1 ∉ d.map (·.1) := by
      intro hm
      rw [List.map_append, List.nodup_append] at h
      exact h.2.2 _ hm kv.1 (by simp) rfl
    show dictUpdate (dictSet d kv.1 kv.2) e = _
    rw [dictSet_new _ _ _ (by simpa [keysOf] using hk)]
    rw [ih (by simpa using h)]
    simp

theorem jsonEntries_id {d : List (Key × V)} (h : (keysOf d).Nodup) (hs : ∀ k ∈ keysOf d, ∃ s, k = .str s) : jsonEntries d = d := by
  have e : (d.map fun kv => (Key.str (keyStr kv.1), kv.2)) = d := by
    conv => rhs; rw [← List.map_id d]
    refine List.map_congr_left ?_
    rintro ⟨k, v⟩ hm
    obtain ⟨s, rfl⟩ := hs k (List.mem_map.2 ⟨_, hm, rfl⟩)
    rfl
  rw [jsonEntries, e, dictUpdate_id (by simpa [keysOf] using h), List.nil_append]

theorem bound_all {P : Nat → Nat → Prop} : (k : Nat) → (∀ i, i < k → ∃ N, ∀ n, N ≤ n → P i n) → ∃ N, ∀ n, N ≤ n → ∀ i, i < k → P i n
  | 0, _ => ⟨0, fun _ _ i hi => absurd hi (Nat.not_lt_zero i)⟩
  | k + 1, h => by
    obtain ⟨N, hN⟩ := bound_all k fun i hi => h i (by omega)
    obtain ⟨M, hM⟩ := h k (by omega)
    refine ⟨max N M, fun n hn i hi => ?_⟩
    by_cases hik : i = k
    · subst hik; exact hM n (by omega)
    · exact hN n (by omega) i (by omega)

theorem eachOk_bound {α : Type} {f : Nat → α → Except PyErr V} {l : List α} {m : List V} (hl : l.length = m.length)
    (h : ∀ (i : Nat) x v, l[i]? = some x → m[i]? = some v → ∃ N, ∀ n, N ≤ n → f n x = .ok v) :
    ∃ N, ∀ n, N ≤ n → eachOk (f n) l = .ok m := by
  obtain ⟨N, hN⟩ := bound_all (P := fun i n => ∀ x v, l[i]? = some x → m[i]? = some v → f n x = .ok v) l.length (by
    intro i hi
    obtain ⟨N, hN⟩ := h i l[i] (m[i]'(by omega)) (List.getElem?_eq_getElem hi) (List.getElem?_eq_getElem (by omega))
    refine ⟨N, fun n hn x v hx hv => ?_⟩
    rw [List.getElem?_eq_getElem hi] at hx
    rw [List.getElem?_eq_getElem (by omega)] at hv
    simp only [Option.some.injEq] at hx hv
    subst hx hv
    exact hN n hn)
  exact ⟨N, fun n hn => eachOk_ok hl fun i x v hx hv => hN n hn i (List.getElem?_eq_some_iff.1 hx).1 x v hx hv⟩

theorem jsonLeaf_ok {v : V} (h : JLeaf v) (hf : NotFile (.atom v)) : jsonLeaf v = .ok v := by
  obtain ⟨h1, h2, h3⟩ := h
  cases h1 with
  | arr _ => exact absurd rfl (h2 _)
  | obj _ => exact absurd rfl (h3 _)
  | file _ => exact absurd rfl (hf _ _ _)
  | _ => rfl

theorem zip_keys {d : List (Key × SV)} {e : List (Key × V)} (h : keysOf e = d.map (·.1)) : (d.map (·.1)).zip (e.map (·.2)) = e := by
  rw [← h, keysOf]
  clear h
  induction e with
  | nil => rfl
  | cons kv e ih => simpa using ih

theorem Written.dump {n0 rk H} (hs : Shape n0 rk H) (hc : Clean H) {x v} (w : Written H x v) :
    Low H.length x → NotFile x → ∃ N, ∀ n, N ≤ n → dumpV H n x = .ok v := by
  induction w with
  | @atom v =>
    intro hl hf
    refine ⟨0, fun n _ => ?_⟩
    rw [dumpV]
    exact jsonLeaf_ok hl hf
  | @dict a d e h1 h2 h3 ih =>
    intro hl hf
    obtain ⟨k1, k2⟩ := hs.keys a _ h1 d rfl
    have hlen : d.length = e.length := by simpa [keysOf] using (congrArg List.length h2).symm
    obtain ⟨N, hN⟩ := eachOk_bound (f := fun n => dumpV H n) (l := d.map (·.2)) (m := e.map (·.2)) (by simpa using hlen) (by
      intro i x v hx hv
      exact ih i x v hx hv (hs.leaf a _ h1 x (List.mem_of_getElem? hx)) (hc a _ h1 x (List.mem_of_getElem? hx)))
    refine ⟨N + 1, fun n hn => ?_⟩
    obtain ⟨n, rfl⟩ : ∃ m, n = m + 1 := ⟨n - 1, by omega⟩
    rw [dumpV, h1]
    simp only
    rw [eachOk_map (fun kv : Key × SV => kv.2) (dumpV H n), hN n (by omega)]
    simp only
    rw [zip_keys h2, jsonEntries_id (by rw [h2]; exact k1) (by
      intro k hk
      rw [h2] at hk
      obtain ⟨s, h, _⟩ := k2 k hk
      exact ⟨s, h⟩)]
  | @list a l m h1 h2 h3 ih =>
    intro hl hf
    obtain ⟨N, hN⟩ := eachOk_bound (f := fun n => dumpV H n) (l := l) (m := m) h2 (by
      intro i x v hx hv
      exact ih i x v hx hv (hs.leaf a _ h1 x (List.mem_of_getElem? hx)) (hc a _ h1 x (List.mem_of_getElem? hx)))
    refine ⟨N + 1, fun n hn => ?_⟩
    obtain ⟨n, rfl⟩ : ∃ m, n = m + 1 := ⟨n - 1, by omega⟩
    rw [dumpV, h1]
    simp only
    rw [hN n (by omega)]

end DC
