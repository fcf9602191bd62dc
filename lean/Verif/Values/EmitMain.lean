import Verif.Values.EmitLemmas
/- Helper lemmas for Verif/Values/EmitProps.lean: the serialization before the references are added. -/
namespace DC
set_option linter.unusedSimpArgs false

theorem HExt.len {H T H' T'} (h : HExt H T H' T') : H.length ≤ H'.length := by
  rcases Nat.eq_zero_or_pos H.length with h0 | h0
  · omega
  · obtain ⟨c, hc⟩ : ∃ c, H[H.length - 1]? = some c := ⟨_, List.getElem?_eq_getElem (by omega)⟩
    have := (List.getElem?_eq_some_iff.1 (h.cells _ _ hc)).1
    omega

theorem Reads.bound {H T x j} (r : Reads H T x j) : x.below H.length := by
  cases r with
  | atom => trivial
  | ref h1 => exact (List.getElem?_eq_some_iff.1 h1).1
  | dict h1 => exact (List.getElem?_eq_some_iff.1 h1).1
  | list h1 => exact (List.getElem?_eq_some_iff.1 h1).1

/-- The value is a dictionary which is no reference.  Used in proofs only (no code). -/
def PlainDict (H : Heap) (x : SV) : Prop :=
  ∃ b d, x = .ptr b ∧ H[b]? = some (.dict d) ∧ d.lookup (.str "$ref") = none

theorem PlainDict.nonRef {H x} (h : PlainDict H x) : NonRef H x := by
  obtain ⟨b, d, hx, hb, hd⟩ := h
  exact ⟨b, .dict d, hx, hb, fun d' e => by simp only [Cell.dict.injEq] at e; rw [← e]; exact hd⟩

theorem PlainDict.mono {H T H' T'} (h : HExt H T H' T') {x} (l : PlainDict H x) : PlainDict H' x := by
  obtain ⟨b, c, hx, hb, hd⟩ := l
  exact ⟨b, c, hx, h.cells _ _ hb, hd⟩

/-- What holds all along the serialization of `root`.  Used in proofs only (no code). -/
structure EInv (W : World) (root : V) (st : PS) : Prop where
  occ : ∀ e ∈ st.memo, Occurs root e.value
  reads : ∀ e ∈ st.memo, ∃ j, serialize W e.value = .ok j ∧ Reads st.heap st.refs e.content j
  lt : ∀ e ∈ st.memo, e.id < st.next
  refsId : ∀ e ∈ st.memo, ∀ x, st.refs.lookup (idKey e.id) = some x → x = e.content
  fresh : ∀ n, st.next ≤ n → st.refs.lookup (idKey n) = none
  uniq : ∀ e ∈ st.memo, ∀ e' ∈ st.memo, e.id = e'.id → e.content = e'.content
  plain : ∀ e ∈ st.memo, PlainDict st.heap e.content
  refsPlain : ∀ k x, st.refs.lookup k = some x → PlainDict st.heap x
  refsReads : ∀ k x, st.refs.lookup k = some x → ∃ v j, Occurs root v ∧ serialize W v = .ok j ∧ Reads st.heap st.refs x j
  refsKeys : ∀ kv ∈ st.refs, ∃ n, kv.1 = idKey n
  refsNodup : (st.refs.map (·.1)).Nodup
  bounded : ∀ (b : Nat) c, st.heap[b]? = some c → ∀ x ∈ c.values, x.below st.heap.length

/-- What serializing one value does.  Used in proofs only (no code). -/
structure SerOk (W : World) (root : V) (path : Path) (st : PS) (j : V) (x : SV) (st' : PS) : Prop where
  inv : EInv W root st'
  ext : HExt st.heap st.refs st'.heap st'.refs
  reads : Reads st'.heap st'.refs x j
  memo : ∀ e ∈ st'.memo, e ∈ st.memo ∨ ∃ rel, e.path = path ++ rel ∧ Follow st'.heap st'.refs x rel e.content

/-- Same for some entries of a dictionary.  Used in proofs only (no code). -/
structure SerDOk (W : World) (root : V) (path : Path) (st : PS) (sel : Key × V → Bool) (d : List (Key × V))
    (xs : List (Key × SV)) (st' : PS) : Prop where
  inv : EInv W root st'
  ext : HExt st.heap st.refs st'.heap st'.refs
  keys : xs.map (·.1) = (d.filter sel).map (·.1)
  reads : ∀ kx ∈ xs, ∃ v j, (kx.1, v) ∈ d ∧ sel (kx.1, v) = true ∧ serialize W v = .ok j ∧
    Reads st'.heap st'.refs kx.2 j
  memo : ∀ e ∈ st'.memo, e ∈ st.memo ∨ ∃ kx ∈ xs, ∃ rel, e.path = path.key kx.1 ++ rel ∧
    Follow st'.heap st'.refs kx.2 rel e.content

/-- Same for the elements of a list, the first one having index `i`.  Used in proofs only (no code). -/
structure SerLOk (W : World) (root : V) (path : Path) (i : Nat) (st : PS) (js : List V)
    (xs : List SV) (st' : PS) : Prop where
  inv : EInv W root st'
  ext : HExt st.heap st.refs st'.heap st'.refs
  len : xs.length = js.length
  reads : ∀ (n : Nat) x j, xs[n]? = some x → js[n]? = some j → Reads st'.heap st'.refs x j
  memo : ∀ e ∈ st'.memo, e ∈ st.memo ∨ ∃ (n : Nat) (x : SV) (rel : Path), xs[n]? = some x ∧
    e.path = path.idx (i + n) ++ rel ∧ Follow st'.heap st'.refs x rel e.content

theorem getElem?_snoc {α} (l : List α) (a : α) : (l ++ [a])[l.length]? = some a := by simp

theorem getElem?_snoc_cases {α} {l : List α} {a c : α} {b : Nat} (h : (l ++ [a])[b]? = some c) :
    l[b]? = some c ∨ (b = l.length ∧ c = a) := by
  have hl := (List.getElem?_eq_some_iff.1 h).1
  simp only [List.length_append, List.length_singleton] at hl
  by_cases hb : b < l.length
  · left; rw [List.getElem?_append_left hb] at h; exact h
  · have : b = l.length := by omega
    subst this
    rw [getElem?_snoc] at h
    exact .inr ⟨rfl, by simpa using h.symm⟩

/-- A new dictionary or list keeps the invariant. -/
theorem EInv.alloc {W root st} (h : EInv W root st) (c : Cell) (hc : ∀ x ∈ c.values, x.below (st.heap.length)) :
    EInv W root (alloc c st).2 := by
  have hx : HExt st.heap st.refs (st.heap ++ [c]) st.refs := .append _
  refine ⟨h.occ, ?_, h.lt, h.refsId, h.fresh, h.uniq, fun e he => (h.plain e he).mono hx,
    fun k x hk => (h.refsPlain k x hk).mono hx, ?_, h.refsKeys, h.refsNodup, ?_⟩
  · intro e he
    obtain ⟨j, hj, hr⟩ := h.reads e he
    exact ⟨j, hj, hr.mono hx⟩
  · intro k x hk
    obtain ⟨v, j, ho, hj, hr⟩ := h.refsReads k x hk
    exact ⟨v, j, ho, hj, hr.mono hx⟩
  · intro b c' hb x hxv
    refine SV.below.mono (n := st.heap.length) (by simp [DC.alloc]) ?_
    rcases getElem?_snoc_cases hb with hb | ⟨-, rfl⟩
    · exact h.bounded b c' hb x hxv
    · exact hc x hxv

theorem refCell_lookup (n : Nat) :
    ([(Key.str "$ref", SV.atom (.str (refStr n)))] : List (Key × SV)).lookup (.str "$ref") = some (.atom (.str (refStr n))) := by
  simp

theorem leads_refCell {H : Heap} {T : List (Key × SV)} {n : Nat} {c : SV} (h : T.lookup (idKey n) = some c) :
    Leads (H ++ [refCell n]) T (.ptr H.length) c :=
  ⟨H.length, _, n, rfl, getElem?_snoc _ _, refCell_lookup n, h⟩

theorem Leads.reads {H T x c j} (l : Leads H T x c) (r : Reads H T c j) : Reads H T x j := by
  obtain ⟨b, d, n, rfl, hb, hd, hn⟩ := l
  exact .ref hb hd hn r

theorem dictSet_nodup' {α : Type} (d : List (Key × α)) (k : Key) (v : α) (h : (d.map (·.1)).Nodup) :
    ((dictSet d k v).map (·.1)).Nodup ∧ ∀ q, q ∈ (dictSet d k v).map (·.1) → q ∈ d.map (·.1) ∨ q = k := by
  induction d with
  | nil => simp [dictSet]
  | cons kv d ih =>
    obtain ⟨k', v'⟩ := kv
    rw [List.map_cons, List.nodup_cons] at h
    rw [dictSet]
    split
    · rename_i e; subst e
      simp only [List.map_cons, List.nodup_cons]
      exact ⟨h, fun q hq => .inl hq⟩
    · rename_i e
      obtain ⟨i1, i2⟩ := ih h.2
      simp only [List.map_cons, List.nodup_cons]
      refine ⟨⟨?_, i1⟩, ?_⟩
      · intro hm
        rcases i2 _ hm with hm | hm
        · exact h.1 hm
        · exact e hm
      · intro q hq
        rcases List.mem_cons.1 hq with rfl | hq
        · exact .inl (by simp)
        · rcases i2 q hq with hq | hq
          · exact .inl (List.mem_cons_of_mem _ hq)
          · exact .inr hq

/-- Emitting a reference to an entry of the memo. -/
theorem EInv.hit {W root st} (h : EInv W root st) {e : Entry} (he : e ∈ st.memo) (e' : Entry) (hi : e'.id = e.id)
    (hc : e'.content = e.content) :
    EInv W root (hitRef e' st).2 ∧ HExt st.heap st.refs (hitRef e' st).2.heap (hitRef e' st).2.refs ∧
    Leads (hitRef e' st).2.heap (hitRef e' st).2.refs (hitRef e' st).1 e.content ∧ (hitRef e' st).2.memo = st.memo := by
  have e0 : hitRef e' st = DC.alloc (refCell e.id) { st with refs := dictSet st.refs (idKey e.id) e.content } := by
    rw [hitRef, hi, hc]
  rw [e0]
  have hx : HExt st.heap st.refs st.heap (dictSet st.refs (idKey e.id) e.content) := by
    refine ⟨fun _ _ h => h, fun k x hk => ?_⟩
    by_cases hke : k = idKey e.id
    · subst hke
      rw [lookup_dictSet_self, h.refsId e he x hk]
    · rw [lookup_dictSet_ne _ _ _ _ hke]; exact hk
  have hl := lookup_dictSet_self st.refs (idKey e.id) e.content
  have inv1 : EInv W root { st with refs := dictSet st.refs (idKey e.id) e.content } := by
    refine ⟨h.occ, ?_, h.lt, ?_, ?_, h.uniq, h.plain, ?_, ?_, ?_, ?_, h.bounded⟩
    · intro e2 he2
      obtain ⟨j, hj, hr⟩ := h.reads e2 he2
      exact ⟨j, hj, hr.mono hx⟩
    · intro e2 he2 x hxl
      by_cases hee : e2.id = e.id
      · simp only at hxl
        rw [hee, hl] at hxl
        simp only [Option.some.injEq] at hxl
        rw [← hxl]; exact (h.uniq e2 he2 e he hee).symm
      · simp only at hxl
        rw [lookup_dictSet_ne _ _ _ _ (fun q => hee (idKey_inj q))] at hxl
        exact h.refsId e2 he2 x hxl
    · intro n hn
      simp only at hn ⊢
      rw [lookup_dictSet_ne _ _ _ _ (fun q => ?_)]
      · exact h.fresh n hn
      · have := h.lt e he
        have := idKey_inj q
        omega
    · intro k x hk
      simp only at hk ⊢
      by_cases hke : k = idKey e.id
      · subst hke
        rw [hl] at hk
        simp only [Option.some.injEq] at hk
        rw [← hk]; exact h.plain e he
      · rw [lookup_dictSet_ne _ _ _ _ hke] at hk; exact h.refsPlain k x hk
    · intro k x hk
      simp only at hk ⊢
      by_cases hke : k = idKey e.id
      · subst hke
        rw [hl] at hk
        simp only [Option.some.injEq] at hk
        obtain ⟨j, hj, hr⟩ := h.reads e he
        rw [← hk]; exact ⟨_, j, h.occ e he, hj, hr.mono hx⟩
      · rw [lookup_dictSet_ne _ _ _ _ hke] at hk
        obtain ⟨v, j, ho, hj, hr⟩ := h.refsReads k x hk
        exact ⟨v, j, ho, hj, hr.mono hx⟩
    · intro kv hkv
      have hm : kv.1 ∈ (dictSet st.refs (idKey e.id) e.content).map (·.1) := List.mem_map.2 ⟨kv, hkv, rfl⟩
      rcases (dictSet_nodup' _ _ _ h.refsNodup).2 _ hm with hm | hm
      · obtain ⟨kv', h1, h2⟩ := List.mem_map.1 hm
        obtain ⟨n, hn⟩ := h.refsKeys kv' h1
        exact ⟨n, by rw [← h2, hn]⟩
      · exact ⟨_, hm⟩
    · exact (dictSet_nodup' _ _ _ h.refsNodup).1
  refine ⟨inv1.alloc _ ?_, hx.trans (.append _), leads_refCell hl, rfl⟩
  intro x hxv
  simp [refCell, Cell.values] at hxv
  subst hxv; trivial

theorem mem_setMemo {same : V → V → Bool} {v : V} {x : SV} {id : Nat} {path : Path} {e : Entry} {m : List Entry}
    (h : e ∈ setMemo same v x id path m) :
    e ∈ m ∨ (e.content = x ∧ e.id = id ∧ e.path = path ∧ (e.value = v ∨ (same e.value v = true ∧ ∃ e' ∈ m, e'.value = e.value))) := by
  induction m with
  | nil => simp [setMemo] at h; subst h; simp
  | cons e0 m ih =>
    rw [setMemo] at h
    split at h
    · rename_i hs
      rcases List.mem_cons.1 h with rfl | h
      · right; exact ⟨rfl, rfl, rfl, .inr ⟨hs, e0, by simp, rfl⟩⟩
      · left; exact List.mem_cons_of_mem _ h
    · rcases List.mem_cons.1 h with rfl | h
      · left; simp
      · rcases ih h with h | ⟨h1, h2, h3, h4⟩
        · left; exact List.mem_cons_of_mem _ h
        · right
          refine ⟨h1, h2, h3, ?_⟩
          rcases h4 with h4 | ⟨h4, e', h5, h6⟩
          · exact .inl h4
          · exact .inr ⟨h4, e', List.mem_cons_of_mem _ h5, h6⟩

theorem setMemo_has (same : V → V → Bool) (v : V) (x : SV) (id : Nat) (path : Path) (m : List Entry) :
    ∃ e ∈ setMemo same v x id path m, e.content = x ∧ e.id = id ∧ e.path = path := by
  induction m with
  | nil => exact ⟨_, by simp [setMemo]; rfl, rfl, rfl, rfl⟩
  | cons e0 m ih =>
    rw [setMemo]
    split
    · exact ⟨_, List.mem_cons_self, rfl, rfl, rfl⟩
    · obtain ⟨e, h1, h2⟩ := ih
      exact ⟨e, List.mem_cons_of_mem _ h1, h2⟩

/-- Equal objects and measures have the same serialization, inside `root`.  Used in proofs only (no code). -/
def SameSer (W : World) (same : V → V → Bool) (root : V) : Prop :=
  ∀ u v, Occurs root u → Occurs root v → same u v = true → serialize W u = serialize W v

/-- Storing a new object in the memo. -/
theorem EInv.reg {W root st same} (h : EInv W root st) (hs : SameSer W same root) (standalone : Bool) {v : V}
    (ho : Occurs root v) {D : List (Key × SV)} (path : Path) {j : V} (hj : serialize W v = .ok j)
    (hD : D.lookup (.str "$ref") = none) (hb : ∀ kx ∈ D, kx.2.below st.heap.length)
    (hr : Reads (st.heap ++ [.dict D]) st.refs (.ptr st.heap.length) j) :
    EInv W root (register same standalone v (.dict D) path st).2 ∧
    HExt st.heap st.refs (register same standalone v (.dict D) path st).2.heap (register same standalone v (.dict D) path st).2.refs ∧
    (register same standalone v (.dict D) path st).2.heap[st.heap.length]? = some (.dict D) ∧
    Der (register same standalone v (.dict D) path st).2.heap (register same standalone v (.dict D) path st).2.refs
      (register same standalone v (.dict D) path st).1 (.ptr st.heap.length) ∧
    (∀ e ∈ (register same standalone v (.dict D) path st).2.memo, e ∈ st.memo ∨ (e.path = path ∧ e.content = .ptr st.heap.length)) := by
  have hx : HExt st.heap st.refs (st.heap ++ [.dict D]) st.refs := .append _
  have hpl : PlainDict (st.heap ++ [.dict D]) (.ptr st.heap.length) := ⟨_, D, rfl, getElem?_snoc _ _, hD⟩
  have inv1 : EInv W root ⟨st.heap ++ [.dict D], setMemo same v (.ptr st.heap.length) st.next path st.memo, st.refs, st.next + 1⟩ := by
    have hv : ∀ e ∈ setMemo same v (.ptr st.heap.length) st.next path st.memo, e ∉ st.memo →
        Occurs root e.value ∧ serialize W e.value = .ok j := by
      intro e he hn
      rcases mem_setMemo he with h0 | ⟨h1, h2, h3, rfl | ⟨h4, e', h5, h6⟩⟩
      · exact absurd h0 hn
      · exact ⟨ho, hj⟩
      · have ho' : Occurs root e.value := by rw [← h6]; exact h.occ e' h5
        exact ⟨ho', by rw [hs _ _ ho' ho h4, hj]⟩
    refine ⟨?_, ?_, ?_, ?_, ?_, ?_, ?_, fun k x hk => (h.refsPlain k x hk).mono hx, ?_, h.refsKeys, h.refsNodup, ?_⟩
    · intro e he
      by_cases hm : e ∈ st.memo
      · exact h.occ e hm
      · exact (hv e he hm).1
    · intro e he
      by_cases hm : e ∈ st.memo
      · obtain ⟨j', h1, h2⟩ := h.reads e hm
        exact ⟨j', h1, h2.mono hx⟩
      · refine ⟨j, (hv e he hm).2, ?_⟩
        rcases mem_setMemo he with h0 | ⟨h1, -⟩
        · exact absurd h0 hm
        · rw [h1]; exact hr
    · intro e he
      rcases mem_setMemo he with h0 | ⟨-, h1, -⟩
      · exact Nat.lt_succ_of_lt (h.lt e h0)
      · rw [h1]; exact Nat.lt_succ_self _
    · intro e he x hxl
      rcases mem_setMemo he with h0 | ⟨-, h1, -⟩
      · exact h.refsId e h0 x hxl
      · simp only at hxl
        rw [h1, h.fresh _ (Nat.le_refl _)] at hxl; simp at hxl
    · intro n hn
      exact h.fresh n (by simp only at hn; omega)
    · intro e he e' he' hid
      rcases mem_setMemo he with h0 | ⟨h1, h2, -⟩ <;> rcases mem_setMemo he' with h0' | ⟨h1', h2', -⟩
      · exact h.uniq e h0 e' h0' hid
      · have := h.lt e h0; omega
      · have := h.lt e' h0'; omega
      · rw [h1, h1']
    · intro e he
      rcases mem_setMemo he with h0 | ⟨h1, -⟩
      · exact (h.plain e h0).mono hx
      · rw [h1]; exact hpl
    · intro k x hk
      obtain ⟨v, j, ho, hj, hr⟩ := h.refsReads k x hk
      exact ⟨v, j, ho, hj, hr.mono hx⟩
    · intro b c' hbc x hxv
      refine SV.below.mono (n := st.heap.length) (by simp) ?_
      rcases getElem?_snoc_cases hbc with hbc | ⟨-, rfl⟩
      · exact h.bounded b c' hbc x hxv
      · obtain ⟨kx, h1, rfl⟩ := List.mem_map.1 hxv
        exact hb kx h1
  cases standalone with
  | false =>
    have e0 : register same false v (.dict D) path st =
      (.ptr st.heap.length, ⟨st.heap ++ [.dict D], setMemo same v (.ptr st.heap.length) st.next path st.memo, st.refs, st.next + 1⟩) := by
      simp [register]
    rw [e0]
    refine ⟨inv1, hx, getElem?_snoc _ _, .inr ⟨rfl, hpl.nonRef⟩, ?_⟩
    intro e he
    rcases mem_setMemo he with h0 | ⟨h1, h2, h3, -⟩
    · exact .inl h0
    · exact .inr ⟨h3, h1⟩
  | true =>
    have e0 : register same true v (.dict D) path st =
      hitRef ⟨v, .ptr st.heap.length, st.next, path⟩
        ⟨st.heap ++ [.dict D], setMemo same v (.ptr st.heap.length) st.next path st.memo, st.refs, st.next + 1⟩ := by
      simp [register, hitRef]
    rw [e0]
    obtain ⟨e, he, hc, hi, -⟩ := setMemo_has same v (.ptr st.heap.length) st.next path st.memo
    obtain ⟨i1, i2, i3, i4⟩ := inv1.hit he ⟨v, .ptr st.heap.length, st.next, path⟩ hi.symm hc.symm
    refine ⟨i1, hx.trans i2, i2.cells _ _ (getElem?_snoc _ _), .inl (hc ▸ i3), ?_⟩
    rw [i4]
    intro e he
    rcases mem_setMemo he with h0 | ⟨h1, h2, h3, -⟩
    · exact .inl h0
    · exact .inr ⟨h3, h1⟩

/-! ### The recursion -/

theorem serializeD_facts {W : World} {keep : Key → Bool} : {d s : List (Key × V)} → serializeD W keep d = .ok s →
    s.map (·.1) = (d.filter fun kv => keep kv.1).map (·.1) ∧
    ∀ kv ∈ d, keep kv.1 = true → ∃ j, serialize W kv.2 = .ok j ∧ (kv.1, j) ∈ s
  | [], s, h => by simp [serializeD] at h; subst h; simp
  | (k, v) :: d, s, h => by
    rw [serializeD] at h
    by_cases hk : keep k = true
    · rw [if_pos hk, bind_ok] at h
      obtain ⟨j, hj, h⟩ := h
      rw [bind_ok] at h
      obtain ⟨r, hr, h⟩ := h
      simp only [Except.ok.injEq] at h; subst h
      obtain ⟨i1, i2⟩ := serializeD_facts hr
      refine ⟨by simp [hk, i1], ?_⟩
      intro kv hm hkv
      rcases List.mem_cons.1 hm with rfl | hm
      · exact ⟨j, hj, by simp⟩
      · obtain ⟨j', h1, h2⟩ := i2 kv hm hkv
        exact ⟨j', h1, List.mem_cons_of_mem _ h2⟩
    · rw [if_neg hk] at h
      obtain ⟨i1, i2⟩ := serializeD_facts h
      refine ⟨by simp [hk, i1], ?_⟩
      intro kv hm hkv
      rcases List.mem_cons.1 hm with rfl | hm
      · exact absurd hkv hk
      · exact i2 kv hm hkv

theorem serializeL_facts {W : World} : {l s : List V} → serializeL W l = .ok s →
    s.length = l.length ∧ ∀ (n : Nat) v j, l[n]? = some v → s[n]? = some j → serialize W v = .ok j
  | [], s, h => by simp [serializeL] at h; subst h; simp
  | v :: l, s, h => by
    rw [serializeL, bind_ok] at h
    obtain ⟨j, hj, h⟩ := h
    rw [bind_ok] at h
    obtain ⟨r, hr, h⟩ := h
    simp only [Except.ok.injEq] at h; subst h
    obtain ⟨i1, i2⟩ := serializeL_facts hr
    refine ⟨by simp [i1], ?_⟩
    intro n v' j' h1 h2
    cases n with
    | zero => simp at h1 h2; subst h1 h2; exact hj
    | succ n => simp at h1 h2; exact i2 n v' j' h1 h2

theorem perm_lookup {s : List (Key × V)} (hn : (s.map (·.1)).Nodup) {L : List (Key × SV)}
    (hk : (L.map (·.1)).Perm (s.map (·.1))) :
    (L.map fun kx => (kx.1, (s.lookup kx.1).getD .none)).Perm s := by
  have e1 : s = (s.map (·.1)).map fun k => (k, (s.lookup k).getD .none) := by
    rw [List.map_map]
    conv_lhs => rw [← List.map_id s]
    apply List.map_congr_left
    intro kv hkv
    obtain ⟨k, v⟩ := kv
    simp [Dict.mem_lookup hn hkv]
  have e2 : (L.map fun kx => (kx.1, (s.lookup kx.1).getD .none)) = (L.map (·.1)).map fun k => (k, (s.lookup k).getD .none) := by
    rw [List.map_map]; rfl
  rw [e2]
  conv_rhs => rw [e1]
  exact hk.map _

/-- A new dictionary reads as expected. -/
theorem reads_cell {H : Heap} {T : List (Key × SV)} {L : List (Key × SV)} {s : List (Key × V)} (hn : (s.map (·.1)).Nodup)
    (hk : (L.map (·.1)).Perm (s.map (·.1))) (href : L.lookup (.str "$ref") = none)
    (hr : ∀ kx ∈ L, ∃ j, (kx.1, j) ∈ s ∧ Reads H T kx.2 j) :
    Reads (H ++ [.dict L]) T (.ptr H.length) (.dict s) := by
  refine .dict (getElem?_snoc _ _) href (f := fun k => (s.lookup k).getD .none) ?_ (perm_lookup hn hk)
  intro kx hm
  obtain ⟨j, h1, h2⟩ := hr kx hm
  simp only [Dict.mem_lookup hn h1, Option.getD_some]
  exact h2.mono (.append _)

theorem extractH_dict {H : Heap} {a : Nat} {D : List (Key × SV)} {s : String} {y : SV} (h : H[a]? = some (.dict D))
    (hl : D.lookup (.str s) = some y) : extractH H (.ptr a) s = .ok y := by
  simp [extractH, h, hl]

theorem extractH_list {H : Heap} {a : Nat} {l : List SV} {n : Nat} {y : SV} (h : H[a]? = some (.list l))
    (hl : l[n]? = some y) : extractH H (.ptr a) (toString n) = .ok y := by
  have hlt := (List.getElem?_eq_some_iff.1 hl).1
  have : seqIndex l.length (n : Int) = some n := by
    simp [seqIndex, hlt]
  simp only [extractH, h, int_toString, this, hl]

/-- What the three loops on a dictionary do.  Used in proofs only (no code). -/
structure SerAll (W : World) (root : V) (path : Path) (st : PS) (keep : Key → Bool) (d : List (Key × V))
    (L : List (Key × SV)) (st' : PS) : Prop where
  inv : EInv W root st'
  ext : HExt st.heap st.refs st'.heap st'.refs
  keys : (L.map (·.1)).Perm ((d.filter fun kv => keep kv.1).map (·.1))
  reads : ∀ kx ∈ L, ∃ v j, (kx.1, v) ∈ d ∧ keep kx.1 = true ∧ serialize W v = .ok j ∧
    Reads st'.heap st'.refs kx.2 j
  memo : ∀ e ∈ st'.memo, e ∈ st.memo ∨ ∃ kx ∈ L, ∃ rel, e.path = path.key kx.1 ++ rel ∧
    Follow st'.heap st'.refs kx.2 rel e.content

theorem rank_perm (keep : Key → Bool) (d : List (Key × V)) :
    (((d.filter fun kv => keep kv.1 && rankOf kv.2 == 0).map (·.1)) ++ ((d.filter fun kv => keep kv.1 && rankOf kv.2 == 1).map (·.1)) ++
      ((d.filter fun kv => keep kv.1 && rankOf kv.2 == 2).map (·.1))).Perm ((d.filter fun kv => keep kv.1).map (·.1)) := by
  induction d with
  | nil => simp
  | cons kv d ih =>
    obtain ⟨k, v⟩ := kv
    by_cases hk : keep k = true
    · have hr : rankOf v = 0 ∨ rankOf v = 1 ∨ rankOf v = 2 := by cases v <;> simp [rankOf]
      rcases hr with hr | hr | hr
      · simp [hk, hr]; simpa using ih
      · simp [hk, hr]
        refine List.perm_middle.trans (List.Perm.cons _ ?_)
        simpa using ih
      · simp [hk, hr]
        rw [← List.append_assoc]
        refine List.perm_middle.trans (List.Perm.cons _ ?_)
        simpa using ih
    · simp [hk]; simpa using ih

theorem serAll_of {W root path st keep d xs ys zs st1 st2 st3}
    (h0 : SerDOk W root path st (fun kv => keep kv.1 && rankOf kv.2 == 0) d xs st1)
    (h1 : SerDOk W root path st1 (fun kv => keep kv.1 && rankOf kv.2 == 1) d ys st2)
    (h2 : SerDOk W root path st2 (fun kv => keep kv.1 && rankOf kv.2 == 2) d zs st3) :
    SerAll W root path st keep d (xs ++ ys ++ zs) st3 := by
  refine ⟨h2.inv, (h0.ext.trans h1.ext).trans h2.ext, ?_, ?_, ?_⟩
  · rw [List.map_append, List.map_append, h0.keys, h1.keys, h2.keys]
    exact rank_perm keep d
  · intro kx hm
    rcases List.mem_append.1 hm with hm | hm
    · rcases List.mem_append.1 hm with hm | hm
      · obtain ⟨v, j, a, b, c, e⟩ := h0.reads kx hm
        simp only [Bool.and_eq_true] at b
        exact ⟨v, j, a, b.1, c, e.mono (h1.ext.trans h2.ext)⟩
      · obtain ⟨v, j, a, b, c, e⟩ := h1.reads kx hm
        simp only [Bool.and_eq_true] at b
        exact ⟨v, j, a, b.1, c, e.mono h2.ext⟩
    · obtain ⟨v, j, a, b, c, e⟩ := h2.reads kx hm
      simp only [Bool.and_eq_true] at b
      exact ⟨v, j, a, b.1, c, e⟩
  · intro e he
    rcases h2.memo e he with he | ⟨kx, a, rel, b, c⟩
    · rcases h1.memo e he with he | ⟨kx, a, rel, b, c⟩
      · rcases h0.memo e he with he | ⟨kx, a, rel, b, c⟩
        · exact .inl he
        · exact .inr ⟨kx, by simp [a], rel, b, c.mono (h1.ext.trans h2.ext)⟩
      · exact .inr ⟨kx, by simp [a], rel, b, c.mono h2.ext⟩
    · exact .inr ⟨kx, by simp [a], rel, b, c⟩

theorem occurs_trans {a b c : V} (h : Occurs a b) (h' : Occurs b c) : Occurs a c := by
  induction h with
  | self => exact h'
  | list m _ ih => exact .list m (ih h')
  | tuple m _ ih => exact .tuple m (ih h')
  | dict m _ ih => exact .dict m (ih h')
  | obj m _ ih => exact .obj m (ih h')

theorem path_key {k : String} (h : '/' ∉ k.toList) (path : Path) : path.key (.str k) = path ++ [k] := by
  rw [Path.key, keyStr, splitSlash_plain h]

/-- The keys of the dictionary made are those of the serialized dictionary. -/
theorem SerAll.facts {W root path st keep d L st' s} (h : SerAll W root path st keep d L st') (hs : serializeD W keep d = .ok s)
    (hn : (keysOf d).Nodup) : (s.map (·.1)).Nodup ∧ (L.map (·.1)).Nodup ∧ (L.map (·.1)).Perm (s.map (·.1)) ∧
      (∀ kx ∈ L, ∃ j, (kx.1, j) ∈ s ∧ Reads st'.heap st'.refs kx.2 j) ∧ (∀ k ∈ L.map (·.1), k ∈ keysOf d) ∧
      (∀ k ∈ s.map (·.1), k ∈ keysOf d) := by
  obtain ⟨f1, f2⟩ := serializeD_facts hs
  have n1 : (s.map (·.1)).Nodup := by
    rw [f1]
    exact hn.sublist (List.Sublist.map _ List.filter_sublist)
  have p1 : (L.map (·.1)).Perm (s.map (·.1)) := by rw [f1]; exact h.keys
  have k2 : ∀ k ∈ s.map (·.1), k ∈ keysOf d := by
    intro k hk
    rw [f1] at hk
    exact (List.Sublist.map _ List.filter_sublist).subset hk
  refine ⟨n1, p1.nodup_iff.2 n1, p1, ?_, fun k hk => k2 k (p1.subset hk), k2⟩
  intro kx hm
  obtain ⟨v, j, h1, h2, h3, h4⟩ := h.reads kx hm
  obtain ⟨j', h5, h6⟩ := f2 _ h1 h2
  rw [h3] at h5
  simp only [Except.ok.injEq] at h5; subst h5
  exact ⟨j, h6, h4⟩

theorem lookup_ref_none {L : List (Key × SV)} (h : ∀ k ∈ L.map (·.1), PlainKey k) : L.lookup (.str "$ref") = none := by
  rw [Dict.lookup_none]
  intro hm
  obtain ⟨s, h1, -, h3⟩ := h _ hm
  simp only [Key.str.injEq] at h1
  exact h3 h1.symm

/-- Paths inside a new dictionary. -/
theorem follow_key {H T H' T' D y} {path : Path} {x c : SV} {a : Nat} {k : Key} {rel p : Path} (hx : HExt H T H' T')
    (hd : Der H' T' x (.ptr a)) (ha : H'[a]? = some (.dict D)) (hl : D.lookup k = some y) (hk : PlainKey k)
    (hp : p = path.key k ++ rel) (hf : Follow H T y rel c) : ∃ rel', p = path ++ rel' ∧ Follow H' T' x rel' c := by
  obtain ⟨s, rfl, hs, -⟩ := hk
  refine ⟨s :: rel, by rw [hp, path_key hs]; simp, .step hd (.key ha hl) (hf.mono hx)⟩

mutual
theorem serP_ok {W : World} {same : V → V → Bool} {root : V} (hs : SameSer W same root) (hk : PlainKeys root) :
    (v : V) → (path : Path) → (st : PS) → (j : V) → EInv W root st → Occurs root v → serialize W v = .ok j →
    ∃ x st', serP W same path st v = .ok (x, st') ∧ SerOk W root path st j x st'
  | .none, path, st, j, hi, ho, hj => by
    simp only [serialize, Except.ok.injEq] at hj; subst hj
    exact ⟨_, _, rfl, hi, .refl, .atom, fun e he => .inl he⟩
  | .bool b, path, st, j, hi, ho, hj => by
    simp only [serialize, Except.ok.injEq] at hj; subst hj
    exact ⟨_, _, rfl, hi, .refl, .atom, fun e he => .inl he⟩
  | .flt q, path, st, j, hi, ho, hj => by
    simp only [serialize, Except.ok.injEq] at hj; subst hj
    exact ⟨_, _, rfl, hi, .refl, .atom, fun e he => .inl he⟩
  | .str s, path, st, j, hi, ho, hj => by
    simp only [serialize, Except.ok.injEq] at hj; subst hj
    exact ⟨_, _, rfl, hi, .refl, .atom, fun e he => .inl he⟩
  | .file b n t, path, st, j, hi, ho, hj => by
    simp only [serialize, Except.ok.injEq] at hj; subst hj
    exact ⟨_, _, rfl, hi, .refl, .atom, fun e he => .inl he⟩
  | .int i, path, st, j, hi, ho, hj => by
    simp only [serialize] at hj
    by_cases h : jsonInt i = true
    · rw [if_pos h] at hj
      simp only [Except.ok.injEq] at hj; subst hj
      exact ⟨.atom (.int i), st, by rw [serP, if_pos h], hi, .refl, .atom, fun e he => .inl he⟩
    · rw [if_neg h] at hj; simp at hj
  | .other n, path, st, j, hi, ho, hj => by simp [serialize] at hj
  | .cls n, path, st, j, hi, ho, hj => by
    rw [serialize, bind_ok] at hj
    obtain ⟨s, h1, hj⟩ := hj
    simp only [Except.ok.injEq] at hj; subst hj
    exact ⟨.atom (.str s), st, by rw [serP, h1], hi, .refl, .atom, fun e he => .inl he⟩
  | .measure c q, path, st, j, hi, ho, hj => by
    cases hf : findMemo same st.memo (.measure c q) with
    | some e =>
      have he : e ∈ st.memo := List.mem_of_find?_eq_some hf
      have hse : same e.value (.measure c q) = true := by simpa using List.find?_some hf
      obtain ⟨i1, i2, i3, i4⟩ := hi.hit he e rfl rfl
      obtain ⟨j', r1, r2⟩ := hi.reads e he
      have : j' = j := by
        rw [hs _ _ (hi.occ e he) ho hse, hj] at r1
        simpa using r1.symm
      subst this
      exact ⟨(hitRef e st).1, (hitRef e st).2, by rw [serP, hf], i1, i2, i3.reads (r2.mono i2), by rw [i4]; exact fun e he => .inl he⟩
    | none =>
      have hj' := hj
      simp only [serialize, Except.ok.injEq] at hj'; subst hj'
      have hr : Reads (st.heap ++ [.dict [(.str "object_class", .atom (.str c)), (.str "value", .atom (.flt q))]]) st.refs
          (.ptr st.heap.length) (.dict [(.str "object_class", .str c), (.str "value", .flt q)]) := by
        refine reads_cell (by simp) (by simp) (by rfl) ?_
        intro kx hm
        simp only [List.mem_cons, List.not_mem_nil, or_false] at hm
        rcases hm with rfl | rfl
        · exact ⟨.str c, by simp, .atom⟩
        · exact ⟨.flt q, by simp, .atom⟩
      obtain ⟨i1, i2, i3, i4, i5⟩ := hi.reg hs false ho path hj (by rfl) (by
        intro kx hm
        simp only [List.mem_cons, List.not_mem_nil, or_false] at hm
        rcases hm with rfl | rfl <;> trivial) hr
      refine ⟨_, _, by rw [serP, hf]; rfl, i1, i2, hr, ?_⟩
      intro e he
      rcases i5 e he with h | ⟨h1, h2⟩
      · exact .inl h
      · exact .inr ⟨[], by simp [h1], .here (by rw [h2]; exact i4)⟩
  | .obj c d, path, st, j, hi, ho, hj => by
    cases hf : findMemo same st.memo (.obj c d) with
    | some e =>
      have he : e ∈ st.memo := List.mem_of_find?_eq_some hf
      have hse : same e.value (.obj c d) = true := by simpa using List.find?_some hf
      obtain ⟨i1, i2, i3, i4⟩ := hi.hit he e rfl rfl
      obtain ⟨j', r1, r2⟩ := hi.reads e he
      have : j' = j := by
        rw [hs _ _ (hi.occ e he) ho hse, hj] at r1
        simpa using r1.symm
      subst this
      exact ⟨(hitRef e st).1, (hitRef e st).2, by rw [serP, hf], i1, i2, i3.reads (r2.mono i2), by rw [i4]; exact fun e he => .inl he⟩
    | none =>
      have hj' := hj
      rw [serialize, bind_ok] at hj'
      obtain ⟨s, h1, hj'⟩ := hj'
      simp only [Except.ok.injEq] at hj'; subst hj'
      have hocc : ∀ kv ∈ d, Occurs root kv.2 := fun kv hm => occurs_trans ho (.obj (k := kv.1) hm .self)
      have hser : ∀ kv ∈ d, serKeep W.toEnv c kv.1 = true → ∃ j, serialize W kv.2 = .ok j := by
        intro kv hm hkv
        obtain ⟨j, a, -⟩ := (serializeD_facts h1).2 kv hm hkv
        exact ⟨j, a⟩
      obtain ⟨xs, st1, e1, o1⟩ := serPD_ok hs hk (serKeep W.toEnv c) 0 d path st hi hocc hser
      obtain ⟨ys, st2, e2, o2⟩ := serPD_ok hs hk (serKeep W.toEnv c) 1 d path st1 o1.inv hocc hser
      obtain ⟨zs, st3, e3, o3⟩ := serPD_ok hs hk (serKeep W.toEnv c) 2 d path st2 o2.inv hocc hser
      have all := serAll_of o1 o2 o3
      generalize hL : xs ++ ys ++ zs = L at all
      obtain ⟨hn, hpk⟩ := hk.obj c d ho
      obtain ⟨f1, f2, f3, f4, f5, f6⟩ := all.facts h1 hn
      have hoc : ∀ k ∈ keysOf d, k ≠ .str "object_class" := fun k hm => (hpk k hm).2
      have u1 : dictUpdate [(Key.str "object_class", V.str c)] s = (.str "object_class", .str c) :: s := by
        rw [dictUpdate_disjoint _ _ f1 (by
          intro k hm
          simpa using hoc k (f6 k hm))]; rfl
      have u2 : dictUpdate [(Key.str "object_class", SV.atom (.str c))] L = (.str "object_class", .atom (.str c)) :: L := by
        rw [dictUpdate_disjoint _ _ f2 (by
          intro k hm
          simpa using hoc k (f5 k hm))]; rfl
      rw [u1] at hj
      have href : List.lookup (Key.str "$ref") ((.str "object_class", SV.atom (.str c)) :: L) = none := by
        have := lookup_ref_none fun k hm => (hpk k (f5 k hm)).1
        have hb : (Key.str "$ref" == Key.str "object_class") = false := by decide
        simp only [List.lookup, hb]; exact this
      have hr : Reads (st3.heap ++ [.dict ((.str "object_class", .atom (.str c)) :: L)]) st3.refs
          (.ptr st3.heap.length) (.dict ((.str "object_class", .str c) :: s)) := by
        refine reads_cell ?_ ?_ href ?_
        · rw [List.map_cons, List.nodup_cons]
          exact ⟨fun hm => hoc _ (f6 _ hm) rfl, f1⟩
        · rw [List.map_cons, List.map_cons]; exact f3.cons _
        · intro kx hm
          rcases List.mem_cons.1 hm with rfl | hm
          · exact ⟨.str c, by simp, .atom⟩
          · obtain ⟨j, a, b⟩ := f4 kx hm
            exact ⟨j, List.mem_cons_of_mem _ a, b⟩
      obtain ⟨i1, i2, i3, i4, i5⟩ := all.inv.reg hs (W.info c).standalone ho path hj href (by
        intro kx hm
        rcases List.mem_cons.1 hm with rfl | hm
        · trivial
        · obtain ⟨j, a, b⟩ := f4 kx hm
          exact b.bound) hr
      refine ⟨_, _, by rw [serP, hf, e1]; simp only; rw [e2]; simp only; rw [e3]; simp only; rw [hL, u2], i1, all.ext.trans i2, ?_, ?_⟩
      · rw [u1]
        have hrc : Reads (register same (W.info c).standalone (.obj c d) (.dict ((.str "object_class", .atom (.str c)) :: L)) path st3).2.heap
            (register same (W.info c).standalone (.obj c d) (.dict ((.str "object_class", .atom (.str c)) :: L)) path st3).2.refs (.ptr st3.heap.length) (.dict ((.str "object_class", .str c) :: s)) := by
          refine hr.mono ⟨?_, i2.refs⟩
          intro b cell hb
          rcases getElem?_snoc_cases hb with hb | ⟨rfl, rfl⟩
          · exact i2.cells _ _ hb
          · exact i3
        rcases i4 with l | ⟨l, -⟩
        · exact l.reads hrc
        · rw [l]; exact hrc
      · intro e he
        rcases i5 e he with h | ⟨h1, h2⟩
        · rcases all.memo e h with h | ⟨kx, hm, rel, hp, hfo⟩
          · exact .inl h
          · right
            have hkm : kx.1 ∈ L.map (·.1) := List.mem_map.2 ⟨kx, hm, rfl⟩
            obtain ⟨k, y⟩ := kx
            have hne := hoc _ (f5 _ hkm)
            have hl : List.lookup k ((Key.str "object_class", SV.atom (.str c)) :: L) = some y := by
              have : (k == Key.str "object_class") = false := by simpa using hne
              simp only [List.lookup, this]
              exact Dict.mem_lookup f2 hm
            exact follow_key i2 i4 i3 hl (hpk _ (f5 _ hkm)).1 hp hfo
        · exact .inr ⟨[], by simp [h1], .here (by rw [h2]; exact i4)⟩
  | .dict d, path, st, j, hi, ho, hj => by
      rw [serialize, bind_ok] at hj
      obtain ⟨s, h1, hj'⟩ := hj
      simp only [Except.ok.injEq] at hj'; subst hj'
      have hocc : ∀ kv ∈ d, Occurs root kv.2 := fun kv hm => occurs_trans ho (.dict (k := kv.1) hm .self)
      have hser : ∀ kv ∈ d, (fun _ => true) kv.1 = true → ∃ j, serialize W kv.2 = .ok j := by
        intro kv hm hkv
        obtain ⟨j, a, -⟩ := (serializeD_facts h1).2 kv hm hkv
        exact ⟨j, a⟩
      obtain ⟨xs, st1, e1, o1⟩ := serPD_ok hs hk (fun _ => true) 0 d path st hi hocc hser
      obtain ⟨ys, st2, e2, o2⟩ := serPD_ok hs hk (fun _ => true) 1 d path st1 o1.inv hocc hser
      obtain ⟨zs, st3, e3, o3⟩ := serPD_ok hs hk (fun _ => true) 2 d path st2 o2.inv hocc hser
      have all := serAll_of (keep := fun _ => true) o1 o2 o3
      generalize hL : xs ++ ys ++ zs = L at all
      obtain ⟨hn, hpk⟩ := hk.dict d ho
      obtain ⟨f1, f2, f3, f4, f5, f6⟩ := all.facts h1 hn
      have href : List.lookup (Key.str "$ref") L = none := lookup_ref_none fun k hm => hpk k (f5 k hm)
      have hr : Reads (st3.heap ++ [.dict L]) st3.refs (.ptr st3.heap.length) (.dict s) := reads_cell f1 f3 href f4
      have hx : HExt st3.heap st3.refs (st3.heap ++ [.dict L]) st3.refs := .append _
      refine ⟨_, _, by rw [serP, e1]; simp only; rw [e2]; simp only; rw [e3]; simp only; rw [hL]; rfl, all.inv.alloc _ ?_, all.ext.trans hx, hr, ?_⟩
      · intro x hm
        obtain ⟨kx, hm', rfl⟩ := List.mem_map.1 hm
        obtain ⟨j, a, b⟩ := f4 kx hm'
        exact b.bound
      · intro e he
        rcases all.memo e he with h | ⟨kx, hm, rel, hp, hfo⟩
        · exact .inl h
        · right
          have hkm : kx.1 ∈ L.map (·.1) := List.mem_map.2 ⟨kx, hm, rfl⟩
          obtain ⟨k, y⟩ := kx
          exact follow_key hx (.inr ⟨rfl, _, _, rfl, getElem?_snoc _ _, fun d' e => by
            simp only [Cell.dict.injEq] at e; rw [← e]; exact href⟩) (getElem?_snoc _ _) (Dict.mem_lookup f2 hm) (hpk _ (f5 _ hkm)) hp hfo
  | .list l, path, st, j, hi, ho, hj => by
      rw [serialize, bind_ok] at hj
      obtain ⟨s, h1, hj'⟩ := hj
      simp only [Except.ok.injEq] at hj'; subst hj'
      obtain ⟨xs, st1, e1, o1⟩ := serPL_ok hs hk l path 0 st s hi (fun v hm => occurs_trans ho (.list hm .self)) h1
      have hx : HExt st1.heap st1.refs (st1.heap ++ [.list xs]) st1.refs := .append _
      refine ⟨_, _, by rw [serP, e1], o1.inv.alloc _ ?_, o1.ext.trans hx, ?_, ?_⟩
      · intro x hm
        obtain ⟨n, hn⟩ := List.getElem?_of_mem hm
        have hlt := (List.getElem?_eq_some_iff.1 hn).1
        obtain ⟨j, hj⟩ : ∃ j, s[n]? = some j := ⟨_, List.getElem?_eq_getElem (by rw [← o1.len]; exact hlt)⟩
        exact (o1.reads n x j hn hj).bound
      · exact .list (getElem?_snoc _ _) o1.len fun n x v a b => (o1.reads n x v a b).mono hx
      · intro e he
        rcases o1.memo e he with h | ⟨n, x, rel, hn, hp, hfo⟩
        · exact .inl h
        · right
          refine ⟨toString n :: rel, by rw [hp, Path.idx]; simp, .step (.inr ⟨rfl, _, _, rfl, getElem?_snoc _ _, ?_⟩)
            (.idx (getElem?_snoc _ _) hn) (hfo.mono hx)⟩
          intro d' e; simp at e
  | .tuple l, path, st, j, hi, ho, hj => by
      rw [serialize, bind_ok] at hj
      obtain ⟨s, h1, hj'⟩ := hj
      simp only [Except.ok.injEq] at hj'; subst hj'
      obtain ⟨xs, st1, e1, o1⟩ := serPL_ok hs hk l path 0 st s hi (fun v hm => occurs_trans ho (.tuple hm .self)) h1
      have hx : HExt st1.heap st1.refs (st1.heap ++ [.list xs]) st1.refs := .append _
      refine ⟨_, _, by rw [serP, e1], o1.inv.alloc _ ?_, o1.ext.trans hx, ?_, ?_⟩
      · intro x hm
        obtain ⟨n, hn⟩ := List.getElem?_of_mem hm
        have hlt := (List.getElem?_eq_some_iff.1 hn).1
        obtain ⟨j, hj⟩ : ∃ j, s[n]? = some j := ⟨_, List.getElem?_eq_getElem (by rw [← o1.len]; exact hlt)⟩
        exact (o1.reads n x j hn hj).bound
      · exact .list (getElem?_snoc _ _) o1.len fun n x v a b => (o1.reads n x v a b).mono hx
      · intro e he
        rcases o1.memo e he with h | ⟨n, x, rel, hn, hp, hfo⟩
        · exact .inl h
        · right
          refine ⟨toString n :: rel, by rw [hp, Path.idx]; simp, .step (.inr ⟨rfl, _, _, rfl, getElem?_snoc _ _, ?_⟩)
            (.idx (getElem?_snoc _ _) hn) (hfo.mono hx)⟩
          intro d' e; simp at e

theorem serPL_ok {W : World} {same : V → V → Bool} {root : V} (hs : SameSer W same root) (hk : PlainKeys root) :
    (l : List V) → (path : Path) → (i : Nat) → (st : PS) → (js : List V) → EInv W root st → (∀ v ∈ l, Occurs root v) →
    serializeL W l = .ok js →
    ∃ xs st', serPL W same path i st l = .ok (xs, st') ∧ SerLOk W root path i st js xs st'
  | [], path, i, st, js, hi, ho, hj => by
    simp only [serializeL, Except.ok.injEq] at hj; subst hj
    exact ⟨[], st, rfl, hi, .refl, rfl, by simp, fun e he => .inl he⟩
  | v :: l, path, i, st, js, hi, ho, hj => by
    rw [serializeL, bind_ok] at hj
    obtain ⟨j, h1, hj⟩ := hj
    rw [bind_ok] at hj
    obtain ⟨r, h2, hj⟩ := hj
    simp only [Except.ok.injEq] at hj; subst hj
    obtain ⟨x, st1, e1, o1⟩ := serP_ok hs hk v (path.idx i) st j hi (ho v (by simp)) h1
    obtain ⟨xs, st2, e2, o2⟩ := serPL_ok hs hk l path (i + 1) st1 r o1.inv (fun w hw => ho w (by simp [hw])) h2
    refine ⟨x :: xs, st2, by rw [serPL, e1]; simp only; rw [e2], o2.inv, o1.ext.trans o2.ext, by simp [o2.len], ?_, ?_⟩
    · intro n y jn a b
      cases n with
      | zero => simp at a b; subst a b; exact o1.reads.mono o2.ext
      | succ n => simp at a b; exact o2.reads n y jn a b
    · intro e he
      rcases o2.memo e he with h | ⟨n, y, rel, hn, hp, hfo⟩
      · rcases o1.memo e h with h | ⟨rel, hp, hfo⟩
        · exact .inl h
        · exact .inr ⟨0, x, rel, rfl, hp, hfo.mono o2.ext⟩
      · exact .inr ⟨n + 1, y, rel, by simpa using hn, by rw [hp]; congr 2; omega, hfo⟩

theorem serPD_ok {W : World} {same : V → V → Bool} {root : V} (hs : SameSer W same root) (hk : PlainKeys root)
    (keep : Key → Bool) (rank : Nat) :
    (d : List (Key × V)) → (path : Path) → (st : PS) → EInv W root st → (∀ kv ∈ d, Occurs root kv.2) →
    (∀ kv ∈ d, keep kv.1 = true → ∃ j, serialize W kv.2 = .ok j) →
    ∃ xs st', serPD W same path st keep rank d = .ok (xs, st') ∧
      SerDOk W root path st (fun kv => keep kv.1 && rankOf kv.2 == rank) d xs st'
  | [], path, st, hi, ho, hj =>
    ⟨[], st, rfl, hi, .refl, rfl, by simp, fun e he => .inl he⟩
  | (k, v) :: d, path, st, hi, ho, hj => by
    by_cases hc : (keep k && rankOf v == rank) = true
    · obtain ⟨j, h1⟩ := hj (k, v) (by simp) (by simp only [Bool.and_eq_true] at hc; exact hc.1)
      obtain ⟨x, st1, e1, o1⟩ := serP_ok hs hk v (path.key k) st j hi (ho (k, v) (by simp)) h1
      obtain ⟨xs, st2, e2, o2⟩ := serPD_ok hs hk keep rank d path st1 o1.inv (fun w hw => ho w (by simp [hw]))
        (fun w hw => hj w (by simp [hw]))
      refine ⟨(k, x) :: xs, st2, by rw [serPD, if_pos hc, e1]; simp only; rw [e2], o2.inv, o1.ext.trans o2.ext, ?_, ?_, ?_⟩
      · rw [List.filter_cons_of_pos (by exact hc), List.map_cons, List.map_cons, o2.keys]
      · intro kx hm
        rcases List.mem_cons.1 hm with rfl | hm
        · exact ⟨v, j, by simp, hc, h1, o1.reads.mono o2.ext⟩
        · obtain ⟨w, jw, a, b⟩ := o2.reads kx hm
          exact ⟨w, jw, List.mem_cons_of_mem _ a, b⟩
      · intro e he
        rcases o2.memo e he with h | ⟨kx, hm, rest⟩
        · rcases o1.memo e h with h | ⟨rel, hp, hfo⟩
          · exact .inl h
          · exact .inr ⟨(k, x), by simp, rel, hp, hfo.mono o2.ext⟩
        · exact .inr ⟨kx, List.mem_cons_of_mem _ hm, rest⟩
    · obtain ⟨xs, st2, e2, o2⟩ := serPD_ok hs hk keep rank d path st hi (fun w hw => ho w (by simp [hw]))
        (fun w hw => hj w (by simp [hw]))
      refine ⟨xs, st2, by rw [serPD, if_neg hc, e2], o2.inv, o2.ext, ?_, ?_, o2.memo⟩
      · rw [List.filter_cons_of_neg (by exact hc), o2.keys]
      · intro kx hm
        obtain ⟨w, jw, a, b⟩ := o2.reads kx hm
        exact ⟨w, jw, List.mem_cons_of_mem _ a, b⟩
end

end DC
