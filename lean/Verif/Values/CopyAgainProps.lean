import Verif.Values.CopyProps
import Verif.Values.StableProps
/- Property theorems on copies of copies: C198. -/
namespace DC

/-- What a copy looks like: its dictionaries have distinct keys, it holds no tuple, and each object in it has exactly the
arguments of its constructor as attributes. -/
def Neat (Γ : Env) (w : V) : Prop := WF w ∧ NoTuple w ∧ Built Γ w

theorem entry_of_lookup {d : List (Key × V)} {k : Key} {x : V} (h : d.lookup k = some x) : (k, x) ∈ d := by
  induction d with
  | nil => cases h
  | cons e es ih =>
    obtain ⟨k', y⟩ := e
    rw [List.lookup_cons] at h
    split at h
    · rename_i hk
      cases h
      have := eq_of_beq hk
      subst this
      simp
    · exact List.mem_cons_of_mem _ (ih h)

theorem noTupleL_all {l : List V} : (∀ v ∈ l, NoTuple v) → NoTupleL l := by
  induction l with
  | nil => intro _; trivial
  | cons v vs ih => intro h; exact ⟨h v (by simp), ih fun x hx => h x (by simp [hx])⟩

theorem noTupleD_all {d : List (Key × V)} : (∀ kv ∈ d, NoTuple kv.2) → NoTupleD d := by
  induction d with
  | nil => intro _; trivial
  | cons kv kvs ih => intro h; exact ⟨h kv (by simp), ih fun x hx => h x (by simp [hx])⟩

theorem neat_list {Γ : Env} {l : List V} (h : ∀ v ∈ l, Neat Γ v) : Neat Γ (.list l) := by
  refine ⟨by simp only [WF]; exact (WFL_iff l).2 fun v hv => (h v hv).1, noTupleL_all fun v hv => (h v hv).2.1, ?_⟩
  intro c d ho
  cases ho with
  | list hm ho => exact (h _ hm).2.2 c d ho

theorem neat_dict {Γ : Env} {d : List (Key × V)} (hk : (keysOf d).Nodup) (h : ∀ kv ∈ d, Neat Γ kv.2) : Neat Γ (.dict d) := by
  refine ⟨by simp only [WF]; exact ⟨hk, (WFD_iff d).2 fun v hv => (h v hv).1⟩, noTupleD_all fun v hv => (h v hv).2.1, ?_⟩
  intro c d' ho
  cases ho with
  | dict hm ho => exact (h _ hm).2.2 c d' ho

theorem neat_obj {Γ : Env} {c : String} {d : List (Key × V)} (hn : (Γ.info c).initArgs.Nodup)
    (hk : keysOf d = (Γ.info c).initArgs.map Key.str) (h : ∀ kv ∈ d, Neat Γ kv.2) : Neat Γ (.obj c d) := by
  have hd : (keysOf d).Nodup := by
    rw [hk]; exact hn.map (fun a b hab => by cases hab; rfl)
  refine ⟨by simp only [WF]; exact ⟨hd, (WFD_iff d).2 fun v hv => (h v hv).1⟩, noTupleD_all fun v hv => (h v hv).2.1, ?_⟩
  intro c' d' ho
  cases ho with
  | self => exact hk
  | obj hm ho => exact (h _ hm).2.2 c' d' ho

/-- Whatever is copied, the copy is neat. -/
theorem copy_neat_aux (Γ : Env) (H : HashFns) (nd : ∀ c, (Γ.info c).initArgs.Nodup) : (n : Nat) → (v w : V) → (m m' : Memo) →
    sizeOf v < n → WF v → (∀ e ∈ m, Neat Γ e.2) → deepcopyValue Γ H m v = .ok (w, m') → Neat Γ w ∧ ∀ e ∈ m', Neat Γ e.2
  | 0, _, _, _, _, h, _, _, _ => by omega
  | n+1, v, w, m, m', hn, hv, hm, h => by
    have IH := copy_neat_aux Γ H nd n
    have seqCase : ∀ (l l' : List V) (m m' : Memo), sizeOf l < n → WFL l → (∀ e ∈ m, Neat Γ e.2) →
        deepcopySeq Γ H m l = .ok (l', m') → (∀ x ∈ l', Neat Γ x) ∧ ∀ e ∈ m', Neat Γ e.2 := by
      intro l
      induction l with
      | nil =>
        intro l' m m' _ _ hm h
        rw [deepcopySeq] at h
        cases h
        exact ⟨by simp, hm⟩
      | cons x xs ih =>
        intro l' m m' hs hw hm h
        simp only [List.cons.sizeOf_spec] at hs
        rw [deepcopySeq] at h
        rcases hx : deepcopyValue Γ H m x with e | ⟨x', m1⟩
        · rw [hx] at h; cases h
        rw [hx] at h
        simp only [bind, Except.bind] at h
        rcases hr : deepcopySeq Γ H m1 xs with e | ⟨r, m2⟩
        · rw [hr] at h; cases h
        rw [hr] at h
        cases h
        obtain ⟨n1, hm1⟩ := IH x x' m m1 (by omega) hw.1 hm hx
        obtain ⟨n2, hm2⟩ := ih r m1 _ (by omega) hw.2 hm1 hr
        refine ⟨?_, hm2⟩
        intro y hy
        rcases List.mem_cons.1 hy with rfl | hy
        · exact n1
        · exact n2 y hy
    cases v with
    | list l =>
      simp only [V.list.sizeOf_spec] at hn
      rw [deepcopyValue] at h
      rcases hr : deepcopySeq Γ H m l with e | ⟨r, m2⟩
      · rw [hr] at h; cases h
      rw [hr] at h
      cases h
      obtain ⟨a, b⟩ := seqCase l r m _ (by omega) hv hm hr
      exact ⟨neat_list a, b⟩
    | tuple l =>
      simp only [V.tuple.sizeOf_spec] at hn
      rw [deepcopyValue] at h
      rcases hr : deepcopySeq Γ H m l with e | ⟨r, m2⟩
      · rw [hr] at h; cases h
      rw [hr] at h
      cases h
      obtain ⟨a, b⟩ := seqCase l r m _ (by omega) hv hm hr
      exact ⟨neat_list a, b⟩
    | dict d =>
      simp only [V.dict.sizeOf_spec] at hn
      have dictCase : ∀ (d d' : List (Key × V)) (m m' : Memo), sizeOf d < n → WFD d → (∀ e ∈ m, Neat Γ e.2) →
          deepcopyDict Γ H m d = .ok (d', m') → keysOf d' = keysOf d ∧ (∀ kv ∈ d', Neat Γ kv.2) ∧ ∀ e ∈ m', Neat Γ e.2 := by
        intro d
        induction d with
        | nil =>
          intro d' m m' _ _ hm h
          rw [deepcopyDict] at h
          cases h
          exact ⟨rfl, by simp, hm⟩
        | cons x xs ih =>
          obtain ⟨k, x⟩ := x
          intro d' m m' hs hw hm h
          simp only [List.cons.sizeOf_spec, Prod.mk.sizeOf_spec] at hs
          rw [deepcopyDict] at h
          rcases hx : deepcopyValue Γ H m x with e | ⟨x', m1⟩
          · rw [hx] at h; cases h
          rw [hx] at h
          simp only [bind, Except.bind] at h
          rcases hr : deepcopyDict Γ H m1 xs with e | ⟨r, m2⟩
          · rw [hr] at h; cases h
          rw [hr] at h
          cases h
          obtain ⟨n1, hm1⟩ := IH x x' m m1 (by omega) hw.1 hm hx
          obtain ⟨k2, n2, hm2⟩ := ih r m1 _ (by omega) hw.2 hm1 hr
          refine ⟨by simp only [keysOf, List.map_cons]; rw [← keysOf, ← keysOf, k2], ?_, hm2⟩
          intro y hy
          rcases List.mem_cons.1 hy with rfl | hy
          · exact n1
          · exact n2 y hy
      simp only [WF] at hv
      rw [deepcopyValue] at h
      rcases hr : deepcopyDict Γ H m d with e | ⟨r, m2⟩
      · rw [hr] at h; cases h
      rw [hr] at h
      cases h
      obtain ⟨k, a, b⟩ := dictCase d r m _ (by omega) hv.2 hm hr
      exact ⟨neat_dict (k ▸ hv.1) a, b⟩
    | obj c d =>
      simp only [V.obj.sizeOf_spec] at hn
      simp only [WF] at hv
      rw [deepcopyValue] at h
      split at h
      · rename_i x hx
        cases h
        obtain ⟨e, he, _, rfl⟩ := searchMemo_some hx
        exact ⟨hm e he, hm⟩
      · have argCase : ∀ (args : List String) (r : List (Key × V)) (m m' : Memo), (∀ e ∈ m, Neat Γ e.2) →
            deepcopyArgs Γ H m args d = .ok (r, m') →
            keysOf r = args.map Key.str ∧ (∀ kv ∈ r, Neat Γ kv.2) ∧ ∀ e ∈ m', Neat Γ e.2 := by
          intro args
          induction args with
          | nil =>
            intro r m m' hm h
            rw [deepcopyArgs_nil] at h
            cases h
            exact ⟨rfl, by simp, hm⟩
          | cons a args ih =>
            intro r m m' hm h
            rcases hl : d.lookup (.str a) with _ | x
            · rw [deepcopyArgs] at h
              split at h
              · cases h
              · rename_i hl'; rw [hl] at hl'; cases hl'
            have hmem := entry_of_lookup hl
            rw [deepcopyArgs_cons _ _ _ _ _ _ _ hl] at h
            rcases hx : deepcopyValue Γ H m x with e | ⟨x', m1⟩
            · rw [hx] at h; cases h
            rw [hx] at h
            simp only [bind, Except.bind] at h
            rcases hr : deepcopyArgs Γ H m1 args d with e | ⟨r2, m2⟩
            · rw [hr] at h; cases h
            rw [hr] at h
            cases h
            obtain ⟨n1, hm1⟩ := IH x x' m m1 (by have := sizeOf_mem_dict hmem; omega) ((WFD_iff d).1 hv.2 _ hmem) hm hx
            obtain ⟨k2, n2, hm2⟩ := ih r2 m1 _ hm1 hr
            refine ⟨by simp only [keysOf, List.map_cons]; rw [← keysOf, k2], ?_, hm2⟩
            intro y hy
            rcases List.mem_cons.1 hy with rfl | hy
            · exact n1
            · exact n2 y hy
        rcases hr : deepcopyArgs Γ H m (Γ.info c).initArgs d with e | ⟨r, m2⟩
        · rw [hr] at h; cases h
        rw [hr] at h
        cases h
        obtain ⟨k, a, b⟩ := argCase _ r m m2 hm hr
        have hw := neat_obj (nd c) k a
        exact ⟨hw, memoSet_inv (P := fun _ w => Neat Γ w) b hw (fun _ _ _ => hw)⟩
    | other k => exact absurd hv (by simp [WF])
    | _ =>
      rw [deepcopyValue] at h
      cases h
      exact ⟨⟨by simp [WF], by simp [NoTuple], fun c d ho => by cases ho⟩, hm⟩

/-- A value whose objects have their constructor arguments is copied without failure, whatever was copied before. -/
theorem copy_total_aux (Γ : Env) (H : HashFns) (root : V) (built : Built Γ root) (wf : ∀ x, Occurs root x → WF x) :
    (n : Nat) → (v : V) → (m : Memo) → sizeOf v < n → Occurs root v → ∃ w m', deepcopyValue Γ H m v = .ok (w, m')
  | 0, _, _, h, _ => by omega
  | n+1, v, m, hn, ho => by
    have IH := copy_total_aux Γ H root built wf n
    have seqCase : ∀ (l : List V) (m : Memo), sizeOf l < n → (∀ x ∈ l, Occurs root x) →
        ∃ l' m', deepcopySeq Γ H m l = .ok (l', m') := by
      intro l
      induction l with
      | nil => intro m _ _; exact ⟨[], m, by rw [deepcopySeq]⟩
      | cons x xs ih =>
        intro m hs hx
        simp only [List.cons.sizeOf_spec] at hs
        obtain ⟨x', m1, h1⟩ := IH x m (by omega) (hx x (by simp))
        obtain ⟨l', m2, h2⟩ := ih m1 (by omega) (fun y hy => hx y (by simp [hy]))
        exact ⟨x' :: l', m2, by rw [deepcopySeq, h1]; simp only [bind, Except.bind]; rw [h2]⟩
    cases v with
    | list l =>
      simp only [V.list.sizeOf_spec] at hn
      obtain ⟨l', m', h⟩ := seqCase l m (by omega) (fun x hx => ho.trans (.list hx .self))
      exact ⟨.list l', m', by rw [deepcopyValue, h]; rfl⟩
    | tuple l =>
      simp only [V.tuple.sizeOf_spec] at hn
      obtain ⟨l', m', h⟩ := seqCase l m (by omega) (fun x hx => ho.trans (.tuple hx .self))
      exact ⟨.list l', m', by rw [deepcopyValue, h]; rfl⟩
    | dict d =>
      simp only [V.dict.sizeOf_spec] at hn
      have : ∀ (d : List (Key × V)) (m : Memo), sizeOf d < n → (∀ kv ∈ d, Occurs root kv.2) →
          ∃ d' m', deepcopyDict Γ H m d = .ok (d', m') := by
        intro d
        induction d with
        | nil => intro m _ _; exact ⟨[], m, by rw [deepcopyDict]⟩
        | cons x xs ih =>
          obtain ⟨k, x⟩ := x
          intro m hs hx
          simp only [List.cons.sizeOf_spec, Prod.mk.sizeOf_spec] at hs
          obtain ⟨x', m1, h1⟩ := IH x m (by omega) (hx (k, x) (by simp))
          obtain ⟨l', m2, h2⟩ := ih m1 (by omega) (fun y hy => hx y (by simp [hy]))
          exact ⟨(k, x') :: l', m2, by rw [deepcopyDict, h1]; simp only [bind, Except.bind]; rw [h2]⟩
      obtain ⟨d', m', h⟩ := this d m (by omega) (fun kv hx => ho.trans (.dict (k := kv.1) hx .self))
      exact ⟨.dict d', m', by rw [deepcopyValue, h]; rfl⟩
    | obj c d =>
      simp only [V.obj.sizeOf_spec] at hn
      rw [deepcopyValue]
      split
      · exact ⟨_, m, rfl⟩
      · have hwf := wf _ ho
        simp only [WF] at hwf
        have : ∀ (args : List String) (rest : List (Key × V)) (m : Memo), keysOf rest = args.map Key.str →
            (∀ kv ∈ rest, kv ∈ d) → ∃ r m', deepcopyArgs Γ H m args d = .ok (r, m') := by
          intro args
          induction args with
          | nil => intro rest m _ _; exact ⟨[], m, deepcopyArgs_nil ..⟩
          | cons a args ih =>
            intro rest m hkr hsub
            cases rest with
            | nil => simp [keysOf] at hkr
            | cons x rest =>
              obtain ⟨k, x⟩ := x
              simp only [keysOf, List.map_cons, List.cons.injEq] at hkr
              obtain ⟨rfl, hkr⟩ := hkr
              have hx : (Key.str a, x) ∈ d := hsub _ (by simp)
              obtain ⟨x', m1, h1⟩ := IH x m (by have := sizeOf_mem_dict hx; omega) (ho.trans (.obj hx .self))
              obtain ⟨r, m2, h2⟩ := ih rest m1 hkr (fun kv h => hsub kv (by simp [h]))
              refine ⟨(.str a, x') :: r, m2, ?_⟩
              rw [deepcopyArgs_cons _ _ _ _ _ _ _ (lookup_of_mem hwf.1 hx), h1]
              simp only [bind, Except.bind]; rw [h2]
        obtain ⟨r, m', h⟩ := this _ d m (built c d ho) (fun _ h => h)
        exact ⟨.obj c r, _, by rw [h]; rfl⟩
    | other k => exact absurd (wf _ ho) (by simp [WF])
    | _ => exact ⟨_, m, by rw [deepcopyValue]⟩

/-! ### C198 -/

/-- C198.  An object built by its constructor, and whatever holds such objects, can be copied. -/
theorem C198_total (Γ : Env) (H : HashFns) (v : V) (hv : WF v) (hb : Built Γ v) : ∃ w, deepcopy Γ H v = .ok w := by
  obtain ⟨w, m, h⟩ := copy_total_aux Γ H v hb (fun x h => WF_occurs h hv) (sizeOf v + 1) v [] (by omega) .self
  exact ⟨w, by simp [deepcopy, h, Except.map]⟩

/-- C198.  Whatever was copied, even attributes that are not arguments of constructors and equal objects with different
names, each object in the copy has exactly the arguments of its constructor, no tuple is left, and the copy can be copied
again. -/
theorem C198_again (Γ : Env) (H : HashFns) (nd : ∀ c, (Γ.info c).initArgs.Nodup) (v w : V) (hv : WF v)
    (h : deepcopy Γ H v = .ok w) : Built Γ w ∧ NoTuple w ∧ WF w ∧ ∃ w', deepcopy Γ H w = .ok w' := by
  unfold deepcopy at h
  rcases hc : deepcopyValue Γ H [] v with e | ⟨x, m⟩
  · rw [hc] at h; cases h
  rw [hc] at h
  cases h
  obtain ⟨⟨a, b, c⟩, _⟩ := copy_neat_aux Γ H nd (sizeOf v + 1) v x [] m (by omega) hv (by simp) hc
  exact ⟨c, b, a, C198_total Γ H x a c⟩

/-- C198, what holds of a second copy: it is the first one, when no two different objects inside the first one are equal.
Missing: copies in which different objects are equal (`C198_violated`). -/
theorem C198_partial (Γ : Env) (H : HashFns) (nd : ∀ c, (Γ.info c).initArgs.Nodup) (v w : V) (hv : WF v)
    (h : deepcopy Γ H v = .ok w)
    (sep : ∀ c d c' d', Occurs w (.obj c d) → Occurs w (.obj c' d') → objEq Γ H c d (.obj c' d') = .ok true →
      V.obj c d = V.obj c' d') : deepcopy Γ H w = .ok w := by
  obtain ⟨c, b, a, _⟩ := C198_again Γ H nd v w hv h
  exact C08_copy_identity_partial Γ H w a c b sep

/-- C198 is violated by the code: two objects that differ by an attribute which is not an argument of their constructor are
copied apart; their copies have lost it and are equal, so that the copy of the copy gives the name of the first one to
both. -/
theorem C198_violated : ∃ v w w' : V, WF v ∧ deepcopy copyEnv demoHash v = .ok w ∧ deepcopy copyEnv demoHash w = .ok w' ∧
    w = .list [mkA "first" (.int 1), mkA "second" (.int 1)] ∧ w' = .list [mkA "first" (.int 1), mkA "first" (.int 1)] := by
  refine ⟨.list [.obj "m.A" [(.str "name", .str "first"), (.str "x", .int 1), (.str "done", .int 0)],
      .obj "m.A" [(.str "name", .str "second"), (.str "x", .int 1), (.str "done", .int 1)]], _, _,
    by simp [WF, WFL, WFD, keysOf], ?_, C71_copy_names_violated, rfl, rfl⟩
  have arg : ∀ (m : Memo) (s : String) (i : Int), deepcopyArgs copyEnv demoHash m ["name", "x"]
      [(.str "name", .str s), (.str "x", .int 1), (.str "done", .int i)] = .ok ([(.str "name", .str s), (.str "x", .int 1)], m) := by
    intro m s i
    rw [deepcopyArgs_cons _ _ _ _ _ _ (.str s) (by rfl), deepcopyValue]
    simp only [bind, Except.bind]
    rw [deepcopyArgs_cons _ _ _ _ _ _ (.int 1) (by rfl), deepcopyValue]
    simp only [bind, Except.bind]
    rw [deepcopyArgs_nil]
  have step : ∀ (m : Memo) (s : String) (i : Int), searchMemo copyEnv demoHash m "m.A"
        [(.str "name", .str s), (.str "x", .int 1), (.str "done", .int i)] = none →
      deepcopyValue copyEnv demoHash m (.obj "m.A" [(.str "name", .str s), (.str "x", .int 1), (.str "done", .int i)]) =
        .ok (mkA s (.int 1), memoSet copyEnv demoHash "m.A" [(.str "name", .str s), (.str "x", .int 1), (.str "done", .int i)]
          (mkA s (.int 1)) m) := by
    intro m s i hs
    rw [deepcopyValue, hs]
    have := arg m s i
    simp only [copyEnv] at this ⊢
    rw [this]
    rfl
  unfold deepcopy
  rw [deepcopyValue, deepcopySeq, step [] "first" 0 (by rfl)]
  simp only [bind, Except.bind]
  rw [deepcopySeq, step _ "second" 1 (by rfl)]
  simp [deepcopySeq, bind, Except.bind, Except.map]

/-- C198.  Taking a shallow copy of a shallow copy gives the same object. -/
theorem C198_shallow (Γ : Env) : ∀ (v w : V), shallowValue Γ v = .ok w → shallowValue Γ w = .ok w := by
  have aux : ∀ (n : Nat) (v w : V), sizeOf v < n → shallowValue Γ v = .ok w → shallowValue Γ w = .ok w := by
    intro n
    induction n with
    | zero => intro v w h; omega
    | succ n IH =>
      intro v w hn h
      cases v with
      | obj c d =>
        simp only [V.obj.sizeOf_spec] at hn
        rw [shallowValue] at h
        rcases hr : shallowArgs Γ (Γ.info c).initArgs d with e | r
        · rw [hr] at h; cases h
        rw [hr] at h
        cases h
        -- each argument of the copy is the copy of the argument
        have val : ∀ (args : List String) (r : List (Key × V)), shallowArgs Γ args d = .ok r →
            ∀ a ∈ args, ∃ x y, d.lookup (.str a) = some x ∧ shallowValue Γ x = .ok y ∧ r.lookup (.str a) = some y := by
          intro args
          induction args with
          | nil => intro r _ a ha; simp at ha
          | cons b args ih =>
            intro r h a ha
            rcases hl : d.lookup (.str b) with _ | x
            · rw [shallowArgs] at h
              split at h
              · cases h
              · rename_i hl'; rw [hl] at hl'; cases hl'
            rw [shallowArgs_cons _ _ _ _ _ hl] at h
            rcases hx : shallowValue Γ x with e | y
            · rw [hx] at h; cases h
            rw [hx] at h
            simp only [bind, Except.bind] at h
            rcases hr : shallowArgs Γ args d with e | r2
            · rw [hr] at h; cases h
            rw [hr] at h
            cases h
            by_cases hab : a = b
            · subst hab
              exact ⟨x, y, hl, hx, by simp⟩
            · obtain ⟨x', y', h1, h2, h3⟩ := ih r2 hr a (by simpa [hab] using ha)
              refine ⟨x', y', h1, h2, ?_⟩
              rw [List.lookup_cons]
              have : (Key.str a == Key.str b) = false := by simp [hab]
              rw [this]
              exact h3
        have again : ∀ (args : List String) (r' : List (Key × V)), shallowArgs Γ args d = .ok r' →
            (∀ a ∈ args, a ∈ (Γ.info c).initArgs) → shallowArgs Γ args r = .ok r' := by
          intro args
          induction args with
          | nil => intro r' h _; rw [shallowArgs] at h ⊢; exact h
          | cons a args ih =>
            intro r' h hsub
            obtain ⟨x, y, h1, h2, h3⟩ := val _ r hr a (hsub a (by simp))
            rw [shallowArgs_cons _ _ _ _ _ h1, h2] at h
            simp only [bind, Except.bind] at h
            rcases hr2 : shallowArgs Γ args d with e | r2
            · rw [hr2] at h; cases h
            rw [hr2] at h
            cases h
            rw [shallowArgs_cons _ _ _ _ _ h3, IH x y (by have := sizeOf_mem_dict (entry_of_lookup h1); omega) h2]
            simp only [bind, Except.bind]
            rw [ih r2 hr2 (fun b hb => hsub b (by simp [hb]))]
        rw [shallowValue, again _ r hr (fun _ h => h)]
        rfl
      | _ =>
        rw [shallowValue] at h
        · cases h
          rw [shallowValue]
          intros; simp_all
        · intros; simp_all
  intro v w h
  exact aux (sizeOf v + 1) v w (by omega) h

/-! ### Examples -/

/-- Two objects with a further attribute, and a tuple, meet the hypotheses of the theorems. -/
example : WF (.tuple [.obj "m.A" [(.str "done", .int 0), (.str "x", .tuple []), (.str "name", .str "u")]]) ∧
    (∀ c, (copyEnv.info c).initArgs.Nodup) := by
  refine ⟨by simp [WF, WFL, WFD, keysOf], fun c => by simp [copyEnv]⟩

example : shallowValue copyEnv (.obj "m.A" [(.str "done", .int 0), (.str "x", .tuple []), (.str "name", .str "u")]) =
    .ok (mkA "u" (.tuple [])) := by
  rw [shallowValue]
  simp only [copyEnv]
  rw [shallowArgs_cons _ _ _ _ (.str "u") (by rfl), shallowValue]
  · simp only [bind, Except.bind]
    rw [shallowArgs_cons _ _ _ _ (.tuple []) (by rfl), shallowValue]
    · simp only [bind, Except.bind]
      rw [shallowArgs]
      rfl
    · simp
  · simp

end DC
