import Verif.Workflow.CatalogueRead
/-
C121 and C123: equivalent blocks compute the same and have the same hash; a copy computes what its block computes.
-/
set_option linter.unusedSectionVars false
set_option linter.unusedSimpArgs false
namespace DC.Cat
open DC.Wkf

variable {τ α ω : Type} [DecidableEq τ] (E : Setting τ α ω)

/-! ### Specification -/

/-- What the comparison of blocks does not look at, and evaluation does.  Used in proofs only (no code). -/
def Told : Kind τ α ω → Kind τ α ω → Prop
  | .instantiate c, .instantiate c' => c = c'
  | .classMethod m, .classMethod m' => m.cls = m'.cls
  | .filter _ o, .filter _ o' => o = o'
  | .multiObject _ vs _, .multiObject _ vs' _ => vs.map View.name = vs'.map View.name
  | .display _ s _, .display _ s' _ => s.name = s'.name
  | .export m t e _, .export m' t' e' _ => m.name = m'.name ∧ t = t' ∧ e = e'
  | _, _ => True

/-- Equal workflows run the same.  Used in proofs only (no code). -/
def FlowsSame (H : Host α ω) : Prop :=
  ∀ W W', E.wfEq W W' = .ok true → H.runFlow W = H.runFlow W' ∧ H.runEach W = H.runEach W'

/-- Equal workflows and equal views have the same hash.  Used in proofs only (no code). -/
def HashesSame : Prop :=
  (∀ W W', E.wfEq W W' = .ok true → E.wfHash W = E.wfHash W') ∧ ∀ v v' : View, v.eq v' = true → E.hashV v = E.hashV v'

/-! ### Comparison of inputs -/

theorem name_inj (t u : Tag) (h : t.name = u.name) : t = u := by
  revert h
  cases t <;> cases u <;> decide

theorem varEquiv_true {x y : Var τ α} (h : varEquiv x y = .ok true) :
    x.name = y.name ∧ x.type = y.type ∧ ∃ l, x.locked = .ok l ∧ y.locked = .ok l := by
  unfold varEquiv at h
  cases hx : x.locked with
  | error e => simp [hx, bind, Except.bind] at h
  | ok l =>
    cases hy : y.locked with
    | error e => simp [hx, hy, bind, Except.bind] at h
    | ok m =>
      simp [hx, hy, bind, Except.bind] at h
      exact ⟨h.1.1, h.1.2, l, rfl, by rw [h.2]⟩

/-- The variables which were compared are pairwise equivalent. -/
theorem insEquiv_true : ∀ (xs ys : List (Var τ α)), insEquiv xs ys = .ok true →
    ∀ (i : Nat) (x y : Var τ α), xs[i]? = some x → ys[i]? = some y → varEquiv x y = .ok true := by
  intro xs
  induction xs with
  | nil => intro ys _ i x y h; simp at h
  | cons a xs ih =>
    intro ys h i x y hx hy
    cases ys with
    | nil => simp at hy
    | cons b ys =>
      simp only [insEquiv] at h
      cases hv : varEquiv a b with
      | error e => simp [hv, bind, Except.bind] at h
      | ok r =>
        cases r with
        | false => simp [hv, bind, Except.bind] at h
        | true =>
          simp [hv, bind, Except.bind] at h
          cases i with
          | zero =>
            simp only [List.getElem?_cons_zero, Option.some.injEq] at hx hy
            subst hx hy
            exact hv
          | succ i =>
            simp only [List.getElem?_cons_succ] at hx hy
            exact ih ys h i x y hx hy

theorem thenSame_true {b c : Blk τ α ω} {r : Bool} (h : thenSame b c r = .ok true) :
    insEquiv b.ins c.ins = .ok true ∧ b.kind.tag = c.kind.tag ∧ r = true := by
  unfold thenSame baseEquiv at h
  cases hi : insEquiv b.ins c.ins with
  | error e => simp [hi, bind, Except.bind] at h
  | ok q =>
    simp [hi, bind, Except.bind] at h
    exact ⟨by rw [h.1.1], name_inj _ _ h.1.2, h.2⟩

theorem named_eq {xs ys : List (Var τ α)} (h : insEquiv xs ys = .ok true) (hl : xs.length = ys.length) (vs : List α) :
    named xs vs = named ys vs := by
  have hn : xs.map Var.name = ys.map Var.name := by
    apply List.ext_getElem?
    intro i
    simp only [List.getElem?_map]
    cases hx : xs[i]? with
    | none =>
      rw [List.getElem?_eq_none_iff] at hx
      rw [hl] at hx
      rw [List.getElem?_eq_none_iff.2 hx]
    | some x =>
      have : i < ys.length := by
        obtain ⟨this, -⟩ := List.getElem?_eq_some_iff.1 hx
        omega
      have hy := List.getElem?_eq_getElem this
      rw [hy]
      simp [(varEquiv_true (insEquiv_true xs ys h i x _ hx hy)).1]
  have key : ∀ (zs : List (Var τ α)), named zs vs = (zs.map Var.name).zip vs := by
    intro zs
    simp only [named, List.zip_map_left]
    rfl
  rw [key, key, hn]

theorem locked_eq {xs ys : List (Var τ α)} (h : insEquiv xs ys = .ok true) (hl : xs.length = ys.length) : lockedOf xs = lockedOf ys := by
  have : xs.mapM Var.locked = ys.mapM Var.locked := by
    induction xs generalizing ys with
    | nil => cases ys with
      | nil => rfl
      | cons _ _ => simp at hl
    | cons x xs ih => cases ys with
      | nil => simp at hl
      | cons y ys =>
        have h0 := insEquiv_true _ _ h 0 x y rfl rfl
        obtain ⟨-, -, l, h1, h2⟩ := varEquiv_true h0
        simp only [insEquiv, h0, bind, Except.bind, if_true] at h
        have := ih h (by simpa using hl)
        simp only [List.mapM_cons, h1, h2, this]
  simp only [lockedOf, this]

theorem listEq_filt : ∀ (fs gs : List Filt), listEq Filt.eq fs gs = true →
    fs.map (fun f => (f.attr, f.operator, f.bound)) = gs.map (fun f => (f.attr, f.operator, f.bound)) := by
  intro fs
  induction fs with
  | nil => intro gs h; cases gs with
    | nil => rfl
    | cons _ _ => simp [listEq] at h
  | cons f fs ih => intro gs h; cases gs with
    | nil => simp [listEq] at h
    | cons g gs =>
      simp only [listEq, Bool.and_eq_true, Filt.eq, beq_iff_eq] at h
      simp [ih gs h.2, h.1]

theorem listEq_view : ∀ (vs ws : List View), listEq View.eq vs ws = true → vs.map View.name = ws.map View.name → vs = ws := by
  intro vs
  induction vs with
  | nil => intro ws h _; cases ws with
    | nil => rfl
    | cons _ _ => simp [listEq] at h
  | cons v vs ih => intro ws h hn; cases ws with
    | nil => simp [listEq] at h
    | cons w ws =>
      simp only [listEq, Bool.and_eq_true, View.eq, beq_iff_eq] at h
      simp only [List.map_cons, List.cons.injEq] at hn
      rw [ih ws h.2 hn.2]
      obtain ⟨a, b, c⟩ := v
      obtain ⟨a', b', c'⟩ := w
      simp_all

theorem listEq_hash (hv : ∀ v v' : View, v.eq v' = true → E.hashV v = E.hashV v') : ∀ (vs ws : List View), listEq View.eq vs ws = true →
    vs.map E.hashV = ws.map E.hashV := by
  intro vs
  induction vs with
  | nil => intro ws h; cases ws with
    | nil => rfl
    | cons _ _ => simp [listEq] at h
  | cons v vs ih => intro ws h; cases ws with
    | nil => simp [listEq] at h
    | cons w ws =>
      simp only [listEq, Bool.and_eq_true] at h
      simp [ih ws h.2, hv v w h.1]

/-! ### Numbers of inputs -/

theorem length_of {b : Blk τ α ω} {xs ys : List (Var τ α)} (h : FromClass E b) (hp : ports E b.name b.kind.kept = .ok (xs, ys)) :
    b.ins.length = xs.length := by
  obtain ⟨c, h1, -, -, h4, -⟩ := h
  have h5 := (construct_inv E h1).1
  rw [hp] at h5
  cases h5
  exact h4.length_eq.symm

theorem input_of {b : Blk τ α ω} {xs ys : List (Var τ α)} (h : FromClass E b) (hp : ports E b.name b.kind.kept = .ok (xs, ys)) (i : Nat)
    (x : Var τ α) (hx : xs[i]? = some x) : ∃ y, b.ins[i]? = some y ∧ y.name = x.name ∧ y.type = x.type := by
  obtain ⟨c, h1, -, -, h4, -⟩ := h
  have h5 := (construct_inv E h1).1
  rw [hp] at h5
  cases h5
  have hl := h4.length_eq
  have hi := (List.getElem?_eq_some_iff.1 hx).1
  have hi' : i < b.ins.length := by omega
  refine ⟨_, List.getElem?_eq_getElem hi', ?_⟩
  have := List.Forall₂.get h4 hi hi'
  have hx' : c.ins[i] = x := (List.getElem?_eq_some_iff.1 hx).2
  simp only [List.get_eq_getElem] at this
  rw [hx'] at this
  exact ⟨this.name, this.type⟩

/-! ### Equivalence -/

/-- What the comparisons of the classes say of the arguments, once the inputs and the classes agree.  Used in proofs only (no code). -/
def Agree : Kind τ α ω → Kind τ α ω → Prop
  | .instantiate m, .instantiate m' => E.metaName m = E.metaName m'
  | .classMethod m, .classMethod m' => m.cls.name = m'.cls.name ∧ m.name = m'.name
  | .modelMethod m, .modelMethod m' => m.cls.name = m'.cls.name ∧ m.name = m'.name
  | .sequence n, .sequence n' => n = n'
  | .concatenate n, .concatenate n' => n = n'
  | .workflow W, .workflow W' => E.wfEq W W' = .ok true
  | .forEach d i, .forEach d' i' => E.wfEq d.flow d'.flow = .ok true ∧ i = i'
  | .unpacker l, .unpacker l' => l = l'
  | .flatten, .flatten => True
  | .product n, .product n' => n = n'
  | .filter fs _, .filter fs' _ => listEq Filt.eq fs fs' = true
  | .oldMultiPlot as _, .oldMultiPlot as' _ => as = as'
  | .multiPlot _ as _, .multiPlot _ as' _ => as = as'
  | .multiObject _ vs _, .multiObject _ vs' _ => listEq View.eq vs vs' = true
  | .oldDisplay t _ _, .oldDisplay t' _ _ => t = t'
  | .display t _ _, .display t' _ _ => t = t'
  | .modelAttribute a, .modelAttribute a' => a = a'
  | .getAttribute r, .getAttribute r' => r.cls.name = r'.cls.name ∧ r.name = r'.name
  | .setAttribute r, .setAttribute r' => r.name = r'.name
  | .sum n, .sum n' => n = n'
  | .substraction, .substraction => True
  | .strings n s, .strings n' s' => n = n' ∧ s = s'
  | .export _ _ _ _, .export _ _ _ _ => True
  | .archive _ _, .archive _ _ => True
  | _, _ => False

theorem bind_ok {ε β γ : Type} {x : Except ε β} {f : β → Except ε γ} {c : γ} (h : (x >>= f) = .ok c) : ∃ a, x = .ok a ∧ f a = .ok c := by
  cases x with
  | error e => simp [bind, Except.bind] at h
  | ok a => exact ⟨a, rfl, h⟩

theorem oldTag_inj {t u : Shown} (h : t.oldTag = u.oldTag) : t = u := by cases t <;> cases u <;> simp_all [Shown.oldTag]
theorem tag_inj {t u : Shown} (h : t.tag = u.tag) : t = u := by cases t <;> cases u <;> simp_all [Shown.tag]

theorem equivalent_true {b c : Blk τ α ω} (h : equivalent E b c = .ok true) :
    insEquiv b.ins c.ins = .ok true ∧ b.kind.tag = c.kind.tag ∧ Agree E b.kind c.kind := by
  have base : insEquiv b.ins c.ins = .ok true ∧ b.kind.tag = c.kind.tag := by
    unfold equivalent at h
    split at h
    case h_6 =>
      obtain ⟨r, h1, h2⟩ := bind_ok h
      unfold baseEquiv at h1
      obtain ⟨q, h3, h4⟩ := bind_ok h1
      split at h2
      · simp only [Except.ok.injEq, Bool.and_eq_true, beq_iff_eq] at h4
        exact ⟨by rw [h3, h4.1], name_inj _ _ h4.2⟩
      · simp at h2
    case h_7 =>
      split at h
      · obtain ⟨q, -, h⟩ := bind_ok h
        exact ⟨(thenSame_true h).1, (thenSame_true h).2.1⟩
      · simp at h
    all_goals first
      | exact ⟨(thenSame_true h).1, (thenSame_true h).2.1⟩
      | (obtain ⟨q, -, h'⟩ := bind_ok h; exact ⟨(thenSame_true h').1, (thenSame_true h').2.1⟩)
      | (split at h <;> first
          | exact ⟨(thenSame_true h).1, (thenSame_true h).2.1⟩
          | simp at h)
  refine ⟨base.1, base.2, ?_⟩
  have ht := base.2
  unfold equivalent at h
  cases hb : b.kind with
  | workflow W =>
    rw [hb] at ht h
    cases hc : c.kind with
    | workflow W' =>
      simp only [hc] at h
      obtain ⟨r, -, h2⟩ := bind_ok h
      cases r with
      | true => exact h2
      | false => simp at h2
    | oldDisplay t _ _ => rw [hc] at ht; simp only [Kind.tag] at ht; cases t <;> simp [Shown.oldTag] at ht
    | display t _ _ => rw [hc] at ht; simp only [Kind.tag] at ht; cases t <;> simp [Shown.tag] at ht
    | _ => rw [hc] at ht; simp [Kind.tag] at ht
  | forEach d i =>
    rw [hb] at ht h
    cases hc : c.kind with
    | forEach d' i' =>
      simp only [hc] at h
      obtain ⟨q', h1, h⟩ := bind_ok h
      unfold innerEquiv at h1
      obtain ⟨q, -, h1⟩ := bind_ok h1
      have := (thenSame_true h).2.2
      simp only [Bool.and_eq_true, beq_iff_eq] at this
      cases q with
      | true => simp only [if_true] at h1; exact ⟨by rw [h1, this.1], this.2⟩
      | false => simp only [Bool.false_eq_true, if_false, Except.ok.injEq] at h1; simp [← h1] at this
    | oldDisplay t _ _ => rw [hc] at ht; simp only [Kind.tag] at ht; cases t <;> simp [Shown.oldTag] at ht
    | display t _ _ => rw [hc] at ht; simp only [Kind.tag] at ht; cases t <;> simp [Shown.tag] at ht
    | _ => rw [hc] at ht; simp [Kind.tag] at ht
  | oldDisplay t s l =>
    rw [hb] at ht
    cases hc : c.kind with
    | oldDisplay t' _ _ => rw [hc] at ht; exact oldTag_inj ht
    | display t' _ _ => rw [hc] at ht; simp only [Kind.tag] at ht; cases t <;> cases t' <;> simp [Shown.tag, Shown.oldTag] at ht
    | _ => rw [hc] at ht; simp only [Kind.tag] at ht; cases t <;> simp [Shown.oldTag] at ht
  | display t s l =>
    rw [hb] at ht
    cases hc : c.kind with
    | display t' _ _ => rw [hc] at ht; exact tag_inj ht
    | oldDisplay t' _ _ => rw [hc] at ht; simp only [Kind.tag] at ht; cases t <;> cases t' <;> simp [Shown.tag, Shown.oldTag] at ht
    | _ => rw [hc] at ht; simp only [Kind.tag] at ht; cases t <;> simp [Shown.tag] at ht
  | _ =>
    rw [hb] at ht h
    cases hc : c.kind <;> rw [hc] at ht h <;> first
      | (exfalso; simp [Kind.tag] at ht; done)
      | (exfalso; simp only [Kind.tag] at ht; rename_i t _ _; cases t <;> simp [Shown.tag, Shown.oldTag] at ht; done)
      | trivial
      | (simp only at h
         have := (thenSame_true h).2.2
         simpa [Agree] using this)

theorem method_length {b c : Blk τ α ω} {m m' : Ref} (hb : b.kind = .classMethod m) (hc : c.kind = .classMethod m') (hm : m.cls = m'.cls)
    (hn : m.name = m'.name) (h : FromClass E b) (h' : FromClass E c) : b.ins.length = c.ins.length := by
  obtain ⟨x, hx, -, -, h1, -⟩ := h
  obtain ⟨y, hy, -, -, h2, -⟩ := h'
  have hx := (construct_inv E hx).1
  have hy := (construct_inv E hy).1
  rw [hb] at hx
  rw [hc] at hy
  simp only [Kind.kept, ports, hm, hn] at hx hy
  rw [hx] at hy
  simp only [Except.ok.injEq, Prod.mk.injEq] at hy
  rw [← h1.length_eq, ← h2.length_eq, hy.1]

theorem class_length {b c : Blk τ α ω} {m : Cls} (hb : b.kind = .instantiate m) (hc : c.kind = .instantiate m)
    (h : FromClass E b) (h' : FromClass E c) : b.ins.length = c.ins.length := by
  obtain ⟨x, hx, -, -, h1, -⟩ := h
  obtain ⟨y, hy, -, -, h2, -⟩ := h'
  have hx := (construct_inv E hx).1
  have hy := (construct_inv E hy).1
  rw [hb] at hx
  rw [hc] at hy
  simp only [Kind.kept, ports] at hx hy
  rw [hx] at hy
  simp only [Except.ok.injEq, Prod.mk.injEq] at hy
  rw [← h1.length_eq, ← h2.length_eq, hy.1]

theorem model_length {b c : Blk τ α ω} {m m' : Ref} (hb : b.kind = .modelMethod m) (hc : c.kind = .modelMethod m')
    (hinj : Function.Injective E.ofClass) (hi : insEquiv b.ins c.ins = .ok true)
    (hn : m.name = m'.name) (h : FromClass E b) (h' : FromClass E c) : b.ins.length = c.ins.length := by
  obtain ⟨x, hx, hxk, hxn, h1, h1'⟩ := h
  obtain ⟨y, hy, hyk, hyn, h2, h2'⟩ := h'
  have gx := input_of E (b := b) ⟨x, hx, hxk, hxn, h1, h1'⟩ (construct_inv E hx).1 0
  have gy := input_of E (b := c) ⟨y, hy, hyk, hyn, h2, h2'⟩ (construct_inv E hy).1 0
  have hx := (construct_inv E hx).1
  have hy := (construct_inv E hy).1
  rw [hb] at hx
  rw [hc] at hy
  simp only [Kind.kept, ports] at hx hy
  obtain ⟨r, hr, hx⟩ := bind_ok hx
  obtain ⟨q, hq, hy⟩ := bind_ok hy
  simp only [Except.ok.injEq, Prod.mk.injEq] at hx hy
  obtain ⟨u, hu, -, hut⟩ := gx _ (by rw [← hx.1]; rfl)
  obtain ⟨v, hv, -, hvt⟩ := gy _ (by rw [← hy.1]; rfl)
  have ht := (varEquiv_true (insEquiv_true _ _ hi 0 u v hu hv)).2.1
  rw [hut, hvt] at ht
  have := hinj ht
  rw [this, hn, hq] at hr
  cases hr
  rw [← h1.length_eq, ← h2.length_eq, ← hx.1, ← hy.1]
  simp

theorem tail_equiv {xs ys : List (Var τ α)} (h : insEquiv xs ys = .ok true) (hl : xs.length = ys.length) :
    insEquiv xs.tail ys.tail = .ok true ∧ xs.tail.length = ys.tail.length := by
  cases xs with
  | nil => cases ys with
    | nil => exact ⟨rfl, rfl⟩
    | cons _ _ => simp at hl
  | cons x xs => cases ys with
    | nil => simp at hl
    | cons y ys =>
      have h0 := insEquiv_true _ _ h 0 x y rfl rfl
      simp only [insEquiv, h0, bind, Except.bind, if_true] at h
      exact ⟨h, by simpa using hl⟩

/-- Blocks which are found equivalent, and which do not differ in what is not compared, give the same outputs. -/
theorem equivalent_evaluate (H : Host α ω) (hH : FlowsSame E H) (hinj : Function.Injective E.ofClass) (b c : Blk τ α ω)
    (hb : FromClass E b) (hc : FromClass E c) (h : equivalent E b c = .ok true) (ht : Told b.kind c.kind) (vs : List α) :
    evaluate H b vs = evaluate H c vs := by
  obtain ⟨hi, -, ha⟩ := equivalent_true E h
  cases hbk : b.kind with
  | instantiate m =>
    cases hck : c.kind <;> rw [hbk, hck] at ha ht <;> simp only [Agree] at ha
    cases ht
    simp only [evaluate, hbk, hck, named_eq hi (class_length E hbk hck hb hc)]
  | classMethod m =>
    cases hck : c.kind <;> rw [hbk, hck] at ha ht <;> simp only [Agree] at ha
    simp only [Told] at ht
    simp only [evaluate, hbk, hck, named_eq hi (method_length E hbk hck ht ha.2 hb hc), ht, ha.2]
  | modelMethod m =>
    cases hck : c.kind <;> rw [hbk, hck] at ha ht <;> simp only [Agree] at ha
    have := tail_equiv hi (model_length E hbk hck hinj hi ha.2 hb hc)
    cases vs with
    | nil => simp only [evaluate, hbk, hck]
    | cons v vs => simp only [evaluate, hbk, hck, named_eq this.1 this.2, ha.2]
  | workflow W =>
    cases hck : c.kind <;> rw [hbk, hck] at ha ht <;> simp only [Agree] at ha
    simp only [evaluate, hbk, hck, (hH _ _ ha).1]
  | forEach d i =>
    cases hck : c.kind <;> rw [hbk, hck] at ha ht <;> simp only [Agree] at ha
    simp only [evaluate, hbk, hck, (hH _ _ ha.1).2, ha.2]
  | filter fs op =>
    cases hck : c.kind <;> rw [hbk, hck] at ha ht <;> simp only [Agree] at ha
    cases ht
    cases vs with
    | nil => simp only [evaluate, hbk, hck]
    | cons v vs => cases vs with
      | nil => simp only [evaluate, hbk, hck, listEq_filt _ _ ha]
      | cons w vs => simp only [evaluate, hbk, hck]
  | multiObject s ws l =>
    cases hck : c.kind <;> rw [hbk, hck] at ha ht <;> simp only [Agree] at ha
    have := listEq_view _ _ ha ht
    subst this
    cases vs with
    | nil => simp only [evaluate, hbk, hck]
    | cons v vs => cases vs <;> simp only [evaluate, hbk, hck]
  | _ =>
    cases hck : c.kind <;> rw [hbk, hck] at ha ht <;> simp only [Agree] at ha <;> simp only [Told] at ht <;>
    rcases vs with _ | ⟨v, _ | ⟨w, _ | ⟨u, vs⟩⟩⟩ <;> simp [evaluate, hbk, hck, ha, ht]

theorem archive_equal {b c : Blk τ α ω} {n n' : Nat} {f f' : String} (hbk : b.kind = .archive n f) (hck : c.kind = .archive n' f')
    (hb : FromClass E b) (hc : FromClass E c) (hi : insEquiv b.ins c.ins = .ok true) : b.ins.length = c.ins.length := by
  have key : ∀ (b c : Blk τ α ω) (n n' : Nat) (f f' : String), b.kind = .archive n f → c.kind = .archive n' f' → FromClass E b →
      FromClass E c → n < n' → ∃ x y, b.ins[n]? = some x ∧ c.ins[n]? = some y ∧ x.name ≠ y.name := by
    intro b c n n' f f' hbk hck hb hc hlt
    have p1 : ports E b.name b.kind.kept = .ok (numbered E "Export " 0 n ++ [filled E.strT "Filename" (E.text f)], [untyped E "Archive"]) := by
      rw [hbk]; rfl
    have p2 : ports E c.name c.kind.kept = .ok (numbered E "Export " 0 n' ++ [filled E.strT "Filename" (E.text f')], [untyped E "Archive"]) := by
      rw [hck]; rfl
    obtain ⟨x, h1, h2, -⟩ := input_of E hb p1 n (filled E.strT "Filename" (E.text f)) (by simp [numbered])
    obtain ⟨y, h3, h4, -⟩ := input_of E hc p2 n (untyped E ("Export " ++ toString (n + 0))) (by
      rw [List.getElem?_append_left (by simp [numbered]; omega)]
      simp [numbered, hlt])
    refine ⟨x, y, h1, h3, ?_⟩
    rw [h2, h4]
    simp only [filled, untyped]
    intro hh
    have := congrArg String.toList hh
    simp at this
  have hl : ∀ (b : Blk τ α ω) (n : Nat) (f : String), b.kind = .archive n f → FromClass E b → b.ins.length = n + 1 := by
    intro b n f hbk hb
    rw [length_of E hb (by rw [hbk]; rfl)]
    simp [numbered]
  rw [hl b n f hbk hb, hl c n' f' hck hc]
  rcases Nat.lt_trichotomy n n' with h | h | h
  · obtain ⟨x, y, h1, h2, h3⟩ := key b c n n' f f' hbk hck hb hc h
    exact absurd (varEquiv_true (insEquiv_true _ _ hi n x y h1 h2)).1 h3
  · rw [h]
  · obtain ⟨x, y, h1, h2, h3⟩ := key c b n' n f' f hck hbk hc hb h
    exact absurd (varEquiv_true (insEquiv_true _ _ hi n' y x h2 h1)).1.symm h3

theorem filt_hash : ∀ (fs gs : List Filt), listEq Filt.eq fs gs = true → fs.map (Filt.hash E) = gs.map (Filt.hash E) := by
  intro fs
  induction fs with
  | nil => intro gs h; cases gs with
    | nil => rfl
    | cons _ _ => simp [listEq] at h
  | cons f fs ih => intro gs h; cases gs with
    | nil => simp [listEq] at h
    | cons g gs =>
      simp only [listEq, Bool.and_eq_true, Filt.eq, beq_iff_eq] at h
      simp [ih gs h.2, Filt.hash, h.1]

/-- Blocks which are found equivalent have the same hash, but for `InstantiateModel`. -/
theorem equivalent_hash (hE : HashesSame E) (b c : Blk τ α ω) (hb : FromClass E b) (hc : FromClass E c)
    (h : equivalent E b c = .ok true) (hm : ∀ m m', b.kind = .instantiate m → c.kind = .instantiate m' → m.name.length = m'.name.length) :
    equivalentHash E b = equivalentHash E c := by
  obtain ⟨hi, htag, ha⟩ := equivalent_true E h
  have hbase : b.ins.length = c.ins.length → baseHash b = baseHash c := by
    intro hl
    simp only [baseHash, locked_eq hi hl, htag]
  cases hbk : b.kind with
  | instantiate m =>
    cases hck : c.kind <;> rw [hbk, hck] at ha <;> simp only [Agree] at ha
    simp only [equivalentHash, hbk, hck, hm _ _ hbk hck]
  | workflow W =>
    cases hck : c.kind <;> rw [hbk, hck] at ha <;> simp only [Agree] at ha
    simp only [equivalentHash, hbk, hck, hE.1 _ _ ha]
  | forEach d i =>
    cases hck : c.kind <;> rw [hbk, hck] at ha <;> simp only [Agree] at ha
    simp only [equivalentHash, hbk, hck, hE.1 _ _ ha.1, ha.2]
  | filter fs op =>
    cases hck : c.kind <;> rw [hbk, hck] at ha <;> simp only [Agree] at ha
    simp only [equivalentHash, hbk, hck, filt_hash E _ _ ha]
  | multiObject s ws l =>
    cases hck : c.kind <;> rw [hbk, hck] at ha <;> simp only [Agree] at ha
    simp only [equivalentHash, hbk, hck, listEq_hash E hE.2 _ _ ha]
  | oldDisplay t s l =>
    cases hck : c.kind <;> rw [hbk, hck] at ha <;> simp only [Agree] at ha
    simp only [equivalentHash, hbk, hck]
    exact hbase (by rw [length_of E hb (by rw [hbk]; rfl), length_of E hc (by rw [hck]; rfl)])
  | display t s l =>
    cases hck : c.kind <;> rw [hbk, hck] at ha <;> simp only [Agree] at ha
    simp only [equivalentHash, hbk, hck]
    exact hbase (by rw [length_of E hb (by rw [hbk]; rfl), length_of E hc (by rw [hck]; rfl)]; rfl)
  | substraction =>
    cases hck : c.kind <;> rw [hbk, hck] at ha <;> simp only [Agree] at ha
    simp only [equivalentHash, hbk, hck]
    exact hbase (by rw [length_of E hb (by rw [hbk]; rfl), length_of E hc (by rw [hck]; rfl)])
  | «export» m t e f =>
    cases hck : c.kind <;> rw [hbk, hck] at ha <;> simp only [Agree] at ha
    simp only [equivalentHash, hbk, hck]
    have two : ∀ (b : Blk τ α ω) (m : Ref) (t : Bool) (e f : String), b.kind = .export m t e f → FromClass E b → b.ins.length = 2 := by
      intro b m t e f hbk hb
      obtain ⟨x, hx, -, -, h1, -⟩ := hb
      have hx := (construct_inv E hx).1
      rw [hbk] at hx
      simp only [Kind.kept, ports] at hx
      obtain ⟨r, -, hx⟩ := bind_ok hx
      simp only [Except.ok.injEq, Prod.mk.injEq] at hx
      rw [← h1.length_eq, ← hx.1]
      rfl
    exact hbase (by rw [two b _ _ _ _ hbk hb, two c _ _ _ _ hck hc])
  | archive n f =>
    cases hck : c.kind <;> rw [hbk, hck] at ha <;> simp only [Agree] at ha
    simp only [equivalentHash, hbk, hck]
    exact hbase (archive_equal E hbk hck hb hc hi)
  | _ =>
    cases hck : c.kind <;> rw [hbk, hck] at ha <;> simp only [Agree] at ha <;> simp [equivalentHash, hbk, hck, ha]

/-! ### Copies -/

/-- The copies of the workflows which a block holds exist, run as they do, and have the same inputs and output.  Used in proofs only (no code). -/
def FlowCopied (H : Host α ω) : Kind τ α ω → Prop
  | .workflow W => ∃ W', E.wfCopy W = .ok W' ∧ H.runFlow W' = H.runFlow W ∧ E.wfIns W' = E.wfIns W ∧ E.wfOut W' = E.wfOut W
  | .forEach d _ => ∃ W', E.wfCopy d.flow = .ok W' ∧ H.runEach W' = H.runEach d.flow ∧ E.wfIns W' = E.wfIns d.flow ∧
      E.wfOut W' = E.wfOut d.flow ∧ subPorts E d.flow d.name = .ok (d.ins, d.outs)
  | _ => True

theorem copyFilters_data : ∀ (fs memo : List Filt),
    (copyFilters memo fs).map (fun f => (f.attr, f.operator, f.bound)) = fs.map (fun f => (f.attr, f.operator, f.bound)) := by
  intro fs
  induction fs with
  | nil => intro memo; rfl
  | cons f fs ih =>
    intro memo
    simp only [copyFilters]
    cases hf : memo.find? (·.eq f) with
    | none => simp [ih]
    | some g =>
      have := List.find?_some hf
      simp only [Filt.eq, Bool.and_eq_true, beq_iff_eq] at this
      simp [ih, this]

/-- The copy of a block has the inputs and the outputs of the constructor, the same name, the same position, and computes the same. -/
theorem copy_evaluate (H : Host α ω) (b : Blk τ α ω) (hb : FromClass E b) (hf : FlowCopied E H b.kind) :
    ∃ c d, copy E b = .ok c ∧ construct E b.kind b.name b.position = .ok d ∧ c.name = b.name ∧ c.position = b.position ∧
      c.kind.tag = b.kind.tag ∧ c.ins = d.ins ∧ c.outs = d.outs ∧ ∀ vs, evaluate H c vs = evaluate H b vs := by
  obtain ⟨d, h1, h2, h3, h4, h5⟩ := hb
  have hn : named b.ins = named (α := α) d.ins := by
    funext vs
    have : ∀ (xs ys : List (Var τ α)), List.Forall₂ Set xs ys → xs.map Var.name = ys.map Var.name := by
      intro xs ys h
      induction h with
      | nil => rfl
      | cons h _ ih => simp [ih, h.name]
    have key : ∀ (zs : List (Var τ α)), named zs vs = (zs.map Var.name).zip vs := by
      intro zs
      simp only [named, List.zip_map_left]
      rfl
    rw [key, key, this _ _ h4]
  have hnt : named b.ins.tail = named (α := α) d.ins.tail := by
    funext vs
    have : ∀ (xs ys : List (Var τ α)), List.Forall₂ Set xs ys → xs.tail.map Var.name = ys.tail.map Var.name := by
      intro xs ys h
      cases h with
      | nil => rfl
      | cons _ h =>
        simp only [List.tail_cons]
        induction h with
        | nil => rfl
        | cons h _ ih => simp [ih, h.name]
    have key : ∀ (zs : List (Var τ α)), named zs vs = (zs.map Var.name).zip vs := by
      intro zs
      simp only [named, List.zip_map_left]
      rfl
    rw [key, key, this _ _ h4]
  obtain ⟨g1, g2, g3, g4⟩ := construct_inv E h1
  have hkn : b.kind.keptName b.name = b.name := by rw [← g3, h3]
  have hkk : b.kind.kept = b.kind := by rw [← g2, h2]
  rw [hkk] at g1
  suffices fin : ∃ k, copyKind E b.kind = .ok k ∧ k.kept = k ∧ ports E b.name k = .ok (d.ins, d.outs) ∧
      k.keptName b.name = b.name ∧ k.tag = b.kind.tag ∧ ∀ vs, evaluate H ⟨k, b.name, b.position, d.ins, d.outs⟩ vs = evaluate H b vs by
    obtain ⟨k, hk, hkept, hp, hname, htag, hev⟩ := fin
    have := construct_of E (p := b.position) (k := k) (n := b.name) (by rw [hkept]; exact hp)
    rw [hkept, hname] at this
    exact ⟨⟨k, b.name, b.position, d.ins, d.outs⟩, d, by simp only [copy, hk, bind, Except.bind]; exact this, h1, rfl, rfl, htag, rfl, rfl,
      hev⟩
  cases hk : b.kind with
  | workflow W =>
    rw [hk] at hf g1
    obtain ⟨W', w1, w2, w3, w4⟩ := hf
    refine ⟨.workflow W', by simp [copyKind, w1, bind, Except.bind], rfl, ?_, rfl, rfl, ?_⟩
    · simp only [ports, subPorts, w3, w4] at g1 ⊢
      exact g1
    · intro vs
      simp only [evaluate, hk, w2]
  | forEach e i =>
    rw [hk] at hf g1
    obtain ⟨W', w1, w2, w3, w4, w5⟩ := hf
    have w6 : subPorts E W' e.name = .ok (e.ins, e.outs) := by
      rw [← w5]
      simp only [subPorts, w3, w4]
    refine ⟨.forEach ⟨W', e.name, e.position, e.ins, e.outs⟩ i, by simp [copyKind, w1, w6, bind, Except.bind], rfl, ?_, rfl, rfl, ?_⟩
    · simp only [ports] at g1 ⊢
      exact g1
    · intro vs
      simp only [evaluate, hk, w2]
  | filter fs op =>
    rw [hk] at g1
    refine ⟨.filter (copyFilters [] fs) op, rfl, rfl, g1, rfl, rfl, ?_⟩
    intro vs
    rcases vs with _ | ⟨v, _ | ⟨w, vs⟩⟩ <;> simp only [evaluate, hk, copyFilters_data]
  | modelMethod m =>
    rw [hk] at g1 hkn
    refine ⟨.modelMethod m.copied, rfl, rfl, g1, hkn, rfl, ?_⟩
    intro vs
    rcases vs with _ | ⟨v, vs⟩ <;> simp only [evaluate, hk, hnt, Ref.copied]
  | classMethod m =>
    rw [hk] at g1
    refine ⟨.classMethod m.copied, rfl, rfl, g1, rfl, rfl, ?_⟩
    intro vs
    simp only [evaluate, hk, hn, Ref.copied]
  | instantiate m =>
    rw [hk] at g1
    refine ⟨.instantiate m, rfl, rfl, g1, rfl, rfl, ?_⟩
    intro vs
    simp only [evaluate, hk, hn]
  | «export» m t e f =>
    rw [hk] at g1 hkk
    have hkk' := hkk
    simp only [Kind.kept, Kind.export.injEq, true_and] at hkk'
    refine ⟨.export m.copied t e f, rfl, by simp only [Kind.kept, hkk'], g1, rfl, rfl, ?_⟩
    intro vs
    rcases vs with _ | ⟨v, _ | ⟨w, _ | ⟨u, vs⟩⟩⟩ <;> simp only [evaluate, hk, Ref.copied]
  | display t s l =>
    rw [hk] at g1
    refine ⟨.display t s.copied l, rfl, rfl, g1, rfl, rfl, ?_⟩
    intro vs
    rcases vs with _ | ⟨v, _ | ⟨w, vs⟩⟩ <;> simp only [evaluate, hk, Ref.copied]
  | getAttribute r =>
    rw [hk] at g1
    refine ⟨.getAttribute r.copied, rfl, rfl, g1, rfl, rfl, ?_⟩
    intro vs
    rcases vs with _ | ⟨v, _ | ⟨w, vs⟩⟩ <;> simp only [evaluate, hk, Ref.copied]
  | setAttribute r =>
    rw [hk] at g1
    refine ⟨.setAttribute r.copied, rfl, rfl, g1, rfl, rfl, ?_⟩
    intro vs
    rcases vs with _ | ⟨v, _ | ⟨w, _ | ⟨u, vs⟩⟩⟩ <;> simp only [evaluate, hk, Ref.copied]
  | _ =>
    rw [hk] at g1
    refine ⟨_, rfl, rfl, g1, rfl, rfl, ?_⟩
    intro vs
    rcases vs with _ | ⟨v, _ | ⟨w, _ | ⟨u, vs⟩⟩⟩ <;> simp only [evaluate, hk]

/-- The copies of the workflows which a block holds exist, are equal to them, and have the same inputs and output, which are not locked.
Used in proofs only (no code). -/
def FlowCopyEqual : Kind τ α ω → Prop
  | .workflow W => ∃ W', E.wfCopy W = .ok W' ∧ E.wfEq W W' = .ok true ∧ E.wfIns W' = E.wfIns W ∧ E.wfOut W' = E.wfOut W
  | .forEach d _ => ∃ W', E.wfCopy d.flow = .ok W' ∧ E.wfEq d.flow W' = .ok true ∧ E.wfIns W' = E.wfIns d.flow ∧
      E.wfOut W' = E.wfOut d.flow ∧ subPorts E d.flow d.name = .ok (d.ins, d.outs) ∧ ∀ x ∈ d.ins, x.lockFlag = false
  | _ => True

theorem copied_cls (r : Ref) : r.copied.cls = r.cls := rfl
theorem copied_name (r : Ref) : r.copied.name = r.name := rfl

theorem copyFilters_eq : ∀ (fs memo : List Filt), listEq Filt.eq fs (copyFilters memo fs) = true := by
  intro fs
  induction fs with
  | nil => intro memo; rfl
  | cons f fs ih =>
    intro memo
    simp only [copyFilters]
    cases hf : memo.find? (·.eq f) with
    | none => simp [listEq, ih, Filt.eq]
    | some g =>
      have := List.find?_some hf
      simp only [Filt.eq, Bool.and_eq_true, beq_iff_eq] at this
      simp [listEq, ih, Filt.eq, this]

theorem insEquiv_set : ∀ (xs ys : List (Var τ α)), List.Forall₂ Set xs ys → (∀ y ∈ ys, y.lockFlag = false) → insEquiv ys xs = .ok true := by
  intro xs ys h
  induction h with
  | nil => intro _; rfl
  | @cons x y xs ys h _ ih =>
    intro hl
    have hy := hl y (by simp)
    have hx : x.lockFlag = false := by
      cases hx : x.lockFlag with
      | false => rfl
      | true => have := h.kept hx; rw [hy] at this; exact this.symm
    have : varEquiv y x = .ok true := by simp [varEquiv, Var.locked, hx, hy, bind, Except.bind, h.name, h.type]
    simp only [insEquiv, this, bind, Except.bind, if_true]
    exact ih (fun z hz => hl z (by simp [hz]))

theorem insEquiv_refl (xs : List (Var τ α)) (h : ∀ y ∈ xs, y.lockFlag = false) : insEquiv xs xs = .ok true := by
  induction xs with
  | nil => rfl
  | cons x xs ih =>
    have : varEquiv x x = .ok true := by simp [varEquiv, Var.locked, h x (by simp), bind, Except.bind]
    simp only [insEquiv, this, bind, Except.bind, if_true]
    exact ih (fun z hz => h z (by simp [hz]))

theorem thenSame_of {b c : Blk τ α ω} (h : insEquiv b.ins c.ins = .ok true) (ht : c.kind.tag = b.kind.tag) :
    ∀ r, thenSame b c r = .ok r := by
  intro r
  simp [thenSame, baseEquiv, h, ht, bind, Except.bind]

theorem view_refl (vs : List View) : listEq View.eq vs vs = true := by
  induction vs with
  | nil => rfl
  | cons v vs ih => simp [listEq, View.eq, ih]

/-- The copy of a block without locked input is equivalent to it. -/
theorem copy_equivalent (b : Blk τ α ω) (hb : FromClass E b) (hl : ∀ x ∈ b.ins, x.lockFlag = false) (hf : FlowCopyEqual E b.kind) :
    ∃ c, copy E b = .ok c ∧ equivalent E b c = .ok true := by
  obtain ⟨d, h1, h2, h3, h4, h5⟩ := hb
  have hi := insEquiv_set _ _ h4 hl
  obtain ⟨g1, g2, g3, g4⟩ := construct_inv E h1
  have hkn : b.kind.keptName b.name = b.name := by rw [← g3, h3]
  have hkk : b.kind.kept = b.kind := by rw [← g2, h2]
  rw [hkk] at g1
  have fin : ∀ k, copyKind E b.kind = .ok k → k.kept = k → ports E b.name k = .ok (d.ins, d.outs) →
      k.keptName b.name = b.name → k.tag = b.kind.tag →
      ((∀ r, thenSame b ⟨k, b.name, b.position, d.ins, d.outs⟩ r = .ok r) → equivalent E b ⟨k, b.name, b.position, d.ins, d.outs⟩ = .ok true) →
      ∃ c, copy E b = .ok c ∧ equivalent E b c = .ok true := by
    intro k hk hkept hp hname htag hev
    have := construct_of E (p := b.position) (k := k) (n := b.name) (by rw [hkept]; exact hp)
    rw [hkept, hname] at this
    exact ⟨⟨k, b.name, b.position, d.ins, d.outs⟩, by simp only [copy, hk, bind, Except.bind]; exact this, hev (thenSame_of hi htag)⟩
  cases hk : b.kind with
  | workflow W =>
    rw [hk] at hf g1
    obtain ⟨W', w1, w2, w3, w4⟩ := hf
    refine fin (.workflow W') (by simp [hk, copyKind, w1, bind, Except.bind]) rfl ?_ rfl (by rw [hk]; rfl) ?_
    · simp only [ports, subPorts, w3, w4] at g1 ⊢
      exact g1
    · intro _
      simp [equivalent, hk, baseEquiv, hi, Kind.tag, bind, Except.bind, w2]
  | forEach e i =>
    rw [hk] at hf g1
    obtain ⟨W', w1, w2, w3, w4, w5, w7⟩ := hf
    have w6 : subPorts E W' e.name = .ok (e.ins, e.outs) := by
      rw [← w5]
      simp only [subPorts, w3, w4]
    refine fin (.forEach ⟨W', e.name, e.position, e.ins, e.outs⟩ i) (by simp [hk, copyKind, w1, w6, bind, Except.bind]) rfl ?_ rfl
      (by rw [hk]; rfl) ?_
    · simp only [ports] at g1 ⊢
      exact g1
    · intro ht
      simp [equivalent, hk, innerEquiv, baseEquiv, insEquiv_refl _ w7, bind, Except.bind, w2, ht]
  | filter fs op =>
    rw [hk] at g1
    refine fin (.filter (copyFilters [] fs) op) (by rw [hk]; rfl) rfl g1 rfl (by rw [hk]; rfl) ?_
    intro ht
    simp only [equivalent, hk, ht, copyFilters_eq]
  | modelMethod m =>
    rw [hk] at g1 hkn
    refine fin (.modelMethod m.copied) (by rw [hk]; rfl) rfl g1 hkn (by rw [hk]; rfl) ?_
    intro ht
    simp [equivalent, hk, Kind.methodType, ht, bind, Except.bind, copied_cls, copied_name]
  | classMethod m =>
    rw [hk] at g1
    refine fin (.classMethod m.copied) (by rw [hk]; rfl) rfl g1 rfl (by rw [hk]; rfl) ?_
    intro ht
    simp [equivalent, hk, Kind.methodType, ht, bind, Except.bind, copied_cls, copied_name]
  | «export» m t e f =>
    rw [hk] at g1 hkk
    have hkk' := hkk
    simp only [Kind.kept, Kind.export.injEq, true_and] at hkk'
    refine fin (.export m.copied t e f) (by rw [hk]; rfl) (by simp only [Kind.kept, hkk']) g1 rfl (by rw [hk]; rfl) ?_
    intro ht
    simp only [equivalent, hk, ht]
  | display t s l =>
    rw [hk] at g1
    refine fin (.display t s.copied l) (by rw [hk]; rfl) rfl g1 rfl (by rw [hk]; rfl) ?_
    intro ht
    simp only [equivalent, hk, ht]
  | getAttribute r =>
    rw [hk] at g1
    refine fin (.getAttribute r.copied) (by rw [hk]; rfl) rfl g1 rfl (by rw [hk]; rfl) ?_
    intro ht
    simp [equivalent, hk, Kind.attributeType, ht, bind, Except.bind, copied_cls, copied_name]
  | setAttribute r =>
    rw [hk] at g1
    refine fin (.setAttribute r.copied) (by rw [hk]; rfl) rfl g1 rfl (by rw [hk]; rfl) ?_
    intro ht
    simp [equivalent, hk, ht, copied_cls, copied_name]
  | multiObject s vs l =>
    rw [hk] at g1
    refine fin (.multiObject s vs l) (by rw [hk]; rfl) rfl g1 rfl (by rw [hk]) ?_
    intro ht
    simp [equivalent, hk, ht, view_refl]
  | _ =>
    rw [hk] at g1
    refine fin _ (by rw [hk]; rfl) rfl g1 rfl (by rw [hk]) ?_
    intro ht
    simp [equivalent, hk, ht, Kind.attrs, bind, Except.bind]

end DC.Cat
