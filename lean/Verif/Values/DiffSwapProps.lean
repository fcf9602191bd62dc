import Verif.Values.DiffLemmas
import Verif.Values.EqualityProps
/- Property C193: exchanging the two values of a diff. -/
namespace DC

variable {Γ : Env}

/-! ### Specification -/

mutual
/-- Neither object, boolean nor measure occurs in the value. -/
def Bare : V → Prop
  | .list l => BareL l
  | .tuple l => BareL l
  | .dict d => BareD d
  | .bool _ => False
  | .measure _ _ => False
  | .obj _ _ => False
  | _ => True
/-- Same for the elements of a list. -/
def BareL : List V → Prop
  | [] => True
  | v :: vs => Bare v ∧ BareL vs
/-- Same for the values of a dictionary. -/
def BareD : List (Key × V) → Prop
  | [] => True
  | (_, v) :: kvs => Bare v ∧ BareD kvs
end

/-- An entry of a diff, its two values being exchanged. -/
def exchanged (e : List Key × V × V) : List Key × V × V := (e.1, e.2.2, e.2.1)

/-- The diff `D'` tells the same as `D`, the two values being exchanged; the order of its entries may be another. -/
def Exchanged (D D' : Diff) : Prop :=
  D'.different.Perm (D.different.map exchanged) ∧ D'.types.Perm (D.types.map exchanged)

/-! ### Helpers -/

theorem bareL_mem : ∀ {l : List V}, BareL l → ∀ v ∈ l, Bare v
  | _ :: _, h, v, hv => by
    rcases List.mem_cons.1 hv with rfl | hv
    · exact h.1
    · exact bareL_mem h.2 v hv

theorem bareD_mem : ∀ {d : List (Key × V)}, BareD d → ∀ kv ∈ d, Bare kv.2
  | _ :: _, h, kv, hv => by
    rcases List.mem_cons.1 hv with rfl | hv
    · exact h.1
    · exact bareD_mem h.2 kv hv

theorem isclose_comm (a b : Rat) : isclose a b = isclose b a := by
  rw [Bool.eq_iff_iff, isclose_iff, isclose_iff]
  exact ⟨Close.symm, Close.symm⟩

theorem isInst_comm {v w : V} (hv : Bare v) (hw : Bare w) : isInst Γ v w = isInst Γ w v := by
  cases v <;> cases w <;> first | rfl | exact hv.elim | exact hw.elim | (simp only [isInst]; rw [Bool.beq_comm])

theorem leafSame_comm {v w : V} (hv : Bare v) (hw : Bare w) : leafSame v w = leafSame w v := by
  cases v <;> cases w <;> first | rfl | exact hv.elim | exact hw.elim |
    (simp only [leafSame]; rw [Bool.beq_comm]; done) |
    (simp only [leafSame]; rw [isclose_comm, Bool.beq_comm]; done) |
    (rename_i k n t k' n' t'; simp only [leafSame]; rw [Bool.beq_comm (a := k), Bool.beq_comm (a := n), Bool.beq_comm (a := t)])

theorem leaf_exchanged {v w : V} {p : List Key} {D D' : Diff} (hv : Bare v) (hw : Bare w) (h : leafDiff Γ v w p = .ok D)
    (h' : leafDiff Γ w v p = .ok D') : Exchanged D D' := by
  unfold leafDiff at h h'
  rw [← isInst_comm hv hw, ← leafSame_comm hv hw] at h'
  split at h
  · rename_i hi
    rw [if_pos hi] at h'
    split at h
    · rename_i hl
      rw [if_pos hl] at h'
      cases h; cases h'
      exact ⟨.nil, .nil⟩
    · rename_i hl
      rw [if_neg hl] at h'
      have hD : D = { different := [(p, v, w)] } := by split at h <;> first | cases h; rfl | cases h
      have hD' : D' = { different := [(p, w, v)] } := by split at h' <;> first | cases h'; rfl | cases h'
      subst hD hD'
      exact ⟨.refl _, .nil⟩
  · rename_i hi
    rw [if_neg hi] at h'
    cases h; cases h'
    exact ⟨.nil, .refl _⟩

theorem Exchanged.add {D D' E E' : Diff} (h : Exchanged D D') (h' : Exchanged E E') : Exchanged (D.add E) (D'.add E') := by
  refine ⟨?_, ?_⟩
  · simp only [Diff.add, List.map_append]; exact h.1.append h'.1
  · simp only [Diff.add, List.map_append]; exact h.2.append h'.2

theorem add_missing {D E : Diff} (h : (D.add E).missing = []) : D.missing = [] ∧ E.missing = [] := by
  simpa [Diff.add] using h

/-- The diff of the values at a key of two dictionaries. -/
def diffAt (Γ : Env) (a b : List (Key × V)) (p : List Key) (k : Key) : Diff :=
  match a.lookup k, b.lookup k with
  | some v, some w => match diff Γ v w (p ++ [k]) with
    | .ok D => D
    | .error _ => {}
  | _, _ => {}

theorem dictLoop_parts {a b : List (Key × V)} {p : List Key} {f : Bool} : ∀ (l : List (Key × V)) (D : Diff), (∀ kv ∈ l, a.lookup kv.1 = some kv.2) →
    dictLoop Γ l b f p = .ok D → D.missing = [] →
    (∀ k ∈ keysOf l, ∃ v w E, a.lookup k = some v ∧ b.lookup k = some w ∧ diff Γ v w (p ++ [k]) = .ok E ∧ E.missing = [] ∧ diffAt Γ a b p k = E) ∧
    D.different = (keysOf l).flatMap (fun k => (diffAt Γ a b p k).different) ∧
    D.types = (keysOf l).flatMap (fun k => (diffAt Γ a b p k).types)
  | [], D, _, h, _ => by
    rw [dictLoop_nil] at h
    cases h
    simp [keysOf]
  | (k, v) :: l, D, ha, h, hm => by
    cases hb : b.lookup k with
    | none =>
      rw [dictLoop_cons_none _ _ _ _ _ _ _ hb] at h
      obtain ⟨R, -, h2⟩ := bind_ok.1 h
      cases h2
      simp [Diff.add] at hm
    | some w =>
      rw [dictLoop_cons_some _ _ _ _ _ _ _ _ hb] at h
      obtain ⟨E, h1, h⟩ := bind_ok.1 h
      obtain ⟨R, h2, h3⟩ := bind_ok.1 h
      cases h3
      obtain ⟨m1, m2⟩ := add_missing hm
      obtain ⟨g1, g2, g3⟩ := dictLoop_parts l R (fun kv hkv => ha kv (.tail _ hkv)) h2 m2
      have hav : a.lookup k = some v := ha (k, v) (.head _)
      have hE : diffAt Γ a b p k = E := by
        unfold diffAt
        rw [hav, hb]
        simp only [h1]
      refine ⟨fun k' hk' => ?_, ?_, ?_⟩
      · simp only [keysOf, List.map_cons, List.mem_cons] at hk'
        rcases hk' with rfl | hk'
        · exact ⟨v, w, E, hav, hb, h1, m1, hE⟩
        · exact g1 k' hk'
      · simp only [keysOf, List.map_cons, List.flatMap_cons, hE, Diff.add]
        rw [g2]; rfl
      · simp only [keysOf, List.map_cons, List.flatMap_cons, hE, Diff.add]
        rw [g3]; rfl

theorem seqLoop_exchanged {p : List Key} : ∀ (a b : List V) (i : Nat) (D D' : Diff),
    (∀ x ∈ a, ∀ y ∈ b, ∀ q E E', diff Γ x y q = .ok E → diff Γ y x q = .ok E' → E.missing = [] → E'.missing = [] → Exchanged E E') →
    seqLoop Γ i a b p = .ok D → seqLoop Γ i b a p = .ok D' → D.missing = [] → D'.missing = [] → Exchanged D D'
  | [], b, i, D, D', _, h, h', _, _ => by
    rw [seqLoop_nil_left] at h
    rw [seqLoop_nil_right] at h'
    cases h; cases h'
    exact ⟨.nil, .nil⟩
  | x :: a, [], i, D, D', _, h, h', _, _ => by
    rw [seqLoop_nil_right] at h
    rw [seqLoop_nil_left] at h'
    cases h; cases h'
    exact ⟨.nil, .nil⟩
  | x :: a, y :: b, i, D, D', hx, h, h', hm, hm' => by
    rw [seqLoop_cons] at h h'
    obtain ⟨E, h1, h⟩ := bind_ok.1 h
    obtain ⟨R, h2, h3⟩ := bind_ok.1 h
    cases h3
    obtain ⟨E', h1', h'⟩ := bind_ok.1 h'
    obtain ⟨R', h2', h3'⟩ := bind_ok.1 h'
    cases h3'
    obtain ⟨m1, m2⟩ := add_missing hm
    obtain ⟨m1', m2'⟩ := add_missing hm'
    exact (hx x (.head _) y (.head _) _ E E' h1 h1' m1 m1').add
      (seqLoop_exchanged a b (i + 1) R R' (fun x hx' y hy => hx x (.tail _ hx') y (.tail _ hy)) h2 h2' m2 m2')

/-- Two dictionaries without missing keys, on either side, have the same keys. -/
theorem dictDiff_loops {a b : List (Key × V)} {p : List Key} {D : Diff} (hb : (keysOf b).Nodup)
    (h : dictDiff Γ a b p = .ok D) (hm : D.missing = []) : a.length ≥ b.length ∧ dictLoop Γ a b false p = .ok D := by
  rw [dictDiff] at h
  split at h
  · rename_i hl
    exfalso
    obtain ⟨g1, -⟩ := dictLoop_parts (a := b) (b := a) b D (fun kv hkv => lookup_of_mem hb hkv) h hm
    have := keys_subset_length (a := b) (b := a) hb fun k hk => by
      obtain ⟨v, w, E, -, hw, -⟩ := g1 k hk
      exact List.mem_map.2 ⟨(k, w), lookup_some_mem hw, rfl⟩
    omega
  · exact ⟨by omega, h⟩

theorem exchanged_aux (Γ : Env) : ∀ (n : Nat) (v w : V) (p : List Key) (D D' : Diff), sizeOf v + sizeOf w < n → WF v → WF w → Bare v → Bare w →
    diff Γ v w p = .ok D → diff Γ w v p = .ok D' → D.missing = [] → D'.missing = [] → Exchanged D D'
  | 0, _, _, _, _, _, hn, _, _, _, _, _, _, _, _ => by omega
  | n + 1, v, w, p, D, D', hn, wv, ww, hv, hw, h, h', hm, hm' => by
    rcases diff_cases h with ⟨hp, hd⟩ | ⟨a, b, ha, hb, hl, rfl⟩ | ⟨a, b, ha, hb, hl, hd⟩ | ⟨a, b, rfl, rfl, hd⟩ | ⟨c, a, c', b, rfl, rfl, -⟩ |
      ⟨c, a, c', b, rfl, rfl, -⟩ | ⟨c, a, c', b, rfl, rfl, -⟩
    · have hp' : isPair w v = false := by cases v <;> cases w <;> first | rfl | (simp [isPair] at hp; done)
      rw [diff_leaf _ _ _ _ hp'] at h'
      exact leaf_exchanged hv hw hd h'
    · have hD' : D' = { different := [(p, w, v)] } := by
        rcases diff_cases h' with ⟨hp, -⟩ | ⟨a', b', ha', hb', hl', rfl⟩ | ⟨a', b', ha', hb', hl', -⟩ | ⟨a', b', rfl, rfl, -⟩ | ⟨c, a', c', b', rfl, rfl, -⟩ |
          ⟨c, a', c', b', rfl, rfl, -⟩ | ⟨c, a', c', b', rfl, rfl, -⟩
        · cases v <;> cases w <;> simp [seqItems, isPair] at *
        · rfl
        · rw [hb] at ha'; rw [ha] at hb'
          cases ha'; cases hb'
          exact absurd hl'.symm hl
        · simp [seqItems] at ha
        · simp [seqItems] at ha
        · simp [seqItems] at ha
        · simp [seqItems] at ha
      subst hD'
      exact ⟨.refl _, .nil⟩
    · have hd' : seqLoop Γ 0 b a p = .ok D' := by
        rcases diff_cases h' with ⟨hp, -⟩ | ⟨a', b', ha', hb', hl', rfl⟩ | ⟨a', b', ha', hb', hl', hd'⟩ | ⟨a', b', rfl, rfl, -⟩ | ⟨c, a', c', b', rfl, rfl, -⟩ |
          ⟨c, a', c', b', rfl, rfl, -⟩ | ⟨c, a', c', b', rfl, rfl, -⟩
        · cases v <;> cases w <;> simp [seqItems, isPair] at *
        · rw [hb] at ha'; rw [ha] at hb'
          cases ha'; cases hb'
          exact absurd hl.symm hl'
        · rw [hb] at ha'; rw [ha] at hb'
          cases ha'; cases hb'
          exact hd'
        · simp [seqItems] at ha
        · simp [seqItems] at ha
        · simp [seqItems] at ha
        · simp [seqItems] at ha
      have sa := seqItems_sizeOf ha
      have sb := seqItems_sizeOf hb
      have ba : ∀ x ∈ a, Bare x := by
        cases v <;> simp [seqItems] at ha <;> subst ha <;> exact bareL_mem hv
      have bb : ∀ x ∈ b, Bare x := by
        cases w <;> simp [seqItems] at hb <;> subst hb <;> exact bareL_mem hw
      refine seqLoop_exchanged a b 0 D D' (fun x hx y hy q E E' e1 e2 e3 e4 => ?_) hd hd' hm hm'
      have s1 := List.sizeOf_lt_of_mem hx
      have s2 := List.sizeOf_lt_of_mem hy
      exact exchanged_aux Γ n x y q E E' (by omega) (seqItems_WF ha wv x hx) (seqItems_WF hb ww y hy) (ba x hx) (bb y hy) e1 e2 e3 e4
    · have hd' : dictDiff Γ b a p = .ok D' := by rw [diff] at h'; exact h'
      simp only [WF] at wv ww
      obtain ⟨l1, e1⟩ := dictDiff_loops ww.1 hd hm
      obtain ⟨l2, e2⟩ := dictDiff_loops wv.1 hd' hm'
      obtain ⟨g1, g2, g3⟩ := dictLoop_parts (a := a) a D (fun kv hkv => lookup_of_mem wv.1 hkv) e1 hm
      obtain ⟨k1, k2, k3⟩ := dictLoop_parts (a := b) b D' (fun kv hkv => lookup_of_mem ww.1 hkv) e2 hm'
      have hsub : ∀ k ∈ keysOf a, k ∈ keysOf b := fun k hk => by
        obtain ⟨v, w, E, -, hw, -⟩ := g1 k hk
        exact List.mem_map.2 ⟨(k, w), lookup_some_mem hw, rfl⟩
      have hperm : (keysOf b).Perm (keysOf a) := ((List.subperm_of_subset wv.1 hsub).perm_of_length_le (by simpa [keysOf] using l1)).symm
      have hone : ∀ k ∈ keysOf a, Exchanged (diffAt Γ a b p k) (diffAt Γ b a p k) := by
        intro k hk
        obtain ⟨x, y, E, hx, hy, hE, hEm, hat⟩ := g1 k hk
        obtain ⟨y', x', E', hy', hx', hE', hEm', hat'⟩ := k1 k (hsub k hk)
        rw [hx] at hx'; rw [hy] at hy'
        cases hx'; cases hy'
        rw [hat, hat']
        have mx := lookup_some_mem hx
        have my := lookup_some_mem hy
        have s1 := sizeOf_lookup_lt hx
        have s2 := sizeOf_lookup_lt hy
        refine exchanged_aux Γ n x y _ E E' ?_ ?_ ?_ ?_ ?_ hE hE' hEm hEm'
        · simp at hn; omega
        · exact (WFD_iff _).1 wv.2 _ mx
        · exact (WFD_iff _).1 ww.2 _ my
        · exact bareD_mem hv _ mx
        · exact bareD_mem hw _ my
      refine ⟨?_, ?_⟩
      · rw [g2, k2, List.map_flatMap]
        exact (hperm.flatMap_right _).trans (.flatMap_left _ fun k hk => (hone k hk).1)
      · rw [g3, k3, List.map_flatMap]
        exact (hperm.flatMap_right _).trans (.flatMap_left _ fun k hk => (hone k hk).2)
    all_goals exact hv.elim

/-! ### C193 -/

/-- Exchanging two values exchanges the values told by their diff, when it tells nothing missing either way.
Missing: objects, booleans and measures, and dictionaries having other keys (`C193_missing_violated`, `C193_longer_violated`,
`C193_types_violated`, `C193_objects_violated`). -/
theorem C193_partial {v w : V} {p : List Key} {D D' : Diff} (wv : WF v) (ww : WF w) (hv : Bare v) (hw : Bare w) (h : diff Γ v w p = .ok D)
    (h' : diff Γ w v p = .ok D') (hm : D.missing = []) (hm' : D'.missing = []) : Exchanged D D' :=
  exchanged_aux Γ (sizeOf v + sizeOf w + 1) v w p D D' (by omega) wv ww hv hw h h' hm hm'

/-- A dictionary and a list, the keys being in two orders. -/
example : ∃ v w D D', WF v ∧ WF w ∧ Bare v ∧ Bare w ∧ diff Γ v w [] = .ok D ∧ diff Γ w v [] = .ok D' ∧ D.missing = [] ∧ D'.missing = [] ∧
    D.different = [([.str "a"], .int 1, .int 2)] ∧ D.types = [([.str "b", .int 0], .str "x", .int 0)] ∧
    D'.different = [([.str "a"], .int 2, .int 1)] ∧ D'.types = [([.str "b", .int 0], .int 0, .str "x")] :=
  ⟨.dict [(.str "a", .int 1), (.str "b", .list [.str "x"])], .dict [(.str "b", .tuple [.int 0]), (.str "a", .int 2)],
    { different := [([.str "a"], .int 1, .int 2)], types := [([.str "b", .int 0], .str "x", .int 0)] },
    { different := [([.str "a"], .int 2, .int 1)], types := [([.str "b", .int 0], .int 0, .str "x")] },
    by simp [WF, WFD, WFL, keysOf], by simp [WF, WFD, WFL, keysOf], by simp [Bare, BareD, BareL], by simp [Bare, BareD, BareL],
    by
      rw [diff, dictDiff, if_neg (by simp), dictLoop_cons_some _ _ _ _ _ _ _ _ (by rfl), dictLoop_cons_some _ _ _ _ _ _ _ _ (by rfl), dictLoop_nil, diff_leaf _ _ _ _ (by simp [isPair]), diff, seqDiff,
        if_neg (by simp), seqLoop_cons, seqLoop_nil_left, diff_leaf _ _ _ _ (by simp [isPair])]
      rfl,
    by
      rw [diff, dictDiff, if_neg (by simp), dictLoop_cons_some _ _ _ _ _ _ _ _ (by rfl), dictLoop_cons_some _ _ _ _ _ _ _ _ (by rfl), dictLoop_nil, diff, seqDiff, if_neg (by simp), seqLoop_cons, seqLoop_nil_left,
        diff_leaf _ _ _ _ (by simp [isPair]), diff_leaf _ _ _ _ (by simp [isPair])]
      rfl,
    rfl, rfl, rfl, rfl, rfl, rfl⟩

/-- **C193** is violated by the code: of two dictionaries of one length, the diff tells the key of the first only, either way. -/
theorem C193_missing_violated (Γ : Env) : ∃ v w D D', WF v ∧ WF w ∧ Bare v ∧ Bare w ∧ diff Γ v w [] = .ok D ∧ diff Γ w v [] = .ok D' ∧
    D.missing = [([.str "a"], false)] ∧ D'.missing = [([.str "b"], false)] :=
  ⟨.dict [(.str "a", .int 1)], .dict [(.str "b", .int 1)], { missing := [([.str "a"], false)] }, { missing := [([.str "b"], false)] },
    by simp [WF, WFD, keysOf], by simp [WF, WFD, keysOf], by simp [Bare, BareD], by simp [Bare, BareD],
    by rw [diff, dictDiff, if_neg (by simp), dictLoop_cons_none _ _ _ _ _ _ _ (by rfl), dictLoop_nil]; rfl,
    by rw [diff, dictDiff, if_neg (by simp), dictLoop_cons_none _ _ _ _ _ _ _ (by rfl), dictLoop_nil]; rfl, rfl, rfl⟩

/-- **C193** is violated by the code: when the second dictionary has more keys, its values are told first, either way. -/
theorem C193_longer_violated (Γ : Env) : ∃ v w D D', WF v ∧ WF w ∧ Bare v ∧ Bare w ∧ diff Γ v w [] = .ok D ∧ diff Γ w v [] = .ok D' ∧
    D.different = [([.str "a"], .int 2, .int 1)] ∧ D'.different = [([.str "a"], .int 2, .int 1)] :=
  ⟨.dict [(.str "a", .int 1)], .dict [(.str "a", .int 2), (.str "b", .int 1)],
    { different := [([.str "a"], .int 2, .int 1)], missing := [([.str "b"], true)] },
    { different := [([.str "a"], .int 2, .int 1)], missing := [([.str "b"], false)] },
    by simp [WF, WFD, keysOf], by simp [WF, WFD, keysOf], by simp [Bare, BareD], by simp [Bare, BareD],
    by rw [diff, dictDiff, if_pos (by simp), dictLoop_cons_some _ _ _ _ _ _ _ _ (by rfl), dictLoop_cons_none _ _ _ _ _ _ _ (by rfl), dictLoop_nil, diff_leaf _ _ _ _ (by simp [isPair])]; rfl,
    by rw [diff, dictDiff, if_neg (by simp), dictLoop_cons_some _ _ _ _ _ _ _ _ (by rfl), dictLoop_cons_none _ _ _ _ _ _ _ (by rfl), dictLoop_nil, diff_leaf _ _ _ _ (by simp [isPair])]; rfl, rfl, rfl⟩

/-- **C193** is violated by the code: a boolean is an integer, and an integer is no boolean. -/
theorem C193_types_violated (Γ : Env) : diff Γ (.bool true) (.int 1) [] = .ok {} ∧
    diff Γ (.int 1) (.bool true) [] = .ok { types := [([], .int 1, .bool true)] } := by
  constructor <;> simp [diff, isInst, leafSame, b2i]

/-- **C193** is violated by the code: of two objects having the same name, the diff tells the name of the first missing, either way. -/
theorem C193_objects_violated : ∃ (a b : List (Key × V)) (D D' : Diff), WF (.obj "m.A" a) ∧ WF (.obj "m.A" b) ∧
    diff demoEnv (.obj "m.A" a) (.obj "m.A" b) [] = .ok D ∧ diff demoEnv (.obj "m.A" b) (.obj "m.A" a) [] = .ok D' ∧
    D.different = [([.str "x"], .int 2, .int 1)] ∧ D'.different = [([.str "x"], .int 1, .int 2)] ∧
    D.missing = [([.str "name"], true)] ∧ D'.missing = [([.str "name"], true)] := by
  refine ⟨[(.str "name", .str "n"), (.str "x", .int 1)], [(.str "name", .str "n"), (.str "x", .int 2)],
    { different := [([.str "x"], .int 2, .int 1)], missing := [([.str "name"], true)] },
    { different := [([.str "x"], .int 1, .int 2)], missing := [([.str "name"], true)] }, by simp [WF, WFD, keysOf], by simp [WF, WFD, keysOf], ?_, ?_, rfl, rfl, rfl, rfl⟩
  · have h1 : dataEq demoEnv (.obj "m.A" [(.str "name", .str "n"), (.str "x", .int 1)])
        (.obj "m.A" [(.str "name", .str "n"), (.str "x", .int 2)]) = false := by decide
    have h2 : diffAttrs1 demoEnv "m.A" [(.str "name", .str "n"), (.str "x", .int 1)] = [(.str "x", .int 1)] := by rfl
    have h3 : serializableDict demoEnv "m.A" [(.str "name", .str "n"), (.str "x", .int 2)] =
        [(.str "name", .str "n"), (.str "x", .int 2)] := by rfl
    rw [diff, if_pos (by simp [isInst]), h1, if_neg (by simp), h2, h3, dictDiff, if_pos (by simp),
      dictLoop_cons_none _ _ _ _ _ _ _ (by rfl), dictLoop_cons_some _ _ _ _ _ _ _ _ (by rfl), dictLoop_nil,
      diff_leaf _ _ _ _ (by simp [isPair])]
    rfl
  · have h1 : dataEq demoEnv (.obj "m.A" [(.str "name", .str "n"), (.str "x", .int 2)])
        (.obj "m.A" [(.str "name", .str "n"), (.str "x", .int 1)]) = false := by decide
    have h2 : diffAttrs1 demoEnv "m.A" [(.str "name", .str "n"), (.str "x", .int 2)] = [(.str "x", .int 2)] := by rfl
    have h3 : serializableDict demoEnv "m.A" [(.str "name", .str "n"), (.str "x", .int 1)] =
        [(.str "name", .str "n"), (.str "x", .int 1)] := by rfl
    rw [diff, if_pos (by simp [isInst]), h1, if_neg (by simp), h2, h3, dictDiff, if_pos (by simp),
      dictLoop_cons_none _ _ _ _ _ _ _ (by rfl), dictLoop_cons_some _ _ _ _ _ _ _ _ (by rfl), dictLoop_nil,
      diff_leaf _ _ _ _ (by simp [isPair])]
    rfl

end DC
