import Verif.Values.EmitMain
import Mathlib.Data.List.Forall2
/- Helper lemmas for Verif/Values/EmitProps.lean: adding the references. -/
namespace DC
set_option linter.unusedSimpArgs false

/-- `x'` may replace `x`: it is the same value, or a reference to the same thing.  Used in proofs only (no code). -/
def Stands (H : Heap) (T : List (Key × SV)) (x x' : SV) : Prop :=
  x' = x ∨ ∃ c, Leads H T x' c ∧ (x = c ∨ Leads H T x c)

/-- A dictionary or list after some replacements.  Used in proofs only (no code). -/
inductive SimCell (H : Heap) (T : List (Key × SV)) : Cell → Cell → Prop
  | ref {d d' r} : d.lookup (.str "$ref") = some r → d'.lookup (.str "$ref") = some r → SimCell H T (.dict d) (.dict d')
  | dict {d d'} : d.lookup (.str "$ref") = none → List.Forall₂ (fun kx kx' => kx'.1 = kx.1 ∧ Stands H T kx.2 kx'.2) d d' →
      SimCell H T (.dict d) (.dict d')
  | list {l l'} : List.Forall₂ (Stands H T) l l' → SimCell H T (.list l) (.list l')

/-- The heap after some replacements.  Used in proofs only (no code). -/
def Sim (H0 H : Heap) (T : List (Key × SV)) : Prop :=
  ∀ (b : Nat) c, H0[b]? = some c → ∃ c', H[b]? = some c' ∧ SimCell H T c c'

/-- The references are still references.  Used in proofs only (no code). -/
def LMono (T : List (Key × SV)) (H H' : Heap) : Prop := ∀ x c, Leads H T x c → Leads H' T x c

theorem Stands.mono {T H H'} (h : LMono T H H') {x x'} (s : Stands H T x x') : Stands H' T x x' := by
  rcases s with s | ⟨c, h1, h2⟩
  · exact .inl s
  · refine .inr ⟨c, h _ _ h1, ?_⟩
    rcases h2 with h2 | h2
    · exact .inl h2
    · exact .inr (h _ _ h2)

theorem SimCell.mono {T H H'} (h : LMono T H H') {c c'} (s : SimCell H T c c') : SimCell H' T c c' := by
  cases s with
  | ref h1 h2 => exact .ref h1 h2
  | dict h1 h2 => exact .dict h1 (h2.imp fun _ _ a => ⟨a.1, a.2.mono h⟩)
  | list h1 => exact .list (h1.imp fun _ _ a => a.mono h)

theorem forall2_keys {P : SV → SV → Prop} {d d' : List (Key × SV)}
    (h : List.Forall₂ (fun kx kx' => kx'.1 = kx.1 ∧ P kx.2 kx'.2) d d') : d'.map (·.1) = d.map (·.1) := by
  induction h with
  | nil => rfl
  | cons a _ ih => rw [List.map_cons, List.map_cons, a.1, ih]

theorem forall2_lookup {P : SV → SV → Prop} {d d' : List (Key × SV)}
    (h : List.Forall₂ (fun kx kx' => kx'.1 = kx.1 ∧ P kx.2 kx'.2) d d') {k x} (hl : d.lookup k = some x) :
    ∃ x', d'.lookup k = some x' ∧ P x x' := by
  induction h with
  | nil => simp at hl
  | cons a _ ih =>
    rename_i kx kx' d d' _
    obtain ⟨k0, x0⟩ := kx
    obtain ⟨k1, x1⟩ := kx'
    simp only at a
    obtain ⟨rfl, a⟩ := a
    by_cases hk : k = k1
    · subst hk
      simp at hl; subst hl
      exact ⟨x1, by simp, a⟩
    · have : (k == k1) = false := by simpa using hk
      simp only [List.lookup, this] at hl ⊢
      exact ih hl

theorem forall2_dictSet {P : SV → SV → Prop} {d d' : List (Key × SV)}
    (h : List.Forall₂ (fun kx kx' => kx'.1 = kx.1 ∧ P kx.2 kx'.2) d d') {k x y} (hl : d.lookup k = some x) (hp : P x y) :
    List.Forall₂ (fun kx kx' => kx'.1 = kx.1 ∧ P kx.2 kx'.2) d (dictSet d' k y) := by
  induction h with
  | nil => simp at hl
  | cons a hf ih =>
    rename_i kx kx' d d'
    obtain ⟨k0, x0⟩ := kx
    obtain ⟨k1, x1⟩ := kx'
    simp only at a
    obtain ⟨rfl, a⟩ := a
    rw [dictSet]
    by_cases hk : k = k1
    · subst hk
      simp at hl; subst hl
      rw [if_pos (by rfl)]
      exact .cons ⟨rfl, hp⟩ hf
    · have : (k == k1) = false := by simpa using hk
      simp only [List.lookup, this] at hl
      rw [if_neg (Ne.symm hk)]
      exact .cons ⟨rfl, a⟩ (ih hl)

theorem forall2_get {P : SV → SV → Prop} {l l' : List SV} (h : List.Forall₂ P l l') {n : Nat} {x} (hl : l[n]? = some x) :
    ∃ x', l'[n]? = some x' ∧ P x x' := by
  induction h generalizing n with
  | nil => simp at hl
  | cons a _ ih =>
    cases n with
    | zero => simp at hl; subst hl; exact ⟨_, by simp, a⟩
    | succ n => simp at hl; simpa using ih hl

theorem forall2_set {P : SV → SV → Prop} {l l' : List SV} (h : List.Forall₂ P l l') {n : Nat} {x y} (hl : l[n]? = some x)
    (hp : P x y) : List.Forall₂ P l (l'.set n y) := by
  induction h generalizing n with
  | nil => simp at hl
  | cons a hf ih =>
    cases n with
    | zero => simp at hl; subst hl; exact .cons hp hf
    | succ n => simp at hl; exact .cons a (ih hl)

section
variable {H0 H : Heap} {T : List (Key × SV)}

theorem refStr_inj {n m : Nat} (h : refStr n = refStr m) : n = m := by
  have := congrArg splitSlash h
  rw [splitSlash_ref, splitSlash_ref] at this
  simp only [List.cons.injEq, and_true, true_and] at this
  exact idStr_inj this

theorem Leads.det {x c c'} (h : Leads H T x c) (h' : Leads H T x c') : c = c' := by
  obtain ⟨b, d, n, rfl, hb, hd, hn⟩ := h
  obtain ⟨b', d', n', e, hb', hd', hn'⟩ := h'
  simp only [SV.ptr.injEq] at e; subst e
  rw [hb] at hb'; simp only [Option.some.injEq, Cell.dict.injEq] at hb'; subst hb'
  rw [hd] at hd'; simp only [Option.some.injEq, SV.atom.injEq, V.str.injEq] at hd'
  have := refStr_inj hd'; subst this
  rw [hn] at hn'; simpa using hn'

theorem Leads.notNonRef {x c} (h : Leads H T x c) : ¬ NonRef H x := by
  rintro ⟨b', c', e, hb', hc⟩
  obtain ⟨b, d, n, rfl, hb, hd, hn⟩ := h
  simp only [SV.ptr.injEq] at e; subst e
  rw [hb] at hb'; simp only [Option.some.injEq] at hb'; subst hb'
  rw [hc d rfl] at hd; simp at hd

theorem Sim.nonRef (h : Sim H0 H T) {x} (n : NonRef H0 x) : NonRef H x := by
  obtain ⟨b, c, rfl, hb, hc⟩ := n
  obtain ⟨c', hb', hs⟩ := h b c hb
  refine ⟨b, c', rfl, hb', ?_⟩
  rintro d' rfl
  cases hs with
  | ref h1 h2 => rw [hc _ rfl] at h1; simp at h1
  | dict h1 h2 =>
    rw [Dict.lookup_none] at h1 ⊢
    rw [forall2_keys h2]; exact h1

theorem Sim.leads (h : Sim H0 H T) {x c} (l : Leads H0 T x c) : Leads H T x c := by
  obtain ⟨b, d, n, rfl, hb, hd, hn⟩ := l
  obtain ⟨c', hb', hs⟩ := h b _ hb
  cases hs with
  | ref h1 h2 =>
    rw [hd] at h1
    simp only [Option.some.injEq] at h1; subst h1
    exact ⟨b, _, n, rfl, hb', h2, hn⟩
  | dict h1 h2 => rw [hd] at h1; simp at h1

theorem Sim.leads_back (h : Sim H0 H T) {b c0 c} (hb : H0[b]? = some c0) (l : Leads H T (.ptr b) c) : Leads H0 T (.ptr b) c := by
  obtain ⟨c', hb', hs⟩ := h b _ hb
  obtain ⟨b', d, n, e, hbd, hd, hn⟩ := l
  simp only [SV.ptr.injEq] at e; subst e
  rw [hbd] at hb'
  simp only [Option.some.injEq] at hb'; subst hb'
  cases hs with
  | ref h1 h2 =>
    rw [hd] at h2
    simp only [Option.some.injEq] at h2; subst h2
    exact ⟨b, _, n, rfl, hb, h1, hn⟩
  | dict h1 h2 =>
    rw [Dict.lookup_none, ← forall2_keys h2, ← Dict.lookup_none, hd] at h1
    simp at h1

theorem Leads.unread {x c j} (l : Leads H T x c) (r : Reads H T x j) : Reads H T c j := by
  obtain ⟨b, d, n, rfl, hb, hd, hn⟩ := l
  cases r with
  | ref h1 h2 h3 h4 =>
    rw [hb] at h1; simp only [Option.some.injEq, Cell.dict.injEq] at h1; subst h1
    rw [hd] at h2; simp only [Option.some.injEq, SV.atom.injEq, V.str.injEq, refStr] at h2
    have h2 := congrArg String.toList h2
    rw [String.toList_append, String.toList_append] at h2
    have h2 := String.toList_inj.1 (List.append_cancel_left h2)
    rw [← h2] at h3
    rw [show Key.str (idStr n) = idKey n from rfl, hn] at h3
    simp only [Option.some.injEq] at h3; subst h3
    exact h4
  | dict h1 h2 =>
    rw [hb] at h1; simp only [Option.some.injEq, Cell.dict.injEq] at h1; subst h1
    rw [hd] at h2; simp at h2
  | list h1 => rw [hb] at h1; simp at h1

theorem Stands.reads {x x' j} (s : Stands H T x x') (r : Reads H T x j) : Reads H T x' j := by
  rcases s with rfl | ⟨c, h1, rfl | h2⟩
  · exact r
  · exact h1.reads r
  · exact h1.reads (h2.unread r)

/-- What was read before the replacements is read after. -/
theorem Sim.reads (h : Sim H0 H T) {x j} (r : Reads H0 T x j) : Reads H T x j := by
  induction r with
  | atom => exact .atom
  | ref h1 h2 h3 _ ih =>
    obtain ⟨c', hb', hs⟩ := h _ _ h1
    cases hs with
    | ref a b => rw [h2] at a; simp only [Option.some.injEq] at a; subst a; exact .ref hb' b h3 ih
    | dict a b => rw [h2] at a; simp at a
  | dict h1 h2 h3 h4 ih =>
    rename_i a d e f
    obtain ⟨c', hb', hs⟩ := h _ _ h1
    cases hs with
    | ref a b => rw [h2] at a; simp at a
    | dict a b =>
      rename_i d'
      have hkeys := forall2_keys b
      refine .dict hb' ?_ (f := f) ?_ ?_
      · rw [Dict.lookup_none] at h2 ⊢
        rw [hkeys]; exact h2
      · have : ∀ (d d' : List (Key × SV)), List.Forall₂ (fun kx kx' => kx'.1 = kx.1 ∧ Stands H T kx.2 kx'.2) d d' →
            (∀ kv ∈ d, Reads H T kv.2 (f kv.1)) → ∀ kv ∈ d', Reads H T kv.2 (f kv.1) := by
          intro d d' hf
          induction hf with
          | nil => simp
          | cons a _ ih =>
            intro hr kv hm
            rcases List.mem_cons.1 hm with rfl | hm
            · rw [a.1]; exact a.2.reads (hr _ (by simp))
            · exact ih (fun kv hm => hr kv (by simp [hm])) kv hm
        exact this _ _ b ih
      · have e1 : ∀ l : List (Key × SV), (l.map fun kv => (kv.1, f kv.1)) = (l.map (·.1)).map fun k => (k, f k) := by
          intro l; rw [List.map_map]; rfl
        rw [e1, hkeys, ← e1]; exact h4
  | list h1 h2 h3 ih =>
    obtain ⟨c', hb', hs⟩ := h _ _ h1
    cases hs with
    | list b =>
      refine .list hb' (by rw [← b.length_eq]; exact h2) ?_
      intro i x' v hx' hv
      have hlt := (List.getElem?_eq_some_iff.1 hx').1
      obtain ⟨x, hx⟩ : ∃ x, _[i]? = some x := ⟨_, List.getElem?_eq_getElem (l := _) (by rw [b.length_eq]; exact hlt)⟩
      obtain ⟨x'', h5, h6⟩ := forall2_get b hx
      rw [hx'] at h5; simp only [Option.some.injEq] at h5; subst h5
      exact h6.reads (ih i x v hx hv)

/-- The references are plain dictionaries of the first heap.  Used in proofs only (no code). -/
def Contents (H0 : Heap) (T : List (Key × SV)) : Prop := ∀ k c, T.lookup k = some c → PlainDict H0 c

theorem Leads.content {H' : Heap} (hc : Contents H0 T) {x c} (l : Leads H' T x c) : PlainDict H0 c := by
  obtain ⟨b, d, n, rfl, hb, hd, hn⟩ := l
  exact hc _ _ hn

theorem Der.cell {x y} (h : Der H0 T x y) : ∃ b c, x = .ptr b ∧ H0[b]? = some c := by
  rcases h with ⟨b, d, n, rfl, hb, -⟩ | ⟨-, b, c, rfl, hb, -⟩
  · exact ⟨_, _, rfl, hb⟩
  · exact ⟨_, _, rfl, hb⟩

theorem Der.nonRef (hc : Contents H0 T) {x y} (h : Der H0 T x y) : NonRef H0 y := by
  rcases h with h | ⟨rfl, h⟩
  · exact (h.content hc).nonRef
  · exact h

theorem Der.det {x y y'} (h : Der H T x y) (h' : Der H T x y') : y = y' := by
  rcases h with h | ⟨rfl, h⟩ <;> rcases h' with h' | ⟨rfl, h'⟩
  · exact h.det h'
  · exact absurd h' h.notNonRef
  · exact absurd h h'.notNonRef
  · rfl

theorem Sim.der (h : Sim H0 H T) (hc : Contents H0 T) {x x' y} (s : Stands H T x x') (d : Der H0 T x y) : Der H T x' y := by
  rcases s with rfl | ⟨c, h1, rfl | h2⟩
  · rcases d with d | ⟨e, d⟩
    · exact .inl (h.leads d)
    · exact .inr ⟨e, h.nonRef d⟩
  · rcases d with d | ⟨rfl, d⟩
    · exact absurd (h1.content hc).nonRef d.notNonRef
    · exact .inl h1
  · obtain ⟨b, c0, rfl, hb⟩ := d.cell
    have h3 := h.leads_back hb h2
    have := d.det (.inl h3)
    subst this
    exact .inl h1

theorem Sim.child (h : Sim H0 H T) {y s z} (hn : NonRef H0 y) (c : Child H0 y s z) : ∃ z', Child H y s z' ∧ Stands H T z z' := by
  cases c with
  | key h1 h2 =>
    obtain ⟨c', hb', hs⟩ := h _ _ h1
    obtain ⟨b, c, e, hb, hd⟩ := hn
    simp only [SV.ptr.injEq] at e; subst e
    rw [h1] at hb; simp only [Option.some.injEq] at hb
    cases hs with
    | ref a _ => rw [hd _ hb.symm] at a; simp at a
    | dict a b =>
      obtain ⟨z', h3, h4⟩ := forall2_lookup b h2
      exact ⟨z', .key hb' h3, h4⟩
  | idx h1 h2 =>
    obtain ⟨c', hb', hs⟩ := h _ _ h1
    cases hs with
    | list b =>
      obtain ⟨z', h3, h4⟩ := forall2_get b h2
      exact ⟨z', .idx hb' h3, h4⟩

theorem Child.extract {y s z} (c : Child H y s z) : extractH H y s = .ok z := by
  cases c with
  | key h1 h2 => exact extractH_dict h1 h2
  | idx h1 h2 => exact extractH_list h1 h2

theorem Child.ne_ref {y s z} (hn : NonRef H y) (c : Child H y s z) : s ≠ "$ref" := by
  cases c with
  | key h1 h2 =>
    obtain ⟨b, c, e, hb, hd⟩ := hn
    simp only [SV.ptr.injEq] at e; subst e
    rw [h1] at hb; simp only [Option.some.injEq] at hb
    rintro rfl
    rw [hd _ hb.symm] at h2; simp at h2
  | idx h1 h2 =>
    rename_i n
    intro e
    have := int_toString n
    rw [e] at this
    exact absurd this (by rw [show int? "$ref" = none from rfl]; simp)

/-! ### Paths -/

/-- The root, of index `a`, has the references, of index `rc`.  Used in proofs only (no code). -/
structure Ready (H : Heap) (T : List (Key × SV)) (a rc : Nat) : Prop where
  root : ∃ d, H[a]? = some (.dict d) ∧ d.lookup (.str "$ref") = none ∧ d.lookup (.str "_references") = some (.ptr rc)
  refs : H[rc]? = some (.dict T)
  noRef : T.lookup (.str "$ref") = none

/-- What an element of a path is replaced with: utils/helpers.py 153-158. -/
def jumpH (H : Heap) (root : SV) (fuel : Nat) (x : SV) : Except PyErr SV :=
  match refH H x with
  | none => .ok x
  | some (.atom (.str r)) => getH H root fuel (lstripPath (splitSlash r))
  | some _ => .error .attributeError

theorem getH_succ (root : SV) (fuel : Nat) (p : Path) : getH H root (fuel + 1) p = walkH H (jumpH H root fuel) root p := by
  rfl

theorem NonRef.refH {x} (h : NonRef H x) : DC.refH H x = none := by
  obtain ⟨b, c, rfl, hb, hc⟩ := h
  rw [DC.refH, hb]
  cases c with
  | list l => rfl
  | dict d => exact hc d rfl

theorem Leads.refH {x c} (h : Leads H T x c) : ∃ n, DC.refH H x = some (.atom (.str (refStr n))) ∧ T.lookup (idKey n) = some c := by
  obtain ⟨b, d, n, rfl, hb, hd, hn⟩ := h
  exact ⟨n, by rw [DC.refH, hb]; exact hd, hn⟩

theorem Ready.get {a rc} (h : Ready H T a rc) {n c} (hn : T.lookup (idKey n) = some c) (fuel : Nat) :
    getH H (.ptr a) fuel ["_references", idStr n] = .ok c := by
  obtain ⟨d, h1, h2, h3⟩ := h.root
  have r1 : refH H (.ptr a) = none := by rw [refH, h1]; exact h2
  have r2 : refH H (.ptr rc) = none := by rw [refH, h.refs]; exact h.noRef
  have e1 := extractH_dict h1 h3
  have e2 := extractH_dict h.refs hn
  cases fuel with
  | zero => simp only [getH, walkH, r1, e1, r2, e2]
  | succ f => simp only [getH, walkH, r1, e1, r2, e2]

theorem Ready.jump {a rc} (h : Ready H T a rc) {x y} (d : Der H T x y) (fuel : Nat) : jumpH H (.ptr a) fuel x = .ok y := by
  rcases d with d | ⟨rfl, d⟩
  · obtain ⟨n, h1, h2⟩ := d.refH
    rw [jumpH, h1]
    simp only
    rw [lstrip_ref]
    exact h.get h2 fuel
  · rw [jumpH, d.refH]

theorem walk_follow {a rc fuel : Nat} (h : Sim H0 H T) (hr : Ready H T a rc) (hc : Contents H0 T) (N : Nat)
    (hlow : ∀ (b : Nat) c, b < N → H0[b]? = some c → ∀ x ∈ c.values, x.below N) (hT : ∀ k c, T.lookup k = some c → c.below N)
    {x x' p c} (f : Follow H0 T x p c) (hx : x.below N) (s : Stands H T x x') (q : Path) (last : String) (hp : p = q ++ [last]) :
    ∃ xp xp' y z, walkH H (jumpH H (.ptr a) fuel) x' q = .ok xp' ∧ Stands H T xp xp' ∧ Der H0 T xp y ∧ Child H0 y last z ∧
      Der H0 T z c ∧ y.below N := by
  induction f generalizing x' q with
  | here => simp at hp
  | step d e f ih =>
    rename_i x y seg z rest c
    have hy : y.below N := by
      rcases d with ⟨b, dd, n, rfl, hb, hd, hn⟩ | ⟨rfl, -⟩
      · exact hT _ _ hn
      · exact hx
    have hz : z.below N := by
      cases e with
      | key h1 h2 =>
        exact hlow _ _ hy h1 _ (List.mem_map.2 ⟨_, Dict.lookup_mem h2, rfl⟩)
      | idx h1 h2 => exact hlow _ _ hy h1 _ (List.mem_of_getElem? h2)
    cases q with
    | nil =>
      simp only [List.nil_append, List.cons.injEq] at hp
      obtain ⟨rfl, rfl⟩ := hp
      cases f with
      | here d' => exact ⟨x, x', y, z, rfl, s, d, e, d', hy⟩
    | cons q0 q =>
      simp only [List.cons_append, List.cons.injEq] at hp
      obtain ⟨rfl, hp⟩ := hp
      obtain ⟨z', e', sz⟩ := h.child (d.nonRef hc) e
      obtain ⟨xp, xp', y', z'', w1, w2⟩ := ih hz sz q hp
      refine ⟨xp, xp', y', z'', ?_, w2⟩
      rw [walkH, hr.jump (h.der hc s d)]
      simp only [e'.extract]
      exact w1

/-! ### One replacement -/

theorem Sim.set (h : Sim H0 H T) {b : Nat} {c' : Cell} (hm : LMono T H (H.set b c'))
    (hb : ∀ c0, H0[b]? = some c0 → SimCell (H.set b c') T c0 c') : Sim H0 (H.set b c') T := by
  intro b' c0 hb'
  obtain ⟨c1, h1, h2⟩ := h b' c0 hb'
  by_cases e : b = b'
  · subst e
    refine ⟨c', ?_, hb c0 hb'⟩
    rw [List.getElem?_set_self (List.getElem?_eq_some_iff.1 h1).1]
  · exact ⟨c1, by rw [List.getElem?_set_ne e]; exact h1, h2.mono hm⟩

theorem lmono_append (t : Heap) : LMono T H (H ++ t) := fun _ _ l => l.mono (.append t)

theorem Sim.append (h : Sim H0 H T) (t : Heap) : Sim H0 (H ++ t) T := by
  intro b c hb
  obtain ⟨c', h1, h2⟩ := h b c hb
  exact ⟨c', (HExt.append (T := T) t).cells _ _ h1, h2.mono (lmono_append t)⟩

theorem Ready.append {a rc} (h : Ready H T a rc) (t : Heap) : Ready (H ++ t) T a rc := by
  obtain ⟨d, h1, h2⟩ := h.root
  exact ⟨⟨d, (HExt.append (T := T) t).cells _ _ h1, h2⟩, (HExt.append (T := T) t).cells _ _ h.refs, h.noRef⟩

/-- Changing a reference, the key of the reference being kept. -/
theorem lmono_set_ref {b d d'} (hb : H[b]? = some (.dict d)) (h : d'.lookup (.str "$ref") = d.lookup (.str "$ref")) :
    LMono T H (H.set b (.dict d')) := by
  rintro x c ⟨b', d0, n, rfl, hb', hd, hn⟩
  by_cases e : b = b'
  · subst e
    rw [hb] at hb'; simp only [Option.some.injEq, Cell.dict.injEq] at hb'; subst hb'
    exact ⟨b, d', n, rfl, by rw [List.getElem?_set_self (List.getElem?_eq_some_iff.1 hb).1], by rw [h, hd], hn⟩
  · exact ⟨b', d0, n, rfl, by rw [List.getElem?_set_ne e]; exact hb', hd, hn⟩

theorem lmono_set_list {b l l'} (hb : H[b]? = some (.list l)) : LMono T H (H.set b (.list l')) := by
  rintro x c ⟨b', d0, n, rfl, hb', hd, hn⟩
  by_cases e : b = b'
  · subst e
    rw [hb] at hb'; simp at hb'
  · exact ⟨b', d0, n, rfl, by rw [List.getElem?_set_ne e]; exact hb', hd, hn⟩

/-- Replacing a value by a reference to the same thing, in the dictionary or list where it is, or in a reference to it. -/
theorem assign_ok {a rc : Nat} (h : Sim H0 H T) (hr : Ready H T a rc) (hc : Contents H0 T)
    {xp xp' y z c new : SV} {last : String} (s : Stands H T xp xp') (d : Der H0 T xp y) (hch : Child H0 y last z)
    (dz : Der H0 T z c) (hnew : Leads H T new c) (hroot : y = .ptr a → last ≠ "_references") (hrc : y ≠ .ptr rc) :
    ∃ H', assignH H xp' last new = .ok H' ∧ Sim H0 H' T ∧ Ready H' T a rc := by
  have hne := hch.ne_ref (d.nonRef hc)
  have hkne : Key.str "$ref" ≠ Key.str last := by simpa using Ne.symm hne
  have hst : Stands H T z new := by
    refine .inr ⟨c, hnew, ?_⟩
    rcases dz with dz | ⟨rfl, -⟩
    · exact .inr (h.leads dz)
    · exact .inl rfl
  obtain ⟨dr, hr1, hr2, hr3⟩ := hr.root
  have hD := h.der hc s d
  rcases hD with ⟨b, dd, n, rfl, hb, hd, hn⟩ | ⟨rfl, hnr⟩
  · -- the parent is a reference
    have hlk : (dictSet dd (.str last) new).lookup (.str "$ref") = dd.lookup (.str "$ref") := lookup_dictSet_ne _ _ _ _ hkne
    have hm : LMono T H (H.set b (.dict (dictSet dd (.str last) new))) := lmono_set_ref hb hlk
    refine ⟨H.set b (.dict (dictSet dd (.str last) new)), by simp only [assignH, hb], h.set hm ?_, ?_⟩
    · intro c0 hc0
      obtain ⟨c1, h1, h2⟩ := h b c0 hc0
      rw [hb] at h1; simp only [Option.some.injEq] at h1; subst h1
      cases h2 with
      | ref a1 a2 => exact .ref a1 (by rw [hlk]; exact a2)
      | dict a1 a2 =>
        rw [Dict.lookup_none, ← forall2_keys a2, ← Dict.lookup_none, hd] at a1
        simp at a1
    · refine ⟨⟨dr, ?_, hr2, hr3⟩, ?_, hr.noRef⟩
      · rw [List.getElem?_set_ne]; · exact hr1
        rintro rfl
        rw [hb] at hr1; simp only [Option.some.injEq, Cell.dict.injEq] at hr1; subst hr1
        rw [hd] at hr2; simp at hr2
      · rw [List.getElem?_set_ne]; · exact hr.refs
        rintro rfl
        have := hr.refs
        rw [hb] at this; simp only [Option.some.injEq, Cell.dict.injEq] at this; subst this
        have := hr.noRef
        rw [hd] at this; simp at this
  · -- the parent holds the value
    have hn0 := d.nonRef hc
    cases hch with
    | key h1 h2 =>
      rename_i b D
      obtain ⟨c1, g1, g2⟩ := h b _ h1
      have hD0 : D.lookup (.str "$ref") = none := by
        obtain ⟨b', c', e, hb', hd'⟩ := hn0
        simp only [SV.ptr.injEq] at e; subst e
        rw [h1] at hb'; simp only [Option.some.injEq] at hb'
        exact hd' _ hb'.symm
      cases g2 with
      | ref a1 _ => rw [hD0] at a1; simp at a1
      | dict a1 a2 =>
        rename_i D'
        have hlk : (dictSet D' (.str last) new).lookup (.str "$ref") = D'.lookup (.str "$ref") := lookup_dictSet_ne _ _ _ _ hkne
        have hm : LMono T H (H.set b (.dict (dictSet D' (.str last) new))) := lmono_set_ref g1 hlk
        refine ⟨H.set b (.dict (dictSet D' (.str last) new)), by simp only [assignH, g1], h.set hm ?_, ?_⟩
        · intro c0 hc0
          rw [h1] at hc0; simp only [Option.some.injEq] at hc0; subst hc0
          exact .dict a1 (forall2_dictSet (a2.imp fun _ _ q => ⟨q.1, q.2.mono hm⟩) h2 (hst.mono hm))
        · refine ⟨?_, ?_, hr.noRef⟩
          · by_cases e : b = a
            · subst e
              rw [g1] at hr1; simp only [Option.some.injEq, Cell.dict.injEq] at hr1; subst hr1
              have hla := hroot rfl
              refine ⟨_, by rw [List.getElem?_set_self (List.getElem?_eq_some_iff.1 g1).1], by rw [hlk, hr2], ?_⟩
              rw [lookup_dictSet_ne _ _ _ _ (by simpa using Ne.symm hla)]; exact hr3
            · exact ⟨dr, by rw [List.getElem?_set_ne e]; exact hr1, hr2, hr3⟩
          · rw [List.getElem?_set_ne]; · exact hr.refs
            rintro rfl
            exact hrc rfl
    | idx h1 h2 =>
      rename_i b l n
      obtain ⟨c1, g1, g2⟩ := h b _ h1
      cases g2 with
      | list a2 =>
        rename_i l'
        have hm : LMono T H (H.set b (.list (l'.set n new))) := lmono_set_list g1
        have hlt := (List.getElem?_eq_some_iff.1 h2).1
        have hsi : seqIndex l'.length (n : Int) = some n := by
          rw [← a2.length_eq]; simp [seqIndex, hlt]
        refine ⟨H.set b (.list (l'.set n new)), by simp only [assignH, g1, int_toString, hsi], h.set hm ?_, ?_⟩
        · intro c0 hc0
          rw [h1] at hc0; simp only [Option.some.injEq] at hc0; subst hc0
          exact .list (forall2_set (a2.imp fun _ _ q => q.mono hm) h2 (hst.mono hm))
        · refine ⟨⟨dr, ?_, hr2, hr3⟩, ?_, hr.noRef⟩
          · rw [List.getElem?_set_ne]; · exact hr1
            rintro rfl
            rw [g1] at hr1; simp at hr1
          · rw [List.getElem?_set_ne]; · exact hr.refs
            rintro rfl
            have := hr.refs
            rw [g1] at this; simp at this

/-- The first segment of a path is the name of an attribute of the root.  Used in proofs only (no code). -/
def RootName (s : String) : Prop := (∃ c cs, s.toList = c :: cs ∧ c ≠ '#') ∧ s ≠ "_references"

theorem rewriteOne_ok {a rc : Nat} (h : Sim H0 H T) (hr : Ready H T a rc) (hc : Contents H0 T) (N : Nat) (hNa : N ≤ a) (hNrc : N ≤ rc)
    (harc : a ≠ rc)
    (hlow : ∀ (b : Nat) c, b < N → H0[b]? = some c → ∀ x ∈ c.values, x.below N) (hT : ∀ k c, T.lookup k = some c → c.below N)
    (hn0 : NonRef H0 (.ptr a)) {e : Entry} {s0 : String} {rest : Path} {z0 : SV} (hp : e.path = "#" :: s0 :: rest) (hs0 : RootName s0)
    (hch : Child H0 (.ptr a) s0 z0) (hz0 : z0.below N) (hf : Follow H0 T z0 rest e.content)
    (he : ∀ x, T.lookup (idKey e.id) = some x → x = e.content) (fuel : Nat) :
    ∃ H', rewriteOne (fuel + 1) (.ptr a) T H e = .ok H' ∧ Sim H0 H' T ∧ Ready H' T a rc := by
  rw [rewriteOne]
  split
  · rename_i hcond
    simp only [Bool.and_eq_true] at hcond
    obtain ⟨x, hx⟩ := Option.isSome_iff_exists.1 hcond.1.2
    have := he x hx; subst this
    have h1 := h.append [refCell e.id]
    have hr1 := hr.append [refCell e.id]
    have hnew : Leads (H ++ [refCell e.id]) T (.ptr H.length) e.content := leads_refCell hx
    generalize H ++ [refCell e.id] = H1 at h1 hr1 hnew
    have hroot : Der H0 T (.ptr a) (.ptr a) := .inr ⟨rfl, hn0⟩
    have hsr : Stands H1 T (.ptr a) (.ptr a) := .inl rfl
    have hls : ∀ t, lstripPath (s0 :: t) = s0 :: t := fun t => lstrip_plain hs0.1
    have hs0ne : s0 ≠ "" := by
      rintro rfl
      obtain ⟨c, cs, hcs, -⟩ := hs0.1
      exact absurd hcs (by simp)
    rw [setH, hp, lstrip_hash _ (by simp), hls]
    rcases List.eq_nil_or_concat rest with rfl | ⟨q, last, rfl⟩
    · cases hf with
      | here d =>
        rw [if_pos (by simp)]
        exact assign_ok h1 hr1 hc hsr hroot hch d hnew (fun _ => hs0.2) (by simpa using harc)
    · obtain ⟨z0', c0', s0'⟩ := h1.child hn0 hch
      obtain ⟨xp, xp', y, z, w1, w2, w3, w4, w5, w6⟩ := walk_follow (fuel := fuel) h1 hr1 hc N hlow hT hf hz0 s0' q last (by simp)
      have e1 : (s0 :: q.concat last).dropLast = s0 :: q := by
        rw [List.concat_eq_append, ← List.cons_append, List.dropLast_concat]
      have e2 : ("#" :: s0 :: q.concat last).getLastD "" = last := by
        rw [List.concat_eq_append, ← List.cons_append, ← List.cons_append, List.getLastD_eq_getLast?, List.getLast?_concat]; rfl
      rw [e1, e2, if_neg (by simp [hs0ne]), hls, getH_succ, walkH, hr1.jump (.inr ⟨rfl, h1.nonRef hn0⟩)]
      simp only [c0'.extract, w1]
      refine assign_ok h1 hr1 hc w2 w3 w4 w5 hnew ?_ ?_
      · rintro rfl
        simp only [SV.below] at w6; omega
      · rintro rfl
        simp only [SV.below] at w6; omega
  · exact ⟨H, rfl, h, hr⟩

/-- What an entry of the memo satisfies.  Used in proofs only (no code). -/
def MemoEntryOk (H0 : Heap) (T : List (Key × SV)) (a N : Nat) (e : Entry) : Prop :=
  (∃ s0 rest z0, e.path = "#" :: s0 :: rest ∧ RootName s0 ∧ Child H0 (.ptr a) s0 z0 ∧ z0.below N ∧ Follow H0 T z0 rest e.content) ∧
  ∀ x, T.lookup (idKey e.id) = some x → x = e.content

theorem rewriteAll_ok {a rc : Nat} (hc : Contents H0 T) (N : Nat) (hNa : N ≤ a) (hNrc : N ≤ rc)
    (harc : a ≠ rc)
    (hlow : ∀ (b : Nat) c, b < N → H0[b]? = some c → ∀ x ∈ c.values, x.below N) (hT : ∀ k c, T.lookup k = some c → c.below N)
    (hn0 : NonRef H0 (.ptr a)) (fuel : Nat) (m : List Entry) (hm : ∀ e ∈ m, MemoEntryOk H0 T a N e) (H : Heap)
    (h : Sim H0 H T) (hr : Ready H T a rc) :
    ∃ H', rewriteAll (fuel + 1) (.ptr a) T H m = .ok H' ∧ Sim H0 H' T ∧ Ready H' T a rc := by
  induction m generalizing H with
  | nil => exact ⟨H, rfl, h, hr⟩
  | cons e m ih =>
    obtain ⟨⟨s0, rest, z0, h1, h2, h3, h4, h5⟩, h6⟩ := hm e (by simp)
    obtain ⟨H1, e1, i1, i2⟩ := rewriteOne_ok h hr hc N hNa hNrc harc hlow hT hn0 h1 h2 h3 h4 h5 h6 fuel
    obtain ⟨H2, e2, i3⟩ := ih (fun e he => hm e (by simp [he])) H1 i1 i2
    exact ⟨H2, by rw [rewriteAll, e1]; exact e2, i3⟩

end

theorem forall2_stands_refl {H T} (d : List (Key × SV)) :
    List.Forall₂ (fun kx kx' : Key × SV => kx'.1 = kx.1 ∧ Stands H T kx.2 kx'.2) d d := by
  induction d with
  | nil => exact .nil
  | cons kx d ih => exact .cons ⟨rfl, .inl rfl⟩ ih

theorem Sim.refl (H : Heap) (T : List (Key × SV)) : Sim H H T := by
  intro b c hb
  refine ⟨c, hb, ?_⟩
  cases c with
  | dict d =>
    cases h : d.lookup (.str "$ref") with
    | some r => exact .ref h h
    | none => exact .dict h (forall2_stands_refl d)
  | list l =>
    refine .list ?_
    clear hb
    induction l with
    | nil => exact .nil
    | cons x l ih => exact .cons (.inl rfl) ih

end DC
