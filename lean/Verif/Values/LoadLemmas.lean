import Verif.Values.LoadSpec
import Verif.Values.PointersProps
import Verif.Values.EmitLemmas
/- Helper lemmas for Verif/Values/LoadProps.lean. -/
namespace DC
set_option linter.unusedSimpArgs false

/-- The path leads, inside a JSON document and without following references, to a part of it. -/
inductive At : V → Path → V → Prop
  | here {v} : At v [] v
  | key {d s x p e} : d.lookup (.str "$ref") = none → d.lookup (.str s) = some x → At x p e → At (.dict d) (s :: p) e
  | idx {l} {n : Nat} {x p e} : l[n]? = some x → At x p e → At (.list l) (toString n :: p) e

theorem toString_inj {n m : Nat} (h : toString n = toString m) : n = m := by
  have := congrArg int? h
  rw [int_toString, int_toString] at this
  simpa using this

theorem At.det {v p e e'} (h : At v p e) (h' : At v p e') : e = e' := by
  induction h with
  | here => cases h'; rfl
  | key _ h1 _ ih =>
    cases h' with
    | key _ h2 h3 => rw [h1] at h2; simp only [Option.some.injEq] at h2; subst h2; exact ih h3
  | @idx l n x p e h1 _ ih =>
    generalize hs : toString n = s at h'
    cases h' with
    | @idx _ m _ _ _ h2 h3 =>
      have := toString_inj hs; subst this
      rw [h1] at h2; simp only [Option.some.injEq] at h2; subst h2; exact ih h3

theorem At.append {v p w q e} (h : At v p w) (h' : At w q e) : At v (p ++ q) e := by
  induction h with
  | here => exact h'
  | key h0 h1 _ ih => exact .key h0 h1 (ih h')
  | idx h1 _ ih => exact .idx h1 (ih h')

theorem At.split {v p q e} (h : At v (p ++ q) e) : ∃ w, At v p w ∧ At w q e := by
  induction p generalizing v with
  | nil => exact ⟨v, .here, h⟩
  | cons s p ih =>
    rw [List.cons_append] at h
    generalize hs : s = s' at h
    cases h with
    | key h0 h1 h2 => subst hs; obtain ⟨w, a, b⟩ := ih h2; exact ⟨w, .key h0 h1 a, b⟩
    | idx h1 h2 => subst hs; obtain ⟨w, a, b⟩ := ih h2; exact ⟨w, .idx h1 a, b⟩

theorem PlainDoc.sub {v w} (h : PlainDoc v) (ho : Occurs v w) : PlainDoc w := fun d hd => h d (ho.trans hd)

theorem PlainDoc.key {d : List (Key × V)} {k x} (h : PlainDoc (.dict d)) (hm : (k, x) ∈ d) (p : Path) :
    ∃ s, k = .str s ∧ p.key k = p ++ [s] ∧ d.lookup (.str s) = some x ∧ PlainDoc x := by
  obtain ⟨hn, hk⟩ := h d .self
  obtain ⟨s, rfl, hs⟩ := hk k (List.mem_map.2 ⟨_, hm, rfl⟩)
  exact ⟨s, rfl, by rw [Path.key, keyStr, splitSlash_plain hs], Dict.mem_lookup hn hm, h.sub (.dict hm .self)⟩

theorem IsJson.dictMem {F d k x} (h : IsJson F (.dict d)) (hm : (k, x) ∈ d) : IsJson F x := by
  cases h with
  | obj h => exact h _ hm

theorem IsJson.listMem {F l x} (h : IsJson F (.list l)) (hm : x ∈ l) : IsJson F x := by
  cases h with
  | arr h => exact h _ hm

/-- The parts on the way to a reference. -/
theorem refAt_at {p v q r} (h : RefAt p v q r) (hp : PlainDoc v) (hj : IsJson True v) :
    ∀ t u, q = p ++ t ++ u → ∃ e, At v t e ∧ RefAt (p ++ t) e q r := by
  induction h with
  | @here p d r h1 =>
    intro t u hq
    have ht : t = [] := by
      have := congrArg List.length hq
      simp only [List.length_append] at this
      exact List.eq_nil_of_length_eq_zero (by omega)
    subst ht
    exact ⟨_, .here, by rw [List.append_nil]; exact .here h1⟩
  | @dict p d k w q r h1 h2 h3 ih =>
    intro t u hq
    obtain ⟨s, rfl, hs, hl, hpw⟩ := hp.key h2 p
    cases t with
    | nil => exact ⟨_, .here, by rw [List.append_nil]; exact .dict h1 h2 h3⟩
    | cons s' t =>
      obtain ⟨u', hu'⟩ := refAt_prefix h3
      rw [hs] at hu' ih
      have he : s = s' := by
        rw [hq] at hu'
        simp only [List.append_assoc, List.cons_append, List.nil_append] at hu'
        have := List.append_cancel_left hu'
        simp only [List.cons.injEq] at this; exact this.1.symm
      subst he
      obtain ⟨e, a1, a2⟩ := ih hpw (hj.dictMem h2) t u (by rw [hq]; simp)
      exact ⟨e, .key h1 hl a1, by simpa using a2⟩
  | @list p l w q r i h2 h3 ih =>
    intro t u hq
    cases t with
    | nil => exact ⟨_, .here, by rw [List.append_nil]; exact .list h2 h3⟩
    | cons s' t =>
      obtain ⟨u', hu'⟩ := refAt_prefix h3
      rw [Path.idx] at hu' ih
      have he : toString i = s' := by
        rw [hq] at hu'
        simp only [List.append_assoc, List.cons_append, List.nil_append] at hu'
        have := List.append_cancel_left hu'
        simp only [List.cons.injEq] at this; exact this.1.symm
      subst he
      have hm := List.mem_of_getElem? h2
      obtain ⟨e, a1, a2⟩ := ih (hp.sub (.list hm .self)) (hj.listMem hm) t u (by rw [hq]; simp)
      exact ⟨e, .idx h2 a1, by simpa using a2⟩
  | tuple => cases hj

/-- A reference is at the end of its path. -/
theorem refAt_end {p v q r} (h : RefAt p v q r) (hp : PlainDoc v) (hj : IsJson True v) :
    ∃ t d, q = p ++ t ∧ At v t (.dict d) ∧ d.lookup (.str "$ref") = some r := by
  obtain ⟨t, ht⟩ := refAt_prefix h
  obtain ⟨e, a1, a2⟩ := refAt_at h hp hj t [] (by simpa using ht)
  generalize hpt : p ++ t = pt at a2
  cases a2 with
  | here h1 => exact ⟨t, _, ht, a1, h1⟩
  | @dict _ d k w _ _ h1 h2 h3 =>
    obtain ⟨u, hu⟩ := refAt_prefix h3
    exfalso
    have h0 : splitSlash (keyStr k) ≠ [] := splitSlash_ne _
    rw [Path.key, ht, ← hpt] at hu
    have := congrArg List.length hu
    have := List.length_pos_iff.2 h0
    simp only [List.length_append] at *
    omega
  | list h1 h3 =>
    obtain ⟨u, hu⟩ := refAt_prefix h3
    exfalso
    rw [Path.idx, ht, ← hpt] at hu
    have := congrArg List.length hu
    simp at this
  | tuple h1 h3 =>
    obtain ⟨u, hu⟩ := refAt_prefix h3
    exfalso
    rw [Path.idx, ht, ← hpt] at hu
    have := congrArg List.length hu
    simp at this

/-- A reference is found at each place where there is one, outside other references. -/
theorem RefAt.of_at {v t d r} (h : At v t (.dict d)) (hr : d.lookup (.str "$ref") = some r) (p : Path) (hp : PlainDoc v) : RefAt p v (p ++ t) r := by
  generalize he : V.dict d = e at h
  induction h generalizing p with
  | here => subst he; simpa using RefAt.here hr
  | @key d0 s x t e h0 h1 h2 ih =>
    have hm := Dict.lookup_mem h1
    obtain ⟨s', e', hs, hl, hpw⟩ := hp.key hm p
    simp only [Key.str.injEq] at e'; subst e'
    have := ih (p.key (.str s)) hpw he
    rw [hs] at this
    refine .dict h0 hm ?_
    rw [hs]; simpa using this
  | @idx l n x t e h1 h2 ih =>
    have hm := List.mem_of_getElem? h1
    have := ih (p.idx n) (hp.sub (.list hm .self)) he
    refine .list h1 ?_
    simpa [Path.idx] using this

/-! ### Reading a part by its path -/

theorem walk_at {v t e} (h : At v t e) (at_ : List Loc) : ∃ q, walk (fun _ => .ok none) at_ v t = .ok (q, e) := by
  induction h generalizing at_ with
  | here => exact ⟨at_, rfl⟩
  | key _ h1 _ ih =>
    obtain ⟨q, hq⟩ := ih (at_ ++ [.key (.str _)])
    refine ⟨q, ?_⟩
    simp only [walk, extractSegment, segLoc, h1, Option.isSome_some, if_true]
    simp only [bind, Except.bind, childAt, h1]
    exact hq
  | @idx l n x p e h1 _ ih =>
    have hlt := (List.getElem?_eq_some_iff.1 h1).1
    obtain ⟨q, hq⟩ := ih (at_ ++ [.idx n])
    refine ⟨q, ?_⟩
    have hsi : seqIndex l.length (n : Int) = some n := by
      rw [seqIndex, if_pos (by omega), if_pos (by simpa using hlt)]; simp
    simp only [walk, extractSegment, segLoc, int_toString, hsi]
    simp only [bind, Except.bind, childAt, h1]
    exact hq

theorem getPath_at {d : List (Key × V)} {t e} (h : At (.dict d) t e) (hne : t ≠ []) (hn : ∀ k ∈ keysOf d, AttrName k) :
    getPath 0 false (.dict d) ("#" :: t) = .ok e := by
  have hl : lstripPath ("#" :: t) = t := by
    cases h with
    | here => exact absurd rfl hne
    | @key _ s x p e h0 h1 h2 =>
      obtain ⟨s', e', a1, a2⟩ := hn (.str s) (List.mem_map.2 ⟨_, Dict.lookup_mem h1, rfl⟩)
      simp only [Key.str.injEq] at e'; subst e'
      rw [lstrip_hash _ (by simp)]
      cases hs : s.toList with
      | nil => exact absurd hs a1
      | cons ch cs => exact lstrip_plain ⟨ch, cs, hs, fun q => a2 (by rw [hs, q]; rfl)⟩
  obtain ⟨q, hq⟩ := walk_at h []
  rw [getPath, hl, getLoop]
  have : walk (fun v => if (false && (refOf v).isSome) = true then .error .recursionError else .ok none) [] (.dict d) t =
      .ok (q, e) := by simpa using hq
  rw [this]; rfl

/-! ### Meaning -/

theorem keysOf_mem {d : List (Key × V)} {k} (h : k ∈ keysOf d) : ∃ v, (k, v) ∈ d := by
  obtain ⟨kv, hm, rfl⟩ := List.mem_map.1 h
  exact ⟨kv.2, hm⟩

theorem mem_keysOf {d : List (Key × V)} {k v} (h : (k, v) ∈ d) : k ∈ keysOf d := List.mem_map.2 ⟨_, h, rfl⟩

theorem sizeOf_dictMem {d : List (Key × V)} {k v} (h : (k, v) ∈ d) : sizeOf v < sizeOf d := by
  have := List.sizeOf_lt_of_mem h
  simp only [Prod.mk.sizeOf_spec] at this
  omega

theorem sizeOf_items {v : V} {m : List V} (h : seqItems v = some m) : sizeOf m < sizeOf v := by
  cases v <;> simp [seqItems] at h
  all_goals subst h; simp

theorem At.single {v s e} (h : At v [s] e) : (∃ d, v = .dict d ∧ d.lookup (.str "$ref") = none ∧ d.lookup (.str s) = some e) ∨
    ∃ (l : List V) (n : Nat), v = .list l ∧ s = toString n ∧ l[n]? = some e := by
  generalize hs : s = s' at h
  cases h with
  | key h0 h1 h2 => cases h2; exact .inl ⟨_, rfl, h0, h1⟩
  | idx h1 h2 => cases h2; exact .inr ⟨_, _, rfl, rfl, h1⟩

/-- The parts of something which has a meaning have one, or are base values. -/
theorem StandsFor.child {W R x v s e} (h : StandsFor W R x v) (ha : At x [s] e) :
    isBase e = true ∨ (refOf x = Option.none ∧ ∃ v', StandsFor W R e v' ∧ sizeOf v' < sizeOf v) := by
  cases h with
  | ref h1 h2 h3 =>
    rcases ha.single with ⟨d, hd, hr, hl⟩ | ⟨l, n, hd, -⟩
    · simp only [V.dict.injEq] at hd; subst hd
      rw [hr] at h1; simp at h1
    · simp at hd
  | @obj d c a h1 h2 h3 h4 h5 h5' h6 h7 =>
    rcases ha.single with ⟨d', hd, -, hl⟩ | ⟨l, n, hd, -⟩
    · simp only [V.dict.injEq] at hd; subst hd
      have hm := Dict.lookup_mem hl
      rcases (h6 _).1 (mem_keysOf hm) with hk | hk
      · rw [hk] at hl; rw [h2] at hl; simp only [Option.some.injEq] at hl; rw [← hl]; exact .inl rfl
      · obtain ⟨v', hv'⟩ := keysOf_mem hk
        refine .inr ⟨h1, v', h7 _ _ _ hm hv', ?_⟩
        have := sizeOf_dictMem hv'
        simp only [V.obj.sizeOf_spec]; omega
    · simp at hd
  | @dict d e' h1 h2 h3 h4 =>
    rcases ha.single with ⟨d', hd, -, hl⟩ | ⟨l, n, hd, -⟩
    · simp only [V.dict.injEq] at hd; subst hd
      have hm := Dict.lookup_mem hl
      obtain ⟨v', hv'⟩ := keysOf_mem (h3.mem_iff.1 (mem_keysOf hm))
      refine .inr ⟨h1, v', h4 _ _ _ hm hv', ?_⟩
      have := sizeOf_dictMem hv'
      simp only [V.dict.sizeOf_spec]; omega
    · simp at hd
  | measure h1 h2 h3 h4 h5 =>
    rcases ha.single with ⟨d', hd, -, hl⟩ | ⟨l, n, hd, -⟩
    · simp only [V.dict.injEq] at hd; subst hd
      rcases h5 _ (Dict.lookup_mem hl) with ⟨s, hs⟩ | ⟨q, hs⟩ <;> (simp only at hs; rw [hs]; exact .inl rfl)
    · simp at hd
  | @seq l v m h1 h2 h3 =>
    rcases ha.single with ⟨d', hd, -, hl⟩ | ⟨l', n, hd, -, hl⟩
    · simp at hd
    · simp only [V.list.injEq] at hd; subst hd
      have hlt := (List.getElem?_eq_some_iff.1 hl).1
      obtain ⟨y, hy⟩ : ∃ y, m[n]? = some y := ⟨_, List.getElem?_eq_getElem (by omega)⟩
      refine .inr ⟨rfl, y, h3 n _ _ hl hy, ?_⟩
      have := List.sizeOf_lt_of_mem (List.mem_of_getElem? hy)
      have := sizeOf_items h1
      omega
  | str => rcases ha.single with ⟨d, hd, _⟩ | ⟨l, n, hd, _⟩ <;> simp at hd
  | cls => rcases ha.single with ⟨d, hd, _⟩ | ⟨l, n, hd, _⟩ <;> simp at hd
  | none => rcases ha.single with ⟨d, hd, _⟩ | ⟨l, n, hd, _⟩ <;> simp at hd
  | bool => rcases ha.single with ⟨d, hd, _⟩ | ⟨l, n, hd, _⟩ <;> simp at hd
  | int => rcases ha.single with ⟨d, hd, _⟩ | ⟨l, n, hd, _⟩ <;> simp at hd
  | flt => rcases ha.single with ⟨d, hd, _⟩ | ⟨l, n, hd, _⟩ <;> simp at hd
  | file => rcases ha.single with ⟨d, hd, _⟩ | ⟨l, n, hd, _⟩ <;> simp at hd

theorem at_base {v s t e} (hb : isBase v = true) (h : At v (s :: t) e) : False := by
  cases h <;> simp [isBase] at hb

theorem StandsFor.at_ {W R x v t e} (h : StandsFor W R x v) (ha : At x t e) : isBase e = true ∨ ∃ v', StandsFor W R e v' := by
  induction t generalizing x v with
  | nil => cases ha; exact .inr ⟨v, h⟩
  | cons s t ih =>
    obtain ⟨w, a1, a2⟩ := At.split (p := [s]) (q := t) ha
    rcases h.child a1 with hb | ⟨-, v', hv', -⟩
    · cases t with
      | nil => cases a2; exact .inl hb
      | cons s' t => exact absurd (at_base hb a2) id
    · exact ih hv' a2

end DC
