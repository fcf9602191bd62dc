import Verif.Values.LoadDeser
/- Helper lemmas for Verif/Values/LoadProps.lean: the order in which a document is read. -/
namespace DC
set_option linter.unusedSimpArgs false

section
variable {W : World} {d R : List (Key × V)} {c : String} {a : List (Key × V)}

theorem lookup_filter_ne {d : List (Key × V)} {k k' : Key} (h : k ≠ k') :
    (d.filter fun kv => kv.1 ≠ k').lookup k = d.lookup k := by
  induction d with
  | nil => rfl
  | cons e d ih =>
    obtain ⟨x, y⟩ := e
    by_cases hx : x = k'
    · rw [List.filter_cons_of_neg (by simpa using hx), ih, List.lookup_cons]
      have : (k == x) = false := by rw [hx]; simpa using h
      rw [this]
    · rw [List.filter_cons_of_pos (by simpa using hx), List.lookup_cons, List.lookup_cons, ih]

theorem Document.nodupR (D : Document W d R c a) : (keysOf R).Nodup :=
  (D.plain R (.dict (Dict.lookup_mem D.refs) .self)).1

theorem Document.refsRef (D : Document W d R c a) : R.lookup (.str "$ref") = none := Dict.lookup_none.2 D.refsKeys.1

/-- The references have a meaning. -/
theorem Document.meansRefs (D : Document W d R c a) : ∃ v, StandsFor W R (.dict R) v := by
  have h : ∀ k, ∃ v, ∀ x, R.lookup k = some x → StandsFor W R x v := by
    intro k
    cases hk : R.lookup k with
    | none => exact ⟨.none, by simp⟩
    | some x => obtain ⟨v, hv⟩ := D.content k x hk; exact ⟨v, by simpa using hv⟩
  choose f hf using h
  refine ⟨.dict (R.map fun kv => (kv.1, f kv.1)), .dict (Dict.lookup_none.2 D.refsKeys.1) (Dict.lookup_none.2 D.refsKeys.2) ?_ ?_⟩
  · simp [keysOf, Function.comp_def]
  · intro k x v hm hv
    obtain ⟨kv, -, e⟩ := List.mem_map.1 hv
    simp only [Prod.mk.injEq] at e
    obtain ⟨rfl, rfl⟩ := e
    exact hf _ _ (Dict.mem_lookup D.nodupR hm)

/-- Each part of the document has a meaning, or is a base value. -/
theorem Document.part (D : Document W d R c a) {s t e} (h : At (.dict d) (s :: t) e) :
    isBase e = true ∨ ∃ v, StandsFor W R e v := by
  obtain ⟨w, a1, a2⟩ := At.split (p := [s]) (q := t) h
  by_cases hs : s = "_references"
  · subst hs
    have : w = .dict R := a1.det (.key D.notRef D.refs .here)
    subst this
    obtain ⟨v, hv⟩ := D.meansRefs
    exact hv.at_ a2
  · rcases a1.single with ⟨d', hd, -, hl⟩ | ⟨l, n, hd, -⟩
    · simp only [V.dict.injEq] at hd; subst hd
      refine D.root.at_ (t := s :: t) (.key (x := w) ?_ ?_ a2)
      · rw [lookup_filter_ne (by simp)]; exact D.notRef
      · rw [lookup_filter_ne (by simpa using hs)]; exact hl
    · simp at hd

theorem StandsFor.refOf {W R e v r} (h : StandsFor W R (.dict e) v) (hr : e.lookup (.str "$ref") = some r) :
    ∃ k x, r = .str ("#/_references/" ++ k) ∧ '/' ∉ k.toList ∧
      R.lookup (.str k) = some x ∧ StandsFor W R x v := by
  generalize hg : V.dict e = g at h
  cases h with
  | @ref _ k x v h0 h1 h2 h3 =>
    simp only [V.dict.injEq] at hg; subst hg
    rw [hr] at h0; simp only [Option.some.injEq] at h0
    exact ⟨k, x, h0, h1, h2, h3⟩
  | obj h1 => simp only [V.dict.injEq] at hg; subst hg; rw [hr] at h1; simp at h1
  | dict h1 => simp only [V.dict.injEq] at hg; subst hg; rw [hr] at h1; simp at h1
  | measure h1 => simp only [V.dict.injEq] at hg; subst hg; rw [hr] at h1; simp at h1
  | _ => simp at hg

/-- The references of the document. -/
theorem Document.refAt (D : Document W d R c a) {p r} (h : RefAt ["#"] (.dict d) p r) :
    ∃ t k x e, p = "#" :: t ∧ t ≠ [] ∧ At (.dict d) t (.dict e) ∧ e.lookup (.str "$ref") = some r ∧
      r = .str ("#/_references/" ++ k) ∧ '/' ∉ k.toList ∧ R.lookup (.str k) = some x := by
  obtain ⟨t, e, hp, hat, hr⟩ := refAt_end h D.plain D.json
  cases t with
  | nil => cases hat; rw [D.notRef] at hr; simp at hr
  | cons s t =>
    rcases D.part hat with hb | ⟨v, hv⟩
    · simp [isBase] at hb
    · obtain ⟨k, x, rfl, h1, h2, h3⟩ := hv.refOf hr
      exact ⟨s :: t, k, x, e, hp, by simp, hat, hr, rfl, h1, h2⟩

/-- The references inside a part of the document are references of the document. -/
theorem Document.refAt_of (D : Document W d R c a) {t e q r} (hat : At (.dict d) t e) (hp : PlainDoc e) (hj : IsJson True e)
    (h : RefAt ("#" :: t) e q r) : RefAt ["#"] (.dict d) q r := by
  obtain ⟨t2, e2, hq, hat2, hr⟩ := refAt_end h hp hj
  have := RefAt.of_at (hat.append hat2) hr ["#"] D.plain
  rw [hq]
  simpa using this

theorem At.occurs {v t e} (h : At v t e) : Occurs v e := by
  induction h with
  | here => exact .self
  | key _ h1 _ ih => exact .dict (Dict.lookup_mem h1) ih
  | idx h1 _ ih => exact .list (List.mem_of_getElem? h1) ih

theorem At.json {F v t e} (h : At v t e) (hj : IsJson F v) : IsJson F e := by
  induction h with
  | here => exact hj
  | key _ h1 _ ih => exact ih (hj.dictMem (Dict.lookup_mem h1))
  | idx h1 _ ih => exact ih (hj.listMem (List.mem_of_getElem? h1))

/-! ### No cycle -/

theorem extras_empty {fuel : Nat} {refs l e n : List (Path × Path)} (h : extras fuel refs l = some (e, n))
    (hc : ∀ p q, (p, q) ∈ l → ∀ cr, climb fuel q = some cr → ∀ x ∈ cr, refs.lookup x = none) : e = [] ∧ n = [] := by
  induction l generalizing e n with
  | nil => simp only [extras, Option.some.injEq, Prod.mk.injEq] at h; exact ⟨h.1.symm, h.2.symm⟩
  | cons x l ih =>
    obtain ⟨p, q⟩ := x
    simp only [extras] at h
    cases hcl : climb fuel q with
    | none => rw [hcl] at h; simp at h
    | some cr =>
      rw [hcl] at h
      simp only at h
      cases he : extras fuel refs l with
      | none => rw [he] at h; simp at h
      | some en =>
        obtain ⟨e', n'⟩ := en
        rw [he] at h
        simp only [Option.some.injEq, Prod.mk.injEq] at h
        obtain ⟨rfl, rfl⟩ := ih he (fun p q hm => hc p q (by simp [hm]))
        have hf : cr.filterMap (fun n => (refs.lookup n).map (fun r => (n, r))) = [] := by
          rw [List.filterMap_eq_nil_iff]
          intro y hy
          rw [hc p q (by simp) cr hcl y hy]; rfl
        simp only [extraFor, hf] at h
        simp at h
        exact h

theorem climb_target {fuel : Nat} {k : String} {cr : List Path} (h : climb fuel ["#", "_references", k] = some cr) :
    cr = [["#", "_references", k], ["#", "_references"]] := by
  have h1 : climb (fuel + 2) ["#", "_references", k] = some cr := climb_mono h (by omega)
  have : climb (fuel + 2) ["#", "_references", k] = some [["#", "_references", k], ["#", "_references"]] := by
    unfold climb
    rw [if_neg (by simp)]
    have : parent ["#", "_references", k] = ["#", "_references"] := rfl
    simp only [this]
    unfold climb
    rw [if_neg (by simp)]
    have : parent ["#", "_references"] = ["#"] := rfl
    simp only [this]
    unfold climb
    rw [if_pos (by rfl)]
    rfl
  rw [this] at h1
  simpa using h1.symm

/-- What the graph of the document is. -/
theorem Document.graph (D : Document W d R c a) {fuel g} (hg : pointerGraph fuel (.dict d) = .ok (some g)) :
    g.equals = [] ∧ (∀ x y, (x, y) ∈ g.edges → Needs (.dict d) x y) ∧
    ∀ n ∈ g.nodes, n ≠ [] ∧ ∃ p r u, RefAt ["#"] (.dict d) p (.str r) ∧ (p = n ++ u ∨ splitSlash r = n ++ u) := by
  obtain ⟨rs, refs, extra, renamed, h1, h2, h3, rfl⟩ := pointerGraph_ok hg
  have hrs := mem_findRefs (.dict d) ["#"] rs h1
  obtain ⟨hs, hrefs⟩ := refPaths_ok h2
  have hmem : ∀ p q, (p, q) ∈ refs → ∃ s, RefAt ["#"] (.dict d) p (.str s) ∧ q = splitSlash s := by
    intro p q hm
    obtain ⟨s, hm', rfl⟩ := (hrefs p q).1 hm
    exact ⟨s, (hrs p _).1 hm', rfl⟩
  obtain ⟨rfl, rfl⟩ := extras_empty h3 (by
    intro p q hm cr hcr x hx
    obtain ⟨s, hra, rfl⟩ := hmem p q hm
    obtain ⟨t, k, y, -, -, -, -, -, hs', hk, hy⟩ := D.refAt hra
    simp only [V.str.injEq] at hs'; subst hs'
    rw [splitSlash_target hk] at hcr
    rw [climb_target hcr] at hx
    cases hl : (lastWins refs).lookup x with
    | none => rfl
    | some z =>
      exfalso
      have hm2 : (x, z) ∈ refs := by
        have := lookup_mem hl
        unfold lastWins at this; simpa using this
      obtain ⟨s2, hra2, -⟩ := hmem x z hm2
      obtain ⟨t2, k2, y2, e2, hx2, -, hat2, he2, -, -, -⟩ := D.refAt hra2
      simp only [List.mem_cons, List.not_mem_nil, or_false] at hx
      rcases hx with hx | hx
      · rw [hx] at hx2
        simp only [List.cons.injEq, true_and] at hx2
        rw [← hx2] at hat2
        have : At (.dict d) ["_references", k] y := .key D.notRef D.refs (.key D.refsRef hy .here)
        have := this.det hat2; subst this
        have := D.contentRef _ _ hy
        rw [he2] at this
        simp at this
      · rw [hx] at hx2
        simp only [List.cons.injEq, true_and] at hx2
        rw [← hx2] at hat2
        have : At (.dict d) ["_references"] (.dict R) := .key D.notRef D.refs .here
        have := this.det hat2
        simp only [V.dict.injEq] at this
        have h := D.refsRef
        rw [this, he2] at h; simp at h)
  refine ⟨rfl, ?_, ?_⟩
  · intro x y he
    simp only [List.append_nil, List.mem_append, List.mem_flatMap] at he
    rcases he with ⟨⟨p, q⟩, hm, he⟩ | he
    · obtain ⟨s, hra, rfl⟩ := hmem p q hm
      rcases he with he | he
      · obtain ⟨hne, s', t', h4, h5⟩ := mem_steps_prefixes.1 he
        rw [h5]; exact .wayTo hra h4 hne
      · obtain ⟨hne, s', t', h4, h5⟩ := mem_steps_prefixes.1 he
        rw [h5]; exact .wayToTarget hra h4 hne
    · obtain ⟨s, hra, rfl⟩ := hmem x y he
      exact .target hra
  · intro n hn
    simp only [List.map_nil, List.append_nil, List.mem_dedup, List.mem_flatMap, List.mem_append] at hn
    obtain ⟨⟨p, q⟩, hm, hn⟩ := hn
    obtain ⟨s, hra, rfl⟩ := hmem p q hm
    rcases hn with hn | hn
    · obtain ⟨hne, u, hu⟩ := mem_prefixes.1 hn; exact ⟨hne, p, s, u, hra, .inl hu⟩
    · obtain ⟨hne, u, hu⟩ := mem_prefixes.1 hn; exact ⟨hne, p, s, u, hra, .inr hu⟩

theorem acc_irrefl {α : Type} {E : α → α → Prop} {x : α} (h : Acc (fun y x => E x y) x) : ¬ Relation.TransGen E x x := by
  induction h with
  | intro x _ ih =>
    intro hc
    rw [Relation.TransGen.head'_iff] at hc
    obtain ⟨y, hxy, hyx⟩ := hc
    exact ih y hxy (Relation.TransGen.tail' hyx hxy)

/-- Where an arrow of the graph may lead to. -/
theorem Document.needs (D : Document W d R c a) {x y} (h : Needs (.dict d) x y) :
    ∃ t e, x = "#" :: t ∧ At (.dict d) t e ∧
      ((∃ k z e', e = .dict e' ∧ e'.lookup (.str "$ref") = some (.str ("#/_references/" ++ k)) ∧ y = ["#", "_references", k] ∧
          R.lookup (.str k) = some z) ∨
       ∃ s e', y = "#" :: (t ++ [s]) ∧ At e [s] e' ∧ (isBase e' = false ∨ e = .dict R)) := by
  cases h with
  | target hr =>
    obtain ⟨t, k, z, e, rfl, hne, hat, he, hs, hk, hz⟩ := D.refAt hr
    simp only [V.str.injEq] at hs; subst hs
    exact ⟨t, _, rfl, hat, .inl ⟨k, z, e, rfl, he, splitSlash_target hk, hz⟩⟩
  | @wayTo p r _ s b hr hp hne =>
    obtain ⟨t0, k, z, e0, hp0, -, -, -, -, -, -⟩ := D.refAt hr
    cases x with
    | nil => exact absurd rfl hne
    | cons h t =>
      rw [hp0] at hp
      simp only [List.cons_append, List.cons.injEq] at hp
      obtain ⟨rfl, hp⟩ := hp
      obtain ⟨e', a1, a2⟩ := refAt_at hr D.plain D.json (t ++ [s]) b (by rw [hp0, hp]; simp)
      obtain ⟨e, b1, b2⟩ := a1.split
      refine ⟨t, e, rfl, b1, .inr ⟨s, e', by simp, b2, .inl ?_⟩⟩
      cases hb : isBase e' with
      | false => rfl
      | true => exact absurd a2 (refAt_base hb)
  | @wayToTarget p r _ s b hr hp hne =>
    obtain ⟨t0, k, z, e0, hp0, -, -, -, hs, hk, hz⟩ := D.refAt hr
    simp only [V.str.injEq] at hs; subst hs
    rw [splitSlash_target hk] at hp
    match x, hne, hp with
    | [h], _, hp =>
      simp only [List.cons_append, List.nil_append, List.cons.injEq] at hp
      obtain ⟨rfl, rfl, -⟩ := hp
      exact ⟨[], _, rfl, .here, .inr ⟨_, _, rfl, .key D.notRef D.refs .here, .inl rfl⟩⟩
    | [h, h'], _, hp =>
      simp only [List.cons_append, List.nil_append, List.cons.injEq] at hp
      obtain ⟨rfl, rfl, rfl, -⟩ := hp
      exact ⟨["_references"], _, rfl, .key D.notRef D.refs .here, .inr ⟨_, _, rfl, .key D.refsRef hz .here, .inr rfl⟩⟩
    | h :: h' :: h'' :: t, _, hp =>
      simp only [List.cons_append, List.nil_append, List.cons.injEq] at hp
      have := hp.2.2.2
      simp at this

theorem Document.acc_base (D : Document W d R c a) {t e} (hat : At (.dict d) t e) (hb : isBase e = true) :
    Acc (fun y x => Needs (.dict d) x y) ("#" :: t) := by
  constructor
  intro y hy
  exfalso
  obtain ⟨t', e', ht, hat', h⟩ := D.needs hy
  simp only [List.cons.injEq, true_and] at ht; subst ht
  have := hat.det hat'; subst this
  rcases h with ⟨k, z, e', rfl, -⟩ | ⟨s, e', -, h2, -⟩
  · simp [isBase] at hb
  · exact at_base hb h2

theorem Document.acc_means (D : Document W d R c a) : (n : Nat) → ∀ t e v, At (.dict d) t e → t ≠ [] → StandsFor W R e v →
    sizeOf v * 2 + (if (refOf e).isSome then 1 else 0) < n → Acc (fun y x => Needs (.dict d) x y) ("#" :: t) := by
  intro n
  induction n with
  | zero => intro t e v _ _ _ h; omega
  | succ n ih =>
    intro t e v hat hne hv hn
    constructor
    intro y hy
    obtain ⟨t', e', ht, hat', h⟩ := D.needs hy
    simp only [List.cons.injEq, true_and] at ht; subst ht
    have := hat.det hat'; subst this
    rcases h with ⟨k, z, e', rfl, he', rfl, hz⟩ | ⟨s, e', rfl, h2, -⟩
    · obtain ⟨k', z', he, -, hz', hm⟩ := hv.refOf he'
      simp only [V.str.injEq] at he
      have := refMarker_inj he; subst this
      rw [hz] at hz'; simp only [Option.some.injEq] at hz'; subst hz'
      refine ih ["_references", k] z v (.key D.notRef D.refs (.key D.refsRef hz .here)) (by simp) hm ?_
      have h1 : refOf (.dict e') = some (.str ("#/_references/" ++ k)) := he'
      have h2 : refOf z = none := by
        cases z with
        | dict e => exact D.contentRef _ _ hz
        | _ => rfl
      rw [h1] at hn; rw [h2]
      simp at hn ⊢; omega
    · rcases hv.child h2 with hb | ⟨-, v', hv', hlt⟩
      · exact D.acc_base (hat.append h2) hb
      · refine ih (t ++ [s]) e' v' (hat.append h2) (by simp) hv' ?_
        split <;> omega

theorem Document.acyclic (D : Document W d R c a) (x : Path) : ¬ Relation.TransGen (Needs (.dict d)) x x := by
  have key : ∀ t e, At (.dict d) t e → t ≠ [] → Acc (fun y x => Needs (.dict d) x y) ("#" :: t) := by
    intro t e hat hne
    cases t with
    | nil => exact absurd rfl hne
    | cons s t =>
      rcases D.part hat with hb | ⟨v, hv⟩
      · exact D.acc_base hat hb
      · exact D.acc_means _ _ _ _ hat hne hv (Nat.lt_succ_self _)
  refine acc_irrefl ⟨x, fun y hy => ?_⟩
  obtain ⟨t, e, rfl, hat, h⟩ := D.needs hy
  rcases h with ⟨k, z, e', rfl, he', rfl, hz⟩ | ⟨s, e', rfl, h2, -⟩
  · exact key ["_references", k] z (.key D.notRef D.refs (.key D.refsRef hz .here)) (by simp)
  · exact key _ _ (hat.append h2) (by simp)

/-- The order of reading. -/
theorem Document.order (D : Document W d R c a) : ∃ N, ∀ n, N ≤ n → ∃ order,
    deserializationOrder n (.dict d) = .ok (some order) ∧
    (∀ x ∈ order, x.2 = none ∧ ∃ t e v, x.1 = "#" :: t ∧ t ≠ [] ∧ At (.dict d) t e ∧ StandsFor W R e v) ∧
    ∀ p r s u, RefAt ["#"] (.dict d) p r → p = "#" :: s :: u → ["#", s] ∈ order.map (·.1) := by
  obtain ⟨hE, -⟩ := C15_ends_partial (.dict d) (by
    intro p s hr
    obtain ⟨t, k, z, e, -, -, -, -, hs, -, -⟩ := D.refAt hr
    simp only [V.str.injEq] at hs; subst hs
    refine .inr ⟨"_references/".toList ++ k.toList, ?_⟩
    rw [String.toList_append]; rfl)
  obtain ⟨N, hN⟩ := hE
  refine ⟨N, fun n hn => ?_⟩
  have h1 := hN n hn _ rfl
  obtain ⟨rs, hrs⟩ := findRefs_json (.dict d) ["#"] D.json
  have hm := mem_findRefs (.dict d) ["#"] rs hrs
  obtain ⟨refs, hrefs⟩ := refPaths_total (l := rs) (by
    intro p r h
    obtain ⟨t, k, z, e, -, -, -, -, hs, -, -⟩ := D.refAt ((hm p r).1 h)
    exact ⟨_, hs⟩)
  obtain ⟨g, hg⟩ : ∃ g, pointerGraph n (.dict d) = .ok (some g) := by
    simp only [pointerGraph, hrs, bind, Except.bind, hrefs] at h1 ⊢
    cases hx : extras n (lastWins refs) refs with
    | none => rw [hx] at h1; exact absurd rfl h1
    | some r => exact ⟨_, rfl⟩
  obtain ⟨g1, g2, g3⟩ := D.graph hg
  obtain ⟨order, ho⟩ := C14_acyclic_accepted n (.dict d) g hg (by
    intro x hx
    refine D.acyclic x ?_
    exact Relation.TransGen.mono (fun a b => g2 a b) _ _ hx)
  refine ⟨order, ho, ?_⟩
  obtain ⟨g', hg', hcases⟩ := order_ok ho
  rw [hg] at hg'
  simp only [Except.ok.injEq, Option.some.injEq] at hg'
  subst hg'
  have ok := graphOk hg
  rcases hcases with ⟨hno, rfl⟩ | ⟨o, hl, rfl⟩
  · exact ⟨by simp, fun p r s u h => absurd h (hno _ _)⟩
  · obtain ⟨b1, b2, b3, b4⟩ := fromLeaves_sound _ _ _ hl ok.nodup
    refine ⟨?_, ?_⟩
    · intro x hx
      obtain ⟨nd, hnd, rfl⟩ := List.mem_map.1 hx
      refine ⟨by rw [g1]; rfl, ?_⟩
      obtain ⟨hno, hne'⟩ := List.mem_filter.1 hnd
      have hne' : nd ≠ ["#"] := by simpa using hne'
      obtain ⟨hne, p, r, u, hra, hpu⟩ := g3 nd ((b2 nd).1 hno)
      obtain ⟨t0, k, z, e0, hp0, -, -, -, hs, hk, hz⟩ := D.refAt hra
      simp only [V.str.injEq] at hs; subst hs
      cases nd with
      | nil => exact absurd rfl hne
      | cons h t =>
        rcases hpu with hpu | hpu
        · rw [hp0] at hpu
          simp only [List.cons_append, List.cons.injEq] at hpu
          obtain ⟨rfl, hpu⟩ := hpu
          obtain ⟨e, a1, a2⟩ := refAt_at hra D.plain D.json t u (by rw [hp0, hpu]; simp)
          cases t with
          | nil => exact absurd rfl hne'
          | cons s t =>
            rcases D.part a1 with hb | ⟨v, hv⟩
            · exact absurd a2 (refAt_base hb)
            · exact ⟨s :: t, e, v, rfl, by simp, a1, hv⟩
        · rw [splitSlash_target hk] at hpu
          match t, hne', hpu with
          | [], hne', hpu => simp at hpu; rw [hpu.1] at hne'; exact absurd rfl hne'
          | [s], _, hpu =>
            simp only [List.cons_append, List.nil_append, List.cons.injEq] at hpu
            obtain ⟨rfl, rfl, -⟩ := hpu
            obtain ⟨v, hv⟩ := D.meansRefs
            exact ⟨_, _, v, rfl, by simp, .key D.notRef D.refs .here, hv⟩
          | [s, s'], _, hpu =>
            simp only [List.cons_append, List.nil_append, List.cons.injEq] at hpu
            obtain ⟨rfl, rfl, rfl, -⟩ := hpu
            obtain ⟨v, hv⟩ := D.content _ _ hz
            exact ⟨_, _, v, rfl, by simp, .key D.notRef D.refs (.key D.refsRef hz .here), hv⟩
          | s :: s' :: s'' :: t, _, hpu => simp at hpu
    · intro p r s u hra hp
      have hE := ok.needs _ _ (.wayTo (a := ["#"]) (s := s) (b := u) hra hp (by simp))
      have := (b2 _).2 (ok.ends _ hE).2
      rw [List.map_map]
      refine List.mem_map.2 ⟨["#", s], List.mem_filter.2 ⟨this, by simp⟩, rfl⟩

theorem before_mem {l₁ l₂ : List Path} {n b : Path} (hnd : (l₁ ++ n :: l₂).Nodup) (h : Before (l₁ ++ n :: l₂) b n) : b ∈ l₁ := by
  have hidx := h.idx hnd
  have hrm : b ∈ l₁ ++ n :: l₂ := h.subset (by simp)
  rw [List.mem_append] at hrm
  rcases hrm with hrm | hrm
  · exact hrm
  · exfalso
    rw [List.nodup_append] at hnd
    have hn1 : n ∉ l₁ := fun hc => hnd.2.2 n hc n (by simp) rfl
    have hr1 : b ∉ l₁ := fun hc => hnd.2.2 b hc b hrm rfl
    rw [List.idxOf_append_of_notMem hn1, List.idxOf_append_of_notMem hr1, List.idxOf_cons_self] at hidx
    omega

theorem memo_lookup {M : PMemo} {n : Path} (h : n ∈ M.map (·.1)) : (M.lookup n).isSome := by
  induction M with
  | nil => simp at h
  | cons e M ih =>
    obtain ⟨x, y⟩ := e
    rw [List.lookup_cons]
    split
    · rfl
    · rename_i hne
      simp only [List.map_cons, List.mem_cons] at h
      rcases h with h | h
      · rw [h] at hne; simp at hne
      · exact ih h

/-- Reading the parts of the document in order. -/
theorem Document.dereference (D : Document W d R c a) {n order} (ho : deserializationOrder n (.dict d) = .ok (some order))
    (hparts : ∀ x ∈ order, x.2 = none ∧ ∃ t e v, x.1 = "#" :: t ∧ t ≠ [] ∧ At (.dict d) t e ∧ StandsFor W R e v) :
    (l₂ l₁ : List (Path × Option Path)) → (M : PMemo) → order = l₁ ++ l₂ → Snd W R (.dict d) M →
    (∀ p, p ∈ M.map (·.1) ↔ p ∈ l₁.map (·.1)) →
    ∃ M', DC.dereference W (.dict d) l₂ M = .ok M' ∧ Snd W R (.dict d) M' ∧ ∀ p, p ∈ M'.map (·.1) ↔ p ∈ order.map (·.1)
  | [], l₁, M, hl, hs, hk => ⟨M, rfl, hs, by rw [hl, List.append_nil]; exact hk⟩
  | (nd, x) :: l₂, l₁, M, hl, hs, hk => by
    obtain ⟨h0, t, e, v, h1, hne, hat, hv⟩ := hparts (nd, x) (by rw [hl]; simp)
    simp only at h0 h1
    subst h0; subst h1
    obtain ⟨onodup, obefore⟩ := C14_order n _ _ ho
    have hom : order.map (·.1) = l₁.map (·.1) ++ ("#" :: t) :: l₂.map (·.1) := by rw [hl]; simp
    rw [hom] at onodup obefore
    have hpl := D.plain.sub hat.occurs
    have hjs := hat.json D.json
    have hav : Avail M ("#" :: t) e := by
      intro q r hra
      have hdoc := D.refAt_of hat hpl hjs hra
      obtain ⟨u, hu⟩ := refAt_prefix hra
      cases u with
      | nil =>
        right
        rw [List.append_nil] at hu; subst hu
        exact memo_lookup ((hk _).2 (before_mem onodup (obefore _ _ (.target hdoc) (by simpa using hne))))
      | cons s u =>
        left
        refine ⟨[s], u, by rw [hu]; simp, ?_⟩
        exact memo_lookup ((hk _).2 (before_mem onodup (obefore _ _ (.wayTo hdoc hu (by simp)) (by simpa using hne))))
    obtain ⟨w, hw, hlike⟩ := deser_load D.plain D.refs D.notRef D.refsRef hs e t false hat hpl ⟨v, hv⟩ hav
    obtain ⟨M', hM', hs', hk'⟩ := D.dereference ho hparts l₂ (l₁ ++ [("#" :: t, none)]) (("#" :: t, w) :: M)
      (by rw [hl]; simp)
      (by
        intro p z hz
        rw [List.lookup_cons] at hz
        split at hz
        · rename_i he
          have : p = "#" :: t := by simpa using he
          simp only [Option.some.injEq] at hz; subst hz
          exact ⟨t, e, this, hat, hlike⟩
        · exact hs p z hz)
      (by
        intro p
        simp only [List.map_cons, List.mem_cons, List.map_append, List.mem_append, List.map_nil, List.not_mem_nil, or_false]
        rw [hk p]; exact or_comm)
    refine ⟨M', ?_, hs', hk'⟩
    rw [DC.dereference, getPath_at hat hne D.names]
    simp only [bind, Except.bind]
    rw [hw]
    exact hM'

/-- Reading the document. -/
theorem Document.load (D : Document W d R c a) : ∃ N, ∀ n, N ≤ n → ∃ a', loadDict W n d = .ok (some (.obj c a')) ∧
    Like (.obj c a) (.obj c a') := by
  obtain ⟨N, hN⟩ := D.order
  refine ⟨N, fun n hn => ?_⟩
  obtain ⟨order, ho, hparts, hroot⟩ := hN n hn
  obtain ⟨M, hM, hs, hk⟩ := D.dereference ho hparts order [] [] rfl (by intro p z hz; simp at hz) (by simp)
  have hMn : M.lookup ["#"] = none := by
    cases hl : M.lookup ["#"] with
    | none => rfl
    | some w =>
      exfalso
      have hm : ["#"] ∈ M.map (·.1) := List.mem_map.2 ⟨_, lookup_mem hl, rfl⟩
      obtain ⟨x, hx, he⟩ := List.mem_map.1 ((hk _).1 hm)
      obtain ⟨-, t, e, v, h1, hne, -⟩ := hparts x hx
      rw [he] at h1
      simp only [List.cons.injEq, true_and] at h1
      exact hne h1.symm
  obtain ⟨hnd, hks⟩ := D.plain d .self
  have hroot' := D.root
  generalize hg : d.filter (fun kv => kv.1 ≠ .str "_references") = g at hroot'
  have hgm : ∀ k x, (k, x) ∈ g ↔ (k, x) ∈ d ∧ k ≠ .str "_references" := by
    intro k x; rw [← hg]; simp
  cases hroot' with
  | ref h0 =>
    exfalso
    have := D.notRef
    rw [← lookup_filter_ne (k' := .str "_references") (by simp), hg] at this
    rw [this] at h0; simp at h0
  | @obj _ _ _ h1 h2 h3 h4 h5 h5' h6 h7 =>
    have hkeep : ∀ k, initKeep W.toEnv c k = true ↔ k ∈ keysOf a := by
      intro k; rw [h4]; cases k <;> simp [initKeep]
    have hnr : Key.str "_references" ∉ keysOf a := by
      rw [h4]; simpa using D.args
    have h2' : d.lookup (.str "object_class") = some (.str c) := by
      rw [← hg, lookup_filter_ne (by simp)] at h2; exact h2
    obtain ⟨s, b1, b2, b3⟩ := deserD_load D.plain D.refs D.notRef D.refsRef hs (initKeep W.toEnv c) (tupleArg W.toEnv c) d [] hnd (by
      intro k x hm hkk
      have hka := (hkeep k).1 hkk
      obtain ⟨s, rfl, hp, hl, hpx⟩ := D.plain.key hm ["#"]
      obtain ⟨v', hv'⟩ := keysOf_mem hka
      have hat : At (.dict d) ([] ++ [s]) x := .key D.notRef hl .here
      refine ⟨s, rfl, hp, hat, hpx, ⟨v', h7 _ _ _ ((hgm _ _).2 ⟨hm, fun h => hnr (h ▸ hka)⟩) hv'⟩, ?_⟩
      rw [hp]
      intro q r hra
      have hdoc := D.refAt_of hat hpx (hat.json D.json) hra
      obtain ⟨u, hu⟩ := refAt_prefix hra
      left
      refine ⟨[], u, by rw [hu]; simp, ?_⟩
      rw [List.append_nil]
      exact memo_lookup ((hk _).2 (hroot q _ s u hdoc (by rw [hu]; rfl))))
    obtain ⟨o, o1, o2, o3⟩ := construct_ok (W.defaults c) s (W.info c).initArgs (by
      intro x hx
      have : Key.str x ∈ keysOf s := by
        rw [b2, List.mem_filter]
        have hx' : Key.str x ∈ keysOf a := by rw [h4]; exact List.mem_map.2 ⟨x, hx, rfl⟩
        obtain ⟨z, hz⟩ := keysOf_mem ((h6 _).2 (.inr hx'))
        exact ⟨mem_keysOf ((hgm _ _).1 hz).1, (hkeep _).2 hx'⟩
      obtain ⟨v, hv⟩ := keysOf_mem this
      have hsn : (keysOf s).Nodup := by rw [b2]; exact hnd.filter _
      exact ⟨v, Dict.mem_lookup hsn hv⟩)
    refine ⟨o, ?_, ?_⟩
    · rw [loadDict, ho]; simp only [bind, Except.bind]
      rw [hM]; simp only
      have : deser W M ["#"] false (.dict d) = .ok (.obj c o) := by
        rw [deser, hMn]; simp only [D.notRef, h2', h3]
        rw [b1]; simp only [bind, Except.bind]; rw [o1]
      rw [this]
    · refine .obj (by rw [h4, o2]) ?_
      intro k x y hx hy
      have hsy := Dict.lookup_mem (o3 k y (Dict.lookup_mem hy))
      obtain ⟨z, hz⟩ := keysOf_mem ((h6 k).2 (.inr (mem_keysOf (Dict.lookup_mem hx))))
      exact b3 k z y x ((hgm _ _).1 hz).1 hsy (h7 k z x hz (Dict.lookup_mem hx))

end
end DC
