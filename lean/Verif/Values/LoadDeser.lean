import Verif.Values.LoadLemmas
/- Helper lemmas for Verif/Values/LoadProps.lean: reading a part of a document. -/
namespace DC
set_option linter.unusedSimpArgs false

theorem splitSlash_target {k : String} (h : '/' ∉ k.toList) :
    splitSlash ("#/_references/" ++ k) = ["#", "_references", k] := by
  have hl : ("#/_references/" ++ k).toList = ['#'] ++ '/' :: ("_references".toList ++ '/' :: k.toList) := by
    rw [String.toList_append]; rfl
  have h3 : splitChars k.toList = [k.toList] := by
    have := splitSlash_plain h
    rw [splitSlash] at this
    have := congrArg (List.map String.toList) this
    simpa [Function.comp_def] using this
  rw [splitSlash, hl, splitChars_sep _ _ (by decide), splitChars_sep _ _ (by decide), h3]
  simp only [List.map_cons, List.map_nil, String.ofList_toList]

/-- The objects already read are right.  Used in proofs only (no code). -/
def Snd (W : World) (R : List (Key × V)) (doc : V) (M : PMemo) : Prop :=
  ∀ n w, M.lookup n = some w → ∃ t e, n = "#" :: t ∧ At doc t e ∧ ∀ v, StandsFor W R e v → Like v w

/-- The references inside the part can be resolved, or are inside something already read.  Used in proofs only (no code). -/
def Avail (M : PMemo) (path : Path) (e : V) : Prop :=
  ∀ q r, RefAt path e q (.str r) →
    (∃ t1 t2, q = path ++ t1 ++ t2 ∧ (M.lookup (path ++ t1)).isSome) ∨ (M.lookup (splitSlash r)).isSome

theorem Avail.key {M : PMemo} {path : Path} {d : List (Key × V)} {k : Key} {x : V} {s : String} (h : Avail M path (.dict d))
    (hn : M.lookup path = none) (hr : d.lookup (.str "$ref") = none) (hm : (k, x) ∈ d) (hk : path.key k = path ++ [s]) :
    Avail M (path.key k) x := by
  intro q r hra
  rcases h q r (.dict hr hm hra) with ⟨t1, t2, hq, ht⟩ | ht
  · obtain ⟨u, hu⟩ := refAt_prefix hra
    cases t1 with
    | nil => rw [List.append_nil, hn] at ht; simp at ht
    | cons s' t1 =>
      rw [hk] at hu ⊢
      have he : s = s' := by
        rw [hq] at hu
        simp only [List.append_assoc, List.cons_append, List.nil_append] at hu
        have := List.append_cancel_left hu
        simp only [List.cons.injEq] at this; exact this.1.symm
      subst he
      exact .inl ⟨t1, t2, by rw [hq]; simp, by simpa using ht⟩
  · exact .inr ht

theorem Avail.idx {M : PMemo} {path : Path} {l : List V} {i : Nat} {x : V} (h : Avail M path (.list l))
    (hn : M.lookup path = none) (hm : l[i]? = some x) : Avail M (path.idx i) x := by
  intro q r hra
  rcases h q r (.list hm hra) with ⟨t1, t2, hq, ht⟩ | ht
  · obtain ⟨u, hu⟩ := refAt_prefix hra
    cases t1 with
    | nil => rw [List.append_nil, hn] at ht; simp at ht
    | cons s' t1 =>
      rw [Path.idx] at hu ⊢
      have he : toString i = s' := by
        rw [hq] at hu
        simp only [List.append_assoc, List.cons_append, List.nil_append] at hu
        have := List.append_cancel_left hu
        simp only [List.cons.injEq] at this; exact this.1.symm
      subst he
      exact .inl ⟨t1, t2, by rw [hq]; simp, by simpa using ht⟩
  · exact .inr ht

theorem construct_ok (defaults : List (String × V)) (s : List (Key × V)) : (args : List String) →
    (∀ a ∈ args, ∃ v, s.lookup (.str a) = some v) →
    ∃ o, construct defaults s args = .ok o ∧ keysOf o = args.map Key.str ∧ ∀ k v, (k, v) ∈ o → s.lookup k = some v
  | [], _ => ⟨[], rfl, rfl, by simp⟩
  | a :: args, h => by
    obtain ⟨v, hv⟩ := h a (by simp)
    obtain ⟨o, h1, h2, h3⟩ := construct_ok defaults s args fun b hb => h b (by simp [hb])
    refine ⟨(.str a, v) :: o, by rw [construct, hv]; simp only; rw [h1]; rfl, by simp only [keysOf, List.map_cons, List.cons.injEq, true_and] at h2 ⊢; exact h2, ?_⟩
    intro k w hm
    rcases List.mem_cons.1 hm with hm | hm
    · simp only [Prod.mk.injEq] at hm; rw [hm.1, hm.2, hv]
    · exact h3 k w hm

theorem refMarker_inj {k k' : String} (h : "#/_references/" ++ k = "#/_references/" ++ k') : k = k' := by
  have := congrArg String.toList h
  rw [String.toList_append, String.toList_append] at this
  exact String.toList_inj.1 (List.append_cancel_left this)

section
variable {W : World} {d0 R : List (Key × V)} {M : PMemo}

mutual
/-- Reading a part of the document. -/
theorem deser_load (hplain : PlainDoc (.dict d0)) (hrefs : d0.lookup (.str "_references") = some (.dict R))
    (hnr : d0.lookup (.str "$ref") = none) (hRr : R.lookup (.str "$ref") = none) (hs : Snd W R (.dict d0) M) : (e : V) → (t : Path) → (tup : Bool) → At (.dict d0) t e → PlainDoc e → (∃ v, StandsFor W R e v) →
    Avail M ("#" :: t) e → ∃ w, deser W M ("#" :: t) tup e = .ok w ∧ ∀ v, StandsFor W R e v → Like v w
  | .dict d, t, tup, hat, hpl, ⟨v0, h0⟩, hav => by
    cases hM : M.lookup ("#" :: t) with
    | some w =>
      refine ⟨w, by rw [deser, hM], ?_⟩
      obtain ⟨t', e', ht, hat', hw⟩ := hs _ _ hM
      simp only [List.cons.injEq, true_and] at ht; subst ht
      rw [hat.det hat']; exact hw
    | none =>
      obtain ⟨hnd, hks⟩ := hpl d .self
      cases h0 with
      | @ref _ k x _ h0 h1 h2 h3 =>
        have hra : RefAt ("#" :: t) (.dict d) ("#" :: t) (.str ("#/_references/" ++ k)) := .here h0
        have hlk : (M.lookup (splitSlash ("#/_references/" ++ k))).isSome := by
          rcases hav _ _ hra with ⟨t1, t2, hq, ht⟩ | ht
          · have : t1 = [] := by
              have := congrArg List.length hq
              simp only [List.length_append] at this
              exact List.eq_nil_of_length_eq_zero (by omega)
            rw [this, List.append_nil, hM] at ht; simp at ht
          · exact ht
        obtain ⟨w, hw⟩ := Option.isSome_iff_exists.1 hlk
        refine ⟨w, ?_, ?_⟩
        · rw [deser, hM]; simp only [h0]; rw [hw]
        · intro v hv
          rw [splitSlash_target h1] at hw
          obtain ⟨t', e', ht', hat', hlike⟩ := hs _ _ hw
          simp only [List.cons.injEq, true_and] at ht'
          have hx : At (.dict d0) ["_references", k] x := .key hnr hrefs (.key hRr h2 .here)
          rw [← ht'] at hat'
          have := hx.det hat'; subst this
          refine hlike v ?_
          cases hv with
          | @ref _ k' x' _ b0 b1 b2 b3 =>
            rw [h0] at b0
            simp only [Option.some.injEq, V.str.injEq] at b0
            have := refMarker_inj b0; subst this
            rw [h2] at b2; simp only [Option.some.injEq] at b2; subst b2
            exact b3
          | obj b1 => rw [h0] at b1; simp at b1
          | dict b1 => rw [h0] at b1; simp at b1
          | measure b1 => rw [h0] at b1; simp at b1
      | @obj _ c a h1 h2 h3 h4 h5 h5' h6 h7 =>
        have hkeep : ∀ k, initKeep W.toEnv c k = true ↔ k ∈ keysOf a := by
          intro k
          rw [h4]
          cases k <;> simp [initKeep]
        have hne : ∀ k, k ∈ keysOf a → k ∈ keysOf d := fun k hk => (h6 k).2 (.inr hk)
        obtain ⟨s, b1, b2, b3⟩ := deserD_load hplain hrefs hnr hRr hs (initKeep W.toEnv c) (tupleArg W.toEnv c) d t hnd
          (by
            intro k x hm hk
            obtain ⟨s, rfl, hp, hl, hpx⟩ := hpl.key hm ("#" :: t)
            obtain ⟨v', hv'⟩ := keysOf_mem ((hkeep _).1 hk)
            exact ⟨s, rfl, hp, hat.append (.key h1 hl .here), hpx, ⟨v', h7 _ _ _ hm hv'⟩, hav.key hM h1 hm hp⟩)
        obtain ⟨o, o1, o2, o3⟩ := construct_ok (W.defaults c) s (W.info c).initArgs (by
          intro x hx
          have : Key.str x ∈ keysOf s := by
            rw [b2, List.mem_filter]
            have hx' : Key.str x ∈ keysOf a := by rw [h4]; exact List.mem_map.2 ⟨x, hx, rfl⟩
            exact ⟨hne _ hx', (hkeep _).2 hx'⟩
          obtain ⟨v, hv⟩ := keysOf_mem this
          have hsn : (keysOf s).Nodup := by rw [b2]; exact hnd.filter _
          exact ⟨v, Dict.mem_lookup hsn hv⟩)
        refine ⟨.obj c o, ?_, ?_⟩
        · rw [deser, hM]; simp only [h1, h2, h3]
          rw [b1]; simp only [bind, Except.bind]; rw [o1]
        · intro v hv
          cases hv with
          | ref b0 => rw [h1] at b0; simp at b0
          | @obj _ c' a' g1 g2 g3 g4 g5 g5' g6 g7 =>
            rw [h2] at g2; simp only [Option.some.injEq, V.str.injEq] at g2; subst g2
            refine .obj (by rw [g4, o2]) ?_
            intro k x y hx hy
            have hsy := Dict.lookup_mem (o3 k y (Dict.lookup_mem hy))
            have hkd : k ∈ keysOf d := (g6 k).2 (.inr (mem_keysOf (Dict.lookup_mem hx)))
            obtain ⟨z, hz⟩ := keysOf_mem hkd
            exact b3 k z y x hz hsy (g7 k z x hz (Dict.lookup_mem hx))
          | dict _ g2 => rw [h2] at g2; simp at g2
          | measure _ g2 g3 =>
            rw [h2] at g2; simp only [Option.some.injEq, V.str.injEq] at g2; subst g2
            rw [h3] at g3; simp at g3
      | @dict _ e h1 h2 h3 h4 =>
        obtain ⟨s, b1, b2, b3⟩ := deserD_load hplain hrefs hnr hRr hs (fun _ => true) (fun _ => false) d t hnd
          (by
            intro k x hm hk
            obtain ⟨s, rfl, hp, hl, hpx⟩ := hpl.key hm ("#" :: t)
            obtain ⟨v', hv'⟩ := keysOf_mem (h3.mem_iff.1 (mem_keysOf hm))
            exact ⟨s, rfl, hp, hat.append (.key h1 hl .here), hpx, ⟨v', h4 _ _ _ hm hv'⟩, hav.key hM h1 hm hp⟩)
        refine ⟨.dict s, ?_, ?_⟩
        · rw [deser, hM]; simp only [h1, h2]
          rw [b1]; rfl
        · intro v hv
          cases hv with
          | ref b0 => rw [h1] at b0; simp at b0
          | obj _ g2 => rw [h2] at g2; simp at g2
          | measure _ g2 => rw [h2] at g2; simp at g2
          | @dict _ e' g1 g2 g3 g4 =>
            have hks' : keysOf s = keysOf d := by rw [b2]; simp
            refine .dict (by rw [hks']; exact g3.symm) ?_
            intro k x y hx hy
            have hkd : k ∈ keysOf d := g3.mem_iff.2 (mem_keysOf (Dict.lookup_mem hx))
            obtain ⟨z, hz⟩ := keysOf_mem hkd
            exact b3 k z y x hz (Dict.lookup_mem hy) (g4 k z x hz (Dict.lookup_mem hx))
      | @measure _ c q h1 h2 h3 h4 h5 =>
        refine ⟨.measure c q, ?_, ?_⟩
        · rw [deser, hM]; simp only [h1, h2, h3]
          rw [measureFrom, h4]
        · intro v hv
          cases hv with
          | ref b0 => rw [h1] at b0; simp at b0
          | obj _ g2 g3 =>
            rw [h2] at g2; simp only [Option.some.injEq, V.str.injEq] at g2; subst g2
            rw [h3] at g3; simp at g3
          | dict _ g2 => rw [h2] at g2; simp at g2
          | measure _ g2 _ g4 =>
            rw [h2] at g2; simp only [Option.some.injEq, V.str.injEq] at g2; subst g2
            rw [h4] at g4; simp only [Option.some.injEq, V.flt.injEq] at g4; subst g4
            exact .leaf rfl (by simp) (by simp)
  | .list l, t, tup, hat, hpl, ⟨v0, h0⟩, hav => by
    cases hM : M.lookup ("#" :: t) with
    | some w =>
      refine ⟨w, by rw [deser, hM], ?_⟩
      obtain ⟨t', e', ht, hat', hw⟩ := hs _ _ hM
      simp only [List.cons.injEq, true_and] at ht; subst ht
      rw [hat.det hat']; exact hw
    | none =>
      cases h0 with
      | @seq _ _ m h1 h2 h3 =>
        obtain ⟨ws, b1, b2, b3⟩ := deserL_load hplain hrefs hnr hRr hs l t 0 (by
          intro n x hx
          have hlt := (List.getElem?_eq_some_iff.1 hx).1
          obtain ⟨y, hy⟩ : ∃ y, m[n]? = some y := ⟨_, List.getElem?_eq_getElem (by omega)⟩
          exact ⟨hat.append (by rw [Nat.zero_add]; exact .idx hx .here), hpl.sub (.list (List.mem_of_getElem? hx) .self),
            ⟨y, h3 n x y hx hy⟩, by rw [Nat.zero_add]; exact hav.idx hM hx⟩)
        refine ⟨if tup then .tuple ws else .list ws, by rw [deser, hM]; simp only; rw [b1]; rfl, ?_⟩
        intro v hv
        cases hv with
        | @seq _ _ m' g1 g2 g3 =>
          refine .seq g1 (b := ws) (by cases tup <;> rfl) (by omega) ?_
          intro i x y hx hy
          have hlt := (List.getElem?_eq_some_iff.1 hy).1
          obtain ⟨z, hz⟩ : ∃ z, l[i]? = some z := ⟨_, List.getElem?_eq_getElem (by omega)⟩
          exact b3 i z y x hz hy (g3 i z x hz hx)
  | .str s, t, tup, hat, hpl, ⟨v0, h0⟩, hav => by
    cases hM : M.lookup ("#" :: t) with
    | some w =>
      refine ⟨w, by rw [deser, hM], ?_⟩
      obtain ⟨t', e', ht, hat', hw⟩ := hs _ _ hM
      simp only [List.cons.injEq, true_and] at ht; subst ht
      rw [hat.det hat']; exact hw
    | none =>
      cases h0 with
      | str h1 =>
        refine ⟨.str s, by rw [deser, hM]; simp only; rw [h1], ?_⟩
        intro v hv
        cases hv with
        | str => exact .leaf rfl (by simp) (by simp)
        | cls g => rw [h1] at g; simp at g
      | cls h1 =>
        refine ⟨.cls s, by rw [deser, hM]; simp only; rw [h1], ?_⟩
        intro v hv
        cases hv with
        | str g => rw [h1] at g; simp at g
        | cls g => exact .leaf rfl (by simp) (by simp)
  | .none, t, tup, hat, hpl, ⟨v0, h0⟩, hav => by
    cases hM : M.lookup ("#" :: t) with
    | some w =>
      refine ⟨w, by simp [deser, hM], ?_⟩
      obtain ⟨t', e', ht, hat', hw⟩ := hs _ _ hM
      simp only [List.cons.injEq, true_and] at ht; subst ht
      rw [hat.det hat']; exact hw
    | none => exact ⟨_, by simp [deser, hM]; rfl, fun v hv => by cases hv; exact .leaf rfl (by simp) (by simp)⟩
  | .bool b, t, tup, hat, hpl, ⟨v0, h0⟩, hav => by
    cases hM : M.lookup ("#" :: t) with
    | some w =>
      refine ⟨w, by simp [deser, hM], ?_⟩
      obtain ⟨t', e', ht, hat', hw⟩ := hs _ _ hM
      simp only [List.cons.injEq, true_and] at ht; subst ht
      rw [hat.det hat']; exact hw
    | none => exact ⟨_, by simp [deser, hM]; rfl, fun v hv => by cases hv; exact .leaf rfl (by simp) (by simp)⟩
  | .int i, t, tup, hat, hpl, ⟨v0, h0⟩, hav => by
    cases hM : M.lookup ("#" :: t) with
    | some w =>
      refine ⟨w, by simp [deser, hM], ?_⟩
      obtain ⟨t', e', ht, hat', hw⟩ := hs _ _ hM
      simp only [List.cons.injEq, true_and] at ht; subst ht
      rw [hat.det hat']; exact hw
    | none => exact ⟨_, by simp [deser, hM]; rfl, fun v hv => by cases hv; exact .leaf rfl (by simp) (by simp)⟩
  | .flt q, t, tup, hat, hpl, ⟨v0, h0⟩, hav => by
    cases hM : M.lookup ("#" :: t) with
    | some w =>
      refine ⟨w, by simp [deser, hM], ?_⟩
      obtain ⟨t', e', ht, hat', hw⟩ := hs _ _ hM
      simp only [List.cons.injEq, true_and] at ht; subst ht
      rw [hat.det hat']; exact hw
    | none => exact ⟨_, by simp [deser, hM]; rfl, fun v hv => by cases hv; exact .leaf rfl (by simp) (by simp)⟩
  | .file b n f, t, tup, hat, hpl, ⟨v0, h0⟩, hav => by
    cases hM : M.lookup ("#" :: t) with
    | some w =>
      refine ⟨w, by simp [deser, hM], ?_⟩
      obtain ⟨t', e', ht, hat', hw⟩ := hs _ _ hM
      simp only [List.cons.injEq, true_and] at ht; subst ht
      rw [hat.det hat']; exact hw
    | none => exact ⟨_, by simp [deser, hM]; rfl, fun v hv => by cases hv; exact .leaf rfl (by simp) (by simp)⟩
  | .tuple l, t, tup, hat, hpl, ⟨v0, h0⟩, hav => by cases h0
  | .obj c d, t, tup, hat, hpl, ⟨v0, h0⟩, hav => by cases h0
  | .measure c q, t, tup, hat, hpl, ⟨v0, h0⟩, hav => by cases h0
  | .cls n, t, tup, hat, hpl, ⟨v0, h0⟩, hav => by cases h0
  | .other n, t, tup, hat, hpl, ⟨v0, h0⟩, hav => by cases h0

theorem deserL_load (hplain : PlainDoc (.dict d0)) (hrefs : d0.lookup (.str "_references") = some (.dict R))
    (hnr : d0.lookup (.str "$ref") = none) (hRr : R.lookup (.str "$ref") = none) (hs : Snd W R (.dict d0) M) : (l : List V) → (t : Path) → (i : Nat) →
    (∀ (n : Nat) x, l[n]? = some x → At (.dict d0) (t ++ [toString (i + n)]) x ∧ PlainDoc x ∧ (∃ v, StandsFor W R x v) ∧
      Avail M (Path.idx ("#" :: t) (i + n)) x) →
    ∃ ws, deserL W M ("#" :: t) i l = .ok ws ∧ ws.length = l.length ∧
      ∀ (n : Nat) x w v, l[n]? = some x → ws[n]? = some w → StandsFor W R x v → Like v w
  | [], t, i, _ => ⟨[], rfl, rfl, by simp⟩
  | x :: l, t, i, h => by
    obtain ⟨a1, a2, a3, a4⟩ := h 0 x (by simp)
    obtain ⟨w, c1, c2⟩ := deser_load hplain hrefs hnr hRr hs x (t ++ [toString i]) false a1 a2 a3 a4
    obtain ⟨ws, b1, b2, b3⟩ := deserL_load hplain hrefs hnr hRr hs l t (i + 1) (by
      intro n x hx
      have := h (n + 1) x (by simpa using hx)
      rw [show i + (n + 1) = i + 1 + n by omega] at this
      exact this)
    refine ⟨w :: ws, by rw [deserL]; simp only [Path.idx, List.cons_append]; rw [c1]; simp only [bind, Except.bind]; rw [b1], by simp [b2], ?_⟩
    intro n y w' v hy hw hm
    cases n with
    | zero => simp at hy hw; subst hy; subst hw; exact c2 v hm
    | succ n => exact b3 n y w' v (by simpa using hy) (by simpa using hw) hm

theorem deserD_load (hplain : PlainDoc (.dict d0)) (hrefs : d0.lookup (.str "_references") = some (.dict R))
    (hnr : d0.lookup (.str "$ref") = none) (hRr : R.lookup (.str "$ref") = none) (hs : Snd W R (.dict d0) M) (keep tup : Key → Bool) : (d : List (Key × V)) → (t : Path) → (keysOf d).Nodup →
    (∀ k x, (k, x) ∈ d → keep k = true → ∃ s, k = .str s ∧ Path.key ("#" :: t) k = "#" :: t ++ [s] ∧
      At (.dict d0) (t ++ [s]) x ∧ PlainDoc x ∧ (∃ v, StandsFor W R x v) ∧ Avail M (Path.key ("#" :: t) k) x) →
    ∃ s, deserD W M ("#" :: t) keep tup d = .ok s ∧ keysOf s = (keysOf d).filter keep ∧
      ∀ k x w v, (k, x) ∈ d → (k, w) ∈ s → StandsFor W R x v → Like v w
  | [], t, _, _ => ⟨[], rfl, rfl, by simp⟩
  | (k, x) :: d, t, hnd, h => by
    simp only [keysOf, List.map_cons, List.nodup_cons] at hnd
    obtain ⟨s, b1, b2, b3⟩ := deserD_load hplain hrefs hnr hRr hs keep tup d t hnd.2 (fun k x hm => h k x (by simp [hm]))
    by_cases hk : keep k = true
    · obtain ⟨s', rfl, a0, a1, a2, a3, a4⟩ := h k x (by simp) hk
      rw [a0] at a4
      obtain ⟨w, c1, c2⟩ := deser_load hplain hrefs hnr hRr hs x (t ++ [s']) (tup (.str s')) a1 a2 a3 (by simpa using a4)
      refine ⟨(.str s', w) :: s, ?_, ?_, ?_⟩
      · rw [deserD, if_pos hk, a0]
        simp only [List.cons_append]
        rw [c1]; simp only [bind, Except.bind]; rw [b1]
      · simp only [keysOf, List.map_cons] at b2 ⊢
        rw [List.filter_cons_of_pos hk, b2]
      · intro k y w' v hy hw hm
        rcases List.mem_cons.1 hy with hy | hy
        · simp only [Prod.mk.injEq] at hy
          obtain ⟨rfl, rfl⟩ := hy
          rcases List.mem_cons.1 hw with hw | hw
          · simp only [Prod.mk.injEq] at hw; rw [hw.2]; exact c2 v hm
          · have : Key.str s' ∈ (keysOf d).filter keep := by rw [← b2]; exact mem_keysOf hw
            exact absurd (List.mem_filter.1 this).1 hnd.1
        · rcases List.mem_cons.1 hw with hw | hw
          · simp only [Prod.mk.injEq] at hw; rw [hw.1] at hy; exact absurd (mem_keysOf hy) hnd.1
          · exact b3 k y w' v hy hw hm
    · refine ⟨s, by rw [deserD, if_neg hk, b1], ?_, ?_⟩
      · simp only [keysOf, List.map_cons] at b2 ⊢
        rw [List.filter_cons_of_neg hk, b2]
      · intro k' y w' v hy hw hm
        rcases List.mem_cons.1 hy with hy | hy
        · simp only [Prod.mk.injEq] at hy
          have : k' ∈ (keysOf d).filter keep := by rw [← b2]; exact mem_keysOf hw
          rw [hy.1] at this
          exact absurd (List.mem_filter.1 this).1 hnd.1
        · exact b3 k' y w' v hy hw hm
end
end

end DC
