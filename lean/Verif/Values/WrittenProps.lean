import Verif.Values.WrittenLemmas
import Verif.Values.EmitProps
/-
C105: an object saved with pointers is read back as an equal object; C106: reading of documents with references.
-/
namespace DC
set_option linter.unusedSimpArgs false

theorem Like.wf {v w : V} (h : Like v w) : WF v → WF w := by
  induction h with
  | leaf => exact id
  | @seq v w a b h1 h2 h3 h4 ih =>
    intro hv
    have ha : ∀ x ∈ a, WF x := by
      cases v with
      | list l => simp [seqItems] at h1; subst h1; exact (WFL_iff l).1 (by simpa [WF] using hv)
      | tuple l => simp [seqItems] at h1; subst h1; exact (WFL_iff l).1 (by simpa [WF] using hv)
      | _ => simp [seqItems] at h1
    have hb : ∀ y ∈ b, WF y := by
      intro y hy
      obtain ⟨i, hi⟩ := List.getElem?_of_mem hy
      have hlt := (List.getElem?_eq_some_iff.1 hi).1
      obtain ⟨x, hx⟩ : ∃ x, a[i]? = some x := ⟨_, List.getElem?_eq_getElem (by omega)⟩
      exact ih i x y hx hi (ha x (List.mem_of_getElem? hx))
    cases w with
    | list l => simp [seqItems] at h2; subst h2; simp only [WF]; exact (WFL_iff l).2 hb
    | tuple l => simp [seqItems] at h2; subst h2; simp only [WF]; exact (WFL_iff l).2 hb
    | _ => simp [seqItems] at h2
  | @dict a b h1 h2 ih =>
    intro hv
    simp only [WF] at hv ⊢
    have hn := h1.nodup_iff.1 hv.1
    refine ⟨hn, (WFD_iff b).2 ?_⟩
    intro kv hm
    obtain ⟨x, hx⟩ := keysOf_mem (h1.mem_iff.2 (mem_keysOf (k := kv.1) (v := kv.2) hm))
    exact ih kv.1 x kv.2 (Dict.mem_lookup hv.1 hx) (Dict.mem_lookup hn hm) ((WFD_iff a).1 hv.2 _ hx)
  | @obj c a b h1 h2 ih =>
    intro hv
    simp only [WF] at hv ⊢
    have hn : (keysOf b).Nodup := h1 ▸ hv.1
    refine ⟨hn, (WFD_iff b).2 ?_⟩
    intro kv hm
    have hka : kv.1 ∈ keysOf a := by rw [h1]; exact mem_keysOf (k := kv.1) (v := kv.2) hm
    obtain ⟨x, hx⟩ := keysOf_mem hka
    exact ih kv.1 x kv.2 (Dict.mem_lookup hv.1 hx) (Dict.mem_lookup hn hm) ((WFD_iff a).1 hv.2 _ hx)

theorem Like.symm {v w : V} (h : Like v w) : Like w v := by
  induction h with
  | leaf h1 h2 h3 => exact .leaf h1 h2 h3
  | seq h1 h2 h3 _ ih => exact .seq h2 h1 h3.symm fun i x y hx hy => ih i y x hy hx
  | dict h1 _ ih => exact .dict h1.symm fun k x y hx hy => ih k y x hy hx
  | obj h1 _ ih => exact .obj h1.symm fun k x y hx hy => ih k y x hy hx

theorem Like.same {Γ : Env} {v w : V} (h : Like v w) : WF v → Same Γ Close v w := by
  induction h with
  | leaf => exact fun hv => Same.refl (fun _ => Close.refl _) _ _ (Nat.lt_succ_self _) hv
  | @seq v w a b h1 h2 h3 h4 ih =>
    intro hv
    have ha : ∀ x ∈ a, WF x := by
      cases v with
      | list l => simp [seqItems] at h1; subst h1; exact (WFL_iff l).1 (by simpa [WF] using hv)
      | tuple l => simp [seqItems] at h1; subst h1; exact (WFL_iff l).1 (by simpa [WF] using hv)
      | _ => simp [seqItems] at h1
    exact .seq h1 h2 h3 fun i x y hx hy => ih i x y hx hy (ha x (List.mem_of_getElem? hx))
  | @dict a b h1 h2 ih =>
    intro hv
    simp only [WF] at hv
    exact .dict (fun k => h1.mem_iff) fun k x y hx hy => ih k x y hx hy ((WFD_iff a).1 hv.2 _ (Dict.lookup_mem hx))
  | @obj c a b h1 h2 ih =>
    intro hv
    simp only [WF] at hv
    exact .obj (fun k _ => by rw [h1]) fun k x y _ hx hy => ih k x y hx hy ((WFD_iff a).1 hv.2 _ (Dict.lookup_mem hx))

theorem Like.dataEq {Γ : Env} {v w : V} (h : Like v w) (hv : WF v) : dataEq Γ v w = true ∧ dataEq Γ w v = true :=
  ⟨same_imp_dataEq (h.same hv) hv, same_imp_dataEq (h.symm.same (h.wf hv)) (h.wf hv)⟩

/-- The JSON data of the result of `to_dict` is a document which stands for the object. -/
theorem document_of {W : World} {c : String} {d e : List (Key × V)} {R refs : List (Key × SV)} {H : Heap}
    (hr : Readable W (.obj c d)) (hwf : WF (.obj c d)) (hn : ∀ k ∈ keysOf d, AttrName k) (hser : serialize W (.obj c d) = .ok (.dict e))
    (hrd : ReadsDocument H R refs e)
    (hcont : ∀ kv ∈ refs, ∃ v j, Occurs (.obj c d) v ∧ serialize W v = .ok j ∧ Reads H refs kv.2 j)
    (hem : Emitted H c R refs) {doc : List (Key × V)} (hdoc : WrittenDict H R doc) : ∃ R', Document W doc R' c d := by
  obtain ⟨n0, rk, hsh⟩ := hem.shape
  obtain ⟨a, d', hR, ha⟩ := hem.head
  obtain ⟨⟨rc, hrc1, hrc2⟩, f, hf1, hf2⟩ := hrd
  obtain ⟨hkind, hargs, hpub, hnref, hnoc⟩ := hr.objs c d .self
  -- the values
  have hlow : ∀ kx ∈ R, Low H.length kx.2 := by
    intro kx hm
    rw [hR] at hm
    rcases List.mem_cons.1 hm with rfl | hm
    · exact ⟨.str, by simp, by simp⟩
    · exact hsh.leaf a _ ha _ (List.mem_map.2 ⟨_, hm, rfl⟩)
  have hvals : ∀ kv ∈ doc, IsJson True kv.2 ∧ PlainDoc kv.2 := by
    intro kv hm
    obtain ⟨x, hx, hw⟩ := hdoc.get (k := kv.1) (v := kv.2) hm
    exact hsh.json hw (hlow _ hx)
  have hkR : keysOf doc = R.map (·.1) := hdoc.1
  have hnd : (keysOf doc).Nodup := by rw [hkR]; exact hem.nodup
  obtain ⟨kd1, kd2⟩ := hsh.keys a _ ha d' rfl
  have hplainKeys : ∀ k ∈ keysOf doc, ∃ s, k = .str s ∧ '/' ∉ s.toList := by
    intro k hm
    rw [hkR, hR, List.map_cons] at hm
    rcases List.mem_cons.1 hm with rfl | hm
    · exact ⟨_, rfl, by decide⟩
    · exact kd2 k hm
  -- the attributes
  have hs0 := hser
  rw [serialize, bind_ok] at hs0
  obtain ⟨s, hs1, hs0⟩ := hs0
  simp only [Except.ok.injEq, V.dict.injEq] at hs0
  obtain ⟨e1, e2⟩ := serialize_obj hr hwf hs1 hs0.symm
  have hne : (keysOf e).Nodup := by
    rw [e1]
    simp only [keysOf, List.map_cons, List.nodup_cons]
    refine ⟨fun hm => ?_, ?_⟩
    · have : Key.str "object_class" ∈ keysOf d := by rw [← e2]; exact hm
      rw [hargs] at this
      exact hnoc (by simpa using this)
    · have := hwf
      simp only [WF] at this
      rw [← e2] at this; exact this.1
  have hkeys : ∀ k, (k ∈ keysOf doc ∧ k ≠ .str "_references") ↔ k = .str "object_class" ∨ k ∈ keysOf d := by
    intro k
    have hp := hf2.map (·.1)
    rw [List.map_map] at hp
    have h1 : k ∈ keysOf e ↔ k ∈ ((R.filter fun kv => kv.1 ≠ .str "_references").map (·.1)) := by
      rw [keysOf, ← hp.mem_iff]; rfl
    have h2 : k ∈ ((R.filter fun kv => kv.1 ≠ .str "_references").map (·.1)) ↔ k ∈ R.map (·.1) ∧ k ≠ .str "_references" := by
      constructor
      · intro hm
        obtain ⟨kv, hm2, rfl⟩ := List.mem_map.1 hm
        obtain ⟨h3, h4⟩ := List.mem_filter.1 hm2
        exact ⟨List.mem_map.2 ⟨_, h3, rfl⟩, by simpa using h4⟩
      · rintro ⟨hm, hne⟩
        obtain ⟨kv, hm2, rfl⟩ := List.mem_map.1 hm
        exact List.mem_map.2 ⟨kv, List.mem_filter.2 ⟨hm2, by simpa using hne⟩, rfl⟩
    rw [hkR, ← h2, ← h1, e1, ← e2]
    simp [keysOf]
  have hdref : doc.lookup (.str "$ref") = none := by
    rw [Dict.lookup_none]
    intro hm
    rcases (hkeys (.str "$ref")).1 ⟨hm, by simp⟩ with h | h
    · simp at h
    · rw [hargs] at h; exact hnref (by simpa using h)
  -- the references
  obtain ⟨t, ht1, ht2⟩ := hdoc.lookup hrc1
  cases ht2 with
  | list g1 => rw [hrc2] at g1; simp at g1
  | @dict _ refs' R' g1 g2 g3 =>
    rw [hrc2] at g1; simp only [Option.some.injEq, Cell.dict.injEq] at g1; subst g1
    have hwr : WrittenDict H refs R' := ⟨g2, g3⟩
    have hmeans : ∀ {x j t v}, Reads H refs x j → Low H.length x → Written H x t → serialize W v = .ok j → Occurs (.obj c d) v → StandsFor W R' t v :=
      fun r hx w hs ho => reads_means hsh hrc2 hem.refsPlain hwr r hx w hs (hr.occurs ho) (WF_occurs ho hwf)
    have hidk : ∀ k ∈ keysOf R', ∃ n, k = idKey n := by
      intro k hm
      rw [g2] at hm
      obtain ⟨kv, hm2, rfl⟩ := List.mem_map.1 hm
      exact hem.refsKeys kv hm2
    refine ⟨R', ⟨.obj fun kv hm => (hvals kv hm).1, plainDoc_dict hnd hplainKeys fun kv hm => (hvals kv hm).2, ?_, hdref, ht1, ?_, ?_, ?_, ?_, ?_⟩⟩
    · intro k hm
      by_cases hkr : k = .str "_references"
      · exact ⟨_, hkr, by decide, by decide⟩
      · rcases (hkeys k).1 ⟨hm, hkr⟩ with rfl | h
        · exact ⟨_, rfl, by decide, by decide⟩
        · exact hn k h
    · constructor
      · intro hm
        obtain ⟨n, hn⟩ := hidk _ hm
        exact idKey_ne (by decide) hn.symm
      · intro hm
        obtain ⟨n, hn⟩ := hidk _ hm
        exact idKey_ne (by decide) hn.symm
    · intro k x hx
      obtain ⟨y, hy, hw⟩ := hwr.get (Dict.lookup_mem hx)
      obtain ⟨v, j, b1, b2, b3⟩ := hcont _ hy
      exact ⟨v, hmeans b3 (hsh.leaf rc _ hrc2 _ (List.mem_map.2 ⟨_, hy, rfl⟩)) hw b2 b1⟩
    · intro k e' hx
      obtain ⟨y, hy, hw⟩ := hwr.get (Dict.lookup_mem hx)
      obtain ⟨b, dd, rfl, hb, hd⟩ := hem.refsPlain k y (Dict.mem_lookup (hsh.keys rc _ hrc2 _ rfl).1 hy)
      cases hw with
      | @dict _ d2 _ q1 q2 q3 =>
        rw [hb] at q1; simp only [Option.some.injEq, Cell.dict.injEq] at q1; subst q1
        exact WrittenDict.none (H := H) ⟨q2, q3⟩ hd
    · intro hm
      obtain ⟨t, e1, e2, e3⟩ := hpub (.str "_references") (by rw [hargs]; simpa using hm)
      simp only [Key.str.injEq] at e1; subst e1
      exact e3 (by decide)
    · refine means_obj hr hwf hs1 ?_ ?_ ?_ ?_
      · rw [lookup_filter_ne (by simp)]; exact hdref
      · rw [lookup_filter_ne (by simp)]
        obtain ⟨t, h1, h2⟩ := hdoc.lookup (k := .str "object_class") (x := .atom (.str c)) (by rw [hR]; simp)
        cases h2; exact h1
      · intro k
        rw [e2, ← hkeys k]
        constructor
        · intro hm
          obtain ⟨kv, hm2, rfl⟩ := List.mem_map.1 hm
          obtain ⟨h3, h4⟩ := List.mem_filter.1 hm2
          exact ⟨List.mem_map.2 ⟨_, h3, rfl⟩, by simpa using h4⟩
        · rintro ⟨hm, hne⟩
          obtain ⟨kv, hm2, rfl⟩ := List.mem_map.1 hm
          exact List.mem_map.2 ⟨kv, List.mem_filter.2 ⟨hm2, by simpa using hne⟩, rfl⟩
      · intro k t v j ht hv hj hsv
        obtain ⟨ht, hk'⟩ := List.mem_filter.1 ht
        obtain ⟨y, hy, hw⟩ := hdoc.get ht
        have hk' : k ≠ .str "_references" := by simpa using hk'
        have hfk : (k, f k) ∈ e := hf2.mem_iff.1 (List.mem_map.2 ⟨(k, y), List.mem_filter.2 ⟨hy, by simpa using hk'⟩, rfl⟩)
        have hfj : f k = j := nodup_value hne hfk (by rw [e1]; simp [hj])
        exact hmeans (hf1 _ hy hk') (hlow _ hy) hw (by rw [hsv, ← hfj]) (.obj (k := k) hv .self)

/-- **C105.** An object is saved with pointers, and any JSON writing of the dictionary is read back as an object of the
same class with the same attributes, up to the order of the keys of dictionaries and to the kind of sequences.  The two
objects are equal.
Missing: the data is `Readable` (as in C12) and the keys are plain strings (`C105_slash_violated`); parts which are equal are assumed to have the
same serialization (C13); the tuples which hold a reference become lists (`C105_tuple_violated`). -/
theorem C105_partial (W : World) (same : V → V → Bool) (fuel : Nat) (c : String) (d : List (Key × V))
    (hwf : WF (.obj c d)) (hr : Readable W (.obj c d)) (hk : PlainKeys (.obj c d)) (hn : ∀ k ∈ keysOf d, AttrName k)
    (hs : ∀ u v, Occurs (.obj c d) u → Occurs (.obj c d) v → same u v = true → serialize W u = serialize W v) :
    ∃ R H, toDictP W same (fuel + 1) c d = .ok (R, H) ∧ (∃ doc, WrittenDict H R doc) ∧
      ∀ doc, WrittenDict H R doc → ∃ N, ∀ n, N ≤ n → ∃ d', loadDict W n doc = .ok (some (.obj c d')) ∧
        Like (.obj c d) (.obj c d') ∧ dataEq W.toEnv (.obj c d) (.obj c d') = true ∧
        dataEq W.toEnv (.obj c d') (.obj c d) = true := by
  obtain ⟨j, h1, -, -⟩ := roundTrip_aux W _ hwf hr
  have hd : ∃ e, j = .dict e := by
    have := h1
    rw [serialize, bind_ok] at this
    obtain ⟨r, _, h⟩ := this
    simp only [Except.ok.injEq] at h
    exact ⟨_, h.symm⟩
  obtain ⟨e, rfl⟩ := hd
  obtain ⟨R, H, refs, g1, g2, g3, g4⟩ := toDictP_ok W same fuel c d e h1 hk hn hs
  refine ⟨R, H, g1, ?_, ?_⟩
  · obtain ⟨n0, rk, hsh⟩ := g4.shape
    obtain ⟨a, d', hR, ha⟩ := g4.head
    refine dict_choose R ?_
    intro x hx
    rw [hR, List.map_cons] at hx
    rcases List.mem_cons.1 hx with rfl | hx
    · exact ⟨_, .atom⟩
    · exact hsh.exists (hsh.leaf a _ ha _ hx)
  · intro doc hdoc
    obtain ⟨R', D⟩ := document_of hr hwf hn h1 g2 g3 g4 hdoc
    obtain ⟨N, hN⟩ := D.load
    refine ⟨N, fun n hn => ?_⟩
    obtain ⟨d', q1, q2⟩ := hN n hn
    exact ⟨d', q1, q2, (q2.dataEq hwf).1, (q2.dataEq hwf).2⟩

/-- The classes of the examples: argument `b` of `m.R` is annotated as a tuple.  Example only. -/
def writtenWorld : World where
  info := fun c => if c = "m.S" then { initArgs := ["x"], standalone := true }
    else if c = "m.R" then { initArgs := ["a", "b", "s"], tupleArgs := ["b"] } else { initArgs := ["name", "x"] }
  kind := fun _ => some .generic
  resolve := fun _ => none

/-- The attributes of an object with a tuple of objects.  Example only. -/
def tupAttrs : List (Key × V) :=
  [(.str "a", mkA "u" (.int 1)), (.str "b", .tuple [mkA "u" (.int 1)]), (.str "s", .none)]

/-- A reference.  Example only. -/
def tupRef : V := .dict [(.str "$ref", .str "#/_references/i")]

/-- The JSON data of this object.  Example only. -/
def tupDoc : List (Key × V) :=
  [(.str "object_class", .str "m.R"), (.str "a", tupRef), (.str "s", .none), (.str "b", .list [tupRef]),
   (.str "_references", .dict [(.str "i", .dict [(.str "object_class", .str "m.A"), (.str "name", .str "u"), (.str "x", .int 1)])])]

/-- An object with a list as attribute `b` is read.  Example only. -/
def isListB : Except PyErr (Option V) → Bool
  | .ok (some (.obj _ d)) => match d.lookup (.str "b") with
    | some (.list _) => true
    | _ => false
  | _ => false

theorem isListB_iff {r} (h : isListB r = true) : ∃ c d l, r = .ok (some (.obj c d)) ∧ d.lookup (.str "b") = some (.list l) := by
  unfold isListB at h
  split at h
  · split at h
    · rename_i h1
      exact ⟨_, _, _, rfl, h1⟩
    · simp at h
  · simp at h

theorem writtenDict_nil {H : Heap} : WrittenDict H [] [] := ⟨rfl, by simp⟩

theorem writtenDict_cons {H : Heap} {k x v d e} (h : Written H x v) (hd : WrittenDict H d e) : WrittenDict H ((k, x) :: d) ((k, v) :: e) := by
  refine ⟨by simp [keysOf]; exact hd.1, ?_⟩
  intro i y w hy hw
  cases i with
  | zero => simp at hy hw; rw [← hy, ← hw]; exact h
  | succ i => exact hd.2 i y w (by simpa using hy) (by simpa using hw)

theorem Written.of {H : Heap} {a d e} (h : H[a]? = some (.dict d)) (hd : WrittenDict H d e) : Written H (.ptr a) (.dict e) := .dict h hd.1 hd.2

/-- **C105** is violated by the code: a tuple which holds a shared object, given to an argument annotated as a tuple, is
read back as a list.  (Without pointers it is read back as a tuple.) -/
theorem C105_tuple_violated : ∃ R H, toDictP writtenWorld (emitSame writtenWorld.toEnv demoHash) 5 "m.R" tupAttrs = .ok (R, H) ∧
    WrittenDict H R tupDoc ∧ (∃ c d l, loadDict writtenWorld 8 tupDoc = .ok (some (.obj c d)) ∧ d.lookup (.str "b") = some (.list l)) ∧
    (∃ l, tupAttrs.lookup (.str "b") = some (.tuple l)) ∧ "b" ∈ (writtenWorld.info "m.R").tupleArgs ∧
    reread writtenWorld.toEnv false (.obj "m.R" tupAttrs) = .obj "m.R" tupAttrs := by
  refine ⟨_, _, rfl, ?_, isListB_iff (by decide +kernel), ⟨_, rfl⟩, by decide, rfl⟩
  refine writtenDict_cons .atom (writtenDict_cons (.of rfl (writtenDict_cons .atom writtenDict_nil)) (writtenDict_cons .atom
    (writtenDict_cons (.list rfl rfl ?_) (writtenDict_cons (.of rfl (writtenDict_cons (.of rfl (writtenDict_cons .atom
      (writtenDict_cons .atom (writtenDict_cons .atom writtenDict_nil)))) writtenDict_nil)) writtenDict_nil))))
  intro i x v hx hv
  cases i with
  | zero =>
    simp at hx hv; subst hx; subst hv
    exact .of rfl (writtenDict_cons .atom writtenDict_nil)
  | succ i => simp at hx

/-- The attributes of an object with a dictionary, one key of which has a slash.  Example only. -/
def slashAttrs : List (Key × V) :=
  [(.str "a", mkA "u" (.int 1)), (.str "b", .dict [(.str "p/q", mkA "u" (.int 1))]), (.str "s", .none)]

/-- The JSON data of this object.  Example only. -/
def slashDoc : List (Key × V) :=
  [(.str "object_class", .str "m.R"), (.str "a", tupRef), (.str "s", .none), (.str "b", .dict [(.str "p/q", tupRef)]),
   (.str "_references", .dict [(.str "i", .dict [(.str "object_class", .str "m.A"), (.str "name", .str "u"), (.str "x", .int 1)])])]

/-- An error is raised.  Example only. -/
def isRaised : Except PyErr (Option V) → Bool
  | .error _ => true
  | _ => false

theorem isRaised_iff {r} (h : isRaised r = true) : ∃ e, r = .error e := by
  cases r with
  | error e => exact ⟨e, rfl⟩
  | ok o => simp [isRaised] at h

/-- **C105** is violated by the code: an object with a dictionary which has a shared object under a key with a slash is saved, but
cannot be read back.  (Without pointers it can.) -/
theorem C105_slash_violated : ∃ R H, toDictP writtenWorld (emitSame writtenWorld.toEnv demoHash) 5 "m.R" slashAttrs = .ok (R, H) ∧
    WrittenDict H R slashDoc ∧ (∃ e, loadDict writtenWorld 8 slashDoc = .error e) ∧
    reread writtenWorld.toEnv false (.obj "m.R" slashAttrs) = .obj "m.R" slashAttrs := by
  refine ⟨_, _, rfl, ?_, isRaised_iff (by decide +kernel), rfl⟩
  exact writtenDict_cons .atom (writtenDict_cons (.of rfl (writtenDict_cons .atom writtenDict_nil)) (writtenDict_cons .atom
    (writtenDict_cons (.of rfl (writtenDict_cons (.of rfl (writtenDict_cons .atom writtenDict_nil)) writtenDict_nil))
      (writtenDict_cons (.of rfl (writtenDict_cons (.of rfl (writtenDict_cons .atom
        (writtenDict_cons .atom (writtenDict_cons .atom writtenDict_nil)))) writtenDict_nil)) writtenDict_nil))))

/-- The hypotheses of `C105_partial` hold for an object with an object shared by an attribute, a list and a dictionary,
and an object of a standalone class. -/
theorem writtenAttrs_ok : WF (.obj "m.R" emitAttrs) ∧ Readable writtenWorld (.obj "m.R" emitAttrs) ∧ PlainKeys (.obj "m.R" emitAttrs) ∧
    (∀ k ∈ keysOf emitAttrs, AttrName k) ∧
    ∀ u v, Occurs (.obj "m.R" emitAttrs) u → Occurs (.obj "m.R" emitAttrs) v →
      emitSame writtenWorld.toEnv demoHash u v = true → serialize writtenWorld u = serialize writtenWorld v := by
  refine ⟨by simp [WF, WFD, WFL, emitAttrs, mkA, keysOf], ⟨?_, ?_, ?_, ?_, ?_, ?_⟩, emitAttrs_ok.2.1, emitAttrs_ok.2.2.1, ?_⟩
  · intro i h
    have := parts_of_occurs h
    simp [parts, partsL, partsD, emitAttrs, mkA] at this
    omega
  · intro s _; rfl
  · intro n h
    have := parts_of_occurs h
    simp [parts, partsL, partsD, emitAttrs, mkA] at this
  · intro c q h
    have := parts_of_occurs h
    simp [parts, partsL, partsD, emitAttrs, mkA] at this
  · intro d h
    have := parts_of_occurs h
    simp [parts, partsL, partsD, emitAttrs, mkA] at this
    subst this
    simp [keysOf]
  · intro c d h
    have := parts_of_occurs h
    simp [parts, partsL, partsD, emitAttrs, mkA] at this
    rcases this with ⟨rfl, rfl⟩ | ⟨rfl, rfl⟩ | ⟨rfl, rfl⟩ | ⟨rfl, rfl⟩
    all_goals
      refine ⟨rfl, by rfl, ?_, by decide, by decide⟩
      intro k hk
      simp [keysOf] at hk
      rcases hk with rfl | rfl | rfl <;> exact ⟨_, rfl, by decide, by decide⟩
  · intro u v hu hv hs
    have hu := parts_of_occurs hu
    have hv := parts_of_occurs hv
    simp [parts, partsL, partsD, emitAttrs, mkA] at hu hv
    rcases hu with rfl | rfl | rfl | rfl | rfl | rfl | rfl | rfl | rfl | rfl | rfl | rfl | rfl | rfl | rfl | rfl <;>
      rcases hv with rfl | rfl | rfl | rfl | rfl | rfl | rfl | rfl | rfl | rfl | rfl | rfl | rfl | rfl | rfl | rfl <;>
        first | rfl | exact absurd hs (by decide)

/-- **C106.** A JSON document whose references, once replaced, make it stand for an object, is read as this object (up to
the order of the keys of dictionaries and to the kind of sequences), whatever the order of the entries of the document.
In particular no cycle is found in its references, and each is read before it is used.
Missing: keys of dictionaries or of references with slashes (`C106_slash_violated`, `C106_key_violated`); references to
other parts of the document than the values of `_references`; classes with their own `dict_to_object`. -/
theorem C106_partial (W : World) (d R : List (Key × V)) (c : String) (a : List (Key × V)) (h : Document W d R c a) :
    ∃ N, ∀ n, N ≤ n → ∃ a', loadDict W n d = .ok (some (.obj c a')) ∧ Like (.obj c a) (.obj c a') := h.load

/-- **C106** is violated by the code: a document with a reference under a key of a dictionary which has a slash cannot be read,
although it stands for an object. -/
theorem C106_slash_violated : ∃ R, slashDoc.lookup (.str "_references") = some (.dict R) ∧
    StandsFor writtenWorld R (.dict (slashDoc.filter fun kv => kv.1 ≠ .str "_references")) (.obj "m.R" slashAttrs) ∧
    ∃ e, loadDict writtenWorld 8 slashDoc = .error e := by
  refine ⟨[(.str "i", .dict [(.str "object_class", .str "m.A"), (.str "name", .str "u"), (.str "x", .int 1)])], rfl, ?_,
    isRaised_iff (by decide +kernel)⟩
  have hA : ∀ R, StandsFor writtenWorld R (.dict [(.str "object_class", .str "m.A"), (.str "name", .str "u"), (.str "x", .int 1)])
      (mkA "u" (.int 1)) := by
    intro R
    refine .obj rfl rfl rfl rfl (by simp [keysOf]) (by simp [keysOf]) (by simp [keysOf]) ?_
    intro k x v h1 h2
    simp only [List.mem_cons, Prod.mk.injEq, List.not_mem_nil, or_false] at h1 h2
    rcases h1 with ⟨rfl, rfl⟩ | ⟨rfl, rfl⟩ | ⟨rfl, rfl⟩ <;> rcases h2 with ⟨h, rfl⟩ | ⟨h, rfl⟩ <;> simp at h
    · exact .str rfl
    · exact .int
  have hRef : StandsFor writtenWorld [(.str "i", .dict [(.str "object_class", .str "m.A"), (.str "name", .str "u"), (.str "x", .int 1)])]
      tupRef (mkA "u" (.int 1)) := .ref (k := "i") rfl (by decide) rfl (hA _)
  refine .obj rfl rfl rfl rfl (by simp [keysOf, slashAttrs]) (by simp [keysOf, slashAttrs])
    (fun k => by simp [keysOf, slashDoc, slashAttrs]; constructor <;> rintro (h | h | h | h) <;> simp [h]) ?_
  intro k x v h1 h2
  simp [slashDoc, slashAttrs] at h1 h2
  rcases h1 with ⟨rfl, rfl⟩ | ⟨rfl, rfl⟩ | ⟨rfl, rfl⟩ | ⟨rfl, rfl⟩ <;> simp at h2
  · subst h2; exact hRef
  · subst h2; exact .none
  · subst h2
    refine .dict rfl rfl (.refl _) ?_
    intro k x v h1 h2
    simp at h1 h2
    obtain ⟨rfl, rfl⟩ := h1
    obtain ⟨-, rfl⟩ := h2
    exact hRef

/-- **C106** is violated by the code: a reference whose key has a slash cannot be read. -/
theorem C106_key_violated : ∃ e, loadDict writtenWorld 8 [(.str "object_class", .str "m.A"), (.str "name", .str "u"),
    (.str "x", .dict [(.str "$ref", .str "#/_references/p/q")]),
    (.str "_references", .dict [(.str "p/q", .dict [(.str "object_class", .str "m.A"), (.str "name", .str "u"), (.str "x", .int 1)])])] =
      .error e := isRaised_iff (by decide +kernel)

/-- The document of `C105_tuple_violated` stands for an object. -/
example : ∃ R, Document writtenWorld tupDoc R "m.R" tupAttrs := by
  refine ⟨[(.str "i", .dict [(.str "object_class", .str "m.A"), (.str "name", .str "u"), (.str "x", .int 1)])], ?_⟩
  have hA : ∀ R, StandsFor writtenWorld R (.dict [(.str "object_class", .str "m.A"), (.str "name", .str "u"), (.str "x", .int 1)])
      (mkA "u" (.int 1)) := by
    intro R
    refine .obj rfl rfl rfl rfl (by simp [keysOf]) (by simp [keysOf]) (by simp [keysOf]) ?_
    intro k x v h1 h2
    simp only [List.mem_cons, Prod.mk.injEq, List.not_mem_nil, or_false] at h1 h2
    rcases h1 with ⟨rfl, rfl⟩ | ⟨rfl, rfl⟩ | ⟨rfl, rfl⟩ <;> rcases h2 with ⟨h, rfl⟩ | ⟨h, rfl⟩ <;> simp at h
    · exact .str rfl
    · exact .int
  have hRef : StandsFor writtenWorld [(.str "i", .dict [(.str "object_class", .str "m.A"), (.str "name", .str "u"), (.str "x", .int 1)])]
      tupRef (mkA "u" (.int 1)) := .ref (k := "i") rfl (by decide) rfl (hA _)
  have occ : ∀ e, Occurs (.dict tupDoc) (.dict e) → .dict e ∈ parts (.dict tupDoc) := fun e h => parts_of_occurs h
  refine ⟨?_, ?_, ?_, rfl, rfl, by simp [keysOf], ?_, ?_, by decide, ?_⟩
  · have hr : IsJson True tupRef := .obj fun kv hm => by simp at hm; subst hm; exact .str
    refine .obj fun kv hm => ?_
    simp [tupDoc] at hm
    rcases hm with rfl | rfl | rfl | rfl | rfl
    · exact .str
    · exact hr
    · exact .none
    · exact .arr fun x hx => by simp at hx; subst hx; exact hr
    · refine .obj fun kv hm => ?_
      simp at hm; subst hm
      refine .obj fun kv hm => ?_
      simp at hm
      rcases hm with rfl | rfl | rfl
      · exact .str
      · exact .str
      · exact .int (by decide) (by decide)
  · intro e he
    have := occ e he
    simp [parts, partsL, partsD, tupDoc, tupRef] at this
    rcases this with rfl | rfl | rfl | rfl
    all_goals
      refine ⟨by simp [keysOf], ?_⟩
      intro k hk
      simp [keysOf] at hk
      first
      | (subst hk; exact ⟨_, rfl, by decide⟩)
      | (rcases hk with rfl | rfl | rfl; all_goals exact ⟨_, rfl, by decide⟩)
      | (rcases hk with rfl | rfl | rfl | rfl | rfl; all_goals exact ⟨_, rfl, by decide⟩)
  · intro k hk
    simp [keysOf, tupDoc] at hk
    rcases hk with rfl | rfl | rfl | rfl | rfl <;> exact ⟨_, rfl, by decide, by decide⟩
  · intro k x h
    have := Dict.lookup_mem h
    simp at this
    rw [this.2]
    exact ⟨_, hA _⟩
  · intro k e h
    have := Dict.lookup_mem h
    simp at this
    rw [this.2]; rfl
  · refine .obj rfl rfl rfl rfl (by simp [keysOf, tupAttrs]) (by simp [keysOf, tupAttrs]) ?_ ?_
    · intro k
      simp [keysOf, tupDoc, tupAttrs]
      tauto
    · intro k x v h1 h2
      simp [tupDoc] at h1
      simp only [tupAttrs, List.mem_cons, Prod.mk.injEq, List.not_mem_nil, or_false] at h2
      rcases h1 with ⟨rfl, rfl⟩ | ⟨rfl, rfl⟩ | ⟨rfl, rfl⟩ | ⟨rfl, rfl⟩ <;>
        rcases h2 with ⟨h, rfl⟩ | ⟨h, rfl⟩ | ⟨h, rfl⟩ <;> simp at h
      · exact hRef
      · exact .none
      · refine .seq rfl rfl ?_
        intro i x y hx hy
        cases i with
        | zero => simp at hx hy; subst hx; subst hy; exact hRef
        | succ i => simp at hx

end DC
