import Verif.Values.EmitShape
import Verif.Values.CopyProps
/-
C13: pointer serialization loses nothing.
-/
namespace DC
set_option linter.unusedSimpArgs false

theorem emitInv_init (W : World) (root : V) : EInv W root ⟨[], [], [], 0⟩ := by
  refine ⟨?_, ?_, ?_, ?_, ?_, ?_, ?_, ?_, ?_, ?_, ?_, ?_⟩ <;> simp

theorem startsUnderscore : "_references".toList.head? = some '_' := by decide

theorem forall2_filter_reads {H T} {f : Key → V} {p : Key → Bool} {d d' : List (Key × SV)}
    (h : List.Forall₂ (fun kx kx' => kx'.1 = kx.1 ∧ Stands H T kx.2 kx'.2) d d')
    (hr : ∀ kv ∈ d, p kv.1 = true → Reads H T kv.2 (f kv.1)) : ∀ kv ∈ d', p kv.1 = true → Reads H T kv.2 (f kv.1) := by
  induction h with
  | nil => simp
  | cons a _ ih =>
    intro kv hm hp
    rcases List.mem_cons.1 hm with rfl | hm
    · rw [a.1] at hp ⊢; exact a.2.reads (hr _ (by simp) hp)
    · exact ih (fun kv hm => hr kv (by simp [hm])) kv hm hp

/-- What `to_dict()` gives. -/
theorem toDictP_ok (W : World) (same : V → V → Bool) (fuel : Nat) (c : String) (d : List (Key × V)) (e : List (Key × V))
    (hser : serialize W (.obj c d) = .ok (.dict e)) (hk : PlainKeys (.obj c d)) (hn : ∀ k ∈ keysOf d, AttrName k)
    (hs : ∀ u v, Occurs (.obj c d) u → Occurs (.obj c d) v → same u v = true → serialize W u = serialize W v) :
    ∃ R H refs, toDictP W same (fuel + 1) c d = .ok (R, H) ∧ ReadsDocument H R refs e ∧
      (∀ kv ∈ refs, ∃ v j, Occurs (.obj c d) v ∧ serialize W v = .ok j ∧ Reads H refs kv.2 j) ∧ Emitted H c R refs := by
  have hs : SameSer W same (.obj c d) := hs
  have ho : Occurs (.obj c d) (.obj c d) := .self
  have hj := hser
  rw [serialize, bind_ok] at hj
  obtain ⟨s, h1, hj⟩ := hj
  simp only [Except.ok.injEq, V.dict.injEq] at hj
  have hocc : ∀ kv ∈ d, Occurs (.obj c d) kv.2 := fun kv hm => .obj (k := kv.1) hm .self
  have hsv : ∀ kv ∈ d, serKeep W.toEnv c kv.1 = true → ∃ j, serialize W kv.2 = .ok j := by
    intro kv hm hkv
    obtain ⟨j, a, -⟩ := (serializeD_facts h1).2 kv hm hkv
    exact ⟨j, a⟩
  obtain ⟨xs, st1, e1, o1⟩ := serPD_ok hs hk (serKeep W.toEnv c) 0 d ["#"] ⟨[], [], [], 0⟩ (emitInv_init W _) hocc hsv
  obtain ⟨ys, st2, e2, o2⟩ := serPD_ok hs hk (serKeep W.toEnv c) 1 d ["#"] st1 o1.inv hocc hsv
  obtain ⟨zs, st3, e3, o3⟩ := serPD_ok hs hk (serKeep W.toEnv c) 2 d ["#"] st2 o2.inv hocc hsv
  have all := serAll_of o1 o2 o3
  generalize hL : xs ++ ys ++ zs = L at all
  obtain ⟨hnd, hpk⟩ := hk.obj c d ho
  obtain ⟨f1, f2, f3, f4, f5, f6⟩ := all.facts h1 hnd
  have hoc : ∀ k ∈ keysOf d, k ≠ .str "object_class" := fun k hm => (hpk k hm).2
  have u1 : dictUpdate [(Key.str "object_class", V.str c)] s = (.str "object_class", .str c) :: s := by
    rw [dictUpdate_disjoint _ _ f1 (by
      intro k hm
      simpa using hoc k (f6 k hm))]; rfl
  rw [u1] at hj
  have inv := all.inv
  -- no attribute is named `_references`
  have hnr : ∀ k ∈ L.map (·.1), k ≠ .str "_references" := by
    intro k hm hke
    obtain ⟨kx, hm', rfl⟩ := List.mem_map.1 hm
    obtain ⟨v, j, -, hkp, -⟩ := all.reads kx hm'
    rw [hke] at hkp
    simp [serKeep] at hkp
  have hrn : ∀ k ∈ L.map (·.1), ∃ t, k = .str t ∧ '/' ∉ t.toList ∧ RootName t := by
    intro k hm
    obtain ⟨t, rfl, ht, -⟩ := (hpk k (f5 k hm)).1
    obtain ⟨t', e', ht1, ht2⟩ := hn _ (f5 _ hm)
    simp only [Key.str.injEq] at e'; subst e'
    refine ⟨t, rfl, ht, ?_, fun q => hnr _ hm (by rw [q])⟩
    cases htl : t.toList with
    | nil => exact absurd htl ht1
    | cons ch cs => exact ⟨ch, cs, rfl, fun q => ht2 (by rw [htl, q]; rfl)⟩
  generalize ha : st3.heap.length = a
  have hds : dictSet L (.str "_references") (.ptr (a + 1)) = L ++ [(.str "_references", .ptr (a + 1))] :=
    dictSet_new _ _ _ fun hm => hnr _ hm rfl
  generalize hH0 : ((st3.heap ++ [Cell.dict L]) ++ [Cell.dict st3.refs]).set a (Cell.dict (L ++ [(Key.str "_references", SV.ptr (a + 1))])) = H0
  have c1 : ∀ (b : Nat) cell, st3.heap[b]? = some cell → H0[b]? = some cell := by
    intro b cell hb
    have hlt := (List.getElem?_eq_some_iff.1 hb).1
    rw [← hH0, List.getElem?_set_ne (by omega), List.append_assoc, List.getElem?_append_left hlt]
    exact hb
  have c2 : H0[a]? = some (.dict (L ++ [(.str "_references", .ptr (a + 1))])) := by
    rw [← hH0, List.getElem?_set_self (by simp [ha])]
  have c3 : H0[a + 1]? = some (.dict st3.refs) := by
    rw [← hH0, List.getElem?_set_ne (by omega)]
    have : (st3.heap ++ [Cell.dict L]).length = a + 1 := by simp [ha]
    rw [← this, getElem?_snoc]
  have hx : HExt st3.heap st3.refs H0 st3.refs := ⟨c1, fun _ _ h => h⟩
  have hLref : L.lookup (.str "$ref") = none := lookup_ref_none fun k hm => (hpk k (f5 k hm)).1
  have hkeys0 : ∀ k, k ≠ Key.str "_references" → (L ++ [(Key.str "_references", SV.ptr (a + 1))]).lookup k = L.lookup k := by
    intro k hke
    rw [List.lookup_append]
    have : (k == Key.str "_references") = false := by simpa using hke
    simp [List.lookup, this]
  have hnd0 : ((L ++ [(Key.str "_references", SV.ptr (a + 1))]).map (·.1)).Nodup := by
    rw [List.map_append, List.nodup_append]
    refine ⟨f2, by simp, ?_⟩
    intro k hm k' hm' hkk
    simp at hm'
    exact hnr k hm (by rw [hkk, hm'])
  have hn0 : NonRef H0 (.ptr a) := ⟨a, _, rfl, c2, fun d' q => by
    simp only [Cell.dict.injEq] at q
    rw [← q, hkeys0 _ (by simp)]; exact hLref⟩
  have hready : Ready H0 st3.refs a (a + 1) := by
    refine ⟨⟨_, c2, by rw [hkeys0 _ (by simp)]; exact hLref, Dict.mem_lookup hnd0 (by simp)⟩, c3, ?_⟩
    rw [Dict.lookup_none]
    intro hm
    obtain ⟨kv, hm, hke⟩ := List.mem_map.1 hm
    obtain ⟨n, hn⟩ := inv.refsKeys kv hm
    rw [hn] at hke
    exact idKey_ne (by decide) hke
  have hcont : Contents H0 st3.refs := fun k x hkx => (inv.refsPlain k x hkx).mono hx
  have hlow : ∀ (b : Nat) cell, b < a → H0[b]? = some cell → ∀ x ∈ cell.values, x.below a := by
    intro b cell hb hcell x hxv
    obtain ⟨cell', hc'⟩ : ∃ cell', st3.heap[b]? = some cell' := ⟨_, List.getElem?_eq_getElem (by omega)⟩
    have := c1 b cell' hc'
    rw [hcell] at this
    simp only [Option.some.injEq] at this; subst this
    rw [← ha]; exact inv.bounded b cell hc' x hxv
  have hT : ∀ k x, st3.refs.lookup k = some x → x.below a := by
    intro k x hkx
    obtain ⟨b, dd, rfl, hb, -⟩ := inv.refsPlain k x hkx
    rw [← ha]; exact (List.getElem?_eq_some_iff.1 hb).1
  have hmemo : ∀ en ∈ st3.memo, MemoEntryOk H0 st3.refs a a en := by
    intro en hen
    refine ⟨?_, inv.refsId en hen⟩
    rcases all.memo en hen with hm | ⟨kx, hm, rel, hp, hfo⟩
    · simp at hm
    · obtain ⟨k, y⟩ := kx
      have hkm : k ∈ L.map (·.1) := List.mem_map.2 ⟨_, hm, rfl⟩
      obtain ⟨t, rfl, ht, hroot⟩ := hrn k hkm
      rw [path_key ht] at hp
      obtain ⟨j, -, hrd⟩ := f4 _ hm
      refine ⟨t, rel, y, by rw [hp]; rfl, hroot, .key c2 (Dict.mem_lookup hnd0 (by simp [hm])), ?_, hfo.mono hx⟩
      rw [← ha]; exact hrd.bound
  obtain ⟨H, eH, sim, ready⟩ := rewriteAll_ok hcont a (Nat.le_refl _) (by omega) (by omega) hlow hT hn0 fuel st3.memo hmemo H0 (.refl _ _) hready
  obtain ⟨t1, -, t2, -⟩ := serPD_tidy hk _ _ d ["#"] _ xs st1 e1 hocc (by constructor <;> simp)
  obtain ⟨t3, t4, t5, -⟩ := serPD_tidy hk _ _ d ["#"] _ ys st2 e2 hocc t1
  obtain ⟨tidy, t6, t7, -⟩ := serPD_tidy hk _ _ d ["#"] _ zs st3 e3 hocc t3
  have hlowL : ∀ kx ∈ L, Low a kx.2 := by
    intro kx hm
    rw [← ha]
    rw [← hL] at hm
    rcases List.mem_append.1 hm with hm | hm
    · rcases List.mem_append.1 hm with hm | hm
      · exact (t2 kx hm).mono (Nat.le_trans t4 t6)
      · exact (t5 kx hm).mono t6
    · exact t7 kx hm
  have hlen : H0.length = a + 2 := by rw [← hH0]; simp [ha]
  have hcells : ∀ (b : Nat) cell, H0[b]? = some cell → (b < a ∧ st3.heap[b]? = some cell) ∨
      (b = a ∧ cell = .dict (L ++ [(Key.str "_references", SV.ptr (a + 1))])) ∨ (b = a + 1 ∧ cell = .dict st3.refs) := by
    intro b cell hb
    have hlt := (List.getElem?_eq_some_iff.1 hb).1
    by_cases h1 : b < a
    · obtain ⟨cell', hc'⟩ : ∃ cell', st3.heap[b]? = some cell' := ⟨_, List.getElem?_eq_getElem (by omega)⟩
      have := c1 b cell' hc'
      rw [hb] at this
      simp only [Option.some.injEq] at this; subst this
      exact .inl ⟨h1, hc'⟩
    · by_cases h2 : b = a
      · subst h2; rw [c2] at hb; exact .inr (.inl ⟨rfl, by simpa using hb.symm⟩)
      · have h3 : b = a + 1 := by omega
        subst h3; rw [c3] at hb; exact .inr (.inr ⟨rfl, by simpa using hb.symm⟩)
  have shape0 : Shape (a + 2) (rank0 a) H0 := by
    refine ⟨by omega, ?_, ?_, ?_, ?_⟩
    · intro b cell hb x hxv
      rw [hlen]
      rcases hcells b cell hb with ⟨h1, h2⟩ | ⟨rfl, rfl⟩ | ⟨rfl, rfl⟩
      · exact (tidy.values b cell h2 x hxv).mono (by omega)
      · obtain ⟨kx, hm, rfl⟩ := List.mem_map.1 hxv
        rcases List.mem_append.1 hm with hm | hm
        · exact (hlowL kx hm).mono (by omega)
        · simp at hm; subst hm; show b + 1 < b + 2; omega
      · obtain ⟨kx, hm, rfl⟩ := List.mem_map.1 hxv
        exact (tidy.refs kx hm).mono (by omega)
    · intro b cell hb hlt p hp
      right
      rcases hcells b cell hb with ⟨h1, h2⟩ | ⟨rfl, rfl⟩ | ⟨rfl, rfl⟩
      · have : p < b := tidy.values b cell h2 _ hp
        unfold rank0
        rw [if_neg (by omega), if_neg (by omega), if_neg (by omega), if_neg (by omega)]; exact this
      · obtain ⟨kx, hm, hkx⟩ := List.mem_map.1 hp
        have hb0 : rank0 b b = b + 1 := by simp [rank0]
        rcases List.mem_append.1 hm with hm | hm
        · have : Low b kx.2 := hlowL kx hm
          rw [hkx] at this
          have this : p < b := this
          rw [hb0]; unfold rank0
          rw [if_neg (by omega), if_neg (by omega)]; omega
        · simp at hm; subst hm
          simp only [SV.ptr.injEq] at hkx; subst hkx
          rw [hb0]; unfold rank0
          rw [if_neg (by omega), if_pos rfl]; omega
      · obtain ⟨kx, hm, hkx⟩ := List.mem_map.1 hp
        have : Low st3.heap.length kx.2 := tidy.refs kx hm
        rw [hkx] at this
        have this : p < st3.heap.length := this
        unfold rank0
        rw [if_neg (by omega), if_neg (by omega), if_neg (by omega), if_pos rfl]; omega
    · intro b cell hb hlt
      have := (List.getElem?_eq_some_iff.1 hb).1
      omega
    · intro b cell hb
      rcases hcells b cell hb with ⟨h1, h2⟩ | ⟨rfl, rfl⟩ | ⟨rfl, rfl⟩
      · exact tidy.keys b cell h2
      · intro d' hd
        simp only [Cell.dict.injEq] at hd; subst hd
        refine ⟨hnd0, ?_⟩
        intro k hm
        rw [List.map_append, List.mem_append] at hm
        rcases hm with hm | hm
        · obtain ⟨t, h1, h2, -⟩ := hrn k hm
          exact ⟨t, h1, h2⟩
        · simp at hm; exact ⟨_, hm, by decide⟩
      · intro d' hd
        simp only [Cell.dict.injEq] at hd; subst hd
        refine ⟨inv.refsNodup, ?_⟩
        intro k hm
        obtain ⟨kv, hm2, rfl⟩ := List.mem_map.1 hm
        obtain ⟨n, hn⟩ := inv.refsKeys kv hm2
        exact ⟨_, hn, by rw [idStr_toList]; simp⟩
  have shape : Shape (a + 2) (rank0 a) H := by
    refine rewriteAll_shape st3.memo H0 H shape0 (by intro p hp; simp only [SV.ptr.injEq] at hp; omega) ?_ eH
    intro en hen
    obtain ⟨⟨t, rel, y, hp, -, hch, -, hfo⟩, -⟩ := hmemo en hen
    rw [hp]
    have hall : ∀ s ∈ ("#" :: t :: rel), '/' ∉ s.toList := by
      intro s hs
      rcases List.mem_cons.1 hs with rfl | hs
      · decide
      · rcases List.mem_cons.1 hs with rfl | hs
        · exact hch.noSlash shape0.keys
        · exact hfo.noSlash shape0.keys s hs
    rw [List.getLastD_eq_getLast?]
    cases hl : ("#" :: t :: rel).getLast? with
    | none => decide
    | some s => exact hall s (List.mem_of_getLast? hl)
  obtain ⟨cell, hcell, hsc⟩ := sim a _ c2
  have hto : toDictP W same (fuel + 1) c d =
      .ok (dictUpdate [(.str "object_class", .atom (.str c))] (entriesOf H a), H) := by
    rw [toDictP, e1]; simp only; rw [e2]; simp only; rw [e3]; simp only
    rw [hL, addReferences]
    simp only [alloc, List.length_append, List.length_singleton, ha]
    rw [hds, hH0, eH]
  cases hsc with
  | ref a1 _ =>
    rw [hkeys0 _ (by simp), hLref] at a1; simp at a1
  | dict a1 a2 =>
    rename_i d'
    have hent : entriesOf H a = d' := by rw [entriesOf, hcell]
    have hkd := forall2_keys a2
    have hnd' : (d'.map (·.1)).Nodup := by rw [hkd]; exact hnd0
    have hoc' : ∀ k ∈ d'.map (·.1), k ≠ .str "object_class" := by
      intro k hm
      rw [hkd, List.map_append, List.mem_append] at hm
      rcases hm with hm | hm
      · exact hoc k (f5 k hm)
      · simp at hm; rw [hm]; simp
    have u2 : dictUpdate [(Key.str "object_class", SV.atom (.str c))] d' = (.str "object_class", .atom (.str c)) :: d' := by
      rw [dictUpdate_disjoint _ _ hnd' (by
        intro k hm
        simpa using hoc' k hm)]; rfl
    rw [hent, u2] at hto
    refine ⟨_, H, st3.refs, hto, ⟨⟨a + 1, ?_, ready.refs⟩, ?_⟩, ?_, ⟨_, _, shape⟩, ⟨a, d', rfl, hcell⟩, ?_, inv.refsKeys, fun k x hkx => sim.plainDict (hcont k x hkx)⟩
    · have hb : (Key.str "_references" == Key.str "object_class") = false := by decide
      obtain ⟨dr, r1, -, r3⟩ := ready.root
      rw [hcell] at r1; simp only [Option.some.injEq, Cell.dict.injEq] at r1; subst r1
      simp only [List.lookup, hb]; exact r3
    · refine ⟨fun k => (List.lookup k e).getD .none, ?_, ?_⟩
      · have he : e = (.str "object_class", .str c) :: s := hj.symm
        intro kv hm hke
        rcases List.mem_cons.1 hm with rfl | hm
        · rw [he]; simp; exact .atom
        · have := forall2_filter_reads (f := fun k => (List.lookup k e).getD .none) (p := fun k => decide (k ≠ .str "_references")) a2 (by
            intro kx hm hp
            rcases List.mem_append.1 hm with hm | hm
            · obtain ⟨j, b1, b2⟩ := f4 kx hm
              have hkm : kx.1 ∈ L.map (·.1) := List.mem_map.2 ⟨_, hm, rfl⟩
              have hl : List.lookup kx.1 e = some j := by
                have hb : (kx.1 == Key.str "object_class") = false := by simpa using hoc _ (f5 _ hkm)
                rw [he]
                simp only [List.lookup, hb]
                exact Dict.mem_lookup f1 b1
              simp only [hl, Option.getD_some]
              exact sim.reads (b2.mono hx)
            · simp at hm; subst hm; simp at hp) kv hm (by simpa using hke)
          exact this
      · have hfil : (((Key.str "object_class", SV.atom (V.str c)) :: d').filter fun kv => kv.1 ≠ .str "_references").map (·.1) =
            .str "object_class" :: L.map (·.1) := by
          have : ∀ l : List (Key × SV), (l.filter fun kv => kv.1 ≠ .str "_references").map (·.1) =
              (l.map (·.1)).filter fun k => k ≠ .str "_references" := by
            intro l; rw [List.filter_map]; rfl
          rw [this, List.map_cons, hkd, List.filter_cons_of_pos (by simp), List.map_append, List.filter_append,
            List.filter_eq_self.2 (by intro k hm; simpa using hnr k hm)]
          simp
        refine perm_lookup ?_ ?_
        · rw [← hj, List.map_cons, List.nodup_cons]
          exact ⟨fun hm => hoc _ (f6 _ hm) rfl, f1⟩
        · rw [hfil, ← hj, List.map_cons]; exact f3.cons _
    · intro kv hm
      obtain ⟨v, j, b1, b2, b3⟩ := inv.refsReads kv.1 kv.2 (Dict.mem_lookup inv.refsNodup hm)
      exact ⟨v, j, b1, b2, sim.reads (b3.mono hx)⟩
    · rw [List.map_cons, List.nodup_cons]
      exact ⟨fun hm => hoc' _ hm rfl, hnd'⟩

/-- **C13.** If the pointer-free serialization of an object is the dictionary `e`, then `to_dict()` succeeds, and its
result, each `{"$ref": "#/_references/id"}` being replaced with the value of `id` in its `_references`, reads as `e`; the
references are also the serialization of parts of the object.
Missing: the keys and attributes are strings without `/`, different from `$ref` (and `object_class` for attributes);
objects and measures which are equal are assumed to have the same serialization: see the theorems `C13_..._violated`.
The order of the keys is ignored. -/
theorem C13_partial (W : World) (same : V → V → Bool) (fuel : Nat) (c : String) (d : List (Key × V)) (e : List (Key × V))
    (hser : serialize W (.obj c d) = .ok (.dict e)) (hk : PlainKeys (.obj c d)) (hn : ∀ k ∈ keysOf d, AttrName k)
    (hs : ∀ u v, Occurs (.obj c d) u → Occurs (.obj c d) v → same u v = true → serialize W u = serialize W v) :
    ∃ R H refs, toDictP W same (fuel + 1) c d = .ok (R, H) ∧ ReadsDocument H R refs e ∧
      ∀ kv ∈ refs, ∃ v j, Occurs (.obj c d) v ∧ serialize W v = .ok j ∧ Reads H refs kv.2 j := by
  obtain ⟨R, H, refs, h1, h2, h3, -⟩ := toDictP_ok W same fuel c d e hser hk hn hs
  exact ⟨R, H, refs, h1, h2, h3⟩

/-- The classes of the examples.  Example only. -/
def emitWorld : World where
  info := fun c => if c = "m.S" then { initArgs := ["x"], standalone := true } else { initArgs := ["name", "x"] }
  kind := fun _ => some .generic
  resolve := fun _ => none

/-- `to_dict` in the examples.  Example only. -/
abbrev emitDemo (d : List (Key × V)) : Except PyErr (List (Key × SV) × Heap) :=
  toDictP emitWorld (emitSame emitWorld.toEnv demoHash) 5 "m.R" d

/-- One of the dictionaries and lists holds the string. -/
def HoldsStr (H : Heap) (s : String) : Prop := ∃ c ∈ H, ∃ v, SV.atom v ∈ c.values ∧ Occurs v (.str s)

/-- A string which is read is in one of the dictionaries and lists. -/
theorem Reads.holds {H refs x j s} (hrefs : Cell.dict refs ∈ H) (r : Reads H refs x j) (ho : Occurs j (.str s)) :
    (∃ v, x = .atom v ∧ Occurs v (.str s)) ∨ HoldsStr H s := by
  induction r with
  | atom => exact .inl ⟨_, rfl, ho⟩
  | ref h1 h2 h3 h4 ih =>
    rename_i a d k x j
    rcases ih ho with ⟨v, rfl, hv⟩ | h
    · exact .inr ⟨_, hrefs, v, List.mem_map.2 ⟨_, Dict.lookup_mem h3, rfl⟩, hv⟩
    · exact .inr h
  | dict h1 h2 h3 h4 ih =>
    rename_i a d e f
    cases ho with
    | dict hm ho =>
      obtain ⟨kv, hm', hkv⟩ := List.mem_map.1 (h4.mem_iff.2 hm)
      simp only [Prod.mk.injEq] at hkv
      rcases ih kv hm' (by rw [hkv.2]; exact ho) with ⟨v, hv, hv'⟩ | h
      · exact .inr ⟨_, List.mem_of_getElem? h1, v, List.mem_map.2 ⟨kv, hm', hv⟩, hv'⟩
      · exact .inr h
  | list h1 h2 h3 ih =>
    rename_i a l e
    cases ho with
    | list hm ho =>
      obtain ⟨i, hi⟩ := List.getElem?_of_mem hm
      have hlt := (List.getElem?_eq_some_iff.1 hi).1
      obtain ⟨x, hx⟩ : ∃ x, l[i]? = some x := ⟨_, List.getElem?_eq_getElem (by rw [h2]; exact hlt)⟩
      rcases ih i x _ hx hi ho with ⟨v, rfl, hv'⟩ | h
      · exact .inr ⟨_, List.mem_of_getElem? h1, v, List.mem_of_getElem? hx, hv'⟩
      · exact .inr h

/-- Same for a whole document. -/
theorem ReadsDocument.holds {H R refs e s} (r : ReadsDocument H R refs e) (ho : Occurs (.dict e) (.str s)) :
    (∃ kv ∈ R, ∃ v, kv.2 = .atom v ∧ Occurs v (.str s)) ∨ HoldsStr H s := by
  obtain ⟨rc, -, h2⟩ := r.references
  obtain ⟨f, h3, h4⟩ := r.reads
  cases ho with
  | dict hm ho =>
    obtain ⟨kv, hm', hkv⟩ := List.mem_map.1 (h4.mem_iff.2 hm)
    simp only [Prod.mk.injEq] at hkv
    obtain ⟨hm1, hm2⟩ := List.mem_filter.1 hm'
    rcases (h3 kv hm1 (by simpa using hm2)).holds (List.mem_of_getElem? h2) (by rw [hkv.2]; exact ho) with ⟨v, hv⟩ | h
    · exact .inl ⟨kv, hm1, v, hv⟩
    · exact .inr h

theorem occ_str {t s : String} (h : Occurs (.str t) (.str s)) : t = s := by cases h; rfl

theorem occ_int {i : Int} {s : String} : ¬ Occurs (.int i) (.str s) := by intro h; cases h

theorem occ_flt {q : Rat} {s : String} : ¬ Occurs (.flt q) (.str s) := by intro h; cases h

/-- **C13** is violated by the code: of two objects which only differ by their name, the second one is replaced with a
reference to the first one, and its name is lost. -/
theorem C13_names_violated : ∃ e R H, serialize emitWorld (.obj "m.R" [(.str "items", .list [mkA "first" (.int 1), mkA "second" (.int 1)])]) = .ok (.dict e) ∧
    emitDemo [(.str "items", .list [mkA "first" (.int 1), mkA "second" (.int 1)])] = .ok (R, H) ∧ ∀ refs, ¬ ReadsDocument H R refs e := by
  refine ⟨[(.str "object_class", .str "m.R"), (.str "items", .list [
      .dict [(.str "object_class", .str "m.A"), (.str "name", .str "first"), (.str "x", .int 1)],
      .dict [(.str "object_class", .str "m.A"), (.str "name", .str "second"), (.str "x", .int 1)]])],
    [(.str "object_class", .atom (.str "m.R")), (.str "items", .ptr 2), (.str "_references", .ptr 4)],
    [.dict [(.str "object_class", .atom (.str "m.A")), (.str "name", .atom (.str "first")), (.str "x", .atom (.int 1))],
     refCell 0, .list [.ptr 5, .ptr 1], .dict [(.str "items", .ptr 2), (.str "_references", .ptr 4)],
     .dict [(idKey 0, .ptr 0)], refCell 0], by rfl, by rfl, ?_⟩
  intro refs hd
  have hs := hd.holds (s := "second") (.dict (k := .str "items") (v := .list [
      .dict [(.str "object_class", .str "m.A"), (.str "name", .str "first"), (.str "x", .int 1)],
      .dict [(.str "object_class", .str "m.A"), (.str "name", .str "second"), (.str "x", .int 1)]]) (by simp)
    (.list (v := .dict [(.str "object_class", .str "m.A"), (.str "name", .str "second"), (.str "x", .int 1)]) (by simp)
      (.dict (k := .str "name") (v := .str "second") (by simp) .self)))
  rcases hs with ⟨kv, hm, v, hv, ho⟩ | ⟨c, hm, v, hv, ho⟩
  · simp only [List.mem_cons, List.not_mem_nil, or_false] at hm
    rcases hm with rfl | rfl | rfl <;> simp at hv
    subst hv; exact absurd (occ_str ho) (by decide)
  · simp only [List.mem_cons, List.not_mem_nil, or_false] at hm
    rcases hm with rfl | rfl | rfl | rfl | rfl | rfl <;> simp [Cell.values, refCell] at hv
    · rcases hv with rfl | rfl | rfl
      · exact absurd (occ_str ho) (by decide)
      · exact absurd (occ_str ho) (by decide)
      · exact occ_int ho
    · subst hv; exact absurd (occ_str ho) (by decide)
    · subst hv; exact absurd (occ_str ho) (by decide)

/-- **C13** is violated by the code: a duration equal, as a number, to a distance is replaced with a reference to the
distance. -/
theorem C13_measures_violated : ∃ e R H,
    serialize emitWorld (.obj "m.R" [(.str "d", .measure "u.Distance" 1), (.str "t", .measure "u.Time" 1)]) = .ok (.dict e) ∧
    emitDemo [(.str "d", .measure "u.Distance" 1), (.str "t", .measure "u.Time" 1)] = .ok (R, H) ∧
    ∀ refs, ¬ ReadsDocument H R refs e := by
  refine ⟨[(.str "object_class", .str "m.R"), (.str "d", .dict [(.str "object_class", .str "u.Distance"), (.str "value", .flt 1)]),
      (.str "t", .dict [(.str "object_class", .str "u.Time"), (.str "value", .flt 1)])],
    [(.str "object_class", .atom (.str "m.R")), (.str "d", .ptr 4), (.str "t", .ptr 1), (.str "_references", .ptr 3)],
    [.dict [(.str "object_class", .atom (.str "u.Distance")), (.str "value", .atom (.flt 1))],
     refCell 0, .dict [(.str "d", .ptr 4), (.str "t", .ptr 1), (.str "_references", .ptr 3)],
     .dict [(idKey 0, .ptr 0)], refCell 0], by rfl, by rfl, ?_⟩
  intro refs hd
  have hs := hd.holds (s := "u.Time") (.dict (k := .str "t")
    (v := .dict [(.str "object_class", .str "u.Time"), (.str "value", .flt 1)]) (by simp)
    (.dict (k := .str "object_class") (v := .str "u.Time") (by simp) .self))
  rcases hs with ⟨kv, hm, v, hv, ho⟩ | ⟨c, hm, v, hv, ho⟩
  · simp only [List.mem_cons, List.not_mem_nil, or_false] at hm
    rcases hm with rfl | rfl | rfl | rfl <;> simp at hv
    subst hv; exact absurd (occ_str ho) (by decide)
  · simp only [List.mem_cons, List.not_mem_nil, or_false] at hm
    rcases hm with rfl | rfl | rfl | rfl | rfl <;> simp [Cell.values, refCell] at hv
    · rcases hv with rfl | rfl
      · exact absurd (occ_str ho) (by decide)
      · exact occ_flt ho
    · subst hv; exact absurd (occ_str ho) (by decide)
    · subst hv; exact absurd (occ_str ho) (by decide)

/-- **C13** is violated by the code: an object shared by two dictionaries with integer keys is not replaced with a
reference where it is; the reference is added with a string key. -/
theorem C13_intKeys_violated : ∃ e R H,
    serialize emitWorld (.obj "m.R" [(.str "d", .dict [(.int 1, mkA "u" (.int 1))]), (.str "e", .dict [(.int 2, mkA "u" (.int 1))])]) = .ok (.dict e) ∧
    emitDemo [(.str "d", .dict [(.int 1, mkA "u" (.int 1))]), (.str "e", .dict [(.int 2, mkA "u" (.int 1))])] = .ok (R, H) ∧
    ∀ refs, ¬ ReadsDocument H R refs e := by
  refine ⟨[(.str "object_class", .str "m.R"),
      (.str "d", .dict [(.int 1, .dict [(.str "object_class", .str "m.A"), (.str "name", .str "u"), (.str "x", .int 1)])]),
      (.str "e", .dict [(.int 2, .dict [(.str "object_class", .str "m.A"), (.str "name", .str "u"), (.str "x", .int 1)])])],
    [(.str "object_class", .atom (.str "m.R")), (.str "d", .ptr 1), (.str "e", .ptr 3), (.str "_references", .ptr 5)],
    [.dict [(.str "object_class", .atom (.str "m.A")), (.str "name", .atom (.str "u")), (.str "x", .atom (.int 1))],
     .dict [(.int 1, .ptr 0), (.str "1", .ptr 6)], refCell 0, .dict [(.int 2, .ptr 2)],
     .dict [(.str "d", .ptr 1), (.str "e", .ptr 3), (.str "_references", .ptr 5)],
     .dict [(idKey 0, .ptr 0)], refCell 0], by rfl, by rfl, ?_⟩
  intro refs hd
  obtain ⟨f, h3, h4⟩ := hd.reads
  have hr := h3 (.str "d", .ptr 1) (by simp) (by simp)
  have hf : (Key.str "d", f (.str "d")) ∈ [(Key.str "object_class", V.str "m.R"),
      (.str "d", .dict [(.int 1, .dict [(.str "object_class", .str "m.A"), (.str "name", .str "u"), (.str "x", .int 1)])]),
      (.str "e", .dict [(.int 2, .dict [(.str "object_class", .str "m.A"), (.str "name", .str "u"), (.str "x", .int 1)])])] := by
    rw [← h4.mem_iff]
    exact List.mem_map.2 ⟨(.str "d", .ptr 1), List.mem_filter.2 ⟨by simp, by simp⟩, rfl⟩
  simp at hf
  simp only [hf] at hr
  cases hr with
  | ref g1 g2 => 
    simp at g1; subst g1
    rw [show List.lookup (Key.str "$ref") [(Key.int 1, SV.ptr 0), (.str "1", .ptr 6)] = none from rfl] at g2
    simp at g2
  | dict g1 g2 g3 g4 =>
    simp at g1; subst g1
    have := g4.length_eq
    simp at this

/-- **C13** is violated by the code: when a key of a dictionary has a slash, sharing the object it holds makes `to_dict`
fail, although the pointer-free serialization does not. -/
theorem C13_slash_violated :
    (∃ e, serialize emitWorld (.obj "m.R" [(.str "d", .dict [(.str "a/b", mkA "u" (.int 1)), (.str "c", mkA "u" (.int 1))])]) = .ok (.dict e)) ∧
    emitDemo [(.str "d", .dict [(.str "a/b", mkA "u" (.int 1)), (.str "c", mkA "u" (.int 1))])] = .error .extractionError :=
  ⟨⟨_, rfl⟩, rfl⟩

/-- **C13** is violated by the code: a list, even a list of numbers, cannot be serialized with pointers by
`serialize_with_pointers`, although `serialize` accepts it: whatever the list, the call fails. -/
theorem C13_list_violated (W : World) (same : V → V → Bool) (l : List V) (r : List SV × Heap) :
    serialize W (.list [.flt 1]) = .ok (.list [.flt 1]) ∧ listP W same l ≠ .ok r := by
  refine ⟨rfl, ?_⟩
  unfold listP
  split <;> simp

/-- **C13** is violated by the code: the dictionary which is the reference to an object of a standalone class may get an
other key, when the object holds a shared object. -/
theorem C13_extra_violated : ∃ R H d x y,
    emitDemo [(.str "s", .obj "m.S" [(.str "x", mkA "u" (.int 1))]), (.str "t", mkA "u" (.int 1))] = .ok (R, H) ∧
    H[2]? = some (.dict d) ∧ d.lookup (.str "$ref") = some x ∧ d.lookup (.str "x") = some y := by
  exact ⟨_, _, _, _, _, rfl, rfl, rfl, rfl⟩

mutual
/-- The values which occur in a value.  Examples only. -/
def parts : V → List V
  | .list l => .list l :: partsL l
  | .tuple l => .tuple l :: partsL l
  | .dict d => .dict d :: partsD d
  | .obj c d => .obj c d :: partsD d
  | v => [v]
/-- Same for the elements of a list.  Examples only. -/
def partsL : List V → List V
  | [] => []
  | v :: l => parts v ++ partsL l
/-- Same for the values of a dictionary.  Examples only. -/
def partsD : List (Key × V) → List V
  | [] => []
  | (_, v) :: d => parts v ++ partsD d
end

theorem mem_partsL {v : V} {l : List V} (h : v ∈ l) {w : V} (hw : w ∈ parts v) : w ∈ partsL l := by
  induction l with
  | nil => simp at h
  | cons x l ih =>
    rw [partsL, List.mem_append]
    rcases List.mem_cons.1 h with rfl | h
    · exact .inl hw
    · exact .inr (ih h)

theorem mem_partsD {k : Key} {v : V} {d : List (Key × V)} (h : (k, v) ∈ d) {w : V} (hw : w ∈ parts v) : w ∈ partsD d := by
  induction d with
  | nil => simp at h
  | cons x d ih =>
    obtain ⟨k', v'⟩ := x
    rw [partsD, List.mem_append]
    rcases List.mem_cons.1 h with h | h
    · simp only [Prod.mk.injEq] at h; rw [← h.2]; exact .inl hw
    · exact .inr (ih h)

theorem parts_of_occurs {v w : V} (h : Occurs v w) : w ∈ parts v := by
  induction h with
  | self => rename_i v; cases v <;> simp [parts]
  | list h1 _ ih => rw [parts]; exact List.mem_cons_of_mem _ (mem_partsL h1 ih)
  | tuple h1 _ ih => rw [parts]; exact List.mem_cons_of_mem _ (mem_partsL h1 ih)
  | dict h1 _ ih => rw [parts]; exact List.mem_cons_of_mem _ (mem_partsD h1 ih)
  | obj h1 _ ih => rw [parts]; exact List.mem_cons_of_mem _ (mem_partsD h1 ih)

/-- The attributes of an object with shared parts.  Example only. -/
def emitAttrs : List (Key × V) :=
  [(.str "a", mkA "u" (.int 1)), (.str "b", .list [mkA "u" (.int 1), .dict [(.str "k", mkA "u" (.int 1))]]),
   (.str "s", .obj "m.S" [(.str "x", mkA "v" (.int 2))])]

/-- The hypotheses of `C13_partial` hold for an object with an object shared by an attribute, a list and a dictionary,
and an object of a standalone class. -/
theorem emitAttrs_ok : (∃ e, serialize emitWorld (.obj "m.R" emitAttrs) = .ok (.dict e)) ∧ PlainKeys (.obj "m.R" emitAttrs) ∧
    (∀ k ∈ keysOf emitAttrs, AttrName k) ∧
    ∀ u v, Occurs (.obj "m.R" emitAttrs) u → Occurs (.obj "m.R" emitAttrs) v →
      emitSame emitWorld.toEnv demoHash u v = true → serialize emitWorld u = serialize emitWorld v := by
  have hp : ∀ s : String, '/' ∉ s.toList → s ≠ "$ref" → PlainKey (.str s) := fun s h h' => ⟨s, rfl, h, h'⟩
  refine ⟨⟨_, rfl⟩, ⟨?_, ?_⟩, ?_, ?_⟩
  · intro d h
    have := parts_of_occurs h
    simp [parts, partsL, partsD, emitAttrs, mkA] at this
    subst this
    refine ⟨by simp [keysOf], ?_⟩
    intro k hk
    simp [keysOf] at hk
    subst hk
    exact hp _ (by decide) (by decide)
  · intro c d h
    have := parts_of_occurs h
    simp [parts, partsL, partsD, emitAttrs, mkA] at this
    rcases this with ⟨rfl, rfl⟩ | ⟨rfl, rfl⟩ | ⟨rfl, rfl⟩ | ⟨rfl, rfl⟩
    all_goals
      refine ⟨by simp [keysOf], ?_⟩
      intro k hk
      simp [keysOf] at hk
      rcases hk with rfl | rfl | rfl <;> exact ⟨hp _ (by decide) (by decide), by decide⟩
  · intro k hk
    simp [keysOf, emitAttrs] at hk
    rcases hk with rfl | rfl | rfl <;> exact ⟨_, rfl, by decide, by decide⟩
  · intro u v hu hv hs
    have hu := parts_of_occurs hu
    have hv := parts_of_occurs hv
    simp [parts, partsL, partsD, emitAttrs, mkA] at hu hv
    rcases hu with rfl | rfl | rfl | rfl | rfl | rfl | rfl | rfl | rfl | rfl | rfl | rfl | rfl | rfl | rfl | rfl <;>
      rcases hv with rfl | rfl | rfl | rfl | rfl | rfl | rfl | rfl | rfl | rfl | rfl | rfl | rfl | rfl | rfl | rfl <;>
        first | rfl | exact absurd hs (by decide)

end DC
