import Verif.Checks.BsonSpec
import Verif.Values.SerializeLemmas
/- C18, C22: BSON validity and stringified keys. -/
namespace DC

/-! ### C22 -/

mutual
theorem strKeys_strung : (v : V) → KeysApart v → Strung v (strKeys v)
  | .list l, h => .list (strKeys_strungL l h)
  | .tuple l, h => .tuple (strKeys_strungL l h)
  | .dict d, h => by
    obtain ⟨e, h1, h2⟩ := strKeys_strungD d h.2
    rw [strKeys]
    have := h2 [] (by simpa using h.1)
    rw [this]
    exact .dict h1
  | .none, _ | .bool _, _ | .int _, _ | .flt _, _ | .measure _ _, _ | .str _, _ | .obj _ _, _ | .cls _, _
  | .file _ _ _, _ | .other _, _ => .leaf nofun nofun nofun
theorem strKeys_strungL : (l : List V) → KeysApartL l → StrungL l (strKeysL l)
  | [], _ => .nil
  | v :: vs, h => .cons (strKeys_strung v h.1) (strKeys_strungL vs h.2)
theorem strKeys_strungD : (d : List (Key × V)) → KeysApartD d → ∃ e, StrungD d e ∧
    ∀ acc : List (Key × V), (acc.map (fun kv => keyStr kv.1) ++ d.map (fun kv => keyStr kv.1)).Nodup →
      strKeysD acc d = acc ++ e
  | [], _ => ⟨[], .nil, fun acc _ => by simp [strKeysD]⟩
  | (k, v) :: rest, h => by
    obtain ⟨e, h1, h2⟩ := strKeys_strungD rest h.2
    refine ⟨(.str (keyStr k), strKeys v) :: e, .cons (strKeys_strung v h.1) h1, fun acc hn => ?_⟩
    rw [strKeysD, dictSet_new, h2]
    · simp
    · simpa [keyStr] using hn
    · intro hm
      obtain ⟨x, hx, he⟩ := List.mem_map.1 hm
      simp only [List.map_cons] at hn
      have := (List.nodup_append.1 hn).2.2 (keyStr x.1) (List.mem_map_of_mem hx) (keyStr k) (by simp)
      rw [he] at this
      exact this rfl
end

/-- **C22 (partial).** When the keys of each dictionary have distinct strings, `stringify_dict_keys` returns a value of
the same shape where each entry is kept, under the string of its key.
Missing: dictionaries with keys such as `1` and `"1"`, where the property is false (`C22_collision_violated`). -/
theorem C22_shape_partial (v : V) (h : KeysApart v) : Strung v (strKeys v) := strKeys_strung v h

/-- **C22 fails on colliding keys**: an entry is lost. -/
theorem C22_collision_violated :
    ∃ d e : List (Key × V), (keysOf d).Nodup ∧ strKeys (.dict d) = .dict e ∧ d.length = 2 ∧ e.length = 1 :=
  ⟨[(.int 1, .str "a"), (.str "1", .str "b")], [(.str "1", .str "b")], by decide, rfl, rfl, rfl⟩

/-- The value holds only string keys, distinct in each dictionary, and no tuple (objects apart). -/
inductive AllStr : V → Prop
  | leaf {v} : (∀ l, v ≠ .list l) → (∀ l, v ≠ .tuple l) → (∀ d, v ≠ .dict d) → AllStr v
  | list {l} : (∀ v ∈ l, AllStr v) → AllStr (.list l)
  | dict {d} : (∀ kv ∈ d, AllStr kv.2) → (∀ kv ∈ d, ∃ s, kv.1 = .str s) → (keysOf d).Nodup → AllStr (.dict d)

theorem dictSet_nodup {α : Type} {d : List (Key × α)} {k : Key} {v : α} (h : (d.map (·.1)).Nodup) :
    ((dictSet d k v).map (·.1)).Nodup ∧ ∀ x ∈ (dictSet d k v).map (·.1), x ∈ d.map (·.1) ∨ x = k := by
  induction d with
  | nil => simp [dictSet]
  | cons kv d ih =>
    obtain ⟨k', v'⟩ := kv
    rw [dictSet]
    simp only [List.map_cons, List.nodup_cons] at h
    split
    · rename_i he
      simp only [List.map_cons, List.nodup_cons]
      exact ⟨h, fun x hx => .inl hx⟩
    · rename_i he
      obtain ⟨i1, i2⟩ := ih h.2
      simp only [List.map_cons, List.nodup_cons]
      refine ⟨⟨fun hm => ?_, i1⟩, fun x hx => ?_⟩
      · rcases i2 _ hm with hm | rfl
        · exact h.1 hm
        · exact he rfl
      · rcases List.mem_cons.1 hx with rfl | hx
        · exact .inl (.head _)
        · rcases i2 _ hx with hx | rfl
          · exact .inl (.tail _ hx)
          · exact .inr rfl

theorem mem_keys_dictSet {α : Type} {d : List (Key × α)} {k : Key} {v : α} {x : Key × α} (h : x ∈ dictSet d k v) :
    (∃ y ∈ d, y.1 = x.1) ∨ x.1 = k := by
  induction d with
  | nil => simp [dictSet] at h; right; rw [h]
  | cons kv d ih =>
    obtain ⟨k', v'⟩ := kv
    rw [dictSet] at h
    split at h
    · rename_i he
      rcases List.mem_cons.1 h with h | h
      · right; rw [h, ← he]
      · left; exact ⟨x, .tail _ h, rfl⟩
    · rcases List.mem_cons.1 h with h | h
      · left; exact ⟨(k', v'), .head _, by rw [h]⟩
      · rcases ih h with ⟨y, hy, he⟩ | h
        · left; exact ⟨y, .tail _ hy, he⟩
        · right; exact h

mutual
theorem strKeys_allStr : (v : V) → AllStr (strKeys v)
  | .list l => .list (strKeys_allStrL l)
  | .tuple l => .list (strKeys_allStrL l)
  | .dict d => by
    rw [strKeys]
    obtain ⟨h1, h2, h3⟩ := strKeys_allStrD d [] (by simp) (by simp) (by simp [keysOf])
    exact .dict h1 h2 h3
  | .none | .bool _ | .int _ | .flt _ | .measure _ _ | .str _ | .obj _ _ | .cls _
  | .file _ _ _ | .other _ => .leaf nofun nofun nofun
theorem strKeys_allStrL : (l : List V) → ∀ v ∈ strKeysL l, AllStr v
  | [] => by simp [strKeysL]
  | v :: vs => by
    intro w hw
    rw [strKeysL] at hw
    rcases List.mem_cons.1 hw with e | hw
    · rw [e]; exact strKeys_allStr v
    · exact strKeys_allStrL vs w hw
theorem strKeys_allStrD : (d acc : List (Key × V)) → (∀ kv ∈ acc, AllStr kv.2) → (∀ kv ∈ acc, ∃ s, kv.1 = .str s) →
    (keysOf acc).Nodup → (∀ kv ∈ strKeysD acc d, AllStr kv.2) ∧ (∀ kv ∈ strKeysD acc d, ∃ s, kv.1 = .str s) ∧
      (keysOf (strKeysD acc d)).Nodup
  | [], acc, h1, h2, h3 => by rw [strKeysD]; exact ⟨h1, h2, h3⟩
  | (k, v) :: rest, acc, h1, h2, h3 => by
    rw [strKeysD]
    have hv := strKeys_allStr v
    apply strKeys_allStrD rest
    · intro kv hkv
      rcases mem_dictSet hkv with h | h
      · exact h1 kv h
      · rw [h]; exact hv
    · intro kv hkv
      rcases (dictSet_nodup h3).2 kv.1 (List.mem_map_of_mem hkv) with h | h
      · obtain ⟨kv', hm, he⟩ := List.mem_map.1 h
        obtain ⟨s, hs⟩ := h2 kv' hm
        exact ⟨s, by rw [← he, hs]⟩
      · exact ⟨_, h⟩
    · exact (dictSet_nodup h3).1
end

theorem strKeysD_id (d acc : List (Key × V)) (h : ∀ kv ∈ d, strKeys kv.2 = kv.2) (hs : ∀ kv ∈ d, ∃ s, kv.1 = .str s)
    (hn : (keysOf (acc ++ d)).Nodup) : strKeysD acc d = acc ++ d := by
  induction d generalizing acc with
  | nil => simp [strKeysD]
  | cons kv d ih =>
    obtain ⟨k, v⟩ := kv
    obtain ⟨s, hk⟩ := hs _ (.head _)
    simp only at hk
    subst hk
    rw [strKeysD, h _ (.head _), dictSet_new, ih]
    · simp [keyStr]
    · exact fun kv hkv => h kv (.tail _ hkv)
    · exact fun kv hkv => hs kv (.tail _ hkv)
    · simpa [keyStr] using hn
    · intro hm
      simp only [keysOf, List.map_append, List.map_cons, List.nodup_append] at hn
      exact hn.2.2 _ hm _ (.head _) rfl

theorem strKeys_id {v : V} (h : AllStr v) : strKeys v = v := by
  induction h with
  | @leaf v h1 h2 h3 =>
    cases v <;> first | rfl | exact absurd rfl (h1 _) | exact absurd rfl (h2 _) | exact absurd rfl (h3 _)
  | @list l _ ih =>
    rw [strKeys]
    congr 1
    clear * - ih
    induction l with
    | nil => rfl
    | cons v l ihl => rw [strKeysL, ih v (.head _), ihl (fun w hw => ih w (.tail _ hw))]
  | @dict d _ hs hn ih =>
    rw [strKeys, strKeysD_id d [] (fun kv hkv => ih kv hkv) hs (by simpa using hn)]
    rfl

/-- **C22.** Stringifying twice is stringifying once. -/
theorem C22_idempotent (v : V) : strKeys (strKeys v) = strKeys v := strKeys_id (strKeys_allStr v)

/-- **C22.** Whatever the input, no tuple and no key other than a string is left (objects apart, which are returned as
they are), and no dictionary has the same key twice. -/
theorem C22_string_keys (v x : V) (h : Occurs (strKeys v) x) :
    (∃ o c d, Occurs (strKeys v) o ∧ o = .obj c d ∧ Occurs o x) ∨
      ((∀ l, x ≠ .tuple l) ∧ ∀ d, x = .dict d → (keysOf d).Nodup ∧ ∀ k ∈ keysOf d, ∃ s, k = .str s) := by
  have main : ∀ w x, Occurs w x → AllStr w → (∃ o c d, Occurs w o ∧ o = .obj c d ∧ Occurs o x) ∨
      ((∀ l, x ≠ .tuple l) ∧ ∀ d, x = .dict d → (keysOf d).Nodup ∧ ∀ k ∈ keysOf d, ∃ s, k = .str s) := by
    intro w x hw
    induction hw with
    | @self v =>
      intro ha
      cases ha with
      | leaf h1 h2 h3 => exact .inr ⟨h2, fun d hd => absurd hd (h3 d)⟩
      | list h => exact .inr ⟨nofun, nofun⟩
      | dict h1 h2 h3 =>
        refine .inr ⟨nofun, fun d hd => ?_⟩
        cases hd
        refine ⟨h3, fun k hk => ?_⟩
        obtain ⟨kv, hkv, rfl⟩ := List.mem_map.1 hk
        exact h2 kv hkv
    | list hm _ ih =>
      intro ha
      cases ha with
      | leaf h1 h2 h3 => exact absurd rfl (h1 _)
      | list h =>
        rcases ih (h _ hm) with ⟨o, c, d, ho, he, hx⟩ | h
        · exact .inl ⟨o, c, d, .list hm ho, he, hx⟩
        · exact .inr h
    | tuple hm _ ih =>
      intro ha
      cases ha with
      | leaf h1 h2 h3 => exact absurd rfl (h2 _)
    | dict hm _ ih =>
      intro ha
      cases ha with
      | leaf h1 h2 h3 => exact absurd rfl (h3 _)
      | dict h =>
        rcases ih (h _ hm) with ⟨o, c, d, ho, he, hx⟩ | h
        · exact .inl ⟨o, c, d, .dict hm ho, he, hx⟩
        · exact .inr h
    | @obj c d k v x hm ho _ => exact fun _ => .inl ⟨_, c, d, .self, rfl, .obj hm ho⟩
  exact main _ _ h (strKeys_allStr v)

/-- Non-trivial instances. -/
example : KeysApart (.dict [(.int 1, .tuple [.dict [(.int 2, .none)]]), (.str "b", .str "x")]) := by
  simp only [KeysApart, KeysApartL, KeysApartD, and_self, and_true]; decide
example : strKeys (.dict [(.int 1, .tuple [.dict [(.int 2, .none)]]), (.str "b", .str "x")]) =
    .dict [(.str "1", .list [.dict [(.str "2", .none)]]), (.str "b", .str "x")] := rfl

/-! ### C18 -/

mutual
theorem bsonValid_iff (allow : Bool) : (v : V) → (bsonValid allow v = true ↔ ∀ x, Occurs v x → StorableHere allow x)
  | .list l => by
    rw [bsonValid, bsonValidL_iff allow l]
    constructor
    · intro h x hx
      cases hx with
      | self => trivial
      | list hm ho => exact h _ hm x ho
    · exact fun h v hv x hx => h x (.list hv hx)
  | .tuple l => by
    rw [bsonValid, bsonValidL_iff allow l]
    constructor
    · intro h x hx
      cases hx with
      | self => trivial
      | tuple hm ho => exact h _ hm x ho
    · exact fun h v hv x hx => h x (.tuple hv hx)
  | .dict d => by
    rw [bsonValid, bsonValidD_iff allow d]
    constructor
    · intro h x hx
      cases hx with
      | self =>
        intro kv hkv
        have := (h kv hkv).1
        cases hk : kv.1 with
        | str s => rw [hk] at this; exact .inl ⟨s, rfl, by simpa [bsonKey] using this⟩
        | int i => rw [hk] at this; exact .inr ⟨this, i, rfl⟩
      | dict hm ho => exact (h _ hm).2 x ho
    · intro h kv hkv
      refine ⟨?_, fun x hx => h x (.dict (k := kv.1) hkv hx)⟩
      rcases h _ .self kv hkv with ⟨s, hs, hd⟩ | ⟨ha, i, hi⟩
      · rw [hs]; simpa [bsonKey] using hd
      · rw [hi]; exact ha
  | .obj c d => by
    rw [bsonValid]
    exact ⟨nofun, fun h => (h _ .self).elim⟩
  | .cls c => by
    rw [bsonValid]
    exact ⟨nofun, fun h => (h _ .self).elim⟩
  | .file a b c => by
    rw [bsonValid]
    exact ⟨nofun, fun h => (h _ .self).elim⟩
  | .other c => by
    rw [bsonValid]
    exact ⟨nofun, fun h => (h _ .self).elim⟩
  | .none | .bool _ | .int _ | .flt _ | .measure _ _ | .str _ => by
    rw [bsonValid]
    refine ⟨fun _ x hx => ?_, fun _ => rfl⟩
    cases hx
    trivial
theorem bsonValidL_iff (allow : Bool) : (l : List V) →
    (bsonValidL allow l = true ↔ ∀ v ∈ l, ∀ x, Occurs v x → StorableHere allow x)
  | [] => by simp [bsonValidL]
  | v :: vs => by
    rw [bsonValidL, List.forall_mem_cons, ← bsonValid_iff allow v, ← bsonValidL_iff allow vs]
    split <;> simp_all
theorem bsonValidD_iff (allow : Bool) : (d : List (Key × V)) →
    (bsonValidD allow d = true ↔ ∀ kv ∈ d, bsonKey allow kv.1 = true ∧ ∀ x, Occurs kv.2 x → StorableHere allow x)
  | [] => by simp [bsonValidD]
  | (k, v) :: rest => by
    rw [bsonValidD, List.forall_mem_cons, ← bsonValidD_iff allow rest, ← bsonValid_iff allow v]
    split
    · split <;> simp_all
    · simp_all
end

/-- **C18.** `is_bson_valid(v)` accepts exactly the values which are storable at every depth. -/
theorem C18_exact (allow : Bool) (v : V) : bsonValid allow v = true ↔ ∀ x, Occurs v x → StorableHere allow x :=
  bsonValid_iff allow v

/-- **C18.** Allowing integer keys only accepts more. -/
theorem C18_mono (v : V) (h : bsonValid false v = true) : bsonValid true v = true := by
  rw [bsonValid_iff] at h ⊢
  intro x hx
  have := h x hx
  cases x <;> first | trivial | exact this.elim | skip
  intro kv hkv
  rcases this kv hkv with h | ⟨h, -⟩
  · exact .inl h
  · simp at h

example : bsonValid true (.dict [(.str "a", .list [.int 1, .dict [(.str "b", .none)]])]) = true := C18_mono _ (by decide)

/-- The digits of an integer hold no dot. -/
theorem int_noDot (i : Int) : '.' ∉ (toString i).toList := by
  have h : ∀ n : Nat, '.' ∉ n.repr.toList := by
    intro n hn
    rw [Nat.toList_repr] at hn
    have := Nat.isDigit_of_mem_toDigits (by decide) (by decide) hn
    exact absurd this (by decide)
  cases i with
  | ofNat n => exact h n
  | negSucc n =>
    show '.' ∉ ("-" ++ (n + 1).repr).toList
    rw [String.toList_append, List.mem_append]
    rintro (hm | hm)
    · exact absurd hm (by decide)
    · exact h _ hm

mutual
theorem strKeys_bson : (v : V) → bsonValid true v = true → bsonValid false (strKeys v) = true
  | .list l, h => by
    rw [bsonValid] at h; rw [strKeys, bsonValid]
    exact strKeys_bsonL l h
  | .tuple l, h => by
    rw [bsonValid] at h; rw [strKeys, bsonValid]
    exact strKeys_bsonL l h
  | .dict d, h => by
    rw [bsonValid] at h; rw [strKeys, bsonValid]
    exact strKeys_bsonD d [] rfl h
  | .none, _ | .bool _, _ | .int _, _ | .flt _, _ | .measure _ _, _ | .str _, _ => by rw [strKeys, bsonValid] <;> nofun
theorem strKeys_bsonL : (l : List V) → bsonValidL true l = true → bsonValidL false (strKeysL l) = true
  | [], _ => rfl
  | v :: vs, h => by
    rw [bsonValidL] at h
    split at h
    · rename_i hv
      rw [strKeysL, bsonValidL, if_pos (strKeys_bson v hv)]
      exact strKeys_bsonL vs h
    · simp at h
theorem strKeys_bsonD : (d acc : List (Key × V)) → bsonValidD false acc = true → bsonValidD true d = true →
    bsonValidD false (strKeysD acc d) = true
  | [], acc, ha, _ => by rw [strKeysD]; exact ha
  | (k, v) :: rest, acc, ha, h => by
    rw [bsonValidD] at h
    split at h
    · rename_i hk
      split at h
      · rename_i hv
        rw [strKeysD]
        refine strKeys_bsonD rest _ ?_ h
        rw [bsonValidD_iff] at ha ⊢
        intro kv hkv
        constructor
        · rcases mem_keys_dictSet hkv with ⟨kv', hm, he⟩ | he
          · rw [← he]; exact (ha kv' hm).1
          · rw [he]
            cases k with
            | str s => exact hk
            | int i => simpa [bsonKey, keyStr] using int_noDot i
        · rcases mem_dictSet hkv with hm | hm
          · exact (ha kv hm).2
          · rw [hm, ← bsonValid_iff]; exact strKeys_bson v hv
      · simp at h
    · simp at h
end

mutual
theorem strung_bson : {v w : V} → Strung v w → bsonValid false w = true → bsonValid true v = true
  | _, _, .leaf h1 h2 h3, h => C18_mono _ h
  | _, _, .list hl, h => by have h := h; simp only [bsonValid] at h; simp only [bsonValid]; exact strung_bsonL hl h
  | _, _, .tuple hl, h => by have h := h; simp only [bsonValid] at h; simp only [bsonValid]; exact strung_bsonL hl h
  | _, _, .dict hd, h => by have h := h; simp only [bsonValid] at h; simp only [bsonValid]; exact strung_bsonD hd h
theorem strung_bsonL : {l m : List V} → StrungL l m → bsonValidL false m = true → bsonValidL true l = true
  | _, _, .nil, _ => rfl
  | _, _, .cons hv hl, h => by
    rw [bsonValidL] at h ⊢
    split at h
    · rename_i hw
      rw [if_pos (strung_bson hv hw)]
      exact strung_bsonL hl h
    · simp at h
theorem strung_bsonD : {d e : List (Key × V)} → StrungD d e → bsonValidD false e = true → bsonValidD true d = true
  | _, _, .nil, _ => rfl
  | _, _, .cons (k := k) hv hd, h => by
    rw [bsonValidD] at h ⊢
    split at h
    · rename_i hk
      split at h
      · rename_i hw
        rw [if_pos, if_pos (strung_bson hv hw)]
        · exact strung_bsonD hd h
        · cases k with
          | str s => exact hk
          | int i => rfl
      · simp at h
    · simp at h
end

/-- **C74.** The BSON step of `check_platform` (stringify the keys, then validate with string keys only) accepts every
value that can be stored with integer keys, and, when no two keys collide, no other. -/
theorem C74_platform_bson (v : V) :
    ((∀ x, Occurs v x → StorableHere true x) → bsonValid false (strKeys v) = true) ∧
    (KeysApart v → bsonValid false (strKeys v) = true → ∀ x, Occurs v x → StorableHere true x) := by
  rw [← bsonValid_iff]
  exact ⟨strKeys_bson v, fun hk h => strung_bson (strKeys_strung v hk) h⟩

/-- The second part needs its hypothesis: a value which cannot be stored is accepted once the colliding key hides it. -/
theorem C74_hidden : ∃ v : V, bsonValid false (strKeys v) = true ∧ bsonValid true v = false :=
  ⟨.dict [(.int 1, .cls "C"), (.str "1", .none)], by decide +kernel, by decide +kernel⟩

example : bsonValid true (.dict [(.int 3, .list [.measure "m" 1, .none]), (.str "a", .dict [])]) = true ∧
    bsonValid false (.dict [(.int 3, .none)]) = false ∧ bsonValid true (.dict [(.str "a.b", .none)]) = false ∧
    bsonValid true (.list [.obj "C" []]) = false := by decide +kernel

end DC
