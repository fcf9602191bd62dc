import Verif.Values.EqualityProps
import Verif.Values.PathsLemmas
import Verif.Values.SerializeProps
/-
The order in which attributes and dictionary entries were set does not matter (C185): for equality, hash, saving and loading.
The definitions it is about are in Verif/Values/Equality.lean, Serialize.lean and Pointers.lean.
-/
namespace DC

/-! ### Specification -/

/-- The two values are the same, but for the order of the entries of dictionaries and of the attributes of objects. -/
inductive Alike : V → V → Prop
  | refl {v} : Alike v v
  | list {a b} : a.length = b.length → (∀ (i : Nat) x y, a[i]? = some x → b[i]? = some y → Alike x y) → Alike (.list a) (.list b)
  | tuple {a b} : a.length = b.length → (∀ (i : Nat) x y, a[i]? = some x → b[i]? = some y → Alike x y) → Alike (.tuple a) (.tuple b)
  | dict {a b} : (keysOf a).Nodup → (keysOf b).Nodup → (∀ k, k ∈ keysOf a ↔ k ∈ keysOf b) →
      (∀ k x y, a.lookup k = some x → b.lookup k = some y → Alike x y) → Alike (.dict a) (.dict b)
  | obj {c a b} : (keysOf a).Nodup → (keysOf b).Nodup → (∀ k, k ∈ keysOf a ↔ k ∈ keysOf b) →
      (∀ k x y, a.lookup k = some x → b.lookup k = some y → Alike x y) → Alike (.obj c a) (.obj c b)

/-! ### Helpers -/

theorem Alike.symm {v w : V} (h : Alike v w) : Alike w v := by
  induction h with
  | refl => exact .refl
  | list hl _ ih => exact .list hl.symm fun i x y hx hy => ih i y x hy hx
  | tuple hl _ ih => exact .tuple hl.symm fun i x y hx hy => ih i y x hy hx
  | dict h1 h2 h3 _ ih => exact .dict h2 h1 (fun k => (h3 k).symm) fun k x y hx hy => ih k y x hy hx
  | obj h1 h2 h3 _ ih => exact .obj h2 h1 (fun k => (h3 k).symm) fun k x y hx hy => ih k y x hy hx

/-- The entries are those of a reordered dictionary. -/
def AlikeD (a b : List (Key × V)) : Prop :=
  (keysOf a).Nodup ∧ (keysOf b).Nodup ∧ (∀ k, k ∈ keysOf a ↔ k ∈ keysOf b) ∧
    ∀ k x y, a.lookup k = some x → b.lookup k = some y → Alike x y

/-- The elements are alike, two by two. -/
def AlikeL (a b : List V) : Prop := a.length = b.length ∧ ∀ (i : Nat) x y, a[i]? = some x → b[i]? = some y → Alike x y

theorem alikeD_get {a b : List (Key × V)} (h : AlikeD a b) {k : Key} {x : V} (hx : a.lookup k = some x) : ∃ y, b.lookup k = some y ∧ Alike x y := by
  have : (b.lookup k).isSome := (lookup_isSome_iff _ _).2 ((h.2.2.1 k).1 ((lookup_isSome_iff _ _).1 (by rw [hx]; rfl)))
  obtain ⟨y, hy⟩ := Option.isSome_iff_exists.1 this
  exact ⟨y, hy, h.2.2.2 k x y hx hy⟩

theorem alikeD_none {a b : List (Key × V)} (h : AlikeD a b) {k : Key} (hx : a.lookup k = none) : b.lookup k = none := by
  by_contra hc
  have h1 : (b.lookup k).isSome := by cases hb : b.lookup k with
    | none => exact absurd hb hc
    | some y => rfl
  have h2 := (lookup_isSome_iff _ _).2 ((h.2.2.1 k).2 ((lookup_isSome_iff _ _).1 h1))
  rw [hx] at h2
  simp at h2

theorem alikeL_cons {x y : V} {a b : List V} : AlikeL (x :: a) (y :: b) ↔ Alike x y ∧ AlikeL a b := by
  constructor
  · rintro ⟨h1, h2⟩
    exact ⟨h2 0 x y rfl rfl, by simpa using h1, fun i u v hu hv => h2 (i + 1) u v hu hv⟩
  · rintro ⟨h1, h2, h3⟩
    refine ⟨by simpa using h2, fun i u v hu hv => ?_⟩
    cases i with
    | zero => simp at hu hv; rw [← hu, ← hv]; exact h1
    | succ i => exact h3 i u v hu hv

/-- Applying a function to the kept entries. -/
def mapKeep (keep : Key → Bool) (f : Key → V → Except PyErr V) : List (Key × V) → Except PyErr (List (Key × V))
  | [] => .ok []
  | (k, v) :: kvs =>
    if keep k then do
      let s ← f k v
      let r ← mapKeep keep f kvs
      .ok ((k, s) :: r)
    else mapKeep keep f kvs

/-- Applying a function to the elements and their positions. -/
def mapPos (f : Nat → V → Except PyErr V) : Nat → List V → Except PyErr (List V)
  | _, [] => .ok []
  | i, v :: vs => do
    let s ← f i v
    let r ← mapPos f (i + 1) vs
    .ok (s :: r)

theorem serializeD_map (W : World) (keep : Key → Bool) : ∀ d, serializeD W keep d = mapKeep keep (fun _ v => serialize W v) d
  | [] => rfl
  | (k, v) :: d => by rw [serializeD, mapKeep, serializeD_map W keep d]

theorem serializeL_map (W : World) : ∀ (l : List V) (i : Nat), serializeL W l = mapPos (fun _ v => serialize W v) i l
  | [], _ => rfl
  | v :: l, i => by rw [serializeL, mapPos, serializeL_map W l (i + 1)]

theorem deserD_map (W : World) (M : PMemo) (path : Path) (keep tup : Key → Bool) :
    ∀ d, deserD W M path keep tup d = mapKeep keep (fun k v => deser W M (path.key k) (tup k) v) d
  | [] => rfl
  | (k, v) :: d => by rw [deserD, mapKeep, deserD_map W M path keep tup d]

theorem deserL_map (W : World) (M : PMemo) (path : Path) : ∀ (l : List V) (i : Nat), deserL W M path i l = mapPos (fun i v => deser W M (path.idx i) false v) i l
  | [], _ => rfl
  | v :: l, i => by rw [deserL, mapPos, deserL_map W M path l (i + 1)]

theorem mapKeep_cons {keep : Key → Bool} {f : Key → V → Except PyErr V} {k : Key} {v : V} {d r : List (Key × V)} (hk : keep k = true) :
    mapKeep keep f ((k, v) :: d) = .ok r ↔ ∃ s r', f k v = .ok s ∧ mapKeep keep f d = .ok r' ∧ r = (k, s) :: r' := by
  rw [mapKeep, if_pos hk, bind_ok]
  constructor
  · rintro ⟨s, h1, h⟩
    rw [bind_ok] at h
    obtain ⟨r', h2, h⟩ := h
    simp only [Except.ok.injEq] at h
    exact ⟨s, r', h1, h2, h.symm⟩
  · rintro ⟨s, r', h1, h2, rfl⟩
    exact ⟨s, h1, by rw [bind_ok]; exact ⟨r', h2, rfl⟩⟩

theorem mapKeep_keys {keep : Key → Bool} {f : Key → V → Except PyErr V} : ∀ {d r : List (Key × V)}, mapKeep keep f d = .ok r →
    keysOf r = (keysOf d).filter keep
  | [], r, h => by simp only [mapKeep, Except.ok.injEq] at h; subst h; rfl
  | (k, v) :: d, r, h => by
    by_cases hk : keep k = true
    · obtain ⟨s, r', -, h2, rfl⟩ := (mapKeep_cons hk).1 h
      have := mapKeep_keys h2
      simp only [keysOf, List.map_cons, List.filter_cons, hk, if_true] at this ⊢
      rw [this]
    · rw [mapKeep, if_neg hk] at h
      have := mapKeep_keys h
      simp only [keysOf, List.map_cons, List.filter_cons, hk] at this ⊢
      exact this

theorem mapKeep_get {keep : Key → Bool} {f : Key → V → Except PyErr V} : ∀ {d r : List (Key × V)}, mapKeep keep f d = .ok r →
    ∀ {k v}, keep k = true → d.lookup k = some v → ∃ s, f k v = .ok s ∧ r.lookup k = some s
  | [], _, _, _, _, _, hv => by simp at hv
  | (k0, v0) :: d, r, h, k, v, hkeep, hv => by
    by_cases he : k = k0
    · subst he
      simp only [List.lookup_cons_self, Option.some.injEq] at hv
      subst hv
      obtain ⟨s, r', h1, -, rfl⟩ := (mapKeep_cons hkeep).1 h
      exact ⟨s, h1, by simp⟩
    · have hb : (k == k0) = false := by simpa using he
      rw [List.lookup_cons, hb] at hv
      by_cases hk : keep k0 = true
      · obtain ⟨s, r', -, h2, rfl⟩ := (mapKeep_cons hk).1 h
        obtain ⟨t, h3, h4⟩ := mapKeep_get h2 hkeep hv
        exact ⟨t, h3, by rw [List.lookup_cons, hb]; exact h4⟩
      · rw [mapKeep, if_neg hk] at h
        exact mapKeep_get h hkeep hv

theorem mapKeep_exists {keep : Key → Bool} {f : Key → V → Except PyErr V} : ∀ {d : List (Key × V)},
    (∀ k v, (k, v) ∈ d → keep k = true → ∃ s, f k v = .ok s) → ∃ r, mapKeep keep f d = .ok r
  | [], _ => ⟨[], rfl⟩
  | (k, v) :: d, h => by
    obtain ⟨r, hr⟩ := mapKeep_exists fun k v hm hk => h k v (.tail _ hm) hk
    by_cases hk : keep k = true
    · obtain ⟨s, hs⟩ := h k v (.head _) hk
      exact ⟨_, (mapKeep_cons hk).2 ⟨s, r, hs, hr, rfl⟩⟩
    · exact ⟨r, by rw [mapKeep, if_neg hk, hr]⟩

theorem mapKeep_alike {keep : Key → Bool} {f : Key → V → Except PyErr V} {a b r : List (Key × V)} (h : AlikeD a b)
    (ih : ∀ k x y s, a.lookup k = some x → b.lookup k = some y → f k x = .ok s → ∃ t, f k y = .ok t ∧ Alike s t)
    (hr : mapKeep keep f a = .ok r) : ∃ r', mapKeep keep f b = .ok r' ∧ AlikeD r r' := by
  obtain ⟨r', hr'⟩ : ∃ r', mapKeep keep f b = .ok r' := by
    refine mapKeep_exists fun k y hm hk => ?_
    have hy := lookup_of_mem h.2.1 hm
    have : (a.lookup k).isSome := (lookup_isSome_iff _ _).2 ((h.2.2.1 k).2 (List.mem_map.2 ⟨_, hm, rfl⟩))
    obtain ⟨x, hx⟩ := Option.isSome_iff_exists.1 this
    obtain ⟨s, hs, -⟩ := mapKeep_get hr hk hx
    obtain ⟨t, ht, -⟩ := ih k x y s hx hy hs
    exact ⟨t, ht⟩
  have k1 := mapKeep_keys hr
  have k2 := mapKeep_keys hr'
  refine ⟨r', hr', by rw [k1]; exact h.1.filter _, by rw [k2]; exact h.2.1.filter _, fun k => ?_, fun k s t hs ht => ?_⟩
  · rw [k1, k2, List.mem_filter, List.mem_filter, h.2.2.1 k]
  · have hm : k ∈ keysOf r := (lookup_isSome_iff _ _).1 (by rw [hs]; rfl)
    rw [k1, List.mem_filter] at hm
    obtain ⟨x, hx⟩ := Option.isSome_iff_exists.1 ((lookup_isSome_iff _ _).2 hm.1)
    obtain ⟨y, hy, -⟩ := alikeD_get h hx
    obtain ⟨s', h1, h2⟩ := mapKeep_get hr hm.2 hx
    obtain ⟨t', h3, h4⟩ := mapKeep_get hr' hm.2 hy
    rw [hs] at h2
    rw [ht] at h4
    cases h2
    cases h4
    obtain ⟨t'', h5, h6⟩ := ih k x y s hx hy h1
    rw [h3] at h5
    cases h5
    exact h6

theorem mapPos_alike {f : Nat → V → Except PyErr V} : ∀ {a b r : List V} {n : Nat}, AlikeL a b →
    (∀ (i : Nat) x y s, a[i]? = some x → b[i]? = some y → f (n + i) x = .ok s → ∃ t, f (n + i) y = .ok t ∧ Alike s t) →
    mapPos f n a = .ok r → ∃ r', mapPos f n b = .ok r' ∧ AlikeL r r'
  | [], [], r, n, _, _, h => by
    simp only [mapPos, Except.ok.injEq] at h
    exact ⟨[], rfl, by rw [← h]; exact ⟨rfl, fun i x y hx => by simp at hx⟩⟩
  | [], _ :: _, _, _, h, _, _ => by simp [AlikeL] at h
  | _ :: _, [], _, _, h, _, _ => by simp [AlikeL] at h
  | x :: a, y :: b, r, n, h, ih, hr => by
    obtain ⟨h1, h2⟩ := alikeL_cons.1 h
    rw [mapPos, bind_ok] at hr
    obtain ⟨s, hs, hr⟩ := hr
    rw [bind_ok] at hr
    obtain ⟨r₀, hr₀, hr⟩ := hr
    simp only [Except.ok.injEq] at hr
    subst hr
    obtain ⟨t, ht, hst⟩ := ih 0 x y s rfl rfl hs
    obtain ⟨r', h3, h4⟩ := mapPos_alike (n := n + 1) h2 (fun i u v s hu hv hs => by
      have := ih (i + 1) u v s hu hv
      rw [show n + (i + 1) = n + 1 + i by omega] at this
      exact this hs) hr₀
    refine ⟨t :: r', ?_, alikeL_cons.2 ⟨hst, h4⟩⟩
    rw [mapPos, bind_ok]
    exact ⟨t, ht, by rw [bind_ok]; exact ⟨r', h3, rfl⟩⟩

/-! ### Saving -/

theorem keysOf_set_nodup {d : List (Key × V)} {k : Key} {x : V} (h : (keysOf d).Nodup) : (keysOf (dictSet d k x)).Nodup := by
  induction d with
  | nil => simp [dictSet, keysOf]
  | cons kv d ih =>
    obtain ⟨k', v⟩ := kv
    simp only [keysOf, List.map_cons, List.nodup_cons] at h
    rw [dictSet]
    split
    · rename_i he
      subst he
      simp only [keysOf, List.map_cons, List.nodup_cons]
      exact h
    · rename_i he
      simp only [keysOf, List.map_cons, List.nodup_cons]
      refine ⟨fun hm => ?_, ih h.2⟩
      have h1 := (lookup_isSome_iff _ _).2 (show k' ∈ keysOf (dictSet d k x) from hm)
      rw [lookup_dictSet_ne _ _ _ _ he] at h1
      exact h.1 ((lookup_isSome_iff _ _).1 h1)

theorem lookup_dictUpdate {e : List (Key × V)} : ∀ {d : List (Key × V)}, (keysOf e).Nodup → ∀ k, (dictUpdate d e).lookup k = (e.lookup k).or (d.lookup k) := by
  induction e with
  | nil => intro d _ k; rfl
  | cons kv e ih =>
    intro d h k
    obtain ⟨k0, v0⟩ := kv
    simp only [keysOf, List.map_cons, List.nodup_cons] at h
    have : dictUpdate d ((k0, v0) :: e) = dictUpdate (dictSet d k0 v0) e := rfl
    rw [this, ih h.2 k]
    by_cases hk : k = k0
    · subst hk
      have : e.lookup k = none := by
        by_contra hc
        refine h.1 ((lookup_isSome_iff _ _).1 ?_)
        cases he : e.lookup k with
        | none => exact absurd he hc
        | some _ => rfl
      rw [this, lookup_dictSet_self]
      simp
    · have hb : (k == k0) = false := by simpa using hk
      rw [lookup_dictSet_ne _ _ _ _ hk, List.lookup_cons, hb]

theorem nodup_dictUpdate {e : List (Key × V)} : ∀ {d : List (Key × V)}, (keysOf d).Nodup → (keysOf (dictUpdate d e)).Nodup := by
  induction e with
  | nil => intro d h; exact h
  | cons kv e ih => intro d h; exact ih (keysOf_set_nodup h)

theorem alikeD_update {a b d : List (Key × V)} (h : AlikeD a b) (hd : (keysOf d).Nodup) : AlikeD (dictUpdate d a) (dictUpdate d b) := by
  have key : ∀ k, (a.lookup k = none ∧ b.lookup k = none) ∨ ∃ x y, a.lookup k = some x ∧ b.lookup k = some y ∧ Alike x y := by
    intro k
    cases hx : a.lookup k with
    | none => exact .inl ⟨rfl, alikeD_none h hx⟩
    | some x =>
      obtain ⟨y, hy, hxy⟩ := alikeD_get h hx
      exact .inr ⟨x, y, rfl, hy, hxy⟩
  refine ⟨nodup_dictUpdate hd, nodup_dictUpdate hd, fun k => ?_, fun k x y hx hy => ?_⟩
  · rw [← lookup_isSome_iff, ← lookup_isSome_iff, lookup_dictUpdate h.1, lookup_dictUpdate h.2.1]
    rcases key k with ⟨h1, h2⟩ | ⟨x, y, h1, h2, -⟩ <;> simp [h1, h2]
  · rw [lookup_dictUpdate h.1] at hx
    rw [lookup_dictUpdate h.2.1] at hy
    rcases key k with ⟨h1, h2⟩ | ⟨x', y', h1, h2, h3⟩
    · rw [h1] at hx
      rw [h2] at hy
      simp only [Option.none_or] at hx hy
      rw [hx] at hy
      cases hy
      exact .refl
    · rw [h1] at hx
      rw [h2] at hy
      simp only [Option.some_or, Option.some.injEq] at hx hy
      rw [← hx, ← hy]
      exact h3

theorem serialize_alike (W : World) {v w : V} (h : Alike v w) : ∀ {s}, serialize W v = .ok s → ∃ t, serialize W w = .ok t ∧ Alike s t := by
  induction h with
  | refl => exact fun hs => ⟨_, hs, .refl⟩
  | list hl he ih =>
    intro s hs
    rw [serialize, serializeL_map W _ 0, bind_ok] at hs
    obtain ⟨r, hr, hs⟩ := hs
    simp only [Except.ok.injEq] at hs
    obtain ⟨r', h1, h2, h3⟩ := mapPos_alike ⟨hl, he⟩ (fun i x y s hx hy h => ih i x y hx hy h) hr
    refine ⟨.list r', ?_, by rw [← hs]; exact .list h2 h3⟩
    rw [serialize, serializeL_map W _ 0, bind_ok]
    exact ⟨r', h1, rfl⟩
  | tuple hl he ih =>
    intro s hs
    rw [serialize, serializeL_map W _ 0, bind_ok] at hs
    obtain ⟨r, hr, hs⟩ := hs
    simp only [Except.ok.injEq] at hs
    obtain ⟨r', h1, h2, h3⟩ := mapPos_alike ⟨hl, he⟩ (fun i x y s hx hy h => ih i x y hx hy h) hr
    refine ⟨.list r', ?_, by rw [← hs]; exact .list h2 h3⟩
    rw [serialize, serializeL_map W _ 0, bind_ok]
    exact ⟨r', h1, rfl⟩
  | dict h1 h2 h3 h4 ih =>
    intro s hs
    rw [serialize, serializeD_map, bind_ok] at hs
    obtain ⟨r, hr, hs⟩ := hs
    simp only [Except.ok.injEq] at hs
    obtain ⟨r', e1, e2, e3, e4, e5⟩ := mapKeep_alike ⟨h1, h2, h3, h4⟩ (fun k x y s hx hy h => ih k x y hx hy h) hr
    refine ⟨.dict r', ?_, by rw [← hs]; exact .dict e2 e3 e4 e5⟩
    rw [serialize, serializeD_map, bind_ok]
    exact ⟨r', e1, rfl⟩
  | @obj c a b h1 h2 h3 h4 ih =>
    intro s hs
    rw [serialize, serializeD_map, bind_ok] at hs
    obtain ⟨r, hr, hs⟩ := hs
    simp only [Except.ok.injEq] at hs
    obtain ⟨r', e1, e2⟩ := mapKeep_alike ⟨h1, h2, h3, h4⟩ (fun k x y s hx hy h => ih k x y hx hy h) hr
    obtain ⟨f1, f2, f3, f4⟩ := alikeD_update (d := [(.str "object_class", .str c)]) e2 (by simp [keysOf])
    refine ⟨.dict (dictUpdate [(.str "object_class", .str c)] r'), ?_, by rw [← hs]; exact .dict f1 f2 f3 f4⟩
    rw [serialize, serializeD_map, bind_ok]
    exact ⟨r', e1, rfl⟩

/-! ### Loading -/

theorem alike_inv {x y : V} (h : Alike x y) : x = y ∨ (∃ a b, x = .list a ∧ y = .list b) ∨ (∃ a b, x = .tuple a ∧ y = .tuple b) ∨
    (∃ a b, x = .dict a ∧ y = .dict b) ∨ ∃ c a b, x = .obj c a ∧ y = .obj c b := by
  cases h with
  | refl => exact .inl rfl
  | list => exact .inr (.inl ⟨_, _, rfl, rfl⟩)
  | tuple => exact .inr (.inr (.inl ⟨_, _, rfl, rfl⟩))
  | dict => exact .inr (.inr (.inr (.inl ⟨_, _, rfl, rfl⟩)))
  | obj => exact .inr (.inr (.inr (.inr ⟨_, _, _, rfl, rfl⟩)))

theorem alike_str {s : String} {y : V} (h : Alike (.str s) y) : y = .str s := by
  rcases alike_inv h with h | ⟨_, _, h, _⟩ | ⟨_, _, h, _⟩ | ⟨_, _, h, _⟩ | ⟨_, _, _, h, _⟩
  · exact h.symm
  all_goals simp at h

theorem measureFrom_alike {c : String} {a b : List (Key × V)} {v : V} (h : AlikeD a b) (hv : measureFrom c a = .ok v) : measureFrom c b = .ok v := by
  unfold measureFrom at hv
  cases hx : a.lookup (.str "value") with
  | none => rw [hx] at hv; simp at hv
  | some x =>
    obtain ⟨y, hy, hxy⟩ := alikeD_get h hx
    rw [hx] at hv
    unfold measureFrom
    rw [hy]
    rcases alike_inv hxy with h | ⟨_, _, h, _⟩ | ⟨_, _, h, _⟩ | ⟨_, _, h, _⟩ | ⟨_, _, _, h, _⟩
    · rw [← h]; exact hv
    all_goals subst h; simp at hv

theorem construct_alike {D : List (String × V)} {s t : List (Key × V)} (h : AlikeD s t) : ∀ {args : List String} {o : List (Key × V)}, args.Nodup →
    construct D s args = .ok o → ∃ o', construct D t args = .ok o' ∧ keysOf o = args.map .str ∧ keysOf o' = args.map .str ∧
      ∀ k x y, o.lookup k = some x → o'.lookup k = some y → Alike x y
  | [], o, _, ho => by
    simp only [construct, Except.ok.injEq] at ho
    subst ho
    exact ⟨[], rfl, rfl, rfl, fun k x y hx => by simp at hx⟩
  | a :: args, o, hn, ho => by
    simp only [List.nodup_cons] at hn
    rw [construct] at ho
    have step : ∀ {x y : V} {r : List (Key × V)}, Alike x y → construct D s args = .ok r → o = (.str a, x) :: r →
        (∀ r', construct D t args = .ok r' → construct D t (a :: args) = .ok ((.str a, y) :: r')) →
        ∃ o', construct D t (a :: args) = .ok o' ∧ keysOf o = (a :: args).map .str ∧ keysOf o' = (a :: args).map .str ∧
          ∀ k x y, o.lookup k = some x → o'.lookup k = some y → Alike x y := by
      intro x y r hxy hr ho hc
      obtain ⟨r', h1, h2, h3, h4⟩ := construct_alike h hn.2 hr
      refine ⟨_, hc r' h1, by rw [ho]; simp only [keysOf, List.map_cons, List.cons.injEq, true_and]; exact h2, by
        simp only [keysOf, List.map_cons, List.cons.injEq, true_and]; exact h3, fun k u v hu hv => ?_⟩
      rw [ho, List.lookup_cons] at hu
      rw [List.lookup_cons] at hv
      by_cases hk : k = .str a
      · subst hk
        simp only [beq_self_eq_true, Option.some.injEq] at hu hv
        rw [← hu, ← hv]
        exact hxy
      · have hb : (k == Key.str a) = false := by simpa using hk
        rw [hb] at hu hv
        exact h4 k u v hu hv
    cases hx : s.lookup (.str a) with
    | some x =>
      rw [hx] at ho
      dsimp only at ho
      rw [bind_ok] at ho
      obtain ⟨r, hr, ho⟩ := ho
      simp only [Except.ok.injEq] at ho
      obtain ⟨y, hy, hxy⟩ := alikeD_get h hx
      exact step hxy hr ho.symm fun r' hr' => by rw [construct, hy]; dsimp only; rw [hr']; rfl
    | none =>
      rw [hx] at ho
      dsimp only at ho
      have hy := alikeD_none h hx
      cases hd : D.lookup a with
      | none => rw [hd] at ho; simp at ho
      | some x =>
        rw [hd] at ho
        dsimp only at ho
        rw [bind_ok] at ho
        obtain ⟨r, hr, ho⟩ := ho
        simp only [Except.ok.injEq] at ho
        exact step .refl hr ho.symm fun r' hr' => by rw [construct, hy]; dsimp only; rw [hd]; dsimp only; rw [hr']; rfl

theorem deser_alike (W : World) (hargs : ∀ c, (W.info c).initArgs.Nodup) {s t : V} (h : Alike s t) : ∀ {path : Path} {tup : Bool} {v : V},
    deser W [] path tup s = .ok v → ∃ w, deser W [] path tup t = .ok w ∧ Alike v w := by
  induction h with
  | refl => exact fun hv => ⟨_, hv, .refl⟩
  | list hl he ih =>
    intro path tup v hv
    simp only [deser, List.lookup_nil] at hv ⊢
    rw [deserL_map, bind_ok] at hv
    obtain ⟨r, hr, hv⟩ := hv
    simp only [Except.ok.injEq] at hv
    obtain ⟨r', h1, h2, h3⟩ := mapPos_alike ⟨hl, he⟩ (fun i x y s hx hy h => ih i x y hx hy h) hr
    refine ⟨if tup then .tuple r' else .list r', by rw [deserL_map, bind_ok]; exact ⟨r', h1, rfl⟩, ?_⟩
    rw [← hv]
    cases tup
    · exact .list h2 h3
    · exact .tuple h2 h3
  | tuple hl he ih =>
    intro path tup v hv
    simp only [deser, List.lookup_nil] at hv ⊢
    rw [deserL_map, bind_ok] at hv
    obtain ⟨r, hr, hv⟩ := hv
    simp only [Except.ok.injEq] at hv
    obtain ⟨r', h1, h2, h3⟩ := mapPos_alike ⟨hl, he⟩ (fun i x y s hx hy h => ih i x y hx hy h) hr
    refine ⟨if tup then .tuple r' else .list r', by rw [deserL_map, bind_ok]; exact ⟨r', h1, rfl⟩, ?_⟩
    rw [← hv]
    cases tup
    · exact .list h2 h3
    · exact .tuple h2 h3
  | @obj c a b h1 h2 h3 h4 ih =>
    intro path tup v hv
    simp only [deser, List.lookup_nil, Except.ok.injEq] at hv ⊢
    exact ⟨_, rfl, by rw [← hv]; exact .obj h1 h2 h3 h4⟩
  | @dict a b h1 h2 h3 h4 ih =>
    intro path tup v hv
    have hD : AlikeD a b := ⟨h1, h2, h3, h4⟩
    simp only [deser, List.lookup_nil] at hv ⊢
    cases hr : a.lookup (.str "$ref") with
    | some r => rw [hr] at hv; cases r <;> simp at hv
    | none =>
      rw [hr] at hv
      rw [alikeD_none hD hr]
      dsimp only at hv ⊢
      cases hc : a.lookup (.str "object_class") with
      | none =>
        rw [hc] at hv
        rw [alikeD_none hD hc]
        dsimp only at hv ⊢
        rw [deserD_map, bind_ok] at hv
        obtain ⟨r, hr, hv⟩ := hv
        simp only [Except.ok.injEq] at hv
        obtain ⟨r', e1, e2, e3, e4, e5⟩ := mapKeep_alike (f := fun k v => deser W [] (path.key k) false v) hD
          (fun k x y s hx hy h => ih k x y hx hy h) hr
        exact ⟨.dict r', by rw [deserD_map, bind_ok]; exact ⟨r', e1, rfl⟩, by rw [← hv]; exact .dict e2 e3 e4 e5⟩
      | some x =>
        rw [hc] at hv
        obtain ⟨y, hy, hxy⟩ := alikeD_get hD hc
        rw [hy]
        cases x with
        | str c =>
          have := alike_str hxy
          subst this
          dsimp only at hv ⊢
          cases hk : W.kind c with
          | none => rw [hk] at hv; simp at hv
          | some kd =>
            rw [hk] at hv
            cases kd with
            | measure => exact ⟨v, measureFrom_alike hD hv, .refl⟩
            | plain =>
              dsimp only at hv
              rw [bind_ok] at hv
              obtain ⟨_, _, hv⟩ := hv
              simp at hv
            | generic =>
              dsimp only at hv ⊢
              rw [deserD_map, bind_ok] at hv
              obtain ⟨r, hr, hv⟩ := hv
              rw [bind_ok] at hv
              obtain ⟨o, ho, hv⟩ := hv
              simp only [Except.ok.injEq] at hv
              obtain ⟨r', e1, e2⟩ := mapKeep_alike (f := fun k v => deser W [] (path.key k) (tupleArg W.toEnv c k) v) hD
                (fun k x y s hx hy h => ih k x y hx hy h) hr
              obtain ⟨o', f1, f2, f3, f4⟩ := construct_alike e2 (hargs c) ho
              refine ⟨.obj c o', ?_, ?_⟩
              · rw [deserD_map, bind_ok]
                exact ⟨r', e1, by rw [bind_ok]; exact ⟨o', f1, rfl⟩⟩
              · have hn : (((W.info c).initArgs).map Key.str).Nodup := (hargs c).map fun a b h => by simpa using h
                rw [← hv]
                exact .obj (by rw [f2]; exact hn) (by rw [f3]; exact hn) (fun k => by rw [f2, f3]) f4
        | _ => simp at hv

theorem findRefsD_nil {path : Path} : ∀ {d : List (Key × V)}, findRefsD path d = .ok [] ↔ ∀ kv ∈ d, isBase kv.2 = true ∨ findRefs (path.key kv.1) kv.2 = .ok []
  | [] => by simp [findRefsD]
  | (k, v) :: d => by
    rw [findRefsD]
    by_cases hb : isBase v = true
    · rw [if_pos hb, findRefsD_nil]
      constructor
      · intro h kv hkv
        rcases List.mem_cons.1 hkv with rfl | hkv
        · exact .inl hb
        · exact h kv hkv
      · exact fun h kv hkv => h kv (.tail _ hkv)
    · rw [if_neg hb, bind_ok]
      constructor
      · rintro ⟨r, h1, h⟩ kv hkv
        rw [bind_ok] at h
        obtain ⟨rs, h2, h⟩ := h
        simp only [Except.ok.injEq, List.append_eq_nil_iff] at h
        obtain ⟨rfl, rfl⟩ := h
        rcases List.mem_cons.1 hkv with rfl | hkv
        · exact .inr h1
        · exact findRefsD_nil.1 h2 kv hkv
      · intro h
        refine ⟨[], (h (k, v) (.head _)).resolve_left hb, ?_⟩
        rw [bind_ok]
        exact ⟨[], findRefsD_nil.2 fun kv hkv => h kv (.tail _ hkv), rfl⟩

theorem findRefsL_nil {path : Path} : ∀ {l : List V} {n : Nat}, findRefsL path n l = .ok [] ↔ ∀ (i : Nat) x, l[i]? = some x → findRefs (path.idx (n + i)) x = .ok []
  | [], n => by simp [findRefsL]
  | v :: l, n => by
    rw [findRefsL, bind_ok]
    constructor
    · rintro ⟨r, h1, h⟩ i x hx
      rw [bind_ok] at h
      obtain ⟨rs, h2, h⟩ := h
      simp only [Except.ok.injEq, List.append_eq_nil_iff] at h
      obtain ⟨rfl, rfl⟩ := h
      cases i with
      | zero => simp at hx; subst hx; exact h1
      | succ i =>
        have := findRefsL_nil.1 h2 i x hx
        rwa [show n + 1 + i = n + (i + 1) by omega] at this
    · intro h
      refine ⟨[], h 0 v rfl, ?_⟩
      rw [bind_ok]
      refine ⟨[], findRefsL_nil.2 fun i x hx => ?_, rfl⟩
      have := h (i + 1) x hx
      rwa [show n + (i + 1) = n + 1 + i by omega] at this

theorem findRefs_alike {s t : V} (h : Alike s t) : ∀ {path : Path}, findRefs path s = .ok [] → findRefs path t = .ok [] := by
  have base : ∀ {x y : V}, Alike x y → isBase x = isBase y := by
    intro x y h
    cases h <;> rfl
  induction h with
  | refl => exact fun h => h
  | list hl he ih =>
    intro path h
    simp only [findRefs] at h ⊢
    rw [findRefsL_nil] at h ⊢
    intro i y hy
    have hlt := (List.getElem?_eq_some_iff.1 hy).1
    rw [← hl] at hlt
    exact ih i _ y (List.getElem?_eq_getElem hlt) hy (h i _ (List.getElem?_eq_getElem hlt))
  | tuple hl he ih =>
    intro path h
    simp only [findRefs] at h ⊢
    rw [findRefsL_nil] at h ⊢
    intro i y hy
    have hlt := (List.getElem?_eq_some_iff.1 hy).1
    rw [← hl] at hlt
    exact ih i _ y (List.getElem?_eq_getElem hlt) hy (h i _ (List.getElem?_eq_getElem hlt))
  | obj => exact fun _ => by simp [findRefs]
  | @dict a b h1 h2 h3 h4 ih =>
    intro path h
    have hD : AlikeD a b := ⟨h1, h2, h3, h4⟩
    simp only [findRefs] at h ⊢
    cases hr : a.lookup (.str "$ref") with
    | some r => rw [hr] at h; simp at h
    | none =>
      rw [hr] at h
      rw [alikeD_none hD hr]
      dsimp only at h ⊢
      rw [findRefsD_nil] at h ⊢
      rintro ⟨k, y⟩ hkv
      have hy := lookup_of_mem h2 hkv
      have : (a.lookup k).isSome := (lookup_isSome_iff _ _).2 ((h3 k).2 (List.mem_map.2 ⟨_, hkv, rfl⟩))
      obtain ⟨x, hx⟩ := Option.isSome_iff_exists.1 this
      rcases h (k, x) (lookup_some_mem hx) with hb | hb
      · exact .inl (by rw [← base (h4 k x y hx hy)]; exact hb)
      · exact .inr (ih k x y hx hy hb)

/-! ### Equality -/

theorem alike_wf {v w : V} (h : Alike v w) : WF v → WF w := by
  induction h with
  | refl => exact id
  | list hl he ih =>
    intro hv
    simp only [WF, WFL_iff] at hv ⊢
    intro y hy
    obtain ⟨i, hi⟩ := List.mem_iff_getElem?.1 hy
    have hlt := (List.getElem?_eq_some_iff.1 hi).1
    rw [← hl] at hlt
    exact ih i _ y (List.getElem?_eq_getElem hlt) hi (hv _ (List.getElem_mem hlt))
  | tuple hl he ih =>
    intro hv
    simp only [WF, WFL_iff] at hv ⊢
    intro y hy
    obtain ⟨i, hi⟩ := List.mem_iff_getElem?.1 hy
    have hlt := (List.getElem?_eq_some_iff.1 hi).1
    rw [← hl] at hlt
    exact ih i _ y (List.getElem?_eq_getElem hlt) hi (hv _ (List.getElem_mem hlt))
  | dict h1 h2 h3 h4 ih =>
    intro hv
    simp only [WF, WFD_iff] at hv ⊢
    refine ⟨h2, fun kv hkv => ?_⟩
    have hy := lookup_of_mem h2 (show (kv.1, kv.2) ∈ _ from hkv)
    obtain ⟨x, hx, -⟩ := alikeD_get (a := _) (b := _) ⟨h2, h1, fun k => (h3 k).symm, fun k x y hx hy => (h4 k y x hy hx).symm⟩ hy
    exact ih kv.1 x kv.2 hx hy (hv.2 _ (lookup_some_mem hx))
  | obj h1 h2 h3 h4 ih =>
    intro hv
    simp only [WF, WFD_iff] at hv ⊢
    refine ⟨h2, fun kv hkv => ?_⟩
    have hy := lookup_of_mem h2 (show (kv.1, kv.2) ∈ _ from hkv)
    obtain ⟨x, hx, -⟩ := alikeD_get (a := _) (b := _) ⟨h2, h1, fun k => (h3 k).symm, fun k x y hx hy => (h4 k y x hy hx).symm⟩ hy
    exact ih kv.1 x kv.2 hx hy (hv.2 _ (lookup_some_mem hx))

theorem alike_same (Γ : Env) {R : Rat → Rat → Prop} (hR : ∀ q, R q q) {v w : V} (h : Alike v w) : WF v → Same Γ R v w := by
  induction h with
  | @refl v => exact fun hv => Same.refl hR (sizeOf v + 1) v (by omega) hv
  | list hl he ih =>
    intro hv
    simp only [WF, WFL_iff] at hv
    exact .seq rfl rfl hl fun i x y hx hy => ih i x y hx hy (hv x (List.mem_of_getElem? hx))
  | tuple hl he ih =>
    intro hv
    simp only [WF, WFL_iff] at hv
    exact .seq rfl rfl hl fun i x y hx hy => ih i x y hx hy (hv x (List.mem_of_getElem? hx))
  | dict h1 h2 h3 h4 ih =>
    intro hv
    simp only [WF, WFD_iff] at hv
    exact .dict h3 fun k x y hx hy => ih k x y hx hy (hv.2 _ (lookup_some_mem hx))
  | obj h1 h2 h3 h4 ih =>
    intro hv
    simp only [WF, WFD_iff] at hv
    exact .obj (fun k _ => h3 k) fun k x y _ hx hy => ih k x y hx hy (hv.2 _ (lookup_some_mem hx))

/-! ### C185: the order of attributes and entries does not matter -/

/-- Values that differ only by the order of their attributes and dictionary entries are saved as documents that differ only by the order
of their entries; one cannot be saved if the other cannot. -/
theorem C185_save (W : World) {v w : V} (h : Alike v w) :
    (∀ s, serialize W v = .ok s → ∃ t, serialize W w = .ok t ∧ Alike s t) ∧ ((∃ e, serialize W v = .error e) ↔ ∃ e, serialize W w = .error e) := by
  refine ⟨fun s hs => serialize_alike W h hs, ?_⟩
  have key : ∀ {v w : V}, Alike v w → (∃ e, serialize W v = .error e) → ∃ e, serialize W w = .error e := by
    rintro v w h ⟨e, he⟩
    cases hw : serialize W w with
    | error e => exact ⟨e, rfl⟩
    | ok t =>
      obtain ⟨s, hs, -⟩ := serialize_alike W h.symm hw
      rw [he] at hs
      cases hs
  exact ⟨key h, key h.symm⟩

/-- Documents without references that differ only by the order of their entries are read as values that differ only by the order of
their entries: the attributes of the objects read come in the order of the constructor. -/
theorem C185_load (W : World) (hargs : ∀ c, (W.info c).initArgs.Nodup) (fuel : Nat) {d e : List (Key × V)} (h : Alike (.dict d) (.dict e))
    (hr : findRefs ["#"] (.dict d) = .ok []) {v : V} (hv : loadDict W fuel d = .ok (some v)) :
    ∃ w, loadDict W fuel e = .ok (some w) ∧ Alike v w := by
  have hd : deser W [] ["#"] false (.dict d) = .ok v := by
    cases hd : deser W [] ["#"] false (.dict d) with
    | error x =>
      have ho : deserializationOrder fuel (.dict d) = .ok (some []) := by
        unfold deserializationOrder pointerGraph
        rw [hr]
        rfl
      unfold loadDict at hv
      rw [ho] at hv
      simp only [bind, Except.bind, dereference] at hv
      rw [hd] at hv
      simp at hv
    | ok u =>
      have := loadDict_noRefs W fuel d hr u hd
      rw [hv] at this
      cases this
      rfl
  obtain ⟨w, hw, hvw⟩ := deser_alike W hargs h hd
  exact ⟨w, loadDict_noRefs W fuel e (findRefs_alike h hr) w hw, hvw⟩

/-- Values that differ only by the order of their attributes and entries have equal data and the same hash; objects are `==`. -/
theorem C185_equal (Γ : Env) (H : HashFns) {v w : V} (h : Alike v w) (hv : WF v) :
    dataEq Γ v w = true ∧ chooseHash Γ H v = chooseHash Γ H w ∧ ∀ c a b, v = .obj c a → w = .obj c b → objEq Γ H c a w = .ok true := by
  have h1 := same_imp_dataEq (alike_same Γ Close.refl h hv) hv
  have h2 := C03_same_data_same_hash Γ H v w hv (alike_wf h hv) (alike_same Γ (fun _ => rfl) h hv)
  refine ⟨h1, h2, ?_⟩
  rintro c a b rfl rfl
  simp [objEq, h1, h2]

/-- Two objects whose attributes and entries were set in different orders. -/
def exSet1 : V := .obj "m.A" [(.str "x", .dict [(.str "p", .int 1), (.str "q", .list [.int 2])]), (.str "y", .str "z")]
/-- The other one. -/
def exSet2 : V := .obj "m.A" [(.str "y", .str "z"), (.str "x", .dict [(.str "q", .list [.int 2]), (.str "p", .int 1)])]

example : Alike exSet1 exSet2 ∧ WF exSet1 ∧ exSet1 ≠ exSet2 := by
  refine ⟨.obj (by simp [keysOf]) (by simp [keysOf]) (fun k => by simp [keysOf]; tauto) fun k x y hx hy => ?_, by simp [exSet1, WF, WFD, WFL, keysOf], by simp [exSet1, exSet2]⟩
  have hm := lookup_some_mem hx
  simp only [List.mem_cons, Prod.mk.injEq, List.not_mem_nil, or_false] at hm
  rcases hm with ⟨rfl, rfl⟩ | ⟨rfl, rfl⟩
  · obtain rfl := Option.some.inj hy
    refine .dict (by simp [keysOf]) (by simp [keysOf]) (fun k => by simp [keysOf]; tauto) fun k x y hx hy => ?_
    have hm := lookup_some_mem hx
    simp only [List.mem_cons, Prod.mk.injEq, List.not_mem_nil, or_false] at hm
    rcases hm with ⟨rfl, rfl⟩ | ⟨rfl, rfl⟩
    · obtain rfl := Option.some.inj hy
      exact .refl
    · obtain rfl := Option.some.inj hy
      exact .refl
  · obtain rfl := Option.some.inj hy
    exact .refl

/-- A world where every class takes `x` and `y`. -/
def exSetWorld : World := { info := fun _ => { initArgs := ["x", "y"] }, kind := fun _ => some .generic, resolve := fun _ => none }
/-- A document of an object. -/
def exSetDoc1 : List (Key × V) := [(.str "object_class", .str "m.A"), (.str "x", .int 1), (.str "y", .str "z")]
/-- The same with its entries in another order. -/
def exSetDoc2 : List (Key × V) := [(.str "y", .str "z"), (.str "x", .int 1), (.str "object_class", .str "m.A")]

example : (∀ c, (exSetWorld.info c).initArgs.Nodup) ∧ findRefs ["#"] (.dict exSetDoc1) = .ok [] ∧ Alike (.dict exSetDoc1) (.dict exSetDoc2) ∧
    loadDict exSetWorld 3 exSetDoc1 = .ok (some (.obj "m.A" [(.str "x", .int 1), (.str "y", .str "z")])) := by
  refine ⟨fun _ => (by decide : ["x", "y"].Nodup), by rfl, .dict (by simp [exSetDoc1, keysOf]) (by simp [exSetDoc2, keysOf]) (fun k => by simp [exSetDoc1, exSetDoc2, keysOf]; tauto)
    fun k x y hx hy => ?_, by rfl⟩
  have hm := lookup_some_mem hx
  simp only [exSetDoc1, List.mem_cons, Prod.mk.injEq, List.not_mem_nil, or_false] at hm
  rcases hm with ⟨rfl, rfl⟩ | ⟨rfl, rfl⟩ | ⟨rfl, rfl⟩ <;>
  · obtain rfl := Option.some.inj hy
    exact .refl

example : serialize exSetWorld exSet1 = .ok (.dict [(.str "object_class", .str "m.A"), (.str "x", .dict [(.str "p", .int 1), (.str "q", .list [.int 2])]),
    (.str "y", .str "z")]) := by rfl

end DC
