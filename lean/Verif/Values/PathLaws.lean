import Verif.Values.PathsProps
/-
Laws of deep access by path (C183): reading in two steps, writing twice, writing what was read, writing in any order.
The definitions they are about are in Verif/Values/Paths.lean.
-/
namespace DC

/-! ### Specification -/

/-- No dictionary in the value has an integer among its keys. -/
def NoIntKey (v : V) : Prop := ∀ d, Occurs v (.dict d) → ∀ n, Key.int n ∉ keysOf d

/-- No tuple in the value. -/
def TupleFree (v : V) : Prop := ∀ l, ¬ Occurs v (.tuple l)

/-- Nothing to evaluate: references are not evaluated, or there are none. -/
def NoEval (ev : Bool) (o : V) : Prop := ev = false ∨ NoRef o

/-! ### Reading in two steps -/

theorem plainWalk_append {v : V} {q : Path} : ∀ {p : Path}, (plainWalk v (p ++ q)).map (·.2) =
    ((plainWalk v p).map (·.2)).bind fun w => (plainWalk w q).map (·.2)
  | [] => rfl
  | s :: p => by
    simp only [List.cons_append, plainWalk]
    cases extractSegment v s with
    | error e => rfl
    | ok r =>
      simp only [bind, Except.bind]
      have := plainWalk_append (v := r.2) (q := q) (p := p)
      generalize plainWalk r.2 (p ++ q) = a at this ⊢
      generalize plainWalk r.2 p = b at this ⊢
      cases b with
      | error e => cases a <;> simp_all [Except.map, Except.bind]
      | ok b =>
        simp only [Except.map, Except.bind] at this ⊢
        cases h : plainWalk b.2 q <;> rw [h] at this <;> cases a <;> simp_all

/-- Reading `#/p/q` is reading `#/q` in what is read at `#/p`; it raises what the first of the two steps to fail raises. -/
theorem C183_read_steps (fuel : Nat) (ev : Bool) (o : V) (path path₁ path₂ : Path) (p q : List String) (hr : Rooted path (p ++ q))
    (hp : Rooted path₁ p) (hq : Rooted path₂ q) (he : NoEval ev o) :
    getPath fuel ev o path = (getPath fuel ev o path₁).bind fun w => getPath fuel ev w path₂ := by
  rw [getPath_eq hr (clear_noRef he _), getPath_eq hp (clear_noRef he _), plainWalk_append]
  cases hw : plainWalk o p with
  | error e => rfl
  | ok r =>
    simp only [Except.map, Except.bind]
    have hn : NoEval ev r.2 := by
      rcases he with he | he
      · exact .inl he
      · right
        clear hr hp
        induction p generalizing o r with
        | nil => simp only [plainWalk, Except.ok.injEq] at hw; subst hw; exact he
        | cons s p ih =>
          obtain ⟨l, w, a, h1, h2, h3⟩ := plainWalk_cons.1 (show plainWalk o (s :: p) = .ok (r.1, r.2) from hw)
          exact ih w (a, r.2) h2 (he.child (extract_ok.1 h1).2)
    rw [getPath_eq hq (clear_noRef hn _)]
    rfl

/-- With references the law is lost: they are understood from the root of what is read. -/
theorem C183_read_steps_violated : ∃ (o w : V), getPath 5 true o ["#", "a"] = .ok w ∧ getPath 5 true o ["#", "a", "b", "c"] = .ok (.int 1) ∧
    getPath 5 true w ["#", "b", "c"] = .error .extractionError :=
  ⟨.dict [(.str "a", .dict [(.str "b", .dict [(.str "$ref", .str "#/d")])]), (.str "d", .dict [(.str "c", .int 1)])],
    .dict [(.str "b", .dict [(.str "$ref", .str "#/d")])], rfl, rfl, rfl⟩

/-! ### Writing, segment by segment -/

/-- Writing at the end of a path that has at least one segment, from the root down. -/
def putW (x : V) : V → Path → Except PyErr V
  | _, [] => .error .keyError
  | v, [s] => assign v s x
  | v, s :: t :: rest => do
    let (p, w) ← extractSegment v s
    let w' ← putW x w (t :: rest)
    .ok (putAt v p w')

theorem putW_eq {x v : V} : ∀ {init : Path} {last : String}, (do
      let (at_, _) ← plainWalk v init
      modifyAt v at_ (fun w => assign w last x)) = putW x v (init ++ [last])
  | [], last => rfl
  | s :: init, last => by
    have ht : ∃ t rest, init ++ [last] = t :: rest := by cases init <;> exact ⟨_, _, rfl⟩
    obtain ⟨t, rest, ht⟩ := ht
    rw [List.cons_append, ht, putW, ← ht]
    simp only [plainWalk]
    cases hx : extractSegment v s with
    | error e => rfl
    | ok r =>
      obtain ⟨p, w⟩ := r
      simp only [bind, Except.bind]
      have := putW_eq (x := x) (v := w) (init := init) (last := last)
      rw [← this]
      cases hw : plainWalk w init with
      | error e => rfl
      | ok r =>
        simp only [bind, Except.bind, modifyAt, (extract_ok.1 hx).2]

theorem last_split {segs : List String} (hne : segs ≠ []) : segs.dropLast ++ [segs.getLastD ""] = segs := by
  rw [List.getLastD_eq_getLast?, List.getLast?_eq_some_getLast hne]
  exact List.dropLast_append_getLast hne

theorem rooted_ne {path : Path} {segs : List String} (hr : Rooted path segs) : segs ≠ [] := by
  obtain ⟨-, s, rest, h, -⟩ := hr
  rw [h]; simp

theorem setPath_putW {fuel : Nat} {ev : Bool} {o x : V} {path : Path} {segs : List String} (hr : Rooted path segs) (he : NoEval ev o) :
    setPath fuel ev o path x = putW x o segs := by
  rw [setPath_eq hr he, putW_eq, last_split (rooted_ne hr)]

/-! ### No reference appears -/

theorem noRef_list {l : List V} : NoRef (.list l) ↔ ∀ v ∈ l, NoRef v := by
  constructor
  · intro h v hv d hd; exact h d (.list hv hd)
  · intro h d hd
    cases hd with
    | list hv hd => exact h _ hv d hd

theorem noRef_tuple {l : List V} : NoRef (.tuple l) ↔ ∀ v ∈ l, NoRef v := by
  constructor
  · intro h v hv d hd; exact h d (.tuple hv hd)
  · intro h d hd
    cases hd with
    | tuple hv hd => exact h _ hv d hd

theorem noRef_dict {d : List (Key × V)} : NoRef (.dict d) ↔ Key.str "$ref" ∉ keysOf d ∧ ∀ kv ∈ d, NoRef kv.2 := by
  constructor
  · intro h
    exact ⟨h d .self, fun kv hkv e he => h e (.dict hkv he)⟩
  · rintro ⟨h1, h2⟩ e he
    cases he with
    | self => exact h1
    | dict hkv he => exact h2 _ hkv e he

theorem noRef_obj {c : String} {d : List (Key × V)} : NoRef (.obj c d) ↔ ∀ kv ∈ d, NoRef kv.2 := by
  constructor
  · intro h kv hkv e he; exact h e (.obj hkv he)
  · intro h e he
    cases he with
    | obj hkv he => exact h _ hkv e he

theorem dictSet_mem {α : Type} {d : List (Key × α)} {k : Key} {x : α} {kv : Key × α} (h : kv ∈ dictSet d k x) : kv ∈ d ∨ kv = (k, x) := by
  induction d with
  | nil => simp [dictSet] at h; exact .inr h
  | cons e d ih =>
    obtain ⟨k', v⟩ := e
    rw [dictSet] at h
    split at h
    · rename_i hk
      subst hk
      rcases List.mem_cons.1 h with h | h
      · exact .inr h
      · exact .inl (.tail _ h)
    · rcases List.mem_cons.1 h with h | h
      · exact .inl (by rw [h]; exact .head _)
      · exact (ih h).imp (.tail _) id

theorem keysOf_dictSet {d : List (Key × V)} {k k' : Key} {x : V} (h : k' ∈ keysOf (dictSet d k x)) : k' ∈ keysOf d ∨ k' = k := by
  obtain ⟨kv, hkv, rfl⟩ := List.mem_map.1 h
  rcases dictSet_mem hkv with h | h
  · exact .inl (List.mem_map.2 ⟨_, h, rfl⟩)
  · exact .inr (by rw [h])

theorem noRef_putAt {v w x : V} {p : Loc} (hc : childAt v p = some w) (h : NoRef v) (hx : NoRef x) : NoRef (putAt v p x) := by
  unfold childAt at hc
  split at hc
  · refine noRef_list.2 fun y hy => ?_
    rcases List.mem_or_eq_of_mem_set hy with hy | rfl
    · exact noRef_list.1 h y hy
    · exact hx
  · refine noRef_tuple.2 fun y hy => ?_
    rcases List.mem_or_eq_of_mem_set hy with hy | rfl
    · exact noRef_tuple.1 h y hy
    · exact hx
  · refine noRef_dict.2 ⟨fun hk => ?_, fun y hy => ?_⟩
    · rcases keysOf_dictSet hk with hk | rfl
      · exact (noRef_dict.1 h).1 hk
      · exact (noRef_dict.1 h).1 ((lookup_isSome_iff _ _).1 (by rw [hc]; rfl))
    · rcases dictSet_mem hy with hy | rfl
      · exact (noRef_dict.1 h).2 y hy
      · exact hx
  · refine noRef_obj.2 fun y hy => ?_
    rcases dictSet_mem hy with hy | rfl
    · exact noRef_obj.1 h y hy
    · exact hx
  · simp at hc

theorem noRef_assign {v v' x : V} {s : String} (h : assign v s x = .ok v') (hv : NoRef v) (hx : NoRef x) (hs : s ≠ "$ref") : NoRef v' := by
  unfold assign at h
  split at h
  · split at h
    · simp at h
    · split at h
      · simp at h
      · simp only [Except.ok.injEq] at h; subst h
        refine noRef_list.2 fun y hy => ?_
        rcases List.mem_or_eq_of_mem_set hy with hy | rfl
        · exact noRef_list.1 hv y hy
        · exact hx
  · split at h <;> simp at h
  · simp only [Except.ok.injEq] at h; subst h
    refine noRef_dict.2 ⟨fun hk => ?_, fun y hy => ?_⟩
    · rcases keysOf_dictSet hk with hk | hk
      · exact (noRef_dict.1 hv).1 hk
      · simp at hk; exact hs hk.symm
    · rcases dictSet_mem hy with hy | rfl
      · exact (noRef_dict.1 hv).2 y hy
      · exact hx
  · simp only [Except.ok.injEq] at h; subst h
    refine noRef_obj.2 fun y hy => ?_
    rcases dictSet_mem hy with hy | rfl
    · exact noRef_obj.1 hv y hy
    · exact hx
  · simp at h

theorem putW_cons {x v v' : V} {s t : String} {rest : Path} : putW x v (s :: t :: rest) = .ok v' ↔
    ∃ p w w', extractSegment v s = .ok (p, w) ∧ putW x w (t :: rest) = .ok w' ∧ v' = putAt v p w' := by
  rw [putW, bind_ok]
  constructor
  · rintro ⟨⟨p, w⟩, h1, h⟩
    rw [bind_ok] at h
    obtain ⟨w', h2, h⟩ := h
    simp only [Except.ok.injEq] at h
    exact ⟨p, w, w', h1, h2, h.symm⟩
  · rintro ⟨p, w, w', h1, h2, rfl⟩
    exact ⟨(p, w), h1, by rw [bind_ok]; exact ⟨w', h2, rfl⟩⟩

theorem noRef_putW {x : V} (hx : NoRef x) : ∀ {p : Path} {v v' : V}, putW x v p = .ok v' → NoRef v → "$ref" ∉ p → NoRef v'
  | [], _, _, h, _, _ => by simp [putW] at h
  | [s], v, v', h, hv, hs => noRef_assign h hv hx (fun e => hs (by rw [e]; exact .head _))
  | s :: t :: rest, v, v', h, hv, hs => by
    obtain ⟨p, w, w', h1, h2, rfl⟩ := putW_cons.1 h
    have hc := (extract_ok.1 h1).2
    exact noRef_putAt hc hv (noRef_putW hx h2 (hv.child hc) fun h => hs (.tail _ h))

/-! ### Writing twice -/

theorem dictSet_dictSet {α : Type} (d : List (Key × α)) (k : Key) (x y : α) : dictSet (dictSet d k x) k y = dictSet d k y := by
  induction d with
  | nil => simp [dictSet]
  | cons e d ih =>
    obtain ⟨k', v⟩ := e
    simp only [dictSet]
    split
    · rename_i h; simp [dictSet, h]
    · rename_i h; simp [dictSet, h, ih]

theorem dictSet_same {α : Type} {d : List (Key × α)} {k : Key} {x : α} (h : d.lookup k = some x) : dictSet d k x = d := by
  induction d with
  | nil => simp at h
  | cons e d ih =>
    obtain ⟨k', v⟩ := e
    simp only [dictSet]
    split
    · rename_i hk; subst hk; simp at h; rw [h]
    · rename_i hk
      have : (k == k') = false := by simpa using Ne.symm hk
      rw [List.lookup_cons, this] at h
      rw [ih h]

theorem dictSet_comm {α : Type} {d : List (Key × α)} {k k' : Key} {x y a b : α} (hne : k ≠ k') (h : d.lookup k = some a) (h' : d.lookup k' = some b) :
    dictSet (dictSet d k x) k' y = dictSet (dictSet d k' y) k x := by
  induction d with
  | nil => simp at h
  | cons e d ih =>
    obtain ⟨k'', v⟩ := e
    by_cases h1 : k'' = k
    · subst h1
      simp only [dictSet, if_pos, if_neg hne]
    · by_cases h2 : k'' = k'
      · subst h2
        simp only [dictSet, if_pos, if_neg h1]
      · have e1 : (k == k'') = false := by simpa using Ne.symm h1
        have e2 : (k' == k'') = false := by simpa using Ne.symm h2
        rw [List.lookup_cons, e1] at h
        rw [List.lookup_cons, e2] at h'
        simp only [dictSet, if_neg h1, if_neg h2]
        rw [ih h h']

theorem putAt_putAt {v a b : V} {p : Loc} : putAt (putAt v p a) p b = putAt v p b := by
  cases v <;> cases p <;> simp [putAt, dictSet_dictSet]

theorem putAt_same {v w : V} {p : Loc} (h : childAt v p = some w) : putAt v p w = v := by
  unfold childAt at h
  split at h
  · obtain ⟨hl, e⟩ := List.getElem?_eq_some_iff.1 h
    simp only [putAt]
    rw [← e, List.set_getElem_self]
  · obtain ⟨hl, e⟩ := List.getElem?_eq_some_iff.1 h
    simp only [putAt]
    rw [← e, List.set_getElem_self]
  · simp only [putAt]; rw [dictSet_same h]
  · simp only [putAt]; rw [dictSet_same h]
  · simp at h

theorem putAt_comm {v w w' a b : V} {p q : Loc} (hne : p ≠ q) (hp : childAt v p = some w) (hq : childAt v q = some w') :
    putAt (putAt v p a) q b = putAt (putAt v q b) p a := by
  unfold childAt at hp
  split at hp
  · cases q with
    | idx n => simp only [putAt]; rw [List.set_comm _ _ fun e => hne (by rw [e])]
    | _ => simp [childAt] at hq
  · cases q with
    | idx n => simp only [putAt]; rw [List.set_comm _ _ fun e => hne (by rw [e])]
    | _ => simp [childAt] at hq
  · cases q with
    | key k => simp only [putAt]; rw [dictSet_comm (fun e => hne (by rw [e])) hp hq]
    | _ => simp [childAt] at hq
  · cases q with
    | attr k => simp only [putAt]; rw [dictSet_comm (fun e => hne (by simp at e; rw [e])) hp hq]
    | _ => simp [childAt] at hq
  · simp at hp

theorem assign_assign {v v' x y : V} {s : String} (h : assign v s x = .ok v') : assign v' s y = assign v s y := by
  unfold assign at h
  split at h
  · split at h
    · simp at h
    · rename_i i hi
      split at h
      · simp at h
      · rename_i n hn
        simp only [Except.ok.injEq] at h; subst h
        simp [assign, hi, hn]
  · split at h <;> simp at h
  · simp only [Except.ok.injEq] at h; subst h; simp [assign, dictSet_dictSet]
  · simp only [Except.ok.injEq] at h; subst h; simp [assign, dictSet_dictSet]
  · simp at h

theorem putW_putW {x y : V} : ∀ {p : Path} {v v' : V}, putW x v p = .ok v' → putW y v' p = putW y v p
  | [], _, _, h => by simp [putW] at h
  | [s], v, v', h => assign_assign h
  | s :: t :: rest, v, v', h => by
    obtain ⟨p, w, w', h1, h2, rfl⟩ := putW_cons.1 h
    rw [putW, putW, h1, extract_putAt h1]
    simp only [bind, Except.bind]
    rw [putW_putW h2]
    cases putW y w (t :: rest) with
    | error e => rfl
    | ok z => simp only [putAt_putAt]

/-- The last write wins: writing twice at the same path is writing the second value only. -/
theorem C183_write_twice (fuel : Nat) (ev : Bool) (o o' x y : V) (path : Path) (p : List String) (hr : Rooted path p)
    (he : ev = false ∨ (NoRef o ∧ NoRef x ∧ "$ref" ∉ p)) (h : setPath fuel ev o path x = .ok o') :
    setPath fuel ev o' path y = setPath fuel ev o path y := by
  have hn : NoEval ev o := he.imp id (·.1)
  rw [setPath_putW hr hn] at h
  have hn' : NoEval ev o' := he.imp id fun he => noRef_putW he.2.1 h he.1 he.2.2
  rw [setPath_putW hr hn, setPath_putW hr hn', putW_putW h]

/-! ### Writing what was read -/

theorem NoIntKey.child {v w : V} {p : Loc} (h : NoIntKey v) (hc : childAt v p = some w) : NoIntKey w := by
  intro d hd
  unfold childAt at hc
  split at hc
  · exact h d (.list (List.mem_of_getElem? hc) hd)
  · exact h d (.tuple (List.mem_of_getElem? hc) hd)
  · exact h d (.dict (lookup_some_mem hc) hd)
  · exact h d (.obj (lookup_some_mem hc) hd)
  · simp at hc

theorem TupleFree.child {v w : V} {p : Loc} (h : TupleFree v) (hc : childAt v p = some w) : TupleFree w := by
  intro d hd
  unfold childAt at hc
  split at hc
  · exact h d (.list (List.mem_of_getElem? hc) hd)
  · exact h d (.tuple (List.mem_of_getElem? hc) hd)
  · exact h d (.dict (lookup_some_mem hc) hd)
  · exact h d (.obj (lookup_some_mem hc) hd)
  · simp at hc

/-- Writing at an existing place of a container which is not a tuple nor has an integer key. -/
theorem assign_put {v w x : V} {s : String} {p : Loc} (h : extractSegment v s = .ok (p, w)) (ht : ∀ l, v ≠ .tuple l)
    (hk : ∀ d, v = .dict d → ∀ n, Key.int n ∉ keysOf d) : assign v s x = .ok (putAt v p x) := by
  obtain ⟨h1, h2⟩ := extract_ok.1 h
  cases v with
  | list l =>
    simp only [segLoc] at h1
    split at h1
    · simp at h1
    · rename_i i hi
      split at h1
      · simp at h1
      · rename_i n hn
        simp only [Except.ok.injEq] at h1; subst h1
        simp [assign, hi, hn, putAt]
  | tuple l => exact absurd rfl (ht l)
  | dict d =>
    simp only [segLoc] at h1
    split at h1
    · simp only [Except.ok.injEq] at h1; subst h1; rfl
    · split at h1
      · rename_i n hn
        split at h1
        · rename_i hs
          exact absurd ((lookup_isSome_iff _ _).1 hs) (hk d rfl n)
        · simp at h1
      · split at h1 <;> simp at h1
  | obj c d =>
    simp only [segLoc] at h1
    split at h1
    · simp only [Except.ok.injEq] at h1; subst h1; rfl
    · simp at h1
  | _ => simp [segLoc] at h1

theorem putW_same {y : V} : ∀ {p : Path} {v : V} {a : List Loc}, p ≠ [] → TupleFree v → NoIntKey v → plainWalk v p = .ok (a, y) →
    putW y v p = .ok v
  | [], _, _, h, _, _, _ => absurd rfl h
  | [s], v, a, _, ht, hk, h => by
    obtain ⟨p, w, a', h1, h2, -⟩ := plainWalk_cons.1 h
    simp only [plainWalk, Except.ok.injEq, Prod.mk.injEq] at h2
    obtain ⟨-, rfl⟩ := h2
    rw [putW, assign_put h1 (fun l e => ht l (by rw [e]; exact .self)) (fun d e => hk d (by rw [e]; exact .self)),
      putAt_same (extract_ok.1 h1).2]
  | s :: t :: rest, v, a, _, ht, hk, h => by
    obtain ⟨p, w, a', h1, h2, -⟩ := plainWalk_cons.1 h
    have hc := (extract_ok.1 h1).2
    exact putW_cons.2 ⟨p, w, w, h1, putW_same (by simp) (ht.child hc) (hk.child hc) h2, (putAt_same hc).symm⟩

/-- Writing at a path what is read there changes nothing, if no dictionary has integer keys and there are no tuples.
Missing: integer keys, for which the code does not satisfy the property; tuples cannot be written in. -/
theorem C183_write_back_partial (fuel : Nat) (ev : Bool) (o y : V) (path : Path) (p : List String) (hr : Rooted path p)
    (he : NoEval ev o) (ht : TupleFree o) (hk : NoIntKey o) (h : getPath fuel ev o path = .ok y) : setPath fuel ev o path y = .ok o := by
  rw [getPath_eq hr (clear_noRef he _)] at h
  rw [setPath_putW hr he]
  cases hw : plainWalk o p with
  | error e => rw [hw] at h; simp [Except.map] at h
  | ok r =>
    rw [hw] at h
    simp only [Except.map, Except.ok.injEq] at h
    exact putW_same (rooted_ne hr) ht hk (a := r.1) (by rw [hw, ← h])

/-- In a dictionary with integer keys, writing back what was read adds an entry: `#/1` is read at the key `1` and written at the
key `'1'`. -/
theorem C183_write_back_violated : ∃ (o o' y : V), getPath 5 false o ["#", "1"] = .ok y ∧ setPath 5 false o ["#", "1"] y = .ok o' ∧ o' ≠ o :=
  ⟨.dict [(.int 1, .str "a")], .dict [(.int 1, .str "a"), (.str "1", .str "a")], .str "a", rfl, rfl, by simp⟩

/-! ### Writing in any order -/

/-- What a write does to the first container: the part at the place of the first segment is replaced. -/
theorem putW_head {x v v' : V} {s : String} {r : Path} {l : List Loc} {y : V} (hk : NoIntKey v) (hw : plainWalk v (s :: r) = .ok (l, y))
    (h : putW x v (s :: r) = .ok v') :
    ∃ p w w', extractSegment v s = .ok (p, w) ∧ v' = putAt v p w' ∧ (r = [] ∧ w' = x ∨ r ≠ [] ∧ putW x w r = .ok w') := by
  obtain ⟨p, w, a, h1, h2, -⟩ := plainWalk_cons.1 hw
  cases r with
  | nil =>
    have ht : ∀ l, v ≠ .tuple l := by
      rintro l rfl
      simp only [putW, assign] at h
      split at h <;> simp at h
    rw [putW, assign_put h1 ht (fun d e => hk d (by rw [e]; exact .self))] at h
    simp only [Except.ok.injEq] at h
    exact ⟨p, w, x, h1, h.symm, .inl ⟨rfl, rfl⟩⟩
  | cons t r =>
    obtain ⟨p', w₁, w', h3, h4, h5⟩ := putW_cons.1 h
    rw [h1] at h3
    simp only [Except.ok.injEq, Prod.mk.injEq] at h3
    obtain ⟨rfl, rfl⟩ := h3
    exact ⟨p, w, w', h1, h5, .inr ⟨by simp, h4⟩⟩

theorem putW_of_head {x v w w' : V} {s : String} {r : Path} {p : Loc} (ht : ∀ l, v ≠ .tuple l ∨ r ≠ []) (hk : ∀ d, v = .dict d → ∀ n, Key.int n ∉ keysOf d)
    (h1 : extractSegment v s = .ok (p, w)) (h2 : r = [] ∧ w' = x ∨ r ≠ [] ∧ putW x w r = .ok w') : putW x v (s :: r) = .ok (putAt v p w') := by
  rcases h2 with ⟨rfl, rfl⟩ | ⟨hr, h2⟩
  · rw [putW, assign_put h1 (fun l => (ht l).resolve_right (by simp)) hk]
  · cases r with
    | nil => exact absurd rfl hr
    | cons t r => exact putW_cons.2 ⟨p, w, w', h1, h2, rfl⟩

theorem putAt_keys {v w x : V} {p : Loc} (hc : childAt v p = some w) (hk : NoIntKey v) :
    ∀ d, putAt v p x = .dict d → ∀ n, Key.int n ∉ keysOf d := by
  intro d hd n hn
  unfold childAt at hc
  split at hc <;> simp only [putAt] at hd
  · simp at hd
  · simp at hd
  · simp only [V.dict.injEq] at hd
    subst hd
    rcases keysOf_dictSet hn with hn | hn
    · exact hk _ .self n hn
    · subst hn
      exact hk _ .self n ((lookup_isSome_iff _ _).1 (by rw [hc]; rfl))
  · simp at hd
  · simp at hc

theorem putAt_tuple {v x : V} {p : Loc} {l : List V} (h : putAt v p x = .tuple l) : ∃ l', v = .tuple l' := by
  unfold putAt at h
  split at h <;> first | exact ⟨_, h⟩ | exact ⟨_, rfl⟩ | simp at h

theorem putW_comm {x y : V} {s t : String} {r r' : Path} (hne : s ≠ t) : ∀ {c : Path} {v a b : V} {l l' : List Loc} {z z' : V},
    Canonical (c ++ s :: r) → Canonical (c ++ t :: r') → NoIntKey v →
    plainWalk v (c ++ s :: r) = .ok (l, z) → plainWalk v (c ++ t :: r') = .ok (l', z') →
    putW x v (c ++ s :: r) = .ok a → putW y v (c ++ t :: r') = .ok b →
    ∃ o, putW y a (c ++ t :: r') = .ok o ∧ putW x b (c ++ s :: r) = .ok o
  | [], v, a, b, l, l', z, z', hc1, hc2, hk, w1, w2, h1, h2 => by
    have noT : ∀ {u : String} {x a : V} {r : Path} (k : List V), putW x v (u :: r) = .ok a → v ≠ .tuple k ∨ r ≠ [] := by
      intro u x a r k h
      by_cases hr : r = []
      · left
        rintro rfl
        subst hr
        simp only [putW, assign] at h
        split at h <;> simp at h
      · exact .inr hr
    obtain ⟨p, w, w', e1, e2, e3⟩ := putW_head hk w1 h1
    obtain ⟨q, u, u', f1, f2, f3⟩ := putW_head hk w2 h2
    have hp := extract_ok.1 e1
    have hq := extract_ok.1 f1
    have hpq : q ≠ p := segLoc_ne hp.1 hq.1 (hc1 s (.head _)) (hc2 t (.head _)) hne
    refine ⟨putAt (putAt v p w') q u', ?_, ?_⟩
    · rw [e2]
      refine putW_of_head (fun k => ?_) (putAt_keys hp.2 hk) ?_ f3
      · rcases noT k h2 with h | h
        · by_cases hr : r' = []
          · left; intro ht
            obtain ⟨k', rfl⟩ := putAt_tuple ht
            rcases noT k' h2 with h | h
            · exact h rfl
            · exact h hr
          · exact .inr hr
        · exact .inr h
      · exact extract_ok.2 ⟨by rw [segLoc_putAt hp.2]; exact hq.1, by rw [childAt_putAt_ne hpq]; exact hq.2⟩
    · rw [f2, putAt_comm hpq.symm hp.2 hq.2]
      refine putW_of_head (fun k => ?_) (putAt_keys hq.2 hk) ?_ e3
      · by_cases hr : r = []
        · left; intro ht
          obtain ⟨k', rfl⟩ := putAt_tuple ht
          rcases noT k' h1 with h | h
          · exact h rfl
          · exact h hr
        · exact .inr hr
      · exact extract_ok.2 ⟨by rw [segLoc_putAt hq.2]; exact hp.1, by rw [childAt_putAt_ne hpq.symm]; exact hp.2⟩
  | c₀ :: c, v, a, b, l, l', z, z', hc1, hc2, hk, w1, w2, h1, h2 => by
    have hne1 : c ++ s :: r ≠ [] := by simp
    have hne2 : c ++ t :: r' ≠ [] := by simp
    obtain ⟨p, w, l1, g1, g2, -⟩ := plainWalk_cons.1 w1
    obtain ⟨p₂, w₂, l2, g3, g4, -⟩ := plainWalk_cons.1 w2
    rw [g1] at g3
    simp only [Except.ok.injEq, Prod.mk.injEq] at g3
    obtain ⟨rfl, rfl⟩ := g3
    obtain ⟨p', w₁, w', e1, e2, e3⟩ := putW_head hk w1 h1
    obtain ⟨q, u₁, u', f1, f2, f3⟩ := putW_head hk w2 h2
    rw [g1] at e1 f1
    simp only [Except.ok.injEq, Prod.mk.injEq] at e1 f1
    obtain ⟨rfl, rfl⟩ := e1
    obtain ⟨rfl, rfl⟩ := f1
    have hc := (extract_ok.1 g1).2
    obtain ⟨o, ho1, ho2⟩ := putW_comm hne (c := c) (fun u hu => hc1 u (by simp only [List.cons_append]; exact .tail _ hu)) (fun u hu => hc2 u (by simp only [List.cons_append]; exact .tail _ hu))
      (hk.child hc) g2 g4 (e3.resolve_left fun h => hne1 h.1).2 (f3.resolve_left fun h => hne2 h.1).2
    refine ⟨putAt v p o, ?_, ?_⟩
    · rw [e2, ← putAt_putAt (v := v) (a := w') (b := o)]
      exact putW_of_head (fun _ => .inr hne2) (putAt_keys hc hk) (extract_putAt g1) (.inr ⟨hne2, ho1⟩)
    · rw [f2, ← putAt_putAt (v := v) (a := u') (b := o)]
      exact putW_of_head (fun _ => .inr hne1) (putAt_keys hc hk) (extract_putAt g1) (.inr ⟨hne1, ho2⟩)

/-- Writing at two existing places on different branches gives the same in both orders, if no dictionary has integer keys.
Missing: paths that do not exist yet, for which the order of the new keys differs; integer keys; indices with a sign. -/
theorem C183_write_order_partial (fuel : Nat) (ev : Bool) (o a b x y z z' : V) (path path' : Path) (p q : List String) (hr : Rooted path p)
    (hr' : Rooted path' q) (hd : Diverge p q) (hcp : Canonical p) (hcq : Canonical q) (hk : NoIntKey o)
    (he : ev = false ∨ (NoRef o ∧ NoRef x ∧ NoRef y ∧ "$ref" ∉ p ∧ "$ref" ∉ q))
    (hz : getPath fuel ev o path = .ok z) (hz' : getPath fuel ev o path' = .ok z')
    (ha : setPath fuel ev o path x = .ok a) (hb : setPath fuel ev o path' y = .ok b) :
    ∃ r, setPath fuel ev a path' y = .ok r ∧ setPath fuel ev b path x = .ok r := by
  have hn : NoEval ev o := he.imp id (·.1)
  rw [setPath_putW hr hn] at ha
  rw [setPath_putW hr' hn] at hb
  have hna : NoEval ev a := he.imp id fun he => noRef_putW he.2.1 ha he.1 he.2.2.2.1
  have hnb : NoEval ev b := he.imp id fun he => noRef_putW he.2.2.1 hb he.1 he.2.2.2.2
  rw [setPath_putW hr' hna, setPath_putW hr hnb]
  rw [getPath_eq hr (clear_noRef hn _)] at hz
  rw [getPath_eq hr' (clear_noRef hn _)] at hz'
  obtain ⟨c, s, t, r, r', rfl, rfl, hst⟩ := hd
  cases hw : plainWalk o (c ++ s :: r) with
  | error e => rw [hw] at hz; simp [Except.map] at hz
  | ok w =>
    cases hw' : plainWalk o (c ++ t :: r') with
    | error e => rw [hw'] at hz'; simp [Except.map] at hz'
    | ok w' => exact putW_comm hst hcp hcq hk (l := w.1) (l' := w'.1) hw hw' ha hb

/-- Two new entries come in the order of their writing. -/
theorem C183_write_order_violated : ∃ (o a b r r' : V), setPath 5 false o ["#", "a"] (.int 1) = .ok a ∧ setPath 5 false a ["#", "b"] (.int 2) = .ok r ∧
    setPath 5 false o ["#", "b"] (.int 2) = .ok b ∧ setPath 5 false b ["#", "a"] (.int 1) = .ok r' ∧ r ≠ r' :=
  ⟨.dict [], .dict [(.str "a", .int 1)], .dict [(.str "b", .int 2)], .dict [(.str "a", .int 1), (.str "b", .int 2)],
    .dict [(.str "b", .int 2), (.str "a", .int 1)], rfl, rfl, rfl, rfl, by simp⟩

/-! ### Examples -/

example : getPath 0 false pathDemo ["#", "parts", "1", "x"] =
    (getPath 0 false pathDemo ["#", "parts"]).bind fun w => getPath 0 false w ["#", "1", "x"] :=
  C183_read_steps 0 false pathDemo _ _ _ ["parts"] ["1", "x"] ⟨rfl, "parts", _, rfl, 'p', ['a', 'r', 't', 's'], by decide, by decide⟩
    ⟨rfl, "parts", _, rfl, 'p', ['a', 'r', 't', 's'], by decide, by decide⟩ ⟨rfl, "1", _, rfl, '1', [], by decide, by decide⟩ (.inl rfl)

example : ∃ o', setPath 0 false pathDemo ["#", "parts", "1", "x"] (.str "new") = .ok o' ∧
    setPath 0 false o' ["#", "parts", "1", "x"] (.int 2) = setPath 0 false pathDemo ["#", "parts", "1", "x"] (.int 2) ∧
    setPath 0 false pathDemo ["#", "parts", "1", "x"] (.int 2) = .ok pathDemo :=
  ⟨.obj "A" [(.str "parts", .list [.dict [(.str "x", .int 1)], .dict [(.str "x", .str "new")]]), (.str "n", .int 0)],
    rfl, rfl, rfl⟩

/-- A dictionary without integer keys nor tuples. -/
def pathDemo2 : V := .dict [(.str "a", .int 1), (.str "b", .list [.int 2, .int 3])]

theorem pathDemo2_occurs {v : V} (h : Occurs pathDemo2 v) : v = pathDemo2 ∨ v = .int 1 ∨ v = .list [.int 2, .int 3] ∨ v = .int 2 ∨ v = .int 3 := by
  unfold pathDemo2 at *
  cases h with
  | self => exact .inl rfl
  | dict hm h =>
    simp only [List.mem_cons, Prod.mk.injEq, List.not_mem_nil, or_false] at hm
    rcases hm with ⟨-, rfl⟩ | ⟨-, rfl⟩
    · cases h; exact .inr (.inl rfl)
    · cases h with
      | self => exact .inr (.inr (.inl rfl))
      | list hm h =>
        simp only [List.mem_cons, List.not_mem_nil, or_false] at hm
        rcases hm with rfl | rfl <;> cases h <;> simp

example : TupleFree pathDemo2 ∧ NoIntKey pathDemo2 ∧ NoRef pathDemo2 := by
  refine ⟨fun l h => ?_, fun d h n => ?_, fun d h => ?_⟩ <;> rcases pathDemo2_occurs h with h | h | h | h | h <;>
    simp only [pathDemo2, reduceCtorEq, V.dict.injEq] at h <;> subst h <;> simp [keysOf]

example : ∃ r, setPath 5 false (.dict [(.str "a", .int 7), (.str "b", .list [.int 2, .int 3])]) ["#", "b", "1"] (.str "x") = .ok r ∧
    setPath 5 false (.dict [(.str "a", .int 1), (.str "b", .list [.int 2, .str "x"])]) ["#", "a"] (.int 7) = .ok r :=
  C183_write_order_partial 5 false pathDemo2 _ _ (.int 7) (.str "x") (.int 1) (.int 3) ["#", "a"] ["#", "b", "1"] ["a"] ["b", "1"]
    ⟨rfl, "a", _, rfl, 'a', [], by decide, by decide⟩ ⟨rfl, "b", _, rfl, 'b', [], by decide, by decide⟩
    ⟨[], "a", "b", [], ["1"], rfl, rfl, by decide⟩
    (by
      intro s hs i hi
      simp only [List.mem_cons, List.not_mem_nil, or_false] at hs
      subst hs
      have : int? "a" = none := by decide
      rw [this] at hi; cases hi)
    (by
      intro s hs i hi
      simp only [List.mem_cons, List.not_mem_nil, or_false] at hs
      rcases hs with rfl | rfl
      · have : int? "b" = none := by decide
        rw [this] at hi; cases hi
      · have : int? "1" = some 1 := by decide
        rw [this] at hi; cases hi; decide)
    (by
      intro d h n
      rcases pathDemo2_occurs h with h | h | h | h | h <;> simp only [pathDemo2, reduceCtorEq, V.dict.injEq] at h
      subst h; simp [keysOf])
    (.inl rfl) rfl rfl rfl rfl

end DC
