import Verif.Values.PathsSpec
import Verif.Values.SerializeLemmas
/- Helper lemmas for Verif/Values/PathsProps.lean. -/
namespace DC

theorem lookup_dictSet_self {α : Type} (d : List (Key × α)) (k : Key) (x : α) : (dictSet d k x).lookup k = some x := by
  induction d with
  | nil => simp [dictSet]
  | cons kv d ih =>
    obtain ⟨k', v⟩ := kv
    rw [dictSet]
    split
    · rename_i h; subst h; simp
    · rename_i h
      have : (k == k') = false := by simpa using Ne.symm h
      simp [List.lookup_cons, this, ih]

theorem lookup_dictSet_ne {α : Type} (d : List (Key × α)) (k k' : Key) (x : α) (h : k' ≠ k) :
    (dictSet d k x).lookup k' = d.lookup k' := by
  induction d with
  | nil =>
    have : (k' == k) = false := by simpa using h
    simp [dictSet, List.lookup_cons, this]
  | cons kv d ih =>
    obtain ⟨k'', v⟩ := kv
    rw [dictSet]
    split
    · rename_i e; subst e
      have : (k' == k'') = false := by simpa using h
      simp [List.lookup_cons, this]
    · rw [List.lookup_cons, List.lookup_cons, ih]

theorem isSome_dictSet (d : List (Key × V)) (k k' : Key) (x y : V) (h : d.lookup k = some y) :
    ((dictSet d k x).lookup k').isSome = (d.lookup k').isSome := by
  by_cases e : k' = k
  · subst e; rw [lookup_dictSet_self, h]; rfl
  · rw [lookup_dictSet_ne _ _ _ _ e]

theorem childAt_putAt_self {v w x : V} {p : Loc} (h : childAt v p = some w) : childAt (putAt v p x) p = some x := by
  unfold childAt at h
  split at h
  · obtain ⟨hl, _⟩ := List.getElem?_eq_some_iff.1 h
    simp [putAt, childAt, hl]
  · obtain ⟨hl, _⟩ := List.getElem?_eq_some_iff.1 h
    simp [putAt, childAt, hl]
  · simp only [putAt, childAt]; exact lookup_dictSet_self _ _ _
  · simp only [putAt, childAt]; exact lookup_dictSet_self _ _ _
  · simp at h

theorem childAt_putAt_ne {v x : V} {p q : Loc} (h : q ≠ p) : childAt (putAt v p x) q = childAt v q := by
  unfold putAt
  split
  · cases q with
    | idx m => have : ∀ n, Loc.idx m ≠ Loc.idx n → n ≠ m := by rintro n hn rfl; exact hn rfl
               simp only [childAt]; rw [List.getElem?_set_ne (this _ h)]
    | _ => rfl
  · cases q with
    | idx m => have : ∀ n, Loc.idx m ≠ Loc.idx n → n ≠ m := by rintro n hn rfl; exact hn rfl
               simp only [childAt]; rw [List.getElem?_set_ne (this _ h)]
    | _ => rfl
  · cases q with
    | key k => simp only [childAt]; exact lookup_dictSet_ne _ _ _ _ (fun e => h (by rw [e]))
    | _ => rfl
  · cases q with
    | attr k => simp only [childAt]; exact lookup_dictSet_ne _ _ _ _ (fun e => h (by simp at e; rw [e]))
    | _ => rfl
  · rfl

/-- Replacing an existing part does not change how segments are understood. -/
theorem segLoc_putAt {v w x : V} {p : Loc} (h : childAt v p = some w) (s : String) :
    segLoc (putAt v p x) s = segLoc v s := by
  unfold childAt at h
  split at h
  · simp [putAt, segLoc]
  · simp [putAt, segLoc]
  · simp only [putAt, segLoc]
    rw [isSome_dictSet _ _ _ _ _ h]
    cases digits? s with
    | none => rfl
    | some n => simp only; rw [isSome_dictSet _ _ _ _ _ h]
  · simp only [putAt, segLoc]
    rw [isSome_dictSet _ _ _ _ _ h]
  · simp at h

theorem refOf_putAt {v w x : V} {p : Loc} (h : childAt v p = some w) :
    (refOf (putAt v p x)).isSome = (refOf v).isSome := by
  unfold childAt at h
  split at h
  · rfl
  · rfl
  · simp only [putAt, refOf]; exact isSome_dictSet _ _ _ _ _ h
  · rfl
  · simp at h

theorem extract_ok {v w : V} {s : String} {p : Loc} :
    extractSegment v s = .ok (p, w) ↔ segLoc v s = .ok p ∧ childAt v p = some w := by
  unfold extractSegment
  rw [bind_ok]
  constructor
  · rintro ⟨q, hq, h⟩
    split at h
    · rename_i hw; simp only [Except.ok.injEq, Prod.mk.injEq] at h
      obtain ⟨rfl, rfl⟩ := h; exact ⟨hq, hw⟩
    · simp at h
  · rintro ⟨h1, h2⟩; exact ⟨p, h1, by rw [h2]⟩

theorem extract_putAt {v w x : V} {s : String} {p : Loc} (h : extractSegment v s = .ok (p, w)) :
    extractSegment (putAt v p x) s = .ok (p, x) := by
  rw [extract_ok] at h ⊢
  exact ⟨by rw [segLoc_putAt h.2]; exact h.1, childAt_putAt_self h.2⟩

theorem seqIndex_lt {n m : Nat} {i : Int} (h : seqIndex n i = some m) : m < n := by
  unfold seqIndex at h
  split at h
  · split at h
    · simp at h; omega
    · simp at h
  · split at h
    · simp at h; omega
    · simp at h

theorem assign_extract {v v' x : V} {s : String} (h : assign v s x = .ok v') :
    ∃ p, extractSegment v' s = .ok (p, x) := by
  unfold assign at h
  split at h
  · rename_i l
    split at h
    · simp at h
    · rename_i i hi
      split at h
      · simp at h
      · rename_i n hn
        simp only [Except.ok.injEq] at h; subst h
        refine ⟨.idx n, extract_ok.2 ⟨?_, ?_⟩⟩
        · simp only [segLoc, hi, List.length_set, hn]
        · simp [childAt, seqIndex_lt hn]
  · split at h <;> simp at h
  · simp only [Except.ok.injEq] at h; subst h
    refine ⟨.key (.str s), extract_ok.2 ⟨?_, ?_⟩⟩
    · simp [segLoc, lookup_dictSet_self]
    · simp [childAt, lookup_dictSet_self]
  · simp only [Except.ok.injEq] at h; subst h
    refine ⟨.attr s, extract_ok.2 ⟨?_, ?_⟩⟩
    · simp [segLoc, lookup_dictSet_self]
    · simp [childAt, lookup_dictSet_self]
  · simp at h

/-- The jump function of `getLoop`. -/
def jumpOf (ev : Bool) (root : V) : Nat → V → Except PyErr (Option (List Loc × V))
  | 0 => fun v => if ev && (refOf v).isSome then .error .recursionError else .ok none
  | fuel + 1 => fun v =>
      if ev then
        match refOf v with
        | some (.str r) => (getLoop ev root fuel (lstripPath (splitSlash r))).map some
        | some _ => .error .attributeError
        | none => .ok none
      else .ok none

theorem getLoop_eq (ev : Bool) (root : V) (fuel : Nat) (segs : Path) :
    getLoop ev root fuel segs = walk (jumpOf ev root fuel) [] root segs := by
  cases fuel <;> rfl

theorem jumpOf_noRef {ev : Bool} {root v : V} {fuel : Nat} (h : ev = false ∨ (refOf v).isSome = false) :
    jumpOf ev root fuel v = .ok none := by
  cases fuel with
  | zero =>
    simp only [jumpOf]
    rcases h with h | h <;> simp [h]
  | succ n =>
    simp only [jumpOf]
    rcases h with h | h
    · simp [h]
    · split
      · split
        · rename_i hr; rw [hr] at h; simp at h
        · rename_i hr; rw [hr] at h; simp at h
        · rfl
      · rfl

/-- Walking without evaluating any pointer. -/
def plainWalk : V → Path → Except PyErr (List Loc × V)
  | v, [] => .ok ([], v)
  | v, s :: rest => do
    let (p, w) ← extractSegment v s
    let (at_, x) ← plainWalk w rest
    .ok (p :: at_, x)

theorem plainWalk_cons {v u : V} {s : String} {rest : Path} {at_ : List Loc} :
    plainWalk v (s :: rest) = .ok (at_, u) ↔
    ∃ p w a, extractSegment v s = .ok (p, w) ∧ plainWalk w rest = .ok (a, u) ∧ at_ = p :: a := by
  rw [plainWalk, bind_ok]
  constructor
  · rintro ⟨⟨p, w⟩, h1, h⟩
    rw [bind_ok] at h
    obtain ⟨⟨a, x⟩, h2, h⟩ := h
    simp only [Except.ok.injEq, Prod.mk.injEq] at h
    obtain ⟨rfl, rfl⟩ := h
    exact ⟨p, w, a, h1, h2, rfl⟩
  · rintro ⟨p, w, a, h1, h2, rfl⟩
    exact ⟨(p, w), h1, by rw [bind_ok]; exact ⟨(a, u), h2, rfl⟩⟩

theorem NoRef.child {v w : V} {p : Loc} (h : NoRef v) (hc : childAt v p = some w) : NoRef w := by
  intro d hd
  unfold childAt at hc
  split at hc
  · exact h d (.list (List.mem_of_getElem? hc) hd)
  · exact h d (.tuple (List.mem_of_getElem? hc) hd)
  · exact h d (.dict (lookup_some_mem hc) hd)
  · exact h d (.obj (lookup_some_mem hc) hd)
  · simp at hc

theorem NoRef.refOf {v : V} (h : NoRef v) : (refOf v).isSome = false := by
  unfold DC.refOf
  split
  · rename_i d
    have := h d .self
    rw [← Bool.not_eq_true, lookup_isSome_iff]; exact this
  · rfl

/-- What `walk` needs to be a plain walk: no evaluated reference among the crossed values. -/
def Clear (ev : Bool) : V → Path → Prop
  | _, [] => True
  | v, s :: rest => (ev = false ∨ (refOf v).isSome = false) ∧
      ∀ p w, extractSegment v s = .ok (p, w) → Clear ev w rest

theorem clear_noRef {ev : Bool} {v : V} (h : ev = false ∨ NoRef v) (segs : Path) : Clear ev v segs := by
  induction segs generalizing v with
  | nil => trivial
  | cons s rest ih =>
    refine ⟨h.imp id NoRef.refOf, fun p w hw => ih ?_⟩
    exact h.imp id (fun h => h.child (extract_ok.1 hw).2)

theorem walk_clear {ev : Bool} {root v : V} {fuel : Nat} {segs : Path} (at_ : List Loc) (h : Clear ev v segs) :
    walk (jumpOf ev root fuel) at_ v segs = (plainWalk v segs).map (fun r => (at_ ++ r.1, r.2)) := by
  induction segs generalizing v at_ with
  | nil => simp [walk, plainWalk, Except.map]
  | cons s rest ih =>
    simp only [walk, plainWalk]
    rw [jumpOf_noRef h.1]
    cases hx : extractSegment v s with
    | error e => rfl
    | ok pw =>
      obtain ⟨p, w⟩ := pw
      simp only [bind, Except.bind]
      rw [ih _ (h.2 p w hx)]
      cases plainWalk w rest with
      | error e => rfl
      | ok r => simp [Except.map]

/-- After an assignment below `v`, walking the same way leads to the assigned value. -/
theorem walk_after_modify {ev : Bool} {x : V} {last : String} (hlast : ev = false ∨ last ≠ "$ref") :
    (init : Path) → (v v' u : V) → (at_ : List Loc) → (ev = false ∨ NoRef v) →
    plainWalk v init = .ok (at_, u) →
    modifyAt v at_ (fun w => assign w last x) = .ok v' →
    ∃ a, plainWalk v' (init ++ [last]) = .ok (a, x) ∧ Clear ev v' (init ++ [last])
  | [], v, v', u, at_, hv, hw, hm => by
    simp only [plainWalk, Except.ok.injEq, Prod.mk.injEq] at hw
    obtain ⟨rfl, rfl⟩ := hw
    simp only [modifyAt] at hm
    obtain ⟨p, hp⟩ := assign_extract hm
    refine ⟨[p], plainWalk_cons.2 ⟨p, x, [], hp, rfl, rfl⟩, ⟨?_, fun _ _ _ => trivial⟩⟩
    rcases hv with hv | hv
    · exact .inl hv
    · rcases hlast with hl | hl
      · exact .inl hl
      · right
        have := hv.refOf
        unfold assign at hm
        split at hm
        · split at hm
          · simp at hm
          · split at hm
            · simp at hm
            · simp only [Except.ok.injEq] at hm; subst hm; rfl
        · split at hm <;> simp at hm
        · simp only [Except.ok.injEq] at hm; subst hm
          simp only [refOf] at this ⊢
          rw [lookup_dictSet_ne _ _ _ _ (by simpa using Ne.symm hl)]; exact this
        · simp only [Except.ok.injEq] at hm; subst hm; rfl
        · simp at hm
  | s :: init, v, v', u, at_, hv, hw, hm => by
    obtain ⟨p, w, a, h1, h2, rfl⟩ := plainWalk_cons.1 hw
    have hc := (extract_ok.1 h1).2
    simp only [modifyAt, hc] at hm
    rw [bind_ok] at hm
    obtain ⟨w', hw', hm⟩ := hm
    simp only [Except.ok.injEq] at hm; subst hm
    obtain ⟨a', h3, h4⟩ := walk_after_modify hlast init w w' u a (hv.imp id (fun h => h.child hc)) h2 hw'
    have h5 := extract_putAt (x := w') h1
    refine ⟨p :: a', plainWalk_cons.2 ⟨p, w', a', h5, h3, rfl⟩, ⟨?_, ?_⟩⟩
    · rcases hv with hv | hv
      · exact .inl hv
      · right; rw [refOf_putAt hc]; exact hv.refOf
    · intro q y hy
      rw [h5] at hy
      simp only [Except.ok.injEq, Prod.mk.injEq] at hy
      obtain ⟨_, rfl⟩ := hy
      exact h4

theorem lstrip_hash (segs : Path) (h : segs ≠ []) : lstripPath ("#" :: segs) = lstripPath segs := by
  cases segs with
  | nil => exact absurd rfl h
  | cons s rest => rw [lstripPath]; rfl

theorem lstrip_plain {s : String} {rest : Path} (h : ∃ c cs, s.toList = c :: cs ∧ c ≠ '#') :
    lstripPath (s :: rest) = s :: rest := by
  obtain ⟨c, cs, hs, hc⟩ := h
  have : s.toList.dropWhile (· = '#') = s.toList := by rw [hs]; simp [hc]
  cases rest <;>
  · rw [lstripPath]
    simp only [this, String.ofList_toList]
    rw [if_neg]
    rintro rfl; simp at hs

theorem Rooted.lstrip {path : Path} {segs : List String} (h : Rooted path segs) : lstripPath path = segs := by
  obtain ⟨rfl, s, rest, rfl, hs⟩ := h
  rw [lstrip_hash _ (by simp), lstrip_plain hs]

/-- `setPath` on a rooted path, without pointers in the way. -/
theorem setPath_eq {fuel : Nat} {ev : Bool} {o x : V} {path : Path} {segs : List String} (hr : Rooted path segs)
    (hv : ev = false ∨ NoRef o) :
    setPath fuel ev o path x = (do
      let (at_, _) ← plainWalk o segs.dropLast
      modifyAt o at_ (fun w => assign w (segs.getLastD "") x)) := by
  have hl := hr.lstrip
  obtain ⟨rfl, s, rest, rfl, hs⟩ := hr
  unfold setPath
  rw [hl]
  have hlast : ("#" :: s :: rest).getLastD "" = (s :: rest).getLastD "" := by simp [List.getLastD]
  rw [hlast]
  cases rest with
  | nil => simp [plainWalk, modifyAt, bind, Except.bind]
  | cons t rest =>
    simp only [List.dropLast_cons_cons]
    rw [if_neg]
    · rw [lstrip_plain hs, getLoop_eq, walk_clear _ (clear_noRef hv _)]
      cases plainWalk o (s :: (t :: rest).dropLast) with
      | error e => rfl
      | ok r => simp [Except.map, bind, Except.bind]
    · simp only [reduceCtorEq, List.cons.injEq, false_or, not_and]
      rintro rfl; obtain ⟨c, cs, hs, _⟩ := hs; simp at hs

theorem getPath_eq {fuel : Nat} {ev : Bool} {o : V} {path : Path} {segs : List String} (hr : Rooted path segs)
    (hc : Clear ev o segs) : getPath fuel ev o path = (plainWalk o segs).map (·.2) := by
  unfold getPath
  rw [hr.lstrip, getLoop_eq, walk_clear _ hc]
  cases plainWalk o segs with
  | error e => rfl
  | ok r => rfl

/-! ### Elsewhere -/

theorem segLoc_ne {v : V} {s t : String} {p q : Loc} (hs : segLoc v s = .ok p) (ht : segLoc v t = .ok q)
    (hcs : ∀ i : Int, int? s = some i → s = toString i ∧ 0 ≤ i)
    (hct : ∀ i : Int, int? t = some i → t = toString i ∧ 0 ≤ i) (hne : s ≠ t) : q ≠ p := by
  have seqCase : ∀ (n : Nat) (i j : Int) (a b : Nat), int? s = some i → int? t = some j → seqIndex n i = some a →
      seqIndex n j = some b → b ≠ a := by
    intro n i j a b h1 h2 h3 h4 e
    obtain ⟨e1, p1⟩ := hcs i h1
    obtain ⟨e2, p2⟩ := hct j h2
    simp only [seqIndex, p1, p2, if_true] at h3 h4
    split at h3
    · split at h4
      · simp at h3 h4
        have : i = j := by omega
        exact hne (by rw [e1, e2, this])
      · simp at h4
    · simp at h3
  have dig : ∀ (u : String) (n : Nat), digits? u = some n → int? u = some n := by
    intro u n hu
    unfold digits? at hu
    unfold int?
    split at hu
    · simp at hu
    · rename_i cs hcs
      split
      · rename_i h; simp [h] at hcs
      · rename_i h; rw [h] at hu; simp [digitsVal] at hu
      · rename_i h; rw [h] at hu; simp [digitsVal] at hu
      · rw [hu]; rfl
  unfold segLoc at hs ht
  cases v with
  | list l =>
    simp only at hs ht
    split at hs
    · simp at hs
    · split at hs
      · simp at hs
      · split at ht
        · simp at ht
        · split at ht
          · simp at ht
          · simp only [Except.ok.injEq] at hs ht
            subst hs ht
            rename_i h1 _ _ h2 _ _ h3 _ _ h4
            intro e; simp at e
            exact seqCase _ _ _ _ _ h1 h3 h2 h4 e
  | tuple l =>
    simp only at hs ht
    split at hs
    · simp at hs
    · split at hs
      · simp at hs
      · split at ht
        · simp at ht
        · split at ht
          · simp at ht
          · simp only [Except.ok.injEq] at hs ht
            subst hs ht
            rename_i h1 _ _ h2 _ _ h3 _ _ h4
            intro e; simp at e
            exact seqCase _ _ _ _ _ h1 h3 h2 h4 e
  | dict d =>
    have key : ∀ (u : String) (r : Loc), (if (d.lookup (.str u)).isSome then Except.ok (Loc.key (.str u))
        else match digits? u with
          | some n => if (d.lookup (.int n)).isSome then .ok (.key (.int n)) else .error PyErr.extractionError
          | none =>
            if u.toList.head? = some '(' ∧ u.toList.getLast? = some ')' ∧ ',' ∈ u.toList then .error .keyError
            else .error .extractionError) = .ok r → r = .key (.str u) ∨ ∃ n, digits? u = some n ∧ r = .key (.int n) := by
      intro u r h
      split at h
      · simp at h; exact .inl h.symm
      · split at h
        · rename_i n hn
          split at h
          · simp at h; exact .inr ⟨n, hn, h.symm⟩
          · simp at h
        · split at h <;> simp at h
    rcases key s p hs with rfl | ⟨n, hn, rfl⟩
    · rcases key t q ht with rfl | ⟨m, hm, rfl⟩
      · simpa using hne.symm
      · simp
    · rcases key t q ht with rfl | ⟨m, hm, rfl⟩
      · simp
      · intro e
        simp at e
        have e1 := (hcs n (dig s n hn)).1
        have e2 := (hct m (dig t m hm)).1
        exact hne (by rw [e1, e2, e])
  | obj c d =>
    simp only at hs ht
    split at hs
    · split at ht
      · simp at hs ht; subst hs ht; simpa using hne.symm
      · simp at ht
    · simp at hs
  | _ => simp at hs

/-- Extraction of another segment after an assignment. -/
theorem assign_other {v v' x : V} {s t : String} (h : assign v s x = .ok v')
    (hcs : ∀ i : Int, int? s = some i → s = toString i ∧ 0 ≤ i)
    (hct : ∀ i : Int, int? t = some i → t = toString i ∧ 0 ≤ i) (hne : s ≠ t) :
    extractSegment v' t = extractSegment v t := by
  unfold assign at h
  split at h
  · rename_i l
    split at h
    · simp at h
    · rename_i i hi
      split at h
      · simp at h
      · rename_i n hn
        simp only [Except.ok.injEq] at h; subst h
        have hp : segLoc (.list l) s = .ok (.idx n) := by simp [segLoc, hi, hn]
        have hch : childAt (.list l) (.idx n) = some (l[n]'(seqIndex_lt hn)) := by simp [childAt, seqIndex_lt hn]
        have e : segLoc (.list (l.set n x)) t = segLoc (.list l) t := segLoc_putAt (x := x) hch t
        unfold extractSegment
        rw [e]
        cases ht : segLoc (.list l) t with
        | error e => rfl
        | ok q =>
          have hq := segLoc_ne hp ht hcs hct hne
          have := childAt_putAt_ne (v := .list l) (x := x) hq
          simp only [bind, Except.bind]
          simp only [putAt] at this
          rw [this]
  · split at h <;> simp at h
  · simp only [Except.ok.injEq] at h; subst h
    rename_i d
    have e1 : (dictSet d (Key.str s) x).lookup (.str t) = d.lookup (.str t) :=
      lookup_dictSet_ne _ _ _ _ (by simpa using hne.symm)
    have e2 : ∀ n, (dictSet d (Key.str s) x).lookup (.int n) = d.lookup (.int n) := fun n =>
      lookup_dictSet_ne _ _ _ _ (by simp)
    have e : segLoc (.dict (dictSet d (.str s) x)) t = segLoc (.dict d) t := by
      simp only [segLoc, e1, e2]
    unfold extractSegment
    rw [e]
    cases ht : segLoc (.dict d) t with
    | error e => rfl
    | ok q =>
      simp only [bind, Except.bind]
      have : childAt (.dict (dictSet d (.str s) x)) q = childAt (.dict d) q := by
        simp only [segLoc] at ht
        split at ht
        · simp at ht; subst ht; exact e1
        · split at ht
          · split at ht
            · simp at ht; subst ht; exact e2 _
            · simp at ht
          · split at ht <;> simp at ht
      rw [this]
  · simp only [Except.ok.injEq] at h; subst h
    rename_i c d
    have e1 : (dictSet d (Key.str s) x).lookup (.str t) = d.lookup (.str t) :=
      lookup_dictSet_ne _ _ _ _ (by simpa using hne.symm)
    unfold extractSegment segLoc
    simp only [e1]
    split
    · simp only [bind, Except.bind, childAt, e1]
    · rfl
  · simp at h

/-- Reading a diverging path after an assignment. -/
theorem walk_elsewhere {ev : Bool} {x : V} {last s t : String} {r r' : Path} (hne : s ≠ t)
    (hlast : ev = false ∨ last ≠ "$ref") :
    (c : Path) → (init : Path) → (v v' u : V) → (at_ : List Loc) →
    init ++ [last] = c ++ s :: r → Canonical (init ++ [last]) → Canonical (c ++ t :: r') → (ev = false ∨ NoRef v) →
    plainWalk v init = .ok (at_, u) →
    modifyAt v at_ (fun w => assign w last x) = .ok v' →
    (plainWalk v' (c ++ t :: r')).map (·.2) = (plainWalk v (c ++ t :: r')).map (·.2) ∧ Clear ev v' (c ++ t :: r')
  | [], [], v, v', u, at_, he, hc1, hc2, hv, hw, hm => by
    simp only [plainWalk, Except.ok.injEq, Prod.mk.injEq] at hw
    obtain ⟨rfl, rfl⟩ := hw
    simp only [modifyAt] at hm
    simp only [List.nil_append, List.cons.injEq] at he
    obtain ⟨rfl, _⟩ := he
    have hx := assign_other hm (hc1 last (by simp)) (hc2 t (by simp)) hne
    refine ⟨by simp only [List.nil_append, plainWalk, hx], ⟨?_, ?_⟩⟩
    · rcases hv with hv | hv
      · exact .inl hv
      · rcases hlast with hl | hl
        · exact .inl hl
        · right
          have := hv.refOf
          unfold assign at hm
          split at hm
          · split at hm
            · simp at hm
            · split at hm
              · simp at hm
              · simp only [Except.ok.injEq] at hm; subst hm; rfl
          · split at hm <;> simp at hm
          · simp only [Except.ok.injEq] at hm; subst hm
            simp only [refOf] at this ⊢
            rw [lookup_dictSet_ne _ _ _ _ (by simpa using Ne.symm hl)]; exact this
          · simp only [Except.ok.injEq] at hm; subst hm; rfl
          · simp at hm
    · intro p w hp
      rw [hx] at hp
      exact clear_noRef (hv.imp id (fun h => h.child (extract_ok.1 hp).2)) _
  | [], s' :: init, v, v', u, at_, he, hc1, hc2, hv, hw, hm => by
    simp only [List.nil_append, List.cons_append, List.cons.injEq] at he
    obtain ⟨rfl, he⟩ := he
    obtain ⟨p, w, a, h1, h2, rfl⟩ := plainWalk_cons.1 hw
    have hc := (extract_ok.1 h1).2
    simp only [modifyAt, hc] at hm
    rw [bind_ok] at hm
    obtain ⟨w', hw', hm⟩ := hm
    simp only [Except.ok.injEq] at hm; subst hm
    have hx : extractSegment (putAt v p w') t = extractSegment v t := by
      unfold extractSegment
      rw [segLoc_putAt hc]
      cases ht : segLoc v t with
      | error e => rfl
      | ok q =>
        have hq := segLoc_ne (extract_ok.1 h1).1 ht (hc1 s' (by simp)) (hc2 t (by simp)) hne
        simp only [bind, Except.bind]
        rw [childAt_putAt_ne hq]
    refine ⟨by simp only [List.nil_append, plainWalk, hx], ⟨?_, ?_⟩⟩
    · rcases hv with hv | hv
      · exact .inl hv
      · right; rw [refOf_putAt hc]; exact hv.refOf
    · intro q y hy
      rw [hx] at hy
      exact clear_noRef (hv.imp id (fun h => h.child (extract_ok.1 hy).2)) _
  | c0 :: c, [], v, v', u, at_, he, hc1, hc2, hv, hw, hm => by simp at he
  | c0 :: c, s' :: init, v, v', u, at_, he, hc1, hc2, hv, hw, hm => by
    simp only [List.cons_append, List.cons.injEq] at he
    obtain ⟨rfl, he⟩ := he
    obtain ⟨p, w, a, h1, h2, rfl⟩ := plainWalk_cons.1 hw
    have hc := (extract_ok.1 h1).2
    simp only [modifyAt, hc] at hm
    rw [bind_ok] at hm
    obtain ⟨w', hw', hm⟩ := hm
    simp only [Except.ok.injEq] at hm; subst hm
    obtain ⟨h3, h4⟩ := walk_elsewhere hne hlast c init w w' u a he (fun y hy => hc1 y (by
      simp only [List.cons_append, List.mem_cons]; exact .inr hy)) (fun y hy => hc2 y (by
      simp only [List.cons_append, List.mem_cons]; exact .inr hy))
      (hv.imp id (fun h => h.child hc)) h2 hw'
    have h5 := extract_putAt (x := w') h1
    refine ⟨?_, ⟨?_, ?_⟩⟩
    · simp only [List.cons_append, plainWalk]
      rw [h5, h1]
      simp only [bind, Except.bind]
      generalize plainWalk w' (c ++ t :: r') = A at *
      generalize plainWalk w (c ++ t :: r') = B at *
      cases A <;> cases B <;> simp_all [Except.map]
    · rcases hv with hv | hv
      · exact .inl hv
      · right; rw [refOf_putAt hc]; exact hv.refOf
    · intro q y hy
      rw [h5] at hy
      simp only [Except.ok.injEq, Prod.mk.injEq] at hy
      obtain ⟨_, rfl⟩ := hy
      exact h4

end DC
