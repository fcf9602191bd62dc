import Verif.Values.PathsLemmas
/-
C09, C10: reading and writing at a path.
The functions are `getPath` (get_in_object_from_path) and `setPath` (set_in_object_from_path, returning the mutated
root); `ev` is their argument `evaluate_pointers`.
-/
namespace DC

/-- Writing at the path `#` of a dictionary does not change what is read at this path: it adds a key `#`. -/
theorem C09_root_violated :
    ∃ (o o' x : V) (path : Path), setPath 10 true o path x = .ok o' ∧ getPath 10 true o' path ≠ .ok x := by
  refine ⟨.dict [(.str "a", .int 1)], .dict [(.str "a", .int 1), (.str "#", .int 2)], .int 2, ["#"], rfl, ?_⟩
  intro h
  have : getPath 10 true (.dict [(.str "a", .int 1), (.str "#", .int 2)]) ["#"] = .error .extractionError := rfl
  rw [this] at h; cases h

/-- Writing below a reference changes the dictionary holding the reference, reading goes through the reference. -/
theorem C09_pointer_violated :
    ∃ (o o' x : V) (segs : Path), Rooted ("#" :: segs) segs ∧ setPath 10 true o ("#" :: segs) x = .ok o' ∧
      getPath 10 true o' ("#" :: segs) ≠ .ok x := by
  refine ⟨.dict [(.str "a", .dict [(.str "$ref", .str "#/c")]), (.str "c", .dict [(.str "b", .int 1)])],
    .dict [(.str "a", .dict [(.str "$ref", .str "#/c"), (.str "b", .int 2)]), (.str "c", .dict [(.str "b", .int 1)])],
    .int 2, ["a", "b"], ⟨rfl, "a", ["b"], rfl, 'a', [], by decide, by decide⟩, rfl, ?_⟩
  intro h
  have : getPath 10 true (.dict [(.str "a", .dict [(.str "$ref", .str "#/c"), (.str "b", .int 2)]),
    (.str "c", .dict [(.str "b", .int 1)])]) ["#", "a", "b"] = .ok (.int 1) := rfl
  rw [this] at h; cases h

/-- C09, for paths of at least one segment, pointers being not evaluated or absent: what is read at a path after an
assignment at this path is the assigned value.
Missing: the path of the root itself, and objects holding references with `evaluate_pointers` (the code does not
satisfy the property in these cases). -/
theorem C09_get_after_set_partial (fuel : Nat) (ev : Bool) (o o' x : V) (path : Path) (segs : List String)
    (hr : Rooted path segs) (hp : ev = false ∨ (NoRef o ∧ "$ref" ∉ segs)) (h : setPath fuel ev o path x = .ok o') :
    getPath fuel ev o' path = .ok x := by
  have hv : ev = false ∨ NoRef o := hp.imp id And.left
  rw [setPath_eq hr hv, bind_ok] at h
  obtain ⟨⟨at_, u⟩, hw, hm⟩ := h
  obtain ⟨s, rest, hsegs, _⟩ := hr.2
  have hne : segs ≠ [] := by rw [hsegs]; simp
  have hsplit : segs.dropLast ++ [segs.getLastD ""] = segs := by
    rw [List.getLastD_eq_getLast?, List.getLast?_eq_some_getLast hne]
    exact List.dropLast_append_getLast hne
  have hlast : ev = false ∨ segs.getLastD "" ≠ "$ref" := by
    rcases hp with hp | ⟨_, hp⟩
    · exact .inl hp
    · right; intro e; apply hp; rw [← hsplit, e]; simp
  obtain ⟨a, h1, h2⟩ := walk_after_modify hlast segs.dropLast o o' u at_ hv hw hm
  rw [hsplit] at h1 h2
  rw [getPath_eq hr h2, h1]; rfl

/-- The assignment succeeds as soon as the path can be read and the last container is not a tuple. -/
theorem C09_set_succeeds (fuel : Nat) (ev : Bool) (o x y : V) (path : Path) (segs : List String)
    (hr : Rooted path segs) (hp : ev = false ∨ NoRef o) (h : getPath fuel ev o path = .ok y)
    (ht : ∀ l, ¬ Occurs o (.tuple l)) : ∃ o', setPath fuel ev o path x = .ok o' := by
  obtain ⟨s, rest, hsegs, _⟩ := hr.2
  have hne : segs ≠ [] := by rw [hsegs]; simp
  have hsplit : segs.dropLast ++ [segs.getLastD ""] = segs := by
    rw [List.getLastD_eq_getLast?, List.getLast?_eq_some_getLast hne]
    exact List.dropLast_append_getLast hne
  rw [getPath_eq hr (clear_noRef hp _)] at h
  rw [setPath_eq hr hp]
  have hy : ∃ a, plainWalk o (segs.dropLast ++ [segs.getLastD ""]) = .ok (a, y) := by
    rw [hsplit]
    cases hw : plainWalk o segs with
    | error e => rw [hw] at h; simp [Except.map] at h
    | ok r => rw [hw] at h; simp [Except.map] at h; exact ⟨r.1, by rw [← h]⟩
  obtain ⟨a, hy⟩ := hy
  clear hsplit hne hsegs h hp hr
  suffices H : ∀ (init : Path) (last : String) (v : V) (a : List Loc), (∀ l, ¬ Occurs v (.tuple l)) →
      plainWalk v (init ++ [last]) = .ok (a, y) →
      ∃ at_ u v', plainWalk v init = .ok (at_, u) ∧ modifyAt v at_ (fun w => assign w last x) = .ok v' by
    obtain ⟨at_, u, v', h1, h2⟩ := H _ _ _ _ ht hy
    exact ⟨v', by rw [h1]; exact h2⟩
  intro init
  induction init with
  | nil =>
    intro last v a ht h
    refine ⟨[], v, ?_⟩
    obtain ⟨p, w, a, h1, _⟩ := plainWalk_cons.1 h
    obtain ⟨h2, h3⟩ := extract_ok.1 h1
    simp only [modifyAt]
    suffices ∃ v', assign v last x = .ok v' by obtain ⟨v', h⟩ := this; exact ⟨v', rfl, h⟩
    unfold segLoc at h2
    cases v with
    | list l =>
      simp only at h2
      split at h2
      · simp at h2
      · split at h2
        · simp at h2
        · rename_i hi _ n hn
          exact ⟨.list (l.set n x), by rw [assign, hi]; simp only [hn]⟩
    | tuple l => exact absurd .self (ht l)
    | dict d => exact ⟨_, rfl⟩
    | obj c d => exact ⟨_, rfl⟩
    | _ => simp at h2
  | cons s init ih =>
    intro last v a ht h
    obtain ⟨p, w, a, h1, h2, _⟩ := plainWalk_cons.1 h
    have hc := (extract_ok.1 h1).2
    have htw : ∀ l, ¬ Occurs w (.tuple l) := by
      intro l hl
      unfold childAt at hc
      split at hc
      · exact ht l (.list (List.mem_of_getElem? hc) hl)
      · exact ht l (.tuple (List.mem_of_getElem? hc) hl)
      · exact ht l (.dict (lookup_some_mem hc) hl)
      · exact ht l (.obj (lookup_some_mem hc) hl)
      · simp at hc
    obtain ⟨at_, u, w', h3, h4⟩ := ih last w a htw h2
    exact ⟨p :: at_, u, putAt v p w', plainWalk_cons.2 ⟨p, w, at_, h1, h3, rfl⟩, by
      simp only [modifyAt, hc, h4, bind, Except.bind]⟩

/-- Two different paths may designate the same element of a list. -/
theorem C10_alias_violated :
    ∃ (o o' x : V) (p q : List String), Rooted ("#" :: p) p ∧ Rooted ("#" :: q) q ∧ Diverge p q ∧
      setPath 10 false o ("#" :: p) x = .ok o' ∧
      getPath 10 false o' ("#" :: q) ≠ getPath 10 false o ("#" :: q) := by
  refine ⟨.list [.int 1, .int 2], .list [.int 1, .int 3], .int 3, ["-1"], ["1"],
    ⟨rfl, "-1", [], rfl, '-', ['1'], by decide, by decide⟩, ⟨rfl, "1", [], rfl, '1', [], by decide, by decide⟩,
    ⟨[], "-1", "1", [], [], rfl, rfl, by decide⟩, rfl, ?_⟩
  intro h
  have h1 : getPath 10 false (.list [.int 1, .int 3]) ["#", "1"] = .ok (.int 3) := rfl
  have h2 : getPath 10 false (.list [.int 1, .int 2]) ["#", "1"] = .ok (.int 2) := rfl
  rw [h1, h2] at h; simp at h

/-- C10, for indices written in the usual way, pointers being not evaluated or absent: an assignment does not change
what is read (value or exception) at a path that takes another branch.
Missing: indices with a sign or leading zeros, and objects holding references with `evaluate_pointers`. -/
theorem C10_elsewhere_partial (fuel : Nat) (ev : Bool) (o o' x : V) (path path' : Path) (p q : List String)
    (hr : Rooted path p) (hr' : Rooted path' q) (hd : Diverge p q) (hcp : Canonical p) (hcq : Canonical q)
    (hp : ev = false ∨ (NoRef o ∧ "$ref" ∉ p)) (h : setPath fuel ev o path x = .ok o') :
    getPath fuel ev o' path' = getPath fuel ev o path' := by
  have hv : ev = false ∨ NoRef o := hp.imp id And.left
  rw [setPath_eq hr hv, bind_ok] at h
  obtain ⟨⟨at_, u⟩, hw, hm⟩ := h
  obtain ⟨s0, rest, hsegs, _⟩ := hr.2
  have hne : p ≠ [] := by rw [hsegs]; simp
  have hsplit : p.dropLast ++ [p.getLastD ""] = p := by
    rw [List.getLastD_eq_getLast?, List.getLast?_eq_some_getLast hne]
    exact List.dropLast_append_getLast hne
  have hlast : ev = false ∨ p.getLastD "" ≠ "$ref" := by
    rcases hp with hp | ⟨_, hp⟩
    · exact .inl hp
    · right; intro e; apply hp; rw [← hsplit, e]; simp
  obtain ⟨c, s, t, r, r', e1, e2, hst⟩ := hd
  obtain ⟨h1, h2⟩ := walk_elsewhere (r := r) hst hlast c p.dropLast o o' u at_ (hsplit.trans e1)
    (by rw [hsplit]; exact hcp) (by rw [← e2]; exact hcq) hv hw hm
  rw [← e2] at h1 h2
  rw [getPath_eq hr' h2, getPath_eq hr' (clear_noRef hv _)]
  exact h1

/-- A nested object on which both theorems apply. -/
def pathDemo : V :=
  .obj "A" [(.str "parts", .list [.dict [(.str "x", .int 1)], .dict [(.str "x", .int 2)]]), (.str "n", .int 0)]

example : Rooted ["#", "parts", "1", "x"] ["parts", "1", "x"] :=
  ⟨rfl, "parts", _, rfl, 'p', ['a', 'r', 't', 's'], by decide, by decide⟩
example : Diverge ["parts", "1", "x"] ["parts", "0", "x"] := ⟨["parts"], "1", "0", ["x"], ["x"], rfl, rfl, by decide⟩
example : Canonical ["parts", "1", "x"] := by
  intro s hs i hi
  simp only [List.mem_cons, List.not_mem_nil, or_false] at hs
  rcases hs with rfl | rfl | rfl
  · have : int? "parts" = none := by decide
    rw [this] at hi; cases hi
  · have : int? "1" = some 1 := by decide
    rw [this] at hi; cases hi; decide
  · have : int? "x" = none := by decide
    rw [this] at hi; cases hi
example : ∃ o', setPath 0 false pathDemo ["#", "parts", "1", "x"] (.str "new") = .ok o' ∧
    getPath 0 false o' ["#", "parts", "1", "x"] = .ok (.str "new") ∧
    getPath 0 false o' ["#", "parts", "0", "x"] = .ok (.int 1) :=
  ⟨.obj "A" [(.str "parts", .list [.dict [(.str "x", .int 1)], .dict [(.str "x", .str "new")]]), (.str "n", .int 0)],
    rfl, rfl, rfl⟩

end DC
