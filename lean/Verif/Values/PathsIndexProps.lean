import Verif.Values.EmitLemmas
import Verif.Values.PathsSpec
/- C09, on the segments of sequences: which element an index designates. -/
namespace DC
set_option linter.unusedSimpArgs false

theorem int_neg_toString (n : Nat) : int? (String.ofList ('-' :: (toString n).toList)) = some (-(n : Int)) := by
  have e : (toString n).toList = Nat.toDigits 10 n := Nat.toList_repr
  have hv := digitsVal_toDigits n
  have hne : Nat.toDigits 10 n ≠ [] := Nat.toDigits_ne_nil
  unfold int?
  rw [String.toList_ofList, e]
  generalize Nat.toDigits 10 n = l at hv hne
  match l with
  | [] => exact absurd rfl hne
  | c :: cs => simp [hv]

theorem lstrip_of_rooted {s : String} {c : Char} {cs : List Char} (h : s.toList = c :: cs) (hc : c ≠ '#') :
    lstripPath ["#", s] = [s] := by
  have hs : String.ofList (s.toList.dropWhile (· = '#')) = s := by
    rw [h, List.dropWhile_cons_of_neg (by simpa using hc), ← h, String.ofList_toList]
  have hne : s ≠ "" := by intro e; rw [e] at h; cases h
  have h0 : String.ofList (("#" : String).toList.dropWhile (· = '#')) = "" := by decide
  rw [lstripPath]
  simp only [h0, if_true]
  rw [lstripPath]
  simp only [hs, hne, if_false]

theorem read_seg (fuel : Nat) (o : V) (s : String) (p : Loc) (x : V) (hl : lstripPath ["#", s] = [s])
    (h : extractSegment o s = .ok (p, x)) : getPath fuel false o ["#", s] = .ok x := by
  unfold getPath
  rw [hl]
  cases fuel <;> simp [getLoop, walk, h, bind, Except.bind]

theorem toString_head (n : Nat) : ∃ c cs, (toString n).toList = c :: cs ∧ c ≠ '#' := by
  have e : (toString n).toList = Nat.toDigits 10 n := Nat.toList_repr
  have hd : ∀ c ∈ Nat.toDigits 10 n, c.isDigit := fun c hc => Nat.isDigit_of_mem_toDigits (by decide) (by decide) hc
  have hne : Nat.toDigits 10 n ≠ [] := Nat.toDigits_ne_nil
  rw [e]
  generalize Nat.toDigits 10 n = l at hd hne
  match l with
  | [] => exact absurd rfl hne
  | c :: cs =>
    refine ⟨c, cs, rfl, ?_⟩
    intro hc; have := hd c (by simp); rw [hc] at this; exact absurd this (by decide)

/-- C09: in a list or a tuple, the segment written with the digits of `k` leads to the element of index `k`, and the
segment written `-j` leads to the `j`-th element from the end. -/
theorem C09_index (fuel : Nat) (l : List V) (o x : V) (ho : o = .list l ∨ o = .tuple l) (k j : Nat)
    (hj : j + k = l.length) (hx : l[k]? = some x) :
    getPath fuel false o ["#", toString k] = .ok x ∧
    getPath fuel false o ["#", String.ofList ('-' :: (toString j).toList)] = .ok x := by
  have hk : k < l.length := (List.getElem?_eq_some_iff.mp hx).1
  have hneg : ¬ (0 : Int) ≤ -(j : Int) := by omega
  have hjl : (- -(j : Int)).toNat = j := by omega
  have hjk : l.length - j = k := by omega
  have hjl' : j ≤ l.length := by omega
  obtain ⟨c, cs, hc, hc'⟩ := toString_head k
  constructor
  · refine read_seg fuel o _ (.idx k) x (lstrip_of_rooted hc hc') ?_
    have hs : seqIndex l.length (k : Int) = some k := by
      unfold seqIndex; rw [if_pos (by omega), if_pos (by omega)]; simp
    rcases ho with rfl | rfl <;>
      simp only [extractSegment, segLoc, int_toString, hs, childAt, hx, bind, Except.bind]
  · refine read_seg fuel o _ (.idx k) x (lstrip_of_rooted (c := '-') (cs := (toString j).toList)
      (by rw [String.toList_ofList]) (by decide)) ?_
    have hs : seqIndex l.length (-(j : Int)) = some k := by
      unfold seqIndex; rw [if_neg hneg, hjl, if_pos hjl', hjk]
    rcases ho with rfl | rfl <;>
      simp only [extractSegment, segLoc, int_neg_toString, hs, childAt, hx, bind, Except.bind]

/-- C09: an index out of the sequence, from the start or from the end, raises IndexError. -/
theorem C09_out (fuel : Nat) (l : List V) (o : V) (ho : o = .list l ∨ o = .tuple l) (k j : Nat)
    (hk : l.length ≤ k) (hj : l.length < j) :
    getPath fuel false o ["#", toString k] = .error .indexError ∧
    getPath fuel false o ["#", String.ofList ('-' :: (toString j).toList)] = .error .indexError := by
  have hs : seqIndex l.length (k : Int) = none := by
    unfold seqIndex; rw [if_pos (by omega), if_neg (by omega)]
  have hs' : seqIndex l.length (-(j : Int)) = none := by
    unfold seqIndex; rw [if_neg (by omega), if_neg (by omega)]
  obtain ⟨c, cs, hc, hc'⟩ := toString_head k
  have key : ∀ s, lstripPath ["#", s] = [s] → segLoc o s = .error .indexError →
      getPath fuel false o ["#", s] = .error .indexError := by
    intro s hl h
    unfold getPath
    rw [hl]
    cases fuel <;> simp [getLoop, walk, extractSegment, h, bind, Except.bind]
  constructor
  · refine key _ (lstrip_of_rooted hc hc') ?_
    rcases ho with rfl | rfl <;> simp only [segLoc, int_toString, hs]
  · refine key _ (lstrip_of_rooted (c := '-') (cs := (toString j).toList)
      (by rw [String.toList_ofList]) (by decide)) ?_
    rcases ho with rfl | rfl <;> simp only [segLoc, int_neg_toString, hs']

/-- In a list of three elements, the segments `-1` and `2` lead to the last one. -/
example : getPath 0 false (.list [.int 4, .int 5, .int 6]) ["#", "2"] = .ok (.int 6) ∧
    getPath 0 false (.list [.int 4, .int 5, .int 6]) ["#", "-1"] = .ok (.int 6) :=
  C09_index 0 [.int 4, .int 5, .int 6] _ (.int 6) (.inl rfl) 2 1 rfl rfl

/-- The segments `3` and `-4` are out of it. -/
example : getPath 0 false (.list [.int 4, .int 5, .int 6]) ["#", "3"] = .error .indexError ∧
    getPath 0 false (.list [.int 4, .int 5, .int 6]) ["#", "-4"] = .error .indexError :=
  C09_out 0 [.int 4, .int 5, .int 6] _ (.inl rfl) 3 4 (by decide) (by decide)

end DC
