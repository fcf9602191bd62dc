import Verif.Values.EmitSpec
import Verif.Values.SerializeLemmas
import Verif.Values.PathsLemmas
import Verif.Util.PyDict
/- Helper lemmas for Verif/Values/EmitProps.lean: strings, dictionaries, and the monotony of reading. -/
namespace DC
set_option linter.unusedSimpArgs false

/-! ### Strings -/

theorem digitsVal_append : (xs ys : List Char) → (acc : Nat) →
    digitsVal (xs ++ ys) acc = (digitsVal xs acc).bind fun a => digitsVal ys a
  | [], ys, acc => by simp [digitsVal]
  | c :: xs, ys, acc => by
    rw [List.cons_append, digitsVal, digitsVal]
    split
    · exact digitsVal_append xs ys _
    · rfl

theorem digitChar_val {d : Nat} (h : d < 10) : '0' ≤ d.digitChar ∧ d.digitChar ≤ '9' ∧ d.digitChar.toNat - 48 = d := by
  have : d = 0 ∨ d = 1 ∨ d = 2 ∨ d = 3 ∨ d = 4 ∨ d = 5 ∨ d = 6 ∨ d = 7 ∨ d = 8 ∨ d = 9 := by omega
  rcases this with h | h | h | h | h | h | h | h | h | h <;> subst h <;> decide

theorem digitsVal_toDigits (n : Nat) : digitsVal (Nat.toDigits 10 n) 0 = some n := by
  induction n using Nat.strongRecOn with
  | ind n ih =>
    by_cases h : n < 10
    · obtain ⟨a, b, c⟩ := digitChar_val h
      rw [Nat.toDigits_of_lt_base h]
      simp only [digitsVal]
      rw [if_pos ⟨a, b⟩, c]; simp
    · obtain ⟨a, b, c⟩ := digitChar_val (Nat.mod_lt n (show 0 < 10 by decide))
      rw [Nat.toDigits_of_base_le (by decide) (by omega), digitsVal_append, ih (n / 10) (by omega)]
      simp only [Option.bind_some, digitsVal]
      rw [if_pos ⟨a, b⟩, c]
      congr 1; omega

theorem int_toString (n : Nat) : int? (toString n) = some (n : Int) := by
  have e : (toString n).toList = Nat.toDigits 10 n := Nat.toList_repr
  have hv := digitsVal_toDigits n
  have hd : ∀ c ∈ Nat.toDigits 10 n, c.isDigit := fun c hc => Nat.isDigit_of_mem_toDigits (by decide) (by decide) hc
  unfold int?
  rw [e]
  have hne : Nat.toDigits 10 n ≠ [] := Nat.toDigits_ne_nil
  generalize Nat.toDigits 10 n = l at hv hd hne
  match l with
  | [] => exact absurd rfl hne
  | c :: cs =>
    split
    · simp_all
    · rename_i h; simp at h; have := hd c (by simp); rw [h.1] at this; exact absurd this (by decide)
    · rename_i h; simp at h; have := hd c (by simp); rw [h.1] at this; exact absurd this (by decide)
    · rw [hv]; rfl

theorem splitSlash_plain {s : String} (h : '/' ∉ s.toList) : splitSlash s = [s] := by
  have : ∀ l : List Char, '/' ∉ l → splitChars l = [l] := by
    intro l
    induction l with
    | nil => intro _; rfl
    | cons c cs ih =>
      intro h
      simp only [List.mem_cons, not_or] at h
      rw [splitChars, if_neg (Ne.symm h.1), ih h.2]
  rw [splitSlash, this _ h]
  simp [String.ofList_toList]

theorem idStr_toList (n : Nat) : (idStr n).toList = 'i' :: List.replicate n 'i' := by
  simp [idStr]

theorem splitChars_sep (xs ys : List Char) (h : '/' ∉ xs) : splitChars (xs ++ '/' :: ys) = xs :: splitChars ys := by
  induction xs with
  | nil => rw [List.nil_append, splitChars, if_pos (by rfl)]
  | cons c cs ih =>
    simp only [List.mem_cons, not_or] at h
    rw [List.cons_append, splitChars, if_neg (Ne.symm h.1), ih h.2]

theorem splitSlash_ref (n : Nat) : splitSlash (refStr n) = ["#", "_references", idStr n] := by
  have hl : (refStr n).toList = ['#'] ++ '/' :: ("_references".toList ++ '/' :: (idStr n).toList) := by
    rw [refStr, String.toList_append]; rfl
  have hs : '/' ∉ (idStr n).toList := by
    rw [idStr_toList]; simp
  have h3 : splitChars (idStr n).toList = [(idStr n).toList] := by
    have := splitSlash_plain hs
    rw [splitSlash] at this
    have := congrArg (List.map String.toList) this
    simpa [Function.comp_def] using this
  rw [splitSlash, hl, splitChars_sep _ _ (by decide), splitChars_sep _ _ (by decide), h3]
  simp only [List.map_cons, List.map_nil, String.ofList_toList]

theorem idStr_inj {n m : Nat} (h : idStr n = idStr m) : n = m := by
  have := congrArg (fun s => s.toList.length) h
  simpa [idStr_toList] using this

theorem idKey_inj {n m : Nat} (h : idKey n = idKey m) : n = m := by
  simp only [idKey, Key.str.injEq] at h; exact idStr_inj h

theorem idKey_ne {n : Nat} {s : String} (h : s.toList.head? ≠ some 'i') : idKey n ≠ .str s := by
  intro e
  simp only [idKey, Key.str.injEq] at e
  apply h; rw [← e, idStr_toList]; rfl

theorem lstrip_ref (n : Nat) : lstripPath (splitSlash (refStr n)) = ["_references", idStr n] := by
  rw [splitSlash_ref, lstrip_hash _ (by simp), lstrip_plain ⟨'_', "references".toList, by rfl, by decide⟩]

/-! ### Reading -/

/-- The value is `{"$ref": ...}` and the reference is `c`. -/
def Leads (H : Heap) (T : List (Key × SV)) (x c : SV) : Prop :=
  ∃ b d n, x = .ptr b ∧ H[b]? = some (.dict d) ∧ d.lookup (.str "$ref") = some (.atom (.str (refStr n))) ∧
    T.lookup (idKey n) = some c

/-- The value is a list, or a dictionary which is no reference. -/
def NonRef (H : Heap) (x : SV) : Prop :=
  ∃ b c, x = .ptr b ∧ H[b]? = some c ∧ ∀ d, c = .dict d → d.lookup (.str "$ref") = none

/-- The value without the reference. -/
def Der (H : Heap) (T : List (Key × SV)) (x y : SV) : Prop := Leads H T x y ∨ (x = y ∧ NonRef H x)

/-- The value of a dictionary, for a string key, or the element of a list. -/
inductive Child (H : Heap) : SV → String → SV → Prop
  | key {b D s z} : H[b]? = some (.dict D) → D.lookup (.str s) = some z → Child H (.ptr b) s z
  | idx {b l} {n : Nat} {z} : H[b]? = some (.list l) → l[n]? = some z → Child H (.ptr b) (toString n) z

/-- The path leads from a value to another one, references being followed. -/
inductive Follow (H : Heap) (T : List (Key × SV)) : SV → Path → SV → Prop
  | here {x c} : Der H T x c → Follow H T x [] c
  | step {x y s z rest c} : Der H T x y → Child H y s z → Follow H T z rest c → Follow H T x (s :: rest) c

/-- More dictionaries, lists and references. -/
structure HExt (H : Heap) (T : List (Key × SV)) (H' : Heap) (T' : List (Key × SV)) : Prop where
  cells : ∀ (b : Nat) c, H[b]? = some c → H'[b]? = some c
  refs : ∀ k x, T.lookup k = some x → T'.lookup k = some x

theorem HExt.refl {H T} : HExt H T H T := ⟨fun _ _ h => h, fun _ _ h => h⟩

theorem HExt.trans {H T H' T' H'' T''} (a : HExt H T H' T') (b : HExt H' T' H'' T'') : HExt H T H'' T'' :=
  ⟨fun n c h => b.cells n c (a.cells n c h), fun k x h => b.refs k x (a.refs k x h)⟩

theorem HExt.append {H T} (t : Heap) : HExt H T (H ++ t) T :=
  ⟨fun b c h => by rw [List.getElem?_append_left (List.getElem?_eq_some_iff.1 h).1]; exact h, fun _ _ h => h⟩

theorem Reads.mono {H T H' T'} (h : HExt H T H' T') {x j} (r : Reads H T x j) : Reads H' T' x j := by
  induction r with
  | atom => exact .atom
  | ref h1 h2 h3 _ ih => exact .ref (h.cells _ _ h1) h2 (h.refs _ _ h3) ih
  | dict h1 h2 _ h4 ih => exact .dict (h.cells _ _ h1) h2 ih h4
  | list h1 h2 _ ih => exact .list (h.cells _ _ h1) h2 ih

theorem Leads.mono {H T H' T'} (h : HExt H T H' T') {x c} (l : Leads H T x c) : Leads H' T' x c := by
  obtain ⟨b, d, n, hx, hb, hd, hn⟩ := l
  exact ⟨b, d, n, hx, h.cells _ _ hb, hd, h.refs _ _ hn⟩

theorem NonRef.mono {H T H' T'} (h : HExt H T H' T') {x} (l : NonRef H x) : NonRef H' x := by
  obtain ⟨b, c, hx, hb, hd⟩ := l
  exact ⟨b, c, hx, h.cells _ _ hb, hd⟩

theorem Der.mono {H T H' T'} (h : HExt H T H' T') {x c} (l : Der H T x c) : Der H' T' x c := by
  rcases l with l | ⟨e, l⟩
  · exact .inl (l.mono h)
  · exact .inr ⟨e, l.mono h⟩

theorem Child.mono {H H' : Heap} (h : ∀ (b : Nat) c, H[b]? = some c → H'[b]? = some c) {x s z}
    (e : Child H x s z) : Child H' x s z := by
  cases e with
  | key h1 h2 => exact .key (h _ _ h1) h2
  | idx h1 h2 => exact .idx (h _ _ h1) h2

theorem Follow.mono {H T H' T'} (h : HExt H T H' T') {x p c} (l : Follow H T x p c) : Follow H' T' x p c := by
  induction l with
  | here d => exact .here (d.mono h)
  | step d e _ ih => exact .step (d.mono h) (e.mono h.cells) ih

/-- The value is a pointer to one of the `n` first cells, or is not a pointer. -/
def SV.below (n : Nat) : SV → Prop
  | .atom _ => True
  | .ptr a => a < n

/-- The values of a dictionary or of a list. -/
def Cell.values : Cell → List SV
  | .dict d => d.map (·.2)
  | .list l => l

theorem SV.below.mono {n m : Nat} (h : n ≤ m) {x : SV} (b : x.below n) : x.below m := by
  cases x with
  | atom v => trivial
  | ptr a => exact Nat.lt_of_lt_of_le b h

end DC
