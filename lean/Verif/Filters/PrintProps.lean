import Verif.Filters.Print
import Verif.Util.PyList
import Mathlib.Tactic.ClearExcept
/-
C181: filters which are printed alike keep the same objects.
-/
namespace DC.FPr

/-! ### Specification -/

/-- The characters of the operators. -/
def opChars : List Char := ['<', '>', '=', '!']

/-- The name of an attribute, or a path of names: it holds no blank, no line end and no character of an operator. -/
def PlainAttr (s : String) : Prop := ∀ c ∈ s.toList, c ≠ ' ' ∧ c ≠ '\n' ∧ c ∉ opChars

/-- What is supposed of `str` on numbers: different numbers have different texts, which are not empty and hold no blank, no line end and no
character of an operator. -/
structure NumText (num : Rat → Txt) : Prop where
  inj : ∀ p q, num p = num q → p = q
  nonempty : ∀ q, num q ≠ []
  plain : ∀ q, ∀ c ∈ num q, c ≠ ' ' ∧ c ≠ '\n' ∧ c ∉ opChars

/-- Two filters accept the same objects, and fail on the same objects. -/
def SameFilter (f g : PyFilter) : Prop := ∀ fuel v, filterOne fuel f v = filterOne fuel g v

/-! ### Lemmas -/

theorem cut_unique {P : Char → Prop} : ∀ {a a' x x' : Txt}, (∀ c ∈ a, ¬ P c) → (∀ c ∈ a', ¬ P c) → (∃ c t, x = c :: t ∧ P c) → (∃ c t, x' = c :: t ∧ P c) →
    a ++ x = a' ++ x' → a = a' ∧ x = x'
  | [], [], _, _, _, _, _, _, h => ⟨rfl, h⟩
  | [], b :: a', _, _, _, h2, ⟨c, t, hx, hc⟩, _, h => by
    subst hx
    simp only [List.nil_append, List.cons_append, List.cons.injEq] at h
    exact absurd (h.1 ▸ hc) (h2 b (.head _))
  | b :: a, [], _, _, h1, _, _, ⟨c, t, hx, hc⟩, h => by
    subst hx
    simp only [List.nil_append, List.cons_append, List.cons.injEq] at h
    exact absurd (h.1 ▸ hc) (h1 b (.head _))
  | b :: a, b' :: a', _, _, h1, h2, hx, hx', h => by
    simp only [List.cons_append, List.cons.injEq] at h
    obtain ⟨e1, e2⟩ := cut_unique (fun c hc => h1 c (.tail _ hc)) (fun c hc => h2 c (.tail _ hc)) hx hx' h.2
    exact ⟨by rw [h.1, e1], e2⟩

theorem blanks_mem {n : Int} {c : Char} (h : c ∈ blanks n) : c = ' ' := (List.mem_replicate.1 h).2

/-- The head of a text which begins with blanks, then something. -/
theorem blanks_head {P : Char → Prop} (hb : P ' ') (n : Int) {x : Txt} (hx : ∃ c t, x = c :: t ∧ P c) : ∃ c t, blanks n ++ x = c :: t ∧ P c := by
  cases h : n.toNat with
  | zero => simpa [blanks, h] using hx
  | succ k => exact ⟨' ', List.replicate k ' ' ++ x, by simp [blanks, h, List.replicate_succ], hb⟩

theorem stringOperator_chars {s p : String} (h : stringOperator.lookup s = some p) : (∃ c t, p.toList = c :: t) ∧ ∀ c ∈ p.toList, c ∈ opChars := by
  have : ∀ q ∈ stringOperator, (∃ c t, q.2.toList = c :: t) ∧ ∀ c ∈ q.2.toList, c ∈ opChars := by
    intro q hq
    simp only [stringOperator, List.mem_cons, List.not_mem_nil, or_false] at hq
    rcases hq with rfl | rfl | rfl | rfl | rfl | rfl | rfl | rfl | rfl | rfl | rfl | rfl | rfl | rfl <;>
      exact ⟨⟨_, _, rfl⟩, by decide⟩
  have hm : ∀ {l : List (String × String)}, l.lookup s = some p → (s, p) ∈ l := by
    intro l
    induction l with
    | nil => simp
    | cons q l ih =>
      obtain ⟨k, v⟩ := q
      rw [List.lookup_cons]
      by_cases hk : s = k
      · subst hk
        simp only [BEq.rfl, Option.some.injEq]
        rintro rfl
        exact .head _
      · have : (s == k) = false := by simpa using hk
        rw [this]
        exact fun h => .tail _ (ih h)
  exact this _ (hm h)

/-- The comparison told by the printed operator. -/
def printedCmp : List (String × Cmp) := [(">", .gt), ("<", .lt), (">=", .ge), ("<=", .le), ("==", .eq), ("!=", .ne)]

theorem cmpOf_printed (s : String) : cmpOf s = (stringOperator.lookup s).bind fun p => printedCmp.lookup p := by
  simp only [cmpOf, realOperators, stringOperator, List.lookup_cons, List.lookup_nil]
  repeat' split
  all_goals rfl

theorem filterStr_ok {num : Rat → Txt} {oa ob : Int} {f : PyFilter} {t : Txt} (h : filterStr num oa ob f = .ok t) :
    ∃ (p : String) (n m : Int), stringOperator.lookup f.comparison = some p ∧
      t = f.attr.toList ++ (blanks n ++ (p.toList ++ (blanks m ++ num f.bound))) := by
  simp only [filterStr] at h
  cases hp : stringOperator.lookup f.comparison with
  | none => rw [hp] at h; simp at h
  | some p =>
    rw [hp] at h
    simp only [Except.ok.injEq] at h
    refine ⟨p, oa - f.attr.toList.length, (if ob = 0 then ((num f.bound).length : Int) + 2 else ob) - (num f.bound).length, rfl, ?_⟩
    rw [← h]
    have : blanks (0 - (p.toList.length : Int)) = [] := by
      have : (0 - (p.toList.length : Int)).toNat = 0 := by omega
      simp [blanks]
    rw [this]
    simp only [List.append_nil, List.append_assoc]

theorem print_inj {num : Rat → Txt} (hn : NumText num) {f g : PyFilter} (hf : PlainAttr f.attr) (hg : PlainAttr g.attr) {oa ob oa' ob' : Int} {t : Txt}
    (h : filterStr num oa ob f = .ok t) (h' : filterStr num oa' ob' g = .ok t) : f.attr = g.attr ∧ cmpOf f.comparison = cmpOf g.comparison ∧ f.bound = g.bound := by
  obtain ⟨p, n, m, hp, rfl⟩ := filterStr_ok h
  obtain ⟨p', n', m', hp', e⟩ := filterStr_ok h'
  obtain ⟨⟨c, u, hc⟩, ho⟩ := stringOperator_chars hp
  obtain ⟨⟨c', u', hc'⟩, ho'⟩ := stringOperator_chars hp'
  have hb : ∀ q, ∃ c t, num q = c :: t ∧ c ∈ num q := by
    intro q
    cases hq : num q with
    | nil => exact absurd hq (hn.nonempty q)
    | cons c t => exact ⟨c, t, rfl, .head _⟩
  obtain ⟨b, w, hb1, hb2⟩ := hb f.bound
  obtain ⟨b', w', hb1', hb2'⟩ := hb g.bound
  have hh : c ∈ opChars := ho c (by rw [hc]; exact .head _)
  have hh' : c' ∈ opChars := ho' c' (by rw [hc']; exact .head _)
  have nb : ∀ c ∈ opChars, c ≠ ' ' := by decide
  obtain ⟨e1, e⟩ := cut_unique (P := fun c => c = ' ' ∨ c ∈ opChars)
    (fun c hc h => h.elim (hf c hc).1 (hf c hc).2.2) (fun c hc h => h.elim (hg c hc).1 (hg c hc).2.2)
    (blanks_head (.inl rfl) n ⟨c, _, by rw [hc]; rfl, .inr hh⟩) (blanks_head (.inl rfl) n' ⟨c', _, by rw [hc']; rfl, .inr hh'⟩) e
  obtain ⟨-, e⟩ := cut_unique (P := fun c => c ≠ ' ') (fun c hc h => h (blanks_mem hc)) (fun c hc h => h (blanks_mem hc))
    ⟨c, _, by rw [hc]; rfl, nb c hh⟩ ⟨c', _, by rw [hc']; rfl, nb c' hh'⟩ e
  obtain ⟨e2, e⟩ := cut_unique (P := fun c => c ∉ opChars) (fun c hc h => h (ho c hc)) (fun c hc h => h (ho' c hc))
    (blanks_head (by decide) m ⟨b, w, hb1, (hn.plain _ _ hb2).2.2⟩) (blanks_head (by decide) m' ⟨b', w', hb1', (hn.plain _ _ hb2').2.2⟩) e
  obtain ⟨-, e⟩ := cut_unique (P := fun c => c ≠ ' ') (fun c hc h => h (blanks_mem hc)) (fun c hc h => h (blanks_mem hc))
    ⟨b, w, hb1, (hn.plain _ _ hb2).1⟩ ⟨b', w', hb1', (hn.plain _ _ hb2').1⟩ e
  refine ⟨String.toList_inj.1 e1, ?_, hn.inj _ _ e⟩
  rw [cmpOf_printed, cmpOf_printed, hp, hp', String.toList_inj.1 e2]

theorem same_of {f g : PyFilter} (h : f.attr = g.attr ∧ cmpOf f.comparison = cmpOf g.comparison ∧ f.bound = g.bound) : SameFilter f g := by
  intro fuel v
  obtain ⟨h1, h2, h3⟩ := h
  simp only [filterOne, h1, h2, h3]

/-- The text of a filter is one line. -/
theorem filterStr_line {num : Rat → Txt} (hn : NumText num) {f : PyFilter} (hf : PlainAttr f.attr) {oa ob : Int} {t : Txt} (h : filterStr num oa ob f = .ok t) : '\n' ∉ t := by
  obtain ⟨p, n, m, hp, rfl⟩ := filterStr_ok h
  obtain ⟨-, ho⟩ := stringOperator_chars hp
  have no : '\n' ∉ opChars := by decide
  simp only [List.mem_append, not_or]
  exact ⟨fun hc => (hf _ hc).2.1 rfl, fun hc => absurd (blanks_mem hc) (by decide), fun hc => no (ho _ hc), fun hc => absurd (blanks_mem hc) (by decide),
    fun hc => (hn.plain _ _ hc).2.1 rfl⟩

theorem lines_inj {num : Rat → Txt} (hn : NumText num) {oa ob oa' ob' : Int} : ∀ {fs gs : List PyFilter} {t : Txt}, (∀ f ∈ fs, PlainAttr f.attr) →
    (∀ g ∈ gs, PlainAttr g.attr) → filterLines num oa ob fs = .ok t → filterLines num oa' ob' gs = .ok t → List.Forall₂ SameFilter fs gs
  | [], [], _, _, _, _, _ => .nil
  | [], g :: gs, t, _, _, h, h' => by
    simp only [filterLines, Except.ok.injEq] at h
    subst h
    cases h1 : filterStr num oa' ob' g <;> cases h2 : filterLines num oa' ob' gs <;> simp [filterLines, h1, h2, bind, Except.bind] at h'
  | f :: fs, [], t, _, _, h, h' => by
    simp only [filterLines, Except.ok.injEq] at h'
    subst h'
    cases h1 : filterStr num oa ob f <;> cases h2 : filterLines num oa ob fs <;> simp [filterLines, h1, h2, bind, Except.bind] at h
  | f :: fs, g :: gs, t, hf, hg, h, h' => by
    cases h1 : filterStr num oa ob f with
    | error e => simp [filterLines, h1, bind, Except.bind] at h
    | ok a =>
      cases h2 : filterLines num oa ob fs with
      | error e => simp [filterLines, h1, h2, bind, Except.bind] at h
      | ok r =>
        cases h1' : filterStr num oa' ob' g with
        | error e => simp [filterLines, h1', bind, Except.bind] at h'
        | ok a' =>
          cases h2' : filterLines num oa' ob' gs with
          | error e => simp [filterLines, h1', h2', bind, Except.bind] at h'
          | ok r' =>
            simp only [filterLines, h1, h2, bind, Except.bind, Except.ok.injEq] at h
            simp only [filterLines, h1', h2', bind, Except.bind, Except.ok.injEq] at h'
            rw [← h'] at h
            simp only [List.append_assoc, List.append_cancel_left_eq] at h
            obtain ⟨e1, e2⟩ := cut_unique (P := fun c => c = '\n')
              (fun c hc e => filterStr_line hn (hf f (.head _)) h1 (e ▸ hc)) (fun c hc e => filterStr_line hn (hg g (.head _)) h1' (e ▸ hc))
              ⟨_, _, rfl, rfl⟩ ⟨_, _, rfl, rfl⟩ h
            simp only [List.cons.injEq, true_and] at e2
            subst e1 e2
            exact .cons (same_of (print_inj hn (hf f (.head _)) (hg g (.head _)) h1 h1'))
              (lines_inj hn (fun f hm => hf f (.tail _ hm)) (fun g hm => hg g (.tail _ hm)) h2 h2')

theorem booleansIndex_same {f g : PyFilter} (h : SameFilter f g) (fuel : Nat) : ∀ vs, booleansIndex fuel f vs = booleansIndex fuel g vs
  | [] => rfl
  | v :: vs => by simp only [booleansIndex, h fuel v, booleansIndex_same h fuel vs]

theorem filtersApply_same {fs gs : List PyFilter} (h : List.Forall₂ SameFilter fs gs) (fuel : Nat) (op : String) (vs : List V) :
    filtersApply fuel fs op vs = filtersApply fuel gs op vs := by
  have : allBooleans fuel fs vs = allBooleans fuel gs vs := by
    induction h with
    | nil => rfl
    | cons h1 _ ih => simp only [allBooleans, booleansIndex_same h1 fuel vs, ih]
  simp only [filtersApply, this]

/-! ### Theorems -/

/-- Two filters printed alike accept the same objects and fail on the same objects, whatever the room given to their attributes and bounds. -/
theorem C181_print {num : Rat → Txt} (hn : NumText num) {f g : PyFilter} (hf : PlainAttr f.attr) (hg : PlainAttr g.attr) {oa ob oa' ob' : Int} {t : Txt}
    (h : filterStr num oa ob f = .ok t) (h' : filterStr num oa' ob' g = .ok t) : SameFilter f g := same_of (print_inj hn hf hg h h')

/-- Two lists of at most fifteen filters printed alike, the names of which hold no line end, keep the same objects of any list.
Missing: longer lists (`C181_truncated_violated`) and names with line ends. -/
theorem C181_list_partial {num : Rat → Txt} (hn : NumText num) {nat : Nat → Txt} (hd : ∀ n, '\n' ∉ nat n) {cls cls' label label' : Txt}
    (hl : '\n' ∉ cls ∧ '\n' ∉ cls' ∧ '\n' ∉ label ∧ '\n' ∉ label') {op op' : String} (ho : op ∈ ["and", "or", "xor"]) (ho' : op' ∈ ["and", "or", "xor"])
    {fs gs : List PyFilter} (hf : ∀ f ∈ fs, PlainAttr f.attr) (hg : ∀ g ∈ gs, PlainAttr g.attr) (h15 : fs.length ≤ 15) (h15' : gs.length ≤ 15) {t : Txt}
    (h : listStr num nat cls label op fs = .ok t) (h' : listStr num nat cls' label' op' gs = .ok t) :
    op = op' ∧ ∀ fuel vs, filtersApply fuel fs op vs = filtersApply fuel gs op' vs := by
  have key : ∀ {cls label op fs}, '\n' ∉ cls → '\n' ∉ label → op ∈ ["and", "or", "xor"] → fs.length ≤ 15 → listStr num nat cls label op fs = .ok t →
      ∃ (oa ob : Int) (x r : Txt), filterLines num oa ob fs = .ok r ∧ '\n' ∉ x ∧ t = (x ++ (['\''] ++ op.toList ++ "' operator :".toList)) ++ ('\n' :: r) ∧ '\'' ∉ op.toList ∧ '\n' ∉ op.toList := by
    clear * - hd
    intro cls label op fs hc hl ho h15 h
    have hq : '\'' ∉ op.toList ∧ '\n' ∉ op.toList := by
      simp only [List.mem_cons, List.not_mem_nil, or_false] at ho
      rcases ho with rfl | rfl | rfl <;> exact ⟨by decide, by decide⟩
    simp only [listStr] at h
    cases h1 : maxLen (fs.map fun f => f.attr.toList.length) with
    | error e => rw [h1] at h; simp [bind, Except.bind] at h
    | ok la =>
      cases h2 : maxLen (fs.map fun f => (num f.bound).length) with
      | error e => rw [h1, h2] at h; simp [bind, Except.bind] at h
      | ok lb =>
        rw [h1, h2, List.take_of_length_le h15] at h
        cases h3 : filterLines num ((la : Int) + 2) ((lb : Int) + 2) fs with
        | error e => simp [h3, bind, Except.bind] at h
        | ok r =>
          simp only [h3, bind, Except.bind, Except.ok.injEq] at h
          refine ⟨_, _, cls ++ [' '] ++ label ++ [':', ' '] ++ (nat fs.length ++ " filters combined with ".toList), r, h3, ?_, ?_, hq⟩
          · simp only [List.mem_append, not_or]
            exact ⟨⟨⟨⟨hc, by decide⟩, hl⟩, by decide⟩, hd _, by decide⟩
          · rw [← h]
            have e1 : combined = " filters combined with ".toList ++ ['\''] := by decide
            have e2 : operatorEnd = "' operator :".toList ++ ['\n'] := by decide
            rw [e1, e2]
            simp only [List.append_assoc, List.singleton_append]
  obtain ⟨oa, ob, x, r, hr, hx, et, hq, hqn⟩ := key hl.1 hl.2.2.1 ho h15 h
  obtain ⟨oa', ob', x', r', hr', hx', et', hq', hqn'⟩ := key hl.2.1 hl.2.2.2 ho' h15' h'
  rw [et] at et'
  have hE : '\n' ∉ "' operator :".toList := by decide
  have nl : ∀ {y : Txt} {o : String}, '\n' ∉ y → '\n' ∉ o.toList → ∀ c ∈ y ++ (['\''] ++ o.toList ++ "' operator :".toList), ¬ c = '\n' := by
    rintro y o hy ho c hc rfl
    simp only [List.mem_append, List.mem_singleton] at hc
    rcases hc with hc | (hc | hc) | hc
    · exact hy hc
    · exact absurd hc (by decide)
    · exact ho hc
    · exact hE hc
  obtain ⟨e1, e2⟩ := cut_unique (P := fun c => c = '\n') (nl hx hqn) (nl hx' hqn') ⟨_, _, rfl, rfl⟩ ⟨_, _, rfl, rfl⟩ et'
  simp only [List.cons.injEq, true_and] at e2
  have eop : op = op' := by
    rw [← List.append_assoc, ← List.append_assoc x', List.append_cancel_right_eq, ← List.append_assoc, ← List.append_assoc x'] at e1
    have := congrArg List.reverse e1
    rw [List.reverse_append, List.reverse_append, List.reverse_append, List.reverse_append] at this
    obtain ⟨e, -⟩ := cut_unique (P := fun c => c = '\'') (fun c hc e => hq (e ▸ List.mem_reverse.1 hc)) (fun c hc e => hq' (e ▸ List.mem_reverse.1 hc))
      ⟨_, _, rfl, rfl⟩ ⟨_, _, rfl, rfl⟩ this
    exact String.toList_inj.1 (List.reverse_injective e)
  subst eop e2
  exact ⟨rfl, fun fuel vs => filtersApply_same (lines_inj hn hf hg hr hr') fuel _ vs⟩

/-- Equal filters have the same hash, are printed alike and accept the same objects. -/
theorem C181_equal {f g : PyFilter} (h : filterEq f g = true) : (∀ hs hn, filterHash hs hn f = filterHash hs hn g) ∧
    (∀ num oa ob, filterStr num oa ob f = filterStr num oa ob g) ∧ SameFilter f g := by
  simp only [filterEq, Bool.and_eq_true, beq_iff_eq] at h
  obtain ⟨⟨h1, h2⟩, h3⟩ := h
  have : f = g := by cases f; cases g; simp_all
  subst this
  exact ⟨fun _ _ => rfl, fun _ _ _ => rfl, fun _ _ => rfl⟩

/-- The sign of a comparison, which means the same as its name. -/
def SignOf (comparison : String) (p : Txt) : Prop :=
  ∃ s : String, s ∈ [">", "<", ">=", "<=", "==", "!="] ∧ p = s.toList ∧ cmpOf s = cmpOf comparison

/-- A printed filter: the name of the attribute, blanks up to the column `w`, the sign, and the bound on `r` characters, after blanks. -/
def FilterLine (num : Rat → Txt) (w r : Nat) (f : PyFilter) (t : Txt) : Prop :=
  ∃ p, SignOf f.comparison p ∧ t = f.attr.toList ++ List.replicate (w - f.attr.toList.length) ' ' ++ p ++
    List.replicate (r - (num f.bound).length) ' ' ++ num f.bound

theorem signOf_lookup {s p : String} (h : stringOperator.lookup s = some p) : SignOf s p.toList := by
  simp only [stringOperator, List.lookup_cons, List.lookup_nil] at h
  refine ⟨p, ?_, rfl, ?_⟩
  · repeat' split at h
    all_goals cases h
    all_goals decide
  · rw [cmpOf_printed s, cmpOf_printed p]
    simp only [stringOperator, List.lookup_cons, List.lookup_nil] at *
    repeat' split at h
    all_goals cases h
    all_goals simp_all

theorem filterStr_line_of {num : Rat → Txt} {w r : Nat} (hr : r ≠ 0) {f : PyFilter} {t : Txt} (h : filterStr num w r f = .ok t) : FilterLine num w r f t := by
  simp only [filterStr] at h
  cases hp : stringOperator.lookup f.comparison with
  | none => rw [hp] at h; simp at h
  | some p =>
    rw [hp, if_neg (by exact_mod_cast hr)] at h
    simp only [Except.ok.injEq] at h
    refine ⟨p.toList, signOf_lookup hp, ?_⟩
    rw [← h]
    have e0 : blanks (0 - (p.toList.length : Int)) = [] := by simp [blanks]
    have e1 : ∀ a b : Nat, blanks ((a : Int) - b) = List.replicate (a - b) ' ' := by
      intro a b
      rw [blanks, show ((a : Int) - b).toNat = a - b by omega]
    simp only [e0, e1, List.append_nil, List.append_assoc]

theorem maxLen_spec {l : List Nat} {m : Nat} (h : maxLen l = .ok m) : m ∈ l ∧ ∀ n ∈ l, n ≤ m := by
  cases l with
  | nil => simp [maxLen] at h
  | cons a l =>
    simp only [maxLen, Except.ok.injEq] at h
    subst h
    induction l generalizing a with
    | nil => simp
    | cons b l ih =>
      obtain ⟨h1, h2⟩ := ih (max a b)
      rw [List.foldl_cons]
      refine ⟨?_, fun n hn => ?_⟩
      · rcases List.mem_cons.1 h1 with e | h1
        · rw [e]
          rcases Nat.le_total a b with h | h
          · rw [Nat.max_eq_right h]; simp
          · rw [Nat.max_eq_left h]; simp
        · exact .tail _ (.tail _ h1)
      · rcases List.mem_cons.1 hn with rfl | hn
        · exact Nat.le_trans (Nat.le_max_left n b) (h2 _ (.head _))
        rcases List.mem_cons.1 hn with rfl | hn
        · exact Nat.le_trans (Nat.le_max_right a n) (h2 _ (.head _))
        · exact h2 n (.tail _ hn)

theorem filterLines_rows {num : Rat → Txt} {w r : Nat} (hr : r ≠ 0) : ∀ {fs : List PyFilter} {t : Txt}, filterLines num w r fs = .ok t →
    ∃ rows, List.Forall₂ (FilterLine num w r) fs rows ∧ t = rows.flatMap fun row => "   - ".toList ++ row ++ "\n".toList
  | [], t, h => by cases h; exact ⟨[], .nil, rfl⟩
  | f :: fs, t, h => by
    cases h1 : filterStr num w r f with
    | error e => simp [filterLines, h1, bind, Except.bind] at h
    | ok a =>
      cases h2 : filterLines num w r fs with
      | error e => simp [filterLines, h1, h2, bind, Except.bind] at h
      | ok u =>
        obtain ⟨rows, hrows, rfl⟩ := filterLines_rows hr h2
        simp only [filterLines, h1, h2, bind, Except.bind, Except.ok.injEq] at h
        refine ⟨a :: rows, .cons (filterStr_line_of hr h1) hrows, ?_⟩
        rw [← h, List.flatMap_cons]
        rfl

/-- A filter is printed with its sign after ten characters, or after the name if it is longer, and two blanks before the bound. -/
theorem C181_width {num : Rat → Txt} {f : PyFilter} {t : Txt} (h : filterStr0 num f = .ok t) : FilterLine num 10 ((num f.bound).length + 2) f t := by
  refine filterStr_line_of (by omega) ?_
  rw [filterStr0] at h
  rw [← h]
  simp only [filterStr]
  rw [if_neg (by omega)]
  simp only [if_true]
  rfl

theorem text_assoc (a b c d e f g : Txt) : a ++ [' '] ++ b ++ [':', ' '] ++ (c ++ d ++ e ++ f) ++ g = a ++ [' '] ++ b ++ [':', ' '] ++ c ++ d ++ e ++ f ++ g := by
  simp only [List.append_assoc]

/-- A list of filters is printed with a line which tells how many they are and how they are combined, then one line for each of the first fifteen
filters, in order: all the signs are in the same column, two blanks after the longest name, and all the bounds end in the same column after each
sign. -/
theorem C181_aligned {num : Rat → Txt} {nat : Nat → Txt} {cls label : Txt} {op : String} {fs : List PyFilter} {t : Txt}
    (h : listStr num nat cls label op fs = .ok t) : ∃ w r rows, List.Forall₂ (FilterLine num (w + 2) (r + 2)) (fs.take 15) rows ∧
      t = cls ++ [' '] ++ label ++ [':', ' '] ++ nat fs.length ++ " filters combined with '".toList ++ op.toList ++ "' operator :\n".toList ++
        rows.flatMap (fun row => "   - ".toList ++ row ++ "\n".toList) ∧
      ((∃ f ∈ fs, f.attr.toList.length = w) ∧ ∀ f ∈ fs, f.attr.toList.length ≤ w) ∧
      ((∃ f ∈ fs, (num f.bound).length = r) ∧ ∀ f ∈ fs, (num f.bound).length ≤ r) := by
  simp only [listStr] at h
  cases h1 : maxLen (fs.map fun f => f.attr.toList.length) with
  | error e => rw [h1] at h; simp [bind, Except.bind] at h
  | ok la =>
    cases h2 : maxLen (fs.map fun f => (num f.bound).length) with
    | error e => rw [h1, h2] at h; simp [bind, Except.bind] at h
    | ok lb =>
      rw [h1, h2] at h
      cases h3 : filterLines num ((la : Int) + 2) ((lb : Int) + 2) (fs.take 15) with
      | error e => simp [h3, bind, Except.bind] at h
      | ok u =>
        simp only [h3, bind, Except.bind, Except.ok.injEq] at h
        have h3 : filterLines num ((la + 2 : Nat) : Int) ((lb + 2 : Nat) : Int) (fs.take 15) = .ok u := by
          rw [Int.natCast_add, Int.natCast_add]
          exact h3
        obtain ⟨rows, hrows, hu⟩ := filterLines_rows (by omega) h3
        obtain ⟨m1, m2⟩ := maxLen_spec h1
        obtain ⟨m3, m4⟩ := maxLen_spec h2
        refine ⟨la, lb, rows, hrows, ?_, ⟨List.mem_map.1 m1, fun f hf => m2 _ (List.mem_map_of_mem (f := fun f : PyFilter => f.attr.toList.length) hf)⟩,
          ⟨List.mem_map.1 m3, fun f hf => m4 _ (List.mem_map_of_mem (f := fun f : PyFilter => (num f.bound).length) hf)⟩⟩
        rw [← h, hu]
        exact text_assoc ..

/-! ### What does not hold -/

/-- Sixteen filters, of which the last one only is not on `a`. -/
def sixteen (last : String) : List PyFilter := List.replicate 15 ⟨"a", ">=", 0⟩ ++ [⟨last, ">=", 0⟩]

/-- An object with three numbers. -/
def abc : V := .obj "m.P" [(.str "a", .int 1), (.str "b", .int 1), (.str "c", .int (-1))]

/-- The filters after the fifteenth are not printed, and nothing tells it on their lines: two lists are printed alike, one of which keeps an
object which the other does not. -/
theorem C181_truncated_violated (num : Rat → Txt) (nat : Nat → Txt) (cls label : Txt) :
    (∃ t, listStr num nat cls label "and" (sixteen "b") = .ok t ∧ listStr num nat cls label "and" (sixteen "c") = .ok t) ∧
    filtersApply 5 (sixteen "b") "and" [abc] = .ok [abc] ∧ filtersApply 5 (sixteen "c") "and" [abc] = .ok [] := by
  refine ⟨⟨_, rfl, rfl⟩, ?_, ?_⟩
  · have : ∃ bs, allBooleans 5 (sixteen "b") [abc] = .ok bs ∧ combine bs "and" = .ok [true] := ⟨List.replicate 16 [true], by rfl, by rfl⟩
    obtain ⟨bs, h1, h2⟩ := this
    simp only [filtersApply, h1, h2, bind, Except.bind]
    rfl
  · have : ∃ bs, allBooleans 5 (sixteen "c") [abc] = .ok bs ∧ combine bs "and" = .ok [false] := ⟨List.replicate 15 [true] ++ [[false]], by rfl, by rfl⟩
    obtain ⟨bs, h1, h2⟩ := this
    simp only [filtersApply, h1, h2, bind, Except.bind]
    rfl

/-- A list without filters can filter objects and cannot be printed. -/
theorem C181_empty_violated (num : Rat → Txt) (nat : Nat → Txt) (cls label : Txt) :
    listStr num nat cls label "and" [] = .error .valueError ∧ filtersApply 5 [] "and" [abc] = .ok [] := ⟨rfl, rfl⟩

/-- Two writings of the same comparison are printed alike and accept the same objects, and are not equal. -/
theorem C181_alias_violated (num : Rat → Txt) (oa ob : Int) : SameFilter ⟨"a", ">", 0⟩ ⟨"a", "gt", 0⟩ ∧
    filterStr num oa ob ⟨"a", ">", 0⟩ = filterStr num oa ob ⟨"a", "gt", 0⟩ ∧ filterEq ⟨"a", ">", 0⟩ ⟨"a", "gt", 0⟩ = false :=
  ⟨fun _ _ => rfl, rfl, by decide⟩

/-! ### Examples -/

/-- A writing of numbers: a mark for each unit of the numerator and of the denominator. -/
def tally (q : Rat) : Txt := (if q.num < 0 then ['-'] else ['+']) ++ List.replicate q.num.natAbs 'i' ++ '/' :: List.replicate q.den 'i'

/-- Numbers can be written as supposed. -/
theorem tally_ok : NumText tally where
  inj := by
    intro p q h
    simp only [tally, List.append_assoc] at h
    have hsg : ∀ (n : Int), ∃ c, (if n < 0 then ['-'] else ['+'] : Txt) = [c] ∧ (c = '-' ↔ n < 0) := by
      intro n
      by_cases hn : n < 0
      · exact ⟨'-', by simp [hn], by simp [hn]⟩
      · exact ⟨'+', by simp [hn], by simp [hn]⟩
    obtain ⟨c, hc, hs⟩ := hsg p.num
    obtain ⟨c', hc', hs'⟩ := hsg q.num
    rw [hc, hc'] at h
    simp only [List.singleton_append, List.cons.injEq] at h
    obtain ⟨e0, h⟩ := h
    obtain ⟨e1, e2⟩ := cut_unique (P := fun c => c = '/') (fun c hc e => absurd ((List.mem_replicate.1 hc).2.symm.trans e) (by decide))
      (fun c hc e => absurd ((List.mem_replicate.1 hc).2.symm.trans e) (by decide)) ⟨_, _, rfl, rfl⟩ ⟨_, _, rfl, rfl⟩ h
    have e1 := congrArg List.length e1
    have e2 := congrArg List.length e2
    simp only [List.length_replicate, List.length_cons, Nat.add_right_cancel_iff] at e1 e2
    have hsgn : p.num < 0 ↔ q.num < 0 := by rw [← hs, ← hs', e0]
    exact Rat.ext (by omega) e2
  nonempty := by intro q; by_cases h : q.num < 0 <;> simp [tally, h]
  plain := by
    intro q c hc
    have : c = '-' ∨ c = '+' ∨ c = 'i' ∨ c = '/' := by
      simp only [tally, List.mem_append, List.mem_cons, List.mem_replicate] at hc
      rcases hc with (hc | hc) | hc | hc
      · by_cases h : q.num < 0 <;> simp [h] at hc <;> simp [hc]
      · exact .inr (.inr (.inl hc.2))
      · exact .inr (.inr (.inr hc))
      · exact .inr (.inr (.inl hc.2))
    rcases this with rfl | rfl | rfl | rfl <;> decide

/-- A printed filter. -/
example : filterStr tally 8 6 ⟨"weight", "lte", 3⟩ = .ok "weight  <=+iii/i".toList := by rfl

example : filterStr tally 8 9 ⟨"weight", "lte", 3⟩ = .ok "weight  <=   +iii/i".toList := by rfl

example : filterStr0 tally ⟨"weight", "lte", 3⟩ = .ok "weight    <=  +iii/i".toList := by rfl

/-- Two writings of a filter, printed alike. -/
example : SameFilter ⟨"weight", "lte", 3⟩ ⟨"weight", "<=", 3⟩ :=
  C181_print tally_ok (by unfold PlainAttr; decide) (by unfold PlainAttr; decide) (oa := 8) (ob := 9) (oa' := 8) (ob' := 9) (t := "weight  <=   +iii/i".toList)
    (by rfl) (by rfl)

/-- A printed list of two filters. -/
example : listStr tally (fun n => List.replicate n 'i') "FiltersList".toList "f".toList "or" [⟨"a", ">", 0⟩, ⟨"mass", "ne", 2⟩] =
    .ok "FiltersList f: ii filters combined with 'or' operator :\n   - a     >    +/i\n   - mass  !=  +ii/i\n".toList := by rfl

/-- Two lists of filters printed alike. -/
example (fuel : Nat) (vs : List V) : filtersApply fuel [⟨"a", ">", 0⟩, ⟨"mass", "ne", 2⟩] "or" vs = filtersApply fuel [⟨"a", "gt", 0⟩, ⟨"mass", "!=", 2⟩] "or" vs :=
  (C181_list_partial tally_ok (nat := fun n => List.replicate n 'i') (fun n h => absurd (List.mem_replicate.1 h).2 (by decide))
    (cls := "FiltersList".toList) (cls' := "FiltersList".toList) (label := "f".toList) (label' := "f".toList) (by decide) (by decide) (by decide)
    (by unfold PlainAttr; decide) (by unfold PlainAttr; decide) (by decide) (by decide)
    (t := "FiltersList f: ii filters combined with 'or' operator :\n   - a     >    +/i\n   - mass  !=  +ii/i\n".toList) (by rfl) (by rfl)).2 fuel vs

end DC.FPr
