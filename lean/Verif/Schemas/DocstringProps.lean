import Verif.Schemas.Docstring
/-
Property C133: the documentation of attributes in schemas.
-/
namespace DC.Sch

/-! ### Specification -/

/-- `sub` occurs in `s`. -/
def Occurs (sub s : List Char) : Prop := ∃ a b, s = a ++ sub ++ b

/-- A documented parameter: its name, what is said of it, and what is said of its type, if anything. -/
structure DocParam where
  name : List Char
  text : List Char
  type : Option (List Char)

/-- `:param `, `:type `, `:type`, `:return:` and `:return`, as written in a docstring. -/
def paramWord : List Char := ":param ".toList
@[inherit_doc paramWord] def typeBlank : List Char := ":type ".toList
@[inherit_doc paramWord] def typeWord : List Char := ":type".toList
@[inherit_doc paramWord] def returnColon : List Char := ":return:".toList
@[inherit_doc paramWord] def returnWord : List Char := ":return".toList

/-- `name: text` -/
def DocParam.said (p : DocParam) : List Char := p.name ++ ':' :: p.text

/-- `name: text :type what is said` -/
def DocParam.written (p : DocParam) : List Char := p.said ++ match p.type with
  | none => []
  | some t => typeBlank ++ t

/-- What is written of parameters: `:param name: text` for each one. -/
def writtenParams : List DocParam → List Char
  | [] => []
  | p :: ps => paramWord ++ p.written ++ writtenParams ps

/-- The end of a docstring: nothing, or what is said of the result. -/
def writtenEnd : Option (List Char) → List Char
  | none => []
  | some r => returnColon ++ r

/-- A parameter is well written: no colon in its name, no mark in what is said of it. -/
structure DocParam.Clean (p : DocParam) : Prop where
  name : ':' ∉ p.name
  type : ¬ Occurs typeWord p.said
  param : ¬ Occurs paramWord p.written

/-- What is said last of a parameter. -/
def lastText (name : List Char) : List DocParam → Option (List Char)
  | [] => none
  | p :: ps => match lastText name ps with
    | some t => some t
    | none => if p.name = name then some p.text else none

/-- A text without its blanks at both ends: `t` is `a ++ core ++ b` where `a` and `b` are blanks and the core has no blank at an end. -/
def Trimmed (t core : List Char) : Prop :=
  ∃ a b, t = a ++ core ++ b ∧ (∀ c ∈ a, c.isWhitespace) ∧ (∀ c ∈ b, c.isWhitespace) ∧
    (∀ c, core.head? = some c → c.isWhitespace = false) ∧ ∀ c, core.getLast? = some c → c.isWhitespace = false

/-! ### Splitting -/

/-- No end of `sub` is also a beginning of it. -/
def Unbordered (sub : List Char) : Prop := ∀ k, 0 < k → k < sub.length → sub.drop k ≠ sub.take (sub.length - k)

instance (sub : List Char) : Decidable (Unbordered sub) :=
  decidable_of_iff (∀ k ∈ List.range sub.length, 0 < k → sub.drop k ≠ sub.take (sub.length - k))
    ⟨fun h k h0 hk => h k (List.mem_range.2 hk) h0, fun h k hk h0 => h k h0 (List.mem_range.1 hk)⟩

theorem Occurs.cons {sub s : List Char} (h : Occurs sub s) (c : Char) : Occurs sub (c :: s) := by
  obtain ⟨a, b, rfl⟩ := h
  exact ⟨c :: a, b, rfl⟩

theorem cut_none {sub : List Char} (hne : sub ≠ []) : ∀ {s : List Char}, ¬ Occurs sub s → cut sub s = none
  | [], _ => rfl
  | c :: s, h => by
    rw [cut, if_neg, cut_none hne (fun ho => h (ho.cons c))]
    · rfl
    · intro hp
      obtain ⟨b, hb⟩ := List.isPrefixOf_iff_prefix.1 hp
      exact h ⟨[], b, by simpa using hb.symm⟩

theorem not_prefix {sub p r : List Char} (hu : Unbordered sub) (hp : p ≠ []) (hno : ¬ Occurs sub p) :
    sub.isPrefixOf (p ++ (sub ++ r)) = false := by
  rw [Bool.eq_false_iff]
  intro hpre
  rw [List.isPrefixOf_iff_prefix] at hpre
  by_cases hl : sub.length ≤ p.length
  · obtain ⟨b, hb⟩ := List.prefix_of_prefix_length_le hpre (List.prefix_append p (sub ++ r)) hl
    exact hno ⟨[], b, by simpa using hb.symm⟩
  · have hl' : p.length < sub.length := by omega
    obtain ⟨q, hq⟩ := List.prefix_of_prefix_length_le (List.prefix_append p (sub ++ r)) hpre (by omega)
    have h0 : 0 < p.length := List.length_pos_iff.2 hp
    apply hu p.length h0 hl'
    have hd : sub.drop p.length = q := by rw [← hq, List.drop_left]
    rw [hd]
    rw [← hq, List.append_assoc, List.prefix_append_right_inj] at hpre
    have h2 : q <+: p ++ q := by
      refine List.prefix_of_prefix_length_le hpre ?_ (by simp)
      rw [← List.append_assoc]
      exact List.prefix_append (p ++ q) r
    rw [hq] at h2
    have hlen : sub.length - p.length = q.length := by rw [← hq]; simp
    rw [hlen]
    exact List.prefix_iff_eq_take.1 h2

theorem cut_append {sub : List Char} (hu : Unbordered sub) (hne : sub ≠ []) : ∀ {p r : List Char}, ¬ Occurs sub p →
    cut sub (p ++ (sub ++ r)) = some (p, r)
  | [], r, _ => by
    cases sub with
    | nil => exact absurd rfl hne
    | cons c sub =>
      rw [List.nil_append, List.cons_append, cut, if_pos]
      · rw [← List.cons_append, List.drop_left]
      · rw [List.isPrefixOf_iff_prefix, ← List.cons_append]
        exact List.prefix_append _ _
  | c :: p, r, h => by
    have hn := not_prefix (r := r) hu (List.cons_ne_nil c p) h
    rw [List.cons_append] at hn ⊢
    rw [cut, hn, if_neg (by simp), cut_append hu hne (fun ho => h (ho.cons c))]
    rfl

theorem before_none {sub : List Char} : ∀ {s : List Char}, ¬ Occurs sub s → Types.before sub s = s
  | [], _ => rfl
  | c :: s, h => by
    rw [Types.before, if_neg, before_none (fun ho => h (ho.cons c))]
    intro hp
    obtain ⟨b, hb⟩ := List.isPrefixOf_iff_prefix.1 hp
    exact h ⟨[], b, by simpa using hb.symm⟩

theorem before_append {sub : List Char} (hne : sub ≠ []) : ∀ {p r : List Char},
    (∀ q, q <:+ p → q ≠ [] → sub.isPrefixOf (q ++ (sub ++ r)) = false) → Types.before sub (p ++ (sub ++ r)) = p
  | [], r, _ => by
    cases sub with
    | nil => exact absurd rfl hne
    | cons c sub =>
      rw [List.nil_append, List.cons_append, Types.before, if_pos]
      rw [List.isPrefixOf_iff_prefix, ← List.cons_append]
      exact List.prefix_append _ _
  | c :: p, r, h => by
    have hn := h (c :: p) (List.suffix_refl _) (by simp)
    rw [List.cons_append] at hn ⊢
    rw [Types.before, hn, if_neg (by simp), before_append hne]
    exact fun q hq hn => h q (hq.trans (List.suffix_cons c p)) hn

theorem Occurs.of_suffix {sub q p : List Char} (h : q <:+ p) (ho : Occurs sub q) : Occurs sub p := by
  obtain ⟨a, b, rfl⟩ := ho
  obtain ⟨x, rfl⟩ := h
  exact ⟨x ++ a, b, by simp⟩

/-- `:return:` overlaps itself by its colon only. -/
theorem return_not_prefix {q r : List Char} (hq : q ≠ []) (hno : ¬ Occurs returnWord q) :
    returnMark.isPrefixOf (q ++ (returnMark ++ r)) = false := by
  rw [Bool.eq_false_iff]
  intro hpre
  have h1 : (returnWord).isPrefixOf (q ++ (returnWord ++ ([':'] ++ r))) = true := by
    rw [List.isPrefixOf_iff_prefix] at hpre ⊢
    have : returnWord <+: returnMark := ⟨[':'], by decide⟩
    refine this.trans ?_
    have e : returnMark ++ r = returnWord ++ ([':'] ++ r) := by
      rw [← List.append_assoc]
      rfl
    rw [← e]
    exact hpre
  rw [not_prefix (by decide) hq hno] at h1
  exact absurd h1 (by simp)

theorem before_return {body : List Char} (h : ¬ Occurs returnWord body) (e : Option (List Char)) :
    Types.before returnMark (body ++ writtenEnd e) = body := by
  cases e with
  | none =>
    rw [writtenEnd, List.append_nil]
    apply before_none
    rintro ⟨a, b, rfl⟩
    exact h ⟨a, ':' :: b, by
      have : returnMark = returnWord ++ [':'] := by decide
      rw [this]
      simp⟩
  | some r =>
    exact before_append (by decide) fun q hq hn => return_not_prefix hn fun ho => h (ho.of_suffix hq)

theorem splitN_params : ∀ (ps : List DocParam) (d : List Char) (n : Nat), ps.length ≤ n → ¬ Occurs paramMark d → (∀ p ∈ ps, p.Clean) →
    splitN paramMark n (d ++ writtenParams ps) = d :: ps.map DocParam.written
  | [], d, n, _, hd, _ => by
    rw [writtenParams, List.append_nil]
    cases n with
    | zero => rfl
    | succ n =>
      rw [splitN, cut_none (by decide) hd]
      rfl
  | p :: ps, d, n, hn, hd, hp => by
    cases n with
    | zero => simp at hn
    | succ n =>
      rw [splitN, writtenParams, List.append_assoc]
      have := cut_append (sub := paramMark) (r := p.written ++ writtenParams ps) (by decide) (by decide) hd
      rw [show paramWord = paramMark from rfl, this]
      dsimp only
      rw [splitN_params ps p.written n (by simpa using hn) (hp p (by simp)).param fun q hq => hp q (by simp [hq])]
      rfl

theorem length_writtenParams (ps : List DocParam) : ps.length ≤ (writtenParams ps).length := by
  induction ps with
  | nil => simp
  | cons p ps ih =>
    rw [writtenParams]
    have : (paramWord).length = 7 := by decide
    simp only [List.length_append, List.length_cons, this]
    omega

theorem cut_colon {n t : List Char} (h : ':' ∉ n) : cut [':'] (n ++ ':' :: t) = some (n, t) := by
  have := cut_append (sub := [':']) (p := n) (r := t) (by decide) (by simp) (by
    rintro ⟨a, b, rfl⟩
    simp at h)
  simpa using this

theorem parseAttribute_written {ann : List Char → Except PyErr (List Char)} {p : DocParam} (h : p.Clean) {t : List Char}
    (ht : ann p.name = .ok t) : parseAttribute ann p.written = .ok (p.name, ⟨trim p.text, t⟩) := by
  have hb : (if Str.isIn typeMark p.written then Types.before typeSpace p.written else p.written) = p.said := by
    unfold DocParam.written
    cases p.type with
    | none =>
      rw [if_neg]
      · simp
      · simp only [List.append_nil]
        rw [Str.isIn_iff]
        exact h.type
    | some ty =>
      rw [if_pos]
      · apply before_append (sub := typeSpace) (by decide)
        intro q hq hn
        apply not_prefix (by decide) hn
        intro ho
        apply h.type
        obtain ⟨a, b, rfl⟩ := ho
        refine Occurs.of_suffix hq ⟨a, ' ' :: b, ?_⟩
        have : typeSpace = typeWord ++ [' '] := by decide
        rw [this]
        simp
      · rw [Str.isIn_iff]
        refine ⟨p.said, ' ' :: ty, ?_⟩
        have : typeBlank = typeMark ++ [' '] := by decide
        dsimp only
        rw [this]
        simp
  rw [parseAttribute, hb, DocParam.said, cut_colon h.name]
  dsimp only
  rw [ht]

/-- The attributes told, the last text of a name being kept. -/
def told (ann : List Char → Except PyErr (List Char)) : List DocParam → List (List Char × ParsedAttr) → List (List Char × ParsedAttr)
  | [], args => args
  | p :: ps, args => told ann ps (Dict.set args p.name ⟨trim p.text, match ann p.name with | .ok t => t | .error _ => []⟩)

theorem parseParams_written {ann : List Char → Except PyErr (List Char)} : ∀ (ps : List DocParam) (args : List (List Char × ParsedAttr)),
    (∀ p ∈ ps, p.Clean) → (∀ p ∈ ps, ∃ t, ann p.name = .ok t) → parseParams ann (ps.map DocParam.written) args = .ok (told ann ps args)
  | [], _, _, _ => rfl
  | p :: ps, args, hc, ha => by
    obtain ⟨t, ht⟩ := ha p (by simp)
    rw [List.map_cons, parseParams, parseAttribute_written (hc p (by simp)) ht]
    dsimp only
    rw [parseParams_written ps _ (fun q hq => hc q (by simp [hq])) fun q hq => ha q (by simp [hq])]
    rw [told]
    rw [ht]

theorem lookup_told {ann : List Char → Except PyErr (List Char)} (name : List Char) : ∀ (ps : List DocParam)
    (args : List (List Char × ParsedAttr)), ((told ann ps args).lookup name).map (·.desc) =
      match lastText name ps with
      | some t => some (trim t)
      | none => (args.lookup name).map (·.desc)
  | [], args => rfl
  | p :: ps, args => by
    rw [told, lookup_told name ps, lastText]
    cases hl : lastText name ps with
    | some t => rfl
    | none =>
      dsimp only
      rw [Dict.lookup_set]
      by_cases h : p.name = name
      · rw [if_pos h.symm, if_pos h]
        rfl
      · rw [if_neg (fun e => h e.symm), if_neg h]

theorem dropWhile_split (f : Char → Bool) (s : List Char) : s = s.takeWhile f ++ s.dropWhile f := (List.takeWhile_append_dropWhile ..).symm

theorem mem_takeWhile' {f : Char → Bool} {s : List Char} {c : Char} (h : c ∈ s.takeWhile f) : f c = true := by
  induction s with
  | nil => simp at h
  | cons d s ih =>
    rw [List.takeWhile_cons] at h
    split at h
    · rename_i hd
      rcases List.mem_cons.1 h with rfl | h
      · exact hd
      · exact ih h
    · simp at h

theorem head_dropWhile {f : Char → Bool} {s : List Char} {c : Char} (h : (s.dropWhile f).head? = some c) : f c = false := by
  induction s with
  | nil => simp at h
  | cons d s ih =>
    rw [List.dropWhile_cons] at h
    split at h
    · exact ih h
    · rename_i hd
      simp only [List.head?_cons, Option.some.injEq] at h
      subst h
      simpa using hd

/-- `trim` removes the blanks at both ends, and nothing else. -/
theorem trim_trimmed (s : List Char) : Trimmed s (trim s) := by
  have h1 := dropWhile_split Char.isWhitespace s
  have h2 := dropWhile_split Char.isWhitespace (s.dropWhile Char.isWhitespace).reverse
  have h3 : s.dropWhile Char.isWhitespace = trim s ++ ((s.dropWhile Char.isWhitespace).reverse.takeWhile Char.isWhitespace).reverse := by
    have := congrArg List.reverse h2
    rw [List.reverse_reverse, List.reverse_append] at this
    exact this
  refine ⟨s.takeWhile Char.isWhitespace, ((s.dropWhile Char.isWhitespace).reverse.takeWhile Char.isWhitespace).reverse, ?_, ?_, ?_, ?_, ?_⟩
  · rw [List.append_assoc, ← h3]
    exact h1
  · intro c hc
    exact mem_takeWhile' hc
  · intro c hc
    rw [List.mem_reverse] at hc
    exact mem_takeWhile' hc
  · intro c hc
    apply head_dropWhile (s := s)
    rw [h3, List.head?_append, hc]
    rfl
  · intro c hc
    rw [trim, List.getLast?_reverse] at hc
    exact head_dropWhile hc

/-! ### C133 -/

/-- What is read of a well written docstring. -/
theorem parseDocstring_written {ann : List Char → Except PyErr (List Char)} {d : List Char} {ps : List DocParam} {e : Option (List Char)}
    (hd : ¬ Occurs paramWord d) (hr : ¬ Occurs returnWord (d ++ writtenParams ps)) (hc : ∀ p ∈ ps, p.Clean)
    (ha : ∀ p ∈ ps, ∃ t, ann p.name = .ok t) :
    ∃ D, parseDocstring ann (some (d ++ writtenParams ps ++ writtenEnd e)) = .ok D ∧ D.description = trim d ∧
      ∀ name, describe D name = match lastText name ps with | some t => trim t | none => [] := by
  by_cases hn : d ++ writtenParams ps ++ writtenEnd e = []
  · rw [hn]
    simp only [List.append_eq_nil_iff] at hn
    obtain ⟨⟨rfl, hps⟩, -⟩ := hn
    have : ps = [] := by
      cases ps with
      | nil => rfl
      | cons p ps => have := length_writtenParams (p :: ps); rw [hps] at this; simp at this
    subst this
    exact ⟨⟨[], []⟩, rfl, rfl, fun name => rfl⟩
  · have hsp : splitSub paramMark (Types.before returnMark (d ++ writtenParams ps ++ writtenEnd e)) = d :: ps.map DocParam.written := by
      rw [before_return hr e]
      apply splitN_params ps d _ _ hd hc
      have := length_writtenParams ps
      rw [List.length_append]
      omega
    refine ⟨⟨trim d, told ann ps []⟩, ?_, rfl, ?_⟩
    · unfold parseDocstring
      split
      · rename_i h; simp at h
      · rename_i h; exact absurd (Option.some.inj h) hn
      · rename_i s _ h
        rw [← Option.some.inj h, hsp]
        dsimp only
        rw [parseParams_written ps [] hc ha]
    · intro name
      have := lookup_told (ann := ann) name ps []
      unfold describe
      dsimp only
      cases h : (told ann ps []).lookup name with
      | none =>
        rw [h] at this
        cases hl : lastText name ps with
        | none => rfl
        | some t => rw [hl] at this; simp at this
      | some a =>
        rw [h] at this
        cases hl : lastText name ps with
        | none => rw [hl] at this; simp at this
        | some t =>
          rw [hl] at this
          simpa using this

/-- **C133** In a docstring made of a description, of `:param name: text` for some parameters, possibly with `:type`, and possibly of
`:return:`, where the texts hold no mark and the names are those of annotated parameters whose annotations have a string, the
description is the beginning and the description of each parameter is the last text given for it, without the blanks at its ends; the
parameters not documented have an empty description.  Missing for the full property: docstrings written otherwise, see
`C133_unknown_violated`, `C133_blank_violated`, `C133_mark_violated`. -/
theorem C133_partial {ann : List Char → Except PyErr (List Char)} {d : List Char} {ps : List DocParam} {e : Option (List Char)}
    (hd : ¬ Occurs paramWord d) (hr : ¬ Occurs returnWord (d ++ writtenParams ps)) (hc : ∀ p ∈ ps, p.Clean)
    (ha : ∀ p ∈ ps, ∃ t, ann p.name = .ok t) :
    let doc := memberDoc ann (some (d ++ writtenParams ps ++ writtenEnd e))
    Trimmed d doc.description ∧ ∀ name, match lastText name ps with
      | some t => Trimmed t (describe doc name)
      | none => describe doc name = [] := by
  obtain ⟨D, hD, h1, h2⟩ := parseDocstring_written (e := e) hd hr hc ha
  have hm : memberDoc ann (some (d ++ writtenParams ps ++ writtenEnd e)) = D := by rw [memberDoc, hD]
  dsimp only
  rw [hm]
  refine ⟨h1 ▸ trim_trimmed d, fun name => ?_⟩
  have := h2 name
  split
  · rename_i t hl
    rw [hl] at this
    rw [this]
    exact trim_trimmed t
  · rename_i hl
    rw [hl] at this
    exact this

/-- Annotations of `x` and `long_name`. -/
def demoAnnots : List Char → Except PyErr (List Char) := fun n =>
  if n = "x".toList then .ok "int".toList else if n = "long_name".toList then .ok "str".toList else .error .keyError

def docX : DocParam := ⟨"x".toList, " A size, in m\n".toList, some "x: int\n".toList⟩
def docLong : DocParam := ⟨"long_name".toList, " The name: any text\n ".toList, none⟩

theorem not_occurs {sub s : List Char} (h : Str.isIn sub s = false) : ¬ Occurs sub s := by
  intro ho
  have := (Str.isIn_iff (sub := sub) (s := s)).2 ho
  rw [h] at this
  exact absurd this (by simp)

/-- The hypotheses of `C133_partial` on a docstring with two parameters, a type and a result. -/
example : ¬ Occurs paramWord " A part.\n ".toList ∧ ¬ Occurs returnWord (" A part.\n ".toList ++ writtenParams [docX, docLong]) ∧
    (∀ p ∈ [docX, docLong], p.Clean) ∧ (∀ p ∈ [docX, docLong], ∃ t, demoAnnots p.name = .ok t) ∧
    (describe (memberDoc demoAnnots (some (" A part.\n ".toList ++ writtenParams [docX, docLong] ++ writtenEnd (some " a part".toList))))
      "long_name".toList) = "The name: any text".toList := by
  refine ⟨not_occurs (by decide), not_occurs (by decide), ?_, ?_, by decide +kernel⟩
  · intro p hp
    simp only [List.mem_cons, List.not_mem_nil, or_false] at hp
    rcases hp with rfl | rfl
    · exact ⟨by decide, not_occurs (by decide), not_occurs (by decide)⟩
    · exact ⟨by decide, not_occurs (by decide), not_occurs (by decide)⟩
  · intro p hp
    simp only [List.mem_cons, List.not_mem_nil, or_false] at hp
    rcases hp with rfl | rfl
    · exact ⟨_, rfl⟩
    · exact ⟨_, rfl⟩

/-- The documentation of a member whose docstring cannot be read: every description is lost. -/
theorem memberDoc_failed {ann : List Char → Except PyErr (List Char)} {doc : Option (List Char)} {e : PyErr}
    (h : parseDocstring ann doc = .error e) : (memberDoc ann doc).description = "Docstring parsing failed".toList ∧
    ∀ name, describe (memberDoc ann doc) name = [] := by
  rw [memberDoc, h]
  exact ⟨rfl, fun name => rfl⟩

theorem parseParams_error {ann : List Char → Except PyErr (List Char)} {e : PyErr} {q : DocParam} (hq : q.Clean) (hf : ann q.name = .error e) :
    ∀ (ps : List DocParam) (qs : List (List Char)) (args : List (List Char × ParsedAttr)), (∀ p ∈ ps, p.Clean) → (∀ p ∈ ps, ∃ t, ann p.name = .ok t) →
    parseParams ann (ps.map DocParam.written ++ q.written :: qs) args = .error e
  | [], qs, args, _, _ => by
    have hb : (if Str.isIn typeMark q.written then Types.before typeSpace q.written else q.written) = q.said := by
      unfold DocParam.written
      cases q.type with
      | none =>
        rw [if_neg]
        · simp
        · simp only [List.append_nil]
          rw [Str.isIn_iff]
          exact hq.type
      | some ty =>
        rw [if_pos]
        · apply before_append (sub := typeSpace) (by decide)
          intro r hr hn
          apply not_prefix (by decide) hn
          intro ho
          apply hq.type
          obtain ⟨a, b, rfl⟩ := ho
          refine Occurs.of_suffix hr ⟨a, ' ' :: b, ?_⟩
          have : typeSpace = typeWord ++ [' '] := by decide
          rw [this]
          simp
        · rw [Str.isIn_iff]
          refine ⟨q.said, ' ' :: ty, ?_⟩
          have : typeBlank = typeMark ++ [' '] := by decide
          dsimp only
          rw [this]
          simp
    rw [List.map_nil, List.nil_append, parseParams, parseAttribute, hb, DocParam.said, cut_colon hq.name]
    dsimp only
    rw [hf]
  | p :: ps, qs, args, hc, ha => by
    obtain ⟨t, ht⟩ := ha p (by simp)
    rw [List.map_cons, List.cons_append, parseParams, parseAttribute_written (hc p (by simp)) ht]
    dsimp only
    exact parseParams_error hq hf ps qs _ (fun r hr => hc r (by simp [hr])) fun r hr => ha r (by simp [hr])

/-- A docstring which documents a name which is not that of an annotated parameter cannot be read. -/
theorem parseDocstring_unknown {ann : List Char → Except PyErr (List Char)} {d : List Char} {ps qs : List DocParam} {q : DocParam} {e : PyErr}
    {r : Option (List Char)} (hd : ¬ Occurs paramWord d) (hr : ¬ Occurs returnWord (d ++ writtenParams (ps ++ q :: qs)))
    (hc : ∀ p ∈ ps ++ q :: qs, p.Clean) (ha : ∀ p ∈ ps, ∃ t, ann p.name = .ok t) (hq : ann q.name = .error e) :
    parseDocstring ann (some (d ++ writtenParams (ps ++ q :: qs) ++ writtenEnd r)) = .error e := by
  have hsp : splitSub paramMark (Types.before returnMark (d ++ writtenParams (ps ++ q :: qs) ++ writtenEnd r)) =
      d :: (ps ++ q :: qs).map DocParam.written := by
    rw [before_return hr r]
    apply splitN_params _ d _ _ hd hc
    have := length_writtenParams (ps ++ q :: qs)
    rw [List.length_append (as := d)]
    omega
  unfold parseDocstring
  split
  · rename_i h; simp at h
  · rename_i h
    have := length_writtenParams (ps ++ q :: qs)
    have h2 := congrArg List.length (Option.some.inj h)
    simp only [List.length_append, List.length_cons, List.length_nil] at this h2
    omega
  · rename_i s _ h
    rw [← Option.some.inj h, hsp]
    dsimp only
    rw [List.map_append, List.map_cons, parseParams_error (hc q (by simp)) hq ps _ [] (fun p hp => hc p (by simp [hp])) ha]

/-- **C133** is violated: one documented name which is not that of an annotated parameter, and the descriptions of all the parameters
are lost. -/
theorem C133_unknown_violated {ann : List Char → Except PyErr (List Char)} {d : List Char} {ps qs : List DocParam} {q : DocParam} {e : PyErr}
    {r : Option (List Char)} (hd : ¬ Occurs paramWord d) (hr : ¬ Occurs returnWord (d ++ writtenParams (ps ++ q :: qs)))
    (hc : ∀ p ∈ ps ++ q :: qs, p.Clean) (ha : ∀ p ∈ ps, ∃ t, ann p.name = .ok t) (hq : ann q.name = .error e) :
    let doc := memberDoc ann (some (d ++ writtenParams (ps ++ q :: qs) ++ writtenEnd r))
    doc.description = "Docstring parsing failed".toList ∧ ∀ name, describe doc name = [] :=
  memberDoc_failed (parseDocstring_unknown hd hr hc ha hq)

/-- The hypotheses of `C133_unknown_violated`: the docstring still documents `y`, which is no parameter. -/
example : ¬ Occurs returnWord (" A part.\n ".toList ++ writtenParams ([docX] ++ ⟨"y".toList, " Old one".toList, none⟩ :: [docLong])) ∧
    demoAnnots "y".toList = .error .keyError ∧ describe (memberDoc demoAnnots (some (" A part.\n ".toList ++
      writtenParams ([docX] ++ ⟨"y".toList, " Old one".toList, none⟩ :: [docLong])))) "x".toList = [] :=
  ⟨not_occurs (by decide), rfl, by decide +kernel⟩

/-- **C133** is violated: with a blank before the colon (`:param x : A size`), or with the type before the name (`:param int x: A size`),
the descriptions are lost. -/
theorem C133_blank_violated : describe (memberDoc demoAnnots (some ":param x : A size".toList)) "x".toList = [] ∧
    describe (memberDoc demoAnnots (some ":param int x: A size".toList)) "x".toList = [] := by decide +kernel

/-- **C133** is violated: a description which mentions `:type ` is cut there. -/
theorem C133_mark_violated : describe (memberDoc demoAnnots (some ":param x: A size, see :type of part".toList)) "x".toList = "A size, see".toList := by
  decide +kernel

/-- **C133** is violated: `_check_docstring`, which returns whether the docstring is proper, raises KeyError or ValueError on
an improper one: there is no exception but these for a name which is not annotated, or for `:param` without colon. -/
theorem C133_check_violated : checkDocstring demoAnnots (some ":param y: Old one".toList) = .error .keyError ∧
    checkDocstring demoAnnots (some ":param x".toList) = .error .valueError := by decide +kernel

/-- What `_check_docstring` accepts is a docstring that can be read: there is one, and it is parsed; nothing is refused but a class without
docstring and a TypeError.
Missing: improper docstrings are not refused but raise (`C133_check_violated`). -/
theorem C133_check_partial {ann : List Char → Except PyErr (List Char)} {doc : Option (List Char)} :
    (checkDocstring ann doc = .ok true ↔ doc ≠ none ∧ ∃ d, parseDocstring ann doc = .ok d) ∧
    (checkDocstring ann doc = .ok false ↔ doc = none ∨ parseDocstring ann doc = .error .typeError) := by
  cases doc with
  | none => simp [checkDocstring, parseDocstring]
  | some s =>
    simp only [checkDocstring]
    cases h : parseDocstring ann (some s) with
    | ok d => simp
    | error e => cases e <;> simp

example : checkDocstring demoAnnots (some ":param x: A size".toList) = .ok true :=
  C133_check_partial.1.2 ⟨by simp, _, rfl⟩

end DC.Sch
