import Mathlib.Data.List.Forall2
import Verif.Misc.Docx
/- Property C142: Word documents. -/
namespace DC.Docx
set_option linter.unusedSimpArgs false

/-! ### Specification -/

/-- `t` is `s` without the characters of the kind `p` at its beginning and at its end. -/
def Stripped (p : Char → Prop) (s t : List Char) : Prop :=
  ∃ a b, s = a ++ t ++ b ∧ (∀ c ∈ a, p c) ∧ (∀ c ∈ b, p c) ∧ (∀ c, t.head? = some c → ¬ p c) ∧ ∀ c, t.getLast? = some c → ¬ p c

/-- A blank character. -/
def Blank (c : Char) : Prop := c ∈ [' ', '\t', '\n', '\r', '\x0b', '\x0c']

/-- A heading line. -/
def IsHeading (line : List Char) : Prop := line.head? = some '#'

/-- Three dashes are in the line. -/
def HasDashes (line : List Char) : Prop := ∃ a b, line = a ++ ['-', '-', '-'] ++ b

/-- The line is written: it is not blank, and it is a heading or it has no group of three dashes. -/
def Written (line : List Char) : Prop := line ≠ [] ∧ (IsHeading line ∨ ¬ HasDashes line)

/-- The line only has bars, dashes and blanks. -/
def OnlyRules (line : List Char) : Prop := ∀ c ∈ line, Blank c ∨ c = '|' ∨ c = '-'

/-- The line is between two bars. -/
def IsRow (line : List Char) : Prop := ∃ inner, line = '|' :: (inner ++ ['|'])

/-- What is added at the beginning of the document for a heading line: its text without the `#` around, at the level which
is the number of its `#`. -/
inductive TopOf : List Char → Item → Prop
  | mk {line t} : Stripped (· = '#') line t → TopOf line (.heading t (line.count '#'))

/-- What is added in the document for a written line. -/
inductive ShownAs : List Char → Item → Prop
  /-- a heading line: its text, without the `#` and the spaces around; the level is the number of the `#` inside -/
  | heading {line t} : IsHeading line → Stripped (fun c => c = ' ' ∨ c = '#') line t → ShownAs line (.heading t (t.count '#'))
  /-- a row of a table: a table of one row, whose cells are between the bars -/
  | row {line t cells} : IsRow line → Stripped (· = '|') line t → Str.join ['|'] cells = t → (∀ c ∈ cells, '|' ∉ c) → cells ≠ [] →
      ShownAs line (.table [cells])
  /-- another line, or a line of bars and dashes -/
  | text {line} : ¬ IsHeading line → (¬ IsRow line ∨ OnlyRules line) → ShownAs line (.paragraph line)

/-! ### Lemmas -/

theorem mem_takeWhile_of {p : Char → Bool} : {s : List Char} → {c : Char} → c ∈ s.takeWhile p → p c = true
  | [], c, h => by simp at h
  | d :: s, c, h => by
    rw [List.takeWhile_cons] at h
    split at h
    · rename_i hd
      rcases List.mem_cons.1 h with rfl | h
      · exact hd
      · exact mem_takeWhile_of h
    · simp at h

theorem head_dropWhile {p : Char → Bool} : {s : List Char} → {c : Char} → (s.dropWhile p).head? = some c → p c = false
  | [], c, h => by simp at h
  | d :: s, c, h => by
    rw [List.dropWhile_cons] at h
    split at h
    · exact head_dropWhile h
    · rename_i hd
      simp at h; subst h; simpa using hd

theorem dropWhile_all {p : Char → Bool} : {s : List Char} → (∀ c ∈ s, p c = true) → s.dropWhile p = []
  | [], _ => rfl
  | d :: s, h => by
    rw [List.dropWhile_cons, if_pos (h d (by simp))]
    exact dropWhile_all fun c hc => h c (by simp [hc])

theorem dropWhile_head {p : Char → Bool} {t : List Char} : {s : List Char} → (∀ c ∈ s, p c = true) → (∀ c, t.head? = some c → p c = false) →
    (s ++ t).dropWhile p = t
  | [], _, ht => by
    cases t with
    | nil => rfl
    | cons c t => rw [List.nil_append, List.dropWhile_cons, if_neg (by simpa using ht c rfl)]
  | d :: s, h, ht => by
    rw [List.cons_append, List.dropWhile_cons, if_pos (h d (by simp))]
    exact dropWhile_head (fun c hc => h c (by simp [hc])) ht

theorem stripBy_spec (p : Char → Bool) (s : List Char) : Stripped (fun c => p c = true) s (stripBy p s) := by
  have key : s.dropWhile p = stripBy p s ++ ((s.dropWhile p).reverse.takeWhile p).reverse := by
    rw [stripBy, ← List.reverse_append, List.takeWhile_append_dropWhile, List.reverse_reverse]
  refine ⟨s.takeWhile p, ((s.dropWhile p).reverse.takeWhile p).reverse, ?_, ?_, ?_, ?_, ?_⟩
  · rw [List.append_assoc, ← key, List.takeWhile_append_dropWhile]
  · intro c hc; exact mem_takeWhile_of hc
  · intro c hc
    rw [List.mem_reverse] at hc
    exact mem_takeWhile_of hc
  · intro c hc
    have : (s.dropWhile p).head? = some c := by
      rw [key, List.head?_append, hc]; rfl
    simpa using head_dropWhile this
  · intro c hc
    rw [stripBy, List.getLast?_reverse] at hc
    simpa using head_dropWhile hc

theorem stripBy_unique {p : Char → Bool} {s t : List Char} (h : Stripped (fun c => p c = true) s t) : t = stripBy p s := by
  obtain ⟨a, b, rfl, ha, hb, h1, h2⟩ := h
  rw [stripBy]
  cases t with
  | nil =>
    rw [List.append_nil, dropWhile_all (s := a ++ b) (by
      intro c hc
      rcases List.mem_append.1 hc with hc | hc
      · exact ha c hc
      · exact hb c hc)]
    rfl
  | cons d t =>
    rw [List.append_assoc, dropWhile_head ha (by
      intro c hc
      simp at hc; subst hc
      simpa using h1 d rfl)]
    rw [List.reverse_append, dropWhile_head (by simpa using hb) (by
      intro c hc
      rw [List.head?_reverse] at hc
      simpa using h2 c hc), List.reverse_reverse]

theorem blank_iff (c : Char) : blank c = true ↔ Blank c := by simp [blank, Blank, or_assoc]

/-! ### Regular expressions -/

/-- The texts of a regular expression. -/
inductive Lang : Re → List Char → Prop
  | eps : Lang .eps []
  | chr {p c} : p c = true → Lang (.chr p) [c]
  | seq {a b s t} : Lang a s → Lang b t → Lang (.seq a b) (s ++ t)
  | left {a b s} : Lang a s → Lang (.alt a b) s
  | right {a b s} : Lang b s → Lang (.alt a b) s
  | stop {a} : Lang (.star a) []
  | more {a s t} : Lang a s → Lang (.star a) t → Lang (.star a) (s ++ t)

theorem Lang.of_nullable : (r : Re) → r.nullable = true → Lang r []
  | .none, h => by simp [Re.nullable] at h
  | .eps, _ => .eps
  | .chr _, h => by simp [Re.nullable] at h
  | .seq a b, h => by
    simp [Re.nullable] at h
    exact .seq (s := []) (Lang.of_nullable a h.1) (Lang.of_nullable b h.2)
  | .alt a b, h => by
    simp [Re.nullable] at h
    rcases h with h | h
    · exact .left (Lang.of_nullable a h)
    · exact .right (Lang.of_nullable b h)
  | .star a, _ => .stop

theorem Lang.of_deriv (c : Char) : (r : Re) → (s : List Char) → Lang (r.deriv c) s → Lang r (c :: s)
  | .none, s, h => by cases h
  | .eps, s, h => by cases h
  | .chr p, s, h => by
    rw [Re.deriv] at h
    split at h
    · cases h; exact .chr (by assumption)
    · cases h
  | .seq a b, s, h => by
    rw [Re.deriv] at h
    split at h
    · rename_i hn
      cases h with
      | left h => cases h with
        | seq h1 h2 => exact .seq (Lang.of_deriv c a _ h1) h2
      | right h => exact .seq (s := []) (Lang.of_nullable a hn) (Lang.of_deriv c b _ h)
    · cases h with
      | seq h1 h2 => exact .seq (Lang.of_deriv c a _ h1) h2
  | .alt a b, s, h => by
    rw [Re.deriv] at h
    cases h with
    | left h => exact .left (Lang.of_deriv c a _ h)
    | right h => exact .right (Lang.of_deriv c b _ h)
  | .star a, s, h => by
    rw [Re.deriv] at h
    cases h with
    | seq h1 h2 => exact .more (Lang.of_deriv c a _ h1) h2

theorem Lang.of_matches : (s : List Char) → (r : Re) → r.matches s = true → Lang r s
  | [], r, h => Lang.of_nullable r h
  | c :: s, r, h => Lang.of_deriv c r s (Lang.of_matches s _ h)

/-- The characters that an expression accepts are of the kind `P`. -/
def Re.Only (P : Char → Prop) : Re → Prop
  | .none => True
  | .eps => True
  | .chr p => ∀ c, p c = true → P c
  | .seq a b => a.Only P ∧ b.Only P
  | .alt a b => a.Only P ∧ b.Only P
  | .star a => a.Only P

theorem Lang.only {P : Char → Prop} {r s} (h : Lang r s) : r.Only P → ∀ c ∈ s, P c := by
  induction h with
  | eps => simp
  | chr hp => intro ho c hc; simp at hc; subst hc; exact ho _ hp
  | seq _ _ i1 i2 =>
    intro ho c hc
    rcases List.mem_append.1 hc with hc | hc
    · exact i1 ho.1 c hc
    · exact i2 ho.2 c hc
  | left _ i => intro ho; exact i ho.1
  | right _ i => intro ho; exact i ho.2
  | stop => simp
  | more _ _ i1 i2 =>
    intro ho c hc
    rcases List.mem_append.1 hc with hc | hc
    · exact i1 ho c hc
    · exact i2 ho c hc

theorem ruling_only {line : List Char} (h : reRuling.matches line = true) : OnlyRules line := by
  refine (Lang.of_matches _ _ h).only ?_
  simp only [reRuling, reBlanks, reBar, reDashes, Re.Only, blank_iff]
  simp
  exact fun c h => .inl h

/-! ### The document -/

theorem isRow_iff (line : List Char) : isRow line = true ↔ IsRow line := by
  rw [isRow, IsRow]
  cases line with
  | nil => simp
  | cons c s =>
    simp only [List.head?_cons, Option.some.injEq, List.tail_cons, Bool.and_eq_true, decide_eq_true_eq, List.cons.injEq,
      exists_and_left]
    constructor
    · rintro ⟨rfl, h⟩
      obtain ⟨t, rfl⟩ := List.getLast?_eq_some_iff.1 (of_decide_eq_true h)
      exact ⟨rfl, t, rfl⟩
    · rintro ⟨rfl, t, rfl⟩
      simp

theorem hasDashes_iff (line : List Char) : hasDashes line = true ↔ HasDashes line := Str.isIn_iff

/-- The line is a heading line. -/
def headingB (line : List Char) : Bool := line.head? = some '#'

/-- The line is written. -/
def writtenB (line : List Char) : Bool := line ≠ [] && (headingB line || !hasDashes line)

theorem headingB_iff (line : List Char) : headingB line = true ↔ IsHeading line := by simp [headingB, IsHeading]

theorem writtenB_iff (line : List Char) : writtenB line = true ↔ Written line := by
  have h := hasDashes_iff line
  cases hd : hasDashes line
  · rw [hd] at h
    simp [writtenB, Written, headingB_iff, ← h, hd]
  · rw [hd] at h
    simp [writtenB, Written, headingB_iff, ← h, hd]

theorem Stripped.congr {p q : Char → Prop} (h : ∀ c, p c ↔ q c) {s t} (hs : Stripped p s t) : Stripped q s t := by
  have : p = q := funext fun c => propext (h c)
  rw [← this]; exact hs

theorem count_strip {p : Char → Bool} {x : Char} (s : List Char) : (stripBy p s).count x ≤ s.count x := by
  obtain ⟨a, b, h, -⟩ := stripBy_spec p s
  conv => rhs; rw [h]
  simp only [List.count_append]
  omega

theorem addElem_shown {line : List Char} (hw : Written line) (hc : IsHeading line → line.count '#' ≤ 9) :
    ∃ x i, (if headingB line then [Elem.paragraph line]
      else if isRow line && !reRuling.matches line then
        if hasDashes line then [] else [.table [Str.split '|' (stripBy (· = '|') line)]]
      else if hasDashes line then [] else [.paragraph line]) = [x] ∧ addElem x = .ok i ∧ ShownAs line i := by
  obtain ⟨h0, hw⟩ := hw
  by_cases hh : IsHeading line
  · have hb := (headingB_iff line).2 hh
    rw [if_pos hb]
    have hcount := hc hh
    have := count_strip (p := fun c => c = ' ' || c = '#') (x := '#') line
    refine ⟨_, _, rfl, ?_, .heading hh ((stripBy_spec (fun c => c = ' ' || c = '#') line).congr (by simp))⟩
    rw [addElem, if_pos (by exact hh), addParagraphAsHeading, addHeading, if_pos (by omega)]
  · have hb : headingB line = false := by
      cases hx : headingB line
      · rfl
      · exact absurd ((headingB_iff line).1 hx) hh
    have hd : hasDashes line = false := by
      cases hx : hasDashes line
      · rfl
      · exact absurd ((hasDashes_iff line).1 hx) (hw.resolve_left hh)
    rw [hb, hd]
    simp only [Bool.false_eq_true, if_false]
    by_cases hr : (isRow line && !reRuling.matches line) = true
    · rw [if_pos hr]
      rw [Bool.and_eq_true] at hr
      exact ⟨_, _, rfl, rfl, .row ((isRow_iff line).1 hr.1) ((stripBy_spec (· = '|') line).congr (by simp)) (Str.join_split _ _)
        (fun c hc => Str.split_no_sep hc) (Str.split_ne_nil _ _)⟩
    · rw [if_neg hr]
      refine ⟨_, .paragraph line, rfl, ?_, .text hh ?_⟩
      · rw [addElem, if_neg (by exact hh)]
      · by_cases hi : IsRow line
        · right
          refine ruling_only ?_
          have := (isRow_iff line).2 hi
          rw [this] at hr
          simpa using hr
        · exact .inl hi

theorem addHeadings_top : (ls : List (List Char)) → (∀ l ∈ ls, l.count '#' ≤ 9) → ∃ top, addHeadings (ls.map Heading.fromMarkdown) = .ok top ∧
    List.Forall₂ TopOf ls top
  | [], _ => ⟨[], rfl, .nil⟩
  | l :: ls, h => by
    obtain ⟨top, h1, h2⟩ := addHeadings_top ls fun x hx => h x (by simp [hx])
    refine ⟨.heading (stripBy (· = '#') l) (l.count '#') :: top, ?_, .cons (.mk ((stripBy_spec (· = '#') l).congr (by simp))) h2⟩
    rw [List.map_cons, addHeadings, addHeading, Heading.fromMarkdown]
    simp only
    rw [if_pos (h l (by simp))]
    simp only
    rw [h1]

theorem addElems_append {xs ys : List Elem} {is js : List Item} (h1 : addElems xs = .ok is) (h2 : addElems ys = .ok js) :
    addElems (xs ++ ys) = .ok (is ++ js) := by
  induction xs generalizing is with
  | nil => simp only [addElems, Except.ok.injEq] at h1; subst h1; exact h2
  | cons x xs ih =>
    rw [addElems] at h1
    rw [List.cons_append, addElems]
    cases hx : addElem x with
    | error e => rw [hx] at h1; simp at h1
    | ok i =>
      rw [hx] at h1
      simp only at h1 ⊢
      cases hxs : addElems xs with
      | error e => rw [hxs] at h1; simp at h1
      | ok is' =>
        rw [hxs] at h1
        simp only [Except.ok.injEq] at h1; subst h1
        rw [ih hxs]
        rfl

theorem parseLine_eq {raw line : List Char} (h : line = stripBy blank raw) : parseLine raw =
    (if headingB line then [Heading.fromMarkdown line] else [],
      if line = [] then [] else if headingB line then [Elem.paragraph line]
      else if isRow line && !reRuling.matches line then
        if hasDashes line then [] else [.table [Str.split '|' (stripBy (· = '|') line)]]
      else if hasDashes line then [] else [.paragraph line]) := by
  subst h
  rw [parseLine]
  by_cases h0 : stripBy blank raw = []
  · rw [if_pos h0, h0]; rfl
  · rw [if_neg h0, if_neg h0]
    by_cases hh : (stripBy blank raw).head? = some '#'
    · have : headingB (stripBy blank raw) = true := by simp [headingB, hh]
      rw [if_pos hh, this]; rfl
    · have : headingB (stripBy blank raw) = false := by simp [headingB, hh]
      rw [if_neg hh, this]
      simp only [Bool.false_eq_true, if_false]
      split <;> rfl

theorem parseLines_shown : (raws lines : List (List Char)) → List.Forall₂ (fun raw line => line = stripBy blank raw) raws lines →
    (∀ l ∈ lines, IsHeading l → l.count '#' ≤ 9) →
    (parseLines raws).1 = (lines.filter headingB).map Heading.fromMarkdown ∧
      ∃ body, addElems (parseLines raws).2 = .ok body ∧ List.Forall₂ ShownAs (lines.filter writtenB) body
  | _, _, .nil, _ => ⟨rfl, [], rfl, .nil⟩
  | raw :: raws, line :: lines, .cons h1 h2, hc => by
    obtain ⟨i1, body, i2, i3⟩ := parseLines_shown raws lines h2 fun l hl => hc l (by simp [hl])
    rw [parseLines, parseLine_eq h1]
    simp only
    refine ⟨?_, ?_⟩
    · rw [i1, List.filter_cons]
      split <;> rfl
    · by_cases hw : Written line
      · obtain ⟨x, i, q1, q2, q3⟩ := addElem_shown hw (hc line (by simp))
        rw [if_neg hw.1, q1, List.filter_cons, if_pos ((writtenB_iff line).2 hw)]
        exact ⟨i :: body, addElems_append (xs := [x]) (is := [i]) (by simp [addElems, q2]) i2, .cons q3 i3⟩
      · have hb : writtenB line = false := by
          cases hx : writtenB line
          · rfl
          · exact absurd ((writtenB_iff line).1 hx) hw
        have : (if line = [] then [] else if headingB line then [Elem.paragraph line]
            else if isRow line && !reRuling.matches line then
              if hasDashes line then [] else [.table [Str.split '|' (stripBy (· = '|') line)]]
            else if hasDashes line then [] else [.paragraph line]) = [] := by
          simp only [writtenB, Bool.and_eq_false_iff, Bool.or_eq_false_iff, decide_eq_false_iff_not] at hb
          split
          · rfl
          · rename_i h0
            have hb := hb.resolve_left (by simpa using h0)
            have hd : hasDashes line = true := by simpa using hb.2
            rw [hb.1, hd]
            simp
        rw [this, List.filter_cons, if_neg (by simpa using hb)]
        exact ⟨body, i2, i3⟩

open Classical in
/-- **C142.** The Word document of a markdown text begins with its headings, then has one item for each line of the text
which is not blank and holds no group of three dashes, in order: its text as a heading, a table of one row whose cells are
between the bars, or a paragraph.
Missing: the levels of the headings inside the document (`C142_level_violated`), the lines with three dashes
(`C142_dashes_violated`), the lines with more than nine `#` (`C142_hashes_violated`), the empty cells at the ends of rows
(`C142_cells_violated`), the rows of a table in one table (`C142_table_violated`). -/
theorem C142_partial (text : List Char) (raws lines : List (List Char)) (hne : raws ≠ []) (hn : ∀ l ∈ raws, '\n' ∉ l)
    (htext : Str.join ['\n'] raws = text) (hlines : List.Forall₂ (Stripped Blank) raws lines)
    (hc : ∀ l ∈ lines, IsHeading l → l.count '#' ≤ 9) :
    ∃ top body, fromMarkdown text = .ok (top ++ .pageBreak :: body) ∧
      List.Forall₂ TopOf (lines.filter fun l => IsHeading l) top ∧ List.Forall₂ ShownAs (lines.filter fun l => Written l) body := by
  have hl : List.Forall₂ (fun raw line => line = stripBy blank raw) raws lines :=
    hlines.imp fun _ _ h => stripBy_unique (h.congr fun c => (blank_iff c).symm)
  obtain ⟨h1, body, h2, h3⟩ := parseLines_shown raws lines hl hc
  obtain ⟨top, h4, h5⟩ := addHeadings_top (lines.filter headingB) (by
    intro l hl
    obtain ⟨hm, hb⟩ := List.mem_filter.1 hl
    exact hc l hm ((headingB_iff l).1 hb))
  have e1 : (lines.filter fun l => decide (IsHeading l)) = lines.filter headingB :=
    List.filter_congr fun l _ => by rw [Bool.eq_iff_iff, decide_eq_true_eq, headingB_iff]
  have e2 : (lines.filter fun l => decide (Written l)) = lines.filter writtenB :=
    List.filter_congr fun l _ => by rw [Bool.eq_iff_iff, decide_eq_true_eq, writtenB_iff]
  refine ⟨top, body, ?_, by rw [e1]; exact h5, by rw [e2]; exact h3⟩
  rw [fromMarkdown]
  rw [parseMarkdown, ← htext, Str.split_join hne hn, h1, h4]
  simp only
  rw [h2]

/-- **C142** is violated by the code: whatever its level, a heading is written in the document as a title (level 0), when it
has no other `#` than those at its beginning. -/
theorem C142_level_violated (n : Nat) (hn : n < 9) : ∃ top, fromMarkdown (List.replicate (n + 1) '#' ++ [' ', 'a']) = .ok
    [.heading [' ', 'a'] (n + 1), .pageBreak, top] ∧ top = .heading ['a'] 0 := by
  refine ⟨_, ?_, rfl⟩
  have : n = 0 ∨ n = 1 ∨ n = 2 ∨ n = 3 ∨ n = 4 ∨ n = 5 ∨ n = 6 ∨ n = 7 ∨ n = 8 := by omega
  rcases this with rfl | rfl | rfl | rfl | rfl | rfl | rfl | rfl | rfl <;> rfl

/-- **C142** is violated by the code: a line of text with three dashes is left out of the document. -/
theorem C142_dashes_violated : fromMarkdown "before --- after".toList = .ok [.pageBreak] := by rfl

/-- **C142** is violated by the code: a text with a heading which has more than nine `#` makes no document. -/
theorem C142_hashes_violated : fromMarkdown "# C# D# F# G# A# B# E# H# I# J#".toList = .error .valueError := by rfl

/-- **C142** is violated by the code: the empty cell at the beginning of a row is left out. -/
theorem C142_cells_violated : fromMarkdown "|| b |".toList = .ok [.pageBreak, .table [[" b ".toList]]] := by rfl

/-- **C142** is violated by the code: the rows of a table are written as tables of one row. -/
theorem C142_table_violated : fromMarkdown "|a|\n|b|".toList = .ok [.pageBreak, .table [["a".toList]], .table [["b".toList]]] := by rfl

/-- Adding the extension: as `C56_json` for `.docx`. -/
theorem C142_name (filepath : List Char) : ".docx".toList <:+ docxName filepath ∧
    (".docx".toList <:+ filepath → docxName filepath = filepath) ∧
    (¬ ".docx".toList <:+ filepath → docxName filepath = filepath ++ ".docx".toList) := by
  have e : ".docx".toList = ['.', 'd', 'o', 'c', 'x'] := rfl
  rw [e]
  unfold docxName
  by_cases h : ['.', 'd', 'o', 'c', 'x'] <:+ filepath
  · have : ['.', 'd', 'o', 'c', 'x'].isSuffixOf filepath = true := by simpa using h
    simp [h, this]
  · have : ['.', 'd', 'o', 'c', 'x'].isSuffixOf filepath = false := by
      simpa [← List.isSuffixOf_iff_suffix] using h
    simp [h, this]

/-- A text with a heading, a blank line, a table with a ruling, and a paragraph. -/
example : fromMarkdown "## Part\n  \n | a | b |\n| --- | --- |\n| - | - |\n|1|2|\n end".toList = .ok
    [.heading " Part".toList 2, .pageBreak, .heading "Part".toList 0, .table [[" a ".toList, " b ".toList]],
      .paragraph "| - | - |".toList, .table [["1".toList, "2".toList]], .paragraph "end".toList] := by rfl

/-- The hypotheses of `C142_partial` hold for a text with a heading, a blank line and a row. -/
example : List.Forall₂ (Stripped Blank) ["## Part".toList, "  ".toList, " |a| ".toList] ["## Part".toList, [], "|a|".toList] ∧
    (∀ l ∈ ["## Part".toList, [], "|a|".toList], IsHeading l → l.count '#' ≤ 9) ∧
    Written "|a|".toList := by
  refine ⟨?_, by simp [IsHeading], ?_⟩
  · have h := fun s => (stripBy_spec blank s).congr blank_iff
    exact .cons (h _) (.cons (h _) (.cons (h _) .nil))
  · rw [← writtenB_iff]; rfl

end DC.Docx
