import Verif.Misc.Markdown
import Verif.Misc.TextProps
import Verif.Workflow.RunScriptLemmas
import Mathlib.Data.List.Dedup
/- Property C171: the Markdown of objects. -/
namespace DC.Txt

/-! ### Specification -/

/-- The cells of a line of a table: what is between the bars, without the space on each side. -/
def readCells (line : List Char) : List (List Char) := ((Str.split '|' line).drop 1).dropLast.map fun c => (c.drop 1).dropLast

/-- The lines of a table, as a reader of Markdown reads them. -/
def readTable (text : List Char) : List (List (List Char)) := (Str.split '\n' text).dropLast.map readCells

/-- A text that can be in a cell. -/
def InCell (s : List Char) : Prop := '\n' ∉ s ∧ '|' ∉ s

/-- What a value should be shown as. -/
inductive Shown : MdValue → List Char → Prop
  | number (s : List Char) : Shown (.number s) s
  | text {s : List Char} : s ≠ [] → Shown (.text s) s
  | noText : Shown (.text []) "no value".toList
  | none : Shown .none " - ".toList
  | named {n : List Char} : n ≠ [] → Shown (.obj (some n)) n
  | unnamed {n : Option (List Char)} : n.getD [] = [] → Shown (.obj n) "unnamed".toList
  | empty (t : List Char) : Shown (.seq t []) ("empty ".toList ++ t)
  | one (t c : List Char) : Shown (.seq t [c]) ("1 ".toList ++ c)
  | same (t c : List Char) (n : Nat) : Shown (.seq t (List.replicate (n + 2) c)) ((toString (n + 2)).toList ++ [' '] ++ c ++ ['s'])
  | mixed (t : List Char) {cs ds : List (List Char)} : 2 ≤ ds.length → ds.Nodup → (∀ c, c ∈ ds ↔ c ∈ cs) →
      Shown (.seq t cs) ((toString cs.length).toList ++ " [".toList ++ Str.join ", ".toList ds ++ [']'])
  | dict {cs : List (List Char)} {s : List Char} : Shown (.seq "list".toList cs) s → Shown (.dict cs) s

/-- The texts a value is shown with can be in a cell. -/
def TextsInCell : MdValue → Prop
  | .number s => s ≠ [] ∧ InCell s
  | .text s => InCell s
  | .seq t cs => InCell t ∧ ∀ c ∈ cs, InCell c
  | .dict cs => ∀ c ∈ cs, InCell c
  | .obj (some n) => InCell n
  | _ => True

/-- What a set gives: its elements, each of them once. -/
def SetOrder (order : List (List Char) → List (List Char)) : Prop := ∀ l, (order l).Nodup ∧ ∀ c, c ∈ order l ↔ c ∈ l

/-! ### Proofs -/

theorem sequence_shown {order : List (List Char) → List (List Char)} (ho : SetOrder order) (t : List Char) (cs : List (List Char)) :
    Shown (.seq t cs) (sequenceToStr order t cs) := by
  unfold sequenceToStr
  by_cases h : cs.length = 0
  · rw [if_pos h, List.eq_nil_of_length_eq_zero h]; exact .empty t
  · rw [if_neg h]
    simp only
    obtain ⟨h1, h2⟩ := ho cs
    split
    · rename_i c hc
      rw [hc] at h2
      have hall : ∀ d ∈ cs, d = c := fun d hd => by simpa using (h2 d).2 hd
      have hrep : cs = List.replicate cs.length c := List.eq_replicate_iff.2 ⟨rfl, hall⟩
      match hn : cs.length with
      | 0 => exact absurd hn h
      | 1 =>
        rw [hn] at hrep
        rw [hrep, if_neg (by decide), List.append_nil]
        exact .one t c
      | n + 2 =>
        rw [hn] at hrep
        rw [if_pos (by omega)]
        rw [hrep]
        exact .same t c n
    · rename_i hc
      have hlen : 2 ≤ (order cs).length := by
        match ho' : order cs with
        | [] =>
          exfalso
          obtain ⟨d, hd⟩ := List.exists_mem_of_ne_nil cs (fun e => h (by simp [e]))
          have := (h2 d).2 hd
          rw [ho'] at this
          simp at this
        | [c] => exact absurd ho' (hc c)
        | _ :: _ :: _ => simp
      have := Shown.mixed t hlen h1 h2
      simpa using this

/-- Values other than booleans and complex numbers are shown as they should be. -/
theorem value_shown {order : List (List Char) → List (List Char)} (ho : SetOrder order) {v : MdValue} (hb : ∀ b, v ≠ .bool b) (hc : v ≠ .complex) :
    ∃ s, valueToStr order v = .ok s ∧ Shown v s := by
  cases v with
  | number s => exact ⟨_, rfl, .number s⟩
  | bool b => exact absurd rfl (hb b)
  | complex => exact absurd rfl hc
  | text s =>
    by_cases h : s = []
    · subst h; exact ⟨_, rfl, .noText⟩
    · exact ⟨s, by simp [valueToStr, h], .text h⟩
  | seq t cs => exact ⟨_, rfl, sequence_shown ho t cs⟩
  | dict cs => exact ⟨_, rfl, .dict (sequence_shown ho _ cs)⟩
  | none => exact ⟨_, rfl, .none⟩
  | obj n =>
    cases n with
    | none => exact ⟨_, rfl, .unnamed rfl⟩
    | some n =>
      by_cases h : n = []
      · subst h; exact ⟨_, rfl, .unnamed rfl⟩
      · exact ⟨n, by simp [valueToStr, h], .named h⟩

theorem inCell_append {a b : List Char} (ha : InCell a) (hb : InCell b) : InCell (a ++ b) :=
  ⟨by simp [ha.1, hb.1], by simp [ha.2, hb.2]⟩

theorem inCell_digits (n : Nat) : InCell (toString n).toList :=
  ⟨Scr.digit_ne (by decide), Scr.digit_ne (by decide)⟩

theorem inCell_join {sep : List Char} (hs : InCell sep) : ∀ (l : List (List Char)), (∀ c ∈ l, InCell c) → InCell (Str.join sep l)
  | [], _ => ⟨by simp [Str.join], by simp [Str.join]⟩
  | [c], h => by simpa [Str.join] using h c (.head _)
  | c :: d :: l, h => by
    rw [Str.join_cons (by simp)]
    exact inCell_append (inCell_append (h c (.head _)) hs) (inCell_join hs (d :: l) fun x hx => h x (.tail _ hx))

theorem shown_inCell {v : MdValue} {s : List Char} (h : Shown v s) (hv : TextsInCell v) : s ≠ [] ∧ InCell s := by
  induction h with
  | number s => exact hv
  | text h => exact ⟨h, hv⟩
  | noText => exact ⟨by decide, by decide, by decide⟩
  | none => exact ⟨by decide, by decide, by decide⟩
  | named h => exact ⟨h, hv⟩
  | unnamed h => exact ⟨by decide, by decide, by decide⟩
  | empty t => exact ⟨by simp, inCell_append ⟨by decide, by decide⟩ hv.1⟩
  | one t c => exact ⟨by simp, inCell_append ⟨by decide, by decide⟩ (hv.2 c (.head _))⟩
  | same t c n =>
    exact ⟨by simp, inCell_append (inCell_append (inCell_append (inCell_digits _) ⟨by decide, by decide⟩) (hv.2 c (by simp))) ⟨by decide, by decide⟩⟩
  | mixed t h1 h2 h3 =>
    exact ⟨by simp, inCell_append (inCell_append (inCell_append (inCell_digits _) ⟨by decide, by decide⟩)
      (inCell_join ⟨by decide, by decide⟩ _ fun c hc => hv.2 c ((h3 c).1 hc))) ⟨by decide, by decide⟩⟩
  | dict h ih => exact ih ⟨⟨by decide, by decide⟩, hv⟩

theorem cell_inCell {limit : Nat} {s : List Char} (h : InCell s) : InCell (cell limit s) := by
  unfold cell
  constructor
  · simp only [List.mem_append, not_or]
    refine ⟨fun hc => h.1 (List.mem_of_mem_take hc), ?_⟩
    split <;> decide
  · simp only [List.mem_append, not_or]
    refine ⟨fun hc => h.2 (List.mem_of_mem_take hc), ?_⟩
    split <;> decide

/-- The text of a line made of cells, without its newline. -/
def lineOf (cells : List (List Char)) : List Char := '|' :: cells.flatMap fun c => ' ' :: c ++ [' ', '|']

theorem lineOf_no_newline {cells : List (List Char)} (h : ∀ c ∈ cells, InCell c) : '\n' ∉ lineOf cells := by
  simp only [lineOf, List.mem_cons, List.mem_flatMap, not_or, not_exists, not_and]
  refine ⟨by decide, fun c hc hn => ?_⟩
  simp only [List.cons_append, List.mem_cons, List.mem_append, List.not_mem_nil, or_false] at hn
  rcases hn with hn | hn | hn | hn
  · exact absurd hn (by decide)
  · exact (h c hc).1 hn
  · exact absurd hn (by decide)
  · exact absurd hn (by decide)

theorem readCells_lineOf {cells : List (List Char)} (h : ∀ c ∈ cells, InCell c) : readCells (lineOf cells) = cells := by
  have key : ∀ (cells : List (List Char)), (∀ c ∈ cells, InCell c) →
      Str.split '|' (cells.flatMap fun c => ' ' :: c ++ [' ', '|']) = (cells.map fun c => ' ' :: c ++ [' ']) ++ [[]] := by
    intro cells
    induction cells with
    | nil => intro _; rfl
    | cons c cells ih =>
      intro h
      have hc : '|' ∉ ' ' :: c ++ [' '] := by
        simp only [List.cons_append, List.mem_cons, List.mem_append, List.not_mem_nil, or_false, not_or]
        exact ⟨by decide, (h c (.head _)).2, by decide⟩
      have : ((c :: cells).flatMap fun c => ' ' :: c ++ [' ', '|']) = (' ' :: c ++ [' ']) ++ '|' :: (cells.flatMap fun c => ' ' :: c ++ [' ', '|']) := by
        simp
      rw [this, Str.split_append hc, ih fun x hx => h x (.tail _ hx)]
      rfl
  unfold readCells lineOf
  have h0 : Str.split '|' ('|' :: cells.flatMap fun c => ' ' :: c ++ [' ', '|']) = [] :: Str.split '|' (cells.flatMap fun c => ' ' :: c ++ [' ', '|']) := by
    simp [Str.split]
  rw [h0, key cells h]
  simp only [List.drop_one, List.tail_cons, List.dropLast_concat, List.map_map]
  conv_rhs => rw [← List.map_id cells]
  refine List.map_congr_left fun c _ => ?_
  simp

/-- A text made of lines is read as these lines. -/
theorem readTable_lines {rows : List (List (List Char))} (h : ∀ r ∈ rows, ∀ c ∈ r, InCell c) :
    readTable (rows.flatMap fun r => lineOf r ++ ['\n']) = rows := by
  have key : ∀ (rows : List (List (List Char))), (∀ r ∈ rows, ∀ c ∈ r, InCell c) →
      Str.split '\n' (rows.flatMap fun r => lineOf r ++ ['\n']) = rows.map lineOf ++ [[]] := by
    intro rows
    induction rows with
    | nil => intro _; rfl
    | cons r rows ih =>
      intro h
      have : ((r :: rows).flatMap fun r => lineOf r ++ ['\n']) = lineOf r ++ '\n' :: (rows.flatMap fun r => lineOf r ++ ['\n']) := by simp
      rw [this, Str.split_append (lineOf_no_newline (h r (.head _))), ih fun x hx => h x (.tail _ hx)]
      rfl
  unfold readTable
  rw [key rows h, List.dropLast_concat, List.map_map]
  conv_rhs => rw [← List.map_id rows]
  exact List.map_congr_left fun r hr => readCells_lineOf (h r hr)

theorem tableLine_lineOf (limit : Nat) (row : List (List Char)) : tableLine limit row = lineOf (row.map (cell limit)) ++ ['\n'] := by
  rw [tableLine_eq, lineOf, List.flatMap_map]

theorem join_lineOf (cells : List (List Char)) (hn : cells ≠ []) :
    ['|', ' '] ++ Str.join [' ', '|', ' '] cells ++ [' ', '|', '\n'] = lineOf cells ++ ['\n'] := by
  induction cells with
  | nil => exact absurd rfl hn
  | cons c cells ih =>
    by_cases hc : cells = []
    · subst hc; simp [Str.join, lineOf]
    · rw [Str.join_cons hc]
      have := ih hc
      simp only [lineOf, List.flatMap_cons, List.cons_append, List.append_assoc, List.nil_append] at this ⊢
      have h2 := (List.cons.inj this).2
      rw [h2]

theorem headTable_lines (capitalize : List Char → List Char) {names : List (List Char)} (hn : names ≠ []) :
    headTable capitalize names = lineOf (names.map capitalize) ++ ['\n'] ++ (lineOf (names.map fun _ => "------".toList) ++ ['\n']) := by
  have key : ∀ names : List (List Char), (List.replicate names.length "| ------ ".toList).flatten ++ ['|', '\n'] =
      lineOf (names.map fun _ => "------".toList) ++ ['\n'] := by
    intro names
    induction names with
    | nil => rfl
    | cons c names ih =>
      rw [List.length_cons, List.replicate_succ, List.flatten_cons, List.append_assoc, ih]
      rfl
  unfold headTable
  rw [join_lineOf _ (by simpa using hn), List.append_assoc, key]

theorem rows_lines (limit : Nat) (rows : List (List (List Char))) :
    (rows.map Line.row).flatMap (writeLine limit) = (rows.map fun r => r.map (cell limit)).flatMap fun r => lineOf r ++ ['\n'] := by
  rw [List.flatMap_map, List.flatMap_map]
  exact List.flatMap_congr fun r _ => tableLine_lineOf limit r

theorem table_read {capitalize : List Char → List Char} {limit : Nat} {tableLimit : Option Nat} {rows : List (List (List Char))} {names : List (List Char)}
    (hn : names ≠ []) (hfits : contentTable tableLimit rows = rows.map .row) (hnames : ∀ n ∈ names, InCell (capitalize n))
    (hrows : ∀ r ∈ rows, ∀ c ∈ r, InCell c) :
    readTable (headTable capitalize names ++ (contentTable tableLimit rows).flatMap (writeLine limit)) =
      names.map capitalize :: names.map (fun _ => "------".toList) :: rows.map fun r => r.map (cell limit) := by
  rw [hfits, rows_lines, headTable_lines capitalize hn, List.append_assoc, List.append_assoc, ← readTable_lines (rows := _ :: _ :: _)]
  · congr 1
    simp only [List.flatMap_cons, List.append_assoc]
  · intro r hr c hc
    simp only [List.mem_cons, List.mem_map] at hr
    rcases hr with rfl | rfl | ⟨r, hr, rfl⟩
    · obtain ⟨n, hn, rfl⟩ := List.mem_map.1 hc
      exact hnames n hn
    · obtain ⟨n, hn, rfl⟩ := List.mem_map.1 hc
      exact ⟨by decide, by decide⟩
    · obtain ⟨n, hn, rfl⟩ := List.mem_map.1 hc
      exact cell_inCell (hrows r hr n hn)

theorem object_rows {order : List (List Char) → List (List Char)} (ho : SetOrder order) : ∀ attrs : List (List Char × List Char × MdValue),
    (∀ a ∈ attrs, ((∀ b, a.2.2 ≠ .bool b) ∧ a.2.2 ≠ .complex) ∧ a.1 ≠ [] ∧ a.2.1 ≠ [] ∧ ∀ s, Shown a.2.2 s → s ≠ []) →
    ∃ m shown, objectMatrix order attrs = .ok m ∧ List.Forall₂ (fun a s => Shown a.2.2 s) attrs shown ∧
      matrixStrings order m = .ok (List.zipWith (fun a s => [a.1, a.2.1, s]) attrs shown)
  | [], _ => ⟨[], [], rfl, .nil, rfl⟩
  | a :: attrs, h => by
    obtain ⟨m, shown, h1, h2, h3⟩ := object_rows ho attrs fun x hx => h x (.tail _ hx)
    obtain ⟨⟨hb, hc⟩, ha1, ha2, hs⟩ := h a (.head _)
    obtain ⟨s, hs1, hs2⟩ := value_shown ho hb hc
    refine ⟨[.text a.1, .text a.2.1, .text s] :: m, s :: shown, by simp only [objectMatrix, hs1, h1], .cons hs2 h2, ?_⟩
    simp only [matrixStrings, rowStrings, valueToStr, h3, if_pos ha1, if_pos ha2, if_pos (hs s hs2)]
    rfl

/-- **C171** (part): the Markdown of an object says its name and its class and has a table, which is read as the titles and one row for each
attribute, in order, with its name, the name of its type and its value as it should be shown, each cut at 25 characters.
Missing for the full property: values that are booleans (`C171_bool_violated`), complex numbers (`C171_complex_violated`), texts with bars or
newlines (`C171_bar_violated`). -/
theorem C171_partial {capitalize : List Char → List Char} {order : List (List Char) → List (List Char)} (ho : SetOrder order)
    (hcap : ∀ t ∈ objectTitles, capitalize t = t) (o : MdObject)
    (hv : ∀ a ∈ o.attrs, (∀ b, a.2.2 ≠ .bool b) ∧ a.2.2 ≠ .complex) (hn : ∀ a ∈ o.attrs, a.1 ≠ [] ∧ InCell a.1 ∧ a.2.1 ≠ [] ∧ InCell a.2.1)
    (ht : ∀ a ∈ o.attrs, TextsInCell a.2.2) :
    ∃ middle table shown, objectMarkdown capitalize order o =
        .ok ("# Object ".toList ++ o.name ++ " of class ".toList ++ o.cls ++ ['\n'] ++ middle ++ "\n\n".toList ++ table ++ "\n\n".toList) ∧
      (∃ intro, middle = intro ++ "\n\n# Attributes\n\nObject ".toList ++ o.name ++ " of class ".toList ++ o.cls ++ " has the following attributes:".toList) ∧
      List.Forall₂ (fun a s => Shown a.2.2 s) o.attrs shown ∧
      readTable table = ["Attribute".toList, "Type".toList, "Value".toList] :: ["------".toList, "------".toList, "------".toList] ::
        List.zipWith (fun a s => [cell 25 a.1, cell 25 a.2.1, cell 25 s]) o.attrs shown := by
  have hs : ∀ a ∈ o.attrs, ∀ s, Shown a.2.2 s → s ≠ [] ∧ InCell s := fun a ha s h => shown_inCell h (ht a ha)
  obtain ⟨m, shown, h1, h2, h3⟩ := object_rows ho o.attrs fun a ha => ⟨hv a ha, (hn a ha).1, (hn a ha).2.2.1, fun s h => (hs a ha s h).1⟩
  refine ⟨templateMiddle o.name o.cls, headTable capitalize objectTitles ++
      (contentTable none (List.zipWith (fun a s => [a.1, a.2.1, s]) o.attrs shown)).flatMap (writeLine 25), shown, ?_, ⟨_, rfl⟩, h2, ?_⟩
  · simp only [objectMarkdown, objectTable, h1, matrixTable, h3]
  · rw [table_read (by decide) rfl]
    · have e : objectTitles.map capitalize = objectTitles := by
        conv_rhs => rw [← List.map_id objectTitles]
        exact List.map_congr_left hcap
      rw [e, List.map_zipWith]
      rfl
    · intro n hn
      rw [hcap n hn]
      simp only [objectTitles, List.mem_cons, List.not_mem_nil, or_false] at hn
      rcases hn with rfl | rfl | rfl <;> exact ⟨by decide, by decide⟩
    · intro r hr c hc
      clear h1 h3 hv hcap ht
      generalize o.attrs = attrs at *
      induction h2 with
      | nil => simp at hr
      | @cons a s as ss ha _ ih =>
        simp only [List.zipWith_cons_cons, List.mem_cons] at hr
        rcases hr with rfl | hr
        · simp only [List.mem_cons, List.not_mem_nil, or_false] at hc
          rcases hc with rfl | rfl | rfl
          · exact (hn a (.head _)).2.1
          · exact (hn a (.head _)).2.2.2
          · exact (hs a (.head _) _ ha).2
        · exact ih (fun x hx => hn x (.tail _ hx)) (fun x hx => hs x (.tail _ hx)) hr

theorem matrix_strings {order : List (List Char) → List (List Char)} : ∀ {m : List (List MdValue)}, (∀ r ∈ m, ∀ v ∈ r, ∃ s, v = .number s) →
    ∃ rows, matrixStrings order m = .ok rows ∧ List.Forall₂ (List.Forall₂ fun v s => v = .number s) m rows
  | [], _ => ⟨[], rfl, .nil⟩
  | r :: m, h => by
    obtain ⟨rows, h1, h2⟩ := matrix_strings (order := order) fun x hx => h x (.tail _ hx)
    have key : ∀ {r : List MdValue}, (∀ v ∈ r, ∃ s, v = .number s) → ∃ row, rowStrings order r = .ok row ∧ List.Forall₂ (fun v s => v = .number s) r row := by
      intro r
      induction r with
      | nil => intro _; exact ⟨[], rfl, .nil⟩
      | cons v r ih =>
        intro h
        obtain ⟨row, e1, e2⟩ := ih fun x hx => h x (.tail _ hx)
        obtain ⟨s, rfl⟩ := h v (.head _)
        exact ⟨s :: row, by simp only [rowStrings, valueToStr, e1], .cons rfl e2⟩
    obtain ⟨row, e1, e2⟩ := key (h r (.head _))
    exact ⟨row :: rows, by simp only [matrixStrings, e1, h1], .cons e2 h2⟩

/-- The Markdown of a dataset of at most six elements, or of twelve, says its name, how many elements of which classes it holds, and has a table,
which is read as the common attributes and one row of numbers for each element.
Missing for the full property: other numbers of elements, for which rows are repeated or left out (`C58_duplicated_violated`,
`C58_beyond_partial`). -/
theorem C171_dataset_partial {capitalize : List Char → List Char} {order : List (List Char) → List (List Char)} (ho : SetOrder order)
    (name type : List Char) (classes : List (List Char)) {attributes : List (List Char)} (ha : attributes ≠ [])
    (hcell : ∀ a ∈ attributes, InCell (capitalize a)) {matrix : List (List MdValue)} (hm : ∀ r ∈ matrix, ∀ v ∈ r, ∃ s, v = .number s ∧ InCell s)
    (hl : matrix.length ≤ 6 ∨ matrix.length = 12) :
    ∃ details table tail rows, datasetMarkdown capitalize order name type classes attributes matrix =
        .ok ("# Dataset ".toList ++ (if name = [] then "with no name".toList else name) ++ " of ".toList ++ details ++ ":\n\n".toList ++ table ++ tail) ∧
      Shown (.seq type classes) details ∧
      List.Forall₂ (List.Forall₂ fun v s => v = .number s) matrix rows ∧
      readTable table = attributes.map capitalize :: attributes.map (fun _ => "------".toList) :: rows.map fun r => r.map (cell 25) := by
  obtain ⟨rows, h1, h2⟩ := matrix_strings (order := order) fun r hr v hv => (hm r hr v hv).imp fun _ h => h.1
  have hlen := h2.length_eq
  have hfits : contentTable (some 12) rows = rows.map .row := C58_fits_partial (by decide) rows (by omega)
  refine ⟨_, headTable capitalize attributes ++ (contentTable (some 12) rows).flatMap (writeLine 25), datasetEnd (printName name), rows, ?_,
    sequence_shown ho type classes, h2, table_read ha hfits hcell ?_⟩
  · have hp : printName name = if name = [] then "with no name".toList else name := by
      unfold printName
      by_cases hn : name = []
      · rw [if_neg (fun h => h hn), if_pos hn]
      · rw [if_pos hn, if_neg hn]
    rw [← hp]
    simp only [datasetMarkdown, matrixTable, h1]
  · clear h1 hlen hfits hl
    intro r hr c hc
    induction h2 with
    | nil => simp at hr
    | @cons v row m rows hv _ ih =>
      rcases List.mem_cons.1 hr with rfl | hr
      · have := hm v (.head _)
        clear ih hm hr
        induction hv with
        | nil => simp at hc
        | @cons a s _ _ e _ ih =>
          rcases List.mem_cons.1 hc with rfl | hc
          · obtain ⟨s, e', h⟩ := this a (.head _)
            rw [e] at e'
            cases e'
            exact h
          · exact ih hc fun x hx => this x (.tail _ hx)
      · exact ih (fun x hx => hm x (.tail _ hx)) hr

/-- A table of more rows than the limit has the first rows, up to half of the limit, a line that says how many rows beyond the limit there are, and as
many last rows. -/
theorem C171_unprinted {capitalize : List Char → List Char} {order : List (List Char) → List (List Char)} {printLimit limit : Nat}
    {matrix : List (List MdValue)} {names : List (List Char)} {rows : List (List (List Char))} (hr : matrixStrings order matrix = .ok rows)
    (h1 : 1 < limit) (h2 : limit < rows.length) : matrixTable capitalize order printLimit (some limit) matrix names =
      .ok (headTable capitalize names ++ ((rows.take (limit / 2)).flatMap (tableLine printLimit) ++
        (("| + ".toList ++ (toString (rows.length - limit)).toList ++ " unprinted elements | |\n".toList) ++
          (rows.drop (rows.length - limit / 2)).flatMap (tableLine printLimit)))) := by
  have h3 : limit / 2 < rows.length := by omega
  simp only [matrixTable, hr, contentTable, lastRows, if_pos h1, if_pos h2, if_pos h3, List.flatMap_append, List.flatMap_map, List.flatMap_cons, List.flatMap_nil,
    List.append_nil, writeLine]

example : matrixStrings id [[.text "a".toList], [.text "b".toList], [.text "c".toList]] = .ok [["a".toList], ["b".toList], ["c".toList]] := by rfl

/-- A boolean is shown as a number. -/
theorem C171_bool_violated (order : List (List Char) → List (List Char)) (b : Bool) :
    valueToStr order (.bool b) = valueToStr order (.number (if b then "1".toList else "0".toList)) := by cases b <;> rfl

/-- An object with an attribute that is a complex number has no Markdown. -/
theorem C171_complex_violated (capitalize : List Char → List Char) (order : List (List Char) → List (List Char)) (o : MdObject)
    (h : ∃ a ∈ o.attrs, a.2.2 = .complex) : objectMarkdown capitalize order o = .error .typeError := by
  have key : ∀ (l : List (List Char × List Char × MdValue)), (∃ a ∈ l, a.2.2 = .complex) → objectMatrix order l = .error .typeError := by
    intro l
    induction l with
    | nil => rintro ⟨a, ha, _⟩; simp at ha
    | cons b l ih =>
      rintro ⟨a, ha, hc⟩
      rcases List.mem_cons.1 ha with rfl | ha
      · simp only [objectMatrix, hc, valueToStr]
      · have hl := ih ⟨a, ha, hc⟩
        have hv : ∀ e, valueToStr order b.2.2 = .error e → e = .typeError := by
          intro e he
          cases hb : b.2.2 <;> simp only [hb, valueToStr] at he <;> first | exact (Except.error.inj he).symm | (exfalso; revert he; split <;> simp) | simp at he
        simp only [objectMatrix, hl]
        cases hb : valueToStr order b.2.2 with
        | error e => simp only [hv e hb]
        | ok s => rfl
  simp only [objectMarkdown, objectTable, key o.attrs h]

/-- The order in which a set of one or two names gives them, here. -/
def someOrder (l : List (List Char)) : List (List Char) := l.dedup

/-- A bar in a text makes one more cell, a newline one more row. -/
theorem C171_bar_violated :
    (readTable (tableLine 25 ["name".toList, "str".toList, "a|b".toList])).map List.length = [4] ∧
    (readTable (tableLine 25 ["name".toList, "str".toList, "a\nb".toList])).length = 2 := by decide +kernel

/-- The lines of a text. -/
def textLines : List Char → List (List Char)
  | [] => [[]]
  | c :: t => if c = '\n' then [] :: textLines t else match textLines t with
    | [] => [[c]]
    | l :: ls => (c :: l) :: ls

theorem textLines_line : ∀ (l t : List Char), '\n' ∉ l → textLines (l ++ '\n' :: t) = l :: textLines t
  | [], t, _ => by simp [textLines]
  | c :: l, t, h => by
    simp only [List.mem_cons, not_or] at h
    rw [List.cons_append, textLines, if_neg (Ne.symm h.1), textLines_line l t h.2]

/-- What a link of a table of contents is: the heading in lower case, with a dash for each space. -/
def LinkOf (lower : List Char → List Char) (h link : List Char) : Prop :=
  link.length = (lower h).length ∧ ∀ (j : Nat) (c : Char), (lower h)[j]? = some c → link[j]? = some (if c = ' ' then '-' else c)

theorem entries_lines (lower : List Char → List Char) (hl : ∀ h, '\n' ∉ h → '\n' ∉ lower h) : ∀ hs : List (List Char), (∀ h ∈ hs, '\n' ∉ h) →
      ∃ ls, textLines (hs.flatMap fun h => "- [".toList ++ h ++ "](#".toList ++ tocLink lower h ++ ")\n".toList) = ls ++ [[]] ∧
      List.Forall₂ (fun h l => ∃ link, LinkOf lower h link ∧ l = "- [".toList ++ h ++ "](#".toList ++ link ++ ")".toList) hs ls := by
  have link : ∀ h, LinkOf lower h (tocLink lower h) := by
    intro h
    refine ⟨by simp [tocLink], fun j c hc => by simp [tocLink, hc]⟩
  intro hs
  induction hs with
  | nil => intro _; exact ⟨[], rfl, .nil⟩
  | cons h hs ih =>
    intro hn
    obtain ⟨ls, h1, h2⟩ := ih fun x hx => hn x (.tail _ hx)
    refine ⟨_ :: ls, ?_, .cons ⟨tocLink lower h, link h, rfl⟩ h2⟩
    have e : ")\n".toList = ")".toList ++ ['\n'] := by decide
    rw [e] at h1
    rw [List.flatMap_cons, e]
    have e2 : "- [".toList ++ h ++ "](#".toList ++ tocLink lower h ++ (")".toList ++ ['\n']) =
        ("- [".toList ++ h ++ "](#".toList ++ tocLink lower h ++ ")".toList) ++ ['\n'] := by simp only [List.append_assoc]
    rw [e2, List.append_assoc, List.singleton_append, textLines_line, h1, List.cons_append]
    have hh := hn h (.head _)
    have ht : '\n' ∉ tocLink lower h := by
      intro hm
      obtain ⟨c, hc, e⟩ := List.mem_map.1 hm
      split at e
      · simp at e
      · exact hl h hh (e ▸ hc)
    have a1 : '\n' ∉ "- [".toList := by decide
    have a2 : '\n' ∉ "](#".toList := by decide
    have a3 : '\n' ∉ ")".toList := by decide
    simp only [List.mem_append, not_or]
    exact ⟨⟨⟨⟨a1, hh⟩, a2⟩, ht⟩, a3⟩

theorem lines_title {title body : List Char} {ls : List (List Char)} (a : '\n' ∉ title) (h1 : textLines body = ls ++ [[]]) :
    textLines ((title ++ '\n' :: ['\n']) ++ body) = title :: [] :: (ls ++ [[]]) := by
  have this := textLines_line [] body (by simp)
  rw [List.nil_append] at this
  rw [List.append_assoc, List.cons_append, textLines_line _ _ a, List.singleton_append, this, h1]

/-- A table of contents is its title, an empty line and one line for each heading, in order, which holds the heading and its link. -/
theorem C171_contents (lower : List Char → List Char) (hl : ∀ h, '\n' ∉ h → '\n' ∉ lower h) (hs : List (List Char)) (hn : ∀ h ∈ hs, '\n' ∉ h) :
    ∃ ls, textLines (tableOfContents lower hs) = "## Table of Contents".toList :: [] :: (ls ++ [[]]) ∧
      List.Forall₂ (fun h l => ∃ link, LinkOf lower h link ∧ l = "- [".toList ++ h ++ "](#".toList ++ link ++ ")".toList) hs ls := by
  obtain ⟨ls, h1, h2⟩ := entries_lines lower hl hs hn
  refine ⟨ls, ?_, h2⟩
  have e : "## Table of Contents\n\n".toList = "## Table of Contents".toList ++ '\n' :: ['\n'] := by decide +kernel
  have a : '\n' ∉ "## Table of Contents".toList := by decide +kernel
  exact (congrArg (fun t => textLines (t ++ _)) e).trans (lines_title a h1)

/-- A case of `C171_contents`. -/
example : textLines (tableOfContents (fun h => h.map Char.toLower) ["My Part".toList, "End".toList]) =
    ["## Table of Contents".toList, [], "- [My Part](#my-part)".toList, "- [End](#end)".toList, []] := by decide +kernel

example : (∀ h, '\n' ∉ h → '\n' ∉ (fun h : List Char => h) h) ∧ ∀ h ∈ ["My Part".toList, "End".toList], '\n' ∉ h :=
  ⟨fun _ h => h, by decide⟩

/-- Two headings of which one has a space where the other has a dash have the same link in a table of contents. -/
theorem C171_contents_violated (lower : List Char → List Char) (hl : lower "a b".toList = "a b".toList) (hl' : lower "a-b".toList = "a-b".toList) :
    tocLink lower "a b".toList = tocLink lower "a-b".toList := by
  simp only [tocLink, hl, hl']
  decide

theorem someOrder_set : SetOrder someOrder := fun l => ⟨List.nodup_dedup l, fun _ => List.mem_dedup⟩

/-- An object with a name, a number, a list of two numbers and no value for the last attribute. -/
def someMdObject : MdObject :=
  ⟨"wheel".toList, "Wheel".toList, [("name".toList, "str".toList, .text "wheel".toList), ("radius".toList, "float".toList, .number "0.3".toList),
    ("holes".toList, "list".toList, .seq "list".toList ["float".toList, "float".toList]), ("maker".toList, "NoneType".toList, .none)]⟩

example : (∀ t ∈ objectTitles, id t = t) ∧ (∀ a ∈ someMdObject.attrs, (∀ b, a.2.2 ≠ .bool b) ∧ a.2.2 ≠ .complex) ∧
    (∀ a ∈ someMdObject.attrs, a.1 ≠ [] ∧ InCell a.1 ∧ a.2.1 ≠ [] ∧ InCell a.2.1) ∧ ∀ a ∈ someMdObject.attrs, TextsInCell a.2.2 := by
  refine ⟨fun _ _ => rfl, ?_, ?_, ?_⟩
  · simp [someMdObject]
  · unfold InCell
    decide
  · simp [someMdObject, TextsInCell, InCell]

example : (match objectTable id someOrder 25 none someMdObject with
    | .ok t => readTable t
    | .error _ => []) =
    [["Attribute".toList, "Type".toList, "Value".toList], ["------".toList, "------".toList, "------".toList],
     ["name".toList, "str".toList, "wheel".toList], ["radius".toList, "float".toList, "0.3".toList],
     ["holes".toList, "list".toList, "2 floats".toList], ["maker".toList, "NoneType".toList, " - ".toList]] := by decide +kernel

end DC.Txt
