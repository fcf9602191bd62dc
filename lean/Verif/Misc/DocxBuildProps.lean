import Verif.Misc.DocxBuild
/- Property C163: a Word document built piece by piece. -/
namespace DC.Docx

/-! ### Specification -/

/-- The paragraphs, each after its heading as long as there are headings. -/
inductive Interleaved : List Heading → List Text → List Piece → Prop
  | done (hs) : Interleaved hs [] []
  | both {h hs t ts ps} : Interleaved hs ts ps → Interleaved (h :: hs) (t :: ts) (.heading h.text h.level :: .paragraph t none :: ps)
  | alone {t ts ps} : Interleaved [] ts ps → Interleaved [] (t :: ts) (.paragraph t none :: ps)

/-- The cells of a table hold the texts of the rows, and nothing where a row is short. -/
def Holds (rows : List (List Text)) (columns : Nat) (cells : List Text) : Prop :=
  cells.length = rows.length * columns ∧ ∀ (i j : Nat) (r : List Text), rows[i]? = some r → j < columns →
    cells[i * columns + j]? = some ((r[j]?).getD [])

/-- What each method adds to the document of a writer, and the headings it leaves. -/
inductive Adds (w : Writer) : Call → List Piece → List Heading → Prop
  | headings (b) : Adds w (.headings b) ((w.headings.map fun h => .heading h.text h.level) ++ if b then [.pageBreak] else []) w.headings
  | after {ps} : Interleaved w.headings w.paragraphs ps → Adds w (.paragraphs true) ps (w.headings.drop w.paragraphs.length)
  | plain : Adds w (.paragraphs false) (w.paragraphs.map fun t => .paragraph t none) w.headings
  | asHeading (text) : Adds w (.asHeading text) [.heading text (text.count '#')] w.headings
  | breaks (n) : Adds w (.pageBreaks n) (List.replicate n .pageBreak) w.headings
  | oneTable {ts t p} (i : Nat) : w.tables = some ts → ts[i]? = some t → tablePiece t = .ok p → Adds w (.table false i) [p] w.headings
  | allTables {ts ps} (i) : w.tables = some ts → List.Forall₂ (fun t p => tablePiece t = .ok p) ts ps →
      Adds w (.table true i) (ps.flatMap fun p => [p, .paragraph [] none]) w.headings
  | items (l style) : Adds w (.items l style) (l.map fun t => .paragraph t (some style)) w.headings
  | picture (path) : Adds w (.picture path) [.picture path] w.headings

/-- The texts of the header, or of the footer, of a section, in order, with their alignment in capitals. -/
def textsOf (s : Side) (es : List Layout) : List (Text × Option Text) :=
  (es.filter fun e => e.side = s).map fun e => (e.text, some (e.align.map Char.toUpper))

/-- What the paragraphs of a header or of a footer show. -/
def shownIn (ps : List Par) : List (Text × Option Text) := ps.map fun p => (p.text, p.align)

/-! ### Tables -/

theorem setRow_spec {columns i : Nat} : ∀ (ts : List Text) (j : Nat) (cells : List Text), j + ts.length ≤ columns →
    (i + 1) * columns ≤ cells.length → ∃ cells', setRow columns i j ts cells = .ok cells' ∧ cells'.length = cells.length ∧
      (∀ k, (∀ x < ts.length, k ≠ i * columns + (j + x)) → cells'[k]? = cells[k]?) ∧
      ∀ (x : Nat) (t : Text), ts[x]? = some t → cells'[i * columns + (j + x)]? = some t
  | [], j, cells, _, _ => ⟨cells, rfl, rfl, fun _ _ => rfl, fun x t h => by simp at h⟩
  | t :: ts, j, cells, hj, hc => by
    rw [List.length_cons] at hj
    have hmul : (i + 1) * columns = i * columns + columns := Nat.succ_mul _ _
    have hlt : i * columns + j < cells.length := by omega
    have hset : setCell columns cells i j t = .ok (cells.set (i * columns + j) t) := if_pos hlt
    obtain ⟨cells', h1, h2, h3, h4⟩ := setRow_spec (columns := columns) (i := i) ts (j + 1) (cells.set (i * columns + j) t) (by omega) (by simpa using hc)
    refine ⟨cells', by simp only [setRow, hset, h1], by simpa using h2, fun k hk => ?_, fun x t' ht => ?_⟩
    · rw [h3 k fun x hx => ?_, List.getElem?_set_ne]
      · have := hk 0 (by simp); omega
      · have := hk (x + 1) (by simp; omega); omega
    · cases x with
      | zero =>
        simp only [List.getElem?_cons_zero, Option.some.injEq] at ht
        subst ht
        rw [Nat.add_zero, h3 _ fun x hx => by omega, List.getElem?_set_self hlt]
      | succ x =>
        have := h4 x t' (by simpa using ht)
        rw [show j + (x + 1) = j + 1 + x by omega]
        exact this

theorem cell_ne {c i i' j j' : Nat} (hj : j < c) (hj' : j' < c) (hi : i ≠ i') : i * c + j ≠ i' * c + j' := by
  intro h
  rcases Nat.lt_or_gt_of_ne hi with hlt | hgt
  · have : (i + 1) * c ≤ i' * c := Nat.mul_le_mul_right c hlt
    rw [Nat.succ_mul] at this
    omega
  · have : (i' + 1) * c ≤ i * c := Nat.mul_le_mul_right c hgt
    rw [Nat.succ_mul] at this
    omega

theorem setRows_spec {columns : Nat} : ∀ (rows : List (List Text)) (i : Nat) (cells : List Text), (∀ r ∈ rows, r.length ≤ columns) →
    (i + rows.length) * columns ≤ cells.length → ∃ cells', setRows columns i rows cells = .ok cells' ∧ cells'.length = cells.length ∧
      (∀ (k j : Nat), j < columns → (k < i ∨ i + rows.length ≤ k) → cells'[k * columns + j]? = cells[k * columns + j]?) ∧
      ∀ (x j : Nat) (r : List Text), rows[x]? = some r → j < columns →
        cells'[(i + x) * columns + j]? = (r[j]?).or cells[(i + x) * columns + j]?
  | [], i, cells, _, _ => ⟨cells, rfl, rfl, fun _ _ _ _ => rfl, fun x j r h => by simp at h⟩
  | r :: rows, i, cells, hr, hc => by
    rw [List.length_cons] at hc
    have hle : (i + 1) * columns ≤ (i + (rows.length + 1)) * columns := Nat.mul_le_mul_right _ (by omega)
    obtain ⟨c1, h1, h2, h3, h4⟩ := setRow_spec (columns := columns) (i := i) r 0 cells (by simpa using hr r (.head _)) (by omega)
    obtain ⟨c2, g1, g2, g3, g4⟩ := setRows_spec (columns := columns) rows (i + 1) c1 (fun r' h => hr r' (.tail _ h))
      (by rw [h2, show i + 1 + rows.length = i + (rows.length + 1) by omega]; exact hc)
    have hrl := hr r (.head _)
    refine ⟨c2, by simp only [setRows, h1, g1], by rw [g2, h2], fun k j hj hk => ?_, fun x j r' hx hj => ?_⟩
    · rw [List.length_cons] at hk
      rw [g3 k j hj (by omega), h3]
      intro x hx
      exact cell_ne hj (by omega) (by omega)
    · cases x with
      | zero =>
        simp only [List.getElem?_cons_zero, Option.some.injEq] at hx
        subst hx
        rw [Nat.add_zero, g3 i j hj (by omega)]
        by_cases hjr : j < r.length
        · have := h4 j r[j] (List.getElem?_eq_getElem hjr)
          rw [Nat.zero_add] at this
          rw [this, List.getElem?_eq_getElem hjr]
          rfl
        · rw [List.getElem?_eq_none (by omega : r.length ≤ j), h3]
          · rfl
          · intro x hx
            omega
      | succ x =>
        have := g4 x j r' (by simpa using hx) hj
        rw [show i + (x + 1) = i + 1 + x by omega, this, h3]
        intro y hy
        exact cell_ne hj (by omega) (by omega)

/-- A table none of whose rows is longer than the first one is written with its texts in their places.  Missing for the full property: longer
rows (`C163_table_violated`). -/
theorem C163_table_partial {r : List Text} {rs : List (List Text)} (h : ∀ r' ∈ r :: rs, r'.length ≤ r.length) :
    ∃ cells, tablePiece (r :: rs) = .ok (.table r.length cells) ∧ Holds (r :: rs) r.length cells := by
  obtain ⟨cells, h1, h2, -, h4⟩ := setRows_spec (r :: rs) 0 (List.replicate ((r :: rs).length * r.length) []) h (by simp)
  refine ⟨cells, by simp only [tablePiece, h1], by simpa using h2, fun i j r' hi hj => ?_⟩
  have h5 := h4 i j r' hi hj
  rw [Nat.zero_add] at h5
  have hlt : i < (r :: rs).length := (List.getElem?_eq_some_iff.1 hi).1
  have hk : i * r.length + j < (r :: rs).length * r.length := by
    have : (i + 1) * r.length ≤ (r :: rs).length * r.length := Nat.mul_le_mul_right _ hlt
    rw [Nat.succ_mul] at this
    omega
  rw [h5, List.getElem?_replicate, if_pos hk]
  cases r'[j]? <;> rfl

/-- A text of a longer row is lost, without error: its cell is that of the beginning of the next row. -/
theorem C163_table_violated : tablePiece [["a".toList], ["b".toList, "c".toList], ["d".toList]] =
    .ok (.table 1 ["a".toList, "b".toList, "d".toList]) := by decide

/-- A table without rows raises an IndexError, and so does one whose last row is longer than the first. -/
theorem C163_table_raises : tablePiece [] = .error .indexError ∧
    tablePiece [["a".toList], ["b".toList, "c".toList]] = .error .indexError := by decide

/-! ### Pieces -/

theorem headingPieces_iff : ∀ {hs : List Heading} {ps : List Piece}, headingPieces hs = .ok ps ↔
    (∀ h ∈ hs, h.level ≤ 9) ∧ ps = hs.map fun h => .heading h.text h.level
  | [], ps => by simp [headingPieces, eq_comm]
  | h :: hs, ps => by
    simp only [headingPieces, addHeadingPiece]
    by_cases hl : h.level ≤ 9
    · simp only [if_pos hl]
      cases hr : headingPieces hs with
      | error e =>
        simp only [reduceCtorEq, List.mem_cons, forall_eq_or_imp, false_iff]
        rintro ⟨⟨-, h2⟩, -⟩
        rw [(headingPieces_iff (ps := hs.map fun h => .heading h.text h.level)).2 ⟨h2, rfl⟩] at hr
        simp at hr
      | ok qs =>
        obtain ⟨h1, h2⟩ := headingPieces_iff.1 hr
        subst h2
        simp only [Except.ok.injEq, List.mem_cons, forall_eq_or_imp, List.map_cons]
        exact ⟨fun h => ⟨⟨hl, h1⟩, h.symm⟩, fun h => h.2.symm⟩
    · simp only [if_neg hl, reduceCtorEq, List.mem_cons, forall_eq_or_imp, false_iff]
      rintro ⟨⟨h1, -⟩, -⟩
      exact hl h1

theorem paragraphPieces_false : ∀ (hs : List Heading) (ts : List Text),
    paragraphPieces false hs ts = .ok (hs, ts.map fun t => .paragraph t none)
  | [], [] => rfl
  | _ :: _, [] => rfl
  | [], t :: ts => by simp only [paragraphPieces, paragraphPieces_false [] ts, List.map_cons]
  | h :: hs, t :: ts => by simp [paragraphPieces, paragraphPieces_false (h :: hs) ts]

theorem paragraphPieces_true : ∀ {hs : List Heading} {ts : List Text} {r : List Heading × List Piece}, paragraphPieces true hs ts = .ok r →
    Interleaved hs ts r.2 ∧ r.1 = hs.drop ts.length
  | [], [], r, h => by cases h; exact ⟨.done _, rfl⟩
  | _ :: _, [], r, h => by cases h; exact ⟨.done _, rfl⟩
  | [], t :: ts, r, h => by
    simp only [paragraphPieces] at h
    cases hr : paragraphPieces true [] ts with
    | error e => rw [hr] at h; simp at h
    | ok q =>
      rw [hr] at h
      cases h
      obtain ⟨h1, h2⟩ := paragraphPieces_true hr
      exact ⟨.alone h1, by rw [h2]; simp⟩
  | hd :: hs, t :: ts, r, h => by
    simp only [paragraphPieces, if_true, addHeadingPiece] at h
    by_cases hl : hd.level ≤ 9
    · simp only [if_pos hl] at h
      cases hr : paragraphPieces true hs ts with
      | error e => rw [hr] at h; simp at h
      | ok q =>
        rw [hr] at h
        cases h
        obtain ⟨h1, h2⟩ := paragraphPieces_true hr
        exact ⟨.both h1, by rw [h2]; simp⟩
    · simp [if_neg hl] at h

theorem paragraphPieces_total : ∀ {hs : List Heading} (ts : List Text) (b : Bool), (∀ h ∈ hs, h.level ≤ 9) → ∃ r, paragraphPieces b hs ts = .ok r
  | hs, ts, false, _ => ⟨_, paragraphPieces_false hs ts⟩
  | [], [], true, _ => ⟨_, rfl⟩
  | _ :: _, [], true, _ => ⟨_, rfl⟩
  | [], t :: ts, true, h => by
    obtain ⟨r, hr⟩ := paragraphPieces_total (hs := []) ts true h
    simp only [paragraphPieces, hr]
    exact ⟨_, rfl⟩
  | hd :: hs, t :: ts, true, h => by
    obtain ⟨r, hr⟩ := paragraphPieces_total (hs := hs) ts true fun x hx => h x (.tail _ hx)
    simp only [paragraphPieces, if_true, addHeadingPiece, if_pos (h hd (.head _)), hr]
    exact ⟨_, rfl⟩

theorem allTables_spec : ∀ {ts : List (List (List Text))} {qs : List Piece}, allTables ts = .ok qs →
    ∃ ps, List.Forall₂ (fun t p => tablePiece t = .ok p) ts ps ∧ qs = ps.flatMap fun p => [p, .paragraph [] none]
  | [], qs, h => by cases h; exact ⟨[], .nil, rfl⟩
  | t :: ts, qs, h => by
    simp only [allTables] at h
    cases ht : tablePiece t with
    | error e => rw [ht] at h; simp at h
    | ok p =>
      rw [ht] at h
      simp only at h
      cases hr : allTables ts with
      | error e => rw [hr] at h; simp at h
      | ok qs' =>
        rw [hr] at h
        cases h
        obtain ⟨ps, h1, rfl⟩ := allTables_spec hr
        exact ⟨p :: ps, .cons ht h1, rfl⟩

/-- A method adds its pieces at the end of the document and changes nothing else. -/
theorem C163_call {c : Call} {w w' : Writer} (h : call c w = .ok w') (hi : ∀ b i, c = .table b i → 0 ≤ i) :
    ∃ ps, Adds w c ps w'.headings ∧ w'.doc.body = w.doc.body ++ ps ∧ w'.doc.header = w.doc.header ∧ w'.doc.footer = w.doc.footer ∧
      w'.paragraphs = w.paragraphs ∧ w'.tables = w.tables ∧ w'.layout = w.layout := by
  cases c with
  | headings b =>
    simp only [call] at h
    cases hr : headingPieces w.headings with
    | error e => rw [hr] at h; simp at h
    | ok ps =>
      rw [hr] at h
      cases h
      obtain ⟨-, rfl⟩ := headingPieces_iff.1 hr
      refine ⟨_, .headings b, ?_, rfl, rfl, rfl, rfl, rfl⟩
      cases b <;> simp [Writer.append]
  | paragraphs b =>
    simp only [call] at h
    cases hr : paragraphPieces b w.headings w.paragraphs with
    | error e => rw [hr] at h; simp at h
    | ok r =>
      rw [hr] at h
      cases h
      cases b with
      | true =>
        obtain ⟨h1, h2⟩ := paragraphPieces_true hr
        refine ⟨r.2, ?_, rfl, rfl, rfl, rfl, rfl, rfl⟩
        show Adds w _ r.2 r.1
        rw [h2]
        exact .after h1
      | false =>
        rw [paragraphPieces_false] at hr
        cases hr
        exact ⟨_, .plain, rfl, rfl, rfl, rfl, rfl, rfl⟩
  | asHeading text =>
    simp only [call, addHeadingPiece] at h
    by_cases hl : text.count '#' ≤ 9
    · simp only [if_pos hl] at h
      cases h
      exact ⟨_, .asHeading text, rfl, rfl, rfl, rfl, rfl, rfl⟩
    · simp [if_neg hl] at h
  | pageBreaks n => cases h; exact ⟨_, .breaks n, rfl, rfl, rfl, rfl, rfl, rfl⟩
  | table all i =>
    simp only [call, tablePieces] at h
    cases ht : w.tables with
    | none => rw [ht] at h; simp at h
    | some ts =>
      rw [ht] at h
      simp only at h
      cases all with
      | true =>
        simp only [if_true] at h
        cases hr : allTables ts with
        | error e => rw [hr] at h; simp at h
        | ok qs =>
          rw [hr] at h
          cases h
          obtain ⟨ps, h1, rfl⟩ := allTables_spec hr
          exact ⟨_, .allTables i ht h1, rfl, rfl, rfl, rfl, by rw [← ht]; rfl, rfl⟩
      | false =>
        have h0 := hi false i rfl
        obtain ⟨k, rfl⟩ := Int.eq_ofNat_of_zero_le h0
        simp only [Bool.false_eq_true, if_false, Py.get_nat] at h
        cases hk : ts[k]? with
        | none => rw [hk] at h; simp at h
        | some t =>
          rw [hk] at h
          simp only at h
          cases hr : tablePiece t with
          | error e => rw [hr] at h; simp at h
          | ok p =>
            rw [hr] at h
            cases h
            exact ⟨_, .oneTable k ht hk hr, rfl, rfl, rfl, rfl, by rw [← ht]; rfl, rfl⟩
  | items l style => cases h; exact ⟨_, .items l style, rfl, rfl, rfl, rfl, rfl, rfl⟩
  | picture path => cases h; exact ⟨_, .picture path, rfl, rfl, rfl, rfl, rfl, rfl⟩

/-- What calls add, one after the other. -/
inductive AddsAll : Writer → List Call → List Piece → Writer → Prop
  | done (w) : AddsAll w [] [] w
  | step {w c cs ps qs w' w''} : Adds w c ps w'.headings → w'.paragraphs = w.paragraphs → w'.tables = w.tables →
      AddsAll w' cs qs w'' → AddsAll w (c :: cs) (ps ++ qs) w''

/-- Calls one after the other leave in the document what each adds, in order, after what was there. -/
theorem C163_calls : ∀ {cs : List Call} {w w' : Writer}, calls cs w = .ok w' → (∀ b i, Call.table b i ∈ cs → 0 ≤ i) →
    ∃ ps, AddsAll w cs ps w' ∧ w'.doc.body = w.doc.body ++ ps ∧ w'.doc.header = w.doc.header ∧ w'.doc.footer = w.doc.footer
  | [], w, w', h, _ => by cases h; exact ⟨[], .done _, by simp, rfl, rfl⟩
  | c :: cs, w, w', h, hi => by
    simp only [calls] at h
    cases hc : call c w with
    | error e => rw [hc] at h; simp at h
    | ok w1 =>
      rw [hc] at h
      obtain ⟨ps, h1, h2, h3, h4, h5, h6, -⟩ := C163_call hc fun b i he => hi b i (he ▸ .head _)
      obtain ⟨qs, g1, g2, g3, g4⟩ := C163_calls h fun b i hm => hi b i (.tail _ hm)
      exact ⟨ps ++ qs, .step h1 h5 h6 g1, by rw [g2, h2, List.append_assoc], by rw [g3, h3], by rw [g4, h4]⟩

/-- Headings of level 9 at most are written; a deeper one raises a ValueError. -/
theorem C163_levels (w : Writer) (b : Bool) : ((∀ h ∈ w.headings, h.level ≤ 9) → (∃ w', call (.headings b) w = .ok w') ∧
      ∃ w', call (.paragraphs b) w = .ok w') ∧
    ((∃ h ∈ w.headings, 9 < h.level) → call (.headings b) w = .error .valueError) := by
  refine ⟨fun h => ⟨?_, ?_⟩, fun h => ?_⟩
  · simp only [call, headingPieces_iff.2 ⟨h, rfl⟩]
    exact ⟨_, rfl⟩
  · obtain ⟨r, hr⟩ := paragraphPieces_total w.paragraphs b h
    simp only [call, hr]
    exact ⟨_, rfl⟩
  · have key : ∀ hs : List Heading, (∃ h ∈ hs, 9 < h.level) → headingPieces hs = .error .valueError := by
      intro hs
      induction hs with
      | nil => rintro ⟨h, hm, -⟩; simp at hm
      | cons x hs ih =>
        rintro ⟨h, hm, hl⟩
        simp only [headingPieces, addHeadingPiece]
        by_cases hx : x.level ≤ 9
        · rcases List.mem_cons.1 hm with rfl | hm
          · omega
          · simp [if_pos hx, ih ⟨h, hm, hl⟩]
        · simp [if_neg hx]
    simp only [call, key w.headings h]

/-- Headings beyond the number of paragraphs are not written by `add_paragraphs`: they are left for the next call. -/
theorem C163_left_violated : ∃ (w w' : Writer), call (.paragraphs true) w = .ok w' ∧ w'.doc.body =
    [.heading "one".toList 1, .paragraph "text".toList none] ∧ w.headings.length = 2 :=
  ⟨⟨[⟨"one".toList, 1⟩, ⟨"two".toList, 1⟩], ["text".toList], none, none, emptyDoc⟩, _, rfl, by decide, rfl⟩

/-- Adding a table to a document built without tables raises a TypeError, whatever the index, with all tables asked for or not. -/
theorem C163_no_tables (w : Writer) (h : w.tables = none) (all : Bool) (i : Int) : call (.table all i) w = .error .typeError := by
  simp [call, tablePieces, h]

example : call (.table true 0) ⟨[], [], none, none, emptyDoc⟩ = .error .typeError := C163_no_tables _ rfl _ _

/-! ### Headers and footers -/

theorem addToSection_ok {d : Doc} {e : Layout} (h : e.align.map Char.toUpper ∈ alignments) :
    addToSection d e = .ok (d.setSide e.side (some (opened (d.side e.side) ++ [⟨e.text, some (e.align.map Char.toUpper), []⟩]))) := by
  simp only [addToSection, alignment, if_pos h]

theorem side_setSide (d : Doc) (s t : Side) (ps : Option (List Par)) : (d.setSide s ps).side t = if t = s then ps else d.side t := by
  cases s <;> cases t <;> rfl

theorem addLayout_spec : ∀ (es : List Layout) (d : Doc), (∀ e ∈ es, e.align.map Char.toUpper ∈ alignments) → ∃ d', addLayout es d = .ok d' ∧
    d'.body = d.body ∧ ∀ s, (textsOf s es = [] → d'.side s = d.side s) ∧
      (textsOf s es ≠ [] → ∃ ps, d'.side s = some (opened (d.side s) ++ ps) ∧ shownIn ps = textsOf s es)
  | [], d, _ => ⟨d, rfl, rfl, fun s => ⟨fun _ => rfl, fun h => absurd rfl h⟩⟩
  | e :: es, d, h => by
    have ha := h e (.head _)
    have h1 := addToSection_ok (d := d) ha
    obtain ⟨d', h2, h3, h4⟩ := addLayout_spec es (d.setSide e.side (some (opened (d.side e.side) ++ [⟨e.text, some (e.align.map Char.toUpper), []⟩])))
      fun x hx => h x (.tail _ hx)
    refine ⟨d', by simp only [addLayout, h1, h2], ?_, fun s => ?_⟩
    · rw [h3]; cases e.side <;> rfl
    · obtain ⟨g1, g2⟩ := h4 s
      by_cases hs : e.side = s
      · subst hs
        have ht : textsOf e.side (e :: es) = (e.text, some (e.align.map Char.toUpper)) :: textsOf e.side es := by simp [textsOf]
        rw [ht]
        refine ⟨fun h => by simp at h, fun _ => ?_⟩
        rw [side_setSide, if_pos rfl] at g1 g2
        by_cases h0 : textsOf e.side es = []
        · exact ⟨_, g1 h0, by simp [shownIn, h0]⟩
        · obtain ⟨ps, hp1, hp2⟩ := g2 h0
          refine ⟨⟨e.text, some (e.align.map Char.toUpper), []⟩ :: ps, ?_, by rw [← hp2]; rfl⟩
          rw [hp1]
          simp [opened]
      · have ht : textsOf s (e :: es) = textsOf s es := by simp [textsOf, hs]
        rw [side_setSide, if_neg (Ne.symm hs)] at g1 g2
        rw [ht]
        exact ⟨g1, g2⟩

/-- The alignments of a paragraph: those of `WD_PARAGRAPH_ALIGNMENT`, in small or capital letters. -/
def KnownAlign (align : Text) : Prop :=
  align.map Char.toUpper ∈ ["LEFT", "CENTER", "RIGHT", "JUSTIFY", "DISTRIBUTE", "JUSTIFY_MED", "JUSTIFY_HI", "JUSTIFY_LOW", "THAI_JUSTIFY"].map String.toList

/-- The header and the footer of a new document hold the texts of the section, in order, after an empty paragraph; the body is empty. -/
theorem C163_layout {es : List Layout} (h : ∀ e ∈ es, KnownAlign e.align) (hs : List Heading) (ts : List Text)
    (tables : Option (List (List (List Text)))) : ∃ w, newWriter hs ts tables (some es) = .ok w ∧ w.doc.body = [] ∧
      w.headings = hs ∧ w.paragraphs = ts ∧ w.tables = tables ∧
      ∀ s, (textsOf s es = [] → w.doc.side s = none) ∧
        (textsOf s es ≠ [] → ∃ ps, w.doc.side s = some ps ∧ shownIn ps = ([], none) :: textsOf s es) := by
  obtain ⟨d, h1, h2, h3⟩ := addLayout_spec es emptyDoc h
  refine ⟨⟨hs, ts, tables, some es, d⟩, by simp only [newWriter, h1], h2, rfl, rfl, rfl, fun s => ⟨fun h0 => ?_, fun h0 => ?_⟩⟩
  · rw [show d.side s = _ from (h3 s).1 h0]
    cases s <;> rfl
  · obtain ⟨ps, hp1, hp2⟩ := (h3 s).2 h0
    refine ⟨_, hp1, ?_⟩
    have : opened (emptyDoc.side s) = [⟨[], none, []⟩] := by cases s <;> rfl
    rw [this, ← hp2]
    rfl

/-- An unknown alignment raises an AttributeError. -/
theorem C163_alignment {es : List Layout} (h : ∃ e ∈ es, ¬ KnownAlign e.align) (hs : List Heading) (ts : List Text)
    (tables : Option (List (List (List Text)))) : newWriter hs ts tables (some es) = .error .attributeError := by
  have key : ∀ (es : List Layout) (d : Doc), (∃ e ∈ es, e.align.map Char.toUpper ∉ alignments) → addLayout es d = .error .attributeError := by
    intro es
    induction es with
    | nil => rintro d ⟨e, he, -⟩; simp at he
    | cons x es ih =>
      rintro d ⟨e, he, hl⟩
      by_cases hx : x.align.map Char.toUpper ∈ alignments
      · have h1 := addToSection_ok (d := d) hx
        rcases List.mem_cons.1 he with rfl | he
        · exact absurd hx hl
        · simp only [addLayout, h1, ih _ ⟨e, he, hl⟩]
      · have : alignment x.align = .error .attributeError := if_neg hx
        simp only [addLayout, addToSection, this]
  simp only [newWriter, key es emptyDoc h]

/-- Deleting the layout leaves neither header nor footer, and the body as it was. -/
theorem C163_delete (w : Writer) : (deleteLayout w).doc.header = none ∧ (deleteLayout w).doc.footer = none ∧
    (deleteLayout w).doc.body = w.doc.body := ⟨rfl, rfl, rfl⟩

/-- A picture is added to the header or to the footer, whichever comes first in the section, after the pictures of its first paragraph, and to
nothing else; without section,
AttributeError. -/
theorem C163_picture {w : Writer} {e : Layout} {es : List Layout} (path : Text) (h : w.layout = some (e :: es)) :
    ∃ w' ps, headerPicture path w = .ok w' ∧ w'.doc.body = w.doc.body ∧ w'.doc.side e.side = some ps ∧
      ps.map (·.text) = (if opened (w.doc.side e.side) = [] then [[]] else (opened (w.doc.side e.side)).map (·.text)) ∧
      (∃ p, ps.head? = some p ∧ p.pictures = ((opened (w.doc.side e.side)).head?.map (·.pictures)).getD [] ++ [path]) ∧
      ps.tail = (opened (w.doc.side e.side)).tail ∧ ∀ s, s ≠ e.side → w'.doc.side s = w.doc.side s := by
  refine ⟨{ w with doc := w.doc.setSide e.side (some (pictureIn path (opened (w.doc.side e.side)))) },
    pictureIn path (opened (w.doc.side e.side)), by simp only [headerPicture, h], by cases e.side <;> rfl, ?_, ?_, ?_, ?_, fun s hs => ?_⟩
  · show (w.doc.setSide e.side _).side e.side = _
    rw [side_setSide, if_pos rfl]
  · cases opened (w.doc.side e.side) <;> simp [pictureIn]
  · cases opened (w.doc.side e.side) with
    | nil => exact ⟨_, rfl, by simp⟩
    | cons p ps => exact ⟨_, rfl, by simp⟩
  · cases opened (w.doc.side e.side) <;> rfl
  · show (w.doc.setSide e.side _).side s = _
    rw [side_setSide, if_neg hs]

/-- With a section without elements, the picture is not added, without error. -/
theorem C163_picture_violated (path : Text) {w : Writer} (h : w.layout = some []) : headerPicture path w = .ok w := by
  simp only [headerPicture, h]

/-! ### Examples -/

/-- A document with a header, a footer, two headings, two paragraphs, a table and a list. -/
example : ((newWriter [⟨"A".toList, 1⟩, ⟨"B".toList, 2⟩] ["a".toList, "b".toList] (some [[["x".toList, "y".toList], ["1".toList]]])
      (some [⟨.header, "top".toList, "center".toList⟩, ⟨.footer, "end".toList, "left".toList⟩])).toOption.bind fun w =>
      (calls [.headings true, .paragraphs true, .table false 0, .items ["i".toList] "List Bullet".toList] w).toOption).map
        (fun w => (w.doc.body, w.doc.header, w.headings.length)) =
    some ([.heading "A".toList 1, .heading "B".toList 2, .pageBreak, .heading "A".toList 1, .paragraph "a".toList none,
      .heading "B".toList 2, .paragraph "b".toList none, .table 2 ["x".toList, "y".toList, "1".toList, []],
      .paragraph "i".toList (some "List Bullet".toList)],
      some [⟨[], none, []⟩, ⟨"top".toList, some "CENTER".toList, []⟩], 0) := by
  decide +kernel

/-- Not vacuous: rows not longer than the first one; a known alignment; an unknown one. -/
example : (∀ r' ∈ [["x".toList, "y".toList], ["1".toList]], r'.length ≤ ["x".toList, "y".toList].length) ∧
    KnownAlign "center".toList ∧ ¬ KnownAlign "middle".toList := by unfold KnownAlign; decide +kernel

end DC.Docx
