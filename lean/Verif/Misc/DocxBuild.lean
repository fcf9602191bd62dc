import Verif.Misc.Docx
import Verif.Util.PyList
/-
Building a Word document piece by piece.
Source: dessia_common/document_generator.py 14-86, 118-270.
The document itself belongs to python-docx: its body is the list of what was added, its header and its footer are the lists of their
paragraphs.
-/
namespace DC.Docx

/-- A text.  Used for document_generator.py 197, 199, 207-208, 218, 224, 232, 247, 262. -/
abbrev Text := List Char

/-- What is added to the body of a document: document_generator.py 197, 199, 207-208, 218, 224, 232, 247, 262.  A paragraph has a style or
not; the cells of a table are in rows. -/
inductive Piece where
  | heading (text : Text) (level : Nat)
  | paragraph (text : Text) (style : Option Text)
  | table (columns : Nat) (cells : List Text)
  | pageBreak
  | picture (path : Text)
  deriving DecidableEq

/-- A paragraph of a header or of a footer: document_generator.py 33-36, 41-43. -/
structure Par where
  text : Text
  align : Option Text
  pictures : List Text
  deriving DecidableEq

/-- The headers and the footers: `Header` and `Footer`, document_generator.py 46-86. -/
inductive Side where
  | header
  | footer
  deriving DecidableEq

/-- `LayoutElement`: document_generator.py 14-24. -/
structure Layout where
  side : Side
  text : Text
  align : Text

/-- The document of a writer.  `none` is a header or a footer which is not defined.  Used for document_generator.py 178-193. -/
structure Doc where
  body : List Piece
  header : Option (List Par)
  footer : Option (List Par)

/-- A `DocxWriter`: document_generator.py 178-193.  The name of its file is left out. -/
structure Writer where
  headings : List Heading
  paragraphs : List Text
  tables : Option (List (List (List Text)))
  layout : Option (List Layout)
  doc : Doc

/-! ### Headers and footers -/

/-- The members of `WD_PARAGRAPH_ALIGNMENT`, of python-docx: document_generator.py 36. -/
def alignments : List Text :=
  ["LEFT".toList, "CENTER".toList, "RIGHT".toList, "JUSTIFY".toList, "DISTRIBUTE".toList, "JUSTIFY_MED".toList, "JUSTIFY_HI".toList,
    "JUSTIFY_LOW".toList, "THAI_JUSTIFY".toList]

/-- `getattr(WD_PARAGRAPH_ALIGNMENT, align.upper())`: document_generator.py 36.  Simplification: only the ASCII letters have capitals. -/
def alignment (align : Text) : Except PyErr Text :=
  if align.map Char.toUpper ∈ alignments then .ok (align.map Char.toUpper) else .error .attributeError

/-- The paragraphs of a header or of a footer, which is defined if it was not, with one empty paragraph: document_generator.py 32-33,
40-41. -/
def opened : Option (List Par) → List Par
  | none => [⟨[], none, []⟩]
  | some ps => ps

/-- `getattr(section, type_)`: document_generator.py 32. -/
def Doc.side (d : Doc) : Side → Option (List Par)
  | .header => d.header
  | .footer => d.footer

/-- A document with another header or another footer: document_generator.py 33-36. -/
def Doc.setSide (d : Doc) (s : Side) (ps : Option (List Par)) : Doc :=
  match s with
  | .header => { d with header := ps }
  | .footer => { d with footer := ps }

/-- `_add_to_section`: document_generator.py 26-36, 54-56, 75-77. -/
def addToSection (d : Doc) (e : Layout) : Except PyErr Doc :=
  match alignment e.align with
  | .error err => .error err
  | .ok a => .ok (d.setSide e.side (some (opened (d.side e.side) ++ [⟨e.text, some a, []⟩])))

/-- `Section.add_to_document`: document_generator.py 162-166. -/
def addLayout : List Layout → Doc → Except PyErr Doc
  | [], d => .ok d
  | e :: es, d =>
    match addToSection d e with
    | .error err => .error err
    | .ok d' => addLayout es d'

/-- A new document: document_generator.py 190. -/
def emptyDoc : Doc := ⟨[], none, none⟩

/-- `DocxWriter.__init__`: document_generator.py 178-193. -/
def newWriter (headings : List Heading) (paragraphs : List Text) (tables : Option (List (List (List Text)))) (layout : Option (List Layout)) :
    Except PyErr Writer :=
  match layout with
  | none => .ok ⟨headings, paragraphs, tables, none, emptyDoc⟩
  | some es =>
    match addLayout es emptyDoc with
    | .error err => .error err
    | .ok d => .ok ⟨headings, paragraphs, tables, some es, d⟩

/-- `_add_picture`, on the paragraphs: document_generator.py 38-43. -/
def pictureIn (path : Text) : List Par → List Par
  | [] => [⟨[], none, [path]⟩]
  | p :: ps => { p with pictures := p.pictures ++ [path] } :: ps

/-- `add_header_footer_picture`: document_generator.py 168-172, 250-254, 58-64, 79-85. -/
def headerPicture (path : Text) (w : Writer) : Except PyErr Writer :=
  match w.layout with
  | none => .error .attributeError
  | some [] => .ok w
  | some (e :: _) => .ok { w with doc := w.doc.setSide e.side (some (pictureIn path (opened (w.doc.side e.side)))) }

/-- `delete_layout_element`: document_generator.py 265-270, a document having one section. -/
def deleteLayout (w : Writer) : Writer := { w with doc := { w.doc with header := none, footer := none } }

/-! ### The body -/

/-- `document.add_heading`: document_generator.py 197, 207, 218. -/
def addHeadingPiece (text : Text) (level : Nat) : Except PyErr Piece := if level ≤ 9 then .ok (.heading text level) else .error .valueError

/-- `add_headings`: document_generator.py 194-200. -/
def headingPieces : List Heading → Except PyErr (List Piece)
  | [] => .ok []
  | h :: hs =>
    match addHeadingPiece h.text h.level with
    | .error e => .error e
    | .ok p =>
      match headingPieces hs with
      | .error e => .error e
      | .ok ps => .ok (p :: ps)

/-- The loop of `add_paragraphs`: document_generator.py 204-208; the pieces and the headings left. -/
def paragraphPieces (addHeading : Bool) : List Heading → List Text → Except PyErr (List Heading × List Piece)
  | hs, [] => .ok (hs, [])
  | [], t :: ts =>
    match paragraphPieces addHeading [] ts with
    | .error e => .error e
    | .ok r => .ok (r.1, .paragraph t none :: r.2)
  | h :: hs, t :: ts =>
    if addHeading then
      match addHeadingPiece h.text h.level with
      | .error e => .error e
      | .ok p =>
        match paragraphPieces addHeading hs ts with
        | .error e => .error e
        | .ok r => .ok (r.1, p :: .paragraph t none :: r.2)
    else
      match paragraphPieces addHeading (h :: hs) ts with
      | .error e => .error e
      | .ok r => .ok (r.1, .paragraph t none :: r.2)

/-- `table.cell(i, j).text = cell`, of python-docx, which counts the cells row by row: document_generator.py 144. -/
def setCell (columns : Nat) (cells : List Text) (i j : Nat) (t : Text) : Except PyErr (List Text) :=
  if i * columns + j < cells.length then .ok (cells.set (i * columns + j) t) else .error .indexError

/-- The inner loop of `Table.add_to_document`: document_generator.py 143-144. -/
def setRow (columns i : Nat) : Nat → List Text → List Text → Except PyErr (List Text)
  | _, [], cells => .ok cells
  | j, t :: ts, cells =>
    match setCell columns cells i j t with
    | .error e => .error e
    | .ok cells' => setRow columns i (j + 1) ts cells'

/-- The outer loop of `Table.add_to_document`: document_generator.py 142-144. -/
def setRows (columns : Nat) : Nat → List (List Text) → List Text → Except PyErr (List Text)
  | _, [], cells => .ok cells
  | i, r :: rs, cells =>
    match setRow columns i 0 r cells with
    | .error e => .error e
    | .ok cells' => setRows columns (i + 1) rs cells'

/-- `Table.add_to_document`: document_generator.py 126-144. -/
def tablePiece (rows : List (List Text)) : Except PyErr Piece :=
  match rows with
  | [] => .error .indexError
  | r :: rs =>
    match setRows r.length 0 (r :: rs) (List.replicate ((r :: rs).length * r.length) []) with
    | .error e => .error e
    | .ok cells => .ok (.table r.length cells)

/-- All the tables, each followed by an empty paragraph: document_generator.py 228-231. -/
def allTables : List (List (List Text)) → Except PyErr (List Piece)
  | [] => .ok []
  | t :: ts =>
    match tablePiece t with
    | .error e => .error e
    | .ok p =>
      match allTables ts with
      | .error e => .error e
      | .ok ps => .ok (p :: .paragraph [] none :: ps)

/-- `add_table`, the pieces: document_generator.py 226-233.  Without tables, TypeError. -/
def tablePieces (tables : Option (List (List (List Text)))) (all : Bool) (index : Int) : Except PyErr (List Piece) :=
  match tables with
  | none => .error .typeError
  | some ts =>
    if all then allTables ts
    else
      match Py.get ts index with
      | .error e => .error e
      | .ok t =>
        match tablePiece t with
        | .error e => .error e
        | .ok p => .ok [p]

/-- The calls of the methods adding to the body.  document_generator.py 194-271. -/
inductive Call where
  | headings (pageBreak : Bool)
  | paragraphs (addHeading : Bool)
  | asHeading (text : Text)
  | pageBreaks (n : Nat)
  | table (all : Bool) (index : Int)
  | items (items : List Text) (style : Text)
  | picture (path : Text)

/-- Adds pieces at the end of the body: document_generator.py 197, 208. -/
def Writer.append (w : Writer) (ps : List Piece) : Writer := { w with doc := { w.doc with body := w.doc.body ++ ps } }

/-- `add_headings` (194-200), `add_paragraphs` (202-209), `add_paragraph_as_heading` (211-219), `add_page_breaks` (221-224), `add_table`
(226-234), `add_list_items` (236-248) and `add_picture` (256-263): document_generator.py.  What a method added before it raises is dropped;
the dimensions of pictures are left out.  Used for document_generator.py 194-271. -/
def call (c : Call) (w : Writer) : Except PyErr Writer :=
  match c with
  | .headings pageBreak =>
    match headingPieces w.headings with
    | .error e => .error e
    | .ok ps => .ok (w.append (if pageBreak then ps ++ [.pageBreak] else ps))
  | .paragraphs addHeading =>
    match paragraphPieces addHeading w.headings w.paragraphs with
    | .error e => .error e
    | .ok r => .ok ({ w with headings := r.1 }.append r.2)
  | .asHeading text =>
    match addHeadingPiece text (text.count '#') with
    | .error e => .error e
    | .ok p => .ok (w.append [p])
  | .pageBreaks n => .ok (w.append (List.replicate n .pageBreak))
  | .table all index =>
    match tablePieces w.tables all index with
    | .error e => .error e
    | .ok ps => .ok (w.append ps)
  | .items items style => .ok (w.append (items.map fun t => .paragraph t (some style)))
  | .picture path => .ok (w.append [.picture path])

/-- Calls one after the other.  Used for document_generator.py 194-271. -/
def calls : List Call → Writer → Except PyErr Writer
  | [], w => .ok w
  | c :: cs, w =>
    match call c w with
    | .error e => .error e
    | .ok w' => calls cs w'

end DC.Docx
