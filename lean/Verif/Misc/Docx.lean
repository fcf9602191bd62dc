import Verif.Values.Basic
import Verif.Util.Str
/-
Word documents made from a markdown text.
Sources: dessia_common/document_generator.py 88-152, 175-224, 273-326; dessia_common/core.py 539-555.

The package `docx` is not part of the code: a document is the list of what is added to it, and a heading has a level
between 0 (a title) and 9 (otherwise `add_heading` raises ValueError).
-/
namespace DC.Docx

/-! ### The regular expressions of `parse_markdown` -/

/-- A regular expression: document_generator.py 280-281. -/
inductive Re where
  | none
  | eps
  | chr (p : Char → Bool)
  | seq (a b : Re)
  | alt (a b : Re)
  | star (a : Re)

/-- Whether the empty text matches: `re.match`, document_generator.py 290. -/
def Re.nullable : Re → Bool
  | .none => false
  | .eps => true
  | .chr _ => false
  | .seq a b => a.nullable && b.nullable
  | .alt a b => a.nullable || b.nullable
  | .star _ => true

/-- What has to match after the character `c`: `re.match`, document_generator.py 290. -/
def Re.deriv (c : Char) : Re → Re
  | .none => .none
  | .eps => .none
  | .chr p => if p c then .eps else .none
  | .seq a b => if a.nullable then .alt (.seq (a.deriv c) b) (b.deriv c) else .seq (a.deriv c) b
  | .alt a b => .alt (a.deriv c) (b.deriv c)
  | .star a => .seq (a.deriv c) (.star a)

/-- `re.match` of an expression between `^` and `$`, on a text without line break: document_generator.py 290. -/
def Re.matches : Re → List Char → Bool
  | r, [] => r.nullable
  | r, c :: s => (r.deriv c).matches s

/-- The blanks of `\s` and of `str.strip`.  Simplification: the space, the tabulation and the breaks of lines and pages only.
Used for document_generator.py 284-297. -/
def blank (c : Char) : Bool := c = ' ' || c = '\t' || c = '\n' || c = '\r' || c = '\x0b' || c = '\x0c'

/-- `\s*`.  Used for document_generator.py 281. -/
def reBlanks : Re := .star (.chr blank)

/-- `\|?`.  Used for document_generator.py 281. -/
def reBar : Re := .alt .eps (.chr (· = '|'))

/-- `-+`.  Used for document_generator.py 281. -/
def reDashes : Re := .seq (.chr (· = '-')) (.star (.chr (· = '-')))

/-- `horizontal_line_pattern`, `^\s*\|?\s*-+\s*\|?\s*(-+\s*\|?)*\s*$`: document_generator.py 281. -/
def reRuling : Re :=
  .seq reBlanks (.seq reBar (.seq reBlanks (.seq reDashes (.seq reBlanks (.seq reBar (.seq reBlanks
    (.seq (.star (.seq reDashes (.seq reBlanks reBar))) reBlanks)))))))

/-- `table_pattern`, `^\|.*\|$`, on a text without line break: document_generator.py 280. -/
def isRow (line : List Char) : Bool := line.head? = some '|' && line.tail.getLast? = some '|'

/-! ### Parsing -/

/-- `s.strip(chars)`: document_generator.py 102, 284, 291, 311. -/
def stripBy (p : Char → Bool) (s : List Char) : List Char := ((s.dropWhile p).reverse.dropWhile p).reverse

/-- `'---' in line`: document_generator.py 292, 296. -/
def hasDashes (line : List Char) : Bool := Str.isIn ['-', '-', '-'] line

/-- A `Heading`: document_generator.py 88-93. -/
structure Heading where
  text : List Char
  level : Nat
  deriving DecidableEq

/-- `Heading.from_markdown`: document_generator.py 99-102. -/
def Heading.fromMarkdown (s : List Char) : Heading := ⟨stripBy (· = '#') s, s.count '#'⟩

/-- A `Paragraph` or a `Table`: document_generator.py 105-125. -/
inductive Elem where
  | paragraph (text : List Char)
  | table (rows : List (List (List Char)))

/-- One round of the loop of `parse_markdown`: document_generator.py 284-297. -/
def parseLine (raw : List Char) : List Heading × List Elem :=
  let line := stripBy blank raw
  if line = [] then ([], [])
  else if line.head? = some '#' then ([Heading.fromMarkdown line], [.paragraph line])
  else if isRow line && !reRuling.matches line then
    ([], if hasDashes line then [] else [.table [Str.split '|' (stripBy (· = '|') line)]])
  else ([], if hasDashes line then [] else [.paragraph line])

/-- The loop of `parse_markdown`: document_generator.py 283-297. -/
def parseLines : List (List Char) → List Heading × List Elem
  | [] => ([], [])
  | l :: ls => ((parseLine l).1 ++ (parseLines ls).1, (parseLine l).2 ++ (parseLines ls).2)

/-- `parse_markdown`: document_generator.py 272-298. -/
def parseMarkdown (text : List Char) : List Heading × List Elem := parseLines (Str.split '\n' text)

/-! ### Writing -/

/-- What is added to a document.  Used for document_generator.py 197, 218. -/
inductive Item where
  | heading (text : List Char) (level : Nat)
  | paragraph (text : List Char)
  | table (rows : List (List (List Char)))
  | pageBreak
  deriving DecidableEq

/-- `document.add_heading`: document_generator.py 197, 218. -/
def addHeading (text : List Char) (level : Nat) : Except PyErr Item :=
  if level ≤ 9 then .ok (.heading text level) else .error .valueError

/-- The loop of `add_headings`: document_generator.py 196-197. -/
def addHeadings : List Heading → Except PyErr (List Item)
  | [] => .ok []
  | h :: hs =>
    match addHeading h.text h.level with
    | .error e => .error e
    | .ok i =>
      match addHeadings hs with
      | .error e => .error e
      | .ok is => .ok (i :: is)

/-- `add_paragraph_as_heading`: document_generator.py 211-219. -/
def addParagraphAsHeading (text : List Char) : Except PyErr Item := addHeading text (text.count '#')

/-- One round of the loop of `from_markdown`, with `add_paragraphs` (202-209), `add_table` (226-234) and
`Table.add_to_document` (127-145) on one element: document_generator.py 307-315. -/
def addElem : Elem → Except PyErr Item
  | .paragraph t => if t.head? = some '#' then addParagraphAsHeading (stripBy (fun c => c = ' ' || c = '#') t) else .ok (.paragraph t)
  | .table rows => .ok (.table rows)

/-- The loop of `from_markdown`: document_generator.py 307-315. -/
def addElems : List Elem → Except PyErr (List Item)
  | [] => .ok []
  | x :: xs =>
    match addElem x with
    | .error e => .error e
    | .ok i =>
      match addElems xs with
      | .error e => .error e
      | .ok is => .ok (i :: is)

/-- `from_markdown`: document_generator.py 300-316, called by `to_markdown_docx` and `to_docx`: core.py 539-555. -/
def fromMarkdown (text : List Char) : Except PyErr (List Item) :=
  let p := parseMarkdown text
  match addHeadings p.1 with
  | .error e => .error e
  | .ok top =>
    match addElems p.2 with
    | .error e => .error e
    | .ok body => .ok (top ++ .pageBreak :: body)

/-- The name of the file written by `save_file` and by `to_docx`: document_generator.py 318-322, core.py 549-554. -/
def docxName (filepath : List Char) : List Char :=
  if ¬ ['.', 'd', 'o', 'c', 'x'].isSuffixOf filepath then filepath ++ ['.', 'd', 'o', 'c', 'x'] else filepath

end DC.Docx
