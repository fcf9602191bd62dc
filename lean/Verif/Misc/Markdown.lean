import Verif.Misc.Text
/-
The Markdown of objects.
Sources: dessia_common/exports.py 290-431; dessia_common/core.py 462-466; dessia_common/templates.py 4-20.
-/
namespace DC.Txt

/-- What is read of the value of an attribute: exports.py 327-339.  A number other than a bool comes with `str(round(value, 6))`, which is
Python's; a sequence with the name of its type and those of the classes of its elements, a dictionary with those of the classes of its values; an
object with its name, if it has one. -/
inductive MdValue where
  | number (shown : List Char)
  | bool (b : Bool)
  | complex
  | text (s : List Char)
  | seq (type : List Char) (classes : List (List Char))
  | dict (classes : List (List Char))
  | none
  | obj (name : Option (List Char))

/-- `_sequence_to_str`: exports.py 302-318.  `order` is the order in which a set gives the names: it is Python's. -/
def sequenceToStr (order : List (List Char) → List (List Char)) (type : List Char) (classes : List (List Char)) : List Char :=
  if classes.length = 0 then "empty ".toList ++ type
  else
    let printed := (toString classes.length).toList ++ [' ']
    match order classes with
    | [c] => printed ++ c ++ (if 1 < classes.length then ['s'] else [])
    | cs => printed ++ ['['] ++ Str.join [',', ' '] cs ++ [']']

/-- `_value_to_str`: exports.py 320-339.  `round(True, 6)` is 1, and `round` refuses complex numbers. -/
def valueToStr (order : List (List Char) → List (List Char)) : MdValue → Except PyErr (List Char)
  | .number shown => .ok shown
  | .bool b => .ok (if b then ['1'] else ['0'])
  | .complex => .error .typeError
  | .text s => .ok (if s ≠ [] then s else "no value".toList)
  | .seq type classes => .ok (sequenceToStr order type classes)
  | .dict classes => .ok (sequenceToStr order "list".toList classes)
  | .none => .ok " - ".toList
  | .obj name => match name with
    | some n => .ok (if n ≠ [] then n else "unnamed".toList)
    | .none => .ok "unnamed".toList

/-- The strings of a row: exports.py 362. -/
def rowStrings (order : List (List Char) → List (List Char)) : List MdValue → Except PyErr (List (List Char))
  | [] => .ok []
  | v :: vs => match valueToStr order v with
    | .error e => .error e
    | .ok s => match rowStrings order vs with
      | .error e => .error e
      | .ok ss => .ok (s :: ss)

/-- The strings of all rows.  Used for exports.py 371-387, 399-402. -/
def matrixStrings (order : List (List Char) → List (List Char)) : List (List MdValue) → Except PyErr (List (List (List Char)))
  | [] => .ok []
  | r :: rs => match rowStrings order r with
    | .error e => .error e
    | .ok s => match matrixStrings order rs with
      | .error e => .error e
      | .ok ss => .ok (s :: ss)

/-- `_head_table`: exports.py 353-357.  `capitalize` is that of strings. -/
def headTable (capitalize : List Char → List Char) (names : List (List Char)) : List Char :=
  ['|', ' '] ++ Str.join [' ', '|', ' '] (names.map capitalize) ++ [' ', '|', '\n'] ++
    (List.replicate names.length "| ------ ".toList).flatten ++ ['|', '\n']

/-- The text of a line of a table: exports.py 359-363, 382. -/
def writeLine (limit : Nat) : Line (List (List Char)) → List Char
  | .row r => tableLine limit r
  | .unprinted n => "| + ".toList ++ (toString n).toList ++ " unprinted elements | |\n".toList

/-- `matrix_table`: exports.py 371-387, 399-402, from the strings of the values.  Simplification: an error is that of any row, even of one left out
by the limit. -/
def matrixTable (capitalize : List Char → List Char) (order : List (List Char) → List (List Char)) (printLimit : Nat) (tableLimit : Option Nat)
    (matrix : List (List MdValue)) (names : List (List Char)) : Except PyErr (List Char) :=
  match matrixStrings order matrix with
  | .error e => .error e
  | .ok rows => .ok (headTable capitalize names ++ (contentTable tableLimit rows).flatMap (writeLine printLimit))

/-- An object: its name, the name of its class, and the name, the name of the class and the value of each attribute: exports.py 347. -/
structure MdObject where
  name : List Char
  cls : List Char
  attrs : List (List Char × List Char × MdValue)

/-- `object_matrix`: exports.py 344-351. -/
def objectMatrix (order : List (List Char) → List (List Char)) : List (List Char × List Char × MdValue) → Except PyErr (List (List MdValue))
  | [] => .ok []
  | a :: as => match valueToStr order a.2.2 with
    | .error e => .error e
    | .ok s => match objectMatrix order as with
      | .error e => .error e
      | .ok rs => .ok ([.text a.1, .text a.2.1, .text s] :: rs)

/-- `object_titles`: exports.py 297-300. -/
def objectTitles : List (List Char) := ["Attribute".toList, "Type".toList, "Value".toList]

/-- `object_table`: exports.py 404-407. -/
def objectTable (capitalize : List Char → List Char) (order : List (List Char) → List (List Char)) (printLimit : Nat) (tableLimit : Option Nat)
    (o : MdObject) : Except PyErr (List Char) :=
  match objectMatrix order o.attrs with
  | .error e => .error e
  | .ok m => matrixTable capitalize order printLimit tableLimit m objectTitles

/-- The text of the template between its first and its last lines: templates.py 5-15. -/
def templateMiddle (name cls : List Char) : List Char :=
  "\nThis is a markdown file https://www.markdownguide.org/cheat-sheet/\n\n".toList ++
  "The good practice is to create a string python template and move the template to another python module\n".toList ++
  "(like templates.py) to avoid mix python code and markdown, as python syntax conflicts with markdown\n\n".toList ++
  "You can substitute values with object attributes like the name of the object: ".toList ++ name ++
  "\n\n# Attributes\n\nObject ".toList ++ name ++ " of class ".toList ++ cls ++ " has the following attributes:".toList

/-- `DessiaObject.to_markdown`: core.py 462-466; templates.py 4-20. -/
def objectMarkdown (capitalize : List Char → List Char) (order : List (List Char) → List (List Char)) (o : MdObject) : Except PyErr (List Char) :=
  match objectTable capitalize order 25 .none o with
  | .error e => .error e
  | .ok table => .ok ("# Object ".toList ++ o.name ++ " of class ".toList ++ o.cls ++ ['\n'] ++ templateMiddle o.name o.cls ++
      "\n\n".toList ++ table ++ "\n\n".toList)

/-- `print_name`: exports.py 389-392. -/
def printName (name : List Char) : List Char := if name ≠ [] then name else "with no name".toList

/-- The end of the template of datasets: templates.py 75-84. -/
def datasetEnd (name : List Char) : List Char :=
  "\n\n## Information:\n\n    This is a standard markdown: https://www.markdownguide.org/cheat-sheet/\n\n".toList ++
  "    The good practice is to create a string python template and move the template to another python module\n".toList ++
  "    (like templates.py) to avoid mix python code and markdown, as python syntax conflicts with markdown\n\n".toList ++
  "    You can substitute values with object attributes like the name of the object: ".toList ++ name ++ "\n\n".toList

/-- `Dataset.to_markdown`: datatools/dataset.py 267-276; exports.py 409-411; templates.py 72-84.  The classes are those of the elements of the dataset;
the strings of the numbers of the matrix are Python's. -/
def datasetMarkdown (capitalize : List Char → List Char) (order : List (List Char) → List (List Char)) (name type : List Char)
    (classes attributes : List (List Char)) (matrix : List (List MdValue)) : Except PyErr (List Char) :=
  match matrixTable capitalize order 25 (some 12) matrix attributes with
  | .error e => .error e
  | .ok table => .ok ("# Dataset ".toList ++ printName name ++ " of ".toList ++ sequenceToStr order type classes ++ ":\n\n".toList ++ table ++
      datasetEnd (printName name))

/-- The link of a heading in a table of contents: exports.py 424.  `lower` is `str.lower`. -/
def tocLink (lower : List Char → List Char) (heading : List Char) : List Char := (lower heading).map fun c => if c = ' ' then '-' else c

/-- `table_of_contents`: exports.py 419-425. -/
def tableOfContents (lower : List Char → List Char) (headings : List (List Char)) : List Char :=
  "## Table of Contents\n\n".toList ++
    headings.flatMap fun h => "- [".toList ++ h ++ "](#".toList ++ tocLink lower h ++ ")\n".toList

end DC.Txt
