import Verif.Types.Annot
import Verif.Util.PyDict
/-
Parsing of docstrings.  Source: dessia_common/schemas/core.py 33-35, 353-359, 1894-1939.
-/
namespace DC.Sch

/-- What precedes and what follows the first occurrence of `sub`: `s.split(sub, maxsplit=1)`.  Used for schemas/core.py 1910-1918. -/
def cut (sub : List Char) : List Char → Option (List Char × List Char)
  | [] => none
  | c :: s =>
    if sub.isPrefixOf (c :: s) then some ([], (c :: s).drop sub.length)
    else (cut sub s).map fun p => (c :: p.1, p.2)

/-- `s.split(sub)`; the first argument bounds the number of parts.  Used for schemas/core.py 1894-1907. -/
def splitN (sub : List Char) : Nat → List Char → List (List Char)
  | 0, s => [s]
  | n + 1, s =>
    match cut sub s with
    | none => [s]
    | some (a, b) => a :: splitN sub n b

/-- `s.split(sub)`: there are less parts than characters, but one.  Used for schemas/core.py 1894-1907. -/
def splitSub (sub s : List Char) : List (List Char) := splitN sub s.length s

/-- `s.strip()`.  Simplification: the blanks are the space, the tabulation and the line breaks.  Used for schemas/core.py 1910-1918. -/
def trim (s : List Char) : List Char := ((s.dropWhile Char.isWhitespace).reverse.dropWhile Char.isWhitespace).reverse

/-- ":param ": schemas/core.py 1898. -/
def paramMark : List Char := ":param ".toList
/-- ":return:": schemas/core.py 1897. -/
def returnMark : List Char := ":return:".toList
/-- ":type": schemas/core.py 1912. -/
def typeMark : List Char := ":type".toList
/-- ":type ": schemas/core.py 1913. -/
def typeSpace : List Char := ":type ".toList

/-- `ParsedAttribute`: schemas/core.py 68-73.  Simplification: the string of the annotation is left out. -/
structure ParsedAttr where
  desc : List Char
  type : List Char

/-- `parse_attribute`: schemas/core.py 1910-1918.  `ann` gives `serialize_annotation(annotations[argname])`, or its exception. -/
def parseAttribute (ann : List Char → Except PyErr (List Char)) (param : List Char) : Except PyErr (List Char × ParsedAttr) :=
  match cut [':'] (if Str.isIn typeMark param then Types.before typeSpace param else param) with
  | none => .error .valueError
  | some (argname, argdesc) =>
    match ann argname with
    | .error e => .error e
    | .ok t => .ok (argname, ⟨trim argdesc, t⟩)

/-- The loop of `parse_docstring`: schemas/core.py 1902-1904. -/
def parseParams (ann : List Char → Except PyErr (List Char)) : List (List Char) → List (List Char × ParsedAttr) →
    Except PyErr (List (List Char × ParsedAttr))
  | [], args => .ok args
  | p :: ps, args =>
    match parseAttribute ann p with
    | .error e => .error e
    | .ok (n, a) => parseParams ann ps (Dict.set args n a)

/-- `ParsedDocstring`: schemas/core.py 76-80. -/
structure ParsedDoc where
  description : List Char
  attributes : List (List Char × ParsedAttr)

/-- `parse_docstring`: schemas/core.py 1894-1907; `none` is a missing docstring. -/
def parseDocstring (ann : List Char → Except PyErr (List Char)) : Option (List Char) → Except PyErr ParsedDoc
  | none => .ok ⟨[], []⟩
  | some [] => .ok ⟨[], []⟩
  | some s =>
    match splitSub paramMark (Types.before returnMark s) with
    | [] => .error .indexError
    | d :: params =>
      match parseParams ann params [] with
      | .error e => .error e
      | .ok args => .ok ⟨trim d, args⟩

/-- "Docstring parsing failed": schemas/core.py 34. -/
def parsingFailed : List Char := "Docstring parsing failed".toList

/-- The documentation of a member: schemas/core.py 353-358, with `FAILED_DOCSTRING_PARSING`: 34. -/
def memberDoc (ann : List Char → Except PyErr (List Char)) (doc : Option (List Char)) : ParsedDoc :=
  match parseDocstring ann doc with
  | .ok p => p
  | .error _ => ⟨parsingFailed, []⟩

/-- The description of an attribute: schemas/core.py 362, with `EMPTY_PARSED_ATTRIBUTE`: 33, and `description`: 120-123. -/
def describe (p : ParsedDoc) (name : List Char) : List Char :=
  match p.attributes.lookup name with
  | some a => a.desc
  | none => []

/-- `_check_docstring`: schemas/core.py 1921-1939, on a class or a function. -/
def checkDocstring (ann : List Char → Except PyErr (List Char)) (doc : Option (List Char)) : Except PyErr Bool :=
  match doc with
  | none => .ok false
  | some s =>
    match parseDocstring ann (some s) with
    | .ok _ => .ok true
    | .error .typeError => .ok false
    | .error e => .error e

end DC.Sch
