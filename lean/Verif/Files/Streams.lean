import Verif.Values.Basic
/-
Streams, files in memory, files on the disk, and scripts written in them.
Source: dessia_common/files.py 8-109, dessia_common/workflow/core.py 1375-1386, 2251-2265.

The module `io` is not part of the code: `Strm`, `Strm.write`, `Strm.read` and `newlines` are what it does.  `β` are the bytes.
-/
namespace DC.Fil

variable {α β : Type}

/-- An `io.StringIO` or `io.BytesIO` (files.py 8, 56), or an open file (workflow/core.py 1385): its content and its position. -/
structure Strm (α : Type) where
  content : List α
  pos : Nat
deriving DecidableEq, Repr

/-- `stream.write(xs)`: what is at the position is overwritten, what is after stays; a position past the end is reached with `z`
(files.py 20, 35, 69, 86, 95; workflow/core.py 1379, 2256-2257). -/
def Strm.write (z : α) (s : Strm α) (xs : List α) : Strm α :=
  if xs.isEmpty then s
  else
    { content := (s.content ++ List.replicate (s.pos - s.content.length) z).take s.pos ++ xs ++ s.content.drop (s.pos + xs.length)
      pos := s.pos + xs.length }

/-- `stream.read()`: what is after the position (files.py 86). -/
def Strm.read (s : Strm α) : List α := s.content.drop s.pos

/-- `stream.seek(0)`: files.py 21, 36, 70, 87, 96; workflow/core.py 1378, 2254. -/
def Strm.rewind (s : Strm α) : Strm α := { s with pos := 0 }

/-- A `BinaryFile` or a `StringFile`, or one of a subclass: files.py 8-15, 56-63. -/
structure FileObj (α : Type) where
  cls : String
  filename : String
  stream : Strm α
deriving DecidableEq, Repr

/-- `__init__`: files.py 13-15, 61-63. -/
def FileObj.new (cls filename : String) : FileObj α := ⟨cls, filename, ⟨[], 0⟩⟩

/-- `copy`: files.py 17-22, 65-70. -/
def FileObj.copy (z : α) (f : FileObj α) : FileObj α :=
  { (FileObj.new f.cls f.filename : FileObj α) with stream := ((Strm.mk [] 0).write z f.stream.content).rewind }

/-- `__eq__` of two binary files, or of two text files: files.py 51-53, 111-113.  The classes are not compared. -/
def FileObj.eq [DecidableEq α] (f g : FileObj α) : Bool := decide (f.stream.content = g.stream.content) && decide (f.filename = g.filename)

/-- What `open(filepath, 'r')` makes of the ends of lines: files.py 93. -/
def newlines : List Char → List Char
  | '\r' :: '\n' :: t => '\n' :: newlines t
  | '\r' :: t => '\n' :: newlines t
  | c :: t => c :: newlines t
  | [] => []

/-- The encoding: `decode` is None when a UnicodeDecodeError, which is a ValueError, is raised.  Used for files.py 90-97. -/
structure Codec (β : Type) where
  encode : List Char → List β
  decode : List β → Option (List Char)
  spec : ∀ t, decode (encode t) = some t

/-- The files on the disk.  Used for files.py 30-37. -/
abbrev Files (β : Type) := String → Option (List β)

/-- `BinaryFile.from_file`: files.py 30-37. -/
def readBinary (z : β) (cls : String) (disk : Files β) (path : String) : Except PyErr (FileObj β) :=
  match disk path with
  | none => .error .osError
  | some bs => .ok ⟨cls, path, ((Strm.mk [] 0).write z bs).rewind⟩

/-- `StringFile.from_file`: files.py 90-97. -/
def readText (C : Codec β) (z : Char) (cls : String) (disk : Files β) (path : String) : Except PyErr (FileObj Char) :=
  match disk path with
  | none => .error .osError
  | some bs =>
    match C.decode bs with
    | none => .error .valueError
    | some t => .ok ⟨cls, path, ((Strm.mk [] 0).write z (newlines t)).rewind⟩

/-- `StringFile.from_stream`, called on the class `cls`: files.py 81-88.  A text stream gives a string, which has no `decode`; here
the stream is binary. -/
def fromStream (C : Codec β) (z : Char) (_cls : String) (s : Strm β) : Except PyErr (FileObj Char) :=
  match C.decode s.read with
  | none => .error .valueError
  | some t => .ok ⟨"StringFile", "", ((Strm.mk [] 0).write z t).rewind⟩

/-- `Workflow.save_script_to_stream`: workflow/core.py 1375-1379.  `script` is what `to_script` gives or raises. -/
def scriptToStream (z : Char) (script : Except PyErr (List Char)) (s : Strm Char) : Strm Char × Except PyErr Unit :=
  match script with
  | .error e => (s, .error e)
  | .ok t => (s.rewind.write z t, .ok ())

/-- `WorkflowRun.save_script_to_stream`: workflow/core.py 2251-2257.  `script` are the imports and the declaration of what `to_script`
gives. -/
def runScriptToStream (z : Char) (script : Except PyErr (List Char × List Char)) (s : Strm Char) : Strm Char × Except PyErr Unit :=
  match script with
  | .error e => (s, .error e)
  | .ok (imports, declaration) => ((s.rewind.write z (imports ++ ['\n'])).write z (declaration ++ ['\n']), .ok ())

/-- The name of the file of a script: workflow/core.py 1383-1384, 2261-2262. -/
def scriptName (filename : List Char) : List Char := if ['.', 'p', 'y'] <:+ filename then filename else filename ++ ['.', 'p', 'y']

/-- `Workflow.save_script_to_file`: workflow/core.py 1381-1386.  The file is emptied when it is opened.  Here the disk holds texts. -/
def scriptToFile (z : Char) (script : Except PyErr (List Char)) (disk : List Char → Option (List Char)) (filename : List Char) :
    (List Char → Option (List Char)) × Except PyErr Unit :=
  let r := scriptToStream z script ⟨[], 0⟩
  (fun p => if p = scriptName filename then some r.1.content else disk p, r.2)

/-- `WorkflowRun.save_script_to_file`: workflow/core.py 2259-2265. -/
def runScriptToFile (z : Char) (script : Except PyErr (List Char × List Char)) (disk : List Char → Option (List Char)) (filename : List Char) :
    (List Char → Option (List Char)) × Except PyErr Unit :=
  let r := runScriptToStream z script ⟨[], 0⟩
  (fun p => if p = scriptName filename then some r.1.content else disk p, r.2)

end DC.Fil
