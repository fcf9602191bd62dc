import Verif.Values.Emit
import Verif.Values.Pointers
import Verif.Misc.Text
/-
Objects saved in JSON files and streams, and read from them.
Sources: dessia_common/core.py 215-281; dessia_common/files.py 8-114.

The modules `json` and `io` are not part of the code: `jsonLeaf`, `jsonEntries` and `dumpV` give what `json.load` reads in
what `json.dump` writes.
-/
namespace DC

/-- What is in a text file: a text which is not JSON (nothing, or the beginning of a JSON text), or the JSON text of some
data.  Used for core.py 228-236. -/
inductive Text where
  | bad
  | json (v : V)

/-- The files, by their names.  Used for core.py 216-226. -/
abbrev Disk := List Char → Option Text

/-- `json.load` after `json.dump` on a value which is not a dictionary or a list: core.py 235, 279.  A measure is a float;
anything which is not JSON, such as a file object, raises TypeError. -/
def jsonLeaf : V → Except PyErr V
  | .none => .ok .none
  | .bool b => .ok (.bool b)
  | .int i => .ok (.int i)
  | .flt q => .ok (.flt q)
  | .measure _ q => .ok (.flt q)
  | .str s => .ok (.str s)
  | _ => .error .typeError

/-- `json.load` after `json.dump` on the entries of a dictionary: core.py 235, 279.  The keys are written as strings; of
two entries with the same key the last one is read. -/
def jsonEntries (d : List (Key × V)) : List (Key × V) := dictUpdate [] (d.map fun kv => (.str (keyStr kv.1), kv.2))

/-- A function applied to the items of a list, one after the other: the iterations of `json.dump`, core.py 235. -/
def eachOk {α β : Type} (f : α → Except PyErr β) : List α → Except PyErr (List β)
  | [] => .ok []
  | x :: l =>
    match f x with
    | .error e => .error e
    | .ok y =>
      match eachOk f l with
      | .error e => .error e
      | .ok m => .ok (y :: m)

/-- `json.load` after `json.dump` on the parts of a serialized object: core.py 235, 279.  `n` is the number of nested calls
that Python allows. -/
def dumpV (H : Heap) : Nat → SV → Except PyErr V
  | _, .atom v => jsonLeaf v
  | 0, .ptr _ => .error .recursionError
  | n + 1, .ptr a =>
    match H[a]? with
    | none => .error .runtimeError
    | some (.list l) =>
      match eachOk (dumpV H n) l with
      | .error e => .error e
      | .ok m => .ok (.list m)
    | some (.dict d) =>
      match eachOk (fun kv => dumpV H n kv.2) d with
      | .error e => .error e
      | .ok m => .ok (.dict (jsonEntries ((d.map (·.1)).zip m)))

/-- The text written by `save_to_stream`, and how it ends: core.py 228-236.  `to_dict()` is the same call as
`to_dict(use_pointers=True)`: when it fails with a TypeError, it fails again. -/
def savedText (W : World) (same : V → V → Bool) (fuel n : Nat) (c : String) (d : List (Key × V)) : Text × Except PyErr Unit :=
  match toDictP W same fuel c d with
  | .error e => (.bad, .error e)
  | .ok (R, H) =>
    match eachOk (fun kv => dumpV H n kv.2) R with
    | .error e => (.bad, .error e)
    | .ok m => (.json (.dict (jsonEntries ((R.map (·.1)).zip m))), .ok ())

/-- `save_to_file`: core.py 216-226.  The file is opened for writing, which empties it, before the object is serialized. -/
def saveToFile (W : World) (same : V → V → Bool) (fuel n : Nat) (fs : Disk) (filepath : List Char) (c : String)
    (d : List (Key × V)) : Disk × Except PyErr Unit :=
  (fun p => if p = Txt.jsonName filepath then some (savedText W same fuel n c d).1 else fs p, (savedText W same fuel n c d).2)

/-- `json.load` and `dict_to_object`: core.py 268-269, 278-281. -/
def loadText (W : World) (fuel : Nat) : Text → Except PyErr (Option V)
  | .bad => .error .valueError
  | .json (.dict d) => loadDict W fuel d
  | .json _ => .error .typeError

/-- `from_json`: core.py 271-281, and `load_from_file`: 250-259. -/
def fromJson (W : World) (fuel : Nat) (fs : Disk) (filepath : List Char) : Except PyErr (Option V) :=
  match fs filepath with
  | none => .error .osError
  | some t => loadText W fuel t

/-- A stream: a `BinaryFile` or a `StringFile` (files.py 8-114), with what is before and after its position. -/
structure Stream where
  binary : Bool
  before : Text := .bad
  after : Text := .bad

/-- `stream.seek(0)` when nothing is after the position.  Used for core.py 396. -/
def Stream.rewind (s : Stream) : Stream := { s with before := .bad, after := s.before }

/-- `save_to_stream` on a new stream: core.py 228-236.  `json.dump` writes strings, which a binary stream refuses. -/
def saveToStream (W : World) (same : V → V → Bool) (fuel n : Nat) (s : Stream) (c : String) (d : List (Key × V)) :
    Stream × Except PyErr Unit :=
  match s.binary with
  | true =>
    match toDictP W same fuel c d with
    | .error e => (s, .error e)
    | .ok _ => (s, .error .typeError)
  | false => ({ s with before := (savedText W same fuel n c d).1 }, (savedText W same fuel n c d).2)

/-- `from_json_stream`: core.py 261-269, and `load_from_stream`: 238-247.  `read` gives a string, which has no `decode`, if
the stream is not binary. -/
def fromJsonStream (W : World) (fuel : Nat) (s : Stream) : Except PyErr (Option V) :=
  match s.binary with
  | true => loadText W fuel s.after
  | false => .error .attributeError

end DC
