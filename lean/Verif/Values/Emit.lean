import Verif.Values.Paths
import Verif.Values.Copy
/-
Serialization with pointers: `to_dict(use_pointers=True)`.
Sources: dessia_common/serialization.py 50-64, 127-256; dessia_common/utils/helpers.py 110-193.

The dictionaries and lists made by the serialization are shared between the result, the memo and the references, and are
changed in place at the end (`add_references`): they are cells of a heap.
-/
namespace DC

/-- A serialized value: a base value or file, or a dictionary or list of the heap, by its index.  Used for serialization.py 147. -/
inductive SV where
  | atom (v : V)
  | ptr (a : Nat)

/-- A dictionary or a list made by the serialization.  Used for serialization.py 131, 150. -/
inductive Cell where
  | dict (d : List (Key × SV))
  | list (l : List SV)

/-- The dictionaries and lists made so far.  Used for utils/helpers.py 110-145. -/
abbrev Heap := List Cell

/-- `str(uuid.uuid1())`: serialization.py 145.  The ids made by a run are `i`, `ii`, `iii`…: they only have to be
different strings without slash, which are not numbers. -/
def idStr (n : Nat) : String := String.ofList ('i' :: List.replicate n 'i')

/-- `f"#/_references/{id_}"`: serialization.py 146. -/
def refStr (n : Nat) : String := "#/_references/" ++ idStr n

/-- The key of an id in `id_memo`: serialization.py 130, 149. -/
def idKey (n : Nat) : Key := .str (idStr n)

/-- An entry of `memo`: the value which is the key, the serialized value, the id, the path (the path to the reference is
made of the id).  serialization.py 147. -/
structure Entry where
  value : V
  content : SV
  id : Nat
  path : Path

/-- `memo`, `id_memo`, the cells, and the number of ids made.  Used for serialization.py 127-131. -/
structure PS where
  heap : Heap
  memo : List Entry
  refs : List (Key × SV)
  next : Nat

/-- A new dictionary or list.  Used for serialization.py 127-131. -/
def alloc (c : Cell) (st : PS) : SV × PS := (.ptr st.heap.length, { st with heap := st.heap ++ [c] })

/-- `{REF_MARKER: path_to_refs}`: serialization.py 131, 150. -/
def refCell (n : Nat) : Cell := .dict [(.str "$ref", .atom (.str (refStr n)))]

/-- The entry of `memo` whose key equals the value, `value in memo` and `memo[value]`: serialization.py 129, 167.  `same`
is the equality of dictionary keys: same hash and `==`, the stored key on the left. -/
def findMemo (same : V → V → Bool) (memo : List Entry) (v : V) : Option Entry := memo.find? fun e => same e.value v

/-- `memo[value] = ...`: serialization.py 147.  An equal key is kept, with the new data. -/
def setMemo (same : V → V → Bool) (v : V) (x : SV) (id : Nat) (path : Path) : List Entry → List Entry
  | [] => [⟨v, x, id, path⟩]
  | e :: rest =>
    if same e.value v then ⟨e.value, x, id, path⟩ :: rest else e :: setMemo same v x id path rest

/-- `_find_in_memo`: serialization.py 127-131. -/
def hitRef (e : Entry) (st : PS) : SV × PS :=
  alloc (refCell e.id) { st with refs := dictSet st.refs (idKey e.id) e.content }

/-- `_serialize_and_set_in_memo`, once the dictionary of the value is made: serialization.py 144-153 (`id_method` is
True). -/
def register (same : V → V → Bool) (standalone : Bool) (v : V) (cell : Cell) (path : Path) (st : PS) : SV × PS :=
  let x := SV.ptr st.heap.length
  let st' : PS := ⟨st.heap ++ [cell], setMemo same v x st.next path st.memo, st.refs, st.next + 1⟩
  if standalone then alloc (refCell st.next) { st' with refs := dictSet st.refs (idKey st.next) x }
  else (x, st')

/-- The three groups of keys of a dictionary: other values, sequences, dictionaries (serialization.py 206-214). -/
def rankOf : V → Nat
  | .dict _ => 2
  | .list _ => 1
  | .tuple _ => 1
  | _ => 0

mutual
/-- `serialize_with_pointers`: serialization.py 156-190, for a path which is not `#`; `to_dict` (50-64) and
`_serialize_and_set_in_memo` (134-153) are inlined.  A measure has a `to_dict` without these arguments: the TypeError is
caught (139-142; measures.py 18-20).  Simplifications: as for `serialize`. -/
def serP (W : World) (same : V → V → Bool) (path : Path) (st : PS) : V → Except PyErr (SV × PS)
  | .cls n => match annotationString W n with
    | .ok s => .ok (.atom (.str s), st)
    | .error e => .error e
  | .obj c d =>
    match findMemo same st.memo (.obj c d) with
    | some e => .ok (hitRef e st)
    | none =>
      match serPD W same path st (serKeep W.toEnv c) 0 d with
      | .error e => .error e
      | .ok (xs, st1) =>
      match serPD W same path st1 (serKeep W.toEnv c) 1 d with
      | .error e => .error e
      | .ok (ys, st2) =>
      match serPD W same path st2 (serKeep W.toEnv c) 2 d with
      | .error e => .error e
      | .ok (zs, st3) =>
        .ok (register same (W.info c).standalone (.obj c d)
          (.dict (dictUpdate [(.str "object_class", .atom (.str c))] (xs ++ ys ++ zs))) path st3)
  | .measure c q =>
    match findMemo same st.memo (.measure c q) with
    | some e => .ok (hitRef e st)
    | none => .ok (register same false (.measure c q)
        (.dict [(.str "object_class", .atom (.str c)), (.str "value", .atom (.flt q))]) path st)
  | .dict d =>
    match serPD W same path st (fun _ => true) 0 d with
    | .error e => .error e
    | .ok (xs, st1) =>
    match serPD W same path st1 (fun _ => true) 1 d with
    | .error e => .error e
    | .ok (ys, st2) =>
    match serPD W same path st2 (fun _ => true) 2 d with
    | .error e => .error e
    | .ok (zs, st3) => .ok (alloc (.dict (xs ++ ys ++ zs)) st3)
  | .list l =>
    match serPL W same path 0 st l with
    | .error e => .error e
    | .ok (xs, st1) => .ok (alloc (.list xs) st1)
  | .tuple l =>
    match serPL W same path 0 st l with
    | .error e => .error e
    | .ok (xs, st1) => .ok (alloc (.list xs) st1)
  | .file b n t => .ok (.atom (.file b n t), st)
  | .none => .ok (.atom .none, st)
  | .bool b => .ok (.atom (.bool b), st)
  | .int i => if jsonInt i then .ok (.atom (.int i), st) else .error .serializationError
  | .flt q => .ok (.atom (.flt q), st)
  | .str s => .ok (.atom (.str s), st)
  | .other _ => .error .serializationError
/-- `serialize_sequence_with_pointers`: serialization.py 248-256. -/
def serPL (W : World) (same : V → V → Bool) (path : Path) (i : Nat) (st : PS) :
    List V → Except PyErr (List SV × PS)
  | [] => .ok ([], st)
  | v :: vs =>
    match serP W same (path.idx i) st v with
    | .error e => .error e
    | .ok (x, st1) =>
    match serPL W same path (i + 1) st1 vs with
    | .error e => .error e
    | .ok (xs, st2) => .ok (x :: xs, st2)
/-- One of the three loops of `serialize_dict_with_pointers` (serialization.py 216-230), on the keys of the group `rank`
kept by `_serializable_dict`. -/
def serPD (W : World) (same : V → V → Bool) (path : Path) (st : PS) (keep : Key → Bool) (rank : Nat) :
    List (Key × V) → Except PyErr (List (Key × SV) × PS)
  | [] => .ok ([], st)
  | (k, v) :: kvs =>
    if keep k && rankOf v == rank then
      match serP W same (path.key k) st v with
      | .error e => .error e
      | .ok (x, st1) =>
      match serPD W same path st1 keep rank kvs with
      | .error e => .error e
      | .ok (xs, st2) => .ok ((k, x) :: xs, st2)
    else serPD W same path st keep rank kvs
end

/-! ### `add_references` -/

/-- `extract_segment_from_object` on serialized values: utils/helpers.py 110-145 (no tuple keys, see `segLoc`). -/
def extractH (H : Heap) (x : SV) (s : String) : Except PyErr SV :=
  match x with
  | .atom _ => .error .attributeError
  | .ptr a =>
    match H[a]? with
    | none => .error .attributeError
    | some (.list l) =>
      match int? s with
      | none => .error .extractionError
      | some i =>
        match seqIndex l.length i with
        | none => .error .indexError
        | some n =>
          match l[n]? with
          | none => .error .indexError
          | some y => .ok y
    | some (.dict d) =>
      match d.lookup (.str s) with
      | some y => .ok y
      | none =>
        match digits? s with
        | some n =>
          match d.lookup (.int n) with
          | some y => .ok y
          | none => .error .extractionError
        | none =>
          if s.toList.head? = some '(' ∧ s.toList.getLast? = some ')' ∧ ',' ∈ s.toList then .error .keyError
          else .error .extractionError

/-- `element[REF_MARKER]` when the element is a dictionary with this key: utils/helpers.py 153-158. -/
def refH (H : Heap) (x : SV) : Option SV :=
  match x with
  | .atom _ => none
  | .ptr a =>
    match H[a]? with
    | some (.dict d) => d.lookup (.str "$ref")
    | _ => none

/-- The loop of `get_in_object_from_path`: utils/helpers.py 151-176; `jump` evaluates the element when it is a
reference. -/
def walkH (H : Heap) (jump : SV → Except PyErr SV) : SV → Path → Except PyErr SV
  | x, [] => .ok x
  | x, s :: rest =>
    match jump x with
    | .error e => .error e
    | .ok y =>
      match extractH H y s with
      | .error e => .error e
      | .ok z => walkH H jump z rest

/-- `get_in_object_from_path`: utils/helpers.py 148-176; `fuel` as for `getLoop`. -/
def getH (H : Heap) (root : SV) : Nat → Path → Except PyErr SV
  | 0, p => walkH H (fun x => match refH H x with
      | none => .ok x
      | some _ => .error .recursionError) root p
  | fuel + 1, p => walkH H (fun x => match refH H x with
      | none => .ok x
      | some (.atom (.str r)) => getH H root fuel (lstripPath (splitSlash r))
      | some _ => .error .attributeError) root p

/-- The assignment at the end of `set_in_object_from_path`: utils/helpers.py 188-193. -/
def assignH (H : Heap) (x : SV) (s : String) (y : SV) : Except PyErr Heap :=
  match x with
  | .atom _ => .error .attributeError
  | .ptr a =>
    match H[a]? with
    | none => .error .attributeError
    | some (.list l) =>
      match int? s with
      | none => .error .valueError
      | some i =>
        match seqIndex l.length i with
        | none => .error .indexError
        | some n => .ok (H.set a (.list (l.set n y)))
    | some (.dict d) => .ok (H.set a (.dict (dictSet d (.str s) y)))

/-- `set_in_object_from_path`: utils/helpers.py 179-193. -/
def setH (fuel : Nat) (H : Heap) (root : SV) (path : Path) (y : SV) : Except PyErr Heap :=
  let reduced := (lstripPath path).dropLast
  let last := path.getLastD ""
  if reduced = [] ∨ reduced = [""] then assignH H root last y
  else match getH H root fuel (lstripPath reduced) with
    | .error e => .error e
    | .ok x => assignH H x last y

/-- `object_path.startswith('#/_references')`: serialization.py 243. -/
def startsRefs : Path → Bool
  | "#" :: s :: _ => "_references".toList.isPrefixOf s.toList
  | _ => false

/-- One round of the loop of `add_references`: serialization.py 242-245. -/
def rewriteOne (fuel : Nat) (root : SV) (refs : List (Key × SV)) (H : Heap) (e : Entry) : Except PyErr Heap :=
  if !startsRefs e.path && (refs.lookup (idKey e.id)).isSome && (refH H e.content).isNone then
    setH fuel (H ++ [refCell e.id]) root e.path (.ptr H.length)
  else .ok H

/-- The loop of `add_references`: serialization.py 242-245. -/
def rewriteAll (fuel : Nat) (root : SV) (refs : List (Key × SV)) : Heap → List Entry → Except PyErr Heap
  | H, [] => .ok H
  | H, e :: rest =>
    match rewriteOne fuel root refs H e with
    | .error err => .error err
    | .ok H' => rewriteAll fuel root refs H' rest

/-- `add_references` on the dictionary of index `a`, which is `d`: serialization.py 237-245. -/
def addReferences (fuel : Nat) (a : Nat) (d : List (Key × SV)) (st : PS) : Except PyErr Heap :=
  let H := st.heap ++ [.dict st.refs]
  rewriteAll fuel (.ptr a) st.refs (H.set a (.dict (dictSet d (.str "_references") (.ptr st.heap.length)))) st.memo

/-- The entries of a dictionary of the heap.  Used for serialization.py 50-64, 193-234. -/
def entriesOf (H : Heap) (a : Nat) : List (Key × SV) :=
  match H[a]? with
  | some (.dict d) => d
  | _ => []

/-- `to_dict()` of an object, with its default arguments: serialization.py 50-64, 193-234 (the path is `#`).  The result is
the dictionary and the heap where its parts are. -/
def toDictP (W : World) (same : V → V → Bool) (fuel : Nat) (c : String) (d : List (Key × V)) :
    Except PyErr (List (Key × SV) × Heap) :=
  match serPD W same ["#"] ⟨[], [], [], 0⟩ (serKeep W.toEnv c) 0 d with
  | .error e => .error e
  | .ok (xs, st1) =>
  match serPD W same ["#"] st1 (serKeep W.toEnv c) 1 d with
  | .error e => .error e
  | .ok (ys, st2) =>
  match serPD W same ["#"] st2 (serKeep W.toEnv c) 2 d with
  | .error e => .error e
  | .ok (zs, st3) =>
  match addReferences fuel st3.heap.length (xs ++ ys ++ zs) (alloc (.dict (xs ++ ys ++ zs)) st3).2 with
  | .error e => .error e
  | .ok H => .ok (dictUpdate [(.str "object_class", .atom (.str c))] (entriesOf H st3.heap.length), H)

/-- `serialize_with_pointers` of a list given by the user: serialization.py 156-190 with the default path: the references
are set as an item of the list (238), a TypeError. -/
def listP (W : World) (same : V → V → Bool) (l : List V) : Except PyErr (List SV × Heap) :=
  match serPL W same ["#"] 0 ⟨[], [], [], 0⟩ l with
  | .error e => .error e
  | .ok _ => .error .typeError

/-- The equality of the keys of `memo`, the stored key on the left: core.py 110-129 for objects (classes with
`_eq_is_data_eq`); a measure is a float (measures.py 13), equal to any measure of the same value. -/
def emitSame (Γ : Env) (H : HashFns) : V → V → Bool
  | .obj c d, .obj c' d' => memoHit Γ H (c, d) c' d'
  | .measure _ q, .measure _ q' => q == q'
  | _, _ => false

end DC
