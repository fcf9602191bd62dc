import Verif.Files.Streams
/-
Specification and properties of files and of scripts written in streams (C157, C158).
-/
namespace DC.Fil

variable {α β : Type}

/-! ### Streams -/

theorem write_new (z : α) (xs : List α) : ((Strm.mk [] 0).write z xs).content = xs := by
  rw [Strm.write]
  split
  · rename_i h
    rw [List.isEmpty_iff] at h
    rw [h]
  · simp

theorem write_start (z : α) (c xs : List α) : (Strm.write z ⟨c, 0⟩ xs).content = xs ++ c.drop xs.length ∧ (Strm.write z ⟨c, 0⟩ xs).pos = xs.length := by
  rw [Strm.write]
  split
  · rename_i h
    rw [List.isEmpty_iff] at h
    simp [h]
  · simp

/-- Writing after what has just been written. -/
theorem write_next (z : α) (a c xs : List α) : (Strm.write z ⟨a ++ c, a.length⟩ xs).content = a ++ xs ++ c.drop xs.length := by
  rw [Strm.write]
  split
  · rename_i h
    rw [List.isEmpty_iff] at h
    simp [h]
  · dsimp only
    have h1 : a.length - (a ++ c).length = 0 := by simp
    rw [h1, List.replicate_zero, List.append_nil, List.take_left, List.drop_append]
    simp

/-! ### C157: files -/

/-- A copy of a file has its class, its name and its content, is at its beginning, and is equal to it. -/
theorem C157_copy [DecidableEq α] (z : α) (f : FileObj α) : (f.copy z).cls = f.cls ∧ (f.copy z).filename = f.filename ∧
    (f.copy z).stream.content = f.stream.content ∧ (f.copy z).stream.pos = 0 ∧ (f.copy z).stream.read = f.stream.content ∧ f.eq (f.copy z) = true := by
  have h : (f.copy z).stream.content = f.stream.content := write_new z f.stream.content
  refine ⟨rfl, rfl, h, rfl, ?_, ?_⟩
  · rw [Strm.read, h]
    rfl
  · rw [FileObj.eq, h]
    simp [FileObj.copy, FileObj.new]

/-- A binary file read from the disk has the class asked for, the path as name, the bytes of the file, and is at its beginning. -/
theorem C157_binary (z : β) (cls : String) {disk : Files β} {path : String} {bs : List β} (h : disk path = some bs) :
    ∃ f, readBinary z cls disk path = .ok f ∧ f.cls = cls ∧ f.filename = path ∧ f.stream.content = bs ∧ f.stream.read = bs := by
  refine ⟨_, by rw [readBinary, h], rfl, rfl, write_new z bs, ?_⟩
  rw [Strm.read]
  show List.drop 0 _ = bs
  exact write_new z bs

theorem newlines_noR : ∀ t : List Char, '\r' ∉ newlines t
  | [] => by simp [newlines]
  | [c] => by
    by_cases h : c = '\r'
    · subst h; simp [newlines]
    · have : newlines [c] = [c] := by simp [newlines]
      rw [this]
      simpa using Ne.symm h
  | c :: d :: t => by
    by_cases h : c = '\r'
    · subst h
      by_cases hd : d = '\n'
      · subst hd
        rw [newlines]
        simp [newlines_noR t]
      · rw [newlines]
        · simp [newlines_noR (d :: t)]
        · intro t' ht
          simp only [List.cons.injEq] at ht
          exact hd ht.1
    · have : newlines (c :: d :: t) = c :: newlines (d :: t) := by
        rw [newlines]
        · intro t' h' _; exact h h'
        · intro h'; exact h h'
      rw [this]
      simp only [List.mem_cons, not_or]
      exact ⟨Ne.symm h, newlines_noR (d :: t)⟩

theorem newlines_id : ∀ {t : List Char}, '\r' ∉ t → newlines t = t
  | [], _ => rfl
  | c :: t, h => by
    simp only [List.mem_cons, not_or] at h
    rw [newlines]
    · rw [newlines_id h.2]
    · intro t' h' _; exact h.1 h'.symm
    · intro h'; exact h.1 h'.symm

/-- A text file read from the disk has the class asked for, the path as name, and the text of the file when this text has no carriage
return; otherwise it has another text.
Missing: texts with carriage returns (`C157_text_violated`). -/
theorem C157_text_partial (C : Codec β) (z : Char) (cls : String) {disk : Files β} {path : String} {t : List Char} (h : disk path = some (C.encode t)) :
    ∃ f, readText C z cls disk path = .ok f ∧ f.cls = cls ∧ f.filename = path ∧ f.stream.pos = 0 ∧ (f.stream.content = t ↔ '\r' ∉ t) := by
  refine ⟨_, by rw [readText, h]; dsimp only; rw [C.spec], rfl, rfl, rfl, ?_⟩
  have : (Strm.write z ⟨[], 0⟩ (newlines t)).rewind.content = newlines t := write_new z _
  rw [this]
  constructor
  · intro e
    rw [← e]
    exact newlines_noR t
  · exact newlines_id

/-- A file is read from the disk exactly when there is one at the path which, for a text, is encoded as texts are; a file which is not there
raises an OSError, one which cannot be decoded a ValueError, and no object is made. -/
theorem C157_missing (C : Codec β) (z : Char) (zb : β) (cls : String) (disk : Files β) (path : String) :
    (disk path = none ↔ readBinary zb cls disk path = .error .osError) ∧ (disk path = none ↔ readText C z cls disk path = .error .osError) ∧
    ((∃ bs, disk path = some bs ∧ C.decode bs = none) ↔ readText C z cls disk path = .error .valueError) := by
  unfold readBinary readText
  cases disk path with
  | none => simp
  | some bs => cases h : C.decode bs <;> simp [h]

/-- A text with Windows ends of lines is changed when it is read. -/
theorem C157_text_violated (C : Codec β) (z : Char) (cls path : String) :
    ∃ f, readText C z cls (fun p => if p = path then some (C.encode ['a', '\r', '\n', 'b']) else none) path = .ok f ∧
      f.stream.content = ['a', '\n', 'b'] := by
  refine ⟨⟨cls, path, ((Strm.mk [] 0).write z (newlines ['a', '\r', '\n', 'b'])).rewind⟩, by rw [readText]; simp only [if_pos, C.spec], ?_⟩
  exact write_new z _

/-- A text received in a stream which is at its beginning is read as it is.
Missing: streams which are not at their beginning (`C157_position_violated`). -/
theorem C157_stream_partial (C : Codec β) (z : Char) (cls : String) (t : List Char) :
    ∃ f, fromStream C z cls ⟨C.encode t, 0⟩ = .ok f ∧ f.stream.content = t ∧ f.stream.pos = 0 := by
  refine ⟨_, by rw [fromStream, Strm.read]; dsimp only; rw [List.drop_zero, C.spec], ?_, rfl⟩
  exact write_new z t

/-- Whatever the class on which from_stream is called, and whatever the stream, the file it gives is a StringFile without name. -/
theorem C157_kind_violated (C : Codec β) (z : Char) (cls : String) {s : Strm β} {f : FileObj Char} (h : fromStream C z cls s = .ok f) :
    f.cls = "StringFile" ∧ f.filename = "" := by
  rw [fromStream] at h
  split at h
  · simp at h
  · obtain rfl := Except.ok.inj h
    exact ⟨rfl, rfl⟩

/-- A stream which was read before is read as empty: the content of the file is lost. -/
theorem C157_position_violated (C : Codec β) (z : Char) (cls : String) (bs : List β) (he : C.encode [] = []) :
    ∃ f, fromStream C z cls ⟨bs, bs.length⟩ = .ok f ∧ f.stream.content = [] := by
  have h : C.decode [] = some [] := by rw [← he, C.spec]
  refine ⟨_, by rw [fromStream, Strm.read]; dsimp only; rw [List.drop_length, h], ?_⟩
  exact write_new z []

/-- Two files of different classes may be equal, and stay so when copied. -/
theorem C157_eq [DecidableEq α] (z : α) (f g : FileObj α) : f.eq g = true ↔ (f.copy z).eq (g.copy z) = true := by
  simp only [FileObj.eq, (C157_copy z f).2.2.1, (C157_copy z g).2.2.1]
  rfl

/-- A codec for the examples: bytes are characters. -/
def exCodec : Codec Char := ⟨id, some, fun _ => rfl⟩

/-- A codec for the examples: a text is written twice. -/
def twiceCodec : Codec Char := ⟨fun t => t ++ t, fun bs => if bs.take (bs.length / 2) ++ bs.take (bs.length / 2) = bs then some (bs.take (bs.length / 2)) else none,
  fun t => by
    have h : (t.length + t.length) / 2 = t.length := by omega
    simp [h]⟩

/-- A case of `C157_missing`. -/
example : readText twiceCodec '\x00' "CSVFile" (fun p => if p = "a.csv" then some ['x', 'y'] else none) "a.csv" = .error .valueError ∧
    readText twiceCodec '\x00' "CSVFile" (fun p => if p = "a.csv" then some ['x', 'y'] else none) "b.csv" = .error .osError :=
  ⟨(C157_missing twiceCodec _ '\x00' _ _ _).2.2.1 ⟨_, rfl, by decide⟩, (C157_missing twiceCodec _ '\x00' _ _ _).2.1.1 (by decide)⟩

example : ∃ f, readText exCodec '\x00' "CSVFile" (fun p => if p = "a.csv" then some ['x', ',', '\n'] else none) "a.csv" = .ok f ∧
    f.cls = "CSVFile" ∧ f.filename = "a.csv" ∧ f.stream.content = ['x', ',', '\n'] := by
  obtain ⟨f, h1, h2, h3, -, h5⟩ := C157_text_partial exCodec '\x00' "CSVFile"
    (disk := fun p => if p = "a.csv" then some ['x', ',', '\n'] else none) (path := "a.csv") (t := ['x', ',', '\n']) (by simp [exCodec])
  exact ⟨f, h1, h2, h3, h5.2 (by decide)⟩

example : FileObj.eq (⟨"CSVFile", "a", ⟨['x'], 1⟩⟩ : FileObj Char) (FileObj.copy '\x00' ⟨"CSVFile", "a", ⟨['x'], 1⟩⟩) = true :=
  (C157_copy '\x00' _).2.2.2.2.2

/-! ### C158: scripts -/

/-- The script of a run, as one text. -/
def runText (script : List Char × List Char) : List Char := script.1 ++ ['\n'] ++ (script.2 ++ ['\n'])

theorem script_content (z : Char) (t : List Char) (s : Strm Char) : (scriptToStream z (.ok t) s).1.content = t ++ s.content.drop t.length :=
  (write_start z s.content t).1

theorem runScript_content (z : Char) (script : List Char × List Char) (s : Strm Char) :
    (runScriptToStream z (.ok script) s).1.content = runText script ++ s.content.drop (runText script).length := by
  obtain ⟨i, d⟩ := script
  rw [runScriptToStream]
  dsimp only
  have h := write_start z s.content (i ++ ['\n'])
  have e : s.rewind.write z (i ++ ['\n']) = ⟨(i ++ ['\n']) ++ s.content.drop (i ++ ['\n']).length, (i ++ ['\n']).length⟩ := by
    show Strm.write z ⟨s.content, 0⟩ (i ++ ['\n']) = _
    rw [← h.1, ← h.2]
  rw [e, write_next, List.drop_drop]
  simp [runText, List.append_assoc, Nat.add_comm, Nat.add_left_comm]

/-- The script of a workflow, or of a run, written in a stream is exactly what the stream then holds, whatever the position of the
stream, provided the stream did not hold a longer text.  Missing for the full property: `C158_violated`. -/
theorem C158_partial (z : Char) (s : Strm Char) :
    (∀ t : List Char, s.content.length ≤ t.length → (scriptToStream z (.ok t) s).1.content = t) ∧
    ∀ script : List Char × List Char, s.content.length ≤ (runText script).length → (runScriptToStream z (.ok script) s).1.content = runText script := by
  refine ⟨fun t h => ?_, fun script h => ?_⟩
  · rw [script_content, List.drop_of_length_le h, List.append_nil]
  · rw [runScript_content, List.drop_of_length_le h, List.append_nil]

/-- When the stream held a longer text, the end of this text stays after the script. -/
theorem C158_violated (z : Char) (s : Strm Char) :
    (∀ t : List Char, t.length < s.content.length → (scriptToStream z (.ok t) s).1.content = t ++ s.content.drop t.length ∧
      (scriptToStream z (.ok t) s).1.content ≠ t) ∧
    ∀ script : List Char × List Char, (runText script).length < s.content.length →
      (runScriptToStream z (.ok script) s).1.content = runText script ++ s.content.drop (runText script).length ∧
      (runScriptToStream z (.ok script) s).1.content ≠ runText script := by
  refine ⟨fun t h => ⟨script_content z t s, fun e => ?_⟩, fun script h => ⟨runScript_content z script s, fun e => ?_⟩⟩
  · rw [script_content] at e
    have := congrArg List.length e
    simp at this
    omega
  · rw [runScript_content] at e
    have := congrArg List.length e
    simp only [List.length_append, List.length_drop] at this
    omega

/-- A script which cannot be written leaves the stream as it was. -/
theorem C158_failed (z : Char) (e : PyErr) (s : Strm Char) :
    scriptToStream z (.error e) s = (s, .error e) ∧ runScriptToStream z (.error e) s = (s, .error e) := ⟨rfl, rfl⟩

/-- The file of a script, whose name ends with .py, holds exactly the script, whatever it held; the other files are not changed. -/
theorem C158_file (z : Char) (disk : List Char → Option (List Char)) (filename : List Char) :
    ∃ name, (['.', 'p', 'y'] <:+ filename ∧ name = filename ∨ ¬ ['.', 'p', 'y'] <:+ filename ∧ name = filename ++ ['.', 'p', 'y']) ∧
      (∀ t, (scriptToFile z (.ok t) disk filename).2 = .ok () ∧ (scriptToFile z (.ok t) disk filename).1 name = some t ∧
        ∀ p, p ≠ name → (scriptToFile z (.ok t) disk filename).1 p = disk p) ∧
      ∀ script, (runScriptToFile z (.ok script) disk filename).2 = .ok () ∧ (runScriptToFile z (.ok script) disk filename).1 name = some (runText script) ∧
        ∀ p, p ≠ name → (runScriptToFile z (.ok script) disk filename).1 p = disk p := by
  refine ⟨scriptName filename, ?_, fun t => ⟨rfl, ?_, fun p hp => ?_⟩, fun script => ⟨rfl, ?_, fun p hp => ?_⟩⟩
  · unfold scriptName
    by_cases h : ['.', 'p', 'y'] <:+ filename
    · rw [if_pos h]; exact .inl ⟨h, rfl⟩
    · rw [if_neg h]; exact .inr ⟨h, rfl⟩
  · simp only [scriptToFile, if_pos]
    rw [(C158_partial z ⟨[], 0⟩).1 t (by simp)]
  · simp only [scriptToFile]
    rw [if_neg hp]
  · simp only [runScriptToFile, if_pos]
    rw [(C158_partial z ⟨[], 0⟩).2 script (by simp)]
  · simp only [runScriptToFile]
    rw [if_neg hp]

/-- When the script cannot be written, the former file is emptied. -/
theorem C158_emptied_violated (z : Char) (e : PyErr) (disk : List Char → Option (List Char)) (filename : List Char) :
    (scriptToFile z (.error e) disk filename).1 (scriptName filename) = some [] ∧
    (runScriptToFile z (.error e) disk filename).1 (scriptName filename) = some [] := by
  simp [scriptToFile, runScriptToFile, scriptToStream, runScriptToStream]

/-- Writing a script of three characters over a text of five. -/
example : (scriptToStream '\x00' (.ok ['a', 'b', 'c']) ⟨['1', '2', '3', '4', '5'], 5⟩).1.content = ['a', 'b', 'c', '4', '5'] := by decide

example : (scriptToStream '\x00' (.ok ['a', 'b', 'c']) ⟨['1', '2'], 2⟩).1.content = ['a', 'b', 'c'] :=
  (C158_partial '\x00' ⟨['1', '2'], 2⟩).1 _ (by decide)

example : (scriptToFile '\x00' (.ok ['a']) (fun _ => some ['o', 'l', 'd']) ['w']).1 ['w', '.', 'p', 'y'] = some ['a'] ∧
    (scriptToFile '\x00' (.ok ['a']) (fun _ => some ['o', 'l', 'd']) ['w', '.', 'p', 'y']).1 ['w', '.', 'p', 'y'] = some ['a'] := by decide

end DC.Fil
