import Verif.Values.FileLemmas
import Verif.Misc.TextProps
/- Properties C140 and C141: objects in JSON files. -/
namespace DC
set_option linter.unusedSimpArgs false

theorem savedText_ok (W : World) (same : V → V → Bool) (fuel : Nat) (c : String) (d : List (Key × V))
    (hwf : WF (.obj c d)) (hr : Readable W (.obj c d)) (hk : PlainKeys (.obj c d)) (hn : ∀ k ∈ keysOf d, AttrName k)
    (hs : ∀ u v, Occurs (.obj c d) u → Occurs (.obj c d) v → same u v = true → serialize W u = serialize W v)
    (hf : NoFile (.obj c d)) :
    ∃ R H doc, toDictP W same (fuel + 1) c d = .ok (R, H) ∧ WrittenDict H R doc ∧
      ∃ N, ∀ n, N ≤ n → savedText W same (fuel + 1) n c d = (.json (.dict doc), .ok ()) := by
  obtain ⟨j, h1, -, -⟩ := roundTrip_aux W _ hwf hr
  have hd : ∃ e, j = .dict e := by
    have := h1
    rw [serialize, bind_ok] at this
    obtain ⟨r, _, h⟩ := this
    simp only [Except.ok.injEq] at h
    exact ⟨_, h.symm⟩
  obtain ⟨e, rfl⟩ := hd
  obtain ⟨R, H, refs, g1, g2, g3, g4⟩ := toDictP_ok W same fuel c d e h1 hk hn hs
  obtain ⟨R', H', q1, ⟨doc, hdoc⟩, -⟩ := C105_partial W same fuel c d hwf hr hk hn hs
  rw [g1] at q1
  simp only [Except.ok.injEq, Prod.mk.injEq] at q1
  obtain ⟨rfl, rfl⟩ := q1
  obtain ⟨hH, hR⟩ := toDictP_clean g1 hf
  obtain ⟨n0, rk, hsh⟩ := g4.shape
  obtain ⟨a, dd, hRe, ha⟩ := g4.head
  have hlow : ∀ x ∈ R.map (·.2), Low H.length x := by
    intro x hx
    rw [hRe, List.map_cons] at hx
    rcases List.mem_cons.1 hx with rfl | hx
    · exact ⟨.str, by simp, by simp⟩
    · exact hsh.leaf a _ ha _ hx
  obtain ⟨N, hN⟩ := eachOk_bound (f := fun n => dumpV H n) (l := R.map (·.2)) (m := doc.map (·.2))
    (by simpa [keysOf] using (congrArg List.length hdoc.1).symm) (by
      intro i x v hx hv
      refine (hdoc.2 i x v hx hv).dump hsh hH (hlow x (List.mem_of_getElem? hx)) ?_
      obtain ⟨kv, hm, rfl⟩ := List.mem_map.1 (List.mem_of_getElem? hx)
      exact hR kv hm)
  refine ⟨R, H, doc, g1, hdoc, N, fun n hn => ?_⟩
  have hkeys : ∀ k ∈ keysOf doc, ∃ s, k = .str s := by
    intro k hk
    rw [hdoc.1, hRe, List.map_cons] at hk
    rcases List.mem_cons.1 hk with rfl | hk
    · exact ⟨_, rfl⟩
    · obtain ⟨s, h, _⟩ := (hsh.keys a _ ha dd rfl).2 k hk
      exact ⟨s, h⟩
  rw [savedText, g1]
  simp only
  rw [eachOk_map (fun kv : Key × SV => kv.2) (dumpV H n), hN n hn]
  simp only
  rw [zip_keys hdoc.1, jsonEntries_id (by rw [hdoc.1]; exact g4.nodup) hkeys]

/-- **C140.** An object saved in a file, under a name to which `.json` is added if it is missing, is read back from this
file as an object of the same class with the same attributes, up to the order of the keys of dictionaries and to the kind of
sequences.  The two objects are equal, and the other files are unchanged.
Missing: file objects (`C140_file_violated`), integer keys (`C140_keys_violated`), reading under the name which was given
(`C140_name_violated`), streams (`C140_stream_violated`), and what is missing in C105. -/
theorem C140_partial (W : World) (same : V → V → Bool) (fuel : Nat) (c : String) (d : List (Key × V))
    (hwf : WF (.obj c d)) (hr : Readable W (.obj c d)) (hk : PlainKeys (.obj c d)) (hn : ∀ k ∈ keysOf d, AttrName k)
    (hs : ∀ u v, Occurs (.obj c d) u → Occurs (.obj c d) v → same u v = true → serialize W u = serialize W v)
    (hf : NoFile (.obj c d)) (fs : Disk) (name file : List Char)
    (hfile : file = name ∧ ".json".toList <:+ name ∨ file = name ++ ".json".toList ∧ ¬ ".json".toList <:+ name) :
    ∃ N, ∀ n, N ≤ n → ∃ fs', saveToFile W same (fuel + 1) n fs name c d = (fs', .ok ()) ∧ (∀ p, p ≠ file → fs' p = fs p) ∧
      ∃ d', fromJson W n fs' file = .ok (some (.obj c d')) ∧ Like (.obj c d) (.obj c d') ∧
        dataEq W.toEnv (.obj c d) (.obj c d') = true ∧ dataEq W.toEnv (.obj c d') (.obj c d) = true := by
  obtain ⟨R, H, doc, h1, h2, N, hN⟩ := savedText_ok W same fuel c d hwf hr hk hn hs hf
  obtain ⟨R', H', q1, -, q2⟩ := C105_partial W same fuel c d hwf hr hk hn hs
  rw [h1] at q1
  simp only [Except.ok.injEq, Prod.mk.injEq] at q1
  obtain ⟨rfl, rfl⟩ := q1
  obtain ⟨M, hM⟩ := q2 doc h2
  have hj : Txt.jsonName name = file := by
    obtain ⟨-, j1, j2⟩ := Txt.C56_json name
    rcases hfile with ⟨rfl, h⟩ | ⟨rfl, h⟩
    · exact j1 h
    · exact j2 h
  refine ⟨max N M, fun n hn => ?_⟩
  obtain ⟨d', h3, h4⟩ := hM n (by omega)
  refine ⟨_, by simp only [saveToFile, hN n (by omega)]; rfl, ?_, d', ?_, h4⟩
  · intro p hp
    exact if_neg (by rw [hj]; exact hp)
  · simp only [fromJson]
    rw [if_pos hj.symm]
    exact h3

/-- **C140** is violated by the code: an object which holds a file object is serialized, but it is never saved: whatever the
files and the name, a TypeError is raised. -/
theorem C140_file_violated (n : Nat) (fs : Disk) (name : List Char) : 
    (∃ e, serialize emitWorld (mkA "u" (.file false "f" "t")) = .ok e) ∧
    (saveToFile emitWorld (emitSame emitWorld.toEnv demoHash) 5 n fs name "m.A" [(.str "name", .str "u"), (.str "x", .file false "f" "t")]).2 =
      .error .typeError := by
  refine ⟨⟨_, rfl⟩, ?_⟩
  have h : ∃ H, toDictP emitWorld (emitSame emitWorld.toEnv demoHash) 5 "m.A" [(.str "name", .str "u"), (.str "x", .file false "f" "t")] =
      .ok ([(.str "object_class", .atom (.str "m.A")), (.str "name", .atom (.str "u")), (.str "x", .atom (.file false "f" "t")),
        (.str "_references", .ptr 1)], H) := ⟨_, rfl⟩
  obtain ⟨H, h⟩ := h
  simp only [saveToFile, savedText, h]
  cases n <;> rfl

/-- The attributes of an object which holds a dictionary with an integer key.  Example only. -/
def fileKeys : List (Key × V) := [(.str "name", .str "u"), (.str "x", .dict [(.int 1, .int 2)])]

/-- The object which is read from a file after it was saved.  Example only. -/
def savedRead (n : Nat) (fs : Disk) (c : String) (d : List (Key × V)) : Except PyErr (Option V) :=
  fromJson emitWorld n (saveToFile emitWorld (emitSame emitWorld.toEnv demoHash) 5 n fs "o.json".toList c d).1 "o.json".toList

/-- **C140** is violated by the code: an object which holds a dictionary with an integer key is read back with a string as
the key, and is not equal to the object which was saved. -/
theorem C140_keys_violated (fs : Disk) : ∃ w,
    (saveToFile emitWorld (emitSame emitWorld.toEnv demoHash) 5 20 fs "o.json".toList "m.A" fileKeys).2 = .ok () ∧
    savedRead 20 fs "m.A" fileKeys = .ok (some w) ∧ dataEq emitWorld.toEnv (.obj "m.A" fileKeys) w = false :=
  ⟨.obj "m.A" [(.str "name", .str "u"), (.str "x", .dict [(.str "1", .int 2)])], by rfl, by rfl, by rfl⟩

/-- **C140** is violated by the code: a file saved under a name without `.json` cannot be read under the name which was
given, whatever the object. -/
theorem C140_name_violated (W : World) (same : V → V → Bool) (fuel n : Nat) (fs : Disk) (name : List Char) (c : String)
    (d : List (Key × V)) (h : ¬ ".json".toList <:+ name) (hfs : fs name = none) :
    fromJson W n (saveToFile W same fuel n fs name c d).1 name = .error .osError := by
  have hne : name ≠ Txt.jsonName name := by
    rw [(Txt.C56_json name).2.2 h]
    intro he
    have := congrArg List.length he
    simp at this
  simp only [fromJson, saveToFile]
  rw [if_neg hne, hfs]

/-- **C140** is violated by the code: an object saved in a stream is never read back from this stream, even rewound: a text
stream cannot be read by `from_json_stream`, and a binary stream cannot be written by `save_to_stream`. -/
theorem C140_stream_violated (W : World) (same : V → V → Bool) (fuel n : Nat) (s : Stream) (c : String) (d : List (Key × V)) :
    (∃ e, (saveToStream W same fuel n s c d).2 = .error e) ∨
      fromJsonStream W n (saveToStream W same fuel n s c d).1 = .error .attributeError ∧
      fromJsonStream W n (saveToStream W same fuel n s c d).1.rewind = .error .attributeError := by
  cases hb : s.binary with
  | true =>
    left
    simp only [saveToStream, hb]
    split
    · exact ⟨_, rfl⟩
    · exact ⟨_, rfl⟩
  | false =>
    right
    simp [saveToStream, hb, fromJsonStream, Stream.rewind]

/-- The hypotheses of `C140_partial` hold for an object with an object shared by an attribute, a list and a dictionary,
and an object of a standalone class. -/
example (fs : Disk) : ∃ N, ∀ n, N ≤ n → ∃ d',
    fromJson writtenWorld n (saveToFile writtenWorld (emitSame writtenWorld.toEnv demoHash) 5 n fs "o".toList "m.R" emitAttrs).1
      "o.json".toList = .ok (some (.obj "m.R" d')) ∧
    dataEq writtenWorld.toEnv (.obj "m.R" emitAttrs) (.obj "m.R" d') = true := by
  obtain ⟨h1, h2, h3, h4, h5⟩ := writtenAttrs_ok
  have hf : NoFile (.obj "m.R" emitAttrs) := by
    intro b n t h
    have := parts_of_occurs h
    simp [parts, partsL, partsD, emitAttrs, mkA] at this
  obtain ⟨N, hN⟩ := C140_partial writtenWorld _ 4 "m.R" emitAttrs h1 h2 h3 h4 h5 hf fs "o".toList "o.json".toList
    (.inr ⟨by decide, by decide⟩)
  refine ⟨N, fun n hn => ?_⟩
  obtain ⟨fs', q1, -, d', q2, -, q3, -⟩ := hN n hn
  refine ⟨d', ?_, q3⟩
  rw [q1]
  exact q2

/-- **C141** is violated by the code: when the saving of an object fails, the file is left unreadable, whatever it was
before. -/
theorem C141_violated (W : World) (same : V → V → Bool) (fuel n : Nat) (fs : Disk) (name : List Char) (c : String)
    (d : List (Key × V)) (e : PyErr) (h : (saveToFile W same fuel n fs name c d).2 = .error e) :
    fromJson W n (saveToFile W same fuel n fs name c d).1 (Txt.jsonName name) = .error .valueError := by
  simp only [saveToFile, savedText] at h
  simp only [fromJson, saveToFile, if_true, savedText]
  split at h
  · simp [loadText]
  · split at h
    · simp [loadText]
    · simp at h

/-- **C141.** The saving of an object, even if it fails, changes no other file than the one of the given name, to which
`.json` is added if it is missing.
Missing: this file is lost when the saving fails (`C141_violated`). -/
theorem C141_partial (W : World) (same : V → V → Bool) (fuel n : Nat) (fs : Disk) (name p : List Char) (c : String)
    (d : List (Key × V)) (h : p ≠ name ∨ ¬ ".json".toList <:+ name) (h' : p ≠ name ++ ".json".toList ∨ ".json".toList <:+ name) :
    (saveToFile W same fuel n fs name c d).1 p = fs p := by
  have : p ≠ Txt.jsonName name := by
    obtain ⟨-, j1, j2⟩ := Txt.C56_json name
    by_cases hj : ".json".toList <:+ name
    · rw [j1 hj]; exact h.resolve_right fun hn => hn hj
    · rw [j2 hj]; exact h'.resolve_right hj
  simp only [saveToFile]
  exact if_neg this

/-- A file which was readable is lost: an object is saved, then the object which replaces it cannot be serialized. -/
example : ∃ fs w, fromJson emitWorld 20 fs "o.json".toList = .ok (some w) ∧
    (saveToFile emitWorld (emitSame emitWorld.toEnv demoHash) 5 20 fs "o.json".toList "m.A" [(.str "name", .str "u"), (.str "x", .other 0)]).2 =
      .error .serializationError ∧
    fromJson emitWorld 20 (saveToFile emitWorld (emitSame emitWorld.toEnv demoHash) 5 20 fs "o.json".toList "m.A"
      [(.str "name", .str "u"), (.str "x", .other 0)]).1 "o.json".toList = .error .valueError :=
  ⟨(saveToFile emitWorld (emitSame emitWorld.toEnv demoHash) 5 20 (fun _ => none) "o.json".toList "m.A"
      [(.str "name", .str "u"), (.str "x", .int 1)]).1,
    .obj "m.A" [(.str "name", .str "u"), (.str "x", .int 1)], by rfl, by rfl, by rfl⟩

end DC
