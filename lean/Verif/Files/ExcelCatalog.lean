import Verif.Files.ExcelProps
/-
Catalogues of objects in Excel files.

Source: dessia_common/excel_reader.py 16-28, 171-201, 288-303, 372-420.
-/
set_option linter.unusedSectionVars false
namespace DC.Xl

/-! ### Model -/

/-- A sheet of a catalogue, as it is read: its title; its first row, which holds a module and the name of a class; its second row; the rows
from the third one on.  Used for excel_reader.py 383-385. -/
structure CatSheet where
  title : String
  mod : String
  cls : CVal
  header : List (Option String)
  rows : List (List CVal)
  deriving DecidableEq

/-- The number of columns (`max_column`): the first row has two of them.  Used for excel_reader.py 383-385. -/
def CatSheet.width (s : CatSheet) : Nat := (s.rows.map List.length).foldl max (max 2 s.header.length)

/-- The attributes of a sheet: excel_reader.py 383-385. -/
def CatSheet.attributes (s : CatSheet) : List (Option String) := pad s.width none s.header

/-- The rows of a sheet: excel_reader.py 392-398. -/
def CatSheet.data (s : CatSheet) : List (List Got) := s.rows.map fun r => (pad s.width .none r).map .cell

/-- `check_duplicate_attributes`: the first attribute which was seen before.  excel_reader.py 16-28. -/
def duplicate : List (Option String) → List (Option String) → Option (Option String)
  | [], _ => none
  | a :: l, seen => if a ∈ seen then some a else duplicate l (a :: seen)

/-- `if duplicate_attribute`: an attribute without name, or with an empty one, is not seen as a duplicate.  excel_reader.py 387-390. -/
def hasDuplicate (as : List (Option String)) : Bool :=
  match duplicate as [] with
  | some (some a) => a != ""
  | _ => false

/-- `object_data`: a dictionary.  excel_reader.py 181-190. -/
def dictOf (l : List (String × Val)) : List (String × Val) := l.foldl (fun d a => Dict.set d a.1 a.2) []

/-- `create_object`: excel_reader.py 192-201. -/
def catObject (E : Setting) (x : Extract) (r : List Got) : Except PyErr Val := do
  let d ← getData E (E.params x.cls) x.attributes r
  E.build x.cls (dictOf d)

/-- One sheet of `process_workbook_catalog`: excel_reader.py 380-401. -/
def catExtract (E : Setting) (s : CatSheet) : Except PyErr (String × Extract) := do
  if hasDuplicate s.attributes then .error .valueError
  else do
    let x ← extract E s.mod s.cls s.attributes s.data
    .ok (s.title, x)

/-- The loop of `read_catalog`, on the sheets from the last one on: excel_reader.py 414-420. -/
def catLoop (E : Setting) : List (String × Extract) → Inst → Except PyErr Inst
  | [], inst => .ok inst
  | (key, x) :: rest, inst => do
    let os ← x.data.mapM (catObject E x)
    catLoop E rest (Dict.set inst key os)

/-- `read_catalog`: excel_reader.py 404-420.  Titles are distinct. -/
def readCatalog (E : Setting) (b : List CatSheet) : Except PyErr Inst := do
  let xs ← b.mapM (catExtract E)
  catLoop E xs.reverse []

/-! ### Specification -/

/-- The value which is read in a cell: a text which is a literal is read as its value. (specification) -/
def CellValue (E : Setting) : CVal → Val → Prop
  | .none, v => v = .none
  | .num q, v => v = .float q
  | .text s, v => E.lit s = some v ∨ (E.lit s = none ∧ v = .str s)

/-- The named arguments for a row: those of the constructor which are in the header, with the values of the cells under them (none for cells
past the end of the row). (specification) -/
def Arguments (E : Setting) (c : Cls) (header : List (Option String)) (r : List CVal) (d : List (String × Val)) : Prop :=
  (d.map (·.1)).Nodup ∧ ∀ a v, (a, v) ∈ d ↔
    (∃ m, (a, m) ∈ E.params c) ∧ ∃ j : Nat, header[j]? = some (some a) ∧ CellValue E (r[j]?.getD .none) v

/-! ### Proofs -/

variable {E : Setting}

theorem evaluated_cell (c : CVal) : ∃ v, evaluated E (.cell c) = .ok v ∧ ∀ w, CellValue E c w ↔ w = v := by
  cases c with
  | none => exact ⟨.none, rfl, fun w => Iff.rfl⟩
  | num q => exact ⟨.float q, rfl, fun w => Iff.rfl⟩
  | text s =>
    cases h : E.lit s with
    | none => exact ⟨.str s, by simp only [evaluated, h], fun w => by simp [CellValue, h]⟩
    | some v => exact ⟨v, by simp only [evaluated, h], fun w => by simp [CellValue, h, eq_comm]⟩

theorem getData_cells (ps : List (String × Bool)) : ∀ (as : List (Option String)) (cs : List CVal), as.length = cs.length →
    ∃ d, getData E ps as (cs.map .cell) = .ok d ∧ (∀ a v, (a, v) ∈ d ↔ (∃ m, (a, m) ∈ ps) ∧ ∃ j : Nat, as[j]? = some (some a) ∧
      ∃ c, cs[j]? = some c ∧ CellValue E c v) ∧ (d.map (fun x => some x.1)).Sublist as
  | [], [], _ => ⟨[], rfl, by simp, by simp⟩
  | a :: as, c :: cs, h => by
    obtain ⟨d, h1, h2, h3⟩ := getData_cells ps as cs (by simpa using h)
    cases a with
    | none =>
      refine ⟨d, by simp only [List.map_cons, getData, h1], ?_, h3.cons _⟩
      intro a v
      rw [h2]
      refine and_congr_right fun _ => ⟨fun ⟨j, e, k⟩ => ⟨j + 1, by simpa using e, by simpa using k⟩, fun ⟨j, e, k⟩ => ?_⟩
      cases j with
      | zero => simp at e
      | succ j => exact ⟨j, by simpa using e, by simpa using k⟩
    | some b =>
      obtain ⟨w, hw, hw'⟩ := evaluated_cell (E := E) c
      by_cases hb : ps.any (·.1 == b)
      · refine ⟨(b, w) :: d, by simp only [List.map_cons, getData, hb, if_true, hw, h1, bind, Except.bind], ?_, by simpa using h3⟩
        intro a v
        rw [List.mem_cons, h2]
        constructor
        · rintro (e | ⟨hm, j, e, k⟩)
          · cases e
            obtain ⟨p, hp, hpe⟩ := List.any_eq_true.1 hb
            obtain ⟨p1, p2⟩ := p
            have : p1 = b := by simpa using hpe
            rw [this] at hp
            exact ⟨⟨p2, hp⟩, 0, rfl, c, rfl, (hw' _).2 rfl⟩
          · exact ⟨hm, j + 1, by simpa using e, by simpa using k⟩
        · rintro ⟨hm, j, e, k⟩
          cases j with
          | zero =>
            simp only [List.getElem?_cons_zero, Option.some.injEq] at e k
            obtain ⟨c', rfl, hc⟩ := k
            left
            rw [e, (hw' _).1 hc]
          | succ j => exact .inr ⟨hm, j, by simpa using e, by simpa using k⟩
      · refine ⟨d, by simp only [List.map_cons, getData, hb, Bool.false_eq_true, if_false, h1], ?_, h3.cons _⟩
        intro a v
        rw [h2]
        refine and_congr_right fun hm => ⟨fun ⟨j, e, k⟩ => ⟨j + 1, by simpa using e, by simpa using k⟩, fun ⟨j, e, k⟩ => ?_⟩
        cases j with
        | zero =>
          simp only [List.getElem?_cons_zero, Option.some.injEq] at e
          obtain ⟨m, hm⟩ := hm
          exact absurd (List.any_eq_true.2 ⟨_, hm, by simp [e]⟩) hb
        | succ j => exact ⟨j, by simpa using e, by simpa using k⟩

theorem duplicate_none : ∀ (as seen : List (Option String)), duplicate as seen = none ↔ as.Nodup ∧ ∀ a ∈ as, a ∉ seen
  | [], seen => by simp [duplicate]
  | a :: as, seen => by
    unfold duplicate
    by_cases h : a ∈ seen
    · simp [h]
    · rw [if_neg h, duplicate_none as (a :: seen), List.nodup_cons]
      constructor
      · rintro ⟨h1, h2⟩
        refine ⟨⟨fun ha => (h2 a ha) (by simp), h1⟩, ?_⟩
        intro b hb
        rcases List.mem_cons.1 hb with rfl | hb
        · exact h
        · exact fun hs => h2 b hb (by simp [hs])
      · rintro ⟨⟨h1, h2⟩, h3⟩
        refine ⟨h2, fun b hb => ?_⟩
        rw [List.mem_cons, not_or]
        exact ⟨fun e => h1 (e ▸ hb), h3 b (by simp [hb])⟩

theorem foldl_set_new : ∀ (l d : List (String × Val)), (l.map (·.1)).Nodup → (∀ k ∈ l.map (·.1), k ∉ d.map (·.1)) →
    l.foldl (fun d a => Dict.set d a.1 a.2) d = d ++ l
  | [], d, _, _ => by simp
  | a :: l, d, hn, hd => by
    rw [List.map_cons, List.nodup_cons] at hn
    have : Dict.set d a.1 a.2 = d ++ [a] := by
      have := hd a.1 (by simp)
      clear hd
      induction d with
      | nil => rfl
      | cons e d ih =>
        obtain ⟨k, v⟩ := e
        simp only [List.map_cons, List.mem_cons, not_or] at this
        have hne : ¬ k = a.1 := fun e => this.1 e.symm
        simp only [Dict.set, if_neg hne, ih this.2, List.cons_append]
    simp only [List.foldl_cons, this]
    rw [foldl_set_new l _ hn.2]
    · simp
    · intro k hk
      rw [List.map_append, List.mem_append, not_or]
      refine ⟨hd k (by simp at hk ⊢; exact .inr hk), ?_⟩
      simp only [List.map_cons, List.map_nil, List.mem_singleton]
      rintro rfl
      exact hn.1 hk

theorem mapM_forall₂ {β γ : Type} {f : β → Except PyErr γ} : ∀ {l : List β} {m : List γ}, l.mapM f = .ok m →
    List.Forall₂ (fun x y => f x = .ok y) l m
  | [], m, h => by simp [pure, Except.pure] at h; subst h; exact .nil
  | x :: l, m, h => by
    simp only [List.mapM_cons, bind, Except.bind, pure, Except.pure] at h
    cases hx : f x with
    | error e => simp [hx] at h
    | ok y =>
      cases hl : l.mapM f with
      | error e => simp [hx, hl] at h
      | ok ys =>
        simp only [hx, hl, Except.ok.injEq] at h
        subst h
        exact .cons hx (mapM_forall₂ hl)

theorem catLoop_get : ∀ (xs : List (String × Extract)) (inst d : Inst), (xs.map (·.1)).Nodup → catLoop E xs inst = .ok d →
    (∀ x ∈ xs, ∃ os, x.2.data.mapM (catObject E x.2) = .ok os ∧ Inst.get d x.1 = .ok os) ∧
      ∀ k, k ∉ xs.map (·.1) → Inst.get d k = Inst.get inst k
  | [], inst, d, _, h => by
    simp only [catLoop, Except.ok.injEq] at h
    subst h
    simp
  | (key, x) :: xs, inst, d, hn, h => by
    rw [List.map_cons, List.nodup_cons] at hn
    simp only [catLoop, bind, Except.bind] at h
    cases ho : x.data.mapM (catObject E x) with
    | error e => simp [ho] at h
    | ok os =>
      simp only [ho] at h
      obtain ⟨h1, h2⟩ := catLoop_get xs _ d hn.2 h
      refine ⟨?_, ?_⟩
      · intro y hy
        rcases List.mem_cons.1 hy with rfl | hy
        · exact ⟨os, ho, by rw [h2 key hn.1, get_set, if_pos rfl]⟩
        · exact h1 y hy
      · intro k hk
        simp only [List.map_cons, List.mem_cons, not_or] at hk
        rw [h2 k hk.2, get_set, if_neg hk.1]

theorem forall₂_getElem {β γ : Type} {r : β → γ → Prop} {l : List β} {m : List γ} (h : List.Forall₂ r l m) {i : Nat} {x : β}
    (hx : l[i]? = some x) : ∃ y, m[i]? = some y ∧ r x y := by
  induction h generalizing i with
  | nil => simp at hx
  | cons h _ ih =>
    cases i with
    | zero => simp only [List.getElem?_cons_zero, Option.some.injEq] at hx ⊢; subst hx; exact ⟨_, rfl, h⟩
    | succ i => simpa using ih (by simpa using hx)

theorem foldl_max_le {l : List Nat} {n : Nat} : n ≤ l.foldl max n ∧ ∀ x ∈ l, x ≤ l.foldl max n := by
  induction l generalizing n with
  | nil => simp
  | cons y l ih =>
    simp only [List.foldl_cons, List.mem_cons, forall_eq_or_imp]
    have := ih (n := max n y)
    exact ⟨by omega, by omega, this.2⟩

/-! ### C126 -/

/-- C126: when a catalogue is read, each of its sheets gives one object for each of its rows, in their order: what the class of the sheet makes
of the arguments which are under the names of the header.  This is said of headers where no name occurs twice. -/
theorem C126_rows {b : List CatSheet} {d : Inst} (ht : (b.map (·.title)).Nodup) (hd : readCatalog E b = .ok d) {s : CatSheet} (hs : s ∈ b)
    (hn : (s.header.filterMap id).Nodup) :
    ∃ c n os, s.cls = .text n ∧ E.load s.mod n = .ok c ∧ Inst.get d s.title = .ok os ∧ os.length = s.rows.length ∧
      ∀ (i : Nat) (r : List CVal), s.rows[i]? = some r → ∃ o a, os[i]? = some o ∧ Arguments E c s.header r a ∧ E.build c a = .ok o := by
  simp only [readCatalog, bind, Except.bind] at hd
  cases hx : b.mapM (catExtract E) with
  | error e => simp [hx] at hd
  | ok xs =>
    simp only [hx] at hd
    have hf := mapM_forall₂ hx
    have hkeys : xs.map (·.1) = b.map (·.title) := by
      clear hd hx ht hs
      induction hf with
      | nil => rfl
      | @cons s x b xs h _ ih =>
        simp only [List.map_cons, ih]
        congr 1
        simp only [catExtract, bind, Except.bind] at h
        split at h
        · cases h
        · split at h
          · cases h
          · cases h; rfl
    obtain ⟨h1, -⟩ := catLoop_get xs.reverse [] d (by rw [List.map_reverse, hkeys]; exact ((List.reverse_perm _).nodup_iff).2 ht) hd
    obtain ⟨i, hi⟩ := List.getElem?_of_mem hs
    obtain ⟨x, hxi, hex⟩ := forall₂_getElem hf hi
    obtain ⟨os, ho, hg⟩ := h1 x (List.mem_reverse.2 (List.mem_of_getElem? hxi))
    simp only [catExtract, bind, Except.bind] at hex
    split at hex
    · cases hex
    · split at hex
      · cases hex
      · rename_i hdup _ y hy
        cases hex
        simp only [extract, bind, Except.bind] at hy
        cases hc : s.cls with
        | none => simp [hc, CVal.str] at hy
        | num q => simp [hc, CVal.str] at hy
        | text n =>
          simp only [hc, CVal.str] at hy
          cases hl : E.load s.mod n with
          | error e => simp [hl] at hy
          | ok c =>
            simp only [hl] at hy
            cases hms : missed (E.params c) s.attributes with
            | error e => simp [hms] at hy
            | ok u =>
              simp only [hms, Except.ok.injEq] at hy
              subst hy
              refine ⟨c, n, os, rfl, hl, hg, ?_, ?_⟩
              · have := (mapM_forall₂ ho).length_eq
                simpa [CatSheet.data] using this.symm
              · intro j r hr
                have hwid := foldl_max_le (l := s.rows.map List.length) (n := max 2 s.header.length)
                have hrl : r.length ≤ s.width := hwid.2 _ (List.mem_map_of_mem (List.mem_of_getElem? hr))
                have hhl : s.header.length ≤ s.width := by
                  have := hwid.1
                  unfold CatSheet.width
                  omega
                obtain ⟨o, ho1, ho2⟩ := forall₂_getElem (mapM_forall₂ ho) (i := j)
                  (x := (pad s.width .none r).map .cell) (by simp [CatSheet.data, hr])
                obtain ⟨dd, e1, e2, e3⟩ := getData_cells (E := E) (E.params c) s.attributes (pad s.width .none r) (by
                  simp only [CatSheet.attributes, pad, List.length_append, List.length_replicate]
                  omega)
                have hnd : (dd.map (·.1)).Nodup := by
                  have hsub := e3.filterMap (f := id)
                  have e4 : (dd.map fun x => some x.1).filterMap id = dd.map (·.1) := by
                    rw [List.filterMap_map]
                    simp
                  have e5 : s.attributes.filterMap id = s.header.filterMap id := by
                    simp only [CatSheet.attributes, pad, List.filterMap_append]
                    have e6 : (List.replicate (s.width - s.header.length) (none : Option String)).filterMap id = [] := by
                      rw [List.filterMap_eq_nil_iff]
                      intro a ha
                      rw [List.mem_replicate] at ha
                      rw [ha.2]; rfl
                    rw [e6, List.append_nil]
                  rw [e4, e5] at hsub
                  exact hn.sublist hsub
                simp only [catObject, e1, bind, Except.bind] at ho2
                have hdd : dictOf dd = dd := by
                  have := foldl_set_new dd [] hnd (by simp)
                  simpa [dictOf] using this
                rw [hdd] at ho2
                refine ⟨o, dd, ho1, ⟨hnd, ?_⟩, ho2⟩
                intro a v
                rw [e2]
                refine and_congr_right fun _ => ?_
                constructor
                · rintro ⟨k, k1, cv, k2, k3⟩
                  refine ⟨k, ?_, ?_⟩
                  · simp only [CatSheet.attributes, pad] at k1
                    rw [List.getElem?_append] at k1
                    split at k1
                    · exact k1
                    · rw [List.getElem?_replicate] at k1
                      split at k1 <;> simp at k1
                  · simp only [pad] at k2
                    rw [List.getElem?_append] at k2
                    split at k2
                    · rw [k2]; exact k3
                    · rename_i hk
                      rw [List.getElem?_replicate] at k2
                      split at k2
                      · simp only [Option.some.injEq] at k2
                        subst k2
                        rw [List.getElem?_eq_none (by omega)]
                        exact k3
                      · cases k2
                · rintro ⟨k, k1, k3⟩
                  have hk := (List.getElem?_eq_some_iff.1 k1).1
                  refine ⟨k, ?_, r[k]?.getD .none, ?_, k3⟩
                  · simp only [CatSheet.attributes, pad]
                    rw [List.getElem?_append_left hk]
                    exact k1
                  · simp only [pad]
                    rw [List.getElem?_append]
                    split
                    · rename_i hkr
                      rw [List.getElem?_eq_getElem hkr]
                      rfl
                    · rename_i hkr
                      rw [List.getElem?_replicate, if_pos (by omega), List.getElem?_eq_none (by omega)]
                      rfl

/-- C126: a header with no empty column, in which a name occurs twice, is refused.
Missing: headers with empty columns (`C126_duplicates_violated`). -/
theorem C126_duplicates_partial {b : List CatSheet} {s : CatSheet} (hs : s ∈ b) (hh : ∀ a ∈ s.attributes, a ≠ none ∧ a ≠ some "")
    (hd : ¬ s.header.Nodup) : ∃ e, readCatalog E b = .error e := by
  cases h : readCatalog E b with
  | error e => exact ⟨e, rfl⟩
  | ok d =>
    exfalso
    simp only [readCatalog, bind, Except.bind] at h
    cases hx : b.mapM (catExtract E) with
    | error e => simp [hx] at h
    | ok xs =>
      obtain ⟨i, hi⟩ := List.getElem?_of_mem hs
      obtain ⟨x, -, hex⟩ := forall₂_getElem (mapM_forall₂ hx) hi
      simp only [catExtract, bind, Except.bind] at hex
      split at hex
      · cases hex
      · rename_i hdup
        apply hdup
        unfold hasDuplicate
        cases hc : duplicate s.attributes [] with
        | none =>
          refine absurd ?_ hd
          have := ((duplicate_none _ _).1 hc).1
          exact this.sublist (by simp only [CatSheet.attributes, pad]; exact List.sublist_append_left _ _)
        | some a =>
          have hm : ∀ (as seen : List (Option String)), duplicate as seen = some a → a ∈ as := by
            intro as
            induction as with
            | nil => intro seen h; simp [duplicate] at h
            | cons y as ih =>
              intro seen h
              unfold duplicate at h
              split at h
              · cases h; simp
              · exact List.mem_cons_of_mem _ (ih _ h)
          have := hh a (hm _ _ hc)
          cases a with
          | none => exact absurd rfl this.1
          | some a =>
            simp only [bne_iff_ne]
            intro e
            exact this.2 (by rw [e])

/-- C126: a first sheet whose header, with no empty column, holds a name twice is a ValueError. -/
theorem C126_refused {b : List CatSheet} {s : CatSheet} (hh : ∀ a ∈ s.attributes, a ≠ none ∧ a ≠ some "") (hd : ¬ s.header.Nodup) :
    readCatalog E (s :: b) = .error .valueError := by
  have h : hasDuplicate s.attributes = true := by
    unfold hasDuplicate
    cases hc : duplicate s.attributes [] with
    | none =>
      refine absurd ?_ hd
      have := ((duplicate_none _ _).1 hc).1
      exact this.sublist (by simp only [CatSheet.attributes, pad]; exact List.sublist_append_left _ _)
    | some a =>
      have hm : ∀ (as seen : List (Option String)), duplicate as seen = some a → a ∈ as := by
        intro as
        induction as with
        | nil => intro seen h; simp [duplicate] at h
        | cons y as ih =>
          intro seen h
          unfold duplicate at h
          split at h
          · cases h; simp
          · exact List.mem_cons_of_mem _ (ih _ h)
      have := hh a (hm _ _ hc)
      cases a with
      | none => exact absurd rfl this.1
      | some a =>
        simp only [bne_iff_ne]
        intro e
        exact this.2 (by rw [e])
  simp only [readCatalog, List.mapM_cons, catExtract, h, if_true]
  rfl

/-- A catalogue of two wheels. (example) -/
def wheels : CatSheet := ⟨"Wheels", "shop", .text "Wheel", [some "name", some "radius"], [[.text "front", .text "3"], [.text "rear", .num 5]]⟩

example : readCatalog shop [wheels] = .ok [("Wheels", [wheel "front" (.int 3), wheel "rear" (.float 5)])] ∧
    (wheels.header.filterMap id).Nodup := ⟨by decide +kernel, by decide⟩

example : (∀ a ∈ CatSheet.attributes { wheels with header := [some "name", some "radius", some "radius"] }, a ≠ none ∧ a ≠ some "") := by decide

/-- Two columns without name hide two columns of one name: the header is accepted, and the last column is taken. -/
theorem C126_duplicates_violated :
    readCatalog shop [⟨"Wheels", "shop", .text "Wheel", [none, none, some "radius", some "radius"], [[.none, .none, .num 1, .num 2]]⟩] =
      .ok [("Wheels", [wheel "" (.float 2)])] := by decide +kernel

end DC.Xl
