import Verif.Workflow.BlockDocs
import Verif.Schemas.DocstringProps
/-
Property C173: the descriptions of the inputs of workflows.
-/
namespace DC.Wkf
open Sch

/-! ### Specification -/

/-- A docstring is missing, or is well written: it documents `ps`, which are annotated parameters. -/
inductive WellDoc (ann : List Char → Except PyErr (List Char)) : Option (List Char) → List DocParam → Prop where
  | missing : WellDoc ann none []
  | written {d : List Char} {ps : List DocParam} {e : Option (List Char)} (hd : ¬ Occurs paramWord d)
      (hr : ¬ Occurs returnWord (d ++ writtenParams ps)) (hc : ∀ p ∈ ps, p.Clean) (ha : ∀ p ∈ ps, ∃ t, ann p.name = .ok t) :
      WellDoc ann (some (d ++ writtenParams ps ++ writtenEnd e)) ps

/-- What the documentation of a block says of its input: what the docstring of the class or of the method says of the parameter, and for the block of a
workflow, what is said of the input of this workflow at the same place, by the block which has it.  Nothing is said otherwise. -/
inductive Said : DocBlock → DocVar → List Char → Prop where
  | plain {i : List DocVar} {v : DocVar} : v ∈ i → Said (.plain i) v []
  | told {ann : List Char → Except PyErr (List Char)} {doc : Option (List Char)} {ps : List DocParam} {i : List DocVar} {v : DocVar} {t s : List Char} :
      WellDoc ann doc ps → v ∈ i → lastText v.name ps = some t → Trimmed t s → Said (.call (.ok ann) doc i) v s
  | untold {ann : List Char → Except PyErr (List Char)} {doc : Option (List Char)} {ps : List DocParam} {i : List DocVar} {v : DocVar} :
      WellDoc ann doc ps → v ∈ i → lastText v.name ps = none → Said (.call (.ok ann) doc i) v []
  | sub {i ws : List DocVar} {bs : List DocBlock} {k : Nat} {v w : DocVar} {c : DocBlock} {s : List Char} : i[k]? = some v → ws[k]? = some w →
      c ∈ bs → Said c w s → Said (.sub i bs ws) v s
  | forEach {i ws : List DocVar} {bs : List DocBlock} {k : Nat} {v w : DocVar} {c : DocBlock} {s : List Char} : i[k]? = some v → ws[k]? = some w →
      c ∈ bs → Said c w s → Said (.forEach i bs ws) v s

mutual
/-- The inputs of a block, and those of the blocks in it. -/
def DocBlock.within : DocBlock → List Nat
  | .plain i => i.map DocVar.id
  | .call _ _ i => i.map DocVar.id
  | .sub i bs _ => i.map DocVar.id ++ withinAll bs
  | .forEach i bs _ => i.map DocVar.id ++ withinAll bs
@[inherit_doc DocBlock.within] def withinAll : List DocBlock → List Nat
  | [] => []
  | b :: bs => b.within ++ withinAll bs
end

/-- The block is that of a workflow, run once. -/
def DocBlock.isSub : DocBlock → Prop
  | .sub _ _ _ => True
  | _ => False

/-- A block whose documentation can be read: the docstrings are well written, the blocks of workflows have as many inputs as their workflow,
and a workflow run for each element of a list has only inputs of its blocks, which are not blocks of workflows run once. -/
inductive Readable : DocBlock → Prop where
  | plain {i : List DocVar} : Readable (.plain i)
  | call {ann : List Char → Except PyErr (List Char)} {doc : Option (List Char)} {ps : List DocParam} {i : List DocVar} :
      WellDoc ann doc ps → Readable (.call (.ok ann) doc i)
  | sub {i ws : List DocVar} {bs : List DocBlock} : (∀ c ∈ bs, Readable c) → Readable (.sub i bs ws)
  | forEach {i ws : List DocVar} {bs : List DocBlock} : (∀ c ∈ bs, Readable c) → i.length = ws.length →
      (∀ w ∈ ws, ∃ c ∈ bs, ¬ c.isSub ∧ w ∈ c.inputs) → Readable (.forEach i bs ws)

/-! ### Lemmas -/

theorem inputs_within (b : DocBlock) {v : DocVar} (h : v ∈ b.inputs) : v.id ∈ b.within := by
  have := List.mem_map_of_mem (f := DocVar.id) h
  cases b <;> simp only [DocBlock.inputs, DocBlock.within, List.mem_append] at this ⊢ <;> first | exact this | exact .inl this

theorem within_mem {c : DocBlock} {n : Nat} : ∀ {bs : List DocBlock}, c ∈ bs → n ∈ c.within → n ∈ withinAll bs
  | b :: bs, h, hn => by
    rw [withinAll, List.mem_append]
    rcases List.mem_cons.1 h with rfl | h
    · exact .inl hn
    · exact .inr (within_mem h hn)

theorem within_nodup {c : DocBlock} : ∀ {bs : List DocBlock}, c ∈ bs → (withinAll bs).Nodup → c.within.Nodup
  | b :: bs, h, hn => by
    rw [withinAll, List.nodup_append] at hn
    rcases List.mem_cons.1 h with rfl | h
    · exact hn.1
    · exact within_nodup h hn.2.1

theorem lookup_callDocs {p : ParsedDoc} {v : DocVar} : ∀ {i : List DocVar}, (i.map DocVar.id).Nodup → v ∈ i →
    (callDocs p i).lookup v.id = some (inputAttr p v)
  | u :: us, hn, h => by
    rw [List.map_cons, List.nodup_cons] at hn
    rw [callDocs, List.lookup_cons]
    rcases List.mem_cons.1 h with rfl | h
    · simp
    · have : (v.id == u.id) = false := by
        rw [beq_eq_false_iff_ne]
        rintro e
        exact hn.1 (e ▸ List.mem_map_of_mem h)
      rw [this]
      exact lookup_callDocs hn.2 h

theorem lookup_emptyDocs {v : DocVar} : ∀ {i : List DocVar}, v ∈ i → (emptyDocs i).lookup v.id = some noDoc
  | u :: us, h => by
    rw [emptyDocs, List.lookup_cons]
    cases hb : v.id == u.id with
    | true => rfl
    | false =>
      rcases List.mem_cons.1 h with rfl | h
      · simp at hb
      · exact lookup_emptyDocs h

theorem keys_callDocs (p : ParsedDoc) (n : Nat) : ∀ {i : List DocVar}, n ∉ i.map DocVar.id → (callDocs p i).lookup n = none
  | [], _ => rfl
  | u :: us, h => by
    rw [List.map_cons, List.mem_cons, not_or] at h
    rw [callDocs, List.lookup_cons, beq_eq_false_iff_ne.2 h.1]
    exact keys_callDocs p n h.2

theorem keys_emptyDocs (n : Nat) : ∀ {i : List DocVar}, n ∉ i.map DocVar.id → (emptyDocs i).lookup n = none
  | [], _ => rfl
  | u :: us, h => by
    rw [List.map_cons, List.mem_cons, not_or] at h
    rw [emptyDocs, List.lookup_cons, beq_eq_false_iff_ne.2 h.1]
    exact keys_emptyDocs n h.2

/-- What is kept of the documentation of one block. -/
theorem lookup_copyDocs (d : List (Nat × ParsedAttr)) (n : Nat) : ∀ (ws : List DocVar) (r : List (Nat × ParsedAttr)),
    (copyDocs d ws r).lookup n = if n ∈ ws.map DocVar.id ∧ (d.lookup n).isSome then d.lookup n else r.lookup n
  | [], r => by simp [copyDocs]
  | w :: ws, r => by
    rw [copyDocs]
    cases hw : d.lookup w.id with
    | none =>
      dsimp only
      rw [lookup_copyDocs d n ws r]
      by_cases e : n = w.id
      · subst e
        simp [hw]
      · simp only [List.map_cons, List.mem_cons, e, false_or]
    | some a =>
      dsimp only
      rw [lookup_copyDocs d n ws, Dict.lookup_set]
      by_cases e : n = w.id
      · subst e
        simp [hw]
      · simp only [List.map_cons, List.mem_cons, e, false_or, if_false]

/-- What is kept of the documentations of blocks: that of the last block which has one. -/
theorem lookup_gatherDocs (ws : List DocVar) (n : Nat) : ∀ (ds : List (List (Nat × ParsedAttr))) (r : List (Nat × ParsedAttr)),
    (n ∉ ws.map DocVar.id → (gatherDocs ws ds r).lookup n = r.lookup n) ∧
    ((∀ d ∈ ds, d.lookup n = none) → (gatherDocs ws ds r).lookup n = r.lookup n) ∧
    ∀ a, n ∈ ws.map DocVar.id → (∃ d ∈ ds, d.lookup n = some a) → (∀ d ∈ ds, d.lookup n = none ∨ d.lookup n = some a) →
      (gatherDocs ws ds r).lookup n = some a
  | [], r => ⟨fun _ => rfl, fun _ => rfl, fun a _ h => by simp at h⟩
  | d :: ds, r => by
    obtain ⟨i1, i2, i3⟩ := lookup_gatherDocs ws n ds (copyDocs d ws r)
    refine ⟨fun h => ?_, fun h => ?_, fun a hn he hall => ?_⟩
    · rw [gatherDocs, i1 h, lookup_copyDocs, if_neg (fun e => h e.1)]
    · rw [gatherDocs, i2 (fun x hx => h x (by simp [hx])), lookup_copyDocs, if_neg]
      rw [h d (by simp)]
      simp
    · rw [gatherDocs]
      by_cases hd : ∃ x ∈ ds, x.lookup n = some a
      · exact i3 a hn hd fun x hx => hall x (by simp [hx])
      · rw [i2]
        · rw [lookup_copyDocs]
          obtain ⟨x, hx, hxa⟩ := he
          rcases List.mem_cons.1 hx with rfl | hx
          · rw [hxa]
            simp [hn]
          · exact absurd ⟨x, hx, hxa⟩ hd
        · intro x hx
          rcases hall x (by simp [hx]) with h | h
          · exact h
          · exact absurd ⟨x, hx, h⟩ hd

/-- `ForEach` reads the documentation of the input at the same place. -/
theorem zipDocs_ok (d : List (Nat × ParsedAttr)) : ∀ (vs ws : List DocVar) (r : List (Nat × ParsedAttr)), (∀ w ∈ ws, (d.lookup w.id).isSome) →
    ∃ D, zipDocs d vs ws r = .ok D ∧ (∀ n, n ∉ vs.map DocVar.id → D.lookup n = r.lookup n) ∧
      ((vs.map DocVar.id).Nodup → ∀ (k : Nat) (v w : DocVar), vs[k]? = some v → ws[k]? = some w → D.lookup v.id = d.lookup w.id)
  | [], ws, r, _ => ⟨r, by cases ws <;> rfl, fun _ _ => rfl, fun _ k v w h => by simp at h⟩
  | v :: vs, [], r, _ => ⟨r, rfl, fun _ _ => rfl, fun _ k v w _ h => by simp at h⟩
  | v :: vs, w :: ws, r, h => by
    obtain ⟨a, ha⟩ := Option.isSome_iff_exists.1 (h w (by simp))
    obtain ⟨D, hD, h1, h2⟩ := zipDocs_ok d vs ws (Dict.set r v.id a) fun x hx => h x (by simp [hx])
    refine ⟨D, by rw [zipDocs, ha]; exact hD, fun n hn => ?_, fun hnd k x y hx hy => ?_⟩
    · rw [List.map_cons, List.mem_cons, not_or] at hn
      rw [h1 n hn.2, Dict.lookup_set, if_neg hn.1]
    · rw [List.map_cons, List.nodup_cons] at hnd
      cases k with
      | zero =>
        simp only [List.getElem?_cons_zero, Option.some.injEq] at hx hy
        subst hx hy
        rw [h1 _ hnd.1, Dict.lookup_set, if_pos rfl, ha]
      | succ k => exact h2 hnd.2 k x y (by simpa using hx) (by simpa using hy)

theorem wellDoc_parse {ann : List Char → Except PyErr (List Char)} {doc : Option (List Char)} {ps : List DocParam} (h : WellDoc ann doc ps) :
    ∃ p, parseDocstring ann doc = .ok p ∧ ∀ name, describe p name = match lastText name ps with | some t => trim t | none => [] := by
  cases h with
  | missing => exact ⟨⟨[], []⟩, rfl, fun name => rfl⟩
  | written hd hr hc ha =>
    obtain ⟨D, hD, -, h2⟩ := parseDocstring_written hd hr hc ha
    exact ⟨D, hD, h2⟩

theorem inputAttr_desc (p : ParsedDoc) (v : DocVar) : (inputAttr p v).desc = describe p v.name := by
  unfold inputAttr describe
  cases p.attributes.lookup v.name <;> rfl

/-- The documentations of blocks are those of each one. -/
theorem blockDocs_ok : ∀ {bs : List DocBlock} {ds : List (List (Nat × ParsedAttr))}, blockDocs bs = .ok ds →
    (∀ c ∈ bs, ∃ d ∈ ds, blockDoc c = .ok d) ∧ ∀ d ∈ ds, ∃ c ∈ bs, blockDoc c = .ok d
  | [], ds, h => by
    rw [blockDocs] at h
    cases h
    simp
  | b :: bs, ds, h => by
    rw [blockDocs] at h
    cases hb : blockDoc b with
    | error e => rw [hb] at h; simp at h
    | ok d =>
      cases hs : blockDocs bs with
      | error e => rw [hb, hs] at h; simp at h
      | ok es =>
        rw [hb, hs] at h
        cases h
        obtain ⟨h1, h2⟩ := blockDocs_ok hs
        refine ⟨fun c hc => ?_, fun x hx => ?_⟩
        · rcases List.mem_cons.1 hc with rfl | hc
          · exact ⟨d, by simp, hb⟩
          · obtain ⟨x, hx, he⟩ := h1 c hc
            exact ⟨x, by simp [hx], he⟩
        · rcases List.mem_cons.1 hx with rfl | hx
          · exact ⟨b, by simp, hb⟩
          · obtain ⟨c, hc, he⟩ := h2 x hx
            exact ⟨c, by simp [hc], he⟩

theorem blockDocs_all : ∀ {bs : List DocBlock}, (∀ c ∈ bs, ∃ d, blockDoc c = .ok d) → ∃ ds, blockDocs bs = .ok ds
  | [], _ => ⟨[], rfl⟩
  | b :: bs, h => by
    obtain ⟨d, hd⟩ := h b (by simp)
    obtain ⟨ds, hds⟩ := blockDocs_all (bs := bs) fun c hc => h c (by simp [hc])
    exact ⟨d :: ds, by rw [blockDocs, hd, hds]⟩

theorem zipDocs_keys {d : List (Nat × ParsedAttr)} {n : Nat} : ∀ {vs ws : List DocVar} {r D : List (Nat × ParsedAttr)},
    zipDocs d vs ws r = .ok D → n ∉ vs.map DocVar.id → D.lookup n = r.lookup n
  | [], ws, r, D, h, _ => by cases ws <;> (cases h; rfl)
  | v :: vs, [], r, D, h, _ => by cases h; rfl
  | v :: vs, w :: ws, r, D, h, hn => by
    rw [zipDocs] at h
    rw [List.map_cons, List.mem_cons, not_or] at hn
    cases hw : d.lookup w.id with
    | none => rw [hw] at h; simp at h
    | some a =>
      rw [hw] at h
      rw [zipDocs_keys h hn.2, Dict.lookup_set, if_neg hn.1]

mutual
/-- A block documents only its inputs, and inputs of the blocks in it. -/
theorem doc_within : ∀ (b : DocBlock) {d : List (Nat × ParsedAttr)} {n : Nat}, blockDoc b = .ok d → n ∉ b.within → d.lookup n = none
  | .plain i, d, n, h, hn => by
    rw [blockDoc] at h
    cases h
    exact keys_emptyDocs n hn
  | .call (.error e) doc i, d, n, h, hn => by rw [blockDoc] at h; cases h
  | .call (.ok ann) doc i, d, n, h, hn => by
    rw [blockDoc] at h
    cases hp : parseDocstring ann doc with
    | error e => rw [hp] at h; cases h
    | ok p =>
      rw [hp] at h
      cases h
      exact keys_callDocs p n hn
  | .sub i bs ws, d, n, h, hn => by
    rw [blockDoc] at h
    rw [DocBlock.within, List.mem_append, not_or] at hn
    cases hs : blockDocs bs with
    | error e => rw [hs] at h; cases h
    | ok ds =>
      rw [hs] at h
      cases h
      exact (lookup_gatherDocs ws n ds []).2.1 (docs_within bs hs hn.2)
  | .forEach i bs ws, d, n, h, hn => by
    rw [blockDoc] at h
    rw [DocBlock.within, List.mem_append, not_or] at hn
    cases hs : blockDocs bs with
    | error e => rw [hs] at h; cases h
    | ok ds =>
      rw [hs] at h
      exact zipDocs_keys h hn.1
theorem docs_within : ∀ (bs : List DocBlock) {ds : List (List (Nat × ParsedAttr))} {n : Nat}, blockDocs bs = .ok ds → n ∉ withinAll bs →
    ∀ d ∈ ds, d.lookup n = none
  | [], ds, n, h, hn => by rw [blockDocs] at h; cases h; simp
  | b :: bs, ds, n, h, hn => by
    rw [withinAll, List.mem_append, not_or] at hn
    rw [blockDocs] at h
    cases hb : blockDoc b with
    | error e => rw [hb] at h; cases h
    | ok d =>
      cases hs : blockDocs bs with
      | error e => rw [hb, hs] at h; cases h
      | ok es =>
        rw [hb, hs] at h
        cases h
        intro x hx
        rcases List.mem_cons.1 hx with rfl | hx
        · exact doc_within b hb hn.1
        · exact docs_within bs hs hn.2 x hx
end

/-- Of the documentations of distinct blocks, only that of the block of the input has it. -/
theorem docs_unique {n : Nat} {a : ParsedAttr} : ∀ {bs : List DocBlock} {ds : List (List (Nat × ParsedAttr))} {c : DocBlock} {d : List (Nat × ParsedAttr)},
    (withinAll bs).Nodup → blockDocs bs = .ok ds → c ∈ bs → n ∈ c.within → blockDoc c = .ok d → d.lookup n = some a →
    (∃ x ∈ ds, x.lookup n = some a) ∧ ∀ x ∈ ds, x.lookup n = none ∨ x.lookup n = some a
  | b :: bs, ds, c, d, hnd, h, hc, hn, hd, ha => by
    rw [withinAll, List.nodup_append] at hnd
    rw [blockDocs] at h
    cases hb : blockDoc b with
    | error e => rw [hb] at h; cases h
    | ok e =>
      cases hs : blockDocs bs with
      | error e => rw [hb, hs] at h; cases h
      | ok es =>
        rw [hb, hs] at h
        cases h
        rcases List.mem_cons.1 hc with rfl | hc
        · rw [hd] at hb
          cases hb
          refine ⟨⟨d, by simp, ha⟩, fun x hx => ?_⟩
          rcases List.mem_cons.1 hx with rfl | hx
          · exact .inr ha
          · exact .inl (docs_within bs hs (fun e => hnd.2.2 n hn n e rfl) x hx)
        · obtain ⟨⟨x, hx, hxa⟩, h2⟩ := docs_unique hnd.2.1 hs hc hn hd ha
          refine ⟨⟨x, by simp [hx], hxa⟩, fun y hy => ?_⟩
          rcases List.mem_cons.1 hy with rfl | hy
          · exact .inl (doc_within b hb fun e => hnd.2.2 n e n (within_mem hc hn) rfl)
          · exact h2 y hy

/-- The documentation of a readable block. -/
theorem readable_doc {b : DocBlock} (h : Readable b) : b.within.Nodup →
    ∃ d, blockDoc b = .ok d ∧ (¬ b.isSub → ∀ v ∈ b.inputs, ∃ a, d.lookup v.id = some a ∧ Said b v a.desc) := by
  induction h with
  | @plain i => exact fun _ => ⟨emptyDocs i, by rw [blockDoc], fun _ v hv => ⟨noDoc, lookup_emptyDocs hv, .plain hv⟩⟩
  | @call ann doc ps i hw =>
    intro hn
    obtain ⟨p, hp, hd⟩ := wellDoc_parse hw
    refine ⟨callDocs p i, by rw [blockDoc, hp], fun _ v hv => ⟨inputAttr p v, lookup_callDocs hn hv, ?_⟩⟩
    rw [inputAttr_desc]
    have := hd v.name
    cases hl : lastText v.name ps with
    | none =>
      rw [hl] at this
      rw [this]
      exact .untold hw hv hl
    | some t =>
      rw [hl] at this
      rw [this]
      exact .told hw hv hl (trim_trimmed t)
  | @sub i ws bs _ ih =>
    intro hn
    rw [DocBlock.within, List.nodup_append] at hn
    obtain ⟨ds, hds⟩ := blockDocs_all (bs := bs) fun c hc => by
      obtain ⟨d, hd, -⟩ := ih c hc (within_nodup hc hn.2.1)
      exact ⟨d, hd⟩
    exact ⟨gatherDocs ws ds [], by rw [blockDoc, hds], fun e => absurd trivial e⟩
  | @forEach i ws bs _ hl hw ih =>
    intro hn
    rw [DocBlock.within, List.nodup_append] at hn
    obtain ⟨ds, hds⟩ := blockDocs_all (bs := bs) fun c hc => by
      obtain ⟨d, hd, -⟩ := ih c hc (within_nodup hc hn.2.1)
      exact ⟨d, hd⟩
    have key : ∀ w ∈ ws, ∃ c ∈ bs, ∃ a, (gatherDocs ws ds []).lookup w.id = some a ∧ Said c w a.desc := by
      intro w hwm
      obtain ⟨c, hc, hs, hi⟩ := hw w hwm
      obtain ⟨d, hd, hv⟩ := ih c hc (within_nodup hc hn.2.1)
      obtain ⟨a, ha, hsaid⟩ := hv hs w hi
      obtain ⟨h1, h2⟩ := docs_unique hn.2.1 hds hc (inputs_within c hi) hd ha
      exact ⟨c, hc, a, (lookup_gatherDocs ws w.id ds []).2.2 a (List.mem_map_of_mem hwm) h1 h2, hsaid⟩
    obtain ⟨D, hD, -, h2⟩ := zipDocs_ok (gatherDocs ws ds []) i ws [] fun w hwm => by
      obtain ⟨_, _, a, ha, _⟩ := key w hwm
      rw [ha]
      rfl
    refine ⟨D, by rw [blockDoc, hds]; exact hD, fun _ v hv => ?_⟩
    obtain ⟨k, hk⟩ := List.getElem?_of_mem hv
    have hlt : k < ws.length := by
      have := (List.getElem?_eq_some_iff.1 hk).1
      simp only [DocBlock.inputs] at this
      omega
    obtain ⟨c, hc, a, ha, hs⟩ := key ws[k] (List.getElem_mem hlt)
    exact ⟨a, by rw [h2 hn.1 k v ws[k] hk (List.getElem?_eq_getElem hlt), ha], .forEach hk (List.getElem?_eq_getElem hlt) hc hs⟩

theorem blockOf_mem {n : Nat} {c : DocBlock} : ∀ {bs : List DocBlock}, (withinAll bs).Nodup → c ∈ bs → n ∈ c.inputs.map DocVar.id → blockOf n bs = some c
  | b :: bs, hnd, hc, hn => by
    rw [withinAll, List.nodup_append] at hnd
    have hin : ∀ x : DocBlock, n ∈ x.inputs.map DocVar.id → n ∈ x.within := by
      intro x hx
      obtain ⟨v, hv, rfl⟩ := List.mem_map.1 hx
      exact inputs_within x hv
    rw [blockOf]
    rcases List.mem_cons.1 hc with rfl | hc
    · rw [if_pos hn]
    · rw [if_neg (fun e => hnd.2.2 n (hin b e) n (within_mem hc (hin c hn)) rfl)]
      exact blockOf_mem hnd.2.1 hc hn

/-! ### Property -/

/-- **C173** (part): the description of an input in the schema of a workflow is what the documentation of its block says of the parameter it fills, for the
blocks which call a class or a method with a well written docstring, for blocks without documentation, and for those which run a workflow of such blocks for
each element of a list, to any depth.  Missing for the full property: workflows run once as a block (`C173_sub_violated`), workflows with free variables
(`C173_free_violated`), docstrings which cannot be read (`C173_unknown_violated`). -/
theorem C173_partial {bs : List DocBlock} {free : List Nat} {b : DocBlock} {v : DocVar} (hd : (withinAll bs).Nodup) (hb : b ∈ bs) (hr : Readable b)
    (hs : ¬ b.isSub) (hv : v ∈ b.inputs) (hf : v.id ∉ free) : ∃ s, inputDescription bs free v.id = .ok s ∧ Said b v s := by
  obtain ⟨d, hdoc, h⟩ := readable_doc hr (within_nodup hb hd)
  obtain ⟨a, ha, hsaid⟩ := h hs v hv
  refine ⟨a.desc, ?_, hsaid⟩
  rw [inputDescription, if_neg hf, blockOf_mem hd hb (List.mem_map_of_mem hv)]
  dsimp only
  rw [parseInputDoc, hdoc]
  dsimp only
  rw [ha]

/-- What is shown when the documentation cannot be computed. -/
def failedText : List Char := "Attribute documentation parsing failed".toList

/-- **C173** is violated: no input of a workflow used as a block ever has the description of the parameter it fills: it has none, or that of a failure. -/
theorem C173_sub_violated {bs cs : List DocBlock} {free : List Nat} {i ws : List DocVar} {v : DocVar} (hd : (withinAll bs).Nodup)
    (hb : .sub i cs ws ∈ bs) (hv : v ∈ i) (hf : v.id ∉ free) :
    inputDescription bs free v.id = .ok [] ∨ inputDescription bs free v.id = .ok failedText := by
  have hn := within_nodup hb hd
  rw [DocBlock.within, List.nodup_append] at hn
  have hout : v.id ∉ withinAll cs := fun e => hn.2.2 v.id (List.mem_map_of_mem hv) v.id e rfl
  rw [inputDescription, if_neg hf, blockOf_mem hd hb (List.mem_map_of_mem hv)]
  dsimp only
  rw [parseInputDoc, blockDoc]
  cases hs : blockDocs cs with
  | error e => exact .inr rfl
  | ok ds =>
    dsimp only
    rw [(lookup_gatherDocs ws v.id ds []).2.1 (docs_within cs hs hout)]
    exact .inl rfl

theorem zipDocs_missing {d : List (Nat × ParsedAttr)} : ∀ {vs ws : List DocVar} {r : List (Nat × ParsedAttr)}, vs.length = ws.length →
    (∃ w ∈ ws, d.lookup w.id = none) → zipDocs d vs ws r = .error .keyError
  | [], ws, r, hl, h => by
    obtain ⟨w, hw, -⟩ := h
    cases ws with
    | nil => simp at hw
    | cons => simp at hl
  | v :: vs, [], r, _, h => by simp at h
  | v :: vs, w :: ws, r, hl, h => by
    rw [zipDocs]
    cases hw : d.lookup w.id with
    | none => rfl
    | some a =>
      obtain ⟨x, hx, hxn⟩ := h
      rcases List.mem_cons.1 hx with rfl | hx
      · rw [hw] at hxn; cases hxn
      · exact zipDocs_missing (by simpa using hl) ⟨x, hx, hxn⟩

/-- **C173** is violated: when one input of a workflow run for each element of a list is a free variable, none of the inputs of the block has a description:
the documentation of all of them has failed. -/
theorem C173_free_violated {bs cs : List DocBlock} {free : List Nat} {i ws : List DocVar} {v w : DocVar} (hd : (withinAll bs).Nodup)
    (hb : .forEach i cs ws ∈ bs) (hl : i.length = ws.length) (hw : w ∈ ws) (hfree : w.id ∉ withinAll cs) (hv : v ∈ i) (hf : v.id ∉ free) :
    inputDescription bs free v.id = .ok failedText := by
  rw [inputDescription, if_neg hf, blockOf_mem hd hb (List.mem_map_of_mem hv)]
  dsimp only
  rw [parseInputDoc, blockDoc]
  cases hs : blockDocs cs with
  | error e => rfl
  | ok ds =>
    dsimp only
    rw [zipDocs_missing hl ⟨w, hw, (lookup_gatherDocs ws w.id ds []).2.1 (docs_within cs hs hfree)⟩]
    rfl

/-- **C173** is violated: one documented name which is not that of an annotated parameter, and the documentation of every input of the block has failed. -/
theorem C173_unknown_violated {bs : List DocBlock} {free : List Nat} {ann : List Char → Except PyErr (List Char)} {d : List Char} {ps qs : List DocParam}
    {q : DocParam} {e : PyErr} {r : Option (List Char)} {i : List DocVar} {v : DocVar} (hd : ¬ Occurs paramWord d)
    (hr : ¬ Occurs returnWord (d ++ writtenParams (ps ++ q :: qs))) (hc : ∀ p ∈ ps ++ q :: qs, p.Clean) (ha : ∀ p ∈ ps, ∃ t, ann p.name = .ok t)
    (hq : ann q.name = .error e) (hn : (withinAll bs).Nodup) (hb : .call (.ok ann) (some (d ++ writtenParams (ps ++ q :: qs) ++ writtenEnd r)) i ∈ bs)
    (hv : v ∈ i) (hf : v.id ∉ free) : inputDescription bs free v.id = .ok failedText := by
  rw [inputDescription, if_neg hf, blockOf_mem hn hb (List.mem_map_of_mem hv)]
  dsimp only
  rw [parseInputDoc, blockDoc, parseDocstring_unknown hd hr hc ha hq]
  rfl

/-! ### Cases -/

/-- The block of a class with two documented parameters. -/
def demoCall : DocBlock := .call (.ok demoAnnots) (some (" A part.\n ".toList ++ writtenParams [docX, docLong] ++ writtenEnd none))
  [⟨1, "x".toList⟩, ⟨2, "long_name".toList⟩]

theorem demo_wellDoc : WellDoc demoAnnots (some (" A part.\n ".toList ++ writtenParams [docX, docLong] ++ writtenEnd none)) [docX, docLong] := by
  refine .written (not_occurs (by decide)) (not_occurs (by decide)) ?_ ?_
  · intro p hp
    simp only [List.mem_cons, List.not_mem_nil, or_false] at hp
    rcases hp with rfl | rfl
    · exact ⟨by decide, not_occurs (by decide), not_occurs (by decide)⟩
    · exact ⟨by decide, not_occurs (by decide), not_occurs (by decide)⟩
  · intro p hp
    simp only [List.mem_cons, List.not_mem_nil, or_false] at hp
    rcases hp with rfl | rfl
    · exact ⟨_, rfl⟩
    · exact ⟨_, rfl⟩

/-- It is run for each element of a list, and the workflow of this is run for each element of a list. -/
def demoEach : DocBlock := .forEach [⟨3, "list".toList⟩, ⟨4, "b - long_name".toList⟩] [demoCall] [⟨1, "x".toList⟩, ⟨2, "long_name".toList⟩]
@[inherit_doc demoEach] def demoTwice : DocBlock := .forEach [⟨5, "lists".toList⟩, ⟨6, "c".toList⟩] [demoEach, .plain [⟨7, "y".toList⟩]]
  [⟨4, "b - long_name".toList⟩, ⟨7, "y".toList⟩]

/-- The hypotheses of `C173_partial` on it, and the description of its first input, which is that of the second parameter of the class. -/
example : (withinAll [demoTwice]).Nodup ∧ Readable demoTwice ∧ ¬ demoTwice.isSub ∧
    inputDescription [demoTwice] [8] 5 = .ok "The name: any text".toList := by
  refine ⟨by decide, .forEach ?_ rfl ?_, id, by decide +kernel⟩
  · intro c hc
    simp only [List.mem_cons, List.not_mem_nil, or_false] at hc
    rcases hc with rfl | rfl
    · refine .forEach ?_ rfl ?_
      · intro c hc
        rw [List.mem_singleton.1 hc]
        exact .call demo_wellDoc
      · intro w hw
        exact ⟨demoCall, by simp, id, hw⟩
    · exact .plain
  · intro w hw
    simp only [List.mem_cons, List.not_mem_nil, or_false] at hw
    rcases hw with rfl | rfl
    · exact ⟨demoEach, by simp, id, by simp [demoEach, DocBlock.inputs]⟩
    · exact ⟨_, List.mem_cons_of_mem _ (List.mem_singleton.2 rfl), id, by simp [DocBlock.inputs]⟩

/-- The hypotheses of `C173_sub_violated`: the same workflow, run once; something is said of its input. -/
example : (withinAll [.sub [⟨3, "a - x".toList⟩] [demoCall] [⟨1, "x".toList⟩]]).Nodup ∧
    Said (.sub [⟨3, "a - x".toList⟩] [demoCall] [⟨1, "x".toList⟩]) ⟨3, "a - x".toList⟩ "A size, in m".toList ∧
    inputDescription [.sub [⟨3, "a - x".toList⟩] [demoCall] [⟨1, "x".toList⟩]] [] 3 = .ok [] := by
  refine ⟨by decide, ?_, by decide +kernel⟩
  refine .sub (k := 0) rfl rfl (List.mem_singleton.2 rfl) (.told demo_wellDoc (by simp) (t := docX.text) (by decide) ?_)
  exact ⟨" ".toList, "\n".toList, by decide, by decide, by decide, by decide, by decide⟩

/-- The hypotheses of `C173_free_violated`: a free variable 9 is the second input; something is said of the first one. -/
example : (withinAll [.forEach [⟨3, "l".toList⟩, ⟨4, "f".toList⟩] [demoCall] [⟨1, "x".toList⟩, ⟨9, "f".toList⟩]]).Nodup ∧ 9 ∉ withinAll [demoCall] ∧
    inputDescription [.forEach [⟨3, "l".toList⟩, ⟨4, "f".toList⟩] [demoCall] [⟨1, "x".toList⟩, ⟨9, "f".toList⟩]] [] 3 = .ok failedText := by
  refine ⟨by decide, by decide, by decide +kernel⟩

/-- The hypotheses of `C173_unknown_violated`: the docstring still documents `y`, which is no parameter. -/
example : ¬ Occurs returnWord (" A part.\n ".toList ++ writtenParams ([docX] ++ ⟨"y".toList, " Old one".toList, none⟩ :: [docLong])) ∧
    demoAnnots "y".toList = .error .keyError ∧ inputDescription [.call (.ok demoAnnots) (some (" A part.\n ".toList ++
      writtenParams ([docX] ++ ⟨"y".toList, " Old one".toList, none⟩ :: [docLong]))) [⟨1, "x".toList⟩]] [] 1 = .ok failedText :=
  ⟨not_occurs (by decide), rfl, by decide +kernel⟩

end DC.Wkf
