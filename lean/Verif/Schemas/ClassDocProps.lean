import Verif.Schemas.ClassProps
import Verif.Schemas.DocstringProps
/- C133, on the schemas of classes: what a schema shows of the docstring of its class. -/
namespace DC.Sch

open DC.Types (Ann Gen Builtin)

variable {W : Classes}

/-- The parameter is annotated, with a type known at all depths. -/
def Annotated (W : Classes) (c : String) (n : List Char) : Prop :=
  ∃ t, (W.define c).annotations.lookup (String.ofList n) = some t ∧ Known W t

theorem docAnn_of {c : String} {n : List Char} (h : Annotated W c n) : ∃ t, docAnn W (W.define c).annotations n = .ok t := by
  obtain ⟨t, h1, h2⟩ := h
  exact ⟨_, by simp only [docAnn, h1, serialized, lacks_of_known h2]; rfl⟩

theorem schema_members {c : String} {s : Schema} (hs : classSchema W c = .ok s) :
    s.documentation = (classDoc W c).description ∧
      ∀ a ∈ s.attributes, a.1.desc = String.ofList (describe (classDoc W c) a.1.name.toList) := by
  cases hm : Types.memberAttributes (W.define c).spec with
  | error e => simp only [classSchema, hm] at hs; simp at hs
  | ok as =>
    obtain ⟨h1, h2⟩ := classSchema_ok hm hs
    refine ⟨h1, ?_⟩
    generalize s.attributes = bs at h2
    clear hs hm
    induction h2 with
    | nil => simp
    | cons h _ ih =>
      intro a ha
      rcases List.mem_cons.1 ha with rfl | ha
      · rw [h.1]; rfl
      · exact ih a ha

/-- C133, for classes: with a well written docstring whose parameters are annotated, the schema of the class is documented by the
beginning of the docstring, and each of its attributes by the last text given for it, if any.  Missing for the full property: see
`C133_class_violated`. -/
theorem C133_class_partial {c : String} {s : Schema} (hs : classSchema W c = .ok s) {d : List Char} {ps : List DocParam}
    {e : Option (List Char)} (hdoc : (W.define c).doc = some (d ++ writtenParams ps ++ writtenEnd e))
    (hd : ¬ Occurs paramWord d) (hr : ¬ Occurs returnWord (d ++ writtenParams ps)) (hc : ∀ p ∈ ps, p.Clean)
    (ha : ∀ p ∈ ps, Annotated W c p.name) :
    Trimmed d s.documentation ∧ ∀ a ∈ s.attributes, match lastText a.1.name.toList ps with
      | some t => Trimmed t a.1.desc.toList
      | none => a.1.desc = "" := by
  obtain ⟨h1, h2⟩ := schema_members hs
  have h3 := C133_partial (e := e) hd hr hc fun p hp => docAnn_of (ha p hp)
  dsimp only at h3
  rw [← hdoc] at h3
  refine ⟨h1 ▸ h3.1, fun a hm => ?_⟩
  have h4 := h3.2 a.1.name.toList
  have h5 := h2 a hm
  split
  · rename_i t ht
    rw [ht] at h4
    rw [h5, String.toList_ofList]
    exact h4
  · rename_i ht
    rw [ht] at h4
    rw [h5]
    exact (congrArg String.ofList h4).trans rfl

/-- **C133** is violated for classes: one documented name without annotation, after others which are annotated, and the documentation of the
class and of all of its attributes is lost. -/
theorem C133_class_violated {c : String} {s : Schema} (hs : classSchema W c = .ok s) {d : List Char} {ps qs : List DocParam} {q : DocParam}
    {e : Option (List Char)} (hdoc : (W.define c).doc = some (d ++ writtenParams (ps ++ q :: qs) ++ writtenEnd e))
    (hd : ¬ Occurs paramWord d) (hr : ¬ Occurs returnWord (d ++ writtenParams (ps ++ q :: qs))) (hc : ∀ p ∈ ps ++ q :: qs, p.Clean)
    (ha : ∀ p ∈ ps, Annotated W c p.name) (hq : (W.define c).annotations.lookup (String.ofList q.name) = none) :
    s.documentation = "Docstring parsing failed".toList ∧ ∀ a ∈ s.attributes, a.1.desc = "" := by
  obtain ⟨h1, h2⟩ := schema_members hs
  have h3 := C133_unknown_violated (ann := docAnn W (W.define c).annotations) (e := .keyError) (r := e) hd hr hc
    (fun p hp => docAnn_of (ha p hp)) (by simp only [docAnn, hq])
  dsimp only at h3
  rw [← hdoc] at h3
  refine ⟨h1.trans h3.1, fun a hm => ?_⟩
  rw [h2 a hm]
  exact (congrArg String.ofList (h3.2 _)).trans rfl

/-- The documentation of the mass of a car.  Example only. -/
def massDoc : DocParam := ⟨"mass".toList, " Empty mass".toList, none⟩

/-- The class of cars meets the hypotheses of `C133_class_partial`. -/
example : (demo.define "demo.Car").doc = some ("A car. ".toList ++ writtenParams [massDoc] ++ writtenEnd none) ∧
    ¬ Occurs paramWord "A car. ".toList ∧ ¬ Occurs returnWord ("A car. ".toList ++ writtenParams [massDoc]) ∧ massDoc.Clean ∧
    Annotated demo "demo.Car" massDoc.name :=
  ⟨by decide, not_occurs (by decide), not_occurs (by decide), ⟨by decide, not_occurs (by decide), not_occurs (by decide)⟩, _, rfl, .cls ⟨by decide, by decide⟩⟩

/-- Cars whose docstring still documents a colour, which is no parameter any more: all is lost. -/
example : ∃ s, classSchema { demo with define := fun c => { demo.define c with
      doc := some ("A car. ".toList ++ writtenParams ([massDoc] ++ ⟨"colour".toList, " Red".toList, none⟩ :: [])) } } "demo.Car" = .ok s ∧
    s.documentation = "Docstring parsing failed".toList ∧ (demo.define "demo.Car").annotations.lookup "colour" = none :=
  ⟨_, rfl, by decide +kernel, rfl⟩

end DC.Sch
