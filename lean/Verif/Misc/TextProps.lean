import Mathlib.Data.List.Nodup
import Mathlib.Data.List.Count
import Mathlib.Data.List.Forall2
import Verif.Misc.Text
/- Properties C56, C57, C58, C59, C60, C62, C63, C84, C85 and C86. -/
namespace DC.Txt

/-! ### C63: pretty names -/

/-- Spec: a name with spaces instead of underscores. -/
def spaced (name : List Char) : List Char := name.map fun c => if c = '_' then ' ' else c

theorem prettyname_cons {upper : Char → List Char} (w : List Char) (hw : '_' ∉ w) (rest : List Char) :
    prettyname upper (w ++ '_' :: rest) = prettyWord upper w ++ ' ' :: prettyname upper rest := by
  unfold prettyname
  rw [Str.split_append hw, List.map_cons, Str.join_cons (by simp [Str.split_ne_nil])]
  simp

/-- A name made of words separated by underscores becomes these words separated by spaces, the first letter of the words
of two letters or more being in upper case. -/
theorem C63_words (upper : Char → List Char) {words : List (List Char)} (h : words ≠ []) (hw : ∀ w ∈ words, '_' ∉ w) :
    prettyname upper (Str.join ['_'] words) = Str.join [' '] (words.map fun w => match w with
      | c :: d :: w => upper c ++ d :: w
      | w => w) := by
  unfold prettyname
  rw [Str.split_join h hw]
  congr 1

/-- All the characters are kept up to case, the underscores being replaced by spaces: what the pretty name becomes when
its case is ignored is what the name becomes.  `fold` is any way of ignoring the case of a character. -/
theorem C63_characters (upper fold : Char → List Char) (hf : ∀ c, (upper c).flatMap fold = fold c) (name : List Char) :
    (prettyname upper name).flatMap fold = (spaced name).flatMap fold := by
  have key : ∀ ws : List (List Char), (∀ w ∈ ws, '_' ∉ w) → (Str.join [' '] (ws.map (prettyWord upper))).flatMap fold =
      (spaced (Str.join ['_'] ws)).flatMap fold := by
    intro ws
    have hword : ∀ w : List Char, '_' ∉ w → (prettyWord upper w).flatMap fold = (spaced w).flatMap fold := by
      intro w hw
      have hs : spaced w = w := by
        unfold spaced
        conv_rhs => rw [← List.map_id w]
        refine List.map_congr_left fun c hc => ?_
        rw [if_neg (by rintro rfl; exact hw hc)]
        rfl
      rw [hs]
      unfold prettyWord
      split
      · rw [List.flatMap_append, hf]; rfl
      · rfl
    induction ws with
    | nil => intro _; rfl
    | cons w ws ih =>
      intro h
      cases ws with
      | nil => exact hword w (h w (.head _))
      | cons v ws =>
        rw [List.map_cons, Str.join_cons (by simp), Str.join_cons (by simp)]
        have ih := ih fun x hx => h x (.tail _ hx)
        simp only [List.flatMap_append, ih, hword w (h w (.head _))]
        simp [spaced]
  have := key (Str.split '_' name) fun w hw => Str.split_no_sep hw
  rw [Str.join_split] at this
  exact this

/-- No underscore is left. -/
theorem C63_no_underscore (upper : Char → List Char) (hu : ∀ c, c ≠ '_' → '_' ∉ upper c) (name : List Char) :
    '_' ∉ prettyname upper name := by
  have key : ∀ ws : List (List Char), (∀ w ∈ ws, '_' ∉ w) → '_' ∉ Str.join [' '] (ws.map (prettyWord upper)) := by
    intro ws
    have hword : ∀ w : List Char, '_' ∉ w → '_' ∉ prettyWord upper w := by
      intro w hw
      unfold prettyWord
      split
      · rename_i c d w
        simp only [List.mem_cons, not_or] at hw
        simp only [List.mem_append, List.mem_cons, not_or]
        exact ⟨hu c fun e => hw.1 e.symm, hw.2⟩
      · exact hw
    induction ws with
    | nil => simp [Str.join]
    | cons w ws ih =>
      intro h
      cases ws with
      | nil => exact hword w (h w (.head _))
      | cons v ws =>
        rw [List.map_cons, Str.join_cons (by simp)]
        have := ih fun x hx => h x (.tail _ hx)
        simp only [List.mem_append, not_or]
        exact ⟨⟨hword w (h w (.head _)), by simp⟩, this⟩
  exact key _ fun w hw => Str.split_no_sep hw

/-- A name without underscore starting by an upper case letter (or by a character without case) is left as it is. -/
theorem C63_identity (upper : Char → List Char) {name : List Char} (h : '_' ∉ name) (hu : ∀ c ∈ name.head?, upper c = [c]) :
    prettyname upper name = name := by
  unfold prettyname
  rw [Str.split_of_no_sep h]
  simp only [List.map_cons, List.map_nil, Str.join]
  unfold prettyWord
  split
  · rw [hu _ rfl]; rfl
  · rfl

example : prettyname (fun c => [c.toUpper]) "number_of_x_values".toList = "Number Of x Values".toList := by decide

/-! ### C56: extensions -/

/-- A saved template ends by the extension. -/
theorem C56_extension {extension : List Char} (filename : List Char) : extension <:+ templateName extension filename := by
  unfold templateName
  split
  · exact ⟨filename ++ ['.'], by simp⟩
  · rename_i h
    rw [Decidable.not_and_iff_or_not] at h
    rcases h with h | h
    · simp only [ne_eq, Decidable.not_not] at h
      rw [h]
      exact List.nil_suffix
    · simpa using h

/-- A file name without the extension gets a dot and the extension; one with the dot and the extension is left as it is.
Missing for the full property: names ending by the extension without a dot (`C56_violated`). -/
theorem C56_partial {extension : List Char} (he : extension ≠ []) (filename : List Char) :
    (¬ extension <:+ filename → templateName extension filename = filename ++ '.' :: extension) ∧
    ('.' :: extension <:+ filename → templateName extension filename = filename) := by
  constructor
  · intro h
    unfold templateName
    rw [if_pos ⟨he, by simpa using h⟩]
  · intro h
    unfold templateName
    rw [if_neg]
    rintro ⟨-, h2⟩
    have : extension <:+ filename := List.IsSuffix.trans ⟨['.'], rfl⟩ h
    simp [this] at h2

/-- A name ending by the extension without a dot is left as it is. -/
theorem C56_violated : templateName "xlsx".toList "reportxlsx".toList = "reportxlsx".toList ∧
    ¬ ".xlsx".toList <:+ "reportxlsx".toList := by decide

/-- A JSON save always ends by '.json', which is added exactly if missing. -/
theorem C56_json (filepath : List Char) : ".json".toList <:+ jsonName filepath ∧
    (".json".toList <:+ filepath → jsonName filepath = filepath) ∧
    (¬ ".json".toList <:+ filepath → jsonName filepath = filepath ++ ".json".toList) := by
  have e : ".json".toList = ['.', 'j', 's', 'o', 'n'] := rfl
  rw [e]
  unfold jsonName
  by_cases h : ['.', 'j', 's', 'o', 'n'] <:+ filepath
  · have : ['.', 'j', 's', 'o', 'n'].isSuffixOf filepath = true := by simpa using h
    simp [h, this]
  · have : ['.', 'j', 's', 'o', 'n'].isSuffixOf filepath = false := by
      simpa [← List.isSuffixOf_iff_suffix] using h
    simp [h, this]

/-! ### C57: imports -/

/-- Spec: the import `s` is the name `c` of the module `m`. -/
def Designates (s m c : List Char) : Prop := '.' ∉ c ∧ (s = m ++ '.' :: c ∨ (s = c ∧ m = []))

theorem splitImport_designates (s : List Char) : Designates s (splitImport s).1 (splitImport s).2 := by
  have hne := Str.split_ne_nil '.' s
  have hl : (Str.split '.' s).getLast? = some ((Str.split '.' s).getLast hne) := List.getLast?_eq_getLast_of_ne_nil hne
  have hdec := List.dropLast_append_getLast hne
  have hj := Str.join_split '.' s
  unfold Designates splitImport
  simp only [hl, Option.getD_some]
  refine ⟨Str.split_no_sep (List.getLast_mem hne), ?_⟩
  generalize (Str.split '.' s).dropLast = init at hdec
  generalize (Str.split '.' s).getLast hne = w at hdec
  rw [← hdec] at hj
  clear * - hj
  cases init with
  | nil => right; exact ⟨by simpa [Str.join] using hj.symm, rfl⟩
  | cons v vs =>
    left
    rw [← hj]
    clear hj
    induction vs generalizing v with
    | nil => simp [Str.join]
    | cons u us ih =>
      have := ih u
      rw [List.cons_append, Str.join_cons (by simp), Str.join_cons (by simp)]
      rw [this]
      simp

theorem designates_unique {s m c : List Char} (h : Designates s m c) : splitImport s = (m, c) := by
  obtain ⟨hc, h⟩ := h
  unfold splitImport
  rcases h with rfl | ⟨rfl, rfl⟩
  · have : Str.split '.' (m ++ '.' :: c) = Str.split '.' m ++ [c] := by
      rw [Str.split_append_sep, Str.split_of_no_sep hc]
    simp [this, Str.join_split]
  · simp [Str.split_of_no_sep hc, Str.join]

/-- Spec: the dictionary gives the name `c` under the module `m`. -/
def Gives (d : List (List Char × List (List Char))) (m c : List Char) : Prop := ∃ cs, d.lookup m = some cs ∧ c ∈ cs

theorem importDict_spec (imports : List (List Char)) : ∀ d : List (List Char × List (List Char)),
    (d.map (·.1)).Nodup → (∀ mc ∈ d, mc.2.Nodup ∧ mc.2 ≠ []) →
    ((imports.foldl addImport d).map (·.1)).Nodup ∧ (∀ mc ∈ imports.foldl addImport d, mc.2.Nodup ∧ mc.2 ≠ []) ∧
    ∀ m c, Gives (imports.foldl addImport d) m c ↔ Gives d m c ∨ ∃ s ∈ imports, Designates s m c := by
  induction imports with
  | nil => intro d h1 h2; exact ⟨h1, h2, by simp⟩
  | cons s imports ih =>
    intro d h1 h2
    obtain ⟨m0, c0, hmc⟩ : ∃ m0 c0, splitImport s = (m0, c0) := ⟨_, _, rfl⟩
    have step : ((addImport d s).map (·.1)).Nodup ∧ (∀ mc ∈ addImport d s, mc.2.Nodup ∧ mc.2 ≠ []) ∧
        ∀ m c, Gives (addImport d s) m c ↔ Gives d m c ∨ (m = m0 ∧ c = c0) := by
      have hset : ∀ cs : List (List Char), cs.Nodup → cs ≠ [] → (∀ m c, (m = m0 ∧ c ∈ cs) ∨ (m ≠ m0 ∧ Gives d m c) ↔ Gives d m c ∨ (m = m0 ∧ c = c0)) →
          ((Dict.set d m0 cs).map (·.1)).Nodup ∧ (∀ mc ∈ Dict.set d m0 cs, mc.2.Nodup ∧ mc.2 ≠ []) ∧
          ∀ m c, Gives (Dict.set d m0 cs) m c ↔ Gives d m c ∨ (m = m0 ∧ c = c0) := by
        intro cs hn hne hg
        have hnd := Dict.nodup_set h1 m0 cs
        refine ⟨hnd, ?_, ?_⟩
        · rintro ⟨m, cs'⟩ hm
          have := Dict.mem_lookup hnd hm
          rw [Dict.lookup_set] at this
          split at this
          · simp only [Option.some.injEq] at this
            subst this
            exact ⟨hn, hne⟩
          · exact h2 _ (Dict.lookup_mem this)
        · intro m c
          rw [← hg]
          unfold Gives
          rw [Dict.lookup_set]
          by_cases hm : m = m0
          · simp [hm]
          · simp [hm]
      unfold addImport
      rw [hmc]
      dsimp only
      split
      · rename_i hl
        apply hset _ (by simp) (by simp)
        intro m c
        by_cases hm : m = m0
        · subst hm
          have : ¬ Gives d m c := by rintro ⟨cs, h, -⟩; rw [hl] at h; simp at h
          simp [this]
        · simp [hm]
      · rename_i cs hl
        split
        · rename_i hc
          refine ⟨h1, h2, fun m c => ⟨.inl, ?_⟩⟩
          rintro (h | ⟨rfl, rfl⟩)
          · exact h
          · exact ⟨cs, hl, hc⟩
        · rename_i hc
          have hcs := h2 _ (Dict.lookup_mem hl)
          apply hset
          · refine List.nodup_append.2 ⟨hcs.1, by simp, ?_⟩
            rintro a ha b hb rfl
            simp only [List.mem_singleton] at hb
            exact hc (hb ▸ ha)
          · simp
          intro m c
          by_cases hm : m = m0
          · subst hm
            have : Gives d m c ↔ c ∈ cs := by
              unfold Gives
              rw [hl]
              simp
            simp [this]
          · simp [hm]
    obtain ⟨s1, s2, s3⟩ := step
    obtain ⟨r1, r2, r3⟩ := ih _ s1 s2
    refine ⟨r1, r2, fun m c => ?_⟩
    rw [List.foldl_cons, r3, s3]
    have : (m = m0 ∧ c = c0) ↔ Designates s m c := by
      constructor
      · rintro ⟨rfl, rfl⟩
        have := splitImport_designates s
        rw [hmc] at this
        exact this
      · intro h
        have := designates_unique h
        rw [hmc] at this
        simp only [Prod.mk.injEq] at this
        exact ⟨this.1.symm, this.2.symm⟩
    rw [this]
    simp only [List.mem_cons, exists_eq_or_imp]
    tauto

/-- The imports are grouped by module: each module once, with exactly the needed names, once each. -/
theorem C57_grouped (imports : List (List Char)) : ((importDict imports).map (·.1)).Nodup ∧
    (∀ mc ∈ importDict imports, mc.2.Nodup ∧ mc.2 ≠ []) ∧
    ∀ m c, (∃ cs, (m, cs) ∈ importDict imports ∧ c ∈ cs) ↔ ∃ s ∈ imports, Designates s m c := by
  obtain ⟨h1, h2, h3⟩ := importDict_spec imports [] (by simp) (by simp)
  refine ⟨h1, h2, fun m c => ?_⟩
  have := h3 m c
  have hg : ¬ Gives [] m c := by rintro ⟨cs, h, -⟩; simp at h
  simp only [hg, false_or] at this
  rw [← this]
  constructor
  · rintro ⟨cs, hm, hc⟩; exact ⟨cs, Dict.mem_lookup h1 hm, hc⟩
  · rintro ⟨cs, hm, hc⟩; exact ⟨cs, Dict.lookup_mem hm, hc⟩

example : importDict ["a.b.C".toList, "d.E".toList, "a.b.F".toList, "a.b.C".toList] =
    [("a.b".toList, ["C".toList, "F".toList]), ("d".toList, ["E".toList])] := by decide

/-- A text made of lines. -/
def render (lines : List (List Char)) : List Char := lines.flatMap fun l => l ++ ['\n']

theorem render_append (a b : List (List Char)) : render (a ++ b) = render a ++ render b := by
  unfold render
  rw [List.flatMap_append]

theorem render_add (ls done : List (List Char)) (x : List Char) :
    render (ls ++ done.map fun z => "import ".toList ++ z) ++ importLine x =
      render (ls ++ (done ++ [x]).map fun z => "import ".toList ++ z) := by
  have h : render [("import ".toList ++ x)] = importLine x := by
    unfold render importLine
    rw [List.flatMap_cons, List.flatMap_nil, List.append_nil]
  rw [List.map_append, ← List.append_assoc, render_append (ls ++ _), List.map_cons, List.map_nil, h]

theorem split_render : ∀ {lines : List (List Char)}, (∀ l ∈ lines, '\n' ∉ l) → Str.split '\n' (render lines) = lines ++ [[]]
  | [], _ => rfl
  | l :: ls, h => by
    have ih := split_render (lines := ls) fun x hx => h x (.tail _ hx)
    have : render (l :: ls) = l ++ '\n' :: render ls := by simp [render]
    rw [this, Str.split_append (h l (.head _)), ih]
    rfl

theorem isIn_render {x : List Char} (hx : '\n' ∉ x) : ∀ {lines : List (List Char)}, (∀ l ∈ lines, '\n' ∉ l) →
    (Str.isIn (x ++ ['\n']) (render lines) = true ↔ ∃ l ∈ lines, x <:+ l) := by
  intro lines hl
  rw [Str.isIn_iff]
  constructor
  · rintro ⟨a, b, h⟩
    have h1 := split_render hl
    have h2 : a ++ (x ++ ['\n']) ++ b = (a ++ x) ++ '\n' :: b := by simp
    rw [h, h2, Str.split_append_sep] at h1
    have hlast : ∃ w ∈ Str.split '\n' (a ++ x), x <:+ w := by
      clear * - hx
      induction a with
      | nil => exact ⟨x, by simp [Str.split_of_no_sep hx], List.suffix_refl x⟩
      | cons c a ih =>
        obtain ⟨w, hw, hs⟩ := ih
        by_cases hc : c = '\n'
        · subst hc
          exact ⟨w, by simp [Str.split, hw], hs⟩
        · obtain ⟨v, vs, e1, e2⟩ := Str.split_cons_ne hc (a ++ x)
          rw [List.cons_append, e2]
          rw [e1] at hw
          rcases List.mem_cons.1 hw with rfl | hw
          · exact ⟨c :: w, .head _, hs.trans (List.suffix_cons _ _)⟩
          · exact ⟨w, .tail _ hw, hs⟩
    obtain ⟨w, hw, hs⟩ := hlast
    have hb := Str.split_ne_nil '\n' b
    have hmem : w ∈ lines := by
      have : (lines ++ [[]]).dropLast = lines := by simp
      rw [← this, ← h1, List.dropLast_append_of_ne_nil hb]
      exact List.mem_append_left _ hw
    exact ⟨w, hmem, hs⟩
  · rintro ⟨l, hm, p, rfl⟩
    obtain ⟨s, t, rfl⟩ := List.append_of_mem hm
    refine ⟨render s ++ p, render t, ?_⟩
    simp [render]

theorem last_word {a b x y : List Char} (hx : ' ' ∉ x) (hy : ' ' ∉ y) (h : a ++ ' ' :: x = b ++ ' ' :: y) : x = y := by
  have := congrArg (Str.split ' ') h
  rw [Str.split_append_sep, Str.split_append_sep, Str.split_of_no_sep hx, Str.split_of_no_sep hy] at this
  have := congrArg List.getLast? this
  simpa using this

theorem fromLine_last {m : List Char} {cs : List (List Char)} (hne : cs ≠ []) : ∃ p c, c ∈ cs ∧
    fromLine (m, cs) = (p ++ ' ' :: c) ++ ['\n'] := by
  have : ∃ p c, c ∈ cs ∧ ' ' :: Str.join [',', ' '] cs = p ++ ' ' :: c := by
    induction cs with
    | nil => exact absurd rfl hne
    | cons c cs ih =>
      cases cs with
      | nil => exact ⟨[], c, .head _, by simp [Str.join]⟩
      | cons d cs =>
        obtain ⟨p, c', hc, h⟩ := ih (by simp)
        refine ⟨' ' :: c ++ [','] ++ p, c', .tail _ hc, ?_⟩
        rw [Str.join_cons (by simp)]
        have : c ++ [',', ' '] ++ Str.join [',', ' '] (d :: cs) = c ++ [','] ++ (' ' :: Str.join [',', ' '] (d :: cs)) := by simp
        rw [this, h]
        simp
  obtain ⟨p, c, hc, h⟩ := this
  refine ⟨"from ".toList ++ m ++ " import".toList ++ p, c, hc, ?_⟩
  have e : " import ".toList = " import".toList ++ [' '] := rfl
  unfold fromLine
  dsimp only
  rw [e]
  have : "from ".toList ++ m ++ (" import".toList ++ [' ']) ++ Str.join [',', ' '] cs =
      "from ".toList ++ m ++ " import".toList ++ (' ' :: Str.join [',', ' '] cs) := by simp
  rw [this, h]
  simp

/-- Spec: a plain name, without space nor newline. -/
def Plain (s : List Char) : Prop := ' ' ∉ s ∧ '\n' ∉ s

/-- Each module imported as it is has a line 'import module', and one only, if no imported name is this one. Missing for
the full property: a module with the name of an imported class, which may be skipped (`C57_as_is_violated`). -/
theorem C57_as_is_partial {imports asIs : List (List Char)} (hp : ∀ s ∈ imports, Plain s) (hq : ∀ s ∈ asIs, Plain s)
    {x : List Char} (hx : x ∈ asIs) (hno : ∀ s ∈ imports, ∀ m, ¬ Designates s m x) :
    (Str.split '\n' (importsToStr imports asIs)).count ("import ".toList ++ x) = 1 := by
  obtain ⟨-, g2, g3⟩ := C57_grouped imports
  -- the lines of the dictionary
  obtain ⟨ls, hls, hrender⟩ : ∃ ls : List (List Char), (∀ l ∈ ls, '\n' ∉ l ∧ ∃ p c, Plain c ∧ l = p ++ ' ' :: c ∧
      ∃ s ∈ imports, ∃ m, Designates s m c) ∧ (importDict imports).flatMap fromLine = render ls := by
    have hplain : ∀ s m c, s ∈ imports → Designates s m c → Plain m ∧ Plain c := by
      rintro s m c hs ⟨-, rfl | ⟨rfl, rfl⟩⟩
      · have := hp _ hs
        simp only [Plain, List.mem_append, List.mem_cons, not_or] at this ⊢
        tauto
      · exact ⟨by simp [Plain], hp _ hs⟩
    generalize importDict imports = d at g2 g3
    have g4 : ∀ mc ∈ d, ∀ c ∈ mc.2, ∃ s ∈ imports, Designates s mc.1 c := fun mc hmc c hc => (g3 mc.1 c).1 ⟨mc.2, hmc, hc⟩
    clear g3 hno
    induction d with
    | nil => exact ⟨[], by simp, rfl⟩
    | cons mc d ih =>
      obtain ⟨ls, h1, h2⟩ := ih (fun q hq => g2 q (.tail _ hq)) (fun q hq => g4 q (.tail _ hq))
      obtain ⟨p, c, hc, hl⟩ := fromLine_last (m := mc.1) (g2 mc (.head _)).2
      obtain ⟨s, hs, hd⟩ := g4 mc (.head _) c hc
      have hnl : '\n' ∉ p ++ ' ' :: c := by
        have hcs : ∀ c ∈ mc.2, '\n' ∉ c := fun c hc => by
          obtain ⟨s, hs, hd⟩ := g4 mc (.head _) c hc
          exact (hplain s _ c hs hd).2.2
        have hj : ∀ cs : List (List Char), (∀ c ∈ cs, '\n' ∉ c) → '\n' ∉ Str.join [',', ' '] cs := by
          intro cs
          induction cs with
          | nil => simp [Str.join]
          | cons a cs ih =>
            intro h
            cases cs with
            | nil => exact h a (.head _)
            | cons b cs =>
              rw [Str.join_cons (by simp)]
              have := ih fun q hq => h q (.tail _ hq)
              have := h a (.head _)
              simp only [List.mem_append, not_or]
              exact ⟨⟨this, by decide⟩, by assumption⟩
        have hfl : fromLine (mc.1, mc.2) = ("from ".toList ++ mc.1 ++ " import ".toList ++ Str.join [',', ' '] mc.2) ++ ['\n'] := rfl
        rw [hl] at hfl
        have := List.append_cancel_right hfl
        rw [this]
        have hm := (hplain s _ c hs hd).1.2
        have hj := hj mc.2 hcs
        simp only [List.mem_append, not_or]
        exact ⟨⟨⟨by decide, hm⟩, by decide⟩, hj⟩
      refine ⟨(p ++ ' ' :: c) :: ls, ?_, ?_⟩
      · intro l hl'
        rcases List.mem_cons.1 hl' with rfl | hl'
        · exact ⟨hnl, p, c, (hplain s _ c hs hd).2, rfl, s, hs, _, hd⟩
        · exact h1 l hl'
      · rw [List.flatMap_cons, h2]
        show fromLine (mc.1, mc.2) ++ render ls = _
        rw [hl]
        simp [render]
  have hs_of : ∀ z : List Char, z ∈ asIs → '\n' ∉ "import ".toList ++ z := by
    intro z hz
    simp only [List.mem_append, not_or]
    exact ⟨by decide, (hq z hz).2⟩
  -- the loop
  have loop : ∀ (todo done : List (List Char)), (∀ z ∈ todo, z ∈ asIs) → (∀ z ∈ done, z ∈ asIs) →
      done.count x ≤ 1 → (x ∈ done ∨ x ∈ todo) →
      ∃ fin : List (List Char), fin.count x = 1 ∧ (∀ z ∈ fin, z ∈ asIs) ∧
        todo.foldl (fun script s => if Str.isIn (importLine s) script then script else script ++ importLine s)
          (render (ls ++ done.map fun z => "import ".toList ++ z)) = render (ls ++ fin.map fun z => "import ".toList ++ z) := by
    intro todo
    induction todo with
    | nil =>
      intro done _ hd hc hmem
      refine ⟨done, ?_, hd, rfl⟩
      have : x ∈ done := by simpa using hmem
      have := List.count_pos_iff.2 this
      omega
    | cons s todo ih =>
      intro done ht hd hc hmem
      have hsA := ht s (.head _)
      have hlines : ∀ l ∈ ls ++ done.map (fun z => "import ".toList ++ z), '\n' ∉ l := by
        intro l hl
        rcases List.mem_append.1 hl with hl | hl
        · exact (hls l hl).1
        · obtain ⟨z, hz, rfl⟩ := List.mem_map.1 hl
          exact hs_of z (hd z hz)
      have hin := isIn_render (x := "import ".toList ++ s) (hs_of s hsA) hlines
      rw [List.foldl_cons]
      have himp : importLine s = "import ".toList ++ s ++ ['\n'] := rfl
      have hsuffix : ∀ z : List Char, z ∈ asIs → "import ".toList ++ s <:+ "import ".toList ++ z → s = z := by
        rintro z hz ⟨p, hp⟩
        have e1 : p ++ ("import ".toList ++ s) = (p ++ "import".toList) ++ ' ' :: s := by
          have : "import ".toList = "import".toList ++ [' '] := rfl
          rw [this]; simp
        have e2 : "import ".toList ++ z = "import".toList ++ ' ' :: z := by
          have : "import ".toList = "import".toList ++ [' '] := rfl
          rw [this]; simp
        rw [e1, e2] at hp
        exact last_word (hq s hsA).1 (hq z hz).1 hp
      by_cases hxs : x = s
      · subst hxs
        have hfrom : ¬ ∃ l ∈ ls, "import ".toList ++ x <:+ l := by
          rintro ⟨l, hl, p, hp'⟩
          obtain ⟨-, q, c, hcp, hle, s', hs', m, hdes⟩ := hls l hl
          have e1 : p ++ ("import ".toList ++ x) = (p ++ "import".toList) ++ ' ' :: x := by
            have : "import ".toList = "import".toList ++ [' '] := rfl
            rw [this]; simp
          rw [e1, hle] at hp'
          have := last_word (hq x hsA).1 hcp.1 hp'
          subst this
          exact hno s' hs' m hdes
        by_cases hxd : x ∈ done
        · have : Str.isIn (importLine x) (render (ls ++ done.map fun z => "import ".toList ++ z)) = true := by
            rw [himp, hin]
            exact ⟨_, List.mem_append_right _ (List.mem_map.2 ⟨x, hxd, rfl⟩), List.suffix_refl _⟩
          rw [if_pos this]
          exact ih done (fun z hz => ht z (.tail _ hz)) hd hc (.inl hxd)
        · have : ¬ Str.isIn (importLine x) (render (ls ++ done.map fun z => "import ".toList ++ z)) = true := by
            rw [himp, hin]
            rintro ⟨l, hl, hsuf⟩
            rcases List.mem_append.1 hl with hl | hl
            · exact hfrom ⟨l, hl, hsuf⟩
            · obtain ⟨z, hz, rfl⟩ := List.mem_map.1 hl
              exact hxd (hsuffix z (hd z hz) hsuf ▸ hz)
          rw [if_neg this]
          have := ih (done ++ [x]) (fun z hz => ht z (.tail _ hz)) (by
            intro z hz
            rcases List.mem_append.1 hz with hz | hz
            · exact hd z hz
            · rw [List.mem_singleton] at hz; subst hz; exact hsA) (by
            rw [List.count_append, List.count_eq_zero.2 hxd]; simp) (.inl (by simp))
          rw [render_add]
          exact this
      · have hmem' : x ∈ done ∨ x ∈ todo := by
          rcases hmem with h | h
          · exact .inl h
          · rcases List.mem_cons.1 h with h | h
            · exact absurd h hxs
            · exact .inr h
        split
        · exact ih done (fun z hz => ht z (.tail _ hz)) hd hc hmem'
        · have := ih (done ++ [s]) (fun z hz => ht z (.tail _ hz)) (by
            intro z hz
            rcases List.mem_append.1 hz with hz | hz
            · exact hd z hz
            · rw [List.mem_singleton] at hz; subst hz; exact hsA) (by
            rw [List.count_append, List.count_eq_zero.2 (show x ∉ [s] by simpa using hxs)]
            omega) (by
            rcases hmem' with h | h
            · exact .inl (List.mem_append_left _ h)
            · exact .inr h)
          rw [render_add]
          exact this
  obtain ⟨fin, hc, hf, he⟩ := loop asIs [] (fun _ h => h) (by simp) (by simp) (.inr hx)
  unfold importsToStr
  rw [hrender]
  simp only [List.map_nil, List.append_nil] at he
  rw [he]
  have hlines : ∀ l ∈ ls ++ fin.map (fun z => "import ".toList ++ z), '\n' ∉ l := by
    intro l hl
    rcases List.mem_append.1 hl with hl | hl
    · exact (hls l hl).1
    · obtain ⟨z, hz, rfl⟩ := List.mem_map.1 hl
      exact hs_of z (hf z hz)
  rw [split_render hlines, List.count_append, List.count_append]
  have c1 : ls.count ("import ".toList ++ x) = 0 := by
    rw [List.count_eq_zero]
    intro hmem
    obtain ⟨-, q, c, hcp, hle, s', hs', m, hdes⟩ := hls _ hmem
    have e2 : "import ".toList ++ x = "import".toList ++ ' ' :: x := by
      have : "import ".toList = "import".toList ++ [' '] := rfl
      rw [this]; simp
    rw [e2] at hle
    have := last_word (hq x hx).1 hcp.1 hle
    subst this
    exact hno s' hs' m hdes
  have c2 : (fin.map fun z => "import ".toList ++ z).count ("import ".toList ++ x) = 1 := by
    rw [← hc]
    exact List.count_map_of_injective fin _ (fun a b h => List.append_cancel_left h) x
  have c3 : [([] : List Char)].count ("import ".toList ++ x) = 0 := by
    rw [List.count_eq_zero]
    simp
  omega

/-- A class and a module of the same name: the module is not imported. -/
theorem C57_as_is_violated : importsToStr ["geometry.point".toList] ["point".toList] = "from geometry import point\n".toList ∧
    "import point".toList ∉ Str.split '\n' (importsToStr ["geometry.point".toList] ["point".toList]) := by
  decide

example : importsToStr ["a.b.C".toList, "d.E".toList, "a.b.F".toList] ["os".toList, "sys".toList, "os".toList] =
    "from a.b import C, F\nfrom d import E\nimport os\nimport sys\n".toList := by decide

/-! ### C58: tables -/

variable {ρ : Type}

/-- Without limit, the rows are shown once each, in order. -/
theorem C58_no_limit (content : List ρ) : contentTable none content = content.map .row := rfl

/-- The rows are shown once each, in order, when they fill at most the half of the table, or exactly an even limit.
Missing for the full property: between the half and the limit (`C58_duplicated_violated`). -/
theorem C58_fits_partial {limit : Nat} (hl : 1 < limit) (content : List ρ)
    (h : content.length ≤ limit / 2 ∨ (content.length = limit ∧ limit % 2 = 0)) :
    contentTable (some limit) content = content.map .row := by
  unfold contentTable
  dsimp only
  rw [if_pos hl]
  rcases h with h | ⟨h, h2⟩
  · rw [if_neg (by omega), if_neg (by omega), List.take_of_length_le h]
    simp
  · rw [if_neg (by omega), if_pos (by omega)]
    unfold lastRows
    have : content.length - limit / 2 = limit / 2 := by omega
    rw [this, List.nil_append, ← List.map_append, List.take_append_drop]

/-- Beyond an even limit, the first and the last rows are shown once each, with the right number of hidden rows between
them. Missing for the full property: odd limits (`C58_odd_violated`). -/
theorem C58_beyond_partial {limit : Nat} (hl : 1 < limit) (he : limit % 2 = 0) (content : List ρ) (h : limit < content.length) :
    ∃ first hidden last, content = first ++ hidden ++ last ∧ first.length = limit / 2 ∧ last.length = limit / 2 ∧
      contentTable (some limit) content = first.map .row ++ [.unprinted hidden.length] ++ last.map .row := by
  refine ⟨content.take (limit / 2), (content.drop (limit / 2)).take (content.length - limit),
    content.drop (content.length - limit / 2), ?_, by simp; omega, by simp; omega, ?_⟩
  · have h1 : content.drop (content.length - limit / 2) = (content.drop (limit / 2)).drop (content.length - limit) := by
      rw [List.drop_drop]
      congr 1
      omega
    rw [h1, List.append_assoc, List.take_append_drop, List.take_append_drop]
  · unfold contentTable
    dsimp only
    rw [if_pos hl, if_pos h, if_pos (by omega)]
    have : ((content.drop (limit / 2)).take (content.length - limit)).length = content.length - limit := by
      simp
      omega
    rw [this]
    simp [lastRows]

/-- Between the half of an even limit and the limit, more lines than rows are shown: some rows are shown twice. -/
theorem C58_duplicated_violated {limit : Nat} (hl : 1 < limit) (he : limit % 2 = 0) (content : List ρ)
    (h1 : limit / 2 < content.length) (h2 : content.length < limit) :
    (contentTable (some limit) content).length = limit := by
  unfold contentTable
  dsimp only
  rw [if_pos hl, if_neg (by omega), if_pos (by omega)]
  simp [lastRows]
  omega

/-- Beyond an odd limit, one more row is hidden than announced. -/
theorem C58_odd_violated {limit : Nat} (hl : 1 < limit) (he : limit % 2 = 1) (content : List ρ) (h : limit < content.length) :
    .unprinted (content.length - limit) ∈ contentTable (some limit) content ∧
    (contentTable (some limit) content).length - 1 = limit - 1 := by
  unfold contentTable
  dsimp only
  rw [if_pos hl, if_pos h, if_pos (by omega)]
  refine ⟨by simp, ?_⟩
  simp [lastRows]
  omega

/-- A limit of one row: no row is shown at all. -/
theorem C58_one_violated (content : List ρ) : contentTable (some 1) content = [] := by
  simp [contentTable]

example : contentTable (some 12) (List.range 7) =
    [.row 0, .row 1, .row 2, .row 3, .row 4, .row 5, .row 1, .row 2, .row 3, .row 4, .row 5, .row 6] := by decide

/-! ### C84: rows of a table -/

theorem cell_length (limit : Nat) (s : List Char) : (cell limit s).length ≤ limit + 3 ∧
    (s.length ≤ limit → cell limit s = s) ∧ (limit < s.length → cell limit s = s.take limit ++ ['.', '.', '.']) := by
  unfold cell
  refine ⟨?_, fun h => ?_, fun h => ?_⟩
  · split <;> simp <;> omega
  · rw [if_neg (by omega), List.take_of_length_le h, List.append_nil]
  · rw [if_pos h]

theorem tableLine_eq (limit : Nat) (row : List (List Char)) :
    tableLine limit row = '|' :: (row.flatMap fun v => ' ' :: cell limit v ++ [' ', '|']) ++ ['\n'] := by
  have : ∀ (row : List (List Char)) (acc : List Char), row.foldl (fun line v => line ++ [' '] ++ cell limit v ++ [' ', '|']) acc =
      acc ++ row.flatMap fun v => ' ' :: cell limit v ++ [' ', '|'] := by
    intro row
    induction row with
    | nil => simp
    | cons v row ih => intro acc; rw [List.foldl_cons, ih]; simp
  unfold tableLine
  rw [this]
  simp

/-- A cell shows its text if it fits, its beginning and three dots otherwise. -/
theorem C84_cells (limit : Nat) (s : List Char) : (s.length ≤ limit → cell limit s = s) ∧
    (limit < s.length → cell limit s = s.take limit ++ "...".toList) := (cell_length limit s).2

theorem count_cells (limit : Nat) : ∀ (row : List (List Char)), (∀ v ∈ row, '|' ∉ v) →
    (row.flatMap fun v => ' ' :: cell limit v ++ [' ', '|']).count '|' = row.length
  | [], _ => rfl
  | v :: row, h => by
    have ih := count_cells limit row fun w hw => h w (.tail _ hw)
    have hc : (cell limit v).count '|' = 0 := by
      rw [List.count_eq_zero]
      unfold cell
      simp only [List.mem_append, not_or]
      refine ⟨fun hc => h v (.head _) (List.mem_of_mem_take hc), ?_⟩
      split <;> decide
    rw [List.flatMap_cons, List.count_append, ih]
    simp [hc]
    omega

/-- A row takes one line with as many cells as values, if no value holds a newline nor a vertical bar. Missing for the full
property: the other values (`C84_violated`). -/
theorem C84_partial (limit : Nat) (row : List (List Char)) (hn : ∀ v ∈ row, '\n' ∉ v) (hb : ∀ v ∈ row, '|' ∉ v) :
    (tableLine limit row).count '\n' = 1 ∧ (tableLine limit row).getLast? = some '\n' ∧
    (tableLine limit row).count '|' = row.length + 1 := by
  rw [tableLine_eq]
  refine ⟨?_, List.getLast?_concat, ?_⟩
  · have : (row.flatMap fun v => ' ' :: cell limit v ++ [' ', '|']).count '\n' = 0 := by
      rw [List.count_eq_zero]
      intro hc
      obtain ⟨v, hv, hm⟩ := List.mem_flatMap.1 hc
      unfold cell at hm
      simp only [List.cons_append, List.mem_cons, List.mem_append, List.not_mem_nil, or_false] at hm
      rcases hm with hm | (hm | hm) | hm | hm
      · exact absurd hm (by decide)
      · exact hn v hv (List.mem_of_mem_take hm)
      · split at hm <;> exact absurd hm (by decide)
      · exact absurd hm (by decide)
      · exact absurd hm (by decide)
    rw [List.count_append, List.count_cons, this]
    rfl
  · rw [List.count_append, List.count_cons, count_cells limit row hb]
    simp

/-- A value holding a newline breaks its row in two lines. -/
theorem C84_violated : (tableLine 25 ["first\nsecond".toList]).count '\n' = 2 := by decide

example : tableLine 5 ["ab".toList, "abcdefgh".toList] = "| ab | abcde... |\n".toList := by decide

/-! ### C59: Excel sheets -/

theorem duplicateLoop_spec : ∀ (l seen : List String), (duplicateLoop seen l = none ↔ l.Nodup ∧ ∀ a ∈ l, a ∉ seen) ∧
    ∀ a, duplicateLoop seen l = some a → ∃ pre post, l = pre ++ a :: post ∧ (a ∈ pre ∨ a ∈ seen) ∧ pre.Nodup ∧ ∀ b ∈ pre, b ∉ seen
  | [], seen => by simp [duplicateLoop]
  | x :: l, seen => by
    obtain ⟨h1, h2⟩ := duplicateLoop_spec l (x :: seen)
    unfold duplicateLoop
    by_cases hx : x ∈ seen
    · rw [if_pos hx]
      refine ⟨by simp [hx], fun a ha => ?_⟩
      simp only [Option.some.injEq] at ha
      subst ha
      exact ⟨[], l, rfl, .inr hx, by simp, by simp⟩
    · rw [if_neg hx]
      constructor
      · rw [h1]
        simp only [List.nodup_cons, List.mem_cons, forall_eq_or_imp, not_or]
        constructor
        · rintro ⟨hn, ha⟩
          exact ⟨⟨fun hc => (ha x hc).1 rfl, hn⟩, hx, fun a h => (ha a h).2⟩
        · rintro ⟨⟨hn1, hn⟩, -, ha⟩
          exact ⟨hn, fun a h => ⟨fun hc => hn1 (hc ▸ h), ha a h⟩⟩
      · intro a ha
        obtain ⟨pre, post, rfl, hor, hnd, hns⟩ := h2 a ha
        refine ⟨x :: pre, post, rfl, ?_, ?_, ?_⟩
        · rcases hor with h | h
          · exact .inl (.tail _ h)
          · rcases List.mem_cons.1 h with rfl | h
            · exact .inl (.head _)
            · exact .inr h
        · rw [List.nodup_cons]
          exact ⟨fun hc => hns x hc (.head _), hnd⟩
        · intro b hb
          rcases List.mem_cons.1 hb with rfl | hb
          · exact hx
          · exact fun hc => hns b hb (.tail _ hc)

/-- The check returns None exactly if the titles are distinct, and else the first title seen twice. -/
theorem C59_duplicates (attributes : List String) : (checkDuplicateAttributes attributes = none ↔ attributes.Nodup) ∧
    ∀ a, checkDuplicateAttributes attributes = some a → ∃ pre post, attributes = pre ++ a :: post ∧ a ∈ pre ∧ pre.Nodup := by
  obtain ⟨h1, h2⟩ := duplicateLoop_spec attributes []
  refine ⟨by rw [checkDuplicateAttributes, h1]; simp, fun a ha => ?_⟩
  obtain ⟨pre, post, h3, h4, h5, -⟩ := h2 a ha
  exact ⟨pre, post, h3, by simpa using h4, h5⟩

/-- Spec: an argument without default value has no column. -/
def MissingRequired (init : InitArgs) (attributes : List String) : Prop := ∃ p ∈ init, p.2 = false ∧ p.1 ∉ attributes

theorem getData_spec {β : Type} (init : InitArgs) : ∀ (avs : List (String × β)) (d : List (String × β)),
    (∀ q, q ∈ (avs.foldl (fun d av => if av.1 ∈ init.map (·.1) then Dict.set d av.1 av.2 else d) d).map (·.1) ↔
      q ∈ d.map (·.1) ∨ (q ∈ init.map (·.1) ∧ q ∈ avs.map (·.1))) ∧
    (∀ q, q ∉ avs.map (·.1) →
      (avs.foldl (fun d av => if av.1 ∈ init.map (·.1) then Dict.set d av.1 av.2 else d) d).lookup q = d.lookup q) ∧
    ((avs.map (·.1)).Nodup → ∀ av ∈ avs, av.1 ∈ init.map (·.1) →
      (avs.foldl (fun d av => if av.1 ∈ init.map (·.1) then Dict.set d av.1 av.2 else d) d).lookup av.1 = some av.2)
  | [], d => by simp
  | av :: avs, d => by
    obtain ⟨h1, h2, h3⟩ := getData_spec init avs (if av.1 ∈ init.map (·.1) then Dict.set d av.1 av.2 else d)
    refine ⟨fun q => ?_, fun q hq => ?_, fun hn bv hb hi => ?_⟩
    · rw [List.foldl_cons, h1, List.map_cons, List.mem_cons]
      split
      · rename_i hi
        rw [Dict.mem_keys_set]
        constructor
        · rintro ((rfl | h) | h)
          · exact .inr ⟨hi, .inl rfl⟩
          · exact .inl h
          · exact .inr ⟨h.1, .inr h.2⟩
        · rintro (h | ⟨h, rfl | h'⟩)
          · exact .inl (.inr h)
          · exact .inl (.inl rfl)
          · exact .inr ⟨h, h'⟩
      · rename_i hi
        constructor
        · rintro (h | h)
          · exact .inl h
          · exact .inr ⟨h.1, .inr h.2⟩
        · rintro (h | ⟨h, rfl | h'⟩)
          · exact .inl h
          · exact absurd h hi
          · exact .inr ⟨h, h'⟩
    · rw [List.map_cons, List.mem_cons, not_or] at hq
      rw [List.foldl_cons, h2 q hq.2]
      split
      · rw [Dict.lookup_set, if_neg hq.1]
      · rfl
    · rw [List.map_cons, List.nodup_cons] at hn
      rcases List.mem_cons.1 hb with rfl | hb
      · rw [List.foldl_cons, h2 _ hn.1, if_pos hi, Dict.lookup_set, if_pos rfl]
      · exact h3 hn.2 bv hb hi

theorem createObject_spec {β : Type} (init : InitArgs) {attributes : List String} {values : List β}
    (hl : attributes.length = values.length) :
    (MissingRequired init attributes → createObject init attributes values = .error .typeError) ∧
    (¬ MissingRequired init attributes → createObject init attributes values = .ok (getData init attributes values)) := by
  have hkeys : ∀ q, q ∈ (getData init attributes values).map (·.1) ↔ q ∈ init.map (·.1) ∧ q ∈ attributes := by
    intro q
    have := (getData_spec init (attributes.zip values) []).1 q
    rw [List.map_fst_zip (by omega)] at this
    rw [getData, this]
    simp
  unfold createObject
  dsimp only
  constructor
  · rintro ⟨p, hp, h2, h3⟩
    rw [if_pos]
    rw [List.any_eq_true]
    refine ⟨p, hp, ?_⟩
    have : p.1 ∉ (getData init attributes values).map (·.1) := fun hc => h3 ((hkeys p.1).1 hc).2
    simp [h2]
    simpa using this
  · intro h
    rw [if_neg]
    rw [List.any_eq_true]
    rintro ⟨p, hp, hc⟩
    simp only [Bool.and_eq_true, Bool.not_eq_true', List.contains_eq_mem, decide_eq_false_iff_not] at hc
    refine h ⟨p, hp, hc.2, fun ha => hc.1 ((hkeys p.1).2 ⟨List.mem_map.2 ⟨p, hp, rfl⟩, ha⟩)⟩

/-- Reading a sheet which holds an object fails whenever a required attribute has no column, and succeeds otherwise. -/
theorem C59_missing {β : Type} (init : InitArgs) {attributes : List String} {rows : List (List β)} (hne : rows ≠ [])
    (hl : ∀ r ∈ rows, attributes.length = r.length) :
    (∃ e, readSheet init attributes rows = .error e) ↔ MissingRequired init attributes := by
  have hrow := fun r hr => createObject_spec (β := β) init (hl r hr)
  constructor
  · rintro ⟨e, he⟩
    by_contra hno
    have hm : missedAttribute init attributes = .ok () := by
      unfold missedAttribute
      split
      · rw [if_neg]
        rw [List.any_eq_true]
        rintro ⟨p, hp, hc⟩
        simp only [Bool.and_eq_true, Bool.not_eq_true', List.contains_eq_mem, decide_eq_false_iff_not] at hc
        exact hno ⟨p, hp, hc.2, hc.1⟩
      · rfl
    have : rows.mapM (createObject init attributes) = .ok (rows.map (getData init attributes)) := by
      rw [Py.mapM_ok]
      clear he hne
      induction rows with
      | nil => exact .nil
      | cons r rows ih =>
        exact .cons ((hrow r (.head _)).2 hno) (ih (fun q hq => hl q (.tail _ hq)) (fun q hq => hrow q (.tail _ hq)))
    simp [readSheet, hm, this, bind, Except.bind] at he
  · intro hm
    obtain ⟨r, rows, rfl⟩ := List.exists_cons_of_ne_nil hne
    unfold readSheet
    cases hmiss : missedAttribute init attributes with
    | error e => exact ⟨e, rfl⟩
    | ok u =>
      refine ⟨.typeError, ?_⟩
      simp only [bind, Except.bind]
      rw [List.mapM_cons, (hrow r (.head _)).1 hm]
      rfl

/-- Each object is given the value of its row under the title of each attribute. -/
theorem C59_values {β : Type} {init : InitArgs} {attributes : List String} {rows : List (List β)}
    {objects : List (List (String × β))} (hl : ∀ r ∈ rows, attributes.length = r.length) (hn : attributes.Nodup)
    (h : readSheet init attributes rows = .ok objects) :
    List.Forall₂ (fun r o => ∀ (i : Nat) (a : String) (v : β), attributes[i]? = some a → r[i]? = some v →
      o.lookup a = if a ∈ init.map (·.1) then some v else none) rows objects := by
  unfold readSheet at h
  cases hmiss : missedAttribute init attributes with
  | error e => simp [hmiss, bind, Except.bind] at h
  | ok u =>
    simp only [hmiss, bind, Except.bind] at h
    rw [Py.mapM_ok] at h
    have key : ∀ r ∈ rows, ∀ o, createObject init attributes r = .ok o → ∀ (i : Nat) (a : String) (v : β), attributes[i]? = some a →
        r[i]? = some v → o.lookup a = if a ∈ init.map (·.1) then some v else none := by
      intro r hr o ho i a v ha hv
      have hlr := hl r hr
      have hz := List.map_fst_zip (l₁ := attributes) (l₂ := r) (by omega)
      have : o = getData init attributes r := by
        unfold createObject at ho
        dsimp only at ho
        split at ho
        · simp at ho
        · simpa using ho.symm
      rw [this]
      have hm : (a, v) ∈ attributes.zip r := by
        rw [List.mem_iff_getElem?]
        exact ⟨i, by rw [List.getElem?_zip_eq_some]; exact ⟨ha, hv⟩⟩
      obtain ⟨h1, h2, h3⟩ := getData_spec init (attributes.zip r) []
      split
      · rename_i hi
        exact h3 (by rw [hz]; exact hn) _ hm hi
      · rename_i hi
        have hk := h1 a
        have : a ∉ (getData init attributes r).map (·.1) := fun hc => hi (by
          rcases hk.1 hc with h | h
          · simp at h
          · exact h.1)
        exact Dict.lookup_none.2 this
    clear hmiss hl
    induction h with
    | nil => exact .nil
    | cons h1 h2 ih => exact .cons (key _ (.head _) _ h1) (ih fun r hr => key r (.tail _ hr))

/-- The check of missing attributes made when the sheet is opened does not see a missing attribute when an other title
stands for it. -/
theorem C59_check_violated : MissingRequired [("length", false), ("name", true)] ["lenght", "name"] ∧
    missedAttribute [("length", false), ("name", true)] ["lenght", "name"] = .ok () := by
  refine ⟨⟨("length", false), .head _, rfl, by decide⟩, rfl⟩

example : readSheet [("length", false), ("name", true)] ["name", "length"] [["a", "1"], ["b", "2"]] =
    .ok [[("name", "a"), ("length", "1")], [("name", "b"), ("length", "2")]] := by rfl

/-! ### C60, C85 and C86: display settings -/

/-- A display setting is recovered from its dictionary, with all its data. -/
theorem C60_roundtrip (d : Display) : Display.ofDict d.toDict = .ok d := rfl

/-- A document without one of the entries which `to_dict` writes is not read: a KeyError is raised. -/
theorem C60_missing (d : Display) : ∀ k ∈ ["selector", "type", "method", "arguments", "serialize_data", "load_by_default"],
    Display.ofDict (d.toDict.filter fun e => e.1 != k) = .error .keyError := by
  intro k hk
  simp only [List.mem_cons, List.not_mem_nil, or_false] at hk
  rcases hk with rfl | rfl | rfl | rfl | rfl | rfl <;> rfl

example : Display.ofDict ((Display.init (some "Tree") "markdown" "to_markdown" none false true).toDict.filter fun e => e.1 != "selector") = .error .keyError :=
  C60_missing _ "selector" (by decide)

/-- Two settings are equal exactly if they have the same selector, type, method and flags; then they have the same hash. -/
theorem C60_equality (h : String → Int) (ho : Option String → Int) (d e : Display) :
    (d.eq e = true ↔ d.selector = e.selector ∧ d.type = e.type ∧ d.method = e.method ∧ d.serializeData = e.serializeData ∧
      d.loadByDefault = e.loadByDefault) ∧ (d.eq e = true → d.hash h ho = e.hash h ho) := by
  have key : d.eq e = true ↔ d.selector = e.selector ∧ d.type = e.type ∧ d.method = e.method ∧
      d.serializeData = e.serializeData ∧ d.loadByDefault = e.loadByDefault := by
    simp [Display.eq, and_assoc]
  refine ⟨key, fun hc => ?_⟩
  obtain ⟨h1, h2, h3, h4, h5⟩ := key.1 hc
  simp [Display.hash, h1, h2, h3, h4, h5]

/-- Composing with attributes, from the innermost to the outermost, gives the method called on the whole path, the outermost
attribute first; the rest is unchanged. -/
theorem C60_compose (d : Display) (attrs : List String) : attrs.foldl Display.compose d =
    { d with method := attrs.reverse.foldr (fun a m => a ++ "." ++ m) d.method } := by
  induction attrs generalizing d with
  | nil => rfl
  | cons a attrs ih =>
    rw [List.foldl_cons, ih]
    simp [Display.compose, List.foldr_append]

example : (["wheel", "car"].foldl Display.compose (Display.init (some "2D") "plot" "draw" none true false)).method =
    "car.wheel.draw" := by decide

/-- Two settings of the same method with different arguments, hence with different displays, are equal. -/
theorem C85_violated : ∃ d e : Display, d.eq e = true ∧ d.referencePath ≠ e.referencePath :=
  ⟨Display.init (some "3D") "cad" "volmdlr_volume_model" (some [("reference_path", .str "#/a")]) true false,
   Display.init (some "3D") "cad" "volmdlr_volume_model" (some [("reference_path", .str "#/b")]) true false, by decide, by decide⟩

/-- Equal settings with equal arguments are the same.
Missing: equal settings with different arguments (`C85_violated`). -/
theorem C85_partial (d e : Display) (h : d.eq e = true) (ha : d.arguments = e.arguments) : d = e := by
  obtain ⟨h1, h2, h3, h4, h5⟩ := (C60_equality (fun _ => 0) (fun _ => 0) d e).1.1 h
  cases d; cases e; simp_all

/-- Looking for a selector returns the first setting having it, and raises a ValueError if there is none. -/
theorem C86_selector (settings : List Display) (selector : Option String) :
    (∀ d, displayFromSelector settings selector = .ok d ↔ ∃ pre post, settings = pre ++ d :: post ∧ d.selector = selector ∧
      ∀ e ∈ pre, e.selector ≠ selector) ∧
    ((∀ e ∈ settings, e.selector ≠ selector) → displayFromSelector settings selector = .error .valueError) := by
  constructor
  · intro d
    unfold displayFromSelector
    cases hf : settings.find? (fun d => d.selector == selector) with
    | none =>
      simp only [reduceCtorEq, false_iff]
      rintro ⟨pre, post, rfl, h1, -⟩
      rw [List.find?_eq_none] at hf
      exact hf d (by simp) (by simp [h1])
    | some e =>
      simp only [Except.ok.injEq]
      obtain ⟨h1, pre, post, h2, h3⟩ := List.find?_eq_some_iff_append.1 hf
      constructor
      · rintro rfl
        exact ⟨pre, post, h2, by simpa using h1, fun q hq => by simpa using h3 q hq⟩
      · rintro ⟨pre', post', h2', h1', h3'⟩
        have : settings.find? (fun d => d.selector == selector) = some d := by
          rw [List.find?_eq_some_iff_append]
          exact ⟨by simpa using h1', pre', post', h2', fun q hq => by simpa using h3' q hq⟩
        rw [hf] at this
        simpa using this
  · intro h
    unfold displayFromSelector
    rw [List.find?_eq_none.2 (fun e he => by simpa using h e he)]

/-! ### C62: steps of a schema -/

/-- The step found is the only one holding the attribute; None is returned if there is none; a ValueError is raised if
several steps hold it. -/
theorem C62_step (steps : List (List String)) (name : String) :
    (∀ s, findAttributeStep steps name = .ok (some s) ↔ ∃ pre post, steps = pre ++ s :: post ∧ name ∈ s ∧
      (∀ t ∈ pre, name ∉ t) ∧ ∀ t ∈ post, name ∉ t) ∧
    (findAttributeStep steps name = .ok none ↔ ∀ t ∈ steps, name ∉ t) ∧
    (findAttributeStep steps name = .error .valueError ↔ 2 ≤ (steps.filter fun t => t.contains name).length) := by
  have hnone : ∀ l : List (List String), l.filter (fun t => t.contains name) = [] ↔ ∀ t ∈ l, name ∉ t := by
    intro l; simp
  have hone : ∀ (l : List (List String)) (s : List String), l.filter (fun t => t.contains name) = [s] ↔ ∃ pre post,
      l = pre ++ s :: post ∧ name ∈ s ∧ (∀ t ∈ pre, name ∉ t) ∧ ∀ t ∈ post, name ∉ t := by
    intro l s
    constructor
    · intro h
      obtain ⟨pre, post, h1, h2, h3, h4⟩ := List.filter_eq_cons_iff.1 h
      exact ⟨pre, post, h1, by simpa using h3, fun t ht => by simpa using h2 t ht, (hnone post).1 h4⟩
    · rintro ⟨pre, post, rfl, h1, h2, h3⟩
      rw [List.filter_append, (hnone pre).2 h2, List.filter_cons, if_pos (by simpa using h1), (hnone post).2 h3]
      rfl
  unfold findAttributeStep
  refine ⟨fun s => ?_, ?_, ?_⟩
  · rw [← hone]
    generalize (steps.filter fun t => t.contains name) = L
    match L with
    | [] => simp
    | [a] => simp
    | a :: b :: l => simp
  · rw [← hnone]
    generalize (steps.filter fun t => t.contains name) = L
    match L with
    | [] => simp
    | [a] => simp
    | a :: b :: l => simp
  · generalize (steps.filter fun t => t.contains name) = L
    match L with
    | [] => simp
    | [a] => simp
    | a :: b :: l => simp

example : findAttributeStep [["a", "b"], [], ["c"]] "c" = .ok (some ["c"]) := rfl

end DC.Txt
