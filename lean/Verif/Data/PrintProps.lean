import Verif.Data.Print
import Verif.Util.PyList
/-
Specification and properties of the printing of datasets (C94, C95).
-/
namespace DC.Data

variable {ω : Type}

/-! ### C95: alignment -/

/-- The cell of a value has the width of its column. -/
theorem C95_width {w : Nat} (hw : 5 ≤ w) (v : Chars) : (valueCell w v).length = w := by
  unfold valueCell spaces
  dsimp only
  split
  · rename_i h
    have : max (w - v.length - 1) 1 = 1 := by omega
    simp [this]
    omega
  · split
    · rename_i h1 h2
      simp
      omega
    · simp
      omega

/-- A value short enough is shown in full, after spaces and before a space. -/
theorem C95_short {w : Nat} {v : Chars} (h : v.length + 3 ≤ w) (hv : v ≠ []) : valueCell w v = spaces (w - v.length - 1) ++ v ++ [' '] := by
  have hpos : 0 < v.length := List.length_pos_iff.2 hv
  unfold valueCell
  dsimp only
  have hmax : max (w - v.length - 1) 1 = w - v.length - 1 := by omega
  rw [hmax, if_neg (by omega)]
  split
  · rename_i h2
    have : w - 4 = v.length - 1 := by omega
    rw [this]
    have h3 : v.take (v.length - 1) ++ (v.drop (v.length - 1)).take 1 = v := by
      rw [List.take_of_length_le (l := v.drop _) (by simp; omega), List.take_append_drop]
    simp only [List.append_assoc]
    rw [← List.append_assoc (v.take _), h3]
  · rw [List.take_of_length_le (by omega)]

/-- An other value is shown by its beginning followed by three dots. -/
theorem C95_long {w : Nat} {v : Chars} (h5 : 5 ≤ w) (h : w < v.length + 3) : valueCell w v = [' '] ++ v.take (w - 5) ++ "... ".toList := by
  unfold valueCell
  dsimp only
  have hmax : max (w - v.length - 1) 1 = 1 := by omega
  rw [hmax, if_pos (by omega)]
  congr 1
  have : v.take (w - 4) ≠ [] := by
    intro hc
    have := congrArg List.length hc
    rw [List.length_take, List.length_nil] at this
    omega
  rw [List.dropLast_append_of_ne_nil this, List.dropLast_eq_take, List.take_take, List.length_take]
  congr 2
  omega

theorem titleCell_ok {cap : String → Chars} {odd : Option Nat} {attr : String} {r : Option Nat × Chars} (h : titleCell cap odd attr = .ok r) :
    r.1.isSome ∧ (attr.toList.length ≤ (cap attr).length → 16 ≤ r.2.length) ∧ ∃ a b, r.2 = spaces a ++ cap attr ++ spaces b := by
  unfold titleCell at h
  dsimp only at h
  by_cases hn : attr.toList.length + 6 > 16
  · rw [if_pos hn] at h
    cases odd with
    | none => simp at h
    | some o =>
      simp only [Except.ok.injEq] at h
      subst h
      refine ⟨rfl, fun hc => ?_, 3 + o, 3, ?_⟩
      · simp [spaces]
        omega
      · simp [spaces, ← List.replicate_append_replicate]
  · rw [if_neg hn] at h
    simp only [Except.ok.injEq] at h
    subst h
    refine ⟨rfl, fun hc => ?_, (16 - attr.toList.length) / 2 + (16 - attr.toList.length) % 2, (16 - attr.toList.length) / 2, ?_⟩
    · simp only [spaces, List.length_append, List.length_replicate]
      omega
    · simp [spaces, ← List.replicate_append_replicate]

theorem titleCells_some (cap : String → Chars) : ∀ (attrs : List String) (o : Nat), ∃ cells, titleCells cap (some o) attrs = .ok cells
  | [], _ => ⟨[], rfl⟩
  | a :: attrs, o => by
    have : ∃ r, titleCell cap (some o) a = .ok r := by
      unfold titleCell
      dsimp only
      by_cases hn : a.toList.length + 6 > 16
      · rw [if_pos hn]; exact ⟨_, rfl⟩
      · rw [if_neg hn]; exact ⟨_, rfl⟩
    obtain ⟨r, hr⟩ := this
    obtain ⟨h1, -⟩ := titleCell_ok hr
    obtain ⟨r1, r2⟩ := r
    cases r1 with
    | none => simp at h1
    | some o' =>
      obtain ⟨cells, hc⟩ := titleCells_some cap attrs o'
      exact ⟨r2 :: cells, by rw [titleCells, hr]; simp [bind, Except.bind, hc]⟩

theorem titleCells_spec {cap : String → Chars} (hcap : ∀ a : String, a.toList.length ≤ (cap a).length) : ∀ {attrs : List String} {odd : Option Nat} {cells : List Chars},
    titleCells cap odd attrs = .ok cells → List.Forall₂ (fun a c => 16 ≤ c.length ∧ ∃ i j, c = spaces i ++ cap a ++ spaces j) attrs cells
  | [], odd, cells, h => by
    simp only [titleCells, Except.ok.injEq] at h
    subst h
    exact .nil
  | a :: attrs, odd, cells, h => by
    rw [titleCells] at h
    cases h1 : titleCell cap odd a with
    | error e => rw [h1] at h; simp [bind, Except.bind] at h
    | ok r =>
      rw [h1] at h
      obtain ⟨r1, r2⟩ := r
      simp only [bind, Except.bind] at h
      cases h2 : titleCells cap r1 attrs with
      | error e => rw [h2] at h; simp at h
      | ok cs =>
        rw [h2] at h
        simp only [Except.ok.injEq] at h
        subst h
        obtain ⟨-, g1, g2⟩ := titleCell_ok h1
        exact .cons ⟨g1 (hcap a), g2⟩ (titleCells_spec hcap h2)

/-- Two rows are aligned: same number of cells, of the same widths. -/
def SameWidths (a b : List Chars) : Prop := a.map List.length = b.map List.length

theorem forall2_length {α β : Type} {R : α → β → Prop} : ∀ {l : List α} {m : List β}, List.Forall₂ R l m → l.length = m.length
  | _, _, .nil => rfl
  | _, _, .cons _ h => by simp [forall2_length h]

theorem values_aligned (v : String → Chars) : ∀ {attrs : List String} {cells : List Chars}, attrs.length = cells.length → (∀ c ∈ cells, 16 ≤ c.length) →
    SameWidths (List.zipWith (fun w a => valueCell w (v a)) (cells.map List.length) attrs) cells
  | [], [], _, _ => rfl
  | a :: attrs, c :: cells, h, hc => by
    have ih := values_aligned v (attrs := attrs) (cells := cells) (by simpa using h) fun x hx => hc x (.tail _ hx)
    unfold SameWidths at ih ⊢
    rw [List.map_cons, List.zipWith_cons_cons, List.map_cons, ih, C95_width (by have := hc c (.head _); omega)]
  | [], _ :: _, h, _ => by simp at h
  | _ :: _, [], h, _ => by simp at h

theorem row_length {a b : List Chars} (h : SameWidths a b) : (row a).length = (row b).length := by
  have hl : a.length = b.length := by simpa using congrArg List.length h
  have hs : (a.flatMap fun c => '|' :: c).length = (b.flatMap fun c => '|' :: c).length := by
    unfold SameWidths at h
    clear hl
    induction a generalizing b with
    | nil =>
      cases b with
      | nil => rfl
      | cons y b => simp at h
    | cons x a ih =>
      cases b with
      | nil => simp at h
      | cons y b =>
        simp only [List.map_cons, List.cons.injEq] at h
        simp only [List.flatMap_cons, List.length_append, List.length_cons, h.1, ih h.2]
  unfold row
  rw [List.length_append, List.length_append, hs]
  cases a with
  | nil =>
    cases b with
    | nil => rfl
    | cons y b => simp at hl
  | cons x a =>
    cases b with
    | nil => simp at hl
    | cons y b => simp

/-- When `name` is not a common attribute, titles are printed; each is between spaces, and the cells of every object are aligned
with the titles.  `cap`, the capitalization, does not shorten strings.  Missing for the full property: datasets with a common
attribute `name` (`C95_titles_violated`). -/
theorem C95_partial {cap : String → Chars} (hcap : ∀ a : String, a.toList.length ≤ (cap a).length) (shown : ω → String → Chars) {common : List String}
    (hname : "name" ∉ common) :
    ∃ cells, titleCells cap none (printedAttributes common) = .ok cells ∧
      List.Forall₂ (fun a c => ∃ i j, c = spaces i ++ cap a ++ spaces j) ("name" :: common) cells ∧
      ∀ (objects : List ω) (k : Nat) (o : ω), objects[k]? = some o → ∃ values, SameWidths values cells ∧
        printObject shown objects common (cells.map List.length) k = .ok (row values) ∧ (row values).length = (row cells).length := by
  have hp : printedAttributes common = "name" :: common := by rw [printedAttributes, if_neg hname]
  have hex : ∃ cells, titleCells cap none ("name" :: common) = .ok cells := by
    obtain ⟨cells, hc⟩ := titleCells_some cap common 0
    exact ⟨_ :: cells, by rw [titleCells]; simp [titleCell, bind, Except.bind, hc]; rfl⟩
  obtain ⟨cells, hc⟩ := hex
  have hspec := titleCells_spec hcap hc
  refine ⟨cells, by rw [hp]; exact hc, hspec.imp fun _ _ h => h.2, fun objects k o ho => ?_⟩
  have hall : ∀ c ∈ cells, 16 ≤ c.length := by
    intro c hm
    obtain ⟨a, -, h⟩ := Py.forall2_right hspec hm
    exact h.1
  have hal := values_aligned (shown o) (forall2_length hspec) hall
  exact ⟨_, hal, by rw [printObject, ho, hp], row_length hal⟩

/-- With a common attribute `name` after an attribute of more than ten characters, nothing is printed: a local variable is read
before it is set. -/
theorem C95_titles_violated (cap : String → Chars) (shown : Nat → String → Chars) :
    strLines cap shown "Dataset".toList [0, 1] ["displacement", "name"] = .error .nameError := rfl

example : ∃ cells, titleCells (fun s => s.toList) none (printedAttributes ["mpg", "displacement_x"]) = .ok cells ∧
    row cells = "|      name      |       mpg      |    displacement_x   |".toList ∧
    printObject (fun (n : Nat) a => (toString n).toList ++ a.toList) [7, 8] ["mpg", "displacement_x"] (cells.map List.length) 1 =
      .ok "|          8name |           8mpg |     8displacement_x |".toList := ⟨_, rfl, by decide +kernel, by decide +kernel⟩

/-! ### C94: objects printed -/

/-- Specification: the rows of the objects of `l`, printed under titles of the given widths. -/
def rowsOf (shown : ω → String → Chars) (common : List String) (widths : List Nat) (l : List ω) : List Chars :=
  l.map fun o => row (List.zipWith (fun w a => valueCell w (shown o a)) widths (printedAttributes common))

theorem slice_rows (shown : ω → String → Chars) (common : List String) (widths : List Nat) : ∀ (m : Nat) (objects : List ω), m ≤ objects.length →
    printObjectsSlice shown objects common widths m = .ok (rowsOf shown common widths (objects.take m)) := by
  intro m objects h
  unfold printObjectsSlice
  induction m with
  | zero => rfl
  | succ m ih =>
    rw [List.range_succ, List.mapM_append, ih (by omega)]
    have hm : m < objects.length := by omega
    simp only [bind, Except.bind, List.mapM_cons, List.mapM_nil, pure, Except.pure, printObject, List.getElem?_eq_getElem hm]
    rw [List.take_add_one, List.getElem?_eq_getElem hm]
    unfold rowsOf
    rw [List.map_append]
    rfl

theorem strLines_spec {cap : String → Chars} (shown : ω → String → Chars) (prefixLine : Chars) {objects : List ω} {common : List String} {cells : List Chars}
    (hc : titleCells cap none (printedAttributes common) = .ok cells) (hne : objects ≠ []) :
    ∃ message : List Chars, strLines cap shown prefixLine objects common = .ok ([prefixLine, row cells, List.replicate (row cells).length '-'] ++
      rowsOf shown common (cells.map List.length) (objects.take 5) ++ message ++
      (if objects.length > 5 then rowsOf shown common (cells.map List.length) (objects.take 5) else [])) ∧
      (objects.length ≤ 10 → message = []) ∧
      (10 < objects.length → ∃ s, message = ["+ ".toList ++ (toString (objects.length - 10)).toList ++ " undisplayed object".toList ++ s ++ "...".toList] ∧
        s = if objects.length = 11 then [] else ['s']) := by
  have h0 : objects.length ≠ 0 := by simpa using hne
  have htake : ∀ n, objects.take (min n objects.length) = objects.take n := by
    intro n
    rcases Nat.le_total n objects.length with h | h
    · rw [Nat.min_eq_left h]
    · rw [Nat.min_eq_right h, List.take_length, List.take_of_length_le h]
  have hs := slice_rows shown common (cells.map List.length) (min 5 objects.length) objects (Nat.min_le_right _ _)
  rw [htake] at hs
  unfold strLines
  rw [if_neg h0, hc]
  simp only [bind, Except.bind]
  rw [hs]
  refine ⟨if objects.length > 10 then
    ["+ ".toList ++ (toString (objects.length - 10)).toList ++ " undisplayed object".toList ++
      List.replicate (min (objects.length - 10) 2 - 1) 's' ++ "...".toList] else [], ?_, ?_, ?_⟩
  rotate_left
  · intro h
    exact if_neg (by omega)
  · intro h
    refine ⟨List.replicate (min (objects.length - 10) 2 - 1) 's', if_pos h, ?_⟩
    split
    · rename_i h11; rw [h11]; rfl
    · have : min (objects.length - 10) 2 - 1 = 1 := by omega
      rw [this]; rfl
  · dsimp only
    split <;> simp

/-- A dataset of at most five objects is printed with all its objects, in order, under the titles.  Missing for the full
property: longer datasets (`C94_violated`). -/
theorem C94_partial {cap : String → Chars} (shown : ω → String → Chars) (prefixLine : Chars) {objects : List ω} {common : List String} {cells : List Chars}
    (hc : titleCells cap none (printedAttributes common) = .ok cells) (hne : objects ≠ []) (h5 : objects.length ≤ 5) :
    strLines cap shown prefixLine objects common = .ok ([prefixLine, row cells, List.replicate (row cells).length '-'] ++
      rowsOf shown common (cells.map List.length) objects) := by
  obtain ⟨m, h1, h2, -⟩ := strLines_spec shown prefixLine hc hne
  rw [h1, h2 (by omega), if_neg (by omega), List.take_of_length_le h5]
  simp

example : ∃ cells, titleCells (fun s => s.toList) none (printedAttributes ["mpg"]) = .ok cells ∧
    strLines (fun s => s.toList) (fun (n : Nat) _ => (toString n).toList) [] [10, 11] ["mpg"] =
      .ok ([[], row cells, List.replicate (row cells).length '-'] ++
        rowsOf (fun (n : Nat) _ => (toString n).toList) ["mpg"] (cells.map List.length) [10, 11]) :=
  ⟨_, rfl, C94_partial _ _ rfl (by simp) (by simp)⟩

/-- A longer dataset is printed with its first five objects, then the number of objects which are not shown. -/
theorem C94_first {cap : String → Chars} (shown : ω → String → Chars) (prefixLine : Chars) {objects : List ω} {common : List String} {cells : List Chars}
    (hc : titleCells cap none (printedAttributes common) = .ok cells) (h10 : 10 < objects.length) :
    ∃ s last, (s = if objects.length = 11 then [] else ['s']) ∧
      strLines cap shown prefixLine objects common = .ok ([prefixLine, row cells, List.replicate (row cells).length '-'] ++
      rowsOf shown common (cells.map List.length) (objects.take 5) ++
      ["+ ".toList ++ (toString (objects.length - 10)).toList ++ " undisplayed object".toList ++ s ++ "...".toList] ++ last) := by
  have hne : objects ≠ [] := by rintro rfl; simp at h10
  obtain ⟨m, h1, -, h3⟩ := strLines_spec shown prefixLine hc hne
  obtain ⟨s, h4, h5⟩ := h3 h10
  exact ⟨s, _, h5, by rw [h1, h4]⟩

example : ∃ cells s last, titleCells (fun s => s.toList) none (printedAttributes ["mpg"]) = .ok cells ∧ s = ['s'] ∧
    strLines (fun s => s.toList) (fun (n : Nat) _ => (toString n).toList) [] (List.range 13) ["mpg"] =
      .ok ([[], row cells, List.replicate (row cells).length '-'] ++
        rowsOf (fun (n : Nat) _ => (toString n).toList) ["mpg"] (cells.map List.length) ((List.range 13).take 5) ++
        ["+ ".toList ++ (toString 3).toList ++ " undisplayed object".toList ++ s ++ "...".toList] ++ last) := by
  obtain ⟨s, last, h1, h2⟩ := C94_first (cap := fun s => s.toList) (fun (n : Nat) _ => (toString n).toList) [] (objects := List.range 13)
    (common := ["mpg"]) rfl (by simp)
  exact ⟨_, s, last, rfl, h1, h2⟩

/-- The rows printed at the end for the last five objects are again those of the first five, whatever the dataset. -/
theorem C94_violated {cap : String → Chars} (shown : ω → String → Chars) (prefixLine : Chars) {objects : List ω} {common : List String} {cells : List Chars}
    (hc : titleCells cap none (printedAttributes common) = .ok cells) (h5 : 5 < objects.length) :
    ∃ start, strLines cap shown prefixLine objects common = .ok (start ++ rowsOf shown common (cells.map List.length) (objects.take 5)) := by
  have hne : objects ≠ [] := by rintro rfl; simp at h5
  obtain ⟨m, h1, -, -⟩ := strLines_spec shown prefixLine hc hne
  exact ⟨_, by rw [h1, if_pos h5]⟩

/-- So that the sixth object of a dataset of six objects is never shown. -/
theorem C94_last_violated : ∃ lines, strLines (fun s => s.toList) (fun (n : Nat) _ => (toString n).toList) [] [10, 11, 12, 13, 14, 15] ["mpg"] = .ok lines ∧
    lines.drop 3 = ["|             10 |             10 |", "|             11 |             11 |", "|             12 |             12 |",
      "|             13 |             13 |", "|             14 |             14 |",
      "|             10 |             10 |", "|             11 |             11 |", "|             12 |             12 |",
      "|             13 |             13 |", "|             14 |             14 |"].map String.toList := ⟨_, rfl, by decide +kernel⟩

end DC.Data
