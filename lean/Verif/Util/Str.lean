/-
Python strings as lists of characters (model of a built-in type, no file of /repo).
-/
namespace DC.Str

/-- `s.split(sep)` for a one character separator.  Part of Python (no code). -/
def split (sep : Char) : List Char → List (List Char)
  | [] => [[]]
  | c :: cs =>
    if c = sep then [] :: split sep cs
    else match split sep cs with
      | [] => [[c]]
      | w :: ws => (c :: w) :: ws

/-- `sep.join(words)`.  Part of Python (no code). -/
def join (sep : List Char) : List (List Char) → List Char
  | [] => []
  | [w] => w
  | w :: w' :: ws => w ++ sep ++ join sep (w' :: ws)

theorem split_ne_nil (sep : Char) (cs : List Char) : split sep cs ≠ [] := by
  cases cs with
  | nil => simp [split]
  | cons c cs =>
    unfold split
    split
    · simp
    · split <;> simp

theorem split_cons_ne {sep c : Char} (h : c ≠ sep) (cs : List Char) : ∃ w ws, split sep cs = w :: ws ∧
    split sep (c :: cs) = (c :: w) :: ws := by
  cases hs : split sep cs with
  | nil => exact absurd hs (split_ne_nil sep cs)
  | cons w ws => exact ⟨w, ws, rfl, by simp [split, h, hs]⟩

theorem split_no_sep {sep : Char} : ∀ {cs w : List Char}, w ∈ split sep cs → sep ∉ w
  | [], w, h => by simp [split] at h; simp [h]
  | c :: cs, w, h => by
    by_cases hc : c = sep
    · subst hc
      simp only [split, if_true, List.mem_cons] at h
      rcases h with rfl | h
      · simp
      · exact split_no_sep h
    · obtain ⟨w', ws, h1, h2⟩ := split_cons_ne hc cs
      rw [h2] at h
      rcases List.mem_cons.1 h with rfl | h
      · have := split_no_sep (cs := cs) (w := w') (by rw [h1]; exact .head _)
        simp only [List.mem_cons, not_or]
        exact ⟨fun e => hc e.symm, this⟩
      · exact split_no_sep (cs := cs) (by rw [h1]; exact .tail _ h)

theorem join_cons {sep w : List Char} {ws : List (List Char)} (h : ws ≠ []) : join sep (w :: ws) = w ++ sep ++ join sep ws := by
  cases ws with
  | nil => exact absurd rfl h
  | cons w' ws => rfl

theorem join_split (sep : Char) : ∀ cs, join [sep] (split sep cs) = cs
  | [] => rfl
  | c :: cs => by
    by_cases hc : c = sep
    · subst hc
      simp only [split, if_true]
      rw [join_cons (split_ne_nil c cs), join_split c cs]
      simp
    · obtain ⟨w', ws, h1, h2⟩ := split_cons_ne hc cs
      have ih := join_split sep cs
      rw [h1] at ih
      rw [h2]
      cases ws with
      | nil => simp only [join] at ih ⊢; rw [ih]
      | cons v ws => simp only [join] at ih ⊢; rw [← ih]; simp

theorem split_append {sep : Char} {w : List Char} (h : sep ∉ w) (cs : List Char) :
    split sep (w ++ sep :: cs) = w :: split sep cs := by
  induction w with
  | nil => simp [split]
  | cons c w ih =>
    simp only [List.mem_cons, not_or] at h
    have hc : c ≠ sep := fun e => h.1 e.symm
    obtain ⟨w', ws, h1, h2⟩ := split_cons_ne hc (w ++ sep :: cs)
    rw [List.cons_append, h2]
    rw [ih h.2] at h1
    simp only [List.cons.injEq] at h1
    simp [h1.1, h1.2]

theorem split_of_no_sep {sep : Char} {w : List Char} (h : sep ∉ w) : split sep w = [w] := by
  induction w with
  | nil => simp [split]
  | cons c w ih =>
    simp only [List.mem_cons, not_or] at h
    simp [split, ih h.2, Ne.symm h.1]

theorem split_join {sep : Char} : ∀ {ws : List (List Char)}, ws ≠ [] → (∀ w ∈ ws, sep ∉ w) → split sep (join [sep] ws) = ws
  | [], h, _ => absurd rfl h
  | [w], _, h => by simp [join, split_of_no_sep (h w (.head _))]
  | w :: v :: ws, _, h => by
    have ih := split_join (ws := v :: ws) (by simp) fun x hx => h x (.tail _ hx)
    rw [join_cons (by simp), List.append_assoc, List.singleton_append, split_append (h w (.head _)), ih]

theorem length_split (sep : Char) : ∀ cs, (split sep cs).length = cs.count sep + 1
  | [] => by simp [split]
  | c :: cs => by
    by_cases hc : c = sep
    · subst hc; simp [split, length_split c cs]
    · obtain ⟨w', ws, h1, h2⟩ := split_cons_ne hc cs
      have ih := length_split sep cs
      rw [h1] at ih
      rw [h2, List.count_cons_of_ne hc]
      simpa using ih

theorem split_append_sep (sep : Char) (a b : List Char) : split sep (a ++ sep :: b) = split sep a ++ split sep b := by
  induction a with
  | nil => simp [split]
  | cons c a ih =>
    by_cases hc : c = sep
    · subst hc; simp [split, ih]
    · obtain ⟨w, ws, h1, h2⟩ := split_cons_ne hc a
      obtain ⟨w', ws', h1', h2'⟩ := split_cons_ne hc (a ++ sep :: b)
      rw [List.cons_append, h2', h2]
      rw [ih, h1] at h1'
      simp only [List.cons_append, List.cons.injEq] at h1'
      simp [h1'.1, h1'.2]

/-- `sub in s`.  Part of Python (no code). -/
def isIn (sub : List Char) : List Char → Bool
  | [] => sub.isEmpty
  | c :: cs => sub.isPrefixOf (c :: cs) || isIn sub cs

theorem isIn_iff {sub s : List Char} : isIn sub s = true ↔ ∃ a b, s = a ++ sub ++ b := by
  induction s with
  | nil =>
    simp only [isIn, List.isEmpty_iff]
    constructor
    · rintro rfl; exact ⟨[], [], rfl⟩
    · rintro ⟨a, b, h⟩
      have := congrArg List.length h
      simp only [List.length_nil, List.length_append] at this
      exact List.length_eq_zero_iff.1 (by omega)
  | cons c s ih =>
    simp only [isIn, Bool.or_eq_true, List.isPrefixOf_iff_prefix, ih]
    constructor
    · rintro (⟨b, h⟩ | ⟨a, b, h⟩)
      · exact ⟨[], b, by simp [h]⟩
      · exact ⟨c :: a, b, by simp [h]⟩
    · rintro ⟨a, b, h⟩
      cases a with
      | nil => exact .inl ⟨b, by simpa using h.symm⟩
      | cons x a =>
        simp only [List.cons_append, List.cons.injEq] at h
        exact .inr ⟨a, b, h.2⟩

end DC.Str
