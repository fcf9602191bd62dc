/-
Python dictionaries as association lists in insertion order (model of a built-in type, no file of /repo).
-/
namespace DC.Dict

variable {κ β : Type} [DecidableEq κ]

/-- `d[k] = v`: an existing key keeps its place.  Part of Python (no code). -/
def set (d : List (κ × β)) (k : κ) (v : β) : List (κ × β) :=
  match d with
  | [] => [(k, v)]
  | (k', v') :: d => if k' = k then (k', v) :: d else (k', v') :: set d k v

theorem keys_set (d : List (κ × β)) (k : κ) (v : β) :
    (set d k v).map (·.1) = if k ∈ d.map (·.1) then d.map (·.1) else d.map (·.1) ++ [k] := by
  induction d with
  | nil => simp [set]
  | cons p d ih =>
    obtain ⟨k', v'⟩ := p
    unfold set
    split
    · rename_i h; subst h; simp
    · rename_i h
      have h' : ¬ k = k' := fun hc => h hc.symm
      rw [List.map_cons, ih]
      by_cases hm : k ∈ d.map (·.1)
      · rw [if_pos hm, if_pos (by simp only [List.map_cons, List.mem_cons]; exact .inr hm)]
        rfl
      · rw [if_neg hm, if_neg (by simp only [List.map_cons, List.mem_cons, not_or]; exact ⟨h', hm⟩)]
        rfl

theorem mem_keys_set (d : List (κ × β)) (k : κ) (v : β) (q : κ) :
    q ∈ (set d k v).map (·.1) ↔ q = k ∨ q ∈ d.map (·.1) := by
  rw [keys_set]
  split
  · rename_i h
    constructor
    · exact .inr
    · rintro (rfl | h')
      · exact h
      · exact h'
  · simp [or_comm]

theorem nodup_set {d : List (κ × β)} (h : (d.map (·.1)).Nodup) (k : κ) (v : β) : ((set d k v).map (·.1)).Nodup := by
  rw [keys_set]
  split
  · exact h
  · rename_i hc
    refine List.nodup_append.2 ⟨h, by simp, ?_⟩
    rintro a ha b hb rfl
    simp only [List.mem_singleton] at hb
    exact hc (hb ▸ ha)

variable [BEq κ] [LawfulBEq κ]

theorem lookup_set (d : List (κ × β)) (k : κ) (v : β) (q : κ) : (set d k v).lookup q = if q = k then some v else d.lookup q := by
  induction d with
  | nil =>
    by_cases h : q = k
    · simp [set, h]
    · have : (q == k) = false := by simpa using h
      simp [set, h, List.lookup, this]
  | cons p d ih =>
    obtain ⟨k', v'⟩ := p
    unfold set
    split
    · rename_i hk
      subst hk
      by_cases h : q = k'
      · simp [h]
      · have : (q == k') = false := by simpa using h
        simp [h, List.lookup, this]
    · rename_i hk
      by_cases h : q = k'
      · subst h
        simp [hk]
      · have : (q == k') = false := by simpa using h
        simp only [List.lookup, this]
        exact ih

omit [DecidableEq κ] in
theorem lookup_mem {d : List (κ × β)} {k : κ} {v : β} (h : d.lookup k = some v) : (k, v) ∈ d := by
  induction d with
  | nil => simp at h
  | cons p d ih =>
    obtain ⟨k', v'⟩ := p
    by_cases hk : k = k'
    · subst hk
      simp at h
      simp [h]
    · have : (k == k') = false := by simpa using hk
      simp only [List.lookup, this] at h
      exact .tail _ (ih h)

omit [DecidableEq κ] in
theorem mem_lookup {d : List (κ × β)} (hd : (d.map (·.1)).Nodup) {k : κ} {v : β} (h : (k, v) ∈ d) :
    d.lookup k = some v := by
  induction d with
  | nil => simp at h
  | cons p d ih =>
    obtain ⟨k', v'⟩ := p
    rw [List.map_cons, List.nodup_cons] at hd
    rcases List.mem_cons.1 h with h2 | h2
    · simp only [Prod.mk.injEq] at h2
      simp [h2.1, h2.2]
    · have : (k == k') = false := by
        simp only [beq_eq_false_iff_ne]
        rintro rfl
        exact hd.1 (List.mem_map.2 ⟨_, h2, rfl⟩)
      simp only [List.lookup, this]
      exact ih hd.2 h2

omit [DecidableEq κ] in
theorem lookup_none {d : List (κ × β)} {k : κ} : d.lookup k = none ↔ k ∉ d.map (·.1) := by
  induction d with
  | nil => simp
  | cons p d ih =>
    obtain ⟨k', v'⟩ := p
    by_cases hk : k = k'
    · simp [hk]
    · have : (k == k') = false := by simpa using hk
      simp [List.lookup, this, hk, ih]

end DC.Dict
