import Verif.Values.DiffProps
/-
C70: where the diff of two values raises an error.
-/
namespace DC

/-! ### Specification -/

/-- Two different classes, or two different files of one kind. -/
def OpaqueDifference (x y : V) : Prop :=
  (∃ n m, x = .cls n ∧ y = .cls m ∧ n ≠ m) ∨ ∃ b f t f' t', x = .file b f t ∧ y = .file b f' t' ∧ (f, t) ≠ (f', t')

/-! ### Lemmas -/

theorem bind_error {α β : Type} {x : Except PyErr α} {f : α → Except PyErr β} {e : PyErr} (h : (x >>= f) = .error e) :
    x = .error e ∨ ∃ a, x = .ok a ∧ f a = .error e := by
  cases x with
  | error e' => exact .inl (by simpa [bind, Except.bind] using h)
  | ok a => exact .inr ⟨a, rfl, h⟩

theorem dictLoop_error {Γ : Env} {other : List (Key × V)} {f : Bool} {p : List Key} {e : PyErr} : ∀ {d : List (Key × V)}, dictLoop Γ d other f p = .error e →
    ∃ k v w, (k, v) ∈ d ∧ other.lookup k = some w ∧ diff Γ v w (p ++ [k]) = .error e := by
  intro d
  induction d with
  | nil => intro h; rw [dictLoop_nil] at h; cases h
  | cons x rest ih =>
    obtain ⟨k, v⟩ := x
    intro h
    cases hl : other.lookup k with
    | none =>
      rw [dictLoop_cons_none _ _ _ _ _ _ _ hl] at h
      rcases bind_error h with h | ⟨r, -, h⟩
      · obtain ⟨k', v', w', h1, h2⟩ := ih h
        exact ⟨k', v', w', .tail _ h1, h2⟩
      · cases h
    | some w =>
      rw [dictLoop_cons_some _ _ _ _ _ _ _ _ hl] at h
      rcases bind_error h with h | ⟨r, -, h⟩
      · exact ⟨k, v, w, .head _, hl, h⟩
      · rcases bind_error h with h | ⟨r, -, h⟩
        · obtain ⟨k', v', w', h1, h2⟩ := ih h
          exact ⟨k', v', w', .tail _ h1, h2⟩
        · cases h

theorem seqLoop_error {Γ : Env} {p : List Key} {e : PyErr} : ∀ {a b : List V} {i : Nat}, seqLoop Γ i a b p = .error e →
    ∃ (j : Nat) (x y : V), a[j]? = some x ∧ b[j]? = some y ∧ diff Γ x y (p ++ [.int ((i + j : Nat) : Int)]) = .error e := by
  intro a
  induction a with
  | nil => intro b i h; rw [seqLoop_nil_left] at h; cases h
  | cons x xs ih =>
    intro b i h
    cases b with
    | nil => rw [seqLoop_nil_right] at h; cases h
    | cons y ys =>
      rw [seqLoop_cons] at h
      rcases bind_error h with h | ⟨r, -, h⟩
      · exact ⟨0, x, y, rfl, rfl, h⟩
      · rcases bind_error h with h | ⟨r, -, h⟩
        · obtain ⟨j, u, w, h1, h2, h3⟩ := ih h
          exact ⟨j + 1, u, w, by simpa, by simpa, by rwa [show i + (j + 1) = i + 1 + j by omega]⟩
        · cases h

theorem leafDiff_error {Γ : Env} {v w : V} {p : List Key} {e : PyErr} (hp : isPair v w = false) (h : leafDiff Γ v w p = .error e) :
    e = .notImplemented ∧ OpaqueDifference v w := by
  unfold leafDiff at h
  split at h
  · rename_i hi
    split at h
    · cases h
    · rename_i hl
      cases v <;> cases w <;> simp_all [isInst, leafSame, isPair, OpaqueDifference]
      exact fun hn hc => hl hc hn
  · cases h

theorem diff_error_aux (Γ : Env) : (n : Nat) → (v w : V) → (p : List Key) → (e : PyErr) → sizeOf v + sizeOf w < n → WF v → WF w →
    diff Γ v w p = .error e → e = .notImplemented ∧ ∃ q x y, FoundAt v w q x y ∧ OpaqueDifference x y
  | 0, _, _, _, _, h, _, _, _ => by omega
  | n+1, v, w, p, e, hn, hv, hw, h => by
    have dictCase : ∀ d1 d2 : List (Key × V), dictDiff Γ d1 d2 p = .error e → sizeOf d1 + sizeOf d2 < n →
        (∀ k x, (k, x) ∈ d1 → child v k = some x ∧ WF x) → (∀ k x, (k, x) ∈ d2 → child w k = some x ∧ WF x) →
        e = .notImplemented ∧ ∃ q x y, FoundAt v w q x y ∧ OpaqueDifference x y := by
      intro d1 d2 h hs h1 h2
      rw [dictDiff] at h
      split at h
      · obtain ⟨k, x, y, hx, hy, hd⟩ := dictLoop_error h
        have hy' := lookup_some_mem hy
        obtain ⟨he, q, u, z, hf, ho⟩ := diff_error_aux Γ n x y _ e (by have := sizeOf_mem_dict hx; have := sizeOf_mem_dict hy'; omega)
          (h2 k x hx).2 (h1 k y hy').2 hd
        exact ⟨he, k :: q, u, z, (FoundAt.cons (h2 k x hx).1 (h1 k y hy').1 hf).swap, ho⟩
      · obtain ⟨k, x, y, hx, hy, hd⟩ := dictLoop_error h
        have hy' := lookup_some_mem hy
        obtain ⟨he, q, u, z, hf, ho⟩ := diff_error_aux Γ n x y _ e (by have := sizeOf_mem_dict hx; have := sizeOf_mem_dict hy'; omega)
          (h1 k x hx).2 (h2 k y hy').2 hd
        exact ⟨he, k :: q, u, z, FoundAt.cons (h1 k x hx).1 (h2 k y hy').1 hf, ho⟩
    cases hp : isPair v w with
    | false =>
      rw [diff_leaf Γ v w p hp] at h
      obtain ⟨he, ho⟩ := leafDiff_error hp h
      exact ⟨he, [], v, w, by simp [FoundAt, valueAt], ho⟩
    | true =>
      have hcases : (∃ a b, seqItems v = some a ∧ seqItems w = some b ∧ diff Γ v w p = seqDiff Γ v w a b p) ∨
          (∃ a b, v = .dict a ∧ w = .dict b) ∨ (∃ c a c' b, v = .obj c a ∧ w = .obj c' b) := by
        cases v <;> cases w <;> simp [isPair, seqItems] at hp ⊢ <;> rw [diff]
      rcases hcases with ⟨a, b, ha, hb, hd⟩ | ⟨d, d', rfl, rfl⟩ | ⟨c, d, c', d', rfl, rfl⟩
      · rw [hd, seqDiff] at h
        split at h
        · cases h
        · obtain ⟨j, x, y, hx, hy, hd⟩ := seqLoop_error h
          have := seqItems_sizeOf ha; have := seqItems_sizeOf hb
          obtain ⟨he, q, u, z, hf, ho⟩ := diff_error_aux Γ n x y _ e
            (by have := List.sizeOf_lt_of_mem (List.mem_of_getElem? hx); have := List.sizeOf_lt_of_mem (List.mem_of_getElem? hy); omega)
            (seqItems_WF ha hv _ (List.mem_of_getElem? hx)) (seqItems_WF hb hw _ (List.mem_of_getElem? hy)) hd
          exact ⟨he, _ :: q, u, z, FoundAt.cons (by rw [seqItems_child ha, hx]) (by rw [seqItems_child hb, hy]) hf, ho⟩
      · simp only [WF, V.dict.sizeOf_spec] at hv hw hn
        rw [diff] at h
        exact dictCase d d' h (by omega) (fun k x hx => ⟨lookup_of_mem hv.1 hx, (WFD_iff d).1 hv.2 _ hx⟩)
          (fun k x hx => ⟨lookup_of_mem hw.1 hx, (WFD_iff d').1 hw.2 _ hx⟩)
      · simp only [WF, V.obj.sizeOf_spec] at hv hw hn
        rw [diff] at h
        split at h
        · split at h
          · cases h
          · refine dictCase _ _ h ?_ (fun k x hx => ?_) (fun k x hx => ?_)
            · have h1 := sizeOf_filter_le (fun kv => serKeep Γ c kv.1 && !(kv.1 == Key.str "name")) d
              have h2 := sizeOf_filter_le (fun kv => serKeep Γ c' kv.1) d'
              simp only [diffAttrs1, serializableDict]; omega
            · have := (List.mem_filter.1 hx).1
              exact ⟨lookup_of_mem hv.1 this, (WFD_iff d).1 hv.2 _ this⟩
            · have := (List.mem_filter.1 hx).1
              exact ⟨lookup_of_mem hw.1 this, (WFD_iff d').1 hw.2 _ this⟩
        · cases h

/-! ### C70 -/

/-- The diff of two values raises no other error than NotImplementedError, and only if somewhere, at one and the same path of both, they hold two
different classes or two different files of one kind. -/
theorem C70_raises {Γ : Env} {v w : V} {p : List Key} {e : PyErr} (hv : WF v) (hw : WF w) (h : diff Γ v w p = .error e) :
    e = .notImplemented ∧ ∃ q x y, FoundAt v w q x y ∧ OpaqueDifference x y :=
  diff_error_aux Γ _ v w p e (Nat.lt_succ_self _) hv hw h

/-- Two lists which hold the same files are compared without error, whatever else they hold. -/
example (Γ : Env) (p : List Key) (a b : Int) : ∃ D, diff Γ (.list [.file true "f" "x", .int a]) (.list [.file true "f" "x", .int b]) p = .ok D := by
  cases h : diff Γ (.list [.file true "f" "x", .int a]) (.list [.file true "f" "x", .int b]) p with
  | ok D => exact ⟨D, rfl⟩
  | error e =>
    rw [diff, seqDiff] at h
    simp only [List.length_cons, ne_eq, not_true_eq_false, if_false] at h
    obtain ⟨j, x, y, hx, hy, h⟩ := seqLoop_error h
    match j, hx, hy with
    | 0, hx, hy => cases hx; cases hy; rw [diff_leaf _ _ _ _ (by simp [isPair])] at h; simp [leafDiff, isInst, leafSame] at h
    | 1, hx, hy =>
      cases hx; cases hy
      rw [diff_leaf _ _ _ _ (by simp [isPair])] at h
      have := (leafDiff_error (by simp [isPair]) h).2
      simp [OpaqueDifference] at this

/-- Two lists with different classes in second place: the error comes from there. -/
example (Γ : Env) : ∃ q x y, FoundAt (.list [.int 1, .cls "A"]) (.list [.int 2, .cls "B"]) q x y ∧ OpaqueDifference x y :=
  (C70_raises (Γ := Γ) (p := []) (e := .notImplemented) (by simp [WF, WFL]) (by simp [WF, WFL]) (by
    rw [diff, seqDiff]
    simp only [List.length_cons, ne_eq, not_true_eq_false, if_false]
    rw [seqLoop_cons, diff_leaf _ _ _ _ (by simp [isPair]), seqLoop_cons, diff_leaf _ (.cls "A") _ _ (by simp [isPair])]
    simp [leafDiff, isInst, leafSame, bind, Except.bind])).2

end DC
