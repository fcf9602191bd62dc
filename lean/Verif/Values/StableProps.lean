import Verif.Values.SerializeProps
import Verif.Values.CopyProps
/-
Property C179: saving what was loaded or copied gives the same document.
-/
namespace DC

/-! ### Lemmas -/

mutual
theorem serialize_reread (W : World) (tup : Bool) : (v : V) → serialize W (reread W.toEnv tup v) = serialize W v
  | .list l => by
    rw [reread]
    split <;> rw [serialize, serialize, serializeL_reread W l]
  | .tuple l => by
    rw [reread]
    split <;> rw [serialize, serialize, serializeL_reread W l]
  | .dict d => by rw [reread, serialize, serialize, serializeD_reread W _ _ d]
  | .obj c d => by rw [reread, serialize, serialize, serializeD_reread W _ _ d]
  | .none => rfl
  | .bool _ => rfl
  | .int _ => rfl
  | .flt _ => rfl
  | .measure _ _ => rfl
  | .str _ => rfl
  | .cls _ => rfl
  | .file _ _ _ => rfl
  | .other _ => rfl
theorem serializeL_reread (W : World) : (l : List V) → serializeL W (rereadL W.toEnv l) = serializeL W l
  | [] => rfl
  | v :: l => by rw [rereadL, serializeL, serializeL, serialize_reread W false v, serializeL_reread W l]
theorem serializeD_reread (W : World) (tup keep : Key → Bool) : (d : List (Key × V)) → serializeD W keep (rereadD W.toEnv tup d) = serializeD W keep d
  | [] => rfl
  | (k, v) :: d => by rw [rereadD, serializeD, serializeD, serialize_reread W (tup k) v, serializeD_reread W tup keep d]
end

mutual
theorem serialize_listify (W : World) : (v : V) → serialize W (listify v) = serialize W v
  | .list l => by rw [listify, serialize, serialize, serializeL_listify W l]
  | .tuple l => by rw [listify, serialize, serialize, serializeL_listify W l]
  | .dict d => by rw [listify, serialize, serialize, serializeD_listify W _ d]
  | .obj c d => by rw [listify, serialize, serialize, serializeD_listify W _ d]
  | .none => rfl
  | .bool _ => rfl
  | .int _ => rfl
  | .flt _ => rfl
  | .measure _ _ => rfl
  | .str _ => rfl
  | .cls _ => rfl
  | .file _ _ _ => rfl
  | .other _ => rfl
theorem serializeL_listify (W : World) : (l : List V) → serializeL W (listifyL l) = serializeL W l
  | [] => rfl
  | v :: l => by rw [listifyL, serializeL, serializeL, serialize_listify W v, serializeL_listify W l]
theorem serializeD_listify (W : World) (keep : Key → Bool) : (d : List (Key × V)) → serializeD W keep (listifyD d) = serializeD W keep d
  | [] => rfl
  | (k, v) :: d => by rw [listifyD, serializeD, serializeD, serialize_listify W v, serializeD_listify W keep d]
end

/-! ### C179 -/

/-- An object which can be read back is saved as a document; the object loaded from it is saved as the same document, and is found again, the same, when it is loaded a second
time. -/
theorem C179_save (W : World) (fuel : Nat) (c : String) (a : List (Key × V)) (hv : WF (.obj c a)) (hr : Readable W (.obj c a)) :
    ∃ d a', serialize W (.obj c a) = .ok (.dict d) ∧ loadDict W fuel d = .ok (some (.obj c a')) ∧ serialize W (.obj c a') = .ok (.dict d) := by
  obtain ⟨d, a', h1, h2, h3, -⟩ := C12_roundtrip_partial W fuel c a hv hr
  exact ⟨d, a', h1, h2, by rw [h3, serialize_reread, h1]⟩

/-- The same for any number of rounds: the document never changes. -/
theorem C179_rounds (W : World) (fuel : Nat) (c : String) (a : List (Key × V)) (hv : WF (.obj c a)) (hr : Readable W (.obj c a)) {rounds : Nat → V} (h0 : rounds 0 = .obj c a)
    (hn : ∀ n, ∃ d, serialize W (rounds n) = .ok (.dict d) ∧ loadDict W fuel d = .ok (some (rounds (n + 1)))) :
    ∃ d, (∀ n, serialize W (rounds n) = .ok (.dict d)) ∧ ∀ n, rounds (n + 1) = rounds 1 := by
  obtain ⟨d, a', h1, h2, h3⟩ := C179_save W fuel c a hv hr
  have key : ∀ n, serialize W (rounds n) = .ok (.dict d) ∧ rounds (n + 1) = .obj c a' := by
    intro n
    induction n with
    | zero =>
      obtain ⟨d0, e1, e2⟩ := hn 0
      rw [h0] at e1 ⊢
      rw [h1] at e1
      cases e1
      rw [h2, Except.ok.injEq, Option.some.injEq] at e2
      exact ⟨h1, e2.symm⟩
    | succ n ih =>
      obtain ⟨d0, e1, e2⟩ := hn (n + 1)
      rw [ih.2, h3] at e1
      cases e1
      rw [h2, Except.ok.injEq, Option.some.injEq] at e2
      exact ⟨by rw [ih.2, h3], e2.symm⟩
  exact ⟨d, fun n => (key n).1, fun n => by rw [(key n).2, (key 0).2]⟩

/-- A deep copy is saved as the same document as the original, when no two different objects inside it are equal. -/
theorem C179_copy (W : World) (H : HashFns) (v w : V) (hv : WF v) (hb : Built W.toEnv v)
    (sep : ∀ c d c' d', Occurs v (.obj c d) → Occurs v (.obj c' d') → objEq W.toEnv H c d (.obj c' d') = .ok true → V.obj c d = V.obj c' d') (h : deepcopy W.toEnv H v = .ok w) :
    serialize W w = serialize W v := by
  rw [C08_copy_exact_partial W.toEnv H v hv hb sep] at h
  cases h
  exact serialize_listify W v

/-! ### Examples -/

example : ∃ d a', serialize serWorld serDemo = .ok (.dict d) ∧ loadDict serWorld 5 d = .ok (some (.obj "m.P" a')) ∧ serialize serWorld (.obj "m.P" a') = .ok (.dict d) :=
  C179_save serWorld 5 "m.P" _ serDemo_ok.1 serDemo_ok.2.1

/-- An object with a tuple meets the hypotheses of the theorem on copies. -/
example (H : HashFns) (w : V) (h : deepcopy serWorld.toEnv H (serObj "a" (.tuple [.flt 1, .measure "u.Distance" 2]) (.int 3)) = .ok w) :
    serialize serWorld w = serialize serWorld (serObj "a" (.tuple [.flt 1, .measure "u.Distance" 2]) (.int 3)) := by
  have occ : ∀ c d, Occurs (serObj "a" (.tuple [.flt 1, .measure "u.Distance" 2]) (.int 3)) (.obj c d) →
      .obj c d = serObj "a" (.tuple [.flt 1, .measure "u.Distance" 2]) (.int 3) := by
    intro c d h
    unfold serObj at h ⊢
    cases h with
    | self => rfl
    | obj hm h =>
      simp only [List.mem_cons, Prod.mk.injEq, List.not_mem_nil, or_false] at hm
      rcases hm with ⟨_, rfl⟩ | ⟨_, rfl⟩ | ⟨_, rfl⟩
      · cases h
      · cases h with
        | tuple hm h => simp at hm; rcases hm with rfl | rfl <;> cases h
      · cases h
  refine C179_copy serWorld H _ w (by simp [serObj, WF, WFL, WFD, keysOf]) (fun c d h => ?_) (fun c d c' d' h h' _ => by rw [occ c d h, occ c' d' h']) h
  have := occ c d h
  unfold serObj at this
  cases this
  simp [keysOf, serWorld]

end DC
