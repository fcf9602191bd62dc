import Verif.Workflow.OldNames
import Verif.Workflow.CatalogueProps
/- C211: documents of archives which name the ports of the block. -/
namespace DC.Cat
open DC.Wkf
set_option linter.unusedSimpArgs false

variable {τ α ω : Type} (E : Setting τ α ω)

/-- The document has the list of names `ns` under the key `k`, or nothing there when the list is empty.  (specification) -/
def Lists (d : J) (k : String) (ns : List String) : Prop :=
  d.get? k = some (.list (ns.map .str)) ∨ (d.get? k = none ∧ ns = [])

theorem mapM_text : (ns : List String) → (ns.map J.str).mapM J.text = Except.ok ns
  | [] => rfl
  | n :: ns => by simp [List.mapM_cons, J.text, mapM_text ns, bind, Except.bind, pure, Except.pure]

theorem renameAt_lists {d : J} {k : String} {ns : List String} (h : Lists d k ns) (xs : List (Var τ α)) :
    renameAt d k xs = .ok (rename ns xs) := by
  rcases h with h | ⟨h, rfl⟩
  · have hg : d.get k = .ok (.list (ns.map .str)) := by
      unfold J.get? at h
      unfold J.get
      split at h
      · simp only [h]
      · cases h
    simp only [renameAt, h, J.textsAt, hg, J.items, mapM_text, bind, Except.bind]
  · simp only [renameAt, h]
    cases xs <;> rfl

theorem rename_length : (ns : List String) → (xs : List (Var τ α)) → (rename ns xs).length = xs.length
  | [], xs => by cases xs <;> rfl
  | _ :: _, [] => rfl
  | n :: ns, x :: xs => by simp [rename, rename_length ns xs]

theorem rename_get : (ns : List String) → (xs : List (Var τ α)) → (i : Nat) → (x : Var τ α) → xs[i]? = some x →
    (rename ns xs)[i]? = some { x with name := (ns[i]?).getD x.name }
  | [], x :: xs, i, y, h => by simpa [rename] using h
  | _, [], i, y, h => by simp at h
  | n :: ns, x :: xs, 0, y, h => by
    simp only [List.getElem?_cons_zero, Option.some.injEq] at h
    subst h
    simp [rename]
  | n :: ns, x :: xs, i + 1, y, h => by
    simp only [List.getElem?_cons_succ] at h
    simpa [rename] using rename_get ns xs i y h

/-- C211.  An archive is read with the names which its document gives to its first ports, and its other ports keep theirs; names in excess
are left out, and nothing but names is changed. -/
theorem C211_names {d : J} {b : Blk τ α ω} (hb : read E d = .ok b) {ns ms : List String} (hn : Lists d "input_names" ns)
    (hm : Lists d "output_names" ms) : ∃ c, readArchive E d = .ok c ∧ c.kind = b.kind ∧ c.name = b.name ∧ c.position = b.position ∧
      c.ins.length = b.ins.length ∧ c.outs.length = b.outs.length ∧
      (∀ (i : Nat) (x : Var τ α), b.ins[i]? = some x → c.ins[i]? = some { x with name := (ns[i]?).getD x.name }) ∧
      ∀ (i : Nat) (x : Var τ α), b.outs[i]? = some x → c.outs[i]? = some { x with name := (ms[i]?).getD x.name } := by
  refine ⟨{ b with ins := rename ns b.ins, outs := rename ms b.outs }, ?_, rfl, rfl, rfl, rename_length _ _, rename_length _ _,
    fun i x h => rename_get _ _ i x h, fun i x h => rename_get _ _ i x h⟩
  simp only [readArchive, hb, renameAt_lists hn, renameAt_lists hm, bind, Except.bind]

/-- C211.  The present documents of archives, which give no names, are read as the archives which were written. -/
theorem C211_now {n : Nat} {f : String} {b : Blk τ α ω} (hk : b.kind = .archive n f) (h : FromClass E b) (hi : Faithful E b.ins)
    (ho : Faithful E b.outs) : ∃ d, write E b = .ok d ∧ readArchive E d = .ok b := by
  obtain ⟨d, h1, h2⟩ := read_write E b h hi ho (by rw [hk]; trivial) (by rw [hk]; intro h; cases h)
  have h3 : b.kind.reread = b.kind := by rw [hk]; rfl
  rw [h3] at h2
  refine ⟨d, h1, ?_⟩
  have h4 : ∀ k, k = "input_names" ∨ k = "output_names" → d.get? k = none := by
    intro k hkk
    have hw := h1
    simp only [write, baseJ, Blk.written, hk, kindJ, bind, Except.bind] at hw
    split at hw
    · cases hw
    · rename_i e he
      simp only [Except.ok.injEq] at hw
      subst hw
      split at he
      · cases he
      · split at he
        · cases he
        · simp only [Except.ok.injEq] at he
          subst he
          rcases hkk with rfl | rfl <;> rfl
  have hl : ∀ k, k = "input_names" ∨ k = "output_names" → Lists d k [] := fun k hk' => .inr ⟨h4 k hk', rfl⟩
  simp only [readArchive, h2, renameAt_lists (hl _ (.inl rfl)), renameAt_lists (hl _ (.inr rfl)), bind, Except.bind]
  have : ∀ xs : List (Var τ α), rename [] xs = xs := fun xs => by cases xs <;> rfl
  simp only [this]

/-- A document of a former version: the archive of two exports, whose ports are named.  Example only. -/
def oldArchive : J := match write shop (made (.archive 2 "a")) with
  | .ok (.dict l) => .dict (l ++ [("input_names", .list [.str "drawing", .str "report"])])
  | _ => .null

/-- C211, violated: the names are lost when the archive read is written and read again. -/
theorem C211_again_violated : ∃ d b d' b', readArchive shop d = .ok b ∧ write shop b = .ok d' ∧ readArchive shop d' = .ok b' ∧
    b.ins.map (·.name) = ["drawing", "report", "Filename"] ∧ b'.ins.map (·.name) = ["Export 0", "Export 1", "Filename"] :=
  ⟨oldArchive, _, _, _, rfl, rfl, rfl, rfl, rfl⟩

/-- The hypotheses of `C211_names`. -/
example : (∃ b, read shop oldArchive = .ok b) ∧ Lists oldArchive "input_names" ["drawing", "report"] ∧ Lists oldArchive "output_names" [] :=
  ⟨⟨_, rfl⟩, .inl rfl, .inr ⟨rfl, rfl⟩⟩

/-- The hypotheses of `C211_now`. -/
example : ∃ d, write shop (made (.archive 2 "a")) = .ok d ∧ readArchive shop d = .ok (made (.archive 2 "a")) :=
  C211_now shop (b := made (.archive 2 "a")) rfl (fromClass_made rfl rfl rfl rfl (by decide) (by decide)) (faithful_shop _) (faithful_shop _)

end DC.Cat
