import Verif.Files.ExcelBreak
/-
The paths of a breakdown lead to the objects they are given for.
-/
set_option linter.unusedSectionVars false
namespace DC.Xl

/-- From a value whose path is `p`, the path `q` leads to a value: names of attributes, keys and indices, separated by dots.
Used in proofs only (no code). -/
inductive Leads : Val → String → String → Val → Prop
  | here {v : Val} {p : String} : Leads v p p v
  | attr {c : Cls} {n : String} {as : List (String × Val)} {p q k : String} {x y : Val} :
      (k, x) ∈ as → Leads x (if p = "" then k else p ++ "." ++ k) q y → Leads (.obj c n as) p q y
  | item {l : List Val} {p q : String} {i : Nat} {x y : Val} :
      l[i]? = some x → Leads x (if p = "" then toString i else p ++ "." ++ toString i) q y → Leads (.list l) p q y
  | entry {l : List (String × Val)} {p q k : String} {x y : Val} :
      (k, x) ∈ l → Leads x (if p = "" then k else p ++ "." ++ k) q y → Leads (.dict l) p q y

variable {E : Setting} {P : Val → Prop}

theorem Leads.sub {v : Val} {p q : String} {x : Val} (h : Leads v p q x) : Sub v x := by
  induction h with
  | here => exact .refl _
  | attr hx _ ih => exact .attr hx ih
  | item hx _ ih => exact .item (List.mem_of_getElem? hx) ih
  | entry hx _ ih => exact .entry hx ih

theorem pref_append (p k : String) : pref p ++ k = if p = "" then k else p ++ "." ++ k := by
  unfold pref
  split
  · simp
  · rfl

/-- An entry of a breakdown whose path leads to an equal object.  Used in proofs only (no code). -/
def Ok (E : Setting) (P : Val → Prop) (Q : String → Val → Prop) (e : Val × String) : Prop :=
  P e.1 ∧ e.1.isObj ∧ ∃ y, P y ∧ y.isObj ∧ Q e.2 y ∧ E.same e.1 y = true

/-- Every entry is so.  Used in proofs only (no code). -/
def Led (E : Setting) (P : Val → Prop) (Q : String → Val → Prop) (d : BD) : Prop := ∀ cl ∈ d, ∀ e ∈ cl.2, Ok E P Q e

variable {Q : String → Val → Prop}

theorem putRef_led (hE : Equality E P) {r : Val × String} (hr : Ok E P Q r) {l : List (Val × String)} (hl : ∀ e ∈ l, Ok E P Q e) :
    ∀ e ∈ putRef E r l, Ok E P Q e := by
  induction l with
  | nil =>
    intro e he
    simp only [putRef, List.mem_singleton] at he
    rw [he]; exact hr
  | cons f l ih =>
    obtain ⟨x, q⟩ := f
    have hx := hl (x, q) (by simp)
    intro e he
    simp only [putRef] at he
    by_cases hs : E.same x r.1
    · rw [if_pos hs] at he
      rcases List.mem_cons.1 he with he | he
      · rw [he]
        split
        · obtain ⟨y, h1, h2, h3, h4⟩ := hr.2.2
          exact ⟨hx.1, hx.2.1, y, h1, h2, h3, hE.trans _ _ _ hx.1 hr.1 h1 hx.2.1 hr.2.1 h2 hs h4⟩
        · exact hx
      · exact hl e (by simp [he])
    · rw [if_neg hs] at he
      rcases List.mem_cons.1 he with he | he
      · rw [he]; exact hx
      · exact ih (fun g hg => hl g (by simp [hg])) e he

theorem putRefs_led (hE : Equality E P) {rs : List (Val × String)} (hr : ∀ r ∈ rs, Ok E P Q r) : ∀ {l : List (Val × String)},
    (∀ e ∈ l, Ok E P Q e) → ∀ e ∈ rs.foldl (fun l r => putRef E r l) l, Ok E P Q e := by
  induction rs with
  | nil => intro l hl; exact hl
  | cons r rs ih => intro l hl; exact ih (fun r' h' => hr r' (by simp [h'])) (putRef_led hE (hr r (by simp)) hl)

theorem putClass_led (hE : Equality E P) {cr : String × List (Val × String)} (hr : ∀ r ∈ cr.2, Ok E P Q r) : ∀ {d : BD}, Led E P Q d →
    Led E P Q (putClass E cr d) := by
  intro d
  induction d with
  | nil =>
    intro _ cl hc
    simp only [putClass, List.mem_singleton] at hc
    rw [hc]; exact hr
  | cons cl d ih =>
    intro h cl' hc
    obtain ⟨c, l⟩ := cl
    simp only [putClass] at hc
    by_cases hs : c = cr.1
    · rw [if_pos hs] at hc
      rcases List.mem_cons.1 hc with hc | hc
      · rw [hc]; exact putRefs_led hE hr (h (c, l) (by simp))
      · exact h cl' (by simp [hc])
    · rw [if_neg hs] at hc
      rcases List.mem_cons.1 hc with hc | hc
      · rw [hc]; exact h (c, l) (by simp)
      · exact ih (fun x hx => h x (by simp [hx])) cl' hc

theorem merge_led (hE : Equality E P) {d e : BD} (hd : Led E P Q d) (he : Led E P Q e) : Led E P Q (merge E d e) := by
  unfold merge
  induction e generalizing d with
  | nil => exact hd
  | cons cl e ih => exact ih (putClass_led hE (he cl (by simp)) hd) (fun x hx => he x (by simp [hx]))

theorem Led.mono {Q' : String → Val → Prop} {d : BD} (h : Led E P Q d) (hq : ∀ q y, Q q y → Q' q y) : Led E P Q' d := by
  intro cl hc e he
  obtain ⟨h1, h2, y, h3, h4, h5, h6⟩ := h cl hc e he
  exact ⟨h1, h2, y, h3, h4, hq _ _ h5, h6⟩

theorem led_nil : Led E P Q [] := by intro cl hc; cases hc

mutual
theorem breakdown_led (hE : Equality E P) : ∀ (v : Val) (p : String), (∀ y, Sub v y → P y) →
    Led E P (Leads v p) (breakdown E v p)
  | .none, _, _ => led_nil
  | .bool _, _, _ => led_nil
  | .int _, _, _ => led_nil
  | .float _, _, _ => led_nil
  | .str _, _, _ => led_nil
  | .list l, p, h => by
    simp only [breakdown]
    exact items_led hE (Leads (.list l) p) l (pref p) 0 [] (fun x hx y hy => h y (.item hx hy))
      (fun i x q y hi hq => .item hi (by rw [← pref_append]; simpa using hq)) led_nil
  | .dict l, p, h => by
    simp only [breakdown]
    exact entries_led hE (Leads (.dict l) p) l (pref p) [] (fun k x hx y hy => h y (.entry hx hy))
      (fun k x q y hi hq => .entry hi (by rw [← pref_append]; exact hq)) led_nil
  | .obj c n as, p, h => by
    have hs : ∀ k x, (k, x) ∈ as → ∀ y, Sub x y → P y := fun k x hx y hy => h y (.attr hx hy)
    have hq : ∀ k x q y, (k, x) ∈ as → Leads x (pref p ++ k) q y → Leads (.obj c n as) p q y :=
      fun k x q y hi hq => .attr hi (by rw [← pref_append]; exact hq)
    have h0 := attributes_led hE _ as (pref p) 0 [] hs hq led_nil
    have h1 := attributes_led hE _ as (pref p) 1 _ hs hq h0
    have h2 := attributes_led hE _ as (pref p) 2 _ hs hq h1
    have hp : P (.obj c n as) := h _ (.refl _)
    simp only [breakdown]
    refine merge_led hE ?_ h2
    split
    · exact led_nil
    · intro cl hc e he
      rw [List.mem_singleton] at hc
      subst hc
      rw [List.mem_singleton] at he
      subst he
      exact ⟨hp, trivial, _, hp, trivial, .here, hE.refl _ hp trivial⟩

theorem items_led (hE : Equality E P) (Q : String → Val → Prop) : ∀ (l : List Val) (p : String) (n : Nat) (bd : BD),
    (∀ x ∈ l, ∀ y, Sub x y → P y) → (∀ i x q y, l[i]? = some x → Leads x (p ++ toString (n + i)) q y → Q q y) → Led E P Q bd →
    Led E P Q (items E l p n bd)
  | [], p, n, bd, _, _, hb => hb
  | v :: l, p, n, bd, h, hq, hb => by
    have hv := breakdown_led hE v (p ++ toString n) (h v (by simp))
    refine items_led hE Q l p (n + 1) _ (fun x hx => h x (by simp [hx])) ?_
      (merge_led hE hb (hv.mono fun q y hy => hq 0 v q y rfl (by simpa using hy)))
    intro i x q y hi hl
    refine hq (i + 1) x q y (by simpa using hi) ?_
    rw [show n + (i + 1) = n + 1 + i by omega]
    exact hl

theorem entries_led (hE : Equality E P) (Q : String → Val → Prop) : ∀ (l : List (String × Val)) (p : String) (bd : BD),
    (∀ k x, (k, x) ∈ l → ∀ y, Sub x y → P y) → (∀ k x q y, (k, x) ∈ l → Leads x (p ++ k) q y → Q q y) → Led E P Q bd →
    Led E P Q (entries E l p bd)
  | [], p, bd, _, _, hb => hb
  | (k, v) :: l, p, bd, h, hq, hb => by
    have hv := breakdown_led hE v (p ++ k) (h k v (by simp))
    exact entries_led hE Q l p _ (fun k' x hx => h k' x (by simp [hx])) (fun k' x q y hi => hq k' x q y (by simp [hi]))
      (merge_led hE hb (hv.mono fun q y hy => hq k v q y (by simp) hy))

theorem attributes_led (hE : Equality E P) (Q : String → Val → Prop) : ∀ (l : List (String × Val)) (p : String) (n : Nat) (bd : BD),
    (∀ k x, (k, x) ∈ l → ∀ y, Sub x y → P y) → (∀ k x q y, (k, x) ∈ l → Leads x (p ++ k) q y → Q q y) → Led E P Q bd →
    Led E P Q (attributes E l p n bd)
  | [], p, n, bd, _, _, hb => hb
  | (k, v) :: l, p, n, bd, h, hq, hb => by
    have hv := breakdown_led hE v (p ++ k) (h k v (by simp))
    simp only [attributes]
    refine attributes_led hE Q l p n _ (fun k' x hx => h k' x (by simp [hx])) (fun k' x q y hi => hq k' x q y (by simp [hi])) ?_
    split
    · exact merge_led hE hb (hv.mono fun q y hy => hq k v q y (by simp) hy)
    · exact hb
end

end DC.Xl
