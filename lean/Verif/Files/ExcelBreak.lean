import Verif.Files.Excel
/-
What the breakdown of an object lists, with the order of the dictionaries: every object below the root, in the list of its class.
-/
set_option linter.unusedSectionVars false
namespace DC.Xl

/-! ### Specification -/

/-- A value which is part of another one, or this one.  Used in proofs only (no code). -/
inductive Sub : Val → Val → Prop
  | refl (v : Val) : Sub v v
  | item {l : List Val} {x y : Val} : x ∈ l → Sub x y → Sub (.list l) y
  | entry {l : List (String × Val)} {k : String} {x y : Val} : (k, x) ∈ l → Sub x y → Sub (.dict l) y
  | attr {c : Cls} {n : String} {as : List (String × Val)} {k : String} {x y : Val} : (k, x) ∈ as → Sub x y → Sub (.obj c n as) y

/-- A value is an object.  Used in proofs only (no code). -/
def Val.isObj : Val → Prop
  | .obj _ _ _ => True
  | _ => False

/-- `==` is reflexive and transitive on the objects among some values.  Used in proofs only (no code). -/
structure Equality (E : Setting) (P : Val → Prop) : Prop where
  refl : ∀ x, P x → x.isObj → E.same x x = true
  trans : ∀ x y z, P x → P y → P z → x.isObj → y.isObj → z.isObj → E.same x y = true → E.same y z = true → E.same x z = true

/-- An object below a value, with the path that leads to it: there is one.  Used in proofs only (no code). -/
inductive Found : Val → String → Val → Prop
  | here {c : Cls} {n : String} {as : List (String × Val)} {p : String} : p ≠ "" → Found (.obj c n as) p (.obj c n as)
  | attr {c : Cls} {n : String} {as : List (String × Val)} {p k : String} {x y : Val} :
      (k, x) ∈ as → Found x (pref p ++ k) y → Found (.obj c n as) p y
  | item {l : List Val} {p : String} {i : Nat} {x y : Val} : l[i]? = some x → Found x (pref p ++ toString i) y → Found (.list l) p y
  | entry {l : List (String × Val)} {p k : String} {x y : Val} : (k, x) ∈ l → Found x (pref p ++ k) y → Found (.dict l) p y

/-- What every breakdown is: classes are distinct, and the objects of each one are distinct objects of this class.  Used in proofs only (no code). -/
structure Inv (E : Setting) (P : Val → Prop) (d : BD) : Prop where
  nodup : (d.map (·.1)).Nodup
  ne : ∀ cl ∈ d, cl.2 ≠ []
  mem : ∀ cl ∈ d, ∀ e ∈ cl.2, P e.1 ∧ e.1.isObj ∧ e.1.className = cl.1 ∧ e.2 ≠ ""
  apart : ∀ cl ∈ d, cl.2.Pairwise fun e f => E.same e.1 f.1 = false

/-- A breakdown lists an object, in the list of its class.  Used in proofs only (no code). -/
def Has (E : Setting) (d : BD) (x : Val) : Prop := ∃ l, (x.className, l) ∈ d ∧ ∃ e ∈ l, E.same e.1 x = true

variable {E : Setting} {P : Val → Prop}

theorem Sub.trans {a b c : Val} (h : Sub a b) (k : Sub b c) : Sub a c := by
  induction h with
  | refl => exact k
  | item hx _ ih => exact .item hx (ih k)
  | entry hx _ ih => exact .entry hx (ih k)
  | attr hx _ ih => exact .attr hx (ih k)

theorem Found.sub {v : Val} {p : String} {x : Val} (h : Found v p x) : Sub v x := by
  induction h with
  | here => exact .refl _
  | attr hx _ ih => exact .attr hx ih
  | item hx _ ih => exact .item (List.mem_of_getElem? hx) ih
  | entry hx _ ih => exact .entry hx ih

theorem Found.obj {v : Val} {p : String} {x : Val} (h : Found v p x) : x.isObj := by
  induction h with
  | here => trivial
  | attr _ _ ih => exact ih
  | item _ _ ih => exact ih
  | entry _ _ ih => exact ih

/-! ### Merging -/

theorem putRef_keys (r : Val × String) (l : List (Val × String)) :
    (putRef E r l).map (·.1) = if l.any (fun e => E.same e.1 r.1) then l.map (·.1) else l.map (·.1) ++ [r.1] := by
  induction l with
  | nil => simp [putRef]
  | cons e l ih =>
    obtain ⟨x, q⟩ := e
    simp only [putRef]
    by_cases h : E.same x r.1
    · simp [h]
    · simp only [h, Bool.false_eq_true, if_false, List.map_cons, ih, List.any_cons, Bool.false_or, List.cons_append]
      split <;> simp

theorem putRef_mem {r : Val × String} {l : List (Val × String)} {e : Val × String} (h : e ∈ putRef E r l) :
    e = r ∨ (∃ q, (e.1, q) ∈ l ∧ (e.2 = q ∨ e.2 = r.2)) := by
  induction l with
  | nil => simp only [putRef, List.mem_singleton] at h; exact .inl h
  | cons f l ih =>
    obtain ⟨x, q⟩ := f
    simp only [putRef] at h
    by_cases hs : E.same x r.1
    · rw [if_pos hs] at h
      rcases List.mem_cons.1 h with h | h
      · subst h
        refine .inr ⟨q, by simp, ?_⟩
        by_cases hd : depth r.2 < depth q
        · right; simp [hd]
        · left; simp [hd]
      · exact .inr ⟨e.2, by simp [h], .inl rfl⟩
    · rw [if_neg hs] at h
      rcases List.mem_cons.1 h with h | h
      · subst h
        exact .inr ⟨q, by simp, .inl rfl⟩
      · rcases ih h with h | ⟨q', h, h'⟩
        · exact .inl h
        · exact .inr ⟨q', by simp [h], h'⟩

/-- The objects of the list of a class.  Used in proofs only (no code). -/
structure Rows (E : Setting) (P : Val → Prop) (c : String) (l : List (Val × String)) : Prop where
  mem : ∀ e ∈ l, P e.1 ∧ e.1.isObj ∧ e.1.className = c ∧ e.2 ≠ ""
  apart : (l.map (·.1)).Pairwise fun x y => E.same x y = false

theorem putRef_rows {c : String} {l : List (Val × String)} (h : Rows E P c l) {r : Val × String}
    (hr : P r.1 ∧ r.1.isObj ∧ r.1.className = c ∧ r.2 ≠ "") : Rows E P c (putRef E r l) := by
  refine ⟨fun e he => ?_, ?_⟩
  · rcases putRef_mem he with he | ⟨q, h1, h2⟩
    · rw [he]; exact hr
    · have := h.mem _ h1
      rcases h2 with h2 | h2
      · rw [h2]; exact this
      · rw [h2]; exact ⟨this.1, this.2.1, this.2.2.1, hr.2.2.2⟩
  · rw [putRef_keys]
    split
    · exact h.apart
    · rename_i hn
      rw [List.pairwise_append]
      refine ⟨h.apart, by simp, fun x hx y hy => ?_⟩
      rw [List.mem_singleton] at hy
      subst hy
      obtain ⟨e, he, rfl⟩ := List.mem_map.1 hx
      simp only [List.any_eq_true, not_exists, not_and, Bool.not_eq_true] at hn
      exact hn e he

theorem putRef_mono {r : Val × String} {l : List (Val × String)} {e : Val × String} (h : e ∈ l) : ∃ f ∈ putRef E r l, f.1 = e.1 := by
  have : e.1 ∈ (putRef E r l).map (·.1) := by
    rw [putRef_keys]
    split
    · exact List.mem_map_of_mem h
    · exact List.mem_append_left _ (List.mem_map_of_mem h)
  obtain ⟨f, h1, h2⟩ := List.mem_map.1 this
  exact ⟨f, h1, h2⟩

theorem putRef_new (hE : Equality E P) {r : Val × String} (hr : P r.1 ∧ r.1.isObj) (l : List (Val × String)) :
    ∃ f ∈ putRef E r l, E.same f.1 r.1 = true := by
  by_cases h : l.any (fun e => E.same e.1 r.1)
  · obtain ⟨e, he, hs⟩ := List.any_eq_true.1 h
    obtain ⟨f, h1, h2⟩ := putRef_mono (E := E) (r := r) he
    exact ⟨f, h1, by rw [h2]; exact hs⟩
  · have : r.1 ∈ (putRef E r l).map (·.1) := by rw [putRef_keys, if_neg h]; simp
    obtain ⟨f, h1, h2⟩ := List.mem_map.1 this
    exact ⟨f, h1, by rw [h2]; exact hE.refl _ hr.1 hr.2⟩

theorem putRefs_rows {c : String} {rs : List (Val × String)} (hr : ∀ r ∈ rs, P r.1 ∧ r.1.isObj ∧ r.1.className = c ∧ r.2 ≠ "") :
    ∀ {l : List (Val × String)}, Rows E P c l → Rows E P c (rs.foldl (fun l r => putRef E r l) l) := by
  induction rs with
  | nil => intro l h; exact h
  | cons r rs ih =>
    intro l h
    exact ih (fun r' h' => hr r' (by simp [h'])) (putRef_rows h (hr r (by simp)))

theorem putRefs_mono {rs : List (Val × String)} : ∀ {l : List (Val × String)} {e : Val × String}, e ∈ l →
    ∃ f ∈ rs.foldl (fun l r => putRef E r l) l, f.1 = e.1 := by
  induction rs with
  | nil => intro l e h; exact ⟨e, h, rfl⟩
  | cons r rs ih =>
    intro l e h
    obtain ⟨f, h1, h2⟩ := putRef_mono (E := E) (r := r) h
    obtain ⟨g, h3, h4⟩ := ih h1
    exact ⟨g, h3, h4.trans h2⟩

theorem putRefs_new (hE : Equality E P) {rs : List (Val × String)} (hr : ∀ r ∈ rs, P r.1 ∧ r.1.isObj) : ∀ {l : List (Val × String)}
    {r : Val × String}, r ∈ rs → ∃ f ∈ rs.foldl (fun l r => putRef E r l) l, E.same f.1 r.1 = true := by
  induction rs with
  | nil => intro l r h; simp at h
  | cons r' rs ih =>
    intro l r h
    rcases List.mem_cons.1 h with h | h
    · subst h
      obtain ⟨f, h1, h2⟩ := putRef_new hE (hr r (by simp)) l
      obtain ⟨g, h3, h4⟩ := putRefs_mono (E := E) (rs := rs) h1
      exact ⟨g, h3, by rw [h4]; exact h2⟩
    · exact ih (fun r'' h'' => hr r'' (by simp [h''])) h

theorem putRefs_ne {rs : List (Val × String)} {l : List (Val × String)} (h : l ≠ []) : rs.foldl (fun l r => putRef E r l) l ≠ [] := by
  obtain ⟨e, he⟩ := List.exists_mem_of_ne_nil l h
  obtain ⟨f, hf, -⟩ := putRefs_mono (E := E) (rs := rs) he
  exact List.ne_nil_of_mem hf

theorem Inv.rows {d : BD} (h : Inv E P d) {cl : String × List (Val × String)} (hc : cl ∈ d) : Rows E P cl.1 cl.2 :=
  ⟨h.mem cl hc, List.pairwise_map.2 (h.apart cl hc)⟩

theorem Inv.tail {cl : String × List (Val × String)} {d : BD} (h : Inv E P (cl :: d)) : Inv E P d :=
  ⟨(List.nodup_cons.1 h.nodup).2, fun c hc => h.ne c (by simp [hc]), fun c hc => h.mem c (by simp [hc]), fun c hc => h.apart c (by simp [hc])⟩

theorem inv_cons {cl : String × List (Val × String)} {d : BD} (h : Inv E P d) (hn : cl.1 ∉ d.map (·.1)) (hne : cl.2 ≠ [])
    (hr : Rows E P cl.1 cl.2) : Inv E P (cl :: d) := by
  refine ⟨List.nodup_cons.2 ⟨hn, h.nodup⟩, ?_, ?_, ?_⟩
  · intro c hc
    rcases List.mem_cons.1 hc with rfl | hc
    · exact hne
    · exact h.ne c hc
  · intro c hc
    rcases List.mem_cons.1 hc with rfl | hc
    · exact hr.mem
    · exact h.mem c hc
  · intro c hc
    rcases List.mem_cons.1 hc with rfl | hc
    · exact List.pairwise_map.1 hr.apart
    · exact h.apart c hc

theorem inv_nil : Inv E P [] := ⟨by simp, by simp, by simp, by simp⟩

theorem putClass_keys (cr : String × List (Val × String)) (d : BD) :
    (putClass E cr d).map (·.1) = if cr.1 ∈ d.map (·.1) then d.map (·.1) else d.map (·.1) ++ [cr.1] := by
  induction d with
  | nil => simp [putClass]
  | cons cl d ih =>
    obtain ⟨c, l⟩ := cl
    simp only [putClass]
    by_cases h : c = cr.1
    · simp [h]
    · have h' : cr.1 ≠ c := fun e => h e.symm
      simp only [h, if_false, List.map_cons, ih, List.mem_cons, h', false_or]
      split <;> simp

theorem putClass_inv {cr : String × List (Val × String)} (hn : cr.2 ≠ []) (hr : Rows E P cr.1 cr.2) :
    ∀ {d : BD}, Inv E P d → Inv E P (putClass E cr d) := by
  intro d
  induction d with
  | nil => intro _; exact inv_cons inv_nil (by simp) hn hr
  | cons cl d ih =>
    intro h
    obtain ⟨c, l⟩ := cl
    simp only [putClass]
    by_cases hc : c = cr.1
    · rw [if_pos hc]
      refine inv_cons h.tail (List.nodup_cons.1 h.nodup).1 (putRefs_ne (h.ne (c, l) (by simp))) ?_
      exact putRefs_rows (by rw [hc]; exact hr.mem) (h.rows (cl := (c, l)) (by simp))
    · rw [if_neg hc]
      refine inv_cons (ih h.tail) ?_ (h.ne (c, l) (by simp)) (h.rows (cl := (c, l)) (by simp))
      rw [putClass_keys]
      have h1 : c ∉ d.map (·.1) := (List.nodup_cons.1 h.nodup).1
      split
      · exact h1
      · simp only [List.mem_append, List.mem_singleton, not_or]
        exact ⟨h1, hc⟩

theorem putClass_mono {cr : String × List (Val × String)} : ∀ {d : BD} {c : String} {l : List (Val × String)}, (c, l) ∈ d →
    ∃ l', (c, l') ∈ putClass E cr d ∧ ∀ e ∈ l, ∃ f ∈ l', f.1 = e.1 := by
  intro d
  induction d with
  | nil => intro c l h; simp at h
  | cons cl d ih =>
    intro c l h
    obtain ⟨c', l''⟩ := cl
    simp only [putClass]
    rcases List.mem_cons.1 h with h | h
    · cases h
      by_cases hc : c = cr.1
      · rw [if_pos hc]
        exact ⟨cr.2.foldl (fun l r => putRef E r l) l, by simp, fun e he => putRefs_mono he⟩
      · rw [if_neg hc]
        exact ⟨l, by simp, fun e he => ⟨e, he, rfl⟩⟩
    · by_cases hc : c' = cr.1
      · rw [if_pos hc]
        exact ⟨l, by simp [h], fun e he => ⟨e, he, rfl⟩⟩
      · rw [if_neg hc]
        obtain ⟨l', h1, h2⟩ := ih h
        exact ⟨l', by simp [h1], h2⟩

theorem putClass_new (hE : Equality E P) {cr : String × List (Val × String)} (hr : ∀ r ∈ cr.2, P r.1 ∧ r.1.isObj) : ∀ {d : BD}
    {r : Val × String}, r ∈ cr.2 → ∃ l', (cr.1, l') ∈ putClass E cr d ∧ ∃ f ∈ l', E.same f.1 r.1 = true := by
  intro d
  induction d with
  | nil => intro r h; exact ⟨cr.2, by simp [putClass], r, h, hE.refl _ (hr r h).1 (hr r h).2⟩
  | cons cl d ih =>
    intro r h
    obtain ⟨c, l⟩ := cl
    simp only [putClass]
    by_cases hc : c = cr.1
    · rw [if_pos hc]
      exact ⟨cr.2.foldl (fun l r => putRef E r l) l, by simp [hc], putRefs_new hE hr h⟩
    · rw [if_neg hc]
      obtain ⟨l', h1, h2⟩ := ih (r := r) h
      exact ⟨l', by simp [h1], h2⟩

theorem merge_inv {d e : BD} (hd : Inv E P d) (he : Inv E P e) : Inv E P (merge E d e) := by
  unfold merge
  induction e generalizing d with
  | nil => exact hd
  | cons cl e ih => exact ih (putClass_inv (he.ne cl (by simp)) (he.rows (by simp)) hd) he.tail

theorem foldl_mono {e : BD} : ∀ {d : BD} {c : String} {l : List (Val × String)}, (c, l) ∈ d →
    ∃ l', (c, l') ∈ e.foldl (fun d cr => putClass E cr d) d ∧ ∀ e ∈ l, ∃ f ∈ l', f.1 = e.1 := by
  induction e with
  | nil => intro d c l h; exact ⟨l, h, fun e he => ⟨e, he, rfl⟩⟩
  | cons cl e ih =>
    intro d c l h
    obtain ⟨l', h1, h2⟩ := putClass_mono (E := E) (cr := cl) h
    obtain ⟨l'', h3, h4⟩ := ih h1
    refine ⟨l'', h3, fun x hx => ?_⟩
    obtain ⟨f, hf, hf'⟩ := h2 x hx
    obtain ⟨g, hg, hg'⟩ := h4 f hf
    exact ⟨g, hg, hg'.trans hf'⟩

theorem merge_left {d e : BD} {x : Val} (h : Has E d x) : Has E (merge E d e) x := by
  obtain ⟨l, h1, f, h2, h3⟩ := h
  obtain ⟨l', h4, h5⟩ := foldl_mono (E := E) (e := e) h1
  obtain ⟨g, h6, h7⟩ := h5 f h2
  exact ⟨l', h4, g, h6, by rw [h7]; exact h3⟩

theorem merge_right (hE : Equality E P) {d e : BD} (hd : Inv E P d) (he : Inv E P e) {x : Val} (hx : P x) (ho : x.isObj) (h : Has E e x) :
    Has E (merge E d e) x := by
  have hm := merge_inv hd he
  obtain ⟨l, h1, r, h2, h3⟩ := h
  have : ∀ {d : BD}, ∃ l', (x.className, l') ∈ e.foldl (fun d cr => putClass E cr d) d ∧ ∃ f ∈ l', E.same f.1 r.1 = true := by
    clear hm hd
    induction e with
    | nil => simp at h1
    | cons cl e ih =>
      intro d
      rcases List.mem_cons.1 h1 with h1 | h1
      · obtain ⟨l', h4, f, h5, h6⟩ := putClass_new (d := d) hE (cr := cl)
          (fun r hr => ⟨(he.mem cl (by simp) r hr).1, (he.mem cl (by simp) r hr).2.1⟩) (r := r) (by rw [← h1]; exact h2)
        rw [← h1] at h4
        obtain ⟨l'', h7, h8⟩ := foldl_mono (E := E) (e := e) h4
        obtain ⟨g, h9, h10⟩ := h8 f h5
        exact ⟨l'', by rw [← h1]; exact h7, g, h9, by rw [h10]; exact h6⟩
      · exact ih he.tail h1
  obtain ⟨l', h4, f, h5, h6⟩ := this (d := d)
  refine ⟨l', h4, f, h5, hE.trans f.1 r.1 x ?_ ?_ hx ?_ ?_ ho h6 h3⟩
  · exact (hm.mem _ h4 f h5).1
  · exact (he.mem _ h1 r h2).1
  · exact (hm.mem _ h4 f h5).2.1
  · exact (he.mem _ h1 r h2).2.1

/-! ### Breakdown -/

theorem pref_append_ne {p k : String} (h : p ≠ "" ∨ k ≠ "") : pref p ++ k ≠ "" := by
  intro hn
  have hn' := congrArg String.toList hn
  simp only [String.toList_append] at hn'
  obtain ⟨h1, h2⟩ := List.append_eq_nil_iff.1 hn'
  rcases h with h | h
  · simp only [pref, h, if_false, String.toList_append] at h1
    exact absurd (List.append_eq_nil_iff.1 h1).2 (by decide)
  · exact h (String.toList_inj.1 h2)

mutual
theorem breakdown_ok (hE : Equality E P) : ∀ (v : Val) (p : String), (∀ y, Sub v y → P y) →
    Inv E P (breakdown E v p) ∧ ∀ x, Found v p x → Has E (breakdown E v p) x
  | .none, p, _ => ⟨inv_nil, by intro x h; cases h⟩
  | .bool _, p, _ => ⟨inv_nil, by intro x h; cases h⟩
  | .int _, p, _ => ⟨inv_nil, by intro x h; cases h⟩
  | .float _, p, _ => ⟨inv_nil, by intro x h; cases h⟩
  | .str _, p, _ => ⟨inv_nil, by intro x h; cases h⟩
  | .list l, p, h => by
    have := items_ok hE l (pref p) 0 [] (fun x hx y hy => h y (.item hx hy)) inv_nil
    refine ⟨by simp only [breakdown]; exact this.1, ?_⟩
    intro x hx
    simp only [breakdown]
    cases hx with
    | item h1 h2 => exact this.2.2 _ _ _ h1 (by rw [Nat.zero_add]; exact h2)
  | .dict l, p, h => by
    have := entries_ok hE l (pref p) [] (fun k x hx y hy => h y (.entry hx hy)) inv_nil
    refine ⟨by simp only [breakdown]; exact this.1, ?_⟩
    intro x hx
    simp only [breakdown]
    cases hx with
    | entry h1 h2 => exact this.2.2 _ _ _ h1 h2
  | .obj c n as, p, h => by
    have hs : ∀ k x, (k, x) ∈ as → ∀ y, Sub x y → P y := fun k x hx y hy => h y (.attr hx hy)
    have h0 := attributes_ok hE as (pref p) 0 [] hs inv_nil
    have h1 := attributes_ok hE as (pref p) 1 _ hs h0.1
    have h2 := attributes_ok hE as (pref p) 2 _ hs h1.1
    have hp : P (.obj c n as) := h _ (.refl _)
    have hi : Inv E P (if p = "" then [] else [(c.name, [(Val.obj c n as, p)])]) := by
      split
      · exact inv_nil
      · rename_i hne
        refine inv_cons inv_nil (by simp) (by simp) ⟨?_, by simp⟩
        intro e he
        rw [List.mem_singleton] at he
        subst he
        exact ⟨hp, trivial, rfl, hne⟩
    refine ⟨by simp only [breakdown]; exact merge_inv hi h2.1, ?_⟩
    intro x hx
    have hP : P x := h x hx.sub
    have hx' := hx.obj
    simp only [breakdown]
    cases hx with
    | here hne =>
      refine merge_left ?_
      rw [if_neg hne]
      exact ⟨[(.obj c n as, p)], List.mem_singleton.2 rfl, _, List.mem_singleton.2 rfl, hE.refl _ hp trivial⟩
    | @attr _ _ _ _ k y _ hk hf =>
      refine merge_right hE hi h2.1 hP hx' ?_
      by_cases hp0 : y.pass = 0
      · exact h2.2.1 _ (h1.2.1 _ (h0.2.2 k y x hp0 hk hf))
      · by_cases hp1 : y.pass = 1
        · exact h2.2.1 _ (h1.2.2 k y x hp1 hk hf)
        · refine h2.2.2 k y x ?_ hk hf
          cases y <;> simp [Val.pass] at hp0 hp1 ⊢

theorem items_ok (hE : Equality E P) : ∀ (l : List Val) (p : String) (n : Nat) (bd : BD), (∀ x ∈ l, ∀ y, Sub x y → P y) → Inv E P bd →
    Inv E P (items E l p n bd) ∧ (∀ x, Has E bd x → Has E (items E l p n bd) x) ∧
      ∀ i x y, l[i]? = some x → Found x (p ++ toString (n + i)) y → Has E (items E l p n bd) y
  | [], p, n, bd, _, hb => ⟨hb, fun _ h => h, by intro i x y h; simp at h⟩
  | v :: l, p, n, bd, h, hb => by
    have hv := breakdown_ok hE v (p ++ toString n) (h v (by simp))
    have hm := merge_inv hb hv.1
    have hl := items_ok hE l p (n + 1) _ (fun x hx => h x (by simp [hx])) hm
    refine ⟨hl.1, fun x hx => hl.2.1 x (merge_left hx), ?_⟩
    intro i x y hi hf
    cases i with
    | zero =>
      simp only [List.getElem?_cons_zero, Option.some.injEq] at hi
      subst hi
      exact hl.2.1 y (merge_right hE hb hv.1 (h v (by simp) y hf.sub) hf.obj (hv.2 y hf))
    | succ i =>
      refine hl.2.2 i x y (by simpa using hi) ?_
      rw [show n + 1 + i = n + (i + 1) by omega]
      exact hf

theorem entries_ok (hE : Equality E P) : ∀ (l : List (String × Val)) (p : String) (bd : BD), (∀ k x, (k, x) ∈ l → ∀ y, Sub x y → P y) →
    Inv E P bd → Inv E P (entries E l p bd) ∧ (∀ x, Has E bd x → Has E (entries E l p bd) x) ∧
      ∀ k x y, (k, x) ∈ l → Found x (p ++ k) y → Has E (entries E l p bd) y
  | [], p, bd, _, hb => ⟨hb, fun _ h => h, by intro k x y h; simp at h⟩
  | (k, v) :: l, p, bd, h, hb => by
    have hv := breakdown_ok hE v (p ++ k) (h k v (by simp))
    have hm := merge_inv hb hv.1
    have hl := entries_ok hE l p _ (fun k' x hx => h k' x (by simp [hx])) hm
    refine ⟨hl.1, fun x hx => hl.2.1 x (merge_left hx), ?_⟩
    intro k' x y hi hf
    rcases List.mem_cons.1 hi with hi | hi
    · cases hi
      exact hl.2.1 y (merge_right hE hb hv.1 (h k v (by simp) y hf.sub) hf.obj (hv.2 y hf))
    · exact hl.2.2 k' x y hi hf

theorem attributes_ok (hE : Equality E P) : ∀ (l : List (String × Val)) (p : String) (n : Nat) (bd : BD),
    (∀ k x, (k, x) ∈ l → ∀ y, Sub x y → P y) →
    Inv E P bd → Inv E P (attributes E l p n bd) ∧ (∀ x, Has E bd x → Has E (attributes E l p n bd) x) ∧
      ∀ k x y, x.pass = n → (k, x) ∈ l → Found x (p ++ k) y → Has E (attributes E l p n bd) y
  | [], p, n, bd, _, hb => ⟨hb, fun _ h => h, by intro k x y _ h; simp at h⟩
  | (k, v) :: l, p, n, bd, h, hb => by
    have hv := breakdown_ok hE v (p ++ k) (h k v (by simp))
    have hm := merge_inv hb hv.1
    simp only [attributes]
    by_cases hp : v.pass = n
    · rw [if_pos hp]
      have hl := attributes_ok hE l p n _ (fun k' x hx => h k' x (by simp [hx])) hm
      refine ⟨hl.1, fun x hx => hl.2.1 x (merge_left hx), ?_⟩
      intro k' x y hn hi hf
      rcases List.mem_cons.1 hi with hi | hi
      · cases hi
        exact hl.2.1 y (merge_right hE hb hv.1 (h k v (by simp) y hf.sub) hf.obj (hv.2 y hf))
      · exact hl.2.2 k' x y hn hi hf
    · rw [if_neg hp]
      have hl := attributes_ok hE l p n _ (fun k' x hx => h k' x (by simp [hx])) hb
      refine ⟨hl.1, fun x hx => hl.2.1 x hx, ?_⟩
      intro k' x y hn hi hf
      rcases List.mem_cons.1 hi with hi | hi
      · cases hi
        exact absurd hn hp
      · exact hl.2.2 k' x y hn hi hf
end

theorem toString_ne (i : Nat) : toString i ≠ "" := by
  intro h
  have := congrArg String.toList h
  have h' : (toString i).toList ≠ [] := by
    rw [show toString i = Nat.repr i from rfl, Nat.repr]
    simp only [String.toList_ofList]
    exact Nat.toDigits_ne_nil
  exact h' this

theorem found_of_sub {v y : Val} (h : Sub v y) (hy : y.isObj) : ∀ {p : String}, p ≠ "" → Found v p y := by
  induction h with
  | refl v =>
    intro p hp
    cases v with
    | obj c n as => exact .here hp
    | _ => exact absurd hy (by simp [Val.isObj])
  | item hx _ ih =>
    intro p hp
    obtain ⟨i, hi⟩ := List.mem_iff_getElem?.1 hx
    exact .item hi (ih hy (pref_append_ne (.inl hp)))
  | entry hx _ ih => intro p hp; exact .entry hx (ih hy (pref_append_ne (.inl hp)))
  | attr hx _ ih => intro p hp; exact .attr hx (ih hy (pref_append_ne (.inl hp)))

/-- An object whose attributes have names lists every object below it, in the list of its class. -/
theorem has_of_sub {c : Cls} {n : String} {as : List (String × Val)} (hE : Equality E (Sub (.obj c n as))) {k : String} {x y : Val}
    (hk : (k, x) ∈ as) (hne : k ≠ "") (hs : Sub x y) (hy : y.isObj) : Has E (breakdown E (.obj c n as) "") y :=
  (breakdown_ok hE (.obj c n as) "" (fun _ h => h)).2 y (.attr hk (found_of_sub hs hy (pref_append_ne (.inr hne))))

theorem inv_breakdown {v : Val} (hE : Equality E (Sub v)) : Inv E (Sub v) (breakdown E v "") :=
  (breakdown_ok hE v "" (fun _ h => h)).1

end DC.Xl
