import Verif.Values.EqualityProps
/-
Property C197: equality and hash of wholes follow from those of their parts.
-/
namespace DC

/-! ### Specification -/

/-- `Within Γ x y v w`: `w` is `v` with `y` in the place of `x`, somewhere below lists, tuples, dictionaries and attributes which are data. -/
inductive Within (Γ : Env) (x y : V) : V → V → Prop
  | here : Within Γ x y x y
  | list (pre post : List V) {v w : V} : Within Γ x y v w → Within Γ x y (.list (pre ++ v :: post)) (.list (pre ++ w :: post))
  | tuple (pre post : List V) {v w : V} : Within Γ x y v w → Within Γ x y (.tuple (pre ++ v :: post)) (.tuple (pre ++ w :: post))
  | dict (pre post : List (Key × V)) (k : Key) {v w : V} : Within Γ x y v w →
    Within Γ x y (.dict (pre ++ (k, v) :: post)) (.dict (pre ++ (k, w) :: post))
  | attr (c : String) (pre post : List (Key × V)) (k : Key) {v w : V} : DataAttr Γ c k → Within Γ x y v w →
    Within Γ x y (.obj c (pre ++ (k, v) :: post)) (.obj c (pre ++ (k, w) :: post))

/-! ### Lemmas -/

section
variable {Γ : Env}

theorem lookup_mid {pre post : List (Key × V)} {k : Key} {w : V} (hn : (keysOf (pre ++ (k, w) :: post)).Nodup) :
    (pre ++ (k, w) :: post).lookup k = some w := lookup_of_mem hn (by simp)

theorem wf_mid {pre post : List (Key × V)} {k : Key} {v : V} (h : WFD (pre ++ (k, v) :: post)) : WF v :=
  (WFD_iff _).1 h (k, v) (by simp)

theorem keysOf_mid (pre post : List (Key × V)) (k : Key) (v w : V) :
    keysOf (pre ++ (k, v) :: post) = keysOf (pre ++ (k, w) :: post) := by simp [keysOf]

theorem seqAll_mid {pre post : List V} {v w : V} (h : WFL (pre ++ v :: post)) :
    seqAll Γ (pre ++ v :: post) (pre ++ w :: post) = dataEq Γ v w := by
  rw [WFL_iff] at h
  induction pre with
  | nil =>
    have hs : seqAll Γ post post = true := by
      rw [seqAll_iff]
      intro i a b ha hb
      rw [ha] at hb
      cases hb
      exact C01_dataEq_refl Γ a (h a (by have := List.mem_of_getElem? ha; simp [this]))
    show (dataEq Γ v w && seqAll Γ post post) = _
    rw [hs, Bool.and_true]
  | cons a pre ih =>
    show (dataEq Γ a a && seqAll Γ (pre ++ v :: post) (pre ++ w :: post)) = _
    rw [C01_dataEq_refl Γ a (h a (by simp)), Bool.true_and, ih (fun b hb => h b (by simp at hb ⊢; tauto))]

theorem dictAll_mid {keep : Key → Bool} {pre post : List (Key × V)} {k : Key} {v w : V} (hk : keep k = true)
    (hn : (keysOf (pre ++ (k, v) :: post)).Nodup) (h : WFD (pre ++ (k, v) :: post)) :
    dictAll Γ keep (pre ++ (k, v) :: post) ((pre ++ (k, w) :: post).filter fun kv => keep kv.1) = dataEq Γ v w := by
  have hn' : (keysOf (pre ++ (k, w) :: post)).Nodup := by rw [← keysOf_mid pre post k v w]; exact hn
  rw [Bool.eq_iff_iff, dictAll_iff]
  constructor
  · intro ha
    obtain ⟨u, hu, he⟩ := ha k v (by simp) hk
    rw [lookup_filter _ _ _ hk, lookup_mid hn'] at hu
    cases hu
    exact he
  · intro he a b hab ha
    rw [lookup_filter _ _ _ ha]
    have hm : (a, b) ∈ pre ++ (k, w) :: post ∧ WF b ∨ (a = k ∧ b = v) := by
      have hwf := (WFD_iff _).1 h (a, b) hab
      simp only [List.mem_append, List.mem_cons, Prod.mk.injEq] at hab ⊢
      tauto
    rcases hm with ⟨hm, hwf⟩ | ⟨rfl, rfl⟩
    · exact ⟨b, lookup_of_mem hn' hm, C01_dataEq_refl Γ b hwf⟩
    · exact ⟨w, lookup_mid hn', he⟩

theorem filter_true (d : List (Key × V)) : d.filter (fun _ => true) = d := by simp

theorem hashes_mid {H : HashFns} (pre post : List V) {v w : V} (h : chooseHash Γ H v = chooseHash Γ H w) :
    hashes Γ H (pre ++ v :: post) = hashes Γ H (pre ++ w :: post) := by
  simp [hashes_eq_map, h]

theorem hashesD_mid {H : HashFns} (pre post : List (Key × V)) (k : Key) {v w : V} (h : chooseHash Γ H v = chooseHash Γ H w) :
    hashesD Γ H (pre ++ (k, v) :: post) = hashesD Γ H (pre ++ (k, w) :: post) := by
  simp [hashesD_eq_map, h]

theorem attrHashSum_mid {H : HashFns} (c : String) (pre post : List (Key × V)) (k : Key) {v w : V}
    (h : hashKeep Γ c k = true → chooseHash Γ H v = chooseHash Γ H w) :
    attrHashSum Γ H c (pre ++ (k, v) :: post) = attrHashSum Γ H c (pre ++ (k, w) :: post) := by
  induction pre with
  | nil =>
    simp only [List.nil_append, attrHashSum]
    by_cases hk : hashKeep Γ c k = true
    · rw [if_pos hk, if_pos hk, h hk]
    · rw [if_neg hk, if_neg hk]
  | cons a pre ih =>
    obtain ⟨k', v'⟩ := a
    simp only [List.cons_append, attrHashSum, ih]

end

/-! ### The theorems -/

/-- Two wholes which differ at one place are equal exactly when what they hold there is equal. -/
theorem C197_equal {Γ : Env} {x y v w : V} (h : Within Γ x y v w) (hv : WF v) : dataEq Γ v w = dataEq Γ x y := by
  induction h with
  | here => rfl
  | list pre post _ ih =>
    have hl : WFL _ := hv
    rw [← ih ((WFL_iff _).1 hl _ (by simp)), ← seqAll_mid hl]
    show (decide _ && _) = _
    simp
  | tuple pre post _ ih =>
    have hl : WFL _ := hv
    rw [← ih ((WFL_iff _).1 hl _ (by simp)), ← seqAll_mid hl]
    show (decide _ && _) = _
    simp
  | dict pre post k _ ih =>
    have hd : (keysOf _).Nodup ∧ WFD _ := hv
    rw [← ih (wf_mid hd.2), ← dictAll_mid (keep := fun _ => true) rfl hd.1 hd.2, filter_true]
    rfl
  | attr c pre post k hk _ ih =>
    have hd : (keysOf _).Nodup ∧ WFD _ := hv
    rw [← ih (wf_mid hd.2), ← dictAll_mid ((eqKeep_iff Γ c k).2 hk) hd.1 hd.2]
    show (_ == _ && _) = _
    simp

/-- A whole is equal to itself with another value in an attribute which is not data, as the name, of an object anywhere below it. -/
theorem C197_hidden {Γ : Env} {c : String} {pre post : List (Key × V)} {k : Key} {a b v w : V} (hk : ¬ DataAttr Γ c k)
    (h : Within Γ (.obj c (pre ++ (k, a) :: post)) (.obj c (pre ++ (k, b) :: post)) v w) (hv : WF v)
    (hx : WF (.obj c (pre ++ (k, a) :: post))) : dataEq Γ v w = true := by
  rw [C197_equal h hv]
  show (c == c && dictAll Γ (eqKeep Γ c) _ _) = true
  rw [beq_self_eq_true, Bool.true_and, dictAll_iff]
  have hd : (keysOf _).Nodup ∧ WFD _ := hx
  have hn' : (keysOf (pre ++ (k, b) :: post)).Nodup := by rw [← keysOf_mid pre post k a b]; exact hd.1
  intro k' u hm hke
  rw [lookup_filter _ _ _ hke]
  have hne : k' ≠ k := by rintro rfl; exact hk ((eqKeep_iff Γ c _).1 hke)
  refine ⟨u, lookup_of_mem hn' ?_, C01_dataEq_refl Γ u ((WFD_iff _).1 hd.2 (k', u) hm)⟩
  simp only [List.mem_append, List.mem_cons, Prod.mk.injEq] at hm ⊢
  tauto

/-- Two wholes which differ at one place have the same hash if what they hold there has. -/
theorem C197_hash {Γ : Env} (H : HashFns) {x y v w : V} (h : Within Γ x y v w) (he : chooseHash Γ H x = chooseHash Γ H y) :
    chooseHash Γ H v = chooseHash Γ H w := by
  induction h with
  | here => exact he
  | list pre post _ ih => simp only [chooseHash, hashes_mid pre post ih]
  | tuple pre post _ ih => simp only [chooseHash, hashes_mid pre post ih]
  | dict pre post k _ ih => simp only [chooseHash, hashesD_mid pre post k ih]
  | attr c pre post k _ _ ih => simp only [chooseHash, attrHashSum_mid c pre post k (fun _ => ih)]

/-- The name of an object anywhere below a value does not change its hash. -/
theorem C197_hash_name {Γ : Env} (H : HashFns) {c : String} {pre post : List (Key × V)} {a b v w : V}
    (h : Within Γ (.obj c (pre ++ (.str "name", a) :: post)) (.obj c (pre ++ (.str "name", b) :: post)) v w) :
    chooseHash Γ H v = chooseHash Γ H w := by
  refine C197_hash H h ?_
  simp only [chooseHash]
  rw [attrHashSum_mid c pre post (.str "name")]
  intro hk
  simp [hashKeep] at hk

/-- The hash of a whole does not tell which kind of sequence is inside. -/
theorem C197_sequence {Γ : Env} (H : HashFns) {l : List V} {v w : V} (h : Within Γ (.list l) (.tuple l) v w) (hv : WF v) (hl : WFL l) :
    dataEq Γ v w = true ∧ chooseHash Γ H v = chooseHash Γ H w := by
  refine ⟨?_, C197_hash H h rfl⟩
  rw [C197_equal h hv]
  show (decide (l.length = l.length) && seqAll Γ l l) = true
  rw [decide_eq_true rfl, Bool.true_and, seqAll_iff]
  intro i a b ha hb
  rw [ha] at hb
  cases hb
  exact C01_dataEq_refl Γ a ((WFL_iff l).1 hl a (List.mem_of_getElem? ha))

/-- The engine of the car of the examples. -/
def demoEngine (q : Rat) : V := .obj "m.Engine" [(.str "power", .flt q)]

theorem demo_within (q : Rat) : Within demoEnv (.flt 90) (.flt q)
    (.list [.int 1, .obj "m.Car" [(.str "name", .str "n"), (.str "engine", demoEngine 90)]])
    (.list [.int 1, .obj "m.Car" [(.str "name", .str "n"), (.str "engine", demoEngine q)]]) :=
  .list [.int 1] [] (.attr "m.Car" [(.str "name", .str "n")] [] (.str "engine") ⟨"engine", rfl, by simp [demoEnv], by decide, by simp [demoEnv],
    by decide, by decide⟩ (.attr "m.Engine" [] [] (.str "power") ⟨"power", rfl, by simp [demoEnv], by decide, by simp [demoEnv], by decide,
    by decide⟩ .here))

example : dataEq demoEnv (.list [.int 1, .obj "m.Car" [(.str "name", .str "n"), (.str "engine", demoEngine 90)]])
    (.list [.int 1, .obj "m.Car" [(.str "name", .str "n"), (.str "engine", demoEngine 91)]]) = false := by
  rw [C197_equal (demo_within 91) (by simp [demoEngine, WF, WFL, WFD, keysOf])]
  decide +kernel

example : ¬ DataAttr demoEnv "m.Car" (.str "name") ∧ Within demoEnv (.obj "m.Car" ([] ++ (.str "name", .str "a") :: []))
    (.obj "m.Car" ([] ++ (.str "name", .str "b") :: [])) (.dict [(.int 2, .obj "m.Car" [(.str "name", .str "a")])])
    (.dict [(.int 2, .obj "m.Car" [(.str "name", .str "b")])]) :=
  ⟨by rintro ⟨s, hs, _, _, _, _, hn⟩; cases hs; exact hn rfl, .dict [] [] (.int 2) .here⟩

example : Within demoEnv (.list [.int 4]) (.tuple [.int 4]) (.list [.none, .list [.int 4]]) (.list [.none, .tuple [.int 4]]) :=
  .list [.none] [] .here

end DC
