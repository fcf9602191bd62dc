import Mathlib.Data.List.Perm.Basic
import Mathlib.Data.List.Perm.Subperm
import Mathlib.Data.List.Flatten
import Mathlib.Data.List.Nodup
import Mathlib.Data.List.Pairwise
import Verif.Workflow.Steps
/- Lemmas on the edition of steps. -/
namespace DC.Wkf

variable {δ : Type}

/-- Spec: the inputs found in the steps, in order. -/
def Ed.stepped (e : Ed δ) : List Nat := e.steps.flatMap fun a => (e.obj a).inputs

/-- Spec: all the places where inputs are found: the steps, then the spare inputs. -/
def Ed.placed (e : Ed δ) : List Nat := e.stepped ++ e.spare

/-- Spec: the steps and the spare inputs hold each input of the workflow exactly once, and nothing else (`perm`,
`nodup`), and the steps are distinct objects, none of which is yet to be created. -/
structure Sound (e : Ed δ) : Prop where
  nodup : e.inputs.Nodup
  perm : e.placed.Perm e.inputs
  distinct : e.steps.Nodup
  known : ∀ a ∈ e.steps, a < e.next

theorem stepped_split {e : Ed δ} (h : e.steps.Nodup) {a : Nat} (ha : a ∈ e.steps) : ∃ rest,
    e.stepped.Perm ((e.obj a).inputs ++ rest) ∧
    ∀ f : StepObj δ → StepObj δ, (e.setStep a f).stepped.Perm ((f (e.obj a)).inputs ++ rest) := by
  refine ⟨(e.steps.erase a).flatMap fun b => (e.obj b).inputs, ?_, fun f => ?_⟩
  · exact ((List.perm_cons_erase ha).flatMap_right _).trans (by simp)
  · have hp := ((List.perm_cons_erase ha).flatMap_right fun b => ((e.setStep a f).obj b).inputs)
    refine hp.trans ?_
    rw [List.flatMap_cons]
    have : (e.steps.erase a).flatMap (fun b => ((e.setStep a f).obj b).inputs) =
        (e.steps.erase a).flatMap fun b => (e.obj b).inputs := by
      have hn : a ∉ e.steps.erase a := fun hc => by rw [h.mem_erase_iff] at hc; exact hc.1 rfl
      refine List.flatMap_congr fun b hb => ?_
      have : b ≠ a := fun hc => hn (hc ▸ hb)
      simp [Ed.setStep, this]
    rw [this]
    simp [Ed.setStep]

theorem stepped_append {e : Ed δ} (h : e.steps.Nodup) {a : Nat} (ha : a ∈ e.steps) (v : Nat) :
    (e.setStep a fun s => { s with inputs := s.inputs ++ [v] }).stepped.Perm (v :: e.stepped) := by
  obtain ⟨rest, h1, h2⟩ := stepped_split h ha
  refine (h2 _).trans ?_
  simp only [List.append_assoc]
  exact List.perm_middle.trans (h1.symm.cons v)

theorem stepped_erase {e : Ed δ} (h : e.steps.Nodup) {b v : Nat} (hb : b ∈ e.steps) (hv : v ∈ (e.obj b).inputs) :
    (v :: (e.setStep b fun s => { s with inputs := (e.obj b).inputs.erase v }).stepped).Perm e.stepped := by
  obtain ⟨rest, h1, h2⟩ := stepped_split h hb
  refine ((h2 _).cons v).trans ?_
  refine .trans ?_ h1.symm
  rw [← List.cons_append]
  exact (List.perm_cons_erase hv).symm.append_right rest

theorem stepped_same {e : Ed δ} {a : Nat} {f : StepObj δ → StepObj δ} (hf : (f (e.obj a)).inputs = (e.obj a).inputs) :
    (e.setStep a f).stepped = e.stepped := by
  unfold Ed.stepped
  refine List.flatMap_congr fun b _ => ?_
  simp only [Ed.setStep]
  split
  · rename_i hb; subst hb; exact hf
  · rfl

theorem Sound.setSame {e : Ed δ} (h : Sound e) {a : Nat} {f : StepObj δ → StepObj δ}
    (hf : (f (e.obj a)).inputs = (e.obj a).inputs) : Sound (e.setStep a f) :=
  ⟨h.nodup, by unfold Ed.placed; rw [stepped_same hf]; exact h.perm, h.distinct, h.known⟩

theorem Sound.nodup_placed {e : Ed δ} (h : Sound e) : e.placed.Nodup := (h.perm.nodup_iff).2 h.nodup

theorem Sound.unique {e : Ed δ} (h : Sound e) {a b v : Nat} (ha : a ∈ e.steps) (hb : b ∈ e.steps)
    (hva : v ∈ (e.obj a).inputs) (hvb : v ∈ (e.obj b).inputs) : a = b := by
  have hn : e.stepped.Nodup := (List.nodup_append.1 h.nodup_placed).1
  by_contra hc
  have hp := (List.nodup_flatMap.1 hn).2
  have : Std.Symm (Function.onFun List.Disjoint fun a => (e.obj a).inputs) := ⟨fun x y hxy => hxy.symm⟩
  exact hp.forall ha hb hc hva hvb

theorem Sound.find {e : Ed δ} (h : Sound e) {v : Nat} (hv : v ∈ e.inputs) :
    (findInputStep e v = .ok none ∧ v ∈ e.spare ∧ ∀ a ∈ e.steps, v ∉ (e.obj a).inputs) ∨
    ∃ b ∈ e.steps, v ∈ (e.obj b).inputs ∧ v ∉ e.spare ∧ findInputStep e v = .ok (some b) := by
  have hpl : v ∈ e.placed := h.perm.mem_iff.2 hv
  unfold findInputStep
  match hf : e.steps.filter fun a => (e.obj a).inputs.contains v with
  | [] =>
    have hno : ∀ a ∈ e.steps, v ∉ (e.obj a).inputs := by
      intro a ha hc
      have := List.filter_eq_nil_iff.1 hf a ha
      simp [hc] at this
    refine .inl ⟨rfl, ?_, hno⟩
    rcases List.mem_append.1 hpl with h1 | h1
    · obtain ⟨a, ha, hva⟩ := List.mem_flatMap.1 h1
      exact absurd hva (hno a ha)
    · exact h1
  | [b] =>
    have hb : b ∈ e.steps.filter fun a => (e.obj a).inputs.contains v := by rw [hf]; exact .head _
    simp only [List.mem_filter, List.contains_iff_mem] at hb
    refine .inr ⟨b, hb.1, hb.2, ?_, rfl⟩
    have hd := (List.nodup_append.1 h.nodup_placed).2.2
    intro hc
    exact hd v (List.mem_flatMap.2 ⟨b, hb.1, hb.2⟩) v hc rfl
  | b :: c :: l =>
    exfalso
    have hb : b ∈ e.steps.filter fun a => (e.obj a).inputs.contains v := by rw [hf]; exact .head _
    have hc : c ∈ e.steps.filter fun a => (e.obj a).inputs.contains v := by rw [hf]; exact .tail _ (.head _)
    have hnd : (e.steps.filter fun a => (e.obj a).inputs.contains v).Nodup := h.distinct.filter _
    rw [hf] at hnd
    simp only [List.mem_filter, List.contains_iff_mem] at hb hc
    have := h.unique hb.1 hc.1 hb.2 hc.2
    subst this
    simp at hnd

theorem remove_ok {l : List Nat} {v : Nat} (h : v ∈ l) : Py.remove l v = .ok (l.erase v) := by
  simp [Py.remove, h]

/-- What a successful `change_input_step` does to a sound state. -/
theorem Sound.changeInputStep {e : Ed δ} (h : Sound e) {i k : Int} {v a : Nat} (hv : Py.get e.inputs i = .ok v)
    (ha : Py.get e.steps k = .ok a) : ∃ e', changeInputStep i k e = (e', none) ∧ Sound e' ∧ e'.inputs = e.inputs ∧
      e'.steps = e.steps ∧ v ∈ (e'.obj a).inputs ∧
      (∀ b w, w ≠ v → (w ∈ (e'.obj b).inputs ↔ w ∈ (e.obj b).inputs)) ∧ e'.spare = e.spare.erase v := by
  have hvm := Py.get_mem hv
  have ham := Py.get_mem ha
  have happ := stepped_append h.distinct ham v
  unfold Wkf.changeInputStep
  rcases h.find hvm with ⟨hf, hs, -⟩ | ⟨b, hb, hvb, hns, hf⟩
  · simp only [hv, hf, ha]
    have hs1 : v ∈ (e.setStep a fun s => { s with inputs := s.inputs ++ [v] }).spare := hs
    rw [remove_ok hs1]
    refine ⟨_, rfl, ⟨h.nodup, ?_, h.distinct, h.known⟩, rfl, rfl, by simp [Ed.setStep], ?_, rfl⟩
    · refine .trans ?_ h.perm
      show ((e.setStep a fun s => { s with inputs := s.inputs ++ [v] }).stepped ++ e.spare.erase v).Perm _
      refine (happ.append_right _).trans ?_
      rw [List.cons_append]
      exact List.perm_middle.symm.trans ((List.perm_cons_erase hs).symm.append_left _)
    · intro b w hw
      simp only [Ed.setStep]
      split
      · rename_i hb; subst hb; simp [hw]
      · rfl
  · simp only [hv, hf, ha]
    generalize he1 : (e.setStep a fun s => { s with inputs := s.inputs ++ [v] }) = e1 at happ
    have hst : e1.steps = e.steps := by rw [← he1]; rfl
    have hsp : e1.spare = e.spare := by rw [← he1]; rfl
    have hin : e1.inputs = e.inputs := by rw [← he1]; rfl
    have hb1 : v ∈ (e1.obj b).inputs := by
      rw [← he1]; simp only [Ed.setStep]; split
      · simp
      · exact hvb
    have hmem : ∀ c w, w ≠ v → (w ∈ (e1.obj c).inputs ↔ w ∈ (e.obj c).inputs) := by
      intro c w hw
      rw [← he1]
      simp only [Ed.setStep]
      split
      · rename_i hb; subst hb; simp [hw]
      · rfl
    have hcount : a = b → (e1.obj b).inputs = (e.obj b).inputs ++ [v] := by
      rintro rfl
      rw [← he1]
      simp [Ed.setStep]
    have hne : a ≠ b → v ∈ (e1.obj a).inputs := by
      intro _
      rw [← he1]
      simp [Ed.setStep]
    rw [remove_ok hb1]
    have her := stepped_erase (e := e1) (by rw [hst]; exact h.distinct) (by rw [hst]; exact hb) hb1
    refine ⟨_, rfl, ⟨by show e1.inputs.Nodup; rw [hin]; exact h.nodup, ?_, by show e1.steps.Nodup; rw [hst]; exact h.distinct,
      ?_⟩, hin, hst, ?_, ?_, ?_⟩
    · show ((e1.setStep b fun s => { s with inputs := (e1.obj b).inputs.erase v }).stepped ++ e1.spare).Perm e1.inputs
      rw [hsp, hin]
      refine .trans ?_ h.perm
      exact ((her.trans happ).cons_inv).append_right _
    · intro c hc
      have : c ∈ e.steps := by rw [← hst]; exact hc
      have h2 := h.known c this
      rw [← he1]
      exact h2
    · simp only [Ed.setStep]
      split
      · rename_i hab
        rw [hcount hab, List.erase_append_left _ hvb]
        simp
      · rename_i hab
        exact hne hab
    · intro c w hw
      rw [← hmem c w hw]
      simp only [Ed.setStep]
      split
      · rename_i hb; subst hb; exact List.mem_erase_of_ne hw
      · rfl
    · show e1.spare = _
      rw [hsp, List.erase_of_not_mem hns]

theorem Sound.changeInputStep_any {e : Ed δ} (h : Sound e) (i k : Int) : Sound (Wkf.changeInputStep i k e).1 := by
  cases hv : Py.get e.inputs i with
  | error err => simp [Wkf.changeInputStep, hv, h]
  | ok v =>
    cases ha : Py.get e.steps k with
    | error err =>
      rcases h.find (Py.get_mem hv) with ⟨hf, -⟩ | ⟨b, -, -, -, hf⟩ <;> simp [Wkf.changeInputStep, hv, hf, ha, h]
    | ok a =>
      obtain ⟨e', he, hs, -⟩ := h.changeInputStep hv ha
      rw [he]
      exact hs

theorem Sound.changeInputsStep {e : Ed δ} (h : Sound e) (is : List Int) (k : Int) :
    Sound (Wkf.changeInputsStep is k e).1 := by
  induction is generalizing e with
  | nil => exact h
  | cons i is ih =>
    have h1 := h.changeInputStep_any i k
    unfold Wkf.changeInputsStep
    split
    · rename_i e1 heq
      rw [heq] at h1
      exact ih h1
    · rename_i e1 err heq
      rw [heq] at h1
      exact h1

/-- What `remove_input_from_step` does to a sound state for an input which is in a step. -/
theorem Sound.removeInput {e : Ed δ} (h : Sound e) {i : Int} {v b : Nat} (hv : Py.get e.inputs i = .ok v)
    (hb : b ∈ e.steps) (hvb : v ∈ (e.obj b).inputs) : ∃ e', removeInputFromStep i e = (e', none) ∧ Sound e' ∧
      e'.inputs = e.inputs ∧ e'.steps = e.steps ∧ e'.spare = e.spare ++ [v] ∧
      e'.obj = (e.setStep b fun s => { s with inputs := (e.obj b).inputs.erase v }).obj := by
  unfold removeInputFromStep
  have hf : findInputStep { e with spare := e.spare ++ [v] } v = .ok (some b) := by
    rcases h.find (Py.get_mem hv) with ⟨-, -, hn⟩ | ⟨c, hc, hvc, -, hf⟩
    · exact absurd hvb (hn b hb)
    · rw [h.unique hb hc hvb hvc]
      exact hf
  simp only [hv, hf, remove_ok hvb]
  refine ⟨_, rfl, ⟨h.nodup, ?_, h.distinct, h.known⟩, rfl, rfl, rfl, rfl⟩
  have her := stepped_erase h.distinct hb hvb
  show ((e.setStep b fun s => { s with inputs := (e.obj b).inputs.erase v }).stepped ++ (e.spare ++ [v])).Perm e.inputs
  refine .trans ?_ h.perm
  rw [← List.append_assoc]
  refine List.perm_append_singleton _ _ |>.trans ?_
  rw [← List.cons_append]
  exact her.append_right _

theorem get_idxOf {l : List Nat} {v : Nat} (h : v ∈ l) : Py.get l (l.idxOf v : Nat) = .ok v := by
  rw [Py.get_nat, List.getElem?_eq_getElem (List.idxOf_lt_length_iff.2 h)]
  simp

theorem Sound.mem_inputs {e : Ed δ} (h : Sound e) {a v : Nat} (ha : a ∈ e.steps) (hv : v ∈ (e.obj a).inputs) :
    v ∈ e.inputs := h.perm.mem_iff.1 (List.mem_append_left _ (List.mem_flatMap.2 ⟨a, ha, hv⟩))

theorem Sound.removeInputs {a : Nat} : ∀ {k : Nat} {e : Ed δ}, Sound e → a ∈ e.steps → (e.obj a).inputs.length = k →
    ∃ e', removeInputs a k e = (e', none) ∧ Sound e' ∧ e'.inputs = e.inputs ∧ e'.steps = e.steps ∧
      (e'.obj a).inputs = [] ∧ (∀ b, b ≠ a → e'.obj b = e.obj b) ∧ e'.spare.Perm (e.spare ++ (e.obj a).inputs)
  | 0, e, h, ha, hk => ⟨e, rfl, h, rfl, rfl, List.length_eq_zero_iff.1 hk, fun _ _ => rfl, by
      rw [List.length_eq_zero_iff.1 hk, List.append_nil]⟩
  | k + 1, e, h, ha, hk => by
    have hlt : k < (e.obj a).inputs.length := by omega
    have hmem : (e.obj a).inputs[k] ∈ (e.obj a).inputs := List.getElem_mem hlt
    have hin := h.mem_inputs ha hmem
    obtain ⟨e1, h1, hs1, hi1, hst1, hsp1, ho1⟩ := h.removeInput (get_idxOf hin) ha hmem
    have hoa : (e1.obj a).inputs = (e.obj a).inputs.erase (e.obj a).inputs[k] := by rw [ho1]; simp [Ed.setStep]
    obtain ⟨e', h2, hs2, hi2, hst2, hn2, ho2, hsp2⟩ := Sound.removeInputs (k := k) hs1 (by rw [hst1]; exact ha)
      (by rw [hoa, List.length_erase_of_mem hmem]; omega)
    refine ⟨e', ?_, hs2, hi2.trans hi1, hst2.trans hst1, hn2, ?_, ?_⟩
    · unfold Wkf.removeInputs
      rw [List.getElem?_eq_getElem hlt]
      simp only [List.contains_iff_mem, hin, if_true, h1, h2]
    · intro b hb
      rw [ho2 b hb, ho1]
      simp [Ed.setStep, hb]
    · refine hsp2.trans ?_
      rw [hsp1, hoa, List.append_assoc, List.singleton_append]
      exact (List.perm_cons_erase hmem).symm.append_left _

theorem del_ok {l : List Nat} {i : Int} {a : Nat} (h : Py.get l i = .ok a) (hn : l.Nodup) :
    Py.del l i = .ok (l.erase a) := by
  obtain ⟨k, hk, ha⟩ := Py.get_ok.1 h
  unfold Py.del
  rw [hk]
  have hlt := Py.idx_lt hk
  rw [List.getElem?_eq_getElem hlt] at ha
  simp only [Option.some.injEq] at ha
  subst ha
  simp [hn.erase_getElem]

theorem stepped_drop {e : Ed δ} {a : Nat} (ha : a ∈ e.steps) (hn : (e.obj a).inputs = []) :
    ({ e with steps := e.steps.erase a } : Ed δ).stepped.Perm e.stepped := by
  have := (List.perm_cons_erase ha).flatMap_right fun b => (e.obj b).inputs
  rw [List.flatMap_cons, hn, List.nil_append] at this
  exact this.symm

theorem Sound.removeStep {e : Ed δ} (h : Sound e) {k : Int} {a : Nat} (ha : Py.get e.steps k = .ok a) :
    ∃ e', removeStep k e = (e', none) ∧ Sound e' ∧ e'.inputs = e.inputs ∧ e'.steps = e.steps.erase a ∧
      (∀ b, b ≠ a → e'.obj b = e.obj b) ∧ e'.spare.Perm (e.spare ++ (e.obj a).inputs) := by
  have ham := Py.get_mem ha
  obtain ⟨e1, h1, hs1, hi1, hst1, hn1, ho1, hsp1⟩ := h.removeInputs ham rfl
  unfold Wkf.removeStep
  simp only [ha, h1]
  rw [hst1, del_ok ha h.distinct]
  refine ⟨_, rfl, ⟨hs1.nodup, ?_, h.distinct.erase a, ?_⟩, hi1, rfl, ho1, hsp1⟩
  · refine .trans ?_ hs1.perm
    have := stepped_drop (e := e1) (a := a) (by rw [hst1]; exact ham) hn1
    rw [hst1] at this
    exact this.append_right _
  · intro b hb
    exact hs1.known b (by rw [hst1]; exact List.mem_of_mem_erase hb)

theorem Sound.removeStep_any {e : Ed δ} (h : Sound e) (k : Int) : Sound (Wkf.removeStep k e).1 := by
  cases ha : Py.get e.steps k with
  | error err => simp [Wkf.removeStep, ha, h]
  | ok a =>
    obtain ⟨e', he, hs, -⟩ := h.removeStep ha
    rw [he]
    exact hs

theorem Sound.resetLoop : ∀ {k : Nat} {e : Ed δ}, Sound e → e.steps.length = k → ∃ e', resetLoop k e = (e', none) ∧
    Sound e' ∧ e'.inputs = e.inputs ∧ e'.steps = []
  | 0, e, h, hk => ⟨e, rfl, h, rfl, List.length_eq_zero_iff.1 hk⟩
  | k + 1, e, h, hk => by
    have hlt : k < e.steps.length := by omega
    have ha : Py.get e.steps (k : Nat) = .ok e.steps[k] := by rw [Py.get_nat, List.getElem?_eq_getElem hlt]
    obtain ⟨e1, h1, hs1, hi1, hst1, -, -⟩ := h.removeStep ha
    obtain ⟨e', h2, hs2, hi2, hst2⟩ := Sound.resetLoop (k := k) hs1
      (by rw [hst1, List.length_erase_of_mem (List.getElem_mem hlt)]; omega)
    refine ⟨e', ?_, hs2, hi2.trans hi1, hst2⟩
    unfold Wkf.resetLoop
    simp only [h1, h2]

theorem Sound.insertStep {e : Ed δ} (h : Sound e) (l : String) (k : Option Int) : Sound (insertStep l k e).1 := by
  have hnew : e.next ∉ e.steps := fun hc => Nat.lt_irrefl _ (h.known _ hc)
  have hp : ((Wkf.insertStep l k e).1.steps).Perm (e.next :: e.steps) := by
    unfold Wkf.insertStep
    cases k with
    | none => exact List.perm_append_singleton _ _
    | some i =>
      show (List.insertIdx e.steps _ e.next).Perm _
      refine List.perm_insertIdx _ _ ?_
      unfold Py.bound
      split
      · omega
      · rename_i hi
        have : i < 0 := by omega
        omega
  have hst : (Wkf.insertStep l k e).1.stepped.Perm e.stepped := by
    refine (hp.flatMap_right _).trans ?_
    rw [List.flatMap_cons]
    have h1 : ((Wkf.insertStep l k e).1.obj e.next).inputs = [] := by simp [Wkf.insertStep]
    rw [h1, List.nil_append]
    have : e.steps.flatMap (fun a => ((Wkf.insertStep l k e).1.obj a).inputs) = e.stepped := by
      refine List.flatMap_congr fun b hb => ?_
      have : b ≠ e.next := fun hc => hnew (hc ▸ hb)
      simp [Wkf.insertStep, this]
    rw [this]
  refine ⟨h.nodup, (hst.append_right _).trans h.perm, hp.nodup_iff.2 (List.nodup_cons.2 ⟨hnew, h.distinct⟩), ?_⟩
  intro a ha
  have := hp.mem_iff.1 ha
  show a < e.next + 1
  rcases List.mem_cons.1 this with rfl | hm
  · omega
  · have := h.known a hm; omega

theorem getAll_spec {α : Type} {l : List α} {order : List Int} {r : List α} : getAll l order = .ok r ↔
    List.Forall₂ (fun i x => Py.get l i = .ok x) order r := Py.mapM_ok

end DC.Wkf
