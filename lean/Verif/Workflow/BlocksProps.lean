import Mathlib.Tactic.Linarith
import Mathlib.Tactic.FieldSimp
import Mathlib.Algebra.Order.Ring.Rat
import Mathlib.Data.List.Nodup
import Mathlib.Data.List.Prime
import Mathlib.Data.List.Dedup
import Verif.Values.DiffLemmas
import Verif.Values.LoadLemmas
import Verif.Workflow.Blocks
/- Properties C38, C39, C41, C79 and C80: standard blocks, default arguments and package mix. -/
namespace DC.Wkf

/-! ### C38 -/

/-- `method_dict('run')` raises a ValueError for every workflow with an input having a default value. -/
theorem C38_violated {α : Type} (W : Workflow α) {v : Nat} (hv : v ∈ inputs W) (hd : (W.default v).isSome) :
    runDict W = .error .valueError := by
  have hne : defaultEntries W ≠ [] := by
    obtain ⟨d, hd⟩ := Option.isSome_iff_exists.1 hd
    obtain ⟨i, hi, hiv⟩ := List.getElem_of_mem hv
    have : (i, d) ∈ defaultEntries W := by
      unfold defaultEntries
      refine List.mem_filterMap.2 ⟨(v, i), ?_, by simp [hd]⟩
      rw [List.mem_iff_getElem?]
      exact ⟨i, by simp [List.getElem?_zipIdx, List.getElem?_eq_getElem hi, hiv]⟩
    intro hc
    rw [hc] at this
    simp at this
  unfold runDict
  match h : defaultEntries W with
  | [] => exact absurd h hne
  | iv :: l =>
    rw [List.mapM_cons]
    have : indexOfInt (allVariables W) iv.1 = .error .valueError := by
      unfold indexOfInt
      dsimp only
      rw [if_neg]
      simp only [List.mem_map, not_exists, not_and]
      rintro x - hx
      simp at hx
    rw [this]
    rfl

/-- It returns an empty dictionary when no input has a default value. Missing for the full property: the other
workflows, for which it raises (`C38_violated`). -/
theorem C38_partial {α : Type} (W : Workflow α) (h : ∀ v ∈ inputs W, W.default v = none) : runDict W = .ok [] := by
  have : defaultEntries W = [] := by
    unfold defaultEntries
    rw [List.filterMap_eq_nil_iff]
    intro vi hvi
    have : vi.1 ∈ inputs W := by
      have := List.mem_zipIdx' hvi
      rw [this.2]
      exact List.getElem_mem _
    simp [h vi.1 this]
  unfold runDict
  rw [this]
  rfl

/-- One block whose input has a default value. -/
def exDefault : Workflow Int :=
  { blocks := [⟨[3], [4], fun _ => .ok []⟩], pipes := [], output := some 4, default := fun _ => some 1,
    lockFlag := fun _ => false }

example : 3 ∈ inputs exDefault ∧ (exDefault.default 3).isSome := by decide

/-! ### C41 -/

theorem lookup_zip : ∀ {ins : List Nat} {xs : List V}, ins.Nodup → ins.length = xs.length → ∀ i (h : i < ins.length)
    (h' : i < xs.length), (ins.zip xs).lookup ins[i] = some xs[i]
  | [], _, _, _, i, h, _ => by simp at h
  | a :: ins, [], _, hl, _, _, _ => by simp at hl
  | a :: ins, x :: xs, hn, hl, 0, _, _ => by simp
  | a :: ins, x :: xs, hn, hl, i + 1, h, h' => by
    simp only [List.length_cons, Nat.add_lt_add_iff_right] at h h'
    rw [List.nodup_cons] at hn
    have hne : (ins[i] == a) = false := by
      simp only [beq_eq_false_iff_ne]
      intro hc
      exact hn.1 (hc ▸ List.getElem_mem h)
    simp only [List.zip_cons_cons, List.getElem_cons_succ, List.lookup_cons, hne]
    exact lookup_zip hn.2 (by simpa using hl) i h h'

theorem get_zip {ins : List Nat} {xs : List V} (hn : ins.Nodup) (hl : ins.length = xs.length) :
    ins.mapM (Values.get (ins.zip xs)) = .ok xs := by
  rw [Py.mapM_ok, List.forall₂_iff_get]
  refine ⟨hl, fun i h1 h2 => ?_⟩
  simp [Values.get, lookup_zip hn hl i h1 h2]

theorem get_zip_at {ins : List Nat} {xs : List V} (hn : ins.Nodup) (hl : ins.length = xs.length) {i : Nat} {v : Nat}
    {x : V} (hv : ins[i]? = some v) (hx : xs[i]? = some x) : Values.get (ins.zip xs) v = .ok x := by
  obtain ⟨h1, rfl⟩ := List.getElem?_eq_some_iff.1 hv
  obtain ⟨h2, rfl⟩ := List.getElem?_eq_some_iff.1 hx
  simp [Values.get, lookup_zip hn hl i h1 h2]

/-- A Sequence block returns the list of its inputs in the order of the ports. -/
theorem C41_sequence {ins : List Nat} {xs : List V} (hn : ins.Nodup) (hl : ins.length = xs.length) :
    evalSequence ins (ins.zip xs) = .ok [.list xs] := by
  unfold evalSequence
  rw [get_zip hn hl]
  rfl

theorem extendAll_lists : ∀ (acc : List V) (ls : List (List V)), extendAll acc (ls.map .list) = .ok (acc ++ ls.flatten)
  | acc, [] => by simp [extendAll]
  | acc, l :: ls => by
    have := extendAll_lists (acc ++ l) ls
    simp only [List.map_cons, extendAll, iterate, bind, Except.bind, this]
    simp

/-- A Concatenate block returns the concatenation of its inputs in the order of the ports, when they are lists. -/
theorem C41_concatenate {ins : List Nat} {ls : List (List V)} (hl : ins.length = ls.length) (hne : ls ≠ []) :
    evalConcatenate ins (ins.zip (ls.map .list)) = .ok [.list ls.flatten] := by
  unfold evalConcatenate
  have : (ins.zip (ls.map V.list)).map (·.2) = ls.map .list := by
    rw [List.map_snd_zip (by simp [hl])]
  rw [this]
  cases ls with
  | nil => exact absurd rfl hne
  | cons l ls =>
    have h := extendAll_lists [] (l :: ls)
    unfold concatenate
    simp only [List.map_cons] at h ⊢
    rw [if_pos (by simp [pyClass])]
    simp only [h, bind, Except.bind]
    simp

/-- Spec: two values have the same class. -/
def SameClass : V → V → Prop
  | .none, .none => True
  | .bool _, .bool _ => True
  | .int _, .int _ => True
  | .flt _, .flt _ => True
  | .measure c _, .measure d _ => c = d
  | .str _, .str _ => True
  | .list _, .list _ => True
  | .tuple _, .tuple _ => True
  | .dict _, .dict _ => True
  | .obj c _, .obj d _ => c = d
  | .cls _, .cls _ => True
  | .file b _ _, .file b' _ _ => b = b'
  | .other n, .other m => n = m
  | _, _ => False

theorem pyClass_start (v : V) : (pyClass v).toList.take 2 = match v with
    | .none => ['N', 'o'] | .bool _ => ['b', 'o'] | .int _ => ['i', 'n'] | .flt _ => ['f', 'l'] | .measure _ _ => ['m', 'e']
    | .str _ => ['s', 't'] | .list _ => ['l', 'i'] | .tuple _ => ['t', 'u'] | .dict _ => ['d', 'i'] | .obj _ _ => ['o', 'b']
    | .cls _ => ['t', 'y'] | .file b _ _ => if b then ['B', 'i'] else ['S', 't'] | .other _ => ['o', 't'] := by
  cases v with
  | file b _ _ => cases b <;> simp [pyClass]
  | _ => simp [pyClass]

theorem pyClass_iff (v w : V) : pyClass v = pyClass w ↔ SameClass v w := by
  constructor
  · intro h
    have h2 := congrArg (fun s : String => s.toList.take 2) h
    simp only [pyClass_start] at h2
    cases v <;> cases w <;> first
      | trivial
      | (exfalso; revert h2; simp; done)
      | (exfalso; rename_i b _ _; cases b <;> simp at h2; done)
      | (exfalso; rename_i b _ _ _; cases b <;> simp at h2; done)
      | (exfalso; rename_i b _ _ _ _; cases b <;> simp at h2; done)
      | (rename_i b _ _ b' _ _; cases b <;> cases b' <;> first | rfl | (exfalso; revert h2; simp; done))
      | (simp only [pyClass] at h; exact toString_inj (by simpa using h))
      | (simp only [pyClass] at h; simpa [SameClass] using h)
  · intro h
    cases v <;> cases w <;> first
      | rfl
      | exact h.elim
      | (simp only [SameClass] at h; subst h; rfl)

/-- It raises a ValueError when its inputs have the same class, which has no `extend`, and a TypeError when their classes differ or
when there is no input. -/
theorem C41_concatenate_raises {ins : List Nat} {xs : List V} (hl : ins.length = xs.length)
    (h : ¬ ∃ ls : List (List V), ls ≠ [] ∧ xs = ls.map .list) :
    ((xs ≠ [] ∧ ∀ v ∈ xs, ∀ w ∈ xs, SameClass v w) → evalConcatenate ins (ins.zip xs) = .error .valueError) ∧
    (¬ (xs ≠ [] ∧ ∀ v ∈ xs, ∀ w ∈ xs, SameClass v w) → evalConcatenate ins (ins.zip xs) = .error .typeError) := by
  unfold evalConcatenate
  have : (ins.zip xs).map (·.2) = xs := by rw [List.map_snd_zip (by omega)]
  rw [this]
  unfold concatenate
  cases xs with
  | nil => simp [bind, Except.bind]
  | cons x xs =>
    have hiff : (xs.all fun w => pyClass w == pyClass x) = true ↔ ∀ v ∈ x :: xs, ∀ w ∈ x :: xs, SameClass v w := by
      simp only [List.all_eq_true, beq_iff_eq]
      constructor
      · intro ha v hv w hw
        have hone : ∀ u ∈ x :: xs, pyClass u = pyClass x := fun u hu => by
          rcases List.mem_cons.1 hu with rfl | hu
          · rfl
          · exact ha u hu
        exact (pyClass_iff v w).1 ((hone v hv).trans (hone w hw).symm)
      · exact fun ha w hw => (pyClass_iff w x).2 (ha w (.tail _ hw) x (.head _))
    by_cases hc : xs.all fun w => pyClass w == pyClass x
    · have hall' := hiff.1 hc
      refine ⟨fun hs => ?_, fun hn => absurd ⟨by simp, hall'⟩ hn⟩
      clear hs
      simp only [hc, if_true]
      cases x with
      | list l =>
        exfalso
        apply h
        have hall : ∀ w ∈ xs, ∃ m, w = V.list m := by
          intro w hw
          have := hall' w (.tail _ hw) _ (.head _)
          cases w with
          | list m => exact ⟨m, rfl⟩
          | _ => exact this.elim
        obtain ⟨ls, hls⟩ : ∃ ls : List (List V), xs = ls.map .list := by
          clear hc h this hl hiff hall'
          induction xs with
          | nil => exact ⟨[], rfl⟩
          | cons w ws ih =>
            obtain ⟨m, rfl⟩ := hall w (.head _)
            obtain ⟨ls, rfl⟩ := ih fun w hw => hall w (.tail _ hw)
            exact ⟨m :: ls, rfl⟩
        exact ⟨l :: ls, by simp, by simp [hls]⟩
      | _ => rfl
    · refine ⟨fun hx => absurd (hiff.2 hx.2) hc, fun _ => ?_⟩
      simp only [hc]
      rfl

/-- A boolean and an integer are of two classes; two booleans are of one. -/
example : evalConcatenate [1, 2] ([1, 2].zip [.bool true, .int 1]) = .error .typeError ∧
    evalConcatenate [1, 2] ([1, 2].zip [.bool true, .bool false]) = .error .valueError := ⟨rfl, rfl⟩

/-- A Sequence block which is not given all its inputs raises a KeyError. -/
theorem C41_missing {ins : List Nat} {vs : Values} (h : ∃ v ∈ ins, v ∉ vs.map (·.1)) :
    evalSequence ins vs = .error .keyError := by
  have hg : ∀ v, v ∉ vs.map (·.1) → Values.get vs v = .error .keyError := by
    intro v hv
    have : vs.lookup v = none := by
      clear h
      induction vs with
      | nil => rfl
      | cons kv vs ih =>
        have hne : (v == kv.1) = false := beq_eq_false_iff_ne.2 fun h => hv (by simp [h])
        rw [List.lookup_cons, hne]
        exact ih fun h => hv (List.mem_cons_of_mem _ h)
    simp [Values.get, this]
  have hk : ∀ v, Values.get vs v = .error .keyError ∨ ∃ x, Values.get vs v = .ok x := by
    intro v
    unfold Values.get
    cases vs.lookup v with
    | none => exact .inl rfl
    | some x => exact .inr ⟨x, rfl⟩
  have hm : ins.mapM (Values.get vs) = .error .keyError := by
    induction ins with
    | nil => obtain ⟨v, hv, -⟩ := h; simp at hv
    | cons w ins ih =>
      rw [List.mapM_cons]
      rcases hk w with hw | ⟨x, hw⟩
      · rw [hw]; rfl
      · have h' : ∃ v ∈ ins, v ∉ vs.map (·.1) := by
          obtain ⟨v, hv, hn⟩ := h
          rcases List.mem_cons.1 hv with rfl | hv
          · rw [hg _ hn] at hw; cases hw
          · exact ⟨v, hv, hn⟩
        rw [hw, ih h']; rfl
  unfold evalSequence
  rw [hm]
  rfl

example : evalSequence [1, 2] [(1, .int 5)] = .error .keyError := C41_missing ⟨2, by simp, by simp⟩

/-- Spec: iterating a value gives these elements: those of a list or of a tuple, the keys of a dictionary, the characters of a
string.  Nothing else can be iterated. -/
inductive Elements : V → List V → Prop
  | list (l : List V) : Elements (.list l) l
  | tuple (l : List V) : Elements (.tuple l) l
  | str (s : String) : Elements (.str s) (s.toList.map fun c => .str (String.ofList [c]))
  | dict (d : List (Key × V)) : Elements (.dict d) (d.map fun kv => match kv.1 with | .str s => .str s | .int i => .int i)

theorem iterate_iff (x : V) (l : List V) : iterate x = .ok l ↔ Elements x l := by
  constructor
  · intro h
    cases x <;> simp only [iterate, reduceCtorEq, Except.ok.injEq] at h <;> subst h
    · exact .str _
    · exact .list _
    · exact .tuple _
    · exact .dict _
  · rintro (_ | _ | _ | _) <;> rfl

theorem iterate_error {x : V} (h : ¬ ∃ l, Elements x l) : iterate x = .error .typeError := by
  cases x with
  | list l => exact absurd ⟨_, .list l⟩ h
  | tuple l => exact absurd ⟨_, .tuple l⟩ h
  | str s => exact absurd ⟨_, .str s⟩ h
  | dict d => exact absurd ⟨_, .dict d⟩ h
  | _ => rfl

theorem flattenLoop_error : ∀ (vs acc : List V), (∃ v ∈ vs, ¬ ∃ l, Elements v l) → flattenLoop acc vs = .error .typeError
  | [], _, h => by simp at h
  | v :: vs, acc, h => by
    unfold flattenLoop
    by_cases hv : ∃ l, Elements v l
    · obtain ⟨l, hl⟩ := hv
      rw [(iterate_iff v l).2 hl]
      obtain ⟨w, hw, hn⟩ := h
      rcases List.mem_cons.1 hw with rfl | hw
      · exact absurd ⟨l, hl⟩ hn
      · exact flattenLoop_error vs (acc ++ l) ⟨w, hw, hn⟩
    · rw [iterate_error hv]
      rfl

theorem flattenLoop_spec : ∀ (vs : List V) (acc out : List V), flattenLoop acc vs = .ok out ↔
    ∃ ls, List.Forall₂ (fun v l => iterate v = .ok l) vs ls ∧ out = acc ++ ls.flatten
  | [], acc, out => by simp [flattenLoop, eq_comm]
  | v :: vs, acc, out => by
    unfold flattenLoop
    cases hv : iterate v with
    | error e =>
      simp only [bind, Except.bind, reduceCtorEq, false_iff]
      rintro ⟨ls, h, -⟩
      cases h with
      | cons h1 _ => rw [hv] at h1; simp at h1
    | ok l =>
      simp only [bind, Except.bind]
      rw [flattenLoop_spec vs (acc ++ l) out]
      constructor
      · rintro ⟨ls, h, rfl⟩
        exact ⟨l :: ls, .cons hv h, by simp⟩
      · rintro ⟨ls, h, rfl⟩
        cases h with
        | cons h1 h2 =>
          rw [hv] at h1
          simp only [Except.ok.injEq] at h1
          subst h1
          exact ⟨_, h2, by simp⟩

theorem evalFlatten_iff (i : Nat) (x : V) (out : List V) : evalFlatten [i] [(i, x)] = .ok [.list out] ↔
    ∃ vs ls, iterate x = .ok vs ∧ List.Forall₂ (fun v l => iterate v = .ok l) vs ls ∧ out = ls.flatten := by
  have h1 : Py.get [i] 0 = .ok i := rfl
  have h2 : Values.get [(i, x)] i = .ok x := by simp [Values.get]
  unfold evalFlatten
  simp only [h1, h2, bind, Except.bind]
  cases hx : iterate x with
  | error e => simp
  | ok vs =>
    simp only [Except.ok.injEq]
    cases hf : flattenLoop [] vs with
    | error e =>
      simp only [reduceCtorEq, false_iff]
      rintro ⟨vs', ls, rfl, hF, rfl⟩
      have := (flattenLoop_spec vs [] ls.flatten).2 ⟨ls, hF, by simp⟩
      rw [hf] at this
      simp at this
    | ok o =>
      simp only [Except.ok.injEq, List.cons.injEq, V.list.injEq, and_true]
      constructor
      · rintro rfl
        obtain ⟨ls, hF, ho⟩ := (flattenLoop_spec vs [] o).1 hf
        exact ⟨vs, ls, rfl, hF, by simpa using ho⟩
      · rintro ⟨vs', ls, rfl, hF, rfl⟩
        have := (flattenLoop_spec vs [] ls.flatten).2 ⟨ls, hF, by simp⟩
        rw [hf] at this
        simpa using this

/-- A Flatten block returns the concatenation of the elements of its input, whenever they can all be iterated. -/
theorem C41_flatten (i : Nat) (x : V) (out : List V) : evalFlatten [i] [(i, x)] = .ok [.list out] ↔
    ∃ vs ls, Elements x vs ∧ List.Forall₂ Elements vs ls ∧ out = ls.flatten := by
  rw [evalFlatten_iff]
  simp only [iterate_iff]

/-- It raises a TypeError when its input or one of the elements of its input cannot be iterated. -/
theorem C41_flatten_raises (i : Nat) (x : V) (h : ∀ vs, Elements x vs → ∃ v ∈ vs, ¬ ∃ l, Elements v l) :
    evalFlatten [i] [(i, x)] = .error .typeError := by
  have h1 : Py.get [i] 0 = .ok i := rfl
  have h2 : Values.get [(i, x)] i = .ok x := by simp [Values.get]
  unfold evalFlatten
  simp only [h1, h2, bind, Except.bind]
  by_cases hx : ∃ vs, Elements x vs
  · obtain ⟨vs, hvs⟩ := hx
    simp only [(iterate_iff x vs).2 hvs, flattenLoop_error vs [] (h vs hvs)]
  · simp only [iterate_error hx]

/-- A list holding an integer beside a list. -/
example : evalFlatten [1] [(1, .list [.list [.int 1], .int 2])] = .error .typeError :=
  C41_flatten_raises 1 _ fun vs h => by
    cases h
    exact ⟨.int 2, by simp, fun ⟨l, hl⟩ => by cases hl⟩

theorem mem_product : ∀ (ls : List (List V)) (c : List V), c ∈ product ls ↔ List.Forall₂ (fun x l => x ∈ l) c ls
  | [], c => by simp [product]
  | l :: ls, c => by
    simp only [product, List.mem_flatMap, List.mem_map]
    constructor
    · rintro ⟨x, hx, d, hd, rfl⟩
      exact .cons hx ((mem_product ls d).1 hd)
    · intro h
      cases h with
      | cons h1 h2 => exact ⟨_, h1, _, (mem_product ls _).2 h2, rfl⟩

theorem length_product : ∀ (ls : List (List V)), (product ls).length = (ls.map List.length).prod
  | [] => rfl
  | l :: ls => by
    simp only [product, List.length_flatMap, List.length_map, List.map_cons, List.prod_cons, length_product ls]
    simp

theorem nodup_product : ∀ (ls : List (List V)), (∀ l ∈ ls, l.Nodup) → (product ls).Nodup
  | [], _ => by simp [product]
  | l :: ls, h => by
    have ih := nodup_product ls fun m hm => h m (.tail _ hm)
    rw [product, List.nodup_flatMap]
    refine ⟨fun x _ => ih.map fun a b hab => by simpa using hab, ?_⟩
    refine (h l (.head _)).imp ?_
    intro a b hab c hc hd
    obtain ⟨d, -, rfl⟩ := List.mem_map.1 hc
    obtain ⟨e, -, he⟩ := List.mem_map.1 hd
    simp only [List.cons.injEq] at he
    exact hab he.1.symm

/-- A Product block returns the combinations of one element of each input, in the order of the ports: all of them, as
many as the product of the lengths, once each if the elements of each input are distinct. -/
theorem C41_product {ins : List Nat} {ls : List (List V)} (hn : ins.Nodup) (hl : ins.length = ls.length) :
    ∃ cs : List (List V), evalProduct ins (ins.zip (ls.map .list)) = .ok [.list (cs.map .tuple)] ∧
      (∀ c, c ∈ cs ↔ List.Forall₂ (fun x l => x ∈ l) c ls) ∧ cs.length = (ls.map List.length).prod ∧
      ((∀ l ∈ ls, l.Nodup) → cs.Nodup) := by
  refine ⟨product ls, ?_, mem_product ls, length_product ls, nodup_product ls⟩
  unfold evalProduct
  have hi : (ls.map V.list).mapM iterate = .ok ls := by
    rw [Py.mapM_ok]
    clear hl
    induction ls with
    | nil => exact .nil
    | cons l ls ih => exact .cons rfl ih
  rw [get_zip hn (by simpa using hl)]
  simp only [bind, Except.bind, hi]

/-- An Unpacker block returns the elements at the given indices, in this order, or raises an IndexError if one is out of
range. -/
theorem C41_unpacker (i : Nat) (l : List V) (indices : List Int) :
    (∀ out, evalUnpacker indices [i] [(i, .list l)] = .ok out ↔
      List.Forall₂ (fun k x => ∃ n, Py.idx l.length k = some n ∧ l[n]? = some x) indices out) ∧
    ((∃ k ∈ indices, k < -(l.length : Int) ∨ (l.length : Int) ≤ k) → ∃ e, evalUnpacker indices [i] [(i, .list l)] = .error e) := by
  have h1 : Py.get [i] 0 = .ok i := rfl
  have h2 : Values.get [(i, V.list l)] i = .ok (.list l) := by simp [Values.get]
  have key : ∀ out, evalUnpacker indices [i] [(i, .list l)] = .ok out ↔
      List.Forall₂ (fun k x => ∃ n, Py.idx l.length k = some n ∧ l[n]? = some x) indices out := by
    intro out
    unfold evalUnpacker
    simp only [h1, h2, bind, Except.bind]
    rw [Py.mapM_ok]
    simp only [subscript, Py.get_ok]
  refine ⟨key, ?_⟩
  rintro ⟨k, hk, hr⟩
  cases he : evalUnpacker indices [i] [(i, .list l)] with
  | error e => exact ⟨e, rfl⟩
  | ok out =>
    obtain ⟨x, -, n, hn, -⟩ := Py.forall2_left ((key out).1 he) hk
    unfold Py.idx at hn
    split at hn <;> split at hn <;> simp at hn <;> omega

/-- A Sum block with an input always raises. -/
theorem C41_sum_violated {ins : List Nat} {xs : List V} (hl : ins.length = xs.length) (hne : ins ≠ []) :
    evalSum ins (ins.zip xs) = .error .typeError := by
  match ins, xs, hl, hne with
  | i :: ins, x :: xs, _, _ => rfl

/-- Without input it gives 0. -/
theorem C41_sum_empty : evalSum [] [] = .ok [.int 0] := rfl

/-- Spec: the numerical value of a number. -/
def numeric : V → Option Rat
  | .bool b => some (if b then 1 else 0)
  | .int i => some i
  | .flt q => some q
  | .measure _ q => some q
  | _ => none

/-- A Substraction block returns the difference of its two inputs, for all numbers; it raises otherwise. -/
theorem C41_substraction {i j : Nat} (hij : i ≠ j) (a b : V) :
    match numeric a, numeric b with
    | some x, some y => ∃ d, evalSubstraction [i, j] [(i, a), (j, b)] = .ok [d] ∧ numeric d = some (x - y)
    | _, _ => evalSubstraction [i, j] [(i, a), (j, b)] = .error .typeError := by
  have h1 : Py.get [i, j] 0 = .ok i := rfl
  have h2 : Py.get [i, j] 1 = .ok j := rfl
  have h3 : Values.get [(i, a), (j, b)] i = .ok a := by simp [Values.get]
  have h4 : Values.get [(i, a), (j, b)] j = .ok b := by simp [Values.get, List.lookup, beq_eq_false_iff_ne.2 hij.symm]
  have he : evalSubstraction [i, j] [(i, a), (j, b)] = (pySub a b).map ([·]) := by
    unfold evalSubstraction
    simp only [h1, h2, h3, h4, bind, Except.bind]
    cases pySub a b <;> rfl
  rw [he]
  cases a <;> cases b <;> simp [numeric, pySub, number?, Except.map]

theorem joinStr_eq (sep : String) : ∀ l, joinStr sep l = sep.intercalate l
  | [] => rfl
  | [s] => by rw [joinStr, String.intercalate_singleton]
  | s :: t :: l => by
    rw [joinStr, joinStr_eq sep (t :: l)]
    rw [String.intercalate_cons_cons]

/-- A ConcatenateStrings block returns its inputs, in the order of the ports, joined by its separator. -/
theorem C41_strings {ins : List Nat} {ss : List String} (sep : String) (hn : ins.Nodup) (hl : ins.length = ss.length) :
    evalConcatenateStrings sep ins (ins.zip (ss.map .str)) = .ok [.str (sep.intercalate ss)] := by
  unfold evalConcatenateStrings
  have hs : (ss.map V.str).mapM strOf = .ok ss := by
    rw [Py.mapM_ok]
    clear hl
    induction ss with
    | nil => exact .nil
    | cons l ls ih => exact .cons rfl ih
  rw [get_zip hn (by simpa using hl)]
  simp only [bind, Except.bind, hs, joinStr_eq]

/-- It raises a TypeError when one of its inputs is not a string. -/
theorem C41_strings_raises {ins : List Nat} {xs : List V} (sep : String) (hn : ins.Nodup) (hl : ins.length = xs.length)
    (h : ∃ x ∈ xs, ∀ s, x ≠ .str s) : evalConcatenateStrings sep ins (ins.zip xs) = .error .typeError := by
  have hone : ∀ x : V, (∃ s, x = .str s ∧ strOf x = .ok s) ∨ ((∀ s, x ≠ .str s) ∧ strOf x = .error .typeError) := by
    intro x
    cases x with
    | str s => exact .inl ⟨s, rfl, rfl⟩
    | _ => exact .inr ⟨fun s h => (by cases h), rfl⟩
  have hs : xs.mapM strOf = .error .typeError := by
    clear hl
    induction xs with
    | nil => obtain ⟨x, hx, -⟩ := h; simp at hx
    | cons w xs ih =>
      rw [List.mapM_cons]
      rcases hone w with ⟨s, rfl, hw⟩ | ⟨-, hw⟩
      · have h' : ∃ x ∈ xs, ∀ s, x ≠ .str s := by
          obtain ⟨x, hx, hx'⟩ := h
          rcases List.mem_cons.1 hx with rfl | hx
          · exact absurd rfl (hx' s)
          · exact ⟨x, hx, hx'⟩
        rw [hw, ih h']
        rfl
      · rw [hw]
        rfl
  unfold evalConcatenateStrings
  rw [get_zip hn hl]
  simp only [bind, Except.bind, hs]

example : evalConcatenateStrings ", " [1, 2] ([1, 2].zip [.str "a", .int 2]) = .error .typeError :=
  C41_strings_raises ", " (by decide) rfl ⟨.int 2, by simp, fun s h => by cases h⟩

theorem map_zip_set {ins : List Nat} {xs : List V} (hn : ins.Nodup) {k it : Nat} (hk : ins[k]? = some it) (x : V) :
    (ins.zip xs).map (fun kv => if kv.1 = it then (kv.1, x) else kv) = ins.zip (xs.set k x) := by
  refine List.ext_getElem (by simp) fun j h1 h2 => ?_
  simp only [List.length_map, List.length_zip] at h1
  simp only [List.getElem_map, List.getElem_zip, List.getElem_set]
  obtain ⟨hk1, rfl⟩ := List.getElem?_eq_some_iff.1 hk
  by_cases hj : k = j
  · subst hj
    simp
  · have : ins[j] ≠ ins[k] := by
      intro hc
      exact hj ((List.Nodup.getElem_inj_iff hn).1 hc).symm
    simp [hj, this]

theorem forEachLoop_spec (evalWf : Values → Except PyErr V) {ins : List Nat} (hn : ins.Nodup) {k it : Nat}
    (hk : ins[k]? = some it) : ∀ (es : List V) (args ys : List V), forEachLoop evalWf it (ins.zip args) es = .ok ys ↔
      List.Forall₂ (fun e y => evalWf (ins.zip (args.set k e)) = .ok y) es ys
  | [], args, ys => by simp [forEachLoop, eq_comm]
  | e :: es, args, ys => by
    unfold forEachLoop
    rw [map_zip_set hn hk e]
    dsimp only
    cases hy : evalWf (ins.zip (args.set k e)) with
    | error err =>
      simp only [bind, Except.bind, reduceCtorEq, false_iff]
      intro h
      cases h with
      | cons h1 _ => rw [hy] at h1; simp at h1
    | ok y =>
      have ih := forEachLoop_spec evalWf hn hk es (args.set k e)
      simp only [List.set_set] at ih
      cases hr : forEachLoop evalWf it (ins.zip (args.set k e)) es with
      | error err =>
        simp only [bind, Except.bind, reduceCtorEq, false_iff]
        intro h
        cases h with
        | cons _ h2 => have := (ih _).2 h2; rw [hr] at this; simp at this
      | ok rs =>
        simp only [bind, Except.bind, Except.ok.injEq]
        constructor
        · rintro rfl
          exact .cons hy ((ih _).1 hr)
        · intro h
          cases h with
          | cons h1 h2 =>
            rw [hy] at h1
            have := (ih _).2 h2
            rw [hr] at this
            simp only [Except.ok.injEq] at h1 this
            rw [h1, this]

/-- A ForEach block evaluates its workflow on each element of the iterated input, the other inputs being the same, and
returns the list of the outputs in the order of the elements; it fails as soon as one evaluation fails. -/
theorem C41_foreach (evalWf : Values → Except PyErr V) {wbIns ins : List Nat} {args es ys : List V} {k : Nat} {x : V}
    (hn : ins.Nodup) (hwn : wbIns.Nodup) (hl : ins.length = args.length) (hwl : wbIns.length = args.length)
    (hx : args[k]? = some x) (hes : iterate x = .ok es) :
    evalForEach evalWf wbIns k ins (ins.zip args) = .ok [.list ys] ↔
      List.Forall₂ (fun e y => evalWf (wbIns.zip (args.set k e)) = .ok y) es ys := by
  obtain ⟨hk, -⟩ := List.getElem?_eq_some_iff.1 hx
  have hkw : wbIns[k]? = some (wbIns[k]'(by omega)) := List.getElem?_eq_getElem (by omega)
  have h1 : Py.get wbIns (k : Nat) = .ok (wbIns[k]'(by omega)) := by rw [Py.get_nat, hkw]
  unfold evalForEach
  simp only [h1, get_zip hn hl, get_zip_at hwn hwl hkw hx, hes, bind, Except.bind]
  rw [← forEachLoop_spec evalWf hwn hkw es args ys]
  cases forEachLoop evalWf (wbIns[k]'(by omega)) (wbIns.zip args) es with
  | error e => simp
  | ok o => simp

/-- A WorkflowBlock runs its workflow with the values of its inputs under their indices. -/
theorem C41_workflow (runWf : List (Nat × V) → Except PyErr V) {ins : List Nat} {xs : List V} (hn : ins.Nodup)
    (hl : ins.length = xs.length) :
    evalWorkflowBlock runWf ins (ins.zip xs) = (runWf ((List.range xs.length).zip xs)).map ([·]) := by
  have h : (ins.zip xs).mapM (fun kv => if ins.contains kv.1 then (.ok (ins.idxOf kv.1, kv.2) : Except PyErr _)
      else .error .valueError) = .ok ((List.range xs.length).zip xs) := by
    rw [Py.mapM_ok, List.forall₂_iff_get]
    refine ⟨by simp [hl], fun i h1 h2 => ?_⟩
    simp only [List.length_zip, List.length_range] at h1 h2
    have hi : i < ins.length := by omega
    simp [hn.idxOf_getElem]
  unfold evalWorkflowBlock
  rw [h]
  simp only [bind, Except.bind]
  cases runWf ((List.range xs.length).zip xs) <;> rfl

/-- Two elements iterated, through a workflow adding one argument to the other. -/
example : evalForEach (fun vs => match vs with | [(_, .int a), (_, .int b)] => .ok (.int (a + b)) | _ => .error .typeError)
    [7, 8] 1 [3, 4] ([3, 4].zip [.int 10, .list [.int 1, .int 2]]) = .ok [.list [.int 11, .int 12]] := rfl

/-- Hypotheses met: three ports. -/
example : evalConcatenate [3, 4, 5] ([3, 4, 5].zip [.list [.int 1], .list [], .list [.none, .str "a"]]) =
    .ok [.list [.int 1, .none, .str "a"]] := rfl

/-! ### C80 -/

theorem archiveEntries_spec : ∀ (vs : List V) (es : List (String × String)), archiveEntries vs = .ok es ↔
    List.Forall₂ (fun v e => ∃ b, v = .file b e.1 e.2) vs es
  | [], es => by simp [archiveEntries, eq_comm]
  | v :: vs, es => by
    cases v with
    | file b n t =>
      simp only [archiveEntries]
      cases hr : archiveEntries vs with
      | error e =>
        simp only [bind, Except.bind, reduceCtorEq, false_iff]
        intro h
        cases h with
        | cons _ h2 => have := (archiveEntries_spec vs _).2 h2; rw [hr] at this; simp at this
      | ok l =>
        simp only [bind, Except.bind, Except.ok.injEq]
        constructor
        · rintro rfl
          exact .cons ⟨b, rfl⟩ ((archiveEntries_spec vs l).1 hr)
        · intro h
          cases h with
          | cons h1 h2 =>
            obtain ⟨b', h1⟩ := h1
            have := (archiveEntries_spec vs _).2 h2
            rw [hr] at this
            simp only [V.file.injEq, Except.ok.injEq] at h1 this
            rw [this, h1.2.1, h1.2.2]
    | _ =>
      simp only [archiveEntries, reduceCtorEq, false_iff]
      intro h
      cases h with
      | cons h1 _ => obtain ⟨b, h1⟩ := h1; simp at h1

theorem get_filter_ne {vs : Values} {n v : Nat} (h : v ≠ n) : Values.get (vs.filter fun kv => kv.1 ≠ n) v = Values.get vs v := by
  have : (vs.filter fun kv => kv.1 ≠ n).lookup v = vs.lookup v := by
    induction vs with
    | nil => rfl
    | cons kv vs ih =>
      rw [List.filter_cons]
      by_cases hc : kv.1 = n
      · have h1 : (v == kv.1) = false := by simpa [hc] using h
        rw [if_neg (by simp [hc]), ih, List.lookup_cons, h1]
      · rw [if_pos (by simpa using hc), List.lookup_cons, List.lookup_cons, ih]
  unfold Values.get
  rw [this]

/-- An Archive block writes one entry per input, in the order of the ports, with the name and the content of the file. -/
theorem C80_archive {ins : List Nat} {files : List (Bool × String × String)} {n : Nat} {name : String}
    (hn : (ins ++ [n]).Nodup) (hl : ins.length = files.length) :
    evalArchive (ins ++ [n]) ((ins ++ [n]).zip (files.map (fun f => V.file f.1 f.2.1 f.2.2) ++ [.str name])) =
      .ok (name ++ ".zip", files.map (·.2)) := by
  have hlen : (ins ++ [n]).length = (files.map (fun f => V.file f.1 f.2.1 f.2.2) ++ [V.str name]).length := by
    simp [hl]
  have h1 : Py.get (ins ++ [n]) (-1) = .ok n := by
    rw [Py.get_ok]
    refine ⟨ins.length, by simp [Py.idx], by simp⟩
  have h2 := get_zip_at hn hlen (i := ins.length) (v := n) (x := .str name) (by simp) (by simp [hl])
  have h3 : (ins ++ [n]).take ((ins ++ [n]).length - 1) = ins := by simp
  have hni : ∀ v ∈ ins, v ≠ n := by
    rintro v hv rfl
    rw [List.nodup_append] at hn
    exact hn.2.2 v hv v (by simp) rfl
  have h4 : ins.mapM (Values.get (((ins ++ [n]).zip (files.map (fun f => V.file f.1 f.2.1 f.2.2) ++ [V.str name])).filter
      fun kv => kv.1 ≠ n)) = .ok (files.map fun f => V.file f.1 f.2.1 f.2.2) := by
    rw [Py.mapM_ok, List.forall₂_iff_get]
    refine ⟨by simp [hl], fun i hi1 hi2 => ?_⟩
    rw [get_filter_ne (hni _ (by simp))]
    simp only [List.length_map] at hi2
    exact get_zip_at hn hlen (i := i) (by simp [List.getElem?_append, hi1])
      (by simp [List.getElem?_append, hi2])
  have h5 : archiveEntries (files.map fun f => V.file f.1 f.2.1 f.2.2) = .ok (files.map (·.2)) := by
    rw [archiveEntries_spec]
    clear * -
    induction files with
    | nil => exact .nil
    | cons f fs ih => exact .cons ⟨f.1, rfl⟩ ih
  unfold evalArchive
  simp only [h1, h2, h3, h4, h5, strOf, bind, Except.bind]

theorem lookup_reverse {es : List (String × String)} {n c : String} (hn : (es.map (·.1)).Nodup) (h : (n, c) ∈ es) :
    es.reverse.lookup n = some c := by
  have hn' : (es.reverse.map (·.1)).Nodup := by rw [List.map_reverse]; exact List.nodup_reverse.2 hn
  have h' : (n, c) ∈ es.reverse := List.mem_reverse.2 h
  generalize es.reverse = l at hn' h'
  clear * - hn' h'
  induction l with
  | nil => simp at h'
  | cons e l ih =>
    simp only [List.map_cons, List.nodup_cons] at hn'
    rcases List.mem_cons.1 h' with rfl | h'
    · simp
    · have : (n == e.1) = false := by
        simp only [beq_eq_false_iff_ne]
        rintro rfl
        exact hn'.1 (List.mem_map.2 ⟨_, h', rfl⟩)
      rw [List.lookup_cons, this]
      exact ih hn'.2 h'

/-- Each file can be read in the archive under its name, if the names are distinct. Missing for the full property: files
with the same name (`C80_violated`). -/
theorem C80_partial {ins : List Nat} {files : List (Bool × String × String)} {n : Nat} {name : String}
    (hn : (ins ++ [n]).Nodup) (hl : ins.length = files.length) (hd : (files.map (·.2.1)).Nodup) :
    ∃ es, evalArchive (ins ++ [n]) ((ins ++ [n]).zip (files.map (fun f => V.file f.1 f.2.1 f.2.2) ++ [.str name])) =
      .ok (name ++ ".zip", es) ∧ ∀ f ∈ files, zipRead es f.2.1 = some f.2.2 := by
  refine ⟨_, C80_archive hn hl, fun f hf => lookup_reverse ?_ (List.mem_map.2 ⟨f, hf, rfl⟩)⟩
  rw [List.map_map]
  exact hd

example : ∃ es, evalArchive [4, 5, 6] ([4, 5, 6].zip [.file false "a.txt" "x", .file true "b.bin" "y", .str "all"]) =
    .ok ("all" ++ ".zip", es) ∧ ∀ f ∈ [(false, "a.txt", "x"), (true, "b.bin", "y")], zipRead es f.2.1 = some f.2.2 :=
  C80_partial (ins := [4, 5]) (n := 6) (files := [(false, "a.txt", "x"), (true, "b.bin", "y")]) (by decide) rfl (by decide)

/-- Two files of the same name: the first cannot be read any more. -/
theorem C80_violated : ∃ es, evalArchive [1, 2, 3] ([1, 2, 3].zip [.file false "export.json" "first",
    .file false "export.json" "second", .str "archive"]) = .ok ("archive.zip", es) ∧
    zipRead es "export.json" = some "second" := by
  refine ⟨_, rfl, by decide⟩

/-! ### C39 and C79 -/

theorem addFraction_sum (name : String) (f : Rat) : ∀ mix, ((addFraction mix name f).map (·.2)).sum = (mix.map (·.2)).sum + f
  | [] => by simp [addFraction]
  | (n, g) :: rest => by
    unfold addFraction
    split
    · simp only [List.map_cons, List.sum_cons]; ring
    · simp only [List.map_cons, List.sum_cons, addFraction_sum name f rest]; ring

theorem addFraction_pos {name : String} {f : Rat} (hf : 0 < f) : ∀ {mix : List (String × Rat)}, (∀ p ∈ mix, 0 < p.2) →
    ∀ p ∈ addFraction mix name f, 0 < p.2
  | [], _ => by simp [addFraction, hf]
  | (n, g) :: rest, h => by
    have hg := h (n, g) (.head _)
    unfold addFraction
    split
    · intro p hp
      rcases List.mem_cons.1 hp with rfl | hp
      · show 0 < g + f
        simp only at hg
        linarith
      · exact h p (.tail _ hp)
    · intro p hp
      rcases List.mem_cons.1 hp with rfl | hp
      · exact hg
      · exact addFraction_pos hf (fun p hp => h p (.tail _ hp)) p hp

theorem addFraction_keys (name : String) (f : Rat) : ∀ mix : List (String × Rat), (addFraction mix name f).map (·.1) =
    if name ∈ mix.map (·.1) then mix.map (·.1) else mix.map (·.1) ++ [name]
  | [] => by simp [addFraction]
  | (n, g) :: rest => by
    unfold addFraction
    split
    · rename_i h; subst h; simp
    · rename_i h
      rw [List.map_cons, addFraction_keys name f rest]
      by_cases hm : name ∈ rest.map (·.1)
      · rw [if_pos hm, if_pos (by simp [hm])]
        simp
      · rw [if_neg hm, if_neg (by simp only [List.map_cons, List.mem_cons, not_or]; exact ⟨fun hc => h hc.symm, hm⟩)]
        simp

/-- Spec: a dictionary of positive numbers. -/
structure Mix (mix : List (String × Rat)) : Prop where
  keys : (mix.map (·.1)).Nodup
  pos : ∀ p ∈ mix, 0 < p.2

theorem Mix.add {mix : List (String × Rat)} (h : Mix mix) {n : String} {f : Rat} (hf : 0 < f) : Mix (addFraction mix n f) := by
  refine ⟨?_, addFraction_pos hf h.pos⟩
  rw [addFraction_keys]
  split
  · exact h.keys
  · rename_i hc
    refine List.nodup_append.2 ⟨h.keys, by simp, ?_⟩
    rintro a ha b hb rfl
    simp only [List.mem_singleton] at hb
    exact hc (hb ▸ ha)

theorem Mix.addAll {c : List (String × Rat)} : ∀ {mix : List (String × Rat)}, Mix mix → (∀ p ∈ c, 0 < p.2) →
    Mix (addFractions mix c) ∧ ((addFractions mix c).map (·.2)).sum = (mix.map (·.2)).sum + (c.map (·.2)).sum := by
  unfold addFractions
  induction c with
  | nil => intro mix h _; exact ⟨h, by simp⟩
  | cons p c ih =>
    intro mix h hp
    obtain ⟨h1, h2⟩ := ih (h.add (hp p (.head _))) fun q hq => hp q (.tail _ hq)
    exact ⟨h1, by rw [List.foldl_cons, h2, addFraction_sum, List.map_cons, List.sum_cons]; ring⟩

theorem Mix.sum_nonneg {mix : List (String × Rat)} (h : Mix mix) : 0 ≤ (mix.map (·.2)).sum := by
  obtain ⟨-, h⟩ := h
  induction mix with
  | nil => simp
  | cons p l ih =>
    have h0 := h p (.head _)
    have := ih fun q hq => h q (.tail _ hq)
    simp only [List.map_cons, List.sum_cons]
    linarith

theorem Mix.sum_pos {mix : List (String × Rat)} (h : Mix mix) (hne : mix ≠ []) : 0 < (mix.map (·.2)).sum := by
  cases mix with
  | nil => exact absurd rfl hne
  | cons p l =>
    have h0 := h.pos p (.head _)
    have hl : Mix l := ⟨(List.nodup_cons.1 h.keys).2, fun q hq => h.pos q (.tail _ hq)⟩
    have := hl.sum_nonneg
    simp only [List.map_cons, List.sum_cons]
    linarith

theorem sum_div (s : Rat) : ∀ mix : List (String × Rat), ((mix.map fun p => (p.1, p.2 / s)).map (·.2)).sum = (mix.map (·.2)).sum / s
  | [] => by simp
  | p :: l => by
    have := sum_div s l
    simp only [List.map_cons, List.sum_cons, this]
    ring

theorem Mix.normalise {mix : List (String × Rat)} (h : Mix mix) : ∃ r, normalise mix = .ok r ∧ Mix r ∧
    r = mix.map (fun p => (p.1, p.2 / (mix.map (·.2)).sum)) ∧ (mix ≠ [] → (r.map (·.2)).sum = 1) := by
  by_cases hne : mix = []
  · subst hne
    exact ⟨[], rfl, ⟨by simp, by simp⟩, rfl, fun hc => absurd rfl hc⟩
  · have hs := h.sum_pos hne
    refine ⟨mix.map fun p => (p.1, p.2 / (mix.map (·.2)).sum), ?_, ⟨?_, ?_⟩, rfl, fun _ => ?_⟩
    · unfold Wkf.normalise
      dsimp only
      rw [Py.mapM_ok]
      generalize (mix.map (·.2)).sum = s at hs
      clear * - hs
      induction mix with
      | nil => exact .nil
      | cons p l ih => exact .cons (by simp [hs.ne']) ih
    · rw [List.map_map]
      exact h.keys
    · intro q hq
      obtain ⟨p, hp, rfl⟩ := List.mem_map.1 hq
      exact div_pos (h.pos p hp) hs
    · rw [sum_div]
      exact div_self hs.ne'

mutual
/-- Spec: a package is named somewhere in the block. -/
def HasPkg : PBlock → Prop
  | .other => False
  | .pkg _ => True
  | .wf bs => AnyPkg bs
/-- Spec: a package is named somewhere in the blocks. -/
def AnyPkg : List PBlock → Prop
  | [] => False
  | b :: bs => HasPkg b ∨ AnyPkg bs
end

mutual
theorem blockMix_spec : ∀ b : PBlock, ∃ c, blockMix b = .ok c ∧ Mix c ∧ (HasPkg b → (c.map (·.2)).sum = 1) ∧
    (¬ HasPkg b → c = [])
  | .other => ⟨[], rfl, ⟨by simp, by simp⟩, fun h => absurd h (by simp [HasPkg]), fun _ => rfl⟩
  | .pkg n => ⟨[(n, 1)], rfl, ⟨by simp, by simp⟩, fun _ => by simp, fun h => absurd trivial h⟩
  | .wf bs => by
    obtain ⟨m, h1, h2, h3, h4⟩ := sumMix_spec bs [] ⟨by simp, by simp⟩
    obtain ⟨r, g1, g2, g3, g4⟩ := h2.normalise
    refine ⟨r, ?_, g2, fun h => g4 ?_, fun h => ?_⟩
    · simp only [blockMix, h1, bind, Except.bind, g1]
    · rintro rfl
      have := h3 h
      simp at this
    · have := h4 h
      subst this
      simpa using g3
theorem sumMix_spec : ∀ (bs : List PBlock) (mix : List (String × Rat)), Mix mix → ∃ m, sumMix mix bs = .ok m ∧ Mix m ∧
    (AnyPkg bs → (mix.map (·.2)).sum < (m.map (·.2)).sum) ∧ (¬ AnyPkg bs → m = mix)
  | [], mix, h => ⟨mix, rfl, h, fun h => absurd h (by simp [AnyPkg]), fun _ => rfl⟩
  | b :: bs, mix, h => by
    obtain ⟨c, h1, h2, h3, h4⟩ := blockMix_spec b
    obtain ⟨g1, g2⟩ := Mix.addAll h h2.pos
    obtain ⟨m, k1, k2, k3, k4⟩ := sumMix_spec bs _ g1
    refine ⟨m, ?_, k2, fun hp => ?_, fun hp => ?_⟩
    · simp only [sumMix, h1, bind, Except.bind, k1]
    · by_cases hb : HasPkg b
      · have e1 := h3 hb
        by_cases hbs : AnyPkg bs
        · have := k3 hbs; linarith
        · rw [k4 hbs]; linarith
      · have hbs : AnyPkg bs := by
          rcases (by simpa [AnyPkg] using hp : HasPkg b ∨ AnyPkg bs) with h | h
          · exact absurd h hb
          · exact h
        have := k3 hbs
        have := h2.sum_nonneg
        linarith
    · have hb : ¬ HasPkg b := fun hc => hp (by simp [AnyPkg, hc])
      have hbs : ¬ AnyPkg bs := fun hc => hp (by simp [AnyPkg, hc])
      rw [k4 hbs, h4 hb]
      rfl
end

/-- The package mix is always computed: distinct packages with positive shares, of sum 1 as soon as a block of the
workflow or of a nested workflow names a package, and empty otherwise. Exact arithmetic is assumed (the code uses floats). -/
theorem C39_mix (bs : List PBlock) : ∃ mix, packageMix bs = .ok mix ∧ (mix.map (·.1)).Nodup ∧ (∀ p ∈ mix, 0 < p.2) ∧
    (AnyPkg bs → (mix.map (·.2)).sum = 1) ∧ (¬ AnyPkg bs → mix = []) := by
  obtain ⟨c, h1, h2, h3, h4⟩ := blockMix_spec (.wf bs)
  refine ⟨c, ?_, h2.keys, h2.pos, fun h => h3 (by simpa [HasPkg] using h), fun h => h4 (by simpa [HasPkg] using h)⟩
  simpa [blockMix, packageMix] using h1

theorem addFraction_lookup (name : String) (f : Rat) (q : String) : ∀ mix : List (String × Rat),
    ((addFraction mix name f).lookup q).getD 0 = (mix.lookup q).getD 0 + if q = name then f else 0
  | [] => by
    by_cases h : q = name
    · subst h; simp [addFraction]
    · have : (q == name) = false := by simpa using h
      simp [addFraction, List.lookup, this, h]
  | (n, g) :: rest => by
    unfold addFraction
    split
    · rename_i hn
      subst hn
      by_cases h : q = n
      · subst h; simp
      · have : (q == n) = false := by simpa using h
        simp [List.lookup, this, h]
    · rename_i hn
      by_cases h : q = n
      · subst h; simp [hn]
      · have : (q == n) = false := by simpa using h
        simp only [List.lookup, this]
        exact addFraction_lookup name f q rest

/-- Without nested workflow, the share of a package is the proportion of the blocks naming it, among those which name a
package. -/
theorem C39_share (names : List (Option String)) (q : String) : ∃ mix,
    packageMix (names.map fun o => match o with | none => .other | some n => .pkg n) = .ok mix ∧
    (mix.lookup q).getD 0 = (names.count (some q) : Rat) / ((names.filter Option.isSome).length : Rat) := by
  have key : ∀ (names : List (Option String)) (mix : List (String × Rat)), Mix mix → ∃ m,
      sumMix mix (names.map fun o => match o with | none => .other | some n => .pkg n) = .ok m ∧ Mix m ∧
      (m.map (·.2)).sum = (mix.map (·.2)).sum + ((names.filter Option.isSome).length : Rat) ∧
      ∀ q, (m.lookup q).getD 0 = (mix.lookup q).getD 0 + (names.count (some q) : Rat) := by
    intro names
    induction names with
    | nil => intro mix h; exact ⟨mix, rfl, h, by simp, by simp⟩
    | cons o names ih =>
      intro mix h
      cases o with
      | none =>
        obtain ⟨m, h1, h2, h3, h4⟩ := ih mix h
        refine ⟨m, ?_, h2, by simpa using h3, by simpa using h4⟩
        simp only [List.map_cons, sumMix, blockMix, bind, Except.bind]
        exact h1
      | some n =>
        obtain ⟨m, h1, h2, h3, h4⟩ := ih (addFraction mix n 1) (h.add one_pos)
        refine ⟨m, ?_, h2, ?_, fun q => ?_⟩
        · simp only [List.map_cons, sumMix, blockMix, bind, Except.bind]
          exact h1
        · rw [h3, addFraction_sum]
          simp only [Option.isSome_some, List.filter_cons_of_pos, List.length_cons, Nat.cast_add, Nat.cast_one]
          ring
        · rw [h4, addFraction_lookup, List.count_cons]
          by_cases hq : q = n
          · subst hq
            simp
            ring
          · have : ¬ n = q := fun hc => hq hc.symm
            simp [hq, this]
  obtain ⟨m, h1, h2, h3, h4⟩ := key names [] ⟨by simp, by simp⟩
  obtain ⟨r, g1, -, g3, -⟩ := h2.normalise
  refine ⟨r, by simp only [packageMix, h1, bind, Except.bind, g1], ?_⟩
  have hl : ∀ (l : List (String × Rat)) (s : Rat), ((l.map fun p => (p.1, p.2 / s)).lookup q).getD 0 = (l.lookup q).getD 0 / s := by
    intro l s
    induction l with
    | nil => simp
    | cons p l ih =>
      by_cases h : q = p.1
      · subst h; simp [List.lookup]
      · have : (q == p.1) = false := by simpa using h
        simp only [List.map_cons, List.lookup, this]
        exact ih
  rw [g3, hl, h4 q, h3]
  simp

mutual
/-- Spec: this package is named somewhere in the block, at any depth, by a block that tells its package. -/
def Names (q : String) : PBlock → Prop
  | .other => False
  | .pkg n => q = n
  | .wf bs => AnyNames q bs
/-- Spec: this package is named somewhere in the blocks. -/
def AnyNames (q : String) : List PBlock → Prop
  | [] => False
  | b :: bs => Names q b ∨ AnyNames q bs
end

theorem addFraction_mem (name : String) (f : Rat) (q : String) : ∀ mix : List (String × Rat),
    q ∈ (addFraction mix name f).map (·.1) ↔ q ∈ mix.map (·.1) ∨ q = name
  | [] => by simp [addFraction]
  | (n, g) :: rest => by
    unfold addFraction
    split
    · rename_i hn
      subst hn
      simp only [List.map_cons, List.mem_cons]
      tauto
    · simp only [List.map_cons, List.mem_cons, addFraction_mem name f q rest]
      tauto

theorem addFractions_keys (q : String) : ∀ (c mix : List (String × Rat)),
    q ∈ (addFractions mix c).map (·.1) ↔ q ∈ mix.map (·.1) ∨ q ∈ c.map (·.1)
  | [], mix => by simp [addFractions]
  | nf :: c, mix => by
    have h := addFractions_keys q c (addFraction mix nf.1 nf.2)
    rw [addFraction_mem] at h
    simp only [List.map_cons, List.mem_cons]
    rw [← or_assoc, ← h]
    rfl

mutual
theorem blockMix_keys (q : String) : ∀ (b : PBlock) (c : List (String × Rat)), blockMix b = .ok c → (q ∈ c.map (·.1) ↔ Names q b)
  | .other, c, h => by cases h; simp [Names]
  | .pkg n, c, h => by cases h; simp [Names]
  | .wf bs, c, h => by
    obtain ⟨m, h1, h2, -, -⟩ := sumMix_spec bs [] ⟨by simp, by simp⟩
    obtain ⟨r, g1, -, g3, -⟩ := h2.normalise
    simp only [blockMix, h1, bind, Except.bind, g1, Except.ok.injEq] at h
    subst h
    have := sumMix_keys q bs [] m h1 ⟨by simp, by simp⟩
    rw [g3, List.map_map]
    simpa [Names, Function.comp_def] using this
theorem sumMix_keys (q : String) : ∀ (bs : List PBlock) (mix m : List (String × Rat)), sumMix mix bs = .ok m → Mix mix →
    (q ∈ m.map (·.1) ↔ q ∈ mix.map (·.1) ∨ AnyNames q bs)
  | [], mix, m, h, _ => by cases h; simp [AnyNames]
  | b :: bs, mix, m, h, hm => by
    obtain ⟨c, h1, h2, -, -⟩ := blockMix_spec b
    obtain ⟨g1, -⟩ := Mix.addAll hm h2.pos
    simp only [sumMix, h1, bind, Except.bind] at h
    have := sumMix_keys q bs _ m h g1
    rw [this, addFractions_keys, blockMix_keys q b c h1]
    simp only [AnyNames]
    tauto
end

/-- The packages of the mix are those named, at any depth, by the blocks that tell their package, each with a positive share.  Missing:
blocks that do not tell it (`C79_violated`). -/
theorem C79_partial (bs : List PBlock) : ∃ mix, packageMix bs = .ok mix ∧
    ∀ q, AnyNames q bs ↔ ∃ share, mix.lookup q = some share ∧ 0 < share := by
  obtain ⟨mix, h1, -, h3, -⟩ := C39_mix bs
  refine ⟨mix, h1, fun q => ?_⟩
  have hk : q ∈ mix.map (·.1) ↔ AnyNames q bs := by
    have := blockMix_keys q (.wf bs) mix (by simpa [blockMix, packageMix] using h1)
    simpa [Names] using this
  rw [← hk]
  constructor
  · intro h
    cases hl : mix.lookup q with
    | none =>
      exfalso
      obtain ⟨p, hp, rfl⟩ := List.mem_map.1 h
      have := List.lookup_eq_none_iff.1 hl p hp
      simp at this
    | some s =>
      obtain ⟨l1, l2, hm, -⟩ := List.lookup_eq_some_iff.1 hl
      exact ⟨s, rfl, h3 (q, s) (by rw [hm]; simp)⟩
  · rintro ⟨s, hl, -⟩
    obtain ⟨l1, l2, hm, -⟩ := List.lookup_eq_some_iff.1 hl
    rw [hm]
    simp

/-- Not vacuous: a package named in a nested workflow. -/
example : AnyNames "b" [.pkg "a", .other, .wf [.pkg "a", .pkg "b", .other]] := by simp [AnyNames, Names]

/-- Class method and for-each blocks have no `package_mix`: a workflow using packages only through them has an empty
package mix. -/
theorem C79_violated (n : Nat) : packageMix (List.replicate n .other) = .ok [] := by
  obtain ⟨mix, h1, -, -, -, h5⟩ := C39_mix (List.replicate n .other)
  rw [h1, h5]
  clear * -
  induction n with
  | zero => simp [AnyPkg]
  | succ n ih => simp [List.replicate_succ, AnyPkg, HasPkg, ih]

/-- Two packages, one of them in a nested workflow. -/
example : packageMix [.pkg "a", .other, .wf [.pkg "a", .pkg "b", .other]] = .ok [("a", 3/4), ("b", 1/4)] := by
  decide +kernel

end DC.Wkf
