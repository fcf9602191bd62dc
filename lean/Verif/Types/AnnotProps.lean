import Verif.Types.Annot
/-
Specification and properties of strings of annotations (C19, C20).
-/
namespace DC.Types

/-! ### C20: arguments -/

/-- Specification: `scan d s = some e` when, reading `s` from depth `d`, brackets are never closed more than opened, no comma is at
depth 0, and the depth at the end is `e`. -/
def scan : Nat → List Char → Option Nat
  | d, [] => some d
  | d, c :: s =>
    if c = '[' then scan (d + 1) s
    else if c = ']' then (if d = 0 then none else scan (d - 1) s)
    else if c = ',' ∧ d = 0 then none
    else scan d s

/-- An argument: a non-empty string without spaces, of balanced brackets, whose commas are all between brackets. -/
def Argument (s : List Char) : Prop := s ≠ [] ∧ ' ' ∉ s ∧ scan 0 s = some 0

theorem extract_scan : ∀ (w : List Char) (d e c : Nat) (cur : List Char) (args : List (List Char)) (rest : List Char), scan d w = some e →
    ∃ c', extractLoop (c + d) c cur args (w ++ rest) = extractLoop (c' + e) c' (cur ++ w) args rest
  | [], d, e, c, cur, args, rest, h => by
    simp only [scan, Option.some.injEq] at h
    subst h
    exact ⟨c, by simp⟩
  | ch :: w, d, e, c, cur, args, rest, h => by
    rw [scan] at h
    rw [List.cons_append, extractLoop]
    by_cases h1 : ch = '['
    · subst h1
      rw [if_pos rfl] at h
      obtain ⟨c', hc⟩ := extract_scan w (d + 1) e c (cur ++ ['[']) args rest h
      refine ⟨c', ?_⟩
      rw [if_neg (by simp)]
      simp only [if_true, Char.reduceEq, if_false]
      rw [Nat.add_assoc, hc]
      simp
    · rw [if_neg h1] at h
      by_cases h2 : ch = ']'
      · subst h2
        rw [if_pos rfl] at h
        split at h
        · simp at h
        · rename_i hd
          obtain ⟨c', hc⟩ := extract_scan w (d - 1) e (c + 1) (cur ++ [']']) args rest h
          refine ⟨c', ?_⟩
          rw [if_neg (by simp)]
          simp only [if_true, Char.reduceEq, if_false]
          rw [show c + d = c + 1 + (d - 1) by omega, hc]
          simp
      · rw [if_neg h2] at h
        split at h
        · simp at h
        · rename_i h3
          obtain ⟨c', hc⟩ := extract_scan w d e c (cur ++ [ch]) args rest h
          refine ⟨c', ?_⟩
          simp only [h1, h2, if_false]
          rw [if_neg (by rintro ⟨h4, h5⟩; exact h3 ⟨h5, by omega⟩), hc]
          simp

theorem extract_join : ∀ (as : List (List Char)) (c : Nat) (acc : List (List Char)), as ≠ [] → (∀ a ∈ as, a ≠ [] ∧ scan 0 a = some 0) →
    extractLoop c c [] acc (Str.join [','] as) = acc ++ as
  | [], _, _, h, _ => absurd rfl h
  | [a], c, acc, _, ha => by
    obtain ⟨h1, h2⟩ := ha a (.head _)
    obtain ⟨c', hc⟩ := extract_scan a 0 0 c [] acc [] h2
    rw [List.append_nil] at hc
    simp only [Nat.add_zero] at hc
    rw [Str.join, hc, extractLoop, List.nil_append, if_neg h1]
  | a :: b :: bs, c, acc, _, ha => by
    obtain ⟨h1, h2⟩ := ha a (.head _)
    obtain ⟨c', hc⟩ := extract_scan a 0 0 c [] acc (',' :: Str.join [','] (b :: bs)) h2
    simp only [Nat.add_zero] at hc
    rw [Str.join, List.append_assoc, List.singleton_append, hc, extractLoop]
    simp only [Char.reduceEq, if_false, true_and, if_true, and_true, List.nil_append]
    rw [extract_join (b :: bs) c' (acc ++ [a]) (by simp) fun x hx => ha x (.tail _ hx)]
    simp

theorem filter_join (p : Char → Bool) (sp : List Char) : ∀ ws : List (List Char), (Str.join sp ws).filter p = Str.join (sp.filter p) (ws.map fun w => w.filter p)
  | [] => rfl
  | [w] => rfl
  | w :: w' :: ws => by
    have := filter_join p sp (w' :: ws)
    simp only [List.map_cons] at this
    simp only [Str.join, List.filter_append, List.map_cons, this]

theorem strip_self {s : List Char} (h : ' ' ∉ s) : strip s = s := by
  unfold strip
  rw [List.filter_eq_self]
  intro c hc
  simp only [ne_eq, decide_not, Bool.not_eq_true', decide_eq_false_iff_not]
  rintro rfl
  exact h hc

theorem map_strip_self {ws : List (List Char)} (h : ∀ w ∈ ws, ' ' ∉ w) : ws.map strip = ws := by
  conv => rhs; rw [← List.map_id ws]
  exact List.map_congr_left fun w hw => strip_self (h w hw)

theorem strip_join {space : Bool} (ws : List (List Char)) : strip (Str.join (sep space) ws) = Str.join [','] (ws.map strip) := by
  unfold strip
  rw [filter_join]
  cases space <;> rfl

/-- Arguments joined by commas, with or without spaces, are found again. -/
theorem C20_split {args : List (List Char)} (h : ∀ a ∈ args, Argument a) (space : Bool) : extractArgs (Str.join (sep space) args) = args := by
  unfold extractArgs
  rw [strip_join, map_strip_self fun w hw => (h w hw).2.1]
  cases args with
  | nil => rfl
  | cons a as => rw [extract_join (a :: as) 0 [] (by simp) fun x hx => ⟨(h x hx).1, (h x hx).2.2⟩]; rfl

theorem join_last : ∀ (as : List (List Char)) (u v : List Char), Str.join [','] (as ++ [u ++ ',' :: v]) = Str.join [','] (as ++ [u] ++ [v])
  | [], u, v => by simp [Str.join]
  | a :: as, u, v => by
    have ih := join_last as u v
    rw [List.cons_append, Str.join_cons (by simp), ih, List.cons_append, List.cons_append, Str.join_cons (by simp)]

theorem extract_content : ∀ (s : List Char) (o c : Nat) (cur : List Char) (args : List (List Char)),
    Str.join [','] (extractLoop o c cur args s) = Str.join [','] (args ++ [cur ++ s]) ∨
    Str.join [','] (extractLoop o c cur args s) ++ [','] = Str.join [','] (args ++ [cur ++ s])
  | [], o, c, cur, args => by
    rw [extractLoop, List.append_nil]
    split
    · rename_i h
      subst h
      cases args with
      | nil => exact .inl rfl
      | cons a as =>
        refine .inr ?_
        clear * -
        induction as generalizing a with
        | nil => simp [Str.join]
        | cons b bs ih =>
          have := ih b
          have h1 : Str.join [','] (a :: b :: bs) = a ++ [','] ++ Str.join [','] (b :: bs) := Str.join_cons (by simp)
          have h2 : Str.join [','] (a :: b :: bs ++ [[]]) = a ++ [','] ++ Str.join [','] (b :: bs ++ [[]]) := Str.join_cons (by simp)
          rw [h1, h2, ← this]
          simp
    · exact .inl rfl
  | ch :: s, o, c, cur, args => by
    rw [extractLoop]
    by_cases h : (if ch = ']' then c + 1 else c) = (if ch = '[' then o + 1 else o) ∧ ch = ','
    · rw [if_pos h, h.2, join_last]
      exact extract_content s _ _ [] (args ++ [cur])
    · rw [if_neg h]
      have := extract_content s (if ch = '[' then o + 1 else o) (if ch = ']' then c + 1 else c) (cur ++ [ch]) args
      rw [List.append_assoc, List.singleton_append] at this
      exact this

/-- On any string, the arguments joined by commas are the string without its spaces, save possibly a last comma. -/
theorem C20_content (s : List Char) : Str.join [','] (extractArgs s) = strip s ∨ Str.join [','] (extractArgs s) ++ [','] = strip s :=
  extract_content (strip s) 0 0 [] []

/-- A case of `C20_split`. -/
example : (∀ a ∈ ["Dict[str,int]".toList, "int".toList], Argument a) ∧ extractArgs "Dict[str,int], int".toList = ["Dict[str,int]".toList, "int".toList] := by
  refine ⟨?_, by decide⟩
  intro a ha
  rcases List.mem_cons.1 ha with rfl | ha
  · exact ⟨by decide, by decide, by decide⟩
  · rw [List.mem_singleton] at ha
    subst ha
    exact ⟨by decide, by decide, by decide⟩

/-! ### C19 -/

mutual
/-- No variadic tuple in the annotation. -/
def noVariadic : Ann → Bool
  | .variadic _ => false
  | .gen _ args => noVariadicAll args
  | .optional t => noVariadic t
  | _ => true
/-- No variadic tuple in the annotations. -/
def noVariadicAll : List Ann → Bool
  | [] => true
  | a :: as => noVariadic a && noVariadicAll as
end

/-- Annotations which are the same for Python: unions of the same annotations and literals of the same values, in whatever order, and the same
annotation with the same arguments otherwise. -/
def SameAnn : Ann → Ann → Prop
  | .builtin b, y => y = .builtin b
  | .cls n, y => y = .cls n
  | .any, y => y = .any
  | .type, y => y = .type
  | .noneType, y => y = .noneType
  | .variadic t, y => ∃ u, y = .variadic u ∧ SameAnn t u
  | .optional t, y => ∃ u, y = .optional u ∧ SameAnn t u
  | .literal vs, y => ∃ ws, y = .literal ws ∧ ∀ v, v ∈ vs ↔ v ∈ ws
  | .gen g ts, y => ∃ us, y = .gen g us ∧
      ((g = .union ∧ (∀ t, (_ : t ∈ ts) → ∃ u ∈ us, SameAnn t u) ∧ ∀ u ∈ us, ∃ t, ∃ _ : t ∈ ts, SameAnn t u) ∨
       (g ≠ .union ∧ ts.length = us.length ∧ ∀ (i : Nat) (t u : Ann) (_ : ts[i]? = some t), us[i]? = some u → SameAnn t u))
termination_by a => sizeOf a
decreasing_by
  · decreasing_tactic
  · decreasing_tactic
  · have := List.sizeOf_lt_of_mem ‹t ∈ ts›
    simp only [Ann.gen.sizeOf_spec]
    omega
  · have := List.sizeOf_lt_of_mem ‹t ∈ ts›
    simp only [Ann.gen.sizeOf_spec]
    omega
  · have := List.sizeOf_lt_of_mem (List.mem_of_getElem? ‹ts[i]? = some t›)
    simp only [Ann.gen.sizeOf_spec]
    omega

/-- The annotations of a union of `as`: those of `as`, and in place of a union those of this union. -/
def InUnion (as : List Ann) (x : Ann) : Prop := ∃ a ∈ as, (a = x ∧ ∀ ts, a ≠ .gen .union ts) ∨ ∃ ts, a = .gen .union ts ∧ x ∈ ts

/-- A full class name: dotted, of characters of names. -/
def FullName (n : List Char) : Prop := '.' ∈ n ∧ n.head? ≠ some '.' ∧ ∀ c ∈ n, c ∉ ['[', ']', ',', ' ']

/-- The arguments which may follow a generic type. -/
def Arity (g : Gen) (args : List Ann) : Prop :=
  match g with
  | .list | .instanceOf | .type | .method | .classMethod | .attr | .classAttr => args.length = 1
  | .dict => args.length = 2
  | .tuple => noVariadicAll args = true
  | .union => 2 ≤ args.length ∧ args.Pairwise (fun a b => ¬ SameAnn a b) ∧ ∀ a ∈ args, ∀ ts, a ≠ .gen .union ts
  | .iterator | .subclass | .cadView | .plotData | .markdown => False

mutual
/-- The annotations made of builtins, importable classes, Any, Type, Literal of words, List, Dict, Union, InstanceOf, Type[.], MethodType,
ClassMethodType, AttributeType, ClassAttributeType, and Tuple, with no variadic tuple within a tuple. -/
def Good (W : Names) : Ann → Prop
  | .builtin _ | .any | .type => True
  | .cls n => W.importable n = true ∧ W.supported n = true ∧ FullName n ∧ n ≠ anyName ∧ n ≠ noneName
  | .noneType | .optional _ => False
  | .gen g args => GoodAll W args ∧ Arity g args
  | .variadic t => Good W t ∧ noVariadic t = true
  | .literal vs => vs ≠ [] ∧ ∀ v ∈ vs, ∀ c ∈ v, c ∉ ['[', ']', ',', ' ', '\'']
/-- The same for arguments. -/
def GoodAll (W : Names) : List Ann → Prop
  | [] => True
  | a :: as => Good W a ∧ GoodAll W as
end

theorem goodAll_mem {W : Names} : ∀ {as : List Ann}, GoodAll W as → ∀ a ∈ as, Good W a
  | [], _, a, h => by simp at h
  | b :: as, hg, a, h => by
    rw [GoodAll] at hg
    rcases List.mem_cons.1 h with rfl | h
    · exact hg.1
    · exact goodAll_mem hg.2 a h

theorem noVariadicAll_mem : ∀ {as : List Ann}, noVariadicAll as = true → ∀ a ∈ as, noVariadic a = true
  | [], _, a, h => by simp at h
  | b :: as, hg, a, h => by
    rw [noVariadicAll, Bool.and_eq_true] at hg
    rcases List.mem_cons.1 h with rfl | h
    · exact hg.1
    · exact noVariadicAll_mem hg.2 a h

theorem serAll_eq (sp : Bool) : ∀ as : List Ann, serAll sp as = as.map (ser sp)
  | [] => by simp [serAll]
  | a :: as => by rw [serAll, serAll_eq sp as]; rfl

theorem strip_append (a b : List Char) : strip (a ++ b) = strip a ++ strip b := List.filter_append ..

theorem gen_name (g : Gen) : g.name ≠ [] ∧ g.name.head? ≠ some '.' ∧ ∀ c ∈ g.name, c ∉ ['[', ']', ',', ' '] := by
  cases g <;> decide

theorem builtin_name (b : Builtin) : b.name ≠ [] ∧ b.name.head? ≠ some '.' ∧ ∀ c ∈ b.name, c ∉ ['[', ']', ',', ' '] := by
  cases b <;> decide

theorem no_space {w : List Char} {l : List Char} (h : ∀ c ∈ w, c ∉ l) (hl : ' ' ∈ l) : ' ' ∉ w := fun hc => h ' ' hc hl

theorem strip_wrap {name inner : List Char} (h : ' ' ∉ name) : strip (name ++ '[' :: (inner ++ [']'])) = name ++ '[' :: (strip inner ++ [']']) := by
  rw [strip_append, strip_self h]
  congr 1
  have : strip ('[' :: (inner ++ [']'])) = '[' :: strip (inner ++ [']']) := rfl
  rw [this, strip_append]
  rfl

mutual
/-- Without its spaces, the string is the one written without spaces. -/
theorem strip_ser (W : Names) : ∀ (a : Ann) (sp : Bool), Good W a → strip (ser sp a) = ser false a
  | .builtin b, sp, _ => by rw [ser, ser]; exact strip_self (no_space (builtin_name b).2.2 (by decide))
  | .cls n, sp, h => by rw [Good] at h; rw [ser, ser]; exact strip_self (no_space h.2.2.1.2.2 (by decide))
  | .any, sp, _ => by rw [ser, ser]; decide
  | .type, sp, _ => by rw [ser, ser]; decide
  | .noneType, sp, h => by rw [Good] at h; exact h.elim
  | .optional t, sp, h => by rw [Good] at h; exact h.elim
  | .gen g [], sp, h => by rw [ser, ser]; exact strip_self (no_space (gen_name g).2.2 (by decide))
  | .gen g (a :: as), sp, h => by
    rw [Good] at h
    rw [ser, ser, strip_wrap (no_space (gen_name g).2.2 (by decide)), strip_join, strip_serAll W (a :: as) sp h.1]
    rfl
  | .variadic t, sp, h => by
    rw [Good] at h
    rw [ser, ser, strip_wrap (by decide), strip_append, strip_append, strip_ser W t sp h.1]
    cases sp <;> rfl
  | .literal vs, sp, h => by
    rw [Good] at h
    have hs : vs.map strip = vs := map_strip_self fun w hw => no_space (h.2 w hw) (by decide)
    rw [ser, ser, strip_wrap (by decide)]
    congr 3
    have h1 : ∀ x : List Char, strip ('\'' :: x) = '\'' :: strip x := fun _ => rfl
    rw [h1, strip_append]
    congr 2
    unfold strip at hs ⊢
    rw [filter_join]
    have : (List.map (fun w => List.filter (fun x => decide (x ≠ ' ')) w) vs) = vs := hs
    rw [this]
    cases sp <;> rfl
theorem strip_serAll (W : Names) : ∀ (as : List Ann) (sp : Bool), GoodAll W as → (serAll sp as).map strip = serAll false as
  | [], sp, _ => by simp [serAll]
  | a :: as, sp, h => by
    rw [GoodAll] at h
    rw [serAll, serAll, List.map_cons, strip_ser W a sp h.1, strip_serAll W as sp h.2]
end

theorem ser_no_space {W : Names} {a : Ann} (h : Good W a) : ' ' ∉ ser false a := by
  intro hc
  rw [← strip_ser W a false h] at hc
  simp [strip] at hc

/-! Depths of brackets -/

theorem scan_append : ∀ (a b : List Char) (d : Nat), scan d (a ++ b) = (scan d a).bind fun e => scan e b
  | [], b, d => rfl
  | c :: a, b, d => by
    rw [List.cons_append, scan, scan]
    split
    · exact scan_append a b _
    · split
      · split
        · rfl
        · exact scan_append a b _
      · split
        · rfl
        · exact scan_append a b _

theorem scan_shift : ∀ (s : List Char) (d e k : Nat), scan d s = some e → scan (d + k) s = some (e + k)
  | [], d, e, k, h => by
    simp only [scan, Option.some.injEq] at h ⊢
    omega
  | c :: s, d, e, k, h => by
    rw [scan] at h ⊢
    split
    · rename_i h1
      rw [if_pos h1] at h
      rw [show d + k + 1 = d + 1 + k by omega]
      exact scan_shift s _ e k h
    · rename_i h1
      rw [if_neg h1] at h
      split
      · rename_i h2
        rw [if_pos h2] at h
        split at h
        · simp at h
        · rw [if_neg (by omega), show d + k - 1 = d - 1 + k by omega]
          exact scan_shift s _ e k h
      · rename_i h2
        rw [if_neg h2] at h
        split at h
        · simp at h
        · rename_i h3
          rw [if_neg (by rintro ⟨h4, h5⟩; exact h3 ⟨h4, by omega⟩)]
          exact scan_shift s _ e k h

theorem scan_word : ∀ (s : List Char) (d : Nat), (∀ c ∈ s, c ∉ ['[', ']', ',']) → scan d s = some d
  | [], d, _ => rfl
  | c :: s, d, h => by
    have hc := h c (.head _)
    simp only [List.mem_cons, List.not_mem_nil, or_false, not_or] at hc
    rw [scan, if_neg hc.1, if_neg hc.2.1, if_neg (fun e => hc.2.2 e.1)]
    exact scan_word s d fun x hx => h x (.tail _ hx)

theorem scan_inside : ∀ (s : List Char) (d : Nat), (∀ c ∈ s, c ≠ '[' ∧ c ≠ ']') → scan (d + 1) s = some (d + 1)
  | [], d, _ => rfl
  | c :: s, d, h => by
    have hc := h c (.head _)
    rw [scan, if_neg hc.1, if_neg hc.2, if_neg (fun e => by omega)]
    exact scan_inside s d fun x hx => h x (.tail _ hx)

theorem scan_wrap {name inner : List Char} (hn : ∀ c ∈ name, c ∉ ['[', ']', ',']) (hi : scan 1 inner = some 1) :
    scan 0 (name ++ '[' :: (inner ++ [']'])) = some 0 := by
  rw [scan_append, scan_word name 0 hn, Option.bind_some]
  rw [scan, if_pos rfl, scan_append, Nat.zero_add, hi, Option.bind_some]
  rfl

theorem scan_joined {sp : List Char} (hsp : scan 1 sp = some 1) : ∀ (ws : List (List Char)), (∀ w ∈ ws, scan 0 w = some 0) → scan 1 (Str.join sp ws) = some 1
  | [], _ => rfl
  | [w], h => scan_shift w 0 0 1 (h w (.head _))
  | w :: w' :: ws, h => by
    rw [Str.join, scan_append, scan_append, scan_shift w 0 0 1 (h w (.head _)), Option.bind_some, hsp, Option.bind_some]
    exact scan_joined hsp (w' :: ws) fun x hx => h x (.tail _ hx)

theorem sub3 {w : List Char} {l : List Char} (h : ∀ c ∈ w, c ∉ l) (hl : ∀ x ∈ ['[', ']', ','], x ∈ l) : ∀ c ∈ w, c ∉ ['[', ']', ','] :=
  fun c hc hx => h c hc (hl c hx)

theorem mem_join {sp : List Char} {c : Char} : ∀ {ws : List (List Char)}, c ∈ Str.join sp ws → c ∈ sp ∨ ∃ w ∈ ws, c ∈ w
  | [], h => by simp [Str.join] at h
  | [w], h => .inr ⟨w, .head _, h⟩
  | w :: w' :: ws, h => by
    rw [Str.join, List.mem_append, List.mem_append] at h
    rcases h with (h | h) | h
    · exact .inr ⟨w, .head _, h⟩
    · exact .inl h
    · rcases mem_join h with h | ⟨x, hx, h⟩
      · exact .inl h
      · exact .inr ⟨x, .tail _ hx, h⟩

mutual
theorem scan_ser (W : Names) : ∀ (a : Ann), Good W a → scan 0 (ser false a) = some 0
  | .builtin b, _ => by rw [ser]; exact scan_word _ 0 (sub3 (builtin_name b).2.2 (by decide))
  | .cls n, h => by rw [Good] at h; rw [ser]; exact scan_word _ 0 (sub3 h.2.2.1.2.2 (by decide))
  | .any, _ => by rw [ser]; decide
  | .type, _ => by rw [ser]; decide
  | .noneType, h => by rw [Good] at h; exact h.elim
  | .optional t, h => by rw [Good] at h; exact h.elim
  | .gen g [], h => by rw [ser]; exact scan_word _ 0 (sub3 (gen_name g).2.2 (by decide))
  | .gen g (a :: as), h => by
    rw [Good] at h
    rw [ser]
    exact scan_wrap (sub3 (gen_name g).2.2 (by decide)) (scan_joined (by decide) _ (scan_serAll W (a :: as) h.1))
  | .variadic t, h => by
    rw [Good] at h
    rw [ser]
    apply scan_wrap (by decide)
    rw [scan_append, scan_append, scan_shift _ 0 0 1 (scan_ser W t h.1)]
    rfl
  | .literal vs, h => by
    rw [Good] at h
    rw [ser]
    apply scan_wrap (by decide)
    apply scan_inside _ 0
    intro c hc
    rw [List.mem_cons, List.mem_append, List.mem_singleton] at hc
    rcases hc with rfl | hc | rfl
    · decide
    · rcases mem_join hc with hc | ⟨v, hv, hc⟩
      · have hall : ∀ c ∈ '\'' :: (sep false ++ ['\'']), c ≠ '[' ∧ c ≠ ']' := by decide
        exact hall c hc
      · have := h.2 v hv c hc
        simp only [List.mem_cons, List.not_mem_nil, or_false, not_or] at this
        exact ⟨this.1, this.2.1⟩
    · decide
theorem scan_serAll (W : Names) : ∀ (as : List Ann), GoodAll W as → ∀ w ∈ serAll false as, scan 0 w = some 0
  | [], _, w, hw => by simp [serAll] at hw
  | a :: as, h, w, hw => by
    rw [GoodAll] at h
    rw [serAll] at hw
    rcases List.mem_cons.1 hw with hw | hw
    · rw [hw]; exact scan_ser W a h.1
    · exact scan_serAll W as h.2 w hw
end

/-! Ellipses -/

/-- No comma is followed by a dot. -/
def nc : List Char → Prop
  | [] => True
  | c :: s => (c = ',' → s.head? ≠ some '.') ∧ nc s

theorem nc_append : ∀ {a b : List Char}, nc a → nc b → a.getLast? ≠ some ',' ∨ b.head? ≠ some '.' → nc (a ++ b)
  | [], b, _, hb, _ => hb
  | [c], b, ha, hb, h => by
    refine ⟨?_, hb⟩
    rintro rfl
    rcases h with h | h
    · simp at h
    · simpa using h
  | c :: c' :: a, b, ha, hb, h => by
    refine ⟨?_, nc_append ha.2 hb (by simpa [List.getLast?_cons_cons] using h)⟩
    simpa using ha.1

theorem nc_word : ∀ {w : List Char}, ',' ∉ w → nc w
  | [], _ => trivial
  | c :: w, h => ⟨fun e => absurd (e ▸ List.mem_cons_self) h, nc_word fun hc => h (.tail _ hc)⟩

theorem nc_not_in {s : List Char} (h : nc s) : Str.isIn [',', '.', '.', '.'] s = false := by
  induction s with
  | nil => rfl
  | cons c s ih =>
    rw [Str.isIn, ih h.2, Bool.or_false]
    by_cases hc : c = ','
    · subst hc
      have := h.1 rfl
      cases s with
      | nil => rfl
      | cons d s =>
        have hd : ('.' == d) = false := by
          rw [beq_eq_false_iff_ne]
          rintro rfl
          exact this rfl
        simp [List.isPrefixOf, hd]
    · have hd : (',' == c) = false := by
        rw [beq_eq_false_iff_ne]
        exact fun e => hc e.symm
      simp [List.isPrefixOf, hd]

theorem before_nc : ∀ {w : List Char}, nc w → before [',', '.', '.', '.'] (w ++ [',', '.', '.', '.']) = w
  | [], _ => rfl
  | c :: w, h => by
    rw [List.cons_append, before, if_neg, before_nc h.2]
    intro hp
    by_cases hc : c = ','
    · subst hc
      have := h.1 rfl
      cases w with
      | nil => simp [List.isPrefixOf] at hp
      | cons d w =>
        simp only [List.cons_append, List.isPrefixOf, BEq.rfl, Bool.true_and, Bool.and_eq_true, beq_iff_eq] at hp
        exact this (by simp [← hp.1])
    · simp only [List.isPrefixOf, Bool.and_eq_true, beq_iff_eq] at hp
      exact hc hp.1.symm

theorem isIn_end (w : List Char) : Str.isIn [',', '.', '.', '.'] (w ++ [',', '.', '.', '.']) = true :=
  Str.isIn_iff.2 ⟨w, [], by simp⟩

theorem head_append {a b : List Char} (h : a ≠ []) : (a ++ b).head? = a.head? := by
  cases a with
  | nil => exact absurd rfl h
  | cons _ _ => rfl

/-- A string starts with a character which is not a dot. -/
theorem ser_head (W : Names) : ∀ (a : Ann) (sp : Bool), Good W a → ser sp a ≠ [] ∧ (ser sp a).head? ≠ some '.'
  | .builtin b, sp, _ => by rw [ser]; exact ⟨(builtin_name b).1, (builtin_name b).2.1⟩
  | .cls n, sp, h => by
    rw [Good] at h; rw [ser]
    refine ⟨?_, h.2.2.1.2.1⟩
    rintro rfl
    exact absurd h.2.2.1.1 (by simp)
  | .any, sp, _ => by rw [ser]; decide
  | .type, sp, _ => by rw [ser]; decide
  | .noneType, sp, h => by rw [Good] at h; exact h.elim
  | .optional t, sp, h => by rw [Good] at h; exact h.elim
  | .gen g [], sp, h => by rw [ser]; exact ⟨(gen_name g).1, (gen_name g).2.1⟩
  | .gen g (a :: as), sp, h => by
    rw [ser, head_append (gen_name g).1]
    exact ⟨by simp, (gen_name g).2.1⟩
  | .variadic t, sp, h => by rw [ser, head_append (by decide)]; exact ⟨by simp, by decide⟩
  | .literal vs, sp, h => by rw [ser, head_append (by decide)]; exact ⟨by simp, by decide⟩

theorem nc_wrap {name inner : List Char} (hn : ',' ∉ name) (hi : nc inner) : nc (name ++ '[' :: (inner ++ [']'])) := by
  apply nc_append (nc_word hn)
  · refine ⟨by simp, nc_append hi ⟨by simp, trivial⟩ (.inr (by simp))⟩
  · exact .inr (by simp)

theorem nc_joined : ∀ {ws : List (List Char)}, (∀ w ∈ ws, nc w ∧ w.head? ≠ some '.') → nc (Str.join [','] ws)
  | [], _ => trivial
  | [w], h => (h w (.head _)).1
  | w :: w' :: ws, h => by
    rw [Str.join, List.append_assoc]
    have ih := nc_joined (ws := w' :: ws) fun x hx => h x (.tail _ hx)
    apply nc_append (h w (.head _)).1
    · refine ⟨fun _ => ?_, ih⟩
      have h2 := (h w' (.tail _ (.head _))).2
      cases ws with
      | nil => simpa [Str.join] using h2
      | cons w'' ws =>
        show (Str.join [','] (w' :: w'' :: ws)).head? ≠ some '.'
        rw [Str.join]
        cases w' with
        | nil => simp
        | cons c w' => simpa using h2
    · exact .inr (by simp)

theorem nc_quoted : ∀ {vs : List (List Char)}, (∀ v ∈ vs, ',' ∉ v) → nc (Str.join ['\'', ',', '\''] vs)
  | [], _ => trivial
  | [v], h => nc_word (h v (.head _))
  | v :: v' :: vs, h => by
    rw [Str.join, List.append_assoc]
    have ih := nc_quoted (vs := v' :: vs) fun x hx => h x (.tail _ hx)
    apply nc_append (nc_word (h v (.head _)))
    · exact nc_append (by simp [nc]) ih (.inl (by simp))
    · exact .inr (by simp)

mutual
theorem nc_ser (W : Names) : ∀ (a : Ann), Good W a → noVariadic a = true → nc (ser false a)
  | .builtin b, _, _ => by rw [ser]; exact nc_word fun hc => (builtin_name b).2.2 _ hc (by decide)
  | .cls n, h, _ => by rw [Good] at h; rw [ser]; exact nc_word fun hc => h.2.2.1.2.2 _ hc (by decide)
  | .any, _, _ => by rw [ser]; exact nc_word (by decide)
  | .type, _, _ => by rw [ser]; exact nc_word (by decide)
  | .noneType, h, _ => by rw [Good] at h; exact h.elim
  | .optional t, h, _ => by rw [Good] at h; exact h.elim
  | .gen g [], h, _ => by rw [ser]; exact nc_word fun hc => (gen_name g).2.2 _ hc (by decide)
  | .gen g (a :: as), h, hv => by
    rw [Good] at h
    rw [noVariadic] at hv
    rw [ser]
    exact nc_wrap (fun hc => (gen_name g).2.2 _ hc (by decide)) (nc_joined (nc_serAll W (a :: as) h.1 hv))
  | .variadic t, h, hv => by simp [noVariadic] at hv
  | .literal vs, h, _ => by
    rw [Good] at h
    rw [ser]
    apply nc_wrap (by decide)
    refine ⟨by simp, nc_append (nc_quoted fun v hv hc => h.2 v hv _ hc (by decide)) ⟨by simp, trivial⟩ (.inr (by simp))⟩
theorem nc_serAll (W : Names) : ∀ (as : List Ann), GoodAll W as → noVariadicAll as = true → ∀ w ∈ serAll false as, nc w ∧ w.head? ≠ some '.'
  | [], _, _, w, hw => by simp [serAll] at hw
  | a :: as, h, hv, w, hw => by
    rw [GoodAll] at h
    rw [noVariadicAll, Bool.and_eq_true] at hv
    rw [serAll] at hw
    rcases List.mem_cons.1 hw with hw | hw
    · rw [hw]; exact ⟨nc_ser W a h.1 hv.1, (ser_head W a false h.1).2⟩
    · exact nc_serAll W as h.2 hv.2 w hw
end

/-! The round trip -/

theorem beforeLast_snoc (c : Char) : ∀ s : List Char, beforeLast c (s ++ [c]) = some s
  | [] => by simp [beforeLast]
  | d :: s => by rw [List.cons_append, beforeLast, beforeLast_snoc c s]

theorem matchTyping_wrap {name inner : List Char} (hn : ∀ c ∈ name, c ∉ ['[', ']', ',']) :
    matchTyping (name ++ '[' :: (inner ++ [']'])) = some (name, inner) := by
  have hp : ∀ c ∈ name, (c ≠ '[' && c ≠ ']') = true := by
    intro c hc
    have := hn c hc
    simp only [List.mem_cons, List.not_mem_nil, or_false, not_or] at this
    simp [this.1, this.2.1]
  unfold matchTyping
  rw [List.dropWhile_append_of_pos hp, List.takeWhile_append_of_pos hp]
  have h1 : ('[' :: (inner ++ [']'])).dropWhile (fun c => c ≠ '[' && c ≠ ']') = '[' :: (inner ++ [']']) := rfl
  have h2 : ('[' :: (inner ++ [']'])).takeWhile (fun c => c ≠ '[' && c ≠ ']') = [] := rfl
  rw [h1, h2, List.append_nil]
  show Option.map (fun inner => (name, inner)) (beforeLast ']' (inner ++ [']'])) = _
  rw [beforeLast_snoc]
  rfl

theorem keys_gen : ∀ g : Gen, (∃ args, Arity g args) → keys.lookup g.name = some (.gen g)
  | .cadView, ⟨_, h⟩ | .plotData, ⟨_, h⟩ | .markdown, ⟨_, h⟩ => h.elim
  | .list, _ | .iterator, _ | .tuple, _ | .dict, _ | .union, _ | .instanceOf, _ | .subclass, _ | .type, _ | .method, _ | .classMethod, _ | .attr, _ | .classAttr, _ => rfl

theorem keys_no_dot {s : List Char} {k : Key} (h : keys.lookup s = some k) : '.' ∉ s := by
  have hk : ∀ p ∈ keys, '.' ∉ p.1 := by decide
  have hm : ∃ p ∈ keys, p.1 = s := by
    revert h
    generalize keys = l
    intro h
    induction l with
    | nil => simp at h
    | cons p l ih =>
      obtain ⟨n, k'⟩ := p
      rw [List.lookup_cons] at h
      split at h
      · rename_i he
        exact ⟨_, .head _, by simpa using (beq_iff_eq.1 he).symm⟩
      · obtain ⟨p, hp, he⟩ := ih h
        exact ⟨p, .tail _ hp, he⟩
  obtain ⟨p, hp, rfl⟩ := hm
  exact hk p hp

theorem flatten_self : ∀ {as : List Ann}, (∀ a ∈ as, ∀ ts, a ≠ .gen .union ts) → flatten as = as
  | [], _ => rfl
  | a :: as, h => by
    rw [flatten]
    · rw [flatten_self fun x hx => h x (.tail _ hx)]
    · intro ts e
      exact h a (.head _) ts e

theorem gen_name_inj {g g' : Gen} (h : g.name = g'.name) : g = g' := by
  cases g <;> cases g' <;> first | rfl | exact absurd h (by decide)

mutual
theorem annEq_iff : ∀ a b : Ann, annEq a b = true ↔ SameAnn a b
  | .builtin x, b => by
    rw [SameAnn]
    cases b with
    | builtin y => cases x <;> cases y <;> simp [annEq]
    | _ => cases x <;> simp [annEq]
  | .cls n, b => by
    rw [SameAnn]
    cases b with
    | cls m =>
      simp only [annEq, beq_iff_eq, Ann.cls.injEq]
      exact eq_comm
    | _ => simp [annEq]
  | .any, b => by rw [SameAnn]; cases b <;> simp [annEq]
  | .type, b => by rw [SameAnn]; cases b <;> simp [annEq]
  | .noneType, b => by rw [SameAnn]; cases b <;> simp [annEq]
  | .variadic t, b => by
    rw [SameAnn]
    cases b <;> simp [annEq, annEq_iff t]
  | .optional t, b => by
    rw [SameAnn]
    cases b <;> simp [annEq, annEq_iff t]
  | .literal vs, b => by
    rw [SameAnn]
    cases b with
    | literal ws =>
      simp only [annEq, Bool.and_eq_true, List.all_eq_true, List.contains_iff_mem, Ann.literal.injEq, exists_eq_left']
      exact ⟨fun h v => ⟨h.1 v, h.2 v⟩, fun h => ⟨fun v => (h v).1, fun v => (h v).2⟩⟩
    | _ => simp [annEq]
  | .gen g ts, b => by
    rw [SameAnn]
    cases b with
    | gen g' us =>
      simp only [Ann.gen.injEq]
      by_cases hg : g = g'
      · subst hg
        by_cases hu : g = .union
        · subst hu
          rw [annEq, Bool.and_eq_true, annEach_iff ts us, List.all_eq_true]
          constructor
          · rintro ⟨h1, h2⟩
            exact ⟨us, ⟨rfl, rfl⟩, .inl ⟨rfl, h1, fun u hx => by
              obtain ⟨t, ht, h⟩ := (annSome_iff ts u).1 (h2 u hx)
              exact ⟨t, ht, h⟩⟩⟩
          · rintro ⟨_, ⟨-, rfl⟩, ⟨-, h1, h2⟩ | ⟨h, -⟩⟩
            · refine ⟨h1, fun u hx => (annSome_iff ts u).2 ?_⟩
              obtain ⟨t, ht, h⟩ := h2 u hx
              exact ⟨t, ht, h⟩
            · exact absurd rfl h
        · have e : annEq (.gen g ts) (.gen g us) = annEqAll ts us := by
            cases g <;> first | exact absurd rfl hu | simp [annEq]
          rw [e, annEqAll_iff ts us]
          constructor
          · intro h
            exact ⟨us, ⟨rfl, rfl⟩, .inr ⟨hu, h.1, fun i t u h1 h2 => h.2 i t u h1 h2⟩⟩
          · rintro ⟨_, ⟨-, rfl⟩, ⟨h, -⟩ | ⟨-, h1, h2⟩⟩
            · exact absurd h hu
            · exact ⟨h1, h2⟩
      · have e : annEq (.gen g ts) (.gen g' us) = false := by
          have hn : (g.name == g'.name) = false := by
            rw [beq_eq_false_iff_ne]; exact fun h => hg (gen_name_inj h)
          unfold annEq
          split <;> simp_all
        rw [e]
        constructor
        · intro h; simp at h
        · rintro ⟨_, ⟨h, -⟩, -⟩
          exact absurd h.symm hg
    | _ => cases g <;> simp [annEq]
theorem annEqAll_iff : ∀ ts us : List Ann, annEqAll ts us = true ↔
    ts.length = us.length ∧ ∀ (i : Nat) (t u : Ann), ts[i]? = some t → us[i]? = some u → SameAnn t u
  | [], [] => by simp [annEqAll]
  | [], _ :: _ => by simp [annEqAll]
  | _ :: _, [] => by simp [annEqAll]
  | t :: ts, u :: us => by
    rw [annEqAll, Bool.and_eq_true, annEq_iff t u, annEqAll_iff ts us]
    constructor
    · rintro ⟨h1, h2, h3⟩
      refine ⟨by simp [h2], fun i x y hx hy => ?_⟩
      cases i with
      | zero => simp at hx hy; subst hx; subst hy; exact h1
      | succ i => exact h3 i x y (by simpa using hx) (by simpa using hy)
    · rintro ⟨h1, h2⟩
      exact ⟨h2 0 t u rfl rfl, by simpa using h1, fun i x y hx hy => h2 (i + 1) x y (by simpa using hx) (by simpa using hy)⟩
theorem annEach_iff : ∀ ts us : List Ann, annEach ts us = true ↔ ∀ t ∈ ts, ∃ u ∈ us, SameAnn t u
  | [], us => by simp [annEach]
  | t :: ts, us => by
    rw [annEach, Bool.and_eq_true, annEach_iff ts us, List.any_eq_true]
    simp only [annEq_iff t, List.forall_mem_cons]
theorem annSome_iff : ∀ (ts : List Ann) (u : Ann), annSome ts u = true ↔ ∃ t ∈ ts, SameAnn t u
  | [], u => by simp [annSome]
  | t :: ts, u => by
    rw [annSome, Bool.or_eq_true, annSome_iff ts u, annEq_iff t u]
    simp [or_and_right, exists_or]
end

theorem dedup_self : ∀ {as seen : List Ann}, (seen ++ as).Pairwise (fun a b => annEq a b = false) → dedup seen as = seen ++ as
  | [], seen, _ => by simp [dedup]
  | a :: as, seen, h => by
    rw [dedup, if_neg]
    · rw [dedup_self (seen := seen ++ [a]) (by simpa using h)]
      simp
    · rw [Bool.not_eq_true, List.any_eq_false]
      intro b hb
      have := (List.pairwise_append.1 h).2.2 b hb a (.head _)
      simp [this]

theorem mk_arity {g : Gen} {args : List Ann} (h : Arity g args) (hne : args ≠ []) : mk g args = .ok (.gen g args) := by
  have one : ∀ {as : List Ann}, as.length = 1 → ∃ t, as = [t] := fun h => List.length_eq_one_iff.1 h
  cases g with
  | tuple => rfl
  | union =>
    obtain ⟨h1, h2, h3⟩ := h
    show mkUnion args = _
    rw [mkUnion, flatten_self h3, dedup_self (seen := []) (h2.imp fun h => by rw [← Bool.not_eq_true, annEq_iff]; exact h)]
    match args, h1 with
    | a :: b :: as, _ => rfl
  | dict =>
    match args, h with
    | [k, v], _ => rfl
  | list | instanceOf | type | method | classMethod | attr | classAttr =>
    obtain ⟨t, rfl⟩ := one h
    rfl
  | iterator | subclass | cadView | plotData | markdown => exact h.elim

theorem length_join : ∀ (sp : List Char) (ws : List (List Char)), ∀ w ∈ ws, w.length ≤ (Str.join sp ws).length
  | _, [], w, h => by simp at h
  | _, [v], w, h => by rw [List.mem_singleton] at h; subst h; exact Nat.le_refl _
  | sp, v :: v' :: ws, w, h => by
    rw [Str.join, List.length_append, List.length_append]
    rcases List.mem_cons.1 h with rfl | h
    · omega
    · have := length_join sp (v' :: ws) w h
      omega

theorem mapM_ser {f : List Char → Except PyErr Ann} : ∀ {as : List Ann}, (∀ a ∈ as, f (ser false a) = .ok a) → (serAll false as).mapM f = .ok as
  | [], _ => by simp [serAll]; rfl
  | a :: as, h => by
    rw [serAll, List.mapM_cons, h a (.head _), mapM_ser fun x hx => h x (.tail _ hx)]
    rfl

theorem ser_length {W : Names} {a : Ann} (h : Good W a) (sp : Bool) : (ser false a).length ≤ (ser sp a).length := by
  rw [← strip_ser W a sp h]
  exact List.length_filter_le _ _

theorem argument_ser {W : Names} {as : List Ann} (h : GoodAll W as) : ∀ w ∈ serAll false as, Argument w := by
  intro w hw
  have hs := scan_serAll W as h w hw
  rw [serAll_eq, List.mem_map] at hw
  obtain ⟨a, ha, rfl⟩ := hw
  have hg := goodAll_mem h a ha
  exact ⟨(ser_head W a false hg).1, ser_no_space hg, hs⟩

theorem round_trip (W : Names) : ∀ (n : Nat) (a : Ann) (sp : Bool), Good W a → (ser sp a).length < n → desN W n (ser sp a) = .ok a
  | 0, _, _, _, hn => absurd hn (Nat.not_lt_zero _)
  | n + 1, a, sp, h, hn => by
    have wrap : ∀ name inner, (∀ c ∈ name, c ∉ ['[', ']', ',']) → desN W (n + 1) (name ++ '[' :: (inner ++ [']'])) = build (desN W n) name (strip inner) := by
      intro name inner hname
      rw [desN, if_pos (by simp), matchTyping_wrap hname]
    cases a with
    | builtin b => rw [ser]; cases b <;> rfl
    | any => rw [ser]; rfl
    | type => rw [ser]; rfl
    | noneType => rw [Good] at h; exact h.elim
    | optional t => rw [Good] at h; exact h.elim
    | cls c =>
      rw [Good] at h
      obtain ⟨hi, -, hf, h1, h2⟩ := h
      rw [ser, desN, if_neg (fun hc => hf.2.2 _ hc (by decide)), bare]
      have hk : keys.lookup c = none := by
        cases hk : keys.lookup c with
        | none => rfl
        | some k => exact absurd hf.1 (keys_no_dot hk)
      rw [hk]
      dsimp only
      rw [resolve, if_neg (by simpa using hf.1), if_neg h1, if_neg h2, if_pos hi]
    | gen g args =>
      rw [Good] at h
      cases args with
      | nil =>
        obtain ⟨-, h⟩ := h
        cases g with
        | tuple => rw [ser]; rfl
        | union => exact absurd h.1 (by simp)
        | dict | list | instanceOf | type | method | classMethod | attr | classAttr => exact absurd h (by simp [Arity])
        | iterator | subclass | cadView | plotData | markdown => exact h.elim
      | cons a as =>
        have hraw : strip (Str.join (sep sp) (serAll sp (a :: as))) = Str.join [','] (serAll false (a :: as)) := by
          rw [strip_join, strip_serAll W _ sp h.1]
        have hex : extractArgs (Str.join [','] (serAll false (a :: as))) = serAll false (a :: as) := C20_split (argument_ser h.1) false
        have hm : (serAll false (a :: as)).mapM (desN W n) = .ok (a :: as) := by
          apply mapM_ser
          intro x hx
          have hg := goodAll_mem h.1 x hx
          apply round_trip W n x false hg
          have hl : (ser sp x).length ≤ (Str.join (sep sp) (serAll sp (a :: as))).length :=
            length_join _ _ _ (by rw [serAll_eq]; exact List.mem_map_of_mem hx)
          have := ser_length hg sp
          rw [ser] at hn
          simp only [List.length_append, List.length_cons] at hn
          omega
        rw [ser, wrap _ _ (sub3 (gen_name g).2.2 (by decide)), hraw, build, keys_gen g ⟨_, h.2⟩]
        have hmk := mk_arity h.2 (by simp)
        cases g with
        | tuple =>
          dsimp only
          rw [nc_not_in (nc_joined (nc_serAll W (a :: as) h.1 h.2)), if_neg (by simp), hex, hm]
          exact hmk
        | _ =>
          dsimp only
          rw [hex, hm]
          exact hmk
    | variadic t =>
      rw [Good] at h
      rw [ser, wrap _ _ (by decide), strip_append, strip_append, strip_ser W t sp h.1]
      have hs : strip (sep sp) ++ strip ['.', '.', '.'] = [',', '.', '.', '.'] := by cases sp <;> rfl
      have hk : keys.lookup tupleName = some (.gen .tuple) := rfl
      rw [List.append_assoc, hs, build, hk]
      dsimp only
      rw [isIn_end, if_pos rfl, before_nc (nc_ser W t h.1 h.2), round_trip W n t false h.1]
      have := ser_length h.1 sp
      rw [ser] at hn
      simp only [List.length_append, List.length_cons] at hn
      omega
    | literal vs =>
      have hst := strip_ser W (.literal vs) sp h
      rw [Good] at h
      rw [ser, wrap _ _ (by decide)]
      have hk : keys.lookup literalName = some .literal := rfl
      rw [build, hk]
      dsimp only
      congr 2
      have hq : ∀ x : List Char, (strip x).filter (· ≠ '\'') = x.filter fun c => c ≠ '\'' && c ≠ ' ' := by
        intro x
        rw [strip, List.filter_filter]
      have hv : (vs.map fun w => w.filter fun c => c ≠ '\'' && c ≠ ' ') = vs := by
        conv => rhs; rw [← List.map_id vs]
        apply List.map_congr_left
        intro w hw
        rw [id, List.filter_eq_self]
        intro c hc
        have := h.2 w hw c hc
        simp only [List.mem_cons, List.not_mem_nil, or_false, not_or] at this
        simp [this.2.2.2.1, this.2.2.2.2]
      have hsep : ('\'' :: (sep sp ++ ['\''])).filter (fun c => c ≠ '\'' && c ≠ ' ') = [','] := by cases sp <;> rfl
      rw [hq, List.filter_cons_of_neg (by decide), List.filter_append, filter_join, hv, hsep]
      rw [List.filter_cons_of_neg (by decide), List.filter_nil, List.append_nil]
      exact Str.split_join h.1 fun w hw hc => h.2 w hw _ hc (by decide)

mutual
theorem good_schema (W : Names) : ∀ a : Ann, Good W a → noSchema W a = false
  | .builtin b, _ => by simp [noSchema]
  | .cls n, h => by rw [Good] at h; simp [noSchema, h.2.1]
  | .any, _ => by simp [noSchema]
  | .type, _ => by simp [noSchema]
  | .noneType, h => by rw [Good] at h; exact h.elim
  | .optional t, h => by rw [Good] at h; exact h.elim
  | .gen g args, h => by
    rw [Good] at h
    have := good_schemaAll W args h.1
    cases g with
    | subclass => exact h.2.elim
    | _ => rw [noSchema]; exact this; simp
  | .variadic t, h => by rw [Good] at h; rw [noSchema]; exact good_schema W t h.1
  | .literal vs, _ => by simp [noSchema]
theorem good_schemaAll (W : Names) : ∀ as : List Ann, GoodAll W as → noSchemaAll W as = false
  | [], _ => by simp [noSchemaAll]
  | a :: as, h => by
    rw [GoodAll] at h
    rw [noSchemaAll, good_schema W a h.1, good_schemaAll W as h.2]
    rfl
end

/-- The annotations of `Good` are serialized, and come back from their strings.  Missing for the full property: see the theorems
below. -/
theorem C19_partial (W : Names) {a : Ann} (h : Good W a) : ∃ s, serialize W a = .ok s ∧ deserialize W s = .ok a := by
  refine ⟨ser true a, ?_, ?_⟩
  · rw [serialize, good_schema W a h]
    rfl
  · exact round_trip W _ a true h (Nat.lt_succ_self _)

theorem sameAnn_refl : ∀ a : Ann, SameAnn a a
  | .builtin _ => by rw [SameAnn]
  | .cls _ => by rw [SameAnn]
  | .any => by rw [SameAnn]
  | .type => by rw [SameAnn]
  | .noneType => by rw [SameAnn]
  | .variadic t => by rw [SameAnn]; exact ⟨t, rfl, sameAnn_refl t⟩
  | .optional t => by rw [SameAnn]; exact ⟨t, rfl, sameAnn_refl t⟩
  | .literal vs => by rw [SameAnn]; exact ⟨vs, rfl, fun _ => Iff.rfl⟩
  | .gen g ts => by
    have ih : ∀ t ∈ ts, SameAnn t t := fun t ht => sameAnn_refl t
    rw [SameAnn]
    refine ⟨ts, rfl, ?_⟩
    by_cases hg : g = .union
    · exact .inl ⟨hg, fun t ht => ⟨t, ht, ih t ht⟩, fun t ht => ⟨t, ht, ih t ht⟩⟩
    · refine .inr ⟨hg, rfl, fun i t u h1 h2 => ?_⟩
      rw [h1, Option.some.injEq] at h2
      exact h2 ▸ ih t (List.mem_of_getElem? h1)
termination_by a => sizeOf a
decreasing_by
  · decreasing_tactic
  · decreasing_tactic
  · have := List.sizeOf_lt_of_mem ht
    simp only [Ann.gen.sizeOf_spec]
    omega

theorem dedup_spec : ∀ (as seen : List Ann), seen.Pairwise (fun a b => ¬ SameAnn a b) → (dedup seen as).Pairwise (fun a b => ¬ SameAnn a b) ∧
    (∀ m ∈ dedup seen as, m ∈ seen ∨ m ∈ as) ∧ (∀ m ∈ seen, m ∈ dedup seen as) ∧ ∀ x ∈ as, ∃ m ∈ dedup seen as, SameAnn m x
  | [], seen, h => ⟨by simpa [dedup] using h, fun m hm => .inl (by simpa [dedup] using hm), fun m hm => by simpa [dedup] using hm, by simp⟩
  | a :: as, seen, h => by
    rw [dedup]
    split
    · rename_i hs
      obtain ⟨h1, h2, h3, h4⟩ := dedup_spec as seen h
      refine ⟨h1, fun m hm => (h2 m hm).imp_right (.tail _), h3, fun x hx => ?_⟩
      rcases List.mem_cons.1 hx with rfl | hx
      · obtain ⟨b, hb, e⟩ := List.any_eq_true.1 hs
        exact ⟨b, h3 b hb, (annEq_iff b x).1 e⟩
      · exact h4 x hx
    · rename_i hs
      have hp : (seen ++ [a]).Pairwise (fun a b => ¬ SameAnn a b) := by
        rw [List.pairwise_append]
        refine ⟨h, List.pairwise_singleton _ _, fun b hb c hc => ?_⟩
        rw [List.mem_singleton.1 hc, ← annEq_iff]
        exact fun e => hs (List.any_eq_true.2 ⟨b, hb, e⟩)
      obtain ⟨h1, h2, h3, h4⟩ := dedup_spec as (seen ++ [a]) hp
      refine ⟨h1, fun m hm => ?_, fun m hm => h3 m (by simp [hm]), fun x hx => ?_⟩
      · rcases h2 m hm with h | h
        · rcases List.mem_append.1 h with h | h
          · exact .inl h
          · rw [List.mem_singleton.1 h]; exact .inr (.head _)
        · exact .inr (.tail _ h)
      · rcases List.mem_cons.1 hx with rfl | hx
        · exact ⟨x, h3 x (by simp), sameAnn_refl x⟩
        · exact h4 x hx

theorem mem_flatten {x : Ann} : ∀ as : List Ann, x ∈ flatten as ↔ InUnion as x
  | [] => by simp [flatten, InUnion]
  | a :: as => by
    have ih := mem_flatten (x := x) as
    by_cases hu : ∃ ts, a = .gen .union ts
    · obtain ⟨ts, rfl⟩ := hu
      rw [flatten, List.mem_append, ih]
      constructor
      · rintro (h | ⟨b, hb, h⟩)
        · exact ⟨_, .head _, .inr ⟨ts, rfl, h⟩⟩
        · exact ⟨b, .tail _ hb, h⟩
      · rintro ⟨b, hb, h⟩
        rcases List.mem_cons.1 hb with rfl | hb
        · rcases h with ⟨-, h⟩ | ⟨us, e, h⟩
          · exact absurd rfl (h ts)
          · cases e; exact .inl h
        · exact .inr ⟨b, hb, h⟩
    · have hn : ∀ ts, a ≠ .gen .union ts := fun ts e => hu ⟨ts, e⟩
      rw [flatten, List.mem_cons, ih]
      · constructor
        · rintro (rfl | ⟨b, hb, h⟩)
          · exact ⟨_, .head _, .inl ⟨rfl, hn⟩⟩
          · exact ⟨b, .tail _ hb, h⟩
        · rintro ⟨b, hb, h⟩
          rcases List.mem_cons.1 hb with rfl | hb
          · rcases h with ⟨h, -⟩ | ⟨us, e, h⟩
            · exact .inl h.symm
            · exact absurd e (hn us)
          · exact .inr ⟨b, hb, h⟩
      · intro ts e
        exact hn ts e

theorem mkUnion_spec {as : List Ann} (hne : ∃ x, InUnion as x) : ∃ A ms, mkUnion as = .ok A ∧
    (ms = [A] ∨ (A = .gen .union ms ∧ 2 ≤ ms.length)) ∧ ms.Pairwise (fun a b => ¬ SameAnn a b) ∧ (∀ m ∈ ms, InUnion as m) ∧
    ∀ x, InUnion as x → ∃ m ∈ ms, SameAnn m x := by
  obtain ⟨h1, h2, -, h4⟩ := dedup_spec (flatten as) [] .nil
  have hs : (∀ m ∈ dedup [] (flatten as), InUnion as m) ∧ ∀ x, InUnion as x → ∃ m ∈ dedup [] (flatten as), SameAnn m x := by
    refine ⟨fun m hm => (mem_flatten as).1 ((h2 m hm).resolve_left (by simp)), fun x hx => h4 x ((mem_flatten as).2 hx)⟩
  unfold mkUnion
  revert h1 hs
  generalize dedup [] (flatten as) = ms
  intro h1 hs
  match ms with
  | [] =>
    obtain ⟨x, hx⟩ := hne
    obtain ⟨m, hm, -⟩ := hs.2 x hx
    simp at hm
  | [a] => exact ⟨a, [a], rfl, .inl rfl, h1, hs.1, hs.2⟩
  | a :: b :: ms => exact ⟨_, a :: b :: ms, rfl, .inr ⟨rfl, by simp⟩, h1, hs.1, hs.2⟩

/-- **C19** The string of a union of annotations of `Good`, even if some are unions or are repeated, is read as their union: its annotations are,
each once, those written, those of the unions within being counted in place; when there is one only, it is that annotation. -/
theorem C19_union (W : Names) {as : List Ann} (hg : ∀ a ∈ as, Good W a) (hne : as ≠ []) : ∃ A ms,
    deserialize W ("Union[".toList ++ Str.join ", ".toList (as.map (ser true)) ++ "]".toList) = .ok A ∧
    (ms = [A] ∨ (A = .gen .union ms ∧ 2 ≤ ms.length)) ∧ ms.Pairwise (fun a b => ¬ SameAnn a b) ∧ (∀ m ∈ ms, InUnion as m) ∧
    ∀ x, InUnion as x → ∃ m ∈ ms, SameAnn m x := by
  have hG : ∀ l : List Ann, (∀ a ∈ l, Good W a) → GoodAll W l := by
    intro l
    induction l with
    | nil => intro _; trivial
    | cons a l ih => intro h; rw [GoodAll]; exact ⟨h a (.head _), ih fun x hx => h x (.tail _ hx)⟩
  have h := hG as hg
  have hin : ∃ x, InUnion as x := by
    match as, hne with
    | a :: l, _ =>
      by_cases hu : ∃ ts, a = .gen .union ts
      · obtain ⟨ts, rfl⟩ := hu
        have := hg _ (.head _)
        rw [Good] at this
        have h2 : 2 ≤ ts.length := this.2.1
        match ts, h2 with
        | t :: ts, _ => exact ⟨t, _, .head _, .inr ⟨_, rfl, .head _⟩⟩
      · exact ⟨a, a, .head _, .inl ⟨rfl, fun ts e => hu ⟨ts, e⟩⟩⟩
  obtain ⟨A, ms, h0, h1⟩ := mkUnion_spec hin
  refine ⟨A, ms, ?_, h1⟩
  rw [← h0]
  have hstr : "Union[".toList ++ Str.join ", ".toList (as.map (ser true)) ++ "]".toList =
      Gen.union.name ++ '[' :: (Str.join (sep true) (serAll true as) ++ [']']) := by
    have e1 : "Union[".toList = Gen.union.name ++ ['['] := by decide
    have e2 : "]".toList = [']'] := by decide
    have e3 : ", ".toList = sep true := by decide
    rw [serAll_eq, e1, e2, e3]
    simp only [List.append_assoc, List.cons_append, List.nil_append]
  have hraw : strip (Str.join (sep true) (serAll true as)) = Str.join [','] (serAll false as) := by
    rw [strip_join, strip_serAll W _ true h]
  have hex : extractArgs (Str.join [','] (serAll false as)) = serAll false as := C20_split (argument_ser h) false
  rw [hstr, deserialize, desN, if_pos (by simp), matchTyping_wrap (sub3 (gen_name .union).2.2 (by decide))]
  dsimp only
  rw [hraw, build, keys_gen .union ⟨[.any, .type], by simp, by simp [SameAnn], by simp⟩]
  dsimp only
  rw [hex, mapM_ser (as := as)]
  · rfl
  · intro x hx
    apply round_trip W _ x false (hg x hx)
    have hl : (ser true x).length ≤ (Str.join (sep true) (serAll true as)).length :=
      length_join _ _ _ (by rw [serAll_eq]; exact List.mem_map_of_mem hx)
    have := ser_length (hg x hx) true
    simp only [List.length_append, List.length_cons]
    omega

/-- A world with one class. -/
def oneClass : Names := { importable := fun s => s == "pkg.Car".toList, supported := fun s => s == "pkg.Car".toList }

/-- A case of `C19_union`: `Union[Union[Any, int], Any, str]`. -/
example : (∀ a ∈ [Ann.gen .union [.any, .builtin .int], .any, .builtin .str], Good oneClass a) ∧
    [Ann.gen .union [.any, .builtin .int], .any, .builtin .str] ≠ [] := by
  refine ⟨?_, by simp⟩
  simp [Good, GoodAll, Arity, SameAnn]

/-- A case of `C19_partial`: `Dict[str, List[Union[pkg.Car, Tuple[int, ...]]]]`. -/
example : Good oneClass (.gen .dict [.builtin .str, .gen .list [.gen .union [.cls "pkg.Car".toList, .variadic (.builtin .int)]]]) ∧
    serialize oneClass (.gen .dict [.builtin .str, .gen .list [.gen .union [.cls "pkg.Car".toList, .variadic (.builtin .int)]]]) =
      .ok "Dict[str, List[Union[pkg.Car, Tuple[int, ...]]]]".toList := by
  refine ⟨?_, by rfl⟩
  simp only [Good, GoodAll, Arity, noVariadic, List.length_cons, List.length_nil, and_true, true_and, Nat.reduceAdd, Nat.le_refl]
  refine ⟨⟨by decide, by decide, ⟨by decide, by decide, by decide⟩, by decide, by decide⟩, ?_, ?_⟩
  · simp [SameAnn]
  · intro a ha ts
    rcases List.mem_cons.1 ha with rfl | ha
    · simp
    · rw [List.mem_singleton] at ha
      subst ha
      simp

/-- `Tuple[Tuple[int, ...], str]` is serialized, but its string cannot be deserialized. -/
theorem C19_nested_violated (W : Names) : ∃ s, serialize W (.gen .tuple [.variadic (.builtin .int), .builtin .str]) = .ok s ∧
    deserialize W s = .error .attributeError := ⟨_, rfl, rfl⟩

/-- `Optional[int]` comes back as `int`. -/
theorem C19_optional_violated (W : Names) : ∃ s, serialize W (.optional (.builtin .int)) = .ok s ∧ deserialize W s = .ok (.builtin .int) :=
  ⟨_, rfl, rfl⟩

/-- `Iterator[int]` comes back as `List[int]`. -/
theorem C19_iterator_violated (W : Names) : ∃ s, serialize W (.gen .iterator [.builtin .int]) = .ok s ∧
    deserialize W s = .ok (.gen .list [.builtin .int]) := ⟨_, rfl, rfl⟩

/-- The string of `CadViewType[pkg.Car]` raises a KeyError. -/
theorem C19_view_violated : ∃ s, serialize oneClass (.gen .cadView [.cls "pkg.Car".toList]) = .ok s ∧ deserialize oneClass s = .error .keyError :=
  ⟨_, rfl, rfl⟩

/-- `Literal['a b']` comes back as `Literal['ab']`. -/
theorem C19_literal_violated (W : Names) : ∃ s, serialize W (.literal ["a b".toList]) = .ok s ∧ deserialize W s = .ok (.literal ["ab".toList]) :=
  ⟨_, rfl, rfl⟩

/-- `List[None]` comes back as `List[Type]`. -/
theorem C19_none_violated (W : Names) : ∃ s, serialize W (.gen .list [.noneType]) = .ok s ∧ s = "List[typing.Type]".toList ∧
    deserialize W s = .ok (.gen .list [.type]) :=
  ⟨_, rfl, by decide, rfl⟩

end DC.Types
