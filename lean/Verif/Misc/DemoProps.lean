import Mathlib.Data.List.Forall2
import Mathlib.Algebra.Order.Field.Rat
import Mathlib.Tactic.NormNum
import Mathlib.Tactic.Linarith
import Mathlib.Tactic.FieldSimp
import Verif.Misc.Demo

/-!
C200: the random sample data; C201: the cars of a file.
-/
namespace DC.Demo

/-! ### Specification -/

/-- A generator which gives numbers between its bounds. -/
def Fair (draw : Nat → Int → Int → Int) : Prop := ∀ k low high, low ≤ high → low ≤ draw k low high ∧ draw k low high ≤ high

/-- Each size lies between the half and the double of an even share of the points left, rounded down.  Stated with products. -/
def Shares (clusters : Int) : Int → List Int → Prop
  | _, [] => True
  | left, n :: l => left < (n + 1) * (2 * clusters) ∧ n * clusters ≤ 2 * left ∧ Shares clusters (left - n) l

/-! ### C200 -/

theorem sizesLoop_ok {draw : Nat → Int → Int → Int} (hd : Fair draw) {clusters : Int} (hc : 2 ≤ clusters) :
    ∀ (k : Nat) {current : Int}, 0 ≤ current → ∃ l, sizesLoop draw clusters k current = .ok l ∧ l.length = k ∧ (∀ n ∈ l, 0 ≤ n) ∧
      l.sum ≤ current ∧ Shares clusters current l
  | 0, current, h => ⟨[], rfl, rfl, by simp, by simpa using h, trivial⟩
  | k + 1, current, h => by
    have e1 : current.tdiv (clusters * 2) = current / (clusters * 2) := Int.tdiv_eq_ediv_of_nonneg h
    have e2 : (current * 2).tdiv clusters = current * 2 / clusters := Int.tdiv_eq_ediv_of_nonneg (by omega)
    have p1 : 0 < clusters * 2 := by omega
    have h1 : 0 ≤ current / (clusters * 2) := Int.ediv_nonneg h (by omega)
    have h2 : current / (clusters * 2) ≤ current * 2 / clusters := by
      have : current / (clusters * 2) ≤ current / clusters := by
        rw [Int.mul_comm, ← Int.ediv_ediv_of_nonneg (by omega)]
        exact Int.ediv_le_ediv (by omega) (Int.ediv_le_self _ h)
      exact this.trans (Int.ediv_le_ediv (by omega) (by omega))
    have h3 : current * 2 / clusters ≤ current := by
      have : current * 2 / clusters ≤ current * 2 / 2 := by
        apply Int.ediv_le_of_le_mul (by omega)
        have : current * 2 / 2 = current := Int.mul_ediv_cancel _ (by omega)
        rw [this]
        nlinarith
      omega
    obtain ⟨d1, d2⟩ := hd k _ _ h2
    rw [sizesLoop, e1, e2]
    simp only [randint, if_pos h2]
    generalize draw k (current / (clusters * 2)) (current * 2 / clusters) = n at d1 d2
    obtain ⟨l, hl, hk, hn, hs, hsh⟩ := sizesLoop_ok hd hc k (current := current - n) (by omega)
    rw [hl]
    refine ⟨_, rfl, by simp [hk], ?_, by simp; omega, ?_, ?_, hsh⟩
    · intro m hm
      rcases List.mem_cons.1 hm with rfl | hm
      · omega
      · exact hn m hm
    · have := Int.lt_ediv_add_one_mul_self current p1
      have h5 : (current / (clusters * 2) + 1) * (clusters * 2) ≤ (n + 1) * (clusters * 2) :=
        Int.mul_le_mul_of_nonneg_right (by omega) (by omega)
      have h6 : (n + 1) * (clusters * 2) = (n + 1) * (2 * clusters) := by rw [Int.mul_comm clusters]
      omega
    · have h4 : n * clusters ≤ current * 2 / clusters * clusters := Int.mul_le_mul_of_nonneg_right d2 (by omega)
      have := Int.ediv_mul_le (current * 2) (b := clusters) (by omega)
      omega

/-- C200.  Whatever the generator draws, the sizes of the clusters are as many as asked, none is negative, they add up to the number of
points, and each but the last lies between the half and the double of an even share of the points left.
Missing: no cluster can be asked for (`C200_violated`). -/
theorem C200_partial {draw : Nat → Int → Int → Int} (hd : Fair draw) {points clusters : Int} (hp : 0 ≤ points) (hc : 1 ≤ clusters) :
    ∃ sizes, setClusterSizes draw points clusters = .ok sizes ∧ (sizes.length : Int) = clusters ∧ (∀ n ∈ sizes, 0 ≤ n) ∧
      sizes.sum = points ∧ Shares clusters points sizes.dropLast := by
  by_cases h : clusters = 1
  · subst h
    exact ⟨[points], by simp [setClusterSizes, sizesLoop], rfl, by simpa using hp, by simp, trivial⟩
  · obtain ⟨l, hl, hk, hn, hs, hsh⟩ := sizesLoop_ok hd (clusters := clusters) (by omega) (clusters - 1).toNat hp
    refine ⟨l ++ [points - l.sum], by rw [setClusterSizes, hl], by simp [hk]; omega, ?_, by simp, by simpa using hsh⟩
    intro n hm
    rcases List.mem_append.1 hm with hm | hm
    · exact hn n hm
    · simp at hm; omega

/-- C200.  When no cluster, or a negative number of them, is asked for, one cluster with all the points is given. -/
theorem C200_violated (draw : Nat → Int → Int → Int) (points : Int) {clusters : Int} (hc : clusters ≤ 0) :
    setClusterSizes draw points clusters = .ok [points] := by
  have : (clusters - 1).toNat = 0 := by omega
  simp [setClusterSizes, this, sizesLoop]

theorem pointsLoop_cluster (point : Nat → Nat → Nat → Rat) (dims : Nat) : ∀ (sizes : List Int) (c : Nat),
    (∀ x ∈ pointsLoop point dims c sizes, c ≤ x.1 ∧ x.2.length = dims) ∧
    (∀ j n, sizes[j]? = some n → ((pointsLoop point dims c sizes).filter (fun x => x.1 = c + j)).length = n.toNat) ∧
    (pointsLoop point dims c sizes).length = (sizes.map Int.toNat).sum
  | [], c => by simp [pointsLoop]
  | n :: ns, c => by
    obtain ⟨h1, h2, h3⟩ := pointsLoop_cluster point dims ns (c + 1)
    refine ⟨?_, ?_, by simp [pointsLoop, h3]⟩
    · intro x hx
      rcases List.mem_append.1 hx with hx | hx
      · obtain ⟨i, -, rfl⟩ := List.mem_map.1 hx
        simp
      · exact ⟨by have := (h1 x hx).1; omega, (h1 x hx).2⟩
    · intro j m hj
      rw [pointsLoop, List.filter_append, List.length_append]
      cases j with
      | zero =>
        simp only [List.getElem?_cons_zero, Option.some.injEq] at hj
        subst hj
        rw [List.filter_eq_self.2 (by simp), List.filter_eq_nil_iff.2 (by
          intro x hx
          have := (h1 x hx).1
          simp; omega)]
        simp
      | succ j =>
        rw [List.filter_eq_nil_iff.2 (by
          intro x hx
          obtain ⟨i, -, rfl⟩ := List.mem_map.1 hx
          simp)]
        have := h2 j m (by simpa using hj)
        rw [show c + (j + 1) = c + 1 + j by omega, this]
        simp

theorem sum_toNat : ∀ (l : List Int), (∀ n ∈ l, 0 ≤ n) → ((l.map Int.toNat).sum : Int) = l.sum
  | [], _ => rfl
  | n :: l, h => by
    have := sum_toNat l fun m hm => h m (by simp [hm])
    have := h n (by simp)
    simp
    omega

/-- C200.  A dataset has as many points as asked, each of as many coordinates as the class has, in as many clusters as asked: each
cluster has its share of the points. -/
theorem C200_dataset {draw : Nat → Int → Int → Int} (hd : Fair draw) (point : Nat → Nat → Nat → Rat) (dims : Nat) {points clusters : Int}
    (hp : 0 ≤ points) (hc : 1 ≤ clusters) : ∃ data, createDataset draw point dims clusters points = .ok data ∧
      (data.length : Int) = points ∧ (∀ x ∈ data, x.2.length = dims) ∧
      ∃ sizes, setClusterSizes draw points clusters = .ok sizes ∧
        ∀ (j : Nat) (n : Int), sizes[j]? = some n → ((data.filter fun x => x.1 = j).length : Int) = n := by
  obtain ⟨sizes, h1, h2, h3, h4, -⟩ := C200_partial hd hp hc
  obtain ⟨g1, g2, g3⟩ := pointsLoop_cluster point dims sizes 0
  refine ⟨_, by rw [createDataset, h1], ?_, fun x hx => (g1 x hx).2, sizes, h1, ?_⟩
  · rw [g3, sum_toNat _ h3, h4]
  · intro j n hj
    have := g2 j n hj
    have hn := h3 n (List.mem_of_getElem? hj)
    rw [Nat.zero_add] at this
    rw [this]
    omega

/-- A generator which always gives its lower bound draws fairly, and twenty points are shared among three clusters. -/
example : Fair (fun _ low _ => low) ∧ setClusterSizes (fun _ low _ => low) 20 3 = .ok [3, 2, 15] :=
  ⟨fun _ _ _ h => ⟨Int.le_refl _, h⟩, by decide⟩

example : setClusterSizes (fun _ _ high => high) 7 2 = .ok [7, 0] := by decide

/-! ### C201 -/

/-- The text of a file: each line is its cells between commas, and ends by an end of line. -/
def csvText (lines : List (List (List Char))) : List Char := lines.flatMap fun l => Str.join [','] l ++ ['\n']

/-- The text of a cell can be between two commas. -/
def Plain (s : List Char) : Prop := ',' ∉ s ∧ '\n' ∉ s

/-- A text made of numeric characters, at least one, and of points. -/
def Numeral (N : Numerals) (s : List Char) : Prop := (∃ c ∈ s, c ≠ '.') ∧ ∀ c ∈ s, c = '.' ∨ N.numeric c = true

/-- What a cell is read as. -/
def CellMeans (N : Numerals) (s : List Char) : Cell → Prop
  | .num q => Numeral N s ∧ N.float s = some q
  | .text t => ¬ Numeral N s ∧ t = s

/-- What a line is read as: nine cells, of which the displacement, in litres, is a number. -/
def LineMeans (N : Numerals) (line : List (List Char)) (car : Car) : Prop :=
  ∃ a b c d e f g h i q, line = [a, b, c, d, e, f, g, h, i] ∧ CellMeans N a car.name ∧ CellMeans N b car.mpg ∧
    CellMeans N c car.cylinders ∧ CellMeans N d (.num q) ∧ car.displacement = .num (q / 1000) ∧ CellMeans N e car.horsepower ∧
    CellMeans N f car.weight ∧ CellMeans N g car.acceleration ∧ CellMeans N h car.model ∧ CellMeans N i car.origin

/-- How many lines are read. -/
def upTo {α : Type} (last : Option Int) (l : List α) : List α := match last with
  | none => l
  | some e => l.take e.toNat

theorem cellOf_iff (N : Numerals) (s : List Char) (c : Cell) : cellOf N s = .ok c ↔ CellMeans N s c := by
  have key : (s.filter (· ≠ '.') ≠ [] ∧ (s.filter (· ≠ '.')).all N.numeric = true) ↔ Numeral N s := by
    unfold Numeral
    constructor
    · rintro ⟨h1, h2⟩
      obtain ⟨c, hc⟩ := List.exists_mem_of_ne_nil _ h1
      refine ⟨⟨c, (List.mem_filter.1 hc).1, by simpa using (List.mem_filter.1 hc).2⟩, fun c hc => ?_⟩
      by_cases h : c = '.'
      · exact .inl h
      · exact .inr (List.all_eq_true.1 h2 c (List.mem_filter.2 ⟨hc, by simpa using h⟩))
    · rintro ⟨⟨c, hc, hne⟩, h2⟩
      refine ⟨List.ne_nil_of_mem (List.mem_filter.2 ⟨hc, by simpa using hne⟩), List.all_eq_true.2 fun x hx => ?_⟩
      have hx' := List.mem_filter.1 hx
      exact (h2 x hx'.1).resolve_left (by simpa using hx'.2)
  simp only [cellOf]
  by_cases h : Numeral N s
  · rw [if_pos (key.2 h)]
    cases hf : N.float s with
    | none => cases c <;> simp [CellMeans, h, hf]
    | some q => cases c <;> simp [CellMeans, h, hf]
  · rw [if_neg (fun hk => h (key.1 hk))]
    cases c <;> simp [CellMeans, h, eq_comm]

theorem cellsOf_iff (N : Numerals) : ∀ (l : List (List Char)) (cs : List Cell), cellsOf N l = .ok cs ↔ List.Forall₂ (CellMeans N) l cs
  | [], cs => by cases cs <;> simp [cellsOf]
  | s :: l, cs => by
    rw [cellsOf]
    cases h1 : cellOf N s with
    | error e =>
      simp only [reduceCtorEq, false_iff]
      intro h
      cases h with
      | cons h _ => rw [(cellOf_iff N s _).2 h] at h1; simp at h1
    | ok c =>
      dsimp only
      have hc := (cellOf_iff N s c).1 h1
      cases h2 : cellsOf N l with
      | error e =>
        simp only [reduceCtorEq, false_iff]
        intro h
        cases h with
        | cons _ h => rw [(cellsOf_iff N l _).2 h] at h2; simp at h2
      | ok cs' =>
        have hcs := (cellsOf_iff N l cs').1 h2
        constructor
        · intro h
          simp only [Except.ok.injEq] at h
          subst h
          exact .cons hc hcs
        · intro h
          cases h with
          | @cons _ c2 _ cs2 ha hb =>
            have e1 := (cellOf_iff N s c2).2 ha
            have e2 := (cellsOf_iff N l cs2).2 hb
            rw [h1] at e1
            rw [h2] at e2
            cases e1
            cases e2
            rfl

theorem carOf_iff (N : Numerals) (line : List (List Char)) (car : Car) : carOf N line = .ok car ↔ LineMeans N line car := by
  constructor
  · intro h
    unfold carOf at h
    cases h1 : cellsOf N line with
    | error e => rw [h1] at h; simp at h
    | ok cs =>
      rw [h1] at h
      have hf := (cellsOf_iff N line cs).1 h1
      dsimp only at h
      cases h2 : inMetres cs with
      | error e => rw [h2] at h; simp at h
      | ok cs' =>
        rw [h2] at h
        dsimp only at h
        unfold inMetres at h2
        cases h3 : cs[3]? with
        | none => rw [h3] at h2; simp at h2
        | some x =>
          rw [h3] at h2
          cases x with
          | text _ => simp at h2
          | num q =>
            simp only [Except.ok.injEq] at h2
            subst h2
            have hlen : cs.length = 9 := by
              have : (cs.set 3 (.num (q / 1000))).length = 9 := by
                unfold newCar at h
                split at h
                · rename_i he; rw [he]; rfl
                · simp at h
              simpa using this
            obtain ⟨a, b, c, d, e, f, g, i, j, rfl⟩ : ∃ a b c d e f g i j, cs = [a, b, c, d, e, f, g, i, j] := by
              match cs, hlen with
              | [a, b, c, d, e, f, g, i, j], _ => exact ⟨a, b, c, d, e, f, g, i, j, rfl⟩
            simp only [List.getElem?_cons_succ, List.getElem?_cons_zero, Option.some.injEq] at h3
            subst h3
            simp only [List.set_cons_succ, List.set_cons_zero, newCar, Except.ok.injEq] at h
            subst h
            cases hf with | @cons s1 _ _ _ k1 hf =>
            cases hf with | @cons s2 _ _ _ k2 hf =>
            cases hf with | @cons s3 _ _ _ k3 hf =>
            cases hf with | @cons s4 _ _ _ k4 hf =>
            cases hf with | @cons s5 _ _ _ k5 hf =>
            cases hf with | @cons s6 _ _ _ k6 hf =>
            cases hf with | @cons s7 _ _ _ k7 hf =>
            cases hf with | @cons s8 _ _ _ k8 hf =>
            cases hf with | @cons s9 _ _ _ k9 hf =>
            cases hf
            exact ⟨s1, s2, s3, s4, s5, s6, s7, s8, s9, q, rfl, k1, k2, k3, k4, rfl, k5, k6, k7, k8, k9⟩
  · rintro ⟨a, b, c, d, e, f, g, h, i, q, rfl, k1, k2, k3, k4, k4', k5, k6, k7, k8, k9⟩
    have hf : List.Forall₂ (CellMeans N) [a, b, c, d, e, f, g, h, i]
        [car.name, car.mpg, car.cylinders, .num q, car.horsepower, car.weight, car.acceleration, car.model, car.origin] :=
      .cons k1 (.cons k2 (.cons k3 (.cons k4 (.cons k5 (.cons k6 (.cons k7 (.cons k8 (.cons k9 .nil))))))))
    rw [carOf, (cellsOf_iff N _ _).2 hf]
    simp only [inMetres, List.getElem?_cons_succ, List.getElem?_cons_zero, List.set_cons_succ, List.set_cons_zero, newCar, ← k4']

theorem carsLoop_iff (N : Numerals) (last : Option Int) : ∀ (lines : List (List (List Char))) (i : Nat) (cars : List Car),
    carsLoop N last false i lines = .ok cars ↔
      List.Forall₂ (LineMeans N) (upTo (last.map (· - i)) lines) cars
  | [], i, cars => by cases cars <;> cases last <;> simp [carsLoop, upTo]
  | line :: lines, i, cars => by
    rw [carsLoop]
    by_cases hstop : past last i = true
    · rw [if_pos hstop]
      cases last with
      | none => simp [past] at hstop
      | some e =>
        have : (e - (i : Int)).toNat = 0 := by simp [past] at hstop; omega
        simp only [upTo, Option.map_some, this, List.take_zero]
        cases cars <;> simp
    · rw [if_neg hstop]
      have hup : upTo (last.map (· - (i : Int))) (line :: lines) = line :: upTo (last.map (· - ((i + 1 : Nat) : Int))) lines := by
        cases last with
        | none => rfl
        | some e =>
          have h1 : (e - (i : Int)).toNat = (e - ((i + 1 : Nat) : Int)).toNat + 1 := by simp [past] at hstop; omega
          simp only [upTo, Option.map_some, h1, List.take_succ_cons]
      rw [hup]
      simp only [Bool.false_eq_true, if_false]
      have ih := carsLoop_iff N last lines (i + 1)
      cases h1 : carOf N line with
      | error e =>
        simp only [reduceCtorEq, false_iff]
        intro h
        cases h with
        | cons h _ => rw [(carOf_iff N line _).2 h] at h1; simp at h1
      | ok c =>
        dsimp only
        have hc := (carOf_iff N line c).1 h1
        cases h2 : carsLoop N last false (i + 1) lines with
        | error e =>
          simp only [reduceCtorEq, false_iff]
          intro h
          cases h with
          | cons _ h => rw [(ih _).2 h] at h2; simp at h2
        | ok cs' =>
          constructor
          · intro h
            simp only [Except.ok.injEq] at h
            subst h
            exact .cons hc ((ih _).1 h2)
          · intro h
            cases h with
            | @cons _ c2 _ cs2 ha hb =>
              have e1 := (carOf_iff N line c2).2 ha
              have e2 := (ih cs2).2 hb
              rw [h1] at e1
              rw [h2] at e2
              cases e1
              cases e2
              rfl

theorem split_line {line : List (List Char)} (hne : line ≠ []) (h : ∀ s ∈ line, Plain s) :
    '\n' ∉ Str.join [','] line ∧ Str.split ',' (Str.join [','] line) = line := by
  refine ⟨?_, Str.split_join hne fun s hs => (h s hs).1⟩
  clear hne
  induction line with
  | nil => simp [Str.join]
  | cons w ws ih =>
    cases ws with
    | nil => simpa [Str.join] using (h w (by simp)).2
    | cons w' ws =>
      rw [Str.join_cons (by simp)]
      have := ih fun s hs => h s (by simp [hs])
      have h2 := (h w (by simp)).2
      simp [h2, this]

theorem split_csv : ∀ (lines : List (List (List Char))), (∀ l ∈ lines, l ≠ [] ∧ ∀ s ∈ l, Plain s) → ∀ rest,
    (Str.split '\n' (csvText lines ++ rest)).map (Str.split ',') = lines ++ (Str.split '\n' rest).map (Str.split ',')
  | [], _, rest => by simp [csvText]
  | l :: lines, h, rest => by
    obtain ⟨h1, h2⟩ := split_line (h l (by simp)).1 (h l (by simp)).2
    have ih := split_csv lines (fun l hl => h l (by simp [hl])) rest
    have : csvText (l :: lines) ++ rest = Str.join [','] l ++ '\n' :: (csvText lines ++ rest) := by simp [csvText]
    rw [this, Str.split_append_sep, Str.split_of_no_sep h1, List.map_append, ih]
    simp [h2]

/-- C201.  The cars of a file whose lines end by an end of line are those of its lines after the first, in order, up to the given number
of them: they are given exactly when each of these lines is a car.
Missing: the last line is lost when no end of line ends it (`C201_violated`), and the removal of duplicates raises
(`C201_duplicates_violated`). -/
theorem C201_partial (N : Numerals) {head : List (List Char)} {lines : List (List (List Char))}
    (h : ∀ l ∈ head :: lines, l ≠ [] ∧ ∀ s ∈ l, Plain s) (last : Option Int) (cars : List Car) :
    fromCsv N (csvText (head :: lines)) last false = .ok cars ↔ List.Forall₂ (LineMeans N) (upTo last lines) cars := by
  have := split_csv (head :: lines) h []
  rw [List.append_nil] at this
  unfold fromCsv
  rw [this, carsLoop_iff]
  simp [Str.split]

/-- C201.  What follows the last end of line is not read. -/
theorem C201_tail (N : Numerals) {head : List (List Char)} {lines : List (List (List Char))}
    (h : ∀ l ∈ head :: lines, l ≠ [] ∧ ∀ s ∈ l, Plain s) {rest : List Char} (hr : '\n' ∉ rest) (last : Option Int) (dup : Bool) :
    fromCsv N (csvText (head :: lines) ++ rest) last dup = fromCsv N (csvText (head :: lines)) last dup := by
  have h1 := split_csv (head :: lines) h rest
  have h2 := split_csv (head :: lines) h []
  rw [List.append_nil] at h2
  unfold fromCsv
  rw [h1, h2, Str.split_of_no_sep hr]
  simp [Str.split]

/-- The numerals of the examples: decimal digits, of which each text is the number 2.  Example only. -/
def exNumerals : Numerals := ⟨Char.isDigit, fun _ => some 2⟩

/-- A line of the examples.  Example only. -/
def exLine : List (List Char) := [['a'], ['1'], ['8'], ['3', '.', '5'], ['1'], ['7'], ['9'], ['7'], ['U', 'S']]

/-- The car of this line.  Example only. -/
def exCar : Car := ⟨.text ['a'], .num 2, .num 2, .num (2 / 1000), .num 2, .num 2, .num 2, .num 2, .text ['U', 'S']⟩

theorem exLine_plain : ∀ l ∈ [[['h']], exLine], l ≠ [] ∧ ∀ s ∈ l, Plain s := by
  unfold Plain exLine
  decide

theorem exLine_means : LineMeans exNumerals exLine exCar := (carOf_iff _ _ _).1 (by decide +kernel)

/-- C201.  The last line of a file which does not end by an end of line is lost: a file of one car has none. -/
theorem C201_violated : fromCsv exNumerals (csvText [[['h']], exLine]) none false = .ok [exCar] ∧
    fromCsv exNumerals (csvText [[['h']]] ++ Str.join [','] exLine) none false = .ok [] := by
  refine ⟨(C201_partial _ exLine_plain none _).2 (.cons exLine_means .nil), ?_⟩
  rw [C201_tail _ (by unfold Plain; decide) (by decide)]
  exact (C201_partial _ (lines := []) (by unfold Plain; decide) none _).2 .nil

/-- C201.  The removal of duplicates raises an AttributeError as soon as there is a line to read. -/
theorem C201_duplicates_violated (N : Numerals) {head line : List (List Char)} {lines : List (List (List Char))}
    (h : ∀ l ∈ head :: line :: lines, l ≠ [] ∧ ∀ s ∈ l, Plain s) {last : Option Int} (hl : ∀ e, last = some e → 0 < e) :
    fromCsv N (csvText (head :: line :: lines)) last true = .error .attributeError := by
  have := split_csv (head :: line :: lines) h []
  rw [List.append_nil] at this
  unfold fromCsv
  rw [this]
  have hd : ((head :: line :: lines ++ (Str.split '\n' []).map (Str.split ',')).drop 1).dropLast = line :: lines := by
    simp [Str.split, List.dropLast_cons_of_ne_nil]
  rw [hd, carsLoop, if_neg]
  · rfl
  · cases last with
    | none => simp [past]
    | some e => have := hl e rfl; simp [past]; omega

example : fromCsv exNumerals (csvText [[['h']], exLine]) (some 3) true = .error .attributeError :=
  C201_duplicates_violated _ exLine_plain (by simp)

/-- C201.  The output power has one value for each time which has a power, at eight tenths of it. -/
theorem C201_power (times powers : List Rat) : (powerSimulation times powers).length = min times.length powers.length ∧
    ∀ (k : Nat) (p : Rat), k < times.length → powers[k]? = some p → (powerSimulation times powers)[k]? = some (p * (4 / 5)) := by
  refine ⟨by simp [powerSimulation], fun k p hk hp => ?_⟩
  obtain ⟨t, ht⟩ : ∃ t, times[k]? = some t := ⟨_, List.getElem?_eq_getElem hk⟩
  have hz : (times.zip powers)[k]? = some (t, p) := List.getElem?_zip_eq_some.2 ⟨ht, hp⟩
  simp only [powerSimulation, List.getElem?_map, hz, Option.map_some]
  norm_num

example : powerSimulation [0, 1, 2] [10, 5] = [8, 4] := by decide +kernel

/-- C201.  The models generated are as many as asked; the values of the models follow one another from the parameter, and those of the
submodels are its multiples. -/
theorem C201_generate (parameter solutions : Int) : (generate parameter solutions).length = solutions.toNat ∧
    ∀ (k : Nat), k < solutions.toNat → (generate parameter solutions)[k]? = some (parameter + k, parameter * k) := by
  refine ⟨by simp [generate], fun k hk => ?_⟩
  simp [generate, List.getElem?_range hk]

/-- C201.  The progress told by a long generation starts at 0, grows at each call, and ends at 1. -/
theorem C201_progress : longProgress.head? = some 0 ∧ longProgress.getLast? = some 1 ∧ longProgress.Pairwise (· < ·) := by
  refine ⟨?_, ?_, ?_⟩
  · rw [longProgress, List.range_succ_eq_map]; simp
  · rw [longProgress, List.range_succ]; simp
  · refine List.pairwise_map.2 (List.pairwise_lt_range.imp fun h => ?_)
    have : ((_ : Nat) : Rat) < (_ : Nat) := Nat.cast_lt.2 h
    linarith

end DC.Demo
