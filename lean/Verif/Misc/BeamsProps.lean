import Mathlib.Algebra.Order.Field.Rat
import Mathlib.Tactic.NormNum
import Mathlib.Tactic.Linarith
import Mathlib.Tactic.Positivity
import Mathlib.Tactic.GCongr
import Verif.Misc.Beams
import Verif.Values.PathLaws
import Verif.Values.EmitLemmas

/-!
C202: structures of beams and the references of their drawings.
-/
namespace DC.Beams

/-- A generator which gives numbers of the range from `low` to `high`, without `high`. -/
def Fair (draw : Nat → Int → Int → Int) : Prop := ∀ k low high, low < high → low ≤ draw k low high ∧ draw k low high < high

/-- What is asked of a structure, the `i`-th of those generated (from 0). -/
def Asked (maxBeams minLength maxLength : Int) (name : String) (i : Nat) (s : Structure) : Prop :=
  1 ≤ s.vertical.length ∧ (s.vertical.length : Int) ≤ maxBeams ∧
  (∀ b ∈ s.vertical, (minLength : Rat) ≤ b.length ∧ b.length < maxLength) ∧
  (∀ (j : Nat) (b : Beam), s.vertical[j]? = some b → b.name = "V" ++ toString (j + 1)) ∧
  s.horizontal.length = 10 * ((s.vertical.length : Rat) - 1) ∧ s.name = name ++ " " ++ toString (i + 1)

theorem genVertical_ok {draw : Nat → Int → Int → Int} (hd : Fair draw) {lo hi : Int} (h : lo < hi) : ∀ (n j : Nat),
    ∃ bs, genVertical draw lo hi n j = .ok bs ∧ bs.length = n ∧ (∀ b ∈ bs, (lo : Rat) ≤ b.length ∧ b.length < hi) ∧
      ∀ (k : Nat) (b : Beam), bs[k]? = some b → b.name = "V" ++ toString (j + k + 1)
  | 0, j => ⟨[], rfl, rfl, by simp, by simp⟩
  | n + 1, j => by
    have hlt : lo * 10 < hi * 10 := by omega
    obtain ⟨d1, d2⟩ := hd j _ _ hlt
    obtain ⟨bs, h1, h2, h3, h4⟩ := genVertical_ok hd h n (j + 1)
    rw [genVertical]
    simp only [randrange, if_pos hlt, h1]
    refine ⟨_, rfl, by simp [h2], ?_, ?_⟩
    · intro b hb
      rcases List.mem_cons.1 hb with rfl | hb
      · generalize draw j (lo * 10) (hi * 10) = l at d1 d2
        have e1 : (lo : Rat) * 10 ≤ l := by exact_mod_cast d1
        have e2 : (l : Rat) < hi * 10 := by exact_mod_cast d2
        constructor
        · show (lo : Rat) ≤ (l : Rat) / 10
          linarith
        · show (l : Rat) / 10 < hi
          linarith
      · exact h3 b hb
    · intro k b hb
      cases k with
      | zero => simp at hb; subst hb; rfl
      | succ k =>
        have := h4 k b (by simpa using hb)
        rw [this, show j + 1 + k + 1 = j + (k + 1) + 1 by omega]

theorem genLoop_ok {count : Nat → Int → Int → Int} {draw : Nat → Nat → Int → Int → Int} (hc : Fair count) (hd : ∀ i, Fair (draw i))
    {maxBeams lo hi : Int} (hm : 1 ≤ maxBeams) (h : lo < hi) (name : String) : ∀ (n i : Nat),
    ∃ ss, genLoop count draw maxBeams lo hi name n i = .ok ss ∧ ss.length = n ∧
      ∀ (k : Nat) (s : Structure), ss[k]? = some s → Asked maxBeams lo hi name (i + k) s
  | 0, i => ⟨[], rfl, rfl, by simp⟩
  | n + 1, i => by
    have hlt : 1 < maxBeams + 1 := by omega
    obtain ⟨d1, d2⟩ := hc i _ _ hlt
    obtain ⟨ss, h1, h2, h3⟩ := genLoop_ok hc hd hm h name n (i + 1)
    rw [genLoop]
    simp only [randrange, if_pos hlt]
    generalize count i 1 (maxBeams + 1) = k at d1 d2
    obtain ⟨vs, g1, g2, g3, g4⟩ := genVertical_ok (hd i) h k.toNat 0
    simp only [g1, h1]
    refine ⟨_, rfl, by simp [h2], ?_⟩
    intro m s hs
    cases m with
    | zero =>
      simp at hs
      subst hs
      refine ⟨by simp [g2]; omega, by simp [g2]; omega, g3, fun j b hb => by simpa using g4 j b hb, ?_, rfl⟩
      have : ((vs.length : Nat) : Rat) = (k : Rat) := by
        rw [g2]
        have : ((k.toNat : Int) : Rat) = (k : Rat) := by rw [Int.toNat_of_nonneg (by omega)]
        exact_mod_cast this
      simp only [this]
      push_cast
      ring
    | succ m =>
      have := h3 m s (by simpa using hs)
      rw [show i + (m + 1) = i + 1 + m by omega]
      exact this

/-- C202.  Whatever is drawn, as many structures as asked are generated, each named by its rank, with from one beam to the greatest
number of beams, of lengths within the bounds, above a horizontal beam of ten by gap. -/
theorem C202_generate {count : Nat → Int → Int → Int} {draw : Nat → Nat → Int → Int → Int} (hc : Fair count) (hd : ∀ i, Fair (draw i))
    (solutions : Int) {maxBeams minLength maxLength : Int} (hm : 1 ≤ maxBeams) (h : minLength < maxLength) (name : String) :
    ∃ ss, generateBeams count draw solutions maxBeams minLength maxLength name = .ok ss ∧ ss.length = solutions.toNat ∧
      ∀ (i : Nat) (s : Structure), ss[i]? = some s → Asked maxBeams minLength maxLength name i s := by
  obtain ⟨ss, h1, h2, h3⟩ := genLoop_ok hc hd hm h name solutions.toNat 0
  exact ⟨ss, h1, h2, fun i s hs => by simpa using h3 i s hs⟩

/-- C202.  Bounds between which there is no length, or a greatest number of beams below one, are refused as soon as a structure is asked
for. -/
theorem C202_refused {count : Nat → Int → Int → Int} (hc : Fair count) (draw : Nat → Nat → Int → Int → Int)
    {solutions maxBeams minLength maxLength : Int} (hs : 1 ≤ solutions) (h : maxBeams < 1 ∨ maxLength ≤ minLength) (name : String) :
    generateBeams count draw solutions maxBeams minLength maxLength name = .error .valueError := by
  obtain ⟨n, hn⟩ : ∃ n, solutions.toNat = n + 1 := ⟨solutions.toNat - 1, by omega⟩
  rw [generateBeams, hn, genLoop]
  by_cases hm : maxBeams < 1
  · have : ¬ 1 < maxBeams + 1 := by omega
    simp only [randrange, if_neg this]
  · have hlt : 1 < maxBeams + 1 := by omega
    obtain ⟨d1, d2⟩ := hc 0 _ _ hlt
    simp only [randrange, if_pos hlt]
    generalize count 0 1 (maxBeams + 1) = k at d1 d2
    obtain ⟨j, hj⟩ : ∃ j, k.toNat = j + 1 := ⟨k.toNat - 1, by omega⟩
    have : ¬ minLength * 10 < maxLength * 10 := by rcases h with h | h <;> omega
    simp only [hj, genVertical, randrange, if_neg this]

theorem vContours_get (length : Rat) (n : Nat) (ref : Path) : ∀ (bs : List Beam) (i k : Nat),
    (vContours length n ref i bs)[k]? = bs[k]?.map fun b =>
      vContour b (length * ((i + k : Nat) : Rat) / n) (ref ++ ["vertical_beams", toString (i + k)])
  | [], i, k => by simp [vContours]
  | b :: bs, i, k => by
    cases k with
    | zero => simp [vContours]
    | succ k =>
      rw [vContours, List.getElem?_cons_succ, List.getElem?_cons_succ, vContours_get length n ref bs (i + 1) k,
        show i + 1 + k = i + (k + 1) by omega]

/-- The corners of an upright rectangle, from its lowest left one, clockwise. -/
def box (x y width height : Rat) : List (Rat × Rat) := [(x, y), (x, y + height), (x + width, y + height), (x + width, y)]

/-- The object which a beam is: its length, its width, a tenth of the length, and its name. -/
def beamData (cls : String) (b : Beam) : V :=
  .obj cls [(.str "length", .flt b.length), (.str "width", .flt (b.length / 10)), (.str "name", .str b.name)]

theorem noRef_leaf {v : V} (h : ∀ l, v ≠ .list l) (h1 : ∀ l, v ≠ .tuple l) (h2 : ∀ d, v ≠ .dict d) (h3 : ∀ c d, v ≠ .obj c d) : NoRef v := by
  intro d hd
  cases hd with
  | self => exact absurd rfl (h2 d)
  | list => exact absurd rfl (h _)
  | tuple => exact absurd rfl (h1 _)
  | dict => exact absurd rfl (h2 _)
  | obj => exact absurd rfl (h3 _ _)

theorem beam_noRef (c : String) (b : Beam) : NoRef (b.obj c) := by
  unfold Beam.obj
  rw [noRef_obj]
  intro kv hkv
  simp only [List.mem_cons, List.not_mem_nil, or_false] at hkv
  rcases hkv with rfl | rfl | rfl <;> exact noRef_leaf (by simp) (by simp) (by simp) (by simp)

theorem structure_noRef (s : Structure) : NoRef s.obj := by
  unfold Structure.obj
  rw [noRef_obj]
  intro kv hkv
  simp only [List.mem_cons, List.not_mem_nil, or_false] at hkv
  rcases hkv with rfl | rfl | rfl | rfl
  · exact beam_noRef _ _
  · rw [noRef_list]
    intro v hv
    obtain ⟨b, -, rfl⟩ := List.mem_map.1 hv
    exact beam_noRef _ _
  · exact noRef_leaf (by simp) (by simp) (by simp) (by simp)
  · exact noRef_leaf (by simp) (by simp) (by simp) (by simp)

theorem reads_horizontal (s : Structure) (fuel : Nat) (ev : Bool) :
    getPath fuel ev s.obj ["#", "horizontal_beam"] = .ok (s.horizontal.obj "HorizontalBeam") := by
  rw [getPath_eq ⟨rfl, _, _, rfl, 'h', "orizontal_beam".toList, by decide, by decide⟩ (clear_noRef (.inr (structure_noRef s)) _)]
  rfl

theorem reads_vertical (s : Structure) (fuel : Nat) (ev : Bool) {k : Nat} {b : Beam} (hb : s.vertical[k]? = some b) :
    getPath fuel ev s.obj ["#", "vertical_beams", toString k] = .ok (b.obj "VerticalBeam") := by
  rw [getPath_eq ⟨rfl, _, _, rfl, 'v', "ertical_beams".toList, by decide, by decide⟩ (clear_noRef (.inr (structure_noRef s)) _)]
  have h0 : extractSegment s.obj "vertical_beams" = .ok (.attr "vertical_beams", .list (s.vertical.map (Beam.obj "VerticalBeam"))) := rfl
  have hk : k < s.vertical.length := (List.getElem?_eq_some_iff.1 hb).1
  have h1 : extractSegment (.list (s.vertical.map (Beam.obj "VerticalBeam"))) (toString k) = .ok (.idx k, b.obj "VerticalBeam") := by
    rw [extract_ok]
    refine ⟨?_, ?_⟩
    · simp only [segLoc, int_toString]
      simp [seqIndex, hk]
    · simp [childAt, hb]
  simp only [plainWalk, h0, h1, bind, Except.bind, Except.map]

theorem beam_data (cls : String) (b : Beam) : b.obj cls = beamData ("dessia_common.forms." ++ cls) b := rfl

/-- C202.  The drawing of a structure has one shape for its horizontal beam and one for each vertical beam, in order; the reference of
each shape leads, in the structure, to the beam it draws: a rectangle as long as the beam and a tenth of it wide. -/
theorem C202_reference (s : Structure) (fuel : Nat) (ev : Bool) : (s.plot ["#"]).length = s.vertical.length + 1 ∧
    (∃ shape, (s.plot ["#"])[0]? = some shape ∧ getPath fuel ev s.obj shape.reference =
        .ok (beamData "dessia_common.forms.HorizontalBeam" s.horizontal) ∧
      shape.corners = box 0 0 s.horizontal.length (s.horizontal.length / 10)) ∧
    ∀ (k : Nat) (b : Beam), s.vertical[k]? = some b → ∃ shape, (s.plot ["#"])[k + 1]? = some shape ∧
      getPath fuel ev s.obj shape.reference = .ok (beamData "dessia_common.forms.VerticalBeam" b) ∧
      shape.corners = box (s.horizontal.length * k / s.vertical.length) 0 (b.length / 10) b.length := by
  have hl : ∀ (bs : List Beam) (i : Nat), (vContours s.horizontal.length s.vertical.length ["#"] i bs).length = bs.length := by
    intro bs
    induction bs with
    | nil => intro i; rfl
    | cons b bs ih => intro i; simp [vContours, ih]
  refine ⟨by simp [Structure.plot, hl], ⟨_, rfl, (reads_horizontal s fuel ev).trans (by rw [beam_data]; rfl), by simp [hContour, box, Beam.width]⟩, ?_⟩
  intro k b hb
  refine ⟨vContour b (s.horizontal.length * k / s.vertical.length) ["#", "vertical_beams", toString k], ?_, (reads_vertical s fuel ev hb).trans (by rw [beam_data]; rfl), ?_⟩
  · rw [Structure.plot, List.getElem?_cons_succ, vContours_get, hb]
    simp
  · simp [vContour, box, Beam.width]

/-- C202.  The vertical beams of a structure are drawn from left to right, each from its own place, and start within the horizontal beam. -/
theorem C202_places {maxBeams minLength maxLength : Int} {name : String} {i : Nat} {s : Structure}
    (h : Asked maxBeams minLength maxLength name i s) {j k : Nat} (hjk : j < k) (hk : k < s.vertical.length) :
    0 ≤ s.horizontal.length * j / s.vertical.length ∧
    s.horizontal.length * j / s.vertical.length < s.horizontal.length * k / s.vertical.length ∧
    s.horizontal.length * k / s.vertical.length < s.horizontal.length := by
  obtain ⟨-, -, -, -, hh, -⟩ := h
  have hn : (0 : Rat) < s.vertical.length := by exact_mod_cast (by omega : 0 < s.vertical.length)
  have h2 : (2 : Rat) ≤ s.vertical.length := by exact_mod_cast (by omega : 2 ≤ s.vertical.length)
  have hpos : 0 < s.horizontal.length := by rw [hh]; linarith
  have hj : (0 : Rat) ≤ j := by positivity
  have e1 : (j : Rat) < k := by exact_mod_cast hjk
  have e2 : (k : Rat) < s.vertical.length := by exact_mod_cast hk
  refine ⟨by positivity, ?_, ?_⟩
  · rw [div_lt_div_iff_of_pos_right hn]
    exact mul_lt_mul_of_pos_left e1 hpos
  · rw [div_lt_iff₀ hn]
    exact mul_lt_mul_of_pos_left e2 hpos

/-- A structure of up to two beams; every draw takes the greatest number. -/
example : Fair (fun _ _ high => high - 1) ∧
    generateBeams (fun _ _ high => high - 1) (fun _ _ _ high => high - 1) 1 2 1 4 "B" =
      .ok [⟨⟨10, "H"⟩, [⟨39 / 10, "V1"⟩, ⟨39 / 10, "V2"⟩], "B 1"⟩] :=
  ⟨fun _ low high h => ⟨by dsimp only; omega, by dsimp only; omega⟩, by decide +kernel⟩

example : generateBeams (fun _ _ high => high - 1) (fun _ _ _ high => high - 1) 2 3 9 9 "B" = .error .valueError :=
  C202_refused (fun _ low high h => ⟨by omega, by omega⟩) _ (by decide) (.inr (by decide)) _

example : ∃ shape, (Structure.plot ⟨⟨10, "H"⟩, [⟨3, "V1"⟩, ⟨4, "V2"⟩], "B"⟩ ["#"])[2]? = some shape ∧ shape.corners = box (10 * 1 / 2) 0 (4 / 10) 4 := by
  obtain ⟨-, -, h⟩ := C202_reference ⟨⟨10, "H"⟩, [⟨3, "V1"⟩, ⟨4, "V2"⟩], "B"⟩ 0 true
  obtain ⟨shape, h1, -, h2⟩ := h 1 ⟨4, "V2"⟩ rfl
  exact ⟨shape, h1, by simpa using h2⟩

end DC.Beams
