import Verif.Lemmas.FltPolygon
import Verif.Props.FltHull

/-!
# C121: points in polygons in IEEE arithmetic
-/

set_option linter.unusedSectionVars false
set_option linter.unusedSimpArgs false

namespace vm
open BinPar

variable {P : BinPar} {m : ℕ}

/-- The exact coordinates of `v` relative to `p` after the projection along the axis: 0 is the horizontal, 1 the vertical coordinate. -/
def relPos (p v : Vec (Flt P.fmt) 3) (axis : ℕ) : Vec ℚ 3 := swizzle (vval v) axis - swizzle (vval p) axis

/-- The edge from `v` to `w` has a point at the height of `p`, with the exact horizontal coordinate `x` relative to `p`. -/
def CrossesAt (p v w : Vec (Flt P.fmt) 3) (axis : ℕ) (x : ℚ) : Prop :=
  ∃ t : ℚ, 0 ≤ t ∧ t ≤ 1 ∧ (relPos p v axis + t • (relPos p w axis - relPos p v axis)) 1 = 0 ∧
    (relPos p v axis + t • (relPos p w axis - relPos p v axis)) 0 = x

theorem swizzle_val (v : Vec (Flt P.fmt) 3) (axis : ℕ) (j : Fin 3) : (swizzle v axis j).val = swizzle (vval v) axis j := by
  unfold swizzle
  split
  · fin_cases j <;> rfl
  · fin_cases j <;> rfl
  · rfl

theorem swizzle_fin {v : Vec (Flt P.fmt) 3} (h : ∀ j, (v j).isFinite) (axis : ℕ) (j : Fin 3) : (swizzle v axis j).isFinite := by
  unfold swizzle
  split
  · fin_cases j <;> exact h _
  · fin_cases j <;> exact h _
  · exact h j

/-- Differences of coordinates that are not too large. -/
theorem isDiff_of {p v : Vec (Flt P.fmt) 3} (hp : ∀ j, (p j).isFinite) (hv : ∀ j, (v j).isFinite) (axis : ℕ) (j : Fin 3)
    (h : 2 * |relPos p v axis j| + 1 < P.bound) : IsDiff ((swizzle v axis - swizzle p axis) j) (relPos p v axis j) := by
  have h1 := swizzle_fin hp axis j
  have h2 := swizzle_fin hv axis j
  have e : (swizzle v axis j).val - (swizzle p axis j).val = relPos p v axis j := by
    rw [swizzle_val, swizzle_val]; rfl
  have hs := is_sub (x := swizzle v axis j) (y := swizzle p axis j) ⟨h2, rfl⟩ ⟨h1, rfl⟩ rfl (by rw [e]; exact fl_lt_bound h)
  rw [e] at hs
  refine ⟨hs.1, hs.2, ?_⟩
  have := fl_sub_err_u (Flt.eq_fin h2).1.1 (Flt.eq_fin h1).1.1
  rwa [e] at this

theorem crossesAt_iff {p v w : Vec (Flt P.fmt) 3} {axis : ℕ} (hv : relPos p v axis 1 ≠ 0) (hw : relPos p w axis 1 ≠ 0) (x : ℚ) :
    CrossesAt p v w axis x ↔ Crosses (relPos p v axis) (relPos p w axis) ∧ x = xcross (relPos p v axis) (relPos p w axis) := by
  unfold CrossesAt
  generalize relPos p v axis = a at *
  generalize relPos p w axis = b at *
  constructor
  · rintro ⟨t, h0, h1, h2, h3⟩
    simp only [Pi.sub_apply, Pi.add_apply, Pi.smul_apply, smul_eq_mul] at h2 h3
    have hc : Crosses a b := by
      rcases lt_or_gt_of_ne hv with ha | ha <;> rcases lt_or_gt_of_ne hw with hb | hb
      · have : a 1 + t * (b 1 - a 1) = (1 - t) * a 1 + t * b 1 := by ring
        rw [this] at h2
        rcases h0.lt_or_eq with h | h
        · have := mul_neg_of_pos_of_neg h hb
          have := mul_nonpos_of_nonneg_of_nonpos (by linarith : 0 ≤ 1 - t) ha.le
          linarith
        · rw [← h] at h2; linarith
      · exact Or.inl ⟨ha, hb⟩
      · exact Or.inr ⟨hb, ha⟩
      · have : a 1 + t * (b 1 - a 1) = (1 - t) * a 1 + t * b 1 := by ring
        rw [this] at h2
        rcases h0.lt_or_eq with h | h
        · have := mul_pos h hb
          have := mul_nonneg (by linarith : 0 ≤ 1 - t) ha.le
          linarith
        · rw [← h] at h2; linarith
    refine ⟨hc, ?_⟩
    have hne := crosses_ne hc
    have ht : t = -a 1 / (b 1 - a 1) := by rw [eq_div_iff hne]; linarith
    rw [← h3, ← xcross_eq hc, ht]; ring
  · rintro ⟨hc, rfl⟩
    have hne := crosses_ne hc
    refine ⟨-a 1 / (b 1 - a 1), ?_, ?_, ?_, ?_⟩
    · rcases hc with ⟨h1, h2⟩ | ⟨h1, h2⟩
      · exact div_nonneg (by linarith) (by linarith)
      · exact div_nonneg_of_nonpos (by linarith) (by linarith)
    · rcases hc with ⟨h1, h2⟩ | ⟨h1, h2⟩
      · rw [div_le_one (by linarith)]; linarith
      · rw [div_le_one_of_neg (by linarith)]; linarith
    · simp only [Pi.sub_apply, Pi.add_apply, Pi.smul_apply, smul_eq_mul]
      rw [div_mul_cancel₀ _ hne]; ring
    · simp only [Pi.sub_apply, Pi.add_apply, Pi.smul_apply, smul_eq_mul]
      rw [← xcross_eq hc]; ring

/-- What every edge contributes, for `float` and `double` and polygons of moderate size. -/
theorem edge_spec (hP : P = binary32 ∨ P = binary64) {p : Vec (Flt P.fmt) 3} {V : Fin (m + 1) → Vec (Flt P.fmt) 3} (axis : ℕ)
    (hp : ∀ j, (p j).isFinite) (hV : ∀ i j, (V i j).isFinite) {R : ℚ} (hR : P.u * R ≤ 1 / 34000)
    (hb : ∀ i j, |(V i j).val - (p j).val| ≤ R) (hh : ∀ i, 1001 / 1000000 ≤ |relPos p (V i) axis 1|) (i : Fin (m + 1)) :
    let W := fun i => swizzle (V i) axis - swizzle p axis
    let X := fun i => relPos p (V i) axis
    (¬ Crosses (X i) (X (i + 1)) → handlePolygonEdgeIntersection P.almostZero (W i) (W (i + 1)) = 0) ∧
    (Crosses (X i) (X (i + 1)) →
      (handlePolygonEdgeIntersection P.almostZero (W i) (W (i + 1)) = -1 ∧ |xcross (X i) (X (i + 1))| ≤ 2 / 1000) ∨
      (handlePolygonEdgeIntersection P.almostZero (W i) (W (i + 1)) = 1 ∧ 0 < xcross (X i) (X (i + 1))) ∨
      (handlePolygonEdgeIntersection P.almostZero (W i) (W (i + 1)) = 0 ∧ xcross (X i) (X (i + 1)) < 0)) := by
  intro W X
  have haz : P.almostZero.isFinite ∧ 999999 / 1000000000 ≤ P.almostZero.val ∧ P.almostZero.val ≤ 1000001 / 1000000000 := by
    rcases hP with rfl | rfl
    · rw [almostZero32.2]; exact ⟨almostZero32.1, by norm_num, by norm_num⟩
    · rw [almostZero64.2]; exact ⟨almostZero64.1, by norm_num, by norm_num⟩
  have hu : P.u ≤ 1 / 1024 / 1024 / 16 ∧ P.eta ≤ P.u / 1024 / 1024 / 16 ∧ 32 * max R 1 ^ 2 < P.bound := by
    rcases hP with rfl | rfl
    · have hR' : max R 1 ≤ 500 := by
        norm_num [BinPar.u, binary32] at hR
        exact max_le (by linarith) (by norm_num)
      refine ⟨by norm_num [BinPar.u, binary32], by norm_num [BinPar.u, BinPar.eta, binary32], ?_⟩
      refine lt_of_le_of_lt (?_ : _ ≤ |(8000000 : ℚ)|) (lt_bound32 (by norm_num [abs_of_pos]))
      rw [abs_of_pos (by norm_num)]
      have : max R 1 ^ 2 ≤ 500 ^ 2 := pow_le_pow_left₀ (by positivity) hR' 2
      linarith
    · have hR' : max R 1 ≤ 10 ^ 12 := by
        norm_num [BinPar.u, binary64] at hR
        exact max_le (by linarith) (by norm_num)
      refine ⟨by norm_num [BinPar.u, binary64], ?_, ?_⟩
      · have t : binary64.eta ≤ (2 : ℚ) ^ (-77 : ℤ) := zpow_le_zpow_right₀ (by norm_num) (by norm_num [binary64])
        refine t.trans (le_of_eq (by norm_num [BinPar.u, binary64]))
      refine lt_of_le_of_lt (?_ : _ ≤ |(32 * (10 ^ 12) ^ 2 : ℚ)|) (lt_bound64 (by norm_num [abs_of_pos]))
      rw [abs_of_pos (by norm_num)]
      have : max R 1 ^ 2 ≤ (10 ^ 12) ^ 2 := pow_le_pow_left₀ (by positivity) hR' 2
      linarith
  obtain ⟨hu1, hu2, hu3⟩ := hu
  obtain ⟨az1, az2, az3⟩ := haz
  have hu0 := P.u_pos
  have hX : ∀ i j, |X i j| ≤ max R 1 := by
    intro i j
    refine le_trans ?_ (le_max_left _ _)
    show |swizzle (vval (V i)) axis j - swizzle (vval p) axis j| ≤ R
    unfold swizzle
    split
    · fin_cases j <;> exact hb _ _
    · fin_cases j <;> exact hb _ _
    · exact hb _ _
  have hM1 : 1 ≤ max R 1 := le_max_right _ _
  have hM2 : max R 1 ≤ max R 1 ^ 2 := by rw [pow_two]; exact le_mul_of_one_le_left (by linarith) hM1
  have hd : ∀ i j, IsDiff (W i j) (X i j) := fun i j => isDiff_of hp (hV i) axis j (by have := hX i j; show 2 * |X i j| + 1 < _; linarith)
  have huR : P.u * max R 1 ≤ 1 / 34000 := by
    rcases max_choice R 1 with h | h
    · rw [h]; exact hR
    · rw [h]; linarith
  have e0 := mul_le_mul_of_nonneg_left (hX i 0) hu0.le
  have e1 := mul_le_mul_of_nonneg_left (hX (i + 1) 0) hu0.le
  have e2 := mul_le_mul_of_nonneg_left az3 hu0.le
  have hmarg : 11 * P.u * (|X i 0| + |X (i + 1) 0| + P.almostZero.val) ≤ 999 / 1000000 := by linarith
  have heta : P.eta ≤ P.u * P.almostZero.val ^ 2 := by
    have t : (999999 / 1000000000 : ℚ) ^ 2 ≤ P.almostZero.val ^ 2 := pow_le_pow_left₀ (by norm_num) az2 2
    have t2 := mul_le_mul_of_nonneg_left t hu0.le
    linarith
  have hht : ∀ i, (1 + 2 * P.u) * P.almostZero.val ≤ |X i 1| := by
    intro i
    refine le_trans ?_ (hh i)
    have : (1 + 2 * P.u) * P.almostZero.val ≤ (1 + 2 * (1 / 1024 / 1024 / 16)) * (1000001 / 1000000000) :=
      mul_le_mul (by linarith) az3 (by linarith) (by norm_num)
    refine this.trans (by norm_num)
  have := handleF_spec (by linarith) az1 (by linarith) (by linarith) heta (hd i 0) (hd (i + 1) 0) (hd i 1) (hd (i + 1) 1) hM1 hu3 (hX i 0)
    (hX (i + 1) 0) (hX i 1) (hX (i + 1) 1) (hht i) (hht (i + 1)) (by linarith)
  refine ⟨this.1, fun hc => ?_⟩
  rcases this.2 hc with ⟨h1, h2⟩ | h | h
  · exact Or.inl ⟨h1, by linarith⟩
  · exact Or.inr (Or.inl h)
  · exact Or.inr (Or.inr h)

/-- C121: a point within the tolerance of a vertex in every coordinate is contained, in every IEEE format, whatever the other vertices are. -/
theorem C121_vertex {az : Flt P.fmt} (haz : az.isFinite) (axis : ℕ) (V : Fin (m + 1) → Vec (Flt P.fmt) 3) {p : Vec (Flt P.fmt) 3}
    (hp : ∀ j, (p j).isFinite) (i : Fin (m + 1)) (hi : ∀ j, (V i j).isFinite) (h : ∀ j, |(V i j).val - (p j).val| ≤ az.val) :
    polygonContainsPoint az p axis (List.ofFn V) = some true := by
  rw [contains_ofFn, Option.some.injEq, decide_eq_true_eq]
  refine Or.inl ⟨i, ?_⟩
  unfold handlePolygonEdgeIntersection
  rw [if_pos]
  unfold visZero
  rw [List.all_eq_true]
  intro j _
  have h0 : 0 ≤ az.val := (abs_nonneg _).trans (h 0)
  have hraz := (Flt.eq_fin haz).1
  have hj : |relPos p (V i) axis j| ≤ az.val := by
    show |swizzle (vval (V i)) axis j - swizzle (vval p) axis j| ≤ az.val
    unfold swizzle
    split
    · fin_cases j <;> exact h _
    · fin_cases j <;> exact h _
    · exact h _
  have hfl : |P.fl (relPos p (V i) axis j)| ≤ az.val := by
    rw [abs_le] at hj ⊢
    exact ⟨P.le_fl_of_rep hraz.1.neg hj.1, P.fl_le_of_rep hraz.1 hj.2⟩
  have e : (swizzle (V i) axis j).val - (swizzle p axis j).val = relPos p (V i) axis j := by
    rw [swizzle_val, swizzle_val]; rfl
  have hs := is_sub (x := swizzle (V i) axis j) (y := swizzle p axis j) ⟨swizzle_fin hi axis j, rfl⟩ ⟨swizzle_fin hp axis j, rfl⟩ rfl
    (by rw [e]; exact lt_of_le_of_lt hfl (lt_of_le_of_lt (le_abs_self _) hraz.2))
  rw [e] at hs
  show isZero ((swizzle (V i) axis - swizzle p axis) j) az = true
  show isZero (swizzle (V i) axis j - swizzle p axis j) az = true
  rw [isZero_flt hs.1 haz h0, hs.2]
  exact decide_eq_true hfl

example : binary32.almostZero.isFinite ∧ (∀ j, (((fun _ => 1 : Vec (Flt binary32.fmt) 3)) j).isFinite) ∧
    (∀ j : Fin 3, |((fun _ => 1 : Vec (Flt binary32.fmt) 3) j).val - ((fun _ => 1 : Vec (Flt binary32.fmt) 3) j).val| ≤ binary32.almostZero.val) := by
  refine ⟨almostZero32.1, fun _ => trivial, fun _ => ?_⟩
  rw [sub_self, abs_zero, almostZero32.2]; norm_num

/-- C121: `float` and `double`, any polygon.  Suppose that all coordinates are within `R` of the point, where `R` is at most `1 / (34000 u)` (about
490 for `float` and 2.6e11 for `double`), that no vertex is at the height of the point (up to 0.001001), and that no edge passes the point within
0.002 to its left or right.  Then the point is contained exactly if the number of edges that pass to its right is odd, in exact arithmetic. -/
theorem C121_even_odd (hP : P = binary32 ∨ P = binary64) {p : Vec (Flt P.fmt) 3} {V : Fin (m + 1) → Vec (Flt P.fmt) 3} (axis : ℕ)
    (hp : ∀ j, (p j).isFinite) (hV : ∀ i j, (V i j).isFinite) {R : ℚ} (hR : P.u * R ≤ 1 / 34000)
    (hb : ∀ i j, |(V i j).val - (p j).val| ≤ R) (hh : ∀ i, 1001 / 1000000 ≤ |relPos p (V i) axis 1|)
    (hclear : ∀ i x, CrossesAt p (V i) (V (i + 1)) axis x → 2 / 1000 < |x|) :
    ∃ crossed : Finset (Fin (m + 1)), (∀ i, i ∈ crossed ↔ ∃ x, CrossesAt p (V i) (V (i + 1)) axis x ∧ 0 < x) ∧
      polygonContainsPoint P.almostZero p axis (List.ofFn V) = some (decide (Odd crossed.card)) := by
  classical
  have hne : ∀ i, relPos p (V i) axis 1 ≠ 0 := by
    intro i h
    have := hh i
    rw [h, abs_zero] at this; norm_num at this
  have hsp := edge_spec hP axis hp hV hR hb hh
  refine ⟨Finset.univ.filter fun i => ∃ x, CrossesAt p (V i) (V (i + 1)) axis x ∧ 0 < x, by simp, ?_⟩
  rw [contains_ofFn, Option.some.injEq]
  have hval : ∀ i, handlePolygonEdgeIntersection P.almostZero (swizzle (V i) axis - swizzle p axis) (swizzle (V (i + 1)) axis - swizzle p axis) =
      if (∃ x, CrossesAt p (V i) (V (i + 1)) axis x ∧ 0 < x) then 1 else 0 := by
    intro i
    obtain ⟨h1, h2⟩ := hsp i
    by_cases hc : Crosses (relPos p (V i) axis) (relPos p (V (i + 1)) axis)
    · rcases h2 hc with ⟨-, h4⟩ | ⟨h3, h4⟩ | ⟨h3, h4⟩
      · exact absurd (hclear i _ ((crossesAt_iff (hne _) (hne _) _).2 ⟨hc, rfl⟩)) (not_lt.2 h4)
      · rw [if_pos ⟨_, (crossesAt_iff (hne _) (hne _) _).2 ⟨hc, rfl⟩, h4⟩]; exact h3
      · rw [if_neg]
        · exact h3
        · rintro ⟨x, hx, hx0⟩
          have := ((crossesAt_iff (hne _) (hne _) _).1 hx).2
          linarith
    · rw [if_neg]
      · exact h1 hc
      · rintro ⟨x, hx, -⟩
        exact hc ((crossesAt_iff (hne _) (hne _) _).1 hx).1
  simp only [hval]
  rw [Finset.sum_boole]
  rw [decide_eq_decide]
  constructor
  · rintro (⟨i, hi⟩ | h)
    · split_ifs at hi
    · rw [Nat.odd_iff]; omega
  · intro h
    rw [Nat.odd_iff] at h
    exact Or.inr (by omega)

/-- C121: `float` and `double`, a polygon whose projection is convex (`s` is 1 or -1 for the two orientations), of moderate size, no vertex at
the height of the point.  A point strictly inside is contained, however close to an edge it is.  A point that is not strictly inside is not
contained, if no edge passes it within 0.002 to its left or right. -/
theorem C121_convex (hP : P = binary32 ∨ P = binary64) {p : Vec (Flt P.fmt) 3} {V : Fin (m + 1) → Vec (Flt P.fmt) 3} (axis : ℕ)
    (hp : ∀ j, (p j).isFinite) (hV : ∀ i j, (V i j).isFinite) {R : ℚ} (hR : P.u * R ≤ 1 / 34000)
    (hb : ∀ i j, |(V i j).val - (p j).val| ≤ R) (hh : ∀ i, 1001 / 1000000 ≤ |relPos p (V i) axis 1|) {s : ℚ} (hs : s ≠ 0)
    (hconv : ∀ i j k, i < j → j < k →
      0 ≤ s * ((relPos p (V j) axis 0 - relPos p (V i) axis 0) * (relPos p (V k) axis 1 - relPos p (V i) axis 1) -
        (relPos p (V j) axis 1 - relPos p (V i) axis 1) * (relPos p (V k) axis 0 - relPos p (V i) axis 0)))
    (hdist : ∀ i, ¬ (relPos p (V i) axis 0 = relPos p (V (i + 1)) axis 0 ∧ relPos p (V i) axis 1 = relPos p (V (i + 1)) axis 1)) :
    ((∀ i, 0 < s * (relPos p (V i) axis 0 * relPos p (V (i + 1)) axis 1 - relPos p (V i) axis 1 * relPos p (V (i + 1)) axis 0)) →
      polygonContainsPoint P.almostZero p axis (List.ofFn V) = some true) ∧
    (¬ (∀ i, 0 < s * (relPos p (V i) axis 0 * relPos p (V (i + 1)) axis 1 - relPos p (V i) axis 1 * relPos p (V (i + 1)) axis 0)) →
      (∀ i x, CrossesAt p (V i) (V (i + 1)) axis x → 2 / 1000 < |x|) →
      polygonContainsPoint P.almostZero p axis (List.ofFn V) = some false) := by
  have hpos : ∀ i, 0 < |relPos p (V i) axis 1| := fun i => lt_of_lt_of_le (by norm_num) (hh i)
  have hne : ∀ i, relPos p (V i) axis 1 ≠ 0 := fun i => abs_pos.1 (hpos i)
  have hsp := edge_spec hP axis hp hV hR hb hh
  have hcn := crossing_number_either (0 : ℚ) le_rfl (fun i => relPos p (V i) axis) s hs (fun i j k hij hjk => hconv i j k hij hjk) hdist hpos
  have hsp0 := fun i => handle_spec (0 : ℚ) le_rfl (relPos p (V i) axis) (relPos p (V (i + 1)) axis) (hpos i) (hpos (i + 1))
  -- an edge contributes what it does in exact arithmetic with tolerance 0, or it makes the result true
  have hsame : ∀ i, handlePolygonEdgeIntersection P.almostZero (swizzle (V i) axis - swizzle p axis) (swizzle (V (i + 1)) axis - swizzle p axis) ≠ -1 →
      handlePolygonEdgeIntersection P.almostZero (swizzle (V i) axis - swizzle p axis) (swizzle (V (i + 1)) axis - swizzle p axis) =
      handlePolygonEdgeIntersection (0 : ℚ) (relPos p (V i) axis) (relPos p (V (i + 1)) axis) := by
    intro i hi
    obtain ⟨h1, h2⟩ := hsp i
    obtain ⟨g1, g2⟩ := hsp0 i
    by_cases hc : Crosses (relPos p (V i) axis) (relPos p (V (i + 1)) axis)
    · rcases h2 hc with ⟨h3, -⟩ | ⟨h3, h4⟩ | ⟨h3, h4⟩
      · exact absurd h3 hi
      · rcases g2 hc with ⟨-, g4⟩ | ⟨g3, g4⟩ | ⟨g3, g4⟩
        · have := abs_nonpos_iff.1 g4; linarith
        · exact h3.trans g3.symm
        · linarith
      · rcases g2 hc with ⟨-, g4⟩ | ⟨g3, g4⟩ | ⟨g3, g4⟩
        · have := abs_nonpos_iff.1 g4; linarith
        · linarith
        · exact h3.trans g3.symm
    · exact (h1 hc).trans (g1 hc).symm
  rw [contains_ofFn]
  constructor
  · intro hin
    rw [Option.some.injEq, decide_eq_true_eq]
    by_cases hex : ∃ i, handlePolygonEdgeIntersection P.almostZero (swizzle (V i) axis - swizzle p axis) (swizzle (V (i + 1)) axis - swizzle p axis) = -1
    · exact Or.inl hex
    · have hall := fun i => hsame i (fun h => hex ⟨i, h⟩)
      rcases hcn.1 hin with ⟨i, hi⟩ | h
      · exact Or.inl ⟨i, (hall i).trans hi⟩
      · right
        rw [Finset.sum_congr rfl fun i _ => hall i]
        exact h
  · intro hout hclear
    rw [Option.some.injEq, decide_eq_false_iff_not, not_or]
    have hno : ∀ i, handlePolygonEdgeIntersection P.almostZero (swizzle (V i) axis - swizzle p axis) (swizzle (V (i + 1)) axis - swizzle p axis) ≠ -1 := by
      intro i hi
      obtain ⟨h1, h2⟩ := hsp i
      by_cases hc : Crosses (relPos p (V i) axis) (relPos p (V (i + 1)) axis)
      · have hcl := hclear i _ ((crossesAt_iff (hne _) (hne _) _).2 ⟨hc, rfl⟩)
        rcases h2 hc with ⟨-, h4⟩ | ⟨h3, -⟩ | ⟨h3, -⟩
        · exact absurd hcl (not_lt.2 h4)
        · rw [h3] at hi; norm_num at hi
        · rw [h3] at hi; norm_num at hi
      · rw [h1 hc] at hi; norm_num at hi
    have hall := fun i => hsame i (hno i)
    have := hcn.2 (fun i hc => by
      have hcl := hclear i _ ((crossesAt_iff (hne _) (hne _) _).2 ⟨hc, rfl⟩)
      linarith) hout
    refine ⟨fun ⟨i, hi⟩ => hno i hi, ?_⟩
    rw [not_not, Finset.sum_congr rfl fun i _ => hall i]
    exact this.2

/-- A number of the format with a known value. -/
theorem nat32 (n : ℕ) [n.AtLeastTwo] (h : n ≤ 2 ^ 24) : (OfNat.ofNat n : Flt binary32.fmt).isFinite ∧ (OfNat.ofNat n : Flt binary32.fmt).val = n := by
  have := Flt.int_finite (P := binary32) (n := n) (by rw [abs_of_nonneg (by positivity)]; exact_mod_cast h)
  exact_mod_cast this

/-- A square around the origin. -/
def squareF : Fin 4 → Vec (Flt binary32.fmt) 3 := ![![2, 2, 0], ![-2, 2, 0], ![-2, -2, 0], ![2, -2, 0]]
/-- Its exact coordinates. -/
def squareQ : Fin 4 → Vec ℚ 3 := ![![2, 2, 0], ![-2, 2, 0], ![-2, -2, 0], ![2, -2, 0]]

theorem squareF_val (i : Fin 4) (j : Fin 3) : (squareF i j).isFinite ∧ (squareF i j).val = squareQ i j := by
  have h2 := nat32 2 (by norm_num)
  have hm : (-2 : Flt binary32.fmt).isFinite ∧ (-2 : Flt binary32.fmt).val = -2 := ⟨Flt.neg_finite.2 h2.1, by rw [Flt.neg_val, h2.2]; norm_num⟩
  have h2' : (2 : Flt binary32.fmt).isFinite ∧ (2 : Flt binary32.fmt).val = 2 := h2
  have h0 : (0 : Flt binary32.fmt).isFinite ∧ (0 : Flt binary32.fmt).val = 0 := ⟨trivial, rfl⟩
  fin_cases i <;> fin_cases j <;> first | exact h2' | exact hm | exact h0

theorem squareF_rel (i : Fin 4) (j : Fin 3) : relPos 0 (squareF i) 2 j = squareQ i j := by
  show (squareF i j).val - (0 : Flt binary32.fmt).val = _
  rw [(squareF_val i j).2, Flt.zero_val, sub_zero]

/-- The hypotheses of C121_even_odd and C121_convex hold for a square in `float`. -/
example : (∀ j, ((0 : Vec (Flt binary32.fmt) 3) j).isFinite) ∧ (∀ i j, (squareF i j).isFinite) ∧ binary32.u * 2 ≤ 1 / 34000 ∧
    (∀ i j, |(squareF i j).val - ((0 : Vec (Flt binary32.fmt) 3) j).val| ≤ 2) ∧ (∀ i, 1001 / 1000000 ≤ |relPos 0 (squareF i) 2 1|) ∧
    (∀ i x, CrossesAt 0 (squareF i) (squareF (i + 1)) 2 x → 2 / 1000 < |x|) ∧
    (∀ i j k, i < j → j < k →
      0 ≤ (1 : ℚ) * ((relPos 0 (squareF j) 2 0 - relPos 0 (squareF i) 2 0) * (relPos 0 (squareF k) 2 1 - relPos 0 (squareF i) 2 1) -
        (relPos 0 (squareF j) 2 1 - relPos 0 (squareF i) 2 1) * (relPos 0 (squareF k) 2 0 - relPos 0 (squareF i) 2 0))) ∧
    (∀ i, ¬ (relPos 0 (squareF i) 2 0 = relPos 0 (squareF (i + 1)) 2 0 ∧ relPos 0 (squareF i) 2 1 = relPos 0 (squareF (i + 1)) 2 1)) ∧
    (∀ i, 0 < (1 : ℚ) * (relPos 0 (squareF i) 2 0 * relPos 0 (squareF (i + 1)) 2 1 - relPos 0 (squareF i) 2 1 * relPos 0 (squareF (i + 1)) 2 0)) := by
  have hq : ∀ i j, |squareQ i j| ≤ 2 := by decide +kernel
  refine ⟨fun _ => trivial, fun i j => (squareF_val i j).1, by norm_num [BinPar.u, binary32], fun i j => ?_, fun i => ?_, fun i x hx => ?_, ?_, ?_, ?_⟩
  · rw [(squareF_val i j).2, show ((0 : Vec (Flt binary32.fmt) 3) j).val = 0 from rfl, sub_zero]; exact hq i j
  · rw [squareF_rel]; revert i; decide +kernel
  · have hn : ∀ i, squareQ i 1 ≠ 0 := by decide +kernel
    obtain ⟨hc, rfl⟩ := (crossesAt_iff (by rw [squareF_rel]; exact hn _) (by rw [squareF_rel]; exact hn _) x).1 hx
    unfold xcross cr
    simp only [squareF_rel]
    unfold Crosses at hc
    simp only [squareF_rel] at hc
    have : ∀ i, ((squareQ i 1 < 0 ∧ 0 < squareQ (i + 1) 1) ∨ (squareQ (i + 1) 1 < 0 ∧ 0 < squareQ i 1)) →
      2 / 1000 < |(squareQ i 0 * squareQ (i + 1) 1 - squareQ i 1 * squareQ (i + 1) 0) / (squareQ (i + 1) 1 - squareQ i 1)| := by decide +kernel
    exact this i hc
  · simp only [squareF_rel]; decide +kernel
  · simp only [squareF_rel]; decide +kernel
  · simp only [squareF_rel]; decide +kernel

theorem zero_lt_flt {x : Flt P.fmt} (h : x.isFinite) : Cmp.lt 0 x = decide (0 < x.val) := by rw [Flt.lt_val Flt.zero_finite h]; rfl
theorem lt_zero_flt {x : Flt P.fmt} (h : x.isFinite) : Cmp.lt x 0 = decide (x.val < 0) := by rw [Flt.lt_val h Flt.zero_finite]; rfl

/-- An edge on one side of the point does not count. -/
theorem handle_same_side {az : Flt P.fmt} (haz : az.isFinite) (h0 : 0 ≤ az.val) {v0 v1 : Vec (Flt P.fmt) 3} (hv0 : ∀ j, (v0 j).isFinite)
    (hv1 : ∀ j, (v1 j).isFinite) (hb : az.val < |(v0 1).val|) (h : ((v0 1).val < 0 ∧ (v1 1).val < 0) ∨
      (¬ (0 < (v0 0).val ∧ 0 < (v1 0).val) ∧ (v0 0).val < 0 ∧ (v1 0).val < 0)) :
    handlePolygonEdgeIntersection az v0 v1 = 0 := by
  have z0 : isZero (v0 1) az = false := by
    rw [isZero_flt (hv0 1) haz h0]; exact decide_eq_false (not_le.2 hb)
  have zv : visZero v0 az = false := by
    unfold visZero
    rw [Bool.eq_false_iff]
    intro h
    have := (List.all_eq_true.1 h) 1 (List.mem_finRange _)
    rw [z0] at this; exact absurd this Bool.false_ne_true
  unfold handlePolygonEdgeIntersection
  rw [zv, z0]
  rw [zero_lt_flt (hv0 1), zero_lt_flt (hv1 1), lt_zero_flt (hv0 1), lt_zero_flt (hv1 1), zero_lt_flt (hv0 0), zero_lt_flt (hv1 0),
    lt_zero_flt (hv0 0), lt_zero_flt (hv1 0)]
  simp only [Bool.false_eq_true, if_false, Bool.false_and, Bool.false_or, Bool.or_eq_true, Bool.and_eq_true, decide_eq_true_eq]
  rcases h with h | ⟨h1, h2⟩
  · rw [if_pos (Or.inr h)]
  · rw [if_neg h1, if_pos h2, ite_self]

/-- A triangle with integral coordinates. -/
def triangleF : Fin 3 → Vec (Flt binary32.fmt) 3 := ![![957043, -57, 0], ![-369385, 22, 0], ![-1000000, -1, 0]]
/-- Its exact coordinates. -/
def triangleQ : Fin 3 → Vec ℚ 3 := ![![957043, -57, 0], ![-369385, 22, 0], ![-1000000, -1, 0]]

theorem triangleF_val (i : Fin 3) (j : Fin 3) : (triangleF i j).isFinite ∧ (triangleF i j).val = triangleQ i j := by
  have hn : ∀ {x : Flt binary32.fmt} {a : ℚ}, x.isFinite ∧ x.val = a → (-x).isFinite ∧ (-x).val = -a :=
    fun h => ⟨Flt.neg_finite.2 h.1, by rw [Flt.neg_val, h.2]⟩
  have h1 : (1 : Flt binary32.fmt).isFinite ∧ (1 : Flt binary32.fmt).val = 1 := ⟨trivial, rfl⟩
  have h0 : (0 : Flt binary32.fmt).isFinite ∧ (0 : Flt binary32.fmt).val = 0 := ⟨trivial, rfl⟩
  fin_cases i <;> fin_cases j
  · exact nat32 957043 (by norm_num)
  · exact hn (nat32 57 (by norm_num))
  · exact h0
  · exact hn (nat32 369385 (by norm_num))
  · exact nat32 22 (by norm_num)
  · exact h0
  · exact hn (nat32 1000000 (by norm_num))
  · exact hn h1
  · exact h0

/-- C121: the size of the polygon matters.  In `float`, the origin is strictly inside this triangle, whose coordinates are whole numbers, and
the edge passes it at a distance of more than 0.012 to its right; but the function returns false. -/
theorem C121_large_fails :
    (∀ i, 0 < triangleQ i 0 * triangleQ (i + 1) 1 - triangleQ i 1 * triangleQ (i + 1) 0) ∧
    (∀ i j, (triangleF i j).isFinite ∧ (triangleF i j).val = triangleQ i j) ∧
    (∀ i x, CrossesAt 0 (triangleF i) (triangleF (i + 1)) 2 x → 12 / 1000 < |x|) ∧
    polygonContainsPoint binary32.almostZero 0 2 (List.ofFn triangleF) = some false := by
  have hrel : ∀ i j, relPos 0 (triangleF i) 2 j = triangleQ i j := by
    intro i j
    show (triangleF i j).val - (0 : Flt binary32.fmt).val = _
    rw [(triangleF_val i j).2, Flt.zero_val, sub_zero]
  refine ⟨by decide +kernel, triangleF_val, fun i x hx => ?_, ?_⟩
  · have hn : ∀ i, triangleQ i 1 ≠ 0 := by decide +kernel
    obtain ⟨hc, rfl⟩ := (crossesAt_iff (by rw [hrel]; exact hn _) (by rw [hrel]; exact hn _) x).1 hx
    unfold xcross cr
    simp only [hrel]
    unfold Crosses at hc
    simp only [hrel] at hc
    have : ∀ i, ((triangleQ i 1 < 0 ∧ 0 < triangleQ (i + 1) 1) ∨ (triangleQ (i + 1) 1 < 0 ∧ 0 < triangleQ i 1)) →
      12 / 1000 < |(triangleQ i 0 * triangleQ (i + 1) 1 - triangleQ i 1 * triangleQ (i + 1) 0) / (triangleQ (i + 1) 1 - triangleQ i 1)| := by decide +kernel
    exact this i hc
  have hint : ∀ {a : ℚ} (n : ℤ), a = n → |n| ≤ 2 ^ 24 → binary32.fl a = a ∧ |a| < binary32.bound := by
    rintro a n rfl h
    have := binary32.rep_of_int h
    exact ⟨binary32.fl_rep this.1, this.2⟩
  have hW : ∀ i j, ((swizzle (triangleF i) 2 - swizzle (0 : Vec (Flt binary32.fmt) 3) 2) j).isFinite ∧
      ((swizzle (triangleF i) 2 - swizzle (0 : Vec (Flt binary32.fmt) 3) 2) j).val = triangleQ i j := by
    intro i j
    have hz : ∃ n : ℤ, triangleQ i j = n ∧ |n| ≤ 2 ^ 24 := by
      fin_cases i <;> fin_cases j
      · exact ⟨957043, by norm_num [triangleQ], by norm_num⟩
      · exact ⟨-57, by norm_num [triangleQ], by norm_num⟩
      · exact ⟨0, by norm_num [triangleQ], by norm_num⟩
      · exact ⟨-369385, by norm_num [triangleQ], by norm_num⟩
      · exact ⟨22, by norm_num [triangleQ], by norm_num⟩
      · exact ⟨0, by norm_num [triangleQ], by norm_num⟩
      · exact ⟨-1000000, by norm_num [triangleQ], by norm_num⟩
      · exact ⟨-1, by norm_num [triangleQ], by norm_num⟩
      · exact ⟨0, by norm_num [triangleQ], by norm_num⟩
    obtain ⟨n, h1, h2⟩ := hz
    obtain ⟨h3, h4⟩ := hint n h1 h2
    exact is_sub (x := triangleF i j) (y := 0) (triangleF_val i j) ⟨trivial, rfl⟩ (by rw [Flt.zero_val, sub_zero]; exact h3) h4
  rw [contains_ofFn]
  suffices hall : ∀ W : Fin 3 → Vec (Flt binary32.fmt) 3, (∀ i j, (W i j).isFinite ∧ (W i j).val = triangleQ i j) →
      ∀ i, handlePolygonEdgeIntersection binary32.almostZero (W i) (W (i + 1)) = 0 by
    have hall' := hall _ hW
    rw [Option.some.injEq, decide_eq_false_iff_not, not_or]
    refine ⟨fun ⟨i, hi⟩ => ?_, ?_⟩
    · rw [hall'] at hi; norm_num at hi
    · rw [Finset.sum_congr rfl fun i _ => hall' i]; simp
  intro W hW'
  have az0 : (0 : ℚ) ≤ binary32.almostZero.val := by rw [almostZero32.2]; norm_num
  have azu : binary32.almostZero.val < 2 / 1000 := by rw [almostZero32.2]; norm_num
  have e1 : handlePolygonEdgeIntersection binary32.almostZero (W 1) (W (1 + 1)) = 0 :=
    handle_same_side almostZero32.1 az0 (fun j => (hW' 1 j).1) (fun j => (hW' (1 + 1) j).1)
      (by rw [(hW' 1 1).2]; refine azu.trans ?_; decide +kernel)
      (Or.inr (by rw [(hW' 1 0).2, (hW' (1 + 1) 0).2]; decide +kernel))
  have e2 : handlePolygonEdgeIntersection binary32.almostZero (W 2) (W (2 + 1)) = 0 :=
    handle_same_side almostZero32.1 az0 (fun j => (hW' 2 j).1) (fun j => (hW' (2 + 1) j).1)
      (by rw [(hW' 2 1).2]; refine azu.trans ?_; decide +kernel)
      (Or.inl (by rw [(hW' 2 1).2, (hW' (2 + 1) 1).2]; decide +kernel))
  have a00 : (W 0 0).isFinite ∧ (W 0 0).val = 957043 := hW' 0 0
  have a01 : (W 0 1).isFinite ∧ (W 0 1).val = -57 := hW' 0 1
  have a10 : (W (0 + 1) 0).isFinite ∧ (W (0 + 1) 0).val = -369385 := hW' 1 0
  have a11 : (W (0 + 1) 1).isFinite ∧ (W (0 + 1) 1).val = 22 := hW' 1 1
  have fD := is_sub (c := -1326428) a10 a00 (by
    have := (hint (a := -1326428) (-1326428) (by norm_num) (by norm_num)).1
    norm_num; exact this) (lt_bound32 (by norm_num [abs_of_neg]))
  have fE := is_sub (c := 79) a11 a01 (by
    have := (hint (a := 79) 79 (by norm_num) (by norm_num)).1
    norm_num; exact this) (lt_bound32 (by norm_num [abs_of_pos]))
  have fN := is_mul (c := -75606400) ⟨Flt.neg_finite.2 a01.1, (Flt.neg_val _).trans (congrArg _ a01.2)⟩ fD (by
    rw [show (- -57 * -1326428 : ℚ) = -75606396 by norm_num]
    rw [fl_eval_even 3 (-9450800) (by norm_num [binary32]) (by norm_num [binary32]) (by norm_num [binary32]) (by norm_num [abs_le]) (by decide)]
    norm_num) (lt_bound32 (by norm_num [abs_of_neg]))
  have fQ := is_div (c := -15312689 / 16) fN fE (by norm_num) (by
    rw [fl_eval (-4) (-15312689) (by norm_num [binary32]) (by norm_num [binary32]) (by norm_num [binary32]) (by norm_num [abs_lt])]
    norm_num) (lt_bound32 (by norm_num))
  have fX := is_add (c := -1 / 16) fQ a00 (by
    rw [show (-15312689 / 16 + 957043 : ℚ) = -1 / 16 by norm_num]
    rw [fl_eval (-27) (-8388608) (by norm_num [binary32]) (by norm_num [binary32]) (by norm_num [binary32]) (by norm_num [abs_lt])]
    norm_num) (lt_bound32 (by norm_num))
  have e0 : handlePolygonEdgeIntersection binary32.almostZero (W 0) (W (0 + 1)) = 0 := by
    have z0 : isZero (W 0 1) binary32.almostZero = false := by
      rw [isZero_flt a01.1 almostZero32.1 az0, a01.2]
      exact decide_eq_false (not_le.2 (azu.trans (by norm_num)))
    have zv : visZero (W 0) binary32.almostZero = false := by
      unfold visZero
      rw [Bool.eq_false_iff]
      intro h
      have := (List.all_eq_true.1 h) 1 (List.mem_finRange _)
      rw [z0] at this; exact absurd this Bool.false_ne_true
    unfold handlePolygonEdgeIntersection
    rw [zv, z0]
    rw [zero_lt_flt a01.1, zero_lt_flt a11.1, lt_zero_flt a01.1, lt_zero_flt a11.1, zero_lt_flt a00.1, zero_lt_flt a10.1,
      lt_zero_flt a00.1, lt_zero_flt a10.1, a00.2, a01.2, a10.2, a11.2]
    have t : ¬ |(-1 / 16 : ℚ)| ≤ binary32.almostZero.val := not_le.2 (azu.trans (by norm_num))
    have z : isZero (-W 0 1 * (W (0 + 1) 0 - W 0 0) / (W (0 + 1) 1 - W 0 1) + W 0 0) binary32.almostZero = false := by
      rw [isZero_flt fX.1 almostZero32.1 az0, fX.2]; exact decide_eq_false t
    have l : Cmp.lt 0 (-W 0 1 * (W (0 + 1) 0 - W 0 0) / (W (0 + 1) 1 - W 0 1) + W 0 0) = false := by
      rw [zero_lt_flt fX.1, fX.2]; exact decide_eq_false (by norm_num)
    simp only [z, l]
    norm_num
  intro i
  fin_cases i
  · exact e0
  · exact e1
  · exact e2

end vm
