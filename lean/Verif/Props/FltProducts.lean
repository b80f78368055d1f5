import Verif.Props.Vec
import Verif.Props.FltLength

/-! C102: algebra of the dot and cross product and of distances in IEEE arithmetic. -/

set_option linter.unusedSectionVars false
set_option linter.unusedSimpArgs false

namespace vm

theorem Flt.neg_mul' {F : Fmt} (a b : Flt F) : -a * b = -(a * b) := by
  have hinf : ∀ q : ℚ, (Flt.infTimes (-q) : Flt F) = -Flt.infTimes q := by
    intro q
    unfold Flt.infTimes
    rcases lt_trichotomy q 0 with h | h | h
    · rw [if_neg (by linarith), if_pos (by linarith), if_neg h.ne, if_neg (by linarith)]; rfl
    · subst h; simp only [neg_zero, if_true]; rfl
    · rw [if_neg (by linarith), if_neg (by linarith), if_neg h.ne', if_pos h]; rfl
  have hneg : ∀ x : Flt F, - -x = x := Flt.neg_neg'
  rcases a with _ | _ | _ | ⟨q, hq⟩ <;> rcases b with _ | _ | _ | ⟨r, hr⟩ <;> try rfl
  · show Flt.infTimes r = -Flt.infTimes (-r)
    rw [hinf, hneg]
  · show Flt.infTimes (-r) = -Flt.infTimes r
    exact hinf r
  · show Flt.infTimes (- -q) = -Flt.infTimes (-q)
    rw [hinf (-q)]
  · show Flt.infTimes (-q) = -Flt.infTimes q
    exact hinf q
  · show Flt.round (-q * r) = -Flt.round (q * r)
    rw [neg_mul, Flt.round_neg]

theorem flt_dot_comm {F : Fmt} {S : ℕ} (a b : Vec (Flt F) S) : dot a b = dot b a := (C19_floating_point a b 0 0).1

/-- Changing the sign of an argument changes exactly the sign of the dot product. -/
theorem C102_dot_neg (F : Fmt) : ∀ {S : ℕ} (a b : Vec (Flt F) S), dot (-a) b = -dot a b ∧ dot a (-b) = -dot a b := by
  have key : ∀ {S : ℕ} (a b : Vec (Flt F) S), dot (-a) b = -dot a b := by
    intro S
    induction S with
    | zero =>
      intro a b
      show (0 : Flt F) = -0
      exact Flt.key_inj (by show some (Ext.ofRat 0) = some (Ext.ofRat (-0)); rw [neg_zero])
    | succ S ih =>
      intro a b
      rw [dot_succ', dot_succ', Flt.neg_add', ← Flt.neg_mul', ← ih]
      rfl
  intro S a b
  exact ⟨key a b, by rw [flt_dot_comm, key, flt_dot_comm]⟩

/-- Changing the sign of an argument changes exactly the sign of the cross product. -/
theorem C102_cross_neg (F : Fmt) (a b : Vec (Flt F) 3) : cross (-a) b = -cross a b ∧ cross a (-b) = -cross a b := by
  have h : ∀ x y z w : Flt F, -x * y - -z * w = -(x * y - z * w) := by
    intro x y z w
    rw [Flt.neg_mul', Flt.neg_mul']
    show -(x * y) + - -(z * w) = -(x * y + -(z * w))
    rw [Flt.neg_add']
  have key : ∀ a b : Vec (Flt F) 3, cross (-a) b = -cross a b := by
    intro a b
    funext i
    fin_cases i
    · exact h (a 1) (b 2) (a 2) (b 1)
    · exact h (a 2) (b 0) (a 0) (b 2)
    · exact h (a 0) (b 1) (a 1) (b 0)
  refine ⟨key a b, ?_⟩
  rw [(C19_floating_point a a a (-b)).2, key, ← (C19_floating_point a a a b).2]

/-- Distances do not depend on the order of the points: the result is the same float, or NaN in both cases. -/
theorem C102_distance_comm (F : Fmt) {S : ℕ} (s : Flt F → Flt F) (a b : Vec (Flt F) S) :
    squaredDistance a b = squaredDistance b a ∧ distanceG s a b = distanceG s b a := by
  have h : a - b = -(b - a) := by
    funext i
    exact (Flt.neg_sub' _ _).symm
  have key : squaredLength (a - b) = squaredLength (b - a) := by
    rw [h]
    unfold squaredLength
    rw [(C102_dot_neg F _ _).1, (C102_dot_neg F _ _).2, Flt.neg_neg']
  exact ⟨key, congrArg s key⟩

/-- `is_parallel` is symmetric for all floats. -/
theorem C102_parallel_comm (F : Fmt) {S : ℕ} (s : Flt F → Flt F) (a b : Vec (Flt F) S) (e : Flt F) :
    isParallelG s a b e = isParallelG s b a e := by
  unfold isParallelG
  rw [flt_dot_comm]

/-- A vector of floats including NaN and infinity, to which the theorems above apply. -/
example : ∃ a b : Vec (Flt binary32.fmt) 3, a 0 = Flt.nan ∧ a 1 = Flt.pinf ∧ dot a b = Flt.nan ∧ dot b a = Flt.nan :=
  ⟨![Flt.nan, Flt.pinf, 0], ![1, 1, 1], rfl, rfl, rfl, rfl⟩

variable {P : BinPar}

/-- One component of a cross product. -/
theorem minor_err {x y z w : Flt P.fmt} (h : (x * y - z * w).isFinite) :
    |(x * y - z * w).val - (x.val * y.val - z.val * w.val)| ≤
      ((1 + P.u) ^ 2 - 1) * (|x.val * y.val| + |z.val * w.val|) + 2 * (1 + P.u) * P.eta := by
  obtain ⟨h1, h2⟩ := Flt.sub_finite h
  have hu := P.u_pos
  have he := P.eta_pos
  have e1 := BinPar.fl_err_u (P := P) (x.val * y.val)
  have e2 := BinPar.fl_err_u (P := P) (z.val * w.val)
  have e3 := BinPar.fl_sub_err_u (P := P) (P.rep_fl (x.val * y.val)) (P.rep_fl (z.val * w.val))
  rw [Flt.sub_val h, Flt.mul_val h1, Flt.mul_val h2]
  generalize x.val * y.val = p at *
  generalize z.val * w.val = q at *
  have b1 : |P.fl p| ≤ |p| + (P.u * |p| + P.eta) := by
    have := abs_sub_abs_le_abs_sub (P.fl p) p; linarith
  have b2 : |P.fl q| ≤ |q| + (P.u * |q| + P.eta) := by
    have := abs_sub_abs_le_abs_sub (P.fl q) q; linarith
  have b3 : |P.fl p - P.fl q| ≤ |P.fl p| + |P.fl q| := abs_sub _ _
  have b4 : P.u * |P.fl p - P.fl q| ≤ P.u * ((|p| + (P.u * |p| + P.eta)) + (|q| + (P.u * |q| + P.eta))) :=
    mul_le_mul_of_nonneg_left (by linarith) hu.le
  calc |P.fl (P.fl p - P.fl q) - (p - q)|
      = |(P.fl (P.fl p - P.fl q) - (P.fl p - P.fl q)) + ((P.fl p - p) - (P.fl q - q))| := by congr 1; ring
    _ ≤ |P.fl (P.fl p - P.fl q) - (P.fl p - P.fl q)| + |(P.fl p - p) - (P.fl q - q)| := abs_add_le _ _
    _ ≤ |P.fl (P.fl p - P.fl q) - (P.fl p - P.fl q)| + (|P.fl p - p| + |P.fl q - q|) := by
        have := abs_sub (P.fl p - p) (P.fl q - q); linarith
    _ ≤ _ := by nlinarith

/-- The exact cross product of the values. -/
def exactCross (a b : Vec (Flt P.fmt) 3) : Fin 3 → ℚ :=
  ![(a 1).val * (b 2).val - (a 2).val * (b 1).val, (a 2).val * (b 0).val - (a 0).val * (b 2).val,
    (a 0).val * (b 1).val - (a 1).val * (b 0).val]

/-- The sums of the absolute values of the products. -/
def absCross (a b : Vec (Flt P.fmt) 3) : Fin 3 → ℚ :=
  ![|(a 1).val * (b 2).val| + |(a 2).val * (b 1).val|, |(a 2).val * (b 0).val| + |(a 0).val * (b 2).val|,
    |(a 0).val * (b 1).val| + |(a 1).val * (b 0).val|]

/-- Error of the cross product: about two units of rounding relative to the products (not to the result, which may cancel). -/
theorem C102_cross_error (P : BinPar) (a b : Vec (Flt P.fmt) 3) (i : Fin 3) (h : (cross a b i).isFinite) :
    |(cross a b i).val - exactCross a b i| ≤ ((1 + P.u) ^ 2 - 1) * absCross a b i + 2 * (1 + P.u) * P.eta := by
  fin_cases i
  · exact minor_err h
  · exact minor_err h
  · exact minor_err h

/-- The cross product of a finite vector with itself is exactly zero unless a product overflows. -/
theorem C102_cross_self (P : BinPar) (a : Vec (Flt P.fmt) 3) (h : ∀ i j, (a i * a j).isFinite) : ∀ i, cross a a i = 0 := by
  have key : ∀ i j, a i * a j - a j * a i = 0 := by
    intro i j
    rw [Flt.mul_comm' (a j), Flt.sub_eq (h i j) (h i j), sub_self]
    exact BinPar.round_rep P.fmt.rep_zero
  intro i
  fin_cases i
  · exact key 1 2
  · exact key 2 0
  · exact key 0 1

/-- The computed cross product is almost perpendicular to its arguments. -/
theorem C102_cross_perpendicular (P : BinPar) (a b : Vec (Flt P.fmt) 3) (h : ∀ i, (cross a b i).isFinite) :
    |exactDot a (cross a b)| ≤ ∑ i, |(a i).val| * (((1 + P.u) ^ 2 - 1) * absCross a b i + 2 * (1 + P.u) * P.eta) := by
  have h0 : ∑ i, (a i).val * exactCross a b i = 0 := by
    rw [Fin.sum_univ_three]
    simp only [exactCross, Matrix.cons_val_zero, Matrix.cons_val_one, Matrix.cons_val_two, Matrix.head_cons, Matrix.tail_cons]
    show (a 0).val * _ + (a 1).val * _ + (a 2).val * ((a 0).val * (b 1).val - (a 1).val * (b 0).val) = 0
    ring
  have h1 : exactDot a (cross a b) = ∑ i, (a i).val * ((cross a b i).val - exactCross a b i) := by
    unfold exactDot
    simp only [mul_sub, Finset.sum_sub_distrib, h0, sub_zero]
  rw [h1]
  refine (Finset.abs_sum_le_sum_abs _ _).trans (Finset.sum_le_sum fun i _ => ?_)
  rw [abs_mul]
  exact mul_le_mul_of_nonneg_left (C102_cross_error P a b i (h i)) (abs_nonneg _)

/-- The components of the cross product of (1, -2, 2) and (2, 1, -2), and all products of components, are finite. -/
example : let a : Vec (Flt binary32.fmt) 3 := sample binary32
    (∀ i, (cross a ![a 2, a 0, a 1] i).isFinite) ∧ ∀ i j, (a i * a j).isFinite := by
  intro a
  obtain ⟨hf, h0, h1, h2⟩ := sample_ok binary32
  have hv : ∀ i, ∃ n : ℤ, (a i).val = n ∧ |n| ≤ 2 := by
    intro i
    fin_cases i
    · exact ⟨1, by simpa using h0, by norm_num⟩
    · exact ⟨-2, by simpa using h1, by norm_num⟩
    · exact ⟨2, by simpa using h2, by norm_num⟩
  have hmul : ∀ i j, ∃ n : ℤ, (a i * a j).isFinite ∧ (a i * a j).val = n ∧ |n| ≤ 4 := by
    intro i j
    obtain ⟨m, hm, hm'⟩ := hv i
    obtain ⟨n, hn, hn'⟩ := hv j
    have hb : |m * n| ≤ 4 := by rw [abs_mul]; nlinarith [abs_nonneg m, abs_nonneg n]
    have := Flt.int_finite (P := binary32) (n := m * n) (hb.trans (by norm_num [binary32]))
    refine ⟨m * n, ?_, ?_, hb⟩
    · rw [Flt.mul_eq (hf i) (hf j)]
      rw [show (sample binary32 i).val * (sample binary32 j).val = ((m * n : ℤ) : ℚ) by push_cast; rw [← hm, ← hn]]
      exact this.1
    · rw [Flt.mul_eq (hf i) (hf j)]
      rw [show (sample binary32 i).val * (sample binary32 j).val = ((m * n : ℤ) : ℚ) by push_cast; rw [← hm, ← hn]]
      exact this.2
  have hsub : ∀ i j k l, (a i * a j - a k * a l).isFinite := by
    intro i j k l
    obtain ⟨m, hm, hm1, hm'⟩ := hmul i j
    obtain ⟨n, hn, hn1, hn'⟩ := hmul k l
    rw [Flt.sub_eq hm hn, hm1, hn1, ← Int.cast_sub]
    refine (Flt.int_finite (P := binary32) ((abs_sub m n).trans ?_)).1
    have : |m| + |n| ≤ 8 := by linarith
    exact this.trans (by norm_num [binary32])
  refine ⟨fun i => ?_, fun i j => (hmul i j).choose_spec.1⟩
  fin_cases i
  · exact hsub 1 1 2 0
  · exact hsub 2 2 0 1
  · exact hsub 0 0 1 2

theorem dot_zeros : ∀ {S : ℕ}, (dot (fun _ : Fin S => (0 : Flt P.fmt)) fun _ => 0) = 0
  | 0 => rfl
  | S + 1 => by
    rw [dot_succ', dot_zeros, Flt.mul_eq Flt.zero_finite Flt.zero_finite, Flt.zero_val, mul_zero, BinPar.round_rep P.fmt.rep_zero]
    show Flt.round (0 + 0) = _
    rw [add_zero]; exact BinPar.round_rep P.fmt.rep_zero

/-- The distance of a finite point from itself is exactly zero. -/
theorem C102_distance_self (P : BinPar) {S : ℕ} {s : Flt P.fmt → Flt P.fmt} (hs : FaithfulSqrt P s) (a : Vec (Flt P.fmt) S)
    (h : ∀ i, (a i).isFinite) : squaredDistance a a = 0 ∧ distanceG s a a = 0 := by
  have hz : a - a = fun _ => 0 := by
    funext i
    show a i - a i = 0
    rw [Flt.sub_eq (h i) (h i), sub_self]
    exact BinPar.round_rep P.fmt.rep_zero
  have h1 : squaredLength (a - a) = 0 := by
    rw [hz]
    exact dot_zeros
  refine ⟨h1, ?_⟩
  unfold distanceG lengthG
  rw [h1]
  obtain ⟨r, hr, h2, h3⟩ := hs.fin 0 P.fmt.rep_zero le_rfl
  have hr0 : r = 0 := by
    by_contra hc
    have := (h3.2 0 P.fmt.rep_zero le_rfl).1 (lt_of_le_of_ne h3.1 (Ne.symm hc))
    norm_num at this
  subst hr0
  exact h2

/-- Different points may have distance zero: the square of a small difference underflows. -/
theorem C102_distance_zero_fails : ∃ a b : Vec (Flt binary64.fmt) 3, (∀ i, (a i).isFinite ∧ (b i).isFinite) ∧ (a 0).val ≠ (b 0).val ∧
    squaredDistance a b = 0 ∧ ∀ s, CorrectSqrt binary64 s → distanceG s a b = 0 := by
  have hr := rep64_pow (-600) (by norm_num) (by norm_num)
  have e2 : ((0 : Flt binary64.fmt) * 0) = 0 := by
    show Flt.round (0 * 0) = _
    rw [mul_zero]; exact BinPar.round_rep binary64.fmt.rep_zero
  have e3 : ((0 : Flt binary64.fmt) + 0) = 0 := by
    show Flt.round (0 + 0) = _
    rw [add_zero]; exact BinPar.round_rep binary64.fmt.rep_zero
  have e4 : ((0 : Flt binary64.fmt) - 0) = 0 := by
    rw [Flt.sub_eq Flt.zero_finite Flt.zero_finite, Flt.zero_val, sub_zero]; exact BinPar.round_rep binary64.fmt.rep_zero
  have e1 : (Flt.fin (F := binary64.fmt) _ hr * Flt.fin (F := binary64.fmt) _ hr : Flt binary64.fmt) = 0 := by
    rw [mul_fin]
    refine Flt.round_to binary64.fmt.rep_zero (fl_tiny ?_)
    rw [← BinPar.zpow_add2, abs_of_pos (BinPar.two_zpow_pos _)]
    exact zpow_lt_zpow_right₀ (by norm_num) (by norm_num [binary64])
  have e5 : (Flt.fin (F := binary64.fmt) _ hr - 0 : Flt binary64.fmt) = Flt.fin (F := binary64.fmt) _ hr := by
    refine (Flt.sub_eq (by trivial) Flt.zero_finite).trans ?_
    rw [Flt.zero_val, sub_zero]; exact BinPar.round_rep hr
  have hsq : squaredDistance (![Flt.fin (F := binary64.fmt) _ hr, 0, 0] : Vec (Flt binary64.fmt) 3) ![0, 0, 0] = 0 := by
    show ((0 + (Flt.fin (F := binary64.fmt) _ hr - 0) * (Flt.fin (F := binary64.fmt) _ hr - 0)) + (0 - 0) * (0 - 0)) + (0 - 0) * (0 - 0) = 0
    rw [e5, e4, e1, e2, e3, e3, e3]
  refine ⟨![Flt.fin (F := binary64.fmt) _ hr, 0, 0], ![0, 0, 0], ?_, ?_, hsq, ?_⟩
  · intro i; fin_cases i <;> exact ⟨trivial, trivial⟩
  · exact (BinPar.two_zpow_pos (-600)).ne'
  · intro s hs
    show s (squaredDistance _ _) = 0
    rw [hsq]
    obtain ⟨r, hr', h2, h3⟩ := hs.fin 0 binary64.fmt.rep_zero le_rfl
    have hr0 : r = 0 := by
      have := h3 0 binary64.fmt.rep_zero
      simp only [Rat.cast_zero, Real.sqrt_zero, sub_zero, abs_zero] at this
      have := abs_nonpos_iff.1 this
      exact_mod_cast this
    subst hr0
    exact h2

end vm
