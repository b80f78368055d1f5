import Verif.Lemmas.FltLength

/-! C101: length, normalisation, unit and parallel tests in IEEE arithmetic. -/

set_option linter.unusedSectionVars false
set_option linter.unusedSimpArgs false

namespace vm

variable {P : BinPar} {S : ℕ}

/-- What IEEE 754 requires of `std::sqrt`: the result is a number of the format nearest to the exact root. -/
structure CorrectSqrt (P : BinPar) (s : Flt P.fmt → Flt P.fmt) : Prop where
  fin : ∀ x (hx : P.fmt.rep x), 0 ≤ x → ∃ (r : ℚ) (hr : P.fmt.rep r), s (Flt.fin x hx) = Flt.fin r hr ∧
    ∀ y, P.fmt.rep y → |(r : ℝ) - Real.sqrt x| ≤ |(y : ℝ) - Real.sqrt x|
  pinf : s Flt.pinf = Flt.pinf
  nan : s Flt.nan = Flt.nan

theorem nearest_nonneg {x r : ℚ} (h : ∀ y, P.fmt.rep y → |(r : ℝ) - Real.sqrt x| ≤ |(y : ℝ) - Real.sqrt x|) : 0 ≤ r := by
  have h1 := h 0 P.fmt.rep_zero
  have h2 := Real.sqrt_nonneg (x : ℝ)
  rw [Rat.cast_zero, zero_sub, abs_neg, abs_of_nonneg h2, abs_le] at h1
  have : (0 : ℝ) ≤ r := by linarith [h1.1]
  exact_mod_cast this

theorem nearest_faithful {x r : ℚ} (h0 : 0 ≤ x)
    (h : ∀ y, P.fmt.rep y → |(r : ℝ) - Real.sqrt x| ≤ |(y : ℝ) - Real.sqrt x|) : P.Faithful x r := by
  refine ⟨nearest_nonneg h, fun y hy hy0 => ?_⟩
  have h0' : (0 : ℝ) ≤ x := by exact_mod_cast h0
  have hy0' : (0 : ℝ) ≤ y := by exact_mod_cast hy0
  have h1 := h y hy
  have hL := Real.sqrt_nonneg (x : ℝ)
  have hLL := Real.mul_self_sqrt h0'
  constructor
  · intro hlt
    have hlt' : (y : ℝ) < r := by exact_mod_cast hlt
    have h2 : (y : ℝ) < Real.sqrt x := by
      by_contra hc
      rw [not_lt] at hc
      rw [abs_of_nonneg (by linarith), abs_of_nonneg (by linarith)] at h1
      linarith
    have : (y : ℝ) * y < x := by nlinarith
    exact_mod_cast this
  · intro hlt
    have hlt' : (r : ℝ) < y := by exact_mod_cast hlt
    have h2 : Real.sqrt x < y := by
      by_contra hc
      rw [not_lt] at hc
      rw [abs_of_nonpos (by linarith), abs_of_nonpos (by linarith)] at h1
      linarith
    have : (x : ℝ) < y * y := by nlinarith
    exact_mod_cast this

/-- A weaker requirement that `std::sqrt` and `sqrt_c` both meet: no number of the format lies between the result and the exact
root. -/
structure FaithfulSqrt (P : BinPar) (s : Flt P.fmt → Flt P.fmt) : Prop where
  fin : ∀ x (hx : P.fmt.rep x), 0 ≤ x → ∃ (r : ℚ) (hr : P.fmt.rep r), s (Flt.fin x hx) = Flt.fin r hr ∧ P.Faithful x r
  pinf : s Flt.pinf = Flt.pinf
  nan : s Flt.nan = Flt.nan

theorem CorrectSqrt.faithful {s : Flt P.fmt → Flt P.fmt} (hs : CorrectSqrt P s) : FaithfulSqrt P s where
  fin x hx h0 := by
    obtain ⟨r, hr, h3, h4⟩ := hs.fin x hx h0
    exact ⟨r, hr, h3, nearest_faithful h0 h4⟩
  pinf := hs.pinf
  nan := hs.nan

/-- A correctly rounded square root exists for every binary format. -/
theorem exists_nearest (P : BinPar) (x : ℚ) : ∃ r : ℚ, P.fmt.rep r ∧
    ∀ y, P.fmt.rep y → |(r : ℝ) - Real.sqrt x| ≤ |(y : ℝ) - Real.sqrt x| := by
  have hz := BinPar.two_zpow_pos P.qmin
  have hfin : {y : ℚ | P.fmt.rep y}.Finite := by
    obtain ⟨N, hN⟩ := exists_nat_gt (P.bound / 2 ^ P.qmin)
    refine ((Set.finite_Icc (-(N : ℤ)) N).image fun m : ℤ => (m : ℚ) * 2 ^ P.qmin).subset ?_
    rintro y ⟨h1, h2⟩
    obtain ⟨m, hm⟩ := h1.multiple_qmin
    refine ⟨m, ?_, hm.symm⟩
    rw [hm, abs_mul, abs_of_pos hz] at h2
    have h3 : |(m : ℚ)| < N := lt_of_lt_of_le (by rw [lt_div_iff₀ hz]; exact h2) hN.le
    have h4 : |m| < (N : ℤ) := by exact_mod_cast h3
    have := abs_lt.1 h4
    exact ⟨by omega, by omega⟩
  obtain ⟨r, hr, h⟩ := Set.exists_min_image _ (fun y : ℚ => |(y : ℝ) - Real.sqrt x|) hfin ⟨0, P.fmt.rep_zero⟩
  exact ⟨r, hr, h⟩

open Classical in
/-- Non-vacuity: there is a function that meets the specification of `std::sqrt`. -/
theorem exists_correctSqrt (P : BinPar) : ∃ s : Flt P.fmt → Flt P.fmt, CorrectSqrt P s := by
  refine ⟨fun a => match a with
    | Flt.fin x hx => if 0 ≤ x then Flt.fin (exists_nearest P x).choose (exists_nearest P x).choose_spec.1 else Flt.nan
    | Flt.pinf => Flt.pinf
    | _ => Flt.nan, ?_, rfl, rfl⟩
  intro x hx h0
  exact ⟨_, (exists_nearest P x).choose_spec.1, if_pos h0, (exists_nearest P x).choose_spec.2⟩

/-- The length as a real number. -/
noncomputable def realLen (v : Vec (Flt P.fmt) S) : ℝ := Real.sqrt (∑ i, ((v i).val : ℝ) ^ 2)

theorem realLen_eq (v : Vec (Flt P.fmt) S) : realLen v = Real.sqrt ((∑ i, (v i).val ^ 2 : ℚ) : ℝ) := by
  unfold realLen; push_cast; rfl

/-- The squares do not underflow altogether: half of the least positive number is small compared to the sum of the squares. -/
def NoUnderflow (v : Vec (Flt P.fmt) S) : Prop := S * P.eta ≤ P.u * ∑ i, (v i).val ^ 2

theorem faithful_err (hε : P.lenErr S ≤ 1 / 50) (v : Vec (Flt P.fmt) S) (h : (squaredLength v).isFinite) (hX : NoUnderflow v)
    {r : ℚ} (hr : P.Faithful (squaredLength v).val r) : |(r : ℝ) - realLen v| ≤ P.lenErr S * realLen v := by
  have h0 : (0 : ℚ) ≤ ∑ i, (v i).val ^ 2 := Finset.sum_nonneg fun _ _ => sq_nonneg _
  obtain ⟨h1, h2⟩ := hr.sq (Flt.rep_val _) (flt_dot_self_nonneg v h)
  obtain ⟨h3, h4⟩ := flt_length_sq hε h0 (squaredLength_err v h hX) h1 h2
  rw [realLen_eq]
  exact real_len h0 hr.1 (P.lenErr_pos S).le (by linarith) h3 h4

theorem length_faithful {s : Flt P.fmt → Flt P.fmt} (hs : FaithfulSqrt P s) (v : Vec (Flt P.fmt) S) (h : (squaredLength v).isFinite) :
    ∃ (r : ℚ) (hr : P.fmt.rep r), lengthG s v = Flt.fin r hr ∧ P.Faithful (squaredLength v).val r := by
  obtain ⟨h1, h2⟩ := Flt.eq_fin h
  obtain ⟨r, hr, h3, h4⟩ := hs.fin _ h1 (flt_dot_self_nonneg v h)
  refine ⟨r, hr, ?_, h4⟩
  unfold lengthG
  rw [h2, h3]

/-- The computed length of a vector of any dimension is a finite number and close to the exact length: the relative error is
at most five units of rounding for three components. -/
theorem C101_length_error (P : BinPar) {S : ℕ} (hε : P.lenErr S ≤ 1 / 50) {s : Flt P.fmt → Flt P.fmt} (hs : FaithfulSqrt P s)
    (v : Vec (Flt P.fmt) S) (h : (squaredLength v).isFinite) (hX : NoUnderflow v) :
    (lengthG s v).isFinite ∧ |((lengthG s v).val : ℝ) - realLen v| ≤ P.lenErr S * realLen v := by
  obtain ⟨r, hr, h1, h2⟩ := length_faithful hs v h
  rw [h1]
  exact ⟨trivial, faithful_err hε v h hX h2⟩

/-- The same for `length_c`, whose Newton iteration terminates. -/
theorem C101_length_c_error (P : BinPar) {S : ℕ} (hε : P.lenErr S ≤ 1 / 50)
    (v : Vec (Flt P.fmt) S) (h : (squaredLength v).isFinite) (hX : NoUnderflow v) :
    ∃ (r : Flt P.fmt) (fuel : ℕ), (∀ n, fuel ≤ n → lengthC P.half Flt.pinf Flt.nan n v = some r) ∧ r.isFinite ∧
      |(r.val : ℝ) - realLen v| ≤ P.lenErr S * realLen v := by
  obtain ⟨h1, h2⟩ := Flt.eq_fin h
  obtain ⟨r, hr, fuel, h3, h4, h5, _⟩ := C83_sqrt_c P _ h1 (flt_dot_self_nonneg v h)
  refine ⟨Flt.fin r hr, fuel, ?_, trivial, faithful_err hε v h hX ⟨h4, h5⟩⟩
  intro n hn
  unfold lengthC
  rw [h2]; exact h3 n hn

theorem realLen_pos (hS : 0 < S) {v : Vec (Flt P.fmt) S} (hX : NoUnderflow v) : 0 < realLen v := by
  rw [realLen_eq]
  apply Real.sqrt_pos.2
  have hu := P.u_pos
  have he := P.eta_pos
  have : (0 : ℚ) < S := by exact_mod_cast hS
  have h1 : 0 < P.u * ∑ i, (v i).val ^ 2 := lt_of_lt_of_le (by positivity) hX
  have := (mul_pos_iff_of_pos_left hu).1 h1
  exact_mod_cast this

theorem le_realLen (v : Vec (Flt P.fmt) S) (i : Fin S) : |((v i).val : ℝ)| ≤ realLen v := by
  unfold realLen
  rw [← Real.sqrt_sq_eq_abs]
  exact Real.sqrt_le_sqrt (Finset.single_le_sum (f := fun i => ((v i).val : ℝ) ^ 2) (fun _ _ => sq_nonneg _) (Finset.mem_univ i))

/-- Division by an approximate length. -/
theorem div_len (hS : 0 < S) (hε : P.lenErr S ≤ 1 / 50) (v : Vec (Flt P.fmt) S) (h : (squaredLength v).isFinite) (hX : NoUnderflow v)
    {r : ℚ} (hr : P.fmt.rep r) (hr' : |(r : ℝ) - realLen v| ≤ P.lenErr S * realLen v) (i : Fin S) :
    (v i / Flt.fin (F := P.fmt) r hr).isFinite ∧
      |((v i / Flt.fin (F := P.fmt) r hr).val : ℝ) - (v i).val / realLen v| ≤ P.normErr S * (|((v i).val : ℝ)| / realLen v) + P.eta := by
  have hL := realLen_pos hS hX
  have hle := le_realLen v i
  have hεr : (P.lenErr S : ℝ) ≤ 1 / 50 := by have := (Rat.cast_le (K := ℝ)).2 hε; push_cast at this; exact this
  have hr0 : (0 : ℝ) < r := by have := (abs_le.1 hr').1; nlinarith
  have hrq : (0 : ℚ) < r := by exact_mod_cast hr0
  obtain ⟨h1, h2⟩ := Flt.eq_fin ((dot_finite_terms v v h i).1)
  have hdiv : v i / Flt.fin (F := P.fmt) r hr = Flt.round ((v i).val / r) := by
    conv_lhs => rw [h2]
    exact div_fin h1 hr hrq.ne'
  have hq : |(v i).val / r| ≤ 2 := by
    rw [abs_div, abs_of_pos hrq, div_le_iff₀ hrq]
    have : |((v i).val : ℝ)| ≤ 2 * r := by have := (abs_le.1 hr').1; nlinarith
    exact_mod_cast this
  have hf : (Flt.round ((v i).val / r) : Flt P.fmt).isFinite := by
    have h2r : P.fmt.rep (2 : ℚ) := by
      have := Flt.rep_val (2 : Flt P.fmt)
      rwa [(Flt.two_eq P).2] at this
    have h2n : P.fmt.rep (-2 : ℚ) := ⟨h2r.1.neg, by rw [abs_neg]; exact h2r.2⟩
    exact (Flt.round_between h2n h2r (abs_le.1 hq).1 (abs_le.1 hq).2).1
  rw [hdiv]
  refine ⟨hf, ?_⟩
  rw [Flt.round_val hf]
  exact quot_err hε hL hr'

/-- Every component of the normalised vector is close to the component of the exact unit vector. -/
theorem C101_normalize_error (P : BinPar) {S : ℕ} (hS : 0 < S) (hε : P.lenErr S ≤ 1 / 50) {s : Flt P.fmt → Flt P.fmt}
    (hs : FaithfulSqrt P s) (v : Vec (Flt P.fmt) S) (h : (squaredLength v).isFinite) (hX : NoUnderflow v) (i : Fin S) :
    (normalizeG s v i).isFinite ∧
      |((normalizeG s v i).val : ℝ) - (v i).val / realLen v| ≤ P.normErr S * (|((v i).val : ℝ)| / realLen v) + P.eta := by
  obtain ⟨r, hr, h1, h2⟩ := length_faithful hs v h
  have : normalizeG s v i = v i / Flt.fin (F := P.fmt) r hr := by rw [← h1]; rfl
  rw [this]
  exact div_len hS hε v h hX hr (faithful_err hε v h hX h2) i

/-- The same for `normalize_c`. -/
theorem C101_normalize_c_error (P : BinPar) {S : ℕ} (hS : 0 < S) (hε : P.lenErr S ≤ 1 / 50)
    (v : Vec (Flt P.fmt) S) (h : (squaredLength v).isFinite) (hX : NoUnderflow v) :
    ∃ (w : Vec (Flt P.fmt) S) (fuel : ℕ), (∀ n, fuel ≤ n → normalizeC P.half Flt.pinf Flt.nan n v = some w) ∧
      ∀ i, (w i).isFinite ∧ |((w i).val : ℝ) - (v i).val / realLen v| ≤ P.normErr S * (|((v i).val : ℝ)| / realLen v) + P.eta := by
  obtain ⟨r, fuel, h1, h2, h3⟩ := C101_length_c_error P hε v h hX
  obtain ⟨hr, h4⟩ := Flt.eq_fin h2
  refine ⟨vdivs v r, fuel, fun n hn => ?_, fun i => ?_⟩
  · unfold normalizeC; rw [h1 n hn]; rfl
  · have : vdivs v r i = v i / Flt.fin (F := P.fmt) r.val hr := by rw [← h4]; rfl
    rw [this]
    exact div_len hS hε v h hX hr h3 i

theorem S_eta (hε : P.lenErr S ≤ 1 / 50) : S * P.eta ≤ P.u / 60 := by
  have h1 := P.eta_le
  have hu := P.u_pos
  have hS : (0 : ℚ) ≤ S := Nat.cast_nonneg S
  unfold BinPar.lenErr at hε
  have h2 : S * P.u ≤ 1 / 30 := by nlinarith
  calc (S : ℚ) * P.eta ≤ S * (P.u ^ 2 / 2) := mul_le_mul_of_nonneg_left h1 hS
    _ = S * P.u * P.u / 2 := by ring
    _ ≤ 1 / 30 * P.u / 2 := by nlinarith
    _ = _ := by ring

theorem unit_sum (hS : 0 < S) {v : Vec (Flt P.fmt) S} (hX : NoUnderflow v) :
    ∑ i, (((v i).val : ℝ) / realLen v) ^ 2 = 1 := by
  have hL := realLen_pos hS hX
  simp only [div_pow]
  rw [← Finset.sum_div, div_eq_one_iff_eq (by positivity)]
  unfold realLen
  rw [Real.sq_sqrt (Finset.sum_nonneg fun _ _ => sq_nonneg _)]

/-- A computed unit vector is close to the exact one. -/
theorem unit_close (hε : P.lenErr S ≤ 1 / 50) {f : Fin S → ℝ} (hf : ∑ i, f i ^ 2 = 1) {n : Vec (Flt P.fmt) S}
    (hn : ∀ i, |((n i).val : ℝ) - f i| ≤ P.normErr S * |f i| + P.eta) :
    ‖WithLp.toLp 2 (fun i => ((n i).val : ℝ)) - WithLp.toLp 2 f‖ ≤ P.normErr S + P.u / 60 := by
  have hδ : (0 : ℝ) ≤ P.normErr S := by
    have : (0 : ℚ) ≤ P.normErr S := by unfold BinPar.normErr; have := P.lenErr_pos S; have := P.u_pos; positivity
    exact_mod_cast this
  have he : (0 : ℝ) ≤ P.eta := by exact_mod_cast P.eta_pos.le
  refine (l2_close hf hδ he hn).trans ?_
  have h1 : (S * P.eta : ℝ) ≤ P.u / 60 := by
    have := (Rat.cast_le (K := ℝ)).2 (S_eta hε)
    push_cast at this; exact this
  linarith

theorem normErr_le (hε : P.lenErr S ≤ 1 / 50) : P.normErr S + P.u / 60 ≤ 1 / 25 := by
  have hu := P.u_pos
  have hS : (0 : ℚ) ≤ S := Nat.cast_nonneg S
  have h1 : 16 / 5 * P.u ≤ P.lenErr S := by unfold BinPar.lenErr; nlinarith
  unfold BinPar.normErr
  linarith

/-- The dot product of two computed vectors with components that are not too great. -/
theorem dot_small (hε : P.lenErr S ≤ 1 / 50) {a b : Vec (Flt P.fmt) S} (ha : ∀ i, (a i).isFinite) (hb : ∀ i, (b i).isFinite)
    (hA : absDot a b ≤ 11 / 10) : (dot a b).isFinite ∧ |(dot a b).val - exactDot a b| ≤ 2 * P.lenErr S := by
  have hu := P.u_pos
  have hS : (0 : ℚ) ≤ S := Nat.cast_nonneg S
  have hη := S_eta hε
  have hSu : S * P.u = 5 / 3 * P.lenErr S - 16 / 3 * P.u := by unfold BinPar.lenErr; ring
  have hSu0 : 0 ≤ S * P.u := by positivity
  have hp := pow_le_quad hu S (by linarith)
  have hp1 : 1 ≤ (1 + P.u) ^ S := one_le_pow₀ (by linarith)
  have hA0 := absDot_nonneg a b
  have hSe : 0 ≤ S * P.eta := mul_nonneg hS P.eta_pos.le
  have hd : dotErr P S (absDot a b) ≤ 2 * P.lenErr S := by
    unfold dotErr
    have h1 : ((1 + P.u) ^ S - 1) * absDot a b ≤ 26 / 25 * (S * P.u) * (11 / 10) :=
      mul_le_mul (by linarith) hA hA0 (by positivity)
    have h2 : S * (1 + P.u) ^ S * P.eta ≤ 2 * (P.u / 60) := by
      calc S * (1 + P.u) ^ S * P.eta = (1 + P.u) ^ S * (S * P.eta) := by ring
        _ ≤ 2 * (P.u / 60) := mul_le_mul (by linarith) hη hSe (by norm_num)
    linarith
  have hf : (dot a b).isFinite := by
    refine dot_finite a b ha hb ?_
    have hb4 : (8 : ℚ) ≤ P.bound := by
      have h1 := P.hmax
      have h2 := P.hp
      unfold BinPar.bound
      calc (8 : ℚ) = 2 ^ (3 : ℤ) := by norm_num
        _ ≤ _ := zpow_le_zpow_right₀ (by norm_num) (by omega)
    linarith
  exact ⟨hf, (dot_err a b hf).trans hd⟩

theorem absDot_le (a b : Vec (Flt P.fmt) S) : absDot a b ≤ (∑ i, (a i).val ^ 2 + ∑ i, (b i).val ^ 2) / 2 := by
  unfold absDot
  rw [← Finset.sum_add_distrib, Finset.sum_div]
  refine Finset.sum_le_sum fun i _ => ?_
  rw [abs_mul]
  nlinarith [sq_nonneg (|(a i).val| - |(b i).val|), sq_abs (a i).val, sq_abs (b i).val]

theorem sum_sq_le {n : Vec (Flt P.fmt) S} {f : Fin S → ℝ} (hf : ∑ i, f i ^ 2 = 1)
    (h : ‖WithLp.toLp 2 (fun i => ((n i).val : ℝ)) - WithLp.toLp 2 f‖ ≤ 1 / 25) :
    ∑ i, (n i).val ^ 2 ≤ 11 / 10 ∧ 9 / 10 ≤ ∑ i, (n i).val ^ 2 := by
  have h1 := abs_le.1 (l2_norm hf h)
  have h0 : (0 : ℝ) ≤ ∑ i, ((n i).val : ℝ) ^ 2 := Finset.sum_nonneg fun _ _ => sq_nonneg _
  have h2 := Real.sq_sqrt h0
  have h3 : ∑ i, ((n i).val : ℝ) ^ 2 ≤ 11 / 10 := by nlinarith
  have h4 : 9 / 10 ≤ ∑ i, ((n i).val : ℝ) ^ 2 := by nlinarith
  constructor
  · have : ((∑ i, (n i).val ^ 2 : ℚ) : ℝ) ≤ ((11 / 10 : ℚ) : ℝ) := by push_cast; exact h3
    exact_mod_cast this
  · have : ((9 / 10 : ℚ) : ℝ) ≤ ((∑ i, (n i).val ^ 2 : ℚ) : ℝ) := by push_cast; exact h4
    exact_mod_cast this

/-- A float that is close to 1 is equal to 1 within the tolerance. -/
theorem isEqual_one {a e : Flt P.fmt} (ha : a.isFinite) (he : e.isFinite) (h : |a.val - 1| ≤ e.val) : isEqual a 1 e = true := by
  unfold isEqual
  rw [Flt.sub_eq ha Flt.one_finite, Flt.abs_round, Flt.round_le he, decide_eq_true_eq]
  exact P.fl_le_of_rep (Flt.rep_val e).1 h

/-- `is_unit(normalize(v), epsilon)` holds for every tolerance of a few units of rounding: 14 units for three components. -/
theorem C101_normalize_is_unit (P : BinPar) {S : ℕ} (hS : 0 < S) (hε : P.lenErr S ≤ 1 / 50) {s : Flt P.fmt → Flt P.fmt}
    (hs : FaithfulSqrt P s) (v : Vec (Flt P.fmt) S) (h : (squaredLength v).isFinite) (hX : NoUnderflow v)
    (e : Flt P.fmt) (he : e.isFinite) (hee : 11 / 5 * P.lenErr S + 3 * P.u ≤ e.val) :
    isUnitG s (normalizeG s v) e = true := by
  have hL := realLen_pos hS hX
  have hn := C101_normalize_error P hS hε hs v h hX
  have hf := unit_sum hS hX
  have habs : ∀ i, |((v i).val : ℝ) / realLen v| = |((v i).val : ℝ)| / realLen v := fun i => by
    rw [abs_div, abs_of_pos hL]
  have hc := unit_close hε hf (n := normalizeG s v) (fun i => by rw [habs i]; exact (hn i).2)
  have hd := normErr_le hε
  have hdr : (P.normErr S : ℝ) + P.u / 60 ≤ 1 / 25 := by
    have := (Rat.cast_le (K := ℝ)).2 hd; push_cast at this; exact this
  obtain ⟨hN1, hN2⟩ := sum_sq_le hf (hc.trans hdr)
  have hfin : (squaredLength (normalizeG s v)).isFinite :=
    (dot_small hε (fun i => (hn i).1) (fun i => (hn i).1) (by rw [absDot_self]; exact hN1)).1
  have hNU : NoUnderflow (normalizeG s v) := by
    refine (S_eta hε).trans ?_
    have := P.u_pos
    nlinarith
  obtain ⟨h1, h2⟩ := C101_length_error P hε hs _ hfin hNU
  refine isEqual_one h1 he ?_
  have h3 := l2_norm hf hc
  have h3' : |realLen (normalizeG s v) - 1| ≤ P.normErr S + P.u / 60 := h3
  have hu := P.u_pos
  have hSn : (0 : ℚ) ≤ S := Nat.cast_nonneg S
  have hue : 16 / 5 * P.u ≤ P.lenErr S := by unfold BinPar.lenErr; nlinarith
  have key : |((lengthG s (normalizeG s v)).val : ℝ) - 1| ≤ ((11 / 5 * P.lenErr S + 3 * P.u : ℚ) : ℝ) := by
    have hδ : (P.normErr S : ℝ) = 21 / 20 * P.lenErr S + 2 * P.u := by unfold BinPar.normErr; push_cast; ring
    have e0 : (0 : ℝ) < P.lenErr S := by exact_mod_cast P.lenErr_pos S
    have u0 : (0 : ℝ) < P.u := by exact_mod_cast hu
    rw [hδ] at h3' hdr
    push_cast
    generalize (P.lenErr S : ℝ) = ε at *
    generalize (P.u : ℝ) = w at *
    rw [abs_le] at h2 h3' ⊢
    constructor <;> nlinarith
  have h5 : |(lengthG s (normalizeG s v)).val - 1| ≤ 11 / 5 * P.lenErr S + 3 * P.u := by
    have : ((|(lengthG s (normalizeG s v)).val - 1| : ℚ) : ℝ) ≤ ((11 / 5 * P.lenErr S + 3 * P.u : ℚ) : ℝ) := by
      rw [Rat.cast_abs, Rat.cast_sub, Rat.cast_one]; exact key
    exact_mod_cast this
  exact h5.trans hee

/-- Exactly parallel vectors are recognised by `is_parallel` for every tolerance of a few units of rounding: 30 units for
three components.  The factor may have either sign. -/
theorem C101_is_parallel (P : BinPar) {S : ℕ} (hS : 0 < S) (hε : P.lenErr S ≤ 1 / 50) {s : Flt P.fmt → Flt P.fmt}
    (hs : FaithfulSqrt P s) (v w : Vec (Flt P.fmt) S) (h : (squaredLength v).isFinite) (hX : NoUnderflow v)
    (h' : (squaredLength w).isFinite) (hX' : NoUnderflow w) (c : ℚ) (hc : c ≠ 0) (hw : ∀ i, (w i).val = c * (v i).val)
    (e : Flt P.fmt) (he : e.isFinite) (hee : 5 * P.lenErr S + 5 * P.u ≤ e.val) :
    isParallelG s v w e = true := by
  have hL := realLen_pos hS hX
  have hL' := realLen_pos hS hX'
  have hn := C101_normalize_error P hS hε hs v h hX
  have hm := C101_normalize_error P hS hε hs w h' hX'
  have hf := unit_sum hS hX
  have hf' := unit_sum hS hX'
  have hcr : (c : ℝ) ≠ 0 := by exact_mod_cast hc
  have hLw : realLen w = |(c : ℝ)| * realLen v := by
    unfold realLen
    have : ∑ i, ((w i).val : ℝ) ^ 2 = (c : ℝ) ^ 2 * ∑ i, ((v i).val : ℝ) ^ 2 := by
      rw [Finset.mul_sum]
      exact Finset.sum_congr rfl fun i _ => by rw [hw i]; push_cast; ring
    rw [this, Real.sqrt_mul (sq_nonneg _), Real.sqrt_sq_eq_abs]
  obtain ⟨σ, hσ⟩ : ∃ σ : ℝ, σ = c / |(c : ℝ)| := ⟨_, rfl⟩
  have hca : 0 < |(c : ℝ)| := abs_pos.2 hcr
  have hσ1 : |σ| = 1 := by rw [hσ, abs_div, abs_abs, div_self hca.ne']
  have hσw : (fun i => ((w i).val : ℝ) / realLen w) = fun i => σ * (((v i).val : ℝ) / realLen v) := by
    funext i
    rw [hw i, hLw, hσ]; push_cast; field_simp
  have habs : ∀ (x : Vec (Flt P.fmt) S), 0 < realLen x → ∀ i, |((x i).val : ℝ) / realLen x| = |((x i).val : ℝ)| / realLen x :=
    fun x hx i => by rw [abs_div, abs_of_pos hx]
  have hcv := unit_close hε hf (n := normalizeG s v) (fun i => by rw [habs v hL i]; exact (hn i).2)
  have hcw := unit_close hε hf' (n := normalizeG s w) (fun i => by rw [habs w hL' i]; exact (hm i).2)
  have hd := normErr_le hε
  have hdr : (P.normErr S : ℝ) + P.u / 60 ≤ 1 / 25 := by
    have := (Rat.cast_le (K := ℝ)).2 hd; push_cast at this; exact this
  obtain ⟨hN1, _⟩ := sum_sq_le hf (hcv.trans hdr)
  obtain ⟨hM1, _⟩ := sum_sq_le hf' (hcw.trans hdr)
  have hu := P.u_pos
  have e0 : (0 : ℝ) < P.lenErr S := by exact_mod_cast P.lenErr_pos S
  have u0 : (0 : ℝ) < P.u := by exact_mod_cast hu
  have hδ : (P.normErr S : ℝ) = 21 / 20 * P.lenErr S + 2 * P.u := by unfold BinPar.normErr; push_cast; ring
  have hA : absDot (normalizeG s v) (normalizeG s w) ≤ 11 / 10 := (absDot_le _ _).trans (by linarith)
  obtain ⟨hD1, hD2⟩ := dot_small hε (fun i => (hn i).1) (fun i => (hm i).1) hA
  rw [hσw] at hcw
  have hin := l2_inner hf hσ1 (by rw [hδ]; positivity) hcv hcw
  unfold isParallelG
  set D := dot (normalizeG s v) (normalizeG s w) with hDdef
  have hDa : (vm.abs D).isFinite ∧ (vm.abs D).val = |D.val| := by
    unfold vm.abs
    rw [Flt.lt_val hD1 Flt.zero_finite, Flt.zero_val]
    by_cases hneg : D.val < 0
    · rw [decide_eq_true hneg, if_pos rfl]
      exact ⟨Flt.neg_finite.2 hD1, by rw [Flt.neg_val, abs_of_neg hneg]⟩
    · rw [decide_eq_false hneg, if_neg Bool.false_ne_true]
      exact ⟨hD1, by rw [abs_of_nonneg (not_lt.1 hneg)]⟩
  refine isEqual_one hDa.1 he ?_
  rw [hDa.2]
  refine le_trans ?_ hee
  have hD2r : |(D.val : ℝ) - ∑ i, ((normalizeG s v i).val : ℝ) * ((normalizeG s w i).val : ℝ)| ≤ 2 * P.lenErr S := by
    have := (Rat.cast_le (K := ℝ)).2 hD2
    unfold exactDot at this
    push_cast at this
    exact this
  have hSn : (0 : ℚ) ≤ S := Nat.cast_nonneg S
  have hue : 16 / 5 * P.u ≤ P.lenErr S := by unfold BinPar.lenErr; nlinarith
  have key : |(|(D.val : ℝ)|) - 1| ≤ 5 * P.lenErr S + 5 * P.u := by
    have h1 : |(|(D.val : ℝ)|) - 1| ≤ |(D.val : ℝ) - σ| := by
      have := abs_abs_sub_abs_le_abs_sub (D.val : ℝ) σ
      rwa [hσ1] at this
    refine h1.trans ?_
    have h2 : |(D.val : ℝ) - σ| ≤ 2 * P.lenErr S + (2 * (P.normErr S + P.u / 60) + (P.normErr S + P.u / 60) ^ 2) := by
      refine le_trans ?_ (add_le_add hD2r hin)
      refine le_trans (le_of_eq ?_) (abs_add_le _ _)
      congr 1; ring
    refine h2.trans ?_
    have hp : (0 : ℝ) ≤ P.normErr S + P.u / 60 := by rw [hδ]; positivity
    have h3 : ((P.normErr S : ℝ) + P.u / 60) ^ 2 ≤ 1 / 25 * (P.normErr S + P.u / 60) := by nlinarith
    refine (add_le_add_right (add_le_add_right h3 _) _).trans ?_
    rw [hδ]
    linarith
  have : ((|(|D.val|) - 1| : ℚ) : ℝ) ≤ ((5 * P.lenErr S + 5 * P.u : ℚ) : ℝ) := by push_cast; exact key
  exact_mod_cast this

/-! ### The root of a rounded square -/

section root

variable {x : ℚ} {l : ℤ}

theorem gap_unit (hx : P.Rep x) (h1 : 2 ^ l < x) {y : ℚ} (hy : P.Rep y) (hne : y ≠ x) : (2 : ℚ) ^ (l + 1 - P.p) ≤ |y - x| := by
  have hU := BinPar.two_zpow_pos (l + 1 - P.p)
  have hl := BinPar.two_zpow_pos l
  have key : ∀ {a : ℚ}, P.Rep a → 2 ^ l ≤ a → ∃ m : ℤ, a = m * 2 ^ (l + 1 - P.p) := by
    intro a ha h
    refine ha.multiple (j := l + 1 - P.p) ?_
    rw [show l + 1 - (P.p : ℤ) + P.p - 1 = l by ring, abs_of_pos (hl.trans_le h)]; exact h
  have hsep : ∀ {m n : ℤ}, (m : ℚ) * 2 ^ (l + 1 - P.p) < n * 2 ^ (l + 1 - P.p) →
      (m : ℚ) * 2 ^ (l + 1 - P.p) + 2 ^ (l + 1 - P.p) ≤ n * 2 ^ (l + 1 - P.p) := by
    intro m n h
    have h2 : (m : ℚ) < n := lt_of_mul_lt_mul_right h hU.le
    have h3 : m + 1 ≤ n := by exact_mod_cast h2
    have h4 : (m : ℚ) + 1 ≤ n := by exact_mod_cast h3
    nlinarith
  obtain ⟨m, hm⟩ := key hx h1.le
  rcases le_or_gt (2 ^ l) y with h | h
  · obtain ⟨n, hn⟩ := key hy h
    rcases lt_or_gt_of_ne hne with h2 | h2
    · rw [abs_of_neg (by linarith)]
      rw [hm, hn] at h2 ⊢
      have := hsep h2; linarith
    · rw [abs_of_pos (by linarith)]
      rw [hm, hn] at h2 ⊢
      have := hsep h2; linarith
  · have hp := P.hp
    have e : (2 : ℚ) ^ l = ((2 ^ (P.p - 1) : ℤ) : ℚ) * 2 ^ (l + 1 - P.p) := by
      have := BinPar.zpow_eq_int_mul (a := l + 1 - P.p) (b := l) (by omega)
      rwa [show (l - (l + 1 - (P.p : ℤ))).toNat = P.p - 1 by omega] at this
    rw [abs_of_neg (by linarith)]
    rw [hm, e] at h1
    have h3 := hsep h1
    rw [← hm, ← e] at h3
    linarith

theorem le_top_unit (hx : P.Rep x) (h1 : 2 ^ l ≤ x) (h2 : x < 2 ^ (l + 1)) : x ≤ 2 ^ (l + 1) - 2 ^ (l + 1 - P.p) := by
  have hU := BinPar.two_zpow_pos (l + 1 - P.p)
  have hl := BinPar.two_zpow_pos l
  have hp := P.hp
  obtain ⟨m, hm⟩ := hx.multiple (j := l + 1 - P.p) (by
    rw [show l + 1 - (P.p : ℤ) + P.p - 1 = l by ring, abs_of_pos (hl.trans_le h1)]; exact h1)
  have e : (2 : ℚ) ^ (l + 1) = ((2 ^ P.p : ℤ) : ℚ) * 2 ^ (l + 1 - P.p) := by
    have := BinPar.zpow_eq_int_mul (a := l + 1 - P.p) (b := l + 1) (by omega)
    rwa [show (l + 1 - (l + 1 - (P.p : ℤ))).toNat = P.p by omega] at this
  rw [hm, e] at h2 ⊢
  have h3 : (m : ℚ) < (2 ^ P.p : ℤ) := lt_of_mul_lt_mul_right h2 hU.le
  have h4 : m + 1 ≤ 2 ^ P.p := by exact_mod_cast h3
  have h5 : (m : ℚ) + 1 ≤ (2 ^ P.p : ℤ) := by exact_mod_cast h4
  nlinarith

/-- The exact root of the rounded square of `x` is nearer to `x` than to any other number of the format. -/
theorem root_near (hx : P.fmt.rep x) (h0 : 0 < x) (hn : 2 ^ (P.qmin + P.p - 1) ≤ x * x) :
    P.fl (x * x) = x * x ∨ ∃ U : ℚ, 0 < U ∧ (∀ y, P.Rep y → y ≠ x → U ≤ |y - x|) ∧
      (x - U / 2) ^ 2 < P.fl (x * x) ∧ P.fl (x * x) < (x + U / 2) ^ 2 ∧ U < x := by
  obtain ⟨l, hl1, hl2⟩ : ∃ l : ℤ, (2 : ℚ) ^ l ≤ x ∧ x < 2 ^ (l + 1) := by
    refine ⟨Int.log 2 x, ?_, ?_⟩
    · have := BinPar.log_le_self h0.ne'; rwa [abs_of_pos h0] at this
    · have := BinPar.lt_succ_log x; rwa [abs_of_pos h0] at this
  rcases hl1.eq_or_lt with h | h
  · left
    apply P.fl_rep
    have e : x * x = 2 ^ (l + l) := by rw [← h, BinPar.zpow_add2]
    refine ⟨1, l + l, by rw [e]; simp, ?_, ?_⟩
    · rw [abs_one]; exact one_lt_pow₀ (by norm_num) (by have := P.hp; omega)
    · rw [e] at hn
      have := (zpow_le_zpow_iff_right₀ (by norm_num : (1 : ℚ) < 2)).1 hn
      have := P.hp; omega
  · right
    have hu := P.u_pos
    have hul := P.u_le
    have ha := BinPar.two_zpow_pos l
    have hUa : (2 : ℚ) ^ (l + 1 - P.p) = 2 * P.u * 2 ^ l := by
      have := BinPar.two_pow_k (P := P) (l + 1 - P.p)
      rwa [show l + 1 - (P.p : ℤ) + P.p - 1 = l by ring] at this
    have hgap := fun y (hy : P.Rep y) hne => gap_unit hx.1 h hy hne
    have htop := le_top_unit hx.1 h.le hl2
    have e2 : (2 : ℚ) ^ (l + 1) = 2 * 2 ^ l := by rw [BinPar.zpow_add2, zpow_one]; ring
    have herr := BinPar.fl_err_rel (P := P) (q := x * x) (by rwa [abs_of_pos (mul_pos h0 h0)])
    rw [abs_of_pos (mul_pos h0 h0)] at herr
    have herr' := abs_le.1 (show |P.fl (x * x) - x * x| ≤ P.u * (x * x) from herr)
    rw [hUa, e2] at htop
    refine ⟨2 ^ (l + 1 - P.p), BinPar.two_zpow_pos _, hgap, ?_, ?_, ?_⟩
    · rw [hUa]
      generalize (2 : ℚ) ^ l = a at *
      generalize P.u = w at *
      have h3 : a * (2 * w * a) ≤ x * (2 * a - x) := mul_le_mul h.le (by linarith) (by positivity) h0.le
      have h4 : 0 < w * (w * a ^ 2) := by positivity
      have h5 := mul_le_mul_of_nonneg_left h3 hu.le
      nlinarith
    · rw [hUa]
      generalize (2 : ℚ) ^ l = a at *
      generalize P.u = w at *
      have h3 : w * (x * x) ≤ w * (x * (2 * a)) := by
        refine mul_le_mul_of_nonneg_left (mul_le_mul_of_nonneg_left ?_ h0.le) hu.le
        nlinarith
      have h4 : 0 < (w * a) ^ 2 := by positivity
      nlinarith
    · rw [hUa]; nlinarith

theorem root_ge (hx : P.fmt.rep x) (h0 : 0 < x) (hn : 2 ^ (P.qmin + P.p - 1) ≤ x * x) {s r : ℚ} (hs : P.fl (x * x) ≤ s)
    (hr : P.fmt.rep r) (h : ∀ y, P.fmt.rep y → |(r : ℝ) - Real.sqrt s| ≤ |(y : ℝ) - Real.sqrt s|) : x ≤ r := by
  by_contra hc
  rw [not_le] at hc
  have hc' : (r : ℝ) < x := by exact_mod_cast hc
  have h1 := h x hx
  rcases root_near hx h0 hn with h2 | ⟨U, hU, hgap, hlo, -, hUx⟩
  · have : (x : ℝ) ≤ Real.sqrt s := by
      apply Real.le_sqrt_of_sq_le
      have : x ^ 2 ≤ s := by rw [sq, ← h2]; exact hs
      exact_mod_cast this
    rw [abs_of_nonpos (by linarith), abs_of_nonpos (by linarith)] at h1
    linarith
  · have h3 : ((x - U / 2 : ℚ) : ℝ) < Real.sqrt s := by
      apply Real.lt_sqrt_of_sq_lt
      have : (x - U / 2) ^ 2 < s := lt_of_lt_of_le hlo hs
      exact_mod_cast this
    push_cast at h3
    have h4 := hgap r hr.1 hc.ne
    rw [abs_of_neg (by linarith)] at h4
    have h4' : (U : ℝ) ≤ -(r - x) := by exact_mod_cast h4
    rw [abs_of_nonpos (by linarith)] at h1
    rcases le_total (x : ℝ) (Real.sqrt s) with h5 | h5
    · rw [abs_of_nonpos (by linarith)] at h1; linarith
    · rw [abs_of_nonneg (by linarith)] at h1; linarith

theorem root_eq (hx : P.fmt.rep x) (h0 : 0 < x) (hn : 2 ^ (P.qmin + P.p - 1) ≤ x * x) {r : ℚ}
    (hr : P.fmt.rep r) (h : ∀ y, P.fmt.rep y → |(r : ℝ) - Real.sqrt (P.fl (x * x))| ≤ |(y : ℝ) - Real.sqrt (P.fl (x * x))|) :
    r = x := by
  refine le_antisymm ?_ (root_ge hx h0 hn le_rfl hr h)
  by_contra hc
  rw [not_le] at hc
  have hc' : (x : ℝ) < r := by exact_mod_cast hc
  have h1 := h x hx
  have h0' : (0 : ℝ) < x := by exact_mod_cast h0
  rcases root_near hx h0 hn with h2 | ⟨U, hU, hgap, -, hhi, hUx⟩
  · rw [h2] at h1
    push_cast at h1
    rw [Real.sqrt_mul_self h0'.le, sub_self, abs_zero] at h1
    have := abs_nonpos_iff.1 h1
    linarith
  · have hU' : (0 : ℝ) < U := by exact_mod_cast hU
    have h3 : Real.sqrt (P.fl (x * x)) < ((x + U / 2 : ℚ) : ℝ) := by
      rw [Real.sqrt_lt' (by push_cast; linarith)]
      exact_mod_cast hhi
    push_cast at h3
    have h4 := hgap r hr.1 hc.ne'
    rw [abs_of_pos (by linarith)] at h4
    have h4' : (U : ℝ) ≤ r - x := by exact_mod_cast h4
    rw [abs_of_nonneg (by linarith)] at h1
    rcases le_total (x : ℝ) (Real.sqrt (P.fl (x * x))) with h5 | h5
    · rw [abs_of_nonpos (by linarith)] at h1; linarith
    · rw [abs_of_nonneg (by linarith)] at h1; linarith

end root

theorem rep_abs {x : ℚ} (h : P.fmt.rep x) : P.fmt.rep (|x|) := by
  rcases abs_choice x with e | e <;> rw [e]
  · exact h
  · exact ⟨h.1.neg, by rw [abs_neg]; exact h.2⟩

/-- A component of a normalised vector never exceeds 1 in absolute value, in spite of rounding, unless its square underflows. -/
theorem C101_component_range (P : BinPar) {S : ℕ} {s : Flt P.fmt → Flt P.fmt} (hs : CorrectSqrt P s) (v : Vec (Flt P.fmt) S)
    (h : (squaredLength v).isFinite) (i : Fin S) (hn : 2 ^ (P.qmin + P.p - 1) ≤ (v i).val * (v i).val) :
    |(v i).val| ≤ (lengthG s v).val ∧ (normalizeG s v i).isFinite ∧ |(normalizeG s v i).val| ≤ 1 := by
  obtain ⟨h1, h2⟩ := Flt.eq_fin h
  obtain ⟨r, hr, h3, h4⟩ := hs.fin _ h1 (flt_dot_self_nonneg v h)
  have hlen : lengthG s v = Flt.fin r hr := by unfold lengthG; rw [h2, h3]
  have hne : (v i).val ≠ 0 := by
    intro h0
    rw [h0, mul_zero] at hn
    exact absurd hn (not_le.2 (BinPar.two_zpow_pos _))
  have hpos : 0 < |(v i).val| := abs_pos.2 hne
  have hge : |(v i).val| ≤ r := by
    refine root_ge (rep_abs (Flt.rep_val _)) hpos (by rwa [abs_mul_abs_self]) ?_ hr h4
    rw [abs_mul_abs_self]
    exact dot_self_ge v h i
  have hr0 : 0 < r := hpos.trans_le hge
  obtain ⟨h5, h6⟩ := Flt.eq_fin ((dot_finite_terms v v h i).1)
  have hdiv : normalizeG s v i = Flt.round ((v i).val / r) := by
    show v i / lengthG s v = _
    rw [hlen]
    conv_lhs => rw [h6]
    exact div_fin h5 hr hr0.ne'
  have hq : |(v i).val / r| ≤ 1 := by
    rw [abs_div, abs_of_pos hr0, div_le_one hr0]; exact hge
  have h1r : P.fmt.rep (1 : ℚ) := P.fmt.rep_one
  have h1n : P.fmt.rep (-1 : ℚ) := ⟨h1r.1.neg, by rw [abs_neg]; exact h1r.2⟩
  obtain ⟨f1, f2, f3, f4⟩ := Flt.round_between h1n h1r (abs_le.1 hq).1 (abs_le.1 hq).2
  rw [hlen, hdiv]
  refine ⟨hge, f1, ?_⟩
  rw [f2, abs_le]; exact ⟨f3, f4⟩

theorem dot_zero_self : ∀ {S : ℕ} (v : Vec (Flt P.fmt) S), (dot v v).isFinite → (∀ j, (v j).val = 0) → (dot v v).val = 0
  | 0, _, _, _ => rfl
  | S + 1, v, h, hv => by
    rw [dot_succ'] at h ⊢
    obtain ⟨h1, h2⟩ := Flt.add_finite h
    rw [Flt.add_val h, Flt.mul_val h2, hv, dot_zero_self _ h1 fun j => hv _]
    simp [P.fl_zero]

theorem dot_axis : ∀ {S : ℕ} (v : Vec (Flt P.fmt) S), (dot v v).isFinite → ∀ i, (∀ j, j ≠ i → (v j).val = 0) →
    (dot v v).val = P.fl ((v i).val * (v i).val)
  | 0, _, _ => fun i => i.elim0
  | S + 1, v, h => by
    rw [dot_succ'] at h ⊢
    obtain ⟨h1, h2⟩ := Flt.add_finite h
    intro i
    refine Fin.lastCases (fun hv => ?_) (fun k hv => ?_) i
    · rw [Flt.add_val h, Flt.mul_val h2, dot_zero_self _ h1 fun j => hv _ (Fin.castSucc_lt_last j).ne, zero_add]
      exact P.fl_rep (P.rep_fl _)
    · rw [Flt.add_val h, Flt.mul_val h2, hv _ (Fin.castSucc_lt_last k).ne',
        dot_axis _ h1 k fun j hj => hv _ fun e => hj (Fin.castSucc_injective _ e)]
      simp only [mul_zero, P.fl_zero, add_zero]
      exact P.fl_rep (P.rep_fl _)

/-- The length of a vector along a coordinate axis and the normalised vector are exact. -/
theorem C101_axis (P : BinPar) {S : ℕ} {s : Flt P.fmt → Flt P.fmt} (hs : CorrectSqrt P s) (v : Vec (Flt P.fmt) S)
    (h : (squaredLength v).isFinite) (i : Fin S) (hv : ∀ j, j ≠ i → (v j).val = 0)
    (hn : 2 ^ (P.qmin + P.p - 1) ≤ (v i).val * (v i).val) :
    (lengthG s v).isFinite ∧ (lengthG s v).val = |(v i).val| ∧
      normalizeG s v i = (if 0 < (v i).val then 1 else -1) ∧ ∀ j, j ≠ i → normalizeG s v j = 0 := by
  obtain ⟨h1, h2⟩ := Flt.eq_fin h
  obtain ⟨r, hr, h3, h4⟩ := hs.fin _ h1 (flt_dot_self_nonneg v h)
  have hlen : lengthG s v = Flt.fin r hr := by unfold lengthG; rw [h2, h3]
  have hne : (v i).val ≠ 0 := by
    intro h0
    rw [h0, mul_zero] at hn
    exact absurd hn (not_le.2 (BinPar.two_zpow_pos _))
  have hpos : 0 < |(v i).val| := abs_pos.2 hne
  have hre : r = |(v i).val| := by
    have e : (squaredLength v).val = P.fl (|(v i).val| * |(v i).val|) := by
      rw [abs_mul_abs_self]; exact dot_axis v h i hv
    rw [e] at h4
    exact root_eq (rep_abs (Flt.rep_val _)) hpos (by rwa [abs_mul_abs_self]) hr h4
  have hr0 : r ≠ 0 := by rw [hre]; exact hpos.ne'
  have hdiv : ∀ j, normalizeG s v j = Flt.round ((v j).val / r) := by
    intro j
    obtain ⟨h5, h6⟩ := Flt.eq_fin ((dot_finite_terms v v h j).1)
    show v j / lengthG s v = _
    rw [hlen]
    conv_lhs => rw [h6]
    exact div_fin h5 hr hr0
  refine ⟨by rw [hlen]; trivial, by rw [hlen]; exact hre, ?_, fun j hj => ?_⟩
  · rw [hdiv, hre]
    by_cases hp : 0 < (v i).val
    · rw [if_pos hp, abs_of_pos hp, div_self hne]
      exact BinPar.round_rep P.fmt.rep_one
    · have hneg : (v i).val < 0 := lt_of_le_of_ne (not_lt.1 hp) hne
      rw [if_neg hp, abs_of_neg hneg, div_neg, div_self hne, Flt.round_neg, BinPar.round_rep P.fmt.rep_one]
      rfl
  · rw [hdiv, hv j hj, zero_div]
    exact BinPar.round_rep P.fmt.rep_zero

/-- The distance of two points: the relative error is at most seven units of rounding for three components. -/
theorem C101_distance_error (P : BinPar) {S : ℕ} (hε : P.lenErr S ≤ 1 / 50) {s : Flt P.fmt → Flt P.fmt} (hs : FaithfulSqrt P s)
    (a b : Vec (Flt P.fmt) S) (h : (squaredLength (a - b)).isFinite) (hX : NoUnderflow (a - b)) :
    (distanceG s a b).isFinite ∧
      |((distanceG s a b).val : ℝ) - Real.sqrt (∑ i, (((a i).val : ℝ) - (b i).val) ^ 2)| ≤
        (P.lenErr S + 2 * P.u) * Real.sqrt (∑ i, (((a i).val : ℝ) - (b i).val) ^ 2) := by
  obtain ⟨h1, h2⟩ := C101_length_error P hε hs (a - b) h hX
  refine ⟨h1, ?_⟩
  have hu := P.u_pos
  have hul := P.u_le
  have hterm : ∀ i, ((a - b) i).val ^ 2 ≤ (1 + P.u) ^ 2 * ((a i).val - (b i).val) ^ 2 ∧
      (1 - P.u) ^ 2 * ((a i).val - (b i).val) ^ 2 ≤ ((a - b) i).val ^ 2 := by
    intro i
    have hf : (a i - b i).isFinite := (dot_finite_terms (a - b) (a - b) h i).1
    have e : ((a - b) i).val = P.fl ((a i).val - (b i).val) := Flt.sub_val hf
    have h3 := BinPar.fl_sub_err_u (Flt.rep_val (a i)).1 (Flt.rep_val (b i)).1
    rw [e]
    generalize (a i).val - (b i).val = t at *
    have h4 : |P.fl t| ≤ (1 + P.u) * |t| := by
      have := abs_sub_abs_le_abs_sub (P.fl t) t; linarith
    have h5 : (1 - P.u) * |t| ≤ |P.fl t| := by
      have := abs_sub_abs_le_abs_sub t (P.fl t)
      rw [abs_sub_comm] at this; linarith
    rw [← sq_abs t, ← sq_abs (P.fl t), ← mul_pow, ← mul_pow]
    exact ⟨pow_le_pow_left₀ (abs_nonneg _) h4 2, pow_le_pow_left₀ (mul_nonneg (by linarith) (abs_nonneg _)) h5 2⟩
  have hS0 : (0 : ℚ) ≤ ∑ i, ((a i).val - (b i).val) ^ 2 := Finset.sum_nonneg fun _ _ => sq_nonneg _
  have hup : (∑ i, ((a - b) i).val ^ 2) ≤ (1 + P.u) ^ 2 * ∑ i, ((a i).val - (b i).val) ^ 2 := by
    rw [Finset.mul_sum]; exact Finset.sum_le_sum fun i _ => (hterm i).1
  have hlo : (1 - P.u) ^ 2 * ∑ i, ((a i).val - (b i).val) ^ 2 ≤ ∑ i, ((a - b) i).val ^ 2 := by
    rw [Finset.mul_sum]; exact Finset.sum_le_sum fun i _ => (hterm i).2
  have hD : Real.sqrt (∑ i, (((a i).val : ℝ) - (b i).val) ^ 2) = Real.sqrt ((∑ i, ((a i).val - (b i).val) ^ 2 : ℚ) : ℝ) := by
    push_cast; rfl
  rw [hD]
  rw [realLen_eq] at h2
  set X := ∑ i, ((a i).val - (b i).val) ^ 2
  set Y := ∑ i, ((a - b) i).val ^ 2
  have hX0 : (0 : ℝ) ≤ X := by exact_mod_cast hS0
  have hu' : (0 : ℝ) < P.u := by exact_mod_cast hu
  have hul' : (P.u : ℝ) ≤ 1 := by
    have := (Rat.cast_le (K := ℝ)).2 hul; push_cast at this; linarith
  have hup' : Real.sqrt Y ≤ (1 + P.u) * Real.sqrt X := by
    apply Real.sqrt_le_iff.2
    refine ⟨mul_nonneg (by linarith) (Real.sqrt_nonneg _), ?_⟩
    rw [mul_pow, Real.sq_sqrt hX0]
    exact_mod_cast hup
  have hlo' : (1 - P.u) * Real.sqrt X ≤ Real.sqrt Y := by
    apply Real.le_sqrt_of_sq_le
    rw [mul_pow, Real.sq_sqrt hX0]
    exact_mod_cast hlo
  have hε' : (P.lenErr S : ℝ) ≤ 1 / 50 := by have := (Rat.cast_le (K := ℝ)).2 hε; push_cast at this; exact this
  have hε0 : (0 : ℝ) < P.lenErr S := by exact_mod_cast P.lenErr_pos S
  have hs0 := Real.sqrt_nonneg (X : ℝ)
  have h3 : |((lengthG s (a - b)).val : ℝ) - Real.sqrt Y| ≤ P.lenErr S * ((1 + P.u) * Real.sqrt X) :=
    h2.trans (mul_le_mul_of_nonneg_left hup' hε0.le)
  have h4 : |Real.sqrt Y - Real.sqrt X| ≤ P.u * Real.sqrt X := by rw [abs_le]; constructor <;> linarith
  have h5 : (P.lenErr S : ℝ) * (P.u * Real.sqrt X) ≤ 1 * (P.u * Real.sqrt X) :=
    mul_le_mul_of_nonneg_right (by linarith) (by positivity)
  calc |((distanceG s a b).val : ℝ) - Real.sqrt X|
      = |(((lengthG s (a - b)).val : ℝ) - Real.sqrt Y) + (Real.sqrt Y - Real.sqrt X)| := by
        congr 1; show ((lengthG s (a - b)).val : ℝ) - Real.sqrt X = _; ring
    _ ≤ _ := abs_add_le _ _
    _ ≤ _ := by nlinarith

/-! ### Hypotheses are met -/

/-- The vector (1, -2, 2) in any format. -/
def sample (P : BinPar) : Vec (Flt P.fmt) 3 := ![Flt.round ((1 : ℤ) : ℚ), Flt.round ((-2 : ℤ) : ℚ), Flt.round ((2 : ℤ) : ℚ)]

theorem sample_ok (P : BinPar) : (∀ i, (sample P i).isFinite) ∧ (sample P 0).val = 1 ∧ (sample P 1).val = -2 ∧ (sample P 2).val = 2 := by
  have h8 : (2 : ℤ) ^ 3 ≤ 2 ^ P.p := pow_le_pow_right₀ (by norm_num) P.hp
  have a := Flt.int_finite (P := P) (n := 1) (by norm_num; linarith)
  have b := Flt.int_finite (P := P) (n := -2) (by norm_num; linarith)
  have c := Flt.int_finite (P := P) (n := 2) (by norm_num; linarith)
  refine ⟨fun i => ?_, by simpa [sample] using a.2, by simpa [sample] using b.2, by simpa [sample] using c.2⟩
  fin_cases i
  · exact a.1
  · exact b.1
  · exact c.1

theorem sample_sum (P : BinPar) : ∑ i, (sample P i).val ^ 2 = 9 := by
  obtain ⟨-, h0, h1, h2⟩ := sample_ok P
  rw [Fin.sum_univ_three, h0, h1, h2]; norm_num

/-- The vector (1, -2, 2) of `float` numbers meets the hypotheses, with the default tolerances 0.001 of `is_unit` and 0.00001 of
`is_parallel`. -/
example : binary32.lenErr 3 ≤ 1 / 50 ∧ (squaredLength (sample binary32)).isFinite ∧ NoUnderflow (sample binary32) ∧
    (2 : ℚ) ^ (binary32.qmin + binary32.p - 1) ≤ (sample binary32 1).val * (sample binary32 1).val ∧
    (Flt.round (1 / 1000) : Flt binary32.fmt).isFinite ∧
    11 / 5 * binary32.lenErr 3 + 3 * binary32.u ≤ (Flt.round (1 / 1000) : Flt binary32.fmt).val ∧
    (Flt.round (1 / 100000) : Flt binary32.fmt).isFinite ∧
    5 * binary32.lenErr 3 + 5 * binary32.u ≤ (Flt.round (1 / 100000) : Flt binary32.fmt).val := by
  have hu : binary32.u = 1 / 2 ^ 24 := by norm_num [BinPar.u, binary32]
  have he : binary32.eta = 1 / 2 ^ 150 := by norm_num [BinPar.eta, binary32]
  have hr : ∀ n : ℕ, n ≤ 20 → binary32.fmt.rep (1 / 2 ^ n) := by
    intro n h1
    refine ⟨⟨1, -n, by simp, by norm_num [binary32], by show (-149 : ℤ) ≤ -n; omega⟩, ?_⟩
    rw [abs_of_pos (by positivity)]
    refine lt_of_le_of_lt ?_ binary32.one_lt_bound
    rw [div_le_one (by positivity)]; exact one_le_pow₀ (by norm_num)
  have hb : binary32.bound = 2 ^ 128 := by norm_num [BinPar.bound, binary32]
  have r1 := Flt.round_between (q := 1 / 1000) (hr 10 (by norm_num)) binary32.fmt.rep_one (by norm_num) (by norm_num)
  have r2 := Flt.round_between (q := 1 / 100000) (hr 17 (by norm_num)) binary32.fmt.rep_one (by norm_num) (by norm_num)
  obtain ⟨hf, h0, h1, h2⟩ := sample_ok binary32
  have hl : binary32.lenErr 3 = 5 / 2 ^ 24 := by unfold BinPar.lenErr; rw [hu]; norm_num
  refine ⟨by rw [hl]; norm_num, ?_, ?_, ?_, r1.1, ?_, r2.1, ?_⟩
  · refine dot_finite _ _ hf hf ?_
    rw [absDot_self, sample_sum, hb]
    unfold dotErr
    rw [hu, he]; norm_num
  · unfold NoUnderflow
    rw [sample_sum, hu, he]; norm_num
  · rw [h1]; norm_num [binary32]
  · rw [r1.2.1, hl, hu]
    refine le_trans ?_ r1.2.2.1
    norm_num
  · rw [r2.2.1, hl, hu]
    refine le_trans ?_ r2.2.2.1
    norm_num

/-- A vector along an axis, and the difference of (1, -2, 2) and itself moved by it. -/
example : let v : Vec (Flt binary32.fmt) 3 := ![0, Flt.round ((-2 : ℤ) : ℚ), 0]
    (squaredLength v).isFinite ∧ (∀ j, j ≠ 1 → (v j).val = 0) ∧
      (2 : ℚ) ^ (binary32.qmin + binary32.p - 1) ≤ (v 1).val * (v 1).val := by
  intro v
  have b := Flt.int_finite (P := binary32) (n := -2) (by norm_num [binary32])
  have e1 : (v 1).val = -2 := by have := b.2; push_cast at this; simpa [v] using this
  have hf : ∀ i, (v i).isFinite := by
    intro i; fin_cases i
    · trivial
    · exact b.1
    · trivial
  refine ⟨dot_finite _ _ hf hf ?_, fun j hj => ?_, ?_⟩
  · have hu : binary32.u = 1 / 2 ^ 24 := by norm_num [BinPar.u, binary32]
    have he : binary32.eta = 1 / 2 ^ 150 := by norm_num [BinPar.eta, binary32]
    have hb : binary32.bound = 2 ^ 128 := by norm_num [BinPar.bound, binary32]
    rw [absDot_self, Fin.sum_univ_three, e1, hb, show (v 0).val = 0 from rfl, show (v 2).val = 0 from rfl]
    unfold dotErr
    rw [hu, he]; norm_num
  · fin_cases j
    · rfl
    · exact absurd rfl hj
    · rfl
  · rw [e1]; norm_num [binary32]

/-! ### Overflow and underflow -/

theorem rep64_pow (k : ℤ) (h1 : -1074 ≤ k) (h2 : k < 1024) : binary64.fmt.rep (2 ^ k) := by
  refine ⟨⟨1, k, by simp, by norm_num [binary64], h1⟩, ?_⟩
  rw [abs_of_pos (BinPar.two_zpow_pos k)]
  exact zpow_lt_zpow_right₀ (by norm_num) (by show k < (53 : ℤ) + 971; omega)

theorem fl_tiny {q : ℚ} (h : |q| < 2 ^ (P.qmin - 1)) : P.fl q = 0 := by
  obtain ⟨m, hm⟩ := (P.rep_fl q).multiple_qmin
  have h1 := P.fl_nearest P.rep_zero q
  rw [zero_sub, abs_neg] at h1
  have hz := BinPar.two_zpow_pos P.qmin
  have e : (2 : ℚ) ^ P.qmin = 2 * 2 ^ (P.qmin - 1) := by
    rw [show P.qmin - 1 = P.qmin + (-1) by ring, BinPar.zpow_add2]; norm_num; ring
  have h2 : |P.fl q| < 2 ^ P.qmin := by
    have := abs_sub_abs_le_abs_sub (P.fl q) q
    linarith
  rw [hm, abs_mul, abs_of_pos hz] at h2
  have h3 : |(m : ℚ)| < 1 := by
    by_contra hc
    have := mul_le_mul_of_nonneg_right (not_lt.1 hc) hz.le
    linarith
  have h4 : |m| < 1 := by exact_mod_cast h3
  have h5 : m = 0 := by have := abs_lt.1 h4; omega
  rw [hm, h5]; simp

/-- `normalize` does not scale its argument: the squared length of a great vector overflows, and the result is the zero vector. -/
theorem C101_normalize_overflow_fails : ∃ v : Vec (Flt binary64.fmt) 3, (∀ i, (v i).isFinite) ∧ (v 0).val = 2 ^ (600 : ℤ) ∧
    ∀ s, CorrectSqrt binary64 s → ∀ i, normalizeG s v i = 0 := by
  have hr := rep64_pow 600 (by norm_num) (by norm_num)
  have hz : (0 : Flt binary64.fmt).isFinite := trivial
  refine ⟨![Flt.fin (F := binary64.fmt) _ hr, 0, 0], ?_, rfl, ?_⟩
  · intro i; fin_cases i <;> trivial
  intro s hs
  have hsq : squaredLength (![Flt.fin (F := binary64.fmt) _ hr, 0, 0] : Vec (Flt binary64.fmt) 3) = Flt.pinf := by
    have e1 : (Flt.fin (F := binary64.fmt) _ hr * Flt.fin (F := binary64.fmt) _ hr : Flt binary64.fmt) = Flt.pinf := by
      rw [mul_fin]
      apply Flt.round_pinf
      refine binary64.le_fl_of_rep ⟨1, 1024, ?_, by norm_num [binary64], by norm_num [binary64]⟩ ?_
      · unfold BinPar.bound; norm_num [binary64]
      · unfold BinPar.bound
        rw [← BinPar.zpow_add2]
        exact zpow_le_zpow_right₀ (by norm_num) (by norm_num [binary64])
    have e2 : ((0 : Flt binary64.fmt) * 0) = 0 := by
      show Flt.round (0 * 0) = _
      rw [mul_zero]; exact BinPar.round_rep binary64.fmt.rep_zero
    show ((0 + Flt.fin (F := binary64.fmt) _ hr * Flt.fin (F := binary64.fmt) _ hr) + 0 * 0) + 0 * 0 = Flt.pinf
    rw [e1, e2]; rfl
  have hl : lengthG s (![Flt.fin (F := binary64.fmt) _ hr, 0, 0] : Vec (Flt binary64.fmt) 3) = Flt.pinf := by
    unfold lengthG; rw [hsq, hs.pinf]
  intro i
  show (![Flt.fin (F := binary64.fmt) _ hr, 0, 0] : Vec (Flt binary64.fmt) 3) i / lengthG s _ = 0
  rw [hl]
  fin_cases i <;> rfl

/-- The squared length of a small nonzero vector underflows: the result has an infinite component and NaNs. -/
theorem C101_normalize_underflow_fails : ∃ v : Vec (Flt binary64.fmt) 3, (∀ i, (v i).isFinite) ∧ (v 0).val = 2 ^ (-600 : ℤ) ∧
    ∀ s, CorrectSqrt binary64 s → normalizeG s v = ![Flt.pinf, Flt.nan, Flt.nan] := by
  have hr := rep64_pow (-600) (by norm_num) (by norm_num)
  refine ⟨![Flt.fin (F := binary64.fmt) _ hr, 0, 0], ?_, rfl, ?_⟩
  · intro i; fin_cases i <;> trivial
  intro s hs
  have hsq : squaredLength (![Flt.fin (F := binary64.fmt) _ hr, 0, 0] : Vec (Flt binary64.fmt) 3) =
      Flt.fin (F := binary64.fmt) 0 binary64.fmt.rep_zero := by
    have e1 : (Flt.fin (F := binary64.fmt) _ hr * Flt.fin (F := binary64.fmt) _ hr : Flt binary64.fmt) = 0 := by
      rw [mul_fin]
      refine Flt.round_to binary64.fmt.rep_zero (fl_tiny ?_)
      rw [← BinPar.zpow_add2, abs_of_pos (BinPar.two_zpow_pos _)]
      exact zpow_lt_zpow_right₀ (by norm_num) (by norm_num [binary64])
    have e2 : ((0 : Flt binary64.fmt) * 0) = 0 := by
      show Flt.round (0 * 0) = _
      rw [mul_zero]; exact BinPar.round_rep binary64.fmt.rep_zero
    have e3 : ((0 : Flt binary64.fmt) + 0) = 0 := by
      show Flt.round (0 + 0) = _
      rw [add_zero]; exact BinPar.round_rep binary64.fmt.rep_zero
    show ((0 + Flt.fin (F := binary64.fmt) _ hr * Flt.fin (F := binary64.fmt) _ hr) + 0 * 0) + 0 * 0 = 0
    rw [e1, e2, e3, e3, e3]
  obtain ⟨r, hr', h1, h2⟩ := hs.fin 0 binary64.fmt.rep_zero le_rfl
  have hr0 : r = 0 := by
    have := h2 0 binary64.fmt.rep_zero
    simp only [Rat.cast_zero, Real.sqrt_zero, sub_zero, abs_zero] at this
    have := abs_nonpos_iff.1 this
    exact_mod_cast this
  subst hr0
  have hl : lengthG s (![Flt.fin (F := binary64.fmt) _ hr, 0, 0] : Vec (Flt binary64.fmt) 3) =
      Flt.fin (F := binary64.fmt) 0 hr' := by
    unfold lengthG; rw [hsq, h1]
  have hd : ∀ q (hq : binary64.fmt.rep q), (Flt.fin (F := binary64.fmt) q hq / Flt.fin (F := binary64.fmt) 0 hr' : Flt binary64.fmt) =
      Flt.infTimes q := fun q hq => if_pos rfl
  funext i
  show (![Flt.fin (F := binary64.fmt) _ hr, 0, 0] : Vec (Flt binary64.fmt) 3) i / lengthG s _ = _
  rw [hl]
  have h0 : Flt.infTimes 0 = (Flt.nan : Flt binary64.fmt) := by simp [Flt.infTimes]
  fin_cases i
  · exact (hd _ hr).trans (by
      unfold Flt.infTimes
      rw [if_neg (BinPar.two_zpow_pos _).ne', if_pos (BinPar.two_zpow_pos _)]; rfl)
  · exact (hd 0 binary64.fmt.rep_zero).trans h0
  · exact (hd 0 binary64.fmt.rep_zero).trans h0

end vm
