import Verif.Model.PlaneG
import Verif.Props.FltTriangle
import Verif.Props.FltLength
import Verif.Props.FltPlane
import Verif.Lemmas.FltEr

/-! Lemmas about planes through three points in IEEE arithmetic. -/

set_option linter.unusedSectionVars false
set_option linter.unusedSimpArgs false

namespace vm

/-- The length of a vector as a real number. -/
noncomputable def vlen (v : Vec ℚ 3) : ℝ := Real.sqrt (∑ i, ((v i : ℚ) : ℝ) ^ 2)

/-- The format is accurate enough for points of the grid `2 ^ g` that are at most `M` steps from the origin: edges, their cross products and
their squared lengths are exact, and the squared length of a cross product neither underflows nor overflows. -/
structure BinPar.PlaneGrid (P : BinPar) (g M : ℤ) : Prop where
  one_le : 1 ≤ M
  exact : 12 * M ^ 2 < 2 ^ P.p
  low : P.qmin + P.p + 1 ≤ 4 * g
  high : 4 * g + P.p + 4 ≤ P.qmax
  acc : 250 * P.u ≤ 1

namespace FltPts
open BinPar (zpow_add2 two_zpow_pos)
variable {P : BinPar} {g M : ℤ}

/-! ### Real estimates -/

/-- The sine computed from lengths with relative errors of 5 units. -/
theorem sin_err {u N L1 L2 r0 r1 r2 pr q : ℝ} (hu : 0 < u) (hu' : 250 * u ≤ 1) (hN : 0 ≤ N) (h1 : 0 < L1) (h2 : 0 < L2)
    (e0 : |r0 - N| ≤ 5 * u * N) (e1 : |r1 - L1| ≤ 5 * u * L1) (e2 : |r2 - L2| ≤ 5 * u * L2)
    (ep : |pr - r1 * r2| ≤ 13 / 10 * u * (r1 * r2)) (eq : |q - r0 / pr| ≤ 8 / 5 * u * (r0 / pr)) :
    |q - N / (L1 * L2)| ≤ 20 * u * (N / (L1 * L2)) := by
  obtain ⟨a1, a2⟩ := abs_le.1 e0
  obtain ⟨b1, b2⟩ := abs_le.1 e1
  obtain ⟨c1, c2⟩ := abs_le.1 e2
  obtain ⟨d1, d2⟩ := abs_le.1 ep
  obtain ⟨f1, f2⟩ := abs_le.1 eq
  have hA : 0 < L1 * L2 := mul_pos h1 h2
  set A := L1 * L2
  have k1 : (1 - 5 * u) ^ 2 * A ≤ r1 * r2 := by
    calc (1 - 5 * u) ^ 2 * A = ((1 - 5 * u) * L1) * ((1 - 5 * u) * L2) := by ring
      _ ≤ r1 * r2 := mul_le_mul (by linarith) (by linarith) (mul_nonneg (by linarith) h2.le) (by nlinarith)
  have k2 : r1 * r2 ≤ (1 + 5 * u) ^ 2 * A := by
    calc r1 * r2 ≤ ((1 + 5 * u) * L1) * ((1 + 5 * u) * L2) :=
          mul_le_mul (by linarith) (by linarith) (by nlinarith) (mul_nonneg (by linarith) h1.le)
      _ = _ := by ring
  have k3 : (1 - 13 / 10 * u) * (1 - 5 * u) ^ 2 * A ≤ pr := by
    calc (1 - 13 / 10 * u) * (1 - 5 * u) ^ 2 * A = (1 - 13 / 10 * u) * ((1 - 5 * u) ^ 2 * A) := by ring
      _ ≤ (1 - 13 / 10 * u) * (r1 * r2) := mul_le_mul_of_nonneg_left k1 (by linarith)
      _ ≤ pr := by linarith
  have k4 : pr ≤ (1 + 13 / 10 * u) * (1 + 5 * u) ^ 2 * A := by
    calc pr ≤ (1 + 13 / 10 * u) * (r1 * r2) := by linarith
      _ ≤ (1 + 13 / 10 * u) * ((1 + 5 * u) ^ 2 * A) := mul_le_mul_of_nonneg_left k2 (by linarith)
      _ = _ := by ring
  have c3 : 0 < (1 - 13 / 10 * u) * (1 - 5 * u) ^ 2 := mul_pos (by linarith) (pow_pos (by linarith) 2)
  have hpr : 0 < pr := lt_of_lt_of_le (mul_pos c3 hA) k3
  have k5 : q ≤ (1 + 20 * u) * (N / A) := by
    have h : (1 + 8 / 5 * u) * (r0 / pr) ≤ (1 + 20 * u) * (N / A) := by
      rw [mul_div_assoc', mul_div_assoc', div_le_div_iff₀ hpr hA]
      have m1 : (1 + 8 / 5 * u) * r0 * A ≤ (1 + 8 / 5 * u) * (1 + 5 * u) * (N * A) := by
        have : (1 + 8 / 5 * u) * A * r0 ≤ (1 + 8 / 5 * u) * A * ((1 + 5 * u) * N) := mul_le_mul_of_nonneg_left (by linarith) (by positivity)
        linarith
      have m2 : (1 + 20 * u) * N * ((1 - 13 / 10 * u) * (1 - 5 * u) ^ 2 * A) ≤ (1 + 20 * u) * N * pr :=
        mul_le_mul_of_nonneg_left k3 (by positivity)
      have m3 : (1 + 8 / 5 * u) * (1 + 5 * u) ≤ (1 + 20 * u) * ((1 - 13 / 10 * u) * (1 - 5 * u) ^ 2) := by
        have t1 : 0 ≤ u * (1 - 250 * u) := mul_nonneg hu.le (by linarith)
        have t2 : 0 ≤ u ^ 2 * (1 - 250 * u) := mul_nonneg (by positivity) (by linarith)
        have t3 : 0 ≤ u ^ 3 * (1 - 250 * u) := mul_nonneg (by positivity) (by linarith)
        nlinarith
      have m4 := mul_le_mul_of_nonneg_right m3 (mul_nonneg hN hA.le)
      linarith
    linarith
  have k6 : (1 - 20 * u) * (N / A) ≤ q := by
    have h : (1 - 20 * u) * (N / A) ≤ (1 - 8 / 5 * u) * (r0 / pr) := by
      rw [mul_div_assoc', mul_div_assoc', div_le_div_iff₀ hA hpr]
      have m1 : (1 - 8 / 5 * u) * (1 - 5 * u) * (N * A) ≤ (1 - 8 / 5 * u) * r0 * A := by
        have : (1 - 8 / 5 * u) * A * ((1 - 5 * u) * N) ≤ (1 - 8 / 5 * u) * A * r0 :=
          mul_le_mul_of_nonneg_left (by linarith) (mul_nonneg (by linarith) hA.le)
        linarith
      have m2 : (1 - 20 * u) * N * pr ≤ (1 - 20 * u) * N * ((1 + 13 / 10 * u) * (1 + 5 * u) ^ 2 * A) :=
        mul_le_mul_of_nonneg_left k4 (mul_nonneg (by linarith) hN)
      have m3 : (1 - 20 * u) * ((1 + 13 / 10 * u) * (1 + 5 * u) ^ 2) ≤ (1 - 8 / 5 * u) * (1 - 5 * u) := by
        have t1 : 0 ≤ u * (1 - 250 * u) := mul_nonneg hu.le (by linarith)
        have t2 : 0 ≤ u ^ 2 * (1 - 250 * u) := mul_nonneg (by positivity) (by linarith)
        have t3 : 0 ≤ u ^ 3 * (1 - 250 * u) := mul_nonneg (by positivity) (by linarith)
        nlinarith
      have m4 := mul_le_mul_of_nonneg_right m3 (mul_nonneg hN hA.le)
      linarith
    linarith
  rw [abs_le]
  constructor <;> linarith

/-! ### Consequences of the grid -/

theorem eta_le (h : P.PlaneGrid g M) {k : ℤ} (hk : 0 ≤ k) (hk4 : k ≤ 4) : 4 * P.eta ≤ P.u * 2 ^ (k * g) := by
  have h1 := h.low
  have h2 := P.hmin
  have h3 := P.hp
  unfold BinPar.eta BinPar.u
  rw [← zpow_add₀ (by norm_num), show (4 : ℚ) * 2 ^ (P.qmin - 1) = 2 ^ (2 + (P.qmin - 1)) by rw [zpow_add₀ (by norm_num)]; norm_num]
  refine zpow_le_zpow_right₀ (by norm_num) ?_
  rcases le_total 0 g with hg | hg
  · have := mul_nonneg hk hg
    omega
  · have : 4 * g ≤ k * g := by nlinarith
    omega

theorem eta_u (P : BinPar) : 2 * P.eta ≤ P.u * P.u := by
  have h2 := P.hmin
  unfold BinPar.eta BinPar.u
  rw [← zpow_add₀ (by norm_num), show (2 : ℚ) * 2 ^ (P.qmin - 1) = 2 ^ (1 + (P.qmin - 1)) by rw [zpow_add₀ (by norm_num)]; norm_num]
  exact zpow_le_zpow_right₀ (by norm_num) (by omega)

theorem lenErr3 (h : P.PlaneGrid g M) : P.lenErr 3 ≤ 1 / 50 := by
  have := h.acc
  unfold BinPar.lenErr
  push_cast
  linarith

theorem ok1 (h : P.PlaneGrid g M) : P.Ok g := by
  have h1 := h.low
  have h2 := P.hmin
  have h3 := P.hp
  have h4 := h.high
  have h5 := P.hmax
  constructor <;> omega

theorem ok2 (h : P.PlaneGrid g M) : P.Ok (g + g) := by
  have h1 := h.low
  have h2 := P.hmin
  have h3 := P.hp
  have h4 := h.high
  have h5 := P.hmax
  constructor <;> omega

/-- A vector on a grid that is not zero is at least one step long. -/
theorem sumsq_ge {k B : ℤ} {v : Vec (Flt P.fmt) 3} (hv : GridPt k B v) (h0 : vval v ≠ 0) : (2 : ℚ) ^ (2 * k) ≤ ∑ i, (v i).val ^ 2 := by
  have : ∃ i, (v i).val ≠ 0 := by
    by_contra hc
    push Not at hc
    exact h0 (funext hc)
  obtain ⟨i, hi⟩ := this
  obtain ⟨_, z, hz, _⟩ := hv i
  refine le_trans ?_ (Finset.single_le_sum (f := fun i => (v i).val ^ 2) (fun _ _ => sq_nonneg _) (Finset.mem_univ i))
  have hz0 : z ≠ 0 := by rintro rfl; exact hi (by rw [hz]; simp)
  have : (1 : ℚ) ≤ (z : ℚ) ^ 2 := by
    have : (1 : ℤ) ≤ z ^ 2 := by
      have := Int.one_le_abs hz0
      rw [← sq_abs]; nlinarith
    exact_mod_cast this
  show _ ≤ (v i).val ^ 2
  rw [hz, mul_pow, ← zpow_natCast ((2 : ℚ) ^ k), ← zpow_mul, mul_comm k]
  have h2 := two_zpow_pos (2 * k)
  push_cast
  nlinarith

theorem sumsq_le {k B : ℤ} {v : Vec (Flt P.fmt) 3} (hv : GridPt k B v) : ∑ i, (v i).val ^ 2 ≤ 3 * (B : ℚ) ^ 2 * 2 ^ (2 * k) := by
  have : ∀ i, (v i).val ^ 2 ≤ (B : ℚ) ^ 2 * 2 ^ (2 * k) := by
    intro i
    obtain ⟨_, z, hz, hB⟩ := hv i
    rw [hz, mul_pow, ← zpow_natCast ((2 : ℚ) ^ k), ← zpow_mul, mul_comm k]
    have h2 := two_zpow_pos (2 * k)
    have h3 : (z : ℚ) ^ 2 ≤ (B : ℚ) ^ 2 := by
      have hB' : |(z : ℚ)| ≤ B := by exact_mod_cast hB
      rw [← sq_abs (z : ℚ)]
      exact pow_le_pow_left₀ (abs_nonneg _) hB' 2
    push_cast
    exact mul_le_mul_of_nonneg_right h3 h2.le
  rw [Fin.sum_univ_three]
  linarith [this 0, this 1, this 2]

theorem realLen_vlen (v : Vec (Flt P.fmt) 3) : realLen v = vlen (vval v) := rfl

theorem vlen_sq (v : Vec ℚ 3) : vlen v ^ 2 = ((∑ i, v i ^ 2 : ℚ) : ℝ) := by
  unfold vlen
  rw [Real.sq_sqrt (Finset.sum_nonneg fun _ _ => sq_nonneg _)]
  push_cast; rfl

theorem vlen_nonneg (v : Vec ℚ 3) : 0 ≤ vlen v := Real.sqrt_nonneg _

/-- Length of an edge. -/
theorem edge_len (h : P.PlaneGrid g M) {s : Flt P.fmt → Flt P.fmt} (hs : FaithfulSqrt P s) {v : Vec (Flt P.fmt) 3} (hv : GridPt g (2 * M) v)
    (h0 : vval v ≠ 0) : (lengthG s v).isFinite ∧ |((lengthG s v).val : ℝ) - vlen (vval v)| ≤ 5 * P.u * vlen (vval v) ∧
      (2 : ℝ) ^ g ≤ vlen (vval v) ∧ vlen (vval v) ≤ 7 / 2 * M * 2 ^ g := by
  have hM := h.one_le
  have hd := FltTri.dot_grid hv hv (ok2 h) (by have := h.exact; nlinarith)
  have hge := sumsq_ge hv h0
  have hle := sumsq_le hv
  have hu := P.u_pos
  have hX : NoUnderflow v := by
    unfold NoUnderflow
    have h1 := eta_le h (k := 2) (by norm_num) (by norm_num)
    have h2 := mul_le_mul_of_nonneg_left hge hu.le
    have := P.eta_pos
    push_cast
    linarith
  have := C101_length_error P (lenErr3 h) hs v hd.1.1 hX
  rw [realLen_vlen] at this
  refine ⟨this.1, ?_, ?_, ?_⟩
  · refine this.2.trans (le_of_eq ?_)
    unfold BinPar.lenErr
    push_cast
    ring
  · refine abs_le_of_sq_le_sq' ?_ (vlen_nonneg _) |>.2
    rw [vlen_sq]
    have := (Rat.cast_le (K := ℝ)).2 hge
    push_cast at this ⊢
    rw [← zpow_natCast, ← zpow_mul, mul_comm g]
    exact this
  · have hMr : (1 : ℝ) ≤ M := by exact_mod_cast hM
    refine abs_le_of_sq_le_sq' ?_ (by positivity) |>.2
    rw [vlen_sq]
    have := (Rat.cast_le (K := ℝ)).2 hle
    push_cast at this ⊢
    have e : ((2 : ℝ) ^ g) ^ 2 = 2 ^ (2 * g) := by rw [← zpow_natCast, ← zpow_mul, mul_comm g]; rfl
    rw [mul_pow, mul_pow, e]
    have : (0 : ℝ) < 2 ^ (2 * g) := by positivity
    refine (‹_ ≤ _› : _ ≤ _).trans ?_
    nlinarith [mul_pos (show (0 : ℝ) < (M : ℝ) ^ 2 by positivity) this]

theorem pow_p (P : BinPar) : (P.u : ℚ) * 2 ^ P.p = 1 := FltTri.u_two P

/-- The size of the grid in units. -/
theorem size_u (h : P.PlaneGrid g M) : 12 * (M : ℚ) ^ 2 * P.u < 1 := by
  have h1 : 12 * (M : ℚ) ^ 2 < 2 ^ P.p := by exact_mod_cast h.exact
  have := mul_lt_mul_of_pos_right h1 P.u_pos
  rw [mul_comm ((2 : ℚ) ^ P.p), FltTri.u_two] at this
  exact this

/-- The cross product of two edges. -/
theorem normal_len (h : P.PlaneGrid g M) {s : Flt P.fmt → Flt P.fmt} (hs : FaithfulSqrt P s) {n : Vec (Flt P.fmt) 3}
    (hn : GridPt (g + g) (2 * (2 * M * (2 * M))) n) (h0 : vval n ≠ 0) :
    ((lengthG s n).isFinite ∧ |((lengthG s n).val : ℝ) - vlen (vval n)| ≤ 5 * P.u * vlen (vval n) ∧
      (2 : ℝ) ^ (2 * g) ≤ vlen (vval n) ∧ vlen (vval n) ≤ 14 * M ^ 2 * 2 ^ (2 * g)) ∧
    ∀ i, (normalizeG s n i).isFinite ∧
      |((normalizeG s n i).val : ℝ) - vval n i / vlen (vval n)| ≤ 29 / 4 * P.u * (|(vval n i : ℝ)| / vlen (vval n)) + P.eta := by
  have hM := h.one_le
  have hMq : (1 : ℚ) ≤ M := by exact_mod_cast hM
  have hge := sumsq_ge hn h0
  have hle := sumsq_le hn
  have hu := P.u_pos
  have hu1 := h.acc
  have heta := P.eta_pos
  rw [show 2 * (g + g) = 4 * g by ring] at hge hle
  have hz := two_zpow_pos (4 * g)
  have hX : NoUnderflow n := by
    unfold NoUnderflow
    have h1 := eta_le h (k := 4) (by norm_num) le_rfl
    have h2 := mul_le_mul_of_nonneg_left hge hu.le
    push_cast
    linarith
  have hb : 2 * (∑ i, (n i).val ^ 2) + 1 < P.bound := by
    have e1 : P.bound = 2 ^ P.p * 2 ^ P.qmax := by
      unfold BinPar.bound
      rw [zpow_add₀ (by norm_num), zpow_natCast]
    have e2 : (2 : ℚ) ^ (4 * g) * 2 ^ P.p * 16 ≤ 2 ^ P.qmax := by
      calc (2 : ℚ) ^ (4 * g) * 2 ^ P.p * 16 = 2 ^ (4 * g + P.p + 4) := by
            rw [zpow_add₀ (by norm_num), zpow_add₀ (by norm_num), zpow_natCast]; norm_num
        _ ≤ _ := zpow_le_zpow_right₀ (by norm_num) h.high
    have e3 : 12 * (M : ℚ) ^ 2 < 2 ^ P.p := by exact_mod_cast h.exact
    have e4 : (12 * (M : ℚ) ^ 2) ^ 2 ≤ (2 ^ P.p) ^ 2 := pow_le_pow_left₀ (by positivity) e3.le 2
    have e5 := mul_le_mul_of_nonneg_right e4 hz.le
    have e6 : (2 : ℚ) ^ P.p * (2 ^ (4 * g) * 2 ^ P.p * 16) ≤ 2 ^ P.p * 2 ^ P.qmax := mul_le_mul_of_nonneg_left e2 (by positivity)
    have e7 : (4 : ℚ) ≤ 2 ^ P.qmax := by
      calc (4 : ℚ) = 2 ^ (2 : ℤ) := by norm_num
        _ ≤ _ := zpow_le_zpow_right₀ (by norm_num) P.hmax
    have e8 : (12 : ℚ) < 2 ^ P.p := by nlinarith
    have e9 : (12 : ℚ) * 4 ≤ 2 ^ P.p * 2 ^ P.qmax := mul_le_mul e8.le e7 (by norm_num) (by positivity)
    rw [e1]
    push_cast at hle
    have e10 : 3 * (2 * (2 * (M : ℚ) * (2 * M))) ^ 2 * 2 ^ (4 * g) = 4 / 3 * ((12 * (M : ℚ) ^ 2) ^ 2 * 2 ^ (4 * g)) := by ring
    rw [e10] at hle
    nlinarith
  have hf : (squaredLength n).isFinite := by
    refine dot_finite n n (fun i => (hn i).1) (fun i => (hn i).1) ?_
    rw [absDot_self]
    have hp : (1 + P.u) ^ 3 ≤ 3 / 2 := by nlinarith [mul_pos hu hu, mul_pos (mul_pos hu hu) hu]
    have h0 : (0 : ℚ) ≤ ∑ i, (n i).val ^ 2 := Finset.sum_nonneg fun _ _ => sq_nonneg _
    unfold dotErr
    have h1 : ((1 + P.u) ^ 3 - 1) * (∑ i, (n i).val ^ 2) ≤ 1 / 2 * ∑ i, (n i).val ^ 2 := mul_le_mul_of_nonneg_right (by linarith) h0
    have h2 : (3 : ℚ) * (1 + P.u) ^ 3 * P.eta ≤ 3 * (3 / 2) * P.eta := by
      refine mul_le_mul_of_nonneg_right ?_ heta.le
      linarith
    have h3 : P.eta ≤ 1 / 128 := Er.eta_le P
    push_cast
    linarith
  have h1 := C101_length_error P (lenErr3 h) hs n hf hX
  rw [realLen_vlen] at h1
  refine ⟨⟨h1.1, ?_, ?_, ?_⟩, fun i => ?_⟩
  · refine h1.2.trans (le_of_eq ?_)
    unfold BinPar.lenErr
    push_cast
    ring
  · refine abs_le_of_sq_le_sq' ?_ (vlen_nonneg _) |>.2
    rw [vlen_sq]
    have := (Rat.cast_le (K := ℝ)).2 hge
    push_cast at this ⊢
    rw [← zpow_natCast, ← zpow_mul, show 2 * g * ((2 : ℕ) : ℤ) = 4 * g by push_cast; ring]
    exact this
  · refine abs_le_of_sq_le_sq' ?_ (by positivity) |>.2
    rw [vlen_sq]
    have := (Rat.cast_le (K := ℝ)).2 hle
    push_cast at this ⊢
    have e : ((2 : ℝ) ^ (2 * g)) ^ 2 = 2 ^ (4 * g) := by
      rw [← zpow_natCast, ← zpow_mul, show 2 * g * ((2 : ℕ) : ℤ) = 4 * g by push_cast; ring]
    rw [mul_pow, e]
    have hp : (0 : ℝ) < 2 ^ (4 * g) := by positivity
    refine (‹_ ≤ _› : _ ≤ _).trans ?_
    have e1 : 3 * (2 * (2 * (M : ℝ) * (2 * M))) ^ 2 * 2 ^ (4 * g) = 192 * ((M : ℝ) ^ 4 * 2 ^ (4 * g)) := by ring
    have e2 : (14 * (M : ℝ) ^ 2) ^ 2 * 2 ^ (4 * g) = 196 * ((M : ℝ) ^ 4 * 2 ^ (4 * g)) := by ring
    have e3 : 0 ≤ (M : ℝ) ^ 4 * 2 ^ (4 * g) := by positivity
    rw [e1, e2]
    linarith
  · have h2 := C101_normalize_error P (by norm_num) (lenErr3 h) hs n hf hX i
    refine ⟨h2.1, ?_⟩
    rw [realLen_vlen] at h2
    refine h2.2.trans (le_of_eq ?_)
    have : (P.normErr 3 : ℝ) = 29 / 4 * P.u := by
      unfold BinPar.normErr BinPar.lenErr
      push_cast
      ring
    rw [this]
    rfl

set_option maxHeartbeats 1000000 in
/-- The computed sine. -/
theorem sine (h : P.PlaneGrid g M) {s : Flt P.fmt → Flt P.fmt} (hs : FaithfulSqrt P s) {v w n : Vec (Flt P.fmt) 3}
    (hv : GridPt g (2 * M) v) (hw : GridPt g (2 * M) w) (hn : GridPt (g + g) (2 * (2 * M * (2 * M))) n)
    (v0 : vval v ≠ 0) (w0 : vval w ≠ 0) (n0 : vval n ≠ 0) :
    (lengthG s n / (lengthG s v * lengthG s w)).isFinite ∧
    |((lengthG s n / (lengthG s v * lengthG s w)).val : ℝ) - vlen (vval n) / (vlen (vval v) * vlen (vval w))| ≤
      20 * P.u * (vlen (vval n) / (vlen (vval v) * vlen (vval w))) := by
  obtain ⟨fv, ev, lv, bv⟩ := edge_len h hs hv v0
  obtain ⟨fw, ew, lw, bw⟩ := edge_len h hs hw w0
  obtain ⟨⟨fn, en, ln, bn⟩, -⟩ := normal_len h hs hn n0
  have hu : (0 : ℝ) < P.u := by exact_mod_cast P.u_pos
  have hu1 : 250 * (P.u : ℝ) ≤ 1 := by exact_mod_cast h.acc
  have hM : (1 : ℝ) ≤ M := by exact_mod_cast h.one_le
  have hz : (0 : ℝ) < 2 ^ g := by positivity
  have hz2 : (0 : ℝ) < 2 ^ (2 * g) := by positivity
  have ez : (2 : ℝ) ^ g * 2 ^ g = 2 ^ (2 * g) := by rw [← zpow_add₀ (by norm_num)]; ring_nf
  set r0 := (lengthG s n).val with hr0
  set r1 := (lengthG s v).val with hr1
  set r2 := (lengthG s w).val with hr2
  set N := vlen (vval n)
  set L1 := vlen (vval v)
  set L2 := vlen (vval w)
  obtain ⟨a1, a2⟩ := abs_le.1 en
  obtain ⟨b1, b2⟩ := abs_le.1 ev
  obtain ⟨c1, c2⟩ := abs_le.1 ew
  have u1 : 5 * (P.u : ℝ) * L1 ≤ 1 / 50 * L1 := mul_le_mul_of_nonneg_right (by linarith) (by linarith)
  have u2 : 5 * (P.u : ℝ) * L2 ≤ 1 / 50 * L2 := mul_le_mul_of_nonneg_right (by linarith) (by linarith)
  have u0 : 5 * (P.u : ℝ) * N ≤ 1 / 50 * N := mul_le_mul_of_nonneg_right (by linarith) (by linarith)
  have q1 : 49 / 50 * (2 : ℝ) ^ g ≤ r1 := by linarith
  have q2 : 49 / 50 * (2 : ℝ) ^ g ≤ r2 := by linarith
  have q0 : 49 / 50 * (2 : ℝ) ^ (2 * g) ≤ r0 := by linarith
  have q1' : (r1 : ℝ) ≤ 51 / 50 * (7 / 2 * M * 2 ^ g) := by linarith
  have q2' : (r2 : ℝ) ≤ 51 / 50 * (7 / 2 * M * 2 ^ g) := by linarith
  have q0' : (r0 : ℝ) ≤ 51 / 50 * (14 * M ^ 2 * 2 ^ (2 * g)) := by linarith
  have p1 : 96 / 100 * (2 : ℝ) ^ (2 * g) ≤ r1 * r2 := by
    calc 96 / 100 * (2 : ℝ) ^ (2 * g) ≤ 49 / 50 * (2 : ℝ) ^ g * (49 / 50 * 2 ^ g) := by rw [← ez]; nlinarith [mul_pos hz hz]
      _ ≤ r1 * r2 := mul_le_mul q1 q2 (by positivity) (by linarith)
  have p2 : (r1 * r2 : ℝ) ≤ 1275 / 100 * (M ^ 2 * 2 ^ (2 * g)) := by
    calc (r1 * r2 : ℝ) ≤ 51 / 50 * (7 / 2 * M * 2 ^ g) * (51 / 50 * (7 / 2 * M * 2 ^ g)) :=
          mul_le_mul q1' q2' (by linarith) (by positivity)
      _ = 51 / 50 * (7 / 2) * (51 / 50 * (7 / 2)) * (M ^ 2 * (2 ^ g * 2 ^ g)) := by ring
      _ ≤ _ := by rw [ez]; exact mul_le_mul_of_nonneg_right (by norm_num) (by positivity)
  -- the product
  have hbd : P.bound = 2 ^ P.p * 2 ^ P.qmax := by
    unfold BinPar.bound
    rw [zpow_add₀ (by norm_num), zpow_natCast]
  have hMp : 12 * (M : ℝ) ^ 2 < 2 ^ P.p := by exact_mod_cast h.exact
  have g1 : (2 : ℝ) ^ (2 * g) * 8 ≤ 2 ^ P.qmax := by
    calc (2 : ℝ) ^ (2 * g) * 8 = 2 ^ (2 * g + 3) := by rw [zpow_add₀ (by norm_num)]; norm_num
      _ ≤ _ := zpow_le_zpow_right₀ (by norm_num) (by have := h.high; have := P.hmax; have := P.hp; omega)
  have g2 : (4 : ℝ) ≤ 2 ^ P.qmax := by
    calc (4 : ℝ) = 2 ^ (2 : ℤ) := by norm_num
      _ ≤ _ := zpow_le_zpow_right₀ (by norm_num) P.hmax
  have g3 : (12 : ℝ) < 2 ^ P.p := by nlinarith
  have g4 : (12 : ℝ) * 4 ≤ 2 ^ P.p * 2 ^ P.qmax := mul_le_mul g3.le g2 (by norm_num) (by positivity)
  have g5 : 12 * (M : ℝ) ^ 2 * (2 ^ (2 * g) * 8) ≤ 2 ^ P.p * 2 ^ P.qmax := mul_le_mul hMp.le g1 (by positivity) (by positivity)
  have hpq : (0 : ℝ) < r1 * r2 := lt_of_lt_of_le (by positivity) p1
  have hpr := is_mul (c := P.fl (r1 * r2)) ⟨fv, rfl⟩ ⟨fw, rfl⟩ rfl (fl_lt_bound (by
    have : ((2 * |r1 * r2| + 1 : ℚ) : ℝ) < (P.bound : ℚ) := by
      rw [hbd]
      push_cast
      rw [abs_of_pos hpq]
      linarith
    exact_mod_cast this))
  set pr := P.fl (r1 * r2)
  have ep : |(pr : ℝ) - r1 * r2| ≤ 13 / 10 * P.u * (r1 * r2) := by
    have k1 := (Rat.cast_le (K := ℝ)).2 (P.fl_err_u (r1 * r2))
    have k2 := (Rat.cast_le (K := ℝ)).2 (eta_le h (k := 2) (by norm_num) (by norm_num))
    push_cast at k1 k2
    rw [abs_of_pos hpq] at k1
    refine k1.trans ?_
    have k3 := mul_le_mul_of_nonneg_left p1 hu.le
    have k4 : 0 < (P.u : ℝ) * (r1 * r2) := mul_pos hu hpq
    linarith
  obtain ⟨d1, d2⟩ := abs_le.1 ep
  have u3 : 13 / 10 * (P.u : ℝ) * (r1 * r2) ≤ 1 / 100 * (r1 * r2) := mul_le_mul_of_nonneg_right (by linarith) hpq.le
  have pr1 : 95 / 100 * (2 : ℝ) ^ (2 * g) ≤ pr := by linarith
  have pr2 : (pr : ℝ) ≤ 129 / 10 * (M ^ 2 * 2 ^ (2 * g)) := by
    have : (0 : ℝ) < M ^ 2 * 2 ^ (2 * g) := by positivity
    linarith
  have prp : (0 : ℝ) < pr := lt_of_lt_of_le (by positivity) pr1
  have r0p : (0 : ℝ) < r0 := lt_of_lt_of_le (by positivity) q0
  have pr0 : pr ≠ 0 := by rintro e; rw [e] at prp; simp at prp
  -- the quotient
  have hqp : (0 : ℝ) < r0 / pr := div_pos r0p prp
  have hq1 : (r0 / pr : ℝ) ≤ 151 / 10 * M ^ 2 := by
    rw [div_le_iff₀ prp]
    have k1 := mul_le_mul_of_nonneg_left pr1 (show (0 : ℝ) ≤ 151 / 10 * M ^ 2 by positivity)
    have k : (0 : ℝ) < M ^ 2 * 2 ^ (2 * g) := by positivity
    have e1 : 51 / 50 * (14 * (M : ℝ) ^ 2 * 2 ^ (2 * g)) = 1428 / 100 * (M ^ 2 * 2 ^ (2 * g)) := by ring
    have e2 : 151 / 10 * (M : ℝ) ^ 2 * (95 / 100 * 2 ^ (2 * g)) = 14345 / 1000 * (M ^ 2 * 2 ^ (2 * g)) := by ring
    rw [e1] at q0'
    rw [e2] at k1
    linarith only [q0', k1, k]
  have hq2 : 9 / 10 * (P.u : ℝ) ≤ r0 / pr := by
    rw [le_div_iff₀ prp]
    have k1 : 12 * (M : ℝ) ^ 2 * P.u < 1 := by exact_mod_cast size_u h
    have k2 := mul_le_mul_of_nonneg_left pr2 (show (0 : ℝ) ≤ 9 / 10 * P.u by positivity)
    have k3 := mul_lt_mul_of_pos_right k1 hz2
    refine k2.trans (le_trans ?_ q0)
    have e : 9 / 10 * (P.u : ℝ) * (129 / 10 * (M ^ 2 * 2 ^ (2 * g))) = 1161 / 1200 * (12 * (M : ℝ) ^ 2 * P.u * 2 ^ (2 * g)) := by ring
    rw [e]
    linarith
  have hdiv := is_div (c := P.fl (r0 / pr)) ⟨fn, rfl⟩ hpr pr0 rfl (fl_lt_bound (by
    have : ((2 * |r0 / pr| + 1 : ℚ) : ℝ) < (P.bound : ℚ) := by
      rw [hbd]
      push_cast
      rw [abs_of_pos hqp]
      have : (2 : ℝ) ^ P.p * 4 ≤ 2 ^ P.p * 2 ^ P.qmax := mul_le_mul_of_nonneg_left g2 (by positivity)
      linarith
    exact_mod_cast this))
  refine ⟨hdiv.1, ?_⟩
  rw [hdiv.2]
  refine sin_err hu hu1 (by linarith) (by linarith) (by linarith) en ev ew ep ?_
  have k1 := (Rat.cast_le (K := ℝ)).2 (P.fl_err_u (r0 / pr))
  have k2 := (Rat.cast_le (K := ℝ)).2 (eta_u P)
  push_cast at k1 k2
  rw [abs_of_pos hqp] at k1
  refine k1.trans ?_
  have k3 := mul_le_mul_of_nonneg_left hq2 hu.le
  have k4 : 0 < (P.u : ℝ) * (r0 / pr) := mul_pos hu hqp
  generalize (r0 / pr : ℝ) = Q at k3 k4 ⊢
  linarith only [k2, k3, k4]

/-- The sum of the absolute values of the components of a unit vector. -/
theorem sum_abs_le {f : Fin 3 → ℝ} (hf : ∑ i, f i ^ 2 = 1) : ∑ i, |f i| ≤ 7 / 4 := by
  rw [Fin.sum_univ_three] at hf ⊢
  refine abs_le_of_sq_le_sq' ?_ (by norm_num) |>.2
  have h0 := sq_abs (f 0)
  have h1 := sq_abs (f 1)
  have h2 := sq_abs (f 2)
  nlinarith [sq_nonneg (|f 0| - |f 1|), sq_nonneg (|f 0| - |f 2|), sq_nonneg (|f 1| - |f 2|)]

/-- The dot product of a point and a computed unit vector. -/
theorem dot_unit (h : P.PlaneGrid g M) {f : Fin 3 → ℝ} (hf : ∑ i, f i ^ 2 = 1) {n : Vec (Flt P.fmt) 3}
    (hn : ∀ i, (n i).isFinite ∧ |((n i).val : ℝ) - f i| ≤ 29 / 4 * P.u * |f i| + P.eta) {x : Vec (Flt P.fmt) 3} (hx : GridPt g M x) :
    (dot x n).isFinite ∧ |((dot x n).val : ℝ) - ∑ i, ((x i).val : ℝ) * (n i).val| ≤ 63 / 10 * P.u * (M * 2 ^ g) ∧
      |((dot x n).val : ℝ)| ≤ 184 / 100 * (M * 2 ^ g) ∧ (M * 2 ^ g : ℝ) * 48 < (2 ^ P.p : ℝ) * 2 ^ P.qmax := by
  have hu : (0 : ℝ) < P.u := by exact_mod_cast P.u_pos
  have hu1 : 250 * (P.u : ℝ) ≤ 1 := by exact_mod_cast h.acc
  have hM : (1 : ℝ) ≤ M := by exact_mod_cast h.one_le
  have hz : (0 : ℝ) < 2 ^ g := by positivity
  have hX : (0 : ℝ) < M * 2 ^ g := by positivity
  have he : (0 : ℝ) < P.eta := by exact_mod_cast P.eta_pos
  have he1 : 4 * (P.eta : ℝ) ≤ P.u * (M * 2 ^ g) := by
    have k2 := (Rat.cast_le (K := ℝ)).2 (eta_le h (k := 1) (by norm_num) (by norm_num))
    push_cast at k2
    rw [one_mul] at k2
    have : (P.u : ℝ) * 2 ^ g ≤ P.u * (M * 2 ^ g) := mul_le_mul_of_nonneg_left (by nlinarith) hu.le
    linarith
  have he2 : 500 * (P.eta : ℝ) ≤ P.u := by
    have k2 := (Rat.cast_le (K := ℝ)).2 (eta_u P)
    push_cast at k2
    nlinarith
  have hxb : ∀ i, |((x i).val : ℝ)| ≤ M * 2 ^ g := by
    intro i
    obtain ⟨_, z, hz', hB⟩ := hx i
    have hB' : |(z : ℝ)| ≤ M := by exact_mod_cast hB
    rw [hz']
    push_cast
    rw [abs_mul, abs_of_pos hz]
    exact mul_le_mul_of_nonneg_right hB' hz.le
  have hn1 : ∀ i, |((n i).val : ℝ)| ≤ 103 / 100 * |f i| + P.eta := by
    intro i
    have h1 := (hn i).2
    have h2 := abs_sub_abs_le_abs_sub ((n i).val : ℝ) (f i)
    have h3 : 29 / 4 * (P.u : ℝ) * |f i| ≤ 3 / 100 * |f i| := mul_le_mul_of_nonneg_right (by linarith) (abs_nonneg _)
    linarith
  have hsum := sum_abs_le hf
  have hA : (absDot x n : ℝ) ≤ 181 / 100 * (M * 2 ^ g) := by
    unfold absDot
    push_cast
    rw [Fin.sum_univ_three] at hsum ⊢
    have k : ∀ i, |((x i).val : ℝ) * (n i).val| ≤ M * 2 ^ g * (103 / 100 * |f i| + P.eta) := fun i => by
      rw [abs_mul]
      exact mul_le_mul (hxb i) (hn1 i) (abs_nonneg _) hX.le
    have k0 := k 0
    have k1 := k 1
    have k2 := k 2
    have k3 : (M * 2 ^ g : ℝ) * (103 / 100 * (|f 0| + |f 1| + |f 2|) + 3 * P.eta) ≤ M * 2 ^ g * (181 / 100) :=
      mul_le_mul_of_nonneg_left (by linarith) hX.le
    linarith
  have hA0 : (0 : ℝ) ≤ absDot x n := by exact_mod_cast absDot_nonneg x n
  have hE : (dotErr P 3 (absDot x n) : ℝ) ≤ 63 / 10 * P.u * (M * 2 ^ g) := by
    unfold dotErr
    push_cast
    have c1 : (1 + (P.u : ℝ)) ^ 3 - 1 ≤ 302 / 100 * P.u := by nlinarith [mul_pos hu hu, mul_pos (mul_pos hu hu) hu]
    have c2 : (1 + (P.u : ℝ)) ^ 3 ≤ 102 / 100 := by linarith
    have c3 : ((1 + (P.u : ℝ)) ^ 3 - 1) * absDot x n ≤ 302 / 100 * P.u * (181 / 100 * (M * 2 ^ g)) :=
      mul_le_mul c1 hA hA0 (by positivity)
    have c4 : 3 * (1 + (P.u : ℝ)) ^ 3 * P.eta ≤ 3 * (102 / 100) * P.eta := mul_le_mul_of_nonneg_right (by linarith) he.le
    have c5 : 0 < (P.u : ℝ) * (M * 2 ^ g) := by positivity
    nlinarith
  have hEX : 63 / 10 * (P.u : ℝ) * (M * 2 ^ g) ≤ 3 / 100 * (M * 2 ^ g) := mul_le_mul_of_nonneg_right (by linarith) hX.le
  have hbd : (M * 2 ^ g : ℝ) * 48 < (2 ^ P.p : ℝ) * 2 ^ P.qmax := by
    have hMp : 12 * (M : ℝ) ^ 2 < 2 ^ P.p := by exact_mod_cast h.exact
    have g1 : (2 : ℝ) ^ g * 4 ≤ 2 ^ P.qmax := by
      calc (2 : ℝ) ^ g * 4 = 2 ^ (g + 2) := by rw [zpow_add₀ (by norm_num)]; norm_num
        _ ≤ _ := zpow_le_zpow_right₀ (by norm_num) (by have := h.high; have := P.hmax; have := P.hp; omega)
    have g2 : 12 * (M : ℝ) < 2 ^ P.p := by nlinarith
    calc (M * 2 ^ g : ℝ) * 48 = 12 * M * (2 ^ g * 4) := by ring
      _ < 2 ^ P.p * (2 ^ g * 4) := mul_lt_mul_of_pos_right g2 (by positivity)
      _ ≤ _ := mul_le_mul_of_nonneg_left g1 (by positivity)
  have hfin : (dot x n).isFinite := by
    refine dot_finite x n (fun i => (hx i).1) (fun i => (hn i).1) ?_
    have : ((absDot x n + dotErr P 3 (absDot x n) : ℚ) : ℝ) < (P.bound : ℚ) := by
      have e1 : P.bound = 2 ^ P.p * 2 ^ P.qmax := by
        unfold BinPar.bound
        rw [zpow_add₀ (by norm_num), zpow_natCast]
      rw [e1]
      push_cast
      linarith
    exact_mod_cast this
  have hd := (Rat.cast_le (K := ℝ)).2 (dot_err x n hfin)
  have hd' : |((dot x n).val : ℝ) - ∑ i, ((x i).val : ℝ) * (n i).val| ≤ 63 / 10 * P.u * (M * 2 ^ g) := by
    refine le_trans (le_of_eq ?_) (hd.trans hE)
    unfold exactDot
    push_cast
    rfl
  refine ⟨hfin, hd', ?_, hbd⟩
  have hs : |∑ i, ((x i).val : ℝ) * (n i).val| ≤ absDot x n := by
    refine (Finset.abs_sum_le_sum_abs _ _).trans (le_of_eq ?_)
    unfold absDot
    push_cast
    rfl
  have := abs_sub_abs_le_abs_sub ((dot x n).val : ℝ) (∑ i, ((x i).val : ℝ) * (n i).val)
  linarith

/-- The computed distance of a point from the plane through a point with a computed unit normal. -/
theorem dist_err (h : P.PlaneGrid g M) {f : Fin 3 → ℝ} (hf : ∑ i, f i ^ 2 = 1) {n : Vec (Flt P.fmt) 3}
    (hn : ∀ i, (n i).isFinite ∧ |((n i).val : ℝ) - f i| ≤ 29 / 4 * P.u * |f i| + P.eta) {x p : Vec (Flt P.fmt) 3} (hx : GridPt g M x)
    (hp : GridPt g M p) : (dot x n - dot p n).isFinite ∧
      |((dot x n - dot p n).val : ℝ) - ∑ i, f i * ((x i).val - (p i).val)| ≤ 42 * P.u * (M * 2 ^ g) := by
  obtain ⟨f1, e1, b1, hb⟩ := dot_unit h hf hn hx
  obtain ⟨f2, e2, b2, -⟩ := dot_unit h hf hn hp
  have hu : (0 : ℝ) < P.u := by exact_mod_cast P.u_pos
  have hu1 : 250 * (P.u : ℝ) ≤ 1 := by exact_mod_cast h.acc
  have hM : (1 : ℝ) ≤ M := by exact_mod_cast h.one_le
  have hz : (0 : ℝ) < 2 ^ g := by positivity
  have hX : (0 : ℝ) < M * 2 ^ g := by positivity
  have he2 : 500 * (P.eta : ℝ) ≤ P.u := by
    have k2 := (Rat.cast_le (K := ℝ)).2 (eta_u P)
    push_cast at k2
    nlinarith
  have hgb : ∀ {y : Vec (Flt P.fmt) 3}, GridPt g M y → ∀ i, |((y i).val : ℝ)| ≤ M * 2 ^ g := by
    intro y hy i
    obtain ⟨_, z, hz', hB⟩ := hy i
    have hB' : |(z : ℝ)| ≤ M := by exact_mod_cast hB
    rw [hz']
    push_cast
    rw [abs_mul, abs_of_pos hz]
    exact mul_le_mul_of_nonneg_right hB' hz.le
  have hab : |((dot x n).val : ℝ) - (dot p n).val| ≤ 368 / 100 * (M * 2 ^ g) := (abs_sub _ _).trans (by linarith)
  have hs := is_sub (c := P.fl ((dot x n).val - (dot p n).val)) ⟨f1, rfl⟩ ⟨f2, rfl⟩ rfl (fl_lt_bound (by
    have : ((2 * |(dot x n).val - (dot p n).val| + 1 : ℚ) : ℝ) < (P.bound : ℚ) := by
      have e1 : P.bound = 2 ^ P.p * 2 ^ P.qmax := by
        unfold BinPar.bound
        rw [zpow_add₀ (by norm_num), zpow_natCast]
      have g2 : (4 : ℝ) ≤ 2 ^ P.qmax := by
        calc (4 : ℝ) = 2 ^ (2 : ℤ) := by norm_num
          _ ≤ _ := zpow_le_zpow_right₀ (by norm_num) P.hmax
      have g3 : (1 : ℝ) ≤ 2 ^ P.p := one_le_pow₀ (by norm_num)
      have g4 : (1 : ℝ) * 4 ≤ 2 ^ P.p * 2 ^ P.qmax := mul_le_mul g3 g2 (by norm_num) (by positivity)
      rw [e1]
      push_cast
      linarith
    exact_mod_cast this))
  refine ⟨hs.1, ?_⟩
  rw [hs.2]
  have k1 := (Rat.cast_le (K := ℝ)).2 (P.fl_sub_err_u (Flt.rep_val (dot x n)).1 (Flt.rep_val (dot p n)).1)
  push_cast at k1
  have k2 : (P.u : ℝ) * |((dot x n).val : ℝ) - (dot p n).val| ≤ P.u * (368 / 100 * (M * 2 ^ g)) := mul_le_mul_of_nonneg_left hab hu.le
  have k3 : |∑ i, (((x i).val : ℝ) - (p i).val) * ((n i).val - f i)| ≤ 254 / 10 * P.u * (M * 2 ^ g) := by
    refine (Finset.abs_sum_le_sum_abs _ _).trans ?_
    have c : ∀ i, |(((x i).val : ℝ) - (p i).val) * ((n i).val - f i)| ≤ 2 * (M * 2 ^ g) * (29 / 4 * P.u * |f i| + P.eta) := fun i => by
      rw [abs_mul]
      refine mul_le_mul ?_ (hn i).2 (abs_nonneg _) (by positivity)
      refine (abs_sub _ _).trans ?_
      linarith [hgb hx i, hgb hp i]
    have hsum := sum_abs_le hf
    rw [Fin.sum_univ_three] at hsum ⊢
    have c0 := c 0
    have c1 := c 1
    have c2 := c 2
    have c3 : 29 / 4 * (P.u : ℝ) * (|f 0| + |f 1| + |f 2|) ≤ 29 / 4 * P.u * (7 / 4) := mul_le_mul_of_nonneg_left hsum (by positivity)
    have c4 : 2 * (M * 2 ^ g : ℝ) * (29 / 4 * P.u * (|f 0| + |f 1| + |f 2|) + 3 * P.eta) ≤ 2 * (M * 2 ^ g) * (127 / 10 * P.u) :=
      mul_le_mul_of_nonneg_left (by linarith) (by positivity)
    linarith
  have k4 : ∑ i, (((x i).val : ℝ) - (p i).val) * ((n i).val - f i) =
      (∑ i, ((x i).val : ℝ) * (n i).val) - (∑ i, ((p i).val : ℝ) * (n i).val) - ∑ i, f i * ((x i).val - (p i).val) := by
    simp only [Fin.sum_univ_three]; ring
  rw [k4] at k3
  have k5 : 0 < (P.u : ℝ) * (M * 2 ^ g) := by positivity
  rw [abs_le] at *
  constructor <;> linarith [k1.1, k1.2, k3.1, k3.2, e1.1, e1.2, e2.1, e2.2]

end FltPts
end vm
