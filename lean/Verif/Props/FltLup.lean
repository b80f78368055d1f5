import Verif.Props.FltLupExact

/-!
C112: `lup_solve` and `invert` in IEEE arithmetic.  The success flag is reliable in both directions up to rounding errors, and the
residual of the solution is small, however ill-conditioned the matrix is.
-/

set_option linter.unusedSectionVars false
set_option linter.unusedSimpArgs false

namespace vm
variable {P : BinPar} {S : ℕ}

/-! ### Substitutions -/

theorem sum_low (a : Mat ℚ S S) (f : ℚ → ℚ) (hf : f 0 = 0) (y : Fin S → ℚ) (i : Fin S) :
    ∑ t, f (lowEntry a i t * y t) = f (y i) + ∑ j, if j < i then f (a j i * y j) else 0 := by
  have hs : ∀ j, f (lowEntry a i j * y j) = (if j = i then f (y i) else 0) + (if j < i then f (a j i * y j) else 0) := by
    intro j
    rcases lt_trichotomy j i with hj | hj | hj
    · simp [lowEntry, hj, hj.ne]
    · subst hj; simp [lowEntry]
    · simp [lowEntry, hj.not_gt, hj.ne', hf]
  rw [Finset.sum_congr rfl fun j _ => hs j, Finset.sum_add_distrib]
  simp

theorem sum_up (a : Mat ℚ S S) (f : ℚ → ℚ) (hf : f 0 = 0) (x : Fin S → ℚ) (i : Fin S) :
    ∑ c, f (upEntry a i c * x c) = f (a i i * x i) + ∑ j, if i < j then f (a j i * x j) else 0 := by
  have hs : ∀ j, f (upEntry a i j * x j) = (if j = i then f (a i i * x i) else 0) + (if i < j then f (a j i * x j) else 0) := by
    intro j
    rcases lt_trichotomy j i with hj | hj | hj
    · simp [upEntry, not_le.2 hj, hj.ne, hj.not_gt, hf]
    · subst hj; simp [upEntry]
    · simp [upEntry, hj.le, hj.ne', hj]
  rw [Finset.sum_congr rfl fun j _ => hs j, Finset.sum_add_distrib]
  simp

/-- Residual of the forward substitution. -/
theorem forward_err (lu : Mat (Flt P.fmt) S S) (pi : Fin S → Fin S) (b : Vec (Flt P.fmt) S) (i : Fin S)
    (h : (lupForward lu pi b i).isFinite) :
    |(b (pi i)).val - ∑ t, lowEntry (vals lu) i t * (lupForward lu pi b t).val| ≤
      dotErr P S (∑ t, |lowEntry (vals lu) i t * (lupForward lu pi b t).val|) := by
  have e := lupForward_eq lu pi b i
  set y := lupForward lu pi b
  rw [e] at h
  obtain ⟨h1, h2⟩ := Flt.sub_finite h
  obtain ⟨_, h3⟩ := filter_dot_err (· < i) (fun j => lu j i) y h2
  have hv := Flt.sub_val h
  rw [← e] at hv
  have h4 := BinPar.fl_sub_err_res (Flt.rep_val (b (pi i))).1
    (Flt.rep_val (((List.finRange S).filter (· < i)).foldl (fun sum j => sum + lu j i * y j) 0)).1
  rw [← hv] at h4
  have eL := sum_low (vals lu) id rfl (fun t => (y t).val) i
  simp only [id] at eL
  rw [eL, sum_low (vals lu) (fun z => |z|) abs_zero (fun t => (y t).val)]
  simp only [vals]
  set sm := (((List.finRange S).filter (· < i)).foldl (fun sum j => sum + lu j i * y j) 0).val
  set E := ∑ j, if j < i then (lu j i).val * (y j).val else 0
  set B := ∑ j, if j < i then |(lu j i).val * (y j).val| else 0
  have hu := P.u_pos
  have hS : 0 < S := i.pos
  have e1 : (b (pi i)).val - ((y i).val + E) = (sm - E) - ((y i).val - ((b (pi i)).val - sm)) := by ring
  rw [e1]
  refine (abs_sub _ _).trans ((add_le_add h3 h4).trans ?_)
  have hw : 1 + P.u ≤ (1 + P.u) ^ S := le_self_pow₀ (by linarith) (by omega)
  have := mul_le_mul_of_nonneg_right (show P.u ≤ (1 + P.u) ^ S - 1 by linarith) (abs_nonneg (y i).val)
  unfold dotErr
  linarith

/-- Residual of the backward substitution. -/
theorem backward_err (lu : Mat (Flt P.fmt) S S) (y : Vec (Flt P.fmt) S) (i : Fin S) (hf : (lu i i).isFinite) (hd : (lu i i).val ≠ 0)
    (h : (lupBackward lu y i).isFinite) :
    (y i).isFinite ∧ |(y i).val - ∑ c, upEntry (vals lu) i c * (lupBackward lu y c).val| ≤
      dotErr P (S + 1) (∑ c, |upEntry (vals lu) i c * (lupBackward lu y c).val|) + (1 + P.u) * P.eta * |(lu i i).val| := by
  have e := lupBackward_eq lu y i
  set x := lupBackward lu y
  rw [e] at h
  have hs := div_finite_left hf h
  obtain ⟨h1, h2⟩ := Flt.sub_finite hs
  obtain ⟨_, h3⟩ := filter_dot_err (i < ·) (fun j => lu j i) x h2
  refine ⟨h1, ?_⟩
  have hv := Flt.sub_val hs
  have h4 := BinPar.fl_sub_err_res (Flt.rep_val (y i)).1
    (Flt.rep_val (((List.finRange S).filter (i < ·)).foldl (fun sum j => sum + lu j i * x j) 0)).1
  rw [← hv] at h4
  have hx : (x i).val = P.fl ((y i - ((List.finRange S).filter (i < ·)).foldl (fun sum j => sum + lu j i * x j) 0).val / (lu i i).val) := by
    rw [e, fin_div_fin hs hf hd, Flt.round_val]
    rwa [fin_div_fin hs hf hd] at h
  have h5 := P.fl_err_res ((y i - ((List.finRange S).filter (i < ·)).foldl (fun sum j => sum + lu j i * x j) 0).val / (lu i i).val)
  rw [← hx] at h5
  have eU := sum_up (vals lu) id rfl (fun t => (x t).val) i
  simp only [id] at eU
  rw [eU, sum_up (vals lu) (fun z => |z|) abs_zero (fun t => (x t).val)]
  simp only [vals]
  set sm := (((List.finRange S).filter (i < ·)).foldl (fun sum j => sum + lu j i * x j) 0).val
  set d := (y i - ((List.finRange S).filter (i < ·)).foldl (fun sum j => sum + lu j i * x j) 0).val
  set E := ∑ j, if i < j then (lu j i).val * (x j).val else 0
  set B := ∑ j, if i < j then |(lu j i).val * (x j).val| else 0 with hB
  set D := (lu i i).val
  have hB0 : 0 ≤ B := Finset.sum_nonneg fun j _ => by split_ifs <;> positivity
  have hu := P.u_pos
  have he := P.eta_pos
  have hS : 0 < S := i.pos
  have h6 : |D * (x i).val - d| ≤ P.u * |D * (x i).val| + P.eta * |D| := by
    have := mul_le_mul_of_nonneg_right h5 (abs_nonneg D)
    rw [← abs_mul, sub_mul, div_mul_cancel₀ _ hd, mul_comm (x i).val D] at this
    refine this.trans (le_of_eq ?_)
    rw [abs_mul]; ring
  have h7 : |d| ≤ (1 + P.u) * |D * (x i).val| + P.eta * |D| := by
    have := abs_sub_abs_le_abs_sub d (D * (x i).val)
    rw [abs_sub_comm] at this
    linarith
  have e1 : (y i).val - (D * (x i).val + E) = (sm - E) - (d - ((y i).val - sm)) - (D * (x i).val - d) := by ring
  rw [e1]
  refine (abs_sub _ _).trans ((add_le_add ((abs_sub _ _).trans (add_le_add h3 h4)) h6).trans ?_)
  have hdot : dotErr P S B ≤ dotErr P (S + 1) B := dotErr_mono (by omega) hB0 le_rfl
  have hw : (1 + P.u) ^ 2 ≤ (1 + P.u) ^ (S + 1) := pow_le_pow_right₀ (by linarith) (by omega)
  have k1 := mul_le_mul_of_nonneg_right (show (1 + P.u) ^ 2 - 1 ≤ (1 + P.u) ^ (S + 1) - 1 by linarith) (abs_nonneg (D * (x i).val))
  have k2 := mul_le_mul_of_nonneg_left h7 hu.le
  have e2 : dotErr P (S + 1) (|D * (x i).val| + B) = ((1 + P.u) ^ (S + 1) - 1) * |D * (x i).val| + dotErr P (S + 1) B := by
    unfold dotErr; ring
  rw [e2]
  linarith

/-! ### Solving -/

/-- Bound of the residual of `lup_solve` if the entries of the matrix are at most `M` and the magnitudes of the entries of the solution
add up to `X`. -/
def lupBound (P : BinPar) (S : ℕ) (M X : ℚ) : ℚ :=
  ((1 + P.u) ^ (3 * S + 1) - 1) * (S * (2 ^ (S - 1) * M)) * X +
    (S + 1) * (1 + P.u) ^ (2 * S + 1) * P.eta * ((1 + 2 ^ (S - 1) * M) * (S + 1 + X))

/-- The facts about the factors that are needed below. -/
theorem FltLup.low_le {M : ℚ} {A : Mat (Flt P.fmt) S S} {k : ℕ} {st : Mat (Flt P.fmt) S S × (Fin S → Fin S)} (h : FltLup M A k st) (i t : Fin S)
    (ht : t.val < k) : |lowEntry (vals st.1) i t| ≤ 1 := by
  unfold lowEntry
  split_ifs with h1 h2
  · exact h.mult t i ht h1
  · simp
  · simp

theorem FltLup.up_le {M : ℚ} (hM0 : 0 ≤ M) {A : Mat (Flt P.fmt) S S} {k : ℕ} {st : Mat (Flt P.fmt) S S × (Fin S → Fin S)} (h : FltLup M A k st)
    (t j : Fin S) : |upEntry (vals st.1) t j| ≤ 2 ^ (S - 1) * M := by
  unfold upEntry
  split_ifs with h1
  · refine (h.growth j t (fun h => absurd h.2 (not_lt.2 h1))).trans (mul_le_mul_of_nonneg_right ?_ hM0)
    exact pow_le_pow_right₀ (by norm_num) (by have := t.isLt; omega)
  · rw [abs_zero]; positivity

theorem FltLup.rest_le {M : ℚ} (hM0 : 0 ≤ M) {A : Mat (Flt P.fmt) S S} {k : ℕ} {st : Mat (Flt P.fmt) S S × (Fin S → Fin S)}
    (h : FltLup M A k st) (j i : Fin S) (hj : k ≤ j.val) : |(st.1 j i).val| ≤ 2 ^ (S - 1) * M := by
  refine (h.growth j i (fun h => absurd h.1 (by omega))).trans (mul_le_mul_of_nonneg_right ?_ hM0)
  exact pow_le_pow_right₀ (by norm_num) (by have := i.isLt; omega)

theorem abs_mul_sum_le (l v w : Fin S → ℚ) (h : ∀ t, |v t| ≤ w t) : |∑ t, l t * v t| ≤ ∑ t, |l t| * w t := by
  refine (Finset.abs_sum_le_sum_abs _ _).trans (Finset.sum_le_sum fun t _ => ?_)
  rw [abs_mul]
  exact mul_le_mul_of_nonneg_left (h t) (abs_nonneg _)

theorem solve_residual {M : ℚ} (hM0 : 0 ≤ M) {A : Mat (Flt P.fmt) S S} {st : Mat (Flt P.fmt) S S × (Fin S → Fin S)} (h : FltLup M A S st)
    (b : Vec (Flt P.fmt) S) (hx : ∀ c, (lupSolveInternal st.1 st.2 b c).isFinite) (r : Fin S) :
    |(∑ c, (A c r).val * (lupSolveInternal st.1 st.2 b c).val) - (b r).val| ≤
      lupBound P S M (∑ c, |(lupSolveInternal st.1 st.2 b c).val|) := by
  obtain ⟨i, rfl⟩ := h.approx.perm.2 r
  set y := lupForward st.1 st.2 b with hy
  set x := lupSolveInternal st.1 st.2 b with hxdef
  have hxb : x = lupBackward st.1 y := rfl
  set L := lowEntry (vals st.1) with hL
  set U := upEntry (vals st.1) with hU
  set G := 2 ^ (S - 1) * M with hG
  have hG0 : 0 ≤ G := by positivity
  have hS : 0 < S := i.pos
  have hu := P.u_pos
  have he := P.eta_pos
  set w := 1 + P.u with hw
  have hw1 : 1 ≤ w := by linarith
  set X := ∑ c, |(x c).val| with hX
  have hX0 : 0 ≤ X := Finset.sum_nonneg fun c _ => abs_nonneg _
  have hd : ∀ t, (st.1 t t).val ≠ 0 := by
    intro t h0
    have := h.diag t t.isLt
    rw [h0, abs_zero] at this
    exact absurd lupLimit_pos (not_lt.2 this)
  have hDG : ∀ t, |(st.1 t t).val| ≤ G := by
    intro t
    have := h.up_le hM0 t t
    simpa [upEntry, vals] using this
  -- the backward substitution
  have hback : ∀ t, (y t).isFinite ∧ |(y t).val - ∑ c, U t c * (x c).val| ≤ dotErr P (S + 1) (G * X) + w * P.eta * G := by
    intro t
    obtain ⟨h1, h2⟩ := backward_err st.1 y t (h.fin t t) (hd t) (hx t)
    refine ⟨h1, h2.trans (add_le_add (dotErr_mono le_rfl (Finset.sum_nonneg fun c _ => abs_nonneg _) ?_) ?_)⟩
    · rw [hX, Finset.mul_sum]
      refine Finset.sum_le_sum fun c _ => ?_
      rw [abs_mul]
      exact mul_le_mul_of_nonneg_right (h.up_le hM0 t c) (abs_nonneg _)
    · exact mul_le_mul_of_nonneg_left (hDG t) (by positivity)
  set β := dotErr P (S + 1) (G * X) + w * P.eta * G with hβ
  have hβ0 : 0 ≤ β := (abs_nonneg _).trans (hback i).2
  have hyt : ∀ t, |(y t).val| ≤ G * X + β := by
    intro t
    have h1 : |∑ c, U t c * (x c).val| ≤ G * X := by
      rw [hX, Finset.mul_sum]
      refine (Finset.abs_sum_le_sum_abs _ _).trans (Finset.sum_le_sum fun c _ => ?_)
      rw [abs_mul]
      exact mul_le_mul_of_nonneg_right (h.up_le hM0 t c) (abs_nonneg _)
    have h2 := (hback t).2
    have h3 := abs_sub_abs_le_abs_sub (y t).val (∑ c, U t c * (x c).val)
    linarith
  -- the forward substitution
  have hfwd : |(b (st.2 i)).val - ∑ t, L i t * (y t).val| ≤ dotErr P S (S * (G * X + β)) := by
    refine (forward_err st.1 st.2 b i (hback i).1).trans (dotErr_mono le_rfl (Finset.sum_nonneg fun c _ => abs_nonneg _) ?_)
    have h1 : ∑ t, |L i t * (y t).val| ≤ ∑ _t : Fin S, (G * X + β) := by
      refine Finset.sum_le_sum fun t _ => ?_
      rw [abs_mul]
      exact (mul_le_of_le_one_left (abs_nonneg _) (h.low_le i t t.isLt)).trans (hyt t)
    refine h1.trans (le_of_eq ?_)
    rw [Finset.sum_const, Finset.card_univ, Fintype.card_fin, nsmul_eq_mul]
  -- the factors
  have hfac : ∀ c, |(A c (st.2 i)).val - ∑ t, L i t * U t c| ≤ lupErr P S (S * G) G := by
    intro c
    have h1 := h.approx.prod i c
    have e1 : lupRec (vals st.1) S i c = ∑ t, L i t * U t c := by
      unfold lupRec
      rw [if_neg (by have := i.isLt; omega), add_zero]
      exact Finset.sum_congr rfl fun t _ => if_pos t.isLt
    rw [e1] at h1
    refine h1.trans (lupErr_mono ?_ ?_)
    · unfold lupAbs
      rw [if_neg (by have := i.isLt; omega), add_zero]
      have h2 : ∀ t : Fin S, (if t.val < S then |lowEntry (vals st.1) i t| * |upEntry (vals st.1) t c| else 0) ≤ G := by
        intro t
        rw [if_pos t.isLt]
        exact (mul_le_of_le_one_left (abs_nonneg _) (h.low_le i t t.isLt)).trans (h.up_le hM0 t c)
      refine (Finset.sum_le_sum fun t _ => h2 t).trans (le_of_eq ?_)
      simp
    · unfold colDiag
      rw [if_pos c.isLt]
      exact hDG c
  -- together
  have e1 : (∑ c, (A c (st.2 i)).val * (x c).val) - (b (st.2 i)).val =
      (∑ c, (x c).val * ((A c (st.2 i)).val - ∑ t, L i t * U t c)) - (∑ t, L i t * ((y t).val - ∑ c, U t c * (x c).val)) -
      ((b (st.2 i)).val - ∑ t, L i t * (y t).val) := by
    have k1 : ∑ c, (x c).val * ((A c (st.2 i)).val - ∑ t, L i t * U t c) =
        (∑ c, (A c (st.2 i)).val * (x c).val) - ∑ c, ∑ t, L i t * U t c * (x c).val := by
      rw [← Finset.sum_sub_distrib]
      refine Finset.sum_congr rfl fun c _ => ?_
      rw [mul_sub, mul_comm, Finset.mul_sum]
      congr 1
      exact Finset.sum_congr rfl fun t _ => by ring
    have k2 : ∑ t, L i t * ((y t).val - ∑ c, U t c * (x c).val) =
        (∑ t, L i t * (y t).val) - ∑ c, ∑ t, L i t * U t c * (x c).val := by
      rw [Finset.sum_comm, ← Finset.sum_sub_distrib]
      refine Finset.sum_congr rfl fun t _ => ?_
      rw [mul_sub, Finset.mul_sum]
      congr 1
      exact Finset.sum_congr rfl fun c _ => by ring
    rw [k1, k2]; ring
  rw [e1]
  have t1 : |∑ c, (x c).val * ((A c (st.2 i)).val - ∑ t, L i t * U t c)| ≤ X * lupErr P S (S * G) G := by
    refine (abs_mul_sum_le _ _ _ hfac).trans (le_of_eq ?_)
    rw [hX, Finset.sum_mul]
  have t2 : |∑ t, L i t * ((y t).val - ∑ c, U t c * (x c).val)| ≤ S * β := by
    refine (abs_mul_sum_le _ _ _ fun t => (hback t).2).trans ?_
    have : ∑ t, |L i t| * β ≤ ∑ _t : Fin S, β :=
      Finset.sum_le_sum fun t _ => mul_le_of_le_one_left hβ0 (h.low_le i t t.isLt)
    refine this.trans (le_of_eq ?_)
    simp
  refine (abs_sub _ _).trans ((add_le_add ((abs_sub _ _).trans (add_le_add t1 t2)) hfwd).trans ?_)
  -- arithmetic
  have hn1 : (1 : ℚ) ≤ S := by exact_mod_cast hS
  unfold lupBound
  rw [← hG, ← hw]
  have p1 : w ^ (2 * S + 1) = w ^ S * w ^ S * w := by rw [pow_succ, two_mul, pow_add]
  have p2 : w ^ (3 * S + 1) = w ^ S * w ^ S * w ^ S * w := by rw [pow_succ, show 3 * S = S + S + S by ring, pow_add, pow_add]
  rw [p1, p2, hβ]
  unfold lupErr dotErr
  rw [← hw, pow_succ]
  set W := w ^ S
  have hW1 : 1 ≤ W := one_le_pow₀ hw1
  set n : ℚ := (S : ℚ)
  push_cast
  set e := P.eta
  have main : X * ((W - 1) * (n * G) + n * W * e * (1 + G)) + n * ((W * w - 1) * (G * X) + (n + 1) * (W * w) * e + w * e * G) +
      ((W - 1) * (n * (G * X + ((W * w - 1) * (G * X) + (n + 1) * (W * w) * e + w * e * G))) + n * W * e)
      = n * G * X * ((W - 1) + (W * W * w - 1)) + e * (X * (n * W * (1 + G)) + n * W * ((n + 1) * (W * w) + w * G) + n * W) := by ring
  rw [main]
  apply add_le_add
  · have : 0 ≤ (W - 1) * (W * W * w - 1) := mul_nonneg (by linarith) (by
      have : 1 ≤ W * W := one_le_mul_of_one_le_of_one_le hW1 hW1
      have : 1 ≤ W * W * w := one_le_mul_of_one_le_of_one_le this hw1
      linarith)
    have h2 : (W - 1) + (W * W * w - 1) ≤ W * W * W * w - 1 := by linarith
    have := mul_le_mul_of_nonneg_left h2 (show 0 ≤ n * G * X by positivity)
    linarith
  · have hWw : 1 ≤ W * w := one_le_mul_of_one_le_of_one_le hW1 hw1
    have hWW : W ≤ W * W * w := by
      have := mul_le_mul_of_nonneg_left hWw (show 0 ≤ W by linarith)
      linarith
    have hww : W * w ≤ W * W * w := by
      have := mul_le_mul_of_nonneg_right hW1 (show 0 ≤ W * w by positivity)
      linarith
    set Q := W * W * w
    have hQ0 : 0 ≤ Q := by linarith
    have a1 : X * (n * W * (1 + G)) ≤ Q * (n * (1 + G) * X) := by
      have := mul_le_mul_of_nonneg_right hWW (show 0 ≤ n * (1 + G) * X by positivity)
      linarith
    have a2 : n * W * ((n + 1) * (W * w) + w * G) ≤ Q * (n * (n + 1 + G)) := by
      have := mul_le_mul_of_nonneg_right hww (show 0 ≤ n * G by positivity)
      have e3 : n * W * ((n + 1) * (W * w) + w * G) = Q * (n * (n + 1)) + W * w * (n * G) := by
        simp only [Q]; ring
      rw [e3]; linarith
    have a3 : n * W ≤ Q * n := by
      have := mul_le_mul_of_nonneg_right hWW (show 0 ≤ n by linarith)
      linarith
    have a4 : Q * (n * (1 + G) * X) + Q * (n * (n + 1 + G)) + Q * n ≤ (n + 1) * Q * ((1 + G) * (n + 1 + X)) := by
      have : 0 ≤ Q * ((1 + G) * X + n * n * G + n * G + 1 + G) := by positivity
      linarith
    have := mul_le_mul_of_nonneg_left (show X * (n * W * (1 + G)) + n * W * ((n + 1) * (W * w) + w * G) + n * W ≤
      (n + 1) * Q * ((1 + G) * (n + 1 + X)) by linarith) he.le
    linarith

/-- The entries of the matrix are finite and at most `M` in magnitude, and `M` is far enough below the overflow threshold. -/
structure BoundedMat (M : ℚ) (A : Mat (Flt P.fmt) S S) : Prop where
  rep : P.Rep M
  room : 2 ^ (S - 1) * M < P.bound
  finite : ∀ c r, (A c r).isFinite
  le : ∀ c r, |(A c r).val| ≤ M

/-- The limit is the double nearest to `1e-15`. -/
theorem lupLimit_eq : binary64.fl (1 / 10 ^ 15) = lupLimit := by
  rw [BinPar.fl_eval (P := binary64) (m := 5070602400912918) (k := -102) (by norm_num [binary64]) (by norm_num [binary64]) (by norm_num [binary64, abs_of_pos]) (by norm_num [abs_lt])]
  unfold lupLimit
  norm_num

theorem BoundedMat.cases {M : ℚ} {A : Mat (Flt P.fmt) S S} (h : BoundedMat M A) :
    (∃ st, lupFindDecomposition A = some st ∧ FltLup M A S st) ∨
    (lupFindDecomposition A = none ∧ ∃ (k : Fin S) (st : Mat (Flt P.fmt) S S × (Fin S → Fin S)), FltLup M A k st ∧
      ∀ i, k ≤ i → |(st.1 k i).val| < lupLimit) := fltLup_cases h.rep h.room h.finite h.le

/-- If `lup_solve(A, b)` reports success and a solution `x` without infinities and NaN, then `A x` differs from `b` by no more than rounding
errors, whatever the condition of `A` is. -/
theorem C112_solve_residual (P : BinPar) {S : ℕ} {M : ℚ} (A : Mat (Flt P.fmt) S S) (hA : BoundedMat M A) (b x : Vec (Flt P.fmt) S)
    (h : lupSolve A b = (true, x)) (hx : ∀ c, (x c).isFinite) (r : Fin S) :
    |(∑ c, (A c r).val * (x c).val) - (b r).val| ≤ lupBound P S M (∑ c, |(x c).val|) := by
  have hM0 : 0 ≤ M := (abs_nonneg _).trans (hA.le r r)
  rcases hA.cases with ⟨st, hst, hinv⟩ | ⟨hn, _⟩
  · have e : lupSolveInternal st.1 st.2 b = x := by
      rw [lupSolve, hst] at h
      exact (Prod.mk.inj h).2
    subst e
    exact solve_residual hM0 hinv b hx r
  · rw [lupSolve, hn] at h
    exact absurd (Prod.mk.inj h).1 (by simp)

theorem bound64 : binary64.bound = 2 ^ 1024 := by norm_num [BinPar.bound, binary64]

/-- The bounds for a matrix of doubles that are small integers. -/
theorem bounded_small {S : ℕ} (hS : S ≤ 5) {A : Mat (Flt binary64.fmt) S S} (hf : ∀ c r, (A c r).isFinite) (h : ∀ c r, |(A c r).val| ≤ 4) :
    BoundedMat 4 A := by
  refine ⟨⟨4, 0, by norm_num, by norm_num [binary64], by norm_num [binary64]⟩, ?_, hf, h⟩
  rw [bound64]
  have h1 : (2 : ℚ) ^ (S - 1) ≤ 2 ^ 4 := pow_le_pow_right₀ (by norm_num) (by omega)
  have h2 : (2 : ℚ) ^ 7 ≤ 2 ^ 1024 := pow_le_pow_right₀ (by norm_num) (by norm_num)
  generalize (2 : ℚ) ^ 1024 = t at h2 ⊢
  norm_num at h1 h2
  linarith

theorem shear_bounded : BoundedMat 4 (translationMatrix ![dbl 3 0] : Mat (Flt binary64.fmt) 2 2) := by
  have h3 : (dbl 3 0).val = 3 := by rw [dbl_val]; norm_num
  refine bounded_small (by norm_num) (translation_finite fun i => by fin_cases i; trivial) ?_
  intro c r
  fin_cases c <;> fin_cases r
  · show |(1 : ℚ)| ≤ 4; norm_num
  · show |(0 : ℚ)| ≤ 4; norm_num
  · show |(dbl 3 0).val| ≤ 4; rw [h3]; norm_num
  · show |(1 : ℚ)| ≤ 4; norm_num

/-- The hypotheses of `C112_solve_residual` hold for the system `x + 3 y = 0`, `y = 1`. -/
theorem shear_solved : let A : Mat (Flt binary64.fmt) 2 2 := translationMatrix ![dbl 3 0]
    BoundedMat 4 A ∧ ∃ x, lupSolve A (vaxis 2 1) = (true, x) ∧ ∀ c, (x c).isFinite := by
  have hv : ∀ i, ((![dbl 3 0] : Vec (Flt binary64.fmt) 1) i).isFinite := fun i => by fin_cases i; trivial
  refine ⟨shear_bounded, _, upper_solve (A := translationMatrix ![dbl 3 0]) (translation_finite hv) (translation_upper _) (Equiv.refl _)
    (fun _ _ => rfl) (fun k => by rw [translation_diag, Flt.one_val, abs_one]; exact lupLimit_le_one) _ (axis_finite _), ?_⟩
  have e : ∀ i : Fin 1, (vaxis 2 1 : Vec (Flt binary64.fmt) 2) i.castSucc - (![dbl 3 0] : Vec (Flt binary64.fmt) 1) i * (vaxis 2 1 : Vec (Flt binary64.fmt) 2) (Fin.last 1) =
      -(![dbl 3 0] : Vec (Flt binary64.fmt) 1) i := by
    intro i
    have h0 : (vaxis 2 1 : Vec (Flt binary64.fmt) 2) i.castSucc = 0 := by fin_cases i; rfl
    have h1 : (vaxis 2 1 : Vec (Flt binary64.fmt) 2) (Fin.last 1) = 1 := rfl
    rw [h0, h1, Flt.mul_one', Flt.zero_sub']
  have h := translation_backward ![dbl 3 0] (vaxis 2 1 : Vec (Flt binary64.fmt) 2) (fun i => by rw [e]; exact Flt.neg_finite.2 (hv i))
  intro c
  show (lupBackward (translationMatrix ![dbl 3 0]) (vaxis 2 1 : Vec (Flt binary64.fmt) 2) c).isFinite
  fin_cases c
  · refine Eq.subst (motive := Flt.isFinite) (h.2 0).symm ?_
    rw [e]; exact Flt.neg_finite.2 (hv 0)
  · exact Eq.subst (motive := Flt.isFinite) h.1.symm trivial

/-- If `invert(A)` reports success and a matrix `X` without infinities and NaN, then `A X` differs from the identity by no more than rounding
errors. -/
theorem C112_invert_residual (P : BinPar) {S : ℕ} {M : ℚ} (A X : Mat (Flt P.fmt) S S) (hA : BoundedMat M A)
    (h : invert A = (true, X)) (hX : ∀ c r, (X c r).isFinite) (j r : Fin S) :
    |(∑ c, (A c r).val * (X j c).val) - (if r = j then 1 else 0)| ≤ lupBound P S M (∑ c, |(X j c).val|) := by
  have hM0 : 0 ≤ M := (abs_nonneg _).trans (hA.le r r)
  rcases hA.cases with ⟨st, hst, hinv⟩ | ⟨hn, _⟩
  · have e : (fun i => lupSolveInternal st.1 st.2 (vaxis S i)) = X := by
      rw [invert, hst] at h
      exact (Prod.mk.inj h).2
    have ej : lupSolveInternal st.1 st.2 (vaxis S j) = X j := congrFun e j
    have := solve_residual hM0 hinv (vaxis S j) (fun c => by rw [ej]; exact hX j c) r
    rw [ej] at this
    have e1 : ((vaxis S j : Vec (Flt P.fmt) S) r).val = if r = j then 1 else 0 := by
      unfold vaxis
      split_ifs <;> rfl
    rwa [e1] at this
  · rw [invert, hn] at h
    exact absurd (Prod.mk.inj h).1 (by simp)

/-- The hypotheses of `C112_invert_residual` hold for a translation. -/
example : let A : Mat (Flt binary64.fmt) 2 2 := translationMatrix ![dbl 3 0]
    BoundedMat 4 A ∧ ∃ X, invert A = (true, X) ∧ ∀ c r, (X c r).isFinite :=
  ⟨shear_bounded, _, C113_translation binary64 _ (fun i => by fin_cases i; trivial), translation_finite fun i => by fin_cases i; trivial⟩

/-- The bound for 4 by 4 matrices of doubles: with elements of magnitude at most `M`, the residual is at most `2⁻⁴⁴ M` times the sum of the
magnitudes of the solution. -/
theorem C112_double4 {M : ℚ} (A : Mat (Flt binary64.fmt) 4 4) (hA : BoundedMat M A) (b x : Vec (Flt binary64.fmt) 4)
    (h : lupSolve A b = (true, x)) (hx : ∀ c, (x c).isFinite) (r : Fin 4) :
    |(∑ c, (A c r).val * (x c).val) - (b r).val| ≤
      M * (∑ c, |(x c).val|) / 2 ^ 44 + (1 + 8 * M) * (5 + ∑ c, |(x c).val|) / 2 ^ 1072 := by
  refine (C112_solve_residual binary64 A hA b x h hx r).trans ?_
  have hM0 : 0 ≤ M := (abs_nonneg _).trans (hA.le r r)
  have hX : 0 ≤ ∑ c, |(x c).val| := Finset.sum_nonneg fun c _ => abs_nonneg _
  generalize (∑ c, |(x c).val|) = X at hX
  unfold lupBound
  have hu : binary64.u = 1 / 2 ^ 53 := by norm_num [BinPar.u, binary64]
  have he : binary64.eta = 1 / 2 ^ 1075 := by
    show (2 : ℚ) ^ (-1074 - 1 : ℤ) = _
    rw [show (-1074 - 1 : ℤ) = -(1075 : ℕ) by norm_num, zpow_neg, zpow_natCast, one_div]
  have h1 : (1 + binary64.u) ^ (3 * 4 + 1) - 1 ≤ 16 / 2 ^ 53 := by rw [hu]; norm_num
  have h2 : (((4 : ℕ) : ℚ) + 1) * (1 + binary64.u) ^ (2 * 4 + 1) ≤ 8 := by rw [hu]; norm_num
  have h3 : (1 : ℚ) / 2 ^ 1072 = 8 * (1 / 2 ^ 1075) := by
    rw [show (1075 : ℕ) = 1072 + 3 by norm_num, pow_add]
    have : (0 : ℚ) < 2 ^ 1072 := by positivity
    field_simp
    norm_num
  have t1 := mul_le_mul_of_nonneg_right (mul_le_mul_of_nonneg_right h1 (by positivity : (0 : ℚ) ≤ ((4 : ℕ) : ℚ) * (2 ^ (4 - 1) * M))) hX
  have hz : (0 : ℚ) ≤ (1 + 2 ^ (4 - 1) * M) * (((4 : ℕ) : ℚ) + 1 + X) := by positivity
  have t2 := mul_le_mul_of_nonneg_right (mul_le_mul_of_nonneg_right h2 binary64.eta_pos.le) hz
  refine (add_le_add t1 t2).trans (le_of_eq ?_)
  rw [he, ← h3]
  push_cast
  rw [div_eq_mul_one_div ((1 + 8 * M) * (5 + X)) (2 ^ 1072)]
  generalize (1 : ℚ) / 2 ^ 1072 = t
  ring

/-- Its hypotheses hold for the mirror matrix and every finite right hand side whose sign can be changed. -/
example : BoundedMat 4 (mirrorX : Mat (Flt binary64.fmt) 4 4) ∧
    ∃ x, lupSolve (mirrorX : Mat (Flt binary64.fmt) 4 4) (vaxis 4 0) = (true, x) ∧ ∀ c, (x c).isFinite := by
  have hm : ∀ c r : Fin 4, (mirrorX : Mat (Flt binary64.fmt) 4 4) c r = if r = Equiv.refl _ c then (![-1, 1, 1, 1] : Vec (Flt binary64.fmt) 4) c else 0 :=
    fun c r => (opposite_mx c r).1
  have hd : ∀ c, (![-1, 1, 1, 1] : Vec (Flt binary64.fmt) 4) c = 1 ∨ (![-1, 1, 1, 1] : Vec (Flt binary64.fmt) 4) c = -1 := by
    intro c; fin_cases c
    · exact Or.inr rfl
    all_goals exact Or.inl rfl
  have hq : ∀ c, ((vaxis 4 0 : Vec (Flt binary64.fmt) 4) (Equiv.refl _ c) / (![-1, 1, 1, 1] : Vec (Flt binary64.fmt) 4) c).isFinite := by
    intro c
    have h := one_div_unit (hd c)
    show ((if c = 0 then (1 : Flt binary64.fmt) else 0) / _).isFinite
    split_ifs
    · rw [h.2.2]; exact h.1
    · rw [zero_div_flt h.1 (finite_ne_zero h.2.1)]; exact Flt.zero_finite
  refine ⟨bounded_small (by norm_num) ?_ ?_, _, (C113_monomial_solve binary64 (Equiv.refl _) ![-1, 1, 1, 1] (vaxis 4 0) mirrorX hm
    (fun c => (one_div_unit (hd c)).1) (fun c => (one_div_unit (hd c)).2.1) (axis_finite _) hq).1, hq⟩
  · intro c r
    rw [hm]
    split_ifs
    · exact (one_div_unit (hd c)).1
    · exact Flt.zero_finite
  · intro c r
    rw [hm]
    split_ifs
    · rcases hd c with h | h
      · rw [h, Flt.one_val]; norm_num
      · rw [h, Flt.neg_val, Flt.one_val]; norm_num
    · rw [Flt.zero_val]; norm_num

/-! ### Failure -/

/-- A vector in the kernel of the first `k` rows of an upper triangular matrix. -/
theorem up_kernel (a : Mat ℚ S S) (k : Fin S) : ∃ v : Fin S → ℚ, v ≠ 0 ∧ (∀ j, k < j → v j = 0) ∧
    ∀ t : Fin S, t < k → ∑ c, upEntry a t c * v c = 0 := by
  let f : ({j : Fin S // j ≤ k} → ℚ) →ₗ[ℚ] ({t : Fin S // t < k} → ℚ) :=
    { toFun := fun x t => ∑ j, upEntry a t.1 j.1 * x j
      map_add' := by
        intro x y; funext t
        simp only [Pi.add_apply, mul_add, Finset.sum_add_distrib]
      map_smul' := by
        intro c x; funext t
        simp only [Pi.smul_apply, smul_eq_mul, RingHom.id_apply, Finset.mul_sum]
        exact Finset.sum_congr rfl fun j _ => by ring }
  have hker : LinearMap.ker f ≠ ⊥ := by
    apply LinearMap.ker_ne_bot_of_finrank_lt
    rw [Module.finrank_fintype_fun_eq_card, Module.finrank_fintype_fun_eq_card]
    apply Fintype.card_lt_of_injective_of_notMem (fun t : {t : Fin S // t < k} => ⟨t.1, t.2.le⟩)
      (b := (⟨k, le_rfl⟩ : {j : Fin S // j ≤ k}))
    · intro s t hst; exact Subtype.ext (by simpa using hst)
    · rintro ⟨t, ht⟩
      have : t.1 = k := by simpa using ht
      exact absurd t.2 (by rw [this]; exact lt_irrefl _)
  obtain ⟨x, hx, hx0⟩ := (Submodule.ne_bot_iff _).1 hker
  refine ⟨fun j => if h : j ≤ k then x ⟨j, h⟩ else 0, ?_, fun j hj => dif_neg (not_le.2 hj), ?_⟩
  · intro h0
    apply hx0
    funext ⟨j, hj⟩
    have := congrFun h0 j
    simpa [hj] using this
  · intro t ht
    have h1 : ∑ j : {j : Fin S // j ≤ k}, upEntry a t j.1 * x j = 0 := congrFun (LinearMap.mem_ker.1 hx) ⟨t, ht⟩
    refine Eq.trans ?_ h1
    have h2 : ∀ j : {j : Fin S // j ≤ k}, upEntry a t j.1 * x j = upEntry a t j.1 * (if h : j.1 ≤ k then x ⟨j.1, h⟩ else 0) := by
      intro j
      rw [dif_pos j.2]
    rw [Finset.sum_congr rfl fun j _ => h2 j, ← Finset.sum_subtype (Finset.univ.filter (· ≤ k)) (by simp)
      (fun c => upEntry a t c * (if h : c ≤ k then x ⟨c, h⟩ else 0))]
    symm
    refine Finset.sum_subset (Finset.filter_subset _ _) fun c _ hc => ?_
    have hc' : ¬ c ≤ k := fun h => hc (by simp [h])
    rw [dif_neg hc', mul_zero]

/-- Bound of the rounding errors of the decomposition, for the judgement that a matrix is singular. -/
def singularErr (P : BinPar) (S : ℕ) (M : ℚ) : ℚ :=
  ((1 + P.u) ^ S - 1) * (S * (2 ^ (S - 1) * M)) + S * (1 + P.u) ^ S * P.eta * (1 + 2 ^ (S - 1) * M)

theorem failure_vector {M : ℚ} (hM0 : 0 ≤ M) {A : Mat (Flt P.fmt) S S} {k : Fin S} {st : Mat (Flt P.fmt) S S × (Fin S → Fin S)}
    (h : FltLup M A k st) (hs : ∀ i, k ≤ i → |(st.1 k i).val| < lupLimit) :
    ∃ v : Fin S → ℚ, v ≠ 0 ∧ ∀ r, |∑ c, (A c r).val * v c| ≤ (lupLimit + singularErr P S M) * ∑ c, |v c| := by
  obtain ⟨v, hv0, hv1, hv2⟩ := up_kernel (vals st.1) k
  refine ⟨v, hv0, fun r => ?_⟩
  obtain ⟨i, rfl⟩ := h.approx.perm.2 r
  set G := 2 ^ (S - 1) * M with hG
  have hG0 : 0 ≤ G := by positivity
  have hfac : ∀ c, |(A c (st.2 i)).val - lupRec (vals st.1) k i c| ≤ singularErr P S M := by
    intro c
    refine (h.approx.prod i c).trans ?_
    have h1 : lupErr P k (lupAbs (vals st.1) k i c) (colDiag (vals st.1) k c) ≤ lupErr P k (S * G) G := by
      refine lupErr_mono ?_ ?_
      · unfold lupAbs
        have h2 : ∀ t : Fin S, (if t.val < k.val then |lowEntry (vals st.1) i t| * |upEntry (vals st.1) t c| else 0) ≤
            (if t.val < k.val then G else 0) := by
          intro t
          split_ifs with ht
          · exact (mul_le_of_le_one_left (abs_nonneg _) (h.low_le i t ht)).trans (h.up_le hM0 t c)
          · exact le_rfl
        have h3 : (if k.val ≤ i.val ∧ k.val ≤ c.val then |vals st.1 c i| else 0) ≤ G := by
          split_ifs with h3
          · exact h.rest_le hM0 c i h3.2
          · exact hG0
        refine (add_le_add (Finset.sum_le_sum fun t _ => h2 t) h3).trans ?_
        rw [← Finset.sum_filter, Finset.sum_const, nsmul_eq_mul]
        have h4 : (Finset.univ.filter fun t : Fin S => t.val < k.val).card + 1 ≤ S := by
          have : (Finset.univ.filter fun t : Fin S => t.val < k.val) ⊂ Finset.univ := by
            refine Finset.ssubset_univ_iff.2 fun h => ?_
            have := Finset.mem_univ k
            rw [← h] at this
            simp at this
          simpa using Finset.card_lt_card this
        have h5 : ((Finset.univ.filter fun t : Fin S => t.val < k.val).card : ℚ) + 1 ≤ S := by exact_mod_cast h4
        have := mul_le_mul_of_nonneg_right h5 hG0
        linarith
      · unfold colDiag
        split_ifs
        · have := h.up_le hM0 c c
          simpa [upEntry] using this
        · exact hG0
    refine h1.trans ?_
    have gen : ∀ n m : ℕ, n ≤ m → lupErr P n (S * G) G ≤ lupErr P m (S * G) G := by
      intro n m hnm
      induction hnm with
      | refl => exact le_rfl
      | step _ ih => exact ih.trans (lupErr_succ (by positivity) hG0)
    exact gen k S k.isLt.le
  have e1 : ∑ c, (A c (st.2 i)).val * v c = (∑ c, v c * ((A c (st.2 i)).val - lupRec (vals st.1) k i c)) +
      ∑ c, lupRec (vals st.1) k i c * v c := by
    rw [← Finset.sum_add_distrib]
    exact Finset.sum_congr rfl fun c _ => by ring
  have e2 : ∑ c, lupRec (vals st.1) k i c * v c = if k ≤ i then (st.1 k i).val * v k else 0 := by
    unfold lupRec
    simp only [add_mul, Finset.sum_add_distrib, Finset.sum_mul]
    rw [Finset.sum_comm]
    have k1 : ∑ t : Fin S, ∑ c : Fin S, (if t.val < k.val then lowEntry (vals st.1) i t * upEntry (vals st.1) t c else 0) * v c = 0 := by
      refine Finset.sum_eq_zero fun t _ => ?_
      by_cases ht : t.val < k.val
      · simp only [ht, if_true, mul_assoc]
        rw [← Finset.mul_sum, hv2 t ht, mul_zero]
      · simp [ht]
    rw [k1, zero_add, Finset.sum_eq_single k]
    · by_cases hi : k ≤ i
      · have hi' : k.val ≤ i.val := hi
        rw [if_pos ⟨hi', le_rfl⟩, if_pos hi]; rfl
      · have hi' : ¬ k.val ≤ i.val := hi
        rw [if_neg (fun h => hi' h.1), if_neg hi, zero_mul]
    · intro c _ hc
      rcases lt_or_gt_of_ne hc with hc | hc
      · rw [if_neg (fun h => absurd h.2 (not_le.2 hc)), zero_mul]
      · rw [hv1 c hc, mul_zero]
    · simp
  rw [e1, e2]
  have hk : |v k| ≤ ∑ c, |v c| := Finset.single_le_sum (f := fun c => |v c|) (fun c _ => abs_nonneg _) (Finset.mem_univ k)
  have t1 : |∑ c, v c * ((A c (st.2 i)).val - lupRec (vals st.1) k i c)| ≤ singularErr P S M * ∑ c, |v c| := by
    refine (abs_mul_sum_le _ _ _ hfac).trans (le_of_eq ?_)
    rw [← Finset.sum_mul, mul_comm]
  have t2 : |if k ≤ i then (st.1 k i).val * v k else 0| ≤ lupLimit * ∑ c, |v c| := by
    split_ifs with hi
    · rw [abs_mul]
      exact mul_le_mul (hs i hi).le hk (abs_nonneg _) lupLimit_pos.le
    · rw [abs_zero]
      exact mul_nonneg lupLimit_pos.le ((abs_nonneg _).trans hk)
  refine (abs_add_le _ _).trans ((add_le_add t1 t2).trans (le_of_eq ?_))
  ring

/-- If `lup_solve` or `invert` reports failure, then the matrix is singular up to `1e-15` and rounding errors: there is a vector, not zero,
which the matrix maps almost to zero. -/
theorem C112_failure (P : BinPar) {S : ℕ} {M : ℚ} (A : Mat (Flt P.fmt) S S) (hA : BoundedMat M A) (b : Vec (Flt P.fmt) S)
    (h : (lupSolve A b).1 = false ∨ (invert A).1 = false) :
    ∃ v : Fin S → ℚ, v ≠ 0 ∧ ∀ r, |∑ c, (A c r).val * v c| ≤ (lupLimit + singularErr P S M) * ∑ c, |v c| := by
  rcases hA.cases with ⟨st, hst, hinv⟩ | ⟨hn, k, st, hinv, hs⟩
  · rw [lupSolve, invert, hst] at h
    simp at h
  · exact failure_vector ((abs_nonneg _).trans (hA.le k k)) hinv hs

/-- The hypotheses of `C112_failure` hold for the diagonal matrix with the elements 1 and `2⁻⁵⁰`. -/
example : let A : Mat (Flt binary64.fmt) 2 2 := diagMat ![1, dbl 1 (-50)]
    BoundedMat 4 A ∧ (lupSolve A 0).1 = false ∧ (invert A).1 = false := by
  have hd : ∀ c, ((![1, dbl 1 (-50)] : Vec (Flt binary64.fmt) 2) c).isFinite := by intro c; fin_cases c <;> trivial
  have e : (dbl 1 (-50)).val = 1 / 2 ^ 50 := by rw [dbl_val]; norm_num
  have h := C113_monomial_success binary64 (Equiv.refl _) ![1, dbl 1 (-50)] 0 (diagMat ![1, dbl 1 (-50)]) (fun c r => rfl) hd
  have hn : ¬ ∀ c, lupLimit ≤ |((![1, dbl 1 (-50)] : Vec (Flt binary64.fmt) 2) c).val| := by
    intro h
    have h : lupLimit ≤ |(dbl 1 (-50)).val| := h 1
    rw [e] at h
    unfold lupLimit at h
    norm_num [abs_of_pos] at h
  refine ⟨bounded_small (by norm_num) (diagMat_finite hd) ?_, ?_, ?_⟩
  · intro c r
    fin_cases c <;> fin_cases r
    · show |(1 : ℚ)| ≤ 4; norm_num
    · show |(0 : ℚ)| ≤ 4; norm_num
    · show |(0 : ℚ)| ≤ 4; norm_num
    · show |(dbl 1 (-50)).val| ≤ 4; rw [e]; norm_num [abs_of_pos]
  · by_contra hc
    exact hn (h.1.1 (by simpa using hc))
  · by_contra hc
    exact hn (h.2.1 (by simpa using hc))

/-- If the matrix maps no vector, other than zero, almost to zero, then `lup_solve` and `invert` report success. -/
theorem C112_success (P : BinPar) {S : ℕ} {M : ℚ} (A : Mat (Flt P.fmt) S S) (hA : BoundedMat M A)
    (h : ∀ v : Fin S → ℚ, v ≠ 0 → ∃ r, (lupLimit + singularErr P S M) * ∑ c, |v c| < |∑ c, (A c r).val * v c|) (b : Vec (Flt P.fmt) S) :
    (lupSolve A b).1 = true ∧ (invert A).1 = true := by
  by_contra hc
  have h1 : (lupSolve A b).1 = false ∨ (invert A).1 = false := by
    by_contra hd
    push Not at hd
    exact hc ⟨by simpa using hd.1, by simpa using hd.2⟩
  obtain ⟨v, hv, h2⟩ := C112_failure P A hA b h1
  obtain ⟨r, hr⟩ := h v hv
  exact absurd (h2 r) (not_le.2 hr)

/-- The hypotheses of `C112_success` hold for the mirror matrix of the plane. -/
example : let A : Mat (Flt binary64.fmt) 2 2 := diagMat ![-1, 1]
    BoundedMat 4 A ∧ ∀ v : Fin 2 → ℚ, v ≠ 0 → ∃ r, (lupLimit + singularErr binary64 2 4) * ∑ c, |v c| < |∑ c, (A c r).val * v c| := by
  have hd : ∀ c, ((![-1, 1] : Vec (Flt binary64.fmt) 2) c).isFinite := by
    intro c; fin_cases c
    · exact Flt.neg_finite.2 Flt.one_finite
    · exact Flt.one_finite
  have hm : (-1 : Flt binary64.fmt).val = -1 := by rw [Flt.neg_val, Flt.one_val]
  refine ⟨bounded_small (by norm_num) (diagMat_finite hd) ?_, fun v hv => ?_⟩
  · intro c r
    fin_cases c <;> fin_cases r
    · show |(-1 : Flt binary64.fmt).val| ≤ 4; rw [hm]; norm_num
    · show |(0 : ℚ)| ≤ 4; norm_num
    · show |(0 : ℚ)| ≤ 4; norm_num
    · show |(1 : ℚ)| ≤ 4; norm_num
  have hk : lupLimit + singularErr binary64 2 4 ≤ 1 / 4 := by
    have hu : binary64.u = 1 / 2 ^ 53 := by norm_num [BinPar.u, binary64]
    have he : binary64.eta ≤ 1 / 2 ^ 53 := by
      rw [← hu]
      exact zpow_le_zpow_right₀ (by norm_num) (by norm_num [binary64])
    have := binary64.eta_pos
    unfold singularErr lupLimit
    rw [hu]
    norm_num at he ⊢
    linarith
  have e0 : ∑ c, ((diagMat ![-1, 1] : Mat (Flt binary64.fmt) 2 2) c 0).val * v c = -v 0 := by
    rw [Fin.sum_univ_two]
    show (-1 : Flt binary64.fmt).val * v 0 + 0 * v 1 = _
    rw [hm]; ring
  have e1 : ∑ c, ((diagMat ![-1, 1] : Mat (Flt binary64.fmt) 2 2) c 1).val * v c = v 1 := by
    rw [Fin.sum_univ_two]
    show 0 * v 0 + 1 * v 1 = _
    ring
  have hpos : 0 < |v 0| + |v 1| := by
    by_contra hc
    have a0 := abs_nonneg (v 0)
    have a1 := abs_nonneg (v 1)
    apply hv
    funext i
    fin_cases i
    · exact abs_eq_zero.1 (by show |v 0| = 0; linarith)
    · exact abs_eq_zero.1 (by show |v 1| = 0; linarith)
  rw [Fin.sum_univ_two]
  have hb := mul_le_mul_of_nonneg_right hk hpos.le
  rcases le_total |v 0| |v 1| with hl | hl
  · refine ⟨1, lt_of_le_of_lt hb ?_⟩
    rw [e1]; linarith
  · refine ⟨0, lt_of_le_of_lt hb ?_⟩
    rw [e0, abs_neg]; linarith

/-! ### NaN -/

theorem nan_sub' (b : Flt P.fmt) : (Flt.nan : Flt P.fmt) - b = Flt.nan := by cases b <;> rfl
theorem sub_nan' (b : Flt P.fmt) : b - (Flt.nan : Flt P.fmt) = Flt.nan := by cases b <;> rfl
theorem nan_mul' (b : Flt P.fmt) : (Flt.nan : Flt P.fmt) * b = Flt.nan := by cases b <;> rfl
theorem nan_div' (b : Flt P.fmt) : (Flt.nan : Flt P.fmt) / b = Flt.nan := by cases b <;> rfl

/-- The pivot is in the searched part of the column and not NaN. -/
theorem pivot_not_nan (a : Mat (Flt P.fmt) S S) (k : Fin S) (h : LupSmall.small (lupPivot a k).1 = false) :
    k ≤ (lupPivot a k).2 ∧ a k (lupPivot a k).2 ≠ Flt.nan := by
  have gen : ∀ (l : List (Fin S)) (acc : Flt P.fmt × Fin S), (∀ i ∈ l, k ≤ i) → (acc.1 = 0 ∨ (k ≤ acc.2 ∧ a k acc.2 ≠ Flt.nan)) →
      (l.foldl (fun acc i => if Cmp.lt acc.1 (vm.abs (a k i)) then (vm.abs (a k i), i) else acc) acc).1 = 0 ∨
      (k ≤ (l.foldl (fun acc i => if Cmp.lt acc.1 (vm.abs (a k i)) then (vm.abs (a k i), i) else acc) acc).2 ∧
        a k (l.foldl (fun acc i => if Cmp.lt acc.1 (vm.abs (a k i)) then (vm.abs (a k i), i) else acc) acc).2 ≠ Flt.nan) := by
    intro l
    induction l with
    | nil => intro acc _ h; exact h
    | cons i l ih =>
      intro acc hl h
      rw [List.foldl_cons]
      refine ih _ (fun j hj => hl j (by simp [hj])) ?_
      by_cases hc : Cmp.lt acc.1 (vm.abs (a k i)) = true
      · rw [if_pos hc]
        right
        refine ⟨hl i (by simp), fun hn => ?_⟩
        simp only at hn
        rw [hn] at hc
        obtain ⟨x, y, _, hy, _⟩ := (IEEE.lt_iff _ _).1 hc
        have : vm.abs (Flt.nan : Flt P.fmt) = Flt.nan := by
          unfold vm.abs
          split_ifs <;> rfl
        rw [this] at hy
        exact absurd hy (by intro h; cases h)
      · rw [if_neg hc]; exact h
  rcases gen ((List.finRange S).filter (k ≤ ·)) (0, ⟨0, k.pos⟩) (by simp) (Or.inl rfl) with h1 | h1
  · exfalso
    have e : (lupPivot a k).1 = 0 := h1
    rw [e] at h
    have : (LupSmall.small (0 : Flt P.fmt)) = decide ((0 : ℚ) < lupLimit) := rfl
    rw [this, decide_eq_true lupLimit_pos] at h
    cases h
  · exact h1

/-- There is a NaN in the part of the matrix that has not been eliminated. -/
def HasNaN (a : Mat (Flt P.fmt) S S) (k : ℕ) : Prop := ∃ i j : Fin S, k ≤ i.val ∧ k ≤ j.val ∧ a j i = Flt.nan

theorem hasNaN_step {k : Fin S} {st st' : Mat (Flt P.fmt) S S × (Fin S → Fin S)} (h : HasNaN st.1 k) (hs : lupStep st k = some st') :
    HasNaN st'.1 (k + 1) := by
  unfold lupStep at hs
  simp only at hs
  split_ifs at hs with hc
  obtain ⟨hk, hnn⟩ := pivot_not_nan st.1 k (by simpa using hc)
  cases hs
  obtain ⟨i, j, hi, hj, hij⟩ := h
  set k' := (lupPivot st.1 k).2
  set a := lupSwapRows st.1 k k' with ha
  have hi1 := swap_ge hk hi
  have hn1 : a j (Equiv.swap k k' i) = Flt.nan := by
    rw [ha, lupSwapRows_apply, Equiv.swap_apply_self]; exact hij
  have hkk : a k k ≠ Flt.nan := by
    rw [ha, lupSwapRows_apply, Equiv.swap_apply_left]; exact hnn
  set i1 := Equiv.swap k k' i
  simp only [HasNaN]
  rcases Nat.eq_or_lt_of_le hj with e | hj
  · have : j = k := Fin.ext e.symm
    subst this
    have hik : j.val ≠ i1.val := by
      intro e1
      have : j = i1 := Fin.ext e1
      rw [← this] at hn1
      exact hkk hn1
    have hlt : j.val + 1 < S := by have := i1.isLt; omega
    refine ⟨i1, ⟨j.val + 1, hlt⟩, by omega, le_rfl, ?_⟩
    rw [lupEliminate_apply, if_pos (show j < i1 from by rw [Fin.lt_def]; omega),
      if_neg (fun h => by have := congrArg Fin.val h; simp at this),
      if_pos (by rw [Fin.lt_def]; simp), hn1, nan_div', nan_mul', sub_nan']
  · by_cases hik : i1 = k
    · have hlt : k.val + 1 < S := by have := j.isLt; omega
      refine ⟨⟨k.val + 1, hlt⟩, j, le_rfl, by omega, ?_⟩
      rw [hik] at hn1
      rw [lupEliminate_apply, if_pos (by rw [Fin.lt_def]; simp), if_neg (fun h => by rw [h] at hj; exact lt_irrefl _ hj),
        if_pos (show k < j from hj), hn1, mul_nan', sub_nan']
    · have hik' : k.val < i1.val := lt_of_le_of_ne hi1 fun e => hik (Fin.ext e.symm)
      refine ⟨i1, j, hik', by omega, ?_⟩
      rw [lupEliminate_apply, if_pos (show k < i1 from hik'), if_neg (fun h => by rw [h] at hj; exact lt_irrefl _ hj),
        if_pos (show k < j from hj), hn1, nan_sub']

theorem hasNaN_run : ∀ (n : ℕ) (st : Mat (Flt P.fmt) S S × (Fin S → Fin S)) (_ : n ≤ S), HasNaN st.1 (S - n) →
    ((List.finRange S).drop (S - n)).foldlM lupStep st = none
  | 0, st, hn, h => by
    obtain ⟨i, _, hi, _⟩ := h
    have := i.isLt
    omega
  | n + 1, st, hn, h => by
    have hlt : S - (n + 1) < S := by omega
    have hd : (List.finRange S).drop (S - (n + 1)) =
        ⟨S - (n + 1), hlt⟩ :: (List.finRange S).drop (S - n) := by
      rw [List.drop_eq_getElem_cons (by simpa using hlt), List.getElem_finRange]
      congr 2
      omega
    rw [hd, List.foldlM_cons]
    rcases hs : lupStep st ⟨S - (n + 1), hlt⟩ with _ | st'
    · rfl
    · have h' := hasNaN_step (k := ⟨S - (n + 1), hlt⟩) h hs
      have : S - (n + 1) + 1 = S - n := by omega
      simp only [this] at h'
      exact hasNaN_run n st' (by omega) h'

/-- A matrix with a NaN among its entries, whatever the other entries are, is never reported to be invertible. -/
theorem C112_nan (P : BinPar) {S : ℕ} (A : Mat (Flt P.fmt) S S) (c r : Fin S) (h : A c r = Flt.nan) (b : Vec (Flt P.fmt) S) :
    (lupSolve A b).1 = false ∧ (invert A).1 = false := by
  have := hasNaN_run S (A, fun i => i) le_rfl ⟨r, c, by omega, by omega, h⟩
  rw [Nat.sub_self, List.drop_zero] at this
  have e : lupFindDecomposition A = none := this
  rw [lupSolve, invert, e]
  exact ⟨rfl, rfl⟩


/-- Its hypothesis holds for a matrix with a NaN in the last column. -/
example : ∃ A : Mat (Flt binary64.fmt) 3 3, A 2 0 = Flt.nan ∧ A 0 0 = 1 :=
  ⟨fun c r => if c = 2 ∧ r = 0 then Flt.nan else 1, rfl, rfl⟩

/-! ### Overflow -/

set_option exponentiation.threshold 2000 in
/-- Without the room for the growth of the elements the result is wrong although it is finite and success is reported: with `m = 2¹⁰²³` the system
`m x - m y = 0`, `m x + m y = m` has the solution `(1/2, 1/2)`, but the reported solution is `(0, 0)`. -/
theorem C112_overflow_fails : ∃ (A : Mat (Flt binary64.fmt) 2 2) (b x : Vec (Flt binary64.fmt) 2),
    (∀ c r, (A c r).isFinite) ∧ (∀ r, (b r).isFinite) ∧ lupSolve A b = (true, x) ∧ (∀ c, x c = 0) ∧ (b 1).val = 2 ^ 1023 ∧
    (∀ z : Fin 2 → ℚ, (∀ r, ∑ c, (A c r).val * z c = (b r).val) ↔ ∀ c, z c = 1 / 2) := by
  have hm : (dbl 4 1021).val = 2 ^ 1023 := by rw [dbl_val]; norm_num
  have hn : (dbl (-4) 1021).val = -2 ^ 1023 := by rw [dbl_val]; norm_num
  have hmf : (dbl 4 1021).isFinite := trivial
  have hnf : (dbl (-4) 1021).isFinite := trivial
  have hm0 : (dbl 4 1021).val ≠ 0 := by rw [hm]; positivity
  refine ⟨![![dbl 4 1021, dbl 4 1021], ![dbl (-4) 1021, dbl 4 1021]], ![0, dbl 4 1021], ![0, 0], ?_, ?_, ?_, ?_, hm, ?_⟩
  · intro c r
    fin_cases c <;> fin_cases r <;> trivial
  · intro r
    fin_cases r <;> trivial
  · have h1 := finite_small hmf (by rw [hm]; exact lupLimit_le_one.trans (by norm_num))
    have hl : (1 : Flt binary64.fmt) = dbl 4 1021 / dbl 4 1021 := by
      rw [fin_div_fin hmf hmf hm0, div_self hm0, ← Flt.one_val (P := binary64), round_self Flt.one_finite]
    have hu : (Flt.pinf : Flt binary64.fmt) = dbl 4 1021 - 1 * dbl (-4) 1021 := by
      rw [Flt.one_mul', Flt.sub_eq hmf hnf, hm, hn, round_over]
      norm_num [BinPar.bound, binary64]
    have hz : dbl 4 1021 / (Flt.pinf : Flt binary64.fmt) = 0 := rfl
    rw [lupSolve_two _ _ 1 Flt.pinf 0 0 h1.1 (by
      show Cmp.lt (vm.abs (dbl 4 1021)) (vm.abs (dbl 4 1021)) = false
      rw [Flt.lt_val (abs_flt hmf).1 (abs_flt hmf).1]
      exact decide_eq_false (lt_irrefl _)) h1.2 hl hu rfl rfl (Flt.sub_zero' _).symm (by
      show 0 = (dbl 4 1021 - (0 + 1 * 0) - 0) / Flt.pinf
      rw [Flt.one_mul', Flt.zero_add', Flt.sub_zero', Flt.sub_zero', hz])]
    refine Prod.ext rfl (funext fun i => ?_)
    fin_cases i
    · show (0 - (0 + dbl (-4) 1021 * 0)) / dbl 4 1021 = 0
      rw [Flt.mul_zero_fin hnf, Flt.zero_add', Flt.sub_zero', zero_div_flt hmf hm0]
    · rfl
  · intro c
    fin_cases c <;> rfl
  · intro z
    have e0 : (∑ c, ((![![dbl 4 1021, dbl 4 1021], ![dbl (-4) 1021, dbl 4 1021]] : Mat (Flt binary64.fmt) 2 2) c 0).val * z c) =
        2 ^ 1023 * z 0 + -2 ^ 1023 * z 1 := by
      rw [Fin.sum_univ_two]
      show (dbl 4 1021).val * z 0 + (dbl (-4) 1021).val * z 1 = _
      rw [hm, hn]
    have e1 : (∑ c, ((![![dbl 4 1021, dbl 4 1021], ![dbl (-4) 1021, dbl 4 1021]] : Mat (Flt binary64.fmt) 2 2) c 1).val * z c) =
        2 ^ 1023 * z 0 + 2 ^ 1023 * z 1 := by
      rw [Fin.sum_univ_two]
      show (dbl 4 1021).val * z 0 + (dbl 4 1021).val * z 1 = _
      rw [hm]
    have hp : (0 : ℚ) < 2 ^ 1023 := by positivity
    constructor
    · intro h
      have h0 := h 0
      have h1 := h 1
      rw [e0] at h0
      rw [e1] at h1
      have h0 : (2 : ℚ) ^ 1023 * z 0 + -2 ^ 1023 * z 1 = 0 := h0
      have h1 : (2 : ℚ) ^ 1023 * z 0 + 2 ^ 1023 * z 1 = (dbl 4 1021).val := h1
      rw [hm] at h1
      generalize (2 : ℚ) ^ 1023 = t at h0 h1 hp
      intro c
      have a : t * (z 0 - 1 / 2) = 0 := by linarith
      have b : t * (z 1 - 1 / 2) = 0 := by linarith
      have a := (mul_eq_zero.1 a).resolve_left hp.ne'
      have b := (mul_eq_zero.1 b).resolve_left hp.ne'
      fin_cases c
      · show z 0 = 1 / 2; linarith
      · show z 1 = 1 / 2; linarith
    · intro h r
      fin_cases r
      · show _ = (0 : ℚ)
        refine e0.trans ?_
        rw [h 0, h 1]; ring
      · show _ = (dbl 4 1021).val
        refine e1.trans ?_
        rw [h 0, h 1, hm]; ring

end vm
