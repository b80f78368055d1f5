import Verif.Model.PlaneProjG
import Verif.Props.FltFromTo
import Verif.Props.FltPlaneAt

/-! The axes of `plane_projection_matrix` in IEEE arithmetic. -/

set_option linter.unusedSectionVars false
set_option linter.unusedSimpArgs false

namespace vm
namespace FltPP
open FltTo FltAng FltRot BinPar
variable {P : BinPar} {n : Vec (Flt P.fmt) 3} {a : Vec ℝ 3} {ε : ℝ}

/-- Directions of vectors that are close to each other. -/
theorem dir_close {w : Vec (Flt P.fmt) 3} {z : Vec ℝ 3} {δ : ℝ} (hz : 0 < length z) (hw : 0 < length (rvec w)) (h : length (rvec w - z) ≤ δ) (i : Fin 3) :
    |dir w i - z i / length z| ≤ 2 * δ / length z := by
  have l := (abs_length_sub (rvec w) z).trans h
  have c := (comp_le_length (rvec w - z) i).trans h
  have c2 : |rvec w i| ≤ length (rvec w) := comp_le_length _ i
  have e : dir w i - z i / length z = (rvec w - z) i / length z - (rvec w i / length (rvec w)) * ((length (rvec w) - length z) / length z) := by
    unfold dir
    rw [realLen_rvec]
    show rvec w i / _ - _ = (rvec w i - z i) / _ - _
    field_simp
    ring
  have q : |rvec w i / length (rvec w)| ≤ 1 := by
    rw [abs_div, abs_of_pos hw, div_le_one hw]; exact c2
  have q2 : |(length (rvec w) - length z) / length z| ≤ δ / length z := by
    rw [abs_div, abs_of_pos hz]; exact div_le_div_of_nonneg_right l hz.le
  have q3 : |(rvec w - z) i / length z| ≤ δ / length z := by
    rw [abs_div, abs_of_pos hz]; exact div_le_div_of_nonneg_right c hz.le
  rw [e]
  refine (abs_sub _ _).trans ?_
  rw [abs_mul]
  have := mul_le_mul q q2 (abs_nonneg _) zero_le_one
  rw [two_mul, add_div]
  linarith

/-- The first axis before it is normalised: perpendicular to the normal, exactly, and not short. -/
theorem axis_spec (junk : ℕ → Flt P.fmt × ℕ) (hn : NearTo n a ε) :
    (∀ i, (planeAxis junk n i).isFinite ∧ |((planeAxis junk n i).val : ℝ)| ≤ 2.1) ∧ dot (rvec (planeAxis junk n)) (rvec n) = 0 ∧
    0.5 ≤ length (rvec (planeAxis junk n)) := by
  have l2 := length_sq (rvec n)
  have lv := abs_le.1 ((abs_length_sub (rvec n) a).trans hn.dist)
  rw [unit_len hn.2.1] at lv
  have := hn.2.2.2
  rw [dot3] at l2
  have lge : 0.9999 ≤ length (rvec n) ^ 2 := by nlinarith
  have c : ∀ i, |((n i).val : ℝ)| ≤ 2.1 := fun i => (hn.unit.2 i).trans (by norm_num)
  have nf : ∀ i, (-n i).isFinite := fun i => Flt.neg_finite.2 (hn.1 i)
  have nc : ∀ i, |((-n i).val : ℝ)| ≤ 2.1 := fun i => by rw [Flt.neg_val]; push_cast; rw [abs_neg]; exact c i
  have zc : (0 : Flt P.fmt).isFinite ∧ |(((0 : Flt P.fmt).val : ℚ) : ℝ)| ≤ 2.1 := ⟨Flt.zero_finite, by rw [Flt.zero_val]; norm_num⟩
  obtain ⟨k, h1, h2, -⟩ := sortVector_rank (fun l r => Cmp.lt (vm.abs l.1) (vm.abs r.1)) n junk (fun i => |(n i).val|)
    (fun i j => abs_lt_flt (hn.1 i) (hn.1 j)) 0 (by norm_num)
  have hmax : ∀ j, |rvec n j| ≤ |rvec n k| := by
    intro j
    rw [Nat.le_zero, Finset.card_eq_zero, Finset.filter_eq_empty_iff] at h2
    have := not_lt.1 (h2 (Finset.mem_univ j))
    show |((n j).val : ℝ)| ≤ |((n k).val : ℝ)|
    exact_mod_cast this
  have hsq : ∀ j, rvec n j ^ 2 ≤ rvec n k ^ 2 := fun j => sq_le_sq.2 (hmax j)
  have hidx : findAbsMaxComponent n 0 junk = k.val := by rw [findAbsMaxComponent, h1]
  unfold planeAxis
  rw [hidx, cross_z hn.1, cross_x hn.1]
  by_cases hk : k.val = 0
  · rw [if_pos hk]
    have hk0 : k = 0 := Fin.ext hk
    rw [hk0] at hsq
    have l3 := length_sq (rvec (![n 1, -n 0, 0] : Vec (Flt P.fmt) 3))
    rw [dot3] at l3
    have l3' : length (rvec (![n 1, -n 0, 0] : Vec (Flt P.fmt) 3)) ^ 2 = rvec n 1 ^ 2 + rvec n 0 ^ 2 := by
      rw [l3]
      show ((n 1).val : ℝ) * ((n 1).val : ℝ) + ((-n 0).val : ℝ) * ((-n 0).val : ℝ) + (((0 : Flt P.fmt).val : ℚ) : ℝ) * (((0 : Flt P.fmt).val : ℚ) : ℝ) = _
      rw [Flt.neg_val, Flt.zero_val]
      simp only [rvec]; push_cast; ring
    refine ⟨fun i => ?_, ?_, ?_⟩
    · fin_cases i
      · exact ⟨hn.1 1, c 1⟩
      · exact ⟨nf 0, nc 0⟩
      · exact zc
    · rw [dot3]
      show ((n 1).val : ℝ) * rvec n 0 + ((-n 0).val : ℝ) * rvec n 1 + (((0 : Flt P.fmt).val : ℚ) : ℝ) * _ = _
      rw [Flt.neg_val, Flt.zero_val]
      simp only [rvec]; push_cast; ring
    · have h0 := length_nonneg (rvec (![n 1, -n 0, 0] : Vec (Flt P.fmt) 3))
      have := hsq 1; have := hsq 2
      nlinarith [sq_nonneg (rvec n 1)]
  · rw [if_neg hk]
    have l3 := length_sq (rvec (![0, n 2, -n 1] : Vec (Flt P.fmt) 3))
    rw [dot3] at l3
    have l3' : length (rvec (![0, n 2, -n 1] : Vec (Flt P.fmt) 3)) ^ 2 = rvec n 2 ^ 2 + rvec n 1 ^ 2 := by
      rw [l3]
      show (((0 : Flt P.fmt).val : ℚ) : ℝ) * (((0 : Flt P.fmt).val : ℚ) : ℝ) + ((n 2).val : ℝ) * ((n 2).val : ℝ) + ((-n 1).val : ℝ) * ((-n 1).val : ℝ) = _
      rw [Flt.neg_val, Flt.zero_val]
      simp only [rvec]; push_cast; ring
    refine ⟨fun i => ?_, ?_, ?_⟩
    · fin_cases i
      · exact zc
      · exact ⟨hn.1 2, c 2⟩
      · exact ⟨nf 1, nc 1⟩
    · rw [dot3]
      show (((0 : Flt P.fmt).val : ℚ) : ℝ) * _ + ((n 2).val : ℝ) * rvec n 1 + ((-n 1).val : ℝ) * rvec n 2 = _
      rw [Flt.neg_val, Flt.zero_val]
      simp only [rvec]; push_cast; ring
    · have h0 := length_nonneg (rvec (![0, n 2, -n 1] : Vec (Flt P.fmt) 3))
      have s0 := hsq 0; have s1 := hsq 1; have s2 := hsq 2
      have : rvec n k ^ 2 ≤ rvec n 2 ^ 2 + rvec n 1 ^ 2 := by
        have : k = 1 ∨ k = 2 := by
          fin_cases k
          · exact absurd rfl hk
          · exact Or.inl rfl
          · exact Or.inr rfl
        rcases this with rfl | rfl
        · nlinarith [sq_nonneg (rvec n 2)]
        · nlinarith [sq_nonneg (rvec n 1)]
      nlinarith

/-- A vector that is almost a unit vector passes the check for unit vectors. -/
theorem passes_unit (hP : P = binary32 ∨ P = binary64) {s : Flt P.fmt → Flt P.fmt} (hs : FaithfulSqrt P s) (hn : NearTo n a ε) :
    isUnitG s n P.almostZero = true := by
  have hp := fmt_p hP
  have hu := fmt_u hP
  have u0 := Ap.u_pos P
  have lv := abs_le.1 ((abs_length_sub (rvec n) a).trans hn.dist)
  rw [unit_len hn.2.1] at lv
  have he := hn.2.2.2
  have hl : P.lenErr 3 ≤ 1 / 50 := by
    have : 1000 * P.u ≤ 1 := by exact_mod_cast (ok_one (P := P) hp).u
    unfold BinPar.lenErr
    push_cast
    linarith
  obtain ⟨f1, f2⟩ := can_normalise hp (x := n) (fun i => ⟨hn.1 i, (hn.unit.2 i).trans (by norm_num)⟩) (l := 0.9) (by linarith) (by norm_num) (by linarith)
  obtain ⟨g1, g2⟩ := C101_length_error P hl hs n f1 f2
  unfold isUnitG
  rw [realLen_rvec] at g2
  have hl5 : (P.lenErr 3 : ℝ) = 5 * P.u := by unfold BinPar.lenErr; push_cast; ring
  rw [hl5] at g2
  have g3 := abs_le.1 g2
  have g4 : 5 * (P.u : ℝ) * length (rvec n) ≤ 5 * (1 / 16000000) * 2 := by
    have : length (rvec n) ≤ 2 := by linarith
    have := length_nonneg (rvec n)
    nlinarith
  have key : |((lengthG s n).val : ℝ) - 1| ≤ 0.00002 := abs_le.2 ⟨by linarith, by linarith⟩
  cases hx : isEqual (lengthG s n) 1 P.almostZero
  · have := (near_one hP g1).2 hx
    linarith
  · rfl

/-- The second axis before it is normalised. -/
theorem cross_axis (hp : 10 ≤ P.p) {x : Vec (Flt P.fmt) 3} {b : Vec ℝ 3} (hn : NearTo n a ε) (hx : NearTo x b (7.5 * P.u)) :
    (∀ i, (cross n x i).isFinite ∧ |((cross n x i).val : ℝ)| ≤ 2.1) ∧ length (rvec (cross n x) - cross (rvec n) b) ≤ 20.22 * P.u := by
  have ok := ok_one hp
  have u0 := Ap.u_pos P
  have hu := ok.u
  have m : ∀ i j, Ap 1 1.041 1.042 (n i * x j) (rvec n i * rvec x j) := fun i j =>
    (Ap.mul ok (ap_of hn.unit i) (ap_of hx.unit j) (by norm_num) (by norm_num) (by norm_num) (by norm_num) (by norm_num)).mono zero_le_one
      (by norm_num) (by norm_num)
  have c : ∀ i j k l, Ap 1 4.168 2.088 (n i * x j - n k * x l) (rvec n i * rvec x j - rvec n k * rvec x l) := fun i j k l =>
    (Ap.sub ok (m i j) (m k l) (by norm_num)).mono zero_le_one (by norm_num) (by norm_num)
  have A : ∀ i, Ap 1 4.168 2.088 (cross n x i) (cross (rvec n) (rvec x) i) := fun i => by
    fin_cases i
    · exact c 1 2 2 1
    · exact c 2 0 0 2
    · exact c 0 1 1 0
  have h1 : length (rvec (cross n x) - cross (rvec n) (rvec x)) ≤ 1.7321 * (4.168 * P.u) := length_of_comp fun i => by
    have := (A i).err; rw [mul_one] at this; exact this
  have k2 := length_cross_le (rvec n) (rvec x - b)
  have k3 : length (rvec n) * length (rvec x - b) ≤ 1.00002 * (1.7321 * (7.5 * P.u)) :=
    mul_le_mul hn.len hx.dist (length_nonneg _) (by norm_num)
  have e2 : rvec (cross n x) - cross (rvec n) b = (rvec (cross n x) - cross (rvec n) (rvec x)) + cross (rvec n) (rvec x - b) := by
    apply ext3 <;> simp only [Pi.add_apply, Pi.sub_apply, cross_0, cross_1, cross_2] <;> ring
  refine ⟨fun i => ⟨(A i).fin, ?_⟩, ?_⟩
  · have := (A i).le
    linarith
  · rw [e2]
    refine (length_add_le _ _).trans ?_
    linarith

/-- The two axes in the plane: almost orthonormal, and almost perpendicular to the normal. -/
theorem frame (hP : P = binary32 ∨ P = binary64) {s : Flt P.fmt → Flt P.fmt} (hs : FaithfulSqrt P s) (junk : ℕ → Flt P.fmt × ℕ) (hn : NearTo n a ε) :
    ∃ xh yh : Vec ℝ 3, dot xh yh = 0 ∧ dot xh (rvec n) = 0 ∧ dot yh (rvec n) = 0 ∧
      NearTo (normalizeG s (planeAxis junk n)) xh (7.5 * P.u) ∧
      NearTo (normalizeG s (cross n (normalizeG s (planeAxis junk n)))) yh (48 * P.u) ∧
      isUnitG s (normalizeG s (planeAxis junk n)) P.almostZero = true ∧
      isUnitG s (normalizeG s (cross n (normalizeG s (planeAxis junk n)))) P.almostZero = true := by
  have hp := fmt_p hP
  have hu := fmt_u hP
  have u0 := Ap.u_pos P
  have lv := abs_le.1 ((abs_length_sub (rvec n) a).trans hn.dist)
  rw [unit_len hn.2.1] at lv
  have he := hn.2.2.2
  have nlo : 0.9999 ≤ length (rvec n) := by linarith
  have np : 0 < length (rvec n) := by linarith
  obtain ⟨A1, A2, A3⟩ := axis_spec junk hn
  obtain ⟨f1, f2⟩ := can_normalise hp A1 (l := 0.5) (by linarith) (by norm_num) A3
  have r0 := realLen_pos (by norm_num) f2
  have X := norm_axis hp hs f1 f2
  have hx : NearTo (normalizeG s (planeAxis junk n)) (dir (planeAxis junk n)) (7.5 * P.u) :=
    ⟨fun i => (X i).1, dir_unit r0, fun i => (X i).2, by linarith⟩
  have xn : dot (dir (planeAxis junk n)) (rvec n) = 0 := by
    rw [dir_scale r0] at A2
    have : realLen (planeAxis junk n) * dot (dir (planeAxis junk n)) (rvec n) = 0 := by
      rw [← A2]; simp only [dot3, vscale]; ring
    exact (mul_eq_zero.1 this).resolve_left r0.ne'
  set x := normalizeG s (planeAxis junk n)
  set xh := dir (planeAxis junk n)
  obtain ⟨B1, B2⟩ := cross_axis hp hn hx
  have zl : length (cross (rvec n) xh) = length (rvec n) := by
    have h := length_cross_sq (rvec n) xh
    rw [hx.2.1, mul_one, show dot (rvec n) xh = 0 by rw [← xn]; simp only [dot3]; ring, ← length_sq] at h
    have := length_nonneg (cross (rvec n) xh)
    nlinarith
  have wl := abs_le.1 ((abs_length_sub (rvec (cross n x)) (cross (rvec n) xh)).trans B2)
  rw [zl] at wl
  obtain ⟨g1, g2⟩ := can_normalise hp B1 (l := 0.5) (by linarith) (by norm_num) (by linarith)
  have Y := norm_axis hp hs g1 g2
  have D := fun i => dir_close (by rw [zl]; exact np) (by linarith) B2 i
  rw [zl] at D
  have Db : 2 * (20.22 * P.u) / length (rvec n) ≤ 40.5 * P.u := by
    rw [div_le_iff₀ np]; nlinarith
  have yu : dot (fun i => cross (rvec n) xh i / length (rvec n)) (fun i => cross (rvec n) xh i / length (rvec n)) = 1 := by
    have := length_sq (cross (rvec n) xh)
    rw [zl, dot3] at this
    rw [dot3]
    field_simp
    linarith
  have hy : NearTo (normalizeG s (cross n x)) (fun i => cross (rvec n) xh i / length (rvec n)) (48 * P.u) :=
    ⟨fun i => (Y i).1, yu, fun i => by
      have h1 := abs_le.1 (Y i).2; have h2 := abs_le.1 ((D i).trans Db)
      exact abs_le.2 ⟨by linarith, by linarith⟩, by linarith⟩
  refine ⟨xh, _, ?_, xn, ?_, hx, hy, passes_unit hP hs hx, passes_unit hP hs hy⟩
  · simp only [dot3, cross_0, cross_1, cross_2]; ring
  · simp only [dot3, cross_0, cross_1, cross_2]; ring

end FltPP
end vm
