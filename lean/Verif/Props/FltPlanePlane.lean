import Verif.Lemmas.FltPlanePlane
import Verif.Props.FltPlaneAt
import Verif.Props.Intersect
import Verif.Props.VecExtra

/-! C148: the intersection of two planes in IEEE arithmetic. -/

set_option linter.unusedSectionVars false
set_option linter.unusedSimpArgs false

namespace vm
open BinPar FltTo FltAng FltRot
variable {P : BinPar}

namespace FltPX

theorem not_nan {S : ℕ} {v : Vec (Flt P.fmt) S} (h : ∀ i, (v i).isFinite) : visNan v = false := by
  rw [Bool.eq_false_iff, ne_eq, C91_is_nan]
  rintro ⟨i, hi⟩
  have := h i
  rw [hi] at this
  exact this

/-- The components of the normals are finite and at most one. -/
def Small (n : Vec (Flt P.fmt) 3) : Prop := ∀ i, (n i).isFinite ∧ |(n i).val| ≤ 1

theorem Small.ap {n : Vec (Flt P.fmt) 3} (h : Small n) (i : Fin 3) : Ap 1 0 1 (n i) (rvec n i) :=
  Ap.exact (h i).1 (by rw [mul_one]; exact_mod_cast (h i).2)

/-- The computed cross product. -/
theorem cross_small (hp : 10 ≤ P.p) {v w : Vec (Flt P.fmt) 3} (hv : Small v) (hw : Small w) :
    (∀ i, (cross v w i).isFinite ∧ |((cross v w i).val : ℝ)| ≤ 2.1) ∧ length (rvec (cross v w) - cross (rvec v) (rvec w)) ≤ 6.97 * P.u := by
  have ok := ok_one hp
  have u0 := Ap.u_pos P
  have m : ∀ i j, Ap 1 1.001 1.002 (v i * w j) (rvec v i * rvec w j) := fun i j =>
    (Ap.mul ok (hv.ap i) (hw.ap j) (by norm_num) (by norm_num) (by norm_num) (by norm_num) (by norm_num)).mono zero_le_one
      (by norm_num) (by norm_num)
  have c : ∀ i j k l, Ap 1 4.02 2.01 (v i * w j - v k * w l) (rvec v i * rvec w j - rvec v k * rvec w l) := fun i j k l =>
    (Ap.sub ok (m i j) (m k l) (by norm_num)).mono zero_le_one (by norm_num) (by norm_num)
  have A : ∀ i, Ap 1 4.02 2.01 (cross v w i) (cross (rvec v) (rvec w) i) := fun i => by
    fin_cases i
    · exact c 1 2 2 1
    · exact c 2 0 0 2
    · exact c 0 1 1 0
  have h1 : length (rvec (cross v w) - cross (rvec v) (rvec w)) ≤ 1.7321 * (4.02 * P.u) := length_of_comp fun i => by
    have := (A i).err; rw [mul_one] at this; exact this
  refine ⟨fun i => ⟨(A i).fin, ?_⟩, by linarith⟩
  have := (A i).le
  linarith

/-- The normalised cross product. -/
theorem line_direction (hp : 10 ≤ P.p) {s : Flt P.fmt → Flt P.fmt} (hs : FaithfulSqrt P s) {v w : Vec (Flt P.fmt) 3} (hv : Small v) (hw : Small w)
    (hσ : 16 * P.u ≤ length (cross (rvec v) (rvec w)) ^ 2) (i : Fin 3) :
    (normalizeG s (cross v w) i).isFinite ∧
      |((normalizeG s (cross v w) i).val : ℝ) - cross (rvec v) (rvec w) i / length (cross (rvec v) (rvec w))| ≤
        7.5 * P.u + 14 * P.u / length (cross (rvec v) (rvec w)) := by
  obtain ⟨h1, h2⟩ := cross_small hp hv hw
  have u0 := Ap.u_pos P
  have hu := (ok_one hp).u
  set σ := length (cross (rvec v) (rvec w)) with hσd
  have σ0 : 0 ≤ σ := length_nonneg _
  have σu : 14 * (P.u : ℝ) ≤ σ := by
    refine abs_le_of_sq_le_sq' ?_ σ0 |>.2
    nlinarith
  have σp : 0 < σ := by linarith
  have l := abs_le.1 ((abs_length_sub (rvec (cross v w)) (cross (rvec v) (rvec w))).trans h2)
  have lh : σ / 2 ≤ length (rvec (cross v w)) := by linarith
  obtain ⟨n1, n2⟩ := can_normalise hp h1 (l := σ / 2) (by nlinarith) (by linarith) lh
  obtain ⟨k1, k2⟩ := norm_axis hp hs n1 n2 i
  refine ⟨k1, ?_⟩
  have k3 := FltPP.dir_close (w := cross v w) (z := cross (rvec v) (rvec w)) σp (by linarith) h2 i
  have k4 : 2 * (6.97 * (P.u : ℝ)) / σ ≤ 14 * P.u / σ := by
    apply div_le_div_of_nonneg_right _ σ0
    linarith
  have := abs_sub_le ((normalizeG s (cross v w) i).val : ℝ) (dir (cross v w) i) (cross (rvec v) (rvec w) i / σ)
  linarith

end FltPX
open FltPX

/-- Unless the result is the default line its direction is finite and accurate: it differs from the exact common direction of the planes by at most
`7.5 + 14 / σ` rounding units, where `σ` is the length of the exact cross product of the normals, that is, the sine of the angle between the planes if
the normals have unit length.  Wherever the planes are. -/
theorem C148_direction (hp : 10 ≤ P.p) {s : Flt P.fmt → Flt P.fmt} (hs : FaithfulSqrt P s) (az qnan : Flt P.fmt) (p1 p2 : Plane (Flt P.fmt) 3)
    (h1 : ∀ i, (p1.normal i).isFinite ∧ |(p1.normal i).val| ≤ 1) (h2 : ∀ i, (p2.normal i).isFinite ∧ |(p2.normal i).val| ≤ 1)
    (hσ : 16 * (2 : ℝ) ^ (-(P.p : ℤ)) ≤ length (cross (rvec p1.normal) (rvec p2.normal)) ^ 2) :
    intersectPlanePlaneG s az qnan p1 p2 = ⟨0, 0⟩ ∨ ∀ i,
      ((intersectPlanePlaneG s az qnan p1 p2).direction i).isFinite ∧
      |(((intersectPlanePlaneG s az qnan p1 p2).direction i).val : ℝ) -
        cross (rvec p1.normal) (rvec p2.normal) i / length (cross (rvec p1.normal) (rvec p2.normal))| ≤
        (7.5 + 14 / length (cross (rvec p1.normal) (rvec p2.normal))) * 2 ^ (-(P.p : ℤ)) := by
  have eu : (P.u : ℝ) = 2 ^ (-(P.p : ℤ)) := by unfold BinPar.u; push_cast; rfl
  rw [← eu] at hσ ⊢
  have h := line_direction hp hs h1 h2 hσ
  unfold intersectPlanePlaneG
  simp only
  rw [not_nan fun i => (h i).1]
  simp only [Bool.false_eq_true, if_false]
  split_ifs with hn
  · exact Or.inl rfl
  · refine Or.inr fun i => ⟨(h i).1, (h i).2.trans (le_of_eq ?_)⟩
    ring

/-! ### Parallel planes -/

namespace FltPX

theorem mul_fin {a b : Flt P.fmt} (ha : a.isFinite ∧ |a.val| ≤ 1) (hb : b.isFinite ∧ |b.val| ≤ 1) : (a * b).isFinite := by
  rw [Flt.mul_eq ha.1 hb.1, Flt.round_finite]
  have h1 : |a.val * b.val| ≤ 1 := by rw [abs_mul]; exact mul_le_one₀ ha.2 (abs_nonneg _) hb.2
  have r1 : P.Rep 1 := by
    have := (Flt.rep_val (1 : Flt P.fmt)).1
    rwa [Flt.one_val] at this
  have r1' : P.Rep (-1) := by
    have := (Flt.rep_val (-1 : Flt P.fmt)).1
    rwa [Flt.neg_val, Flt.one_val] at this
  have h2 : |P.fl (a.val * b.val)| ≤ 1 := abs_le.2 ⟨P.le_fl_of_rep r1' (abs_le.1 h1).1, P.fl_le_of_rep r1 (abs_le.1 h1).2⟩
  have h3 := (Flt.rep_val (1 : Flt P.fmt)).2
  rw [Flt.one_val, abs_one] at h3
  exact h2.trans_lt h3

theorem sub_self' {a : Flt P.fmt} (ha : a.isFinite) : a - a = 0 := by
  rw [Flt.sub_eq ha ha, sub_self]
  exact Flt.round_of_rep (Flt.rep_val (0 : Flt P.fmt))

theorem cross_self {n : Vec (Flt P.fmt) 3} (h : Small n) : cross n n = 0 := by
  have k : ∀ i j, n i * n j - n j * n i = 0 := fun i j => by rw [Flt.mul_comm' (n j)]; exact sub_self' (mul_fin (h i) (h j))
  funext i
  fin_cases i
  · exact k 1 2
  · exact k 2 0
  · exact k 0 1

theorem cross_neg {n : Vec (Flt P.fmt) 3} (h : Small n) : cross n (-n) = 0 := by
  have k : ∀ i j, n i * (-n j) - n j * (-n i) = 0 := fun i j => by
    rw [Flt.mul_comm' (n i), Flt.neg_mul', Flt.mul_comm' (n j) (-n i), Flt.neg_mul', Flt.mul_comm' (n j)]
    exact sub_self' (Flt.neg_finite.2 (mul_fin (h i) (h j)))
  funext i
  fin_cases i
  · exact k 1 2
  · exact k 2 0
  · exact k 0 1

theorem zero_div_zero : (0 : Flt P.fmt) / 0 = Flt.nan := by
  show (if (0 : ℚ) = 0 then Flt.infTimes 0 else _ : Flt P.fmt) = _
  simp [Flt.infTimes]

theorem nan_zero {s : Flt P.fmt → Flt P.fmt} (hs : s 0 = 0) : visNan (normalizeG s (0 : Vec (Flt P.fmt) 3)) = true := by
  rw [C91_is_nan]
  refine ⟨0, ?_⟩
  show (0 : Flt P.fmt) / s (0 + 0 * 0 + 0 * 0 + 0 * 0) = _
  rw [Flt.zero_mul_fin Flt.zero_finite, Flt.add_zero', Flt.add_zero', Flt.add_zero', hs, zero_div_zero]

end FltPX

/-- Planes with the same or with opposite normals have no line in common: the result is exactly the default line, in every format, wherever the planes
are and even if they are equal. -/
theorem C148_parallel (P : BinPar) {s : Flt P.fmt → Flt P.fmt} (hs : s 0 = 0) (az qnan : Flt P.fmt) (p1 p2 : Plane (Flt P.fmt) 3)
    (h1 : ∀ i, (p1.normal i).isFinite ∧ |(p1.normal i).val| ≤ 1) (h2 : p2.normal = p1.normal ∨ p2.normal = -p1.normal) :
    intersectPlanePlaneG s az qnan p1 p2 = ⟨0, 0⟩ := by
  have h : cross p1.normal p2.normal = 0 := by
    rcases h2 with h2 | h2 <;> rw [h2]
    · exact cross_self h1
    · exact cross_neg h1
  unfold intersectPlanePlaneG
  simp only
  rw [h, nan_zero hs]
  rfl

/-! ### The point -/

namespace FltPX

/-- The inner product of a computed direction with a normal. -/
theorem den_near (hp : 10 ≤ P.p) {d n : Vec (Flt P.fmt) 3} (hd : ∀ i, (d i).isFinite ∧ |((d i).val : ℝ)| ≤ 1.01) (hn : Small n) :
    (dot d n).isFinite ∧ |((dot d n).val : ℝ) - dot (rvec n) (rvec d)| ≤ 9 * P.u := by
  have ok := ok_one hp
  have u0 := Ap.u_pos P
  have A : ∀ i, Ap 1 0 1.01 (d i) (rvec d i) := fun i => Ap.exact (hd i).1 (by rw [mul_one]; exact (hd i).2)
  have m : ∀ i, Ap 1 1.011 1.012 (d i * n i) (rvec d i * rvec n i) := fun i =>
    (Ap.mul ok (A i) (hn.ap i) (by norm_num) (by norm_num) (by norm_num) (by norm_num) (by norm_num)).mono zero_le_one (by norm_num) (by norm_num)
  have m2 := ((m 0).add ok (m 1) (by norm_num)).mono (k1 := 4.05) (B1 := 2.03) zero_le_one (by norm_num) (by norm_num)
  have m3 := (m2.add ok (m 2) (by norm_num)).mono (k1 := 9) (B1 := 4) zero_le_one (by norm_num) (by norm_num)
  have e : dot d n = d 0 * n 0 + d 1 * n 1 + d 2 * n 2 := FltQt.dot3 d n
  rw [e, vm.dot_comm, vm.dot3]
  exact ⟨m3.fin, by have := m3.err; rw [mul_one] at this; exact this⟩

/-- The numerator of the distance. -/
theorem num_near {X : ℚ} (hX : ApOk P X) {n1 n2 : Vec (Flt P.fmt) 3} {d1 d2 : Flt P.fmt} (h1 : Small n1) (h2 : Small n2)
    (hd1 : d1.isFinite ∧ |d1.val| ≤ X) (hd2 : d2.isFinite ∧ |d2.val| ≤ X) :
    (dot (vscale n2 d2 - vscale n1 d1) n2).isFinite ∧ |((dot (vscale n2 d2 - vscale n1 d1) n2).val : ℝ) -
      (d2.val * dot (rvec n2) (rvec n2) - d1.val * dot (rvec n1) (rvec n2))| ≤ 29 * P.u * X := by
  have hX0 : (0 : ℝ) ≤ X := by linarith [hX.one]
  have c : ∀ {q : ℚ}, |q| ≤ X → |(q : ℝ)| ≤ 1 * (X : ℝ) := by
    intro q h
    rw [one_mul]
    exact_mod_cast h
  have a1 : Ap (X : ℝ) 0 1 d1 d1.val := Ap.exact hd1.1 (c hd1.2)
  have a2 : Ap (X : ℝ) 0 1 d2 d2.val := Ap.exact hd2.1 (c hd2.2)
  have m1 : ∀ i, Ap (X : ℝ) 1.001 1.002 (n1 i * d1) (rvec n1 i * d1.val) := fun i =>
    ((h1.ap i).mul hX a1 (by norm_num) (by norm_num) (by norm_num) (by norm_num) (by norm_num)).mono hX0 (by norm_num) (by norm_num)
  have m2 : ∀ i, Ap (X : ℝ) 1.001 1.002 (n2 i * d2) (rvec n2 i * d2.val) := fun i =>
    ((h2.ap i).mul hX a2 (by norm_num) (by norm_num) (by norm_num) (by norm_num) (by norm_num)).mono hX0 (by norm_num) (by norm_num)
  have s : ∀ i, Ap (X : ℝ) 4.02 2.01 (n2 i * d2 - n1 i * d1) (rvec n2 i * d2.val - rvec n1 i * d1.val) := fun i =>
    ((m2 i).sub hX (m1 i) (by norm_num)).mono hX0 (by norm_num) (by norm_num)
  have m : ∀ i, Ap (X : ℝ) 6.04 2.02 ((n2 i * d2 - n1 i * d1) * n2 i) (rvec n2 i * (rvec n2 i * d2.val - rvec n1 i * d1.val)) := fun i => by
    rw [Flt.mul_comm']
    exact ((h2.ap i).mul hX (s i) (by norm_num) (by norm_num) (by norm_num) (by norm_num) (by norm_num)).mono hX0 (by norm_num) (by norm_num)
  have t2 := ((m 0).add hX (m 1) (by norm_num)).mono (k1 := 16.2) (B1 := 4.05) hX0 (by norm_num) (by norm_num)
  have t3 := (t2.add hX (m 2) (by norm_num)).mono (k1 := 29) (B1 := 7) hX0 (by norm_num) (by norm_num)
  have e : dot (vscale n2 d2 - vscale n1 d1) n2 = (n2 0 * d2 - n1 0 * d1) * n2 0 + (n2 1 * d2 - n1 1 * d1) * n2 1 + (n2 2 * d2 - n1 2 * d1) * n2 2 :=
    FltQt.dot3 _ _
  rw [e]
  refine ⟨t3.fin, le_trans (le_of_eq ?_) t3.err⟩
  congr 1
  rw [vm.dot3, vm.dot3]
  ring

/-- The distance. -/
theorem quotient {X : ℚ} {i : ℝ} (hX : ApOk P X) (hu : (P.u : ℝ) ≤ 1 / 10 ^ 7) (hi : 1 ≤ 1.01 * i) (hY : 64 * (1.01 * (X * i)) < P.bound) {num f : Flt P.fmt}
    (hn : num.isFinite) (hf : f.isFinite) (bn : |(num.val : ℝ)| ≤ 2.005 * X) (bf : 0.8 ≤ f.val * i) (ff : (f.val : ℝ) ≤ 2) :
    (num / f).isFinite ∧ |((num / f).val : ℝ)| ≤ 2.6 * X * i ∧ |((num / f).val : ℝ) * f.val - num.val| ≤ 7 * P.u * X := by
  have hX1 := hX.one
  have u0 := Ap.u_pos P
  have i0 : 0 < i := by linarith
  have f0 : (0 : ℝ) < f.val := by
    by_contra h
    have := mul_nonpos_of_nonpos_of_nonneg (not_lt.1 h) i0.le
    linarith
  have f0' : f.val ≠ 0 := by
    intro h; rw [h] at f0; simp at f0
  rw [fin_div_fin hn hf f0']
  have hq : |((num.val / f.val : ℚ) : ℝ)| ≤ 2.5063 * (X * i) := by
    push_cast
    rw [abs_div, abs_of_pos f0, div_le_iff₀ f0]
    have : (X : ℝ) * 0.8 ≤ X * (f.val * i) := mul_le_mul_of_nonneg_left bf (by linarith)
    linarith
  have Xi : 1 ≤ 1.01 * ((X : ℝ) * i) := by
    have := mul_le_mul hX1 hi (by norm_num) (by linarith)
    linarith
  have e1 := Ap.fl_err_real P (num.val / f.val)
  have he := Ap.eta_small hX
  have uX : P.u * (X : ℝ) ≤ P.u * (X * (1.01 * i)) := mul_le_mul_of_nonneg_left (le_mul_of_one_le_right (by linarith) hi) u0.le
  have hfin : |P.fl (num.val / f.val)| < P.bound := by
    refine fl_lt_bound ?_
    have : (2 * |((num.val / f.val : ℚ) : ℝ)| + 1) < P.bound := by linarith
    exact_mod_cast this
  have hf' : (Flt.round (num.val / f.val) : Flt P.fmt).isFinite := Flt.round_finite.2 hfin
  have hv : (Flt.round (num.val / f.val) : Flt P.fmt).val = P.fl (num.val / f.val) := by rw [P.round_eq hfin]; rfl
  rw [hv]
  refine ⟨hf', ?_, ?_⟩
  · have h1 : P.u * |((num.val / f.val : ℚ) : ℝ)| ≤ 1 / 10 ^ 7 * (2.5063 * (X * i)) := mul_le_mul hu hq (abs_nonneg _) (by norm_num)
    have h2 : P.u * ((X : ℝ) * (1.01 * i)) ≤ 1 / 10 ^ 7 * (X * (1.01 * i)) := mul_le_mul_of_nonneg_right hu (by linarith)
    have h3 := abs_sub_abs_le_abs_sub (P.fl (num.val / f.val) : ℝ) ((num.val / f.val : ℚ) : ℝ)
    nlinarith
  · have e : (P.fl (num.val / f.val) : ℝ) * f.val - num.val = ((P.fl (num.val / f.val) : ℝ) - ((num.val / f.val : ℚ) : ℝ)) * f.val := by
      push_cast
      field_simp
    rw [e, abs_mul, abs_of_pos f0]
    have h1 := mul_le_mul_of_nonneg_right e1 f0.le
    have h2 : |((num.val / f.val : ℚ) : ℝ)| * f.val = |(num.val : ℝ)| := by
      push_cast
      rw [abs_div, abs_of_pos f0, div_mul_cancel₀ _ f0.ne']
    have h3 : P.u * |((num.val / f.val : ℚ) : ℝ)| * f.val ≤ P.u * (2.005 * X) := by
      rw [mul_assoc, h2]; exact mul_le_mul_of_nonneg_left bn u0.le
    have h4 : (P.eta : ℝ) * f.val ≤ 1 / 2000 * (P.u * X) * 2 := mul_le_mul he ff f0.le (by positivity)
    have h5 : 0 ≤ P.u * (X : ℝ) := by positivity
    nlinarith

/-- The point at the distance. -/
theorem point_near {X : ℚ} {i : ℝ} (hX : ApOk P X) (hi : 1 ≤ 1.01 * i) (hY : 64 * (1.01 * (X * i)) < P.bound) {n d : Vec (Flt P.fmt) 3} {d1 t : Flt P.fmt}
    (hn : Small n) (hd : ∀ i, (d i).isFinite ∧ |((d i).val : ℝ)| ≤ 1.001) (hd1 : d1.isFinite ∧ |d1.val| ≤ X) (ht : t.isFinite) (bt : |(t.val : ℝ)| ≤ 2.6 * X * i) :
    (∀ j, (pointAtDistance (vscale n d1) d t j).isFinite) ∧
      length (rvec (pointAtDistance (vscale n d1) d t) - (vscale (rvec n) (d1.val : ℝ) + vscale (rvec d) (t.val : ℝ))) ≤ 13 * P.u * X * i := by
  have hX1 := hX.one
  have u0 := Ap.u_pos P
  have i0 : 0 < i := by linarith
  have XY : (X : ℝ) ≤ 1.01 * (X * i) := by
    have := mul_le_mul_of_nonneg_left hi (by linarith : (0 : ℝ) ≤ X)
    linarith
  have ok : ApOk P (1.01 * (X * i)) := ⟨hX.u, by linarith, hY⟩
  have Y0 : 0 ≤ 1.01 * ((X : ℝ) * i) := by linarith
  have a1 : Ap (1.01 * (X * i)) 0 1 d1 d1.val := Ap.exact hd1.1 (by
    have : |(d1.val : ℝ)| ≤ X := by exact_mod_cast hd1.2
    linarith)
  have a2 : Ap (1.01 * (X * i)) 0 2.58 t t.val := Ap.exact ht (by
    have : 0 ≤ (X : ℝ) * i := by positivity
    linarith)
  have m1 : ∀ j, Ap (1.01 * (X * i)) 1.001 1.002 (n j * d1) (rvec n j * d1.val) := fun j =>
    ((hn.ap j).mul ok a1 (by norm_num) (by norm_num) (by norm_num) (by norm_num) (by norm_num)).mono Y0 (by norm_num) (by norm_num)
  have m2 : ∀ j, Ap (1.01 * (X * i)) 2.584 2.586 (d j * t) (rvec d j * t.val) := fun j =>
    ((Ap.exact (hd j).1 (by rw [mul_one]; exact (hd j).2) : Ap 1 0 1.001 (d j) (rvec d j)).mul ok a2 (by norm_num) (by norm_num) (by norm_num) (by norm_num)
      (by norm_num)).mono Y0 (by norm_num) (by norm_num)
  have s : ∀ j, Ap (1.01 * (X * i)) 7.2 4 (n j * d1 + d j * t) (rvec n j * d1.val + rvec d j * t.val) := fun j =>
    ((m1 j).add ok (m2 j) (by norm_num)).mono Y0 (by norm_num) (by norm_num)
  refine ⟨fun j => (s j).fin, ?_⟩
  have : length (rvec (pointAtDistance (vscale n d1) d t) - (vscale (rvec n) (d1.val : ℝ) + vscale (rvec d) (t.val : ℝ))) ≤
      1.7321 * (7.2 * P.u * (1.01 * (X * i))) := length_of_comp fun j => (s j).err
  have : 0 ≤ (P.u : ℝ) * X * i := by positivity
  linarith

theorem proj_near {X : ℚ} {ε θ : ℝ} (ok : ApOk P X) (p1 p2 : Plane (Flt P.fmt) 3) (h1 : Small p1.normal) (h2 : Small p2.normal) (hX : 1 ≤ X)
    (hd1 : p1.distance.isFinite ∧ |p1.distance.val| ≤ X) (he1 : |1 - dot (rvec p1.normal) (rvec p1.normal)| ≤ ε) (ε0 : 0 ≤ ε)
    (uX : P.u * (X : ℝ) ≤ θ) (εX : ε * (X : ℝ) ≤ θ) (eu : (P.u : ℝ) = 2 ^ (-(P.p : ℤ))) (hθ : θ = (P.u + ε) * (X : ℝ)) (j : Fin 3) :
    (p1.projectVector p2.normal j).isFinite ∧ |((p1.projectVector p2.normal j).val : ℝ) -
      (rvec p2.normal - vscale (rvec p1.normal) (dot (rvec p1.normal) (rvec p2.normal))) j| ≤ 67 * θ := by
  obtain ⟨k1, k2⟩ := C140_project_vector P ok p1 p2.normal h1 hd1 (fun k => ⟨(h2 k).1, (h2 k).2.trans hX⟩) j
  refine ⟨k1, ?_⟩
  have k3 : ((|(p1.projectVector p2.normal j).val - ((p2.normal j).val - (∑ k, (p2.normal k).val * (p1.normal k).val) * (p1.normal j).val +
    p1.distance.val * (1 - ∑ k, (p1.normal k).val ^ 2) * (p1.normal j).val)| : ℚ) : ℝ) ≤ ((66 * 2 ^ (-(P.p : ℤ)) * X : ℚ) : ℝ) := by
    exact_mod_cast k2
  push_cast at k3
  rw [← eu] at k3
  have e1 : (1 - ∑ k, ((p1.normal k).val : ℝ) ^ 2) = 1 - dot (rvec p1.normal) (rvec p1.normal) := by
    rw [vm.dot3, Fin.sum_univ_three]
    simp only [rvec]; ring
  have e2 : (∑ k, ((p2.normal k).val : ℝ) * (p1.normal k).val) = dot (rvec p1.normal) (rvec p2.normal) := by
    rw [vm.dot3, Fin.sum_univ_three]
    simp only [rvec]; ring
  rw [e1, e2] at k3
  have n1 : |((p1.normal j).val : ℝ)| ≤ 1 := by exact_mod_cast (h1 j).2
  have dX : |(p1.distance.val : ℝ)| ≤ X := by exact_mod_cast hd1.2
  have X0 : (0 : ℝ) ≤ X := by linarith [ok.one]
  have k4 : |(p1.distance.val : ℝ) * (1 - dot (rvec p1.normal) (rvec p1.normal)) * (p1.normal j).val| ≤ X * ε * 1 := by
    rw [abs_mul, abs_mul]
    exact mul_le_mul (mul_le_mul dX he1 (abs_nonneg _) X0) n1 (abs_nonneg _) (by positivity)
  have k5 := abs_le.1 k3
  have k6 := abs_le.1 k4
  show |((p1.projectVector p2.normal j).val : ℝ) - (((p2.normal j).val : ℝ) - (p1.normal j).val * dot (rvec p1.normal) (rvec p2.normal))| ≤ _
  have := Ap.u_pos P
  have : θ = P.u * X + ε * X := by rw [hθ]; ring
  rw [abs_le]
  constructor <;> nlinarith

theorem dir_comp_le {w : Vec (Flt P.fmt) 3} (h0 : 0 < realLen w) (j : Fin 3) : |dir w j| ≤ 1 := by
  have := comp_le_length (dir w) j
  have l1 := length_sq (dir w)
  rw [dir_unit h0] at l1
  have l2 := length_nonneg (dir w)
  have l3 : length (dir w) = 1 := by nlinarith
  linarith

theorem num_le {X : ℚ} {ε : ℝ} {n1 n2 : Vec (Flt P.fmt) 3} {d1 d2 num : Flt P.fmt} (he1 : |1 - dot (rvec n1) (rvec n1)| ≤ ε)
    (he2 : |1 - dot (rvec n2) (rvec n2)| ≤ ε) (hε : ε ≤ 1 / 1000) (hX1 : (1 : ℝ) ≤ X) (hu : (P.u : ℝ) ≤ 1 / 10 ^ 7) (hd1 : |d1.val| ≤ X) (hd2 : |d2.val| ≤ X)
    (q2 : |(num.val : ℝ) - (d2.val * dot (rvec n2) (rvec n2) - d1.val * dot (rvec n1) (rvec n2))| ≤ 29 * P.u * X) : |(num.val : ℝ)| ≤ 2.005 * X := by
  have b1 := near_len he1 hε
  have b2 := near_len he2 hε
  have k1 : |(d2.val : ℝ) * dot (rvec n2) (rvec n2)| ≤ X * 1.001 := by
    rw [abs_mul, abs_of_nonneg (by linarith : 0 ≤ dot (rvec n2) (rvec n2))]
    exact mul_le_mul (by exact_mod_cast hd2) b2.2.2 (by linarith) (by linarith)
  have k2 : |(d1.val : ℝ) * dot (rvec n1) (rvec n2)| ≤ X * (1.001 * 1.001) := by
    rw [abs_mul]
    exact mul_le_mul (by exact_mod_cast hd1) ((abs_dot_le _ _).trans (mul_le_mul b1.1 b2.1 (length_nonneg _) (by norm_num))) (abs_nonneg _) (by linarith)
  have k3 := abs_le.1 q2
  have k4 := abs_le.1 k1
  have k5 := abs_le.1 k2
  have k6 : P.u * (X : ℝ) ≤ 1 / 10 ^ 7 * X := mul_le_mul_of_nonneg_right hu (by linarith)
  rw [abs_le]
  constructor <;> linarith

end FltPX

/-- The point on the line is accurate for planes at a moderate distance.  Let the components of the normals be at most one, their squared lengths within
`ε ≤ 1/1000` of one, the distances at most `X ≥ 1`, and let `σ ≥ 1/200` be the length of the exact cross product of the normals, with `2000 (2⁻ᵖ + ε) X ≤ σ²`.
Then the result is not the default line, the point is finite, it satisfies the equation of the second plane up to `75 (2⁻ᵖ + ε) X / σ` and that of the first
plane up to `400 (2⁻ᵖ + ε) X² / σ²`, and the direction is accurate. -/
theorem C148_point (hP : P = binary32 ∨ P = binary64) {s : Flt P.fmt → Flt P.fmt} (hs : FaithfulSqrt P s) (qnan : Flt P.fmt) (p1 p2 : Plane (Flt P.fmt) 3)
    (h1 : ∀ i, (p1.normal i).isFinite ∧ |(p1.normal i).val| ≤ 1) (h2 : ∀ i, (p2.normal i).isFinite ∧ |(p2.normal i).val| ≤ 1)
    {X : ℚ} {ε σ : ℝ} (hX : 1 ≤ X) (hε : ε ≤ 1 / 1000) (hd1 : p1.distance.isFinite ∧ |p1.distance.val| ≤ X) (hd2 : p2.distance.isFinite ∧ |p2.distance.val| ≤ X)
    (he1 : |1 - dot (rvec p1.normal) (rvec p1.normal)| ≤ ε) (he2 : |1 - dot (rvec p2.normal) (rvec p2.normal)| ≤ ε)
    (hσ : σ = length (cross (rvec p1.normal) (rvec p2.normal))) (σ0 : 1 / 200 ≤ σ) (hs2 : 2000 * (2 ^ (-(P.p : ℤ)) + ε) * X ≤ σ ^ 2) :
    (∀ i, ((intersectPlanePlaneG s P.almostZero qnan p1 p2).point i).isFinite) ∧
    |dot (rvec p1.normal) (rvec (intersectPlanePlaneG s P.almostZero qnan p1 p2).point) - p1.distance.val| ≤
      400 * (2 ^ (-(P.p : ℤ)) + ε) * X ^ 2 / σ ^ 2 ∧
    |dot (rvec p2.normal) (rvec (intersectPlanePlaneG s P.almostZero qnan p1 p2).point) - p2.distance.val| ≤ 75 * (2 ^ (-(P.p : ℤ)) + ε) * X / σ ∧
    ∀ i, ((intersectPlanePlaneG s P.almostZero qnan p1 p2).direction i).isFinite ∧
      |(((intersectPlanePlaneG s P.almostZero qnan p1 p2).direction i).val : ℝ) - cross (rvec p1.normal) (rvec p2.normal) i / σ| ≤
        (7.5 + 14 / σ) * 2 ^ (-(P.p : ℤ)) := by
  have eu : (P.u : ℝ) = 2 ^ (-(P.p : ℤ)) := by unfold BinPar.u; push_cast; rfl
  rw [← eu] at hs2 ⊢
  have hp : 10 ≤ P.p := by rcases hP with rfl | rfl <;> decide
  have u0 := Ap.u_pos P
  have hu : (P.u : ℝ) ≤ 1 / 10 ^ 7 := by
    rcases hP with rfl | rfl <;> rw [eu] <;> norm_num [binary32, binary64]
  have hub : 10 ^ 9 ≤ P.u * (P.bound : ℝ) := by
    have : P.u * P.bound = 2 ^ P.qmax := by
      unfold BinPar.u BinPar.bound
      rw [← zpow_add₀ (by norm_num)]
      congr 1
      ring
    have h : (10 : ℚ) ^ 9 ≤ P.u * P.bound := by
      rw [this]
      have : (2 : ℚ) ^ (30 : ℤ) ≤ 2 ^ P.qmax := zpow_le_zpow_right₀ (by norm_num) (by rcases hP with rfl | rfl <;> decide)
      refine le_trans (by norm_num) this
    exact_mod_cast h
  have haz : P.almostZero.isFinite ∧ 0 ≤ P.almostZero.val ∧ (P.almostZero.val : ℝ) ≤ 0.0011 := by
    rcases hP with rfl | rfl
    · refine ⟨almostZero32.1, ?_, ?_⟩ <;> rw [almostZero32.2] <;> norm_num
    · refine ⟨almostZero64.1, ?_, ?_⟩ <;> rw [almostZero64.2] <;> norm_num
  have hX1 : (1 : ℝ) ≤ X := by exact_mod_cast hX
  have ε0 : 0 ≤ ε := (abs_nonneg _).trans he1
  -- the sine
  have σp : 0 < σ := by linarith
  have σ1 : σ ≤ 1.01 := by rw [hσ]; exact cross_len_le he1 he2 hε
  set i := 1 / σ with hi
  have i0 : 0 < i := by positivity
  have i1 : 1 ≤ 1.01 * i := by rw [hi, mul_one_div, le_div_iff₀ σp]; linarith
  have i2 : i ≤ 200 := by rw [hi, div_le_iff₀ σp]; linarith
  have σi : σ * i = 1 := by rw [hi]; field_simp
  set θ := (P.u + ε) * (X : ℝ) with hθ
  have hs3 : 2000 * θ ≤ σ ^ 2 := by rw [hθ, ← mul_assoc]; exact hs2
  have uX : P.u * (X : ℝ) ≤ θ := mul_le_mul_of_nonneg_right (by linarith) (by linarith)
  have εX : ε * (X : ℝ) ≤ θ := mul_le_mul_of_nonneg_right (by linarith) (by linarith)
  have uθ : (P.u : ℝ) ≤ θ := (le_mul_of_one_le_right u0.le hX1).trans uX
  have εθ : ε ≤ θ := (le_mul_of_one_le_right ε0 hX1).trans εX
  have σsq : σ ^ 2 ≤ 1.1 := by nlinarith [σ1, σp]
  have uX1 : P.u * (X : ℝ) ≤ 1 := by linarith
  have hb : (X : ℝ) * 10 ^ 8 < P.bound := by
    have h : P.u * ((X : ℝ) * 10 ^ 8) < P.u * P.bound := by
      have : P.u * ((X : ℝ) * 10 ^ 8) = P.u * X * 10 ^ 8 := by ring
      linarith
    exact lt_of_mul_lt_mul_left h u0.le
  have ok : ApOk P X := ⟨by linarith, hX1, by linarith⟩
  have Xi : (X : ℝ) * i ≤ X * 200 := mul_le_mul_of_nonneg_left i2 (by linarith)
  have hY : 64 * (1.01 * ((X : ℝ) * i)) < P.bound := by linarith
  -- the direction of the line
  have hl := line_direction hp hs h1 h2 (by rw [← hσ]; linarith)
  -- the projected normal
  have hw := fun j => proj_near ok p1 p2 h1 h2 hX hd1 he1 ε0 uX εX eu hθ j
  have hw2 : length (rvec (p1.projectVector p2.normal) - (rvec p2.normal - vscale (rvec p1.normal) (dot (rvec p1.normal) (rvec p2.normal)))) ≤ 118 * θ := by
    have := length_of_comp fun j => (hw j).2
    refine le_trans this ?_
    have : 0 ≤ θ := by linarith
    linarith
  obtain ⟨w1, w2, w3, w4⟩ := projected he1 he2 hε εθ (by rw [← hσ]; exact σp) (by rw [← hσ]; exact hs3) hw2
  rw [← hσ] at w1 w2 w4
  obtain ⟨c1, c2⟩ := can_normalise hp (x := p1.projectVector p2.normal) (l := 0.004)
    (fun j => ⟨(hw j).1, (comp_le_length (rvec (p1.projectVector p2.normal)) j).trans (by linarith)⟩) (by norm_num; linarith) (by norm_num) (by linarith)
  have hd := norm_axis hp hs c1 c2
  set d := normalizeG s (p1.projectVector p2.normal) with hdd
  have hdl : length (rvec d - vscale (rvec (p1.projectVector p2.normal)) (1 / length (rvec (p1.projectVector p2.normal)))) ≤ 13 * P.u := by
    have h : length (rvec d - dir (p1.projectVector p2.normal)) ≤ 1.7321 * (7.5 * P.u) := length_of_comp fun j => (hd j).2
    have e : dir (p1.projectVector p2.normal) = vscale (rvec (p1.projectVector p2.normal)) (1 / length (rvec (p1.projectVector p2.normal))) := by
      funext j
      simp only [dir, vscale, rvec, realLen_rvec]
      ring
    rw [← e]
    linarith
  obtain ⟨f1, f2⟩ := direction_dots u0.le hu he1 he2 hε uθ σ0 σ1 w1 w2 w3 w4 hdl
  have dl : ∀ j, |((d j).val : ℝ)| ≤ 1.001 := by
    intro j
    have k1 := (hd j).2
    have k2 := dir_comp_le (w := p1.projectVector p2.normal) (by rw [realLen_rvec]; linarith) j
    have k3 := abs_sub_abs_le_abs_sub ((d j).val : ℝ) (dir (p1.projectVector p2.normal) j)
    linarith
  -- the distance
  obtain ⟨g1, g2⟩ := den_near hp (fun j => ⟨(hd j).1, (dl j).trans (by norm_num)⟩) h2
  have g3 := abs_le.1 g2
  have g4 : 0.8 * σ ≤ ((dot d p2.normal).val : ℝ) := by linarith
  have g5 : ((dot d p2.normal).val : ℝ) ≤ 2 := by
    have := abs_le.1 (abs_dot_le (rvec p2.normal) (rvec d))
    have l2 := (near_len he2 hε).1
    have l3 : length (rvec d) ≤ 1.7321 * 1.001 := length_of_comp dl
    have := mul_le_mul l2 l3 (length_nonneg _) (by norm_num)
    linarith
  have g6 : 0.8 ≤ ((dot d p2.normal).val : ℝ) * i := by
    have := mul_le_mul_of_nonneg_right g4 i0.le
    rwa [mul_assoc, σi, mul_one] at this
  obtain ⟨q1, q2⟩ := num_near ok h1 h2 hd1 hd2
  have q3 := num_le he1 he2 hε hX1 hu hd1.2 hd2.2 q2
  obtain ⟨t1, t2, t3⟩ := quotient ok hu i1 hY q1 g1 q3 g6 g5
  obtain ⟨r1, r2⟩ := point_near ok i1 hY h1 (fun j => ⟨(hd j).1, dl j⟩) hd1 t1 t2
  obtain ⟨z1, z2⟩ := point_on_planes u0.le hX1 he1 he2 hε σp σ1 (by exact_mod_cast hd1.2) (by exact_mod_cast hd2.2) f2 g2 q2 t3 t2 r2
  -- the result
  have hz : isZero (dot d p2.normal) P.almostZero = false := by
    rw [isZero_flt g1 haz.1 haz.2.1]
    apply decide_eq_false
    intro h
    have h' : |((dot d p2.normal).val : ℝ)| ≤ P.almostZero.val := by exact_mod_cast h
    rw [abs_of_pos (by linarith)] at h'
    linarith [haz.2.2]
  have hres : intersectPlanePlaneG s P.almostZero qnan p1 p2 = ⟨pointAtDistance (vscale p1.normal p1.distance) d
      (dot (vscale p2.normal p2.distance - vscale p1.normal p1.distance) p2.normal / dot d p2.normal), normalizeG s (cross p1.normal p2.normal)⟩ := by
    unfold intersectPlanePlaneG
    simp only
    rw [not_nan fun j => (hl j).1]
    simp only [Bool.false_eq_true, if_false]
    unfold intersectLinePlane
    simp only [← hdd]
    rw [hz]
    simp only [Bool.false_eq_true, if_false, Option.getD_some]
    rw [if_neg]
    · rfl
    · rw [Bool.not_eq_true]
      exact not_nan r1
  rw [hres]
  refine ⟨r1, z2.trans (le_of_eq ?_), z1.trans (le_of_eq ?_), fun j => ⟨(hl j).1, ?_⟩⟩
  · field_simp
  · field_simp
  · rw [hσ]
    refine (hl j).2.trans (le_of_eq ?_)
    ring

/-! ### Far planes -/

namespace FltPX

theorem zero_or_nan (x c y : Flt P.fmt) : (0 + x * c + x * (-c) + y * 0 = 0) ∨ (0 + x * c + x * (-c) + y * 0 = Flt.nan) := by
  have h1 : x * c + x * (-c) = 0 ∨ x * c + x * (-c) = Flt.nan := by
    rw [Flt.mul_comm' x (-c), Flt.neg_mul', Flt.mul_comm' c x]
    generalize x * c = z
    rcases z with _ | _ | _ | ⟨z, hz⟩
    · exact Or.inr rfl
    · exact Or.inr rfl
    · exact Or.inr rfl
    · exact Or.inl (sub_self' (a := (Flt.fin z hz : Flt P.fmt)) trivial)
  have h2 : y * 0 = 0 ∨ y * 0 = Flt.nan := by
    rcases y with _ | _ | _ | ⟨y, hy⟩
    · exact Or.inr rfl
    · refine Or.inr ?_
      show Flt.infTimes (-0) = _
      simp [Flt.infTimes]
    · refine Or.inr ?_
      show Flt.infTimes 0 = _
      simp [Flt.infTimes]
    · exact Or.inl (Flt.mul_zero_fin (a := (Flt.fin y hy : Flt P.fmt)) trivial)
  rw [Flt.zero_add']
  rcases h1 with h1 | h1 <;> rcases h2 with h2 | h2 <;> rw [h1, h2]
  · exact Or.inl (Flt.zero_add' _)
  · exact Or.inr rfl
  · exact Or.inr rfl
  · exact Or.inr rfl

theorem div_nan (x : Flt P.fmt) : x / Flt.nan = Flt.nan := by cases x <;> rfl
theorem mul_nan (x : Flt P.fmt) : x * Flt.nan = Flt.nan := by cases x <;> rfl
theorem add_nan (x : Flt P.fmt) : x + Flt.nan = Flt.nan := by cases x <;> rfl

end FltPX

/-- Far from the origin the line of intersection is lost, in every format with at least four exponents of integers: the plane with the normal (c, c, 0) at
the distance 2ᵖ⁺³ and the plane through the origin with the normal (c, -c, 0) are exactly perpendicular, but the result is the default line, as for parallel
planes.  With `c` the square root of 1/2 rounded to the format the normals have unit length up to one rounding unit; the claim is for every `c`. -/
theorem C148_far_fails (P : BinPar) (hq : 4 ≤ P.qmax) (s : Flt P.fmt → Flt P.fmt) (az : Flt P.fmt) (haz : az.isFinite) (h0 : 0 ≤ az.val)
    (c : Flt P.fmt) (hc : c.isFinite) (h1 : 1 / 2 ≤ c.val) (h2 : c.val < 1) :
    ∃ d : Flt P.fmt, d.isFinite ∧ d.val = 2 ^ (P.p + 3) ∧
      dot (rvec ![c, c, 0]) (rvec ![c, -c, 0]) = 0 ∧
      intersectPlanePlaneG s az Flt.nan ⟨d, ![c, c, 0]⟩ ⟨0, ![c, -c, 0]⟩ = ⟨0, 0⟩ := by
  have hb : (2 : ℚ) ^ (P.p + 3) < P.bound := by
    unfold BinPar.bound
    rw [← zpow_natCast]
    exact zpow_lt_zpow_right₀ (by norm_num) (by push_cast; omega)
  have hr : P.fmt.rep (2 ^ (P.p + 3)) := by
    refine ⟨?_, by rw [abs_of_pos (by positivity)]; exact hb⟩
    refine ⟨1, P.p + 3, by rw [← zpow_natCast]; push_cast; ring, ?_, by have := P.hmin; omega⟩
    rw [abs_one]
    exact one_lt_pow₀ (by norm_num) (by have := P.hp; omega)
  refine ⟨Flt.fin _ hr, trivial, rfl, ?_, ?_⟩
  · rw [vm.dot3]
    show (c.val : ℝ) * c.val + (c.val : ℝ) * ((-c : Flt P.fmt).val : ℝ) + ((0 : Flt P.fmt).val : ℝ) * ((0 : Flt P.fmt).val : ℝ) = 0
    rw [Flt.neg_val, Flt.zero_val]
    push_cast
    ring
  · set d : Flt P.fmt := Flt.fin _ hr with hd
    have ha : (c * d).isFinite ∧ (c * d).val = c.val * 2 ^ (P.p + 3) := by
      obtain ⟨m, e, he, hm, hq'⟩ := (Flt.rep_val c).1
      have hrep : P.fmt.rep (c.val * 2 ^ (P.p + 3)) := by
        refine ⟨⟨m, e + (P.p + 3), ?_, hm, by omega⟩, ?_⟩
        · rw [he, zpow_add₀ (by norm_num), mul_assoc]
          congr 2
        · rw [abs_of_pos (by positivity)]
          refine lt_trans ?_ hb
          nlinarith [pow_pos (show (0 : ℚ) < 2 by norm_num) (P.p + 3)]
      have : c * d = Flt.fin _ hrep := by
        rw [Flt.mul_eq hc (show d.isFinite from trivial)]
        exact Flt.round_of_rep hrep
      rw [this]
      exact ⟨trivial, rfl⟩
    have key : ∀ x : Flt P.fmt, x.isFinite → |x.val| ≤ 1 → c * d + x = c * d := by
      intro x hs hs1
      rw [Flt.add_eq ha.1 hs]
      have e1 : P.fl ((c * d).val + x.val) = (c * d).val := by
        refine TextL.fl_close (Flt.rep_val _).1 ?_
        rw [add_sub_cancel_left, ha.2, abs_of_pos (a := c.val * 2 ^ (P.p + 3)) (by positivity), pow_add, pow_add]
        have h2p := pow_pos (show (0 : ℚ) < 2 by norm_num) P.p
        refine lt_of_le_of_lt (mul_le_mul_of_nonneg_left hs1 (by positivity)) ?_
        nlinarith
      rw [P.round_eq (by rw [e1]; exact (Flt.rep_val _).2)]
      obtain ⟨k1, k2⟩ := Flt.eq_fin ha.1
      conv_rhs => rw [k2]
      simp only [e1]
    have c1 : |c.val| ≤ 1 := by rw [abs_of_pos (by linarith)]; exact h2.le
    have w : (⟨d, ![c, c, 0]⟩ : Plane (Flt P.fmt) 3).projectVector ![c, -c, 0] 0 = (⟨d, ![c, c, 0]⟩ : Plane (Flt P.fmt) 3).projectVector ![c, -c, 0] 1 := by
      show (c * d + c) - c * (0 + (c * d + c) * c + (c * d + -c) * c + (0 * d + 0) * 0) + c * d - c * d =
        (c * d + -c) - c * (0 + (c * d + c) * c + (c * d + -c) * c + (0 * d + 0) * 0) + c * d - c * d
      rw [key c hc c1, key (-c) (Flt.neg_finite.2 hc) (by rw [Flt.neg_val, abs_neg]; exact c1)]
    set v := normalizeG s ((⟨d, ![c, c, 0]⟩ : Plane (Flt P.fmt) 3).projectVector ![c, -c, 0]) with hv
    have v01 : v 1 = v 0 := by
      show (⟨d, ![c, c, 0]⟩ : Plane (Flt P.fmt) 3).projectVector ![c, -c, 0] 1 / _ = (⟨d, ![c, c, 0]⟩ : Plane (Flt P.fmt) 3).projectVector ![c, -c, 0] 0 / _
      rw [w]
    have hdot : dot v ![c, -c, 0] = 0 ∨ dot v ![c, -c, 0] = Flt.nan := by
      have e : dot v ![c, -c, 0] = 0 + v 0 * c + v 1 * (-c) + v 2 * 0 := rfl
      rw [e, v01]
      exact zero_or_nan _ _ _
    have hdist : (intersectLinePlane az ⟨(⟨d, ![c, c, 0]⟩ : Plane (Flt P.fmt) 3).anchor, v⟩ ⟨0, ![c, -c, 0]⟩).getD Flt.nan = Flt.nan := by
      unfold intersectLinePlane
      simp only
      rcases hdot with h | h
      · rw [h, isZero_flt Flt.zero_finite haz h0, Flt.zero_val, abs_zero, decide_eq_true h0, if_pos rfl]
        rfl
      · rw [h]
        split_ifs
        · rfl
        · rw [div_nan]; rfl
    unfold intersectPlanePlaneG
    simp only [← hv]
    rw [hdist]
    have hn : visNan (pointAtDistance (⟨d, ![c, c, 0]⟩ : Plane (Flt P.fmt) 3).anchor v Flt.nan) = true := by
      rw [C91_is_nan]
      refine ⟨0, ?_⟩
      show _ + v 0 * Flt.nan = Flt.nan
      rw [mul_nan, add_nan]
    rw [hn]
    simp

/-! ### The exact model -/

/-- Over the real numbers the function of this file is the exact one, whenever that one finds a line. -/
theorem C148_model (az qnan : ℝ) (p1 p2 : Plane ℝ 3) (h : intersectPlanePlane az p1 p2 ≠ ⟨0, 0⟩) :
    intersectPlanePlaneG Real.sqrt az qnan p1 p2 = intersectPlanePlane az p1 p2 := by
  have nn : ∀ v : Vec ℝ 3, visNan v = false := by
    intro v
    unfold visNan isNan
    simp
  unfold intersectPlanePlane normalize at h ⊢
  by_cases h1 : length (cross p1.normal p2.normal) = 0
  · rw [if_pos h1] at h; exact absurd rfl h
  rw [if_neg h1] at h ⊢
  by_cases h2 : length (p1.projectVector p2.normal) = 0
  · rw [if_pos h2] at h; exact absurd rfl h
  rw [if_neg h2] at h ⊢
  simp only at h ⊢
  unfold intersectPlanePlaneG
  simp only [nn, Bool.false_eq_true, if_false]
  have e1 : normalizeG Real.sqrt (cross p1.normal p2.normal) = vdivs (cross p1.normal p2.normal) (length (cross p1.normal p2.normal)) := rfl
  have e2 : normalizeG Real.sqrt (p1.projectVector p2.normal) = vdivs (p1.projectVector p2.normal) (length (p1.projectVector p2.normal)) := rfl
  rw [e1, e2]
  cases hi : intersectLinePlane az ⟨p1.anchor, vdivs (p1.projectVector p2.normal) (length (p1.projectVector p2.normal))⟩ p2 with
  | none => rw [hi] at h; exact absurd rfl h
  | some t => rfl

/-! ### A case -/

namespace FltPX

/-- The double 181 / 256, a little less than the square root of 1/2. -/
def c181 : Flt binary64.fmt := Flt.fin (F := binary64.fmt) (181 / 256) ⟨⟨181, -8, by norm_num, by norm_num [binary64], by decide⟩, by
  refine lt_bound64 ?_
  norm_num⟩

theorem c181_ok : c181.isFinite ∧ c181.val = 181 / 256 := ⟨trivial, rfl⟩

/-- The planes z = 1 and y + z = 0, the second one with the normal (0, c, c). -/
def plane1 : Plane (Flt binary64.fmt) 3 := ⟨1, ![0, 0, 1]⟩
def plane2 : Plane (Flt binary64.fmt) 3 := ⟨0, ![0, c181, c181]⟩

theorem rvec1 : rvec plane1.normal = ![0, 0, 1] := by
  funext i
  fin_cases i
  · show (((0 : Flt binary64.fmt).val : ℚ) : ℝ) = 0; rw [Flt.zero_val]; norm_num
  · show (((0 : Flt binary64.fmt).val : ℚ) : ℝ) = 0; rw [Flt.zero_val]; norm_num
  · show (((1 : Flt binary64.fmt).val : ℚ) : ℝ) = 1; rw [Flt.one_val]; norm_num

theorem rvec2 : rvec plane2.normal = ![0, 181 / 256, 181 / 256] := by
  funext i
  fin_cases i
  · show (((0 : Flt binary64.fmt).val : ℚ) : ℝ) = 0; rw [Flt.zero_val]; norm_num
  · show ((c181.val : ℚ) : ℝ) = 181 / 256; rw [c181_ok.2]; norm_num
  · show ((c181.val : ℚ) : ℝ) = 181 / 256; rw [c181_ok.2]; norm_num

theorem small1 : Small plane1.normal := fun i => by
  fin_cases i
  · exact ⟨Flt.zero_finite, by show |(0 : Flt binary64.fmt).val| ≤ 1; rw [Flt.zero_val]; norm_num⟩
  · exact ⟨Flt.zero_finite, by show |(0 : Flt binary64.fmt).val| ≤ 1; rw [Flt.zero_val]; norm_num⟩
  · exact ⟨Flt.one_finite, by show |(1 : Flt binary64.fmt).val| ≤ 1; rw [Flt.one_val]; norm_num⟩

theorem small2 : Small plane2.normal := fun i => by
  fin_cases i
  · exact ⟨Flt.zero_finite, by show |(0 : Flt binary64.fmt).val| ≤ 1; rw [Flt.zero_val]; norm_num⟩
  · exact ⟨trivial, by show |c181.val| ≤ 1; rw [c181_ok.2]; norm_num⟩
  · exact ⟨trivial, by show |c181.val| ≤ 1; rw [c181_ok.2]; norm_num⟩

theorem sine : (181 / 256 : ℝ) = length (cross (rvec plane1.normal) (rvec plane2.normal)) := by
  have h := length_sq (cross (rvec plane1.normal) (rvec plane2.normal))
  have h0 := length_nonneg (cross (rvec plane1.normal) (rvec plane2.normal))
  have e : cross (rvec plane1.normal) (rvec plane2.normal) = ![-(181 / 256), 0, 0] := by
    rw [rvec1, rvec2]
    funext i
    fin_cases i
    · show (0 : ℝ) * (181 / 256) - 1 * (181 / 256) = -(181 / 256); norm_num
    · show (1 : ℝ) * 0 - 0 * (181 / 256) = 0; norm_num
    · show (0 : ℝ) * (181 / 256) - 0 * 0 = 0; norm_num
  rw [e] at h h0 ⊢
  rw [vm.dot3] at h
  have h' : length (![-(181 / 256), 0, 0] : Vec ℝ 3) ^ 2 = (181 / 256) ^ 2 := by
    rw [h]
    show -(181 / 256) * -(181 / 256) + 0 * 0 + 0 * 0 = ((181 / 256 : ℝ)) ^ 2
    norm_num
  exact ((pow_left_inj₀ h0 (by norm_num) two_ne_zero).1 h').symm

end FltPX

/-- The hypotheses of `C148_point` hold for planes at an angle of 45 degrees. -/
example {s : Flt binary64.fmt → Flt binary64.fmt} (hs : FaithfulSqrt binary64 s) :
    ∀ i, ((intersectPlanePlaneG s binary64.almostZero Flt.nan plane1 plane2).point i).isFinite :=
  (C148_point (Or.inr rfl) hs Flt.nan plane1 plane2 small1 small2 (X := 1) (ε := 14 / 65536) le_rfl (by norm_num)
    ⟨Flt.one_finite, by show |(1 : Flt binary64.fmt).val| ≤ 1; rw [Flt.one_val]; norm_num⟩
    ⟨Flt.zero_finite, by show |(0 : Flt binary64.fmt).val| ≤ 1; rw [Flt.zero_val]; norm_num⟩
    (by rw [rvec1, vm.dot3]; show |(1 : ℝ) - (0 * 0 + 0 * 0 + 1 * 1)| ≤ _; norm_num)
    (by rw [rvec2, vm.dot3]; show |(1 : ℝ) - (0 * 0 + 181 / 256 * (181 / 256) + 181 / 256 * (181 / 256))| ≤ _; rw [abs_le]; norm_num) sine (by norm_num)
    (by norm_num [binary64])).1

example {s : Flt binary64.fmt → Flt binary64.fmt} (hs : FaithfulSqrt binary64 s) :=
  C148_direction (by decide) hs binary64.almostZero Flt.nan plane1 plane2 small1 small2 (by rw [← sine]; norm_num [binary64])

example {s : Flt binary64.fmt → Flt binary64.fmt} (hs : s 0 = 0) :
    intersectPlanePlaneG s binary64.almostZero Flt.nan plane2 ⟨1, -plane2.normal⟩ = ⟨0, 0⟩ :=
  C148_parallel binary64 hs _ _ plane2 _ small2 (Or.inr rfl)

example (s : Flt binary64.fmt → Flt binary64.fmt) :=
  C148_far_fails binary64 (by decide) s binary64.almostZero almostZero64.1 (by rw [almostZero64.2]; norm_num) c181 trivial
    (by rw [c181_ok.2]; norm_num) (by rw [c181_ok.2]; norm_num)

/-- The exact model finds a line for the planes z = 1 and x = 0. -/
example : intersectPlanePlane (1 / 1000) ⟨1, ![0, 0, 1]⟩ ⟨0, ![1, 0, 0]⟩ ≠ ⟨0, 0⟩ := by
  have e : cross (![0, 0, 1] : Vec ℝ 3) ![1, 0, 0] = ![0, 1, 0] := by
    funext i
    fin_cases i
    · show (0 : ℝ) * 0 - 1 * 0 = 0; norm_num
    · show (1 : ℝ) * 1 - 0 * 0 = 1; norm_num
    · show (0 : ℝ) * 0 - 0 * 1 = 0; norm_num
  have hl : length (![0, 1, 0] : Vec ℝ 3) = 1 := by
    have h := length_sq (![0, 1, 0] : Vec ℝ 3)
    have h0 := length_nonneg (![0, 1, 0] : Vec ℝ 3)
    rw [vm.dot3] at h
    have : length (![0, 1, 0] : Vec ℝ 3) ^ 2 = 0 * 0 + 1 * 1 + 0 * 0 := h
    nlinarith
  have h := (C70_plane_plane (1 / 1000) (by norm_num) ⟨1, ![0, 0, 1]⟩ ⟨0, ![1, 0, 0]⟩ (by rw [vm.dot3]; show (0 : ℝ) * 0 + 0 * 0 + 1 * 1 = 1; norm_num)
    (by rw [vm.dot3]; show (1 : ℝ) * 1 + 0 * 0 + 0 * 0 = 1; norm_num)).1
    (by show _ < length (cross (![0, 0, 1] : Vec ℝ 3) ![1, 0, 0]); rw [e, hl]; norm_num)
  intro h'
  have h2 := h.1
  rw [h'] at h2
  have h3 := length_sq (0 : Vec ℝ 3)
  rw [vm.dot3] at h3
  have h4 : length (0 : Vec ℝ 3) = 1 := h2
  rw [h4] at h3
  norm_num at h3

end vm
