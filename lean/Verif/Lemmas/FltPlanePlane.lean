import Verif.Model.PlanePlaneG
import Verif.Lemmas.FltPlaneProj

/-! The intersection of two planes in real numbers, with perturbed intermediate results. -/

set_option linter.unusedSectionVars false
set_option linter.unusedSimpArgs false

namespace vm
namespace FltPX
open BinPar FltTo
variable {P : BinPar}

/-- The length of a vector that is nearly a unit vector. -/
theorem near_len {n : Vec ℝ 3} {ε : ℝ} (h : |1 - dot n n| ≤ ε) (he : ε ≤ 1 / 1000) : length n ≤ 1.001 ∧ 0.99 ≤ dot n n ∧ dot n n ≤ 1.001 := by
  rw [abs_le] at h
  have h1 : dot n n ≤ 1.001 := by linarith
  refine ⟨?_, by linarith, h1⟩
  have h2 : length n ^ 2 = dot n n := length_sq n
  have h3 : 0 ≤ length n := length_nonneg n
  nlinarith

theorem proj_normal (n1 n2 : Vec ℝ 3) : dot n1 (n2 - vscale n1 (dot n1 n2)) = dot n1 n2 * (1 - dot n1 n1) := by
  simp only [dot3, Pi.sub_apply, vscale]; ring

theorem proj_other (n1 n2 : Vec ℝ 3) :
    dot n2 (n2 - vscale n1 (dot n1 n2)) = length (cross n1 n2) ^ 2 + dot n2 n2 * (1 - dot n1 n1) := by
  rw [length_cross_sq]
  simp only [dot3, Pi.sub_apply, vscale]; ring

theorem proj_self (n1 n2 : Vec ℝ 3) : dot (n2 - vscale n1 (dot n1 n2)) (n2 - vscale n1 (dot n1 n2)) =
    length (cross n1 n2) ^ 2 + (dot n2 n2 - dot n1 n2 ^ 2) * (1 - dot n1 n1) := by
  rw [length_cross_sq]
  simp only [dot3, Pi.sub_apply, vscale]; ring

theorem cross_len_le {n1 n2 : Vec ℝ 3} {ε : ℝ} (h1 : |1 - dot n1 n1| ≤ ε) (h2 : |1 - dot n2 n2| ≤ ε) (he : ε ≤ 1 / 1000) :
    length (cross n1 n2) ≤ 1.01 := by
  have a := near_len h1 he
  have b := near_len h2 he
  refine (length_cross_le _ _).trans ?_
  have := mul_le_mul a.1 b.1 (length_nonneg _) (by norm_num)
  linarith

theorem len_bounds {l σ θ : ℝ} (l0 : 0 ≤ l) (σ0 : 0 < σ) (h : |l ^ 2 - σ ^ 2| ≤ 1.01 * θ) (hσ : 2000 * θ ≤ σ ^ 2) : 0.99 * σ ≤ l ∧ l ≤ 1.01 * σ := by
  have h' := abs_le.1 h
  have hp : 0 < σ ^ 2 := by positivity
  constructor
  · refine abs_le_of_sq_le_sq' ?_ l0 |>.2
    nlinarith
  · refine abs_le_of_sq_le_sq' ?_ (by positivity) |>.2
    nlinarith

/-- The vector that `project_vector` computes, if it differs from the projection by at most `118 θ`. -/
theorem projected {n1 n2 w : Vec ℝ 3} {ε θ : ℝ} (h1 : |1 - dot n1 n1| ≤ ε) (h2 : |1 - dot n2 n2| ≤ ε) (hs : ε ≤ 1 / 1000) (he : ε ≤ θ)
    (σ0 : 0 < length (cross n1 n2)) (hσ : 2000 * θ ≤ length (cross n1 n2) ^ 2) (hw : length (w - (n2 - vscale n1 (dot n1 n2))) ≤ 118 * θ) :
    0.9 * length (cross n1 n2) ≤ length w ∧ length w ≤ 1.1 * length (cross n1 n2) ∧ |dot n1 w| ≤ 120 * θ ∧
      0.9 * length (cross n1 n2) ^ 2 ≤ dot n2 w := by
  have s101 := cross_len_le h1 h2 hs
  have e1 := proj_normal n1 n2
  have e2 := proj_other n1 n2
  have e3 := proj_self n1 n2
  set v := n2 - vscale n1 (dot n1 n2) with hv
  set σ := length (cross n1 n2) with hs'
  have ε0 : 0 ≤ ε := (abs_nonneg _).trans h1
  obtain ⟨a1, a2, a3⟩ := near_len h1 hs
  obtain ⟨b1, b2, b3⟩ := near_len h2 hs
  have la := length_nonneg n1
  have lb := length_nonneg n2
  have cc : |dot n1 n2| ≤ 1.003 := by
    refine (abs_dot_le _ _).trans ?_
    have := mul_le_mul a1 b1 lb (by norm_num)
    linarith
  have θ0 : 0 ≤ θ := ε0.trans he
  have θσ : 118 * θ ≤ 0.06 * σ := by nlinarith
  -- the exact projection
  have v1 : |dot n1 v| ≤ 1.003 * θ := by
    rw [e1, abs_mul]
    exact (mul_le_mul cc h1 (abs_nonneg _) (by norm_num)).trans (by linarith)
  have b3' : |dot n2 n2| ≤ 1.001 := by rw [abs_of_nonneg (by linarith)]; exact b3
  have v2 : |dot n2 v - σ ^ 2| ≤ 1.001 * θ := by
    rw [e2, show σ ^ 2 + dot n2 n2 * (1 - dot n1 n1) - σ ^ 2 = dot n2 n2 * (1 - dot n1 n1) by ring, abs_mul]
    exact (mul_le_mul b3' h1 (abs_nonneg _) (by norm_num)).trans (by linarith)
  have v3 : |length v ^ 2 - σ ^ 2| ≤ 1.01 * θ := by
    rw [length_sq, e3, show σ ^ 2 + (dot n2 n2 - dot n1 n2 ^ 2) * (1 - dot n1 n1) - σ ^ 2 = (dot n2 n2 - dot n1 n2 ^ 2) * (1 - dot n1 n1) by ring, abs_mul]
    have hc : |dot n2 n2 - dot n1 n2 ^ 2| ≤ 1.01 := by
      have hc := abs_le.1 cc
      have : dot n1 n2 ^ 2 ≤ 1.0061 := by nlinarith
      rw [abs_le]; constructor <;> nlinarith [sq_nonneg (dot n1 n2)]
    exact (mul_le_mul hc h1 (abs_nonneg _) (by norm_num)).trans (by linarith)
  have lvs := len_bounds (length_nonneg v) σ0 v3 hσ
  have lwv := abs_le.1 ((abs_length_sub w v).trans hw)
  have spl : ∀ n : Vec ℝ 3, dot n w = dot n v + dot n (w - v) := fun n => by simp only [dot3, Pi.sub_apply]; ring
  have r1 : |dot n1 (w - v)| ≤ 118.2 * θ := by
    refine (abs_dot_le _ _).trans ((mul_le_mul a1 hw (length_nonneg _) (by norm_num)).trans ?_)
    linarith
  have r2 : |dot n2 (w - v)| ≤ 118.2 * θ := by
    refine (abs_dot_le _ _).trans ((mul_le_mul b1 hw (length_nonneg _) (by norm_num)).trans ?_)
    linarith
  refine ⟨by linarith, by linarith, ?_, ?_⟩
  · rw [spl]
    refine (abs_add_le _ _).trans ?_
    linarith
  · rw [spl]
    have := abs_le.1 v2
    have := abs_le.1 r2
    linarith

/-- The inner product of the computed direction with the second normal and with the first one. -/
theorem direction_dots {n1 n2 w d : Vec ℝ 3} {ε u θ σ : ℝ} (u0 : 0 ≤ u) (hu : u ≤ 1 / 10 ^ 7) (h1 : |1 - dot n1 n1| ≤ ε) (h2 : |1 - dot n2 n2| ≤ ε)
    (hs : ε ≤ 1 / 1000) (uθ : u ≤ θ) (σ0 : 1 / 200 ≤ σ) (σ1 : σ ≤ 1.01) (lw : 0.9 * σ ≤ length w) (lw' : length w ≤ 1.1 * σ) (hn1 : |dot n1 w| ≤ 120 * θ)
    (hn2 : 0.9 * σ ^ 2 ≤ dot n2 w) (hd : length (d - vscale w (1 / length w)) ≤ 13 * u) :
    0.81 * σ ≤ dot n2 d ∧ |dot n1 d| ≤ 147 * θ * (1 / σ) := by
  have σp : 0 < σ := by linarith
  have lp : 0 < length w := by linarith
  have spl : ∀ n : Vec ℝ 3, dot n d = dot n w * (1 / length w) + dot n (d - vscale w (1 / length w)) := fun n => by
    simp only [dot3, Pi.sub_apply, vscale]; ring
  have rest : ∀ n : Vec ℝ 3, |1 - dot n n| ≤ ε → |dot n (d - vscale w (1 / length w))| ≤ 13.02 * u := fun n hn => by
    refine (abs_dot_le _ _).trans ((mul_le_mul (near_len hn hs).1 hd (length_nonneg _) (by norm_num)).trans ?_)
    linarith
  constructor
  · rw [spl]
    have r := abs_le.1 (rest n2 h2)
    have : 0.818 * σ ≤ dot n2 w * (1 / length w) := by
      rw [mul_one_div, le_div_iff₀ lp]
      nlinarith
    linarith
  · rw [spl]
    refine (abs_add_le _ _).trans ?_
    have r := rest n1 h1
    have i1 : 1 ≤ 1.01 * (1 / σ) := by rw [mul_one_div, le_div_iff₀ σp]; linarith
    have iw : 1 / length w ≤ 1.112 * (1 / σ) := by
      rw [mul_one_div, div_le_div_iff₀ lp σp]; linarith
    have e1 : |dot n1 w * (1 / length w)| ≤ 120 * θ * (1.112 * (1 / σ)) := by
      rw [abs_mul, abs_of_pos (by positivity : 0 < 1 / length w)]
      exact mul_le_mul hn1 iw (by positivity) (by linarith)
    have e2 : θ ≤ θ * (1.01 * (1 / σ)) := le_mul_of_one_le_right (by linarith) i1
    have e3 : 0 ≤ θ * (1 / σ) := mul_nonneg (by linarith) (by positivity)
    nlinarith

/-- The equations of the planes for the computed point: `d` is the computed direction, `f` its inner product with `n2`, `num` the numerator of the
distance, `t` the distance and `p` the point. -/
theorem point_on_planes {n1 n2 d p : Vec ℝ 3} {d1 d2 f num t ε u X σ : ℝ} (u0 : 0 ≤ u) (hX : 1 ≤ X)
    (h1 : |1 - dot n1 n1| ≤ ε) (h2 : |1 - dot n2 n2| ≤ ε) (hs : ε ≤ 1 / 1000) (σ0 : 0 < σ) (σ1 : σ ≤ 1.01) (hd1 : |d1| ≤ X) (hd2 : |d2| ≤ X)
    (hn1 : |dot n1 d| ≤ 147 * ((u + ε) * X) * (1 / σ)) (hf : |f - dot n2 d| ≤ 9 * u)
    (hnum : |num - (d2 * dot n2 n2 - d1 * dot n1 n2)| ≤ 29 * u * X) (ht : |t * f - num| ≤ 7 * u * X) (hp : |t| ≤ 2.6 * X * (1 / σ))
    (hpt : length (p - (vscale n1 d1 + vscale d t)) ≤ 13 * u * X * (1 / σ)) :
    |dot n2 p - d2| ≤ 75 * ((u + ε) * X) * (1 / σ) ∧ |dot n1 p - d1| ≤ 400 * ((u + ε) * X) * X * (1 / σ) ^ 2 := by
  set i := 1 / σ with hi
  have i0 : 0 ≤ i := by positivity
  have i1 : 1 ≤ 1.01 * i := by rw [hi, mul_one_div, le_div_iff₀ σ0]; linarith
  have ε0 : 0 ≤ ε := (abs_nonneg _).trans h1
  obtain ⟨a1, a2, a3⟩ := near_len h1 hs
  obtain ⟨b1, b2, b3⟩ := near_len h2 hs
  have e2 : dot n2 p - d2 = dot n2 (p - (vscale n1 d1 + vscale d t)) + t * (dot n2 d - f) + (t * f - num) + (num - (d2 * dot n2 n2 - d1 * dot n1 n2)) -
      d2 * (1 - dot n2 n2) := by
    simp only [dot3, Pi.sub_apply, Pi.add_apply, vscale]; ring
  have e1 : dot n1 p - d1 = dot n1 (p - (vscale n1 d1 + vscale d t)) + t * dot n1 d - d1 * (1 - dot n1 n1) := by
    simp only [dot3, Pi.sub_apply, Pi.add_apply, vscale]; ring
  have r : ∀ n : Vec ℝ 3, length n ≤ 1.001 → |dot n (p - (vscale n1 d1 + vscale d t))| ≤ 13.02 * (u * X * i) := fun n hn => by
    refine (abs_dot_le _ _).trans ((mul_le_mul hn hpt (length_nonneg _) (by norm_num)).trans ?_)
    have : 0 ≤ u * X * i := by positivity
    linarith
  have q1 : |d1 * (1 - dot n1 n1)| ≤ X * ε := by rw [abs_mul]; exact mul_le_mul hd1 h1 (abs_nonneg _) (by linarith)
  have q2 : |d2 * (1 - dot n2 n2)| ≤ X * ε := by rw [abs_mul]; exact mul_le_mul hd2 h2 (abs_nonneg _) (by linarith)
  have p1 : |t * (dot n2 d - f)| ≤ 2.6 * X * i * (9 * u) := by
    rw [abs_mul, abs_sub_comm (dot n2 d) f]; exact mul_le_mul hp hf (abs_nonneg _) (by positivity)
  have p2 : |t * dot n1 d| ≤ 2.6 * X * i * (147 * ((u + ε) * X) * i) := by
    rw [abs_mul]; exact mul_le_mul hp hn1 (abs_nonneg _) (by positivity)
  have uXi : 0 ≤ u * X * i := by positivity
  have eXi : 0 ≤ ε * X * i := by positivity
  have m1 : u * X ≤ u * X * (1.01 * i) := le_mul_of_one_le_right (by positivity) i1
  have m2 : ε * X ≤ ε * X * (1.01 * i) := le_mul_of_one_le_right (by positivity) i1
  constructor
  · rw [e2]
    have t1 := abs_add_le (dot n2 (p - (vscale n1 d1 + vscale d t))) (t * (dot n2 d - f))
    have t2 := abs_add_le (dot n2 (p - (vscale n1 d1 + vscale d t)) + t * (dot n2 d - f)) (t * f - num)
    have t3 := abs_add_le (dot n2 (p - (vscale n1 d1 + vscale d t)) + t * (dot n2 d - f) + (t * f - num)) (num - (d2 * dot n2 n2 - d1 * dot n1 n2))
    have t4 := abs_sub (dot n2 (p - (vscale n1 d1 + vscale d t)) + t * (dot n2 d - f) + (t * f - num) + (num - (d2 * dot n2 n2 - d1 * dot n1 n2))) (d2 * (1 - dot n2 n2))
    have := r n2 b1
    have e : 75 * ((u + ε) * X) * i = 75 * (u * X * i) + 75 * (ε * X * i) := by ring
    rw [e]
    linarith
  · rw [e1]
    have t1 := abs_add_le (dot n1 (p - (vscale n1 d1 + vscale d t))) (t * dot n1 d)
    have t2 := abs_sub (dot n1 (p - (vscale n1 d1 + vscale d t)) + t * dot n1 d) (d1 * (1 - dot n1 n1))
    have := r n1 a1
    have Xi : 1 ≤ 1.01 * (X * i) := by nlinarith
    have m3 : u * X * i ≤ u * X * i * (1.01 * (X * i)) := le_mul_of_one_le_right uXi Xi
    have m4 : ε * X * i ≤ ε * X * i * (1.01 * (X * i)) := le_mul_of_one_le_right eXi Xi
    have z1 : 0 ≤ u * X * i * (X * i) := by positivity
    have z2 : 0 ≤ ε * X * i * (X * i) := by positivity
    have e : 400 * ((u + ε) * X) * X * i ^ 2 = 400 * (u * X * i * (X * i)) + 400 * (ε * X * i * (X * i)) := by ring
    have e' : 2.6 * X * i * (147 * ((u + ε) * X) * i) = 382.2 * (u * X * i * (X * i)) + 382.2 * (ε * X * i * (X * i)) := by ring
    rw [e]
    rw [e'] at p2
    linarith

end FltPX
end vm
