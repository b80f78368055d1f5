import Verif.Props.Mat
import Verif.Props.Rotation
import Verif.Lemmas.BBox
import Verif.Props.Sort

/-! # C49 to C53: projections, changes of basis, box and point transformations -/

universe u

set_option linter.unusedSectionVars false
set_option linter.unusedSimpArgs false

namespace vm

variable {K : Type u} [Field K] [LinearOrder K] [IsStrictOrderedRing K]

/-! ### C49 -/

theorem normalized_bounds {l r x : K} (h : l < r) :
    (-1 ≤ 2 / (r - l) * x + -(l + r) / (r - l) ↔ l ≤ x) ∧ (2 / (r - l) * x + -(l + r) / (r - l) ≤ 1 ↔ x ≤ r) := by
  have hd : 0 < r - l := sub_pos.2 h
  have e : 2 / (r - l) * x + -(l + r) / (r - l) = (2 * x - (l + r)) / (r - l) := by ring
  rw [e, le_div_iff₀ hd, div_le_iff₀ hd]
  constructor <;> constructor <;> intro h <;> linarith

/-- `ortho_matrix` maps exactly the points of the view volume into the cube `[-1,1]^3`, with each of the six
sides going to the matching side: a coordinate of the image is at least -1 (at most 1) exactly if the point is on
the inner side of the left, bottom and near (right, top and far) plane. -/
theorem C49_ortho (near far l t r b : K) (h1 : l < r) (h2 : b < t) (h3 : near < far) (p : Vec K 3) :
    let q := mmulPoint (orthoMatrix near far l t r b) p
    ((-1 ≤ q 0 ↔ l ≤ p 0) ∧ (q 0 ≤ 1 ↔ p 0 ≤ r)) ∧
    ((-1 ≤ q 1 ↔ b ≤ p 1) ∧ (q 1 ≤ 1 ↔ p 1 ≤ t)) ∧
    ((-1 ≤ q 2 ↔ near ≤ -p 2) ∧ (q 2 ≤ 1 ↔ -p 2 ≤ far)) ∧
    (∀ x y, mmulPoint (orthoMatrix near far l t r b) x = mmulPoint (orthoMatrix near far l t r b) y → x = y) := by
  have hq : ∀ p, mmulPoint (orthoMatrix near far l t r b) p = ![2 / (r - l) * p 0 + -(l + r) / (r - l),
      2 / (t - b) * p 1 + -(t + b) / (t - b), -2 / (far - near) * p 2 + -(far + near) / (far - near)] := by
    intro p
    rw [orthoMatrix, mat4, mmulPoint_affine]
    apply ext3 <;> simp
  intro q
  have e0 : q 0 = 2 / (r - l) * p 0 + -(l + r) / (r - l) := congrFun (hq p) 0
  have e1 : q 1 = 2 / (t - b) * p 1 + -(b + t) / (t - b) := by rw [add_comm b t]; exact congrFun (hq p) 1
  have e2 : q 2 = 2 / (far - near) * (-p 2) + -(near + far) / (far - near) := by
    rw [add_comm near far]; rw [show q 2 = _ from congrFun (hq p) 2]; simp only [Matrix.cons_val]; ring
  refine ⟨by rw [e0]; exact normalized_bounds h1, by rw [e1]; exact normalized_bounds h2,
    by rw [e2]; exact normalized_bounds h3, ?_⟩
  intro x y hxy
  rw [hq, hq] at hxy
  have d1 : r - l ≠ 0 := (sub_pos.2 h1).ne'
  have d2 : t - b ≠ 0 := (sub_pos.2 h2).ne'
  have d3 : far - near ≠ 0 := (sub_pos.2 h3).ne'
  have i0 := congrFun hxy 0
  have i1 := congrFun hxy 1
  have i2 := congrFun hxy 2
  simp only [Matrix.cons_val_zero, Matrix.cons_val_one, Matrix.cons_val, add_left_inj] at i0 i1 i2
  apply ext3
  · exact mul_left_cancel₀ (div_ne_zero two_ne_zero d1) i0
  · exact mul_left_cancel₀ (div_ne_zero two_ne_zero d2) i1
  · exact mul_left_cancel₀ (div_ne_zero (neg_ne_zero.2 two_ne_zero) d3) i2

example : (-4 : ℚ) < 4 ∧ (-3 : ℚ) < 3 ∧ (1 : ℚ) < 100 ∧
    mmulPoint (orthoMatrix 1 100 (-4) 3 4 (-3) : Mat ℚ 4 4) ![4, -3, -1] = ![1, -1, -1] := by decide +kernel

/-- `perspective_matrix` maps exactly the points of the frustum into the cube `[-1,1]^3`: the near plane to
depth -1, the far plane to depth 1, and the sides of the frustum, whose slope is `tan(fov/2) * 0.75`
vertically and that times the aspect ratio horizontally, to -1 and 1. -/
theorem C49_perspective (fov near far : ℝ) (width height : ℤ) (hf0 : 0 < fov) (hf1 : fov < 180) (hn : 0 < near)
    (hnf : near < far) (hw : 0 < width) (hh : 0 < height) (p : Vec ℝ 3) (hp : p 2 < 0) :
    let q := mmulPoint (perspectiveMatrix fov near far width height) p
    let slope := Real.tan (fov / 2 * (Real.pi / 180)) * (3 / 4)
    ((-1 ≤ q 2 ↔ near ≤ -p 2) ∧ (q 2 ≤ 1 ↔ -p 2 ≤ far)) ∧
    ((-1 ≤ q 1 ↔ -(slope * -p 2) ≤ p 1) ∧ (q 1 ≤ 1 ↔ p 1 ≤ slope * -p 2)) ∧
    ((-1 ≤ q 0 ↔ -(slope * (width / height) * -p 2) ≤ p 0) ∧ (q 0 ≤ 1 ↔ p 0 ≤ slope * (width / height) * -p 2)) ∧
    0 < slope := by
  intro q slope
  have hpi := Real.pi_pos
  have htan : 0 < Real.tan (fov / 2 * (Real.pi / 180)) := by
    apply Real.tan_pos_of_pos_of_lt_pi_div_two
    · positivity
    · rw [show fov / 2 * (Real.pi / 180) = Real.pi / 2 * (fov / 180) by ring]
      have : fov / 180 < 1 := by rw [div_lt_one (by norm_num)]; exact hf1
      nlinarith
  have hsl : 0 < slope := by positivity
  have hw' : (0:ℝ) < width := by exact_mod_cast hw
  have hh' : (0:ℝ) < height := by exact_mod_cast hh
  have hrad : toRadians Real.pi fov / 2 = fov / 2 * (Real.pi / 180) := by unfold toRadians; ring
  have hv : Real.tan (toRadians Real.pi fov / 2) * (3 / 4) * near = slope * near := by rw [hrad]
  have hd : 0 < far - near := sub_pos.2 hnf
  have hz : 0 < -p 2 := by linarith
  have hq : q = ![near / (slope * near * width / height) * p 0 / (-p 2), near / (slope * near) * p 1 / (-p 2),
      (-(far + near) / (far - near) * p 2 + -2 * far * near / (far - near)) / (-p 2)] := by
    funext i
    simp only [q]
    rw [mmulPoint3', perspectiveMatrix, hv, mat4]
    fin_cases i <;> simp
  have q0 : q 0 = p 0 / (slope * (width / height) * -p 2) := by
    rw [hq]; simp only [Matrix.cons_val_zero]; field_simp
  have q1 : q 1 = p 1 / (slope * -p 2) := by
    rw [hq]; simp only [Matrix.cons_val_one, Matrix.cons_val_zero]; field_simp
  have q2 : q 2 = (-(far + near) * p 2 - 2 * far * near) / ((far - near) * -p 2) := by
    rw [hq]; simp only [Matrix.cons_val]; field_simp; ring
  have sides : ∀ x s : ℝ, 0 < s → (-1 ≤ x / s ↔ -s ≤ x) ∧ (x / s ≤ 1 ↔ x ≤ s) := by
    intro x s hs
    rw [le_div_iff₀ hs, div_le_iff₀ hs, one_mul, neg_one_mul]
    exact ⟨Iff.rfl, Iff.rfl⟩
  refine ⟨⟨?_, ?_⟩, ?_, ?_, hsl⟩
  · rw [q2, le_div_iff₀ (by positivity)]
    constructor <;> intro h <;> nlinarith
  · rw [q2, div_le_iff₀ (by positivity)]
    constructor <;> intro h <;> nlinarith
  · rw [q1]; exact sides _ _ (by positivity)
  · rw [q0]; exact sides _ _ (by positivity)

/-- The hypotheses are met by a common camera. -/
example : (0:ℝ) < 90 ∧ (90:ℝ) < 180 ∧ (0:ℝ) < 1 ∧ (1:ℝ) < 8000 ∧ (0:ℤ) < 1024 ∧ (0:ℤ) < 768 ∧
    (![3, 4, -50] : Vec ℝ 3) 2 < 0 := by
  refine ⟨by norm_num, by norm_num, by norm_num, by norm_num, by norm_num, by norm_num, ?_⟩
  show (-50 : ℝ) < 0
  norm_num

/-! ### C50 -/

/-- For an orthonormal pair, `view_matrix` is a rotation that maps the view direction to the negative z axis,
the up vector to the y axis and the direction to the right to the x axis. -/
theorem C50_view (f up : Vec ℝ 3) (hf : length f = 1) (hu : length up = 1) (hfu : dot f up = 0) :
    mmulPoint (viewMatrix f up) f = ![0, 0, -1] ∧ mmulPoint (viewMatrix f up) up = ![0, 1, 0] ∧
    mmulPoint (viewMatrix f up) (cross f up) = ![1, 0, 0] ∧ IsRotation (viewMatrix f up) := by
  have ff : dot f f = 1 := by rw [← length_sq, hf, one_pow]
  have uu : dot up up = 1 := by rw [← length_sq, hu, one_pow]
  have hu' : cross (cross f up) f = up := by
    rw [dot3] at ff hfu
    apply ext3 <;> simp only [cross_0, cross_1, cross_2]
    · linear_combination (up 0) * ff - (f 0) * hfu
    · linear_combination (up 1) * ff - (f 1) * hfu
    · linear_combination (up 2) * ff - (f 2) * hfu
  have hss : dot (cross f up) (cross f up) = 1 := by
    have : dot (cross f up) (cross f up) = dot f f * dot up up - dot f up ^ 2 := by
      simp only [dot3, cross_0, cross_1, cross_2]; ring
    rw [this, ff, uu, hfu]; ring
  have hsf : dot (cross f up) f = 0 := by simp only [dot3, cross_0, cross_1, cross_2]; ring
  have hsu : dot (cross f up) up = 0 := by simp only [dot3, cross_0, cross_1, cross_2]; ring
  have hM : viewMatrix f up = lin4 (cross f up 0) (cross f up 1) (cross f up 2) (up 0) (up 1) (up 2)
      (-f 0) (-f 1) (-f 2) := by
    simp only [viewMatrix, hu', mat4]; rfl
  have hpt : ∀ p, mmulPoint (viewMatrix f up) p = ![dot (cross f up) p, dot up p, -dot f p] := by
    intro p
    rw [hM, point_lin4]
    apply ext3 <;> simp only [dot3, Matrix.cons_val_zero, Matrix.cons_val_one, Matrix.cons_val]
    ring
  refine ⟨?_, ?_, ?_, ?_⟩
  · rw [hpt, hsf, dot_comm up, hfu, ff]
  · rw [hpt, hsu, uu, hfu, neg_zero]
  · rw [hpt, hss, dot_comm up, hsu, dot_comm f, hsf, neg_zero]
  · apply isRotation_of
    · rw [hM, transpose_lin4, mmul_lin4, matId_lin4]
      rw [dot3] at ff uu hfu hss hsf hsu
      congr 1 <;> linarith
    · rw [hM, det_lin4]
      have : dot (cross f up) (cross f up) = 1 := hss
      rw [dot3] at this
      rw [← this]
      simp only [cross_0, cross_1, cross_2]; ring
    · rw [hM]; rfl

example : length (![3/5, 4/5, 0] : Vec ℝ 3) = 1 ∧ length (![0, 0, 1] : Vec ℝ 3) = 1 ∧
    dot (![3/5, 4/5, 0] : Vec ℝ 3) ![0, 0, 1] = 0 := by
  simp only [length, squaredLength, dot3, Matrix.cons_val_zero, Matrix.cons_val_one, Matrix.cons_val]; norm_num

/-- The matrix whose inverse is the coordinate system matrix. -/
def frame4 (x y z o : Vec K 3) : Mat K 4 4 :=
  ![![x 0, x 1, x 2, 0], ![y 0, y 1, y 2, 0], ![z 0, z 1, z 2, 0], ![o 0, o 1, o 2, 1]]

theorem coordinateSystem_eq (x y z o : Vec K 3) : coordinateSystemMatrix x y z o =
    if (invert (frame4 x y z o)).1 then some (invert (frame4 x y z o)).2 else none := by
  simp only [coordinateSystemMatrix, mat4]; rfl

/-- If `coordinate_system_matrix` returns a matrix, then it maps a point to its coordinates with respect to the
given axes and origin. -/
theorem C50_coordinate_system (x y z o : Vec K 3) (m : Mat K 4 4) (h : coordinateSystemMatrix x y z o = some m)
    (a b c : K) : mmulPoint m (o + a • x + b • y + c • z) = ![a, b, c] := by
  rw [coordinateSystem_eq] at h
  split_ifs at h with hs
  cases h
  obtain ⟨-, h2⟩ := (C41_success (frame4 x y z o)).1 hs
  have hA : mmulPoint (frame4 x y z o) ![a, b, c] = o + a • x + b • y + c • z := by
    rw [frame4, mmulPoint_affine]
    apply ext3 <;> simp <;> ring
  rw [← hA, ← mmulPoint_mmul (S := 3) _ _ _ (by rw [frame4, homCoord_affine]; exact one_ne_zero), h2, matId_lin4,
    point_lin4]
  apply ext3 <;> simp

/-- Linearly dependent axes are always detected. -/
theorem C50_dependent (x y z o : Vec K 3) (a b c : K) (hne : a ≠ 0 ∨ b ≠ 0 ∨ c ≠ 0)
    (h0 : a • x + b • y + c • z = 0) : coordinateSystemMatrix x y z o = none := by
  rw [coordinateSystem_eq, if_neg]
  rw [C41_singular _ ![a, b, c, 0]]
  · simp
  · intro h
    rcases hne with h' | h' | h'
    · exact h' (congrFun h 0)
    · exact h' (congrFun h 1)
    · exact h' (congrFun h 2)
  · funext r
    rw [mmulVec_apply, Fin.sum_univ_four]
    have e0 := congrFun h0 0
    have e1 := congrFun h0 1
    have e2 := congrFun h0 2
    simp at e0 e1 e2
    fin_cases r <;> simp [frame4] <;> linarith

/-- Sufficiently independent axes are always accepted: it is enough that the reciprocal frame has components of
absolute value at most `10^14`. -/
theorem C50_success (x y z o x' y' z' : Vec K 3)
    (hx : dot x' x = 1 ∧ dot x' y = 0 ∧ dot x' z = 0) (hy : dot y' x = 0 ∧ dot y' y = 1 ∧ dot y' z = 0)
    (hz : dot z' x = 0 ∧ dot z' y = 0 ∧ dot z' z = 1)
    (hb : ∀ i, |x' i| ≤ 10 ^ 14 ∧ |y' i| ≤ 10 ^ 14 ∧ |z' i| ≤ 10 ^ 14) :
    ∃ m, coordinateSystemMatrix x y z o = some m := by
  rw [coordinateSystem_eq]
  rcases hi : (invert (frame4 x y z o)).1 with _ | _
  · exfalso
    rw [C41_same_success _ 0] at hi
    obtain ⟨k, d, v, hd, hv, hsupp, hAv⟩ := C40_failure_column _ _ hi
    have r3 := congrFun hAv 3
    have r0 := congrFun hAv 0
    have r1 := congrFun hAv 1
    have r2 := congrFun hAv 2
    rw [mmulVec_apply, Fin.sum_univ_four] at r0 r1 r2 r3
    simp [frame4] at r0 r1 r2 r3
    have thr : lupThreshold K = 1 / 10 ^ 15 := rfl
    have v3 : v 3 = 0 := by
      by_cases hk : k = 3
      · subst hk
        have h1 := hd 3
        rw [thr] at h1
        by_contra hne
        have : d 3 = 1 := by
          apply mul_left_cancel₀ hne; rw [← r3, mul_one]
        rw [this, abs_one] at h1
        norm_num at h1
      · apply hsupp
        omega
    rw [v3] at r0 r1 r2
    simp only [mul_zero, add_zero] at r0 r1 r2
    -- the coefficients are determined by the reciprocal frame
    have bound : ∀ w : Vec K 3, (∀ i, |w i| ≤ 10 ^ 14) → |w 0 * d 0 + w 1 * d 1 + w 2 * d 2| < 1 := by
      intro w hw
      have t : ∀ i : Fin 3, |w i * d i.castSucc| ≤ 1 / 10 := by
        intro i
        rw [abs_mul]
        have h1 := (hd i.castSucc).le
        rw [thr] at h1
        calc |w i| * |d i.castSucc| ≤ 10 ^ 14 * (1 / 10 ^ 15) :=
              mul_le_mul (hw i) h1 (abs_nonneg _) (by positivity)
          _ = 1 / 10 := by norm_num
      have t0 := t 0
      have t1 := t 1
      have t2 := t 2
      calc |w 0 * d 0 + w 1 * d 1 + w 2 * d 2|
          ≤ |w 0 * d 0| + |w 1 * d 1| + |w 2 * d 2| := abs_add_three _ _ _
        _ ≤ 1/10 + 1/10 + 1/10 := add_le_add (add_le_add t0 t1) t2
        _ < 1 := by norm_num
    have sol : ∀ w : Vec K 3, w 0 * (v k * d 0) + w 1 * (v k * d 1) + w 2 * (v k * d 2)
        = v 0 * dot w x + v 1 * dot w y + v 2 * dot w z := by
      intro w
      rw [← r0, ← r1, ← r2, dot3, dot3, dot3]; ring
    have s0 := sol x'
    have s1 := sol y'
    have s2 := sol z'
    rw [hx.1, hx.2.1, hx.2.2] at s0
    rw [hy.1, hy.2.1, hy.2.2] at s1
    rw [hz.1, hz.2.1, hz.2.2] at s2
    have b0 := bound x' fun i => (hb i).1
    have b1 := bound y' fun i => (hb i).2.1
    have b2 := bound z' fun i => (hb i).2.2
    have vk : v k = 0 := by
      by_contra hne
      have fin : ∀ t : K, |t| < 1 → v k * t = v k → False := by
        intro t ht he
        have : t = 1 := mul_left_cancel₀ hne (by rw [he, mul_one])
        rw [this, abs_one] at ht
        exact lt_irrefl _ ht
      have hk : k = 0 ∨ k = 1 ∨ k = 2 ∨ k = 3 := by omega
      rcases hk with rfl | rfl | rfl | rfl
      · exact fin _ b0 (by linear_combination s0)
      · exact fin _ b1 (by linear_combination s1)
      · exact fin _ b2 (by linear_combination s2)
      · exact hne v3
    rw [vk] at s0 s1 s2
    apply hv
    funext i
    have hi : i = 0 ∨ i = 1 ∨ i = 2 ∨ i = 3 := by omega
    rcases hi with rfl | rfl | rfl | rfl
    · show v 0 = 0; linear_combination -s0
    · show v 1 = 0; linear_combination -s1
    · show v 2 = 0; linear_combination -s2
    · exact v3
  · exact ⟨_, rfl⟩

/-- A frame that is neither orthogonal nor normalised, with its reciprocal frame. -/
example : ∃ m, coordinateSystemMatrix (![2, 0, 0] : Vec ℚ 3) ![1, 1, 0] ![0, 0, 5] ![7, 8, 9] = some m ∧
    mmulPoint m ![11, 10, 24] = ![1, 2, 3] := by
  obtain ⟨m, hm⟩ := C50_success (![2, 0, 0] : Vec ℚ 3) ![1, 1, 0] ![0, 0, 5] ![7, 8, 9] ![1/2, -1/2, 0] ![0, 1, 0]
    ![0, 0, 1/5] (by decide +kernel) (by decide +kernel) (by decide +kernel) (by decide +kernel)
  refine ⟨m, hm, ?_⟩
  rw [← C50_coordinate_system _ _ _ _ m hm 1 2 3]
  congr 1
  decide +kernel

example : (1 : ℚ) • (![1, 2, 3] : Vec ℚ 3) + (1 : ℚ) • ![4, 5, 6] + (-1 : ℚ) • ![5, 7, 9] = 0 := by decide +kernel

/-! ### C51 -/

theorem planeFrame (junk : ℕ → ℝ × ℕ) (n : Vec ℝ 3) (hn : length n = 1) :
    ∃ x y : Vec ℝ 3, dot x x = 1 ∧ dot y y = 1 ∧ dot x y = 0 ∧ dot n x = 0 ∧ dot n y = 0 ∧ cross x y = n ∧
      ∀ dist d, planeProjectionMatrix junk dist n d =
        if |length d - 1| ≤ 1/1000 then coordinateSystemMatrix x y d (vscale n dist) else none := by
  have nn : dot n n = 1 := by rw [← length_sq, hn, one_pow]
  obtain ⟨idx, hidx, hmax⟩ := C17_find_abs_max_first n (by norm_num) junk
  have hne : n idx ≠ 0 := by
    intro h0
    have : ∀ j, n j = 0 := fun j => by
      have := hmax j
      rw [h0, abs_zero] at this
      exact abs_eq_zero.1 (le_antisymm this (abs_nonneg _))
    rw [dot3, this, this, this] at nn
    norm_num at nn
  obtain ⟨w, hw0, hnw, hw⟩ : ∃ w : Vec ℝ 3, w ≠ 0 ∧ dot n w = 0 ∧
      (if findAbsMaxComponent n 0 junk = 0 then cross n (vaxis 3 2) else cross n (vaxis 3 0)) = w := by
    refine ⟨_, ?_, ?_, rfl⟩
    · rw [hidx]
      have hi : idx = 0 ∨ idx = 1 ∨ idx = 2 := by omega
      rcases hi with rfl | rfl | rfl
      · rw [if_pos (by decide)]
        intro h
        have := congrFun h 1
        simp [vaxis] at this
        exact hne this
      · rw [if_neg (by decide)]
        intro h
        have := congrFun h 2
        simp [vaxis] at this
        exact hne this
      · rw [if_neg (by decide)]
        intro h
        have := congrFun h 1
        simp [vaxis] at this
        exact hne this
    · split_ifs <;> (simp only [dot3, cross_0, cross_1, cross_2]; ring)
  have hlw := length_pos hw0
  set x : Vec ℝ 3 := (length w)⁻¹ • w with hx
  have hxx : dot x x = 1 := by
    rw [hx, dot_smul_left, dot_smul_right, ← length_sq]; field_simp
  have hnx : dot n x = 0 := by rw [hx, dot_smul_right, hnw, mul_zero]
  have hyy : dot (cross n x) (cross n x) = 1 := by
    have : dot (cross n x) (cross n x) = dot n n * dot x x - dot n x ^ 2 := by
      simp only [dot3, cross_0, cross_1, cross_2]; ring
    rw [this, nn, hxx, hnx]; ring
  have len1 : ∀ v : Vec ℝ 3, dot v v = 1 → length v = 1 := by
    intro v hv; rw [length, squaredLength, hv, Real.sqrt_one]
  have hy0 : cross n x ≠ 0 := by
    intro h; rw [h, dot_zero_left] at hyy; norm_num at hyy
  refine ⟨x, cross n x, hxx, hyy, ?_, hnx, ?_, ?_, ?_⟩
  · simp only [dot3, cross_0, cross_1, cross_2]; ring
  · simp only [dot3, cross_0, cross_1, cross_2]; ring
  · rw [dot3] at hxx hnx
    apply ext3 <;> simp only [cross_0, cross_1, cross_2]
    · linear_combination (n 0) * hxx - (x 0) * hnx
    · linear_combination (n 1) * hxx - (x 1) * hnx
    · linear_combination (n 2) * hxx - (x 2) * hnx
  · intro dist d
    unfold planeProjectionMatrix
    simp only
    rw [hw, normalize_of_ne hw0, Option.bind_some, ← hx, normalize_of_ne hy0, len1 _ hyy, inv_one, one_smul,
      Option.bind_some]
    simp only [isUnit, isEqual_exact, len1 _ hyy, len1 _ hxx, Quat.almostZero]
    by_cases h : |length d - 1| ≤ 1/1000
    · rw [if_pos (by simpa using h), if_pos h]
    · rw [if_neg (by simpa using h), if_neg h]

/-- If the plane projection matrix exists: moving a point along the direction only changes the third
coordinate, and by the same amount; the third coordinate is zero exactly on the plane; and points of the plane
keep their distances, so that they remain distinguishable. -/
theorem C51_plane_projection (junk : ℕ → ℝ × ℕ) (dist : ℝ) (n d : Vec ℝ 3) (hn : length n = 1) (m : Mat ℝ 4 4)
    (h : planeProjectionMatrix junk dist n d = some m) (p : Vec ℝ 3) (t : ℝ) :
    mmulPoint m (p + t • d) = mmulPoint m p + ![0, 0, t] ∧
    (mmulPoint m p 2 = 0 ↔ dot p n = dist) ∧
    (∀ q, dot p n = dist → dot q n = dist → distance (mmulPoint m p) (mmulPoint m q) = distance p q) := by
  obtain ⟨x, y, hxx, hyy, hxy, hnx, hny, hcr, hm⟩ := planeFrame junk n hn
  have nn : dot n n = 1 := by rw [← length_sq, hn, one_pow]
  rw [hm] at h
  split_ifs at h with hd
  have expand : ∀ v : Vec ℝ 3, v = (dot v x) • x + (dot v y) • y + (dot v n) • n := by
    intro v
    rw [← hcr]
    have h1 := hxx
    have h2 := hyy
    have h3 := hxy
    rw [dot3] at h1 h2 h3
    have l0 : ∀ w : Vec ℝ 3, dot w x = 0 → dot w y = 0 → dot w (cross x y) = 0 → w = 0 := by
      intro w w1 w2 w3
      rw [dot3] at w1 w2 w3
      simp only [cross_0, cross_1, cross_2] at w3
      have hdet : dot (cross x y) (cross x y) = 1 := by rw [hcr]; exact nn
      rw [dot3] at hdet
      simp only [cross_0, cross_1, cross_2] at hdet
      apply ext3
      · show w 0 = 0
        linear_combination (-w 0) * hdet + (y 1 * (x 0 * y 1 - x 1 * y 0) - y 2 * (x 2 * y 0 - x 0 * y 2)) * w1
          + (x 2 * (x 2 * y 0 - x 0 * y 2) - x 1 * (x 0 * y 1 - x 1 * y 0)) * w2 + (x 1 * y 2 - x 2 * y 1) * w3
      · show w 1 = 0
        linear_combination (-w 1) * hdet + (y 2 * (x 1 * y 2 - x 2 * y 1) - y 0 * (x 0 * y 1 - x 1 * y 0)) * w1
          + (x 0 * (x 0 * y 1 - x 1 * y 0) - x 2 * (x 1 * y 2 - x 2 * y 1)) * w2 + (x 2 * y 0 - x 0 * y 2) * w3
      · show w 2 = 0
        linear_combination (-w 2) * hdet + (y 0 * (x 2 * y 0 - x 0 * y 2) - y 1 * (x 1 * y 2 - x 2 * y 1)) * w1
          + (x 1 * (x 1 * y 2 - x 2 * y 1) - x 0 * (x 2 * y 0 - x 0 * y 2)) * w2 + (x 0 * y 1 - x 1 * y 0) * w3
    rw [hcr]
    rw [← sub_eq_zero]
    apply l0
    · rw [dot_sub_left, dot_add_left, dot_add_left, dot_smul_left, dot_smul_left, dot_smul_left, hxx,
        dot_comm y x, hxy, hnx]; ring
    · rw [dot_sub_left, dot_add_left, dot_add_left, dot_smul_left, dot_smul_left, dot_smul_left, hyy,
        hxy, hny]; ring
    · rw [hcr, dot_sub_left, dot_add_left, dot_add_left, dot_smul_left, dot_smul_left, dot_smul_left, nn,
        dot_comm x, dot_comm y, hnx, hny]; ring
  have hnd : dot d n ≠ 0 := by
    intro h0
    have e := expand d
    rw [h0, zero_smul, add_zero] at e
    have := C50_dependent x y d (vscale n dist) (dot d x) (dot d y) (-1) (Or.inr (Or.inr (by norm_num)))
      (by rw [neg_one_smul, ← e, add_neg_cancel])
    rw [this] at h
    cases h
  -- coordinates of an arbitrary point
  have coord : ∀ q : Vec ℝ 3, mmulPoint m q = ![dot q x - (dot q n - dist) / dot d n * dot d x,
      dot q y - (dot q n - dist) / dot d n * dot d y, (dot q n - dist) / dot d n] := by
    intro q
    set c := (dot q n - dist) / dot d n with hc
    have hcd : c * dot d n = dot q n - dist := by rw [hc]; field_simp
    rw [← C50_coordinate_system x y d (vscale n dist) m h]
    congr 1
    have e1 := expand q
    have e2 := expand d
    rw [vscale_eq_smul]
    calc q = (dot q x) • x + (dot q y) • y + (dot q n) • n := e1
      _ = dist • n + (dot q x - c * dot d x) • x + (dot q y - c * dot d y) • y
          + c • ((dot d x) • x + (dot d y) • y + (dot d n) • n) := by
        have : dot q n = dist + c * dot d n := by rw [hcd]; ring
        rw [this]; module
      _ = _ := by rw [← e2]
  refine ⟨?_, ?_, ?_⟩
  · rw [coord, coord, dot_add_left, dot_add_left, dot_add_left, dot_smul_left, dot_smul_left, dot_smul_left]
    apply ext3 <;> simp <;> field_simp <;> ring
  · rw [coord]
    simp only [Matrix.cons_val]
    rw [div_eq_zero_iff, or_iff_left hnd, sub_eq_zero]
  · intro q hp hq
    have e : ∀ v : Vec ℝ 3, dot v n = 0 → dot v v = dot v x ^ 2 + dot v y ^ 2 := by
      intro v hv
      have := expand v
      rw [hv, zero_smul, add_zero] at this
      conv_lhs => rw [this]
      rw [dot_add_left, dot_add_right, dot_add_right]
      simp only [dot_smul_left, dot_smul_right, hxx, hyy, hxy, dot_comm y x]
      ring
    unfold distance length squaredLength
    congr 1
    rw [e (p - q) (by rw [dot_sub_left, hp, hq, sub_self]), coord, coord, hp, hq, dot3, dot_sub_left, dot_sub_left]
    simp; ring

/-- The matrix exists for unit normals and directions that are not (numerically) parallel to the plane. -/
theorem C51_exists (junk : ℕ → ℝ × ℕ) (dist : ℝ) (n d : Vec ℝ 3) (hn : length n = 1) (hd : length d = 1)
    (hnd : 1 / 10 ^ 13 ≤ |dot n d|) :
    (∃ m, planeProjectionMatrix junk dist n d = some m) ∧ (∃ m, planeProjectionMatrixOrtho junk dist n = some m) := by
  obtain ⟨x, y, hxx, hyy, hxy, hnx, hny, -, hm⟩ := planeFrame junk n hn
  have nn : dot n n = 1 := by rw [← length_sq, hn, one_pow]
  have comp : ∀ v : Vec ℝ 3, dot v v = 1 → ∀ i, |v i| ≤ 1 := by
    intro v hv i
    rw [← sq_le_one_iff_abs_le_one, ← hv, dot3]
    fin_cases i
    · simp only [Fin.zero_eta]; nlinarith [mul_self_nonneg (v 1), mul_self_nonneg (v 2)]
    · simp only [Fin.mk_one]; nlinarith [mul_self_nonneg (v 0), mul_self_nonneg (v 2)]
    · simp only [Fin.reduceFinMk]; nlinarith [mul_self_nonneg (v 1), mul_self_nonneg (v 0)]
  have main : ∀ d : Vec ℝ 3, length d = 1 → 1 / 10 ^ 13 ≤ |dot n d| →
      ∃ m, planeProjectionMatrix junk dist n d = some m := by
    intro d hd hnd
    have dd : dot d d = 1 := by rw [← length_sq, hd, one_pow]
    have hnd0 : dot n d ≠ 0 := by
      intro h; rw [h, abs_zero] at hnd; norm_num at hnd
    rw [hm, hd, if_pos (by norm_num)]
    have hinv : |(dot n d)⁻¹| ≤ 10 ^ 13 := by
      rw [abs_inv]
      have := inv_anti₀ (by norm_num) hnd
      simpa using this
    have hle : ∀ v : Vec ℝ 3, dot v v = 1 → |dot v d| ≤ 1 := by
      intro v hv
      have := dot_sq_le v d
      rw [hv, dd] at this
      rw [← sq_le_one_iff_abs_le_one]; linarith
    have scaled : ∀ i, |(dot n d)⁻¹ * n i| ≤ 10 ^ 13 := by
      intro i
      rw [abs_mul]
      calc |(dot n d)⁻¹| * |n i| ≤ 10 ^ 13 * 1 := mul_le_mul hinv (comp n nn i) (abs_nonneg _) (by positivity)
        _ = 10 ^ 13 := mul_one _
    have bnd : ∀ v : Vec ℝ 3, dot v v = 1 → ∀ i, |(v - (dot v d * (dot n d)⁻¹) • n) i| ≤ 10 ^ 14 := by
      intro v hv i
      simp only [Pi.sub_apply, Pi.smul_apply, smul_eq_mul]
      calc |v i - dot v d * (dot n d)⁻¹ * n i| ≤ |v i| + |dot v d * (dot n d)⁻¹ * n i| := abs_sub _ _
        _ = |v i| + |dot v d| * |(dot n d)⁻¹ * n i| := by rw [mul_assoc, abs_mul (dot v d)]
        _ ≤ 1 + 1 * 10 ^ 13 :=
            add_le_add (comp v hv i) (mul_le_mul (hle v hv) (scaled i) (abs_nonneg _) (by norm_num))
        _ ≤ 10 ^ 14 := by norm_num
    apply C50_success x y d (vscale n dist) (x - (dot x d * (dot n d)⁻¹) • n) (y - (dot y d * (dot n d)⁻¹) • n)
      ((dot n d)⁻¹ • n)
    · simp only [dot_sub_left, dot_smul_left, hxx, hnx, hny, hxy]
      refine ⟨by ring, by ring, by field_simp; ring⟩
    · simp only [dot_sub_left, dot_smul_left, hyy, hnx, hny, hxy, dot_comm y x]
      refine ⟨by ring, by ring, by field_simp; ring⟩
    · simp only [dot_smul_left, hnx, hny]
      refine ⟨by ring, by ring, by field_simp⟩
    · intro i
      refine ⟨bnd x hxx i, bnd y hyy i, ?_⟩
      exact (scaled i).trans (by norm_num)
  exact ⟨main d hd hnd, main n hn (by rw [nn]; norm_num)⟩

example : length (![3/5, 4/5, 0] : Vec ℝ 3) = 1 ∧ length (![0, 3/5, 4/5] : Vec ℝ 3) = 1 ∧
    1 / 10 ^ 13 ≤ |dot (![3/5, 4/5, 0] : Vec ℝ 3) ![0, 3/5, 4/5]| := by
  simp only [length, squaredLength, dot3, Matrix.cons_val_zero, Matrix.cons_val_one, Matrix.cons_val]
  norm_num [abs_of_pos]

end vm
