import Verif.Lemmas.FltPersp

/-! # C136: `perspective_matrix` in IEEE arithmetic -/

set_option linter.unusedSectionVars false
set_option linter.unusedSimpArgs false

namespace vm
open BinPar FltBM FltProj FltPersp

/-- Over the reals the general definition is the model of the earlier theorems. -/
theorem perspectiveMatrixG_real (fov n f : ℝ) (W H : ℤ) :
    perspectiveMatrixG Real.tan Real.pi (3 / 4) (fun k => (k : ℝ)) fov n f W H = perspectiveMatrix fov n f W H := rfl

variable {P : BinPar}

/-- The two coordinates on the screen are close to the exact ones for the computed tangent `t`: x H / (3/4 t W s) and y / (3/4 t s), where s = -z is the distance from the
eye. Nothing overflows or underflows. -/
theorem C136_screen (tn : Flt P.fmt → Flt P.fmt) (fov n f : Flt P.fmt) (W H m : ℤ) (h : PerspOk P m (tn (toRadians P.pi fov / 2)) n W H)
    (p : Vec (Flt P.fmt) 3) (hp : ∀ i, (p i).isFinite) (hx : ∀ i, p i = 0 ∨ 2 ^ (-m) ≤ |(p i).val| ∧ |(p i).val| ≤ 2 ^ m) (hs : (p 2).val < 0) :
    let t := (tn (toRadians P.pi fov / 2)).val
    let q := mmulPoint (perspectiveMatrixF P tn fov n f W H) p
    (q 0).isFinite ∧ (q 1).isFinite ∧
    |(q 0).val - (p 0).val * H / (3 / 4 * t * W * -(p 2).val)| ≤ 10 * P.u * |(p 0).val * H / (3 / 4 * t * W * -(p 2).val)| ∧
    |(q 1).val - (p 1).val / (3 / 4 * t * -(p 2).val)| ≤ 6 * P.u * |(p 1).val / (3 / 4 * t * -(p 2).val)| := by
  intro t q
  obtain ⟨e0, e1, -⟩ := persp_point tn fov n f W H p hp
  have hz : 2 ^ (-m) ≤ -(p 2).val ∧ -(p 2).val ≤ 2 ^ m := by
    rcases hx 2 with h0 | h0
    · rw [h0] at hs; exact absurd hs (lt_irrefl _)
    · rwa [abs_of_neg hs] at h0
  have t0 : t ≠ 0 := (lt_of_lt_of_le (two_zpow_pos _) h.t1).ne'
  have W0 : (W : ℚ) ≠ 0 := by have := h.W1; exact_mod_cast (by omega : W ≠ 0)
  have s0 : (p 2).val ≠ 0 := hs.ne
  have A := good_coord h (good_a h) (hp 0) (hx 0) (hp 2) hz.1 hz.2 (by norm_num)
  have B := good_coord h ((good_b h).mono (a' := -4 * m) (b' := 4 * m + 1) (by have := h.one; omega) (by have := h.one; omega)) (hp 1) (hx 1) (hp 2) hz.1 hz.2 (by norm_num)
  rw [show q 0 = _ from e0, show q 1 = _ from e1]
  refine ⟨A.1, B.1, ?_, ?_⟩
  · have := A.2
    rw [show (H : ℚ) / ((tn (toRadians P.pi fov / 2)).val * (3 / 4) * W) * (p 0).val / -(p 2).val = (p 0).val * H / (3 / 4 * t * W * -(p 2).val) by
      change (H : ℚ) / (t * (3 / 4) * W) * (p 0).val / -(p 2).val = _
      field_simp] at this
    refine this.trans (le_of_eq ?_)
    norm_num
  · have := B.2
    rw [show (1 : ℚ) / ((tn (toRadians P.pi fov / 2)).val * (3 / 4)) * (p 1).val / -(p 2).val = (p 1).val / (3 / 4 * t * -(p 2).val) by
      change (1 : ℚ) / (t * (3 / 4)) * (p 1).val / -(p 2).val = _
      field_simp] at this
    refine this.trans (le_of_eq ?_)
    norm_num

/-- In `float` and `double`, for a field of view from 1 to 150 degrees, the coordinates on the screen have a relative error of at most 47 rounding errors (including the
error of the conversion to radians and of the tangent). -/
theorem C136_fov (hP : P = binary32 ∨ P = binary64) (tn : Flt P.fmt → Flt P.fmt) (hT : AccurateTan P tn) (fov n f : Flt P.fmt) (W H : ℤ) (hf : fov.isFinite)
    (hf1 : 1 ≤ fov.val) (hf2 : fov.val ≤ 150) (hn : n.isFinite) (hn1 : 2 ^ (-20 : ℤ) ≤ n.val) (hn2 : n.val ≤ 2 ^ (20 : ℤ)) (hW1 : 1 ≤ W) (hW2 : W ≤ 2 ^ 20)
    (hH1 : 1 ≤ H) (hH2 : H ≤ 2 ^ 20) (p : Vec (Flt P.fmt) 3) (hp : ∀ i, (p i).isFinite) (hx : ∀ i, p i = 0 ∨ 2 ^ (-20 : ℤ) ≤ |(p i).val| ∧ |(p i).val| ≤ 2 ^ (20 : ℤ))
    (hs : (p 2).val < 0) :
    let T := Real.tan (fov.val * Real.pi / 360)
    let X := ((p 0).val : ℝ) * H / (3 / 4 * T * W * -(p 2).val)
    let Y := ((p 1).val : ℝ) / (3 / 4 * T * -(p 2).val)
    let q := mmulPoint (perspectiveMatrixF P tn fov n f W H) p
    (q 0).isFinite ∧ (q 1).isFinite ∧ |((q 0).val : ℝ) - X| ≤ 47 * P.u * |X| ∧ |((q 1).val : ℝ) - Y| ≤ 47 * P.u * |Y| := by
  intro T X Y q
  obtain ⟨tf, T1, T2, te⟩ := tan_err hP hT hf hf1 hf2
  have A := angleFmt hP
  have hu' : (P.u : ℝ) ≤ 1 / 2 ^ 24 := by have := (Rat.cast_le (K := ℝ)).2 A.u; push_cast at this; exact this
  have hu0 : (0 : ℝ) < P.u := by exact_mod_cast P.u_pos
  change 1 / 120 ≤ T at T1
  change T ≤ 4 at T2
  change _ ≤ 35 * P.u * T at te
  set t := tn (toRadians P.pi fov / 2) with ht
  have tb : 1 / 256 ≤ (t.val : ℝ) ∧ (t.val : ℝ) ≤ 8 := by
    obtain ⟨a1, a2⟩ := abs_le.1 te
    constructor <;> nlinarith
  have h : PerspOk P 20 t n W H := by
    refine ⟨?_, by norm_num, ?_, ?_, tf, ?_, ?_, hn, hn1, hn2, hW1, ?_, hH1, ?_⟩
    · rcases hP with rfl | rfl <;> simp [binary32, binary64]
    · rcases hP with rfl | rfl <;> simp [binary32, binary64]
    · rcases hP with rfl | rfl <;> simp [binary32, binary64]
    · have : (1 / 256 : ℚ) ≤ t.val := by
        have : ((1 / 256 : ℚ) : ℝ) ≤ t.val := by push_cast; exact tb.1
        exact_mod_cast this
      refine le_trans ?_ this
      norm_num
    · have : t.val ≤ 8 := by exact_mod_cast tb.2
      refine this.trans ?_
      norm_num
    · exact_mod_cast hW2
    · exact_mod_cast hH2
  obtain ⟨q0, q1, e0, e1⟩ := C136_screen tn fov n f W H 20 h p hp hx hs
  refine ⟨q0, q1, ?_⟩
  change |(q 0).val - (p 0).val * H / (3 / 4 * t.val * W * -(p 2).val)| ≤ 10 * P.u * |(p 0).val * H / (3 / 4 * t.val * W * -(p 2).val)| at e0
  change |(q 1).val - (p 1).val / (3 / 4 * t.val * -(p 2).val)| ≤ 6 * P.u * |(p 1).val / (3 / 4 * t.val * -(p 2).val)| at e1
  have e0' := (Rat.cast_le (K := ℝ)).2 e0
  have e1' := (Rat.cast_le (K := ℝ)).2 e1
  push_cast at e0' e1'
  have t0 : (0 : ℝ) < t.val := by linarith [tb.1]
  have T0 : 0 < T := by linarith
  -- the quotient of the tangents
  have κ : |T / t.val - 1| ≤ 36 * P.u := by
    rw [div_sub_one t0.ne', abs_div, abs_of_pos t0, div_le_iff₀ t0, abs_sub_comm]
    refine te.trans ?_
    obtain ⟨a1, a2⟩ := abs_le.1 te
    have : (P.u : ℝ) * (T - 35 * P.u * T) ≤ P.u * t.val := mul_le_mul_of_nonneg_left (by linarith) hu0.le
    have uT : 0 < (P.u : ℝ) * T := by positivity
    have : (P.u : ℝ) * (P.u * T) ≤ 1 / 2 ^ 24 * (P.u * T) := mul_le_mul_of_nonneg_right hu' uT.le
    nlinarith
  have key : ∀ (Q Z : ℝ), |Q - Z * (T / t.val)| ≤ 10 * P.u * |Z * (T / t.val)| → |Q - Z| ≤ 47 * P.u * |Z| := by
    intro Q Z hQ
    have z0 := abs_nonneg Z
    have uz : 0 ≤ (P.u : ℝ) * |Z| := by positivity
    have h1 : |Z * (T / t.val) - Z| ≤ 36 * P.u * |Z| := by
      rw [show Z * (T / t.val) - Z = (T / t.val - 1) * Z by ring, abs_mul]
      exact mul_le_mul_of_nonneg_right κ z0
    have h2 : |Z * (T / t.val)| ≤ (1 + 36 * P.u) * |Z| := by
      have := abs_add_le (Z * (T / t.val) - Z) Z
      rw [sub_add_cancel] at this
      linarith
    have h3 := mul_le_mul_of_nonneg_left h2 (by positivity : (0 : ℝ) ≤ 10 * P.u)
    have h4 : (P.u : ℝ) * (P.u * |Z|) ≤ 1 / 2 ^ 24 * (P.u * |Z|) := mul_le_mul_of_nonneg_right hu' uz
    have h5 := abs_add_le (Q - Z * (T / t.val)) (Z * (T / t.val) - Z)
    rw [sub_add_sub_cancel] at h5
    linarith
  have W0 : (W : ℝ) ≠ 0 := by exact_mod_cast (by omega : W ≠ 0)
  have s0 : ((p 2).val : ℝ) ≠ 0 := by exact_mod_cast hs.ne
  constructor
  · refine key _ _ ?_
    have : X * (T / t.val) = ((p 0).val : ℝ) * H / (3 / 4 * t.val * W * -(p 2).val) := by
      show ((p 0).val : ℝ) * H / (3 / 4 * T * W * -(p 2).val) * (T / t.val) = _
      field_simp
    rw [this]
    exact e0'
  · refine key _ _ ?_
    have : Y * (T / t.val) = ((p 1).val : ℝ) / (3 / 4 * t.val * -(p 2).val) := by
      show ((p 1).val : ℝ) / (3 / 4 * T * -(p 2).val) * (T / t.val) = _
      field_simp
    rw [this]
    refine e1'.trans ?_
    have := abs_nonneg (((p 1).val : ℝ) / (3 / 4 * t.val * -(p 2).val))
    have : 0 ≤ (P.u : ℝ) * |((p 1).val : ℝ) / (3 / 4 * t.val * -(p 2).val)| := by positivity
    linarith

/-- The depth is close to (f + n) / (f - n) - 2 f n / ((f - n) s) at distance s from the eye, relative to the size of these two terms; so points of the near plane have a
depth close to -1 and points of the far plane a depth close to 1. -/
theorem C136_depth (tn : Flt P.fmt → Flt P.fmt) (fov n f : Flt P.fmt) (W H m : ℤ) (h : PerspOk P m (tn (toRadians P.pi fov / 2)) n W H) (hf : f.isFinite)
    (hf2 : f.val ≤ 2 ^ m) (hd : 2 ^ (-m) ≤ f.val - n.val) (p : Vec (Flt P.fmt) 3) (hp : ∀ i, (p i).isFinite) (hs1 : 2 ^ (-m) ≤ -(p 2).val)
    (hs2 : -(p 2).val ≤ 2 ^ m) :
    let s := -(p 2).val
    let z := mmulPoint (perspectiveMatrixF P tn fov n f W H) p 2
    z.isFinite ∧
    |z.val - ((f.val + n.val) / (f.val - n.val) - 2 * f.val * n.val / ((f.val - n.val) * s))| ≤
      8 * P.u * ((f.val + n.val) / (f.val - n.val) + 2 * f.val * n.val / ((f.val - n.val) * s)) + P.eta ∧
    (s = n.val → |z.val + 1| ≤ 8 * P.u * ((3 * f.val + n.val) / (f.val - n.val)) + P.eta) ∧
    (s = f.val → |z.val - 1| ≤ 8 * P.u * ((f.val + 3 * n.val) / (f.val - n.val)) + P.eta) := by
  intro s z
  obtain ⟨zf, ze⟩ := depth_err h hf hf2 hd (hp 2) hs1 hs2
  rw [← (persp_point tn fov n f W H p hp).2.2] at zf ze
  change |z.val - ((f.val + n.val) / (f.val - n.val) - 2 * f.val * n.val / ((f.val - n.val) * s))| ≤
      8 * P.u * ((f.val + n.val) / (f.val - n.val) + 2 * f.val * n.val / ((f.val - n.val) * s)) + P.eta at ze
  have p0 := two_zpow_pos (-m)
  have d0 : f.val - n.val ≠ 0 := by linarith
  have n0 : n.val ≠ 0 := by linarith [h.n1]
  have f0 : f.val ≠ 0 := by linarith [h.n1]
  refine ⟨zf, ze, fun e => ?_, fun e => ?_⟩
  · rw [e] at ze
    have e1 : (f.val + n.val) / (f.val - n.val) - 2 * f.val * n.val / ((f.val - n.val) * n.val) = -1 := by field_simp; ring
    have e2 : (f.val + n.val) / (f.val - n.val) + 2 * f.val * n.val / ((f.val - n.val) * n.val) = (3 * f.val + n.val) / (f.val - n.val) := by field_simp; ring
    rwa [e1, e2, sub_neg_eq_add] at ze
  · rw [e] at ze
    have e1 : (f.val + n.val) / (f.val - n.val) - 2 * f.val * n.val / ((f.val - n.val) * f.val) = 1 := by field_simp; ring
    have e2 : (f.val + n.val) / (f.val - n.val) + 2 * f.val * n.val / ((f.val - n.val) * f.val) = (f.val + 3 * n.val) / (f.val - n.val) := by field_simp; ring
    rwa [e1, e2] at ze

/-- Points straight ahead stay exactly in the centre of the screen, mirrored points have exactly mirrored images, and at the same distance in front of the eye points keep
their order to the right and upwards. -/
theorem C136_symmetry_order (tn : Flt P.fmt → Flt P.fmt) (fov n f : Flt P.fmt) (W H m : ℤ) (h : PerspOk P m (tn (toRadians P.pi fov / 2)) n W H)
    (p p' : Vec (Flt P.fmt) 3) (hp : ∀ i, (p i).isFinite) (hp' : ∀ i, (p' i).isFinite) (hz : p 2 = p' 2) (hs : (p 2).val ≠ 0) :
    let q := mmulPoint (perspectiveMatrixF P tn fov n f W H) p
    let q' := mmulPoint (perspectiveMatrixF P tn fov n f W H) p'
    (p 0 = 0 → q 0 = 0) ∧ (p 1 = 0 → q 1 = 0) ∧ (p' 0 = -p 0 → q' 0 = -q 0) ∧ (p' 1 = -p 1 → q' 1 = -q 1) ∧
    ((p 2).val < 0 → (p 0).val ≤ (p' 0).val → (q 0).isFinite → (q' 0).isFinite → (q 0).val ≤ (q' 0).val) ∧
    ((p 2).val < 0 → (p 1).val ≤ (p' 1).val → (q 1).isFinite → (q' 1).isFinite → (q 1).val ≤ (q' 1).val) := by
  intro q q'
  obtain ⟨e0, e1, -⟩ := persp_point tn fov n f W H p hp
  obtain ⟨e0', e1', -⟩ := persp_point tn fov n f W H p' hp'
  rw [← hz] at e0' e1'
  have A := good_a h
  have B := good_b h
  have t0 : 0 < (tn (toRadians P.pi fov / 2)).val := lt_of_lt_of_le (two_zpow_pos _) h.t1
  have W0 : (0 : ℚ) < W := by have := h.W1; exact_mod_cast (by omega : 0 < W)
  have H0 : (0 : ℚ) < H := by have := h.H1; exact_mod_cast (by omega : 0 < H)
  have pos : ∀ {a b : ℤ} {k : ℕ} {x : Flt P.fmt} {y : ℚ}, Good a b k x y → 0 < y → 0 ≤ x.val := by
    intro a b k x y g hy
    obtain ⟨θ, e, h1, -⟩ := g.rel
    rw [e]
    exact mul_nonneg hy.le ((Good.pow_pos' P k).le.trans h1)
  have a0 := pos A (by positivity)
  have b0 := pos B (by positivity)
  have nf : (-p 2).isFinite := Flt.neg_finite.2 (hp 2)
  have nv : (-p 2).val ≠ 0 := by rw [Flt.neg_val]; exact neg_ne_zero.2 hs
  have zero : ∀ {c : Flt P.fmt}, c.isFinite → c * 0 / -p 2 = 0 := by
    intro c hc
    rw [Flt.mul_zero_fin hc, fin_div_fin Flt.zero_isFin nf nv, show (0 : Flt P.fmt).val = 0 from rfl, zero_div]
    exact Flt.round_of_rep P.fmt.rep_zero
  have mirror : ∀ (c x : Flt P.fmt), c * -x / -p 2 = -(c * x / -p 2) := by
    intro c x
    rw [Flt.mul_comm', Flt.neg_mul', neg_div_fin nf nv, Flt.mul_comm']
  have order : ∀ {c x y : Flt P.fmt}, 0 ≤ c.val → c.isFinite → x.isFinite → y.isFinite → (p 2).val < 0 → x.val ≤ y.val → (c * x / -p 2).isFinite → (c * y / -p 2).isFinite →
      (c * x / -p 2).val ≤ (c * y / -p 2).val := by
    intro c x y h0 hc hx hy h2 hxy f1 f2
    have g1 := div_finite_left nf f1
    have g2 := div_finite_left nf f2
    rw [fin_div_fin g1 nf nv] at f1 ⊢
    rw [fin_div_fin g2 nf nv] at f2 ⊢
    rw [Flt.round_val f1, Flt.round_val f2, Flt.mul_val g1, Flt.mul_val g2, Flt.neg_val]
    exact P.fl_mono (div_le_div_of_nonneg_right (P.fl_mono (mul_le_mul_of_nonneg_left hxy h0)) (by linarith))
  rw [show q 0 = _ from e0, show q 1 = _ from e1, show q' 0 = _ from e0', show q' 1 = _ from e1']
  refine ⟨fun h => by rw [h, zero A.fin], fun h => by rw [h, zero B.fin], fun h => by rw [h, mirror], fun h => by rw [h, mirror], fun h1 h2 h3 h4 => ?_, fun h1 h2 h3 h4 => ?_⟩
  · exact order a0 A.fin (hp 0) (hp' 0) h1 h2 h3 h4
  · exact order b0 B.fin (hp 1) (hp' 1) h1 h2 h3 h4

/-- Points in the plane of the eye have no finite image. -/
theorem C136_eye_plane_fails (tn : Flt P.fmt → Flt P.fmt) (fov n f : Flt P.fmt) (W H : ℤ) (p : Vec (Flt P.fmt) 3) (hp : ∀ i, (p i).isFinite) (h0 : p 2 = 0) (i : Fin 3) :
    ¬ (mmulPoint (perspectiveMatrixF P tn fov n f W H) p i).isFinite := by
  obtain ⟨e0, e1, e2⟩ := persp_point tn fov n f W H p hp
  have z : -p 2 = 0 := by rw [h0]; exact Flt.key_inj (by show some (Ext.ofRat (-0)) = some (Ext.ofRat 0); rw [neg_zero])
  have key : ∀ x : Flt P.fmt, ¬ (x / -p 2).isFinite := by
    intro x h
    rw [z] at h
    rcases x with _ | _ | _ | ⟨x, hx⟩
    · exact h
    · change Flt.isFinite (if (0 : ℚ) ≤ 0 then Flt.ninf else Flt.pinf : Flt P.fmt) at h
      rw [if_pos le_rfl] at h; exact h
    · change Flt.isFinite (if (0 : ℚ) ≤ 0 then Flt.pinf else Flt.ninf : Flt P.fmt) at h
      rw [if_pos le_rfl] at h; exact h
    · change Flt.isFinite (if (0 : ℚ) = 0 then Flt.infTimes x else Flt.round _ : Flt P.fmt) at h
      rw [if_pos rfl] at h
      unfold Flt.infTimes at h
      split_ifs at h <;> exact h
  fin_cases i
  · exact fun h => key _ (e0 ▸ h)
  · exact fun h => key _ (e1 ▸ h)
  · exact fun h => key _ (e2 ▸ h)

/-- Depth does not keep the order of distances: with the near plane at 1 and the far plane at 5, in `double`, of two points near distance 3 the farther one gets the
smaller depth. -/
theorem C136_depth_order_fails (tn : Flt binary64.fmt → Flt binary64.fmt) (fov : Flt binary64.fmt) (W H : ℤ) :
    ∃ (f : Flt binary64.fmt) (p p' : Vec (Flt binary64.fmt) 3), f.val = 5 ∧ (∀ i, (p i).isFinite ∧ (p' i).isFinite) ∧ 1 < -(p 2).val ∧ -(p' 2).val < f.val ∧
      -(p 2).val < -(p' 2).val ∧
      (mmulPoint (perspectiveMatrixF binary64 tn fov 1 f W H) p 2).isFinite ∧ (mmulPoint (perspectiveMatrixF binary64 tn fov 1 f W H) p' 2).isFinite ∧
      (mmulPoint (perspectiveMatrixF binary64 tn fov 1 f W H) p' 2).val < (mmulPoint (perspectiveMatrixF binary64 tn fov 1 f W H) p 2).val := by
  have h5 : (Flt.round 5 : Flt binary64.fmt).isFinite ∧ (Flt.round 5 : Flt binary64.fmt).val = 5 :=
    is_round (by fl_num (-50) (5 * 2 ^ 50)) (lt_bound64 (by norm_num [abs_le]))
  have h1 : (1 : Flt binary64.fmt).isFinite ∧ (1 : Flt binary64.fmt).val = 1 := ⟨trivial, rfl⟩
  have ha : (Flt.round (-(3 + 1 / 2 ^ 50)) : Flt binary64.fmt).isFinite ∧ (Flt.round (-(3 + 1 / 2 ^ 50)) : Flt binary64.fmt).val = -(3 + 1 / 2 ^ 50) :=
    is_round (by fl_num (-51) (-(3 * 2 ^ 51 + 2))) (lt_bound64 (by norm_num [abs_le]))
  have hb : (Flt.round (-(3 + 3 / 2 ^ 51)) : Flt binary64.fmt).isFinite ∧ (Flt.round (-(3 + 3 / 2 ^ 51)) : Flt binary64.fmt).val = -(3 + 3 / 2 ^ 51) :=
    is_round (by fl_num (-51) (-(3 * 2 ^ 51 + 3))) (lt_bound64 (by norm_num [abs_le]))
  set x : Flt binary64.fmt := Flt.round 5
  set a : Flt binary64.fmt := Flt.round (-(3 + 1 / 2 ^ 50))
  set b : Flt binary64.fmt := Flt.round (-(3 + 3 / 2 ^ 51))
  have m2 : (-2 : Flt binary64.fmt).isFinite ∧ (-2 : Flt binary64.fmt).val = -2 := ⟨Flt.neg_finite.2 (Flt.two_eq _).1, by rw [Flt.neg_val, (Flt.two_eq _).2]⟩
  have s := is_add (c := 6) h5 h1 (by fl_num (-50) (6 * 2 ^ 50)) (lt_bound64 (by norm_num [abs_le]))
  have s' : (-(x + 1)).isFinite ∧ (-(x + 1)).val = -6 := ⟨Flt.neg_finite.2 s.1, by rw [Flt.neg_val, s.2]⟩
  have d := is_sub (c := 4) h5 h1 (by fl_num (-50) (2 ^ 52)) (lt_bound64 (by norm_num [abs_le]))
  have C := is_div (c := -(3 / 2)) s' d (by norm_num) (by fl_num (-52) (-(3 * 2 ^ 51))) (lt_bound64 (by norm_num [abs_le]))
  have w1 := is_mul (c := -10) m2 h5 (by fl_num (-49) (-(10 * 2 ^ 49))) (lt_bound64 (by norm_num [abs_le]))
  have w2 := is_mul (c := -10) w1 h1 (by fl_num (-49) (-(10 * 2 ^ 49))) (lt_bound64 (by norm_num [abs_le]))
  have D := is_div (c := -(5 / 2)) w2 d (by norm_num) (by fl_num (-51) (-(5 * 2 ^ 50))) (lt_bound64 (by norm_num [abs_le]))
  have ca := is_mul (c := 9 / 2 + 1 / 2 ^ 49) C ha (by fl_tie (-50) (9 * 2 ^ 49 + 2)) (lt_bound64 (by norm_num [abs_le]))
  have cb := is_mul (c := 9 / 2 + 1 / 2 ^ 49) C hb (by fl_num (-50) (9 * 2 ^ 49 + 2)) (lt_bound64 (by norm_num [abs_le]))
  have za := is_add (c := 2 + 1 / 2 ^ 49) ca D (by fl_num (-51) (2 ^ 52 + 4)) (lt_bound64 (by norm_num [abs_le]))
  have zb := is_add (c := 2 + 1 / 2 ^ 49) cb D (by fl_num (-51) (2 ^ 52 + 4)) (lt_bound64 (by norm_num [abs_le]))
  have na : (-a).isFinite ∧ (-a).val = 3 + 1 / 2 ^ 50 := ⟨Flt.neg_finite.2 ha.1, by rw [Flt.neg_val, ha.2, neg_neg]⟩
  have nb : (-b).isFinite ∧ (-b).val = 3 + 3 / 2 ^ 51 := ⟨Flt.neg_finite.2 hb.1, by rw [Flt.neg_val, hb.2, neg_neg]⟩
  have qa := is_div (c := 6004799503160665 / 2 ^ 53) za na (by norm_num) (by fl_num (-53) 6004799503160665) (lt_bound64 (by norm_num [abs_le]))
  have qb := is_div (c := 6004799503160664 / 2 ^ 53) zb nb (by norm_num) (by fl_num (-53) 6004799503160664) (lt_bound64 (by norm_num [abs_le]))
  have fin3 : ∀ (y : Flt binary64.fmt), y.isFinite → ∀ i, ((![0, 0, y] : Vec (Flt binary64.fmt) 3) i).isFinite := by
    intro y hy i
    rcases three i with rfl | rfl | rfl
    · exact Flt.zero_isFin
    · exact Flt.zero_isFin
    · exact hy
  refine ⟨x, ![0, 0, a], ![0, 0, b], h5.2, fun i => ⟨fin3 a ha.1 i, fin3 b hb.1 i⟩, ?_⟩
  rw [(persp_point tn fov 1 x W H ![0, 0, a] (fin3 a ha.1)).2.2, (persp_point tn fov 1 x W H ![0, 0, b] (fin3 b hb.1)).2.2]
  change 1 < -a.val ∧ -b.val < x.val ∧ -a.val < -b.val ∧ ((-(x + 1) / (x - 1) * a + -2 * x * 1 / (x - 1)) / -a).isFinite ∧ ((-(x + 1) / (x - 1) * b + -2 * x * 1 / (x - 1)) / -b).isFinite ∧
    ((-(x + 1) / (x - 1) * b + -2 * x * 1 / (x - 1)) / -b).val < ((-(x + 1) / (x - 1) * a + -2 * x * 1 / (x - 1)) / -a).val
  rw [ha.2, hb.2, h5.2]
  refine ⟨by norm_num, by norm_num, by norm_num, qa.1, qb.1, ?_⟩
  rw [qa.2, qb.2]
  norm_num

/-- A camera of `double` with a field of view of 90 degrees and a viewport of 4 by 3 pixels, near plane at 1 and far plane at 5, and points at distance 2: the hypotheses of the
theorems hold. -/
example : ∃ (tn : Flt binary64.fmt → Flt binary64.fmt) (fov n f : Flt binary64.fmt) (W H : ℤ) (p p' : Vec (Flt binary64.fmt) 3), AccurateTan binary64 tn ∧ fov.val = 90 ∧ fov.isFinite ∧
    W = 4 ∧ H = 3 ∧ PerspOk binary64 20 (tn (toRadians binary64.pi fov / 2)) n W H ∧ f.isFinite ∧ f.val ≤ 2 ^ (20 : ℤ) ∧ 2 ^ (-20 : ℤ) ≤ f.val - n.val ∧
    (∀ i, (p i).isFinite ∧ (p' i).isFinite) ∧ (∀ i, p i = 0 ∨ 2 ^ (-20 : ℤ) ≤ |(p i).val| ∧ |(p i).val| ≤ 2 ^ (20 : ℤ)) ∧ (p 2).val = -2 ∧ p 2 = p' 2 ∧ (p 0).val < (p' 0).val ∧
    (∀ i : Fin 3, i ≠ 2 → (mmulPoint (perspectiveMatrixF binary64 tn fov n f W H) p i).isFinite) := by
  obtain ⟨tn, hT⟩ := exists_tan (P := binary64) (by simp [binary64])
  have h5 : (Flt.round 5 : Flt binary64.fmt).isFinite ∧ (Flt.round 5 : Flt binary64.fmt).val = 5 :=
    is_round (by fl_num (-50) (5 * 2 ^ 50)) (lt_bound64 (by norm_num [abs_le]))
  have h90 : (Flt.round 90 : Flt binary64.fmt).isFinite ∧ (Flt.round 90 : Flt binary64.fmt).val = 90 :=
    is_round (by fl_num (-46) (90 * 2 ^ 46)) (lt_bound64 (by norm_num [abs_le]))
  have h1 : (1 : Flt binary64.fmt).isFinite ∧ (1 : Flt binary64.fmt).val = 1 := ⟨trivial, rfl⟩
  have h2 := Flt.two_eq binary64
  set x : Flt binary64.fmt := Flt.round 5
  set y : Flt binary64.fmt := Flt.round 90
  have m2 : (-2 : Flt binary64.fmt).isFinite ∧ (-2 : Flt binary64.fmt).val = -2 := ⟨Flt.neg_finite.2 h2.1, by rw [Flt.neg_val, h2.2]⟩
  obtain ⟨tf, T1, T2, te⟩ := tan_err (Or.inr rfl) hT h90.1 (by rw [h90.2]; norm_num) (by rw [h90.2]; norm_num)
  have hT1 : Real.tan ((y.val : ℝ) * Real.pi / 360) = 1 := by
    rw [h90.2]
    push_cast
    rw [show (90 : ℝ) * Real.pi / 360 = Real.pi / 4 by ring, Real.tan_pi_div_four]
  rw [hT1] at te
  have hu : (binary64.u : ℝ) ≤ 1 / 1000 := by
    have : binary64.u ≤ 1 / 1000 := by norm_num [BinPar.u, binary64]
    have := (Rat.cast_le (K := ℝ)).2 this
    push_cast at this
    exact this
  have tb : (1 / 2 : ℝ) ≤ (tn (toRadians binary64.pi y / 2)).val ∧ ((tn (toRadians binary64.pi y / 2)).val : ℝ) ≤ 2 := by
    obtain ⟨a1, a2⟩ := abs_le.1 te
    constructor <;> linarith
  have tb1 : (1 / 2 : ℚ) ≤ (tn (toRadians binary64.pi y / 2)).val := by
    have : ((1 / 2 : ℚ) : ℝ) ≤ (tn (toRadians binary64.pi y / 2)).val := by push_cast; exact tb.1
    exact_mod_cast this
  have tb2 : (tn (toRadians binary64.pi y / 2)).val ≤ 2 := by exact_mod_cast tb.2
  have ok : PerspOk binary64 20 (tn (toRadians binary64.pi y / 2)) 1 4 3 := by
    refine ⟨by simp [binary64], by norm_num, by simp [binary64], by simp [binary64], tf, le_trans (by norm_num) tb1, tb2.trans (by norm_num), trivial, ?_, ?_, by norm_num, by norm_num,
      by norm_num, by norm_num⟩ <;> rw [h1.2] <;> norm_num
  have pf : ∀ i, ((![1, 0, -2] : Vec (Flt binary64.fmt) 3) i).isFinite := by
    intro i
    rcases three i with rfl | rfl | rfl
    · exact trivial
    · exact trivial
    · exact m2.1
  have pf' : ∀ i, ((![2, 0, -2] : Vec (Flt binary64.fmt) 3) i).isFinite := by
    intro i
    rcases three i with rfl | rfl | rfl
    · exact h2.1
    · exact trivial
    · exact m2.1
  have pr : ∀ i, (![1, 0, -2] : Vec (Flt binary64.fmt) 3) i = 0 ∨ 2 ^ (-20 : ℤ) ≤ |((![1, 0, -2] : Vec (Flt binary64.fmt) 3) i).val| ∧
      |((![1, 0, -2] : Vec (Flt binary64.fmt) 3) i).val| ≤ 2 ^ (20 : ℤ) := by
    intro i
    rcases three i with rfl | rfl | rfl
    · right
      change 2 ^ (-20 : ℤ) ≤ |(1 : Flt binary64.fmt).val| ∧ |(1 : Flt binary64.fmt).val| ≤ 2 ^ (20 : ℤ)
      rw [h1.2]; norm_num
    · left; rfl
    · right
      change 2 ^ (-20 : ℤ) ≤ |(-2 : Flt binary64.fmt).val| ∧ |(-2 : Flt binary64.fmt).val| ≤ 2 ^ (20 : ℤ)
      rw [m2.2]; norm_num
  have S := C136_screen tn y 1 x 4 3 20 ok ![1, 0, -2] pf pr (by show (-2 : Flt binary64.fmt).val < 0; rw [m2.2]; norm_num)
  refine ⟨tn, y, 1, x, 4, 3, ![1, 0, -2], ![2, 0, -2], hT, h90.2, h90.1, rfl, rfl, ok, h5.1, by rw [h5.2]; norm_num, by rw [h5.2, h1.2]; norm_num, fun i => ⟨pf i, pf' i⟩, pr, m2.2, rfl, ?_, ?_⟩
  · change (1 : Flt binary64.fmt).val < (2 : Flt binary64.fmt).val
    rw [h1.2, h2.2]; norm_num
  · intro i hi
    rcases three i with rfl | rfl | rfl
    · exact S.1
    · exact S.2.1
    · exact absurd rfl hi

end vm
