import Verif.Props.FltColinear
import Verif.Props.Distance
import Verif.Lemmas.FltDistance
import Verif.Lemmas.FltProj
import Verif.Model.RaySegmentG

/-! C151: distances between rays, lines and segments in IEEE arithmetic. -/

set_option linter.unusedSectionVars false
set_option linter.unusedSimpArgs false

namespace vm
open BinPar FltAng
variable {P : BinPar}

namespace FltLD

/-- A difference of finite numbers that are at most `L` apart. -/
theorem ap_diff {L : ℝ} (ok : ApOk P L) {a c : Flt P.fmt} (ha : a.isFinite) (hc : c.isFinite) (h : |(a.val : ℝ) - c.val| ≤ L) :
    Ap L 1.001 1.002 (a - c) ((a.val : ℝ) - c.val) :=
  (Ap.round (q := a.val - c.val) (B := 1) (k := 0) ok (by push_cast; rw [one_mul]; exact h) (by norm_num) (by push_cast; simp)
    (Flt.sub_eq ha hc)).mono (by linarith [ok.one]) (by norm_num) (by norm_num)

/-- The squared length of a vector of three numbers known up to `k u X`. -/
theorem ap_sq {X : ℝ} (ok : ApOk P (X * X)) (hX : 0 ≤ X) {k : ℝ} (hk : 0 ≤ k) (hk3 : k ≤ 3) {v : Vec (Flt P.fmt) 3} {x : Vec ℝ 3}
    (h : ∀ i, Ap X k 1 (v i) (x i)) : Ap (X * X) (6.1 * k + 8.2) 3.02 (squaredLength v) (squaredLength x) := by
  have LL0 : 0 ≤ X * X := by positivity
  have m : ∀ i, Ap (X * X) (2.003 * k + 1.001) 1.002 (v i * v i) (x i * x i) := fun i =>
    (FltCol.ap_mul hX hX ok (h i) (h i) hk (by norm_num) hk (by norm_num) (by norm_num)).mono LL0 (by nlinarith) (by norm_num)
  have m2 := ((m 0).add ok (m 1) (by norm_num)).mono (k1 := 4.006 * k + 4.01) (B1 := 2.007) LL0 (by linarith) (by norm_num)
  have m3 := (m2.add ok (m 2) (by norm_num)).mono (k1 := 6.1 * k + 8.2) (B1 := 3.02) LL0 (by linarith) (by norm_num)
  show Ap _ _ _ (dot v v) (dot x x)
  rw [FltQt.dot3, vm.dot3]
  exact m3

/-- The squared length of `w + a - b`. -/
theorem gap {L : ℝ} (hu : 1000 * (P.u : ℝ) ≤ 1) (hL : 1 ≤ L) (hb : 1024 * L ^ 2 < P.bound) {w a b : Vec (Flt P.fmt) 3} {x y z : Vec ℝ 3}
    (hw : ∀ i, Ap L 1.001 1.002 (w i) (x i)) (ha : ∀ i, Ap L 2.1 1.1 (a i) (y i)) (hbb : ∀ i, Ap L 1.01 1.01 (b i) (z i)) :
    (squaredLength (w + a - b)).isFinite ∧ |((squaredLength (w + a - b)).val : ℝ) - squaredLength (x + y - z)| ≤ 268 * P.u * L ^ 2 := by
  have hLL : L ≤ L ^ 2 := le_self_pow₀ hL (by norm_num)
  have L0 : 0 ≤ L := by linarith
  have ok : ApOk P L := ⟨hu, hL, by nlinarith⟩
  have ok2 : ApOk P (3.2 * L * (3.2 * L)) := ⟨hu, by nlinarith, by nlinarith⟩
  have d : ∀ i, Ap (3.2 * L) 2.94 1 ((w + a - b) i) ((x + y - z) i) := fun i => by
    have s1 := ((hw i).add ok (ha i) (by norm_num)).mono (k1 := 5.22) (B1 := 2.11) L0 (by norm_num) (by norm_num)
    have s2 := (s1.sub ok (hbb i) (by norm_num)).mono (k1 := 9.37) (B1 := 3.13) L0 (by norm_num) (by norm_num)
    have up := Ap.u_pos P
    have : 0 ≤ P.u * L := by positivity
    exact ⟨s2.fin, s2.err.trans (by nlinarith), s2.le.trans (by linarith)⟩
  have q := ap_sq ok2 (by linarith) (by norm_num) (by norm_num) d
  refine ⟨q.fin, q.err.trans ?_⟩
  have up := Ap.u_pos P
  have : 0 ≤ P.u * L ^ 2 := by positivity
  nlinarith

/-- A maximum with zero is finite if it is at most a finite number; it is not negative. -/
theorem max_nonneg {x : Flt P.fmt} (h : (vmax x [0]).isFinite) : 0 ≤ (vmax x [0]).val := by
  change (if Cmp.lt (0 : Flt P.fmt) x then x else 0).isFinite at h
  show 0 ≤ (if Cmp.lt (0 : Flt P.fmt) x then x else 0).val
  by_cases c : Cmp.lt (0 : Flt P.fmt) x = true
  · rw [if_pos c] at h ⊢
    rw [Flt.lt_val Flt.zero_finite h, Flt.zero_val] at c
    exact (of_decide_eq_true c).le
  · rw [if_neg c, Flt.zero_val]

/-- A quotient of two numbers in the right order lies between zero and one. -/
theorem div_unit_interval {a d : Flt P.fmt} (ha : a.isFinite) (hd : d.isFinite) (h0 : 0 ≤ a.val / d.val) (h1 : a.val / d.val ≤ 1) (hd0 : d.val ≠ 0) :
    (a / d).isFinite ∧ 0 ≤ (a / d).val ∧ (a / d).val ≤ 1 := by
  have r1 : P.Rep 1 := by have := (Flt.rep_val (1 : Flt P.fmt)).1; rwa [Flt.one_val] at this
  have e := fin_div_fin ha hd hd0
  have b1 := P.fl_le_of_rep r1 h1
  have b0 := P.fl_nonneg h0
  have f : (Flt.round (a.val / d.val) : Flt P.fmt).isFinite := Flt.round_finite.2 (by
    rw [abs_of_nonneg b0]
    refine lt_of_le_of_lt b1 ?_
    have := (Flt.rep_val (1 : Flt P.fmt)).2
    rwa [Flt.one_val, abs_one] at this)
  rw [e, Flt.round_val f]
  exact ⟨f, b0, b1⟩

/-- The scalar product of vectors of different sizes. -/
theorem ap_dot {X Y : ℝ} (hX : 0 ≤ X) (hY : 0 ≤ Y) (ok : ApOk P (X * Y)) {v w : Vec (Flt P.fmt) 3} {x y : Vec ℝ 3}
    (hv : ∀ i, Ap X 1.001 1.002 (v i) (x i)) (hw : ∀ i, Ap Y 1.001 1.002 (w i) (y i)) : Ap (X * Y) 14.2 3.03 (dot v w) (dot x y) := by
  have LL0 : 0 ≤ X * Y := by positivity
  have m : ∀ i, Ap (X * Y) 3.02 1.006 (v i * w i) (x i * y i) := fun i =>
    (FltCol.ap_mul hX hY ok (hv i) (hw i) (by norm_num) (by norm_num) (by norm_num) (by norm_num) (by norm_num)).mono LL0 (by norm_num) (by norm_num)
  have m2 := ((m 0).add ok (m 1) (by norm_num)).mono (k1 := 8.07) (B1 := 2.02) LL0 (by norm_num) (by norm_num)
  have m3 := (m2.add ok (m 2) (by norm_num)).mono (k1 := 14.2) (B1 := 3.03) LL0 (by norm_num) (by norm_num)
  rw [FltQt.dot3, vm.dot3]
  exact m3

/-- A difference of products of scalar products. -/
theorem ap_det {X Y Z W M : ℝ} (hX : 0 ≤ X) (hY : 0 ≤ Y) (hZ : 0 ≤ Z) (hW : 0 ≤ W) (e1 : X * Y = M) (e2 : Z * W = M) (hM : 1 ≤ M)
    (hu : 1000 * (P.u : ℝ) ≤ 1) (hb : 128 * M < P.bound) {a b c d : Flt P.fmt} {a' b' c' d' : ℝ}
    (ha : Ap X 14.2 3.03 a a') (hb' : Ap Y 14.2 3.03 b b') (hc : Ap Z 14.2 3.03 c c') (hd : Ap W 14.2 3.03 d d') :
    Ap (2 * M) 106 9.4 (a * b - c * d) (a' * b' - c' * d') := by
  have ok : ApOk P M := ⟨hu, hM, by linarith⟩
  have ok2 : ApOk P (2 * M) := ⟨hu, by linarith, by linarith⟩
  have M0 : 0 ≤ M := by linarith
  have scale : ∀ {x : Flt P.fmt} {y : ℝ}, Ap M 96 9.3 x y → Ap (2 * M) 48 4.65 x y := fun {x y} q =>
    ⟨q.fin, q.err.trans (le_of_eq (by ring)), q.le.trans (le_of_eq (by ring))⟩
  have p1 : Ap M 96 9.3 (a * b) (a' * b') := by
    have := FltCol.ap_mul hX hY (by rw [e1]; exact ok) ha hb' (by norm_num) (by norm_num) (by norm_num) (by norm_num) (by norm_num)
    rw [e1] at this
    exact this.mono M0 (by norm_num) (by norm_num)
  have p2 : Ap M 96 9.3 (c * d) (c' * d') := by
    have := FltCol.ap_mul hZ hW (by rw [e2]; exact ok) hc hd (by norm_num) (by norm_num) (by norm_num) (by norm_num) (by norm_num)
    rw [e2] at this
    exact this.mono M0 (by norm_num) (by norm_num)
  exact ((scale p1).sub ok2 (scale p2) (by norm_num)).mono (by linarith) (by norm_num) (by norm_num)

/-- A component of a direction. -/
theorem ap_dir {x : Flt P.fmt} (hf : x.isFinite) (h : |(x.val : ℝ)| ≤ 1) : Ap 1 1.001 1.002 x x.val :=
  (Ap.exact (B := 1) (X := 1) hf (by simpa using h)).mono (by norm_num) (by norm_num) (by norm_num)

/-- A component of a direction times a position. -/
theorem ap_step {L : ℝ} (ok : ApOk P L) {x t : Flt P.fmt} (hf : x.isFinite) (h : |(x.val : ℝ)| ≤ 1) (ft : t.isFinite) (ht : |(t.val : ℝ)| ≤ L) :
    Ap L 1.01 1.01 (x * t) (x.val * t.val) :=
  (Ap.mul ok (Ap.exact (B := 1) (X := 1) hf (by simpa using h)) (Ap.exact (B := 1) ft (by simpa using ht)) (by norm_num) (by norm_num) (by norm_num)
    (by norm_num) (by norm_num)).mono (by linarith [ok.one]) (by norm_num) (by norm_num)

/-- The Gram determinant is not negative. -/
theorem gram_nonneg (x y : Vec ℝ 3) : 0 ≤ dot x x * dot y y - dot x y * dot x y := by
  have : dot x x * dot y y - dot x y * dot x y = squaredLength (cross x y) := by
    unfold squaredLength
    rw [lagrange]
    ring
  rw [this]
  unfold squaredLength
  rw [vm.dot3]
  nlinarith

/-- The form of the result for a segment. -/
theorem seg_form {F : Fmt} (s : Flt F → Flt F) (az : Flt F) (r : Ray (Flt F) 3) (g : Segment (Flt F) 3)
    (h : (squaredDistanceRaySegmentG s az r g).parallel = false) :
    ∃ D sN N x : Flt F, D = dot (g.end_ - g.start) (g.end_ - g.start) * dot r.direction r.direction
        - dot (g.end_ - g.start) r.direction * dot (g.end_ - g.start) r.direction ∧
      sN = dot (g.end_ - g.start) r.direction * dot r.direction (g.start - r.origin)
        - dot r.direction r.direction * dot (g.end_ - g.start) (g.start - r.origin) ∧
      isZero D az = false ∧ (N = 0 ∨ N = D ∨ N = sN ∧ Cmp.lt sN 0 = false ∧ Cmp.lt D sN = false) ∧
      squaredDistanceRaySegmentG s az r g = ⟨false, vmax x [0],
        squaredLength (g.start - r.origin + vscale (g.end_ - g.start) (if isZero N az then 0 else N / D) - vscale r.direction (vmax x [0])),
        some ((if isZero N az then 0 else N / D) * s (squaredLength (g.end_ - g.start)))⟩ := by
  unfold squaredDistanceRaySegmentG at h ⊢
  simp only at h ⊢
  generalize hD : dot (g.end_ - g.start) (g.end_ - g.start) * dot r.direction r.direction
        - dot (g.end_ - g.start) r.direction * dot (g.end_ - g.start) r.direction = D at h ⊢
  generalize hS : dot (g.end_ - g.start) r.direction * dot r.direction (g.start - r.origin)
        - dot r.direction r.direction * dot (g.end_ - g.start) (g.start - r.origin) = sN at h ⊢
  have hz : isZero D az = false := by
    rw [← Bool.not_eq_true]
    intro c
    rw [if_pos c] at h
    split_ifs at h
  rw [hz, if_neg (by decide)]
  by_cases c1 : Cmp.lt sN 0 = true
  · rw [if_pos c1]
    exact ⟨D, sN, 0, _, rfl, rfl, hz, Or.inl rfl, rfl⟩
  · rw [if_neg c1]
    by_cases c2 : Cmp.lt D sN = true
    · rw [if_pos c2]
      exact ⟨D, sN, D, _, rfl, rfl, hz, Or.inr (Or.inl rfl), rfl⟩
    · rw [if_neg c2]
      exact ⟨D, sN, sN, _, rfl, rfl, hz, Or.inr (Or.inr ⟨rfl, by simpa using c1, by simpa using c2⟩), rfl⟩

/-- The form of the result for two rays. -/
theorem ray_form {F : Fmt} (az : Flt F) (r1 r2 : Ray (Flt F) 3) (h : (squaredDistanceRayRay az r1 r2).parallel = false) :
    ∃ D sN N x : Flt F, D = dot r2.direction r2.direction * dot r1.direction r1.direction - dot r2.direction r1.direction * dot r2.direction r1.direction ∧
      sN = dot r2.direction r1.direction * dot r1.direction (r2.origin - r1.origin) - dot r1.direction r1.direction * dot r2.direction (r2.origin - r1.origin) ∧
      isZero D az = false ∧ (N = 0 ∨ N = sN ∧ Cmp.lt sN 0 = false) ∧
      squaredDistanceRayRay az r1 r2 = ⟨false, vmax x [0],
        squaredLength (r2.origin - r1.origin + vscale r2.direction (if isZero N az then 0 else N / D) - vscale r1.direction (vmax x [0])),
        some (if isZero N az then 0 else N / D)⟩ := by
  unfold squaredDistanceRayRay at h ⊢
  simp only at h ⊢
  generalize hD : dot r2.direction r2.direction * dot r1.direction r1.direction - dot r2.direction r1.direction * dot r2.direction r1.direction = D at h ⊢
  generalize hS : dot r2.direction r1.direction * dot r1.direction (r2.origin - r1.origin) -
    dot r1.direction r1.direction * dot r2.direction (r2.origin - r1.origin) = sN at h ⊢
  have hz : isZero D az = false := by
    rw [← Bool.not_eq_true]
    intro c
    rw [if_pos c] at h
    exact Bool.noConfusion h
  rw [hz, if_neg (by decide)]
  by_cases c1 : Cmp.lt sN 0 = true
  · rw [if_pos c1]
    exact ⟨D, sN, 0, _, rfl, rfl, hz, Or.inl rfl, rfl⟩
  · rw [if_neg c1]
    exact ⟨D, sN, sN, _, rfl, rfl, hz, Or.inr ⟨rfl, by simpa using c1⟩, rfl⟩

/-- The form of the result for a line. -/
theorem line_form {F : Fmt} (az : Flt F) (r : Ray (Flt F) 3) (l : Line (Flt F) 3) (h : (squaredDistanceRayLine az r l).parallel = false) :
    ∃ x y : Flt F, squaredDistanceRayLine az r l = ⟨false, vmax x [0],
        squaredLength (r.origin + vscale r.direction (vmax x [0]) - (l.point + vscale l.direction y)), some y⟩ := by
  unfold squaredDistanceRayLine at h ⊢
  simp only at h ⊢
  split_ifs at h ⊢ with c
  exact ⟨_, _, rfl⟩

end FltLD

open FltLD

/-- A ray and a segment that are not treated as parallel: the reported position on the ray is not negative, and the reported squared distance is the
squared distance of the point there from a point of the segment, up to a rounding error of the second order.  The other position is the position of
this point.  Here `L` bounds the components of the segment, those of the distance of its start from the origin of the ray, and the reported position. -/
theorem C151_segment {L : ℝ} (hu : 1000 * (P.u : ℝ) ≤ 1) (hL : 1 ≤ L) (hb : 1024 * L ^ 2 < P.bound) (s : Flt P.fmt → Flt P.fmt) {az : Flt P.fmt}
    (faz : az.isFinite) (haz : 0 ≤ az.val) {r : Ray (Flt P.fmt) 3} {g : Segment (Flt P.fmt) 3}
    (fo : ∀ i, (r.origin i).isFinite) (fv : ∀ i, (r.direction i).isFinite) (f1 : ∀ i, (g.start i).isFinite) (f2 : ∀ i, (g.end_ i).isFinite)
    (hv : ∀ i, |rvec r.direction i| ≤ 1) (h1 : ∀ i, |rvec g.start i - rvec r.origin i| ≤ L) (h2 : ∀ i, |rvec g.end_ i - rvec g.start i| ≤ L)
    (par : (squaredDistanceRaySegmentG s az r g).parallel = false)
    (ft : (squaredDistanceRaySegmentG s az r g).position1.isFinite) (ht : ((squaredDistanceRaySegmentG s az r g).position1.val : ℝ) ≤ L) :
    0 ≤ (squaredDistanceRaySegmentG s az r g).position1.val ∧ (squaredDistanceRaySegmentG s az r g).distance.isFinite ∧
    ∃ σ : Flt P.fmt, σ.isFinite ∧ 0 ≤ σ.val ∧ σ.val ≤ 1 ∧
      (squaredDistanceRaySegmentG s az r g).position2 = some (σ * s (squaredLength (g.end_ - g.start))) ∧
      |((squaredDistanceRaySegmentG s az r g).distance.val : ℝ) -
        squaredDistance (rvec r.origin + ((squaredDistanceRaySegmentG s az r g).position1.val : ℝ) • rvec r.direction)
          (rvec g.start + (σ.val : ℝ) • (rvec g.end_ - rvec g.start))| ≤ 268 * P.u * L ^ 2 := by
  obtain ⟨D, sN, N, x, eD, eN, hz, hN, e⟩ := seg_form s az r g par
  rw [e] at ft ht ⊢
  simp only at ft ht ⊢
  have L0 : 0 ≤ L := by linarith
  have hLL : L ≤ L ^ 2 := le_self_pow₀ hL (by norm_num)
  have ok : ApOk P L := ⟨hu, hL, by nlinarith⟩
  have ok2 : ApOk P (L * L) := ⟨hu, by nlinarith, by nlinarith⟩
  have ok1 : ApOk P (1 * 1) := ⟨hu, by norm_num, by nlinarith⟩
  have aw : ∀ i, Ap L 1.001 1.002 ((g.start - r.origin) i) ((rvec g.start - rvec r.origin) i) := fun i => ap_diff ok (f1 i) (fo i) (h1 i)
  have au : ∀ i, Ap L 1.001 1.002 ((g.end_ - g.start) i) ((rvec g.end_ - rvec g.start) i) := fun i => ap_diff ok (f2 i) (f1 i) (h2 i)
  have av : ∀ i, Ap 1 1.001 1.002 (r.direction i) (rvec r.direction i) := fun i => ap_dir (fv i) (hv i)
  have da := ap_dot L0 L0 ok2 au au
  have db := ap_dot L0 zero_le_one (by rw [mul_one]; exact ok) au av
  have dc := ap_dot zero_le_one zero_le_one ok1 av av
  have dd := ap_dot L0 L0 ok2 au aw
  have de := ap_dot zero_le_one L0 (by rw [one_mul]; exact ok) av aw
  have LL1 : 1 ≤ L * L := by nlinarith
  have hb2 : 128 * (L * L) < P.bound := by nlinarith
  have fD : D.isFinite := by
    rw [eD]
    exact (ap_det (M := L * L) (by positivity) (by positivity) (by positivity) (by positivity) (by ring) (by ring) LL1 hu hb2 da dc db db).fin
  have fS : sN.isFinite := by
    rw [eN]
    exact (ap_det (M := L * L) (by positivity) (by positivity) (by positivity) (by positivity) (by ring) (by ring) LL1 hu hb2 db de dc dd).fin
  have D0 : D.val ≠ 0 := by
    intro c
    rw [isZero_flt fD faz haz, c, abs_zero] at hz
    exact of_decide_eq_false hz haz
  have sc : (if isZero N az then 0 else N / D : Flt P.fmt).isFinite ∧ 0 ≤ (if isZero N az then 0 else N / D : Flt P.fmt).val ∧
      (if isZero N az then 0 else N / D : Flt P.fmt).val ≤ 1 := by
    by_cases c : isZero N az = true
    · rw [if_pos c]
      exact ⟨Flt.zero_finite, le_of_eq Flt.zero_val.symm, by rw [Flt.zero_val]; norm_num⟩
    · rw [if_neg c]
      rcases hN with h | h | ⟨h, c1, c2⟩
      · subst h
        exact div_unit_interval Flt.zero_finite fD (by rw [Flt.zero_val, zero_div]) (by rw [Flt.zero_val, zero_div]; norm_num) D0
      · subst h
        exact div_unit_interval fD fD (by rw [div_self D0]; norm_num) (by rw [div_self D0]) D0
      · subst h
        rw [Flt.lt_val fS Flt.zero_finite, Flt.zero_val] at c1
        rw [Flt.lt_val fD fS] at c2
        have c1' := not_lt.1 (of_decide_eq_false c1)
        have c2' := not_lt.1 (of_decide_eq_false c2)
        have Dp : 0 < D.val := lt_of_le_of_ne (c1'.trans c2') (Ne.symm D0)
        exact div_unit_interval fS fD (div_nonneg c1' Dp.le) ((div_le_one Dp).2 c2') D0
  generalize (if isZero N az then 0 else N / D : Flt P.fmt) = σ at sc ⊢
  generalize htt : vmax x [0] = t at ft ht ⊢
  have t0 : 0 ≤ t.val := by rw [← htt] at ft ⊢; exact max_nonneg ft
  have t0' : (0 : ℝ) ≤ t.val := by exact_mod_cast t0
  have s0 : (0 : ℝ) ≤ σ.val := by exact_mod_cast sc.2.1
  have s1 : (σ.val : ℝ) ≤ 1 := by exact_mod_cast sc.2.2
  have pu : ∀ i, Ap L 2.1 1.1 (vscale (g.end_ - g.start) σ i) (((rvec g.end_ - rvec g.start) i) * σ.val) := fun i => by
    have := FltCol.ap_mul L0 zero_le_one (by rw [mul_one]; exact ok) (au i)
      (Ap.exact (B := 1) (X := 1) sc.1 (by rw [abs_of_nonneg s0]; linarith)) (by norm_num) (by norm_num) (by norm_num) (by norm_num) (by norm_num)
    rw [mul_one] at this
    exact this.mono L0 (by norm_num) (by norm_num)
  have pv : ∀ i, Ap L 1.01 1.01 (vscale r.direction t i) (rvec r.direction i * t.val) := fun i =>
    ap_step ok (fv i) (hv i) ft (by rw [abs_of_nonneg t0']; exact ht)
  have q := gap hu hL hb aw (x := rvec g.start - rvec r.origin) (y := fun i => ((rvec g.end_ - rvec g.start) i) * σ.val) pu
    (z := fun i => rvec r.direction i * t.val) pv
  refine ⟨t0, q.1, σ, sc.1, sc.2.1, sc.2.2, rfl, ?_⟩
  have id : squaredDistance (rvec r.origin + (t.val : ℝ) • rvec r.direction) (rvec g.start + (σ.val : ℝ) • (rvec g.end_ - rvec g.start)) =
      squaredLength (rvec g.start - rvec r.origin + (fun i => ((rvec g.end_ - rvec g.start) i) * (σ.val : ℝ)) - fun i => rvec r.direction i * (t.val : ℝ)) := by
    unfold squaredDistance squaredLength
    simp only [vm.dot3, Pi.add_apply, Pi.sub_apply, Pi.smul_apply, smul_eq_mul]
    ring
  rw [id]
  exact q.2

/-- Two rays that are not treated as parallel: the reported positions are not negative, and the reported squared distance is the squared distance of
the points there, up to a rounding error of the second order.  Here `L` bounds the components of the distance of the origins and the reported positions. -/
theorem C151_rays {L : ℝ} (hu : 1000 * (P.u : ℝ) ≤ 1) (hL : 1 ≤ L) (hb : 1024 * L ^ 2 < P.bound) {az : Flt P.fmt}
    (faz : az.isFinite) (haz : 212 * (P.u : ℝ) ≤ az.val) {r1 r2 : Ray (Flt P.fmt) 3}
    (fo1 : ∀ i, (r1.origin i).isFinite) (fv1 : ∀ i, (r1.direction i).isFinite) (fo2 : ∀ i, (r2.origin i).isFinite) (fv2 : ∀ i, (r2.direction i).isFinite)
    (hv1 : ∀ i, |rvec r1.direction i| ≤ 1) (hv2 : ∀ i, |rvec r2.direction i| ≤ 1) (h1 : ∀ i, |rvec r2.origin i - rvec r1.origin i| ≤ L)
    (par : (squaredDistanceRayRay az r1 r2).parallel = false)
    (ft : (squaredDistanceRayRay az r1 r2).position1.isFinite) (ht : ((squaredDistanceRayRay az r1 r2).position1.val : ℝ) ≤ L)
    {y : Flt P.fmt} (e2 : (squaredDistanceRayRay az r1 r2).position2 = some y) (fy : y.isFinite) (hy : (y.val : ℝ) ≤ L) :
    0 ≤ (squaredDistanceRayRay az r1 r2).position1.val ∧ 0 ≤ y.val ∧ (squaredDistanceRayRay az r1 r2).distance.isFinite ∧
      |((squaredDistanceRayRay az r1 r2).distance.val : ℝ) -
        squaredDistance (rvec r1.origin + ((squaredDistanceRayRay az r1 r2).position1.val : ℝ) • rvec r1.direction)
          (rvec r2.origin + (y.val : ℝ) • rvec r2.direction)| ≤ 268 * P.u * L ^ 2 := by
  obtain ⟨D, sN, N, x, eD, eN, hz, hN, e⟩ := ray_form az r1 r2 par
  rw [e] at ft ht e2 ⊢
  simp only at ft ht e2 ⊢
  have L0 : 0 ≤ L := by linarith
  have hLL : L ≤ L ^ 2 := le_self_pow₀ hL (by norm_num)
  have ok : ApOk P L := ⟨hu, hL, by nlinarith⟩
  have ok1 : ApOk P (1 * 1) := ⟨hu, by norm_num, by nlinarith⟩
  have up := Ap.u_pos P
  have haz0 : 0 ≤ az.val := by
    have : (0 : ℝ) ≤ az.val := by linarith
    exact_mod_cast this
  have aw : ∀ i, Ap L 1.001 1.002 ((r2.origin - r1.origin) i) ((rvec r2.origin - rvec r1.origin) i) := fun i => ap_diff ok (fo2 i) (fo1 i) (h1 i)
  have au : ∀ i, Ap 1 1.001 1.002 (r2.direction i) (rvec r2.direction i) := fun i => ap_dir (fv2 i) (hv2 i)
  have av : ∀ i, Ap 1 1.001 1.002 (r1.direction i) (rvec r1.direction i) := fun i => ap_dir (fv1 i) (hv1 i)
  have da := ap_dot zero_le_one zero_le_one ok1 au au
  have db := ap_dot zero_le_one zero_le_one ok1 au av
  have dc := ap_dot zero_le_one zero_le_one ok1 av av
  have dd := ap_dot zero_le_one L0 (by rw [one_mul]; exact ok) au aw
  have de := ap_dot zero_le_one L0 (by rw [one_mul]; exact ok) av aw
  have aD := ap_det (M := 1) (by positivity) (by positivity) (by positivity) (by positivity) (by ring) (by ring) le_rfl hu (by nlinarith) da dc db db
  rw [← eD] at aD
  have Dp : 0 < D.val := by
    have h3 := abs_le.1 aD.err
    have h4 := gram_nonneg (rvec r2.direction) (rvec r1.direction)
    rw [isZero_flt aD.fin faz haz0] at hz
    have h5 := not_le.1 (of_decide_eq_false hz)
    by_contra c
    rw [abs_of_nonpos (not_lt.1 c)] at h5
    have h6 : (az.val : ℝ) < -(D.val : ℝ) := by exact_mod_cast h5
    nlinarith [h3.1]
  have fS : sN.isFinite := by
    rw [eN]
    exact (ap_det (M := L) (by positivity) (by positivity) (by positivity) (by positivity) (by ring) (by ring) hL hu (by nlinarith) db de dc dd).fin
  have y0 : 0 ≤ y.val := by
    have ey := (Option.some.inj e2).symm
    rw [ey] at fy ⊢
    by_cases c : isZero N az = true
    · rw [if_pos c, Flt.zero_val]
    · rw [if_neg c] at fy ⊢
      rcases hN with h | ⟨h, c1⟩
      · subst h
        exact FltProj.div_nonneg_flt Flt.zero_finite aD.fin fy (by rw [Flt.zero_val]) Dp.le
      · subst h
        rw [Flt.lt_val fS Flt.zero_finite, Flt.zero_val] at c1
        exact FltProj.div_nonneg_flt fS aD.fin fy (not_lt.1 (of_decide_eq_false c1)) Dp.le
  rw [Option.some.inj e2]
  generalize htt : vmax x [0] = t at ft ht ⊢
  have t0 : 0 ≤ t.val := by rw [← htt] at ft ⊢; exact max_nonneg ft
  have t0' : (0 : ℝ) ≤ t.val := by exact_mod_cast t0
  have s0 : (0 : ℝ) ≤ y.val := by exact_mod_cast y0
  have pu : ∀ i, Ap L 2.1 1.1 (vscale r2.direction y i) (rvec r2.direction i * y.val) := fun i =>
    (ap_step ok (fv2 i) (hv2 i) fy (by rw [abs_of_nonneg s0]; exact hy)).mono L0 (by norm_num) (by norm_num)
  have pv : ∀ i, Ap L 1.01 1.01 (vscale r1.direction t i) (rvec r1.direction i * t.val) := fun i =>
    ap_step ok (fv1 i) (hv1 i) ft (by rw [abs_of_nonneg t0']; exact ht)
  have q := gap hu hL hb aw (x := rvec r2.origin - rvec r1.origin) (y := fun i => rvec r2.direction i * y.val) pu
    (z := fun i => rvec r1.direction i * t.val) pv
  refine ⟨t0, y0, q.1, ?_⟩
  have id : squaredDistance (rvec r1.origin + (t.val : ℝ) • rvec r1.direction) (rvec r2.origin + (y.val : ℝ) • rvec r2.direction) =
      squaredLength (rvec r2.origin - rvec r1.origin + (fun i => rvec r2.direction i * (y.val : ℝ)) - fun i => rvec r1.direction i * (t.val : ℝ)) := by
    unfold squaredDistance squaredLength
    simp only [vm.dot3, Pi.add_apply, Pi.sub_apply, Pi.smul_apply, smul_eq_mul]
    ring
  rw [id]
  exact q.2

/-- A ray and a line that are not treated as parallel: the reported position on the ray is not negative, and the reported squared distance is the
squared distance of the points at the reported positions, up to a rounding error of the second order.  Here `L` bounds the components of the origin of
the ray and of the point of the line, and the reported positions. -/
theorem C151_line {L : ℝ} (hu : 1000 * (P.u : ℝ) ≤ 1) (hL : 1 ≤ L) (hb : 1100 * L ^ 2 < P.bound) {az : Flt P.fmt}
    {r : Ray (Flt P.fmt) 3} {l : Line (Flt P.fmt) 3}
    (fo : ∀ i, (r.origin i).isFinite) (fv : ∀ i, (r.direction i).isFinite) (fp : ∀ i, (l.point i).isFinite) (fd : ∀ i, (l.direction i).isFinite)
    (hv : ∀ i, |rvec r.direction i| ≤ 1) (hd : ∀ i, |rvec l.direction i| ≤ 1) (ho : ∀ i, |rvec r.origin i| ≤ L) (hp : ∀ i, |rvec l.point i| ≤ L)
    (par : (squaredDistanceRayLine az r l).parallel = false)
    (ft : (squaredDistanceRayLine az r l).position1.isFinite) (ht : ((squaredDistanceRayLine az r l).position1.val : ℝ) ≤ L)
    {y : Flt P.fmt} (e2 : (squaredDistanceRayLine az r l).position2 = some y) (fy : y.isFinite) (hy : |(y.val : ℝ)| ≤ L) :
    0 ≤ (squaredDistanceRayLine az r l).position1.val ∧ (squaredDistanceRayLine az r l).distance.isFinite ∧
      |((squaredDistanceRayLine az r l).distance.val : ℝ) -
        squaredDistance (rvec r.origin + ((squaredDistanceRayLine az r l).position1.val : ℝ) • rvec r.direction)
          (rvec l.point + (y.val : ℝ) • rvec l.direction)| ≤ 400 * P.u * L ^ 2 := by
  obtain ⟨x, y', e⟩ := line_form az r l par
  rw [e] at ft ht e2 ⊢
  simp only at ft ht e2 ⊢
  obtain rfl := Option.some.inj e2
  have L0 : 0 ≤ L := by linarith
  have hLL : L ≤ L ^ 2 := le_self_pow₀ hL (by norm_num)
  have ok : ApOk P L := ⟨hu, hL, by nlinarith⟩
  generalize htt : vmax x [0] = t at ft ht ⊢
  have t0 : 0 ≤ t.val := by rw [← htt] at ft ⊢; exact max_nonneg ft
  have t0' : (0 : ℝ) ≤ t.val := by exact_mod_cast t0
  have up := Ap.u_pos P
  have ok2 : ApOk P (4.1 * L * (4.1 * L)) := ⟨hu, by nlinarith, by nlinarith⟩
  have d : ∀ i, Ap (4.1 * L) 2.52 1 ((r.origin + vscale r.direction t - (l.point + vscale l.direction y')) i)
      ((rvec r.origin + (t.val : ℝ) • rvec r.direction - (rvec l.point + (y'.val : ℝ) • rvec l.direction)) i) := fun i => by
    have p1 := ap_step ok (fv i) (hv i) ft (by rw [abs_of_nonneg t0']; exact ht)
    have p2 := ap_step ok (fd i) (hd i) fy hy
    have o1 : Ap L 0 1 (r.origin i) (rvec r.origin i) := Ap.exact (fo i) (by rw [one_mul]; exact ho i)
    have o2 : Ap L 0 1 (l.point i) (rvec l.point i) := Ap.exact (fp i) (by rw [one_mul]; exact hp i)
    have s1 := (o1.add ok p1 (by norm_num)).mono (k1 := 3.03) (B1 := 2.02) L0 (by norm_num) (by norm_num)
    have s2 := (o2.add ok p2 (by norm_num)).mono (k1 := 3.03) (B1 := 2.02) L0 (by norm_num) (by norm_num)
    have s3 := (s1.sub ok s2 (by norm_num)).mono (k1 := 10.2) (B1 := 4.05) L0 (by norm_num) (by norm_num)
    have : 0 ≤ P.u * L := by positivity
    have id : (rvec r.origin + (t.val : ℝ) • rvec r.direction - (rvec l.point + (y'.val : ℝ) • rvec l.direction)) i =
        rvec r.origin i + (r.direction i).val * t.val - (rvec l.point i + (l.direction i).val * y'.val) := by
      simp only [Pi.add_apply, Pi.sub_apply, Pi.smul_apply, smul_eq_mul, rvec]
      ring
    rw [id]
    exact ⟨s3.fin, s3.err.trans (by nlinarith), s3.le.trans (by linarith)⟩
  have q := ap_sq ok2 (by linarith) (by norm_num) (by norm_num) d
  have : 0 ≤ P.u * L ^ 2 := by positivity
  refine ⟨t0, q.fin, ?_⟩
  have id : squaredDistance (rvec r.origin + (t.val : ℝ) • rvec r.direction) (rvec l.point + (y'.val : ℝ) • rvec l.direction) =
      squaredLength (rvec r.origin + (t.val : ℝ) • rvec r.direction - (rvec l.point + (y'.val : ℝ) • rvec l.direction)) := by
    rfl
  rw [id]
  exact q.err.trans (by nlinarith)

/-- The reported squared distance of a ray and a segment that are not treated as parallel is never less than the smallest squared distance of their
points, up to the rounding error. -/
theorem C151_segment_lower {L : ℝ} (hu : 1000 * (P.u : ℝ) ≤ 1) (hL : 1 ≤ L) (hb : 1024 * L ^ 2 < P.bound) (s : Flt P.fmt → Flt P.fmt) {az : Flt P.fmt}
    (faz : az.isFinite) (haz : 0 ≤ az.val) {r : Ray (Flt P.fmt) 3} {g : Segment (Flt P.fmt) 3}
    (fo : ∀ i, (r.origin i).isFinite) (fv : ∀ i, (r.direction i).isFinite) (f1 : ∀ i, (g.start i).isFinite) (f2 : ∀ i, (g.end_ i).isFinite)
    (hv : ∀ i, |rvec r.direction i| ≤ 1) (h1 : ∀ i, |rvec g.start i - rvec r.origin i| ≤ L) (h2 : ∀ i, |rvec g.end_ i - rvec g.start i| ≤ L)
    (par : (squaredDistanceRaySegmentG s az r g).parallel = false)
    (ft : (squaredDistanceRaySegmentG s az r g).position1.isFinite) (ht : ((squaredDistanceRaySegmentG s az r g).position1.val : ℝ) ≤ L)
    {m : ℝ} (hm : ∀ t σ : ℝ, 0 ≤ t → 0 ≤ σ → σ ≤ 1 →
      m ≤ squaredDistance (rvec r.origin + t • rvec r.direction) (rvec g.start + σ • (rvec g.end_ - rvec g.start))) :
    m - 268 * P.u * L ^ 2 ≤ (squaredDistanceRaySegmentG s az r g).distance.val := by
  obtain ⟨t0, _, σ, _, s0, s1, _, h⟩ := C151_segment hu hL hb s faz haz fo fv f1 f2 hv h1 h2 par ft ht
  have := hm (squaredDistanceRaySegmentG s az r g).position1.val σ.val (by exact_mod_cast t0) (by exact_mod_cast s0) (by exact_mod_cast s1)
  linarith [(abs_le.1 h).1]

/-- The same for two rays. -/
theorem C151_rays_lower {L : ℝ} (hu : 1000 * (P.u : ℝ) ≤ 1) (hL : 1 ≤ L) (hb : 1024 * L ^ 2 < P.bound) {az : Flt P.fmt}
    (faz : az.isFinite) (haz : 212 * (P.u : ℝ) ≤ az.val) {r1 r2 : Ray (Flt P.fmt) 3}
    (fo1 : ∀ i, (r1.origin i).isFinite) (fv1 : ∀ i, (r1.direction i).isFinite) (fo2 : ∀ i, (r2.origin i).isFinite) (fv2 : ∀ i, (r2.direction i).isFinite)
    (hv1 : ∀ i, |rvec r1.direction i| ≤ 1) (hv2 : ∀ i, |rvec r2.direction i| ≤ 1) (h1 : ∀ i, |rvec r2.origin i - rvec r1.origin i| ≤ L)
    (par : (squaredDistanceRayRay az r1 r2).parallel = false)
    (ft : (squaredDistanceRayRay az r1 r2).position1.isFinite) (ht : ((squaredDistanceRayRay az r1 r2).position1.val : ℝ) ≤ L)
    {y : Flt P.fmt} (e2 : (squaredDistanceRayRay az r1 r2).position2 = some y) (fy : y.isFinite) (hy : (y.val : ℝ) ≤ L)
    {m : ℝ} (hm : ∀ t σ : ℝ, 0 ≤ t → 0 ≤ σ → m ≤ squaredDistance (rvec r1.origin + t • rvec r1.direction) (rvec r2.origin + σ • rvec r2.direction)) :
    m - 268 * P.u * L ^ 2 ≤ (squaredDistanceRayRay az r1 r2).distance.val := by
  obtain ⟨t0, y0, _, h⟩ := C151_rays hu hL hb faz haz fo1 fv1 fo2 fv2 hv1 hv2 h1 par ft ht e2 fy hy
  have := hm (squaredDistanceRayRay az r1 r2).position1.val y.val (by exact_mod_cast t0) (by exact_mod_cast y0)
  linarith [(abs_le.1 h).1]

/-- The same for a ray and a line. -/
theorem C151_line_lower {L : ℝ} (hu : 1000 * (P.u : ℝ) ≤ 1) (hL : 1 ≤ L) (hb : 1100 * L ^ 2 < P.bound) {az : Flt P.fmt}
    {r : Ray (Flt P.fmt) 3} {l : Line (Flt P.fmt) 3}
    (fo : ∀ i, (r.origin i).isFinite) (fv : ∀ i, (r.direction i).isFinite) (fp : ∀ i, (l.point i).isFinite) (fd : ∀ i, (l.direction i).isFinite)
    (hv : ∀ i, |rvec r.direction i| ≤ 1) (hd : ∀ i, |rvec l.direction i| ≤ 1) (ho : ∀ i, |rvec r.origin i| ≤ L) (hp : ∀ i, |rvec l.point i| ≤ L)
    (par : (squaredDistanceRayLine az r l).parallel = false)
    (ft : (squaredDistanceRayLine az r l).position1.isFinite) (ht : ((squaredDistanceRayLine az r l).position1.val : ℝ) ≤ L)
    {y : Flt P.fmt} (e2 : (squaredDistanceRayLine az r l).position2 = some y) (fy : y.isFinite) (hy : |(y.val : ℝ)| ≤ L)
    {m : ℝ} (hm : ∀ t σ : ℝ, 0 ≤ t → m ≤ squaredDistance (rvec r.origin + t • rvec r.direction) (rvec l.point + σ • rvec l.direction)) :
    m - 400 * P.u * L ^ 2 ≤ (squaredDistanceRayLine az r l).distance.val := by
  obtain ⟨t0, _, h⟩ := C151_line hu hL hb fo fv fp fd hv hd ho hp par ft ht e2 fy hy
  have := hm (squaredDistanceRayLine az r l).position1.val y.val (by exact_mod_cast t0)
  linarith [(abs_le.1 h).1]

/-- The generic function, used with real numbers, is the function of the exact model, provided that the segment is not degenerate. -/
theorem C151_model (az : ℝ) (r : Ray ℝ 3) (g : Segment ℝ 3) (h : length (g.end_ - g.start) ≠ 0) :
    squaredDistanceRaySegmentG Real.sqrt az r g = squaredDistanceRaySegment az r g ∧
    distanceRaySegmentG Real.sqrt az r g = distanceRaySegment az r g := by
  have e : squaredDistanceRaySegmentG Real.sqrt az r g = squaredDistanceRaySegment az r g := by
    unfold squaredDistanceRaySegmentG squaredDistanceRaySegment Segment.direction normalize
    simp only [if_neg h, Option.map_some, Cmp.lt, Bool.and_eq_true, decide_eq_true_eq]
    rfl
  refine ⟨e, ?_⟩
  unfold distanceRaySegmentG distanceRaySegment
  rw [e]

namespace FltLD

/-- A number that is not almost zero. -/
theorem zero_false {x : Flt binary32.fmt} {a : ℚ} (h : x.isFinite ∧ x.val = a) (ha : 8589935 / 2 ^ 33 < |a|) : isZero x binary32.almostZero = false := by
  rw [isZero_flt h.1 almostZero32.1 (by rw [almostZero32.2]; norm_num), h.2, almostZero32.2]
  exact decide_eq_false (not_le.2 ha)

theorem lt_false {x y : Flt binary32.fmt} {a b : ℚ} (h : x.isFinite ∧ x.val = a) (h' : y.isFinite ∧ y.val = b) (hab : b ≤ a) : Cmp.lt x y = false := by
  rw [Flt.lt_val h.1 h'.1, h.2, h'.2]
  exact decide_eq_false (not_lt.2 hab)

end FltLD

/-- Two rays in the plane `z = 0` that cross about 8622 units from the origin of the first one and 325 units from the origin of the second one, and
whose directions are unit vectors up to the precision of float, are reported to have a squared distance of more than two. -/
theorem C151_crossing_fails {r1 r2 : Ray (Flt binary32.fmt) 3}
    (o0 : (r1.origin 0).isFinite ∧ (r1.origin 0).val = 0) (o1 : (r1.origin 1).isFinite ∧ (r1.origin 1).val = 0) (o2 : (r1.origin 2).isFinite ∧ (r1.origin 2).val = 0)
    (v0 : (r1.direction 0).isFinite ∧ (r1.direction 0).val = 1) (v1 : (r1.direction 1).isFinite ∧ (r1.direction 1).val = 0) (v2 : (r1.direction 2).isFinite ∧ (r1.direction 2).val = 0)
    (p0 : (r2.origin 0).isFinite ∧ (r2.origin 0).val = 8297) (p1 : (r2.origin 1).isFinite ∧ (r2.origin 1).val = 11) (p2 : (r2.origin 2).isFinite ∧ (r2.origin 2).val = 0)
    (u0 : (r2.direction 0).isFinite ∧ (r2.direction 0).val = 8383811 / 8388608) (u1 : (r2.direction 1).isFinite ∧ (r2.direction 1).val = -277 / 8192) (u2 : (r2.direction 2).isFinite ∧ (r2.direction 2).val = 0) :
    (∃ t y : ℝ, 0 ≤ t ∧ 0 ≤ y ∧ rvec r1.origin + t • rvec r1.direction = rvec r2.origin + y • rvec r2.direction) ∧
    |length (rvec r2.direction) - 1| ≤ 1 / 2 ^ 24 ∧
    ∃ t d y : Flt binary32.fmt, squaredDistanceRayRay binary32.almostZero r1 r2 = ⟨false, t, d, some y⟩ ∧ d.isFinite ∧ 2 < d.val ∧
      (t.isFinite ∧ t.val = (4413837 / 512)) ∧ (y.isFinite ∧ y.val = (10663529 / 32768)) := by
  refine ⟨⟨8297 + 11 * (8383811 / 8388608) * 8192 / 277, 11 * 8192 / 277, by norm_num, by norm_num, ?_⟩, ?_, ?_⟩
  · funext i
    fin_cases i
    · show ((r1.origin 0).val : ℝ) + _ * ((r1.direction 0).val : ℝ) = ((r2.origin 0).val : ℝ) + _ * ((r2.direction 0).val : ℝ)
      rw [o0.2, v0.2, p0.2, u0.2]; norm_num
    · show ((r1.origin 1).val : ℝ) + _ * ((r1.direction 1).val : ℝ) = ((r2.origin 1).val : ℝ) + _ * ((r2.direction 1).val : ℝ)
      rw [o1.2, v1.2, p1.2, u1.2]; norm_num
    · show ((r1.origin 2).val : ℝ) + _ * ((r1.direction 2).val : ℝ) = ((r2.origin 2).val : ℝ) + _ * ((r2.direction 2).val : ℝ)
      rw [o2.2, v2.2, p2.2, u2.2]; norm_num
  · have e : squaredLength (rvec r2.direction) = (8383811 / 8388608) ^ 2 + (277 / 8192) ^ 2 := by
      unfold squaredLength
      rw [vm.dot3]
      show ((r2.direction 0).val : ℝ) * ((r2.direction 0).val : ℝ) + ((r2.direction 1).val : ℝ) * ((r2.direction 1).val : ℝ) +
        ((r2.direction 2).val : ℝ) * ((r2.direction 2).val : ℝ) = _
      rw [u0.2, u1.2, u2.2]; norm_num
    unfold length
    rw [e, abs_le]
    constructor
    · rw [neg_le_sub_iff_le_add, ← sub_le_iff_le_add]
      exact Real.le_sqrt_of_sq_le (by norm_num)
    · rw [sub_le_iff_le_add, Real.sqrt_le_left (by norm_num)]
      norm_num
  have x1 := is_sub (c := (8297)) p0 o0 (by fl_num (-10) (8496128)) (lt_bound32 (by norm_num [abs_le]))
  have x2 := is_sub (c := (11)) p1 o1 (by fl_num (-20) (11534336)) (lt_bound32 (by norm_num [abs_le]))
  have x3 := is_sub (c := (0)) p2 o2 (by norm_num [BinPar.fl_zero]) (lt_bound32 (by norm_num [abs_le]))
  have x4 := is_mul (c := (16758033 / 16777216)) u0 u0 (by fl_num (-24) (16758033)) (lt_bound32 (by norm_num [abs_le]))
  have x5 := is_mul (c := (76729 / 67108864)) u1 u1 (by fl_num (-33) (9821312)) (lt_bound32 (by norm_num [abs_le]))
  have x6 := is_mul (c := (0)) u2 u2 (by norm_num [BinPar.fl_zero]) (lt_bound32 (by norm_num [abs_le]))
  have x7 := is_add (c := (16777215 / 16777216)) x4 x5 (by fl_num (-24) (16777215)) (lt_bound32 (by norm_num [abs_le]))
  have x8 := is_add (c := (16777215 / 16777216)) x7 x6 (by fl_num (-24) (16777215)) (lt_bound32 (by norm_num [abs_le]))
  have qa : (dot r2.direction r2.direction).isFinite ∧ (dot r2.direction r2.direction).val = (16777215 / 16777216) := by rw [FltQt.dot3]; exact x8
  have x9 := is_mul (c := (8383811 / 8388608)) u0 v0 (by fl_num (-24) (16767622)) (lt_bound32 (by norm_num [abs_le]))
  have x10 := is_mul (c := (0)) u1 v1 (by norm_num [BinPar.fl_zero]) (lt_bound32 (by norm_num [abs_le]))
  have x11 := is_mul (c := (0)) u2 v2 (by norm_num [BinPar.fl_zero]) (lt_bound32 (by norm_num [abs_le]))
  have x12 := is_add (c := (8383811 / 8388608)) x9 x10 (by fl_num (-24) (16767622)) (lt_bound32 (by norm_num [abs_le]))
  have x13 := is_add (c := (8383811 / 8388608)) x12 x11 (by fl_num (-24) (16767622)) (lt_bound32 (by norm_num [abs_le]))
  have qb : (dot r2.direction r1.direction).isFinite ∧ (dot r2.direction r1.direction).val = (8383811 / 8388608) := by rw [FltQt.dot3]; exact x13
  have x14 := is_mul (c := (1)) v0 v0 (by fl_num (-23) (8388608)) (lt_bound32 (by norm_num [abs_le]))
  have x15 := is_mul (c := (0)) v1 v1 (by norm_num [BinPar.fl_zero]) (lt_bound32 (by norm_num [abs_le]))
  have x16 := is_mul (c := (0)) v2 v2 (by norm_num [BinPar.fl_zero]) (lt_bound32 (by norm_num [abs_le]))
  have x17 := is_add (c := (1)) x14 x15 (by fl_num (-23) (8388608)) (lt_bound32 (by norm_num [abs_le]))
  have x18 := is_add (c := (1)) x17 x16 (by fl_num (-23) (8388608)) (lt_bound32 (by norm_num [abs_le]))
  have qc : (dot r1.direction r1.direction).isFinite ∧ (dot r1.direction r1.direction).val = (1) := by rw [FltQt.dot3]; exact x18
  have x19 := is_mul (c := (4245635 / 512)) u0 x1 (by fl_num (-10) (8491270)) (lt_bound32 (by norm_num [abs_le]))
  have x20 := is_mul (c := (-3047 / 8192)) u1 x2 (by fl_num (-25) (-12480512)) (lt_bound32 (by norm_num [abs_le]))
  have x21 := is_mul (c := (0)) u2 x3 (by norm_num [BinPar.fl_zero]) (lt_bound32 (by norm_num [abs_le]))
  have x22 := is_add (c := (8490889 / 1024)) x19 x20 (by fl_num (-10) (8490889)) (lt_bound32 (by norm_num [abs_le]))
  have x23 := is_add (c := (8490889 / 1024)) x22 x21 (by fl_num (-10) (8490889)) (lt_bound32 (by norm_num [abs_le]))
  have qd : (dot r2.direction (r2.origin - r1.origin)).isFinite ∧ (dot r2.direction (r2.origin - r1.origin)).val = (8490889 / 1024) := by rw [FltQt.dot3]; exact x23
  have x24 := is_mul (c := (8297)) v0 x1 (by fl_num (-10) (8496128)) (lt_bound32 (by norm_num [abs_le]))
  have x25 := is_mul (c := (0)) v1 x2 (by norm_num [BinPar.fl_zero]) (lt_bound32 (by norm_num [abs_le]))
  have x26 := is_mul (c := (0)) v2 x3 (by norm_num [BinPar.fl_zero]) (lt_bound32 (by norm_num [abs_le]))
  have x27 := is_add (c := (8297)) x24 x25 (by fl_num (-10) (8496128)) (lt_bound32 (by norm_num [abs_le]))
  have x28 := is_add (c := (8297)) x27 x26 (by fl_num (-10) (8496128)) (lt_bound32 (by norm_num [abs_le]))
  have qe : (dot r1.direction (r2.origin - r1.origin)).isFinite ∧ (dot r1.direction (r2.origin - r1.origin)).val = (8297) := by rw [FltQt.dot3]; exact x28
  have x29 := is_mul (c := (16777215 / 16777216)) qa qc (by fl_num (-24) (16777215)) (lt_bound32 (by norm_num [abs_le]))
  have x30 := is_mul (c := (16758033 / 16777216)) qb qb (by fl_num (-24) (16758033)) (lt_bound32 (by norm_num [abs_le]))
  have x31 := is_sub (c := (9591 / 8388608)) x29 x30 (by fl_num (-33) (9821184)) (lt_bound32 (by norm_num [abs_le]))
  have x32 := is_mul (c := (4245635 / 512)) qb qe (by fl_num (-10) (8491270)) (lt_bound32 (by norm_num [abs_le]))
  have x33 := is_mul (c := (8490889 / 1024)) qc qd (by fl_num (-10) (8490889)) (lt_bound32 (by norm_num [abs_le]))
  have x34 := is_sub (c := (381 / 1024)) x32 x33 (by fl_num (-25) (12484608)) (lt_bound32 (by norm_num [abs_le]))
  have x35 := is_mul (c := (8496127 / 1024)) qa qe (by fl_num (-10) (8496127)) (lt_bound32 (by norm_num [abs_le]))
  have x36 := is_mul (c := (4243017 / 512)) qb qd (by fl_num (-10) (8486034)) (lt_bound32 (by norm_num [abs_le]))
  have x37 := is_sub (c := (10093 / 1024)) x35 x36 (by fl_num (-20) (10335232)) (lt_bound32 (by norm_num [abs_le]))
  have x38 := is_div (c := (10663529 / 32768)) x34 x31 (by norm_num) (by fl_num (-15) (10663529)) (lt_bound32 (by norm_num [abs_le]))
  have x39 := is_div (c := (4413837 / 512)) x37 x31 (by norm_num) (by fl_num (-10) (8827674)) (lt_bound32 (by norm_num [abs_le]))
  have ht : (vmax ((((dot r2.direction r2.direction * dot r1.direction (r2.origin - r1.origin)) - (dot r2.direction r1.direction * dot r2.direction (r2.origin - r1.origin))) / ((dot r2.direction r2.direction * dot r1.direction r1.direction) - (dot r2.direction r1.direction * dot r2.direction r1.direction)))) [0]).isFinite ∧ (vmax ((((dot r2.direction r2.direction * dot r1.direction (r2.origin - r1.origin)) - (dot r2.direction r1.direction * dot r2.direction (r2.origin - r1.origin))) / ((dot r2.direction r2.direction * dot r1.direction r1.direction) - (dot r2.direction r1.direction * dot r2.direction r1.direction)))) [0]).val = (4413837 / 512) := by
    obtain ⟨f, v⟩ := FltDist.max_zero x39.1
    exact ⟨f, by rw [v, x39.2]; norm_num⟩
  have x40 := is_mul (c := (10657431 / 32768)) u0 x38 (by fl_num (-15) (10657431)) (lt_bound32 (by norm_num [abs_le]))
  have x41 := is_add (c := (8829173 / 1024)) x1 x40 (by fl_num (-10) (8829173)) (lt_bound32 (by norm_num [abs_le]))
  have x42 := is_mul (c := (4413837 / 512)) v0 ht (by fl_num (-10) (8827674)) (lt_bound32 (by norm_num [abs_le]))
  have x43 := is_sub (c := (1499 / 1024)) x41 x42 (by fl_num (-23) (12279808)) (lt_bound32 (by norm_num [abs_le]))
  have x44 := is_mul (c := (-360571 / 32768)) u1 x38 (by fl_num (-20) (-11538272)) (lt_bound32 (by norm_num [abs_le]))
  have x45 := is_add (c := (-123 / 32768)) x2 x44 (by fl_num (-32) (-16121856)) (lt_bound32 (by norm_num [abs_le]))
  have x46 := is_mul (c := (0)) v1 ht (by norm_num [BinPar.fl_zero]) (lt_bound32 (by norm_num [abs_le]))
  have x47 := is_sub (c := (-123 / 32768)) x45 x46 (by fl_num (-32) (-16121856)) (lt_bound32 (by norm_num [abs_le]))
  have x48 := is_mul (c := (0)) u2 x38 (by norm_num [BinPar.fl_zero]) (lt_bound32 (by norm_num [abs_le]))
  have x49 := is_add (c := (0)) x3 x48 (by norm_num [BinPar.fl_zero]) (lt_bound32 (by norm_num [abs_le]))
  have x50 := is_mul (c := (0)) v2 ht (by norm_num [BinPar.fl_zero]) (lt_bound32 (by norm_num [abs_le]))
  have x51 := is_sub (c := (0)) x49 x50 (by norm_num [BinPar.fl_zero]) (lt_bound32 (by norm_num [abs_le]))
  have x52 := is_mul (c := (2247001 / 1048576)) x43 x43 (by fl_num (-22) (8988004)) (lt_bound32 (by norm_num [abs_le]))
  have x53 := is_mul (c := (15129 / 1073741824)) x47 x47 (by fl_num (-40) (15492096)) (lt_bound32 (by norm_num [abs_le]))
  have x54 := is_mul (c := (0)) x51 x51 (by norm_num [BinPar.fl_zero]) (lt_bound32 (by norm_num [abs_le]))
  have x55 := is_add (c := (8988063 / 4194304)) x52 x53 (by fl_num (-22) (8988063)) (lt_bound32 (by norm_num [abs_le]))
  have x56 := is_add (c := (8988063 / 4194304)) x55 x54 (by fl_num (-22) (8988063)) (lt_bound32 (by norm_num [abs_le]))
  have z0 : (0 : Flt binary32.fmt).isFinite ∧ (0 : Flt binary32.fmt).val = 0 := ⟨Flt.zero_finite, Flt.zero_val⟩
  have zD := zero_false x31 (by norm_num [abs_of_pos])
  have zS := zero_false x34 (by norm_num [abs_of_pos])
  have zT := zero_false x37 (by norm_num [abs_of_pos])
  have lS := lt_false x34 z0 (by norm_num)
  refine ⟨_, _, _, by
    unfold squaredDistanceRayRay
    simp only [zD, lS, Bool.false_eq_true, if_false, zS, zT]
    rfl, ?_, ?_, ht, x38⟩
  · unfold squaredLength; rw [FltQt.dot3]; exact x56.1
  · unfold squaredLength; rw [FltQt.dot3]; refine lt_of_lt_of_eq ?_ x56.2.symm; norm_num

namespace FltLD

/-- A segment across a ray at a distance of one. -/
theorem seg_case {r : Ray (Flt binary32.fmt) 3} {g : Segment (Flt binary32.fmt) 3} (s : Flt binary32.fmt → Flt binary32.fmt)
    (o0 : (r.origin 0).isFinite ∧ (r.origin 0).val = 0) (o1 : (r.origin 1).isFinite ∧ (r.origin 1).val = 0) (o2 : (r.origin 2).isFinite ∧ (r.origin 2).val = 0)
    (v0 : (r.direction 0).isFinite ∧ (r.direction 0).val = 1) (v1 : (r.direction 1).isFinite ∧ (r.direction 1).val = 0) (v2 : (r.direction 2).isFinite ∧ (r.direction 2).val = 0)
    (p0 : (g.start 0).isFinite ∧ (g.start 0).val = 2) (p1 : (g.start 1).isFinite ∧ (g.start 1).val = 1) (p2 : (g.start 2).isFinite ∧ (g.start 2).val = -1)
    (q0 : (g.end_ 0).isFinite ∧ (g.end_ 0).val = 2) (q1 : (g.end_ 1).isFinite ∧ (g.end_ 1).val = 1) (q2 : (g.end_ 2).isFinite ∧ (g.end_ 2).val = 1) :
    ∃ t d y : Flt binary32.fmt, squaredDistanceRaySegmentG s binary32.almostZero r g = ⟨false, t, d, some y⟩ ∧ t.isFinite ∧ t.val = 2 := by
  have x1 := is_sub (c := (0)) q0 p0 (by norm_num [BinPar.fl_zero]) (lt_bound32 (by norm_num [abs_le]))
  have x2 := is_sub (c := (0)) q1 p1 (by norm_num [BinPar.fl_zero]) (lt_bound32 (by norm_num [abs_le]))
  have x3 := is_sub (c := (2)) q2 p2 (by fl_num (-22) (8388608)) (lt_bound32 (by norm_num [abs_le]))
  have x4 := is_sub (c := (2)) p0 o0 (by fl_num (-22) (8388608)) (lt_bound32 (by norm_num [abs_le]))
  have x5 := is_sub (c := (1)) p1 o1 (by fl_num (-23) (8388608)) (lt_bound32 (by norm_num [abs_le]))
  have x6 := is_sub (c := (-1)) p2 o2 (by fl_num (-23) (-8388608)) (lt_bound32 (by norm_num [abs_le]))
  have x7 := is_mul (c := (0)) x1 x1 (by norm_num [BinPar.fl_zero]) (lt_bound32 (by norm_num [abs_le]))
  have x8 := is_mul (c := (0)) x2 x2 (by norm_num [BinPar.fl_zero]) (lt_bound32 (by norm_num [abs_le]))
  have x9 := is_mul (c := (4)) x3 x3 (by fl_num (-21) (8388608)) (lt_bound32 (by norm_num [abs_le]))
  have x10 := is_add (c := (0)) x7 x8 (by norm_num [BinPar.fl_zero]) (lt_bound32 (by norm_num [abs_le]))
  have x11 := is_add (c := (4)) x10 x9 (by fl_num (-21) (8388608)) (lt_bound32 (by norm_num [abs_le]))
  have qa : (dot (g.end_ - g.start) (g.end_ - g.start)).isFinite ∧ (dot (g.end_ - g.start) (g.end_ - g.start)).val = (4) := by rw [FltQt.dot3]; exact x11
  have x12 := is_mul (c := (0)) x1 v0 (by norm_num [BinPar.fl_zero]) (lt_bound32 (by norm_num [abs_le]))
  have x13 := is_mul (c := (0)) x2 v1 (by norm_num [BinPar.fl_zero]) (lt_bound32 (by norm_num [abs_le]))
  have x14 := is_mul (c := (0)) x3 v2 (by norm_num [BinPar.fl_zero]) (lt_bound32 (by norm_num [abs_le]))
  have x15 := is_add (c := (0)) x12 x13 (by norm_num [BinPar.fl_zero]) (lt_bound32 (by norm_num [abs_le]))
  have x16 := is_add (c := (0)) x15 x14 (by norm_num [BinPar.fl_zero]) (lt_bound32 (by norm_num [abs_le]))
  have qb : (dot (g.end_ - g.start) r.direction).isFinite ∧ (dot (g.end_ - g.start) r.direction).val = (0) := by rw [FltQt.dot3]; exact x16
  have x17 := is_mul (c := (1)) v0 v0 (by fl_num (-23) (8388608)) (lt_bound32 (by norm_num [abs_le]))
  have x18 := is_mul (c := (0)) v1 v1 (by norm_num [BinPar.fl_zero]) (lt_bound32 (by norm_num [abs_le]))
  have x19 := is_mul (c := (0)) v2 v2 (by norm_num [BinPar.fl_zero]) (lt_bound32 (by norm_num [abs_le]))
  have x20 := is_add (c := (1)) x17 x18 (by fl_num (-23) (8388608)) (lt_bound32 (by norm_num [abs_le]))
  have x21 := is_add (c := (1)) x20 x19 (by fl_num (-23) (8388608)) (lt_bound32 (by norm_num [abs_le]))
  have qc : (dot r.direction r.direction).isFinite ∧ (dot r.direction r.direction).val = (1) := by rw [FltQt.dot3]; exact x21
  have x22 := is_mul (c := (0)) x1 x4 (by norm_num [BinPar.fl_zero]) (lt_bound32 (by norm_num [abs_le]))
  have x23 := is_mul (c := (0)) x2 x5 (by norm_num [BinPar.fl_zero]) (lt_bound32 (by norm_num [abs_le]))
  have x24 := is_mul (c := (-2)) x3 x6 (by fl_num (-22) (-8388608)) (lt_bound32 (by norm_num [abs_le]))
  have x25 := is_add (c := (0)) x22 x23 (by norm_num [BinPar.fl_zero]) (lt_bound32 (by norm_num [abs_le]))
  have x26 := is_add (c := (-2)) x25 x24 (by fl_num (-22) (-8388608)) (lt_bound32 (by norm_num [abs_le]))
  have qd : (dot (g.end_ - g.start) (g.start - r.origin)).isFinite ∧ (dot (g.end_ - g.start) (g.start - r.origin)).val = (-2) := by rw [FltQt.dot3]; exact x26
  have x27 := is_mul (c := (2)) v0 x4 (by fl_num (-22) (8388608)) (lt_bound32 (by norm_num [abs_le]))
  have x28 := is_mul (c := (0)) v1 x5 (by norm_num [BinPar.fl_zero]) (lt_bound32 (by norm_num [abs_le]))
  have x29 := is_mul (c := (0)) v2 x6 (by norm_num [BinPar.fl_zero]) (lt_bound32 (by norm_num [abs_le]))
  have x30 := is_add (c := (2)) x27 x28 (by fl_num (-22) (8388608)) (lt_bound32 (by norm_num [abs_le]))
  have x31 := is_add (c := (2)) x30 x29 (by fl_num (-22) (8388608)) (lt_bound32 (by norm_num [abs_le]))
  have qe : (dot r.direction (g.start - r.origin)).isFinite ∧ (dot r.direction (g.start - r.origin)).val = (2) := by rw [FltQt.dot3]; exact x31
  have x32 := is_mul (c := (4)) qa qc (by fl_num (-21) (8388608)) (lt_bound32 (by norm_num [abs_le]))
  have x33 := is_mul (c := (0)) qb qb (by norm_num [BinPar.fl_zero]) (lt_bound32 (by norm_num [abs_le]))
  have x34 := is_sub (c := (4)) x32 x33 (by fl_num (-21) (8388608)) (lt_bound32 (by norm_num [abs_le]))
  have x35 := is_mul (c := (0)) qb qe (by norm_num [BinPar.fl_zero]) (lt_bound32 (by norm_num [abs_le]))
  have x36 := is_mul (c := (-2)) qc qd (by fl_num (-22) (-8388608)) (lt_bound32 (by norm_num [abs_le]))
  have x37 := is_sub (c := (2)) x35 x36 (by fl_num (-22) (8388608)) (lt_bound32 (by norm_num [abs_le]))
  have x38 := is_mul (c := (8)) qa qe (by fl_num (-20) (8388608)) (lt_bound32 (by norm_num [abs_le]))
  have x39 := is_mul (c := (0)) qb qd (by norm_num [BinPar.fl_zero]) (lt_bound32 (by norm_num [abs_le]))
  have x40 := is_sub (c := (8)) x38 x39 (by fl_num (-20) (8388608)) (lt_bound32 (by norm_num [abs_le]))
  have x41 := is_div (c := (1 / 2)) x37 x34 (by norm_num) (by fl_num (-24) (8388608)) (lt_bound32 (by norm_num [abs_le]))
  have x42 := is_div (c := (2)) x40 x34 (by norm_num) (by fl_num (-22) (8388608)) (lt_bound32 (by norm_num [abs_le]))
  have z0 : (0 : Flt binary32.fmt).isFinite ∧ (0 : Flt binary32.fmt).val = 0 := ⟨Flt.zero_finite, Flt.zero_val⟩
  have zD := zero_false x34 (by norm_num [abs_of_pos])
  have zS := zero_false x37 (by norm_num [abs_of_pos])
  have zT := zero_false x40 (by norm_num [abs_of_pos])
  have lS := lt_false x37 z0 (by norm_num)
  have lD := lt_false x34 x37 (by norm_num)
  obtain ⟨f, v⟩ := FltDist.max_zero x42.1
  exact ⟨_, _, _, by
    unfold squaredDistanceRaySegmentG
    simp only [zD, lS, lD, Bool.false_eq_true, if_false, zS, zT]
    rfl, f, by rw [v, x42.2]; norm_num⟩

/-- A ray and a line at a distance of one. -/
theorem line_case {r : Ray (Flt binary32.fmt) 3} {l : Line (Flt binary32.fmt) 3}
    (o0 : (r.origin 0).isFinite ∧ (r.origin 0).val = 0) (o1 : (r.origin 1).isFinite ∧ (r.origin 1).val = 0) (o2 : (r.origin 2).isFinite ∧ (r.origin 2).val = 0)
    (u0 : (r.direction 0).isFinite ∧ (r.direction 0).val = 1) (u1 : (r.direction 1).isFinite ∧ (r.direction 1).val = 0) (u2 : (r.direction 2).isFinite ∧ (r.direction 2).val = 0)
    (p0 : (l.point 0).isFinite ∧ (l.point 0).val = 2) (p1 : (l.point 1).isFinite ∧ (l.point 1).val = 1) (p2 : (l.point 2).isFinite ∧ (l.point 2).val = 0)
    (v0 : (l.direction 0).isFinite ∧ (l.direction 0).val = 0) (v1 : (l.direction 1).isFinite ∧ (l.direction 1).val = 0) (v2 : (l.direction 2).isFinite ∧ (l.direction 2).val = 1) :
    ∃ t d y : Flt binary32.fmt, squaredDistanceRayLine binary32.almostZero r l = ⟨false, t, d, some y⟩ ∧ (t.isFinite ∧ t.val = 2) ∧ y.isFinite ∧ y.val = 0 := by
  have x1 := is_sub (c := (-2)) o0 p0 (by fl_num (-22) (-8388608)) (lt_bound32 (by norm_num [abs_le]))
  have x2 := is_sub (c := (-1)) o1 p1 (by fl_num (-23) (-8388608)) (lt_bound32 (by norm_num [abs_le]))
  have x3 := is_sub (c := (0)) o2 p2 (by norm_num [BinPar.fl_zero]) (lt_bound32 (by norm_num [abs_le]))
  have x4 := is_mul (c := (1)) u0 u0 (by fl_num (-23) (8388608)) (lt_bound32 (by norm_num [abs_le]))
  have x5 := is_mul (c := (0)) u1 u1 (by norm_num [BinPar.fl_zero]) (lt_bound32 (by norm_num [abs_le]))
  have x6 := is_mul (c := (0)) u2 u2 (by norm_num [BinPar.fl_zero]) (lt_bound32 (by norm_num [abs_le]))
  have x7 := is_add (c := (1)) x4 x5 (by fl_num (-23) (8388608)) (lt_bound32 (by norm_num [abs_le]))
  have x8 := is_add (c := (1)) x7 x6 (by fl_num (-23) (8388608)) (lt_bound32 (by norm_num [abs_le]))
  have qa : (dot r.direction r.direction).isFinite ∧ (dot r.direction r.direction).val = (1) := by rw [FltQt.dot3]; exact x8
  have x9 := is_mul (c := (0)) u0 v0 (by norm_num [BinPar.fl_zero]) (lt_bound32 (by norm_num [abs_le]))
  have x10 := is_mul (c := (0)) u1 v1 (by norm_num [BinPar.fl_zero]) (lt_bound32 (by norm_num [abs_le]))
  have x11 := is_mul (c := (0)) u2 v2 (by norm_num [BinPar.fl_zero]) (lt_bound32 (by norm_num [abs_le]))
  have x12 := is_add (c := (0)) x9 x10 (by norm_num [BinPar.fl_zero]) (lt_bound32 (by norm_num [abs_le]))
  have x13 := is_add (c := (0)) x12 x11 (by norm_num [BinPar.fl_zero]) (lt_bound32 (by norm_num [abs_le]))
  have qb : (dot r.direction l.direction).isFinite ∧ (dot r.direction l.direction).val = (0) := by rw [FltQt.dot3]; exact x13
  have x14 := is_mul (c := (0)) v0 v0 (by norm_num [BinPar.fl_zero]) (lt_bound32 (by norm_num [abs_le]))
  have x15 := is_mul (c := (0)) v1 v1 (by norm_num [BinPar.fl_zero]) (lt_bound32 (by norm_num [abs_le]))
  have x16 := is_mul (c := (1)) v2 v2 (by fl_num (-23) (8388608)) (lt_bound32 (by norm_num [abs_le]))
  have x17 := is_add (c := (0)) x14 x15 (by norm_num [BinPar.fl_zero]) (lt_bound32 (by norm_num [abs_le]))
  have x18 := is_add (c := (1)) x17 x16 (by fl_num (-23) (8388608)) (lt_bound32 (by norm_num [abs_le]))
  have qc : (dot l.direction l.direction).isFinite ∧ (dot l.direction l.direction).val = (1) := by rw [FltQt.dot3]; exact x18
  have x19 := is_mul (c := (-2)) u0 x1 (by fl_num (-22) (-8388608)) (lt_bound32 (by norm_num [abs_le]))
  have x20 := is_mul (c := (0)) u1 x2 (by norm_num [BinPar.fl_zero]) (lt_bound32 (by norm_num [abs_le]))
  have x21 := is_mul (c := (0)) u2 x3 (by norm_num [BinPar.fl_zero]) (lt_bound32 (by norm_num [abs_le]))
  have x22 := is_add (c := (-2)) x19 x20 (by fl_num (-22) (-8388608)) (lt_bound32 (by norm_num [abs_le]))
  have x23 := is_add (c := (-2)) x22 x21 (by fl_num (-22) (-8388608)) (lt_bound32 (by norm_num [abs_le]))
  have qd : (dot r.direction (r.origin - l.point)).isFinite ∧ (dot r.direction (r.origin - l.point)).val = (-2) := by rw [FltQt.dot3]; exact x23
  have x24 := is_mul (c := (0)) v0 x1 (by norm_num [BinPar.fl_zero]) (lt_bound32 (by norm_num [abs_le]))
  have x25 := is_mul (c := (0)) v1 x2 (by norm_num [BinPar.fl_zero]) (lt_bound32 (by norm_num [abs_le]))
  have x26 := is_mul (c := (0)) v2 x3 (by norm_num [BinPar.fl_zero]) (lt_bound32 (by norm_num [abs_le]))
  have x27 := is_add (c := (0)) x24 x25 (by norm_num [BinPar.fl_zero]) (lt_bound32 (by norm_num [abs_le]))
  have x28 := is_add (c := (0)) x27 x26 (by norm_num [BinPar.fl_zero]) (lt_bound32 (by norm_num [abs_le]))
  have qe : (dot l.direction (r.origin - l.point)).isFinite ∧ (dot l.direction (r.origin - l.point)).val = (0) := by rw [FltQt.dot3]; exact x28
  have x29 := is_mul (c := (1)) qa qc (by fl_num (-23) (8388608)) (lt_bound32 (by norm_num [abs_le]))
  have x30 := is_mul (c := (0)) qb qb (by norm_num [BinPar.fl_zero]) (lt_bound32 (by norm_num [abs_le]))
  have x31 := is_sub (c := (1)) x29 x30 (by fl_num (-23) (8388608)) (lt_bound32 (by norm_num [abs_le]))
  have x32 := is_mul (c := (0)) qb qe (by norm_num [BinPar.fl_zero]) (lt_bound32 (by norm_num [abs_le]))
  have x33 := is_mul (c := (-2)) qc qd (by fl_num (-22) (-8388608)) (lt_bound32 (by norm_num [abs_le]))
  have x34 := is_sub (c := (2)) x32 x33 (by fl_num (-22) (8388608)) (lt_bound32 (by norm_num [abs_le]))
  have x35 := is_mul (c := (0)) qa qe (by norm_num [BinPar.fl_zero]) (lt_bound32 (by norm_num [abs_le]))
  have x36 := is_mul (c := (0)) qb qd (by norm_num [BinPar.fl_zero]) (lt_bound32 (by norm_num [abs_le]))
  have x37 := is_sub (c := (0)) x35 x36 (by norm_num [BinPar.fl_zero]) (lt_bound32 (by norm_num [abs_le]))
  have x38 := is_div (c := (2)) x34 x31 (by norm_num) (by fl_num (-22) (8388608)) (lt_bound32 (by norm_num [abs_le]))
  have x39 := is_div (c := (0)) x37 x31 (by norm_num) (by norm_num [BinPar.fl_zero]) (lt_bound32 (by norm_num [abs_le]))
  have z0 : (0 : Flt binary32.fmt).isFinite ∧ (0 : Flt binary32.fmt).val = 0 := ⟨Flt.zero_finite, Flt.zero_val⟩
  have zD := zero_false x31 (by norm_num [abs_of_pos])
  obtain ⟨f, v⟩ := FltDist.max_zero x38.1
  exact ⟨_, _, _, by
    unfold squaredDistanceRayLine
    simp only [zD, Bool.false_eq_true, if_false]
    rfl, ⟨f, by rw [v, x38.2]; norm_num⟩, x39⟩

end FltLD

namespace FltLD

theorem u32 : (binary32.u : ℝ) = 1 / 2 ^ 24 := by norm_num [BinPar.u, binary32]

theorem big32 {q : ℝ} (h : q ≤ 2 ^ 100) : q < (binary32.bound : ℝ) := by
  have : (2 : ℚ) ^ 100 < binary32.bound := by norm_num [BinPar.bound, binary32]
  have : ((2 : ℝ) ^ 100) < binary32.bound := by exact_mod_cast this
  linarith

/-- Small integers. -/
theorem vec_is {x y z : Flt binary32.fmt} {a b c : ℚ} (hx : x.isFinite ∧ x.val = a) (hy : y.isFinite ∧ y.val = b) (hz : z.isFinite ∧ z.val = c) {B : ℝ}
    (ha : |(a : ℝ)| ≤ B) (hb : |(b : ℝ)| ≤ B) (hc : |(c : ℝ)| ≤ B) (v : Vec (Flt binary32.fmt) 3) (h0 : v 0 = x) (h1 : v 1 = y) (h2 : v 2 = z) :
    (∀ i, (v i).isFinite) ∧ ∀ i, |rvec v i| ≤ B := by
  constructor
  · intro i
    fin_cases i
    · show (v 0).isFinite; rw [h0]; exact hx.1
    · show (v 1).isFinite; rw [h1]; exact hy.1
    · show (v 2).isFinite; rw [h2]; exact hz.1
  · intro i
    fin_cases i
    · show |((v 0).val : ℝ)| ≤ B; rw [h0, hx.2]; exact ha
    · show |((v 1).val : ℝ)| ≤ B; rw [h1, hy.2]; exact hb
    · show |((v 2).val : ℝ)| ≤ B; rw [h2, hz.2]; exact hc

theorem is_zero32 : (0 : Flt binary32.fmt).isFinite ∧ (0 : Flt binary32.fmt).val = 0 := ⟨Flt.zero_finite, Flt.zero_val⟩
theorem is_one32 : (1 : Flt binary32.fmt).isFinite ∧ (1 : Flt binary32.fmt).val = 1 := ⟨Flt.one_finite, Flt.one_val⟩
theorem is_neg32 : (-1 : Flt binary32.fmt).isFinite ∧ (-1 : Flt binary32.fmt).val = -1 :=
  ⟨Flt.neg_finite.2 Flt.one_finite, by rw [Flt.neg_val, Flt.one_val]⟩
theorem is_two32 : (2 : Flt binary32.fmt).isFinite ∧ (2 : Flt binary32.fmt).val = 2 :=
  is_round (c := 2) (by fl_num (-22) (8388608)) (lt_bound32 (by norm_num [abs_le]))

end FltLD

/-- The hypotheses of `C151_line` hold for the ray along the x axis and a vertical line. -/
example : ∃ y, (squaredDistanceRayLine binary32.almostZero (⟨0, ![1, 0, 0]⟩ : Ray (Flt binary32.fmt) 3) ⟨![2, 1, 0], ![0, 0, 1]⟩).position2 = some y ∧
    |((squaredDistanceRayLine binary32.almostZero (⟨0, ![1, 0, 0]⟩ : Ray (Flt binary32.fmt) 3) ⟨![2, 1, 0], ![0, 0, 1]⟩).distance.val : ℝ) -
      squaredDistance (rvec (0 : Vec (Flt binary32.fmt) 3) +
        ((squaredDistanceRayLine binary32.almostZero (⟨0, ![1, 0, 0]⟩ : Ray (Flt binary32.fmt) 3) ⟨![2, 1, 0], ![0, 0, 1]⟩).position1.val : ℝ) •
          rvec (![1, 0, 0] : Vec (Flt binary32.fmt) 3)) (rvec (![2, 1, 0] : Vec (Flt binary32.fmt) 3) + (y.val : ℝ) • rvec (![0, 0, 1] : Vec (Flt binary32.fmt) 3))|
      ≤ 400 * binary32.u * 2 ^ 2 := by
  obtain ⟨t, d, y, e, ht, hy⟩ := line_case (r := ⟨0, ![1, 0, 0]⟩) (l := ⟨![2, 1, 0], ![0, 0, 1]⟩) is_zero32 is_zero32 is_zero32 is_one32 is_zero32 is_zero32
    is_two32 is_one32 is_zero32 is_zero32 is_zero32 is_one32
  have a1 := vec_is (B := 1) is_one32 is_zero32 is_zero32 (by norm_num) (by norm_num) (by norm_num) ![1, 0, 0] rfl rfl rfl
  have a2 := vec_is (B := 1) is_zero32 is_zero32 is_one32 (by norm_num) (by norm_num) (by norm_num) ![0, 0, 1] rfl rfl rfl
  have a3 := vec_is (B := 2) is_zero32 is_zero32 is_zero32 (by norm_num) (by norm_num) (by norm_num) 0 rfl rfl rfl
  have a4 := vec_is (B := 2) is_two32 is_one32 is_zero32 (by norm_num) (by norm_num) (by norm_num) ![2, 1, 0] rfl rfl rfl
  exact ⟨y, by rw [e], (C151_line (L := 2) (by rw [u32]; norm_num) (by norm_num) (big32 (by norm_num)) a3.1 a1.1 a4.1 a2.1 a1.2 a2.2 a3.2 a4.2 (by rw [e])
    (by rw [e]; exact ht.1) (by rw [e]; show (t.val : ℝ) ≤ 2; rw [ht.2]; norm_num) (by rw [e]) hy.1 (by rw [hy.2]; norm_num)).2.2⟩

/-- The hypotheses of `C151_segment` hold for the ray along the x axis and a vertical segment. -/
example (s : Flt binary32.fmt → Flt binary32.fmt) :
    (squaredDistanceRaySegmentG s binary32.almostZero (⟨0, ![1, 0, 0]⟩ : Ray (Flt binary32.fmt) 3) ⟨![2, 1, -1], ![2, 1, 1]⟩).distance.isFinite := by
  obtain ⟨t, d, y, e, ht⟩ := seg_case (r := ⟨0, ![1, 0, 0]⟩) (g := ⟨![2, 1, -1], ![2, 1, 1]⟩) s is_zero32 is_zero32 is_zero32 is_one32 is_zero32 is_zero32
    is_two32 is_one32 is_neg32 is_two32 is_one32 is_one32
  have a1 := vec_is (B := 1) is_one32 is_zero32 is_zero32 (by norm_num) (by norm_num) (by norm_num) ![1, 0, 0] rfl rfl rfl
  have a3 := vec_is (B := 2) is_zero32 is_zero32 is_zero32 (by norm_num) (by norm_num) (by norm_num) 0 rfl rfl rfl
  have a4 := vec_is (B := 2) is_two32 is_one32 is_neg32 (by norm_num) (by norm_num) (by norm_num) ![2, 1, -1] rfl rfl rfl
  have a5 := vec_is (B := 2) is_two32 is_one32 is_one32 (by norm_num) (by norm_num) (by norm_num) ![2, 1, 1] rfl rfl rfl
  refine (C151_segment (L := 4) (by rw [u32]; norm_num) (by norm_num) (big32 (by norm_num)) s almostZero32.1 (by rw [almostZero32.2]; norm_num)
    a3.1 a1.1 a4.1 a5.1 a1.2 (fun i => ?_) (fun i => ?_) (by rw [e]) (by rw [e]; exact ht.1)
    (by rw [e]; show (t.val : ℝ) ≤ 4; rw [ht.2]; norm_num)).2.1
  · have := abs_sub (rvec (![2, 1, -1] : Vec (Flt binary32.fmt) 3) i) (rvec (0 : Vec (Flt binary32.fmt) 3) i)
    linarith [a4.2 i, a3.2 i]
  · have := abs_sub (rvec (![2, 1, 1] : Vec (Flt binary32.fmt) 3) i) (rvec (![2, 1, -1] : Vec (Flt binary32.fmt) 3) i)
    linarith [a4.2 i, a5.2 i]

/-- The hypotheses of `C151_rays` and `C151_crossing_fails` hold for two rays. -/
example (a b x y : Flt binary32.fmt) (ha : a.isFinite ∧ a.val = 8383811 / 8388608) (hb : b.isFinite ∧ b.val = -277 / 8192)
    (hx : x.isFinite ∧ x.val = 8297) (hy : y.isFinite ∧ y.val = 11) :
    (squaredDistanceRayRay binary32.almostZero (⟨0, ![1, 0, 0]⟩ : Ray (Flt binary32.fmt) 3) ⟨![x, y, 0], ![a, b, 0]⟩).distance.isFinite := by
  obtain ⟨_, _, t, d, z, e, _, _, ht, hz⟩ := C151_crossing_fails (r1 := ⟨0, ![1, 0, 0]⟩) (r2 := ⟨![x, y, 0], ![a, b, 0]⟩) is_zero32 is_zero32 is_zero32
    is_one32 is_zero32 is_zero32 hx hy is_zero32 ha hb is_zero32
  have a1 := vec_is (B := 1) is_one32 is_zero32 is_zero32 (by norm_num) (by norm_num) (by norm_num) ![1, 0, 0] rfl rfl rfl
  have a3 := vec_is (B := 1) is_zero32 is_zero32 is_zero32 (by norm_num) (by norm_num) (by norm_num) 0 rfl rfl rfl
  have a4 := vec_is (B := 8297) hx hy is_zero32 (by norm_num) (by norm_num) (by norm_num) ![x, y, 0] rfl rfl rfl
  have a5 := vec_is (B := 1) ha hb is_zero32 (by norm_num [abs_le]) (by norm_num [abs_le]) (by norm_num) ![a, b, 0] rfl rfl rfl
  refine (C151_rays (L := 2 ^ 14) (by rw [u32]; norm_num) (by norm_num) (big32 (by norm_num)) almostZero32.1
    (by rw [almostZero32.2, u32]; norm_num) a3.1 a1.1 a4.1 a5.1 a1.2 a5.2 (fun i => ?_) (by rw [e]) (by rw [e]; exact ht.1)
    (by rw [e]; show (t.val : ℝ) ≤ 2 ^ 14; rw [ht.2]; norm_num) (by rw [e]) hz.1 (by rw [hz.2]; norm_num)).2.2.1
  have := abs_sub (rvec (![x, y, 0] : Vec (Flt binary32.fmt) 3) i) (rvec (0 : Vec (Flt binary32.fmt) 3) i)
  linarith [a4.2 i, a3.2 i]

/-- `C151_model` for the same ray and segment. -/
example : squaredDistanceRaySegmentG Real.sqrt 0.001 ⟨0, ![1, 0, 0]⟩ ⟨![2, 1, -1], ![2, 1, 1]⟩ =
    squaredDistanceRaySegment 0.001 ⟨0, ![1, 0, 0]⟩ (⟨![2, 1, -1], ![2, 1, 1]⟩ : Segment ℝ 3) :=
  (C151_model _ _ _ (by
    unfold length squaredLength
    rw [vm.dot3]
    refine (Real.sqrt_pos.2 ?_).ne'
    show (0 : ℝ) < (2 - 2) * (2 - 2) + (1 - 1) * (1 - 1) + (1 - -1) * (1 - -1)
    norm_num)).1

end vm
