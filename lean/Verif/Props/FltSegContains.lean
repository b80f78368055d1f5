import Verif.Props.FltDistance
import Verif.Props.FltMove
import Verif.Props.Segment
import Verif.Props.FltLineDist
import Verif.Model.SegmentG

/-! C152: `segment::contains` in IEEE arithmetic. -/

set_option linter.unusedSectionVars false
set_option linter.unusedSimpArgs false

namespace vm
open BinPar FltDist FltAng
variable {P : BinPar}

/-- The signed distance of the foot of the perpendicular from `p` to the line through `a` and `b`, from `a`. -/
noncomputable def segAlong (a b p : Vec ℝ 3) : ℝ := dot (p - a) (b - a) / length (b - a)

/-- The distance of `p` from the line through `a` and `b`. -/
noncomputable def segAcross (a b p : Vec ℝ 3) : ℝ := length (p - (a + (segAlong a b p / length (b - a)) • (b - a)))

namespace FltSC

/-- The rounding error of a sum of three squares. -/
theorem sq_err {u η a b c A B C s t : ℝ} (hu0 : 0 < u) (hu : 1000 * u ≤ 1) (hη : 0 ≤ η) (ha0 : 0 ≤ a) (hb0 : 0 ≤ b) (hc0 : 0 ≤ c)
    (hA : |A - a| ≤ u * a + η) (hB : |B - b| ≤ u * b + η) (hC : |C - c| ≤ u * c + η) (hs : |s - (A + B)| ≤ u * |A + B| + η)
    (ht : |t - (s + C)| ≤ u * |s + C| + η) : |t - (a + b + c)| ≤ 3.01 * u * (a + b + c) + 5.02 * η := by
  have A1 := abs_le.1 hA
  have B1 := abs_le.1 hB
  have C1 := abs_le.1 hC
  have ua : u * a ≤ 1 / 1000 * a := mul_le_mul_of_nonneg_right (by linarith) ha0
  have ub : u * b ≤ 1 / 1000 * b := mul_le_mul_of_nonneg_right (by linarith) hb0
  have uc : u * c ≤ 1 / 1000 * c := mul_le_mul_of_nonneg_right (by linarith) hc0
  have e1 : |A + B| ≤ 1001 / 1000 * (a + b) + 2 * η := abs_le.2 ⟨by linarith, by linarith⟩
  have e2 := mul_le_mul_of_nonneg_left e1 hu0.le
  have uη : u * η ≤ 1 / 1000 * η := mul_le_mul_of_nonneg_right (by linarith) hη
  have uua : u * (u * (a + b)) ≤ 1 / 1000 * (u * (a + b)) := mul_le_mul_of_nonneg_right (by linarith) (by positivity)
  have s1 := abs_le.1 hs
  have uab : u * (a + b) = u * a + u * b := by ring
  have e3 : |s + C| ≤ 1003 / 1000 * (a + b + c) + 5 * η := abs_le.2 ⟨by nlinarith, by nlinarith⟩
  have e4 := mul_le_mul_of_nonneg_left e3 hu0.le
  have t1 := abs_le.1 ht
  have ue : u * (a + b + c) = u * a + u * b + u * c := by ring
  exact abs_le.2 ⟨by nlinarith, by nlinarith⟩

theorem fl_abs {a b : ℚ} (h : P.fl a = b) : |(b : ℝ) - a| ≤ P.u * |(a : ℝ)| + P.eta := by
  rw [← h]; exact Ap.fl_err_real P a

/-- The squared length of a vector of floating point numbers, relative to its size. -/
theorem sqlen_rel (hu : 1000 * (P.u : ℝ) ≤ 1) {v : Vec (Flt P.fmt) 3} (hf : (squaredLength v).isFinite) :
    |((squaredLength v).val : ℝ) - length (rvec v) ^ 2| ≤ 3.01 * P.u * length (rvec v) ^ 2 + 5.02 * P.eta := by
  have hη : (0 : ℝ) ≤ P.eta := by exact_mod_cast P.eta_pos.le
  have e : squaredLength v = v 0 * v 0 + v 1 * v 1 + v 2 * v 2 := FltQt.dot3 v v
  rw [e] at hf ⊢
  obtain ⟨f1, f2⟩ := Flt.add_finite hf
  obtain ⟨f3, f4⟩ := Flt.add_finite f1
  have k : length (rvec v) ^ 2 = (v 0).val * (v 0).val + (v 1).val * (v 1).val + (v 2).val * (v 2).val := by
    rw [length_sq, vm.dot3]; rfl
  rw [k]
  have m : ∀ {x : Flt P.fmt}, (x * x).isFinite → |((x * x).val : ℝ) - (x.val : ℝ) * x.val| ≤ P.u * ((x.val : ℝ) * x.val) + P.eta := fun {x} h => by
    have := fl_abs (Flt.mul_val h).symm
    push_cast at this
    rwa [abs_mul_self] at this
  refine sq_err (Ap.u_pos P) hu hη (mul_self_nonneg _) (mul_self_nonneg _) (mul_self_nonneg _) (m f3) (m f4) (m f2) (s := ((v 0 * v 0 + v 1 * v 1).val : ℝ)) ?_ ?_
  · have := fl_abs (Flt.add_val f1).symm
    push_cast at this
    exact this
  · have := fl_abs (Flt.add_val hf).symm
    push_cast at this
    exact this


theorem sub_neg_fin {p q : Flt P.fmt} (h : (p - q).isFinite) : (q - p).isFinite ∧ (q - p).val = -(p - q).val := by
  obtain ⟨f1, f2⟩ := Flt.sub_finite h
  have hv := Flt.sub_val h
  refine is_sub (c := -(p - q).val) ⟨f2, rfl⟩ ⟨f1, rfl⟩ ?_ ?_
  · rw [hv, ← P.fl_neg]; congr 1; ring
  · rw [abs_neg]; exact (Flt.rep_val (p - q)).2

/-- The step along the line. -/
theorem step {u η X t T d f : ℝ} (hu0 : 0 < u) (hu : 1000 * u ≤ 1) (hη : 500 * η ≤ u) (hX : 1 ≤ X)
    (hf : |f| ≤ 1) (hd : |d - f| ≤ 19 / 2 * u * |f| + η) (hTX : |T| ≤ 347 / 100 * X) (hT : |t - T| ≤ 48 * u * X) :
    |d * t - f * T| ≤ 82 * u * X ∧ |d * t| ≤ 39 / 10 * X := by
  have uX : 0 < u * X := by positivity
  have uX' : 1000 * (u * X) ≤ X := by nlinarith
  have ht : |t| ≤ 352 / 100 * X := by
    have := abs_sub_abs_le_abs_sub t T
    linarith
  have hd' : |d - f| ≤ 951 / 100 * u := by
    have := mul_le_mul_of_nonneg_left hf hu0.le
    linarith
  have k1 : |d - f| * |t| ≤ 951 / 100 * u * (352 / 100 * X) := mul_le_mul hd' ht (abs_nonneg _) (by positivity)
  have k2 : |f| * |t - T| ≤ 1 * (48 * u * X) := mul_le_mul hf hT (abs_nonneg _) zero_le_one
  have k3 : |f| * |T| ≤ 1 * (347 / 100 * X) := mul_le_mul hf hTX (abs_nonneg _) zero_le_one
  have e : d * t - f * T = (d - f) * t + f * (t - T) := by ring
  have h1 : |d * t - f * T| ≤ 82 * u * X := by
    rw [e]
    refine (abs_add_le _ _).trans ?_
    rw [abs_mul, abs_mul]
    linarith
  refine ⟨h1, ?_⟩
  have := abs_sub_abs_le_abs_sub (d * t) (f * T)
  rw [abs_mul f T] at this
  linarith

set_option maxHeartbeats 1000000 in
/-- The position along the segment, its squared length and the squared distance from the line, as computed. -/
theorem parts (hu : 1000 * P.u ≤ 1) {s : Flt P.fmt → Flt P.fmt} (hs : FaithfulSqrt P s) (g : Segment (Flt P.fmt) 3) (p : Vec (Flt P.fmt) 3)
    (X : ℚ) (hX : 1 ≤ X) (hbd : 1024 * X ^ 2 < P.bound) (ha : ∀ i, (g.start i).isFinite ∧ |(g.start i).val| ≤ X)
    (hb : ∀ i, (g.end_ i).isFinite ∧ |(g.end_ i).val| ≤ X) (hp : ∀ i, (p i).isFinite ∧ |(p i).val| ≤ X)
    (hV : 4 * (P.eta : ℝ) ≤ P.u * length (rvec g.end_ - rvec g.start) ^ 2) :
    0 < length (rvec g.end_ - rvec g.start) ∧ length (rvec g.end_ - rvec g.start) ≤ 347 / 100 * X ∧
    (distanceToProjectedPoint g.start (g.directionG s) p).isFinite ∧
    |((distanceToProjectedPoint g.start (g.directionG s) p).val : ℝ) - segAlong (rvec g.start) (rvec g.end_) (rvec p)| ≤ 48 * P.u * X ∧
    |segAlong (rvec g.start) (rvec g.end_) (rvec p)| ≤ 347 / 100 * X ∧
    g.squaredLength.isFinite ∧
    |(g.squaredLength.val : ℝ) - length (rvec g.end_ - rvec g.start) ^ 2| ≤ 63 / 10 * P.u * length (rvec g.end_ - rvec g.start) ^ 2 ∧
    (squaredDistance (pointAtDistance g.start (g.directionG s) (distanceToProjectedPoint g.start (g.directionG s) p)) p).isFinite ∧
    ∃ n : ℝ, 0 ≤ n ∧ |n - segAcross (rvec g.start) (rvec g.end_) (rvec p)| ≤ 1681 / 10 * P.u * X ∧
      |((squaredDistance (pointAtDistance g.start (g.directionG s) (distanceToProjectedPoint g.start (g.directionG s) p)) p).val : ℝ) - n ^ 2| ≤
        3.01 * P.u * n ^ 2 + 5.02 * P.eta := by
  have hup := P.u_pos
  have hu2 : 250 * P.u ≤ 1 := by linarith
  have hXX : X ≤ X ^ 2 := by nlinarith
  have hη := eta_small hu2 le_rfl
  rw [mul_one] at hη
  have hur : (0 : ℝ) < P.u := by exact_mod_cast hup
  have hu' : 1000 * (P.u : ℝ) ≤ 1 := by exact_mod_cast hu
  have hu2' : 250 * (P.u : ℝ) ≤ 1 := by exact_mod_cast hu2
  have hη0 : (0 : ℝ) ≤ P.eta := by exact_mod_cast P.eta_pos.le
  have hη' : 500 * (P.eta : ℝ) ≤ P.u := by exact_mod_cast hη
  have hXr : (1 : ℝ) ≤ X := by exact_mod_cast hX
  set V : Vec ℚ 3 := vval g.end_ - vval g.start with hVd
  set W : Vec ℚ 3 := vval p - vval g.start with hWd
  have hVi : ∀ i, V i = (g.end_ i).val - (g.start i).val := fun _ => rfl
  have hWi : ∀ i, W i = (p i).val - (g.start i).val := fun _ => rfl
  have hVR : rvec g.end_ - rvec g.start = fun i => (V i : ℝ) := by funext i; rw [hVi]; push_cast; rfl
  have hWR : rvec p - rvec g.start = fun i => (W i : ℝ) := by funext i; rw [hWi]; push_cast; rfl
  have hLv : length (rvec g.end_ - rvec g.start) = vlen V := by
    have e1 := length_sq (rvec g.end_ - rvec g.start)
    have e2 := vlen_nsq V
    have e3 : length (rvec g.end_ - rvec g.start) ^ 2 = vlen V ^ 2 := by
      rw [e1, e2, vm.dot3, hVR]; unfold nsq; push_cast; ring
    exact (sq_eq_sq₀ (length_nonneg _) (Real.sqrt_nonneg _)).1 e3
  have rv := fun i => sub_round (hb i).1 (ha i).1 hX (hb i).2 (ha i).2 hbd
  have rw' := fun i => sub_round (hp i).1 (ha i).1 hX (hp i).2 (ha i).2 hbd
  have VX : ∀ i, |V i| ≤ 2 * X := fun i => (rv i).2.2
  have WX : ∀ i, |W i| ≤ 2 * X := fun i => (rw' i).2.2
  have Vn := nsq_le12 VX
  have Wn := nsq_le12 WX
  have hVq : 4 * P.eta ≤ P.u * nsq V := by
    rw [hLv, vlen_nsq] at hV
    exact_mod_cast hV
  -- the edge
  have hf : (squaredLength (g.end_ - g.start)).isFinite := by
    refine (sqlen_err' (q := V) hu2 (fun i => (rv i).1) hX (fun i => (rv i).2.1.trans ?_) VX hbd).1
    have h1 := VX i
    have := mul_le_mul_of_nonneg_left (rv i).2.2 hup.le
    have : 0 < P.u * X := by positivity
    linarith
  obtain ⟨hL, fl, el, hdir⟩ := edge_dir (V := V) hu2 hs hf (fun i => (rv i).2.1) hVq
  have hL2 := vlen_nsq V
  rw [hLv]
  rw [hLv] at hV
  set L := vlen V with hLd
  have hLX : L ≤ 347 / 100 * X := by
    refine abs_le_of_sq_le_sq' ?_ (by linarith) |>.2
    rw [hL2]
    have := (Rat.cast_le (K := ℝ)).2 Vn
    push_cast at this
    nlinarith
  set f : Fin 3 → ℝ := fun i => (V i : ℝ) / L with hfd
  have hfa : ∀ i, |f i| = |(V i : ℝ)| / L := fun i => by rw [hfd]; simp only []; rw [abs_div, abs_of_pos hL]
  have hVp : 0 < nsq V := by
    have : (0 : ℝ) < (nsq V : ℚ) := by rw [← hL2]; positivity
    exact_mod_cast this
  have hf1 : f 0 ^ 2 + f 1 ^ 2 + f 2 ^ 2 = 1 := by
    have : f 0 ^ 2 + f 1 ^ 2 + f 2 ^ 2 = ((V 0 : ℝ) ^ 2 + V 1 ^ 2 + V 2 ^ 2) / L ^ 2 := by simp only [hfd]; field_simp
    rw [this, hL2]
    have hne : ((nsq V : ℚ) : ℝ) ≠ 0 := by exact_mod_cast hVp.ne'
    rw [div_eq_one_iff_eq hne]
    unfold nsq; push_cast; ring
  have hfle : ∀ i, |f i| ≤ 1 := fun i => by
    have : f i ^ 2 ≤ 1 := by
      have k0 := sq_nonneg (f 0)
      have k1 := sq_nonneg (f 1)
      have k2 := sq_nonneg (f 2)
      fin_cases i
      · show f 0 ^ 2 ≤ _; linarith
      · show f 1 ^ 2 ≤ _; linarith
      · show f 2 ^ 2 ≤ _; linarith
    exact abs_le_one_iff_mul_self_le_one.2 (by rw [← sq]; exact this)
  have hd : ∀ i, |((normalizeG s (g.end_ - g.start) i).val : ℝ) - f i| ≤ 19 / 2 * P.u * |f i| + P.eta := fun i => by
    rw [hfa]; exact (hdir i).2
  -- the projection
  have hWf : |(W 0 : ℝ) * f 0| + |(W 1 : ℝ) * f 1| + |(W 2 : ℝ) * f 2| ≤ 347 / 100 * X := by
    refine cauchy_abs (a := fun i => (W i : ℝ)) (b := f) (A := 12 * X ^ 2) (B := 1) ?_ hf1.le (by linarith) (by nlinarith)
    have := (Rat.cast_le (K := ℝ)).2 Wn
    unfold nsq at this ⊢
    push_cast at this
    exact this
  have hWX : ∀ i, |(W i : ℝ)| ≤ 2 * X := fun i => by
    have := (Rat.cast_le (K := ℝ)).2 (WX i)
    push_cast at this
    exact this
  have hw' : ∀ i, |(((p - g.start) i).val : ℝ) - W i| ≤ P.u * |(W i : ℝ)| := fun i => by
    have := (Rat.cast_le (K := ℝ)).2 (rw' i).2.1
    push_cast at this
    rw [hWi]; push_cast
    exact this
  have hC := scale_size (w := fun i => (W i : ℝ)) (w' := fun i => (((p - g.start) i).val : ℝ))
    (d := fun i => ((normalizeG s (g.end_ - g.start) i).val : ℝ)) hur hu2' hη0 hη' hXr hw' hWX hd hWf
  obtain ⟨fx, ex⟩ := dot_of (a := p - g.start) (b := normalizeG s (g.end_ - g.start)) (C := 365 / 100 * X) (Y := X) hu2 (fun i => (rw' i).1)
    (fun i => (hdir i).1) ((Rat.cast_le (K := ℝ)).1 (by push_cast; exact hC)) hX (by linarith)
  have ex' := (Rat.cast_le (K := ℝ)).2 ex
  push_cast at ex'
  have hsc := scale_err (w := fun i => (W i : ℝ)) (w' := fun i => (((p - g.start) i).val : ℝ))
    (d := fun i => ((normalizeG s (g.end_ - g.start) i).val : ℝ)) hur hu2' hη0 hη' hXr hw' hWX hd hWf ex'
  have hx : distanceToProjectedPoint g.start (g.directionG s) p = dot (p - g.start) (normalizeG s (g.end_ - g.start)) := rfl
  rw [hx]
  set x := dot (p - g.start) (normalizeG s (g.end_ - g.start)) with hxd
  set F := (W 0 : ℝ) * f 0 + W 1 * f 1 + W 2 * f 2 with hF
  have hFs : segAlong (rvec g.start) (rvec g.end_) (rvec p) = F := by
    unfold segAlong
    rw [hLv, hVR, hWR, vm.dot3, hF]
    simp only [hfd]
    field_simp
  have hFX : |F| ≤ 347 / 100 * X := by
    refine le_trans ?_ hWf
    rw [hF]
    exact (abs_add_le _ _).trans (add_le_add_left (abs_add_le _ _) _)
  -- the length
  have hS : |((squaredLength (g.end_ - g.start)).val : ℝ) - L ^ 2| ≤ 63 / 10 * P.u * L ^ 2 := by
    have k1 := sqlen_rel hu' hf
    set m := length (rvec (g.end_ - g.start)) with hm
    have k2 : |m - L| ≤ P.u * L := by
      have h1 := FltTo.abs_length_sub (rvec (g.end_ - g.start)) (rvec g.end_ - rvec g.start)
      rw [hLv] at h1
      refine h1.trans (abs_le_of_sq_le_sq' ?_ (by positivity)).2
      rw [length_sq, vm.dot3, mul_pow, hL2]
      have k : ∀ i, (rvec (g.end_ - g.start) - (rvec g.end_ - rvec g.start)) i * (rvec (g.end_ - g.start) - (rvec g.end_ - rvec g.start)) i ≤
          (P.u : ℝ) ^ 2 * (V i : ℝ) ^ 2 := fun i => by
        have h2 := (Rat.cast_le (K := ℝ)).2 (rv i).2.1
        push_cast at h2
        have h3 : |(rvec (g.end_ - g.start) - (rvec g.end_ - rvec g.start)) i| ≤ P.u * |(V i : ℝ)| := by
          rw [hVi]; push_cast; exact h2
        have h4 := pow_le_pow_left₀ (abs_nonneg _) h3 2
        rw [sq_abs, mul_pow, sq_abs] at h4
        linarith
      unfold nsq
      push_cast
      linarith [k 0, k 1, k 2]
    obtain ⟨j1, j2⟩ := abs_le.1 k2
    obtain ⟨j3, j4⟩ := abs_le.1 k1
    have uL : P.u * L ≤ 1 / 1000 * L := mul_le_mul_of_nonneg_right (by linarith) hL.le
    have e1 : |m ^ 2 - L ^ 2| ≤ 2.001 * P.u * L ^ 2 := by
      have : m ^ 2 - L ^ 2 = (m - L) * (m + L) := by ring
      rw [this, abs_mul]
      have h5 : |m + L| ≤ 2.001 * L := abs_le.2 ⟨by linarith, by linarith⟩
      calc |m - L| * |m + L| ≤ (P.u * L) * (2.001 * L) := mul_le_mul k2 h5 (abs_nonneg _) (by positivity)
        _ = _ := by ring
    obtain ⟨j5, j6⟩ := abs_le.1 e1
    have uL2 : (P.u : ℝ) * L ^ 2 ≤ 1 / 1000 * L ^ 2 := mul_le_mul_of_nonneg_right (by linarith) (by positivity)
    have e2 : m ^ 2 ≤ 1.003 * L ^ 2 := by linarith
    have e3 := mul_le_mul_of_nonneg_left e2 hur.le
    exact abs_le.2 ⟨by linarith, by linarith⟩
  -- the foot of the perpendicular
  have hstep := fun i => step (T := F) hur hu' hη' hXr (hfle i) (hd i) hFX hsc
  have hfoot := fun i => foot_comp' (t := x) hu2 (ha i).1 (hdir i).1 fx (hp i).1 hX (ha i).2 (hp i).2
    ((Rat.cast_le (K := ℝ)).1 (by push_cast; exact (hstep i).2)) (by linarith)
  have hneg := fun i => sub_neg_fin (hfoot i).1
  set v := pointAtDistance g.start (g.directionG s) x - p with hv
  have hvf : ∀ i, (v i).isFinite := fun i => (hneg i).1
  have hvv : ∀ i, (v i).val = -(p i - (g.start i + normalizeG s (g.end_ - g.start) i * x)).val := fun i => (hneg i).2
  set q : Vec ℝ 3 := rvec p - (rvec g.start + (F / L) • (rvec g.end_ - rvec g.start)) with hq
  have hqE : segAcross (rvec g.start) (rvec g.end_) (rvec p) = length q := by unfold segAcross; rw [hFs, hLv]
  have hqi : ∀ i, q i = (W i : ℝ) - f i * F := fun i => by
    show (rvec p i) - (rvec g.start i + (F / L) * (rvec g.end_ - rvec g.start) i) = _
    have := congrFun hWR i
    rw [hVR, ← this]
    show _ = (rvec p i - rvec g.start i) - (V i : ℝ) / L * F
    ring
  have hcomp : ∀ i, |(rvec v - -q) i| ≤ 97 * P.u * X := fun i => by
    have h1 := (Rat.cast_le (K := ℝ)).2 (hfoot i).2
    push_cast at h1
    have h2 := (hstep i).1
    have e : (rvec v - -q) i = -((((p i - (g.start i + normalizeG s (g.end_ - g.start) i * x)).val : ℝ) - ((p i).val - ((g.start i).val + (normalizeG s (g.end_ - g.start) i).val * x.val)))) +
          ((normalizeG s (g.end_ - g.start) i).val * x.val - f i * F) := by
      show ((v i).val : ℝ) - -(q i) = _
      rw [hvv, hqi, hWi]; push_cast; ring
    rw [e]
    refine (abs_add_le _ _).trans ?_
    rw [abs_neg]
    linarith
  have hlen : |length (rvec v) - length q| ≤ 1681 / 10 * P.u * X := by
    have h1 := FltTo.abs_length_sub (rvec v) (-q)
    rw [FltTo.length_neg] at h1
    have h2 := FltTo.length_of_comp hcomp
    have : 0 < (P.u : ℝ) * X := by positivity
    linarith
  have hqX : length q ≤ 347 / 100 * X := by
    refine abs_le_of_sq_le_sq' ?_ (by linarith) |>.2
    have h1 : length q ^ 2 = (W 0 : ℝ) ^ 2 + W 1 ^ 2 + W 2 ^ 2 - F ^ 2 := by
      rw [length_sq, vm.dot3, hqi, hqi, hqi]
      have : ((W 0 : ℝ) - f 0 * F) * (W 0 - f 0 * F) + (W 1 - f 1 * F) * (W 1 - f 1 * F) + (W 2 - f 2 * F) * (W 2 - f 2 * F) =
          (W 0 : ℝ) ^ 2 + W 1 ^ 2 + W 2 ^ 2 - 2 * F * (W 0 * f 0 + W 1 * f 1 + W 2 * f 2) + (f 0 ^ 2 + f 1 ^ 2 + f 2 ^ 2) * F ^ 2 := by ring
      rw [this, hf1, ← hF]; ring
    rw [h1]
    have h2 := (Rat.cast_le (K := ℝ)).2 Wn
    unfold nsq at h2
    push_cast at h2
    have := sq_nonneg F
    nlinarith
  have hDf : (squaredLength v).isFinite := by
    refine (dot_of (a := v) (b := v) (C := 14 * X ^ 2) (Y := X) hu2 hvf hvf ?_ hX (by linarith)).1
    have h1 : length (rvec v) ^ 2 ≤ 14 * X ^ 2 := by
      have := (abs_le.1 hlen).2
      have : P.u * X ≤ 1 / 1000 * (X : ℝ) := mul_le_mul_of_nonneg_right (by linarith) (by linarith)
      have h2 : length (rvec v) ≤ 3.64 * X := by linarith
      have h3 := pow_le_pow_left₀ (length_nonneg _) h2 2
      nlinarith
    rw [length_sq, vm.dot3] at h1
    rw [abs_mul_self, abs_mul_self, abs_mul_self]
    have : ((v 0).val : ℝ) * (v 0).val + (v 1).val * (v 1).val + (v 2).val * (v 2).val ≤ 14 * (X : ℝ) ^ 2 := h1
    exact_mod_cast this
  refine ⟨hL, hLX, fx, ?_, ?_, hf, hS, hDf, length (rvec v), length_nonneg _, ?_, sqlen_rel hu' hDf⟩
  · rw [hFs]; exact hsc
  · rw [hFs]; exact hFX
  · rw [hqE]; exact hlen

theorem across_true {u η X d E n D d2 : ℝ} (hu0 : 0 < u) (hu : 1000 * u ≤ 1) (hη : 2 * η ≤ u ^ 2) (hX : 1 ≤ X) (hdX : d ≤ X)
    (hE0 : 0 ≤ E) (hE : E ≤ d - 180 * u * X) (hn0 : 0 ≤ n) (hn : |n - E| ≤ 1681 / 10 * u * X) (hD : |D - n ^ 2| ≤ 3.01 * u * n ^ 2 + 5.02 * η)
    (hd : |d2 - d ^ 2| ≤ u * d ^ 2 + η) : D ≤ d2 := by
  have uX : 0 < u * X := by positivity
  have h1 : n ≤ d - 119 / 10 * (u * X) := by linarith [(abs_le.1 hn).2]
  have hd0 : 180 * (u * X) ≤ d := by linarith
  have h2 : n ^ 2 ≤ d ^ 2 - 119 / 10 * (u * X) * d := by nlinarith
  have h3 : n ^ 2 ≤ d ^ 2 := by nlinarith
  have h4 := mul_le_mul_of_nonneg_left h3 hu0.le
  have h5 : u * d ^ 2 ≤ u * X * d := by
    have := mul_le_mul_of_nonneg_left hdX (mul_nonneg hu0.le (show 0 ≤ d by linarith))
    linarith
  have h6 : 180 * u ^ 2 ≤ u * X * d := by
    have k1 := mul_le_mul_of_nonneg_left hd0 uX.le
    have k2 : u ^ 2 ≤ (u * X) ^ 2 := pow_le_pow_left₀ hu0.le (by nlinarith) 2
    linarith
  have := (abs_le.1 hD).2
  have := (abs_le.1 hd).1
  nlinarith

theorem across_false {u η X d E n D d2 : ℝ} (hu0 : 0 < u) (hu : 1000 * u ≤ 1) (hη : 2 * η ≤ u ^ 2) (hX : 1 ≤ X) (hd0 : 0 ≤ d) (hdX : d ≤ X)
    (hE : d + 180 * u * X < E) (hn : |n - E| ≤ 1681 / 10 * u * X) (hD : |D - n ^ 2| ≤ 3.01 * u * n ^ 2 + 5.02 * η)
    (hd : |d2 - d ^ 2| ≤ u * d ^ 2 + η) : d2 < D := by
  have uX : 0 < u * X := by positivity
  set a := d + 119 / 10 * (u * X) with ha
  have h1 : a ≤ n := by linarith [(abs_le.1 hn).1]
  have h2 : a ^ 2 ≤ n ^ 2 := pow_le_pow_left₀ (by positivity) h1 2
  have h3 : a ^ 2 * (1 - 3.01 * u) ≤ n ^ 2 * (1 - 3.01 * u) := mul_le_mul_of_nonneg_right h2 (by linarith)
  have h4 : a ^ 2 = d ^ 2 + 119 / 5 * (u * X * d) + 14161 / 100 * (u * X) ^ 2 := by rw [ha]; ring
  have h5 : u * d ^ 2 ≤ u * X * d := by
    have := mul_le_mul_of_nonneg_left hdX (mul_nonneg hu0.le hd0)
    linarith
  have h10 : 0 ≤ u * X * d := by positivity
  have h6 : u ^ 2 ≤ (u * X) ^ 2 := pow_le_pow_left₀ hu0.le (by nlinarith) 2
  have h7 : u * (u * X * d) ≤ 1 / 1000 * (u * X * d) := mul_le_mul_of_nonneg_right (by linarith) (by positivity)
  have h8 : u * (u * X) ^ 2 ≤ 1 / 1000 * (u * X) ^ 2 := mul_le_mul_of_nonneg_right (by linarith) (by positivity)
  have h9 : 0 < (u * X) ^ 2 := by positivity
  have := (abs_le.1 hD).1
  have := (abs_le.1 hd).2
  rw [h4] at h3
  linarith

theorem reach {u η L d S d2 T : ℝ} (hu0 : 0 < u) (hu : 1000 * u ≤ 1) (hη0 : 0 ≤ η) (hη : 4 * η ≤ u * L ^ 2) (hS : |S - L ^ 2| ≤ 63 / 10 * u * L ^ 2)
    (hd : |d2 - d ^ 2| ≤ u * d ^ 2 + η) (hT : |T - (S + d2)| ≤ u * |S + d2| + η) : |T - (L ^ 2 + d ^ 2)| ≤ 8 * u * (L ^ 2 + d ^ 2) := by
  have uL : u * L ^ 2 ≤ 1 / 1000 * L ^ 2 := mul_le_mul_of_nonneg_right (by linarith) (sq_nonneg _)
  have ud : u * d ^ 2 ≤ 1 / 1000 * d ^ 2 := mul_le_mul_of_nonneg_right (by linarith) (sq_nonneg _)
  have ud0 : 0 ≤ u * d ^ 2 := by positivity
  obtain ⟨s1, s2⟩ := abs_le.1 hS
  obtain ⟨d1, d3⟩ := abs_le.1 hd
  obtain ⟨t1, t2⟩ := abs_le.1 hT
  have h1 : |S + d2| ≤ 1.01 * (L ^ 2 + d ^ 2) := abs_le.2 ⟨by linarith [sq_nonneg d, sq_nonneg L], by linarith [sq_nonneg d, sq_nonneg L]⟩
  have h2 := mul_le_mul_of_nonneg_left h1 hu0.le
  exact abs_le.2 ⟨by linarith, by linarith⟩

theorem along_true {u η X R F x x2 T : ℝ} (hu0 : 0 < u) (hu : 1000 * u ≤ 1) (hη : 4 * η ≤ u * R ^ 2) (hX : 1 ≤ X) (hR : 0 ≤ R) (hRX : R ≤ 362 / 100 * X)
    (h1 : -R + 90 * u * X ≤ F) (h2 : F ≤ R - 90 * u * X) (hx : |x - F| ≤ 48 * u * X) (hx2 : |x2 - x ^ 2| ≤ u * x ^ 2 + η)
    (hT : |T - R ^ 2| ≤ 8 * u * R ^ 2) : x2 ≤ T := by
  have uX : 0 < u * X := by positivity
  obtain ⟨a1, a2⟩ := abs_le.1 hx
  have k : |x| ≤ R - 42 * (u * X) := abs_le.2 ⟨by linarith, by linarith⟩
  have k0 := abs_nonneg x
  have k2 : x ^ 2 ≤ R ^ 2 - 42 * (u * X) * R := by
    rw [← sq_abs]
    have := pow_le_pow_left₀ k0 k 2
    nlinarith
  have k3 : u * R ^ 2 ≤ 362 / 100 * (u * X * R) := by
    have := mul_le_mul_of_nonneg_right hRX (mul_nonneg hu0.le hR)
    nlinarith
  have k4 : 0 ≤ u * X * R := by positivity
  have k5 : x ^ 2 ≤ R ^ 2 := by linarith
  have k6 := mul_le_mul_of_nonneg_left k5 hu0.le
  have := (abs_le.1 hx2).2
  have := (abs_le.1 hT).1
  linarith

theorem along_false {u η X R F x x2 T : ℝ} (hu0 : 0 < u) (hu : 1000 * u ≤ 1) (hη : 4 * η ≤ u * R ^ 2) (hX : 1 ≤ X) (hR : 0 < R) (hRX : R ≤ 362 / 100 * X)
    (h2 : R + 90 * u * X < F) (hx : |x - F| ≤ 48 * u * X) (hx2 : |x2 - x ^ 2| ≤ u * x ^ 2 + η)
    (hT : |T - R ^ 2| ≤ 8 * u * R ^ 2) : T < x2 := by
  have uX : 0 < u * X := by positivity
  obtain ⟨a1, a2⟩ := abs_le.1 hx
  have k : R + 42 * (u * X) ≤ x := by linarith
  have k2 : R ^ 2 + 84 * (u * X) * R ≤ x ^ 2 := by nlinarith
  have k3 : u * R ^ 2 ≤ 362 / 100 * (u * X * R) := by
    have := mul_le_mul_of_nonneg_right hRX (mul_nonneg hu0.le hR.le)
    nlinarith
  have k4 : 0 < u * X * R := by positivity
  have k7 : (R ^ 2 + 84 * (u * X) * R) * (1 - u) ≤ x ^ 2 * (1 - u) := mul_le_mul_of_nonneg_right k2 (by linarith)
  have k8 : u * (u * X * R) ≤ 1 / 1000 * (u * X * R) := mul_le_mul_of_nonneg_right (by linarith) k4.le
  have := (abs_le.1 hx2).1
  have := (abs_le.1 hT).2
  linarith

theorem mul_err {x y : Flt P.fmt} (h : (x * y).isFinite) : |((x * y).val : ℝ) - x.val * y.val| ≤ P.u * |(x.val : ℝ) * y.val| + P.eta := by
  have := fl_abs (Flt.mul_val h).symm
  push_cast at this
  exact this

theorem sq_err1 {x : Flt P.fmt} (h : (x * x).isFinite) : |((x * x).val : ℝ) - (x.val : ℝ) ^ 2| ≤ P.u * (x.val : ℝ) ^ 2 + P.eta := by
  have := mul_err h
  rw [abs_mul_self, ← sq] at this
  exact this

set_option maxHeartbeats 1000000 in
/-- The three comparisons. -/
theorem tests (hu : 1000 * P.u ≤ 1) {s : Flt P.fmt → Flt P.fmt} (hs : FaithfulSqrt P s) (g : Segment (Flt P.fmt) 3) (p : Vec (Flt P.fmt) 3)
    (d : Flt P.fmt) (X : ℚ) (hX : 1 ≤ X) (hbd : 1024 * X ^ 2 < P.bound) (ha : ∀ i, (g.start i).isFinite ∧ |(g.start i).val| ≤ X)
    (hb : ∀ i, (g.end_ i).isFinite ∧ |(g.end_ i).val| ≤ X) (hp : ∀ i, (p i).isFinite ∧ |(p i).val| ≤ X) (hd : d.isFinite)
    (hd0 : 0 ≤ d.val) (hdX : d.val ≤ X) (hV : 4 * (P.eta : ℝ) ≤ P.u * length (rvec g.end_ - rvec g.start) ^ 2) :
    ∃ x x2 T D d2 R n : ℝ, (g.containsG s p d = true ↔ ¬ x < -(d.val : ℝ) ∧ ¬ T < x2 ∧ D ≤ d2) ∧
      0 < R ∧ R = √(length (rvec g.end_ - rvec g.start) ^ 2 + (d.val : ℝ) ^ 2) ∧ R ≤ 362 / 100 * X ∧ 4 * (P.eta : ℝ) ≤ P.u * R ^ 2 ∧
      |x - segAlong (rvec g.start) (rvec g.end_) (rvec p)| ≤ 48 * P.u * X ∧ |x2 - x ^ 2| ≤ P.u * x ^ 2 + P.eta ∧
      |T - R ^ 2| ≤ 8 * P.u * R ^ 2 ∧ 0 ≤ n ∧ |n - segAcross (rvec g.start) (rvec g.end_) (rvec p)| ≤ 1681 / 10 * P.u * X ∧
      |D - n ^ 2| ≤ 3.01 * P.u * n ^ 2 + 5.02 * P.eta ∧ |d2 - (d.val : ℝ) ^ 2| ≤ P.u * (d.val : ℝ) ^ 2 + P.eta := by
  obtain ⟨hL, hLX, fx, ex, hFX, fS, eS, fD, n, hn0, hn, eD⟩ := parts hu hs g p X hX hbd ha hb hp hV
  have hup := P.u_pos
  have hur : (0 : ℝ) < P.u := by exact_mod_cast hup
  have hu' : 1000 * (P.u : ℝ) ≤ 1 := by exact_mod_cast hu
  have hη0 : (0 : ℝ) ≤ P.eta := by exact_mod_cast P.eta_pos.le
  have hXr : (1 : ℝ) ≤ X := by exact_mod_cast hX
  have hd0r : (0 : ℝ) ≤ d.val := by exact_mod_cast hd0
  have hdXr : (d.val : ℝ) ≤ X := by exact_mod_cast hdX
  set L := length (rvec g.end_ - rvec g.start) with hLd
  set x := distanceToProjectedPoint g.start (g.directionG s) p with hx
  set D := squaredDistance (pointAtDistance g.start (g.directionG s) x) p with hD
  have uX : (P.u : ℝ) * X ≤ 1 / 1000 * X := mul_le_mul_of_nonneg_right (by linarith) (by linarith)
  have hxX : |(x.val : ℝ)| ≤ 4 * X := by
    have := abs_sub_abs_le_abs_sub (x.val : ℝ) (segAlong (rvec g.start) (rvec g.end_) (rvec p))
    linarith
  have hxX2 : |x.val * x.val| ≤ 16 * X ^ 2 := by
    have h1 := pow_le_pow_left₀ (abs_nonneg _) hxX 2
    rw [sq_abs] at h1
    rw [abs_mul_self]
    have : (x.val : ℝ) * x.val ≤ 16 * (X : ℝ) ^ 2 := by nlinarith
    exact_mod_cast this
  have hdd : |d.val * d.val| ≤ X ^ 2 := by rw [abs_mul_self]; nlinarith
  have X2 : 1 ≤ X ^ 2 := one_le_pow₀ hX
  have fx2 := (is_mul (c := P.fl (x.val * x.val)) ⟨fx, rfl⟩ ⟨fx, rfl⟩ rfl (fl_lt_bound (by linarith))).1
  have fd2 := (is_mul (c := P.fl (d.val * d.val)) ⟨hd, rfl⟩ ⟨hd, rfl⟩ rfl (fl_lt_bound (by linarith))).1
  have ex2 := sq_err1 fx2
  have ed2 := sq_err1 fd2
  have hη1 : 4 * (P.eta : ℝ) ≤ L ^ 2 * (1 / 1000) := hV.trans (by nlinarith [sq_nonneg L])
  have uL : (P.u : ℝ) * L ^ 2 ≤ 1 / 1000 * L ^ 2 := mul_le_mul_of_nonneg_right (by linarith) (sq_nonneg _)
  have ud : (P.u : ℝ) * (d.val : ℝ) ^ 2 ≤ 1 / 1000 * (d.val : ℝ) ^ 2 := mul_le_mul_of_nonneg_right (by linarith) (sq_nonneg _)
  have hL2 : L ^ 2 ≤ 121 / 10 * X ^ 2 := by
    have := pow_le_pow_left₀ hL.le hLX 2
    nlinarith
  have hd2 : (d.val : ℝ) ^ 2 ≤ X ^ 2 := pow_le_pow_left₀ hd0r hdXr 2
  have hTq : |g.squaredLength.val + (d * d).val| ≤ 14 * X ^ 2 := by
    have h1 := abs_le.1 eS
    have h2 := abs_le.1 ed2
    have : |(g.squaredLength.val : ℝ) + (d * d).val| ≤ 14 * (X : ℝ) ^ 2 := abs_le.2 ⟨by nlinarith, by nlinarith⟩
    exact_mod_cast this
  have iT := is_add (c := P.fl (g.squaredLength.val + (d * d).val)) ⟨fS, rfl⟩ ⟨fd2, rfl⟩ rfl (fl_lt_bound (by linarith))
  have eT := fl_abs iT.2.symm
  push_cast at eT
  have hr := reach (d := (d.val : ℝ)) hur hu' hη0 hV eS ed2 eT
  have R2 : √(L ^ 2 + (d.val : ℝ) ^ 2) ^ 2 = L ^ 2 + (d.val : ℝ) ^ 2 := Real.sq_sqrt (by positivity)
  refine ⟨x.val, (x * x).val, (g.squaredLength + d * d).val, D.val, (d * d).val, √(L ^ 2 + (d.val : ℝ) ^ 2), n, ?_, ?_, rfl, ?_, ?_, ex, ex2, ?_, hn0, hn, eD, ed2⟩
  · have nd : (-d).isFinite ∧ (-d).val = -d.val := ⟨Flt.neg_finite.2 hd, Flt.neg_val d⟩
    have c1 : Cmp.lt x (-d) = decide (x.val < -d.val) := by rw [Flt.lt_val fx nd.1, nd.2]
    have c2 : Cmp.lt (g.squaredLength + d * d) (x * x) = decide ((g.squaredLength + d * d).val < (x * x).val) := Flt.lt_val iT.1 fx2
    have c3 : Cmp.le D (d * d) = decide (D.val ≤ (d * d).val) := Flt.lt_asymm_le fD fd2
    have e : g.containsG s p d = if Cmp.lt x (-d) || Cmp.lt (g.squaredLength + d * d) (x * x) then false else Cmp.le D (d * d) := rfl
    rw [e, c1, c2, c3]
    have b1 : ((x.val : ℝ) < -(d.val : ℝ)) ↔ x.val < -d.val := by exact_mod_cast Iff.rfl
    rw [b1]
    norm_cast
    by_cases h1 : x.val < -d.val
    · simp [h1]
    · by_cases h2 : (g.squaredLength + d * d).val < (x * x).val
      · simp [h2]
      · simp [h1, h2]
  · exact Real.sqrt_pos.2 (by positivity)
  · refine abs_le_of_sq_le_sq' ?_ (by linarith) |>.2
    rw [R2]
    nlinarith
  · rw [R2]
    refine hV.trans (mul_le_mul_of_nonneg_left ?_ hur.le)
    linarith [sq_nonneg (d.val : ℝ)]
  · rw [R2]; exact hr

end FltSC

section
variable (hu : 1000 * P.u ≤ 1) {s : Flt P.fmt → Flt P.fmt} (hs : FaithfulSqrt P s) (g : Segment (Flt P.fmt) 3) (p : Vec (Flt P.fmt) 3)
    (d : Flt P.fmt) (X : ℚ) (hX : 1 ≤ X) (hbd : 1024 * X ^ 2 < P.bound) (ha : ∀ i, (g.start i).isFinite ∧ |(g.start i).val| ≤ X)
    (hb : ∀ i, (g.end_ i).isFinite ∧ |(g.end_ i).val| ≤ X) (hp : ∀ i, (p i).isFinite ∧ |(p i).val| ≤ X) (hd : d.isFinite)
    (hd0 : 0 ≤ d.val) (hdX : d.val ≤ X) (hV : 4 * (P.eta : ℝ) ≤ P.u * length (rvec g.end_ - rvec g.start) ^ 2)
include hu hs hX hbd ha hb hp hd hd0 hdX hV

/-- A point that is well within the tolerance is contained in the segment. -/
theorem C152_true (h1 : -(d.val : ℝ) + 90 * P.u * X ≤ segAlong (rvec g.start) (rvec g.end_) (rvec p))
    (h2 : segAlong (rvec g.start) (rvec g.end_) (rvec p) ≤ √(length (rvec g.end_ - rvec g.start) ^ 2 + (d.val : ℝ) ^ 2) - 90 * P.u * X)
    (h3 : segAcross (rvec g.start) (rvec g.end_) (rvec p) ≤ d.val - 180 * P.u * X) : g.containsG s p d = true := by
  obtain ⟨x, x2, T, D, d2, R, n, hc, R0, hR, RX, hη, ex, ex2, eT, n0, en, eD, ed⟩ := FltSC.tests hu hs g p d X hX hbd ha hb hp hd hd0 hdX hV
  rw [← hR] at h2
  have hur : (0 : ℝ) < P.u := by exact_mod_cast P.u_pos
  have hu' : 1000 * (P.u : ℝ) ≤ 1 := by exact_mod_cast hu
  have hXr : (1 : ℝ) ≤ X := by exact_mod_cast hX
  have hdXr : (d.val : ℝ) ≤ X := by exact_mod_cast hdX
  have hd0r : (0 : ℝ) ≤ d.val := by exact_mod_cast hd0
  have uX : 0 < (P.u : ℝ) * X := by positivity
  have hdR : (d.val : ℝ) ≤ R := by
    rw [hR]; exact Real.le_sqrt_of_sq_le (by linarith [sq_nonneg (length (rvec g.end_ - rvec g.start))])
  have hη2 : 2 * (P.eta : ℝ) ≤ (P.u : ℝ) ^ 2 := by
    linarith [Ap.eta_le P]
  refine hc.2 ⟨not_lt.2 (by linarith [(abs_le.1 ex).1]), not_lt.2 ?_, ?_⟩
  · exact FltSC.along_true hur hu' hη hXr R0.le RX (by linarith) h2 ex ex2 eT
  · exact FltSC.across_true hur hu' hη2 hXr hdXr (length_nonneg _) h3 n0 en eD ed

/-- A point that is clearly outside of the tolerance is not contained in the segment. -/
theorem C152_false (h : segAlong (rvec g.start) (rvec g.end_) (rvec p) < -(d.val : ℝ) - 90 * P.u * X ∨
    √(length (rvec g.end_ - rvec g.start) ^ 2 + (d.val : ℝ) ^ 2) + 90 * P.u * X < segAlong (rvec g.start) (rvec g.end_) (rvec p) ∨
    d.val + 180 * P.u * X < segAcross (rvec g.start) (rvec g.end_) (rvec p)) : g.containsG s p d = false := by
  obtain ⟨x, x2, T, D, d2, R, n, hc, R0, hR, RX, hη, ex, ex2, eT, n0, en, eD, ed⟩ := FltSC.tests hu hs g p d X hX hbd ha hb hp hd hd0 hdX hV
  rw [← hR] at h
  have hur : (0 : ℝ) < P.u := by exact_mod_cast P.u_pos
  have hu' : 1000 * (P.u : ℝ) ≤ 1 := by exact_mod_cast hu
  have hXr : (1 : ℝ) ≤ X := by exact_mod_cast hX
  have hdXr : (d.val : ℝ) ≤ X := by exact_mod_cast hdX
  have hd0r : (0 : ℝ) ≤ d.val := by exact_mod_cast hd0
  have uX : 0 < (P.u : ℝ) * X := by positivity
  have hη2 : 2 * (P.eta : ℝ) ≤ (P.u : ℝ) ^ 2 := by
    linarith [Ap.eta_le P]
  rw [← Bool.not_eq_true, hc]
  rintro ⟨h1, h2, h3⟩
  rcases h with h | h | h
  · exact h1 (by linarith [(abs_le.1 ex).2])
  · exact h2 (FltSC.along_false hur hu' hη hXr R0 RX h ex ex2 eT)
  · exact absurd h3 (not_le.2 (FltSC.across_false hur hu' hη2 hXr hd0r hdXr h en eD ed))

end

set_option maxHeartbeats 1000000 in
/-- The start of a segment is contained in the segment, for every tolerance. -/
theorem C152_start (hu : 1000 * P.u ≤ 1) {s : Flt P.fmt → Flt P.fmt} (hs : FaithfulSqrt P s) (g : Segment (Flt P.fmt) 3)
    (d : Flt P.fmt) (X : ℚ) (hX : 1 ≤ X) (hbd : 1024 * X ^ 2 < P.bound) (ha : ∀ i, (g.start i).isFinite ∧ |(g.start i).val| ≤ X)
    (hb : ∀ i, (g.end_ i).isFinite ∧ |(g.end_ i).val| ≤ X) (hd : d.isFinite)
    (hd0 : 0 ≤ d.val) (hdX : d.val ≤ X) (hV : 4 * (P.eta : ℝ) ≤ P.u * length (rvec g.end_ - rvec g.start) ^ 2) :
    g.containsG s g.start d = true := by
  obtain ⟨hL, hLX, fx, -, -, fS, eS, -, -⟩ := FltSC.parts hu hs g g.start X hX hbd ha hb ha hV
  have hu' : 1000 * (P.u : ℝ) ≤ 1 := by exact_mod_cast hu
  have sub0 : ∀ {a : Flt P.fmt}, a.isFinite → a - a = 0 := fun {a} h => by
    have := is_sub (P := P) (c := 0) ⟨h, rfl⟩ ⟨h, rfl⟩ (by rw [sub_self]; exact P.fl_zero) (by rw [abs_zero]; exact P.bound_pos)
    exact Flt.ext this.1 Flt.zero_finite (this.2.trans Flt.zero_val.symm)
  have hw : g.start - g.start = 0 := funext fun i => sub0 (ha i).1
  have fin : ∀ i, (g.directionG s i).isFinite := fun i => by
    have e : distanceToProjectedPoint g.start (g.directionG s) g.start = (g.start - g.start) 0 * g.directionG s 0 + (g.start - g.start) 1 * g.directionG s 1 +
      (g.start - g.start) 2 * g.directionG s 2 := FltQt.dot3 _ _
    rw [e] at fx
    obtain ⟨f1, f2⟩ := Flt.add_finite fx
    obtain ⟨f3, f4⟩ := Flt.add_finite f1
    fin_cases i
    · exact (Flt.mul_finite f3).2
    · exact (Flt.mul_finite f4).2
    · exact (Flt.mul_finite f2).2
  have zm : ∀ {a : Flt P.fmt}, a.isFinite → 0 * a = 0 := fun {a} h => by
    have := is_mul (P := P) (c := 0) ⟨Flt.zero_finite, Flt.zero_val⟩ ⟨h, rfl⟩ (by rw [zero_mul]; exact P.fl_zero) (by rw [abs_zero]; exact P.bound_pos)
    exact Flt.ext this.1 Flt.zero_finite (this.2.trans Flt.zero_val.symm)
  have ef : distanceToProjectedPoint g.start (g.directionG s) g.start = 0 := by
    unfold distanceToProjectedPoint
    rw [FltQt.dot3, hw]
    show (0 : Flt P.fmt) * _ + 0 * _ + 0 * _ = 0
    rw [zm (fin 0), zm (fin 1), zm (fin 2), Flt.add_zero', Flt.add_zero']
  have ep : pointAtDistance g.start (g.directionG s) 0 = g.start := funext fun i => by
    show g.start i + g.directionG s i * 0 = g.start i
    rw [Flt.mul_zero_fin (fin i), Flt.add_zero']
  have ed : squaredDistance g.start g.start = (0 : Flt P.fmt) := by
    show squaredLength (g.start - g.start) = 0
    rw [hw]
    show dot _ _ = _
    rw [FltQt.dot3]
    show (0 : Flt P.fmt) * 0 + 0 * 0 + 0 * 0 = 0
    rw [zm Flt.zero_finite, Flt.add_zero', Flt.add_zero']
  have X2 : 1 ≤ X ^ 2 := one_le_pow₀ hX
  have hdd : |d.val * d.val| ≤ X ^ 2 := by rw [abs_mul_self]; nlinarith
  have fd2 := is_mul (c := P.fl (d.val * d.val)) ⟨hd, rfl⟩ ⟨hd, rfl⟩ rfl (fl_lt_bound (by linarith))
  have d20 : 0 ≤ (d * d).val := by rw [fd2.2]; exact P.fl_nonneg (mul_self_nonneg _)
  have S0 : 0 ≤ g.squaredLength.val := by
    have h1 := (abs_le.1 eS).1
    have : (P.u : ℝ) * length (rvec g.end_ - rvec g.start) ^ 2 ≤ 1 / 1000 * length (rvec g.end_ - rvec g.start) ^ 2 :=
      mul_le_mul_of_nonneg_right (by linarith) (sq_nonneg _)
    have : (0 : ℝ) ≤ g.squaredLength.val := by nlinarith [sq_nonneg (length (rvec g.end_ - rvec g.start))]
    exact_mod_cast this
  unfold Segment.containsG
  simp only [ef, ep, ed]
  rw [zm Flt.zero_finite]
  have c1 : Cmp.lt (0 : Flt P.fmt) (-d) = false := by
    rw [Flt.lt_val Flt.zero_finite (Flt.neg_finite.2 hd), Flt.neg_val, Flt.zero_val]
    exact decide_eq_false (by linarith)
  have c2 : Cmp.lt (g.squaredLength + d * d) 0 = false := by
    have hf : (g.squaredLength + d * d).isFinite := by
      refine (is_add (c := P.fl (g.squaredLength.val + (d * d).val)) ⟨fS, rfl⟩ ⟨fd2.1, rfl⟩ rfl (fl_lt_bound ?_)).1
      have hSX : |g.squaredLength.val + (d * d).val| ≤ 16 * X ^ 2 := by
        rw [abs_of_nonneg (by linarith)]
        have h1 := (abs_le.1 eS).2
        have h2 := (abs_le.1 (FltSC.sq_err1 fd2.1)).2
        have h3 := pow_le_pow_left₀ hL.le hLX 2
        have hd0r : (0 : ℝ) ≤ d.val := by exact_mod_cast hd0
        have h4 := pow_le_pow_left₀ hd0r (show (d.val : ℝ) ≤ X by exact_mod_cast hdX) 2
        have h5 := Ap.eta_le P
        have h6 : (P.u : ℝ) * length (rvec g.end_ - rvec g.start) ^ 2 ≤ 1 / 1000 * length (rvec g.end_ - rvec g.start) ^ 2 :=
          mul_le_mul_of_nonneg_right (by linarith) (sq_nonneg _)
        have h7 : (P.u : ℝ) * (d.val : ℝ) ^ 2 ≤ 1 / 1000 * (d.val : ℝ) ^ 2 := mul_le_mul_of_nonneg_right (by linarith) (sq_nonneg _)
        have h8 : (P.u : ℝ) * P.u ≤ 1 / 1000 * (1 / 1000) := mul_le_mul (by linarith) (by linarith) (Ap.u_pos P).le (by norm_num)
        have h9 : (1 : ℝ) ≤ X ^ 2 := by exact_mod_cast X2
        have : (g.squaredLength.val : ℝ) + (d * d).val ≤ 16 * (X : ℝ) ^ 2 := by nlinarith
        exact_mod_cast this
      linarith
    rw [Flt.lt_val hf Flt.zero_finite, Flt.zero_val, Flt.add_val hf]
    exact decide_eq_false (not_lt.2 (P.fl_nonneg (by linarith)))
  have c3 : Cmp.le (0 : Flt P.fmt) (d * d) = true := by
    rw [Flt.lt_asymm_le Flt.zero_finite fd2.1, Flt.zero_val]
    exact decide_eq_true d20
  rw [c1, c2, c3]
  rfl

/-- A segment whose end points coincide contains no point, not even its own start. -/
theorem C152_degenerate {s : Flt P.fmt → Flt P.fmt} (hs : FaithfulSqrt P s) (g : Segment (Flt P.fmt) 3) (p : Vec (Flt P.fmt) 3) (d : Flt P.fmt)
    (ha : ∀ i, (g.start i).isFinite) (h : g.end_ = g.start) : g.containsG s p d = false := by
  have hv : g.end_ - g.start = fun _ => (0 : Flt P.fmt) := by
    funext i
    show g.end_ i - g.start i = 0
    rw [h, Flt.sub_eq (ha i) (ha i), sub_self]
    have := Gr.round (P := P) (g := 0) P.ok_zero (q := 0) (z := 0) (B := 0) (by simp) (by simp) (by positivity)
    exact FltTri.fin_val_inj this.fin Flt.zero_finite (by rw [this.val, Flt.zero_val]; simp)
  have z00 : (0 : Flt P.fmt) * 0 = 0 := Flt.mul_zero_fin Flt.zero_finite
  have hsq : squaredLength (fun _ => (0 : Flt P.fmt) : Vec (Flt P.fmt) 3) = 0 := by
    show ((0 : Flt P.fmt) + 0 * 0 + 0 * 0 + 0 * 0) = 0
    rw [z00, Flt.add_zero', Flt.add_zero', Flt.add_zero']
  have hr0 : P.fmt.rep 0 := by have := Flt.rep_val (0 : Flt P.fmt); rwa [Flt.zero_val] at this
  have hlen : lengthG s (fun _ => (0 : Flt P.fmt) : Vec (Flt P.fmt) 3) = 0 := by
    unfold lengthG
    rw [hsq, FltQuad.sqrt_exact hs Flt.zero_finite hr0 le_rfl (by rw [Flt.zero_val]; simp)]
    rfl
  have hn : g.directionG s = fun _ => Flt.nan := by
    funext i
    unfold Segment.directionG
    rw [hv]
    show (0 : Flt P.fmt) / lengthG s (fun _ => (0 : Flt P.fmt) : Vec (Flt P.fmt) 3) = _
    rw [hlen]
    show (Flt.fin 0 _ : Flt P.fmt) / Flt.fin 0 _ = _
    simp [HDiv.hDiv, Div.div, Flt.infTimes]
  have hf : distanceToProjectedPoint g.start (g.directionG s) p = Flt.nan := by
    unfold distanceToProjectedPoint
    rw [hn, C122_dot _ _ 0 (Or.inr rfl)]
  have hd : squaredDistance (pointAtDistance g.start (g.directionG s) Flt.nan) p = Flt.nan := by
    show squaredLength (pointAtDistance g.start (g.directionG s) Flt.nan - p) = Flt.nan
    refine C122_dot _ _ 0 (Or.inl ?_)
    show (g.start 0 + g.directionG s 0 * Flt.nan) - p 0 = Flt.nan
    rw [hn]
    show (g.start 0 + Flt.nan * Flt.nan) - p 0 = Flt.nan
    cases p 0 <;> cases g.start 0 <;> rfl
  unfold Segment.containsG
  simp only [hf, hd]
  have c2 : Cmp.lt (g.squaredLength + d * d) (Flt.nan * Flt.nan : Flt P.fmt) = false := by
    show Cmp.lt (g.squaredLength + d * d) (Flt.nan : Flt P.fmt) = false
    cases (g.squaredLength + d * d) <;> rfl
  have c1 : Cmp.lt (Flt.nan : Flt P.fmt) (-d) = false := by cases (-d) <;> rfl
  have c3 : Cmp.le (Flt.nan : Flt P.fmt) (d * d) = false := by cases (d * d) <;> rfl
  rw [c1, c2, c3]
  rfl

/-- The generic function, used with real numbers, is the function of the exact model, provided that the segment is not degenerate. -/
theorem C152_model {S : ℕ} (g : Segment ℝ S) (p : Vec ℝ S) (d : ℝ) (h : length (g.end_ - g.start) ≠ 0) :
    g.containsG Real.sqrt p d = g.contains p d := by
  unfold Segment.containsG Segment.contains Segment.direction normalize
  simp only [if_neg h, Cmp.lt, Cmp.le, Bool.or_eq_true, decide_eq_true_eq]
  rfl

open FltLD

set_option maxHeartbeats 1000000 in
/-- With a tolerance of zero a segment need not contain its own end: this is so for the `float` segment from the origin to the point (1, 1, 0). -/
theorem C152_end_fails {s : Flt binary32.fmt → Flt binary32.fmt} (hs : CorrectSqrt binary32 s) {g : Segment (Flt binary32.fmt) 3} (h1 : ∀ i, (g.start i).isFinite ∧ (g.start i).val = 0)
    (h2 : (g.end_ 0).isFinite ∧ (g.end_ 0).val = 1) (h3 : (g.end_ 1).isFinite ∧ (g.end_ 1).val = 1) (h4 : (g.end_ 2).isFinite ∧ (g.end_ 2).val = 0) :
    g.containsG s g.end_ 0 = false ∧ g.containsG s g.start 0 = true := by
  have eq : ∀ {x y : Flt binary32.fmt} {c : ℚ}, x.isFinite ∧ x.val = c → y.isFinite ∧ y.val = c → x = y := fun hx hy => Flt.ext hx.1 hy.1 (hx.2.trans hy.2.symm)
  have one : binary32.fl (1 * 1) = 1 := by fl_num (-23) (8388608)
  have zero : binary32.fl (0 * 0) = 0 := by rw [mul_zero]; exact binary32.fl_zero
  have sm : ∀ {c : ℚ}, |c| ≤ 2 ^ 100 → |c| < binary32.bound := fun h => lt_bound32 h
  have w0 := is_sub (c := 1) h2 (h1 0) (by fl_num (-23) (8388608)) (sm (by norm_num))
  have w1 := is_sub (c := 1) h3 (h1 1) (by fl_num (-23) (8388608)) (sm (by norm_num))
  have w2 := is_sub (c := 0) h4 (h1 2) (by rw [sub_self]; exact binary32.fl_zero) (sm (by norm_num))
  have q0 := is_mul w0 w0 one (sm (by norm_num))
  have q1 := is_mul w1 w1 one (sm (by norm_num))
  have q2 := is_mul w2 w2 zero (sm (by norm_num))
  have q3 := is_add (c := 2) q0 q1 (by fl_num (-22) (8388608)) (sm (by norm_num))
  have q4 := is_add (c := 2) q3 q2 (by fl_num (-22) (8388608)) (sm (by norm_num))
  have eS : g.squaredLength = (g.end_ 0 - g.start 0) * (g.end_ 0 - g.start 0) + (g.end_ 1 - g.start 1) * (g.end_ 1 - g.start 1) +
    (g.end_ 2 - g.start 2) * (g.end_ 2 - g.start 2) := FltQt.dot3 _ _
  have hS : g.squaredLength.isFinite ∧ g.squaredLength.val = 2 := by rw [eS]; exact q4
  have hl := FltMv.sqrt_near hs hS (c := 11863283 / 8388608) (j := -23) (11863283) (by norm_num) (by norm_num [abs_lt]) (by norm_num) (by norm_num) (by norm_num [abs_le]) (by norm_num) (by norm_num)
  have el : lengthG s (g.end_ - g.start) = s g.squaredLength := rfl
  have d0 := is_div (c := 11863283 / 16777216) w0 hl (by norm_num) (by fl_num (-24) (11863283)) (sm (by norm_num [abs_le]))
  have d1 := is_div (c := 11863283 / 16777216) w1 hl (by norm_num) (by fl_num (-24) (11863283)) (sm (by norm_num [abs_le]))
  have d2 := is_div (c := 0) w2 hl (by norm_num) (by rw [zero_div]; exact binary32.fl_zero) (sm (by norm_num))
  have m0 := is_mul (c := 11863283 / 16777216) w0 d0 (by fl_num (-24) (11863283)) (sm (by norm_num [abs_le]))
  have m1 := is_mul (c := 11863283 / 16777216) w1 d1 (by fl_num (-24) (11863283)) (sm (by norm_num [abs_le]))
  have m2 := is_mul (c := 0) w2 d2 zero (sm (by norm_num))
  have a0 := is_add (c := 11863283 / 8388608) m0 m1 (by fl_num (-23) (11863283)) (sm (by norm_num [abs_le]))
  have a1 := is_add (c := 11863283 / 8388608) a0 m2 (by fl_num (-23) (11863283)) (sm (by norm_num [abs_le]))
  have ef : distanceToProjectedPoint g.start (g.directionG s) g.end_ = (g.end_ 0 - g.start 0) * ((g.end_ 0 - g.start 0) / s g.squaredLength) +
    (g.end_ 1 - g.start 1) * ((g.end_ 1 - g.start 1) / s g.squaredLength) + (g.end_ 2 - g.start 2) * ((g.end_ 2 - g.start 2) / s g.squaredLength) := FltQt.dot3 _ _
  have hf : (distanceToProjectedPoint g.start (g.directionG s) g.end_).isFinite ∧ (distanceToProjectedPoint g.start (g.directionG s) g.end_).val = 11863283 / 8388608 := by
    rw [ef]; exact a1
  set f := distanceToProjectedPoint g.start (g.directionG s) g.end_ with hfd
  have p0 := is_mul (c := 16777215 / 16777216) d0 hf (by fl_num (-24) (16777215)) (sm (by norm_num [abs_le]))
  have p1 := is_mul (c := 16777215 / 16777216) d1 hf (by fl_num (-24) (16777215)) (sm (by norm_num [abs_le]))
  have p2 := is_mul (c := 0) d2 hf (by rw [zero_mul]; exact binary32.fl_zero) (sm (by norm_num [abs_le]))
  have r0 := is_add (c := 16777215 / 16777216) (h1 0) p0 (by fl_num (-24) (16777215)) (sm (by norm_num [abs_le]))
  have r1 := is_add (c := 16777215 / 16777216) (h1 1) p1 (by fl_num (-24) (16777215)) (sm (by norm_num [abs_le]))
  have r2 := is_add (c := 0) (h1 2) p2 (by rw [zero_add]; exact binary32.fl_zero) (sm (by norm_num [abs_le]))
  have t0 := is_sub (c := -1 / 16777216) r0 h2 (by fl_num (-47) (-8388608)) (sm (by norm_num [abs_le]))
  have t1 := is_sub (c := -1 / 16777216) r1 h3 (by fl_num (-47) (-8388608)) (sm (by norm_num [abs_le]))
  have t2 := is_sub (c := 0) r2 h4 (by rw [sub_self]; exact binary32.fl_zero) (sm (by norm_num [abs_le]))
  have u0 := is_mul (c := 1 / 2 ^ 48) t0 t0 (by fl_num (-71) (8388608)) (sm (by norm_num [abs_le]))
  have u1 := is_mul (c := 1 / 2 ^ 48) t1 t1 (by fl_num (-71) (8388608)) (sm (by norm_num [abs_le]))
  have u2 := is_mul (c := 0) t2 t2 zero (sm (by norm_num))
  have v0 := is_add (c := 1 / 2 ^ 47) u0 u1 (by fl_num (-70) (8388608)) (sm (by norm_num [abs_le]))
  have v1 := is_add (c := 1 / 2 ^ 47) v0 u2 (by fl_num (-70) (8388608)) (sm (by norm_num [abs_le]))
  have eD : squaredDistance (pointAtDistance g.start (g.directionG s) f) g.end_ = (g.start 0 + (g.end_ 0 - g.start 0) / s g.squaredLength * f - g.end_ 0) *
      (g.start 0 + (g.end_ 0 - g.start 0) / s g.squaredLength * f - g.end_ 0) + (g.start 1 + (g.end_ 1 - g.start 1) / s g.squaredLength * f - g.end_ 1) *
      (g.start 1 + (g.end_ 1 - g.start 1) / s g.squaredLength * f - g.end_ 1) + (g.start 2 + (g.end_ 2 - g.start 2) / s g.squaredLength * f - g.end_ 2) *
      (g.start 2 + (g.end_ 2 - g.start 2) / s g.squaredLength * f - g.end_ 2) := FltQt.dot3 _ _
  have z : (0 : Flt binary32.fmt) * 0 = 0 := Flt.mul_zero_fin Flt.zero_finite
  constructor
  · unfold Segment.containsG
    simp only [← hfd]
    rw [z]
    have c3 : Cmp.le (squaredDistance (pointAtDistance g.start (g.directionG s) f) g.end_) 0 = false := by
      rw [eD, Flt.lt_asymm_le v1.1 Flt.zero_finite, v1.2, Flt.zero_val]
      exact decide_eq_false (by norm_num)
    rw [c3, ite_self]
  · have hb : ∀ i, (g.end_ i).isFinite ∧ |(g.end_ i).val| ≤ 1 := fun i => by
      fin_cases i
      · exact ⟨h2.1, by show |(g.end_ 0).val| ≤ 1; rw [h2.2]; norm_num⟩
      · exact ⟨h3.1, by show |(g.end_ 1).val| ≤ 1; rw [h3.2]; norm_num⟩
      · exact ⟨h4.1, by show |(g.end_ 2).val| ≤ 1; rw [h4.2]; norm_num⟩
    refine C152_start (by norm_num [BinPar.u, binary32]) hs.faithful g 0 1 le_rfl (sm (c := 1024 * 1 ^ 2) (by norm_num) |>.trans_le' (le_abs_self _))
      (fun i => ⟨(h1 i).1, by rw [(h1 i).2]; norm_num⟩) hb Flt.zero_finite (by rw [Flt.zero_val]) (by rw [Flt.zero_val]; norm_num) ?_
    have e : length (rvec g.end_ - rvec g.start) ^ 2 = 2 := by
      rw [length_sq, vm.dot3]
      show (((g.end_ 0).val : ℝ) - (g.start 0).val) * ((g.end_ 0).val - (g.start 0).val) + ((g.end_ 1).val - (g.start 1).val) * ((g.end_ 1).val - (g.start 1).val) +
        ((g.end_ 2).val - (g.start 2).val) * ((g.end_ 2).val - (g.start 2).val) = 2
      rw [h2.2, h3.2, h4.2, (h1 0).2, (h1 1).2, (h1 2).2]; norm_num
    rw [e]
    have h5 := Ap.eta_le binary32
    have h6 : (binary32.u : ℝ) = 1 / 2 ^ 24 := u32
    rw [h6] at h5 ⊢
    linarith

/-- The quantities of the theorems for the segment from the origin to (2, 0, 0). -/
theorem FltSC.axis_case (p : Vec ℝ 3) : length ((![2, 0, 0] : Vec ℝ 3) - 0) = 2 ∧ segAlong 0 ![2, 0, 0] p = p 0 ∧
    segAcross 0 ![2, 0, 0] p = √(p 1 ^ 2 + p 2 ^ 2) := by
  have e : length ((![2, 0, 0] : Vec ℝ 3) - 0) = 2 := by
    unfold length squaredLength
    rw [vm.dot3]
    show √(((2 : ℝ) - 0) * (2 - 0) + (0 - 0) * (0 - 0) + (0 - 0) * (0 - 0)) = 2
    rw [show ((2 : ℝ) - 0) * (2 - 0) + (0 - 0) * (0 - 0) + (0 - 0) * (0 - 0) = 2 ^ 2 by norm_num]
    exact Real.sqrt_sq (by norm_num)
  have e2 : segAlong 0 ![2, 0, 0] p = p 0 := by
    unfold segAlong
    rw [e, vm.dot3]
    show ((p 0 - 0) * (2 - 0) + (p 1 - 0) * (0 - 0) + (p 2 - 0) * (0 - 0)) / 2 = p 0
    ring
  refine ⟨e, e2, ?_⟩
  unfold segAcross
  rw [e, e2]
  unfold length squaredLength
  rw [vm.dot3]
  show √((p 0 - (0 + p 0 / 2 * (2 - 0))) * (p 0 - (0 + p 0 / 2 * (2 - 0))) + (p 1 - (0 + p 0 / 2 * (0 - 0))) * (p 1 - (0 + p 0 / 2 * (0 - 0))) +
    (p 2 - (0 + p 0 / 2 * (0 - 0))) * (p 2 - (0 + p 0 / 2 * (0 - 0)))) = _
  congr 1
  ring

/-- The hypotheses of `C152_true`, `C152_start` and `C152_false` hold for the segment from the origin to (2, 0, 0), the points (1, 0, 0) and (1, 2, 0)
and the tolerance 1. -/
example {s : Flt binary32.fmt → Flt binary32.fmt} (hs : FaithfulSqrt binary32 s) :
    (⟨0, ![2, 0, 0]⟩ : Segment (Flt binary32.fmt) 3).containsG s ![1, 0, 0] 1 = true ∧
    (⟨0, ![2, 0, 0]⟩ : Segment (Flt binary32.fmt) 3).containsG s 0 1 = true ∧
    (⟨0, ![2, 0, 0]⟩ : Segment (Flt binary32.fmt) 3).containsG s ![1, 2, 0] 1 = false := by
  have hu : 1000 * binary32.u ≤ 1 := by norm_num [BinPar.u, binary32]
  have hbd : 1024 * (2 : ℚ) ^ 2 < binary32.bound := by norm_num [BinPar.bound, binary32]
  have cast : ∀ {v : Vec (Flt binary32.fmt) 3}, ((∀ i, (v i).isFinite) ∧ ∀ i, |rvec v i| ≤ 2) → ∀ i, (v i).isFinite ∧ |(v i).val| ≤ 2 := fun h i =>
    ⟨h.1 i, by have : |(((_ : Flt binary32.fmt).val : ℚ) : ℝ)| ≤ 2 := h.2 i; exact_mod_cast this⟩
  have a0 := cast (vec_is (B := 2) is_zero32 is_zero32 is_zero32 (by norm_num) (by norm_num) (by norm_num) 0 rfl rfl rfl)
  have a1 := cast (vec_is (B := 2) is_two32 is_zero32 is_zero32 (by norm_num) (by norm_num) (by norm_num) ![2, 0, 0] rfl rfl rfl)
  have a2 := cast (vec_is (B := 2) is_one32 is_zero32 is_zero32 (by norm_num) (by norm_num) (by norm_num) ![1, 0, 0] rfl rfl rfl)
  have a3 := cast (vec_is (B := 2) is_one32 is_two32 is_zero32 (by norm_num) (by norm_num) (by norm_num) ![1, 2, 0] rfl rfl rfl)
  have z : (((0 : Flt binary32.fmt).val : ℚ) : ℝ) = 0 := by rw [is_zero32.2]; norm_num
  have o : (((1 : Flt binary32.fmt).val : ℚ) : ℝ) = 1 := by rw [is_one32.2]; norm_num
  have w : (((2 : Flt binary32.fmt).val : ℚ) : ℝ) = 2 := by rw [is_two32.2]; norm_num
  have r0 : rvec (0 : Vec (Flt binary32.fmt) 3) = 0 := funext fun i => z
  have r1 : rvec (![2, 0, 0] : Vec (Flt binary32.fmt) 3) = ![2, 0, 0] := funext fun i => by fin_cases i; exacts [w, z, z]
  have r2 : rvec (![1, 0, 0] : Vec (Flt binary32.fmt) 3) = ![1, 0, 0] := funext fun i => by fin_cases i; exacts [o, z, z]
  have r3 : rvec (![1, 2, 0] : Vec (Flt binary32.fmt) 3) = ![1, 2, 0] := funext fun i => by fin_cases i; exacts [o, w, z]
  obtain ⟨l, f1, e1⟩ := FltSC.axis_case ![1, 0, 0]
  obtain ⟨-, f2, e2⟩ := FltSC.axis_case ![1, 2, 0]
  have hV : 4 * (binary32.eta : ℝ) ≤ binary32.u * length (rvec (P := binary32) ![2, 0, 0] - rvec (P := binary32) 0) ^ 2 := by
    rw [r0, r1, l]
    have h5 := Ap.eta_le binary32
    rw [FltLD.u32] at h5 ⊢
    linarith
  have g1 : (0 : ℚ) ≤ (1 : Flt binary32.fmt).val := by rw [is_one32.2]; norm_num
  have g2 : (1 : Flt binary32.fmt).val ≤ (2 : ℚ) := by rw [is_one32.2]; norm_num
  refine ⟨C152_true hu hs _ _ _ 2 (by norm_num) hbd a0 a1 a2 Flt.one_finite g1 g2 hV ?_ ?_ ?_,
    C152_start hu hs _ _ 2 (by norm_num) hbd a0 a1 Flt.one_finite g1 g2 hV, C152_false hu hs _ _ _ 2 (by norm_num) hbd a0 a1 a3 Flt.one_finite g1 g2 hV ?_⟩
  · show _ ≤ segAlong (rvec (P := binary32) 0) (rvec (P := binary32) ![2, 0, 0]) (rvec (P := binary32) ![1, 0, 0])
    rw [r0, r1, r2, f1, o, FltLD.u32]; show _ ≤ (1 : ℝ); norm_num
  · show segAlong (rvec (P := binary32) 0) (rvec (P := binary32) ![2, 0, 0]) (rvec (P := binary32) ![1, 0, 0]) ≤ √(length (rvec (P := binary32) ![2, 0, 0] - rvec (P := binary32) 0) ^ 2 + _) - _
    rw [r0, r1, r2, f1, l, o, FltLD.u32]
    have : (2 : ℝ) ≤ √(2 ^ 2 + 1 ^ 2) := Real.le_sqrt_of_sq_le (by norm_num)
    show (1 : ℝ) ≤ _
    norm_num at this ⊢
    linarith
  · show segAcross (rvec (P := binary32) 0) (rvec (P := binary32) ![2, 0, 0]) (rvec (P := binary32) ![1, 0, 0]) ≤ _
    rw [r0, r1, r2, e1, o, FltLD.u32]
    show √((0 : ℝ) ^ 2 + 0 ^ 2) ≤ _
    norm_num
  · right; right
    show _ < segAcross (rvec (P := binary32) 0) (rvec (P := binary32) ![2, 0, 0]) (rvec (P := binary32) ![1, 2, 0])
    rw [r0, r1, r3, e2, o, FltLD.u32]
    show _ < √((2 : ℝ) ^ 2 + 0 ^ 2)
    refine Real.lt_sqrt_of_sq_lt ?_
    norm_num

/-- The hypotheses of `C152_end_fails` and `C152_degenerate` hold. -/
example {s : Flt binary32.fmt → Flt binary32.fmt} (hs : CorrectSqrt binary32 s) :
    (⟨0, ![1, 1, 0]⟩ : Segment (Flt binary32.fmt) 3).containsG s ![1, 1, 0] 0 = false ∧
    (⟨![1, 1, 0], ![1, 1, 0]⟩ : Segment (Flt binary32.fmt) 3).containsG s ![1, 1, 0] 1 = false :=
  ⟨(C152_end_fails hs (g := ⟨0, ![1, 1, 0]⟩) (fun _ => is_zero32) is_one32 is_one32 is_zero32).1,
    C152_degenerate hs.faithful _ _ _ (fun i => by fin_cases i; exacts [is_one32.1, is_one32.1, is_zero32.1]) rfl⟩

/-- `C152_model` for the segment from the origin to (2, 0, 0). -/
example (p : Vec ℝ 3) (d : ℝ) : (⟨0, ![2, 0, 0]⟩ : Segment ℝ 3).containsG Real.sqrt p d = (⟨0, ![2, 0, 0]⟩ : Segment ℝ 3).contains p d :=
  C152_model _ _ _ (by show length ((![2, 0, 0] : Vec ℝ 3) - 0) ≠ 0; rw [(FltSC.axis_case p).1]; norm_num)

end vm
