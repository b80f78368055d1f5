import Verif.Lemmas.FltPlaneProj
import Verif.Props.FltAffine

/-!
# C145: `plane_projection_matrix` in IEEE arithmetic

The two axes in the plane are almost orthonormal and almost perpendicular to the normal; the matrix exists unless the direction is almost
parallel to the plane; and the third coordinate it computes is the distance of a point from the plane along the direction.
-/

set_option linter.unusedSectionVars false
set_option linter.unusedSimpArgs false

namespace vm
open BinPar FltTo FltAng FltRot FltAff FltPts
variable {P : BinPar}

/-- C145: over the real numbers the generic definition is the one of the exact model, for all vectors that are not divided by a zero length. -/
theorem C145_model (junk : ℕ → ℝ × ℕ) (dist : ℝ) (n d : Vec ℝ 3) (m : Mat ℝ 4 4) (h : planeProjectionMatrix junk dist n d = some m) :
    planeProjectionMatrixG Real.sqrt Quat.almostZero junk dist n d = some m := by
  have key : ∀ {v w : Vec ℝ 3}, normalize v = some w → normalizeG Real.sqrt v = w := by
    intro v w hw
    obtain ⟨-, rfl⟩ := normalize_eq_some hw
    unfold normalizeG lengthG
    rw [vdivs_eq_smul]; rfl
  unfold planeProjectionMatrix at h
  simp only [Option.bind_eq_some_iff] at h
  obtain ⟨x, hx, y, hy, h⟩ := h
  unfold planeProjectionMatrixG planeAxis
  simp only [key hx, key hy]
  exact h

/-- The axes of the system: the first two are finite and within 7.5 and 48 rounding units of perpendicular unit vectors that are exactly
perpendicular to the normal, the third one is the direction, and the origin is the point of the plane on the normal. -/
theorem C145_frame (hP : P = binary32 ∨ P = binary64) {s : Flt P.fmt → Flt P.fmt} (hs : FaithfulSqrt P s) (junk : ℕ → Flt P.fmt × ℕ)
    {n : Vec (Flt P.fmt) 3} {a : Vec ℝ 3} {ε : ℝ} (hn : NearTo n a ε) :
    ∃ (x y : Vec (Flt P.fmt) 3) (xh yh : Vec ℝ 3), NearTo x xh (7.5 * P.u) ∧ NearTo y yh (48 * P.u) ∧
      dot xh yh = 0 ∧ dot xh (rvec n) = 0 ∧ dot yh (rvec n) = 0 ∧
      ∀ dist d, planeProjectionMatrixG s P.almostZero junk dist n d =
        if isUnitG s d P.almostZero then coordinateSystemMatrixG x y d (vscale n dist) else none := by
  obtain ⟨xh, yh, h1, h2, h3, h4, h5, h6, h7⟩ := FltPP.frame hP hs junk hn
  refine ⟨_, _, xh, yh, h4, h5, h1, h2, h3, fun dist d => ?_⟩
  unfold planeProjectionMatrixG
  simp only [h6, h7, Bool.and_self, Bool.true_and]

namespace FltPP

theorem near_dot {x : Vec (Flt P.fmt) 3} {xh z : Vec ℝ 3} {δ L : ℝ} (hx : NearTo x xh δ) (hz : length z ≤ L) :
    |dot (rvec x) z - dot xh z| ≤ 1.7321 * δ * L := by
  rw [← dot_sub_left]
  exact (abs_dot_le _ _).trans (mul_le_mul hx.dist hz (length_nonneg _) (by have := hx.pos; positivity))

theorem entry_le {x : Vec (Flt P.fmt) 3} {a : Vec ℝ 3} {ε : ℝ} (hx : NearTo x a ε) (i : Fin 3) : |(x i).val| ≤ 2 := by
  have h := (hx.unit.2 i).trans (by norm_num : (1.02 : ℝ) ≤ 2)
  exact_mod_cast h

/-- The rounded product is close to the product, relative to a bound on its size. -/
theorem scaled (hp : 24 ≤ P.p) {n d : Flt P.fmt} {M : ℚ} (hM : 1 ≤ M) (hf : (n * d).isFinite) (h : |(n * d).val| ≤ M) :
    |(n * d).val - n.val * d.val| ≤ 21 / 10 * (P.u * M) := by
  have u0 := BinPar.u_pos P
  have hu := u24 hp
  have he := eta_sq P
  obtain ⟨hn, hd⟩ := Flt.mul_finite hf
  have hv : (n * d).val = P.fl (n.val * d.val) := Flt.mul_val hf
  have e := BinPar.fl_err_abs (P := P) (n.val * d.val)
  rw [← hv] at e
  change |(n * d).val - n.val * d.val| ≤ P.u * |n.val * d.val| + P.eta at e
  have t : |n.val * d.val| ≤ |(n * d).val| + |(n * d).val - n.val * d.val| := by
    have := abs_sub_abs_le_abs_sub (n.val * d.val) (n * d).val
    rw [abs_sub_comm] at this
    linarith
  set E := |(n * d).val - n.val * d.val|
  have E0 : 0 ≤ E := abs_nonneg _
  have h1 : P.u * |n.val * d.val| ≤ P.u * (M + E) := mul_le_mul_of_nonneg_left (by linarith) u0.le
  have h2 : P.u * E ≤ 1 / 100 * E := mul_le_mul_of_nonneg_right (hu.trans (by norm_num)) E0
  have h3 : P.u * 1 ≤ P.u * M := mul_le_mul_of_nonneg_left hM u0.le
  have h4 : P.u ^ 2 ≤ P.u * 1 := by rw [sq]; exact mul_le_mul_of_nonneg_left (hu.trans (by norm_num)) u0.le
  nlinarith

theorem fmt_24 (hP : P = binary32 ∨ P = binary64) : 24 ≤ P.p := by rcases hP with rfl | rfl <;> decide

/-- The coordinates computed by an affine matrix are bounded by its entries. -/
theorem coord_le (hp : 24 ≤ P.p) {m : Mat (Flt P.fmt) 4 4} (hl : ∀ c, m c 3 = if c = 3 then 1 else 0) {p : Vec (Flt P.fmt) 3} {R : ℚ} (hR : 1 ≤ R)
    (hpf : ∀ i, (p i).isFinite) (hpR : ∀ i, |(p i).val| ≤ R) (hq : ∀ r, (mmulPoint m p r).isFinite) :
    |(mmulPoint m p 0).val| + |(mmulPoint m p 1).val| ≤ 101 / 100 * (R * ∑ c : Fin 4, ∑ r : Fin 4, |(m c r).val|) ∧
      1 ≤ ∑ c : Fin 4, ∑ r : Fin 4, |(m c r).val| := by
  have u0 := BinPar.u_pos P
  have hu := u24 hp
  have row : ∀ r : Fin 3, |(mmulPoint m p r).val| ≤ (1 + 5 * P.u) * (R * (|(m 0 r.castSucc).val| + |(m 1 r.castSucc).val| + |(m 2 r.castSucc).val| +
      |(m 3 r.castSucc).val|)) + P.u := by
    intro r
    have e := image hp hl hpf (hq r)
    have b : ∀ c : Fin 3, |(m c.castSucc r.castSucc).val| * |(p c).val| ≤ R * |(m c.castSucc r.castSucc).val| := fun c => by
      rw [mul_comm]; exact mul_le_mul_of_nonneg_right (hpR c) (abs_nonneg _)
    have b0 : |(m 0 r.castSucc).val| * |(p 0).val| ≤ R * |(m 0 r.castSucc).val| := b 0
    have b1 : |(m 1 r.castSucc).val| * |(p 1).val| ≤ R * |(m 1 r.castSucc).val| := b 1
    have b2 : |(m 2 r.castSucc).val| * |(p 2).val| ≤ R * |(m 2 r.castSucc).val| := b 2
    have b3 : |(m 3 r.castSucc).val| ≤ R * |(m 3 r.castSucc).val| := le_mul_of_one_le_left (abs_nonneg _) hR
    have t : |(m 0 r.castSucc).val * (p 0).val + (m 1 r.castSucc).val * (p 1).val + (m 2 r.castSucc).val * (p 2).val + (m 3 r.castSucc).val| ≤
        |(m 0 r.castSucc).val| * |(p 0).val| + |(m 1 r.castSucc).val| * |(p 1).val| + |(m 2 r.castSucc).val| * |(p 2).val| + |(m 3 r.castSucc).val| := by
      rw [← abs_mul, ← abs_mul, ← abs_mul]
      refine (abs_add_le _ _).trans (add_le_add_left ((abs_add_le _ _).trans (add_le_add_left (abs_add_le _ _) _)) _)
    set T := |(m 0 r.castSucc).val| * |(p 0).val| + |(m 1 r.castSucc).val| * |(p 1).val| + |(m 2 r.castSucc).val| * |(p 2).val| + |(m 3 r.castSucc).val|
    have hT : T ≤ R * (|(m 0 r.castSucc).val| + |(m 1 r.castSucc).val| + |(m 2 r.castSucc).val| + |(m 3 r.castSucc).val|) := by
      simp only [mul_add]; exact add_le_add (add_le_add (add_le_add b0 b1) b2) b3
    have h5 : (1 + 5 * P.u) * T ≤ (1 + 5 * P.u) * (R * (|(m 0 r.castSucc).val| + |(m 1 r.castSucc).val| + |(m 2 r.castSucc).val| + |(m 3 r.castSucc).val|)) :=
      mul_le_mul_of_nonneg_left hT (by linarith)
    have := abs_sub_abs_le_abs_sub (mmulPoint m p r).val ((m 0 r.castSucc).val * (p 0).val + (m 1 r.castSucc).val * (p 1).val + (m 2 r.castSucc).val * (p 2).val + (m 3 r.castSucc).val)
    linarith
  have r0 := row 0
  have r1 := row 1
  have h33 : |(m 3 3).val| = 1 := by rw [hl 3, if_pos rfl, Flt.one_val, abs_one]
  have g : ∀ c r, 0 ≤ |(m c r).val| := fun _ _ => abs_nonneg _
  change _ ≤ (1 + 5 * P.u) * (R * (|(m 0 0).val| + |(m 1 0).val| + |(m 2 0).val| + |(m 3 0).val|)) + P.u at r0
  change _ ≤ (1 + 5 * P.u) * (R * (|(m 0 1).val| + |(m 1 1).val| + |(m 2 1).val| + |(m 3 1).val|)) + P.u at r1
  have eN : ∑ c : Fin 4, ∑ r : Fin 4, |(m c r).val| = (|(m 0 0).val| + |(m 1 0).val| + |(m 2 0).val| + |(m 3 0).val|) +
      (|(m 0 1).val| + |(m 1 1).val| + |(m 2 1).val| + |(m 3 1).val|) + (|(m 0 2).val| + |(m 1 2).val| + |(m 2 2).val| + |(m 3 2).val|) +
      (|(m 0 3).val| + |(m 1 3).val| + |(m 2 3).val| + |(m 3 3).val|) := by
    simp only [Fin.sum_univ_four]; ring
  have a1 : (|(m 0 0).val| + |(m 1 0).val| + |(m 2 0).val| + |(m 3 0).val|) + (|(m 0 1).val| + |(m 1 1).val| + |(m 2 1).val| + |(m 3 1).val|) + 1 ≤
      ∑ c : Fin 4, ∑ r : Fin 4, |(m c r).val| := by
    rw [eN, h33]
    linarith [g 0 2, g 1 2, g 2 2, g 3 2, g 0 3, g 1 3, g 2 3]
  set N := ∑ c : Fin 4, ∑ r : Fin 4, |(m c r).val|
  set A := |(m 0 0).val| + |(m 1 0).val| + |(m 2 0).val| + |(m 3 0).val| with hA
  set B := |(m 0 1).val| + |(m 1 1).val| + |(m 2 1).val| + |(m 3 1).val| with hB
  have A0 : 0 ≤ A := by rw [hA]; linarith [g 0 0, g 1 0, g 2 0, g 3 0]
  have B0 : 0 ≤ B := by rw [hB]; linarith [g 0 1, g 1 1, g 2 1, g 3 1]
  refine ⟨?_, by linarith⟩
  have c1 : R * (A + B) + R * 1 ≤ R * N := by rw [← mul_add]; exact mul_le_mul_of_nonneg_left a1 (by linarith)
  have c2 : 0 ≤ R * (A + B) := mul_nonneg (by linarith) (by linarith)
  have c3 : P.u * (R * (A + B)) ≤ 1 / 1000 * (R * (A + B)) := mul_le_mul_of_nonneg_right (hu.trans (by norm_num)) c2
  have c4 : P.u ≤ 1 / 1000 := hu.trans (by norm_num)
  have e1 : (1 + 5 * P.u) * (R * A) + P.u + ((1 + 5 * P.u) * (R * B) + P.u) = R * (A + B) + 5 * (P.u * (R * (A + B))) + 2 * P.u := by ring
  linarith

/-- The last step of `C145_plane`, on real numbers. -/
theorem plane_step {n x y d o p e : Vec ℝ 3} {q0 q1 q2 t u MRN : ℝ} (he : e = fun r => o r + q0 * x r + q1 * y r + q2 * d r - p r) (hu : 0 ≤ u)
    (hne : |dot n e| ≤ 3984.1 * (u * MRN)) (hx : |dot n x| ≤ 83.3 * u) (hy : |dot n y| ≤ 83.3 * u) (ho : |dot n o - t * dot n n| ≤ 4 * (u * MRN))
    (hq : |q0| + |q1| ≤ 1.01 * MRN) : |q2 * dot n d - (dot n p - t * dot n n)| ≤ 4100 * (u * MRN) := by
  have k : q2 * dot n d - (dot n p - t * dot n n) = dot n e - (dot n o - t * dot n n) - (q0 * dot n x + q1 * dot n y) := by
    rw [he]; simp only [dot3]; ring
  have h1 : |q0 * dot n x + q1 * dot n y| ≤ 83.3 * u * (|q0| + |q1|) := by
    refine (abs_add_le _ _).trans ?_
    rw [abs_mul, abs_mul]
    have := mul_le_mul_of_nonneg_left hx (abs_nonneg q0)
    have := mul_le_mul_of_nonneg_left hy (abs_nonneg q1)
    linarith
  have h2 : 83.3 * u * (|q0| + |q1|) ≤ 83.3 * u * (1.01 * MRN) := mul_le_mul_of_nonneg_left hq (by positivity)
  rw [k]
  have M0 : 0 ≤ u * MRN := by
    have := (abs_nonneg _).trans ho
    linarith
  refine (abs_sub _ _).trans ?_
  have := abs_sub (dot n e) (dot n o - t * dot n n)
  linarith

theorem rdot (x y : Vec (Flt P.fmt) 3) : dot (rvec x) (rvec y) = ((dot (vval x) (vval y) : ℚ) : ℝ) := by
  rw [dot3, dot3]; simp only [rvec, vval]; push_cast; rfl

end FltPP

/-- The third coordinate that the matrix computes for a point, times the cosine of the angle between the normal and the direction, is the
distance of the point from the plane, up to 4100 rounding units of the product of the largest coordinate of the origin, the largest
coordinate of the point and the sum of the magnitudes of the entries of the matrix; the last row of the matrix is 0, 0, 0, 1. -/
theorem C145_plane (hP : P = binary32 ∨ P = binary64) {s : Flt P.fmt → Flt P.fmt} (hs : FaithfulSqrt P s) (junk : ℕ → Flt P.fmt × ℕ)
    {n d : Vec (Flt P.fmt) 3} {a b : Vec ℝ 3} {ε ε' : ℝ} (hn : NearTo n a ε) (hd : NearTo d b ε') (dist : Flt P.fmt)
    {M R : ℚ} (hMr : P.Rep M) (hM : 2 ≤ M) (room : 8 * M < P.bound) (hR : 1 ≤ R)
    (hof : ∀ r, (n r * dist).isFinite) (ho : ∀ r, |(n r * dist).val| ≤ M)
    (m : Mat (Flt P.fmt) 4 4) (h : planeProjectionMatrixG s P.almostZero junk dist n d = some m) (hm : ∀ c r, (m c r).isFinite) :
    (∀ c, m c 3 = if c = 3 then 1 else 0) ∧
    ∀ (p : Vec (Flt P.fmt) 3), (∀ i, (p i).isFinite) → (∀ i, |(p i).val| ≤ R) → (∀ r, (mmulPoint m p r).isFinite) →
      |(mmulPoint m p 2).val * dot (vval n) (vval d) - (dot (vval n) (vval p) - dist.val * dot (vval n) (vval n))| ≤
        4100 * (P.u * (M * (R * ∑ c : Fin 4, ∑ r : Fin 4, |(m c r).val|))) := by
  have hp := FltPP.fmt_24 hP
  have u0 := Ap.u_pos P
  obtain ⟨x, y, xh, yh, hx, hy, -, xn, yn, hE⟩ := C145_frame hP hs junk hn
  rw [hE, FltPP.passes_unit hP hs hd, if_pos rfl] at h
  obtain ⟨hl, hc⟩ := C144_coordinates hp hMr (by linarith) room hR x y d (vscale n dist)
    (fun r => ⟨hx.1 r, hy.1 r, hd.1 r, hof r⟩)
    (fun r => ⟨(FltPP.entry_le hx r).trans hM, (FltPP.entry_le hy r).trans hM, (FltPP.entry_le hd r).trans hM, ho r⟩) m h hm
  refine ⟨hl, fun p hpf hpR hq => ?_⟩
  obtain ⟨k1, k2⟩ := FltPP.coord_le hp hl hR hpf hpR hq
  set N := ∑ c : Fin 4, ∑ r : Fin 4, |(m c r).val|
  have MRN : R * N ≤ M * (R * N) := le_mul_of_one_le_left (mul_nonneg (by linarith) (by linarith)) (by linarith)
  have MM : M ≤ M * (R * N) := le_mul_of_one_le_right (by linarith) (one_le_mul_of_one_le_of_one_le hR k2)
  have nl := hn.len
  have e : ∀ r, |(fun r : Fin 3 => rvec (vscale n dist) r + ((mmulPoint m p 0).val : ℝ) * rvec x r + ((mmulPoint m p 1).val : ℝ) * rvec y r +
      ((mmulPoint m p 2).val : ℝ) * rvec d r - rvec p r) r| ≤ 2300 * (P.u * ((M * (R * N) : ℚ) : ℝ)) := by
    intro r
    have := hc p hpf hpR hq r
    simp only [rvec]
    exact_mod_cast this
  have l := length_of_comp e
  have d1 := abs_dot_le (rvec n) (fun r : Fin 3 => rvec (vscale n dist) r + ((mmulPoint m p 0).val : ℝ) * rvec x r + ((mmulPoint m p 1).val : ℝ) * rvec y r +
      ((mmulPoint m p 2).val : ℝ) * rvec d r - rvec p r)
  have M0 : (0 : ℝ) ≤ ((M * (R * N) : ℚ) : ℝ) := by
    have : (0 : ℚ) ≤ M * (R * N) := by linarith
    exact_mod_cast this
  have d2 := d1.trans (mul_le_mul nl l (length_nonneg _) (by norm_num))
  have X := FltPP.near_dot hx nl
  have Y := FltPP.near_dot hy nl
  rw [xn, sub_zero, vm.dot_comm] at X
  rw [yn, sub_zero, vm.dot_comm] at Y
  have o1 : ∀ r, |(rvec (vscale n dist) - vscale (rvec n) (dist.val : ℝ)) r| ≤ 2.1 * (P.u * ((M * (R * N) : ℚ) : ℝ)) := by
    intro r
    have h1 := FltPP.scaled hp (by linarith) (hof r) (ho r)
    have h2 : P.u * M ≤ P.u * (M * (R * N)) := mul_le_mul_of_nonneg_left MM (BinPar.u_pos P).le
    have h3 : |(n r * dist).val - (n r).val * dist.val| ≤ 21 / 10 * (P.u * (M * (R * N))) := by linarith
    have h4 : ((|(n r * dist).val - (n r).val * dist.val| : ℚ) : ℝ) ≤ ((21 / 10 * (P.u * (M * (R * N))) : ℚ) : ℝ) := by exact_mod_cast h3
    simp only [Pi.sub_apply, vscale, rvec]
    push_cast at h4 ⊢
    linarith
  have o2 := (abs_dot_le (rvec n) _).trans (mul_le_mul nl (length_of_comp o1) (length_nonneg _) (by norm_num))
  have o3 : dot (rvec n) (rvec (vscale n dist) - vscale (rvec n) (dist.val : ℝ)) = dot (rvec n) (rvec (vscale n dist)) - dist.val * dot (rvec n) (rvec n) := by
    simp only [dot3, Pi.sub_apply, vscale]; ring
  rw [o3] at o2
  have um : (0 : ℝ) ≤ P.u * ((M * (R * N) : ℚ) : ℝ) := mul_nonneg u0.le M0
  have q : |((mmulPoint m p 0).val : ℝ)| + |((mmulPoint m p 1).val : ℝ)| ≤ 1.01 * ((M * (R * N) : ℚ) : ℝ) := by
    have : |(mmulPoint m p 0).val| + |(mmulPoint m p 1).val| ≤ 101 / 100 * (M * (R * N)) := by linarith
    have : ((|(mmulPoint m p 0).val| + |(mmulPoint m p 1).val| : ℚ) : ℝ) ≤ ((101 / 100 * (M * (R * N)) : ℚ) : ℝ) := by exact_mod_cast this
    push_cast at this ⊢
    linarith
  have fin := FltPP.plane_step (d := rvec d) (p := rvec p) (q2 := ((mmulPoint m p 2).val : ℝ)) (t := (dist.val : ℝ)) rfl u0.le (d2.trans (by linarith))
    (X.trans (by linarith)) (Y.trans (by linarith)) (o2.trans (by linarith)) q
  rw [FltPP.rdot, FltPP.rdot, FltPP.rdot] at fin
  exact_mod_cast fin

namespace FltPP

/-- Vectors that combine almost orthonormal vectors of a plane and a direction that is not almost parallel to it. -/
theorem combine {n d xh yh : Vec ℝ 3} {x y : Vec (Flt P.fmt) 3} {v : Fin 3 → ℝ} {τ u : ℝ} (u0 : 0 < u) (hu : u ≤ 1 / 16000000) (hx : NearTo x xh (7.5 * u)) (hy : NearTo y yh (48 * u))
    (hxy : dot xh yh = 0) (xn : dot xh n = 0) (yn : dot yh n = 0) (nl : length n ≤ 1.00002) (dl : length d ≤ 1.00002)
    (hτ : τ ≤ 90 * u) (hnd : 1000 * u ≤ |dot n d|)
    (h : ∀ r, |rvec x r * v 0 + rvec y r * v 1 + d r * v 2| ≤ τ * (|v 0| + |v 1| + |v 2|)) : |v 0| + |v 1| + |v 2| = 0 := by
  set S := |v 0| + |v 1| + |v 2| with hS
  have v0 := abs_nonneg (v 0); have v1 := abs_nonneg (v 1); have v2 := abs_nonneg (v 2)
  have S0 : 0 ≤ S := by linarith
  have e : ∀ r, |(fun r : Fin 3 => rvec x r * v 0 + rvec y r * v 1 + d r * v 2) r| ≤ 90 * u * S := fun r =>
    (h r).trans (mul_le_mul_of_nonneg_right hτ S0)
  have l := length_of_comp e
  have uS : 0 ≤ u * S := by positivity
  have proj : ∀ z : Vec ℝ 3, length z ≤ 1.00002 → |dot (rvec x) z * v 0 + dot (rvec y) z * v 1 + dot d z * v 2| ≤ 156 * (u * S) := by
    intro z hz
    have d1 := (abs_dot_le (fun r : Fin 3 => rvec x r * v 0 + rvec y r * v 1 + d r * v 2) z).trans
      (mul_le_mul l hz (length_nonneg _) (by positivity))
    have e : dot (fun r : Fin 3 => rvec x r * v 0 + rvec y r * v 1 + d r * v 2) z = dot (rvec x) z * v 0 + dot (rvec y) z * v 1 + dot d z * v 2 := by
      simp only [dot3]; ring
    rw [e] at d1
    linarith
  have lx : length xh ≤ 1.00002 := by rw [unit_len hx.2.1]; norm_num
  have ly : length yh ≤ 1.00002 := by rw [unit_len hy.2.1]; norm_num
  have xy' : dot yh xh = 0 := by rw [vm.dot_comm, hxy]
  have mv : ∀ {c e : ℝ} {w : ℝ}, |c| ≤ e → |c * w| ≤ e * |w| := fun hc => by rw [abs_mul]; exact mul_le_mul_of_nonneg_right hc (abs_nonneg _)
  -- along the normal
  have pn := abs_le.1 (proj n nl)
  have xn' := near_dot hx nl; rw [xn, sub_zero] at xn'
  have yn' := near_dot hy nl; rw [yn, sub_zero] at yn'
  have n1 := abs_le.1 (mv (w := v 0) (xn'.trans (by linarith : _ ≤ 83.3 * u)))
  have n2 := abs_le.1 (mv (w := v 1) (yn'.trans (by linarith : _ ≤ 83.3 * u)))
  have n3 : |dot d n * v 2| ≤ 240 * (u * S) := by
    have : 83.3 * u * |v 0| + 83.3 * u * |v 1| ≤ 83.3 * (u * S) := by
      have : 0 ≤ u * |v 2| := by positivity
      rw [hS]; linarith
    exact abs_le.2 ⟨by linarith, by linarith⟩
  have w2 : |v 2| ≤ 0.24 * S := by
    rw [abs_mul, vm.dot_comm] at n3
    have := mul_le_mul_of_nonneg_right hnd (abs_nonneg (v 2))
    have k : u * |v 2| ≤ u * (0.24 * S) := by linarith
    exact le_of_mul_le_mul_left k u0
  have small : u * S ≤ 1 / 16000000 * S := mul_le_mul_of_nonneg_right hu S0
  -- along the axes
  have ax : ∀ {c w e : ℝ}, |c - 1| ≤ e → |w| ≤ |c * w| + e * |w| := by
    intro c w e hc
    have k : w = c * w - (c - 1) * w := by ring
    have := mv (w := w) hc
    calc |w| = |c * w - (c - 1) * w| := by rw [← k]
      _ ≤ _ := (abs_sub _ _).trans (by linarith)
  have dz : ∀ z, length z ≤ 1.00002 → |dot d z| ≤ 1.0001 := fun z hz =>
    (abs_dot_le d z).trans ((mul_le_mul dl hz (length_nonneg _) (by norm_num)).trans (by norm_num))
  have px := abs_le.1 (proj xh lx)
  have a1 := near_dot hx lx; rw [hx.2.1] at a1
  have a2 := near_dot hy lx; rw [xy', sub_zero] at a2
  have b1 := ax (w := v 0) (a1.trans (by linarith : _ ≤ 83.3 * u))
  have b2 := abs_le.1 (mv (w := v 1) (a2.trans (by linarith : _ ≤ 83.3 * u)))
  have b3 := abs_le.1 (mv (w := v 2) (dz xh lx))
  have py := abs_le.1 (proj yh ly)
  have a3 := near_dot hy ly; rw [hy.2.1] at a3
  have a4 := near_dot hx ly; rw [hxy, sub_zero] at a4
  have c1 := ax (w := v 1) (a3.trans (by linarith : _ ≤ 83.3 * u))
  have c2 := abs_le.1 (mv (w := v 0) (a4.trans (by linarith : _ ≤ 83.3 * u)))
  have c3 := abs_le.1 (mv (w := v 2) (dz yh ly))
  have u2 : 0 ≤ u * |v 2| := by positivity
  have uS' : 83.3 * u * |v 0| + 83.3 * u * |v 1| ≤ 83.3 * (u * S) := by rw [hS]; linarith
  have f1 : |dot (rvec x) xh * v 0| ≤ 156 * (u * S) + 83.3 * u * |v 1| + 1.0001 * |v 2| := abs_le.2 ⟨by linarith, by linarith⟩
  have f2 : |dot (rvec y) yh * v 1| ≤ 156 * (u * S) + 83.3 * u * |v 0| + 1.0001 * |v 2| := abs_le.2 ⟨by linarith, by linarith⟩
  linarith

theorem limit_le (hP : P = binary32 ∨ P = binary64) : lupLimit + singularErr P 3 2 ≤ 90 * P.u := by
  have u0 := BinPar.u_pos P
  have hu := u24 (fmt_24 hP)
  have he := eta_sq P
  have h1 : lupLimit ≤ 10 * P.u := by rcases hP with rfl | rfl <;> norm_num [lupLimit, BinPar.u, binary32, binary64]
  have h2 : P.u ^ 2 ≤ P.u * (1 / 1000) := by rw [sq]; exact mul_le_mul_of_nonneg_left (hu.trans (by norm_num)) u0.le
  have h3 : P.u ^ 3 ≤ P.u ^ 2 * 1 := by rw [pow_succ]; exact mul_le_mul_of_nonneg_left (hu.trans (by norm_num)) (sq_nonneg _)
  have h4 : (1 + P.u) ^ 3 ≤ 2 := by nlinarith
  have e0 : 0 ≤ P.eta := (two_zpow_pos _).le
  have h5 : (1 + P.u) ^ 3 * P.eta ≤ 2 * P.eta := mul_le_mul_of_nonneg_right h4 e0
  have e : singularErr P 3 2 = 24 * (3 * P.u + 3 * P.u ^ 2 + P.u ^ 3) + 27 * ((1 + P.u) ^ 3 * P.eta) := by
    unfold singularErr; norm_num; ring
  rw [e]
  linarith

end FltPP

/-- The matrix exists for every direction that is not parallel to the plane up to 1000 rounding units, wherever the plane is. -/
theorem C145_success (hP : P = binary32 ∨ P = binary64) {s : Flt P.fmt → Flt P.fmt} (hs : FaithfulSqrt P s) (junk : ℕ → Flt P.fmt × ℕ)
    {n d : Vec (Flt P.fmt) 3} {a b : Vec ℝ 3} {ε ε' : ℝ} (hn : NearTo n a ε) (hd : NearTo d b ε') (dist : Flt P.fmt)
    {M : ℚ} (hMr : P.Rep M) (hM : 2 ≤ M) (room : 8 * M < P.bound) (hof : ∀ r, (n r * dist).isFinite) (ho : ∀ r, |(n r * dist).val| ≤ M)
    (hnd : 1000 * P.u ≤ |dot (vval n) (vval d)|) :
    ∃ m, planeProjectionMatrixG s P.almostZero junk dist n d = some m := by
  have u0 := Ap.u_pos P
  have hu := fmt_u hP
  obtain ⟨x, y, xh, yh, hx, hy, hxy, xn, yn, hE⟩ := C145_frame hP hs junk hn
  rw [hE, FltPP.passes_unit hP hs hd, if_pos rfl]
  have hB := frame_bounded (x := x) (y := y) (z := d) (o := vscale n dist) hMr (by linarith) room
    (fun c r => by fin_cases c; exacts [hx.1 r, hy.1 r, hd.1 r, hof r])
    (fun c r => by
      fin_cases c
      exacts [(FltPP.entry_le hx r).trans hM, (FltPP.entry_le hy r).trans hM, (FltPP.entry_le hd r).trans hM, ho r])
  unfold coordinateSystemMatrixG
  simp only
  rw [(C144_success _ hB (frame_last x y d (vscale n dist))).1]
  have hblock : (fun c r : Fin 3 => (matOfRowMajor 4 4 ![x 0, y 0, d 0, vscale n dist 0, x 1, y 1, d 1, vscale n dist 1, x 2, y 2, d 2, vscale n dist 2,
      0, 0, 0, 1] : Mat (Flt P.fmt) 4 4) c.castSucc r.castSucc) = fun c r => (![x, y, d] : Fin 3 → Vec (Flt P.fmt) 3) c r := by
    funext c r
    rw [frame_entry]
    fin_cases c <;> rfl
  rw [hblock]
  have hB3 : BoundedMat 2 (fun c r : Fin 3 => (![x, y, d] : Fin 3 → Vec (Flt P.fmt) 3) c r) := by
    refine ⟨?_, ?_, fun c r => ?_, fun c r => ?_⟩
    · have := P.rep_int (n := 2) (by
        have : (2 : ℤ) ^ 2 ≤ 2 ^ P.p := pow_le_pow_right₀ (by norm_num) (by have := P.hp; omega)
        rw [abs_of_pos (by norm_num)]; omega)
      exact_mod_cast this
    · norm_num
      linarith
    · fin_cases c
      exacts [hx.1 r, hy.1 r, hd.1 r]
    · fin_cases c
      exacts [FltPP.entry_le hx r, FltPP.entry_le hy r, FltPP.entry_le hd r]
  have := (C112_success P _ hB3 (fun v hv => by
    by_contra hc
    push Not at hc
    apply hv
    have k := FltPP.combine (d := rvec d) (v := fun c => (v c : ℝ)) (τ := ((lupLimit + singularErr P 3 2 : ℚ) : ℝ)) u0 hu hx hy hxy xn yn hn.len hd.len
      (by have := FltPP.limit_le hP; exact_mod_cast this) (by rw [FltPP.rdot]; exact_mod_cast hnd) (fun r => by
        have := hc r
        rw [Fin.sum_univ_three, Fin.sum_univ_three] at this
        simp only [rvec]
        exact_mod_cast this)
    have v0 := abs_nonneg ((v 0 : ℚ) : ℝ); have v1 := abs_nonneg ((v 1 : ℚ) : ℝ); have v2 := abs_nonneg ((v 2 : ℚ) : ℝ)
    funext i
    have : |((v i : ℚ) : ℝ)| = 0 := by
      fin_cases i
      · show |((v 0 : ℚ) : ℝ)| = 0; linarith
      · show |((v 1 : ℚ) : ℝ)| = 0; linarith
      · show |((v 2 : ℚ) : ℝ)| = 0; linarith
    exact_mod_cast abs_eq_zero.1 this) 0).2
  rw [this]
  exact ⟨_, rfl⟩

namespace FltPP

/-- A vector along coordinate axis `k`. -/
def ax (k : Fin 3) (σ : Flt P.fmt) : Vec (Flt P.fmt) 3 := fun i => if i = k then σ else 0

theorem sqrt_one {s : Flt P.fmt → Flt P.fmt} (hs : FaithfulSqrt P s) : s 1 = 1 := by
  obtain ⟨h1, h2⟩ := Flt.eq_fin (Flt.one_finite (P := P))
  obtain ⟨r, hr, h3, h4, h5⟩ := hs.fin _ h1 (by rw [Flt.one_val]; norm_num)
  have e : (1 : Flt P.fmt).val = 1 := Flt.one_val
  obtain ⟨a1, a2⟩ := h5 1 (by rw [← e]; exact h1) zero_le_one
  rw [e] at a1 a2
  have : r = 1 := by
    rcases lt_trichotomy r 1 with h | h | h
    · exact absurd (a2 h) (by norm_num)
    · exact h
    · exact absurd (a1 h) (by norm_num)
  subst this
  have e1 : s 1 = Flt.fin 1 hr := by
    rw [← h3]
    congr 1
  rw [e1]
  exact Flt.ext trivial Flt.one_finite e.symm

theorem unit_sq {σ : Flt P.fmt} (h : σ = 1 ∨ σ = -1) : σ * σ = 1 := by
  rcases h with rfl | rfl
  · exact Flt.one_mul' _
  · rw [Flt.neg_one_mul', Flt.neg_neg']

theorem ax_finite {k : Fin 3} {σ : Flt P.fmt} (h : σ = 1 ∨ σ = -1) (i : Fin 3) : (ax k σ i).isFinite := by
  unfold ax
  split_ifs
  · exact (one_div_unit h).1
  · exact Flt.zero_finite

theorem ax_normalize {s : Flt P.fmt → Flt P.fmt} (hs : FaithfulSqrt P s) {k : Fin 3} {σ : Flt P.fmt} (h : σ = 1 ∨ σ = -1) :
    normalizeG s (ax k σ) = ax k σ := by
  have z : (0 : Flt P.fmt) * 0 = 0 := Flt.zero_mul_fin Flt.zero_finite
  have q : squaredLength (ax k σ) = 1 := by
    show dot _ _ = 1
    rw [FltQt.dot3]
    fin_cases k
    · show σ * σ + 0 * 0 + 0 * 0 = 1
      rw [unit_sq h, z, Flt.add_zero', Flt.add_zero']
    · show 0 * 0 + σ * σ + 0 * 0 = 1
      rw [unit_sq h, z, Flt.zero_add', Flt.add_zero']
    · show 0 * 0 + 0 * 0 + σ * σ = 1
      rw [unit_sq h, z, Flt.zero_add', Flt.zero_add']
  funext i
  show ax k σ i / s (squaredLength (ax k σ)) = _
  rw [q, sqrt_one hs, Flt.div_one']

theorem ax_near {k : Fin 3} {σ : Flt P.fmt} (h : σ = 1 ∨ σ = -1) : NearTo (ax k σ) (rvec (ax k σ)) 0 := by
  refine ⟨ax_finite h, ?_, fun i => ?_, by norm_num⟩
  · have hq : ((σ.val : ℚ) : ℝ) * σ.val = 1 := by
      rcases h with rfl | rfl
      · rw [Flt.one_val]; norm_num
      · rw [Flt.neg_val, Flt.one_val]; norm_num
    rw [dot3]
    have z : (((0 : Flt P.fmt).val : ℚ) : ℝ) = 0 := by rw [Flt.zero_val]; norm_num
    fin_cases k <;> simp [rvec, ax, hq, z]
  · show |((ax k σ i).val : ℝ) - ((ax k σ i).val : ℝ)| ≤ 0
    rw [sub_self, abs_zero]

theorem div_unit {x d : Flt P.fmt} (hx : x.isFinite) (hd : d = 1 ∨ d = -1) : x / d = d * x := by
  rcases hd with rfl | rfl
  · rw [Flt.div_one', Flt.one_mul']
  · have hf : (-(1 : Flt P.fmt)).isFinite := Flt.neg_finite.2 Flt.one_finite
    rw [fin_div_fin hx hf (by rw [Flt.neg_val, Flt.one_val]; norm_num), Flt.neg_val, Flt.one_val, Flt.neg_one_mul']
    have : x.val / -1 = (-x).val := by rw [Flt.neg_val]; ring
    rw [this, round_self (Flt.neg_finite.2 hx)]

theorem unit_mul_finite {x d : Flt P.fmt} (hx : x.isFinite) (hd : d = 1 ∨ d = -1) : (d * x).isFinite := by
  rcases hd with rfl | rfl
  · rw [Flt.one_mul']; exact hx
  · rw [Flt.neg_one_mul']; exact Flt.neg_finite.2 hx

/-- Coordinate systems with axes along the coordinate axes and an origin on the last of them. -/
theorem axis_result (ρ : Equiv.Perm (Fin 3)) (d : Vec (Flt P.fmt) 3) (hd : ∀ c, d c = 1 ∨ d c = -1) {dist : Flt P.fmt} (hdist : dist.isFinite) :
    ∃ m, coordinateSystemMatrixG (ax (ρ 0) (d 0)) (ax (ρ 1) (d 1)) (ax (ρ 2) (d 2)) (vscale (ax (ρ 2) (d 2)) dist) = some m ∧
      (∀ c r, (m c r).isFinite) ∧ (∀ c, m c 3 = if c = 3 then 1 else 0) ∧
      ∀ p : Vec (Flt P.fmt) 3, (∀ i, (p i).isFinite) → ∀ r, mmulPoint m p r = d r * p (ρ r) + if r = 2 then -dist else 0 := by
  have u := fun c => one_div_unit (hd c)
  have of : ∀ c, (vscale (ax (ρ 2) (d 2)) dist c).isFinite := fun c => by
    unfold vscale ax
    split_ifs
    · exact unit_mul_finite hdist (hd 2)
    · rw [Flt.zero_mul_fin hdist]; exact Flt.zero_finite
  obtain ⟨m, h1, h2, h3, h4⟩ := C144_axes ρ d (vscale (ax (ρ 2) (d 2)) dist) (fun c => ax (ρ c) (d c)) (fun c r => rfl) (fun c => (u c).1)
    of (fun c => (u c).2.1) (fun c => by rw [(u c).2.2]; exact (u c).1) (fun c => div_unit_finite (Flt.neg_finite.2 (of _)) (hd c))
  have t : ∀ r : Fin 3, m 3 r.castSucc = if r = 2 then -dist else 0 := by
    intro r
    rw [h3, div_unit (Flt.neg_finite.2 (of _)) (hd r)]
    unfold vscale ax
    by_cases hr : r = 2
    · rw [hr, if_pos rfl, if_pos rfl]
      rcases hd 2 with h | h <;> rw [h]
      · rw [Flt.one_mul', Flt.one_mul']
      · rw [Flt.neg_one_mul', Flt.neg_one_mul', Flt.neg_neg']
    · rw [if_neg (fun h => hr (ρ.injective h)), if_neg hr, Flt.zero_mul_fin hdist, Flt.neg_zero', Flt.mul_zero_fin (u r).1]
  refine ⟨m, h1, fun c r => ?_, h4, fun p hp r => ?_⟩
  · induction r using Fin.lastCases with
    | last =>
      rw [show Fin.last 3 = (3 : Fin 4) from rfl, h4]
      split_ifs
      · exact Flt.one_finite
      · exact Flt.zero_finite
    | cast r =>
      induction c using Fin.lastCases with
      | last =>
        rw [show Fin.last 3 = (3 : Fin 4) from rfl, t]
        split_ifs
        · exact Flt.neg_finite.2 hdist
        · exact Flt.zero_finite
      | cast c =>
        rw [h2]
        split_ifs
        · rw [(u r).2.2]; exact (u r).1
        · exact Flt.zero_finite
  · have e : mmulPoint m p r = m 0 r.castSucc * p 0 + m 1 r.castSucc * p 1 + m 2 r.castSucc * p 2 + m 3 r.castSucc := by
      conv_lhs => rw [eq_aff h4]
      exact FltBM.aff_point _ _ p hp r
    rw [e, t]
    congr 1
    have g := h2
    have g0 : m 0 r.castSucc = if 0 = ρ r then 1 / d r else 0 := h2 0 r
    have g1 : m 1 r.castSucc = if 1 = ρ r then 1 / d r else 0 := h2 1 r
    have g2 : m 2 r.castSucc = if 2 = ρ r then 1 / d r else 0 := h2 2 r
    rw [g0, g1, g2, (u r).2.2]
    generalize ρ r = j
    have z := fun i => Flt.zero_mul_fin (hp i)
    fin_cases j
    · show d r * p 0 + 0 * p 1 + 0 * p 2 = d r * p 0
      rw [z, z, Flt.add_zero', Flt.add_zero']
    · show 0 * p 0 + d r * p 1 + 0 * p 2 = d r * p 1
      rw [z, z, Flt.add_zero', Flt.zero_add']
    · show 0 * p 0 + 0 * p 1 + d r * p 2 = d r * p 2
      rw [z, z, Flt.add_zero', Flt.zero_add']

/-- The first axis for a normal along coordinate axis `k`. -/
theorem ax_planeAxis (junk : ℕ → Flt P.fmt × ℕ) {k : Fin 3} {σ : Flt P.fmt} (h : σ = 1 ∨ σ = -1) :
    planeAxis junk (ax k σ) = if k = 0 then cross (ax k σ) (vaxis 3 2) else cross (ax k σ) (vaxis 3 0) := by
  obtain ⟨j, h1, h2, -⟩ := sortVector_rank (fun l r => Cmp.lt (vm.abs l.1) (vm.abs r.1)) (ax k σ) junk (fun i => |(ax k σ i).val|)
    (fun i j => abs_lt_flt (ax_finite h i) (ax_finite h j)) 0 (by norm_num)
  have hmax : |(ax k σ k).val| ≤ |(ax k σ j).val| := by
    rw [Nat.le_zero, Finset.card_eq_zero, Finset.filter_eq_empty_iff] at h2
    exact not_lt.1 (h2 (Finset.mem_univ k))
  have hj : j = k := by
    by_contra hc
    unfold ax at hmax
    rw [if_pos rfl, if_neg hc, Flt.zero_val, abs_zero] at hmax
    have := (one_div_unit h).2.1
    have := lupLimit_pos
    linarith
  unfold planeAxis findAbsMaxComponent
  rw [h1, hj]
  by_cases hk : k = 0
  · rw [if_pos hk, if_pos (by rw [hk]; rfl)]
  · rw [if_neg hk, if_neg (show ¬ k.val = 0 from fun h => hk (Fin.ext h))]

end FltPP

/-- Planes perpendicular to a coordinate axis, projected along their normal: the matrix exists, its entries are finite, and it computes
without any rounding except that of the distance: two of the coordinates are coordinates of the point, up to signs, and the third one is
the correctly rounded distance from the plane. -/
theorem C145_axis (hP : P = binary32 ∨ P = binary64) {s : Flt P.fmt → Flt P.fmt} (hs : FaithfulSqrt P s) (junk : ℕ → Flt P.fmt × ℕ)
    (k : Fin 3) {σ : Flt P.fmt} (hσ : σ = 1 ∨ σ = -1) {dist : Flt P.fmt} (hdist : dist.isFinite) :
    ∃ m, planeProjectionMatrixOrthoG s P.almostZero junk dist (fun i => if i = k then σ else 0) = some m ∧
      (∀ c r, (m c r).isFinite) ∧ (∀ c, m c 3 = if c = 3 then 1 else 0) ∧
      ∃ (i j : Fin 3) (τ : Flt P.fmt), i ≠ j ∧ i ≠ k ∧ j ≠ k ∧ (τ = 1 ∨ τ = -1) ∧
        ∀ p : Vec (Flt P.fmt) 3, (∀ i, (p i).isFinite) →
          mmulPoint m p 0 = τ * p i ∧ mmulPoint m p 1 = -p j ∧ mmulPoint m p 2 = σ * p k - dist := by
  have z : (0 : Flt P.fmt) * 0 = 0 := Flt.zero_mul_fin Flt.zero_finite
  have hf := (one_div_unit hσ).1
  have hnσ : -σ = 1 ∨ -σ = -1 := by
    rcases hσ with rfl | rfl
    · exact Or.inr rfl
    · exact Or.inl (Flt.neg_neg' _)
  have m1 : (-1 : Flt P.fmt) = 1 ∨ (-1 : Flt P.fmt) = -1 := Or.inr rfl
  have sq : σ * -σ = -1 := by rw [Flt.mul_comm', Flt.neg_mul', FltPP.unit_sq hσ]
  have z1 := Flt.zero_mul_fin hf
  have z2 := Flt.mul_zero_fin hf
  have z3 := Flt.zero_mul_fin (one_div_unit hnσ).1
  have z4 := Flt.mul_zero_fin (one_div_unit hnσ).1
  have z0 : (0 : Flt P.fmt) - 0 = 0 := Flt.sub_zero' _
  -- the axes, and what follows from them
  have key : ∀ (ρ : Equiv.Perm (Fin 3)) (τ : Flt P.fmt), (τ = 1 ∨ τ = -1) → ρ 2 = k →
      planeAxis junk (FltPP.ax k σ) = FltPP.ax (ρ 0) τ → cross (FltPP.ax k σ) (FltPP.ax (ρ 0) τ) = FltPP.ax (ρ 1) (-1) →
      ∃ m, planeProjectionMatrixOrthoG s P.almostZero junk dist (FltPP.ax k σ) = some m ∧
      (∀ c r, (m c r).isFinite) ∧ (∀ c, m c 3 = if c = 3 then 1 else 0) ∧
      ∃ (i j : Fin 3) (τ : Flt P.fmt), i ≠ j ∧ i ≠ k ∧ j ≠ k ∧ (τ = 1 ∨ τ = -1) ∧
        ∀ p : Vec (Flt P.fmt) 3, (∀ i, (p i).isFinite) →
          mmulPoint m p 0 = τ * p i ∧ mmulPoint m p 1 = -p j ∧ mmulPoint m p 2 = σ * p k - dist := by
    intro ρ τ hτ hk h1 h2
    obtain ⟨m, e1, e2, e3, e4⟩ := FltPP.axis_result ρ ![τ, -1, σ] (fun c => by fin_cases c; exacts [hτ, m1, hσ]) hdist
    refine ⟨m, ?_, e2, e3, ρ 0, ρ 1, τ, fun h => absurd (ρ.injective h) (by decide), fun h => absurd (ρ.injective (h.trans hk.symm)) (by decide),
      fun h => absurd (ρ.injective (h.trans hk.symm)) (by decide), hτ, fun p hp => ⟨?_, ?_, ?_⟩⟩
    · unfold planeProjectionMatrixOrthoG planeProjectionMatrixG
      simp only [h1, FltPP.ax_normalize hs hτ, h2, FltPP.ax_normalize hs m1, FltPP.passes_unit hP hs (FltPP.ax_near hτ),
        FltPP.passes_unit hP hs (FltPP.ax_near m1), FltPP.passes_unit hP hs (FltPP.ax_near hσ), Bool.and_self, if_true]
      rw [hk] at e1
      exact e1
    · rw [e4 p hp 0, if_neg (by decide), Flt.add_zero']; rfl
    · rw [e4 p hp 1, if_neg (by decide), Flt.add_zero']; exact Flt.neg_one_mul' _
    · rw [e4 p hp 2, if_pos rfl, hk]; rfl
  have base := FltPP.ax_planeAxis junk (k := k) hσ
  rw [cross_z (FltPP.ax_finite hσ), cross_x (FltPP.ax_finite hσ)] at base
  fin_cases k
  · refine key ((Equiv.swap 0 1).trans (Equiv.swap 0 2)) (-σ) hnσ (by decide) ?_ ?_
    · rw [base]
      show (![0, -σ, 0] : Vec (Flt P.fmt) 3) = FltPP.ax 1 (-σ)
      apply ext3 <;> rfl
    · show cross (FltPP.ax 0 σ) (FltPP.ax 1 (-σ)) = FltPP.ax 2 (-1)
      apply ext3
      · show 0 * 0 - 0 * (-σ) = 0
        rw [z, z3, z0]
      · show 0 * 0 - σ * 0 = 0
        rw [z, z2, z0]
      · show σ * -σ - 0 * 0 = -1
        rw [sq, z, Flt.sub_zero']
  · refine key (Equiv.swap 0 2 |>.trans (Equiv.swap 0 1) |>.trans (Equiv.refl _)) (-σ) hnσ (by decide) ?_ ?_
    · rw [base]
      show (![0, 0, -σ] : Vec (Flt P.fmt) 3) = FltPP.ax 2 (-σ)
      apply ext3 <;> rfl
    · show cross (FltPP.ax 1 σ) (FltPP.ax 2 (-σ)) = FltPP.ax 0 (-1)
      apply ext3
      · show σ * -σ - 0 * 0 = -1
        rw [sq, z, Flt.sub_zero']
      · show 0 * 0 - 0 * -σ = 0
        rw [z, z3, z0]
      · show 0 * 0 - σ * 0 = 0
        rw [z, z2, z0]
  · refine key (Equiv.swap 0 1) σ hσ (by decide) ?_ ?_
    · rw [base]
      show (![0, σ, -0] : Vec (Flt P.fmt) 3) = FltPP.ax 1 σ
      rw [Flt.neg_zero']
      apply ext3 <;> rfl
    · show cross (FltPP.ax 2 σ) (FltPP.ax 1 σ) = FltPP.ax 0 (-1)
      apply ext3
      · show 0 * 0 - σ * σ = -1
        rw [z, FltPP.unit_sq hσ, Flt.zero_sub']
      · show σ * 0 - 0 * 0 = 0
        rw [z, z2, z0]
      · show 0 * σ - 0 * 0 = 0
        rw [z, z1, z0]

/-- The normal (3/5, 0, 4/5) and the direction (0, 3/5, 4/5), rounded to `float`, meet the hypotheses of `C145_frame` and
`C145_success`, with the plane at the distance 2. -/
example : ∃ (s : Flt binary32.fmt → Flt binary32.fmt) (n d : Vec (Flt binary32.fmt) 3) (a b : Vec ℝ 3), FaithfulSqrt binary32 s ∧
    NearTo n a (1.001 * binary32.u) ∧ NearTo d b (1.001 * binary32.u) ∧ 1 / 2 ≤ |dot a b| ∧ a 1 ≠ b 1 := by
  obtain ⟨s, hs⟩ := exists_correctSqrt binary32
  refine ⟨s, _, _, _, _, hs.faithful, round_near (Or.inl rfl) (x := 3 / 5) (y := 0) (z := 4 / 5) (by norm_num),
    round_near (Or.inl rfl) (x := 0) (y := 3 / 5) (z := 4 / 5) (by norm_num), ?_, ?_⟩
  · rw [dot3]
    show 1 / 2 ≤ |((3 / 5 : ℚ) : ℝ) * ((0 : ℚ) : ℝ) + ((0 : ℚ) : ℝ) * ((3 / 5 : ℚ) : ℝ) + ((4 / 5 : ℚ) : ℝ) * ((4 / 5 : ℚ) : ℝ)|
    norm_num [abs_of_pos]
  · show ((0 : ℚ) : ℝ) ≠ ((3 / 5 : ℚ) : ℝ)
    norm_num

/-- All hypotheses of `C145_plane` together, and a finite matrix: the plane at the distance 2 along the negative y axis. -/
example (s : Flt binary64.fmt → Flt binary64.fmt) (hs : FaithfulSqrt binary64 s) (junk : ℕ → Flt binary64.fmt × ℕ) :
    ∃ (n : Vec (Flt binary64.fmt) 3) (a : Vec ℝ 3) (dist : Flt binary64.fmt) (m : Mat (Flt binary64.fmt) 4 4), NearTo n a 0 ∧ dist.val = 2 ∧
      binary64.Rep 4 ∧ 8 * 4 < binary64.bound ∧ (∀ r, (n r * dist).isFinite) ∧ (∀ r, |(n r * dist).val| ≤ 4) ∧
      1000 * binary64.u ≤ |dot (vval n) (vval n)| ∧
      planeProjectionMatrixG s binary64.almostZero junk dist n n = some m ∧ ∀ c r, (m c r).isFinite := by
  have hσ : (-1 : Flt binary64.fmt) = 1 ∨ (-1 : Flt binary64.fmt) = -1 := Or.inr rfl
  have hd : (dbl 1 1).val = 2 := by rw [dbl_val]; norm_num
  obtain ⟨m, h1, h2, -⟩ := C145_axis (Or.inr rfl) hs junk 1 hσ (dist := dbl 1 1) trivial
  have f : ∀ r, (FltPP.ax 1 (-1) r * dbl 1 1).isFinite ∧ |(FltPP.ax 1 (-1) r * dbl 1 1).val| ≤ 4 := fun r => by
    unfold FltPP.ax
    split_ifs
    · rw [Flt.neg_one_mul', Flt.neg_val, hd]; exact ⟨trivial, by norm_num⟩
    · rw [Flt.zero_mul_fin (show (dbl 1 1).isFinite from trivial), Flt.zero_val]; exact ⟨Flt.zero_finite, by norm_num⟩
  refine ⟨FltPP.ax 1 (-1), _, dbl 1 1, m, FltPP.ax_near hσ, hd, ?_, ex_room, fun r => (f r).1, fun r => (f r).2, ?_, h1, h2⟩
  · have := binary64.rep_int (n := 4) (by norm_num [binary64])
    exact_mod_cast this
  · have : dot (vval (FltPP.ax 1 (-1) : Vec (Flt binary64.fmt) 3)) (vval (FltPP.ax 1 (-1) : Vec (Flt binary64.fmt) 3)) = 1 := by
      have := (FltPP.ax_near (k := 1) hσ).2.1
      rw [FltPP.rdot] at this
      exact_mod_cast this
    rw [this]
    norm_num [BinPar.u, binary64]

end vm
