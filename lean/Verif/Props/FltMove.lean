import Verif.Model.Length
import Verif.Lemmas.FltBoxMat
import Verif.Props.FltColinear
import Verif.Props.FltPlaneProj

/-! C150: transforming lines, rays and planes in IEEE arithmetic. -/

set_option linter.unusedSectionVars false
set_option linter.unusedSimpArgs false

namespace vm
open BinPar FltAng FltTo FltBM FltRot
variable {P : BinPar}

namespace FltMv

/-- The last row is (0, 0, 0, 1). -/
def Affine (M : Mat (Flt P.fmt) 4 4) : Prop := (∀ c : Fin 3, M c.castSucc 3 = 0) ∧ M 3 3 = 1

/-- The linear part. -/
def lin (M : Mat (Flt P.fmt) 4 4) : Fin 3 → Fin 3 → Flt P.fmt := fun c r => M c.castSucc r.castSucc

/-- The translation. -/
def tr (M : Mat (Flt P.fmt) 4 4) : Vec (Flt P.fmt) 3 := fun r => M 3 r.castSucc

theorem eq_aff {M : Mat (Flt P.fmt) 4 4} (h : Affine M) : M = aff (lin M) (tr M) := by
  funext c r
  have h0 := h.1 0
  have h1 := h.1 1
  have h2 := h.1 2
  fin_cases c <;> fin_cases r <;> first | rfl | exact h0 | exact h1 | exact h2 | exact h.2

theorem strip_aff {M : Mat (Flt P.fmt) 4 4} (h : Affine M) : stripTranslation M = aff (lin M) 0 := by
  conv_lhs => rw [eq_aff h]
  funext c r
  unfold stripTranslation
  simp only [Fin.foldl_succ_last, Fin.foldl_zero]
  fin_cases c <;> fin_cases r <;> rfl

theorem point_eq {M : Mat (Flt P.fmt) 4 4} (h : Affine M) {p : Vec (Flt P.fmt) 3} (hp : ∀ i, (p i).isFinite) (r : Fin 3) :
    mmulPoint M p r = lin M 0 r * p 0 + lin M 1 r * p 1 + lin M 2 r * p 2 + tr M r := by
  conv_lhs => rw [eq_aff h]
  exact aff_point _ _ _ hp r

theorem strip_eq {M : Mat (Flt P.fmt) 4 4} (h : Affine M) {p : Vec (Flt P.fmt) 3} (hp : ∀ i, (p i).isFinite) (r : Fin 3) :
    mmulPoint (stripTranslation M) p r = lin M 0 r * p 0 + lin M 1 r * p 1 + lin M 2 r * p 2 := by
  rw [strip_aff h, aff_point _ _ _ hp r]
  exact Flt.add_zero' _

/-- The exact image of a direction. -/
def dirImg (M : Mat (Flt P.fmt) 4 4) (d : Vec ℝ 3) : Vec ℝ 3 := fun r => ((lin M 0 r).val : ℝ) * d 0 + (lin M 1 r).val * d 1 + (lin M 2 r).val * d 2

/-- The exact image of a point. -/
def ptImg (M : Mat (Flt P.fmt) 4 4) (p : Vec ℝ 3) : Vec ℝ 3 := fun r => dirImg M p r + (tr M r).val

/-- The entries of the linear part are finite and at most `X`. -/
def Lin (X : ℝ) (M : Mat (Flt P.fmt) 4 4) : Prop := ∀ c r, (lin M c r).isFinite ∧ |((lin M c r).val : ℝ)| ≤ X

/-- A sum of three products. -/
theorem row3 {X Y k B : ℝ} (hX : 1 ≤ X) (hY : 1 ≤ Y) (ok : ApOk P (X * Y)) {M : Mat (Flt P.fmt) 4 4} (hM : Lin X M) {p : Vec (Flt P.fmt) 3} {x : Vec ℝ 3}
    (hk : 0 ≤ k) (hB0 : 0 ≤ B) (hB : B ≤ 1.1) (hp : ∀ i, Ap Y k B (p i) (x i)) (r : Fin 3) :
    Ap (X * Y) (3 * k + 9) 3.35 (lin M 0 r * p 0 + lin M 1 r * p 1 + lin M 2 r * p 2) (dirImg M x r) := by
  have X0 : 0 ≤ X * Y := by positivity
  have m : ∀ c, Ap (X * Y) (k + 1.11) 1.11 (lin M c r * p c) ((lin M c r).val * x c) := fun c =>
    (FltCol.ap_mul (by linarith) (by linarith) ok (Ap.exact (hM c r).1 (by rw [one_mul]; exact (hM c r).2)) (hp c) le_rfl (by norm_num) hk hB0
      (by linarith)).mono X0 (by linarith) (by linarith)
  have m2 := ((m 0).add ok (m 1) (by norm_num)).mono (k1 := 2 * k + 4.45) (B1 := 2.23) X0 (by linarith) (by norm_num)
  exact (m2.add ok (m 2) (by norm_num)).mono X0 (by linarith) (by norm_num)

/-- Vectors that are not tiny can be normalised. -/
theorem can_norm {X : ℝ} (hX : 1 ≤ X) (hu : 1000 * (P.u : ℝ) ≤ 1) (hb : 1000 * X ^ 2 < P.bound) {x : Vec (Flt P.fmt) 3}
    (hx : ∀ i, (x i).isFinite ∧ |((x i).val : ℝ)| ≤ 3.35 * X) {l : ℝ} (hl : 3 / 2 * P.u ≤ l ^ 2) (l0 : 0 ≤ l) (h : l ≤ length (rvec x)) :
    (squaredLength x).isFinite ∧ NoUnderflow x := by
  have Z0 : 0 ≤ 3.35 * X := by linarith
  have e : 3.35 * X * (3.35 * X) = 11.2225 * X ^ 2 := by ring
  have x2 : 1 ≤ X ^ 2 := one_le_pow₀ hX
  have ok : ApOk P (3.35 * X * (3.35 * X)) := ⟨hu, by rw [e]; linarith, by rw [e]; linarith⟩
  have ZZ0 : 0 ≤ 3.35 * X * (3.35 * X) := by positivity
  have A : ∀ i, Ap (3.35 * X) 0 1 (x i) (rvec x i) := fun i => Ap.exact (hx i).1 (by rw [one_mul]; exact (hx i).2)
  have m : ∀ i, Ap (3.35 * X * (3.35 * X)) 1.1 1.1 (x i * x i) (rvec x i * rvec x i) := fun i =>
    (FltCol.ap_mul Z0 Z0 ok (A i) (A i) le_rfl (by norm_num) le_rfl (by norm_num) (by norm_num)).mono ZZ0 (by norm_num) (by norm_num)
  constructor
  · show (dot x x).isFinite
    rw [FltQt.dot3]
    exact (((((m 0).add ok (m 1) (by norm_num)).mono ZZ0 (k1 := 20) (B1 := 8.9) (by norm_num) (by norm_num)).add ok (m 2)
      (by norm_num))).fin
  · unfold NoUnderflow
    have h1 := length_sq (rvec x)
    rw [vm.dot3] at h1
    have h2 : l ^ 2 ≤ length (rvec x) ^ 2 := pow_le_pow_left₀ l0 h 2
    have h3 := Ap.eta_le P
    have u0 := Ap.u_pos P
    have k : (((3 : ℕ) * P.eta : ℚ) : ℝ) ≤ ((P.u * ∑ i, (x i).val ^ 2 : ℚ) : ℝ) := by
      rw [Fin.sum_univ_three]
      push_cast
      have e : length (rvec x) ^ 2 = ((x 0).val : ℝ) ^ 2 + ((x 1).val : ℝ) ^ 2 + ((x 2).val : ℝ) ^ 2 := by rw [h1]; simp only [rvec]; ring
      rw [← e]
      have := mul_le_mul_of_nonneg_left (hl.trans h2) u0.le
      linarith
    exact_mod_cast k

/-- The new direction. -/
theorem direction (hp : 10 ≤ P.p) {s : Flt P.fmt → Flt P.fmt} (hs : FaithfulSqrt P s) {X : ℝ} (hX : 1 ≤ X) (hb : 1000 * X ^ 2 < P.bound)
    {M : Mat (Flt P.fmt) 4 4} (hA : Affine M) (hM : Lin X M) {d : Vec (Flt P.fmt) 3} (hd : ∀ i, (d i).isFinite ∧ |(d i).val| ≤ 1)
    (hσ : 32 * P.u * X ≤ length (dirImg M (rvec d))) (hσ2 : 6 * P.u ≤ length (dirImg M (rvec d)) ^ 2) (i : Fin 3) :
    (normalizeG s (mmulPoint (stripTranslation M) d) i).isFinite ∧
      |((normalizeG s (mmulPoint (stripTranslation M) d) i).val : ℝ) - dirImg M (rvec d) i / length (dirImg M (rvec d))| ≤
        (7.5 + 32 * X / length (dirImg M (rvec d))) * P.u := by
  have u0 := Ap.u_pos P
  have hu := (ok_one hp).u
  have x2 : X ≤ X ^ 2 := le_self_pow₀ hX (by norm_num)
  have ok : ApOk P (X * 1) := ⟨hu, by linarith, by linarith⟩
  have A : ∀ r, Ap (X * 1) 9 3.35 (mmulPoint (stripTranslation M) d r) (dirImg M (rvec d) r) := fun r => by
    rw [strip_eq hA fun i => (hd i).1]
    exact (row3 hX le_rfl ok hM (k := 0) (B := 1) le_rfl zero_le_one (by norm_num)
      (fun i => Ap.exact (hd i).1 (by rw [mul_one]; exact_mod_cast (hd i).2)) r).mono (by linarith) (by norm_num) le_rfl
  set w := mmulPoint (stripTranslation M) d with hw
  set σ := length (dirImg M (rvec d)) with hσd
  have h2 : length (rvec w - dirImg M (rvec d)) ≤ 1.7321 * (9 * P.u * X) := length_of_comp fun r => by
    have := (A r).err
    rw [mul_one] at this
    exact this
  have uX : 0 < P.u * X := by positivity
  have σp : 0 < σ := by linarith
  have l := abs_le.1 ((abs_length_sub (rvec w) (dirImg M (rvec d))).trans h2)
  have lh : σ / 2 ≤ length (rvec w) := by linarith
  obtain ⟨n1, n2⟩ := can_norm hX hu hb (x := w) (fun r => ⟨(A r).fin, by have := (A r).le; rw [mul_one] at this; exact this⟩) (l := σ / 2)
    (by nlinarith) (by linarith) lh
  obtain ⟨k1, k2⟩ := norm_axis hp hs n1 n2 i
  refine ⟨k1, ?_⟩
  have k3 := FltPP.dir_close (w := w) (z := dirImg M (rvec d)) σp (by linarith) h2 i
  have k4 : 2 * (1.7321 * (9 * P.u * X)) / σ ≤ 32 * X / σ * P.u := by
    rw [div_mul_eq_mul_div]
    apply div_le_div_of_nonneg_right _ σp.le
    linarith
  have := abs_sub_le ((normalizeG s w i).val : ℝ) (dir w i) (dirImg M (rvec d) i / σ)
  linarith

/-- A transformed point. -/
theorem point_ap {X Y k B : ℝ} (hX : 1 ≤ X) (hY : 1 ≤ Y) (ok : ApOk P (X * Y)) {M : Mat (Flt P.fmt) 4 4} (hA : Affine M) (hM : Lin X M)
    (ht : ∀ i, (tr M i).isFinite ∧ |((tr M i).val : ℝ)| ≤ X * Y) {p : Vec (Flt P.fmt) 3} {x : Vec ℝ 3}
    (hk : 0 ≤ k) (hB0 : 0 ≤ B) (hB : B ≤ 1.1) (hp : ∀ i, Ap Y k B (p i) (x i)) (r : Fin 3) :
    Ap (X * Y) (3 * k + 13.4) 4.36 (mmulPoint M p r) (ptImg M x r) := by
  rw [point_eq hA fun i => (hp i).fin]
  exact ((row3 hX hY ok hM hk hB0 hB hp r).add ok (Ap.exact (ht r).1 (B := 1) (by rw [one_mul]; exact (ht r).2)) (by norm_num)).mono
    (by positivity) (by linarith) (by norm_num)

end FltMv
open FltMv

/-- The image of a point under an affine matrix, for all points, lines, rays, segments and polygons. -/
theorem C150_point (hp : 10 ≤ P.p) {X Y : ℝ} (hX : 1 ≤ X) (hY : 1 ≤ Y) (hb : 64 * (X * Y) < P.bound) {M : Mat (Flt P.fmt) 4 4} (hA : Affine M) (hM : Lin X M)
    (ht : ∀ i, (tr M i).isFinite ∧ |((tr M i).val : ℝ)| ≤ X * Y) {p : Vec (Flt P.fmt) 3} (hf : ∀ i, (p i).isFinite ∧ |((p i).val : ℝ)| ≤ Y) (s : Flt P.fmt → Flt P.fmt) (d : Vec (Flt P.fmt) 3) :
    ∀ v ∈ [mmulPoint M p, (Line.transformG s ⟨p, d⟩ M).point, (Ray.transformG s ⟨p, d⟩ M).origin], ∀ i,
      (v i).isFinite ∧ |((v i).val : ℝ) - ptImg M (rvec p) i| ≤ 13.4 * 2 ^ (-(P.p : ℤ)) * (X * Y) := by
  have eu : (P.u : ℝ) = 2 ^ (-(P.p : ℤ)) := by unfold BinPar.u; push_cast; rfl
  have h := point_ap hX hY ⟨(ok_one hp).u, one_le_mul_of_one_le_of_one_le hX hY, hb⟩ hA hM ht (k := 0) (B := 1) le_rfl zero_le_one (by norm_num)
    (fun i => Ap.exact (hf i).1 (by rw [one_mul]; exact (hf i).2))
  rw [← eu]
  have h' : ∀ i, (mmulPoint M p i).isFinite ∧ |((mmulPoint M p i).val : ℝ) - ptImg M (rvec p) i| ≤ 13.4 * P.u * (X * Y) := fun i =>
    ⟨(h i).fin, (h i).err.trans (le_of_eq (by ring))⟩
  intro v hv i
  simp only [List.mem_cons, List.not_mem_nil, or_false] at hv
  rcases hv with rfl | rfl | rfl
  · exact h' i
  · exact h' i
  · exact h' i

/-- The directions of transformed lines and rays and the normals of transformed planes. -/
theorem C150_direction (hp : 10 ≤ P.p) {s : Flt P.fmt → Flt P.fmt} (hs : FaithfulSqrt P s) {X : ℝ} (hX : 1 ≤ X) (hb : 1000 * X ^ 2 < P.bound)
    {M : Mat (Flt P.fmt) 4 4} (hA : Affine M) (hM : Lin X M) {d : Vec (Flt P.fmt) 3} (hd : ∀ i, (d i).isFinite ∧ |(d i).val| ≤ 1)
    (hσ : 32 * 2 ^ (-(P.p : ℤ)) * X ≤ length (dirImg M (rvec d))) (hσ2 : 6 * 2 ^ (-(P.p : ℤ)) ≤ length (dirImg M (rvec d)) ^ 2)
    (p : Vec (Flt P.fmt) 3) (D : Flt P.fmt) :
    ∀ v ∈ [(Line.transformG s ⟨p, d⟩ M).direction, (Ray.transformG s ⟨p, d⟩ M).direction, (Plane.transformG s ⟨D, d⟩ M).normal], ∀ i,
      (v i).isFinite ∧ |((v i).val : ℝ) - dirImg M (rvec d) i / length (dirImg M (rvec d))| ≤
        (7.5 + 32 * X / length (dirImg M (rvec d))) * 2 ^ (-(P.p : ℤ)) := by
  have eu : (P.u : ℝ) = 2 ^ (-(P.p : ℤ)) := by unfold BinPar.u; push_cast; rfl
  rw [← eu] at hσ hσ2 ⊢
  have h := direction hp hs hX hb hA hM hd hσ hσ2
  intro v hv i
  simp only [List.mem_cons, List.not_mem_nil, or_false] at hv
  rcases hv with rfl | rfl | rfl
  · exact h i
  · exact h i
  · exact h i

/-- The distance of a transformed plane: compared with the plane through the exact image of the exact anchor with the exact direction. -/
theorem C150_distance (hp : 10 ≤ P.p) {s : Flt P.fmt → Flt P.fmt} (hs : FaithfulSqrt P s) {X Y : ℝ} (hX : 1 ≤ X) (hY : 1 ≤ Y) (hb : 1000 * X ^ 2 < P.bound)
    (hb' : 64 * (X * Y) < P.bound) {M : Mat (Flt P.fmt) 4 4} (hA : Affine M) (hM : Lin X M) (ht : ∀ i, (tr M i).isFinite ∧ |((tr M i).val : ℝ)| ≤ X * Y)
    {n : Vec (Flt P.fmt) 3} (hn : ∀ i, (n i).isFinite ∧ |(n i).val| ≤ 1) {D : Flt P.fmt} (hD : D.isFinite ∧ |(D.val : ℝ)| ≤ Y)
    (hσ : 1000 * 2 ^ (-(P.p : ℤ)) * X ≤ length (dirImg M (rvec n))) (hσ2 : 6 * 2 ^ (-(P.p : ℤ)) ≤ length (dirImg M (rvec n)) ^ 2) :
    (Plane.transformG s ⟨D, n⟩ M).distance.isFinite ∧
    |((Plane.transformG s ⟨D, n⟩ M).distance.val : ℝ) -
        dot (ptImg M (vscale (rvec n) (D.val : ℝ))) (vscale (dirImg M (rvec n)) (1 / length (dirImg M (rvec n))))| ≤
      (187 + 423 * X / length (dirImg M (rvec n))) * 2 ^ (-(P.p : ℤ)) * (X * Y) := by
  have eu : (P.u : ℝ) = 2 ^ (-(P.p : ℤ)) := by unfold BinPar.u; push_cast; rfl
  rw [← eu] at hσ hσ2 ⊢
  have u0 := Ap.u_pos P
  have hu := (ok_one hp).u
  have XY1 := one_le_mul_of_one_le_of_one_le hX hY
  have ok : ApOk P (X * Y) := ⟨hu, XY1, hb'⟩
  have YXY : Y ≤ X * Y := le_mul_of_one_le_left (by linarith) hX
  have okY : ApOk P Y := ⟨hu, hY, by linarith⟩
  have uX : 0 < P.u * X := by positivity
  have σp : 0 < length (dirImg M (rvec n)) := by linarith
  have an : ∀ i, Ap Y 1.001 1.002 (vscale n D i) (vscale (rvec n) (D.val : ℝ) i) := fun i =>
    (Ap.mul okY (Ap.exact (hn i).1 (B := 1) (by rw [mul_one]; exact_mod_cast (hn i).2)) (Ap.exact hD.1 (B := 1) (by rw [one_mul]; exact hD.2))
      le_rfl zero_le_one le_rfl zero_le_one (by norm_num)).mono (by linarith) (by norm_num) (by norm_num)
  have pt := fun i => (point_ap hX hY ok hA hM ht (p := vscale n D) (x := vscale (rvec n) (D.val : ℝ)) (by norm_num) (by norm_num) (by norm_num) an i).mono
    (k1 := 16.41) (B1 := 4.36) (by linarith) (by norm_num) le_rfl
  have dr := direction hp hs hX hb hA hM hn (by linarith) hσ2
  set z := dirImg M (rvec n) with hz
  set σ := length z with hσd
  set k' := 7.5 + 32 * X / σ with hk'
  have q0 : 0 ≤ X / σ := by positivity
  have qu : X / σ * P.u ≤ 1 / 1000 := by
    rw [div_mul_eq_mul_div, div_le_iff₀ σp]
    linarith
  have k0 : 0 ≤ k' := by rw [hk', mul_div_assoc]; linarith
  have ku : k' * P.u ≤ 0.0395 := by
    rw [hk', mul_div_assoc]
    nlinarith
  have cz : ∀ i, |z i / σ| ≤ 1 := fun i => by
    rw [abs_div, abs_of_pos σp, div_le_one σp]
    exact comp_le_length z i
  have nr : ∀ i, Ap 1 k' 1.04 (normalizeG s (mmulPoint (stripTranslation M) n) i) (vscale z (1 / σ) i) := fun i => by
    have e : vscale z (1 / σ) i = z i / σ := by show z i * (1 / σ) = _; ring
    obtain ⟨f, g⟩ := dr i
    refine ⟨f, by rw [e, mul_one]; exact g, ?_⟩
    have := abs_sub_abs_le_abs_sub ((normalizeG s (mmulPoint (stripTranslation M) n) i).val : ℝ) (z i / σ)
    have := cz i
    linarith
  have ok1 : ApOk P (X * Y * 1) := by rw [mul_one]; exact ok
  have XY0 : 0 ≤ X * Y * 1 := by linarith
  have m : ∀ i, Ap (X * Y * 1) (21.7 + 4.38 * k') 4.55 (mmulPoint M (vscale n D) i * normalizeG s (mmulPoint (stripTranslation M) n) i)
      (ptImg M (vscale (rvec n) (D.val : ℝ)) i * vscale z (1 / σ) i) := fun i =>
    (FltCol.ap_mul (by linarith) zero_le_one ok1 (pt i) (nr i) (by norm_num) (by norm_num) k0 (by norm_num) (by norm_num)).mono XY0 (by linarith) (by norm_num)
  have m2 := ((m 0).add ok1 (m 1) (by norm_num)).mono (k1 := 52.6 + 8.76 * k') (B1 := 9.12) XY0 (by linarith) (by norm_num)
  have m3 := (m2.add ok1 (m 2) (by norm_num)).mono (k1 := 88 + 13.2 * k') (B1 := 14) XY0 (by linarith) (by norm_num)
  show (dot (mmulPoint M (vscale n D)) (normalizeG s (mmulPoint (stripTranslation M) n))).isFinite ∧ _
  rw [FltQt.dot3, vm.dot3]
  refine ⟨m3.fin, ?_⟩
  have e := m3.err
  rw [mul_one] at e
  show |((dot (mmulPoint M (vscale n D)) (normalizeG s (mmulPoint (stripTranslation M) n))).val : ℝ) - _| ≤ _
  rw [FltQt.dot3]
  refine e.trans ?_
  have : 88 + 13.2 * k' ≤ 187 + 423 * X / σ := by rw [hk', mul_div_assoc, mul_div_assoc]; linarith
  exact mul_le_mul_of_nonneg_right (mul_le_mul_of_nonneg_right this u0.le) (by linarith)

/-! ### Translations -/

namespace FltMv

theorem translation_affine (t : Vec (Flt P.fmt) 3) : Affine (translationMatrix t) := by
  rw [translation_aff]
  exact ⟨fun c => by fin_cases c <;> rfl, rfl⟩

theorem strip_translation (t : Vec (Flt P.fmt) 3) {p : Vec (Flt P.fmt) 3} (hp : ∀ i, (p i).isFinite) :
    mmulPoint (stripTranslation (translationMatrix t)) p = p := by
  have e : stripTranslation (translationMatrix t) = translationMatrix (0 : Vec (Flt P.fmt) 3) := by
    rw [strip_aff (translation_affine t), translation_aff, translation_aff]
    funext c r
    fin_cases c <;> fin_cases r <;> rfl
  rw [e, C103_translation _ _ _ hp]
  funext i
  exact Flt.add_zero' _

end FltMv

/-- A translation moves the point by one floating point addition per component and normalises the direction once more. -/
theorem C150_translation (s : Flt P.fmt → Flt P.fmt) (p d t : Vec (Flt P.fmt) 3) (D : Flt P.fmt) (hp : ∀ i, (p i).isFinite) (hd : ∀ i, (d i).isFinite)
    (hD : ∀ i, (d i * D).isFinite) :
    Line.transformG s ⟨p, d⟩ (translationMatrix t) = ⟨p + t, normalizeG s d⟩ ∧
    Ray.transformG s ⟨p, d⟩ (translationMatrix t) = ⟨p + t, normalizeG s d⟩ ∧
    Plane.transformG s ⟨D, d⟩ (translationMatrix t) = ⟨dot (fun i => d i * D + t i) (normalizeG s d), normalizeG s d⟩ := by
  refine ⟨?_, ?_, ?_⟩
  · show Line.mk _ _ = _
    rw [C103_translation _ _ _ hp, strip_translation t hd]
  · show Ray.mk _ _ = _
    rw [C103_translation _ _ _ hp, strip_translation t hd]
  · show Plane.mk (dot (mmulPoint _ (vscale d D)) _) _ = _
    rw [C103_translation _ _ (vscale d D) hD, strip_translation t hd]
    rfl

/-- Translating an axis-parallel plane costs a single rounding: the normal stays as it is, and the component of the offset along the normal is added to
the distance. -/
theorem C150_axis {s : Flt P.fmt → Flt P.fmt} (hs : FaithfulSqrt P s) (k : Fin 3) {σ : Flt P.fmt} (hσ : σ = 1 ∨ σ = -1) {D : Flt P.fmt} (hD : D.isFinite)
    {t : Vec (Flt P.fmt) 3} (ht : ∀ i, (t i).isFinite) :
    Plane.transformG s ⟨D, fun i => if i = k then σ else 0⟩ (translationMatrix t) = ⟨D + σ * t k, fun i => if i = k then σ else 0⟩ := by
  have h0 : (0 : Flt P.fmt) * D = 0 := Flt.zero_mul_fin hD
  have hDk : ∀ i, (FltPP.ax k σ i * D).isFinite := fun i => by
    unfold FltPP.ax
    split_ifs
    · rcases hσ with rfl | rfl
      · rw [Flt.one_mul']; exact hD
      · rw [Flt.neg_one_mul']; exact Flt.neg_finite.2 hD
    · rw [h0]; exact Flt.zero_finite
  have h := (C150_translation s 0 (FltPP.ax k σ) t D (fun _ => Flt.zero_finite) (FltPP.ax_finite hσ) hDk).2.2
  rw [FltPP.ax_normalize hs hσ] at h
  refine h.trans ?_
  have e : dot (fun i => FltPP.ax k σ i * D + t i) (FltPP.ax k σ) = D + σ * t k := by
    unfold dot
    rw [fsum_single (fun i => (FltPP.ax k σ i * D + t i) * FltPP.ax k σ i) k]
    · show ((if k = k then σ else 0) * D + t k) * (if k = k then σ else 0) = _
      rw [if_pos rfl]
      rcases hσ with rfl | rfl
      · rw [Flt.one_mul', Flt.one_mul', Flt.mul_one']
      · rw [Flt.neg_one_mul', Flt.neg_one_mul', Flt.mul_comm', Flt.neg_one_mul', Flt.neg_add', Flt.neg_neg']
    · intro j hj
      show ((if j = k then σ else 0) * D + t j) * (if j = k then σ else 0) = 0
      rw [if_neg hj, h0, Flt.zero_add']
      exact Flt.mul_zero_fin (ht j)
  rw [e]
  rfl

namespace FltMv

/-- Evaluate a correctly rounded square root of a float. -/
theorem sqrt_near {s : Flt binary32.fmt → Flt binary32.fmt} (hs : CorrectSqrt binary32 s) {x : Flt binary32.fmt} {q : ℚ} (hx : x.isFinite ∧ x.val = q)
    {c : ℚ} {j : ℤ} (m : ℤ) (hc : c = m * 2 ^ j) (hm : |m| < 2 ^ 24) (hj : -149 ≤ j) (hlo : 2 ^ (j + 23) + 2 ^ j ≤ c) (hcb : |c| ≤ 2 ^ 100)
    (h1 : (c - 2 ^ j / 2) ^ 2 < q) (h2 : q < (c + 2 ^ j / 2) ^ 2) : (s x).isFinite ∧ (s x).val = c := by
  have j0 : (0 : ℚ) < 2 ^ j := by positivity
  have j1 : (0 : ℚ) < 2 ^ (j + 23) := by positivity
  have jj : (2 : ℚ) ^ j ≤ 2 ^ (j + 23) := zpow_le_zpow_right₀ (by norm_num) (by omega)
  have q0 : 0 ≤ q := (sq_nonneg _).trans h1.le
  obtain ⟨f1, f2⟩ := Flt.eq_fin hx.1
  obtain ⟨r, hr, h3, h4⟩ := hs.fin x.val f1 (by rw [hx.2]; exact q0)
  rw [f2, h3]
  refine ⟨trivial, ?_⟩
  show r = c
  have rc := h4 c ⟨⟨m, j, hc, hm, hj⟩, lt_bound32 hcb⟩
  rw [hx.2] at rc
  have d : |(c : ℝ) - Real.sqrt q| < ((2 ^ j / 2 : ℚ) : ℝ) := by
    have a1 : ((c - 2 ^ j / 2 : ℚ) : ℝ) < Real.sqrt q := Real.lt_sqrt_of_sq_lt (by exact_mod_cast h1)
    have a2 : Real.sqrt q < ((c + 2 ^ j / 2 : ℚ) : ℝ) := (Real.sqrt_lt' (by
      have : (0 : ℚ) < c + 2 ^ j / 2 := by linarith
      exact_mod_cast this)).2 (by exact_mod_cast h2)
    push_cast at a1 a2 ⊢
    exact abs_lt.2 ⟨by linarith, by linarith⟩
  have e : |(r : ℝ) - c| < ((2 ^ j : ℚ) : ℝ) := by
    have := abs_sub_le (r : ℝ) (Real.sqrt q) c
    rw [abs_sub_comm (Real.sqrt (q : ℝ)) c] at this
    have k : ((2 ^ j / 2 : ℚ) : ℝ) + ((2 ^ j / 2 : ℚ) : ℝ) = ((2 ^ j : ℚ) : ℝ) := by push_cast; ring
    linarith
  have e' : |r - c| < 2 ^ j := by exact_mod_cast e
  have e2 := abs_lt.1 e'
  obtain ⟨n, hn⟩ := hr.1.multiple (j := j) (by
    have : (j + binary32.p - 1 : ℤ) = j + 23 := by norm_num [binary32]; ring
    rw [this]
    rw [abs_of_pos (by linarith)]
    linarith)
  have hnm : n = m := by
    have : |((n - m : ℤ) : ℚ)| * 2 ^ j < 1 * 2 ^ j := by
      rw [one_mul, ← abs_of_pos j0, ← abs_mul, abs_of_pos j0]
      push_cast
      rw [sub_mul, ← hn, ← hc]
      exact e'
    have := lt_of_mul_lt_mul_right this j0.le
    have : |n - m| < 1 := by exact_mod_cast this
    have := abs_lt.1 this
    omega
  rw [hn, hnm, hc]

/-- Three equal components. -/
def thrice (x : Flt P.fmt) : Vec (Flt P.fmt) 3 := fun _ => x

theorem thrice_normalize (s : Flt P.fmt → Flt P.fmt) (x : Flt P.fmt) : normalizeG s (thrice x) = thrice (x / s (x * x + x * x + x * x)) := by
  funext i
  show x / s (dot (thrice x) (thrice x)) = _
  rw [FltQt.dot3]
  rfl

end FltMv

/-- Transforming with the identity matrix is not the identity, and repeating it does not settle: with floats and a correctly rounded square root the
normalised direction (1, 1, 1) alternates between two vectors, and the distance of a plane with this normal moves from 3 to 3 + 2^-21. -/
theorem C150_identity_fails : ∃ x y : Flt binary32.fmt, x ≠ y ∧ ∀ s, CorrectSqrt binary32 s →
    normalizeG s (fun _ => 1) = (fun _ : Fin 3 => x) ∧
    (∀ p : Vec (Flt binary32.fmt) 3, (∀ i, (p i).isFinite) →
      Ray.transformG s ⟨p, fun _ => x⟩ (translationMatrix 0) = ⟨p, fun _ => y⟩ ∧ Ray.transformG s ⟨p, fun _ => y⟩ (translationMatrix 0) = ⟨p, fun _ => x⟩) ∧
    ∀ D : Flt binary32.fmt, D.isFinite → D.val = 3 → (Plane.transformG (S := 3) s ⟨D, fun _ => x⟩ (translationMatrix 0)).distance.val = 3 + 1 / 2 ^ 21 := by
  have hX : (Flt.round (4843165 / 8388608) : Flt binary32.fmt).isFinite ∧ (Flt.round (4843165 / 8388608) : Flt binary32.fmt).val = 4843165 / 8388608 :=
    is_round (by fl_num (-24) 9686330) (lt_bound32 (by norm_num [abs_le]))
  have hY : (Flt.round (9686331 / 16777216) : Flt binary32.fmt).isFinite ∧ (Flt.round (9686331 / 16777216) : Flt binary32.fmt).val = 9686331 / 16777216 :=
    is_round (by fl_num (-24) 9686331) (lt_bound32 (by norm_num [abs_le]))
  set x : Flt binary32.fmt := Flt.round (4843165 / 8388608)
  set y : Flt binary32.fmt := Flt.round (9686331 / 16777216)
  refine ⟨x, y, fun h => ?_, fun s hs => ?_⟩
  · have := hX.2
    rw [h, hY.2] at this
    norm_num at this
  have h1 : (1 : Flt binary32.fmt).isFinite ∧ (1 : Flt binary32.fmt).val = 1 := ⟨Flt.one_finite, Flt.one_val⟩
  have op := is_mul (c := (1)) h1 h1 (by fl_num (-23) (8388608)) (lt_bound32 (by norm_num [abs_le]))
  have oa := is_add (c := (2)) op op (by fl_num (-22) (8388608)) (lt_bound32 (by norm_num [abs_le]))
  have ob := is_add (c := (3)) oa op (by fl_num (-22) (12582912)) (lt_bound32 (by norm_num [abs_le]))
  have ol := sqrt_near hs ob (c := (14529495 / 8388608)) (j := -23) (14529495) (by norm_num) (by norm_num [abs_lt]) (by norm_num) (by norm_num) (by norm_num [abs_le]) (by norm_num) (by norm_num)
  have oq := is_div (c := (4843165 / 8388608)) h1 ol (by norm_num) (by fl_num (-24) (9686330)) (lt_bound32 (by norm_num [abs_le]))
  have xp := is_mul (c := (5592405 / 16777216)) hX hX (by fl_num (-25) (11184810)) (lt_bound32 (by norm_num [abs_le]))
  have xa := is_add (c := (5592405 / 8388608)) xp xp (by fl_num (-24) (11184810)) (lt_bound32 (by norm_num [abs_le]))
  have xb := is_add (c := (16777215 / 16777216)) xa xp (by fl_num (-24) (16777215)) (lt_bound32 (by norm_num [abs_le]))
  have xl := sqrt_near hs xb (c := (16777215 / 16777216)) (j := -24) (16777215) (by norm_num) (by norm_num [abs_lt]) (by norm_num) (by norm_num) (by norm_num [abs_le]) (by norm_num) (by norm_num)
  have xq := is_div (c := (9686331 / 16777216)) hX xl (by norm_num) (by fl_num (-24) (9686331)) (lt_bound32 (by norm_num [abs_le]))
  have yp := is_mul (c := (11184813 / 33554432)) hY hY (by fl_num (-25) (11184813)) (lt_bound32 (by norm_num [abs_le]))
  have ya := is_add (c := (11184813 / 16777216)) yp yp (by fl_num (-24) (11184813)) (lt_bound32 (by norm_num [abs_le]))
  have yb := is_add (c := (4194305 / 4194304)) ya yp (by fl_num (-23) (8388610)) (lt_bound32 (by norm_num [abs_le]))
  have yl := sqrt_near hs yb (c := (8388609 / 8388608)) (j := -23) (8388609) (by norm_num) (by norm_num [abs_lt]) (by norm_num) (by norm_num) (by norm_num [abs_le]) (by norm_num) (by norm_num)
  have yq := is_div (c := (4843165 / 8388608)) hY yl (by norm_num) (by fl_num (-24) (9686330)) (lt_bound32 (by norm_num [abs_le]))
  have n1 : normalizeG s (thrice 1) = thrice x := by
    rw [thrice_normalize]; exact congrArg thrice (Flt.ext oq.1 hX.1 (oq.2.trans hX.2.symm))
  have nx : normalizeG s (thrice x) = thrice y := by
    rw [thrice_normalize]; exact congrArg thrice (Flt.ext xq.1 hY.1 (xq.2.trans hY.2.symm))
  have ny : normalizeG s (thrice y) = thrice x := by
    rw [thrice_normalize]; exact congrArg thrice (Flt.ext yq.1 hX.1 (yq.2.trans hX.2.symm))
  have add0 : ∀ p : Vec (Flt binary32.fmt) 3, p + 0 = p := fun p => funext fun i => Flt.add_zero' _
  have z1 : ∀ i : Fin 3, (thrice x i * (0 : Flt binary32.fmt)).isFinite := fun i => by
    show (x * (0 : Flt binary32.fmt)).isFinite
    rw [Flt.mul_zero_fin hX.1]; exact Flt.zero_finite
  have z2 : ∀ i : Fin 3, (thrice y i * (0 : Flt binary32.fmt)).isFinite := fun i => by
    show (y * (0 : Flt binary32.fmt)).isFinite
    rw [Flt.mul_zero_fin hY.1]; exact Flt.zero_finite
  refine ⟨n1, fun p hp => ⟨?_, ?_⟩, fun D hD hv => ?_⟩
  · have h := (C150_translation s p (thrice x) 0 0 hp (fun _ => hX.1) z1).2.1
    rw [nx, add0] at h
    exact h
  · have h := (C150_translation s p (thrice y) 0 0 hp (fun _ => hY.1) z2).2.1
    rw [ny, add0] at h
    exact h
  · have an := is_mul (c := (14529495 / 8388608)) hX ⟨hD, hv⟩ (by fl_num (-23) (14529495)) (lt_bound32 (by norm_num [abs_le]))
    have m := is_mul (c := (8388609 / 8388608)) an hY (by fl_num (-23) (8388609)) (lt_bound32 (by norm_num [abs_le]))
    have m2 := is_add (c := (8388609 / 4194304)) m m (by fl_num (-22) (8388609)) (lt_bound32 (by norm_num [abs_le]))
    have m3 := is_add (c := (6291457 / 2097152)) m2 m (by fl_tie (-22) (12582914)) (lt_bound32 (by norm_num [abs_le]))
    have h := (C150_translation s 0 (thrice x) 0 D (fun _ => Flt.zero_finite) (fun _ => hX.1) fun _ => an.1).2.2
    rw [nx] at h
    have h' : Plane.transformG (S := 3) s ⟨D, fun _ => x⟩ (translationMatrix 0) = ⟨dot (fun i : Fin 3 => thrice x i * D + (0 : Vec (Flt binary32.fmt) 3) i) (thrice y), thrice y⟩ := h
    rw [h']
    show (dot (fun i : Fin 3 => thrice x i * D + (0 : Vec (Flt binary32.fmt) 3) i) (thrice y)).val = _
    have e : (fun i : Fin 3 => thrice x i * D + (0 : Vec (Flt binary32.fmt) 3) i) = thrice (x * D) := funext fun i => Flt.add_zero' _
    rw [e, FltQt.dot3]
    show (x * D * y + x * D * y + x * D * y).val = _
    rw [m3.2]
    norm_num

namespace FltMv

theorem id_lin : Lin (P := P) 1 (translationMatrix 0) := fun c r => by
  rw [translation_aff]
  unfold lin
  have h : ∀ c r : Fin 3, aff (fun c r : Fin 3 => if c = r then (1 : Flt P.fmt) else 0) 0 c.castSucc r.castSucc = if c = r then 1 else 0 := by
    intro c r
    fin_cases c <;> fin_cases r <;> rfl
  rw [h]
  split_ifs
  · exact ⟨Flt.one_finite, by rw [Flt.one_val]; norm_num⟩
  · exact ⟨Flt.zero_finite, by rw [Flt.zero_val]; norm_num⟩

theorem id_tr (i : Fin 3) : tr (P := P) (translationMatrix 0) i = 0 := by
  rw [translation_aff]
  fin_cases i <;> rfl

theorem id_dir (d : Vec ℝ 3) : dirImg (P := P) (translationMatrix 0) d = d := by
  unfold dirImg lin
  rw [translation_aff]
  funext r
  fin_cases r
  · show (((1 : Flt P.fmt).val : ℚ) : ℝ) * d 0 + ((0 : Flt P.fmt).val : ℚ) * d 1 + ((0 : Flt P.fmt).val : ℚ) * d 2 = d 0
    rw [Flt.one_val, Flt.zero_val]; norm_num
  · show (((0 : Flt P.fmt).val : ℚ) : ℝ) * d 0 + ((1 : Flt P.fmt).val : ℚ) * d 1 + ((0 : Flt P.fmt).val : ℚ) * d 2 = d 1
    rw [Flt.one_val, Flt.zero_val]; norm_num
  · show (((0 : Flt P.fmt).val : ℚ) : ℝ) * d 0 + ((0 : Flt P.fmt).val : ℚ) * d 1 + ((1 : Flt P.fmt).val : ℚ) * d 2 = d 2
    rw [Flt.one_val, Flt.zero_val]; norm_num

/-- The vector (1, 1, 1) as a direction. -/
theorem thrice_len : 1 ≤ length (dirImg (P := binary64) (translationMatrix 0) (rvec (thrice (1 : Flt binary64.fmt)))) := by
  rw [id_dir]
  have h := comp_le_length (rvec (thrice (1 : Flt binary64.fmt))) 0
  have e : rvec (thrice (1 : Flt binary64.fmt)) 0 = 1 := by show (((1 : Flt binary64.fmt).val : ℚ) : ℝ) = 1; rw [Flt.one_val]; norm_num
  rw [e, abs_one] at h
  exact h

theorem below64 {x : ℝ} (h : x ≤ 1000) : x < (binary64.bound : ℝ) := by
  have h1 := lt_bound64 (q := 1000) (by norm_num)
  rw [abs_of_pos (by norm_num)] at h1
  have h' : ((1000 : ℚ) : ℝ) < (binary64.bound : ℝ) := by exact_mod_cast h1
  push_cast at h'
  linarith

theorem one_ok (i : Fin 3) : (thrice (1 : Flt binary64.fmt) i).isFinite ∧ |(thrice (1 : Flt binary64.fmt) i).val| ≤ 1 :=
  ⟨Flt.one_finite, by show |(1 : Flt binary64.fmt).val| ≤ 1; rw [Flt.one_val]; norm_num⟩

theorem one_ok' (i : Fin 3) : (thrice (1 : Flt binary64.fmt) i).isFinite ∧ |((thrice (1 : Flt binary64.fmt) i).val : ℝ)| ≤ 1 :=
  ⟨Flt.one_finite, by show |(((1 : Flt binary64.fmt).val : ℚ) : ℝ)| ≤ 1; rw [Flt.one_val]; norm_num⟩

end FltMv

/-- The hypotheses of `C150_point` hold for the point (1, 1, 1) and the identity matrix. -/
example (s : Flt binary64.fmt → Flt binary64.fmt) (i : Fin 3) : ((Ray.transformG s ⟨thrice 1, thrice 1⟩ (translationMatrix 0)).origin i).isFinite :=
  (C150_point (by norm_num [binary64]) le_rfl le_rfl (below64 (by norm_num)) (translation_affine 0) id_lin
    (fun i => ⟨by rw [id_tr]; exact Flt.zero_finite, by rw [id_tr, Flt.zero_val]; norm_num⟩) one_ok' s (thrice 1) _ (by simp) i).1

/-- Those of `C150_direction` for the direction (1, 1, 1). -/
example {s : Flt binary64.fmt → Flt binary64.fmt} (hs : FaithfulSqrt binary64 s) (i : Fin 3) :
    ((Ray.transformG s ⟨0, thrice 1⟩ (translationMatrix 0)).direction i).isFinite :=
  (C150_direction (by norm_num [binary64]) hs le_rfl (below64 (by norm_num)) (translation_affine 0) id_lin one_ok
    (le_trans (by norm_num [binary64]) thrice_len) (le_trans (b := 1) (by norm_num [binary64]) (one_le_pow₀ thrice_len)) 0 0 _ (by simp) i).1

/-- And those of `C150_distance` for a plane with this normal. -/
example {s : Flt binary64.fmt → Flt binary64.fmt} (hs : FaithfulSqrt binary64 s) : (Plane.transformG s ⟨1, thrice 1⟩ (translationMatrix 0)).distance.isFinite :=
  (C150_distance (by norm_num [binary64]) hs le_rfl le_rfl (below64 (by norm_num)) (below64 (by norm_num)) (translation_affine 0) id_lin
    (fun i => ⟨by rw [id_tr]; exact Flt.zero_finite, by rw [id_tr, Flt.zero_val]; norm_num⟩) one_ok
    ⟨Flt.one_finite, by rw [Flt.one_val]; norm_num⟩
    (le_trans (by norm_num [binary64]) thrice_len) (le_trans (b := 1) (by norm_num [binary64]) (one_le_pow₀ thrice_len))).1

end vm
