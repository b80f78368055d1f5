import Verif.Model.FromToG
import Verif.Props.FltMeasure
import Verif.Props.FltAngle

/-! Geometry of the rotation from one vector to another, with inexact axes and angles. -/

set_option linter.unusedSectionVars false
set_option linter.unusedSimpArgs false

namespace vm
namespace FltTo

theorem length_add_le {S : ℕ} (x y : Vec ℝ S) : length (x + y) ≤ length x + length y := by
  rw [length_eq_norm, length_eq_norm, length_eq_norm]
  exact norm_add_le (WithLp.toLp 2 x : EuclideanSpace ℝ (Fin S)) (WithLp.toLp 2 y)

theorem length_neg {S : ℕ} (x : Vec ℝ S) : length (-x) = length x := by
  unfold length squaredLength
  rw [dot_neg_left, dot_neg_right, neg_neg]

theorem length_sub_comm {S : ℕ} (x y : Vec ℝ S) : length (x - y) = length (y - x) := by rw [← length_neg, neg_sub]

theorem abs_length_sub {S : ℕ} (x y : Vec ℝ S) : |length x - length y| ≤ length (x - y) := by
  have h1 := length_add_le (x - y) y
  have h2 := length_add_le (y - x) x
  rw [sub_add_cancel] at h1 h2
  rw [length_sub_comm y x] at h2
  exact abs_le.2 ⟨by linarith, by linarith⟩

theorem comp_le_length (x : Vec ℝ 3) (i : Fin 3) : |x i| ≤ length x := by
  apply abs_le_of_sq_le_sq _ (length_nonneg _)
  rw [length_sq, dot3]
  have := sq_nonneg (x 0); have := sq_nonneg (x 1); have := sq_nonneg (x 2)
  fin_cases i <;> simp only [Fin.zero_eta, Fin.mk_one, Fin.reduceFinMk] <;> nlinarith

theorem length_of_comp {x : Vec ℝ 3} {e : ℝ} (h : ∀ i, |x i| ≤ e) : length x ≤ 1.7321 * e := by
  have e0 : 0 ≤ e := (abs_nonneg _).trans (h 0)
  apply le_of_sq_le_sq _ (by positivity)
  rw [length_sq, dot3]
  have k : ∀ i, x i * x i ≤ e ^ 2 := fun i => by rw [← sq, ← sq_abs]; exact pow_le_pow_left₀ (abs_nonneg _) (h i) 2
  have := k 0; have := k 1; have := k 2
  nlinarith [sq_nonneg e]

theorem abs_dot_le {S : ℕ} (x y : Vec ℝ S) : |dot x y| ≤ length x * length y := by
  apply abs_le_of_sq_le_sq _ (mul_nonneg (length_nonneg _) (length_nonneg _))
  rw [mul_pow, length_sq, length_sq]
  exact dot_sq_le x y

theorem length_cross_sq (x y : Vec ℝ 3) : length (cross x y) ^ 2 = dot x x * dot y y - dot x y ^ 2 := by
  rw [length_sq]
  simp only [dot3, cross_0, cross_1, cross_2]; ring

theorem length_cross_le (x y : Vec ℝ 3) : length (cross x y) ≤ length x * length y := by
  apply le_of_sq_le_sq _ (mul_nonneg (length_nonneg _) (length_nonneg _))
  rw [mul_pow, length_sq x, length_sq y, length_cross_sq]
  nlinarith [sq_nonneg (dot x y)]

/-- Rodrigues' formula with a given cosine and sine. -/
def rodr (m : Vec ℝ 3) (C S : ℝ) (x : Vec ℝ 3) : Vec ℝ 3 := vscale x C + vscale (cross m x) S + vscale m (dot m x * (1 - C))

theorem rodr_sub (m : Vec ℝ 3) (C S : ℝ) (x y : Vec ℝ 3) : rodr m C S (x - y) = rodr m C S x - rodr m C S y := by
  unfold rodr
  apply ext3 <;> simp only [dot3, vscale, Pi.add_apply, Pi.sub_apply, cross_0, cross_1, cross_2] <;> ring

theorem rodr_length {m : Vec ℝ 3} (hm : dot m m = 1) {C S : ℝ} (h : C ^ 2 + S ^ 2 = 1) (x : Vec ℝ 3) : length (rodr m C S x) = length x := by
  have e : length (rodr m C S x) ^ 2 = length x ^ 2 := by
    rw [length_sq, length_sq]
    have hS : S ^ 2 = 1 - C ^ 2 := by linarith
    have hm' : m 0 ^ 2 = 1 - m 1 ^ 2 - m 2 ^ 2 := by rw [dot3] at hm; linarith
    have e : dot (rodr m C S x) (rodr m C S x) = C ^ 2 * dot x x + S ^ 2 * (dot m m * dot x x - dot m x ^ 2)
        + dot m m * (dot m x * (1 - C)) ^ 2 + 2 * C * (1 - C) * dot m x ^ 2 := by
      unfold rodr
      simp only [dot3, vscale, Pi.add_apply, cross_0, cross_1, cross_2]; ring
    rw [e, hm, hS]; ring
  exact (sq_eq_sq₀ (length_nonneg _) (length_nonneg _)).1 e

theorem rodr_near {m : Vec ℝ 3} (hm : dot m m = 1) {C S : ℝ} (h : C ^ 2 + S ^ 2 = 1) {x y : Vec ℝ 3} (i : Fin 3) :
    |rodr m C S x i - rodr m C S y i| ≤ length (x - y) := by
  rw [← rodr_length hm h (x - y), rodr_sub]
  exact comp_le_length (rodr m C S x - rodr m C S y) i

theorem unit_len {m : Vec ℝ 3} (hm : dot m m = 1) : length m = 1 := by
  unfold length squaredLength
  show Real.sqrt (dot m m) = 1
  rw [hm, Real.sqrt_one]

/-- The rotation about the direction of `x`, which is near to `a × b`, with nearly the sine and the cosine of the angle from `a` to `b`, takes `a`
near to `b`. -/
theorem rodr_to {a b x m : Vec ℝ 3} (ha : dot a a = 1) {L C S s ρ δ σ : ℝ} (hs : s = length (cross a b)) (hL : L = length x) (hm : dot m m = 1)
    (hx : x = vscale m L) (hρ : length (x - cross a b) ≤ ρ) (hC : |C - dot a b| ≤ δ) (hC1 : |C| ≤ 1) (hS : |S - s| ≤ σ) (hsp : 0 < s)
    (h10 : 10 * ρ ≤ s) (i : Fin 3) : |rodr m C S a i - b i| ≤ δ + σ + 2 * ρ + 2.3 * ρ / s := by
  have la := unit_len ha
  have lm := unit_len hm
  have ρ0 : 0 ≤ ρ := (length_nonneg _).trans hρ
  have lL : |L - s| ≤ ρ := by rw [hL, hs]; exact (abs_length_sub _ _).trans hρ
  have hLp : 9 / 10 * s ≤ L := by have := abs_le.1 lL; linarith
  have L0 : 0 < L := by linarith
  have e : rodr m C S a i - b i = (C - dot a b) * a i + (S - s) * cross m a i + (s - L) * cross m a i + cross (x - cross a b) a i
      + (1 - C) * dot m a * m i := by
    have h1 : cross (x - cross a b) a = vscale (cross m a) L - (vscale b (dot a a) - vscale a (dot a b)) := by
      rw [hx]
      apply ext3 <;> simp only [dot3, vscale, Pi.add_apply, Pi.sub_apply, cross_0, cross_1, cross_2] <;> ring
    rw [h1, ha]
    simp only [rodr, vscale, Pi.add_apply, Pi.sub_apply]; ring
  have k1 : |(C - dot a b) * a i| ≤ δ := by
    rw [abs_mul]
    have := (comp_le_length a i); rw [la] at this
    nlinarith [abs_nonneg (C - dot a b), abs_nonneg (a i)]
  have cm : |cross m a i| ≤ 1 := by
    refine (comp_le_length _ i).trans ((length_cross_le _ _).trans ?_)
    rw [la, lm, mul_one]
  have k2 : |(S - s) * cross m a i| ≤ σ := by
    rw [abs_mul]; nlinarith [abs_nonneg (S - s), abs_nonneg (cross m a i)]
  have k3 : |(s - L) * cross m a i| ≤ ρ := by
    rw [abs_mul, abs_sub_comm]; nlinarith [abs_nonneg (L - s), abs_nonneg (cross m a i)]
  have k4 : |cross (x - cross a b) a i| ≤ ρ := by
    refine (comp_le_length _ i).trans ((length_cross_le _ _).trans ?_)
    rw [la, mul_one]; exact hρ
  have k5 : |(1 - C) * dot m a * m i| ≤ 2.3 * ρ / s := by
    have d1 : L * dot m a = dot (x - cross a b) a := by
      rw [hx]
      simp only [dot3, vscale, Pi.sub_apply, cross_0, cross_1, cross_2]; ring
    have d2 : L * |dot m a| ≤ ρ := by
      rw [← abs_of_pos L0, ← abs_mul, d1]
      refine (abs_dot_le _ _).trans ?_
      rw [la, mul_one]; exact hρ
    have mi := comp_le_length m i
    rw [lm] at mi
    have c2 : |1 - C| ≤ 2 := by have := abs_le.1 hC1; exact abs_le.2 ⟨by linarith, by linarith⟩
    rw [abs_mul, abs_mul, le_div_iff₀ hsp]
    have d3 : |dot m a| * s ≤ 1.15 * ρ := by nlinarith [abs_nonneg (dot m a)]
    have d4 : |1 - C| * |dot m a| * s ≤ 2.3 * ρ := by
      have := mul_le_mul c2 d3 (by positivity) (by norm_num)
      linarith
    calc |1 - C| * |dot m a| * |m i| * s = (|1 - C| * |dot m a| * s) * |m i| := by ring
      _ ≤ (2.3 * ρ) * 1 := mul_le_mul d4 mi (abs_nonneg _) (by positivity)
      _ = _ := mul_one _
  rw [e]
  have k1 := abs_le.1 k1; have k2 := abs_le.1 k2; have k3 := abs_le.1 k3; have k4 := abs_le.1 k4; have k5 := abs_le.1 k5
  exact abs_le.2 ⟨by linarith, by linarith⟩

/-- The sine of an angle whose cosine is near to that of the angle between two unit vectors. -/
theorem sin_near {a b : Vec ℝ 3} (ha : dot a a = 1) (hb : dot b b = 1) {α δ : ℝ} (h0 : 0 ≤ α) (h1 : α ≤ Real.pi)
    (h : |Real.cos α - dot a b| ≤ δ) (hs : 0 < length (cross a b)) : |Real.sin α - length (cross a b)| ≤ 2 * δ / length (cross a b) := by
  set s := length (cross a b) with hsd
  have e : s ^ 2 = 1 - dot a b ^ 2 := by rw [hsd, length_cross_sq, ha, hb]; ring
  have sn := Real.sin_nonneg_of_nonneg_of_le_pi h0 h1
  have e2 := Real.sin_sq_add_cos_sq α
  have c1 := abs_le.1 (Real.abs_cos_le_one α)
  have d1 : |dot a b| ≤ 1 := by rw [abs_le_one_iff_mul_self_le_one]; nlinarith
  have d2 := abs_le.1 d1
  rw [le_div_iff₀ hs]
  have k : |Real.sin α - s| * (Real.sin α + s) = |Real.cos α - dot a b| * |Real.cos α + dot a b| := by
    rw [← abs_mul]
    nth_rewrite 1 [← abs_of_nonneg (by linarith : 0 ≤ Real.sin α + s)]
    rw [← abs_mul, ← abs_neg]
    congr 1
    nlinarith
  have k2 : |Real.cos α + dot a b| ≤ 2 := abs_le.2 ⟨by linarith, by linarith⟩
  have k3 : |Real.cos α - dot a b| * |Real.cos α + dot a b| ≤ δ * 2 := mul_le_mul h k2 (abs_nonneg _) ((abs_nonneg _).trans h)
  nlinarith [abs_nonneg (Real.sin α - s)]

section flt
open FltAng FltRot
variable {P : BinPar} {sn cs : Flt P.fmt → Flt P.fmt}

/-- The direction of a vector of floating point numbers. -/
noncomputable def dir (w : Vec (Flt P.fmt) 3) : Vec ℝ 3 := fun i => ((w i).val : ℝ) / realLen w

theorem realLen_rvec (w : Vec (Flt P.fmt) 3) : realLen w = length (rvec w) := by
  unfold realLen length squaredLength
  rw [dot3, Fin.sum_univ_three]
  simp only [rvec, sq]

theorem dir_unit {w : Vec (Flt P.fmt) 3} (h0 : 0 < realLen w) : dot (dir w) (dir w) = 1 := by
  have e := length_sq (rvec w)
  rw [← realLen_rvec, dot3] at e
  rw [dot3]
  unfold dir
  simp only [rvec] at e
  field_simp
  linarith

theorem dir_scale {w : Vec (Flt P.fmt) 3} (h0 : 0 < realLen w) : rvec w = vscale (dir w) (realLen w) := by
  funext i
  simp only [rvec, vscale, dir]
  field_simp

theorem norm_axis (hp : 10 ≤ P.p) {s : Flt P.fmt → Flt P.fmt} (hs : FaithfulSqrt P s) {w : Vec (Flt P.fmt) 3}
    (hw : (squaredLength w).isFinite) (hn : NoUnderflow w) (i : Fin 3) :
    (normalizeG s w i).isFinite ∧ |((normalizeG s w i).val : ℝ) - dir w i| ≤ 7.5 * P.u := by
  have ok := ok_one hp
  have u0 := Ap.u_pos P
  have hu := ok.u
  have he := Ap.eta_small ok
  have hl : P.lenErr 3 ≤ 1 / 50 := by
    have : 1000 * P.u ≤ 1 := by exact_mod_cast hu
    unfold BinPar.lenErr
    push_cast
    linarith
  have hn3 : (P.normErr 3 : ℝ) = 29 / 4 * P.u := by
    unfold BinPar.normErr BinPar.lenErr
    push_cast
    ring
  have h0 := realLen_pos (by norm_num) hn
  obtain ⟨f, e⟩ := C101_normalize_error P (by norm_num) hl hs w hw hn i
  refine ⟨f, e.trans ?_⟩
  have le : |((w i).val : ℝ)| / realLen w ≤ 1 := by
    rw [div_le_one h0, realLen_rvec]
    exact comp_le_length (rvec w) i
  rw [hn3]
  have := mul_le_mul_of_nonneg_left le (by positivity : (0 : ℝ) ≤ 29 / 4 * P.u)
  linarith

/-- Rotation about a normalised vector. -/
theorem norm_rotate (hp : 10 ≤ P.p) (hT : AccurateTrig P sn cs) {s : Flt P.fmt → Flt P.fmt} (hs : FaithfulSqrt P s) {w : Vec (Flt P.fmt) 3}
    (hw : (squaredLength w).isFinite) (hn : NoUnderflow w) {t : Flt P.fmt} (ht : t.isFinite) {p : Vec (Flt P.fmt) 3} {V : ℚ}
    (hf : ∀ i, (p i).isFinite) (hV : 0 ≤ V) (hpV : vnorm2 (vval p) ≤ V ^ 2) (hb : 300 * V + 300 < P.bound) (i : Fin 3) :
    ((Quat.ofAxisAngleG sn cs (normalizeG s w) t).rotate p i).isFinite ∧
    |(((Quat.ofAxisAngleG sn cs (normalizeG s w) t).rotate p i).val : ℝ) - rodr (dir w) (Real.cos t.val) (Real.sin t.val) (rvec p) i|
      ≤ 296 * P.u * V + 47 * P.eta := by
  have u0 := Ap.u_pos P
  have hu := (ok_one hp).u
  have V0 : (0 : ℝ) ≤ V := by exact_mod_cast hV
  obtain ⟨f, e⟩ := C131_quat_rotate hp hT (fun i => (norm_axis hp hs hw hn i).1) (dir_unit (realLen_pos (by norm_num) hn)) (by linarith)
    (fun i => (norm_axis hp hs hw hn i).2) ht hf hV hpV hb i
  refine ⟨f, e.trans ?_⟩
  nlinarith [mul_nonneg u0.le V0]

/-- A finite vector whose components differ from those of a unit vector by at most `ε`. -/
def NearTo (v : Vec (Flt P.fmt) 3) (a : Vec ℝ 3) (ε : ℝ) : Prop :=
  (∀ i, (v i).isFinite) ∧ dot a a = 1 ∧ (∀ i, |((v i).val : ℝ) - a i| ≤ ε) ∧ ε ≤ 1 / 100000

variable {v w : Vec (Flt P.fmt) 3} {a b : Vec ℝ 3} {ε : ℝ}

theorem NearTo.pos (h : NearTo v a ε) : 0 ≤ ε := (abs_nonneg _).trans (h.2.2.1 0)

theorem NearTo.unit (h : NearTo v a ε) : NearUnit v := near_unit h.1 h.2.1 (h.2.2.2.trans (by norm_num)) h.2.2.1

theorem NearTo.dist (h : NearTo v a ε) : length (rvec v - a) ≤ 1.7321 * ε := length_of_comp h.2.2.1

theorem NearTo.len (h : NearTo v a ε) : length (rvec v) ≤ 1.00002 := by
  have h1 := length_add_le (rvec v - a) a
  rw [sub_add_cancel, unit_len h.2.1] at h1
  have := h.dist; have := h.2.2.2
  linarith

theorem NearTo.norm2 (h : NearTo v a ε) : vnorm2 (vval v) ≤ (1001 / 1000) ^ 2 := by
  have h1 := length_sq (rvec v)
  have h2 := h.len
  have h3 := length_nonneg (rvec v)
  rw [dot3] at h1
  have h4 : ((vnorm2 (vval v) : ℚ) : ℝ) ≤ (((1001 / 1000) ^ 2 : ℚ) : ℝ) := by
    unfold vnorm2 vval
    push_cast
    simp only [rvec] at h1 h2 h3
    nlinarith
  exact_mod_cast h4

theorem cos_near (hp : 10 ≤ P.p) (hv : NearTo v a ε) (hw : NearTo w b ε) :
    (dot v w).isFinite ∧ |((dot v w).val : ℝ) - dot a b| ≤ 8.4 * P.u + 3.47 * ε := by
  have d := dot_ap hp hv.unit hw.unit
  refine ⟨d.fin, ?_⟩
  have e := d.err
  have k1 := (abs_dot_le (rvec v - a) (rvec w))
  have k2 := (abs_dot_le a (rvec w - b))
  rw [unit_len hv.2.1, one_mul] at k2
  have k3 : length (rvec v - a) * length (rvec w) ≤ 1.7321 * ε * 1.00002 :=
    mul_le_mul hv.dist hw.len (length_nonneg _) (by have := hv.pos; positivity)
  have e2 : dot (rvec v) (rvec w) - dot a b = dot (rvec v - a) (rvec w) + dot a (rvec w - b) := by
    rw [dot_sub_left, dot_sub_right]; ring
  have k1 := abs_le.1 (k1.trans k3); have k2 := abs_le.1 (k2.trans hw.dist); have e := abs_le.1 e
  have := hv.pos
  exact abs_le.2 ⟨by linarith, by linarith⟩

theorem cross_near (hp : 10 ≤ P.p) (hv : NearTo v a ε) (hw : NearTo w b ε) :
    (∀ i, (cross v w i).isFinite ∧ |((cross v w i).val : ℝ)| ≤ 2.1) ∧ length (rvec (cross v w) - cross a b) ≤ 7.22 * P.u + 3.47 * ε := by
  have ok := ok_one hp
  have u0 := Ap.u_pos P
  have hu := ok.u
  have m : ∀ i j, Ap 1 1.041 1.042 (v i * w j) (rvec v i * rvec w j) := fun i j =>
    (Ap.mul ok (ap_of hv.unit i) (ap_of hw.unit j) (by norm_num) (by norm_num) (by norm_num) (by norm_num) (by norm_num)).mono zero_le_one
      (by norm_num) (by norm_num)
  have c : ∀ i j k l, Ap 1 4.168 2.088 (v i * w j - v k * w l) (rvec v i * rvec w j - rvec v k * rvec w l) := fun i j k l =>
    (Ap.sub ok (m i j) (m k l) (by norm_num)).mono zero_le_one (by norm_num) (by norm_num)
  have A : ∀ i, Ap 1 4.168 2.088 (cross v w i) (cross (rvec v) (rvec w) i) := fun i => by
    fin_cases i
    · exact c 1 2 2 1
    · exact c 2 0 0 2
    · exact c 0 1 1 0
  have h1 : length (rvec (cross v w) - cross (rvec v) (rvec w)) ≤ 1.7321 * (4.168 * P.u) := length_of_comp fun i => by
    have := (A i).err; rw [mul_one] at this; exact this
  have k1 := length_cross_le (rvec v - a) (rvec w)
  have k2 := length_cross_le a (rvec w - b)
  rw [unit_len hv.2.1, one_mul] at k2
  have k3 : length (rvec v - a) * length (rvec w) ≤ 1.7321 * ε * 1.00002 :=
    mul_le_mul hv.dist hw.len (length_nonneg _) (by have := hv.pos; positivity)
  have e2 : rvec (cross v w) - cross a b = (rvec (cross v w) - cross (rvec v) (rvec w)) + (cross (rvec v - a) (rvec w) + cross a (rvec w - b)) := by
    apply ext3 <;> simp only [Pi.add_apply, Pi.sub_apply, cross_0, cross_1, cross_2] <;> ring
  have e0 := hv.pos
  have tot : length (rvec (cross v w) - cross a b) ≤ 7.22 * P.u + 3.47 * ε := by
    rw [e2]
    refine (length_add_le _ _).trans ?_
    have := length_add_le (cross (rvec v - a) (rvec w)) (cross a (rvec w - b))
    have := hw.dist
    linarith
  refine ⟨fun i => ⟨(A i).fin, ?_⟩, tot⟩
  have := (A i).le
  linarith

/-- Vectors with components of size at most 2.1 and a length that is not tiny can be normalised. -/
theorem can_normalise (hp : 10 ≤ P.p) {x : Vec (Flt P.fmt) 3} (hx : ∀ i, (x i).isFinite ∧ |((x i).val : ℝ)| ≤ 2.1) {l : ℝ}
    (hl : 3 / 2 * P.u ≤ l ^ 2) (l0 : 0 ≤ l) (h : l ≤ length (rvec x)) : (squaredLength x).isFinite ∧ NoUnderflow x := by
  have ok := ok_one hp
  have A : ∀ i, Ap 1 0 2.1 (x i) (rvec x i) := fun i => Ap.exact (hx i).1 (by rw [mul_one]; exact (hx i).2)
  have m : ∀ i, Ap 1 4.42 4.42 (x i * x i) (rvec x i * rvec x i) := fun i =>
    (Ap.mul ok (A i) (A i) (by norm_num) (by norm_num) (by norm_num) (by norm_num) (by norm_num)).mono zero_le_one (by norm_num) (by norm_num)
  constructor
  · show (dot x x).isFinite
    rw [FltQt.dot3]
    exact (Ap.add ok ((Ap.add ok (m 0) (m 1) (by norm_num)).mono zero_le_one (k1 := 20) (B1 := 8.9) (by norm_num) (by norm_num)) (m 2)
      (by norm_num)).fin
  · unfold NoUnderflow
    have h1 := length_sq (rvec x)
    rw [dot3] at h1
    have h2 : l ^ 2 ≤ length (rvec x) ^ 2 := pow_le_pow_left₀ l0 h 2
    have h3 := Ap.eta_le P
    have u0 := Ap.u_pos P
    have k : (((3 : ℕ) * P.eta : ℚ) : ℝ) ≤ ((P.u * ∑ i, (x i).val ^ 2 : ℚ) : ℝ) := by
      rw [Fin.sum_univ_three]
      push_cast
      have e : length (rvec x) ^ 2 = ((x 0).val : ℝ) ^ 2 + ((x 1).val : ℝ) ^ 2 + ((x 2).val : ℝ) ^ 2 := by rw [h1]; simp only [rvec]; ring
      rw [← e]
      have := mul_le_mul_of_nonneg_left (hl.trans h2) u0.le
      linarith
    exact_mod_cast k

end flt
end FltTo
end vm
