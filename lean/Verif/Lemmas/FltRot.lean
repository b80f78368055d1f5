import Verif.Model.RotG
import Verif.Lemmas.FltAp
import Verif.Lemmas.MatExt
import Verif.Props.FltMat
import Verif.Props.FltInterp
import Verif.Props.Rotation

/-! Rotation matrices in IEEE arithmetic: the errors of the entries and of rotated points. -/

set_option linter.unusedSectionVars false
set_option linter.unusedSimpArgs false

namespace vm
variable {P : BinPar}

/-- The functions `sn` and `cs` compute the sine and the cosine of a finite number with a relative error of at most two rounding errors
(and half of the least positive number). -/
structure AccurateTrig (P : BinPar) (sn cs : Flt P.fmt → Flt P.fmt) : Prop where
  sin_fin : ∀ x, x.isFinite → (sn x).isFinite
  cos_fin : ∀ x, x.isFinite → (cs x).isFinite
  sin_err : ∀ x, x.isFinite → |((sn x).val : ℝ) - Real.sin x.val| ≤ 2 * P.u * |Real.sin x.val| + P.eta
  cos_err : ∀ x, x.isFinite → |((cs x).val : ℝ) - Real.cos x.val| ≤ 2 * P.u * |Real.cos x.val| + P.eta

namespace FltRot

theorem ok_one (hp : 10 ≤ P.p) : ApOk P 1 := by
  refine ⟨?_, le_rfl, ?_⟩
  · have : 1000 * P.u ≤ 1 := by
      unfold BinPar.u
      have : (2 : ℚ) ^ (-(P.p : ℤ)) ≤ 2 ^ (-10 : ℤ) := zpow_le_zpow_right₀ (by norm_num) (by omega)
      norm_num at this ⊢
      linarith
    exact_mod_cast this
  · have : (64 : ℚ) * 1 < P.bound := by
      unfold BinPar.bound
      have h := P.hmax
      have : (2 : ℚ) ^ (10 : ℤ) ≤ 2 ^ ((P.p : ℤ) + P.qmax) := zpow_le_zpow_right₀ (by norm_num) (by omega)
      norm_num at this ⊢
      linarith
    exact_mod_cast this

theorem ok_of (hp : 10 ≤ P.p) {X : ℝ} (h1 : 1 ≤ X) (hX : 64 * X < P.bound) : ApOk P X := ⟨(ok_one hp).u, h1, hX⟩

section trig
variable {sn cs : Flt P.fmt → Flt P.fmt}

theorem trig_ap (hp : 10 ≤ P.p) {x : Flt P.fmt} {y : ℝ} (hx : x.isFinite) (h1 : |y| ≤ 1) (h : |(x.val : ℝ) - y| ≤ 2 * P.u * |y| + P.eta) :
    Ap 1 2.0005 1.003 x y := by
  have ok := ok_one hp
  have hu := ok.u
  have u0 := Ap.u_pos P
  have he := Ap.eta_small ok
  have : 2 * P.u * |y| ≤ 2 * P.u := mul_le_of_le_one_right (by linarith) h1
  have k1 := abs_le.1 h
  have k2 := abs_le.1 h1
  refine ⟨hx, ?_, ?_⟩
  · exact abs_le.2 ⟨by linarith, by linarith⟩
  · exact abs_le.2 ⟨by linarith, by linarith⟩

theorem sin_ap (hp : 10 ≤ P.p) (hT : AccurateTrig P sn cs) {x : Flt P.fmt} (hx : x.isFinite) : Ap 1 2.0005 1.003 (sn x) (Real.sin x.val) :=
  trig_ap hp (hT.sin_fin x hx) (Real.abs_sin_le_one _) (hT.sin_err x hx)

theorem cos_ap (hp : 10 ≤ P.p) (hT : AccurateTrig P sn cs) {x : Flt P.fmt} (hx : x.isFinite) : Ap 1 2.0005 1.003 (cs x) (Real.cos x.val) :=
  trig_ap hp (hT.cos_fin x hx) (Real.abs_cos_le_one _) (hT.cos_err x hx)

theorem axisG_eq {T : Type*} [Zero T] [One T] [Neg T] [Add T] [Sub T] [Mul T] (sin cos : T → T) (a : Vec T 3) (t : T) :
    rotationMatrixAxisG sin cos a t =
    lin4 ((1 - cos (-t)) * a 0 * a 0 + cos (-t)) ((1 - cos (-t)) * a 0 * a 1 + sin (-t) * a 2)
      ((1 - cos (-t)) * a 0 * a 2 - sin (-t) * a 1) ((1 - cos (-t)) * a 0 * a 1 - sin (-t) * a 2)
      ((1 - cos (-t)) * a 1 * a 1 + cos (-t)) ((1 - cos (-t)) * a 1 * a 2 + sin (-t) * a 0)
      ((1 - cos (-t)) * a 0 * a 2 + sin (-t) * a 1) ((1 - cos (-t)) * a 1 * a 2 - sin (-t) * a 0)
      ((1 - cos (-t)) * a 2 * a 2 + cos (-t)) := by
  simp only [rotationMatrixAxisG, mat4]; rfl

/-- Entries of two linear matrices that are close to each other. -/
theorem lin4_ap {k B : ℝ} (hk : 0 ≤ k) (hB : 1 ≤ B) {a b c d e f g h i : Flt P.fmt} {a' b' c' d' e' f' g' h' i' : ℝ}
    (ha : Ap 1 k B a a') (hb : Ap 1 k B b b') (hc : Ap 1 k B c c') (hd : Ap 1 k B d d') (he : Ap 1 k B e e') (hf : Ap 1 k B f f')
    (hg : Ap 1 k B g g') (hh : Ap 1 k B h h') (hi : Ap 1 k B i i') (x y : Fin 4) :
    Ap 1 k B (lin4 a b c d e f g h i x y) (lin4 a' b' c' d' e' f' g' h' i' x y) := by
  have z : Ap 1 k B (0 : Flt P.fmt) 0 := (Ap.zero zero_le_one).mono zero_le_one hk (by linarith)
  have o : Ap 1 k B (1 : Flt P.fmt) 1 := Ap.one.mono zero_le_one hk hB
  fin_cases x <;> fin_cases y <;> assumption

theorem axis_entries (hp : 10 ≤ P.p) (hT : AccurateTrig P sn cs) {v : Vec (Flt P.fmt) 3} {t : Flt P.fmt} (hv : ∀ i, (v i).isFinite)
    (hle : ∀ i, |((v i).val : ℝ)| ≤ 1.02) (ht : t.isFinite) (x y : Fin 4) :
    Ap 1 15 3.2 (rotationMatrixAxisG sn cs v t x y) (rotationMatrixAxis (fun i => ((v i).val : ℝ)) t.val x y) := by
  have ok := ok_one hp
  have hn : (-t).isFinite := Flt.neg_finite.2 ht
  have s := sin_ap hp hT hn
  have c := cos_ap hp hT hn
  rw [Flt.neg_val] at s c
  push_cast at s c
  rw [Real.cos_neg] at c
  have a : ∀ j, Ap 1 0 1.02 (v j) ((v j).val : ℝ) := fun j => Ap.exact (hv j) (by rw [mul_one]; exact hle j)
  have i : Ap 1 4.005 2.0056 (1 - cs (-t)) (1 - Real.cos t.val) := (Ap.sub ok Ap.one c (by norm_num)).mono zero_le_one (by norm_num) (by norm_num)
  have m : ∀ j, Ap 1 6.14 2.05 ((1 - cs (-t)) * v j) ((1 - Real.cos t.val) * ((v j).val : ℝ)) := fun j =>
    (Ap.mul ok i (a j) (by norm_num) (by norm_num) (by norm_num) (by norm_num) (by norm_num)).mono zero_le_one (by norm_num) (by norm_num)
  have n : ∀ j l, Ap 1 8.4 2.1 ((1 - cs (-t)) * v j * v l) ((1 - Real.cos t.val) * ((v j).val : ℝ) * ((v l).val : ℝ)) := fun j l =>
    (Ap.mul ok (m j) (a l) (by norm_num) (by norm_num) (by norm_num) (by norm_num) (by norm_num)).mono zero_le_one (by norm_num) (by norm_num)
  have w : ∀ j, Ap 1 3.1 1.03 (sn (-t) * v j) (Real.sin (-t.val) * ((v j).val : ℝ)) := fun j =>
    (Ap.mul ok s (a j) (by norm_num) (by norm_num) (by norm_num) (by norm_num) (by norm_num)).mono zero_le_one (by norm_num) (by norm_num)
  have p : ∀ j l o, Ap 1 15 3.2 ((1 - cs (-t)) * v j * v l + sn (-t) * v o)
      ((1 - Real.cos t.val) * ((v j).val : ℝ) * ((v l).val : ℝ) + Real.sin (-t.val) * ((v o).val : ℝ)) := fun j l o =>
    (Ap.add ok (n j l) (w o) (by norm_num)).mono zero_le_one (by norm_num) (by norm_num)
  have q : ∀ j l o, Ap 1 15 3.2 ((1 - cs (-t)) * v j * v l - sn (-t) * v o)
      ((1 - Real.cos t.val) * ((v j).val : ℝ) * ((v l).val : ℝ) - Real.sin (-t.val) * ((v o).val : ℝ)) := fun j l o =>
    (Ap.sub ok (n j l) (w o) (by norm_num)).mono zero_le_one (by norm_num) (by norm_num)
  have d : ∀ j, Ap 1 15 3.2 ((1 - cs (-t)) * v j * v j + cs (-t))
      ((1 - Real.cos t.val) * ((v j).val : ℝ) * ((v j).val : ℝ) + Real.cos t.val) := fun j =>
    (Ap.add ok (n j j) c (by norm_num)).mono zero_le_one (by norm_num) (by norm_num)
  rw [axisG_eq, rotAxis_lin4]
  exact lin4_ap (by norm_num) (by norm_num) (d 0) (p 0 1 2) (q 0 2 1) (q 0 1 2) (d 1) (p 1 2 0) (p 0 2 1) (q 1 2 0) (d 2) x y

/-- A change of the axis. -/
theorem axis_perturb {a v : Vec ℝ 3} {ε : ℝ} (h1 : ε ≤ 1 / 100) (ha : ∀ i, |a i| ≤ 1) (hv : ∀ i, |v i - a i| ≤ ε) (t : ℝ) (x y : Fin 4) :
    |rotationMatrixAxis v t x y - rotationMatrixAxis a t x y| ≤ 6 * ε := by
  have e0 : 0 ≤ ε := (abs_nonneg _).trans (hv 0)
  have i2 : |1 - Real.cos t| ≤ 2 := abs_le.2 ⟨by linarith [Real.cos_le_one t], by linarith [Real.neg_one_le_cos t]⟩
  have s1 := Real.abs_sin_le_one (-t)
  have pr : ∀ j l, |(1 - Real.cos t) * v j * v l - (1 - Real.cos t) * a j * a l| ≤ 4.1 * ε := by
    intro j l
    have hb : |v j| ≤ 1.01 := by
      have k1 := abs_le.1 (ha j); have k2 := abs_le.1 (hv j)
      exact abs_le.2 ⟨by linarith, by linarith⟩
    have e : (1 - Real.cos t) * v j * v l - (1 - Real.cos t) * a j * a l = (1 - Real.cos t) * (v j * (v l - a l) + (v j - a j) * a l) := by ring
    have k : |v j * (v l - a l) + (v j - a j) * a l| ≤ 1.01 * ε + ε * 1 := by
      refine (abs_add_le _ _).trans ?_
      rw [abs_mul, abs_mul]
      exact add_le_add (mul_le_mul hb (hv l) (abs_nonneg _) (by norm_num)) (mul_le_mul (hv j) (ha l) (abs_nonneg _) e0)
    rw [e, abs_mul]
    have := mul_le_mul i2 k (abs_nonneg _) (by norm_num)
    linarith
  have sr : ∀ j, |Real.sin (-t) * v j - Real.sin (-t) * a j| ≤ ε := by
    intro j
    rw [← mul_sub, abs_mul]
    have := mul_le_mul s1 (hv j) (abs_nonneg _) (by norm_num)
    linarith
  have p : ∀ j l o, |(1 - Real.cos t) * v j * v l + Real.sin (-t) * v o - ((1 - Real.cos t) * a j * a l + Real.sin (-t) * a o)| ≤ 6 * ε := by
    intro j l o
    have k1 := abs_le.1 (pr j l); have k2 := abs_le.1 (sr o)
    exact abs_le.2 ⟨by linarith, by linarith⟩
  have q : ∀ j l o, |(1 - Real.cos t) * v j * v l - Real.sin (-t) * v o - ((1 - Real.cos t) * a j * a l - Real.sin (-t) * a o)| ≤ 6 * ε := by
    intro j l o
    have k1 := abs_le.1 (pr j l); have k2 := abs_le.1 (sr o)
    exact abs_le.2 ⟨by linarith, by linarith⟩
  have d : ∀ j, |(1 - Real.cos t) * v j * v j + Real.cos t - ((1 - Real.cos t) * a j * a j + Real.cos t)| ≤ 6 * ε := by
    intro j
    have k1 := abs_le.1 (pr j j)
    exact abs_le.2 ⟨by linarith, by linarith⟩
  have z : |(0 : ℝ) - 0| ≤ 6 * ε := by simp; exact e0
  have o : |(1 : ℝ) - 1| ≤ 6 * ε := by simp; exact e0
  rw [rotAxis_lin4, rotAxis_lin4]
  fin_cases x <;> fin_cases y
  exacts [d 0, q 0 1 2, p 0 2 1, z, p 0 1 2, d 1, q 1 2 0, z, q 0 2 1, p 1 2 0, d 2, z, z, z, z, o]

end trig

/-! ### Rotating points -/

theorem point_eq (m : Mat (Flt P.fmt) 4 4) (p : Vec (Flt P.fmt) 3) (hp : ∀ i, (p i).isFinite) (h3 : m 3 = ![0, 0, 0, 1])
    (hr : ∀ c : Fin 3, m c.castSucc 3 = 0) (r : Fin 3) :
    mmulPoint m p r = m 0 r.castSucc * p 0 + m 1 r.castSucc * p 1 + m 2 r.castSucc * p 2 := by
  show mmulVec m (toHomogeneous p) r.castSucc / mmulVec m (toHomogeneous p) 3 = _
  have e : ∀ r, mmulVec m (toHomogeneous p) r = 0 + m 0 r * p 0 + m 1 r * p 1 + m 2 r * p 2 + m 3 r * 1 := by
    intro r
    simp only [mmulVec, Fin.foldl_succ_last, Fin.foldl_zero]
    rfl
  have e3 : mmulVec m (toHomogeneous p) 3 = 1 := by
    have h0 : m 0 3 = 0 := hr 0
    have h1 : m 1 3 = 0 := hr 1
    have h2 : m 2 3 = 0 := hr 2
    have h33 : m 3 3 = 1 := by rw [h3]; rfl
    rw [e, h0, h1, h2, h33, Flt.zero_mul_fin (hp 0), Flt.zero_mul_fin (hp 1), Flt.zero_mul_fin (hp 2), Flt.one_mul']
    simp [Flt.zero_add']
  have z : m 3 r.castSucc = 0 := by rw [h3]; fin_cases r <;> rfl
  rw [e3, Flt.div_one', e, z, Flt.mul_one', Flt.zero_add', Flt.add_zero']

/-- A rotation with entries that are `κ` rounding errors off. -/
theorem point_near {X κ : ℝ} (ok : ApOk P X) (hκ : 0 ≤ κ) (hκ1 : κ * P.u ≤ 0.08) {m : Mat (Flt P.fmt) 4 4} {R : Mat ℝ 4 4} (hR : IsRotation R)
    (hf : ∀ c r, (m c r).isFinite) (he : ∀ c r, |((m c r).val : ℝ) - R c r| ≤ κ * P.u) (h3 : m 3 = ![0, 0, 0, 1])
    (hr : ∀ c : Fin 3, m c.castSucc 3 = 0) {p : Vec (Flt P.fmt) 3} (hp : ∀ i, (p i).isFinite) (hX : ∀ i, |((p i).val : ℝ)| ≤ X) (i : Fin 3) :
    (mmulPoint m p i).isFinite ∧
    |((mmulPoint m p i).val : ℝ) - mmulPoint R (fun j => ((p j).val : ℝ)) i| ≤ (3 * κ + 9) * P.u * X := by
  have X0 : 0 ≤ X := by linarith [ok.one]
  obtain ⟨a, b, c, d, e, f, g, h, j, rfl, ⟨r1, r2, r3⟩, -⟩ := isRotation_lin4 hR
  have sq : ∀ {x y z : ℝ}, x * x + y * y + z * z = 1 → |x| ≤ 1 := fun {x y z} h => by
    apply abs_le.2
    constructor <;> nlinarith [mul_self_nonneg y, mul_self_nonneg z]
  have ent : ∀ {x : Flt P.fmt} {y : ℝ}, x.isFinite → |y| ≤ 1 → |(x.val : ℝ) - y| ≤ κ * P.u → Ap 1 κ 1.08 x y := by
    intro x y hx hy hd
    refine ⟨hx, by rw [mul_one]; exact hd, ?_⟩
    have k1 := abs_le.1 hy; have k2 := abs_le.1 hd
    exact abs_le.2 ⟨by linarith, by linarith⟩
  have pp : ∀ i, Ap X 0 1 (p i) ((p i).val : ℝ) := fun i => Ap.exact (hp i) (by rw [one_mul]; exact hX i)
  have row : ∀ {x y z : Flt P.fmt} {x' y' z' : ℝ}, Ap 1 κ 1.08 x x' → Ap 1 κ 1.08 y y' → Ap 1 κ 1.08 z z' →
      Ap X (3 * κ + 9) 4 (x * p 0 + y * p 1 + z * p 2) (x' * ((p 0).val : ℝ) + y' * ((p 1).val : ℝ) + z' * ((p 2).val : ℝ)) := by
    intro x y z x' y' z' hx hy hz
    have m : ∀ {x : Flt P.fmt} {x' : ℝ}, Ap 1 κ 1.08 x x' → ∀ i, Ap X (κ + 1.081) 1.082 (x * p i) (x' * ((p i).val : ℝ)) := fun hx i =>
      (Ap.mul ok hx (pp i) hκ (by norm_num) le_rfl (by norm_num) (by norm_num)).mono X0 (by linarith) (by norm_num)
    exact (Ap.add ok ((Ap.add ok (m hx 0) (m hy 1) (by norm_num)).mono X0 (k1 := 2 * κ + 4.33) (B1 := 2.168) (by linarith) (by norm_num)) (m hz 2)
      (by norm_num)).mono X0 (by linarith) (by norm_num)
  have s1 : ∀ {x y z : ℝ}, x * x + y * y + z * z = 1 → |x| ≤ 1 ∧ |y| ≤ 1 ∧ |z| ≤ 1 := fun {x y z} h =>
    ⟨sq h, sq (x := y) (y := z) (z := x) (by linarith), sq (x := z) (y := x) (z := y) (by linarith)⟩
  have t1 := s1 r1
  have t2 := s1 r2
  have t3 := s1 r3
  have w : Ap X (3 * κ + 9) 4 (mmulPoint m p i) (mmulPoint (lin4 a b c d e f g h j) (fun j => ((p j).val : ℝ)) i) := by
    rw [point_eq m p hp h3 hr, point_lin4]
    fin_cases i
    · exact row (ent (hf 0 0) t1.1 (he 0 0)) (ent (hf 1 0) t1.2.1 (he 1 0)) (ent (hf 2 0) t1.2.2 (he 2 0))
    · exact row (ent (hf 0 1) t2.1 (he 0 1)) (ent (hf 1 1) t2.2.1 (he 1 1)) (ent (hf 2 1) t2.2.2 (he 2 1))
    · exact row (ent (hf 0 2) t3.1 (he 0 2)) (ent (hf 1 2) t3.2.1 (he 1 2)) (ent (hf 2 2) t3.2.2 (he 2 2))
  exact ⟨w.fin, w.err⟩

/-- A rotation of the exact model keeps the sum of squares. -/
theorem rot_nsq {R : Mat ℝ 4 4} (hR : IsRotation R) (p : Vec ℝ 3) :
    mmulPoint R p 0 ^ 2 + mmulPoint R p 1 ^ 2 + mmulPoint R p 2 ^ 2 = p 0 ^ 2 + p 1 ^ 2 + p 2 ^ 2 := by
  obtain ⟨a, b, c, d, e, f, g, h, j, rfl, -, ⟨c1, c2, c3⟩, ⟨o1, o2, o3⟩, k⟩ := isRotation_lin4 hR
  obtain ⟨k1, k2, k3, k4, k5, k6, k7, k8, k9⟩ := k
  have x1 : a * b + d * e + g * h = 0 := by
    rw [← k1, ← k4, ← k7]; ring
  have x2 : a * c + d * f + g * j = 0 := by
    rw [← k1, ← k4, ← k7]; ring
  have x3 : b * c + e * f + h * j = 0 := by
    rw [← k2, ← k5, ← k8]; ring
  rw [point_lin4]
  show (a * p 0 + b * p 1 + c * p 2) ^ 2 + (d * p 0 + e * p 1 + f * p 2) ^ 2 + (g * p 0 + h * p 1 + j * p 2) ^ 2 = _
  linear_combination p 0 ^ 2 * c1 + p 1 ^ 2 * c2 + p 2 ^ 2 * c3 + 2 * p 0 * p 1 * x1 + 2 * p 0 * p 2 * x2 + 2 * p 1 * p 2 * x3

theorem rot_sub {R : Mat ℝ 4 4} (hR : IsRotation R) (p q : Vec ℝ 3) (i : Fin 3) :
    mmulPoint R p i - mmulPoint R q i = mmulPoint R (fun i => p i - q i) i := by
  obtain ⟨a, b, c, d, e, f, g, h, j, rfl, -⟩ := isRotation_lin4 hR
  rw [point_lin4, point_lin4, point_lin4]
  fin_cases i <;> simp <;> ring

/-- Components of a rotated vector. -/
theorem rot_le {R : Mat ℝ 4 4} (hR : IsRotation R) {p : Vec ℝ 3} {δ : ℝ} (h0 : 0 ≤ δ) (hd : ∀ i, |p i| ≤ δ) (i : Fin 3) : |mmulPoint R p i| ≤ 1.74 * δ := by
  have n := rot_nsq hR p
  have s : ∀ i, p i ^ 2 ≤ δ ^ 2 := fun i => by
    have := abs_le.1 (hd i)
    nlinarith
  have := s 0; have := s 1; have := s 2
  have key : mmulPoint R p i ^ 2 ≤ 3 * δ ^ 2 := by
    have a0 := sq_nonneg (mmulPoint R p 0)
    have a1 := sq_nonneg (mmulPoint R p 1)
    have a2 := sq_nonneg (mmulPoint R p 2)
    fin_cases i
    · show mmulPoint R p 0 ^ 2 ≤ _; linarith
    · show mmulPoint R p 1 ^ 2 ≤ _; linarith
    · show mmulPoint R p 2 ^ 2 ≤ _; linarith
  apply abs_le_of_sq_le_sq _ (by positivity)
  nlinarith [sq_nonneg δ]

end FltRot
end vm
