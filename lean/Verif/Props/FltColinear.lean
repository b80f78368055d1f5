import Verif.Lemmas.FltAp
import Verif.Props.FltGrid
import Verif.Props.FltRayPlane
import Verif.Lemmas.FltConst
import Verif.Lemmas.FltPolygon
import Verif.Lemmas.FltAng
import Verif.Props.FltLupExact

/-! C149: `is_colinear` in IEEE arithmetic. -/

set_option linter.unusedSectionVars false
set_option linter.unusedSimpArgs false

namespace vm
open BinPar FltAng
variable {P : BinPar}

namespace FltCol

/-- A product of numbers of different sizes. -/
theorem ap_mul {X Y k B k' B' : ℝ} {x x' : Flt P.fmt} {y y' : ℝ} (hX : 0 ≤ X) (_ : 0 ≤ Y) (ok : ApOk P (X * Y)) (h : Ap X k B x y) (h' : Ap Y k' B' x' y')
    (hk : 0 ≤ k) (hB0 : 0 ≤ B) (_ : 0 ≤ k') (_ : 0 ≤ B') (hB : B * B' ≤ 16) :
    Ap (X * Y) (k * B' + (B + 1 / 1000 * k) * k' + B * B' + 1 / 2000) (B * B' + 1 / 1000 * (B * B') + 1 / 2000) (x * x') (y * y') := by
  have h2 := Ap.u_pos P
  have h6 := ok.u
  have e := h.err
  have l := h.le
  have ku : k * P.u * X ≤ 1 / 1000 * k * X := by
    have := mul_le_mul_of_nonneg_right (mul_le_mul_of_nonneg_left (show (P.u : ℝ) ≤ 1 / 1000 by linarith) hk) hX; linarith
  have hy : |y| ≤ (B + 1 / 1000 * k) * X := by
    have k1 := abs_le.1 e
    have k2 := abs_le.1 l
    exact abs_le.2 ⟨by linarith, by linarith⟩
  refine Ap.round (q := x.val * x'.val) ok ?_ hB ?_ (Flt.mul_eq h.fin h'.fin)
  · push_cast
    rw [abs_mul]
    calc |(x.val : ℝ)| * |(x'.val : ℝ)| ≤ (B * X) * (B' * Y) := mul_le_mul l h'.le (abs_nonneg _) (by positivity)
      _ = B * B' * (X * Y) := by ring
  · push_cast
    have : (x.val : ℝ) * x'.val - y * y' = ((x.val : ℝ) - y) * x'.val + y * ((x'.val : ℝ) - y') := by ring
    rw [this]
    refine (abs_add_le _ _).trans ?_
    rw [abs_mul, abs_mul]
    have k1 := mul_le_mul e h'.le (abs_nonneg _) (by positivity)
    have k2 := mul_le_mul hy h'.err (abs_nonneg _) (by positivity)
    calc _ ≤ k * P.u * X * (B' * Y) + (B + 1 / 1000 * k) * X * (k' * P.u * Y) := add_le_add k1 k2
      _ = _ := by ring

/-- The tested value. -/
def crit (a b c : Vec (Flt P.fmt) 3) : Flt P.fmt :=
  dot (a - c) (b - a) * dot (a - c) (b - a) - dot (a - c) (a - c) * dot (b - a) (b - a)

/-- The hypotheses on the points: finite, at a distance of at most `L` from the first one in each component, `L` being far from overflow. -/
structure Pts (L : ℝ) (a b c : Vec (Flt P.fmt) 3) : Prop where
  one : 1 ≤ L
  u : 1000 * (P.u : ℝ) ≤ 1
  bound : 128 * L ^ 4 < P.bound
  fa : ∀ i, (a i).isFinite
  fb : ∀ i, (b i).isFinite
  fc : ∀ i, (c i).isFinite
  ac : ∀ i, |rvec a i - rvec c i| ≤ L
  ba : ∀ i, |rvec b i - rvec a i| ≤ L

theorem diffs {L : ℝ} {a b c : Vec (Flt P.fmt) 3} (h : Pts L a b c) :
    (∀ i, Ap L 1.001 1.002 ((a - c) i) (rvec a i - rvec c i)) ∧ (∀ i, Ap L 1.001 1.002 ((b - a) i) (rvec b i - rvec a i)) ∧
    Ap (L * L) 14.2 3.03 (dot (a - c) (b - a)) (dot (rvec a - rvec c) (rvec b - rvec a)) ∧
    Ap (L * L) 14.2 3.03 (dot (a - c) (a - c)) (dot (rvec a - rvec c) (rvec a - rvec c)) ∧
    Ap (L * L) 14.2 3.03 (dot (b - a) (b - a)) (dot (rvec b - rvec a) (rvec b - rvec a)) := by
  obtain ⟨hL, hu, hb', ha, hbf, hc, h1, h2⟩ := h
  have hb : 64 * L ^ 4 < P.bound := by
    have : 0 ≤ L ^ 4 := by positivity
    linarith
  have L1 : L ≤ L ^ 4 := le_self_pow₀ hL (by norm_num)
  have L2 : 1 ≤ L * L := one_le_mul_of_one_le_of_one_le hL hL
  have L4 : L * L * (L * L) = L ^ 4 := by ring
  have L24 : L * L ≤ L ^ 4 := by rw [← L4]; exact le_mul_of_one_le_left (by linarith) L2
  have ok1 : ApOk P L := ⟨hu, hL, by linarith⟩
  have ok2 : ApOk P (L * L) := ⟨hu, L2, by linarith⟩
  have d1 : ∀ i, Ap L 1.001 1.002 ((a - c) i) (rvec a i - rvec c i) := fun i =>
    (Ap.round (q := (a i).val - (c i).val) (B := 1) (k := 0) ok1 (by push_cast; rw [one_mul]; exact h1 i) (by norm_num) (by push_cast; simp [rvec])
      (Flt.sub_eq (ha i) (hc i))).mono (by linarith) (by norm_num) (by norm_num)
  have d2 : ∀ i, Ap L 1.001 1.002 ((b - a) i) (rvec b i - rvec a i) := fun i =>
    (Ap.round (q := (b i).val - (a i).val) (B := 1) (k := 0) ok1 (by push_cast; rw [one_mul]; exact h2 i) (by norm_num) (by push_cast; simp [rvec])
      (Flt.sub_eq (hbf i) (ha i))).mono (by linarith) (by norm_num) (by norm_num)
  have L0 : 0 ≤ L := by linarith
  have LL0 : 0 ≤ L * L := by linarith
  have dots : ∀ {v w : Vec (Flt P.fmt) 3} {x y : Vec ℝ 3}, (∀ i, Ap L 1.001 1.002 (v i) (x i)) → (∀ i, Ap L 1.001 1.002 (w i) (y i)) →
      Ap (L * L) 14.2 3.03 (dot v w) (dot x y) := by
    intro v w x y hv hw
    have m : ∀ i, Ap (L * L) 3.02 1.006 (v i * w i) (x i * y i) := fun i =>
      (ap_mul L0 L0 ok2 (hv i) (hw i) (by norm_num) (by norm_num) (by norm_num) (by norm_num) (by norm_num)).mono LL0 (by norm_num) (by norm_num)
    have m2 := ((m 0).add ok2 (m 1) (by norm_num)).mono (k1 := 8.07) (B1 := 2.02) LL0 (by norm_num) (by norm_num)
    have m3 := (m2.add ok2 (m 2) (by norm_num)).mono (k1 := 14.2) (B1 := 3.03) LL0 (by norm_num) (by norm_num)
    rw [FltQt.dot3, vm.dot3]
    exact m3
  exact ⟨d1, d2, dots d1 d2, dots d1 d1, dots d2 d2⟩

theorem prods {L : ℝ} {a b c : Vec (Flt P.fmt) 3} (h : Pts L a b c) :
    Ap (2 * L ^ 4) 48 4.65 (dot (a - c) (b - a) * dot (a - c) (b - a)) (dot (rvec a - rvec c) (rvec b - rvec a) * dot (rvec a - rvec c) (rvec b - rvec a)) ∧
    Ap (2 * L ^ 4) 48 4.65 (dot (a - c) (a - c) * dot (b - a) (b - a)) (dot (rvec a - rvec c) (rvec a - rvec c) * dot (rvec b - rvec a) (rvec b - rvec a)) := by
  obtain ⟨_, _, j, k, l⟩ := diffs h
  have hL := h.one
  have L2 : 1 ≤ L * L := one_le_mul_of_one_le_of_one_le hL hL
  have L4 : L * L * (L * L) = L ^ 4 := by ring
  have LL0 : 0 ≤ L * L := by linarith
  have ok4 : ApOk P (L * L * (L * L)) := ⟨h.u, one_le_mul_of_one_le_of_one_le L2 L2, by
    have := h.bound
    have : 0 ≤ L ^ 4 := by positivity
    rw [L4]; linarith⟩
  have LLL0 : 0 ≤ L * L * (L * L) := by positivity
  have scale : ∀ {x : Flt P.fmt} {y : ℝ}, Ap (L * L * (L * L)) 96 9.3 x y → Ap (2 * L ^ 4) 48 4.65 x y := fun {x y} q =>
    ⟨q.fin, q.err.trans (le_of_eq (by ring)), q.le.trans (le_of_eq (by ring))⟩
  exact ⟨scale ((ap_mul LL0 LL0 ok4 j j (by norm_num) (by norm_num) (by norm_num) (by norm_num) (by norm_num)).mono LLL0 (by norm_num) (by norm_num)),
    scale ((ap_mul LL0 LL0 ok4 k l (by norm_num) (by norm_num) (by norm_num) (by norm_num) (by norm_num)).mono LLL0 (by norm_num) (by norm_num))⟩

/-- The tested value is the square of twice the area of the triangle, with the opposite sign, up to an error of the fourth order. -/
theorem crit_near {L : ℝ} {a b c : Vec (Flt P.fmt) 3} (h : Pts L a b c) :
    (crit a b c).isFinite ∧ |((crit a b c).val : ℝ) + squaredLength (cross (rvec b - rvec a) (rvec c - rvec a))| ≤ 212 * P.u * L ^ 4 := by
  obtain ⟨jj, kl⟩ := prods h
  have hL := h.one
  have L4 : 1 ≤ L ^ 4 := one_le_pow₀ hL
  have ok : ApOk P (2 * L ^ 4) := ⟨h.u, by linarith, by have := h.bound; linarith⟩
  have m := (jj.sub ok kl (by norm_num)).mono (k1 := 106) (B1 := 9.4) (by linarith) (by norm_num) (by norm_num)
  refine ⟨m.fin, ?_⟩
  have e := m.err
  have id : dot (rvec a - rvec c) (rvec b - rvec a) * dot (rvec a - rvec c) (rvec b - rvec a)
      - dot (rvec a - rvec c) (rvec a - rvec c) * dot (rvec b - rvec a) (rvec b - rvec a)
      = -squaredLength (cross (rvec b - rvec a) (rvec c - rvec a)) := by
    unfold squaredLength
    rw [lagrange]
    simp only [vm.dot3, Pi.sub_apply]
    ring
  rw [id, sub_neg_eq_add] at e
  exact e.trans (le_of_eq (by ring))

theorem colinear_crit (a b c : Vec (Flt P.fmt) 3) (e : Flt P.fmt) : isColinear a b c e = isZero (crit a b c) e := isColinear_dots a b c e

/-- A vector of differences of equal numbers. -/
theorem dot_zero {v : Vec (Flt P.fmt) 3} (hv : ∀ i, (v i).isFinite) : dot v 0 = 0 := by
  rw [FltQt.dot3]
  show v 0 * 0 + v 1 * 0 + v 2 * 0 = 0
  rw [Flt.mul_zero_fin (hv 0), Flt.mul_zero_fin (hv 1), Flt.mul_zero_fin (hv 2), Flt.add_zero', Flt.add_zero']

theorem zero_dot {v : Vec (Flt P.fmt) 3} (hv : ∀ i, (v i).isFinite) : dot 0 v = 0 := by
  rw [FltQt.dot3]
  show 0 * v 0 + 0 * v 1 + 0 * v 2 = 0
  rw [Flt.zero_mul_fin (hv 0), Flt.zero_mul_fin (hv 1), Flt.zero_mul_fin (hv 2), Flt.add_zero', Flt.add_zero']

theorem neg_mul_neg' {F : Fmt} (x y : Flt F) : -x * -y = x * y := by
  rw [Flt.neg_mul', Flt.mul_comm', Flt.neg_mul', Flt.neg_neg', Flt.mul_comm']

theorem diff_mul {F : Fmt} (x y z w : Flt F) : (x - y) * (z - w) = (w - z) * (y - x) := by
  rw [← Flt.neg_sub' y x, ← Flt.neg_sub' w z, neg_mul_neg', Flt.mul_comm']

theorem sub_self_vec {v : Vec (Flt P.fmt) 3} (hv : ∀ i, (v i).isFinite) : v - v = 0 := by
  funext i
  show v i - v i = 0
  rw [Flt.sub_eq (hv i) (hv i), sub_self]
  exact Flt.round_of_rep (Flt.rep_val (0 : Flt P.fmt))

theorem sub_self_flt {x : Flt P.fmt} (hv : x.isFinite) : x - x = 0 := by
  rw [Flt.sub_eq hv hv, sub_self]
  exact Flt.round_of_rep (Flt.rep_val (0 : Flt P.fmt))

theorem zero_isZero {e : Flt P.fmt} : isZero (0 : Flt P.fmt) e = true := by
  unfold isZero
  rw [Bool.or_eq_true]
  left
  rfl

end FltCol

open FltCol

/-- With an epsilon that is not negative the answer is `true` if the square of twice the area of the triangle is at most epsilon up to `212 u L^4`,
and `false` if it is larger than epsilon by more than that. -/
theorem C149_accuracy {L : ℝ} {a b c : Vec (Flt P.fmt) 3} (h : Pts L a b c) {e : Flt P.fmt} (he : e.isFinite) (he0 : 0 ≤ e.val) :
    (squaredLength (cross (rvec b - rvec a) (rvec c - rvec a)) + 212 * P.u * L ^ 4 ≤ (e.val : ℝ) → isColinear a b c e = true) ∧
    ((e.val : ℝ) + 212 * P.u * L ^ 4 < squaredLength (cross (rvec b - rvec a) (rvec c - rvec a)) → isColinear a b c e = false) := by
  obtain ⟨f, n⟩ := crit_near h
  have s0 : 0 ≤ squaredLength (cross (rvec b - rvec a) (rvec c - rvec a)) := by unfold squaredLength; rw [vm.dot3]; nlinarith
  have n' := abs_le.1 n
  rw [colinear_crit, isZero_flt f he he0]
  constructor
  · intro g
    have : |((crit a b c).val : ℝ)| ≤ e.val := abs_le.2 ⟨by linarith, by linarith⟩
    exact decide_eq_true (by exact_mod_cast this)
  · intro g
    have : (e.val : ℝ) < |((crit a b c).val : ℝ)| := by
      refine lt_of_lt_of_le ?_ (neg_le_abs _)
      linarith
    refine decide_eq_false (not_le.2 (by exact_mod_cast this))

/-- The second and the third point can be exchanged, for all values of the coordinates including infinities and NaN. -/
theorem C149_symmetric {F : Fmt} {S : ℕ} (a b c : Vec (Flt F) S) (e : Flt F) : isColinear a b c e = isColinear a c b e := by
  have j : dot (a - c) (b - a) = dot (a - b) (c - a) := by
    unfold dot
    congr 1
    funext acc i
    show acc + (a i - c i) * (b i - a i) = acc + (a i - b i) * (c i - a i)
    rw [diff_mul]
  have k : dot (a - c) (a - c) = dot (c - a) (c - a) := by
    unfold dot
    congr 1
    funext acc i
    show acc + (a i - c i) * (a i - c i) = acc + (c i - a i) * (c i - a i)
    rw [diff_mul]
  have l : dot (b - a) (b - a) = dot (a - b) (a - b) := by
    unfold dot
    congr 1
    funext acc i
    show acc + (b i - a i) * (b i - a i) = acc + (a i - b i) * (a i - b i)
    rw [diff_mul]
  rw [isColinear_dots, isColinear_dots, j, k, l, Flt.mul_comm' (dot (c - a) (c - a))]

/-- Points two of which coincide are colinear with every epsilon, if nothing overflows. -/
theorem C149_coincident {L : ℝ} {a b c : Vec (Flt P.fmt) 3} (h : Pts L a b c) (e : Flt P.fmt) (hc : a = b ∨ a = c ∨ b = c) :
    isColinear a b c e = true := by
  obtain ⟨d1, d2, j, k, l⟩ := diffs h
  have dz : dot (0 : Vec (Flt P.fmt) 3) 0 = 0 := dot_zero fun _ => Flt.zero_finite
  have z : crit a b c = 0 := by
    rcases hc with rfl | rfl | rfl
    · unfold crit
      rw [sub_self_vec h.fa, dot_zero fun i => (d1 i).fin, dz, Flt.mul_zero_fin Flt.zero_finite, Flt.mul_zero_fin k.fin]
      exact sub_self_flt Flt.zero_finite
    · unfold crit
      rw [sub_self_vec h.fa, zero_dot fun i => (d2 i).fin, dz, Flt.mul_zero_fin Flt.zero_finite, Flt.zero_mul_fin l.fin]
      exact sub_self_flt Flt.zero_finite
    · obtain ⟨_, kl⟩ := prods h
      have hl : dot (b - a) (b - a) = dot (a - b) (a - b) := by
        rw [FltQt.dot3, FltQt.dot3]
        show (b 0 - a 0) * (b 0 - a 0) + (b 1 - a 1) * (b 1 - a 1) + (b 2 - a 2) * (b 2 - a 2) = _
        rw [diff_mul (b 0), diff_mul (b 1), diff_mul (b 2)]
        rfl
      have hj : dot (a - b) (b - a) = -dot (a - b) (a - b) := by
        have n : ∀ i, (a i - b i) * (b i - a i) = -((a i - b i) * (a i - b i)) := fun i => by
          rw [← Flt.neg_sub' (a i) (b i), Flt.mul_comm', Flt.neg_mul']
        rw [FltQt.dot3, FltQt.dot3]
        show (a 0 - b 0) * (b 0 - a 0) + (a 1 - b 1) * (b 1 - a 1) + (a 2 - b 2) * (b 2 - a 2) = _
        rw [n, n, n, ← Flt.neg_add', ← Flt.neg_add']
        rfl
      unfold crit
      rw [hj, hl, neg_mul_neg']
      rw [hl] at kl
      exact sub_self_flt kl.fin
  rw [colinear_crit, z]
  exact zero_isZero

namespace FltCol

/-- A point on the x axis. -/
def pt (x : Flt P.fmt) : Vec (Flt P.fmt) 3 := ![x, 0, 0]

theorem pt_crit (a b c : Flt P.fmt) :
    crit (pt a) (pt b) (pt c) = (a - c) * (b - a) * ((a - c) * (b - a)) - (a - c) * (a - c) * ((b - a) * (b - a)) := by
  have z : (0 : Flt P.fmt) - 0 = 0 := sub_self_flt Flt.zero_finite
  have zz : (0 : Flt P.fmt) * 0 = 0 := Flt.mul_zero_fin Flt.zero_finite
  have d : ∀ x y z' w : Flt P.fmt, dot (pt x - pt y) (pt z' - pt w) = (x - y) * (z' - w) := by
    intro x y z' w
    rw [FltQt.dot3]
    show (x - y) * (z' - w) + ((0 : Flt P.fmt) - 0) * ((0 : Flt P.fmt) - 0) + ((0 : Flt P.fmt) - 0) * ((0 : Flt P.fmt) - 0) = _
    rw [z, zz, Flt.add_zero', Flt.add_zero']
  unfold crit
  rw [d, d, d]

theorem isZero_nan (e : Flt P.fmt) : isZero (Flt.nan : Flt P.fmt) e = false := by
  cases e <;> rfl

end FltCol

/-- In every format the products overflow although the second and the third point coincide: the answer is `false` for every epsilon. -/
theorem C149_overflow_fails (x : Flt P.fmt) (hx : x.isFinite) {n : ℤ} (hv : x.val = 2 ^ n) (h2 : 2 * n < P.p + P.qmax) (h4 : P.p + P.qmax ≤ 4 * n) (e : Flt P.fmt) :
    isColinear (pt 0) (pt x) (pt x) e = false := by
  have e1 : (0 : Flt P.fmt) - x = -x := Flt.zero_add' _
  have e2 : x - (0 : Flt P.fmt) = x := by
    show x + -(0 : Flt P.fmt) = x
    have : -(0 : Flt P.fmt) = 0 := Flt.neg_zero'
    rw [this, Flt.add_zero']
  have p2 : (2 : ℚ) ^ n * 2 ^ n = 2 ^ (2 * n) := by rw [two_mul, zpow_add₀ (by norm_num)]
  have p4 : (2 : ℚ) ^ (2 * n) * 2 ^ (2 * n) = 2 ^ (4 * n) := by rw [← zpow_add₀ (by norm_num)]; ring_nf
  have n0 : 0 ≤ n := by have := P.hp; have := P.hmax; omega
  have r : P.fmt.rep (2 ^ (2 * n)) := by
    refine ⟨⟨1, 2 * n, by norm_num, ?_, ?_⟩, ?_⟩
    · simpa using one_lt_pow₀ (by norm_num : (1 : ℤ) < 2) (by have := P.hp; omega)
    · have := P.hmin; omega
    · show |(2 : ℚ) ^ (2 * n)| < 2 ^ (P.p + P.qmax)
      rw [abs_of_pos (by positivity)]
      exact zpow_lt_zpow_right₀ (by norm_num) h2
  have sq : x * x = Flt.fin (F := P.fmt) (2 ^ (2 * n)) r := by
    rw [Flt.mul_eq hx hx, hv, p2]; exact BinPar.round_rep r
  have big : Flt.fin (F := P.fmt) (2 ^ (2 * n)) r * Flt.fin (F := P.fmt) (2 ^ (2 * n)) r = Flt.pinf := by
    have ff : (Flt.fin (F := P.fmt) (2 ^ (2 * n)) r).isFinite := trivial
    rw [Flt.mul_eq ff ff]
    show Flt.round ((2 : ℚ) ^ (2 * n) * 2 ^ (2 * n)) = _
    rw [p4]
    exact round_over (zpow_le_zpow_right₀ (by norm_num) h4)
  rw [colinear_crit, pt_crit, e1, e2, Flt.neg_mul', neg_mul_neg', neg_mul_neg', sq, big]
  exact isZero_nan e

/-- Three points on the x axis (float): colinear starting from the second one, not starting from the first one. -/
theorem C149_order32_fails (b c : Flt binary32.fmt) (hb : b.isFinite ∧ b.val = (4097)) (hc : c.isFinite ∧ c.val = (4099)) :
    isColinear (pt 0) (pt b) (pt c) binary32.colinearEpsilon = false ∧ isColinear (pt b) (pt 0) (pt c) binary32.colinearEpsilon = true := by
  have z0 : (0 : Flt binary32.fmt).isFinite ∧ (0 : Flt binary32.fmt).val = 0 := ⟨Flt.zero_finite, Flt.zero_val⟩
  constructor
  · have ac := is_sub (c := (-4099)) z0 hc (by fl_num (-11) (-8394752)) (lt_bound32 (by norm_num [abs_le]))
    have ba := is_sub (c := (4097)) hb z0 (by fl_num (-11) (8390656)) (lt_bound32 (by norm_num [abs_le]))
    have j := is_mul (c := (-16793604)) ac ba (by fl_tie (1) (-8396802)) (lt_bound32 (by norm_num [abs_le]))
    have k := is_mul (c := (16801800)) ac ac (by fl_tie (1) (8400900)) (lt_bound32 (by norm_num [abs_le]))
    have l := is_mul (c := (16785408)) ba ba (by fl_tie (1) (8392704)) (lt_bound32 (by norm_num [abs_le]))
    have x := is_mul (c := (282025135177728)) j j (by fl_num (25) (8405004)) (lt_bound32 (by norm_num [abs_le]))
    have y := is_mul (c := (282025068068864)) k l (by fl_num (25) (8405002)) (lt_bound32 (by norm_num [abs_le]))
    have r := is_sub (c := (67108864)) x y (by fl_num (3) (8388608)) (lt_bound32 (by norm_num [abs_le]))
    rw [colinear_crit, pt_crit, isZero_flt r.1 colinearEpsilon32.1 (by rw [colinearEpsilon32.2]; norm_num), r.2, colinearEpsilon32.2]
    exact decide_eq_false (by norm_num [abs_of_pos])
  · have ac := is_sub (c := (-2)) hb hc (by fl_num (-22) (-8388608)) (lt_bound32 (by norm_num [abs_le]))
    have ba := is_sub (c := (-4097)) z0 hb (by fl_num (-11) (-8390656)) (lt_bound32 (by norm_num [abs_le]))
    have j := is_mul (c := (8194)) ac ba (by fl_num (-10) (8390656)) (lt_bound32 (by norm_num [abs_le]))
    have k := is_mul (c := (4)) ac ac (by fl_num (-21) (8388608)) (lt_bound32 (by norm_num [abs_le]))
    have l := is_mul (c := (16785408)) ba ba (by fl_tie (1) (8392704)) (lt_bound32 (by norm_num [abs_le]))
    have x := is_mul (c := (67141632)) j j (by fl_tie (3) (8392704)) (lt_bound32 (by norm_num [abs_le]))
    have y := is_mul (c := (67141632)) k l (by fl_num (3) (8392704)) (lt_bound32 (by norm_num [abs_le]))
    have r := is_sub (c := (0)) x y (by norm_num [BinPar.fl_zero]) (lt_bound32 (by norm_num [abs_le]))
    rw [colinear_crit, pt_crit, isZero_flt r.1 colinearEpsilon32.1 (by rw [colinearEpsilon32.2]; norm_num), r.2, colinearEpsilon32.2]
    exact decide_eq_true (by norm_num [abs_of_pos])

/-- Three points on the x axis (double): colinear starting from the second one, not starting from the first one. -/
theorem C149_order64_fails (b c : Flt binary64.fmt) (hb : b.isFinite ∧ b.val = (134217729 / 131072)) (hc : c.isFinite ∧ c.val = (134217731 / 131072)) :
    isColinear (pt 0) (pt b) (pt c) binary64.colinearEpsilon = false ∧ isColinear (pt b) (pt 0) (pt c) binary64.colinearEpsilon = true := by
  have z0 : (0 : Flt binary64.fmt).isFinite ∧ (0 : Flt binary64.fmt).val = 0 := ⟨Flt.zero_finite, Flt.zero_val⟩
  constructor
  · have ac := is_sub (c := (-134217731 / 131072)) z0 hc (by fl_num (-42) (-4503599728033792)) (lt_bound64 (by norm_num [abs_le]))
    have ba := is_sub (c := (134217729 / 131072)) hb z0 (by fl_num (-42) (4503599660924928)) (lt_bound64 (by norm_num [abs_le]))
    have j := is_mul (c := (-4503599761588225 / 4294967296)) ac ba (by fl_num (-32) (-4503599761588225)) (lt_bound64 (by norm_num [abs_le]))
    have k := is_mul (c := (2251799914348545 / 2147483648)) ac ac (by fl_num (-32) (4503599828697090)) (lt_bound64 (by norm_num [abs_le]))
    have l := is_mul (c := (67108865 / 64)) ba ba (by fl_num (-32) (4503599694479360)) (lt_bound64 (by norm_num [abs_le]))
    have x := is_mul (c := (2251799947902979 / 2048)) j j (by fl_num (-12) (4503599895805958)) (lt_bound64 (by norm_num [abs_le]))
    have y := is_mul (c := (4503599895805957 / 4096)) k l (by fl_num (-12) (4503599895805957)) (lt_bound64 (by norm_num [abs_le]))
    have r := is_sub (c := (1 / 4096)) x y (by fl_num (-64) (4503599627370496)) (lt_bound64 (by norm_num [abs_le]))
    rw [colinear_crit, pt_crit, isZero_flt r.1 colinearEpsilon64.1 (by rw [colinearEpsilon64.2]; norm_num), r.2, colinearEpsilon64.2]
    exact decide_eq_false (by norm_num [abs_of_pos])
  · have ac := is_sub (c := (-1 / 65536)) hb hc (by fl_num (-68) (-4503599627370496)) (lt_bound64 (by norm_num [abs_le]))
    have ba := is_sub (c := (-134217729 / 131072)) z0 hb (by fl_num (-42) (-4503599660924928)) (lt_bound64 (by norm_num [abs_le]))
    have j := is_mul (c := (134217729 / 8589934592)) ac ba (by fl_num (-58) (4503599660924928)) (lt_bound64 (by norm_num [abs_le]))
    have k := is_mul (c := (1 / 4294967296)) ac ac (by fl_num (-84) (4503599627370496)) (lt_bound64 (by norm_num [abs_le]))
    have l := is_mul (c := (67108865 / 64)) ba ba (by fl_num (-32) (4503599694479360)) (lt_bound64 (by norm_num [abs_le]))
    have x := is_mul (c := (67108865 / 274877906944)) j j (by fl_num (-64) (4503599694479360)) (lt_bound64 (by norm_num [abs_le]))
    have y := is_mul (c := (67108865 / 274877906944)) k l (by fl_num (-64) (4503599694479360)) (lt_bound64 (by norm_num [abs_le]))
    have r := is_sub (c := (0)) x y (by norm_num [BinPar.fl_zero]) (lt_bound64 (by norm_num [abs_le]))
    rw [colinear_crit, pt_crit, isZero_flt r.1 colinearEpsilon64.1 (by rw [colinearEpsilon64.2]; norm_num), r.2, colinearEpsilon64.2]
    exact decide_eq_true (by norm_num [abs_of_pos])

namespace FltCol

theorem u64 : (binary64.u : ℝ) = 1 / 2 ^ 53 := by norm_num [BinPar.u, binary64]

/-- The corners of the unit triangle. -/
theorem unit_pts : Pts 1 (0 : Vec (Flt binary64.fmt) 3) ![1, 0, 0] ![0, 1, 0] where
  one := le_rfl
  u := by rw [u64]; norm_num
  bound := by
    have h := lt_bound64 (q := 128) (by norm_num)
    rw [abs_of_pos (by norm_num)] at h
    have h' : ((128 : ℚ) : ℝ) < (binary64.bound : ℝ) := by exact_mod_cast h
    push_cast at h'
    linarith
  fa := fun _ => Flt.zero_finite
  fb := fun i => by fin_cases i; exacts [Flt.one_finite, Flt.zero_finite, Flt.zero_finite]
  fc := fun i => by fin_cases i; exacts [Flt.zero_finite, Flt.one_finite, Flt.zero_finite]
  ac := fun i => by
    fin_cases i
    · show |(((0 : Flt binary64.fmt).val : ℚ) : ℝ) - ((0 : Flt binary64.fmt).val : ℚ)| ≤ 1; norm_num
    · show |(((0 : Flt binary64.fmt).val : ℚ) : ℝ) - ((1 : Flt binary64.fmt).val : ℚ)| ≤ 1; rw [Flt.zero_val, Flt.one_val]; norm_num
    · show |(((0 : Flt binary64.fmt).val : ℚ) : ℝ) - ((0 : Flt binary64.fmt).val : ℚ)| ≤ 1; norm_num
  ba := fun i => by
    fin_cases i
    · show |(((1 : Flt binary64.fmt).val : ℚ) : ℝ) - ((0 : Flt binary64.fmt).val : ℚ)| ≤ 1; rw [Flt.zero_val, Flt.one_val]; norm_num
    · show |(((0 : Flt binary64.fmt).val : ℚ) : ℝ) - ((0 : Flt binary64.fmt).val : ℚ)| ≤ 1; norm_num
    · show |(((0 : Flt binary64.fmt).val : ℚ) : ℝ) - ((0 : Flt binary64.fmt).val : ℚ)| ≤ 1; norm_num

end FltCol

/-- The hypotheses of `C149_accuracy` hold for the unit triangle, which is not colinear. -/
example : isColinear (0 : Vec (Flt binary64.fmt) 3) ![1, 0, 0] ![0, 1, 0] binary64.colinearEpsilon = false := by
  refine (C149_accuracy unit_pts colinearEpsilon64.1 (by rw [colinearEpsilon64.2]; norm_num)).2 ?_
  have e : cross (rvec (![1, 0, 0] : Vec (Flt binary64.fmt) 3) - rvec (0 : Vec (Flt binary64.fmt) 3))
      (rvec (![0, 1, 0] : Vec (Flt binary64.fmt) 3) - rvec (0 : Vec (Flt binary64.fmt) 3)) 2 = 1 := by
    rw [cross_2]
    show ((((1 : Flt binary64.fmt).val : ℚ) : ℝ) - ((0 : Flt binary64.fmt).val : ℚ)) * ((((1 : Flt binary64.fmt).val : ℚ) : ℝ) - ((0 : Flt binary64.fmt).val : ℚ))
      - ((((0 : Flt binary64.fmt).val : ℚ) : ℝ) - ((0 : Flt binary64.fmt).val : ℚ)) * ((((0 : Flt binary64.fmt).val : ℚ) : ℝ) - ((0 : Flt binary64.fmt).val : ℚ)) = 1
    rw [Flt.one_val, Flt.zero_val]; norm_num
  have e' : (1 : ℝ) ≤ squaredLength (cross (rvec (![1, 0, 0] : Vec (Flt binary64.fmt) 3) - rvec (0 : Vec (Flt binary64.fmt) 3))
      (rvec (![0, 1, 0] : Vec (Flt binary64.fmt) 3) - rvec (0 : Vec (Flt binary64.fmt) 3))) := by
    unfold squaredLength
    rw [vm.dot3, e]
    nlinarith [mul_self_nonneg (cross (rvec (![1, 0, 0] : Vec (Flt binary64.fmt) 3) - rvec (0 : Vec (Flt binary64.fmt) 3))
      (rvec (![0, 1, 0] : Vec (Flt binary64.fmt) 3) - rvec (0 : Vec (Flt binary64.fmt) 3)) 0),
      mul_self_nonneg (cross (rvec (![1, 0, 0] : Vec (Flt binary64.fmt) 3) - rvec (0 : Vec (Flt binary64.fmt) 3))
      (rvec (![0, 1, 0] : Vec (Flt binary64.fmt) 3) - rvec (0 : Vec (Flt binary64.fmt) 3)) 1)]
  refine lt_of_lt_of_le ?_ e'
  rw [colinearEpsilon64.2, u64]
  norm_num

/-- Those of `C149_coincident` for a triangle of which two corners coincide. -/
example (e : Flt binary64.fmt) : isColinear (0 : Vec (Flt binary64.fmt) 3) ![1, 0, 0] 0 e = true :=
  C149_coincident ⟨unit_pts.one, unit_pts.u, unit_pts.bound, unit_pts.fa, unit_pts.fb, unit_pts.fa, fun i => by simp, unit_pts.ba⟩ e (Or.inr (Or.inl rfl))

/-- Floats overflow from 2^32 on. -/
example : ∃ x : Flt binary32.fmt, x.val = 4294967296 ∧ ∀ e, isColinear (pt 0) (pt x) (pt x) e = false := by
  have h := is_round (P := binary32) (q := 4294967296) (c := 4294967296) (by fl_num 9 8388608) (lt_bound32 (by norm_num [abs_le]))
  exact ⟨_, h.2, fun e => C149_overflow_fails _ h.1 (n := 32) (h.2.trans (by norm_num)) (by norm_num [binary32]) (by norm_num [binary32]) e⟩

/-- There are such floats and doubles. -/
example : (∃ b c : Flt binary32.fmt, isColinear (pt 0) (pt b) (pt c) binary32.colinearEpsilon = false) ∧
    ∃ b c : Flt binary64.fmt, isColinear (pt 0) (pt b) (pt c) binary64.colinearEpsilon = false :=
  ⟨⟨_, _, (C149_order32_fails _ _ (is_round (q := 4097) (by fl_num (-11) 8390656) (lt_bound32 (by norm_num [abs_le])))
      (is_round (q := 4099) (by fl_num (-11) 8394752) (lt_bound32 (by norm_num [abs_le])))).1⟩,
    ⟨_, _, (C149_order64_fails _ _ (is_round (q := 134217729 / 131072) (by fl_num (-42) 4503599660924928) (lt_bound64 (by norm_num [abs_le])))
      (is_round (q := 134217731 / 131072) (by fl_num (-42) 4503599728033792) (lt_bound64 (by norm_num [abs_le])))).1⟩⟩

end vm
