import Verif.Model.SolveG
import Verif.Props.FltPolygon
import Verif.Props.FltGrid
import Verif.Props.FltLength

/-!
Lemmas for C124: the error of the quadratic formula.
-/

set_option linter.unusedSectionVars false
set_option linter.unusedSimpArgs false

namespace vm
namespace FltQuad
open BinPar
variable {P : BinPar}

/-- The error of the discriminant. -/
theorem disc_err {u p q s d Pe Q : ℚ} (hu0 : 0 < u) (hu : u ≤ 1 / 8) (hp : |p - Pe| ≤ u * |Pe|) (hq : |q - Q| ≤ u * |Q|)
    (hs : |s - p * p| ≤ u * |p * p|) (hd : |d - (s - q)| ≤ u * |s - q|) : |d - (Pe ^ 2 - Q)| ≤ 5 * u * (Pe ^ 2 + |Q|) ∧ |s| ≤ 3 / 2 * Pe ^ 2 ∧
      |s - q| ≤ 3 / 2 * (Pe ^ 2 + |Q|) := by
  have hQ := abs_nonneg Q
  have hP2 := sq_nonneg Pe
  -- the square
  have h1 : |p| ≤ (1 + u) * |Pe| := by
    have := abs_sub_abs_le_abs_sub p Pe; linarith
  have h2 : |p * p| ≤ (1 + u) ^ 2 * Pe ^ 2 := by
    rw [abs_mul, ← sq_abs Pe]
    have := mul_le_mul h1 h1 (abs_nonneg _) (by positivity)
    linarith
  have h3 : |p * p - Pe ^ 2| ≤ (2 * u + u ^ 2) * Pe ^ 2 := by
    have e : p * p - Pe ^ 2 = (p - Pe) * (p + Pe) := by ring
    have h4 : |p + Pe| ≤ (2 + u) * |Pe| := by
      have := abs_add_le p Pe; linarith
    rw [e, abs_mul, ← sq_abs Pe]
    have := mul_le_mul hp h4 (abs_nonneg _) (by positivity)
    linarith
  have h5 : |s - Pe ^ 2| ≤ (u * (1 + u) ^ 2 + 2 * u + u ^ 2) * Pe ^ 2 := by
    have := abs_sub_le s (p * p) (Pe ^ 2)
    have := mul_le_mul_of_nonneg_left h2 hu0.le
    linarith
  have hc : u * (1 + u) ^ 2 + 2 * u + u ^ 2 ≤ 17 / 5 * u := by nlinarith [mul_pos hu0 hu0]
  have h6 : |s - Pe ^ 2| ≤ 17 / 5 * u * Pe ^ 2 := h5.trans (mul_le_mul_of_nonneg_right hc hP2)
  have h7 : |(s - q) - (Pe ^ 2 - Q)| ≤ 17 / 5 * u * Pe ^ 2 + u * |Q| := by
    have e : (s - q) - (Pe ^ 2 - Q) = (s - Pe ^ 2) - (q - Q) := by ring
    rw [e]
    have := abs_sub (s - Pe ^ 2) (q - Q)
    linarith
  have h8 : |Pe ^ 2 - Q| ≤ Pe ^ 2 + |Q| := by
    have := abs_sub (Pe ^ 2) Q
    rwa [abs_of_nonneg hP2] at this
  have h9 : |s - q| ≤ Pe ^ 2 + |Q| + (17 / 5 * u * Pe ^ 2 + u * |Q|) := by
    have := abs_sub_abs_le_abs_sub (s - q) (Pe ^ 2 - Q); linarith
  have h10 : 17 / 5 * u * Pe ^ 2 ≤ 17 / 40 * Pe ^ 2 := mul_le_mul_of_nonneg_right (by linarith) hP2
  have h11 : u * |Q| ≤ 1 / 8 * |Q| := mul_le_mul_of_nonneg_right hu hQ
  refine ⟨?_, ?_, by linarith⟩
  · have h12 := abs_sub_le d (s - q) (Pe ^ 2 - Q)
    have h13 : u * |s - q| ≤ u * (57 / 40 * Pe ^ 2 + 9 / 8 * |Q|) := mul_le_mul_of_nonneg_left (by linarith) hu0.le
    have h14 := mul_nonneg hu0.le hP2
    have h15 := mul_nonneg hu0.le hQ
    linarith
  · have := abs_sub_abs_le_abs_sub s (Pe ^ 2)
    rw [abs_of_nonneg hP2] at this
    linarith

/-- The residual of a computed root. -/
theorem root_err {u p d r x Pe Q : ℚ} (hu0 : 0 < u) (hu : u ≤ 1 / 8) (hp : |p - Pe| ≤ u * |Pe|) (hd0 : 0 ≤ d)
    (hd : |d - (Pe ^ 2 - Q)| ≤ 5 * u * (Pe ^ 2 + |Q|)) (hr1 : r ^ 2 ≤ d * (1 + 2 * u) ^ 2) (hr2 : d ≤ r ^ 2 * (1 + 2 * u) ^ 2)
    (hx : |x - (r - p)| ≤ u * |r - p|) : |x ^ 2 + 2 * Pe * x + Q| ≤ 32 * u * (Pe ^ 2 + |Q|) := by
  have hQ := abs_nonneg Q
  have hP2 := sq_nonneg Pe
  set M := Pe ^ 2 + |Q| with hM
  have hM0 : 0 ≤ M := by positivity
  have huM := mul_nonneg hu0.le hM0
  have hPM : Pe ^ 2 ≤ M := by linarith
  have h8 : |Pe ^ 2 - Q| ≤ M := by
    have := abs_sub (Pe ^ 2) Q
    rwa [abs_of_nonneg hP2] at this
  have hdM : d ≤ 13 / 8 * M := by
    have h1 := (abs_le.1 hd).2
    have h2 := (abs_le.1 h8).2
    have h3 : 5 * u * M ≤ 5 / 8 * M := mul_le_mul_of_nonneg_right (by linarith) hM0
    linarith
  have hk : (1 + 2 * u) ^ 2 ≤ 25 / 16 := by nlinarith
  have hk1 : (1 + 2 * u) ^ 2 - 1 ≤ 9 / 2 * u := by nlinarith
  have hr0 := sq_nonneg r
  have hrM : r ^ 2 ≤ 51 / 20 * M := by
    have := mul_le_mul_of_nonneg_left hk hd0
    nlinarith
  have hrd : |r ^ 2 - d| ≤ 12 * u * M := by
    rw [abs_le]
    have a1 := mul_le_mul_of_nonneg_left hk1 hd0
    have a2 := mul_le_mul_of_nonneg_left hk1 hr0
    have a3 := mul_le_mul_of_nonneg_left hdM hu0.le
    have a4 := mul_le_mul_of_nonneg_left hrM hu0.le
    constructor <;> linarith
  -- the distance of the root
  set e := x + Pe - r with he
  have h1 : |p| ≤ (1 + u) * |Pe| := by
    have := abs_sub_abs_le_abs_sub p Pe; linarith
  have h2 : |r - p| ≤ |r| + 9 / 8 * |Pe| := by
    have := abs_sub r p
    have : (1 + u) * |Pe| ≤ 9 / 8 * |Pe| := mul_le_mul_of_nonneg_right (by linarith) (abs_nonneg _)
    linarith
  have h3 : |e| ≤ u * (|r| + 17 / 8 * |Pe|) := by
    have e1 : e = (x - (r - p)) - (p - Pe) := by rw [he]; ring
    rw [e1]
    have := abs_sub (x - (r - p)) (p - Pe)
    have := mul_le_mul_of_nonneg_left h2 hu0.le
    linarith
  have e2 : x ^ 2 + 2 * Pe * x + Q = (r ^ 2 - d) + (d - (Pe ^ 2 - Q)) + (2 * r * e + e ^ 2) := by rw [he]; ring
  have h4 : |2 * r * e + e ^ 2| ≤ 15 * u * M := by
    have h5 : |2 * r * e + e ^ 2| ≤ 2 * (|r| * |e|) + |e| ^ 2 := by
      have := abs_add_le (2 * r * e) (e ^ 2)
      rw [abs_mul, abs_mul, abs_two, abs_of_nonneg (sq_nonneg e)] at this
      rw [sq_abs e]
      linarith
    have hrr : |r| ^ 2 ≤ 51 / 20 * M := by rw [sq_abs]; exact hrM
    have hpp : |Pe| ^ 2 ≤ M := by rw [sq_abs]; exact hPM
    have ar := abs_nonneg r
    have ap := abs_nonneg Pe
    have h6 : |r| * |e| ≤ u * (|r| ^ 2 + 17 / 8 * (|r| * |Pe|)) := by
      have := mul_le_mul_of_nonneg_left h3 ar
      linarith
    have h7 : |r| * |Pe| ≤ (|r| ^ 2 + |Pe| ^ 2) / 2 := by nlinarith [sq_nonneg (|r| - |Pe|)]
    have h9 : |e| ^ 2 ≤ u * (1 / 8 * (|r| + 17 / 8 * |Pe|) ^ 2) := by
      have b1 : |e| ^ 2 ≤ (u * (|r| + 17 / 8 * |Pe|)) ^ 2 := pow_le_pow_left₀ (abs_nonneg _) h3 2
      have b2 : u * u ≤ u * (1 / 8) := mul_le_mul_of_nonneg_left hu hu0.le
      have b3 := mul_le_mul_of_nonneg_right b2 (sq_nonneg (|r| + 17 / 8 * |Pe|))
      linarith
    have h10 : |r| ^ 2 + 17 / 8 * (|r| * |Pe|) ≤ 633 / 100 * M := by linarith
    have h11 : 1 / 8 * (|r| + 17 / 8 * |Pe|) ^ 2 ≤ 2 * M := by
      have : (|r| + 17 / 8 * |Pe|) ^ 2 = |r| ^ 2 + 17 / 4 * (|r| * |Pe|) + 289 / 64 * |Pe| ^ 2 := by ring
      rw [this]; linarith
    have h12 := mul_le_mul_of_nonneg_left h10 hu0.le
    have h13 := mul_le_mul_of_nonneg_left h11 hu0.le
    linarith
  rw [e2]
  have h14 := abs_add_le (r ^ 2 - d + (d - (Pe ^ 2 - Q))) (2 * r * e + e ^ 2)
  have h15 := abs_add_le (r ^ 2 - d) (d - (Pe ^ 2 - Q))
  linarith

/-- Zero, or large enough to be rounded with a small relative error. -/
def NormalOrZero (P : BinPar) (x : ℚ) : Prop := x = 0 ∨ 2 ^ (P.qmin + P.p) ≤ |x|

theorem NormalOrZero.err {x : ℚ} (h : NormalOrZero P x) : |P.fl x - x| ≤ P.u * |x| := by
  rcases h with h | h
  · rw [h, P.fl_zero]; simp
  · refine fl_err_rel (le_trans ?_ h)
    exact zpow_le_zpow_right₀ (by norm_num) (by omega)

/-- If a square is large enough then so is the root. -/
theorem NormalOrZero.root {x : ℚ} (h : NormalOrZero P (x ^ 2)) : NormalOrZero P x := by
  rcases h with h | h
  · left; exact pow_eq_zero_iff (two_ne_zero) |>.1 h
  right
  by_contra hc
  rw [not_le] at hc
  have hm := P.hmin
  have h1 : (2 : ℚ) ^ (P.qmin + P.p) ≤ 1 := zpow_le_one_of_nonpos₀ (by norm_num) (by omega)
  have h2 := two_zpow_pos (P.qmin + P.p)
  rw [abs_of_nonneg (sq_nonneg x), ← sq_abs] at h
  have h3 := abs_nonneg x
  nlinarith

structure QuadOk (a b c : Flt P.fmt) : Prop where
  fa : a.isFinite
  fb : b.isFinite
  fc : c.isFinite
  a0 : a.val ≠ 0
  a2 : 2 * |a.val| < P.bound
  hp : NormalOrZero P ((b.val / (2 * a.val)) ^ 2)
  hq : NormalOrZero P (c.val / a.val)
  hO : 8 * ((b.val / (2 * a.val)) ^ 2 + |c.val / a.val| + 1) < P.bound

theorem two_mul_val {a : Flt P.fmt} (fa : a.isFinite) (a2 : 2 * |a.val| < P.bound) : (2 * a).isFinite ∧ (2 * a).val = 2 * a.val := by
  refine is_mul (Flt.two_eq P) ⟨fa, rfl⟩ ?_ (by rw [abs_mul, abs_two]; exact a2)
  have := (Flt.rep_val a).1.double
  exact P.fl_rep this

/-- The intermediate results are finite and accurate. -/
theorem parts {a b c : Flt P.fmt} (h : QuadOk a b c) :
    ((b / (2 * a)).isFinite ∧ |(b / (2 * a)).val - b.val / (2 * a.val)| ≤ P.u * |b.val / (2 * a.val)|) ∧
    (b / (2 * a) * (b / (2 * a)) - c / a).isFinite ∧
    |(b / (2 * a) * (b / (2 * a)) - c / a).val - ((b.val / (2 * a.val)) ^ 2 - c.val / a.val)| ≤
      5 * P.u * ((b.val / (2 * a.val)) ^ 2 + |c.val / a.val|) := by
  obtain ⟨fa, fb, fc, a0, a2, hp, hq, hO⟩ := h
  have hu0 := P.u_pos
  have hu := P.u_le
  have t := two_mul_val fa a2
  have n0 : 2 * a.val ≠ 0 := mul_ne_zero two_ne_zero a0
  set Pe := b.val / (2 * a.val) with hPe
  set Q := c.val / a.val with hQ
  have hQ0 := abs_nonneg Q
  have hP2 := sq_nonneg Pe
  have hP1 : |Pe| ≤ 1 + Pe ^ 2 := by rw [← sq_abs]; nlinarith [sq_nonneg (|Pe| - 1), abs_nonneg Pe]
  have ip := is_div ⟨fb, rfl⟩ t n0 rfl (fl_lt_bound (by linarith))
  have iq := is_div ⟨fc, rfl⟩ ⟨fa, rfl⟩ a0 rfl (fl_lt_bound (by linarith))
  rw [← hPe] at ip
  rw [← hQ] at iq
  have ep := hp.root.err
  have eq := hq.err
  set p := P.fl Pe with hpp
  set q := P.fl Q with hqq
  -- the square of the computed quotient
  have np : |P.fl (p * p) - p * p| ≤ P.u * |p * p| := by
    rcases hp with h0 | h0
    · have : Pe = 0 := pow_eq_zero_iff two_ne_zero |>.1 h0
      rw [hpp, this, P.fl_zero, mul_zero, P.fl_zero]; simp
    · refine fl_err_rel ?_
      have e1 : (2 : ℚ) ^ (P.qmin + P.p) = 2 * 2 ^ (P.qmin + P.p - 1) := by
        rw [show P.qmin + P.p = (P.qmin + P.p - 1) + 1 by ring, zpow_add2, zpow_one]; ring_nf
      rw [abs_of_nonneg hP2, e1] at h0
      have h1 : 7 / 8 * |Pe| ≤ |p| := by
        have := abs_sub_abs_le_abs_sub Pe p
        rw [abs_sub_comm] at this
        have : P.u * |Pe| ≤ 1 / 8 * |Pe| := mul_le_mul_of_nonneg_right hu (abs_nonneg _)
        linarith
      have h2 := mul_le_mul h1 h1 (by positivity) (abs_nonneg _)
      rw [abs_mul]
      have := sq_abs Pe
      linarith
  have s1 : |p * p| ≤ 3 / 2 * Pe ^ 2 := by
    have h1 : |p| ≤ 9 / 8 * |Pe| := by
      have := abs_sub_abs_le_abs_sub p Pe
      have : P.u * |Pe| ≤ 1 / 8 * |Pe| := mul_le_mul_of_nonneg_right hu (abs_nonneg _)
      linarith
    have h2 := mul_le_mul h1 h1 (abs_nonneg _) (by positivity)
    rw [abs_mul]
    have := sq_abs Pe
    linarith
  have is := is_mul ip ip rfl (fl_lt_bound (by linarith))
  have h3 := disc_err (d := P.fl (P.fl (p * p) - q)) hu0 hu ep eq np (fl_sub_err_u (P.rep_fl _) (P.rep_fl _))
  have iD := is_sub is iq rfl (fl_lt_bound (by linarith [h3.2.2]))
  refine ⟨⟨ip.1, by rw [ip.2]; exact ep⟩, iD.1, ?_⟩
  rw [iD.2]
  exact h3.1

/-- The two branches of the square root. -/
theorem roots {a b c : Flt P.fmt} (h : QuadOk a b c) {s : Flt P.fmt → Flt P.fmt} (hs : FaithfulSqrt P s)
    (hD : 0 ≤ (b / (2 * a) * (b / (2 * a)) - c / a).val) :
    ((s (b / (2 * a) * (b / (2 * a)) - c / a) - b / (2 * a)).isFinite ∧
      |(s (b / (2 * a) * (b / (2 * a)) - c / a) - b / (2 * a)).val ^ 2 +
        2 * (b.val / (2 * a.val)) * (s (b / (2 * a) * (b / (2 * a)) - c / a) - b / (2 * a)).val + c.val / a.val| ≤
        32 * P.u * ((b.val / (2 * a.val)) ^ 2 + |c.val / a.val|)) ∧
    (-s (b / (2 * a) * (b / (2 * a)) - c / a) - b / (2 * a)).isFinite ∧
      |(-s (b / (2 * a) * (b / (2 * a)) - c / a) - b / (2 * a)).val ^ 2 +
        2 * (b.val / (2 * a.val)) * (-s (b / (2 * a) * (b / (2 * a)) - c / a) - b / (2 * a)).val + c.val / a.val| ≤
        32 * P.u * ((b.val / (2 * a.val)) ^ 2 + |c.val / a.val|) := by
  have hu0 := P.u_pos
  have hu := P.u_le
  obtain ⟨⟨f1, e1⟩, f2, e2⟩ := parts h
  have hO := h.hO
  generalize b / (2 * a) * (b / (2 * a)) - c / a = D at *
  generalize b / (2 * a) = p at *
  generalize b.val / (2 * a.val) = Pe at *
  generalize c.val / a.val = Q at *
  obtain ⟨k1, k2⟩ := Flt.eq_fin f2
  obtain ⟨r, hr, h3, h4⟩ := hs.fin _ k1 hD
  obtain ⟨q1, q2⟩ := h4.sq k1 hD
  have hr0 := h4.1
  have sD : s D = Flt.fin (F := P.fmt) r hr := by rw [k2]; exact h3
  rw [sD]
  have hQ0 := abs_nonneg Q
  have hP2 := sq_nonneg Pe
  have hP1 : |Pe| ≤ 1 + Pe ^ 2 := by rw [← sq_abs]; nlinarith [sq_nonneg (|Pe| - 1), abs_nonneg Pe]
  have hM0 : 0 ≤ Pe ^ 2 + |Q| := by positivity
  have hdM : D.val ≤ 13 / 8 * (Pe ^ 2 + |Q|) := by
    have h1 := (abs_le.1 e2).2
    have h2 := abs_sub (Pe ^ 2) Q
    rw [abs_of_nonneg hP2] at h2
    have h2' := le_abs_self (Pe ^ 2 - Q)
    have h3 : 5 * P.u * (Pe ^ 2 + |Q|) ≤ 5 / 8 * (Pe ^ 2 + |Q|) := mul_le_mul_of_nonneg_right (by linarith) hM0
    linarith
  have hk : (1 + 2 * P.u) ^ 2 ≤ 25 / 16 := by nlinarith
  have hrM : r ^ 2 ≤ 51 / 20 * (Pe ^ 2 + |Q|) := by
    have := mul_le_mul_of_nonneg_left hk hD
    linarith
  have hr1 : r ≤ 1 / 2 + r ^ 2 / 2 := by nlinarith [sq_nonneg (r - 1)]
  have hp1 : |p.val| ≤ 9 / 8 * |Pe| := by
    have := abs_sub_abs_le_abs_sub p.val Pe
    have : P.u * |Pe| ≤ 1 / 8 * |Pe| := mul_le_mul_of_nonneg_right hu (abs_nonneg _)
    linarith
  have hb : 2 * (|r| + |p.val|) + 1 < P.bound := by
    rw [abs_of_nonneg hr0]; linarith
  have fr : (Flt.fin (F := P.fmt) r hr).isFinite := trivial
  have i1 : (Flt.fin (F := P.fmt) r hr - p).isFinite ∧ _ := is_sub ⟨fr, rfl⟩ ⟨f1, rfl⟩ rfl (fl_lt_bound (by
    have : |(Flt.fin (F := P.fmt) r hr).val - p.val| ≤ |r| + |p.val| := abs_sub r p.val
    linarith))
  have i2 : (-Flt.fin (F := P.fmt) r hr - p).isFinite ∧ _ := is_sub (a := -r) ⟨Flt.neg_finite.2 fr, by rw [Flt.neg_val]; rfl⟩ ⟨f1, rfl⟩ rfl (fl_lt_bound (by
    have : |-r - p.val| ≤ |-r| + |p.val| := abs_sub (-r) p.val
    rw [abs_neg] at this
    linarith))
  refine ⟨⟨i1.1, ?_⟩, i2.1, ?_⟩
  · rw [i1.2]
    exact root_err hu0 hu e1 hD e2 q1 q2 (fl_sub_err_u hr.1 (Flt.rep_val p).1)
  · rw [i2.2]
    exact root_err (r := -r) hu0 hu e1 hD e2 (by rw [neg_sq]; exact q1) (by rw [neg_sq]; exact q2) (fl_sub_err_u hr.1.neg (Flt.rep_val p).1)

end FltQuad
end vm
