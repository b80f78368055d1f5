import Verif.Model.SphereG
import Verif.Lemmas.FltDistance
import Verif.Lemmas.FltConst
import Verif.Lemmas.FltQuadratic
import Verif.Props.FltLength

/-! Helper lemmas for rays and spheres in IEEE arithmetic. -/

set_option linter.unusedSectionVars false
set_option linter.unusedSimpArgs false

namespace vm
variable {P : BinPar}

namespace FltSph
open FltDist

theorem four_eq (P : BinPar) : (4 : Flt P.fmt).isFinite ∧ (4 : Flt P.fmt).val = 4 := by
  have h8 : (2 : ℤ) ^ 3 ≤ 2 ^ P.p := pow_le_pow_right₀ (by norm_num) P.hp
  have := Flt.int_finite (P := P) (n := 4) (by norm_num; linarith)
  push_cast at this
  exact this

/-- A rounded product is close. -/
theorem mul_near {x y : Flt P.fmt} (hx : x.isFinite) (hy : y.isFinite) {C : ℚ} (hC : |x.val * y.val| ≤ C) (hb : 2 * C + 1 < P.bound) :
    (x * y).isFinite ∧ |(x * y).val - x.val * y.val| ≤ P.u * C + P.eta := by
  have i := is_mul (P := P) ⟨hx, rfl⟩ ⟨hy, rfl⟩ rfl (fl_lt_bound (q := x.val * y.val) (by linarith))
  refine ⟨i.1, ?_⟩
  rw [i.2]
  have := mul_le_mul_of_nonneg_left hC P.u_pos.le
  linarith [P.fl_err_u (x.val * y.val)]

/-- A rounded difference is close. -/
theorem sub_near {x y : Flt P.fmt} (hx : x.isFinite) (hy : y.isFinite) {C : ℚ} (hC : |x.val - y.val| ≤ C) (hb : 2 * C + 1 < P.bound) :
    (x - y).isFinite ∧ (x - y).val = P.fl (x.val - y.val) ∧ |(x - y).val - (x.val - y.val)| ≤ P.u * C := by
  have i := is_sub (P := P) ⟨hx, rfl⟩ ⟨hy, rfl⟩ rfl (fl_lt_bound (q := x.val - y.val) (by linarith))
  refine ⟨i.1, i.2, ?_⟩
  rw [i.2]
  have := mul_le_mul_of_nonneg_left hC P.u_pos.le
  linarith [BinPar.fl_sub_err_u (Flt.rep_val x).1 (Flt.rep_val y).1]

/-- A number is halved. -/
theorem half_near {x : Flt P.fmt} (hx : x.isFinite) {C : ℚ} (hC : |x.val| ≤ C) (hb : C + 1 < P.bound) :
    (x / 2).isFinite ∧ (x / 2).val = P.fl (x.val / 2) ∧ |(x / 2).val - x.val / 2| ≤ P.u * (C / 2) + P.eta := by
  have h2 : |x.val / 2| ≤ C / 2 := by rw [abs_div, abs_two]; linarith
  have i := is_div (P := P) ⟨hx, rfl⟩ (Flt.two_eq P) two_ne_zero rfl (fl_lt_bound (q := x.val / 2) (by linarith))
  refine ⟨i.1, i.2, ?_⟩
  rw [i.2]
  have := mul_le_mul_of_nonneg_left h2 P.u_pos.le
  linarith [P.fl_err_u (x.val / 2)]

/-- The coefficient of the linear term. -/
def fp (r : Ray (Flt P.fmt) 3) (c : Vec (Flt P.fmt) 3) : Flt P.fmt := 2 * dot (r.origin - c) r.direction
/-- The constant term. -/
def fq (r : Ray (Flt P.fmt) 3) (c : Vec (Flt P.fmt) 3) (R : Flt P.fmt) : Flt P.fmt := squaredLength (r.origin - c) - R * R
/-- The discriminant. -/
def fd (r : Ray (Flt P.fmt) 3) (c : Vec (Flt P.fmt) 3) (R : Flt P.fmt) : Flt P.fmt := fp r c * fp r c - 4 * fq r c R

/-- The inputs: coordinates and the radius are at most `X`, the direction is nearly normalised, and nothing overflows. -/
structure SphOk (r : Ray (Flt P.fmt) 3) (c : Vec (Flt P.fmt) 3) (R : Flt P.fmt) (X : ℚ) : Prop where
  hu : 250 * P.u ≤ 1
  hX : 1 ≤ X
  hb : 1024 * X ^ 2 < P.bound
  ho : ∀ i, (r.origin i).isFinite ∧ |(r.origin i).val| ≤ X
  hc : ∀ i, (c i).isFinite ∧ |(c i).val| ≤ X
  hR : R.isFinite ∧ |R.val| ≤ X
  hd : ∀ i, (r.direction i).isFinite
  hn : |nsq (vval r.direction) - 1| ≤ 1 / 16

variable {r : Ray (Flt P.fmt) 3} {c : Vec (Flt P.fmt) 3} {R : Flt P.fmt} {X : ℚ}

/-- The exact scalar product of the direction and the vector from the center to the origin of the ray. -/
def eb (r : Ray (Flt P.fmt) 3) (c : Vec (Flt P.fmt) 3) : ℚ := dot (vval r.origin - vval c) (vval r.direction)
/-- The exact constant term. -/
def eq (r : Ray (Flt P.fmt) 3) (c : Vec (Flt P.fmt) 3) (R : Flt P.fmt) : ℚ := nsq (vval r.origin - vval c) - R.val ^ 2

theorem eb3 (r : Ray (Flt P.fmt) 3) (c : Vec (Flt P.fmt) 3) : eb r c = ((r.origin 0).val - (c 0).val) * (r.direction 0).val +
    ((r.origin 1).val - (c 1).val) * (r.direction 1).val + ((r.origin 2).val - (c 2).val) * (r.direction 2).val := by
  unfold eb
  rw [dot3]
  rfl

set_option maxHeartbeats 1000000 in
theorem coeffs (h : SphOk r c R X) :
    ((fp r c).isFinite ∧ |(fp r c).val - 2 * eb r c| ≤ 30 * (P.u * X)) ∧
    ((fq r c R).isFinite ∧ |(fq r c R).val - eq r c R| ≤ 80 * (P.u * X * X)) ∧
    |eb r c| ≤ 36 / 10 * X ∧ |eq r c R| ≤ 13 * X ^ 2 ∧ -X ^ 2 ≤ eq r c R := by
  obtain ⟨hu, hX, hb, ho, hc, hR, hd, hn⟩ := h
  have hup := P.u_pos
  have uX : 0 < P.u * X := by positivity
  have uX' : 250 * (P.u * X) ≤ X := by nlinarith
  have hXX : X ≤ X ^ 2 := by nlinarith
  have eX : P.u * X ≤ P.u * X * X := le_mul_of_one_le_right uX.le hX
  have eX' : 250 * (P.u * X * X) ≤ X ^ 2 := by nlinarith
  have e1 := eta_small hu hX
  have e0 := P.eta_pos
  -- the difference
  have df : ∀ i, ((r.origin - c) i).isFinite ∧ |((r.origin - c) i).val - ((r.origin i).val - (c i).val)| ≤ 2 * (P.u * X) := by
    intro i
    have a : |(r.origin i).val - (c i).val| ≤ 2 * X := (abs_sub _ _).trans (by linarith [(ho i).2, (hc i).2])
    have := sub_near (ho i).1 (hc i).1 a (by linarith)
    refine ⟨this.1, ?_⟩
    have h3 := this.2.2
    show |(r.origin i - c i).val - _| ≤ _
    linarith
  have dX : ∀ i, |(r.origin i).val - (c i).val| ≤ 2 * X := fun i => (abs_sub _ _).trans (by linarith [(ho i).2, (hc i).2])
  have dX2 : ∀ i, ((r.origin i).val - (c i).val) ^ 2 ≤ 4 * X ^ 2 := fun i => by
    have := abs_le.1 (dX i)
    nlinarith
  set δ : Vec ℚ 3 := vval r.origin - vval c with hδ
  have hδi : ∀ i, δ i = (r.origin i).val - (c i).val := fun i => rfl
  have nδ : nsq δ ≤ 12 * X ^ 2 := by
    unfold nsq
    rw [hδi, hδi, hδi]
    linarith [dX2 0, dX2 1, dX2 2]
  have nδ0 := nsq_nonneg δ
  set w : Vec ℚ 3 := vval (r.origin - c) with hw
  have hwi : ∀ i, |w i - δ i| ≤ 2 * (P.u * X) := fun i => (df i).2
  have sδ : |δ 0| + |δ 1| + |δ 2| ≤ 6 * X := by rw [hδi, hδi, hδi]; linarith [dX 0, dX 1, dX 2]
  have nw := nsq_err hwi sδ
  have nw' : |nsq w - nsq δ| ≤ 2441 / 100 * (P.u * X * X) := by
    refine nw.trans ?_
    have : (P.u * X) * (P.u * X) ≤ (P.u * X) * (X / 250) := mul_le_mul_of_nonneg_left (by linarith) uX.le
    nlinarith
  have nwX : nsq w ≤ 121 / 10 * X ^ 2 := by linarith [(abs_le.1 nw').2]
  have nw0 := nsq_nonneg w
  obtain ⟨n1, n2⟩ := abs_le.1 hn
  have hdd : nsq (vval r.direction) ≤ 17 / 16 := by linarith
  -- the scalar product
  have cw := cauchy_abs nwX hdd (C := 36 / 10 * X) (by linarith) (by nlinarith)
  have cδ := cauchy_abs nδ hdd (C := 36 / 10 * X) (by linarith) (by nlinarith)
  have fw : ∀ i, ((r.origin - c) i).isFinite := fun i => (df i).1
  obtain ⟨g1, g2⟩ := dot_of hu fw hd cw hX (by nlinarith)
  have sd : |vval r.direction 0| + |vval r.direction 1| + |vval r.direction 2| ≤ 19 / 10 := sum_abs_of_nsq (by norm_num) (by linarith)
  have ebE : eb r c = δ 0 * (r.direction 0).val + δ 1 * (r.direction 1).val + δ 2 * (r.direction 2).val := eb3 r c
  have ebX : |eb r c| ≤ 36 / 10 * X := by
    rw [ebE]
    refine (abs_add_le _ _).trans (le_trans (add_le_add_left (abs_add_le _ _) _) ?_)
    exact cδ
  have pe : ∀ i, |w i * (r.direction i).val - δ i * (r.direction i).val| ≤ 2 * (P.u * X) * |vval r.direction i| := fun i => by
    rw [← sub_mul, abs_mul]
    exact mul_le_mul_of_nonneg_right (hwi i) (abs_nonneg _)
  have dE : |(dot (r.origin - c) r.direction).val - eb r c| ≤ 15 * (P.u * X) := by
    have k0 := abs_le.1 (pe 0)
    have k1 := abs_le.1 (pe 1)
    have k2 := abs_le.1 (pe 2)
    have k3 := abs_le.1 g2
    have k4 : 2 * (P.u * X) * (|vval r.direction 0| + |vval r.direction 1| + |vval r.direction 2|) ≤ 2 * (P.u * X) * (19 / 10) :=
      mul_le_mul_of_nonneg_left sd (by positivity)
    have w0 : w 0 = ((r.origin - c) 0).val := rfl
    have w1 : w 1 = ((r.origin - c) 1).val := rfl
    have w2 : w 2 = ((r.origin - c) 2).val := rfl
    rw [w0] at k0
    rw [w1] at k1
    rw [w2] at k2
    rw [ebE]
    exact abs_le.2 ⟨by linarith, by linarith⟩
  have dS : |(dot (r.origin - c) r.direction).val| ≤ 4 * X := by
    have a := abs_le.1 dE
    have b := abs_le.1 ebX
    exact abs_le.2 ⟨by linarith, by linarith⟩
  have fpv : (fp r c).isFinite ∧ (fp r c).val = 2 * (dot (r.origin - c) r.direction).val :=
    FltQuad.two_mul_val g1 (by linarith)
  -- the constant term
  have cs : |((r.origin - c) 0).val * ((r.origin - c) 0).val| + |((r.origin - c) 1).val * ((r.origin - c) 1).val| +
      |((r.origin - c) 2).val * ((r.origin - c) 2).val| ≤ 121 / 10 * X ^ 2 := by
    rw [abs_mul_self, abs_mul_self, abs_mul_self]
    refine le_trans (le_of_eq ?_) nwX
    unfold nsq
    show _ = ((r.origin - c) 0).val ^ 2 + ((r.origin - c) 1).val ^ 2 + ((r.origin - c) 2).val ^ 2
    ring
  obtain ⟨s1, s2⟩ := dot_of hu fw fw cs hX (by nlinarith)
  have sw : ((r.origin - c) 0).val * ((r.origin - c) 0).val + ((r.origin - c) 1).val * ((r.origin - c) 1).val +
      ((r.origin - c) 2).val * ((r.origin - c) 2).val = nsq w := by
    unfold nsq
    show _ = ((r.origin - c) 0).val ^ 2 + ((r.origin - c) 1).val ^ 2 + ((r.origin - c) 2).val ^ 2
    ring
  rw [sw] at s2
  have R2 : |R.val * R.val| ≤ X ^ 2 := by
    rw [abs_mul, sq]; exact mul_le_mul hR.2 hR.2 (abs_nonneg _) (by linarith)
  have R20 : 0 ≤ R.val * R.val := mul_self_nonneg _
  rw [abs_of_nonneg R20] at R2
  obtain ⟨m1, m2⟩ := mul_near hR.1 hR.1 (C := X ^ 2) (by rw [abs_of_nonneg R20]; exact R2) (by nlinarith)
  have k1 := abs_le.1 nw'
  have k2 := abs_le.1 s2
  have k3 := abs_le.1 m2
  have u1 : P.u * X ^ 2 = P.u * X * X := by ring
  have u2 : 302 / 100 * P.u * (121 / 10 * X ^ 2) = 36542 / 1000 * (P.u * X * X) := by ring
  rw [u2] at k2
  rw [u1] at k3
  have qS : |(dot (r.origin - c) (r.origin - c)).val - (R * R).val| ≤ 132 / 10 * X ^ 2 := abs_le.2 ⟨by linarith, by linarith⟩
  obtain ⟨q1, -, q3⟩ := sub_near s1 m1 qS (by nlinarith)
  have u3 : P.u * (132 / 10 * X ^ 2) = 132 / 10 * (P.u * X * X) := by ring
  rw [u3] at q3
  have k4 := abs_le.1 q3
  refine ⟨⟨fpv.1, ?_⟩, ⟨q1, ?_⟩, ebX, ?_, ?_⟩
  · rw [fpv.2, ← mul_sub, abs_mul, abs_two]; linarith
  · show |(dot (r.origin - c) (r.origin - c) - R * R).val - (nsq δ - R.val ^ 2)| ≤ _
    rw [sq]
    exact abs_le.2 ⟨by linarith, by linarith⟩
  · show |nsq δ - R.val ^ 2| ≤ _
    rw [sq]
    exact abs_le.2 ⟨by linarith, by linarith⟩
  · show _ ≤ nsq δ - R.val ^ 2
    rw [sq R.val]
    linarith

set_option maxHeartbeats 1000000 in
theorem disc (h : SphOk r c R X) : (fd r c R).isFinite ∧ |(fd r c R).val - (4 * eb r c ^ 2 - 4 * eq r c R)| ≤ 1000 * (P.u * X * X) ∧
    |(fp r c).val ^ 2 - 4 * eb r c ^ 2| ≤ 440 * (P.u * X * X) ∧ |(fp r c).val| ≤ 732 / 100 * X ∧ (fd r c R).val ≤ 60 * X ^ 2 := by
  obtain ⟨⟨f1, e1⟩, ⟨f2, e2⟩, b1, b2, b3⟩ := coeffs h
  obtain ⟨hu, hX, hb, ho, hc, hR, hd, hn⟩ := h
  have hup := P.u_pos
  have uX : 0 < P.u * X := by positivity
  have uX' : 250 * (P.u * X) ≤ X := by nlinarith
  have hXX : X ≤ X ^ 2 := by nlinarith
  have eX : P.u * X ≤ P.u * X * X := le_mul_of_one_le_right uX.le hX
  have eX' : 250 * (P.u * X * X) ≤ X ^ 2 := by nlinarith
  have et := eta_small hu hX
  have e0 := P.eta_pos
  set p := fp r c with hp
  set q := fq r c R with hq
  set b := eb r c with hbb
  set Q := eq r c R with hQ
  have k1 := abs_le.1 e1
  have k2 := abs_le.1 e2
  have k3 := abs_le.1 b1
  have k4 := abs_le.1 b2
  have p1 : |p.val| ≤ 732 / 100 * X := abs_le.2 ⟨by linarith, by linarith⟩
  have k5 := abs_le.1 p1
  have pp : |p.val ^ 2 - 4 * b ^ 2| ≤ 440 * (P.u * X * X) := by
    have : p.val ^ 2 - 4 * b ^ 2 = (p.val - 2 * b) * (p.val + 2 * b) := by ring
    rw [this, abs_mul]
    calc |p.val - 2 * b| * |p.val + 2 * b| ≤ 30 * (P.u * X) * (1452 / 100 * X) :=
          mul_le_mul e1 (abs_le.2 ⟨by linarith, by linarith⟩) (abs_nonneg _) (by positivity)
      _ ≤ 440 * (P.u * X * X) := by
        have : 0 < P.u * X * X := by positivity
        linarith
  have b4 : b ^ 2 ≤ 1296 / 100 * X ^ 2 := by nlinarith
  have pv0 : |p.val * p.val| ≤ 536 / 10 * X ^ 2 := by
    rw [abs_mul_self]; nlinarith
  obtain ⟨m1, m2⟩ := mul_near f1 f1 pv0 (by nlinarith)
  have qv : |(4 : Flt P.fmt).val * q.val| ≤ 534 / 10 * X ^ 2 := by
    rw [(four_eq P).2, abs_mul, abs_of_pos (by norm_num : (0 : ℚ) < 4)]
    have : |q.val| ≤ 1333 / 100 * X ^ 2 := abs_le.2 ⟨by linarith, by linarith⟩
    linarith
  obtain ⟨m3, m4⟩ := mul_near (four_eq P).1 f2 qv (by nlinarith)
  have u1 : P.u * (536 / 10 * X ^ 2) = 536 / 10 * (P.u * X * X) := by ring
  have u2 : P.u * (534 / 10 * X ^ 2) = 534 / 10 * (P.u * X * X) := by ring
  rw [u1] at m2
  rw [u2, (four_eq P).2] at m4
  have k6 := abs_le.1 m2
  have k7 := abs_le.1 m4
  have k8 := abs_le.1 pv0
  have k9 := abs_le.1 pp
  have k10 : |4 * q.val| ≤ 534 / 10 * X ^ 2 := by rw [(four_eq P).2] at qv; exact qv
  have k11 := abs_le.1 k10
  have dS : |(p * p).val - (4 * q).val| ≤ 110 * X ^ 2 := abs_le.2 ⟨by linarith, by linarith⟩
  obtain ⟨d1, -, d3⟩ := sub_near m1 m3 dS (by nlinarith)
  have u3 : P.u * (110 * X ^ 2) = 110 * (P.u * X * X) := by ring
  rw [u3] at d3
  have k12 := abs_le.1 d3
  have dd : |(p * p - 4 * q).val - (4 * b ^ 2 - 4 * Q)| ≤ 1000 * (P.u * X * X) := abs_le.2 ⟨by linarith, by linarith⟩
  refine ⟨d1, dd, pp, p1, ?_⟩
  show (p * p - 4 * q).val ≤ _
  have := abs_le.1 dd
  linarith

/-- The larger root. -/
def ft0 (s : Flt P.fmt → Flt P.fmt) (r : Ray (Flt P.fmt) 3) (c : Vec (Flt P.fmt) 3) (R : Flt P.fmt) : Flt P.fmt := (-fp r c + s (fd r c R)) / 2
/-- The smaller root. -/
def ft1 (s : Flt P.fmt → Flt P.fmt) (r : Ray (Flt P.fmt) 3) (c : Vec (Flt P.fmt) 3) (R : Flt P.fmt) : Flt P.fmt := (-fp r c - s (fd r c R)) / 2

variable {s : Flt P.fmt → Flt P.fmt}

theorem rep_u (P : BinPar) : P.Rep P.u ∧ P.Rep (P.u / 2) := by
  have h1 : |(1 : ℤ)| < 2 ^ P.p := by
    have h8 : (2 : ℤ) ^ 3 ≤ 2 ^ P.p := pow_le_pow_right₀ (by norm_num) P.hp
    norm_num at h8 ⊢; linarith
  have h2 := P.hmin
  have h3 := P.hp
  refine ⟨⟨1, -(P.p : ℤ), by rw [Int.cast_one, one_mul]; rfl, h1, by omega⟩, ⟨1, -(P.p : ℤ) - 1, ?_, h1, by omega⟩⟩
  rw [Int.cast_one, one_mul, zpow_sub₀ (by norm_num), zpow_one]; rfl

/-- The sum of two numbers, halved. -/
theorem half_sum {x y : Flt P.fmt} (hx : x.isFinite) (hy : y.isFinite) {C : ℚ} (h : |x.val + y.val| ≤ C) (hb : 2 * C + 1 < P.bound) (hu : P.u ≤ 1 / 8) :
    ((x + y) / 2).isFinite ∧ ((x + y) / 2).val = P.fl (P.fl (x.val + y.val) / 2) ∧
      |2 * ((x + y) / 2).val - (x.val + y.val)| ≤ 2 * P.u * C + P.u * P.u * C + 2 * P.eta ∧
      (0 ≤ x.val + y.val → 0 ≤ ((x + y) / 2).val) ∧ (x.val + y.val ≤ 0 → ((x + y) / 2).val ≤ 0) ∧ (x.val + y.val ≤ -P.u → ((x + y) / 2).val < 0) ∧
      (P.u ≤ x.val + y.val → 0 < ((x + y) / 2).val) := by
  have hup := P.u_pos
  have hC : 0 ≤ C := (abs_nonneg _).trans h
  have uC : P.u * C ≤ 1 / 8 * C := mul_le_mul_of_nonneg_right hu hC
  have i := is_add (P := P) ⟨hx, rfl⟩ ⟨hy, rfl⟩ rfl (fl_lt_bound (q := x.val + y.val) (by linarith))
  have e : |(x + y).val - (x.val + y.val)| ≤ P.u * C := by
    rw [i.2]
    have := mul_le_mul_of_nonneg_left h hup.le
    linarith [BinPar.fl_add_err_u (Flt.rep_val x).1 (Flt.rep_val y).1]
  have k := abs_le.1 e
  have k' := abs_le.1 h
  have hS : |(x + y).val| ≤ C + P.u * C := abs_le.2 ⟨by linarith, by linarith⟩
  obtain ⟨h1, h2, h3⟩ := half_near i.1 hS (by linarith)
  have k3 := abs_le.1 h3
  rw [i.2] at h2
  obtain ⟨r1, r2⟩ := rep_u P
  refine ⟨h1, h2, abs_le.2 ⟨by nlinarith, by nlinarith⟩, fun h0 => ?_, fun h0 => ?_, fun h0 => ?_, fun h0 => ?_⟩
  · rw [h2]
    exact P.fl_nonneg (div_nonneg (P.fl_nonneg h0) (by norm_num))
  · rw [h2]
    have a : P.fl (x.val + y.val) ≤ 0 := P.fl_le_of_rep P.fmt.rep_zero.1 h0
    exact P.fl_le_of_rep P.fmt.rep_zero.1 (by linarith)
  · rw [h2]
    have a : P.fl (x.val + y.val) ≤ -P.u := P.fl_le_of_rep r1.neg h0
    have := P.fl_le_of_rep r2.neg (x := P.fl (x.val + y.val) / 2) (by linarith)
    linarith
  · rw [h2]
    have a : P.u ≤ P.fl (x.val + y.val) := P.le_fl_of_rep r1 h0
    have := P.le_fl_of_rep r2 (x := P.fl (x.val + y.val) / 2) (by linarith)
    linarith

/-- The two computed roots. -/
structure Roots (s : Flt P.fmt → Flt P.fmt) (r : Ray (Flt P.fmt) 3) (c : Vec (Flt P.fmt) 3) (R : Flt P.fmt) (X ρ : ℚ) : Prop where
  ρ0 : 0 ≤ ρ
  sq : |ρ ^ 2 - (fd r c R).val| ≤ 246 * (P.u * X * X)
  size : ρ ≤ 781 / 100 * X
  f0 : (ft0 s r c R).isFinite
  f1 : (ft1 s r c R).isFinite
  e0 : |2 * (ft0 s r c R).val - (ρ - (fp r c).val)| ≤ 31 * (P.u * X)
  e1 : |2 * (ft1 s r c R).val - (-ρ - (fp r c).val)| ≤ 31 * (P.u * X)
  le : (ft1 s r c R).val ≤ (ft0 s r c R).val
  pos0 : (fp r c).val ≤ ρ → 0 ≤ (ft0 s r c R).val
  neg0 : ρ ≤ (fp r c).val - P.u → (ft0 s r c R).val < 0
  neg1 : -(fp r c).val ≤ ρ → (ft1 s r c R).val ≤ 0
  pos1 : ρ ≤ -(fp r c).val - P.u → 0 < (ft1 s r c R).val

set_option maxHeartbeats 1000000 in
theorem roots (h : SphOk r c R X) (hs : FaithfulSqrt P s) (hD : 0 ≤ (fd r c R).val) : ∃ ρ, Roots s r c R X ρ := by
  obtain ⟨f1, -, -, p1, d60⟩ := disc h
  obtain ⟨⟨f2, -⟩, -⟩ := coeffs h
  obtain ⟨hu, hX, hb, -⟩ := h
  have hup := P.u_pos
  have uX : 0 < P.u * X := by positivity
  have uX' : 250 * (P.u * X) ≤ X := by nlinarith
  have hXX : X ≤ X ^ 2 := by nlinarith
  have eX : P.u * X ≤ P.u * X * X := le_mul_of_one_le_right uX.le hX
  have et := eta_small hu hX
  have e0 := P.eta_pos
  obtain ⟨k1, k2⟩ := Flt.eq_fin f1
  obtain ⟨ρ, hr, h3, h4⟩ := hs.fin _ k1 hD
  obtain ⟨q1, q2⟩ := h4.sq k1 hD
  have sD : s (fd r c R) = Flt.fin (F := P.fmt) ρ hr := by rw [k2]; exact h3
  have hr0 := h4.1
  set d := fd r c R with hd
  have hu2 : P.u * P.u ≤ P.u * (1 / 250) := mul_le_mul_of_nonneg_left (by linarith) hup.le
  have u3 : (1 + 2 * P.u) ^ 2 ≤ 1 + 402 / 100 * P.u := by nlinarith
  have q1' : ρ ^ 2 ≤ d.val + 402 / 100 * (P.u * d.val) := by
    have := mul_le_mul_of_nonneg_left u3 hD; linarith
  have ud : P.u * d.val ≤ 60 * (P.u * X * X) := by
    have := mul_le_mul_of_nonneg_left d60 hup.le
    linarith
  have ud0 : 0 ≤ P.u * d.val := by positivity
  have uXX : 250 * (P.u * X * X) ≤ X ^ 2 := by nlinarith
  have ρ2 : ρ ^ 2 ≤ 6097 / 100 * X ^ 2 := by linarith
  have q2' : d.val ≤ ρ ^ 2 + 402 / 100 * (P.u * ρ ^ 2) := by
    have := mul_le_mul_of_nonneg_left u3 (sq_nonneg ρ); linarith
  have uρ : P.u * ρ ^ 2 ≤ 6097 / 100 * (P.u * X * X) := by
    have := mul_le_mul_of_nonneg_left ρ2 hup.le
    linarith
  have hρ : ρ ≤ 781 / 100 * X := by
    refine abs_le_of_sq_le_sq' (b := 781 / 100 * X) ?_ (by linarith) |>.2
    nlinarith
  have fr : (s d).isFinite := by rw [sD]; trivial
  have vr : (s d).val = ρ := by rw [sD]; rfl
  have k := abs_le.1 p1
  have hu8 := P.u_le
  obtain ⟨a1, a2, a3, a4, a5, a6, a7⟩ := half_sum (x := -fp r c) (y := s d) (C := 1513 / 100 * X) (Flt.neg_finite.2 f2) fr (by
    rw [Flt.neg_val, vr]; exact abs_le.2 ⟨by linarith, by linarith⟩) (by nlinarith) hu8
  obtain ⟨b1, b2, b3, b4, b5, b6, b7⟩ := half_sum (x := -fp r c) (y := -s d) (C := 1513 / 100 * X) (Flt.neg_finite.2 f2) (Flt.neg_finite.2 fr) (by
    rw [Flt.neg_val, Flt.neg_val, vr]; exact abs_le.2 ⟨by linarith, by linarith⟩) (by nlinarith) hu8
  rw [Flt.neg_val, vr] at a2 a3 a4 a5 a6 a7
  rw [Flt.neg_val, Flt.neg_val, vr] at b2 b3 b4 b5 b6 b7
  have eq1 : ft1 s r c R = (-fp r c + -s d) / 2 := by
    rfl
  have uu : P.u * P.u * (1513 / 100 * X) ≤ 1513 / 25000 * (P.u * X) := by
    have := mul_le_mul_of_nonneg_right hu2 (show 0 ≤ 1513 / 100 * X by linarith)
    linarith
  refine ⟨ρ, hr0, abs_le.2 ⟨by linarith, by linarith⟩, hρ, a1, by rw [eq1]; exact b1, ?_, ?_, ?_, fun h => a4 (by linarith), fun h => a6 (by linarith), fun h => ?_, fun h => ?_⟩
  · have := abs_le.1 a3
    exact abs_le.2 ⟨by linarith! [show (ft0 s r c R) = (-fp r c + s d) / 2 from rfl], by linarith! [show (ft0 s r c R) = (-fp r c + s d) / 2 from rfl]⟩
  · rw [eq1]
    have := abs_le.1 b3
    exact abs_le.2 ⟨by linarith, by linarith⟩
  · rw [eq1, b2]
    show _ ≤ ((-fp r c + s d) / 2).val
    rw [a2]
    refine P.fl_mono ?_
    have := P.fl_mono (show -(fp r c).val + -ρ ≤ -(fp r c).val + ρ by linarith)
    linarith
  · rw [eq1]; exact b5 (by linarith)
  · rw [eq1]; exact b7 (by linarith)

end FltSph
end vm
