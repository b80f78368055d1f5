import Verif.Lemmas.FltSegDist
import Verif.Props.FltQuadratic
import Verif.Props.FltNan
import Verif.Props.FltLupExact

/-! C127: distances of points from rays and segments in IEEE arithmetic. -/

set_option linter.unusedSectionVars false
set_option linter.unusedSimpArgs false

namespace vm
variable {P : BinPar}

/-- The point at parameter `s` of the line `o + s d`, relative to `p`. -/
def offsetAt {K : Type*} [Field K] (o d p : Vec K 3) (s : K) : Vec K 3 := fun i => o i + s * d i - p i

namespace FltDist

/-- The squared distance along the line, as a quadratic polynomial. -/
theorem nsq_offset (o d p : Vec ℚ 3) (s : ℚ) : nsq (offsetAt o d p s) =
    nsq (p - o) - 2 * s * ((p 0 - o 0) * d 0 + (p 1 - o 1) * d 1 + (p 2 - o 2) * d 2) + s ^ 2 * nsq d := by
  simp only [nsq, offsetAt, Pi.sub_apply]; ring

/-- Near the foot of the perpendicular the squared distance is nearly minimal. -/
theorem near_min {c a t s m : ℚ} (hc : 15 / 16 ≤ c) (h : |c * t - a| ≤ m) : -2 * t * a + t ^ 2 * c ≤ -2 * s * a + s ^ 2 * c + 16 / 15 * m ^ 2 := by
  have h1 : (c * t - a) ^ 2 ≤ m ^ 2 := by rw [← sq_abs]; exact pow_le_pow_left₀ (abs_nonneg _) h 2
  have h2 : c * ((-2 * t * a + t ^ 2 * c) - (-2 * s * a + s ^ 2 * c)) = (c * t - a) ^ 2 - (c * s - a) ^ 2 := by ring
  have h3 := sq_nonneg (c * s - a)
  by_contra hc'
  push Not at hc'
  have h4 : 16 / 15 * m ^ 2 < (-2 * t * a + t ^ 2 * c) - (-2 * s * a + s ^ 2 * c) := by linarith
  have h5 : 15 / 16 * (16 / 15 * m ^ 2) < c * ((-2 * t * a + t ^ 2 * c) - (-2 * s * a + s ^ 2 * c)) :=
    lt_of_le_of_lt (mul_le_mul_of_nonneg_right hc (by positivity)) (mul_lt_mul_of_pos_left h4 (by linarith))
  rw [h2] at h5
  linarith

end FltDist
open FltDist

set_option maxHeartbeats 1000000 in
/-- The squared distance of a point from a ray: the position is the projection of the point, clamped at the origin, up to rounding; the
distance belongs to that position and is the least squared distance of the points of the ray, up to rounding errors and to the square of
the error `δ` in the length of the direction. -/
theorem C127_ray (hu : 250 * P.u ≤ 1) (r : Ray (Flt P.fmt) 3) (p : Vec (Flt P.fmt) 3) (X δ : ℚ) (hX : 1 ≤ X) (hbd : 1024 * X ^ 2 < P.bound)
    (ho : ∀ i, (r.origin i).isFinite ∧ |(r.origin i).val| ≤ X) (hp : ∀ i, (p i).isFinite ∧ |(p i).val| ≤ X)
    (hd : ∀ i, (r.direction i).isFinite) (hδ : |nsq (vval r.direction) - 1| ≤ δ) (hδ' : δ ≤ 1 / 16) :
    ∃ t D : Flt P.fmt, squaredDistanceRayPoint r p = ⟨t, some D⟩ ∧ t.isFinite ∧ D.isFinite ∧ 0 ≤ t.val ∧
      |t.val - max (dot (vval p - vval r.origin) (vval r.direction)) 0| ≤ 15 * P.u * X ∧
      nsq (offsetAt (vval r.origin) (vval r.direction) (vval p) t.val) ≤ D.val + 240 * P.u * X ^ 2 ∧
      ∀ s, 0 ≤ s → D.val ≤ nsq (offsetAt (vval r.origin) (vval r.direction) (vval p) s) + 240 * P.u * X ^ 2 + ((17 * P.u + 4 * δ) * X) ^ 2 := by
  have hup := P.u_pos
  have hδ0 : 0 ≤ δ := (abs_nonneg _).trans hδ
  have uX : 0 < P.u * X := by positivity
  have uX' : 250 * (P.u * X) ≤ X := by nlinarith
  have hXX : X ≤ X ^ 2 := by nlinarith
  obtain ⟨c1, c2⟩ := abs_le.1 hδ
  set c := nsq (vval r.direction) with hc
  -- the vector to the point
  have hw : ∀ i, (p i - r.origin i).isFinite ∧ |(p i - r.origin i).val - ((p i).val - (r.origin i).val)| ≤ P.u * |(p i).val - (r.origin i).val| := by
    intro i
    have k : |(p i).val - (r.origin i).val| ≤ 2 * X := (abs_sub _ _).trans (by linarith [(hp i).2, (ho i).2])
    have := is_sub (c := P.fl ((p i).val - (r.origin i).val)) ⟨(hp i).1, rfl⟩ ⟨(ho i).1, rfl⟩ rfl (fl_lt_bound (by linarith))
    refine ⟨this.1, ?_⟩
    rw [this.2]
    exact P.fl_sub_err_u (Flt.rep_val _).1 (Flt.rep_val _).1
  have hw2 : ∀ i, |(p i).val - (r.origin i).val| ≤ 2 * X := fun i => (abs_sub _ _).trans (by linarith [(hp i).2, (ho i).2])
  set W : Vec ℚ 3 := vval p - vval r.origin with hW
  have hWi : ∀ i, W i = (p i).val - (r.origin i).val := fun _ => rfl
  have hWn : nsq W ≤ 12 * X ^ 2 := by
    have k : ∀ i, W i ^ 2 ≤ 4 * X ^ 2 := fun i => by
      rw [← sq_abs, hWi]
      have := pow_le_pow_left₀ (abs_nonneg _) (hw2 i) 2
      linarith
    unfold nsq
    linarith [k 0, k 1, k 2]
  set W' : Vec ℚ 3 := fun i => (p i - r.origin i).val with hW'
  have hW'i : ∀ i, |W' i - W i| ≤ P.u * |W i| := fun i => (hw i).2
  have hW'n : nsq W' ≤ 121 / 10 * X ^ 2 := by
    have k : ∀ i, W' i ^ 2 ≤ (251 / 250) ^ 2 * W i ^ 2 := fun i => by
      rw [← sq_abs (W' i), ← sq_abs (W i), ← mul_pow]
      refine pow_le_pow_left₀ (abs_nonneg _) ?_ 2
      have h1 := hW'i i
      have h2 := abs_sub_abs_le_abs_sub (W' i) (W i)
      have h3 : P.u * |W i| ≤ 1 / 250 * |W i| := mul_le_mul_of_nonneg_right (by linarith) (abs_nonneg _)
      linarith
    have : nsq W' ≤ (251 / 250) ^ 2 * nsq W := by unfold nsq; linarith [k 0, k 1, k 2]
    nlinarith
  set d : Vec ℚ 3 := vval r.direction with hdd
  have hdi : ∀ i, (r.direction i).val = d i := fun _ => rfl
  have hdn : nsq d ≤ 17 / 16 := by linarith
  have hcs : |W' 0 * d 0| + |W' 1 * d 1| + |W' 2 * d 2| ≤ 36 / 10 * X := cauchy_abs hW'n hdn (by linarith) (by nlinarith)
  have hcs2 : |W 0 * d 0| + |W 1 * d 1| + |W 2 * d 2| ≤ 36 / 10 * X := cauchy_abs hWn hdn (by linarith) (by nlinarith)
  obtain ⟨fa, ea⟩ := dot_of (a := p - r.origin) (b := r.direction) hu (fun i => (hw i).1) hd hcs hX (by linarith)
  set a := W 0 * d 0 + W 1 * d 1 + W 2 * d 2 with ha
  have hea : |(dot (p - r.origin) r.direction).val - a| ≤ 15 * P.u * X := by
    have k : |(W' 0 * d 0 + W' 1 * d 1 + W' 2 * d 2) - a| ≤ P.u * (36 / 10 * X) := by
      have : (W' 0 * d 0 + W' 1 * d 1 + W' 2 * d 2) - a = (W' 0 - W 0) * d 0 + (W' 1 - W 1) * d 1 + (W' 2 - W 2) * d 2 := by rw [ha]; ring
      rw [this]
      refine (abs_add_three _ _ _).trans ?_
      have k : ∀ i, |(W' i - W i) * d i| ≤ P.u * |W i * d i| := fun i => by
        rw [abs_mul, abs_mul, ← mul_assoc]
        exact mul_le_mul_of_nonneg_right (hW'i i) (abs_nonneg _)
      have := mul_le_mul_of_nonneg_left hcs2 hup.le
      linarith [k 0, k 1, k 2]
    have k2 : |(dot (p - r.origin) r.direction).val - (W' 0 * d 0 + W' 1 * d 1 + W' 2 * d 2)| ≤
        302 / 100 * P.u * (36 / 10 * X) + 1 / 100 * P.u * X := ea
    have := abs_sub_le (dot (p - r.origin) r.direction).val (W' 0 * d 0 + W' 1 * d 1 + W' 2 * d 2) a
    linarith
  set x := dot (p - r.origin) r.direction with hx
  obtain ⟨ft, et⟩ := max_zero fa
  have edot : dot W d = a := by rw [dot3]
  have haX : |a| ≤ 36 / 10 * X := by
    refine (abs_add_three _ _ _).trans hcs2
  have ht0 : 0 ≤ (vmax x [0]).val := by rw [et]; exact le_max_right _ _
  have htX : (vmax x [0]).val ≤ 366 / 100 * X := by
    rw [et]
    refine max_le ?_ (by linarith)
    have := abs_le.1 hea
    have := abs_le.1 haX
    linarith
  have hpos : |(vmax x [0]).val - max a 0| ≤ 15 * P.u * X := by
    rw [et]
    exact (abs_max_sub_max_le_abs _ _ _).trans hea
  -- near minimality of the position
  have hmin : ∀ s, 0 ≤ s → nsq (offsetAt (vval r.origin) d (vval p) (vmax x [0]).val) ≤
      nsq (offsetAt (vval r.origin) d (vval p) s) + ((17 * P.u + 4 * δ) * X) ^ 2 := by
    intro s hs
    rw [nsq_offset, nsq_offset]
    have ea' : (vval p 0 - vval r.origin 0) * d 0 + (vval p 1 - vval r.origin 1) * d 1 + (vval p 2 - vval r.origin 2) * d 2 = a := rfl
    rw [ea', ← hc]
    set t := (vmax x [0]).val
    have key : -2 * t * a + t ^ 2 * c ≤ -2 * s * a + s ^ 2 * c + ((17 * P.u + 4 * δ) * X) ^ 2 := by
      have hδX : 0 ≤ δ * X := by positivity
      by_cases hx0 : 0 ≤ x.val
      · have ht : t = x.val := by rw [et, max_eq_left hx0]
        have hm : |c * t - a| ≤ 16 * P.u * X + 36 / 10 * δ * X := by
          have e : c * t - a = c * (t - a) + (c - 1) * a := by ring
          rw [e]
          refine (abs_add_le _ _).trans ?_
          rw [abs_mul, abs_mul, abs_of_nonneg (show 0 ≤ c by linarith), ht]
          have k1 : c * |x.val - a| ≤ 17 / 16 * (15 * P.u * X) := mul_le_mul (by linarith) hea (abs_nonneg _) (by norm_num)
          have k2 : |c - 1| * |a| ≤ δ * (36 / 10 * X) := mul_le_mul hδ haX (abs_nonneg _) hδ0
          linarith
        refine (near_min (s := s) (by linarith) hm).trans ?_
        have : 16 / 15 * (16 * P.u * X + 36 / 10 * δ * X) ^ 2 ≤ ((17 * P.u + 4 * δ) * X) ^ 2 := by
          have e : ((17 * P.u + 4 * δ) * X) ^ 2 - 16 / 15 * (16 * P.u * X + 36 / 10 * δ * X) ^ 2 =
            (289 - 16 / 15 * 256) * (P.u * X) ^ 2 + (136 - 16 / 15 * (2 * 16 * (36 / 10))) * (P.u * X) * (δ * X) +
              (16 - 16 / 15 * (36 / 10) ^ 2) * (δ * X) ^ 2 := by ring
          have : 0 ≤ (289 - 16 / 15 * 256) * (P.u * X) ^ 2 + (136 - 16 / 15 * (2 * 16 * (36 / 10))) * (P.u * X) * (δ * X) +
              (16 - 16 / 15 * (36 / 10) ^ 2) * (δ * X) ^ 2 := by
            have p1 : 0 ≤ (P.u * X) ^ 2 := by positivity
            have p2 : 0 ≤ (P.u * X) * (δ * X) := by positivity
            have p3 : 0 ≤ (δ * X) ^ 2 := by positivity
            norm_num
            linarith
          linarith
        linarith
      · have ht : t = 0 := by rw [et, max_eq_right (not_le.1 hx0).le]
        rw [ht]
        have haS : a ≤ 15 * P.u * X := by
          have := abs_le.1 hea
          rw [not_le] at hx0
          linarith
        have h1 : s ^ 2 * (15 / 16) ≤ s ^ 2 * c := mul_le_mul_of_nonneg_left (by linarith) (sq_nonneg s)
        have h2 : s * a ≤ s * (15 * P.u * X) := mul_le_mul_of_nonneg_left haS hs
        have h3 : ((17 * P.u + 4 * δ) * X) ^ 2 ≥ 289 * (P.u * X) ^ 2 := by
          have : (17 * P.u + 4 * δ) * X = 17 * (P.u * X) + 4 * (δ * X) := by ring
          rw [this]
          nlinarith
        have h4 : 0 ≤ (15 / 16 * s - 15 * (P.u * X)) ^ 2 := sq_nonneg _
        nlinarith
    linarith
  have hqn : nsq (offsetAt (vval r.origin) d (vval p) (vmax x [0]).val) ≤ 13 * X ^ 2 := by
    have h0 := hmin 0 le_rfl
    have e0 : nsq (offsetAt (vval r.origin) d (vval p) 0) = nsq W := by rw [nsq_offset, hW]; ring
    rw [e0] at h0
    have : ((17 * P.u + 4 * δ) * X) ^ 2 ≤ 1 * X ^ 2 := by
      rw [mul_pow]
      refine mul_le_mul_of_nonneg_right ?_ (sq_nonneg X)
      exact pow_le_one₀ (by positivity) (by linarith)
    linarith
  unfold squaredDistanceRayPoint
  simp only []
  rw [eq_zero_val ft]
  by_cases h0 : (vmax x [0]).val = 0
  · refine ⟨vmax x [0], squaredLength (p - r.origin), by rw [if_pos (decide_eq_true h0)], ft, ?_⟩
    have hq : ∀ i, |((p - r.origin) i).val - W i| ≤ 15 * P.u * X := fun i => by
      refine (hW'i i).trans ?_
      have := mul_le_mul_of_nonneg_left (hw2 i) hup.le
      rw [hWi]
      linarith
    obtain ⟨fD, eD⟩ := sqlen_err (v := p - r.origin) (q := W) hu (fun i => (hw i).1) hX hq (by nlinarith) hbd
    obtain ⟨e1, e2⟩ := abs_le.1 eD
    refine ⟨fD, ht0, ?_, ?_, fun s hs => ?_⟩
    · rw [edot]; exact hpos
    · rw [h0]
      have e0 : nsq (offsetAt (vval r.origin) d (vval p) 0) = nsq W := by rw [nsq_offset, hW]; ring
      rw [e0]; linarith
    · have := hmin s hs
      rw [h0] at this
      have e0 : nsq (offsetAt (vval r.origin) d (vval p) 0) = nsq W := by rw [nsq_offset, hW]; ring
      rw [e0] at this
      linarith
  · refine ⟨vmax x [0], squaredLength (pointAtDistance r.origin r.direction (vmax x [0]) - p), by rw [if_neg (by simpa using h0)], ft, ?_⟩
    have hdX : ∀ i, |(r.direction i).val * (vmax x [0]).val| ≤ 39 / 10 * X := fun i => by
      rw [abs_mul, abs_of_nonneg ht0, hdi]
      have hi : d i ^ 2 ≤ 17 / 16 := by
        have k0 := sq_nonneg (d 0)
        have k1 := sq_nonneg (d 1)
        have k2 := sq_nonneg (d 2)
        unfold nsq at hdn
        fin_cases i
        · show d 0 ^ 2 ≤ _; linarith
        · show d 1 ^ 2 ≤ _; linarith
        · show d 2 ^ 2 ≤ _; linarith
      have hi' : |d i| ≤ 104 / 100 := by
        refine abs_le_of_sq_le_sq' ?_ (by norm_num) |>.2
        rw [sq_abs]; norm_num; linarith
      calc |d i| * (vmax x [0]).val ≤ 104 / 100 * (366 / 100 * X) := mul_le_mul hi' htX ht0 (by norm_num)
        _ ≤ _ := by linarith
    have hcomp := fun i => foot_comp hu (ho i).1 (hd i) ft (hp i).1 hX (ho i).2 (hp i).2 (hdX i) (by linarith)
    have hq : ∀ i, |((pointAtDistance r.origin r.direction (vmax x [0]) - p) i).val - offsetAt (vval r.origin) d (vval p) (vmax x [0]).val i| ≤
        15 * P.u * X := fun i => by
      have := (hcomp i).2
      rw [mul_comm (r.direction i).val] at this
      exact this
    obtain ⟨fD, eD⟩ := sqlen_err (v := pointAtDistance r.origin r.direction (vmax x [0]) - p) hu (fun i => (hcomp i).1) hX hq hqn hbd
    obtain ⟨e1, e2⟩ := abs_le.1 eD
    refine ⟨fD, ht0, ?_, by linarith, fun s hs => ?_⟩
    · rw [edot]; exact hpos
    · have := hmin s hs
      linarith


namespace FltDist

/-- Rounded differences. -/
theorem sub_round {a b : Flt P.fmt} {X : ℚ} (ha : a.isFinite) (hb : b.isFinite) (hX : 1 ≤ X) (aX : |a.val| ≤ X) (bX : |b.val| ≤ X)
    (hbd : 1024 * X ^ 2 < P.bound) : (a - b).isFinite ∧ |(a - b).val - (a.val - b.val)| ≤ P.u * |a.val - b.val| ∧ |a.val - b.val| ≤ 2 * X := by
  have hXX : X ≤ X ^ 2 := by nlinarith
  have k : |a.val - b.val| ≤ 2 * X := (abs_sub _ _).trans (by linarith)
  have := is_sub (c := P.fl (a.val - b.val)) ⟨ha, rfl⟩ ⟨hb, rfl⟩ rfl (fl_lt_bound (by linarith))
  refine ⟨this.1, ?_, k⟩
  rw [this.2]
  exact P.fl_sub_err_u (Flt.rep_val _).1 (Flt.rep_val _).1

theorem nsq_le12 {q : Vec ℚ 3} {X : ℚ} (h : ∀ i, |q i| ≤ 2 * X) : nsq q ≤ 12 * X ^ 2 := by
  have k : ∀ i, q i ^ 2 ≤ 4 * X ^ 2 := fun i => by
    rw [← sq_abs]
    have := pow_le_pow_left₀ (abs_nonneg _) (h i) 2
    linarith
  unfold nsq
  linarith [k 0, k 1, k 2]

end FltDist

set_option maxHeartbeats 1000000 in
/-- The squared distance of a point from a segment: the computed position is the distance of the closest point of the segment from its start,
and the computed distance is the least squared distance of the points of the segment, both up to rounding errors. -/
theorem C127_segment (hu : 250 * P.u ≤ 1) {s : Flt P.fmt → Flt P.fmt} (hs : FaithfulSqrt P s) (g : Segment (Flt P.fmt) 3) (p : Vec (Flt P.fmt) 3)
    (X : ℚ) (hX : 1 ≤ X) (hbd : 1024 * X ^ 2 < P.bound) (ha : ∀ i, (g.start i).isFinite ∧ |(g.start i).val| ≤ X)
    (hb : ∀ i, (g.end_ i).isFinite ∧ |(g.end_ i).val| ≤ X) (hp : ∀ i, (p i).isFinite ∧ |(p i).val| ≤ X)
    (hV : 4 * P.eta ≤ P.u * nsq (vval g.end_ - vval g.start)) :
    ∃ t D : Flt P.fmt, squaredDistanceSegmentPointG s g p = ⟨t, some D⟩ ∧ t.isFinite ∧ D.isFinite ∧ ∃ l : ℚ, 0 ≤ l ∧ l ≤ 1 ∧
      (∀ m, 0 ≤ m → m ≤ 1 → nsq (offsetAt (vval g.start) (vval g.end_ - vval g.start) (vval p) l) ≤
        nsq (offsetAt (vval g.start) (vval g.end_ - vval g.start) (vval p) m)) ∧
      |(t.val : ℝ) - l * vlen (vval g.end_ - vval g.start)| ≤ 48 * P.u * X ∧
      |D.val - nsq (offsetAt (vval g.start) (vval g.end_ - vval g.start) (vval p) l)| ≤ 1340 * P.u * X ^ 2 := by
  have hup := P.u_pos
  have hXX : X ≤ X ^ 2 := by nlinarith
  have hη := eta_small hu le_rfl
  rw [mul_one] at hη
  have hur : (0 : ℝ) < P.u := by exact_mod_cast hup
  have hu' : 250 * (P.u : ℝ) ≤ 1 := by exact_mod_cast hu
  have hη0 : (0 : ℝ) ≤ P.eta := by exact_mod_cast P.eta_pos.le
  have hη' : 500 * (P.eta : ℝ) ≤ P.u := by exact_mod_cast hη
  have hXr : (1 : ℝ) ≤ X := by exact_mod_cast hX
  set V : Vec ℚ 3 := vval g.end_ - vval g.start with hVd
  set W : Vec ℚ 3 := vval p - vval g.start with hWd
  have hVi : ∀ i, V i = (g.end_ i).val - (g.start i).val := fun _ => rfl
  have hWi : ∀ i, W i = (p i).val - (g.start i).val := fun _ => rfl
  have rv := fun i => sub_round (hb i).1 (ha i).1 hX (hb i).2 (ha i).2 hbd
  have rw' := fun i => sub_round (hp i).1 (ha i).1 hX (hp i).2 (ha i).2 hbd
  have VX : ∀ i, |V i| ≤ 2 * X := fun i => (rv i).2.2
  have WX : ∀ i, |W i| ≤ 2 * X := fun i => (rw' i).2.2
  have Vn := nsq_le12 VX
  have Wn := nsq_le12 WX
  have hVp : 0 < nsq V := by
    by_contra hc
    have := mul_le_mul_of_nonneg_left (not_lt.1 hc) hup.le
    linarith [P.eta_pos]
  -- the edge
  have hf : (squaredLength (g.end_ - g.start)).isFinite := by
    refine (sqlen_err' (q := V) hu (fun i => (rv i).1) hX (fun i => (rv i).2.1.trans ?_) VX hbd).1
    have h1 := VX i
    have := mul_le_mul_of_nonneg_left (rv i).2.2 hup.le
    have : 0 < P.u * X := by positivity
    linarith
  obtain ⟨hL, fl, el, hdir⟩ := edge_dir (V := V) hu hs hf (fun i => (rv i).2.1) hV
  have hL2 := vlen_nsq V
  set L := vlen V with hLd
  have hLX : L ≤ 347 / 100 * X := by
    refine abs_le_of_sq_le_sq' ?_ (by linarith) |>.2
    rw [hL2]
    have := (Rat.cast_le (K := ℝ)).2 Vn
    push_cast at this
    nlinarith
  set f : Fin 3 → ℝ := fun i => (V i : ℝ) / L with hfd
  have hfa : ∀ i, |f i| = |(V i : ℝ)| / L := fun i => by rw [hfd]; simp only []; rw [abs_div, abs_of_pos hL]
  have hf1 : f 0 ^ 2 + f 1 ^ 2 + f 2 ^ 2 = 1 := by
    have : f 0 ^ 2 + f 1 ^ 2 + f 2 ^ 2 = ((V 0 : ℝ) ^ 2 + V 1 ^ 2 + V 2 ^ 2) / L ^ 2 := by simp only [hfd]; field_simp
    rw [this, hL2]
    have hne : ((nsq V : ℚ) : ℝ) ≠ 0 := by exact_mod_cast hVp.ne'
    rw [div_eq_one_iff_eq hne]
    unfold nsq; push_cast; ring
  have hfle : ∀ i, |f i| ≤ 1 := fun i => by
    have : f i ^ 2 ≤ 1 := by
      have k0 := sq_nonneg (f 0)
      have k1 := sq_nonneg (f 1)
      have k2 := sq_nonneg (f 2)
      fin_cases i
      · show f 0 ^ 2 ≤ _; linarith
      · show f 1 ^ 2 ≤ _; linarith
      · show f 2 ^ 2 ≤ _; linarith
    exact abs_le_one_iff_mul_self_le_one.2 (by rw [← sq]; exact this)
  have hd : ∀ i, |((normalizeG s (g.end_ - g.start) i).val : ℝ) - f i| ≤ 19 / 2 * P.u * |f i| + P.eta := fun i => by
    rw [hfa]; exact (hdir i).2
  -- the projection
  have hWf : |(W 0 : ℝ) * f 0| + |(W 1 : ℝ) * f 1| + |(W 2 : ℝ) * f 2| ≤ 347 / 100 * X := by
    refine cauchy_abs (a := fun i => (W i : ℝ)) (b := f) (A := 12 * X ^ 2) (B := 1) ?_ hf1.le (by linarith) (by nlinarith)
    have := (Rat.cast_le (K := ℝ)).2 Wn
    unfold nsq at this ⊢
    push_cast at this
    exact this
  have hWX : ∀ i, |(W i : ℝ)| ≤ 2 * X := fun i => by
    have := (Rat.cast_le (K := ℝ)).2 (WX i)
    push_cast at this
    exact this
  have hw' : ∀ i, |(((p - g.start) i).val : ℝ) - W i| ≤ P.u * |(W i : ℝ)| := fun i => by
    have := (Rat.cast_le (K := ℝ)).2 (rw' i).2.1
    push_cast at this
    rw [hWi]; push_cast
    exact this
  have hC := scale_size (w := fun i => (W i : ℝ)) (w' := fun i => (((p - g.start) i).val : ℝ))
    (d := fun i => ((normalizeG s (g.end_ - g.start) i).val : ℝ)) hur hu' hη0 hη' hXr hw' hWX hd hWf
  obtain ⟨fx, ex⟩ := dot_of (a := p - g.start) (b := normalizeG s (g.end_ - g.start)) (C := 365 / 100 * X) (Y := X) hu (fun i => (rw' i).1)
    (fun i => (hdir i).1) ((Rat.cast_le (K := ℝ)).1 (by push_cast; exact hC)) hX (by linarith)
  have ex' := (Rat.cast_le (K := ℝ)).2 ex
  push_cast at ex'
  have hsc := scale_err (w := fun i => (W i : ℝ)) (w' := fun i => (((p - g.start) i).val : ℝ))
    (d := fun i => ((normalizeG s (g.end_ - g.start) i).val : ℝ)) hur hu' hη0 hη' hXr hw' hWX hd hWf ex'
  set x := dot (p - g.start) (normalizeG s (g.end_ - g.start)) with hx
  set len := lengthG s (g.end_ - g.start) with hlen
  obtain ⟨ft, et⟩ := clamp_val fx fl
  set t := vmin (vmax 0 [x]) [len] with ht
  set a := W 0 * V 0 + W 1 * V 1 + W 2 * V 2 with had
  set l := min (max 0 (a / nsq V)) 1 with hl
  have hl0 : 0 ≤ l := le_min (le_max_left _ _) zero_le_one
  have hl1 : l ≤ 1 := min_le_right _ _
  have hlL : (l : ℝ) * L = min (max 0 ((W 0 : ℝ) * f 0 + W 1 * f 1 + W 2 * f 2)) L := by
    have e1 : (W 0 : ℝ) * f 0 + W 1 * f 1 + W 2 * f 2 = (a / nsq V : ℚ) * L := by
      have : (W 0 : ℝ) * f 0 + W 1 * f 1 + W 2 * f 2 = (a : ℝ) / L := by
        simp only [hfd, had]; push_cast; field_simp
      rw [this]
      push_cast
      rw [← hL2]
      field_simp
    rw [e1, hl]
    push_cast
    rw [min_mul_of_nonneg _ _ hL.le, max_mul_of_nonneg _ _ hL.le, zero_mul, one_mul]
  have hpos : |(t.val : ℝ) - l * L| ≤ 48 * P.u * X := by
    rw [hlL, et]
    push_cast
    refine clamp_err hsc (el.trans ?_)
    have := mul_le_mul_of_nonneg_left hLX hur.le
    have : 0 < (P.u : ℝ) * X := by positivity
    linarith
  have ht0 : 0 ≤ t.val := by
    rw [et]
    refine le_min (le_max_left _ _) ?_
    have : (0 : ℝ) ≤ len.val := by
      have := (abs_le.1 el).1
      have := mul_le_mul_of_nonneg_right hu' hL.le
      linarith
    exact_mod_cast this
  have htL : (t.val : ℝ) ≤ (1 + 61 / 10 * P.u) * L := by
    have k : (t.val : ℝ) ≤ len.val := by
      have : t.val ≤ len.val := by rw [et]; exact min_le_right _ _
      exact_mod_cast this
    have := (abs_le.1 el).2
    linarith
  -- the foot of the perpendicular
  have hstep := fun i => step_err (T := l * L) hur hu' hη0 hη' hXr (hfle i) (hd i) (by exact_mod_cast ht0) htL hLX hpos
  have hfl : ∀ i, f i * ((l : ℝ) * L) = ((l * V i : ℚ) : ℝ) := fun i => by simp only [hfd]; push_cast; field_simp
  have hfoot := fun i => foot_comp' (t := t) hu (ha i).1 (hdir i).1 ft (hp i).1 hX (ha i).2 (hp i).2
    ((Rat.cast_le (K := ℝ)).1 (by push_cast; exact (hstep i).2)) (by linarith)
  set q : Vec ℚ 3 := fun i => -(offsetAt (vval g.start) V (vval p) l i) with hq
  have hcomp : ∀ i, |((p - pointAtDistance g.start (g.directionG s) t) i).val - q i| ≤ 97 * P.u * X := fun i => by
    have h1 := (hfoot i).2
    have h2 := (hstep i).1
    rw [hfl] at h2
    have h3 : |(normalizeG s (g.end_ - g.start) i).val * t.val - l * V i| ≤ 82 * P.u * X := by exact_mod_cast h2
    have e : ((p - pointAtDistance g.start (g.directionG s) t) i).val - q i =
        (((p - pointAtDistance g.start (g.directionG s) t) i).val - ((p i).val - ((g.start i).val + (normalizeG s (g.end_ - g.start) i).val * t.val))) -
          ((normalizeG s (g.end_ - g.start) i).val * t.val - l * V i) := by
      simp only [hq, offsetAt, vval]; ring
    rw [e]
    refine (abs_sub _ _).trans ?_
    have h4 : |((p - pointAtDistance g.start (g.directionG s) t) i).val - ((p i).val - ((g.start i).val + (normalizeG s (g.end_ - g.start) i).val * t.val))| ≤ 15 * P.u * X := h1
    linarith
  have hqX : ∀ i, |q i| ≤ 2 * X := fun i => by
    have e : q i = (1 - l) * ((p i).val - (g.start i).val) + l * ((p i).val - (g.end_ i).val) := by
      simp only [hq, offsetAt, vval, hVi]; ring
    rw [e]
    refine (abs_add_le _ _).trans ?_
    rw [abs_mul, abs_mul, abs_of_nonneg hl0, abs_of_nonneg (sub_nonneg.2 hl1)]
    have k1 := mul_le_mul_of_nonneg_left (WX i) (sub_nonneg.2 hl1)
    have k2 := mul_le_mul_of_nonneg_left (show |(p i).val - (g.end_ i).val| ≤ 2 * X from (abs_sub _ _).trans (by linarith [(hp i).2, (hb i).2])) hl0
    rw [hWi] at k1
    linarith
  obtain ⟨fD, eD⟩ := sqlen_err' (v := p - pointAtDistance g.start (g.directionG s) t) (q := q) hu (fun i => (hfoot i).1) hX hcomp hqX hbd
  have hnq : nsq q = nsq (offsetAt (vval g.start) V (vval p) l) := by simp only [hq, nsq]; ring
  refine ⟨t, _, rfl, ft, fD, l, hl0, hl1, fun m hm0 hm1 => ?_, hpos, by rw [← hnq]; exact eD⟩
  rw [nsq_offset, nsq_offset]
  have ea' : (vval p 0 - vval g.start 0) * V 0 + (vval p 1 - vval g.start 1) * V 1 + (vval p 2 - vval g.start 2) * V 2 = a := rfl
  rw [ea']
  linarith [seg_min hVp hl hm0 hm1]


/-! ### Grids -/

namespace FltDist

/-- The format is accurate enough for distances from rays and segments parallel to an axis: the points are on the grid `2 ^ g`, at most `M` steps
from the origin. -/
structure AxisGrid (P : BinPar) (g M : ℤ) : Prop where
  one_le : 1 ≤ M
  exact : 192 * M ^ 2 < 2 ^ P.p
  ok1 : P.Ok g
  ok2 : P.Ok (g + g)

theorem AxisGrid.lin {g M : ℤ} (h : AxisGrid P g M) {c : ℤ} (hc : c ≤ 192) : c * M < 2 ^ P.p := by
  have := h.one_le
  have := h.exact
  nlinarith

theorem sqlen_grid {g B : ℤ} {v : Vec (Flt P.fmt) 3} (hv : GridPt g B v) (hg : P.Ok (g + g)) (h : 3 * (B * B) < 2 ^ P.p) :
    (squaredLength v).isFinite ∧ (squaredLength v).val = nsq (vval v) := by
  obtain ⟨h1, h2⟩ := FltTri.dot_grid hv hv hg h
  refine ⟨h1.1, ?_⟩
  show (dot v v).val = _
  rw [h2, dot3]
  unfold nsq; ring

/-- A point at a distance along a direction with components 0, 1 and -1. -/
theorem point_grid {g M B : ℤ} (hg : AxisGrid P g M) {o d : Vec (Flt P.fmt) 3} (ho : GridPt g M o) (hd : GridPt 0 1 d) {t : Flt P.fmt}
    (ht : OnGrid g B t) (hB : B ≤ 6 * M) : GridPt g (7 * M) (pointAtDistance o d t) ∧
      ∀ i, (pointAtDistance o d t i).val = (o i).val + t.val * (d i).val := by
  have k : ∀ i, OnGrid g (7 * M) (pointAtDistance o d t i) ∧ (pointAtDistance o d t i).val = (o i).val + t.val * (d i).val := by
    intro i
    obtain ⟨fo, zo, vo, lo⟩ := ho i
    obtain ⟨fd, zd, vd, ld⟩ := hd i
    obtain ⟨ft, zt, vt, lt⟩ := ht
    have hM := hg.one_le
    have m := ((Gr.mul (⟨fd, vd, ld⟩ : Gr 0 (d i) zd 1) (⟨ft, vt, lt⟩ : Gr g t zt B) (by rw [zero_add]; exact hg.ok1)
      (by have := hg.lin (c := 6) (by norm_num); linarith)).cast (zero_add g)).mono (B := 6 * M) (by linarith)
    have a := Gr.add (⟨fo, vo, lo⟩ : Gr g (o i) zo M) m hg.ok1 (by have := hg.lin (c := 7) (by norm_num); linarith)
    refine ⟨⟨a.fin, _, a.val, a.le.trans (by linarith)⟩, ?_⟩
    have e : (pointAtDistance o d t i).val = _ := a.val
    rw [e, vo, vt, vd]
    push_cast
    ring
  exact ⟨fun i => (k i).1, fun i => (k i).2⟩

theorem max_grid {g B : ℤ} {x : Flt P.fmt} (hx : OnGrid g B x) (hB : 0 ≤ B) : OnGrid g B (vmax x [0]) := by
  show OnGrid g B (if Cmp.lt (0 : Flt P.fmt) x then x else 0 : Flt P.fmt)
  split
  · exact hx
  · exact ⟨Flt.zero_finite, 0, by rw [Flt.zero_val]; simp, by simpa using hB⟩

end FltDist

/-- On a grid the distance from a ray whose direction has components 0, 1 and -1 is exact: no rounding happens.  If the direction is a unit
vector, so parallel to an axis, then the result is exactly the least squared distance of the points of the ray. -/
theorem C127_ray_grid {g M : ℤ} (hg : AxisGrid P g M) (r : Ray (Flt P.fmt) 3) (p : Vec (Flt P.fmt) 3) (ho : GridPt g M r.origin)
    (hp : GridPt g M p) (hd : GridPt 0 1 r.direction) :
    ∃ t D : Flt P.fmt, squaredDistanceRayPoint r p = ⟨t, some D⟩ ∧ t.isFinite ∧ D.isFinite ∧
      t.val = max (dot (vval p - vval r.origin) (vval r.direction)) 0 ∧
      D.val = nsq (offsetAt (vval r.origin) (vval r.direction) (vval p) t.val) ∧
      (nsq (vval r.direction) = 1 → ∀ s, 0 ≤ s → D.val ≤ nsq (offsetAt (vval r.origin) (vval r.direction) (vval p) s)) := by
  have hM := hg.one_le
  have h2 := hg.exact
  obtain ⟨w1, w2⟩ := FltTri.sub_grid hp ho hg.ok1 (by have := hg.lin (c := 2) (by norm_num); linarith)
  obtain ⟨x1, x2⟩ := FltTri.dot_grid w1 hd (by rw [add_zero]; exact hg.ok1) (by have := hg.lin (c := 6) (by norm_num); linarith)
  rw [add_zero] at x1
  rw [w2] at x2
  obtain ⟨ft, et⟩ := max_zero x1.1
  rw [x2] at et
  have tg := max_grid x1 (by linarith)
  obtain ⟨q1, q2⟩ := point_grid hg ho hd tg (by linarith)
  obtain ⟨v1, v2⟩ := FltTri.sub_grid q1 hp hg.ok1 (by have := hg.lin (c := 8) (by norm_num); linarith)
  have s1 := sqlen_grid v1 hg.ok2 (by nlinarith)
  have s2 := sqlen_grid w1 hg.ok2 (by nlinarith)
  have ev : vval (pointAtDistance r.origin r.direction (vmax (dot (p - r.origin) r.direction) [0]) - p) =
      offsetAt (vval r.origin) (vval r.direction) (vval p) (vmax (dot (p - r.origin) r.direction) [0]).val := by
    rw [v2]
    funext i
    show Flt.val (pointAtDistance r.origin r.direction _ i) - _ = _
    rw [q2]; rfl
  rw [ev] at s1
  rw [w2] at s2
  set t := vmax (dot (p - r.origin) r.direction) [0] with ht
  obtain ⟨D, hD, fD, eD⟩ : ∃ D : Flt P.fmt, squaredDistanceRayPoint r p = ⟨t, some D⟩ ∧ D.isFinite ∧
      D.val = nsq (offsetAt (vval r.origin) (vval r.direction) (vval p) t.val) := by
    unfold squaredDistanceRayPoint
    simp only []
    rw [← ht, eq_zero_val ft]
    by_cases h0 : t.val = 0
    · rw [if_pos (decide_eq_true h0)]
      refine ⟨_, rfl, s2.1, ?_⟩
      rw [s2.2, nsq_offset, h0]
      ring
    · rw [if_neg (by simpa using h0)]
      exact ⟨_, rfl, s1.1, s1.2⟩
  refine ⟨t, D, hD, ft, fD, et, eD, fun h1 s hs => ?_⟩
  rw [eD, nsq_offset, nsq_offset, h1]
  have ea : (vval p 0 - vval r.origin 0) * vval r.direction 0 + (vval p 1 - vval r.origin 1) * vval r.direction 1 +
      (vval p 2 - vval r.origin 2) * vval r.direction 2 = dot (vval p - vval r.origin) (vval r.direction) := by rw [dot3]; rfl
  rw [ea, et]
  set a := dot (vval p - vval r.origin) (vval r.direction)
  rcases le_total a 0 with h | h
  · rw [max_eq_right h]
    nlinarith
  · rw [max_eq_left h]
    nlinarith [sq_nonneg (s - a)]

/-- On a grid the distance from a segment parallel to an axis is exact: the position is exactly the distance of the closest point of the segment
from its start, and the result is exactly the least squared distance of the points of the segment. -/
theorem C127_segment_grid {g M : ℤ} (hg : AxisGrid P g M) {s : Flt P.fmt → Flt P.fmt} (hs : FaithfulSqrt P s) (sg : Segment (Flt P.fmt) 3)
    (p : Vec (Flt P.fmt) 3) (ha : GridPt g M sg.start) (hb : GridPt g M sg.end_) (hp : GridPt g M p) (k : Fin 3)
    (hk : (sg.end_ k).val ≠ (sg.start k).val) (hj : ∀ j, j ≠ k → (sg.end_ j).val = (sg.start j).val) :
    ∃ t D : Flt P.fmt, squaredDistanceSegmentPointG s sg p = ⟨t, some D⟩ ∧ t.isFinite ∧ D.isFinite ∧ ∃ l : ℚ, 0 ≤ l ∧ l ≤ 1 ∧
      (∀ m, 0 ≤ m → m ≤ 1 → nsq (offsetAt (vval sg.start) (vval sg.end_ - vval sg.start) (vval p) l) ≤
        nsq (offsetAt (vval sg.start) (vval sg.end_ - vval sg.start) (vval p) m)) ∧
      t.val = l * |(sg.end_ k).val - (sg.start k).val| ∧
      D.val = nsq (offsetAt (vval sg.start) (vval sg.end_ - vval sg.start) (vval p) l) := by
  have hM := hg.one_le
  have h2 := hg.exact
  obtain ⟨w1, w2⟩ := FltTri.sub_grid hp ha hg.ok1 (by have := hg.lin (c := 2) (by norm_num); linarith)
  obtain ⟨v1, v2⟩ := FltTri.sub_grid hb ha hg.ok1 (by have := hg.lin (c := 2) (by norm_num); linarith)
  obtain ⟨n1, n2⟩ := sqlen_grid v1 hg.ok2 (by nlinarith)
  rw [v2] at n2
  set V : Vec ℚ 3 := vval sg.end_ - vval sg.start with hV
  have hVk : V k ≠ 0 := sub_ne_zero.2 hk
  have hVj : ∀ j, j ≠ k → V j = 0 := fun j h => sub_eq_zero.2 (hj j h)
  have nV : nsq V = |V k| * |V k| := by
    rw [abs_mul_abs_self]
    unfold nsq
    fin_cases k
    · rw [hVj 1 (by decide), hVj 2 (by decide)]; show _ = V 0 * V 0; ring
    · rw [hVj 0 (by decide), hVj 2 (by decide)]; show _ = V 1 * V 1; ring
    · rw [hVj 0 (by decide), hVj 1 (by decide)]; show _ = V 2 * V 2; ring
  have dV : ∀ W : Vec ℚ 3, dot W V = W k * V k := fun W => by
    rw [dot3]
    fin_cases k
    · rw [hVj 1 (by decide), hVj 2 (by decide)]; show _ = W 0 * V 0; ring
    · rw [hVj 0 (by decide), hVj 2 (by decide)]; show _ = W 1 * V 1; ring
    · rw [hVj 0 (by decide), hVj 1 (by decide)]; show _ = W 2 * V 2; ring
  have hL0 : 0 < |V k| := abs_pos.2 hVk
  have evk : ∀ i, ((sg.end_ - sg.start) i).val = V i := fun i => congrFun v2 i
  have repL : P.fmt.rep |V k| := by rw [← evk k]; exact rep_abs (Flt.rep_val _)
  have elen : lengthG s (sg.end_ - sg.start) = Flt.fin |V k| repL := FltQuad.sqrt_exact hs n1 repL hL0.le (by rw [n2, nV])
  have lg : OnGrid g (M + M) (Flt.fin |V k| repL : Flt P.fmt) := by
    obtain ⟨_, z, hz, hB⟩ := v1 k
    refine ⟨trivial, |z|, ?_, by rw [abs_abs]; exact hB⟩
    show |V k| = _
    rw [← evk k, hz, abs_mul, abs_of_pos (BinPar.two_zpow_pos g)]
    push_cast; rfl
  -- the direction
  have hdir : ∀ i, (normalizeG s (sg.end_ - sg.start) i).isFinite ∧ (normalizeG s (sg.end_ - sg.start) i).val = V i / |V k| := by
    intro i
    show ((sg.end_ - sg.start) i / lengthG s (sg.end_ - sg.start)).isFinite ∧ ((sg.end_ - sg.start) i / lengthG s (sg.end_ - sg.start)).val = _
    rw [elen]
    have hq : ∃ z : ℤ, V i / |V k| = z ∧ |z| ≤ 1 := by
      by_cases hi : i = k
      · rw [hi]
        rcases lt_or_gt_of_ne hVk with h | h
        · exact ⟨-1, by rw [abs_of_neg h]; field_simp; norm_num, by norm_num⟩
        · exact ⟨1, by rw [abs_of_pos h]; field_simp; norm_num, by norm_num⟩
      · exact ⟨0, by rw [hVj i hi]; simp, by norm_num⟩
    obtain ⟨z, hz, hz1⟩ := hq
    have hr : (Flt.round (V i / |V k|) : Flt P.fmt).isFinite ∧ (Flt.round (V i / |V k|) : Flt P.fmt).val = V i / |V k| := by
      have := Gr.round (P := P) (g := 0) P.ok_zero (q := V i / |V k|) (z := z) (by rw [hz]; simp) hz1
        (by have := hg.lin (c := 1) (by norm_num); linarith)
      exact ⟨this.fin, by rw [this.val, hz]; simp⟩
    obtain ⟨k1, k2⟩ := Flt.eq_fin (v1 i).1
    rw [k2, div_fin k1 repL hL0.ne', evk i]
    exact hr
  have dg : GridPt 0 1 (normalizeG s (sg.end_ - sg.start)) := fun i => by
    refine ⟨(hdir i).1, ?_⟩
    rw [(hdir i).2]
    by_cases hi : i = k
    · rw [hi]
      rcases lt_or_gt_of_ne hVk with h | h
      · exact ⟨-1, by rw [abs_of_neg h]; field_simp; norm_num, by norm_num⟩
      · exact ⟨1, by rw [abs_of_pos h]; field_simp; norm_num, by norm_num⟩
    · exact ⟨0, by rw [hVj i hi]; simp, by norm_num⟩
  obtain ⟨x1, x2⟩ := FltTri.dot_grid w1 dg (by rw [add_zero]; exact hg.ok1) (by have := hg.lin (c := 6) (by norm_num); linarith)
  rw [add_zero] at x1
  set W : Vec ℚ 3 := vval p - vval sg.start with hW
  have ex : (dot (p - sg.start) (normalizeG s (sg.end_ - sg.start))).val = W k * V k / |V k| := by
    have e : vval (normalizeG s (sg.end_ - sg.start)) = fun i => V i / |V k| := funext fun i => (hdir i).2
    rw [x2, w2, e, ← dV W, dot3, dot3]
    ring
  have fl : (lengthG s (sg.end_ - sg.start)).isFinite := by rw [elen]; trivial
  obtain ⟨ft, et⟩ := clamp_val x1.1 fl
  have tg : OnGrid g (6 * M) (vmin (vmax 0 [dot (p - sg.start) (normalizeG s (sg.end_ - sg.start))]) [lengthG s (sg.end_ - sg.start)]) := by
    have hx : OnGrid g (6 * M) (dot (p - sg.start) (normalizeG s (sg.end_ - sg.start))) := by
      obtain ⟨a, z, b, c⟩ := x1; exact ⟨a, z, b, c.trans (by linarith)⟩
    have hl : OnGrid g (6 * M) (lengthG s (sg.end_ - sg.start)) := by
      rw [elen]; obtain ⟨a, z, b, c⟩ := lg; exact ⟨a, z, b, c.trans (by linarith)⟩
    have h0 : OnGrid g (6 * M) (0 : Flt P.fmt) := ⟨Flt.zero_finite, 0, by rw [Flt.zero_val]; simp, by simpa using hM.trans' (by norm_num)⟩
    have hm : OnGrid g (6 * M) (vmax 0 [dot (p - sg.start) (normalizeG s (sg.end_ - sg.start))]) := by
      show OnGrid g (6 * M) (if _ then _ else _ : Flt P.fmt)
      split
      · exact h0
      · exact hx
    generalize vmax 0 [dot (p - sg.start) (normalizeG s (sg.end_ - sg.start))] = y at hm ⊢
    show OnGrid g (6 * M) (if _ then _ else _ : Flt P.fmt)
    split
    · exact hm
    · exact hl
  rw [ex, elen] at et
  obtain ⟨q1, q2⟩ := point_grid hg ha dg tg le_rfl
  obtain ⟨u1, u2⟩ := FltTri.sub_grid hp q1 hg.ok1 (by have := hg.lin (c := 8) (by norm_num); linarith)
  obtain ⟨s1, s2⟩ := sqlen_grid u1 hg.ok2 (by nlinarith)
  rw [elen] at ft tg q1 q2 u1 u2 s1 s2
  set t := vmin (vmax 0 [dot (p - sg.start) (normalizeG s (sg.end_ - sg.start))]) [(Flt.fin |V k| repL : Flt P.fmt)] with ht
  set l := min (max 0 (W k * V k / nsq V)) 1 with hl
  have hnp : 0 < nsq V := by rw [nV]; positivity
  have etl : t.val = l * |V k| := by
    rw [et, hl, min_mul_of_nonneg _ _ hL0.le, max_mul_of_nonneg _ _ hL0.le, zero_mul, one_mul, nV]
    congr 2
    field_simp
  refine ⟨t, squaredLength (p - pointAtDistance sg.start (normalizeG s (sg.end_ - sg.start)) t), ?_, ft, s1, l, le_min (le_max_left _ _) zero_le_one,
    min_le_right _ _, fun m h0 h1 => ?_, etl, ?_⟩
  · rw [ht, ← elen]; rfl
  · rw [nsq_offset, nsq_offset]
    have ea' : (vval p 0 - vval sg.start 0) * V 0 + (vval p 1 - vval sg.start 1) * V 1 + (vval p 2 - vval sg.start 2) * V 2 = W k * V k := by
      rw [← dV W, dot3]; rfl
    rw [ea']
    linarith [seg_min hnp hl h0 h1]
  · rw [s2, u2]
    have e : ∀ i, (vval p - vval (pointAtDistance sg.start (normalizeG s (sg.end_ - sg.start)) t)) i =
        -offsetAt (vval sg.start) V (vval p) l i := fun i => by
      show (p i).val - Flt.val (pointAtDistance sg.start (normalizeG s (sg.end_ - sg.start)) t i) = _
      rw [q2, (hdir i).2, etl]
      simp only [offsetAt, vval]
      field_simp
      ring
    unfold nsq
    rw [e, e, e]
    ring


/-- The distances are the square roots of the squared distances: where the squared distance is exactly the square of a number of the format, as
for axis-parallel rays and segments on a grid and Pythagorean offsets, the distance is exactly this number. -/
theorem C127_distance {s : Flt P.fmt → Flt P.fmt} (hs : FaithfulSqrt P s) {t D : Flt P.fmt} (fD : D.isFinite) {d : ℚ} (hd : P.fmt.rep d)
    (hd0 : 0 ≤ d) (hD : D.val = d * d) (r : Ray (Flt P.fmt) 3) (sg : Segment (Flt P.fmt) 3) (p : Vec (Flt P.fmt) 3) :
    (squaredDistanceRayPoint r p = ⟨t, some D⟩ → distanceRayPointG s r p = ⟨t, some (Flt.fin d hd)⟩) ∧
    (squaredDistanceSegmentPointG s sg p = ⟨t, some D⟩ → distanceSegmentPointG s sg p = ⟨t, some (Flt.fin d hd)⟩) := by
  have e := FltQuad.sqrt_exact hs fD hd hd0 hD
  refine ⟨fun h => ?_, fun h => ?_⟩
  · unfold distanceRayPointG
    rw [h]
    simp [e]
  · unfold distanceSegmentPointG
    rw [h]
    simp [e]

/-- The generic functions, used with real numbers, are the functions of the exact model, provided that the segment is not degenerate. -/
theorem C127_model (r : Ray ℝ 3) (sg : Segment ℝ 3) (p : Vec ℝ 3) (h : sg.start ≠ sg.end_) :
    squaredDistanceSegmentPointG Real.sqrt sg p = squaredDistanceSegmentPoint sg p ∧
    distanceSegmentPointG Real.sqrt sg p = distanceSegmentPoint sg p ∧ distanceRayPointG Real.sqrt r p = distanceRayPoint r p := by
  have hl : length (sg.end_ - sg.start) ≠ 0 := by
    intro h0
    refine h (funext fun i => ?_)
    have h1 : squaredLength (sg.end_ - sg.start) = 0 := by
      have h2 : 0 ≤ squaredLength (sg.end_ - sg.start) := by
        show 0 ≤ dot _ _
        rw [dot3]
        nlinarith [mul_self_nonneg ((sg.end_ - sg.start) 0), mul_self_nonneg ((sg.end_ - sg.start) 1), mul_self_nonneg ((sg.end_ - sg.start) 2)]
      exact (Real.sqrt_eq_zero h2).1 h0
    have h3 : dot (sg.end_ - sg.start) (sg.end_ - sg.start) = 0 := h1
    rw [dot3] at h3
    have k0 := mul_self_nonneg ((sg.end_ - sg.start) 0)
    have k1 := mul_self_nonneg ((sg.end_ - sg.start) 1)
    have k2 := mul_self_nonneg ((sg.end_ - sg.start) 2)
    have k : ∀ i, (sg.end_ - sg.start) i * (sg.end_ - sg.start) i = 0 := fun i => by
      fin_cases i
      · show (sg.end_ - sg.start) 0 * (sg.end_ - sg.start) 0 = 0; linarith
      · show (sg.end_ - sg.start) 1 * (sg.end_ - sg.start) 1 = 0; linarith
      · show (sg.end_ - sg.start) 2 * (sg.end_ - sg.start) 2 = 0; linarith
    have := mul_self_eq_zero.1 (k i)
    exact (sub_eq_zero.1 this).symm
  have e : squaredDistanceSegmentPointG Real.sqrt sg p = squaredDistanceSegmentPoint sg p := by
    unfold squaredDistanceSegmentPoint Segment.direction normalize
    simp only [if_neg hl, Option.map_some]
    rfl
  refine ⟨e, ?_, rfl⟩
  unfold distanceSegmentPointG distanceSegmentPoint
  rw [e]

/-- The distance from a segment whose end points coincide is not a number, although the point at position zero is a point of the segment. -/
theorem C127_degenerate {s : Flt P.fmt → Flt P.fmt} (hs : FaithfulSqrt P s) (sg : Segment (Flt P.fmt) 3) (p : Vec (Flt P.fmt) 3)
    (ha : ∀ i, (sg.start i).isFinite) (h : sg.end_ = sg.start) :
    squaredDistanceSegmentPointG s sg p = ⟨0, some Flt.nan⟩ ∧ distanceSegmentPointG s sg p = ⟨0, some Flt.nan⟩ := by
  have hv : sg.end_ - sg.start = fun _ => (0 : Flt P.fmt) := by
    funext i
    show sg.end_ i - sg.start i = 0
    rw [h, Flt.sub_eq (ha i) (ha i), sub_self]
    have := Gr.round (P := P) (g := 0) P.ok_zero (q := 0) (z := 0) (B := 0) (by simp) (by simp) (by positivity)
    exact FltTri.fin_val_inj this.fin Flt.zero_finite (by rw [this.val, Flt.zero_val]; simp)
  have z00 : (0 : Flt P.fmt) * 0 = 0 := Flt.mul_zero_fin Flt.zero_finite
  have hsq : squaredLength (fun _ => (0 : Flt P.fmt) : Vec (Flt P.fmt) 3) = 0 := by
    show ((0 : Flt P.fmt) + 0 * 0 + 0 * 0 + 0 * 0) = 0
    rw [z00, Flt.add_zero', Flt.add_zero', Flt.add_zero']
  have hr0 : P.fmt.rep 0 := by have := Flt.rep_val (0 : Flt P.fmt); rwa [Flt.zero_val] at this
  have hlen : lengthG s (fun _ => (0 : Flt P.fmt) : Vec (Flt P.fmt) 3) = 0 := by
    unfold lengthG
    rw [hsq, FltQuad.sqrt_exact hs Flt.zero_finite hr0 le_rfl (by rw [Flt.zero_val]; simp)]
    rfl
  have hn : normalizeG s (fun _ => (0 : Flt P.fmt) : Vec (Flt P.fmt) 3) = fun _ => Flt.nan := by
    funext i
    show (0 : Flt P.fmt) / lengthG s (fun _ => (0 : Flt P.fmt) : Vec (Flt P.fmt) 3) = _
    rw [hlen]
    show (Flt.fin 0 _ : Flt P.fmt) / Flt.fin 0 _ = _
    simp [HDiv.hDiv, Div.div, Flt.infTimes]
  have hp : (vmin (vmax 0 [dot (p - sg.start) (fun _ => (Flt.nan : Flt P.fmt))]) [0] : Flt P.fmt) = 0 := by
    rw [C122_dot _ _ 0 (Or.inr rfl)]
    rfl
  have hd : squaredLength (p - pointAtDistance sg.start (fun _ => (Flt.nan : Flt P.fmt)) 0) = Flt.nan := by
    refine C122_dot _ _ 0 (Or.inl ?_)
    show p 0 - (sg.start 0 + Flt.nan * 0) = Flt.nan
    have e : (Flt.nan : Flt P.fmt) * 0 = Flt.nan := by cases (0 : Flt P.fmt) <;> rfl
    rw [e]
    cases p 0 <;> cases sg.start 0 <;> rfl
  have key : squaredDistanceSegmentPointG s sg p = ⟨0, some Flt.nan⟩ := by
    unfold squaredDistanceSegmentPointG
    simp only []
    have e1 : vdivs (sg.end_ - sg.start) (lengthG s (sg.end_ - sg.start)) = fun _ => Flt.nan := by
      have : vdivs (sg.end_ - sg.start) (lengthG s (sg.end_ - sg.start)) = normalizeG s (sg.end_ - sg.start) := rfl
      rw [this, hv, hn]
    have e2 : sg.directionG s = fun _ => Flt.nan := by unfold Segment.directionG; rw [hv, hn]
    rw [e1, e2, hv, hlen, hp, hd]
  refine ⟨key, ?_⟩
  unfold distanceSegmentPointG
  rw [key]
  simp [hs.nan]

theorem FltDist.two_pow64 : binary32.fmt.rep ((2 : ℚ) ^ 64) := by
  have := Gr.round (P := binary32) (g := 64) (by norm_num [BinPar.Ok, binary32]) (q := 2 ^ 64) (z := 1) (B := 1) (by norm_num) (by norm_num)
    (by norm_num [binary32])
  have h := Flt.rep_val (Flt.round (2 ^ 64) : Flt binary32.fmt)
  rw [this.val] at h
  norm_num at h ⊢
  exact h

/-- The distance overflows long before the number that it should return: a point at distance 2^64 from a ray is reported to be infinitely far away in
single precision, because its squared distance is not representable. -/
theorem C127_overflow_fails {s : Flt binary32.fmt → Flt binary32.fmt} (hs : FaithfulSqrt binary32 s) :
    ∃ (r : Ray (Flt binary32.fmt) 3) (p : Vec (Flt binary32.fmt) 3), vval r.origin = ![0, 0, 0] ∧ vval r.direction = ![0, 0, 1] ∧
      vval p = ![2 ^ 64, 0, 0] ∧ squaredDistanceRayPoint r p = ⟨0, some Flt.pinf⟩ ∧ distanceRayPointG s r p = ⟨0, some Flt.pinf⟩ := by
  set m : Flt binary32.fmt := Flt.fin (2 ^ 64) two_pow64 with hm
  have mf : m.isFinite := trivial
  have z : (0 : Flt binary32.fmt).isFinite := Flt.zero_finite
  have z0 : (0 : Flt binary32.fmt) * 0 = 0 := Flt.mul_zero_fin z
  have z1 : m * 0 = 0 := Flt.mul_zero_fin mf
  have z2 : (0 : Flt binary32.fmt) * 1 = 0 := Flt.zero_mul_fin Flt.one_finite
  have e1 : (![m, 0, 0] : Vec (Flt binary32.fmt) 3) - ![0, 0, 0] = ![m, 0, 0] := by
    funext i; fin_cases i <;> exact Flt.sub_zero' _
  have e2 : dot (![m, 0, 0] : Vec (Flt binary32.fmt) 3) ![0, 0, 1] = 0 := by
    show ((0 : Flt binary32.fmt) + m * 0 + 0 * 0 + 0 * 1) = 0
    rw [z0, z1, z2, Flt.add_zero', Flt.add_zero', Flt.add_zero']
  have e3 : squaredLength (![m, 0, 0] : Vec (Flt binary32.fmt) 3) = Flt.pinf := by
    have o : m * m = Flt.pinf := by
      rw [Flt.mul_eq mf mf]
      refine round_over ?_
      show _ ≤ (2 : ℚ) ^ 64 * 2 ^ 64
      norm_num [BinPar.bound, binary32]
    show ((0 : Flt binary32.fmt) + m * m + 0 * 0 + 0 * 0) = Flt.pinf
    rw [z0, o, Flt.add_zero', Flt.add_zero']
    rfl
  have e4 : (vmax (0 : Flt binary32.fmt) [0]) = 0 := by
    show (if _ then _ else _ : Flt binary32.fmt) = 0
    split <;> rfl
  have key : squaredDistanceRayPoint ⟨![0, 0, 0], ![0, 0, 1]⟩ (![m, 0, 0] : Vec (Flt binary32.fmt) 3) = ⟨0, some Flt.pinf⟩ := by
    unfold squaredDistanceRayPoint
    simp only []
    rw [e1, e2, e4, eq_zero_val z, if_pos (decide_eq_true Flt.zero_val), e3]
  refine ⟨⟨![0, 0, 0], ![0, 0, 1]⟩, ![m, 0, 0], ?_, ?_, ?_, key, ?_⟩
  · funext i; fin_cases i <;> exact Flt.zero_val
  · funext i
    fin_cases i
    · exact Flt.zero_val
    · exact Flt.zero_val
    · exact Flt.one_val
  · funext i
    fin_cases i
    · rfl
    · exact Flt.zero_val
    · exact Flt.zero_val
  · unfold distanceRayPointG
    rw [key]
    simp [hs.pinf]

/-! ### Non-vacuity -/

namespace FltDist

theorem grid32 : AxisGrid binary32 0 (2 ^ 8) := ⟨by norm_num, by norm_num [binary32], binary32.ok_zero, binary32.ok_zero⟩

theorem bound32 : 1024 * ((2 : ℚ) ^ 10) ^ 2 < binary32.bound := by norm_num [BinPar.bound, binary32]

theorem u32 : 250 * binary32.u ≤ 1 := by norm_num [BinPar.u, binary32]

theorem int_val {M : ℤ} {z : Fin 3 → ℤ} (h : ∀ i, Gr 0 (intVec binary32 z i) (z i) M) : vval (intVec binary32 z) = fun i => (z i : ℚ) :=
  funext fun i => (h i).val.trans (by rw [zpow_zero, mul_one])

theorem int_le {M : ℤ} {z : Fin 3 → ℤ} (h : ∀ i, Gr 0 (intVec binary32 z i) (z i) M) (i : Fin 3) :
    (intVec binary32 z i).isFinite ∧ |(intVec binary32 z i).val| ≤ M := by
  refine ⟨(h i).fin, ?_⟩
  rw [(h i).val, zpow_zero, mul_one]
  exact_mod_cast (h i).le

theorem nsq3 (a b c : ℚ) : nsq (![a, b, c] : Vec ℚ 3) = a ^ 2 + b ^ 2 + c ^ 2 := rfl

end FltDist

/-- The hypotheses of `C127_ray` hold in single precision for a ray whose direction is 1/64 away from a unit vector. -/
example : ∃ (r : Ray (Flt binary32.fmt) 3) (p : Vec (Flt binary32.fmt) 3), 250 * binary32.u ≤ 1 ∧ 1024 * ((2 : ℚ) ^ 10) ^ 2 < binary32.bound ∧
    (∀ i, (r.origin i).isFinite ∧ |(r.origin i).val| ≤ 2 ^ 10) ∧ (∀ i, (p i).isFinite ∧ |(p i).val| ≤ 2 ^ 10) ∧
    (∀ i, (r.direction i).isFinite) ∧ |nsq (vval r.direction) - 1| ≤ 1 / 64 ∧ dot (vval p - vval r.origin) (vval r.direction) ≠ 0 := by
  have g1 := gr_int (S := 3) (P := binary32) (![-3, 5, 1000] : Fin 3 → ℤ) (M := 2 ^ 10) (fun i => by fin_cases i <;> norm_num) (by norm_num [binary32])
  have g2 := gr_int (S := 3) (P := binary32) (![20, -700, 1] : Fin 3 → ℤ) (M := 2 ^ 10) (fun i => by fin_cases i <;> norm_num) (by norm_num [binary32])
  have d : ∀ z : ℤ, |z| ≤ 8 → Gr (-3) (Flt.round (z / 8) : Flt binary32.fmt) z 8 := fun z hz =>
    Gr.round (by norm_num [BinPar.Ok, binary32]) (by rw [div_eq_mul_inv]; norm_num) hz (by norm_num [binary32])
  set D : Vec (Flt binary32.fmt) 3 := ![Flt.round ((6 : ℤ) / 8), Flt.round ((5 : ℤ) / 8), Flt.round ((2 : ℤ) / 8)] with hD
  have vD : vval D = ![6 / 8, 5 / 8, 2 / 8] := by
    funext i
    fin_cases i
    · show Flt.val (Flt.round ((6 : ℤ) / 8) : Flt binary32.fmt) = 6 / 8
      rw [(d 6 (by norm_num)).val]; norm_num
    · show Flt.val (Flt.round ((5 : ℤ) / 8) : Flt binary32.fmt) = 5 / 8
      rw [(d 5 (by norm_num)).val]; norm_num
    · show Flt.val (Flt.round ((2 : ℤ) / 8) : Flt binary32.fmt) = 2 / 8
      rw [(d 2 (by norm_num)).val]; norm_num
  refine ⟨⟨intVec binary32 ![-3, 5, 1000], D⟩, intVec binary32 ![20, -700, 1], u32, bound32, fun i => ?_, fun i => ?_, fun i => ?_, ?_, ?_⟩
  · have := int_le g1 i; push_cast at this; exact this
  · have := int_le g2 i; push_cast at this; exact this
  · fin_cases i
    · exact (d 6 (by norm_num)).fin
    · exact (d 5 (by norm_num)).fin
    · exact (d 2 (by norm_num)).fin
  · show |nsq (vval D) - 1| ≤ _
    rw [vD, nsq3, abs_le]
    norm_num
  · show dot (vval (intVec binary32 ![20, -700, 1]) - vval (intVec binary32 ![-3, 5, 1000])) (vval D) ≠ 0
    rw [int_val g1, int_val g2, vD, dot3]
    show ((20 : ℤ) - (-3 : ℤ) : ℚ) * (6 / 8) + ((-700 : ℤ) - (5 : ℤ) : ℚ) * (5 / 8) + ((1 : ℤ) - (1000 : ℤ) : ℚ) * (2 / 8) ≠ 0
    norm_num

/-- The hypotheses of `C127_segment` hold for a segment with integer coordinates in single precision. -/
example : ∃ (g : Segment (Flt binary32.fmt) 3) (p : Vec (Flt binary32.fmt) 3), 250 * binary32.u ≤ 1 ∧ 1024 * ((2 : ℚ) ^ 10) ^ 2 < binary32.bound ∧
    (∀ i, (g.start i).isFinite ∧ |(g.start i).val| ≤ 2 ^ 10) ∧ (∀ i, (g.end_ i).isFinite ∧ |(g.end_ i).val| ≤ 2 ^ 10) ∧
    (∀ i, (p i).isFinite ∧ |(p i).val| ≤ 2 ^ 10) ∧ 4 * binary32.eta ≤ binary32.u * nsq (vval g.end_ - vval g.start) := by
  have g1 := gr_int (S := 3) (P := binary32) (![-3, 5, 1000] : Fin 3 → ℤ) (M := 2 ^ 10) (fun i => by fin_cases i <;> norm_num) (by norm_num [binary32])
  have g2 := gr_int (S := 3) (P := binary32) (![20, -700, 1] : Fin 3 → ℤ) (M := 2 ^ 10) (fun i => by fin_cases i <;> norm_num) (by norm_num [binary32])
  have g3 := gr_int (S := 3) (P := binary32) (![17, 1, -9] : Fin 3 → ℤ) (M := 2 ^ 10) (fun i => by fin_cases i <;> norm_num) (by norm_num [binary32])
  refine ⟨⟨intVec binary32 ![-3, 5, 1000], intVec binary32 ![20, -700, 1]⟩, intVec binary32 ![17, 1, -9], u32, bound32, fun i => ?_, fun i => ?_, fun i => ?_, ?_⟩
  · have := int_le g1 i; push_cast at this; exact this
  · have := int_le g2 i; push_cast at this; exact this
  · have := int_le g3 i; push_cast at this; exact this
  · show _ ≤ _ * nsq (vval (intVec binary32 ![20, -700, 1]) - vval (intVec binary32 ![-3, 5, 1000]))
    rw [int_val g1, int_val g2]
    show _ ≤ _ * ((((20 : ℤ) : ℚ) - (-3 : ℤ)) ^ 2 + (((-700 : ℤ) : ℚ) - (5 : ℤ)) ^ 2 + (((1 : ℤ) : ℚ) - (1000 : ℤ)) ^ 2)
    norm_num [BinPar.u, BinPar.eta, binary32]

/-- The hypotheses of the theorems about grids hold in single precision for coordinates up to 256, for a ray and a segment parallel to an axis. -/
example : ∃ (r : Ray (Flt binary32.fmt) 3) (g : Segment (Flt binary32.fmt) 3) (p : Vec (Flt binary32.fmt) 3), AxisGrid binary32 0 (2 ^ 8) ∧
    GridPt 0 (2 ^ 8) r.origin ∧ GridPt 0 1 r.direction ∧ nsq (vval r.direction) = 1 ∧ GridPt 0 (2 ^ 8) g.start ∧ GridPt 0 (2 ^ 8) g.end_ ∧
    GridPt 0 (2 ^ 8) p ∧ (g.end_ 1).val ≠ (g.start 1).val ∧ ∀ j, j ≠ 1 → (g.end_ j).val = (g.start j).val := by
  have g1 := gr_int (S := 3) (P := binary32) (![-3, 5, 100] : Fin 3 → ℤ) (M := 2 ^ 8) (fun i => by fin_cases i <;> norm_num) (by norm_num [binary32])
  have g2 := gr_int (S := 3) (P := binary32) (![-3, -70, 100] : Fin 3 → ℤ) (M := 2 ^ 8) (fun i => by fin_cases i <;> norm_num) (by norm_num [binary32])
  have g3 := gr_int (S := 3) (P := binary32) (![17, 1, -9] : Fin 3 → ℤ) (M := 2 ^ 8) (fun i => by fin_cases i <;> norm_num) (by norm_num [binary32])
  have g4 := gr_int (S := 3) (P := binary32) (![0, -1, 0] : Fin 3 → ℤ) (M := 1) (fun i => by fin_cases i <;> norm_num) (by norm_num [binary32])
  refine ⟨⟨intVec binary32 ![-3, 5, 100], intVec binary32 ![0, -1, 0]⟩, ⟨intVec binary32 ![-3, 5, 100], intVec binary32 ![-3, -70, 100]⟩,
    intVec binary32 ![17, 1, -9], grid32, fun i => (g1 i).onGrid, fun i => (g4 i).onGrid, ?_, fun i => (g1 i).onGrid, fun i => (g2 i).onGrid,
    fun i => (g3 i).onGrid, ?_, fun j hj => ?_⟩
  · show nsq (vval (intVec binary32 ![0, -1, 0])) = 1
    rw [int_val g4]
    show (((0 : ℤ) : ℚ) ^ 2 + ((-1 : ℤ) : ℚ) ^ 2 + ((0 : ℤ) : ℚ) ^ 2) = 1
    norm_num
  · show (intVec binary32 ![-3, -70, 100] 1).val ≠ (intVec binary32 ![-3, 5, 100] 1).val
    rw [(g2 1).val, (g1 1).val]
    show (((-70 : ℤ) : ℚ) * 2 ^ (0 : ℤ)) ≠ ((5 : ℤ) : ℚ) * 2 ^ (0 : ℤ)
    norm_num
  · show (intVec binary32 ![-3, -70, 100] j).val = (intVec binary32 ![-3, 5, 100] j).val
    rw [(g2 j).val, (g1 j).val]
    fin_cases j
    · rfl
    · exact absurd rfl hj
    · rfl

end vm
