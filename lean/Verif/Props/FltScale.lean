import Verif.Lemmas.FltScale
import Verif.Lemmas.FltConst
import Verif.Model.PlaneG
import Verif.Model.Intersect
import Verif.Lemmas.FltPolygon
import Verif.Lemmas.FltQuat

/-! C160: changing the unit of length by a power of two. -/

set_option linter.unusedSectionVars false
set_option linter.unusedSimpArgs false

namespace vm
open FltSc
open BinPar (two_zpow_pos)

variable {S : ℕ}

/-- Multiplying one argument by `2 ^ k` and the other by `2 ^ l` multiplies the dot product by exactly `2 ^ (k + l)`, rounding included, if no
product of two components is subnormal and the result does not overflow. -/
theorem C160_dot (P : BinPar) (k l : ℕ) (a a' b b' : Vec (Flt P.fmt) S) (ha : ∀ i, (a i).isFinite ∧ (a' i).isFinite ∧ (a' i).val = 2 ^ k * (a i).val)
    (hb : ∀ i, (b i).isFinite ∧ (b' i).isFinite ∧ (b' i).val = 2 ^ l * (b i).val)
    (hn : ∀ i, (a i).val * (b i).val = 0 ∨ 2 ^ (P.qmin + P.p - 1) ≤ |(a i).val * (b i).val|) (hf : (dot a' b').isFinite) :
    (dot a b).isFinite ∧ (dot a' b').val = 2 ^ (k + l) * (dot a b).val := by
  have h := Sc.dot a a' b b' ha hb hn hf
  exact ⟨h.1, h.2.2⟩

theorem FltSc.squaredLength_normal {P : BinPar} (v : Vec (Flt P.fmt) S) (hn : ∀ i, P.Normal ((v i).val * (v i).val))
    (h0 : ∃ i, (v i).val ≠ 0) (hf : (dot v v).isFinite) : P.Normal (dot v v).val ∧ 0 < (dot v v).val := by
  obtain ⟨i, hi⟩ := h0
  have h1 := (hn i).resolve_left (mul_ne_zero hi hi)
  rw [abs_of_nonneg (mul_self_nonneg _)] at h1
  have h2 := dot_self_ge v hf i
  have rμ : P.Rep (2 ^ (P.qmin + P.p - 1)) := by
    refine ⟨1, P.qmin + P.p - 1, by simp, ?_, by have := P.hp; omega⟩
    rw [abs_one]
    exact one_lt_pow₀ (by norm_num) (by have := P.hp; omega)
  have h3 := (P.le_fl_of_rep rμ h1).trans h2
  have h4 := lt_of_lt_of_le (two_zpow_pos (P.qmin + P.p - 1)) h3
  exact ⟨Or.inr (by rw [abs_of_pos h4]; exact h3), h4⟩

/-- Lengths scale exactly: with a correctly rounded square root the length of a vector multiplied by `2 ^ k` is exactly `2 ^ k` times its length. -/
theorem C160_length (P : BinPar) (k : ℕ) (s : Flt P.fmt → Flt P.fmt) (hs : CorrectSqrt P s) (v v' : Vec (Flt P.fmt) S)
    (hv : ∀ i, (v i).isFinite ∧ (v' i).isFinite ∧ (v' i).val = 2 ^ k * (v i).val)
    (hn : ∀ i, (v i).val = 0 ∨ 2 ^ (P.qmin + P.p - 1) ≤ (v i).val ^ 2) (h0 : ∃ i, (v i).val ≠ 0) (hf : (squaredLength v').isFinite) :
    (lengthG s v).isFinite ∧ (lengthG s v').isFinite ∧ (lengthG s v').val = 2 ^ k * (lengthG s v).val ∧ (lengthG s v).val ≠ 0 := by
  have hn' : ∀ i, P.Normal ((v i).val * (v i).val) := by
    intro i
    rcases hn i with h | h
    · left; rw [h, mul_zero]
    · right; rw [abs_of_nonneg (mul_self_nonneg _), ← sq]; exact h
  have h := Sc.dot v v' v v' hv hv hn' hf
  obtain ⟨n1, n2⟩ := FltSc.squaredLength_normal v hn' h0 h.1
  have hq := Sc.sqrt hs h n1 n2.le
  refine ⟨hq.1, hq.2.1, hq.2.2, fun hz => ?_⟩
  obtain ⟨rx, hx1⟩ := Flt.eq_fin h.1
  obtain ⟨r, hr, er, nr⟩ := hs.fin _ rx n2.le
  have ez : r = 0 := by
    have : (s (dot v v)).val = r := by rw [hx1, er]; rfl
    rw [← this]
    exact hz
  -- the least normal number is nearer to the root than zero
  set μ : ℚ := 2 ^ (P.qmin + P.p - 1) with hμ
  have μ0 : 0 < μ := two_zpow_pos _
  have μ1 : μ ≤ 1 := by
    have h1 := P.hmin
    have h2 := P.hp
    rw [hμ]
    exact zpow_le_one_of_nonpos₀ (by norm_num) (by omega)
  have rμ : P.Rep μ := by
    refine ⟨1, P.qmin + P.p - 1, by rw [hμ]; simp, ?_, by have := P.hp; omega⟩
    rw [abs_one]
    exact one_lt_pow₀ (by norm_num) (by have := P.hp; omega)
  have hle : μ ≤ (dot v v).val := by
    have := n1.resolve_left n2.ne'
    rwa [abs_of_pos n2] at this
  have μt : (μ : ℝ) ≤ Real.sqrt ((dot v v).val : ℝ) := by
    apply Real.le_sqrt_of_sq_le
    have h1 : μ ^ 2 ≤ (dot v v).val := by nlinarith
    exact_mod_cast h1
  have n3 := nr μ ⟨rμ, by rw [abs_of_pos μ0]; exact lt_of_le_of_lt μ1 P.one_lt_bound⟩
  have μR : (0 : ℝ) < μ := by exact_mod_cast μ0
  rw [ez, Rat.cast_zero, zero_sub, abs_neg, abs_of_nonneg (Real.sqrt_nonneg _), abs_of_nonpos (by linarith)] at n3
  linarith

/-- The direction of a vector does not depend on the unit: normalising `2 ^ k` times a vector gives exactly the same vector. -/
theorem C160_normalize (P : BinPar) (k : ℕ) (s : Flt P.fmt → Flt P.fmt) (hs : CorrectSqrt P s) (v v' : Vec (Flt P.fmt) S)
    (hv : ∀ i, (v i).isFinite ∧ (v' i).isFinite ∧ (v' i).val = 2 ^ k * (v i).val)
    (hn : ∀ i, (v i).val = 0 ∨ 2 ^ (P.qmin + P.p - 1) ≤ (v i).val ^ 2) (h0 : ∃ i, (v i).val ≠ 0) (hf : (squaredLength v').isFinite) :
    normalizeG s v' = normalizeG s v := by
  obtain ⟨l1, l2, l3, l4⟩ := C160_length P k s hs v v' hv hn h0 hf
  funext i
  show v' i / lengthG s v' = v i / lengthG s v
  have k0 : (2 : ℚ) ^ k ≠ 0 := by positivity
  rw [fin_div_fin (hv i).1 l1 l4, fin_div_fin (hv i).2.1 l2 (by rw [l3]; exact mul_ne_zero k0 l4), l3, (hv i).2.2, mul_div_mul_left _ _ k0]

/-- Distances of points scale exactly. -/
theorem C160_distance (P : BinPar) (k : ℕ) (s : Flt P.fmt → Flt P.fmt) (hs : CorrectSqrt P s) (a a' b b' : Vec (Flt P.fmt) S)
    (ha : ∀ i, (a i).isFinite ∧ (a' i).isFinite ∧ (a' i).val = 2 ^ k * (a i).val)
    (hb : ∀ i, (b i).isFinite ∧ (b' i).isFinite ∧ (b' i).val = 2 ^ k * (b i).val)
    (hd : ∀ i, ((a' - b') i).isFinite) (hn : ∀ i, (a i).val = (b i).val ∨ 2 ^ (P.qmin + P.p - 1) ≤ ((a - b) i).val ^ 2)
    (h0 : ∃ i, (a i).val ≠ (b i).val) (hf : (squaredLength (a' - b')).isFinite) :
    (distanceG s a b).isFinite ∧ (distanceG s a' b').isFinite ∧ (distanceG s a' b').val = 2 ^ k * (distanceG s a b).val := by
  have hv : ∀ i, Sc k ((a - b) i) ((a' - b') i) := fun i => Sc.sub (ha i) (hb i) (hd i)
  have v0 : ∀ i, ((a - b) i).val = P.fl ((a i).val - (b i).val) := fun i => Flt.sub_val (hv i).1
  obtain ⟨h1, h2, h3, -⟩ := C160_length P k s hs (a - b) (a' - b') hv (fun i => (hn i).imp_left fun h => by rw [v0, h, sub_self, P.fl_zero])
    (by
      obtain ⟨i, hi⟩ := h0
      refine ⟨i, fun hz => ?_⟩
      have h := (hn i).resolve_left hi
      rw [hz] at h
      have := two_zpow_pos (P.qmin + P.p - 1)
      norm_num at h
      linarith) hf
  exact ⟨h1, h2, h3⟩

/-- The components of a cross product scale exactly. -/
theorem C160_cross (P : BinPar) (k l : ℕ) (a a' b b' : Vec (Flt P.fmt) 3) (ha : ∀ i, (a i).isFinite ∧ (a' i).isFinite ∧ (a' i).val = 2 ^ k * (a i).val)
    (hb : ∀ i, (b i).isFinite ∧ (b' i).isFinite ∧ (b' i).val = 2 ^ l * (b i).val)
    (hn : ∀ i j, (a i).val * (b j).val = 0 ∨ 2 ^ (P.qmin + P.p - 1) ≤ |(a i).val * (b j).val|) (hf : ∀ i, (cross a' b' i).isFinite) (i : Fin 3) :
    (cross a b i).isFinite ∧ (cross a' b' i).isFinite ∧ (cross a' b' i).val = 2 ^ (k + l) * (cross a b i).val := by
  have key : ∀ i j, (a' i * b' j - a' j * b' i).isFinite → Sc (k + l) (a i * b j - a j * b i) (a' i * b' j - a' j * b' i) := by
    intro i j h
    obtain ⟨f1, f2⟩ := Flt.sub_finite h
    exact Sc.sub (Sc.mul (ha i) (hb j) (hn i j) f1) (Sc.mul (ha j) (hb i) (hn j i) f2) h
  fin_cases i
  · exact key 1 2 (hf 0)
  · exact key 2 0 (hf 1)
  · exact key 0 1 (hf 2)

/-- The plane through three points does not depend on the unit: multiplying the points by `2 ^ k` does not change whether `plane_normal` succeeds, and
the normal is exactly the same, if no product is subnormal and none overflows. -/
theorem C160_plane_normal (P : BinPar) (k : ℕ) (s : Flt P.fmt → Flt P.fmt) (hs : CorrectSqrt P s) (inf eps : Flt P.fmt)
    (p1 p2 p3 p1' p2' p3' : Vec (Flt P.fmt) 3)
    (h1 : ∀ i, (p1 i).isFinite ∧ (p1' i).isFinite ∧ (p1' i).val = 2 ^ k * (p1 i).val)
    (h2 : ∀ i, (p2 i).isFinite ∧ (p2' i).isFinite ∧ (p2' i).val = 2 ^ k * (p2 i).val)
    (h3 : ∀ i, (p3 i).isFinite ∧ (p3' i).isFinite ∧ (p3' i).val = 2 ^ k * (p3 i).val)
    (hf : let v := p3' - p1'
      let w := p2' - p1'
      (∀ i, (v i).isFinite ∧ (w i).isFinite ∧ (cross v w i).isFinite) ∧ (squaredLength v).isFinite ∧ (squaredLength w).isFinite ∧
        (squaredLength (cross v w)).isFinite ∧ (lengthG s v * lengthG s w).isFinite)
    (hn : let v := p3 - p1
      let w := p2 - p1
      let small : ℚ := 2 ^ (P.qmin + P.p - 1)
      (∀ i j, (v i).val * (w j).val = 0 ∨ small ≤ |(v i).val * (w j).val|) ∧
      (∀ u ∈ [v, w, cross v w], (∃ i, (u i).val ≠ 0) ∧ ∀ i, (u i).val = 0 ∨ small ≤ (u i).val ^ 2) ∧
      small ≤ (lengthG s v).val * (lengthG s w).val) :
    Plane.planeNormalG s inf p1' p2' p3' eps = Plane.planeNormalG s inf p1 p2 p3 eps := by
  simp only at hf hn
  obtain ⟨f1, f2, f3, f4, f5⟩ := hf
  obtain ⟨n1, n2, n3⟩ := hn
  have hv : ∀ i, Sc k ((p3 - p1) i) ((p3' - p1') i) := fun i => Sc.sub (h3 i) (h1 i) (f1 i).1
  have hw : ∀ i, Sc k ((p2 - p1) i) ((p2' - p1') i) := fun i => Sc.sub (h2 i) (h1 i) (f1 i).2.1
  unfold Plane.planeNormalG
  simp only
  generalize p3 - p1 = v at *
  generalize p3' - p1' = v' at *
  generalize p2 - p1 = w at *
  generalize p2' - p1' = w' at *
  have hc := C160_cross P k k v v' w w' hv hw n1 fun i => (f1 i).2.2
  have nv := n2 v (by simp)
  have nw := n2 w (by simp)
  have nc := n2 (cross v w) (by simp)
  obtain ⟨a1, a2, a3, a4⟩ := C160_length P k s hs v v' hv nv.2 nv.1 f2
  obtain ⟨b1, b2, b3, b4⟩ := C160_length P k s hs w w' hw nw.2 nw.1 f3
  obtain ⟨c1, c2, c3, c4⟩ := C160_length P (k + k) s hs (cross v w) (cross v' w') hc nc.2 nc.1 f4
  have hd := C160_normalize P (k + k) s hs (cross v w) (cross v' w') hc nc.2 nc.1 f4
  have hm : Sc (k + k) (lengthG s v * lengthG s w) (lengthG s v' * lengthG s w') :=
    Sc.mul ⟨a1, a2, a3⟩ ⟨b1, b2, b3⟩ (Or.inr (n3.trans (le_abs_self _))) f5
  have m0 : (lengthG s v * lengthG s w).val ≠ 0 := by
    rw [Flt.mul_val hm.1]
    have rμ : P.Rep (2 ^ (P.qmin + P.p - 1)) := by
      refine ⟨1, P.qmin + P.p - 1, by simp, ?_, by have := P.hp; omega⟩
      rw [abs_one]
      exact one_lt_pow₀ (by norm_num) (by have := P.hp; omega)
    exact (lt_of_lt_of_le (two_zpow_pos _) (P.le_fl_of_rep rμ n3)).ne'
  have k0 : (2 : ℚ) ^ (k + k) ≠ 0 := by positivity
  have hq : lengthG s (cross v' w') / (lengthG s v' * lengthG s w') = lengthG s (cross v w) / (lengthG s v * lengthG s w) := by
    rw [fin_div_fin c1 hm.1 m0, fin_div_fin c2 hm.2.1 (by rw [hm.2.2]; exact mul_ne_zero k0 m0), hm.2.2, c3, mul_div_mul_left _ _ k0]
  rw [hq, hd]

/-- The distance of a point from a plane scales exactly. -/
theorem C160_point_distance (P : BinPar) (k : ℕ) (p p' : Plane (Flt P.fmt) S) (x x' : Vec (Flt P.fmt) S) (hn : p'.normal = p.normal)
    (hf : ∀ i, (p.normal i).isFinite) (hd : p.distance.isFinite ∧ p'.distance.isFinite ∧ p'.distance.val = 2 ^ k * p.distance.val)
    (hx : ∀ i, (x i).isFinite ∧ (x' i).isFinite ∧ (x' i).val = 2 ^ k * (x i).val)
    (h : ∀ i, (x i).val * (p.normal i).val = 0 ∨ 2 ^ (P.qmin + P.p - 1) ≤ |(x i).val * (p.normal i).val|) (hr : (p'.pointDistance x').isFinite) :
    (p.pointDistance x).isFinite ∧ (p'.pointDistance x').val = 2 ^ k * (p.pointDistance x).val := by
  have h0 : ∀ i, Sc 0 (p.normal i) (p'.normal i) := fun i => by
    rw [hn]
    exact ⟨hf i, hf i, by rw [pow_zero, one_mul]⟩
  obtain ⟨f1, f2⟩ := Flt.sub_finite hr
  have h1 := Sc.sub (Sc.dot x x' p.normal p'.normal hx h0 h f1) hd hr
  exact ⟨h1.1, h1.2.2⟩

/-- Scaling the origin of a ray and the distance of a plane scales the distance of the hit exactly; the decision whether the ray is parallel to the
plane is the same. -/
theorem C160_ray_plane (P : BinPar) (k : ℕ) (az : Flt P.fmt) (r r' : Ray (Flt P.fmt) S) (p p' : Plane (Flt P.fmt) S) (hn : p'.normal = p.normal)
    (hdir : r'.direction = r.direction) (hf : ∀ i, (p.normal i).isFinite)
    (hd : p.distance.isFinite ∧ p'.distance.isFinite ∧ p'.distance.val = 2 ^ k * p.distance.val)
    (ho : ∀ i, (r.origin i).isFinite ∧ (r'.origin i).isFinite ∧ (r'.origin i).val = 2 ^ k * (r.origin i).val)
    (n1 : ∀ i, (p.normal i).val * p.distance.val = 0 ∨ 2 ^ (P.qmin + P.p - 1) ≤ |(p.normal i).val * p.distance.val|)
    (n2 : ∀ i, ((p.anchor - r.origin) i).val * (p.normal i).val = 0 ∨
      2 ^ (P.qmin + P.p - 1) ≤ |((p.anchor - r.origin) i).val * (p.normal i).val|)
    (n3 : (dot (p.anchor - r.origin) p.normal).val / (dot r.direction p.normal).val = 0 ∨
      2 ^ (P.qmin + P.p - 1) ≤ |(dot (p.anchor - r.origin) p.normal).val / (dot r.direction p.normal).val|)
    (g1 : ∀ i, ((p'.anchor - r'.origin) i).isFinite) (g2 : (dot (p'.anchor - r'.origin) p.normal).isFinite) (g3 : (dot r.direction p.normal).isFinite)
    (g4 : (dot (p'.anchor - r'.origin) p.normal / dot r.direction p.normal).isFinite) (haz : az.isFinite ∧ 0 ≤ az.val) (t : Flt P.fmt)
    (ht : intersectRayPlane az r p = some t) (t0 : 0 ≤ t.val) :
    ∃ t', intersectRayPlane az r' p' = some t' ∧ t.isFinite ∧ t'.isFinite ∧ t'.val = 2 ^ k * t.val := by
  have h0 : ∀ i, Sc 0 (p.normal i) (p.normal i) := fun i => ⟨hf i, hf i, by rw [pow_zero, one_mul]⟩
  have ha : ∀ i, Sc k ((p.anchor - r.origin) i) ((p'.anchor - r'.origin) i) := by
    intro i
    obtain ⟨f1, -⟩ := Flt.sub_finite (g1 i)
    have e : p'.anchor i = p.normal i * p'.distance := by
      show p'.normal i * p'.distance = _
      rw [hn]
    have m := Sc.mul (h0 i) hd (n1 i) (by rw [← e]; exact f1)
    rw [zero_add] at m
    refine Sc.sub ?_ (ho i) (g1 i)
    rw [e]
    exact m
  have hN := Sc.dot _ _ _ _ ha h0 n2 g2
  unfold intersectRayPlane at ht ⊢
  simp only at ht ⊢
  rw [hn, hdir]
  by_cases z : isZero (dot r.direction p.normal) az = true
  · rw [if_pos z] at ht; cases ht
  rw [if_neg z] at ht ⊢
  have c0 : (dot r.direction p.normal).val ≠ 0 := by
    intro hc
    apply z
    have : dot r.direction p.normal = 0 := Flt.ext g3 Flt.zero_finite (by rw [hc, Flt.zero_val])
    rw [this]
    unfold isZero
    have : Cmp.eq (0 : Flt P.fmt) 0 = true := by
      show decide (Ext.ofRat 0 = Ext.ofRat 0) = true
      simp
    rw [this, Bool.true_or]
  have e1 : t = dot (p.anchor - r.origin) p.normal / dot r.direction p.normal := by
    split_ifs at ht
    exact (Option.some.inj ht).symm
  rw [fin_div_fin hN.1 g3 c0] at e1
  rw [fin_div_fin hN.2.1 g3 c0] at g4 ⊢
  have q := of_round (P := P) k (q := (dot (p.anchor - r.origin) p.normal).val / (dot r.direction p.normal).val)
    (q' := (dot (p'.anchor - r'.origin) p.normal).val / (dot r.direction p.normal).val)
    (by rw [hN.2.2, add_zero, mul_div_assoc, fl_scale _ n3]) g4
  rw [← e1] at q
  refine ⟨_, if_neg ?_, q.1, q.2.1, q.2.2⟩
  rw [Flt.lt_val q.2.1 (Flt.neg_finite.2 haz.1), Flt.neg_val, q.2.2, decide_eq_true_eq, not_lt]
  have : (0 : ℚ) ≤ 2 ^ k * t.val := by positivity
  linarith [haz.2]

theorem FltSc.fl_tiny {P : BinPar} : P.fl (2 ^ P.qmin * 2 ^ P.qmin) = 0 := by
  have h1 := P.hmin
  have h2 := P.hp
  have hp := two_zpow_pos P.qmin
  have e : P.ex (2 ^ P.qmin * 2 ^ P.qmin) = P.qmin := by
    apply le_antisymm _ (P.qmin_le_ex _)
    refine P.ex_le_of_lt (k := P.qmin) (mul_pos hp hp).ne' ?_ le_rfl
    rw [abs_of_pos (mul_pos hp hp), ← BinPar.zpow_add2]
    exact zpow_lt_zpow_right₀ (by norm_num) (by omega)
  unfold BinPar.fl
  rw [e, mul_div_assoc, div_self hp.ne', mul_one]
  have : rne (2 ^ P.qmin) = 0 := by
    apply rne_unique
    rw [Int.cast_zero, sub_zero, abs_of_pos hp]
    calc (2 : ℚ) ^ P.qmin < 2 ^ (-1 : ℤ) := zpow_lt_zpow_right₀ (by norm_num) (by omega)
      _ = 1 / 2 := by norm_num
  rw [this]
  simp

/-- Without the condition on subnormal products the result depends on the unit: the least positive number times the x axis is normalised to a vector
with an infinite component, although the x axis itself, a power of two times it, is normalised to itself. -/
theorem C160_tiny_fails (P : BinPar) (s : Flt P.fmt → Flt P.fmt) (hs : CorrectSqrt P s) : ∃ (k : ℕ) (v v' : Vec (Flt P.fmt) 3),
    (∀ i, (v i).isFinite ∧ (v' i).isFinite ∧ (v' i).val = 2 ^ k * (v i).val) ∧ normalizeG s v' = vaxis 3 0 ∧ normalizeG s v 0 = Flt.pinf := by
  have h1 := P.hmin
  have h2 := P.hp
  have hp := two_zpow_pos P.qmin
  have re : P.fmt.rep (2 ^ P.qmin) := by
    refine ⟨⟨1, P.qmin, by simp, ?_, le_rfl⟩, ?_⟩
    · rw [abs_one]; exact one_lt_pow₀ (by norm_num) (by omega)
    · rw [abs_of_pos hp]
      exact lt_of_le_of_lt (zpow_le_one_of_nonpos₀ (by norm_num) (by omega)) P.one_lt_bound
  have zz : (0 : Flt P.fmt) * 0 = 0 := Flt.zero_mul_fin Flt.zero_finite
  have s0 : s 0 = 0 := by
    obtain ⟨r, hr, er, nr⟩ := hs.fin 0 P.fmt.rep_zero le_rfl
    have n := nr 0 P.fmt.rep_zero
    have : r = 0 := by simpa using n
    subst this
    exact er
  have s1 : s 1 = 1 := by
    obtain ⟨r, hr, er, nr⟩ := hs.fin 1 P.fmt.rep_one zero_le_one
    have n := nr 1 P.fmt.rep_one
    simp only [Rat.cast_one, Real.sqrt_one, sub_self, abs_zero, abs_nonpos_iff] at n
    have : r = 1 := by
      have : (r : ℝ) = 1 := by linarith
      exact_mod_cast this
    subst this
    exact er
  set t : Flt P.fmt := Flt.fin (F := P.fmt) (2 ^ P.qmin) re with ht
  refine ⟨(-P.qmin).toNat, ![t, 0, 0], ![1, 0, 0], ?_, ?_, ?_⟩
  · intro i
    fin_cases i
    · refine ⟨trivial, Flt.one_finite, ?_⟩
      show (1 : Flt P.fmt).val = 2 ^ (-P.qmin).toNat * 2 ^ P.qmin
      rw [Flt.one_val, zk, ← BinPar.zpow_add2, show (((-P.qmin).toNat : ℕ) : ℤ) + P.qmin = 0 by omega, zpow_zero]
    · exact ⟨Flt.zero_finite, Flt.zero_finite, by show (0 : Flt P.fmt).val = _ * (0 : Flt P.fmt).val; rw [Flt.zero_val, mul_zero]⟩
    · exact ⟨Flt.zero_finite, Flt.zero_finite, by show (0 : Flt P.fmt).val = _ * (0 : Flt P.fmt).val; rw [Flt.zero_val, mul_zero]⟩
  · have l : lengthG s (![1, 0, 0] : Vec (Flt P.fmt) 3) = 1 := by
      unfold lengthG squaredLength
      rw [FltQt.dot3]
      show s (1 * 1 + 0 * 0 + 0 * 0) = 1
      rw [zz, Flt.one_mul', Flt.add_zero', Flt.add_zero', s1]
    unfold normalizeG
    rw [l]
    funext i
    show (![1, 0, 0] : Vec (Flt P.fmt) 3) i / 1 = _
    rw [Flt.div_one']
    fin_cases i <;> rfl
  · have tt : t * t = 0 := by
      have f : (t * t) = Flt.round (2 ^ P.qmin * 2 ^ P.qmin) := rfl
      have h3 : (Flt.round (2 ^ P.qmin * 2 ^ P.qmin) : Flt P.fmt).isFinite := Flt.round_finite.2 (by
        rw [FltSc.fl_tiny, abs_zero]; exact P.bound_pos)
      rw [f]
      exact Flt.ext h3 Flt.zero_finite (by rw [Flt.round_val h3, FltSc.fl_tiny, Flt.zero_val])
    have l : lengthG s (![t, 0, 0] : Vec (Flt P.fmt) 3) = 0 := by
      unfold lengthG squaredLength
      rw [FltQt.dot3]
      show s (t * t + 0 * 0 + 0 * 0) = 0
      rw [zz, tt, Flt.add_zero', Flt.add_zero', s0]
    unfold normalizeG
    rw [l]
    show (if (0 : ℚ) = 0 then Flt.infTimes (2 ^ P.qmin) else Flt.round (2 ^ P.qmin / 0) : Flt P.fmt) = Flt.pinf
    rw [if_pos rfl]
    unfold Flt.infTimes
    rw [if_neg hp.ne', if_pos hp]

/-- The vectors (3, 4, 0) and (24, 32, 0) of doubles meet the hypotheses of the theorems above. -/
example : ∃ v v' : Vec (Flt binary64.fmt) 3, (∀ i, (v i).isFinite ∧ (v' i).isFinite ∧ (v' i).val = 2 ^ 3 * (v i).val) ∧
    (∀ i, (v i).val = 0 ∨ 2 ^ (binary64.qmin + binary64.p - 1) ≤ (v i).val ^ 2) ∧ (∃ i, (v i).val ≠ 0) ∧ (squaredLength v').isFinite := by
  have a := is_round (P := binary64) (q := 3) (c := 3) (by fl_num (-51) (3 * 2 ^ 51)) (lt_bound64 (by norm_num))
  have b := is_round (P := binary64) (q := 4) (c := 4) (by fl_num (-50) (4 * 2 ^ 50)) (lt_bound64 (by norm_num))
  have c := is_round (P := binary64) (q := 24) (c := 24) (by fl_num (-48) (24 * 2 ^ 48)) (lt_bound64 (by norm_num))
  have d := is_round (P := binary64) (q := 32) (c := 32) (by fl_num (-47) (32 * 2 ^ 47)) (lt_bound64 (by norm_num))
  have cc := is_mul (c := 576) c c (by fl_num (-43) (576 * 2 ^ 43)) (lt_bound64 (by norm_num))
  have dd := is_mul (c := 1024) d d (by fl_num (-42) (1024 * 2 ^ 42)) (lt_bound64 (by norm_num))
  have e := is_add (c := 1600) cc dd (by fl_num (-42) (1600 * 2 ^ 42)) (lt_bound64 (by norm_num))
  have z0 : (0 : Flt binary64.fmt).val = 0 := Flt.zero_val
  have small : (2 : ℚ) ^ (binary64.qmin + binary64.p - 1) ≤ 1 := zpow_le_one_of_nonpos₀ (by norm_num) (by norm_num [binary64])
  refine ⟨![Flt.round 3, Flt.round 4, 0], ![Flt.round 24, Flt.round 32, 0], ?_, ?_, ⟨0, ?_⟩, ?_⟩
  · intro i
    fin_cases i
    · exact ⟨a.1, c.1, by show (Flt.round 24 : Flt binary64.fmt).val = 2 ^ 3 * (Flt.round 3 : Flt binary64.fmt).val; rw [a.2, c.2]; norm_num⟩
    · exact ⟨b.1, d.1, by show (Flt.round 32 : Flt binary64.fmt).val = 2 ^ 3 * (Flt.round 4 : Flt binary64.fmt).val; rw [b.2, d.2]; norm_num⟩
    · exact ⟨Flt.zero_finite, Flt.zero_finite, by show (0 : Flt binary64.fmt).val = 2 ^ 3 * (0 : Flt binary64.fmt).val; rw [z0]; norm_num⟩
  · intro i
    fin_cases i
    · right
      show _ ≤ (Flt.round 3 : Flt binary64.fmt).val ^ 2
      rw [a.2]; linarith
    · right
      show _ ≤ (Flt.round 4 : Flt binary64.fmt).val ^ 2
      rw [b.2]; linarith
    · left; exact z0
  · show (Flt.round 3 : Flt binary64.fmt).val ≠ 0
    rw [a.2]; norm_num
  · unfold squaredLength
    rw [FltQt.dot3]
    show (Flt.round 24 * Flt.round 24 + Flt.round 32 * Flt.round 32 + 0 * 0 : Flt binary64.fmt).isFinite
    rw [Flt.zero_mul_fin Flt.zero_finite, Flt.add_zero']
    exact e.1

/-- The hypotheses of `C160_plane_normal` hold for the origin and the ends of the first two axes, and for the same points multiplied by two. -/
example (s : Flt binary64.fmt → Flt binary64.fmt) (hs : CorrectSqrt binary64 s) (inf eps : Flt binary64.fmt) :
    Plane.planeNormalG s inf ![0, 0, 0] ![0, Flt.round 2, 0] ![Flt.round 2, 0, 0] eps = Plane.planeNormalG s inf ![0, 0, 0] ![0, 1, 0] ![1, 0, 0] eps := by
  have two := is_round (P := binary64) (q := 2) (c := 2) (by fl_num (-51) (2 * 2 ^ 51)) (lt_bound64 (by norm_num))
  generalize (Flt.round 2 : Flt binary64.fmt) = t at *
  have one : (1 : Flt binary64.fmt).isFinite ∧ (1 : Flt binary64.fmt).val = 1 := ⟨Flt.one_finite, Flt.one_val⟩
  have zer : (0 : Flt binary64.fmt).isFinite ∧ (0 : Flt binary64.fmt).val = 0 := ⟨Flt.zero_finite, Flt.zero_val⟩
  have four := is_mul (c := 4) two two (by fl_num (-50) (4 * 2 ^ 50)) (lt_bound64 (by norm_num))
  have sixteen := is_mul (c := 16) four four (by fl_num (-48) (16 * 2 ^ 48)) (lt_bound64 (by norm_num))
  have sq : ∀ (x y : Flt binary64.fmt) (c : ℚ), 0 < c → binary64.fmt.rep c → x.isFinite ∧ x.val = c * c → s x = Flt.round c := by
    intro x y c c0 rc hx
    obtain ⟨rx, ex⟩ := Flt.eq_fin hx.1
    obtain ⟨r, hr, er, nr⟩ := hs.fin x.val rx (by rw [hx.2]; positivity)
    have n := nr c rc
    have cR : (0 : ℝ) < c := by exact_mod_cast c0
    rw [hx.2] at n
    push_cast at n
    rw [Real.sqrt_mul_self cR.le, sub_self, abs_zero, abs_nonpos_iff] at n
    have rc2 : r = c := by
      have : (r : ℝ) = c := by linarith
      exact_mod_cast this
    have f : (Flt.round c : Flt binary64.fmt).isFinite := Flt.round_finite.2 (by rw [binary64.fl_rep rc.1]; exact rc.2)
    rw [ex, er]
    exact Flt.ext trivial f (by rw [Flt.round_val f, binary64.fl_rep rc.1, ← rc2]; rfl)
  have s1 : (s 1).isFinite ∧ (s 1).val = 1 := by
    rw [sq 1 0 1 one_pos binary64.fmt.rep_one ⟨one.1, by rw [one.2, one_mul]⟩]
    exact is_round (by fl_num (-52) (2 ^ 52)) (lt_bound64 (by norm_num))
  have r2 : binary64.fmt.rep 2 := by rw [← two.2]; exact Flt.rep_val t
  have s4 : (s (t * t)).isFinite ∧ (s (t * t)).val = 2 := by
    rw [sq (t * t) 0 2 two_pos r2 ⟨four.1, by rw [four.2]; norm_num⟩]
    exact is_round (by fl_num (-51) (2 * 2 ^ 51)) (lt_bound64 (by norm_num))
  have ll := is_mul (c := 4) s4 s4 (by fl_num (-50) (4 * 2 ^ 50)) (lt_bound64 (by norm_num))
  have small : (2 : ℚ) ^ (binary64.qmin + binary64.p - 1) ≤ 1 := zpow_le_one_of_nonpos₀ (by norm_num) (by norm_num [binary64])
  have zz : (0 : Flt binary64.fmt) * 0 = 0 := Flt.zero_mul_fin zer.1
  have z1 : (0 : Flt binary64.fmt) * 1 = 0 := Flt.zero_mul_fin one.1
  have z2 : (0 : Flt binary64.fmt) * t = 0 := Flt.zero_mul_fin two.1
  have z3 : t * (0 : Flt binary64.fmt) = 0 := Flt.mul_zero_fin two.1
  have z4 : (1 : Flt binary64.fmt) * 0 = 0 := Flt.mul_zero_fin one.1
  have hv : ∀ x : Flt binary64.fmt, (![x, 0, 0] - ![0, 0, 0] : Vec (Flt binary64.fmt) 3) = ![x, 0, 0] := by
    intro x; funext i
    fin_cases i
    · exact Flt.sub_zero' x
    · exact Flt.sub_zero' 0
    · exact Flt.sub_zero' 0
  have hw : ∀ x : Flt binary64.fmt, (![0, x, 0] - ![0, 0, 0] : Vec (Flt binary64.fmt) 3) = ![0, x, 0] := by
    intro x; funext i
    fin_cases i
    · exact Flt.sub_zero' 0
    · exact Flt.sub_zero' x
    · exact Flt.sub_zero' 0
  have hc : ∀ x : Flt binary64.fmt, x.isFinite → cross (![x, 0, 0] : Vec (Flt binary64.fmt) 3) ![0, x, 0] = ![0, 0, x * x] := by
    intro x hx
    have a : (0 : Flt binary64.fmt) * x = 0 := Flt.zero_mul_fin hx
    have b : x * (0 : Flt binary64.fmt) = 0 := Flt.mul_zero_fin hx
    funext i
    fin_cases i
    · show (0 : Flt binary64.fmt) * 0 - 0 * x = 0
      rw [zz, a, Flt.sub_zero']
    · show (0 : Flt binary64.fmt) * 0 - x * 0 = 0
      rw [zz, b, Flt.sub_zero']
    · show x * x - 0 * 0 = x * x
      rw [zz, Flt.sub_zero']
  have l1 : ∀ x : Flt binary64.fmt, squaredLength (![x, 0, 0] : Vec (Flt binary64.fmt) 3) = x * x := by
    intro x
    unfold squaredLength
    rw [FltQt.dot3]
    show x * x + 0 * 0 + 0 * 0 = _
    rw [zz, Flt.add_zero', Flt.add_zero']
  have l2 : ∀ x : Flt binary64.fmt, squaredLength (![0, x, 0] : Vec (Flt binary64.fmt) 3) = x * x := by
    intro x
    unfold squaredLength
    rw [FltQt.dot3]
    show 0 * 0 + x * x + 0 * 0 = _
    rw [zz, Flt.zero_add', Flt.add_zero']
  have l3 : ∀ x : Flt binary64.fmt, squaredLength (![0, 0, x] : Vec (Flt binary64.fmt) 3) = x * x := by
    intro x
    unfold squaredLength
    rw [FltQt.dot3]
    show 0 * 0 + 0 * 0 + x * x = _
    rw [zz, Flt.zero_add', Flt.zero_add']
  have sc0 : (0 : Flt binary64.fmt).isFinite ∧ (0 : Flt binary64.fmt).isFinite ∧ (0 : Flt binary64.fmt).val = 2 ^ 1 * (0 : Flt binary64.fmt).val :=
    ⟨zer.1, zer.1, by rw [zer.2]; norm_num⟩
  have sc1 : (1 : Flt binary64.fmt).isFinite ∧ t.isFinite ∧ t.val = 2 ^ 1 * (1 : Flt binary64.fmt).val := ⟨one.1, two.1, by rw [one.2, two.2]; norm_num⟩
  refine C160_plane_normal binary64 1 s hs inf eps _ _ _ _ _ _ ?_ ?_ ?_ ?_ ?_
  · intro i; fin_cases i <;> exact sc0
  · intro i
    fin_cases i
    · exact sc0
    · exact sc1
    · exact sc0
  · intro i
    fin_cases i
    · exact sc1
    · exact sc0
    · exact sc0
  · simp only
    rw [hv, hw, hc t two.1, l1, l2, l3]
    refine ⟨fun i => ?_, four.1, four.1, sixteen.1, ?_⟩
    · fin_cases i
      · exact ⟨two.1, zer.1, zer.1⟩
      · exact ⟨zer.1, two.1, zer.1⟩
      · exact ⟨zer.1, zer.1, four.1⟩
    · unfold lengthG
      rw [l1, l2]
      exact ll.1
  · simp only
    rw [hv, hw, hc 1 one.1, Flt.one_mul']
    have dich : ∀ x : Flt binary64.fmt, x = 0 ∨ x = 1 → x.val = 0 ∨ x.val = 1 := by
      rintro x (rfl | rfl)
      · left; exact zer.2
      · right; exact one.2
    have c1 : ∀ i, (![1, 0, 0] : Vec (Flt binary64.fmt) 3) i = 0 ∨ (![1, 0, 0] : Vec (Flt binary64.fmt) 3) i = 1 := by
      intro i; fin_cases i
      · right; rfl
      · left; rfl
      · left; rfl
    have c2 : ∀ i, (![0, 1, 0] : Vec (Flt binary64.fmt) 3) i = 0 ∨ (![0, 1, 0] : Vec (Flt binary64.fmt) 3) i = 1 := by
      intro i; fin_cases i
      · left; rfl
      · right; rfl
      · left; rfl
    have c3 : ∀ i, (![0, 0, 1] : Vec (Flt binary64.fmt) 3) i = 0 ∨ (![0, 0, 1] : Vec (Flt binary64.fmt) 3) i = 1 := by
      intro i; fin_cases i
      · left; rfl
      · left; rfl
      · right; rfl
    have sqd : ∀ x : Flt binary64.fmt, x = 0 ∨ x = 1 → x.val = 0 ∨ (2 : ℚ) ^ (binary64.qmin + binary64.p - 1) ≤ x.val ^ 2 := by
      intro x hx
      refine (dich x hx).imp_right fun h => ?_
      rw [h, one_pow]; exact small
    have ne1 : (1 : Flt binary64.fmt).val ≠ 0 := by rw [one.2]; norm_num
    refine ⟨fun i j => ?_, ?_, ?_⟩
    · rcases dich _ (c1 i) with h | h <;> rcases dich _ (c2 j) with h' | h'
      · left; rw [h, zero_mul]
      · left; rw [h, zero_mul]
      · left; rw [h', mul_zero]
      · right; rw [h, h', one_mul, abs_one]; exact small
    · intro u hu
      simp only [List.mem_cons, List.not_mem_nil, or_false] at hu
      rcases hu with rfl | rfl | rfl
      · exact ⟨⟨0, ne1⟩, fun i => sqd _ (c1 i)⟩
      · exact ⟨⟨1, ne1⟩, fun i => sqd _ (c2 i)⟩
      · exact ⟨⟨2, ne1⟩, fun i => sqd _ (c3 i)⟩
    · unfold lengthG
      rw [l1, l2, Flt.one_mul', s1.2, one_mul]
      exact small

/-- The hypotheses of `C160_ray_plane` hold for a ray that starts above the plane through the first two axes and points down, and for the ray that
starts at twice the height. -/
example : ∃ t : Flt binary64.fmt, t.val = 2 ∧
    intersectRayPlane 0 ⟨![0, 0, t], ![0, 0, -1]⟩ (⟨0, ![0, 0, 1]⟩ : Plane (Flt binary64.fmt) 3) = some t := by
  have two := is_round (P := binary64) (q := 2) (c := 2) (by fl_num (-51) (2 * 2 ^ 51)) (lt_bound64 (by norm_num))
  generalize (Flt.round 2 : Flt binary64.fmt) = t at *
  have one : (1 : Flt binary64.fmt).isFinite ∧ (1 : Flt binary64.fmt).val = 1 := ⟨Flt.one_finite, Flt.one_val⟩
  have zer : (0 : Flt binary64.fmt).isFinite ∧ (0 : Flt binary64.fmt).val = 0 := ⟨Flt.zero_finite, Flt.zero_val⟩
  have small : (2 : ℚ) ^ (binary64.qmin + binary64.p - 1) ≤ 1 := zpow_le_one_of_nonpos₀ (by norm_num) (by norm_num [binary64])
  have zz : (0 : Flt binary64.fmt) * 0 = 0 := Flt.zero_mul_fin zer.1
  have z4 : (1 : Flt binary64.fmt) * 0 = 0 := Flt.mul_zero_fin one.1
  have nn : ∀ x : Flt binary64.fmt, -x * 1 = -x := fun x => by rw [Flt.mul_comm', Flt.one_mul']
  have z5 : (-1 : Flt binary64.fmt).isFinite := Flt.neg_finite.2 one.1
  have sub0 : ∀ x : Flt binary64.fmt, x.isFinite → 0 - x = -x := fun x hx => Flt.zero_add' (-x)
  have han : Plane.anchor (⟨0, ![0, 0, 1]⟩ : Plane (Flt binary64.fmt) 3) = ![0, 0, 0] := by
    funext i
    fin_cases i
    · exact zz
    · exact zz
    · exact z4
  have hsub : ∀ x : Flt binary64.fmt, x.isFinite →
      (Plane.anchor (⟨0, ![0, 0, 1]⟩ : Plane (Flt binary64.fmt) 3) - ![0, 0, x] : Vec (Flt binary64.fmt) 3) = ![0, 0, -x] := by
    intro x hx
    rw [han]
    funext i
    fin_cases i
    · exact Flt.sub_zero' 0
    · exact Flt.sub_zero' 0
    · exact sub0 x hx
  have hdot : ∀ x : Flt binary64.fmt, dot (![0, 0, -x] : Vec (Flt binary64.fmt) 3) ![0, 0, 1] = -x := by
    intro x
    rw [FltQt.dot3]
    show (0 : Flt binary64.fmt) * 0 + 0 * 0 + -x * 1 = -x
    rw [zz, Flt.zero_add', Flt.zero_add', nn]
  have m1 : (-1 : Flt binary64.fmt).val = -1 := by rw [Flt.neg_val, one.2]
  have quo : ∀ (x : Flt binary64.fmt) (c : ℚ), x.isFinite ∧ x.val = c → binary64.fl (-c / -1) = c → |c| < binary64.bound →
      (-x / -1).isFinite ∧ (-x / -1).val = c := fun x c hx h hb =>
    is_div ⟨Flt.neg_finite.2 hx.1, by rw [Flt.neg_val, hx.2]⟩ ⟨z5, m1⟩ (by norm_num) h hb
  have q1 := quo 1 1 one (by rw [neg_div_neg_eq, div_one]; fl_num (-52) (2 ^ 52)) (lt_bound64 (by norm_num))
  have q2 := quo t 2 two (by rw [neg_div_neg_eq, div_one]; fl_num (-51) (2 * 2 ^ 51)) (lt_bound64 (by norm_num))
  have e1 : (-1 / -1 : Flt binary64.fmt) = 1 := Flt.ext q1.1 one.1 (by rw [q1.2, one.2])
  have hz : isZero (-1 : Flt binary64.fmt) 0 = false := by
    have a : vm.abs (-1 : Flt binary64.fmt) = 1 := by
      unfold vm.abs
      rw [Flt.lt_val z5 zer.1, m1, zer.2, if_pos (by norm_num), Flt.neg_neg']
    unfold isZero
    rw [a]
    have b : Cmp.eq (-1 : Flt binary64.fmt) 0 = false := by
      show decide (Ext.ofRat (-1) = Ext.ofRat 0) = false
      simp [Ext.ofRat]
    have c : Cmp.le (1 : Flt binary64.fmt) 0 = false := by
      show decide (Ext.ofRat 1 ≤ Ext.ofRat 0) = false
      rw [decide_eq_false_iff_not]
      simp only [Ext.ofRat, WithBot.coe_le_coe, WithTop.coe_le_coe]
      norm_num
    rw [b, c]; rfl
  have ht : intersectRayPlane 0 ⟨![0, 0, 1], ![0, 0, -1]⟩ (⟨0, ![0, 0, 1]⟩ : Plane (Flt binary64.fmt) 3) = some 1 := by
    unfold intersectRayPlane
    simp only
    rw [hsub 1 one.1, hdot, hz, e1]
    simp only [Bool.false_eq_true, if_false]
    rw [Flt.lt_val one.1 (Flt.neg_finite.2 zer.1), Flt.neg_val, one.2, zer.2, if_neg (by norm_num)]
  have sc0 : (0 : Flt binary64.fmt).isFinite ∧ (0 : Flt binary64.fmt).isFinite ∧ (0 : Flt binary64.fmt).val = 2 ^ 1 * (0 : Flt binary64.fmt).val :=
    ⟨zer.1, zer.1, by rw [zer.2]; norm_num⟩
  obtain ⟨t', h1, -, h3, h4⟩ := C160_ray_plane binary64 1 0 ⟨![0, 0, 1], ![0, 0, -1]⟩ ⟨![0, 0, t], ![0, 0, -1]⟩
    (⟨0, ![0, 0, 1]⟩ : Plane (Flt binary64.fmt) 3) ⟨0, ![0, 0, 1]⟩ rfl rfl
    (by intro i; fin_cases i; exacts [zer.1, zer.1, one.1]) sc0
    (by
      intro i; fin_cases i
      · exact sc0
      · exact sc0
      · exact ⟨one.1, two.1, by show t.val = 2 ^ 1 * (1 : Flt binary64.fmt).val; rw [one.2, two.2]; norm_num⟩)
    (by intro i; left; show _ * (0 : Flt binary64.fmt).val = 0; rw [zer.2, mul_zero])
    (by
      intro i
      show ((Plane.anchor (⟨0, ![0, 0, 1]⟩ : Plane (Flt binary64.fmt) 3) - ![0, 0, 1] : Vec (Flt binary64.fmt) 3) i).val * _ = 0 ∨
        _ ≤ |((Plane.anchor (⟨0, ![0, 0, 1]⟩ : Plane (Flt binary64.fmt) 3) - ![0, 0, 1] : Vec (Flt binary64.fmt) 3) i).val * _|
      rw [hsub 1 one.1]
      fin_cases i
      · left; show (0 : Flt binary64.fmt).val * _ = 0; rw [zer.2, zero_mul]
      · left; show (0 : Flt binary64.fmt).val * _ = 0; rw [zer.2, zero_mul]
      · right
        show _ ≤ |(-1 : Flt binary64.fmt).val * (1 : Flt binary64.fmt).val|
        rw [m1, one.2, mul_one, abs_neg, abs_one]; exact small)
    (by
      right
      show _ ≤ |(dot (Plane.anchor (⟨0, ![0, 0, 1]⟩ : Plane (Flt binary64.fmt) 3) - ![0, 0, 1] : Vec (Flt binary64.fmt) 3) ![0, 0, 1]).val /
        (dot (![0, 0, -1] : Vec (Flt binary64.fmt) 3) ![0, 0, 1]).val|
      rw [hsub 1 one.1, hdot, m1, div_self (by norm_num), abs_one]; exact small)
    (by
      intro i
      show ((Plane.anchor (⟨0, ![0, 0, 1]⟩ : Plane (Flt binary64.fmt) 3) - ![0, 0, t] : Vec (Flt binary64.fmt) 3) i).isFinite
      rw [hsub t two.1]
      fin_cases i
      exacts [zer.1, zer.1, Flt.neg_finite.2 two.1])
    (by
      show (dot (Plane.anchor (⟨0, ![0, 0, 1]⟩ : Plane (Flt binary64.fmt) 3) - ![0, 0, t] : Vec (Flt binary64.fmt) 3) ![0, 0, 1]).isFinite
      rw [hsub t two.1, hdot]; exact Flt.neg_finite.2 two.1)
    (by show (dot (![0, 0, -1] : Vec (Flt binary64.fmt) 3) ![0, 0, 1]).isFinite; rw [hdot]; exact z5)
    (by
      show (dot (Plane.anchor (⟨0, ![0, 0, 1]⟩ : Plane (Flt binary64.fmt) 3) - ![0, 0, t] : Vec (Flt binary64.fmt) 3) ![0, 0, 1] /
        dot (![0, 0, -1] : Vec (Flt binary64.fmt) 3) ![0, 0, 1]).isFinite
      rw [hsub t two.1, hdot, hdot]; exact q2.1)
    ⟨zer.1, by rw [zer.2]⟩ 1 ht (by rw [one.2]; norm_num)
  refine ⟨t, two.2, ?_⟩
  rw [h1]
  congr 1
  exact Flt.ext h3 two.1 (by rw [h4, one.2, two.2]; norm_num)

end vm
