import Verif.Lemmas.FltSphere
import Verif.Props.FltDistance
import Verif.Props.Intersect
import Verif.Props.FltRayBBox

/-! C129: rays and spheres in IEEE arithmetic. -/

set_option linter.unusedSectionVars false
set_option linter.unusedSimpArgs false

namespace vm
variable {P : BinPar}

namespace FltSph
open FltDist
variable {r : Ray (Flt P.fmt) 3} {c : Vec (Flt P.fmt) 3} {R : Flt P.fmt} {X : ℚ} {s : Flt P.fmt → Flt P.fmt}

/-- The result in terms of the computed roots. -/
theorem result_eq (s : Flt P.fmt → Flt P.fmt) (r : Ray (Flt P.fmt) 3) (c : Vec (Flt P.fmt) 3) (R : Flt P.fmt) :
    intersectRaySphereG s Flt.nan r c R = if Cmp.lt (fd r c R) 0 = true then Flt.nan
      else if (Cmp.lt (ft0 s r c R) 0 && Cmp.lt (ft1 s r c R) 0) = true then Flt.nan
      else if (Cmp.lt 0 (ft0 s r c R) && Cmp.lt 0 (ft1 s r c R)) = true then vmin (ft0 s r c R) [ft1 s r c R]
      else vmax (ft0 s r c R) [ft1 s r c R] := by
  unfold intersectRaySphereG ft0 ft1 fd fq fp
  rfl

theorem round_nn (q : ℚ) : (Flt.round q : Flt P.fmt) ≠ Flt.nan := (FltQuad.round_sign q).1

theorem lt_fin {x y : Flt P.fmt} (hx : x.isFinite) (hy : y.isFinite) : Cmp.lt x y = true ↔ x.val < y.val := by rw [Flt.lt_val hx hy, decide_eq_true_eq]

/-- The result if both roots are finite. -/
theorem result (f0 : (ft0 s r c R).isFinite) (f1 : (ft1 s r c R).isFinite) (le : (ft1 s r c R).val ≤ (ft0 s r c R).val)
    (fD : (fd r c R).isFinite) (hD : 0 ≤ (fd r c R).val) :
    intersectRaySphereG s Flt.nan r c R =
      if (ft0 s r c R).val < 0 then Flt.nan else if 0 < (ft1 s r c R).val then ft1 s r c R else ft0 s r c R := by
  rw [result_eq, if_neg (by rw [lt_fin fD Flt.zero_finite, Flt.zero_val]; exact not_lt.2 hD)]
  simp only [Bool.and_eq_true, lt_fin f0 Flt.zero_finite, lt_fin f1 Flt.zero_finite, lt_fin Flt.zero_finite f0, lt_fin Flt.zero_finite f1,
    Flt.zero_val]
  by_cases h0 : (ft0 s r c R).val < 0
  · rw [if_pos ⟨h0, lt_of_le_of_lt le h0⟩, if_pos h0]
  · rw [if_neg (fun h => h0 h.1), if_neg h0]
    by_cases h1 : 0 < (ft1 s r c R).val
    · rw [if_pos ⟨lt_of_lt_of_le h1 le, h1⟩, if_pos h1]
      show (if _ then _ else _) = _
      rw [if_neg (by rw [lt_fin f0 f1]; exact not_lt.2 le)]
      rfl
    · rw [if_neg (fun h => h1 h.2), if_neg h1]
      show (if _ then _ else _) = _
      by_cases h2 : (ft1 s r c R).val < (ft0 s r c R).val
      · rw [if_pos ((lt_fin f1 f0).2 h2)]; rfl
      · rw [if_neg (by rw [lt_fin f1 f0]; exact h2)]
        exact FltTri.fin_val_inj f1 f0 (le_antisymm le (not_lt.1 h2))

theorem result_nan (fD : (fd r c R).isFinite) (hD : (fd r c R).val < 0) : intersectRaySphereG s Flt.nan r c R = Flt.nan := by
  rw [result_eq, if_pos (by rw [lt_fin fD Flt.zero_finite, Flt.zero_val]; exact hD)]

/-- A computed root nearly solves the quadratic equation. -/
theorem solves (h : SphOk r c R X) {ρ σ t : ℚ} (hσ : |σ| ≤ 781 / 100 * X) (hsq : σ ^ 2 = ρ ^ 2) (h1 : |ρ ^ 2 - (fd r c R).val| ≤ 246 * (P.u * X * X))
    (h2 : |2 * t - (σ - (fp r c).val)| ≤ 31 * (P.u * X)) : |t ^ 2 + 2 * t * eb r c + eq r c R| ≤ 800 * (P.u * X * X) ∧ |t| ≤ 8 * X := by
  obtain ⟨-, d1, d2, d3, -⟩ := disc h
  obtain ⟨⟨-, e1⟩, -, b1, -⟩ := coeffs h
  obtain ⟨hu, hX, -⟩ := h
  have hup := P.u_pos
  have uX : 0 < P.u * X := by positivity
  have uX' : 250 * (P.u * X) ≤ X := by nlinarith
  generalize (fp r c).val = p at *
  generalize (fd r c R).val = d at *
  generalize eb r c = b at *
  generalize eq r c R = q at *
  obtain ⟨ε, hε⟩ : ∃ ε, ε = 2 * t - (σ - p) := ⟨_, rfl⟩
  rw [← hε] at h2
  have ht : |t| ≤ 77 / 10 * X := by
    have k1 := abs_le.1 h2
    have k2 := abs_le.1 hσ
    have k3 := abs_le.1 d3
    exact abs_le.2 ⟨by linarith, by linarith⟩
  refine ⟨?_, by linarith⟩
  have m1 : |2 * σ * ε| ≤ 1562 / 100 * 31 * (P.u * X * X) := by
    rw [abs_mul, abs_mul, abs_two]
    calc 2 * |σ| * |ε| ≤ 2 * (781 / 100 * X) * (31 * (P.u * X)) := mul_le_mul (by linarith) h2 (abs_nonneg _) (by positivity)
      _ = _ := by ring
  have m2 : |ε * ε| ≤ 4 * (P.u * X * X) := by
    rw [abs_mul]
    calc |ε| * |ε| ≤ 31 * (P.u * X) * (31 * (P.u * X)) := mul_le_mul h2 h2 (abs_nonneg _) (by positivity)
      _ = 961 * (P.u * X) * (P.u * X) := by ring
      _ ≤ 961 * (P.u * X) * (X / 250) := mul_le_mul_of_nonneg_left (by linarith) (by positivity)
      _ ≤ _ := by nlinarith
  have m3 : |4 * t * (p - 2 * b)| ≤ 924 * (P.u * X * X) := by
    rw [abs_mul, abs_mul, show |(4 : ℚ)| = 4 from by norm_num]
    calc 4 * |t| * |p - 2 * b| ≤ 4 * (77 / 10 * X) * (30 * (P.u * X)) := mul_le_mul (by linarith) e1 (abs_nonneg _) (by positivity)
      _ = _ := by ring
  have key : 4 * (t ^ 2 + 2 * t * b + q) = (ρ ^ 2 - d) + 2 * σ * ε + ε * ε + (d - (4 * b ^ 2 - 4 * q)) - (p ^ 2 - 4 * b ^ 2) - 4 * t * (p - 2 * b) := by
    rw [hε, ← hsq]; ring
  have k1 := abs_le.1 m1
  have k2 := abs_le.1 m2
  have k3 := abs_le.1 m3
  have k4 := abs_le.1 h1
  have k5 := abs_le.1 d1
  have k6 := abs_le.1 d2
  have : 0 ≤ P.u * X * X := by positivity
  exact abs_le.2 ⟨by linarith, by linarith⟩

/-- The squared distance from the center along the line. -/
theorem along (r : Ray (Flt P.fmt) 3) (c : Vec (Flt P.fmt) 3) (R : Flt P.fmt) (t : ℚ) :
    nsq (offsetAt (vval r.origin) (vval r.direction) (vval c) t) - R.val ^ 2 =
      (t ^ 2 + 2 * t * eb r c + eq r c R) + (nsq (vval r.direction) - 1) * t ^ 2 := by
  unfold eb eq nsq offsetAt
  rw [dot3]
  simp only [Pi.sub_apply]
  ring

end FltSph
open FltDist FltSph

/-- Over the real numbers the generic model is `intersect_ray_sphere`. -/
theorem C129_model (r : Ray ℝ 3) (c : Vec ℝ 3) (R nan : ℝ) :
    intersectRaySphereG Real.sqrt nan r c R = (intersectRaySphere r c R).getD nan := by
  unfold intersectRaySphereG intersectRaySphere
  simp only [exact_lt, decide_eq_true_eq, Bool.and_eq_true]
  split_ifs <;> rfl

/-- The result is NaN, or a distance that is not negative: the point at this distance is on the sphere, up to rounding errors and to the error in
the length of the direction. -/
theorem C129_hit {s : Flt P.fmt → Flt P.fmt} (hs : FaithfulSqrt P s) (r : Ray (Flt P.fmt) 3) (c : Vec (Flt P.fmt) 3) (R : Flt P.fmt) (X : ℚ)
    (h : SphOk r c R X) :
    intersectRaySphereG s Flt.nan r c R = Flt.nan ∨
      ((intersectRaySphereG s Flt.nan r c R).isFinite ∧ 0 ≤ (intersectRaySphereG s Flt.nan r c R).val ∧
        (intersectRaySphereG s Flt.nan r c R).val ≤ 8 * X ∧
        |nsq (offsetAt (vval r.origin) (vval r.direction) (vval c) (intersectRaySphereG s Flt.nan r c R).val) - R.val ^ 2| ≤
          800 * P.u * X ^ 2 + |nsq (vval r.direction) - 1| * (intersectRaySphereG s Flt.nan r c R).val ^ 2) := by
  have fD := (disc h).1
  rcases lt_or_ge (fd r c R).val 0 with hD | hD
  · exact Or.inl (result_nan fD hD)
  obtain ⟨ρ, k⟩ := roots h hs hD
  have e := result k.f0 k.f1 k.le fD hD
  have fin : ∀ t : ℚ, |t ^ 2 + 2 * t * eb r c + eq r c R| ≤ 800 * (P.u * X * X) → 
      |nsq (offsetAt (vval r.origin) (vval r.direction) (vval c) t) - R.val ^ 2| ≤ 800 * P.u * X ^ 2 + |nsq (vval r.direction) - 1| * t ^ 2 := by
    intro t ht
    rw [along]
    refine (abs_add_le _ _).trans ?_
    rw [abs_mul, abs_of_nonneg (sq_nonneg t)]
    linarith
  by_cases h0 : (ft0 s r c R).val < 0
  · left; rw [e, if_pos h0]
  · rw [if_neg h0] at e
    right
    by_cases h1 : 0 < (ft1 s r c R).val
    · rw [if_pos h1] at e
      rw [e]
      obtain ⟨a1, a2⟩ := solves h (σ := -ρ) (by rw [abs_neg, abs_of_nonneg k.ρ0]; exact k.size) (by ring) k.sq k.e1
      exact ⟨k.f1, h1.le, (le_abs_self _).trans a2, fin _ a1⟩
    · rw [if_neg h1] at e
      rw [e]
      obtain ⟨a1, a2⟩ := solves h (σ := ρ) (by rw [abs_of_nonneg k.ρ0]; exact k.size) rfl k.sq k.e0
      exact ⟨k.f0, not_lt.1 h0, (le_abs_self _).trans a2, fin _ a1⟩

/-- If the line misses the sphere by more than the rounding errors, then the result is NaN. -/
theorem C129_miss (s : Flt P.fmt → Flt P.fmt) (r : Ray (Flt P.fmt) 3) (c : Vec (Flt P.fmt) 3) (R : Flt P.fmt) (X : ℚ)
    (h : SphOk r c R X) (hm : R.val ^ 2 + 250 * P.u * X ^ 2 <
      nsq (vval r.origin - vval c) - dot (vval r.origin - vval c) (vval r.direction) ^ 2) :
    intersectRaySphereG s Flt.nan r c R = Flt.nan := by
  obtain ⟨f1, d1, -⟩ := disc h
  refine result_nan f1 ?_
  have k := abs_le.1 d1
  have h1 : eb r c = dot (vval r.origin - vval c) (vval r.direction) := rfl
  have h2 : eq r c R = nsq (vval r.origin - vval c) - R.val ^ 2 := rfl
  rw [← h1] at hm
  nlinarith

/-- If the origin is inside of the sphere by more than the rounding errors, then there is a hit, and it is the exit: it is not before the point of
the line that is closest to the center. -/
theorem C129_inside {s : Flt P.fmt → Flt P.fmt} (hs : FaithfulSqrt P s) (r : Ray (Flt P.fmt) 3) (c : Vec (Flt P.fmt) 3) (R : Flt P.fmt) (X : ℚ)
    (h : SphOk r c R X) (hm : nsq (vval r.origin - vval c) + 450 * P.u * X ^ 2 < R.val ^ 2) :
    (intersectRaySphereG s Flt.nan r c R).isFinite ∧ 0 ≤ (intersectRaySphereG s Flt.nan r c R).val ∧
      -dot (vval r.origin - vval c) (vval r.direction) - 31 * P.u * X ≤ (intersectRaySphereG s Flt.nan r c R).val := by
  obtain ⟨f1, d1, d2, d3, -⟩ := disc h
  obtain ⟨⟨-, e1⟩, -⟩ := coeffs h
  have hup := P.u_pos
  have hX := h.hX
  have u0 : 0 < P.u * X * X := by positivity
  have hm' : eq r c R < -(450 * (P.u * X * X)) := by
    show nsq (vval r.origin - vval c) - R.val ^ 2 < _
    linarith
  have k1 := abs_le.1 d1
  have k2 := abs_le.1 d2
  have hD : 0 ≤ (fd r c R).val := by nlinarith [sq_nonneg (fp r c).val]
  obtain ⟨ρ, k⟩ := roots h hs hD
  have k3 := abs_le.1 k.sq
  have hρ : (fp r c).val ^ 2 ≤ ρ ^ 2 := by linarith
  obtain ⟨g1, g2⟩ := abs_le_of_sq_le_sq' hρ k.ρ0
  have e := result k.f0 k.f1 k.le f1 hD
  rw [if_neg (not_lt.2 (k.pos0 g2)), if_neg (not_lt.2 (k.neg1 (by linarith)))] at e
  rw [e]
  refine ⟨k.f0, k.pos0 g2, ?_⟩
  have k4 := abs_le.1 k.e0
  have k5 := abs_le.1 e1
  have k6 := k.ρ0
  have uX : 0 < P.u * X := by positivity
  show -eb r c - _ ≤ _
  linarith

namespace FltSph

/-- Outside of the sphere the square of the linear coefficient is larger than the computed discriminant. -/
theorem outside {r : Ray (Flt P.fmt) 3} {c : Vec (Flt P.fmt) 3} {R : Flt P.fmt} {X : ℚ} {s : Flt P.fmt → Flt P.fmt} {ρ : ℚ}
    (h : SphOk r c R X) (hm : R.val ^ 2 + 450 * P.u * X ^ 2 < nsq (vval r.origin - vval c)) (k : Roots s r c R X ρ) :
    ρ ≤ |(fp r c).val| - P.u ∧ 31 * (P.u * X) ≤ |(fp r c).val| := by
  obtain ⟨-, d1, d2, d3, -⟩ := disc h
  have hup := P.u_pos
  have hX := h.hX
  have u0 : 0 < P.u * X * X := by positivity
  have uX : 0 < P.u * X := by positivity
  have uX' : 250 * (P.u * X) ≤ X := by have := h.hu; nlinarith
  have hm' : 450 * (P.u * X * X) < eq r c R := by
    show _ < nsq (vval r.origin - vval c) - R.val ^ 2
    linarith
  have k1 := abs_le.1 d1
  have k2 := abs_le.1 d2
  have k3 := abs_le.1 k.sq
  have k4 := k.ρ0
  have k5 := k.size
  rw [← sq_abs (fp r c).val] at k2
  have a0 := abs_nonneg (fp r c).val
  generalize |(fp r c).val| = a at *
  have hρ : ρ ^ 2 + 114 * (P.u * X * X) ≤ a ^ 2 := by linarith
  constructor
  · by_contra hc
    push Not at hc
    have uu : P.u ≤ P.u * X := le_mul_of_one_le_right hup.le hX
    have : (a - ρ) * (a + ρ) ≤ P.u * X * (1513 / 100 * X) := by
      rcases le_or_gt a ρ with g | g
      · have : (a - ρ) * (a + ρ) ≤ 0 := mul_nonpos_of_nonpos_of_nonneg (by linarith) (by linarith)
        nlinarith
      · exact mul_le_mul (by linarith) (by linarith) (by linarith) uX.le
    nlinarith
  · by_contra hc
    push Not at hc
    have : a ^ 2 ≤ (31 * (P.u * X)) ^ 2 := pow_le_pow_left₀ a0 hc.le 2
    have h2 : (31 * (P.u * X)) ^ 2 ≤ 4 * (P.u * X * X) := by nlinarith
    have := sq_nonneg ρ
    linarith

end FltSph

/-- If the origin is outside of the sphere by more than the rounding errors and the ray does not point towards the center, then the result is
NaN. -/
theorem C129_away {s : Flt P.fmt → Flt P.fmt} (hs : FaithfulSqrt P s) (r : Ray (Flt P.fmt) 3) (c : Vec (Flt P.fmt) 3) (R : Flt P.fmt) (X : ℚ)
    (h : SphOk r c R X) (hm : R.val ^ 2 + 450 * P.u * X ^ 2 < nsq (vval r.origin - vval c))
    (hb : 0 ≤ dot (vval r.origin - vval c) (vval r.direction)) : intersectRaySphereG s Flt.nan r c R = Flt.nan := by
  have fD := (disc h).1
  rcases lt_or_ge (fd r c R).val 0 with hD | hD
  · exact result_nan fD hD
  obtain ⟨⟨-, e1⟩, -⟩ := coeffs h
  obtain ⟨ρ, k⟩ := roots h hs hD
  obtain ⟨g1, g2⟩ := outside h hm k
  have k5 := abs_le.1 e1
  have hb' : 0 ≤ eb r c := hb
  have hp : 0 ≤ (fp r c).val := by
    by_contra hc
    push Not at hc
    rw [abs_of_neg hc] at g2
    have hup := P.u_pos
    have hX := h.hX
    have uX : 0 < P.u * X := by positivity
    linarith
  rw [abs_of_nonneg hp] at g1
  rw [result k.f0 k.f1 k.le fD hD, if_pos (k.neg0 g1)]

/-- If the origin is outside of the sphere, the ray points towards the center and the line meets the sphere, all by more than the rounding errors,
then there is a hit, and it is the entry: it is not behind the point of the line that is closest to the center. -/
theorem C129_entry {s : Flt P.fmt → Flt P.fmt} (hs : FaithfulSqrt P s) (r : Ray (Flt P.fmt) 3) (c : Vec (Flt P.fmt) 3) (R : Flt P.fmt) (X : ℚ)
    (h : SphOk r c R X) (hm : R.val ^ 2 + 450 * P.u * X ^ 2 < nsq (vval r.origin - vval c))
    (hb : dot (vval r.origin - vval c) (vval r.direction) < 0)
    (hl : nsq (vval r.origin - vval c) - dot (vval r.origin - vval c) (vval r.direction) ^ 2 + 250 * P.u * X ^ 2 ≤ R.val ^ 2) :
    (intersectRaySphereG s Flt.nan r c R).isFinite ∧ 0 < (intersectRaySphereG s Flt.nan r c R).val ∧
      (intersectRaySphereG s Flt.nan r c R).val ≤ -dot (vval r.origin - vval c) (vval r.direction) + 31 * P.u * X := by
  obtain ⟨fD, d1, -⟩ := disc h
  obtain ⟨⟨-, e1⟩, -⟩ := coeffs h
  have hD : 0 ≤ (fd r c R).val := by
    have k := abs_le.1 d1
    have h1 : eb r c = dot (vval r.origin - vval c) (vval r.direction) := rfl
    have h2 : eq r c R = nsq (vval r.origin - vval c) - R.val ^ 2 := rfl
    rw [← h1] at hl
    nlinarith
  obtain ⟨ρ, k⟩ := roots h hs hD
  obtain ⟨g1, g2⟩ := outside h hm k
  have k5 := abs_le.1 e1
  have hb' : eb r c < 0 := hb
  have hup := P.u_pos
  have hX := h.hX
  have uX : 0 < P.u * X := by positivity
  have hp : (fp r c).val ≤ 0 := by
    by_contra hc
    push Not at hc
    rw [abs_of_pos hc] at g2
    linarith
  rw [abs_of_nonpos hp] at g1
  have p1 := k.pos1 g1
  rw [result k.f0 k.f1 k.le fD hD, if_neg (by linarith [k.le]), if_pos p1]
  refine ⟨k.f1, p1, ?_⟩
  have k4 := abs_le.1 k.e1
  have k6 := k.ρ0
  show _ ≤ -eb r c + _
  linarith

/-- For arbitrary inputs and an arbitrary function in place of `sqrt`: a finite result is not negative. -/
theorem C129_nonneg (s : Flt P.fmt → Flt P.fmt) (r : Ray (Flt P.fmt) 3) (c : Vec (Flt P.fmt) 3) (R : Flt P.fmt)
    (h : (intersectRaySphereG s Flt.nan r c R).isFinite) : 0 ≤ (intersectRaySphereG s Flt.nan r c R).val := by
  rw [result_eq] at h ⊢
  have hn : ¬ (Flt.nan : Flt P.fmt).isFinite := fun h => h
  have key : (ft1 s r c R).isFinite → ft0 s r c R ≠ Flt.nan := by
    intro h1
    have a : (-fp r c - s (fd r c R)).isFinite := div_finite_left (Flt.two_eq P).1 h1
    unfold ft0
    generalize fp r c = p at *
    generalize s (fd r c R) = σ at *
    have h2 := (Flt.two_eq P).1
    obtain ⟨k2, e2⟩ := Flt.eq_fin h2
    rcases p with _ | _ | _ | ⟨p, hp⟩ <;> rcases σ with _ | _ | _ | ⟨σ, hσ⟩ <;> first | exact absurd a (fun h => h) | skip
    intro hc
    rw [e2] at hc
    have : ∀ q : ℚ, (Flt.round q : Flt P.fmt) / Flt.fin (2 : Flt P.fmt).val k2 ≠ Flt.nan := by
      intro q
      have hr := round_nn (P := P) q
      rcases e : (Flt.round q : Flt P.fmt) with _ | _ | _ | ⟨w, hw⟩
      · exact absurd e hr
      · show (if _ then _ else _) ≠ _
        rw [if_pos (by rw [(Flt.two_eq P).2]; norm_num)]; nofun
      · show (if _ then _ else _) ≠ _
        rw [if_pos (by rw [(Flt.two_eq P).2]; norm_num)]; nofun
      · show (if _ then _ else _) ≠ _
        rw [if_neg (by rw [(Flt.two_eq P).2]; norm_num)]
        exact round_nn _
    exact this _ hc
  have lt_zero : ∀ x : Flt P.fmt, x.isFinite → x.val < 0 → Cmp.lt x 0 = true := fun x hx h0 => by
    rw [lt_fin hx Flt.zero_finite, Flt.zero_val]; exact h0
  generalize ft0 s r c R = a at *
  generalize ft1 s r c R = b at *
  by_contra hc
  push Not at hc
  split_ifs at h hc with h1 h2 h3
  · exact hn h
  · exact hn h
  · -- the smaller of two positive numbers
    rw [Bool.and_eq_true] at h3
    simp only [vmin] at h hc
    split_ifs at h hc with h4
    · rw [lt_fin Flt.zero_finite h, Flt.zero_val] at h3; linarith [h3.1]
    · rw [lt_fin Flt.zero_finite h, Flt.zero_val] at h3; linarith [h3.2]
  · simp only [vmax] at h hc
    rw [Bool.and_eq_true] at h2
    split_ifs at h hc with h4
    · refine h2 ⟨lt_zero _ h hc, ?_⟩
      rcases b with _ | _ | _ | ⟨b, hb⟩
      · exact absurd h4 (by nofun)
      · rfl
      · obtain ⟨k2, e2⟩ := Flt.eq_fin h
        rw [e2] at h4
        exact absurd h4 (by nofun)
      · rw [lt_fin (x := Flt.fin b hb) trivial h] at h4
        exact lt_zero _ trivial (h4.trans hc)
    · have h5 := key h
      have h6 := lt_zero _ h hc
      rcases a with _ | _ | _ | ⟨a, ha⟩
      · exact h5 rfl
      · exact h2 ⟨rfl, h6⟩
      · obtain ⟨k2, e2⟩ := Flt.eq_fin h
        rw [e2] at h4
        exact h4 rfl
      · by_cases h7 : a < 0
        · exact h2 ⟨lt_zero _ trivial h7, h6⟩
        · refine h4 ?_
          rw [lt_fin (y := Flt.fin a ha) h trivial]
          exact lt_of_lt_of_le hc (not_lt.1 h7)

/-! ### Grids -/

/-- The format is accurate enough for spheres and rays parallel to an axis: the points and the radius are on the grid `2 ^ g`, at most `M` steps
from the origin. -/
structure SphGrid (P : BinPar) (g M : ℤ) : Prop where
  one_le : 1 ≤ M
  exact : 1024 * M ^ 2 < 2 ^ P.p
  ok1 : P.Ok g
  ok2 : P.Ok (g + g)
  low : P.qmin ≤ g - P.p

namespace FltSph
variable {r : Ray (Flt P.fmt) 3} {c : Vec (Flt P.fmt) 3} {R : Flt P.fmt} {s : Flt P.fmt → Flt P.fmt} {g M : ℤ}

theorem grid_coeffs (hg : SphGrid P g M) (ho : GridPt g M r.origin) (hc : GridPt g M c) (hR : OnGrid g M R) (hd : GridPt 0 1 r.direction) :
    ∃ zp zq zd : ℤ, Gr g (fp r c) zp (12 * M) ∧ Gr (g + g) (fd r c R) zd (196 * M ^ 2) ∧ zd = zp * zp - 4 * zq ∧
      2 * eb r c = zp * 2 ^ g ∧ eq r c R = zq * 2 ^ (g + g) := by
  have hM := hg.one_le
  have h2 := hg.exact
  have lin : ∀ k : ℤ, k ≤ 1024 → k * M < 2 ^ P.p := fun k hk => by nlinarith
  obtain ⟨w1, w2⟩ := FltTri.sub_grid ho hc hg.ok1 (by have := lin 2 (by norm_num); linarith)
  obtain ⟨x1, x2⟩ := FltTri.dot_grid w1 hd (by rw [add_zero]; exact hg.ok1) (by have := lin 6 (by norm_num); linarith)
  rw [add_zero] at x1
  obtain ⟨fx, zb, vb, lb⟩ := x1
  have gb : Gr g (dot (r.origin - c) r.direction) zb (6 * M) := ⟨fx, vb, lb.trans (by linarith)⟩
  have two : Gr 0 (2 : Flt P.fmt) 2 2 := ⟨(Flt.two_eq P).1, by rw [(Flt.two_eq P).2]; norm_num, by norm_num⟩
  have four : Gr 0 (4 : Flt P.fmt) 4 4 := ⟨(four_eq P).1, by rw [(four_eq P).2]; norm_num, by norm_num⟩
  have gp : Gr g (fp r c) (2 * zb) (12 * M) := ((two.mul gb (by rw [zero_add]; exact hg.ok1) (by have := lin 12 (by norm_num); linarith)).cast
    (zero_add g)).mono (by linarith)
  obtain ⟨y1, y2⟩ := FltTri.dot_grid w1 w1 hg.ok2 (by nlinarith)
  obtain ⟨fy, zy, vy, ly⟩ := y1
  have gy : Gr (g + g) (squaredLength (r.origin - c)) zy (12 * M ^ 2) := ⟨fy, vy, ly.trans (by nlinarith)⟩
  obtain ⟨fR, zR, vR, lR⟩ := hR
  have gR : Gr g R zR M := ⟨fR, vR, lR⟩
  have gRR := (gR.mul gR hg.ok2 (by nlinarith)).mono (B := M ^ 2) (by nlinarith)
  have gq : Gr (g + g) (fq r c R) (zy - zR * zR) (13 * M ^ 2) := (gy.sub gRR hg.ok2 (by nlinarith)).mono (by linarith)
  have gpp := (gp.mul gp hg.ok2 (by nlinarith)).mono (B := 144 * M ^ 2) (by nlinarith)
  have g4q := ((four.mul gq (by rw [zero_add]; exact hg.ok2) (by nlinarith)).cast (zero_add (g + g))).mono (B := 52 * M ^ 2) (by linarith)
  refine ⟨2 * zb, zy - zR * zR, _, gp, (gpp.sub g4q hg.ok2 (by nlinarith)).mono (by linarith), rfl, ?_, ?_⟩
  · unfold eb
    rw [← w2, ← x2, vb]; push_cast; ring
  · unfold eq
    have : nsq (vval r.origin - vval c) = (dot (r.origin - c) (r.origin - c)).val := by rw [y2, w2, dot3]; unfold nsq; ring
    rw [this, vy, vR, zpow_add₀ (by norm_num)]; push_cast; ring

/-- The roots are finite. -/
theorem grid_roots (hg : SphGrid P g M) (hs : FaithfulSqrt P s) {zp zd : ℤ} (gp : Gr g (fp r c) zp (12 * M)) (gd : Gr (g + g) (fd r c R) zd (196 * M ^ 2))
    (hD : 0 ≤ zd) : ∃ ρ : ℚ, P.Faithful (fd r c R).val ρ ∧ (ft0 s r c R).isFinite ∧ (ft1 s r c R).isFinite ∧
      (ft0 s r c R).val = P.fl (P.fl (-(fp r c).val + ρ) / 2) ∧ (ft1 s r c R).val = P.fl (P.fl (-(fp r c).val + -ρ) / 2) ∧
      (ft1 s r c R).val ≤ (ft0 s r c R).val := by
  have hM := hg.one_le
  have h2 := hg.exact
  have p2 : (0 : ℚ) < 2 ^ g := zpow_pos (by norm_num) _
  have hMq : (1 : ℚ) ≤ M := by exact_mod_cast hM
  have hD' : 0 ≤ (fd r c R).val := by
    rw [gd.val]
    have : (0 : ℚ) ≤ zd := by exact_mod_cast hD
    have : (0 : ℚ) < 2 ^ (g + g) := zpow_pos (by norm_num) _
    positivity
  obtain ⟨k1, k2⟩ := Flt.eq_fin gd.fin
  obtain ⟨ρ, hr, h3, h4⟩ := hs.fin _ k1 hD'
  have sD : s (fd r c R) = Flt.fin (F := P.fmt) ρ hr := by rw [k2]; exact h3
  have fr : (s (fd r c R)).isFinite := by rw [sD]; trivial
  have vr : (s (fd r c R)).val = ρ := by rw [sD]; rfl
  have hρ : ρ ≤ 14 * M * 2 ^ g := by
    by_contra hc
    push Not at hc
    have rep : P.fmt.rep (14 * M * 2 ^ g) := by
      have := Gr.round (P := P) (g := g) (z := 14 * M) (B := 14 * M) (q := 14 * M * 2 ^ g) hg.ok1 (by push_cast; ring) (by rw [abs_of_pos (by linarith)]) (by nlinarith)
      have h5 := Flt.rep_val (Flt.round (14 * M * 2 ^ g : ℚ) : Flt P.fmt)
      rw [this.val] at h5
      push_cast at h5
      exact h5
    have h6 := (h4.2 _ rep (by positivity)).1 hc
    rw [gd.val] at h6
    have h7 : (zd : ℚ) ≤ 196 * M ^ 2 := by exact_mod_cast (le_abs_self _).trans gd.le
    have h8 : (zd : ℚ) * 2 ^ (g + g) ≤ 196 * M ^ 2 * 2 ^ (g + g) := mul_le_mul_of_nonneg_right h7 (zpow_pos (by norm_num) _).le
    rw [zpow_add₀ (by norm_num)] at h6 h8
    nlinarith
  have hpz : |(fp r c).val| ≤ 12 * M * 2 ^ g := by
    rw [gp.val, abs_mul, abs_of_pos p2]
    refine mul_le_mul_of_nonneg_right ?_ p2.le
    exact_mod_cast gp.le
  have hbd : 2 * (26 * M * 2 ^ g) + 1 < P.bound := by
    have h5 : (1024 : ℚ) * M < 2 ^ P.p := by
      have : 1024 * M < 2 ^ P.p := by nlinarith
      exact_mod_cast this
    have h6 : (2 : ℚ) ^ g ≤ 2 ^ P.qmax := zpow_le_zpow_right₀ (by norm_num) hg.ok1.2
    have h7 : P.bound = 2 ^ P.p * 2 ^ P.qmax := by
      unfold BinPar.bound
      rw [zpow_add₀ (by norm_num), zpow_natCast]
    have h8 : (1 : ℚ) ≤ 2 ^ P.qmax := one_le_zpow₀ (by norm_num) (by have := P.hmax; omega)
    rw [h7]
    have h9 : (1024 : ℚ) * M * 2 ^ P.qmax < 2 ^ P.p * 2 ^ P.qmax := mul_lt_mul_of_pos_right h5 (by linarith)
    have h10 : (52 : ℚ) * M * 2 ^ g ≤ 52 * M * 2 ^ P.qmax := mul_le_mul_of_nonneg_left h6 (by linarith)
    have h11 : (1 : ℚ) ≤ M * 2 ^ P.qmax := one_le_mul_of_one_le_of_one_le hMq h8
    linarith
  have k := abs_le.1 hpz
  have hr0 := h4.1
  obtain ⟨a1, a2, -⟩ := half_sum (x := -fp r c) (y := s (fd r c R)) (C := 26 * M * 2 ^ g) (Flt.neg_finite.2 gp.fin) fr (by
    rw [Flt.neg_val, vr]; exact abs_le.2 ⟨by linarith, by linarith⟩) hbd P.u_le
  obtain ⟨b1, b2, -⟩ := half_sum (x := -fp r c) (y := -s (fd r c R)) (C := 26 * M * 2 ^ g) (Flt.neg_finite.2 gp.fin) (Flt.neg_finite.2 fr) (by
    rw [Flt.neg_val, Flt.neg_val, vr]; exact abs_le.2 ⟨by linarith, by linarith⟩) hbd P.u_le
  rw [Flt.neg_val, vr] at a2
  rw [Flt.neg_val, Flt.neg_val, vr] at b2
  refine ⟨ρ, h4, a1, b1, a2, b2, ?_⟩
  refine le_trans (le_of_eq b2) (le_trans ?_ (le_of_eq a2.symm))
  refine P.fl_mono ?_
  have := P.fl_mono (show -(fp r c).val + -ρ ≤ -(fp r c).val + ρ by linarith)
  linarith

theorem rep_pow (P : BinPar) {e : ℤ} (h : P.qmin ≤ e) : P.Rep (2 ^ e) := by
  have h1 : |(1 : ℤ)| < 2 ^ P.p := by
    have h8 : (2 : ℤ) ^ 3 ≤ 2 ^ P.p := pow_le_pow_right₀ (by norm_num) P.hp
    norm_num at h8 ⊢; linarith
  exact ⟨1, e, by rw [Int.cast_one, one_mul], h1, h⟩

theorem half_sign {e : ℤ} (h : P.qmin ≤ e - 1) {x : ℚ} : (0 ≤ x → 0 ≤ P.fl (P.fl x / 2)) ∧ (x ≤ 0 → P.fl (P.fl x / 2) ≤ 0) ∧
    (x ≤ -2 ^ e → P.fl (P.fl x / 2) < 0) := by
  refine ⟨fun h0 => P.fl_nonneg (div_nonneg (P.fl_nonneg h0) (by norm_num)), fun h0 => ?_, fun h0 => ?_⟩
  · have a : P.fl x ≤ 0 := P.fl_le_of_rep P.fmt.rep_zero.1 h0
    exact P.fl_le_of_rep P.fmt.rep_zero.1 (by linarith)
  · have a : P.fl x ≤ -2 ^ e := P.fl_le_of_rep (rep_pow P (by omega)).neg h0
    have e1 : (2 : ℚ) ^ e / 2 = 2 ^ (e - 1) := by rw [zpow_sub₀ (by norm_num), zpow_one]
    have := P.fl_le_of_rep (rep_pow P h).neg (x := P.fl x / 2) (by rw [← e1]; linarith)
    have : (0 : ℚ) < 2 ^ (e - 1) := zpow_pos (by norm_num) _
    linarith

/-- On a grid the result is NaN exactly if the discriminant is negative, or the origin is outside and the ray points away. -/
theorem grid_nan (hg : SphGrid P g M) (hs : FaithfulSqrt P s) {zp zq zd : ℤ} (gp : Gr g (fp r c) zp (12 * M))
    (gd : Gr (g + g) (fd r c R) zd (196 * M ^ 2)) (hd : zd = zp * zp - 4 * zq) :
    intersectRaySphereG s Flt.nan r c R = Flt.nan ↔ zd < 0 ∨ (0 < zq ∧ 0 ≤ zp) := by
  have hM := hg.one_le
  have h2 := hg.exact
  have p2 : (0 : ℚ) < 2 ^ g := zpow_pos (by norm_num) _
  have p22 : (0 : ℚ) < 2 ^ (g + g) := zpow_pos (by norm_num) _
  have dneg : (fd r c R).val < 0 ↔ zd < 0 := by
    rw [gd.val]
    constructor
    · intro h
      by_contra hc
      push Not at hc
      have : (0 : ℚ) ≤ zd := by exact_mod_cast hc
      have : 0 ≤ (zd : ℚ) * 2 ^ (g + g) := by positivity
      linarith
    · intro h
      have : (zd : ℚ) < 0 := by exact_mod_cast h
      exact mul_neg_of_neg_of_pos this p22
  rcases lt_or_ge zd 0 with hD | hD
  · exact ⟨fun _ => Or.inl hD, fun _ => result_nan gd.fin (dneg.2 hD)⟩
  have hD' : 0 ≤ (fd r c R).val := not_lt.1 fun h => absurd (dneg.1 h) (not_lt.2 hD)
  obtain ⟨ρ, hρ, f0, f1, v0, v1, le⟩ := grid_roots hg hs gp gd hD
  rw [result f0 f1 le gd.fin hD']
  -- the step below the linear coefficient
  obtain ⟨j, j1, j2⟩ : ∃ j : ℕ, 8 * M ≤ 2 ^ j ∧ (2 : ℤ) ^ j < 16 * M := by
    obtain ⟨n, hn⟩ : ∃ n : ℕ, (n : ℤ) = 8 * M := ⟨(8 * M).toNat, Int.toNat_of_nonneg (by linarith)⟩
    have hn0 : n ≠ 0 := by rintro rfl; push_cast at hn; linarith
    refine ⟨Nat.clog 2 n, ?_, ?_⟩
    · rw [← hn]
      exact_mod_cast Nat.le_pow_clog (by norm_num) n
    · have h1 : 1 < n := by
        have : (1 : ℤ) < n := by rw [hn]; linarith
        exact_mod_cast this
      have := Nat.pow_pred_clog_lt_self (b := 2) (by norm_num) h1
      have hc : 1 ≤ Nat.clog 2 n := Nat.clog_pos (by norm_num) (by omega)
      have e : Nat.clog 2 n = (Nat.clog 2 n).pred + 1 := by have := Nat.succ_pred_eq_of_pos hc; omega
      have h3 : (2 : ℤ) ^ (Nat.clog 2 n).pred < n := by exact_mod_cast this
      rw [e, pow_succ]; linarith
  have jp : j + 1 ≤ P.p := by
    have : (2 : ℤ) ^ (j + 1) < 2 ^ P.p := by rw [pow_succ]; nlinarith
    exact (Nat.pow_lt_pow_iff_right (a := 2) (by norm_num)).1 (by exact_mod_cast this) |>.le
  have ok : P.qmin ≤ g - j - 1 := by have := hg.low; omega
  obtain ⟨s1, s2, s3⟩ := half_sign (P := P) (e := g - j) ok (x := -(fp r c).val + ρ)
  rw [← v0] at s1 s2 s3
  have e0 : 0 ≤ (ft0 s r c R).val → ((if (ft0 s r c R).val < 0 then Flt.nan else if 0 < (ft1 s r c R).val then ft1 s r c R else ft0 s r c R) =
      Flt.nan → False) := by
    intro h h'
    rw [if_neg (not_lt.2 h)] at h'
    split_ifs at h' with h1
    · rw [h'] at f1; exact f1
    · rw [h'] at f0; exact f0
  have hzp : (fp r c).val = zp * 2 ^ g := gp.val
  by_cases hq : 0 < zq ∧ 0 ≤ zp
  · refine ⟨fun _ => Or.inr hq, fun _ => if_pos (s3 ?_)⟩
    -- the number below the linear coefficient
    have hz0 : 0 < zp := by
      rcases hq.2.lt_or_eq with h | h
      · exact h
      · rw [← h] at hd; linarith [hq.1]
    have rep : P.fmt.rep ((zp * 2 ^ j - 1) * 2 ^ (g - j)) := by
      have hz := (le_abs_self _).trans gp.le
      have hj : (0 : ℤ) < 2 ^ j := by positivity
      have := Gr.round (P := P) (g := g - j) (z := zp * 2 ^ j - 1) (B := 192 * M ^ 2) (q := (zp * 2 ^ j - 1) * 2 ^ (g - j))
        ⟨by omega, by have := hg.ok1.2; omega⟩ (by push_cast; ring) (abs_le.2 ⟨by nlinarith, by nlinarith⟩) (by nlinarith)
      have h5 := Flt.rep_val (Flt.round ((zp * 2 ^ j - 1) * 2 ^ (g - j) : ℚ) : Flt P.fmt)
      rw [this.val] at h5
      push_cast at h5
      exact h5
    have ej : (2 : ℚ) ^ g = 2 ^ j * 2 ^ (g - j) := by
      rw [← zpow_natCast, ← zpow_add₀ (by norm_num)]; congr 1; ring
    have pj : (0 : ℚ) < 2 ^ (g - j) := zpow_pos (by norm_num) _
    have w : ((zp : ℚ) * 2 ^ j - 1) * 2 ^ (g - j) = zp * 2 ^ g - 2 ^ (g - j) := by rw [ej]; ring
    have hj1 : (1 : ℚ) ≤ 2 ^ j := one_le_pow₀ (by norm_num)
    have hzq : (1 : ℚ) ≤ zp := by exact_mod_cast hz0
    have y0 : 0 ≤ ((zp : ℚ) * 2 ^ j - 1) * 2 ^ (g - j) := mul_nonneg (by nlinarith) pj.le
    by_contra hc
    push Not at hc
    have h5 := (hρ.2 _ rep y0).1 (by rw [w]; linarith)
    rw [gd.val] at h5
    have h6 : (zd : ℚ) ≤ zp * zp - 4 := by
      have : zd ≤ zp * zp - 4 := by linarith [hq.1]
      exact_mod_cast this
    have h7 : (zd : ℚ) * 2 ^ (g + g) ≤ (zp * zp - 4) * 2 ^ (g + g) := mul_le_mul_of_nonneg_right h6 p22.le
    have e2 : (2 : ℚ) ^ (g + g) = (2 ^ j * 2 ^ (g - j)) ^ 2 := by rw [← ej, zpow_add₀ (by norm_num)]; ring
    rw [e2] at h5 h7
    generalize (2 : ℚ) ^ (g - j) = ω at *
    have h8 : (((zp : ℚ) * 2 ^ j - 1) * ((zp : ℚ) * 2 ^ j - 1)) * (ω * ω) < (zp * zp - 4) * (2 ^ j) ^ 2 * (ω * ω) := by nlinarith
    have h9 := lt_of_mul_lt_mul_right h8 (by positivity)
    have h10 : (zp : ℚ) ≤ 12 * M := by exact_mod_cast (le_abs_self _).trans gp.le
    have h11 : (8 : ℚ) * M ≤ 2 ^ j := by exact_mod_cast j1
    nlinarith
  · constructor
    · intro h
      exfalso
      refine e0 (s1 ?_) h
      rw [hzp]
      by_cases hp : 0 ≤ zp
      · have hq0 : zq ≤ 0 := by by_contra hc; exact hq ⟨by linarith, hp⟩
        by_contra hc
        push Not at hc
        have h5 := (hρ.2 (zp * 2 ^ g) (by have := Flt.rep_val (fp r c); rwa [hzp] at this) (by
          have : (0 : ℚ) ≤ zp := by exact_mod_cast hp
          positivity)).2 (by linarith)
        rw [gd.val, zpow_add₀ (by norm_num)] at h5
        have h6 : (zp * zp : ℚ) ≤ zd := by
          have : zp * zp ≤ zd := by linarith
          exact_mod_cast this
        nlinarith [mul_le_mul_of_nonneg_right h6 (mul_pos p2 p2).le]
      · have : (zp : ℚ) * 2 ^ g ≤ 0 := mul_nonpos_of_nonpos_of_nonneg (by push Not at hp; exact_mod_cast hp.le) p2.le
        have := hρ.1
        linarith
    · rintro (h | h)
      · linarith
      · exact absurd h hq

end FltSph

namespace FltSph

/-- A quadratic equation with leading coefficient 1 has a root that is not negative. -/
theorem quad_real (p q : ℝ) : (∃ t : ℝ, 0 ≤ t ∧ t ^ 2 + p * t + q = 0) ↔ ¬ (p * p - 4 * q < 0 ∨ (0 < q ∧ 0 ≤ p)) := by
  constructor
  · rintro ⟨t, h0, h⟩ (h1 | ⟨h1, h2⟩)
    · nlinarith [sq_nonneg (2 * t + p)]
    · nlinarith [mul_nonneg h2 h0]
  · intro h
    push Not at h
    obtain ⟨h1, h2⟩ := h
    set w := Real.sqrt (p * p - 4 * q) with hw
    have w0 : 0 ≤ w := Real.sqrt_nonneg _
    have ww : w * w = p * p - 4 * q := Real.mul_self_sqrt h1
    refine ⟨(-p + w) / 2, ?_, by linear_combination (1 / 4 : ℝ) * ww⟩
    rcases lt_or_ge p 0 with hp | hp
    · linarith
    · have hq : q ≤ 0 := by by_contra hc; push Not at hc; linarith [h2 hc]
      have : p ≤ w := by
        rw [hw]
        exact Real.le_sqrt_of_sq_le (by nlinarith)
      linarith

/-- The squared distance along the line over the real numbers. -/
theorem along_real (r : Ray (Flt P.fmt) 3) (c : Vec (Flt P.fmt) 3) (R : Flt P.fmt) (hn : nsq (vval r.direction) = 1) (t : ℝ) :
    nsq (offsetAt (fun i => ((r.origin i).val : ℝ)) (fun i => ((r.direction i).val : ℝ)) (fun i => ((c i).val : ℝ)) t) = (R.val : ℝ) ^ 2 ↔
      t ^ 2 + ((2 * eb r c : ℚ) : ℝ) * t + ((eq r c R : ℚ) : ℝ) = 0 := by
  have hn' : ((nsq (vval r.direction) : ℚ) : ℝ) = 1 := by rw [hn]; norm_num
  unfold eb eq
  unfold nsq at hn'
  unfold nsq offsetAt
  rw [dot3]
  simp only [Pi.sub_apply, vval] at hn' ⊢
  push_cast at hn' ⊢
  constructor
  · intro h; linear_combination h - t ^ 2 * hn'
  · intro h; linear_combination h + t ^ 2 * hn'

end FltSph

/-- On a grid, for a ray parallel to an axis: the result is NaN exactly if the ray does not meet the sphere. -/
theorem C129_grid {g M : ℤ} (hg : SphGrid P g M) {s : Flt P.fmt → Flt P.fmt} (hs : FaithfulSqrt P s) (r : Ray (Flt P.fmt) 3)
    (c : Vec (Flt P.fmt) 3) (R : Flt P.fmt) (ho : GridPt g M r.origin) (hc : GridPt g M c) (hR : OnGrid g M R) (hd : GridPt 0 1 r.direction)
    (hn : nsq (vval r.direction) = 1) :
    intersectRaySphereG s Flt.nan r c R = Flt.nan ↔ ¬ ∃ t : ℝ, 0 ≤ t ∧
      nsq (offsetAt (fun i => ((r.origin i).val : ℝ)) (fun i => ((r.direction i).val : ℝ)) (fun i => ((c i).val : ℝ)) t) = (R.val : ℝ) ^ 2 := by
  obtain ⟨zp, zq, zd, gp, gd, e1, e2, e3⟩ := grid_coeffs hg ho hc hR hd
  rw [grid_nan hg hs gp gd e1]
  simp only [along_real r c R hn]
  rw [quad_real, not_not, e2, e3, zpow_add₀ (by norm_num)]
  have p2 : (0 : ℝ) < 2 ^ g := zpow_pos (by norm_num) _
  push_cast
  have a1 : zd < 0 ↔ ((zp : ℝ) * 2 ^ g) * ((zp : ℝ) * 2 ^ g) - 4 * ((zq : ℝ) * (2 ^ g * 2 ^ g)) < 0 := by
    have : ((zp : ℝ) * 2 ^ g) * ((zp : ℝ) * 2 ^ g) - 4 * ((zq : ℝ) * (2 ^ g * 2 ^ g)) = zd * (2 ^ g * 2 ^ g) := by rw [e1]; push_cast; ring
    rw [this, mul_neg_iff]
    constructor
    · intro h; exact Or.inr ⟨by exact_mod_cast h, by positivity⟩
    · rintro (⟨-, h⟩ | ⟨h, -⟩)
      · linarith [mul_pos p2 p2]
      · exact_mod_cast h
  have a2 : 0 < zq ↔ 0 < (zq : ℝ) * (2 ^ g * 2 ^ g) := by
    rw [mul_pos_iff_of_pos_right (by positivity)]; norm_num
  have a3 : 0 ≤ zp ↔ 0 ≤ (zp : ℝ) * 2 ^ g := by
    rw [mul_nonneg_iff_of_pos_right p2]; norm_num
  rw [a1, a2, a3]

/-- On a grid, for a ray parallel to an axis: if the first point in front of the origin where the ray meets the sphere (or the origin, if there is
no such point) has a distance on the grid, then the result is exactly this distance. -/
theorem C129_grid_exact {g M : ℤ} (hg : SphGrid P g M) {s : Flt P.fmt → Flt P.fmt} (hs : FaithfulSqrt P s) (r : Ray (Flt P.fmt) 3)
    (c : Vec (Flt P.fmt) 3) (R : Flt P.fmt) (ho : GridPt g M r.origin) (hc : GridPt g M c) (hR : OnGrid g M R) (hd : GridPt 0 1 r.direction)
    (hn : nsq (vval r.direction) = 1) (k : ℤ) (t : ℚ) (ht : t = k * 2 ^ g) (ht0 : 0 ≤ t)
    (hit : nsq (offsetAt (vval r.origin) (vval r.direction) (vval c) t) = R.val ^ 2)
    (first : ∀ t', 0 < t' → nsq (offsetAt (vval r.origin) (vval r.direction) (vval c) t') = R.val ^ 2 → 0 < t ∧ t ≤ t') :
    (intersectRaySphereG s Flt.nan r c R).isFinite ∧ (intersectRaySphereG s Flt.nan r c R).val = t := by
  have hM := hg.one_le
  have h2 := hg.exact
  obtain ⟨zp, zq, zd, gp, gd, e1, e2, e3⟩ := grid_coeffs hg ho hc hR hd
  have p2 : (0 : ℚ) < 2 ^ g := zpow_pos (by norm_num) _
  have on : ∀ x, nsq (offsetAt (vval r.origin) (vval r.direction) (vval c) x) = R.val ^ 2 ↔ x ^ 2 + 2 * x * eb r c + eq r c R = 0 := by
    intro x
    have := along r c R x
    rw [hn] at this
    constructor <;> intro h <;> linarith
  rw [on] at hit
  have rel : zd = (2 * k + zp) * (2 * k + zp) := by
    have h3 : ((zd : ℚ) - (2 * k + zp) * (2 * k + zp)) * (2 ^ g * 2 ^ g) = 0 := by
      rw [ht, e3, zpow_add₀ (by norm_num)] at hit
      rw [e1]
      push_cast
      linear_combination (-4) * hit + 4 * (k : ℚ) * 2 ^ g * e2
    have h4 : (zd : ℚ) - (2 * k + zp) * (2 * k + zp) = 0 := (mul_eq_zero.1 h3).resolve_right (by positivity)
    have h5 : (zd : ℚ) = (2 * k + zp) * (2 * k + zp) := by linarith
    exact_mod_cast h5
  have hD : 0 ≤ zd := by rw [rel]; exact mul_self_nonneg _
  have hD' : 0 ≤ (fd r c R).val := by
    rw [gd.val]
    have : (0 : ℚ) ≤ zd := by exact_mod_cast hD
    have : (0 : ℚ) < 2 ^ (g + g) := zpow_pos (by norm_num) _
    positivity
  obtain ⟨m, hm⟩ : ∃ m, m = |2 * k + zp| := ⟨_, rfl⟩
  have hm0 : 0 ≤ m := by rw [hm]; exact abs_nonneg _
  have hmm : zd = m * m := by rw [rel, hm, abs_mul_abs_self]
  have hmM : m ≤ 14 * M := by
    have := (le_abs_self _).trans gd.le
    nlinarith
  have gm : Gr g (s (fd r c R)) m (14 * M) := by
    have k1 := Gr.round (P := P) (g := g) (z := m) (B := 14 * M) (q := m * 2 ^ g) hg.ok1 rfl (by rw [abs_of_nonneg hm0]; exact hmM) (by nlinarith)
    have h5 := Flt.rep_val (Flt.round (m * 2 ^ g : ℚ) : Flt P.fmt)
    rw [k1.val] at h5
    have hmq : (0 : ℚ) ≤ m := by exact_mod_cast hm0
    have := FltQuad.sqrt_exact hs gd.fin h5 (by positivity) (by rw [gd.val, hmm, zpow_add₀ (by norm_num)]; push_cast; ring)
    rw [this]
    exact ⟨trivial, rfl, by rw [abs_of_nonneg hm0]; exact hmM⟩
  have lin : ∀ k : ℤ, k ≤ 1024 → k * M < 2 ^ P.p := fun k hk => by nlinarith
  have half : ∀ (x : Flt P.fmt) (z : ℤ), Gr g x (2 * z) (26 * M) → (x / 2).isFinite ∧ (x / 2).val = z * 2 ^ g := by
    intro x z hx
    have := FltQuad.gr_div (P := P) (g := g) (z := z) (B := 26 * M) hx.fin ⟨(Flt.two_eq P).1, by rw [(Flt.two_eq P).2]; norm_num⟩
      (by rw [hx.val, (Flt.two_eq P).2]; push_cast; ring) hg.ok1 (by
        have := hx.le
        rw [abs_mul] at this
        rw [show |(2 : ℤ)| = 2 from by norm_num] at this
        have := abs_nonneg z
        linarith) (by have := lin 26 (by norm_num); linarith)
    exact ⟨this.fin, this.val⟩
  have n0 := gp.neg
  have ga := (n0.add gm hg.ok1 (by have := lin 26 (by norm_num); linarith)).mono (B := 26 * M) (by linarith)
  have gb := (n0.sub gm hg.ok1 (by have := lin 26 (by norm_num); linarith)).mono (B := 26 * M) (by linarith)
  -- the two roots
  obtain ⟨a, b, ha, hb, hab, hk⟩ : ∃ a b : ℤ, -zp + m = 2 * a ∧ -zp - m = 2 * b ∧ a + b = -zp ∧ (k = a ∨ k = b) := by
    rcases abs_choice (2 * k + zp) with h | h
    · refine ⟨k, -zp - k, ?_, ?_, by ring, Or.inl rfl⟩ <;> rw [hm, h] <;> ring
    · refine ⟨-zp - k, k, ?_, ?_, by ring, Or.inr rfl⟩ <;> rw [hm, h] <;> ring
  rw [ha] at ga
  rw [hb] at gb
  obtain ⟨f0, v0⟩ := half _ _ ga
  obtain ⟨f1, v1⟩ := half _ _ gb
  change (ft0 s r c R).isFinite at f0
  change (ft0 s r c R).val = _ at v0
  change (ft1 s r c R).isFinite at f1
  change (ft1 s r c R).val = _ at v1
  have hba : b ≤ a := by linarith
  have hba' : (b : ℚ) * 2 ^ g ≤ a * 2 ^ g := mul_le_mul_of_nonneg_right (by exact_mod_cast hba) p2.le
  have roots : ∀ z : ℤ, z = a ∨ z = b → nsq (offsetAt (vval r.origin) (vval r.direction) (vval c) (z * 2 ^ g)) = R.val ^ 2 := by
    intro z hz
    rw [on]
    have h3 : z * z + z * zp + zq = 0 := by
      have h4 : 4 * (z * z + z * zp + zq) = (2 * z + zp) * (2 * z + zp) - zd := by rw [e1]; ring
      have h5 : (2 * z + zp) * (2 * z + zp) = m * m := by
        rcases hz with rfl | rfl
        · have : 2 * z + zp = m := by linarith
          rw [this]
        · have : 2 * z + zp = -m := by linarith
          rw [this]; ring
      rw [h5, hmm] at h4
      linarith
    have h6 : ((z * z + z * zp + zq : ℤ) : ℚ) = 0 := by rw [h3]; norm_num
    push_cast at h6
    rw [e3, zpow_add₀ (by norm_num)]
    linear_combination (2 ^ g * 2 ^ g) * h6 + (z : ℚ) * 2 ^ g * e2
  rw [result f0 f1 (by rw [v0, v1]; exact hba') gd.fin hD']
  have ht2 : t = a * 2 ^ g ∨ t = b * 2 ^ g := by
    rw [ht]
    rcases hk with rfl | rfl
    · exact Or.inl rfl
    · exact Or.inr rfl
  rw [if_neg (by rw [v0]; rcases ht2 with h | h <;> linarith)]
  by_cases hb0 : 0 < (b : ℚ) * 2 ^ g
  · rw [if_pos (by rw [v1]; exact hb0)]
    refine ⟨f1, ?_⟩
    rw [v1]
    have := (first _ hb0 (roots b (Or.inr rfl))).2
    rcases ht2 with h | h <;> linarith
  · rw [if_neg (by rw [v1]; exact hb0)]
    refine ⟨f0, ?_⟩
    rw [v0]
    rcases ht2 with h | h
    · exact h.symm
    · rcases lt_or_ge 0 ((a : ℚ) * 2 ^ g) with h3 | h3
      · have := (first _ h3 (roots a (Or.inl rfl))).1
        linarith
      · linarith

namespace FltSph

theorem pow63 : binary32.fmt.rep (2 ^ 63) ∧ binary32.fmt.rep (2 ^ 62) := by
  constructor
  · have := Gr.round (P := binary32) (g := 63) (z := 1) (B := 1) (q := 2 ^ 63) (by norm_num [BinPar.Ok, binary32]) (by norm_num) (by norm_num) (by norm_num [binary32])
    have h := Flt.rep_val (Flt.round (2 ^ 63 : ℚ) : Flt binary32.fmt)
    rw [this.val] at h
    norm_num at h ⊢
    exact h
  · have := Gr.round (P := binary32) (g := 62) (z := 1) (B := 1) (q := 2 ^ 62) (by norm_num [BinPar.Ok, binary32]) (by norm_num) (by norm_num) (by norm_num [binary32])
    have h := Flt.rep_val (Flt.round (2 ^ 62 : ℚ) : Flt binary32.fmt)
    rw [this.val] at h
    norm_num at h ⊢
    exact h

end FltSph

/-- The square of the linear coefficient overflows long before the result: in single precision the distance of a sphere with radius 2^62 whose
center is 2^63 away is infinite, although the ray meets the sphere at distance 2^62. -/
theorem C129_overflow_fails {s : Flt binary32.fmt → Flt binary32.fmt} (hs : FaithfulSqrt binary32 s) :
    ∃ (r : Ray (Flt binary32.fmt) 3) (c : Vec (Flt binary32.fmt) 3) (R : Flt binary32.fmt), vval r.origin = ![0, 0, 0] ∧
      vval r.direction = ![1, 0, 0] ∧ vval c = ![2 ^ 63, 0, 0] ∧ R.isFinite ∧ R.val = 2 ^ 62 ∧
      nsq (offsetAt (vval r.origin) (vval r.direction) (vval c) (2 ^ 62)) = R.val ^ 2 ∧ intersectRaySphereG s Flt.nan r c R = Flt.pinf := by
  set m : Flt binary32.fmt := Flt.fin (2 ^ 63) pow63.1 with hm
  set w : Flt binary32.fmt := Flt.fin (2 ^ 62) pow63.2 with hw
  have mf : m.isFinite := trivial
  have nf : (-m).isFinite := Flt.neg_finite.2 mf
  have wf : w.isFinite := trivial
  have z : (0 : Flt binary32.fmt).isFinite := Flt.zero_finite
  have z0 : (0 : Flt binary32.fmt) * 0 = 0 := Flt.mul_zero_fin z
  have e1 : (![0, 0, 0] : Vec (Flt binary32.fmt) 3) - ![m, 0, 0] = ![-m, 0, 0] := by
    funext i
    fin_cases i
    · exact Flt.zero_add' _
    · exact Flt.sub_zero' _
    · exact Flt.sub_zero' _
  have gn : Gr 52 (-m) (-2 ^ 11) (2 ^ 11) := ⟨nf, by rw [Flt.neg_val]; show -(2 ^ 63 : ℚ) = _; norm_num, by norm_num⟩
  have gw : Gr 52 w (2 ^ 10) (2 ^ 10) := ⟨wf, by show (2 ^ 62 : ℚ) = _; norm_num, by norm_num⟩
  have two : Gr 0 (2 : Flt binary32.fmt) 2 2 := ⟨(Flt.two_eq _).1, by rw [(Flt.two_eq _).2]; norm_num, by norm_num⟩
  have four : Gr 0 (4 : Flt binary32.fmt) 4 4 := ⟨(four_eq _).1, by rw [(four_eq _).2]; norm_num, by norm_num⟩
  have ok : binary32.Ok (52 + 52) := by norm_num [BinPar.Ok, binary32]
  have ok' : binary32.Ok (0 + (52 + 52)) := by norm_num [BinPar.Ok, binary32]
  have e2 : dot (![-m, 0, 0] : Vec (Flt binary32.fmt) 3) ![1, 0, 0] = -m := by
    show ((0 : Flt binary32.fmt) + -m * 1 + 0 * 0 + 0 * 0) = -m
    rw [z0, Flt.mul_one', Flt.add_zero', Flt.add_zero', Flt.zero_add']
  have e3 : squaredLength (![-m, 0, 0] : Vec (Flt binary32.fmt) 3) = -m * -m := by
    show ((0 : Flt binary32.fmt) + -m * -m + 0 * 0 + 0 * 0) = -m * -m
    rw [z0, Flt.add_zero', Flt.add_zero', Flt.zero_add']
  have gp := two.mul gn (by norm_num [BinPar.Ok, binary32]) (by norm_num [binary32])
  have gq := ((gn.mul gn ok (by norm_num [binary32])).sub (gw.mul gw ok (by norm_num [binary32])) ok (by norm_num [binary32]))
  have g4 := four.mul (⟨gq.fin, gq.val, by norm_num⟩ : Gr (52 + 52) _ _ (3 * 2 ^ 20)) ok' (by norm_num [binary32])
  refine ⟨⟨![0, 0, 0], ![1, 0, 0]⟩, ![m, 0, 0], w, ?_, ?_, ?_, wf, rfl, ?_, ?_⟩
  · funext i; fin_cases i <;> exact Flt.zero_val
  · funext i
    fin_cases i
    · exact Flt.one_val
    · exact Flt.zero_val
    · exact Flt.zero_val
  · funext i
    fin_cases i
    · rfl
    · exact Flt.zero_val
    · exact Flt.zero_val
  · show ((0 : Flt binary32.fmt).val + 2 ^ 62 * (1 : Flt binary32.fmt).val - 2 ^ 63) ^ 2 +
      ((0 : Flt binary32.fmt).val + 2 ^ 62 * (0 : Flt binary32.fmt).val - (0 : Flt binary32.fmt).val) ^ 2 +
      ((0 : Flt binary32.fmt).val + 2 ^ 62 * (0 : Flt binary32.fmt).val - (0 : Flt binary32.fmt).val) ^ 2 = (2 ^ 62 : ℚ) ^ 2
    rw [Flt.zero_val, Flt.one_val]
    norm_num
  · have o : (2 * -m) * (2 * -m) = (Flt.pinf : Flt binary32.fmt) := by
      rw [Flt.mul_eq gp.fin gp.fin, gp.val]
      refine round_over ?_
      norm_num [BinPar.bound, binary32]
    unfold intersectRaySphereG
    simp only []
    rw [e1, e2, e3, o]
    obtain ⟨k1, h1⟩ := Flt.eq_fin g4.fin
    obtain ⟨k2, h2⟩ := Flt.eq_fin gp.fin
    obtain ⟨k3, h3⟩ := Flt.eq_fin (Flt.two_eq binary32).1
    have d : (Flt.pinf : Flt binary32.fmt) - 4 * (-m * -m - w * w) = Flt.pinf := by rw [h1]; rfl
    rw [d, hs.pinf]
    have a0 : (-(2 * -m) + Flt.pinf : Flt binary32.fmt) = Flt.pinf := by rw [h2]; rfl
    have a1 : (-(2 * -m) - Flt.pinf : Flt binary32.fmt) = Flt.ninf := by rw [h2]; rfl
    have b0 : (Flt.pinf : Flt binary32.fmt) / 2 = Flt.pinf := by
      rw [h3]
      show (if _ then _ else _) = _
      rw [if_pos (by rw [(Flt.two_eq _).2]; norm_num)]
    have b1 : (Flt.ninf : Flt binary32.fmt) / 2 = Flt.ninf := by
      rw [h3]
      show (if _ then _ else _) = _
      rw [if_pos (by rw [(Flt.two_eq _).2]; norm_num)]
    rw [a0, a1, b0, b1]
    rfl

/-! ### Non-vacuity -/

namespace FltSph

/-- Integers in single precision, with a direction that is not quite normalised. -/
theorem ok32 : ∃ (o D : Vec (Flt binary32.fmt) 3) (R : Flt binary32.fmt), vval o = (fun _ => 0) ∧ vval D = ![6 / 8, 5 / 8, 2 / 8] ∧ R.val = 10 ∧
    ∀ z : Fin 3 → ℤ, (∀ i, |z i| ≤ 2 ^ 10) → vval (intVec binary32 z) = (fun i => (z i : ℚ)) ∧ SphOk ⟨o, D⟩ (intVec binary32 z) R (2 ^ 10) := by
  have g1 := gr_int (S := 3) (P := binary32) (fun _ => 0 : Fin 3 → ℤ) (M := 2 ^ 10) (fun i => by norm_num) (by norm_num [binary32])
  have d : ∀ z : ℤ, |z| ≤ 8 → Gr (-3) (Flt.round (z / 8) : Flt binary32.fmt) z 8 := fun z hz =>
    Gr.round (by norm_num [BinPar.Ok, binary32]) (by rw [div_eq_mul_inv]; norm_num) hz (by norm_num [binary32])
  have gR : Gr 0 (Flt.round 10 : Flt binary32.fmt) 10 10 := Gr.round binary32.ok_zero (by norm_num) (by norm_num) (by norm_num [binary32])
  set D : Vec (Flt binary32.fmt) 3 := ![Flt.round ((6 : ℤ) / 8), Flt.round ((5 : ℤ) / 8), Flt.round ((2 : ℤ) / 8)] with hD
  have vD : vval D = ![6 / 8, 5 / 8, 2 / 8] := by
    funext i
    fin_cases i
    · show Flt.val (Flt.round ((6 : ℤ) / 8) : Flt binary32.fmt) = 6 / 8
      rw [(d 6 (by norm_num)).val]; norm_num
    · show Flt.val (Flt.round ((5 : ℤ) / 8) : Flt binary32.fmt) = 5 / 8
      rw [(d 5 (by norm_num)).val]; norm_num
    · show Flt.val (Flt.round ((2 : ℤ) / 8) : Flt binary32.fmt) = 2 / 8
      rw [(d 2 (by norm_num)).val]; norm_num
  have vo : vval (intVec binary32 (fun _ => 0)) = (fun _ : Fin 3 => (0 : ℚ)) := by rw [int_val g1]; simp
  refine ⟨intVec binary32 (fun _ => 0), D, Flt.round 10, vo, vD, by rw [gR.val]; norm_num, fun z hz => ?_⟩
  have g2 := gr_int (S := 3) (P := binary32) z (M := 2 ^ 10) hz (by norm_num [binary32])
  refine ⟨int_val g2, ⟨u32, by norm_num, bound32, fun i => ?_, fun i => ?_, ?_, fun i => ?_, ?_⟩⟩
  · have := int_le g1 i; push_cast at this; exact this
  · have := int_le g2 i; push_cast at this; exact this
  · refine ⟨gR.fin, ?_⟩
    rw [gR.val]; norm_num
  · fin_cases i
    · exact (d 6 (by norm_num)).fin
    · exact (d 5 (by norm_num)).fin
    · exact (d 2 (by norm_num)).fin
  · show |nsq (vval D) - 1| ≤ _
    rw [vD, nsq3, abs_le]
    norm_num

end FltSph

/-- The hypotheses of `C129_hit`, `C129_miss`, `C129_inside`, `C129_away` and `C129_entry` hold in single precision for spheres with radius 10. -/
example : ∃ (r : Ray (Flt binary32.fmt) 3) (R : Flt binary32.fmt),
    (∃ c, SphOk r c R (2 ^ 10) ∧ R.val ^ 2 + 250 * binary32.u * (2 ^ 10) ^ 2 <
      nsq (vval r.origin - vval c) - dot (vval r.origin - vval c) (vval r.direction) ^ 2) ∧
    (∃ c, SphOk r c R (2 ^ 10) ∧ nsq (vval r.origin - vval c) + 450 * binary32.u * (2 ^ 10) ^ 2 < R.val ^ 2) ∧
    (∃ c, SphOk r c R (2 ^ 10) ∧ R.val ^ 2 + 450 * binary32.u * (2 ^ 10) ^ 2 < nsq (vval r.origin - vval c) ∧
      0 ≤ dot (vval r.origin - vval c) (vval r.direction)) ∧
    ∃ c, SphOk r c R (2 ^ 10) ∧ R.val ^ 2 + 450 * binary32.u * (2 ^ 10) ^ 2 < nsq (vval r.origin - vval c) ∧
      dot (vval r.origin - vval c) (vval r.direction) < 0 ∧
      nsq (vval r.origin - vval c) - dot (vval r.origin - vval c) (vval r.direction) ^ 2 + 250 * binary32.u * (2 ^ 10) ^ 2 ≤ R.val ^ 2 := by
  obtain ⟨o, D, R, ho, hD, hR, h⟩ := ok32
  have u : binary32.u = 1 / 2 ^ 24 := by norm_num [BinPar.u, binary32]
  refine ⟨⟨o, D⟩, R, ⟨intVec binary32 ![100, -100, 0], ?_⟩, ⟨intVec binary32 ![1, 2, 3], ?_⟩, ⟨intVec binary32 ![-60, -50, -20], ?_⟩,
    ⟨intVec binary32 ![60, 50, 20], ?_⟩⟩
  · obtain ⟨h1, h2⟩ := h ![100, -100, 0] (fun i => by fin_cases i <;> norm_num)
    refine ⟨h2, ?_⟩
    rw [h1, hR, u]
    simp only [ho, hD, dot3, nsq, Pi.sub_apply]
    show (10 : ℚ) ^ 2 + 250 * (1 / 2 ^ 24) * (2 ^ 10) ^ 2 < ((0 - ((100 : ℤ) : ℚ)) ^ 2 + (0 - ((-100 : ℤ) : ℚ)) ^ 2 + (0 - ((0 : ℤ) : ℚ)) ^ 2) -
      ((0 - ((100 : ℤ) : ℚ)) * (6 / 8) + (0 - ((-100 : ℤ) : ℚ)) * (5 / 8) + (0 - ((0 : ℤ) : ℚ)) * (2 / 8)) ^ 2
    norm_num
  · obtain ⟨h1, h2⟩ := h ![1, 2, 3] (fun i => by fin_cases i <;> norm_num)
    refine ⟨h2, ?_⟩
    rw [h1, hR, u]
    simp only [ho, nsq, Pi.sub_apply]
    show ((0 - ((1 : ℤ) : ℚ)) ^ 2 + (0 - ((2 : ℤ) : ℚ)) ^ 2 + (0 - ((3 : ℤ) : ℚ)) ^ 2) + 450 * (1 / 2 ^ 24) * (2 ^ 10) ^ 2 < (10 : ℚ) ^ 2
    norm_num
  · obtain ⟨h1, h2⟩ := h ![-60, -50, -20] (fun i => by fin_cases i <;> norm_num)
    refine ⟨h2, ?_, ?_⟩
    · rw [h1, hR, u]
      simp only [ho, nsq, Pi.sub_apply]
      show (10 : ℚ) ^ 2 + 450 * (1 / 2 ^ 24) * (2 ^ 10) ^ 2 < ((0 - ((-60 : ℤ) : ℚ)) ^ 2 + (0 - ((-50 : ℤ) : ℚ)) ^ 2 + (0 - ((-20 : ℤ) : ℚ)) ^ 2)
      norm_num
    · rw [h1]
      simp only [ho, hD, dot3, Pi.sub_apply]
      show (0 : ℚ) ≤ (0 - ((-60 : ℤ) : ℚ)) * (6 / 8) + (0 - ((-50 : ℤ) : ℚ)) * (5 / 8) + (0 - ((-20 : ℤ) : ℚ)) * (2 / 8)
      norm_num
  · obtain ⟨h1, h2⟩ := h ![60, 50, 20] (fun i => by fin_cases i <;> norm_num)
    refine ⟨h2, ?_, ?_, ?_⟩
    · rw [h1, hR, u]
      simp only [ho, nsq, Pi.sub_apply]
      show (10 : ℚ) ^ 2 + 450 * (1 / 2 ^ 24) * (2 ^ 10) ^ 2 < ((0 - ((60 : ℤ) : ℚ)) ^ 2 + (0 - ((50 : ℤ) : ℚ)) ^ 2 + (0 - ((20 : ℤ) : ℚ)) ^ 2)
      norm_num
    · rw [h1]
      simp only [ho, hD, dot3, Pi.sub_apply]
      show (0 - ((60 : ℤ) : ℚ)) * (6 / 8) + (0 - ((50 : ℤ) : ℚ)) * (5 / 8) + (0 - ((20 : ℤ) : ℚ)) * (2 / 8) < (0 : ℚ)
      norm_num
    · rw [h1, hR, u]
      simp only [ho, hD, dot3, nsq, Pi.sub_apply]
      show ((0 - ((60 : ℤ) : ℚ)) ^ 2 + (0 - ((50 : ℤ) : ℚ)) ^ 2 + (0 - ((20 : ℤ) : ℚ)) ^ 2) -
        ((0 - ((60 : ℤ) : ℚ)) * (6 / 8) + (0 - ((50 : ℤ) : ℚ)) * (5 / 8) + (0 - ((20 : ℤ) : ℚ)) * (2 / 8)) ^ 2 + 250 * (1 / 2 ^ 24) * (2 ^ 10) ^ 2 ≤
        (10 : ℚ) ^ 2
      norm_num

/-- The hypotheses of the theorems about grids hold in single precision for coordinates up to 127: a ray along an axis enters a sphere at distance 5. -/
example : ∃ (r : Ray (Flt binary32.fmt) 3) (c : Vec (Flt binary32.fmt) 3) (R : Flt binary32.fmt), SphGrid binary32 0 127 ∧ GridPt 0 127 r.origin ∧
    GridPt 0 127 c ∧ OnGrid 0 127 R ∧ GridPt 0 1 r.direction ∧ nsq (vval r.direction) = 1 ∧
    nsq (offsetAt (vval r.origin) (vval r.direction) (vval c) 5) = R.val ^ 2 ∧
    ∀ t', 0 < t' → nsq (offsetAt (vval r.origin) (vval r.direction) (vval c) t') = R.val ^ 2 → 0 < (5 : ℚ) ∧ 5 ≤ t' := by
  have g1 := gr_int (S := 3) (P := binary32) (![-3, 5, 100] : Fin 3 → ℤ) (M := 127) (fun i => by fin_cases i <;> norm_num) (by norm_num [binary32])
  have g2 := gr_int (S := 3) (P := binary32) (![0, -4, 100] : Fin 3 → ℤ) (M := 127) (fun i => by fin_cases i <;> norm_num) (by norm_num [binary32])
  have g3 := gr_int (S := 3) (P := binary32) (![0, -1, 0] : Fin 3 → ℤ) (M := 1) (fun i => by fin_cases i <;> norm_num) (by norm_num [binary32])
  have gR : Gr 0 (Flt.round 5 : Flt binary32.fmt) 5 127 := Gr.round binary32.ok_zero (by norm_num) (by norm_num) (by norm_num [binary32])
  have vR : (Flt.round 5 : Flt binary32.fmt).val = 5 := by rw [gR.val]; norm_num
  have on : ∀ t, nsq (offsetAt (vval (intVec binary32 ![-3, 5, 100])) (vval (intVec binary32 ![0, -1, 0])) (vval (intVec binary32 ![0, -4, 100])) t) =
      9 + (9 - t) ^ 2 := by
    intro t
    rw [int_val g1, int_val g2, int_val g3]
    show (((-3 : ℤ) : ℚ) + t * ((0 : ℤ) : ℚ) - ((0 : ℤ) : ℚ)) ^ 2 + (((5 : ℤ) : ℚ) + t * ((-1 : ℤ) : ℚ) - ((-4 : ℤ) : ℚ)) ^ 2 +
      (((100 : ℤ) : ℚ) + t * ((0 : ℤ) : ℚ) - ((100 : ℤ) : ℚ)) ^ 2 = _
    push_cast; ring
  refine ⟨⟨intVec binary32 ![-3, 5, 100], intVec binary32 ![0, -1, 0]⟩, intVec binary32 ![0, -4, 100], Flt.round 5,
    ⟨by norm_num, by norm_num [binary32], binary32.ok_zero, binary32.ok_zero, by norm_num [binary32]⟩, fun i => (g1 i).onGrid, fun i => (g2 i).onGrid,
    gR.onGrid, fun i => (g3 i).onGrid, ?_, ?_, fun t' h0 h => ?_⟩
  · show nsq (vval (intVec binary32 ![0, -1, 0])) = 1
    rw [int_val g3]
    show (((0 : ℤ) : ℚ) ^ 2 + ((-1 : ℤ) : ℚ) ^ 2 + ((0 : ℤ) : ℚ) ^ 2) = 1
    norm_num
  · refine (on 5).trans ?_
    rw [vR]; norm_num
  · have h1 := (on t').symm.trans h
    rw [vR] at h1
    refine ⟨by norm_num, ?_⟩
    by_contra hc
    push Not at hc
    nlinarith

/-- The hypothesis about `sqrt` holds for the correctly rounded square root. -/
example (P : BinPar) : ∃ s : Flt P.fmt → Flt P.fmt, FaithfulSqrt P s := let ⟨s, hs⟩ := exists_correctSqrt P; ⟨s, hs.faithful⟩

end vm
