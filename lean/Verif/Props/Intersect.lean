import Verif.Model.Intersect
import Verif.Lemmas.Geom
import Verif.Lemmas.Vec
import Verif.Lemmas.Scalar
import Verif.Props.Plane
import Mathlib.Tactic.LinearCombination
import Mathlib.Tactic.FieldSimp
import Mathlib.Tactic.Linarith
import Mathlib.Tactic.Positivity

/-! # C64, C65, C67, C70: intersections of rays and lines with planes, triangles and spheres, and of planes -/

universe u

set_option linter.unusedSectionVars false
set_option linter.unusedSimpArgs false

namespace vm

/-! ### C64 -/
section C64
variable {K : Type u} [Field K] [LinearOrder K] [IsStrictOrderedRing K] {S : ℕ}

/-- Specification: signed distance of a point to the plane. -/
def planeEval (p : Plane K S) (x : Vec K S) : K := dot x p.normal - p.distance

theorem planeEval_line (p : Plane K S) (o d : Vec K S) (s : K) :
    planeEval p (o + s • d) = planeEval p o + s * dot d p.normal := by
  unfold planeEval
  rw [dot_add_left, dot_smul_left]; ring

theorem anchor_sub (p : Plane K S) (hn : dot p.normal p.normal = 1) (o : Vec K S) :
    dot (vscale p.normal p.distance - o) p.normal = -planeEval p o := by
  unfold planeEval
  rw [dot_sub_left, vscale_eq_smul, dot_smul_left, hn]; ring

/-- `intersect_ray_plane` returns `s` exactly if the ray is not (nearly) parallel to the plane, the point with
parameter `s` is on the plane and `s` is not below `-almost_zero`. -/
theorem C64_ray_plane (az : K) (haz : 0 ≤ az) (r : Ray K S) (p : Plane K S) (hn : dot p.normal p.normal = 1)
    (s : K) :
    intersectRayPlane az r p = some s ↔
      az < |dot r.direction p.normal| ∧ planeEval p (r.origin + s • r.direction) = 0 ∧ -az ≤ s := by
  unfold intersectRayPlane
  simp only [isZero_exact_nonneg _ haz, decide_eq_true_eq, exact_lt, Plane.anchor, anchor_sub p hn, planeEval_line]
  by_cases h : |dot r.direction p.normal| ≤ az
  · rw [if_pos h]; simp [not_lt.2 h]
  · rw [if_neg h]
    have hne : dot r.direction p.normal ≠ 0 := by
      intro h0; rw [h0, abs_zero] at h; exact h haz
    have key : ∀ s : K, planeEval p r.origin + s * dot r.direction p.normal = 0 ↔
        -planeEval p r.origin / dot r.direction p.normal = s := by
      intro s
      rw [div_eq_iff hne]
      constructor <;> intro h <;> linear_combination -h
    rw [key]
    by_cases h2 : -planeEval p r.origin / dot r.direction p.normal < -az
    · rw [if_pos h2]
      simp only [false_iff, not_and, reduceCtorEq]
      rintro - rfl
      exact not_le.2 h2
    · rw [if_neg h2]
      simp only [Option.some.injEq]
      constructor
      · rintro rfl; exact ⟨not_le.1 h, rfl, not_lt.1 h2⟩
      · exact fun h => h.2.1

/-- Consequences: a ray that meets the plane at a non-flat angle gets exactly that parameter; otherwise the ray
is parallel within the tolerance or the plane is behind the origin by more than the tolerance. -/
theorem C64_ray_plane_complete (az : K) (haz : 0 ≤ az) (r : Ray K S) (p : Plane K S)
    (hn : dot p.normal p.normal = 1) :
    (az < |dot r.direction p.normal| → ∀ s, 0 ≤ s → planeEval p (r.origin + s • r.direction) = 0 →
      intersectRayPlane az r p = some s) ∧
    (intersectRayPlane az r p = none → |dot r.direction p.normal| ≤ az ∨
      ∃ s < -az, planeEval p (r.origin + s • r.direction) = 0) := by
  constructor
  · intro h s hs h0
    exact (C64_ray_plane az haz r p hn s).2 ⟨h, h0, by linarith⟩
  · intro h
    by_contra hc
    push Not at hc
    obtain ⟨h1, h2⟩ := hc
    have hne : dot r.direction p.normal ≠ 0 := by
      intro h0; rw [h0, abs_zero] at h1; exact absurd haz (not_le.2 h1)
    have h0 : planeEval p (r.origin + (-planeEval p r.origin / dot r.direction p.normal) • r.direction) = 0 := by
      rw [planeEval_line]; field_simp; ring
    have h3 : -az ≤ -planeEval p r.origin / dot r.direction p.normal := by
      by_contra hlt
      exact h2 _ (not_le.1 hlt) h0
    have := (C64_ray_plane az haz r p hn _).2 ⟨h1, h0, h3⟩
    rw [h] at this; cases this

/-- `intersect_line_plane` returns `s` exactly if the line is not (nearly) parallel to the plane and the point
with parameter `s` is on the plane. -/
theorem C64_line_plane (az : K) (haz : 0 ≤ az) (l : Line K S) (p : Plane K S) (hn : dot p.normal p.normal = 1)
    (s : K) :
    intersectLinePlane az l p = some s ↔
      az < |dot l.direction p.normal| ∧ planeEval p (l.point + s • l.direction) = 0 := by
  unfold intersectLinePlane
  simp only [isZero_exact_nonneg _ haz, decide_eq_true_eq, exact_lt, anchor_sub p hn, planeEval_line]
  by_cases h : |dot l.direction p.normal| ≤ az
  · rw [if_pos h]; simp [not_lt.2 h]
  · rw [if_neg h]
    have hne : dot l.direction p.normal ≠ 0 := by
      intro h0; rw [h0, abs_zero] at h; exact h haz
    simp only [Option.some.injEq, not_le.1 h, true_and]
    rw [div_eq_iff hne]
    constructor <;> intro h <;> linear_combination -h

example : intersectRayPlane (1 / 1000 : ℚ) ⟨![0, 0, 2], ![0, 0, -1]⟩ ⟨1, ![0, 0, 1]⟩ = some 1 := by decide +kernel

end C64

/-! ### C65 -/
section C65
variable {K : Type u} [Field K] [LinearOrder K] [IsStrictOrderedRing K]

/-- `intersect_ray_triangle` returns `u` exactly if the volume spanned by the direction and the edges exceeds
the tolerance (the ray is not parallel to the triangle, and the triangle is not too small), `u` is not negative
and the point with parameter `u` is a convex combination of the three corners. -/
theorem C65_ray_triangle (az : K) (haz : 0 ≤ az) (r : Ray K 3) (p1 p2 p3 : Vec K 3) (u : K) :
    intersectRayTriangle az r p1 p2 p3 = some u ↔
      az < |dot r.direction (cross (p2 - p1) (p3 - p1))| ∧ 0 ≤ u ∧
      ∃ a b c : K, 0 ≤ a ∧ 0 ≤ b ∧ 0 ≤ c ∧ a + b + c = 1 ∧
        r.origin + u • r.direction = a • p1 + b • p2 + c • p3 := by
  unfold intersectRayTriangle
  simp only [isZero_exact_nonneg _ haz, decide_eq_true_eq, exact_lt]
  have hvol : dot (cross r.direction (p3 - p1)) (p2 - p1) = -dot r.direction (cross (p2 - p1) (p3 - p1)) := by
    simp only [dot3, cross_0, cross_1, cross_2, Pi.sub_apply]; ring
  have habs : |dot (cross r.direction (p3 - p1)) (p2 - p1)| = |dot r.direction (cross (p2 - p1) (p3 - p1))| := by
    rw [hvol, abs_neg]
  rw [← habs]
  -- Cramer's rule
  set A := dot (cross r.direction (p3 - p1)) (p2 - p1) with hA
  by_cases hz : |A| ≤ az
  · rw [if_pos hz]; simp [not_lt.2 hz]
  · rw [if_neg hz]
    have hne : A ≠ 0 := by
      intro h0; rw [h0, abs_zero] at hz; exact hz haz
    simp only [not_le.1 hz, true_and]
    set U := dot (cross (r.origin - p1) (p2 - p1)) (p3 - p1) / A with hU
    set V := dot (cross r.direction (p3 - p1)) (r.origin - p1) / A with hV
    set W := dot (cross (r.origin - p1) (p2 - p1)) r.direction / A with hW
    have hUA : U * A = dot (cross (r.origin - p1) (p2 - p1)) (p3 - p1) := div_mul_cancel₀ _ hne
    have hVA : V * A = dot (cross r.direction (p3 - p1)) (r.origin - p1) := div_mul_cancel₀ _ hne
    have hWA : W * A = dot (cross (r.origin - p1) (p2 - p1)) r.direction := div_mul_cancel₀ _ hne
    have hexist : r.origin + U • r.direction = (1 - V - W) • p1 + V • p2 + W • p3 := by
      funext i
      apply mul_right_cancel₀ hne
      have e1 : (r.origin + U • r.direction) i * A = r.origin i * A + (U * A) * r.direction i := by
        simp only [Pi.add_apply, Pi.smul_apply, smul_eq_mul]; ring
      have e2 : ((1 - V - W) • p1 + V • p2 + W • p3) i * A =
          p1 i * A + (V * A) * (p2 i - p1 i) + (W * A) * (p3 i - p1 i) := by
        simp only [Pi.add_apply, Pi.smul_apply, smul_eq_mul]; ring
      rw [e1, e2, hUA, hVA, hWA, hA]
      simp only [dot3, cross_0, cross_1, cross_2, Pi.sub_apply]
      fin_cases i
      · show r.origin 0 * _ + _ * r.direction 0 = p1 0 * _ + _ * (p2 0 - p1 0) + _ * (p3 0 - p1 0)
        ring
      · show r.origin 1 * _ + _ * r.direction 1 = p1 1 * _ + _ * (p2 1 - p1 1) + _ * (p3 1 - p1 1)
        ring
      · show r.origin 2 * _ + _ * r.direction 2 = p1 2 * _ + _ * (p2 2 - p1 2) + _ * (p3 2 - p1 2)
        ring
    have hunique : ∀ u a b c : K, a + b + c = 1 → r.origin + u • r.direction = a • p1 + b • p2 + c • p3 →
        u = U ∧ b = V ∧ c = W := by
      intro u a b c habc h
      have ha : a = 1 - b - c := by linear_combination habc
      have hi : ∀ i, r.origin i - p1 i = b * (p2 i - p1 i) + c * (p3 i - p1 i) - u * r.direction i := by
        intro i
        have := congrFun h i
        simp only [Pi.add_apply, Pi.smul_apply, smul_eq_mul] at this
        rw [ha] at this
        linear_combination this
      have h0 := hi 0
      have h1 := hi 1
      have h2 := hi 2
      refine ⟨?_, ?_, ?_⟩ <;> apply mul_right_cancel₀ hne
      · rw [hUA, hA]
        simp only [dot3, cross_0, cross_1, cross_2, Pi.sub_apply]
        rw [h0, h1, h2]; ring
      · rw [hVA, hA]
        simp only [dot3, cross_0, cross_1, cross_2, Pi.sub_apply]
        rw [h0, h1, h2]; ring
      · rw [hWA, hA]
        simp only [dot3, cross_0, cross_1, cross_2, Pi.sub_apply]
        rw [h0, h1, h2]; ring
    by_cases h1 : U < 0
    · rw [if_pos h1]
      simp only [false_iff, not_and, not_exists, reduceCtorEq]
      rintro hu a b c - - - habc h
      rw [(hunique u a b c habc h).1] at hu
      exact not_le.2 h1 hu
    rw [if_neg h1]
    by_cases h2 : V < 0
    · rw [if_pos h2]
      simp only [false_iff, not_and, not_exists, reduceCtorEq]
      rintro hu a b c - hb - habc h
      rw [(hunique u a b c habc h).2.1] at hb
      exact not_le.2 h2 hb
    rw [if_neg h2]
    by_cases h3 : W < 0
    · rw [if_pos h3]
      simp only [false_iff, not_and, not_exists, reduceCtorEq]
      rintro hu a b c - - hc habc h
      rw [(hunique u a b c habc h).2.2] at hc
      exact not_le.2 h3 hc
    rw [if_neg h3]
    by_cases h4 : 1 < V + W
    · rw [if_pos h4]
      simp only [false_iff, not_and, not_exists, reduceCtorEq]
      rintro hu a b c ha - - habc h
      obtain ⟨-, rfl, rfl⟩ := hunique u a b c habc h
      linarith
    rw [if_neg h4]
    simp only [Option.some.injEq]
    constructor
    · rintro rfl
      exact ⟨not_lt.1 h1, 1 - V - W, V, W, by linarith, not_lt.1 h2, not_lt.1 h3, by ring, hexist⟩
    · rintro ⟨-, a, b, c, -, -, -, habc, h⟩
      exact (hunique u a b c habc h).1.symm

example : intersectRayTriangle (1 / 1000 : ℚ) ⟨![1 / 4, 1 / 4, 2], ![0, 0, -1]⟩ ![0, 0, 0] ![1, 0, 0] ![0, 1, 0]
    = some 2 := by decide +kernel

/-- The tolerance is absolute: a ray through the centroid of a small triangle misses it. -/
theorem C65_small_triangle :
    intersectRayTriangle (1 / 1000 : ℚ) ⟨![1 / 300, 1 / 300, 2], ![0, 0, -1]⟩ ![0, 0, 0] ![1 / 100, 0, 0]
      ![0, 1 / 100, 0] = none := by decide +kernel

end C65

/-! ### C67 -/
section C67
variable {S : ℕ}

/-- `intersect_ray_sphere` for a unit direction: NaN exactly if no point of the ray is on the sphere;
otherwise the result is the parameter of a sphere point that is not behind the origin, and no sphere point in
front of the origin is nearer.  (If the origin is on the sphere and the ray points inwards, the result is the
exit point, not the origin.) -/
theorem C67_ray_sphere (r : Ray ℝ S) (hd : dot r.direction r.direction = 1) (position : Vec ℝ S) (radius : ℝ) :
    let OnSphere := fun t : ℝ => squaredDistance (r.origin + t • r.direction) position = radius ^ 2
    (intersectRaySphere r position radius = none ↔ ∀ t ≥ 0, ¬ OnSphere t) ∧
    (∀ t, intersectRaySphere r position radius = some t → 0 ≤ t ∧ OnSphere t ∧ ∀ s > 0, OnSphere s → 0 < t ∧ t ≤ s) := by
  intro OnSphere
  have hon : ∀ t, OnSphere t ↔ t ^ 2 + (2 * dot (r.origin - position) r.direction) * t +
      (squaredLength (r.origin - position) - radius * radius) = 0 := by
    intro t
    have e : r.origin + t • r.direction - position = (r.origin - position) + t • r.direction := by abel
    show squaredLength (r.origin + t • r.direction - position) = radius ^ 2 ↔ _
    rw [e]
    unfold squaredLength
    rw [dot_add_left, dot_add_right, dot_add_right, dot_smul_left, dot_smul_left, dot_smul_right, dot_smul_right,
      hd, dot_comm r.direction]
    constructor <;> intro h <;> linear_combination h
  unfold intersectRaySphere
  simp only
  set p := 2 * dot (r.origin - position) r.direction with hp
  set q := squaredLength (r.origin - position) - radius * radius with hq
  by_cases hneg : p * p - 4 * q < 0
  · rw [if_pos hneg]
    refine ⟨⟨fun _ t _ ht => ?_, fun _ => rfl⟩, fun t h => by cases h⟩
    rw [hon] at ht
    nlinarith [sq_nonneg (2 * t + p)]
  · rw [if_neg hneg]
    set s := Real.sqrt (p * p - 4 * q) with hs
    have hs0 : 0 ≤ s := Real.sqrt_nonneg _
    have hss : s * s = p * p - 4 * q := Real.mul_self_sqrt (not_lt.1 hneg)
    have hroots : ∀ t, OnSphere t ↔ t = (-p + s) / 2 ∨ t = (-p - s) / 2 := by
      intro t
      rw [hon]
      have : t ^ 2 + p * t + q = (t - (-p + s) / 2) * (t - (-p - s) / 2) := by
        clear_value p q s
        linear_combination ((1 : ℝ) / 4) * hss
      rw [this, mul_eq_zero, sub_eq_zero, sub_eq_zero]
    have hmin : vmin ((-p + s) / 2) [(-p - s) / 2] = (-p - s) / 2 := by
      simp only [vmin, exact_lt, decide_eq_true_eq]
      split_ifs with h
      · linarith
      · rfl
    have hmax : vmax ((-p + s) / 2) [(-p - s) / 2] = (-p + s) / 2 := by
      simp only [vmax, exact_lt, decide_eq_true_eq]
      split_ifs with h
      · rfl
      · linarith
    rw [hmin, hmax]
    have hle : (-p - s) / 2 ≤ (-p + s) / 2 := by linarith
    by_cases h1 : (-p + s) / 2 < 0 ∧ (-p - s) / 2 < 0
    · rw [if_pos h1]
      refine ⟨⟨fun _ t ht h => ?_, fun _ => rfl⟩, fun t h => by cases h⟩
      rcases (hroots t).1 h with rfl | rfl <;> linarith
    · rw [if_neg h1]
      have h0 : 0 ≤ (-p + s) / 2 := by
        by_contra h; push Not at h; exact h1 ⟨h, lt_of_le_of_lt hle h⟩
      by_cases h2 : 0 < (-p + s) / 2 ∧ 0 < (-p - s) / 2
      · rw [if_pos h2]
        refine ⟨⟨fun h => (by cases h), fun h => absurd ((hroots _).2 (Or.inr rfl)) (h _ h2.2.le)⟩, ?_⟩
        rintro t h
        cases h
        refine ⟨h2.2.le, (hroots _).2 (Or.inr rfl), fun u _ hu => ⟨h2.2, ?_⟩⟩
        rcases (hroots u).1 hu with rfl | rfl <;> linarith
      · rw [if_neg h2]
        refine ⟨⟨fun h => (by cases h), fun h => absurd ((hroots _).2 (Or.inl rfl)) (h _ h0)⟩, ?_⟩
        rintro t h
        cases h
        refine ⟨h0, (hroots _).2 (Or.inl rfl), fun u hu0 hu => ?_⟩
        rcases (hroots u).1 hu with rfl | rfl
        · exact ⟨hu0, le_rfl⟩
        · exact absurd ⟨lt_of_lt_of_le hu0 hle, hu0⟩ h2

/-- From outside the result is the first of all points where the ray meets the sphere. -/
theorem C67_outside (r : Ray ℝ S) (hd : dot r.direction r.direction = 1) (position : Vec ℝ S) (radius : ℝ)
    (hout : radius ^ 2 < squaredDistance r.origin position) (t : ℝ) :
    intersectRaySphere r position radius = some t ↔
      IsLeast {t : ℝ | 0 ≤ t ∧ squaredDistance (r.origin + t • r.direction) position = radius ^ 2} t := by
  obtain ⟨h1, h2⟩ := C67_ray_sphere r hd position radius
  have hpos : ∀ s : ℝ, 0 ≤ s → squaredDistance (r.origin + s • r.direction) position = radius ^ 2 → 0 < s := by
    intro s hs h
    rcases hs.lt_or_eq with h' | h'
    · exact h'
    · rw [← h', zero_smul, add_zero] at h; exact absurd h hout.ne'
  constructor
  · intro h
    obtain ⟨h3, h4, h5⟩ := h2 t h
    exact ⟨⟨h3, h4⟩, fun s hs => (h5 s (hpos s hs.1 hs.2) hs.2).2⟩
  · intro h
    rcases e : intersectRaySphere r position radius with _ | t'
    · exact absurd h.1.2 (h1.1 e t h.1.1)
    · obtain ⟨h3, h4, h5⟩ := h2 t' e
      have := (h5 t (hpos t h.1.1 h.1.2) h.1.2).2
      rw [le_antisymm this (h.2 ⟨h3, h4⟩)]

example : dot (![0, 0, -1] : Vec ℝ 3) ![0, 0, -1] = 1 ∧
    (1 : ℝ) ^ 2 < squaredDistance (![0, 0, 3] : Vec ℝ 3) ![0, 0, 0] := by
  constructor
  · rw [dot3]; simp only [Matrix.cons_val_zero, Matrix.cons_val_one, Matrix.cons_val]; norm_num
  · unfold squaredDistance squaredLength; rw [dot3]
    simp only [Pi.sub_apply, Matrix.cons_val_zero, Matrix.cons_val_one, Matrix.cons_val]; norm_num

end C67

/-! ### C70 -/
section C70

theorem cross_ortho (a b : Vec ℝ 3) : dot (cross a b) a = 0 ∧ dot (cross a b) b = 0 := by
  constructor <;> simp only [dot3, cross_0, cross_1, cross_2] <;> ring

theorem projectVector_eq {S : ℕ} (p : Plane ℝ S) (hn : dot p.normal p.normal = 1) (v : Vec ℝ S) :
    p.projectVector v = v - dot v p.normal • p.normal := by
  unfold Plane.projectVector Plane.projectPoint
  simp only [Plane.anchor, vscale_eq_smul]
  rw [dot_add_left, dot_smul_left, hn]
  funext i
  simp only [Pi.sub_apply, Pi.add_apply, Pi.smul_apply, smul_eq_mul]
  ring

/-- Let the planes have unit normals.  If the sine of the angle between them exceeds the tolerance then the
result is a line with unit direction whose points are exactly the common points of the planes; otherwise (in
particular for parallel planes) it is the default line. -/
theorem C70_plane_plane (az : ℝ) (haz : 0 ≤ az) (p1 p2 : Plane ℝ 3) (h1 : dot p1.normal p1.normal = 1)
    (h2 : dot p2.normal p2.normal = 1) :
    (az < length (cross p1.normal p2.normal) →
      length (intersectPlanePlane az p1 p2).direction = 1 ∧
      ∀ x, (planeEval p1 x = 0 ∧ planeEval p2 x = 0) ↔
        ∃ t : ℝ, x = (intersectPlanePlane az p1 p2).point + t • (intersectPlanePlane az p1 p2).direction) ∧
    (length (cross p1.normal p2.normal) ≤ az → intersectPlanePlane az p1 p2 = ⟨0, 0⟩) := by
  set n := p1.normal with hn
  set m := p2.normal with hm
  set c := dot n m with hc
  have hlag : length (cross n m) ^ 2 = 1 - c ^ 2 := by
    rw [length_sq]
    have := lagrange n m
    rw [h1, h2] at this
    linear_combination this
  -- the projected normal
  have hpv : p1.projectVector m = m - c • n := by
    rw [projectVector_eq p1 h1, ← hn, dot_comm m n]
  have hpl : length (p1.projectVector m) = length (cross n m) := by
    have e : length (p1.projectVector m) ^ 2 = length (cross n m) ^ 2 := by
      rw [hlag, length_sq, hpv, dot_sub_left, dot_sub_right, dot_sub_right, dot_smul_left,
        dot_smul_left, dot_smul_right, dot_smul_right, h1, h2, dot_comm m n, ← hc]
      ring
    exact (pow_left_inj₀ (length_nonneg _) (length_nonneg _) two_ne_zero).1 e
  have hdm : dot (p1.projectVector m) m = length (cross n m) ^ 2 := by
    rw [hlag, hpv, dot_sub_left, dot_smul_left, h2, ← hc]; ring
  have hdn : dot (p1.projectVector m) n = 0 := by
    rw [hpv, dot_sub_left, dot_smul_left, h1, dot_comm m n, ← hc]; ring
  set L := length (cross n m) with hL
  by_cases hL0 : L = 0
  · -- parallel planes
    have hnorm : normalize (cross n m) = none := by unfold normalize; rw [← hL, if_pos hL0]
    refine ⟨fun h => absurd h (by rw [hL0]; exact not_lt.2 haz), fun _ => ?_⟩
    unfold intersectPlanePlane
    rw [← hn, ← hm, hnorm]
  · have hLpos : 0 < L := lt_of_le_of_ne (length_nonneg _) (Ne.symm hL0)
    have hnorm : normalize (cross n m) = some (L⁻¹ • cross n m) := by
      unfold normalize; rw [← hL, if_neg hL0, vdivs_eq_smul]
    have hnorm2 : normalize (p1.projectVector m) = some (L⁻¹ • p1.projectVector m) := by
      unfold normalize; rw [hpl, if_neg hL0, vdivs_eq_smul]
    have hf : dot (L⁻¹ • p1.projectVector m) m = L := by
      rw [dot_smul_left, hdm]; field_simp
    constructor
    · intro hlt
      -- the distance found by the line/plane intersection
      obtain ⟨s, hs⟩ : ∃ s, intersectLinePlane az ⟨p1.anchor, L⁻¹ • p1.projectVector m⟩ p2 = some s := by
        refine ⟨-planeEval p2 p1.anchor / L, (C64_line_plane az haz _ p2 h2 _).2 ⟨?_, ?_⟩⟩
        · show az < |dot (L⁻¹ • p1.projectVector m) m|
          rw [hf, abs_of_pos hLpos]; exact hlt
        · show planeEval p2 (p1.anchor + _ • (L⁻¹ • p1.projectVector m)) = 0
          rw [planeEval_line, ← hm, hf]; field_simp; ring
      have hplane2 := ((C64_line_plane az haz _ p2 h2 s).1 hs).2
      have hres : intersectPlanePlane az p1 p2 =
          ⟨p1.anchor + s • (L⁻¹ • p1.projectVector m), L⁻¹ • cross n m⟩ := by
        unfold intersectPlanePlane
        rw [← hn, ← hm, hnorm]
        simp only [hnorm2, hs, pointAtDistance, vscale_eq_smul]
      rw [hres]
      simp only
      set x0 := p1.anchor + s • (L⁻¹ • p1.projectVector m) with hx0
      have e1 : planeEval p1 x0 = 0 := by
        rw [hx0, planeEval_line, ← hn, dot_smul_left, hdn]
        unfold planeEval
        rw [Plane.anchor, vscale_eq_smul, dot_smul_left, ← hn, h1]; ring
      have e2 : planeEval p2 x0 = 0 := hplane2
      refine ⟨?_, fun x => ⟨fun ⟨hx1, hx2⟩ => ?_, ?_⟩⟩
      · rw [length_smul, ← hL, abs_of_pos (inv_pos.2 hLpos)]; field_simp
      · -- a common point: x - x0 is orthogonal to both normals
        have d1 : dot (x - x0) n = 0 := by
          unfold planeEval at hx1 e1; rw [dot_sub_left, hn]; linarith
        have d2 : dot (x - x0) m = 0 := by
          unfold planeEval at hx2 e2; rw [dot_sub_left, hm]; linarith
        refine ⟨dot (x - x0) (cross n m) * L⁻¹, ?_⟩
        have key : (L ^ 2) • (x - x0) = dot (x - x0) (cross n m) • cross n m := by
          -- triple product expansion
          have hLL : L ^ 2 = dot (cross n m) (cross n m) := by rw [hL, length_sq]
          rw [hLL]
          set y := x - x0
          simp only [dot3] at d1 d2
          refine ext3 ?_ ?_ ?_ <;>
            simp only [dot3, cross_0, cross_1, cross_2, Pi.smul_apply, smul_eq_mul]
          · linear_combination (m 0 * (n 0 * m 0 + n 1 * m 1 + n 2 * m 2) * (-1) + n 0 * (m 0 * m 0 + m 1 * m 1 + m 2 * m 2)) * d1 + (m 0 * (n 0 * n 0 + n 1 * n 1 + n 2 * n 2) - n 0 * (n 0 * m 0 + n 1 * m 1 + n 2 * m 2)) * d2
          · linear_combination (m 1 * (n 0 * m 0 + n 1 * m 1 + n 2 * m 2) * (-1) + n 1 * (m 0 * m 0 + m 1 * m 1 + m 2 * m 2)) * d1 + (m 1 * (n 0 * n 0 + n 1 * n 1 + n 2 * n 2) - n 1 * (n 0 * m 0 + n 1 * m 1 + n 2 * m 2)) * d2
          · linear_combination (m 2 * (n 0 * m 0 + n 1 * m 1 + n 2 * m 2) * (-1) + n 2 * (m 0 * m 0 + m 1 * m 1 + m 2 * m 2)) * d1 + (m 2 * (n 0 * n 0 + n 1 * n 1 + n 2 * n 2) - n 2 * (n 0 * m 0 + n 1 * m 1 + n 2 * m 2)) * d2
        have hL2 : L ^ 2 ≠ 0 := pow_ne_zero 2 hL0
        have : x - x0 = (dot (x - x0) (cross n m) * L⁻¹) • (L⁻¹ • cross n m) := by
          have h3 : x - x0 = (L ^ 2)⁻¹ • ((L ^ 2) • (x - x0)) := by
            rw [smul_smul, inv_mul_cancel₀ hL2, one_smul]
          conv_lhs => rw [h3, key, smul_smul]
          rw [smul_smul]
          congr 1
          field_simp
        rw [← this]; abel
      · rintro ⟨t, rfl⟩
        obtain ⟨o1, o2⟩ := cross_ortho n m
        constructor
        · rw [planeEval_line, e1, ← hn, dot_smul_left, o1]; ring
        · rw [planeEval_line, e2, ← hm, dot_smul_left, o2]; ring
    · intro hle
      have : intersectLinePlane az ⟨p1.anchor, L⁻¹ • p1.projectVector m⟩ p2 = none := by
        rcases e : intersectLinePlane az ⟨p1.anchor, L⁻¹ • p1.projectVector m⟩ p2 with _ | s
        · rfl
        · have h := ((C64_line_plane az haz _ p2 h2 s).1 e).1
          change az < |dot (L⁻¹ • p1.projectVector m) m| at h
          rw [hf, abs_of_pos hLpos] at h
          exact absurd h (not_lt.2 hle)
      unfold intersectPlanePlane
      rw [← hn, ← hm, hnorm]
      simp only [hnorm2, this]

example : dot (![0, 0, 1] : Vec ℝ 3) ![0, 0, 1] = 1 ∧ dot (![0, 1, 0] : Vec ℝ 3) ![0, 1, 0] = 1 ∧
    almostZeroR < length (cross (![0, 0, 1] : Vec ℝ 3) ![0, 1, 0]) := by
  refine ⟨?_, ?_, ?_⟩
  · rw [dot3]; simp only [Matrix.cons_val_zero, Matrix.cons_val_one, Matrix.cons_val]; norm_num
  · rw [dot3]; simp only [Matrix.cons_val_zero, Matrix.cons_val_one, Matrix.cons_val]; norm_num
  have : length (cross (![0, 0, 1] : Vec ℝ 3) ![0, 1, 0]) = 1 := by
    unfold length squaredLength
    rw [dot3]
    simp only [cross_0, cross_1, cross_2, Matrix.cons_val_zero, Matrix.cons_val_one, Matrix.cons_val]
    norm_num
  rw [this]; unfold almostZeroR; norm_num

end C70

end vm
