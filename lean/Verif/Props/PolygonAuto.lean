import Verif.Props.PointInPolygon
import Verif.Props.Plane

/-!
# C95: point in polygon and ray against polygon without a given plane
-/

set_option linter.unusedSectionVars false
set_option linter.unusedSimpArgs false

namespace vm
variable {m : ℕ}

/-- The first three vertices `a`, `b`, `c` span a plane: they are different from each other as seen from `a`, and the sine of the
angle between the edges is at least `10⁻⁸`. -/
def SpanPlane (a b c : Vec ℝ 3) : Prop :=
  b ≠ a ∧ c ≠ a ∧ (1 / 10 ^ 8 : ℝ) ^ 2 * (dot (c - a) (c - a) * dot (b - a) (b - a)) ≤
    dot (c - a) (c - a) * dot (b - a) (b - a) - dot (c - a) (b - a) ^ 2

theorem spanPlane_cross {a b c : Vec ℝ 3} (h : SpanPlane a b c) : cross (c - a) (b - a) ≠ 0 :=
  (fromPoints_of_success ((C54_success_iff a b c).2 h)).1

theorem planeNormal_of_span {a b c : Vec ℝ 3} (h : SpanPlane a b c) :
    Plane.planeNormal a b c Plane.angleEpsilon =
      (true, some ((length (cross (c - a) (b - a)))⁻¹ • cross (c - a) (b - a))) := by
  have h1 := (C54_success_iff a b c).2 h
  have h2 := (planeNormal_fst _ _ _ _).1 ((fromPoints_fst a b c) ▸ h1)
  have hpos : 0 < length (c - a) * length (b - a) :=
    mul_pos (length_pos (sub_ne_zero.2 h2.2.1)) (length_pos (sub_ne_zero.2 h2.1))
  have hs : ¬ |length (cross (c - a) (b - a)) / (length (c - a) * length (b - a))| < Plane.angleEpsilon := by
    rw [not_lt, abs_of_nonneg (div_nonneg (length_nonneg _) hpos.le), le_div_iff₀ hpos]
    exact h2.2.2
  unfold Plane.planeNormal
  simp only [hpos.ne', if_false, hs, normalize_of_ne (spanPlane_cross h)]

theorem ofFn_three {α : Type*} (V : Fin (m + 3) → α) :
    ∃ rest, List.ofFn V = V 0 :: V 1 :: V 2 :: rest := by
  refine ⟨List.ofFn fun i : Fin m => V i.succ.succ.succ, ?_⟩
  rw [List.ofFn_succ, List.ofFn_succ, List.ofFn_succ]
  rfl

theorem convexAbout_smul {k : ℝ} (hk : 0 < k) {ν : Vec ℝ 3} {V : Fin (m + 1) → Vec ℝ 3} :
    ConvexAbout (k • ν) V ↔ ConvexAbout ν V := by
  simp only [ConvexAbout, dot_smul_right, mul_nonneg_iff_of_pos_left hk]

theorem insideAbout_smul {k : ℝ} (hk : 0 < k) {ν : Vec ℝ 3} {V : Fin (m + 1) → Vec ℝ 3} {p : Vec ℝ 3} :
    InsideAbout (k • ν) V p ↔ InsideAbout ν V p := by
  simp only [InsideAbout, dot_smul_right, mul_pos_iff_of_pos_left hk]

theorem cross_swap (a b : Vec ℝ 3) : cross a b = -cross b a := by
  apply ext3 <;> simp [cross] <;> ring

/-- `ν` is the normal by the right hand rule of the first two edges. -/
def turnNormal (V : Fin (m + 3) → Vec ℝ 3) : Vec ℝ 3 := cross (V 1 - V 0) (V 2 - V 0)

/-- If the first three vertices span a plane, the vertices are in convex position in that plane, in either orientation, and the
point is in the plane too, then the point is found inside if it is inside and outside if it is outside, with the same exceptions as in
`C69_convex_partial`.  `k` is a coordinate in which the normal of the plane is largest. -/
theorem C95_contains_partial (az : ℝ) (haz : 0 ≤ az) (junk : ℕ → ℝ × ℕ) (V : Fin (m + 3) → Vec ℝ 3) (p : Vec ℝ 3)
    (hspan : SpanPlane (V 0) (V 1) (V 2)) (hplane : ∀ i, dot (V i - p) (turnNormal V) = 0) (hconv : ConvexAbout (turnNormal V) V)
    (hdist : ∀ i, V i ≠ V (i + 1)) :
    ∃ k : Fin 3, (∀ j, |turnNormal V j| ≤ |turnNormal V k|) ∧
      ((∀ i, az < |swizzle (V i - p) k 1|) →
        (InsideAbout (turnNormal V) V p → polygonContainsPointAuto az junk p (List.ofFn V) = some true) ∧
        (¬ InsideAbout (turnNormal V) V p →
          (∀ i, ∀ t : ℝ, 0 ≤ t → t ≤ 1 → swizzle (edgePoint (V i) (V (i + 1)) t - p) k 1 = 0 →
            az < |swizzle (edgePoint (V i) (V (i + 1)) t - p) k 0|) →
          polygonContainsPointAuto az junk p (List.ofFn V) = some false)) := by
  have hc := spanPlane_cross hspan
  have hl := inv_pos.2 (length_pos hc)
  set n : Vec ℝ 3 := (length (cross (V 2 - V 0) (V 1 - V 0)))⁻¹ • cross (V 2 - V 0) (V 1 - V 0) with hn
  have htn : (length (cross (V 2 - V 0) (V 1 - V 0)))⁻¹ • turnNormal V = -n := by
    rw [hn, turnNormal, cross_swap (V 1 - V 0), smul_neg]
  set l := (length (cross (V 2 - V 0) (V 1 - V 0)))⁻¹ with hldef
  have hn0 : n ≠ 0 := smul_ne_zero hl.ne' hc
  obtain ⟨k, hk, hkmax⟩ := C17_find_abs_max_first n (by norm_num) junk
  have habs : ∀ j, |n j| = l * |turnNormal V j| := by
    intro j
    have := congrFun htn j
    rw [Pi.smul_apply, Pi.neg_apply, smul_eq_mul] at this
    rw [← abs_neg, ← this, abs_mul, abs_of_pos hl]
  have hauto : polygonContainsPointAuto az junk p (List.ofFn V) = polygonContainsPointNormal az junk p n (List.ofFn V) := by
    obtain ⟨rest, hr⟩ := ofFn_three V
    rw [hr, polygonContainsPointAuto, planeNormal_of_span hspan]
    rfl
  refine ⟨k, fun j => ?_, fun hh => ?_⟩
  · have := hkmax j
    rw [habs, habs] at this
    exact le_of_mul_le_mul_left this hl
  · have key := C69_convex_partial az haz junk n hn0 V p (-n) (Or.inr rfl) (fun i => ?_) (htn ▸ (convexAbout_smul hl).2 hconv)
      hdist (by rw [hk]; exact hh)
    · rw [← htn, insideAbout_smul hl, hk] at key
      rw [hauto]
      exact key
    · have h1 : n = -(l • turnNormal V) := by rw [htn, neg_neg]
      rw [h1, ← neg_smul, dot_smul_right, hplane, mul_zero]

/-- With less than three vertices, or if the first three vertices do not span a plane, an assertion fails whatever the point and
the other vertices are. -/
theorem C95_contains_undefined (az : ℝ) (junk : ℕ → ℝ × ℕ) (p : Vec ℝ 3) :
    (∀ l : List (Vec ℝ 3), l.length < 3 → polygonContainsPointAuto az junk p l = none) ∧
    (∀ (a b c : Vec ℝ 3) (rest), ¬ SpanPlane a b c → polygonContainsPointAuto az junk p (a :: b :: c :: rest) = none) := by
  constructor
  · intro l h
    rcases l with _ | ⟨p1, _ | ⟨p2, _ | ⟨p3, rest⟩⟩⟩
    · rfl
    · rfl
    · rfl
    · simp at h; omega
  · intro a b c rest h
    have hf : ¬ (Plane.planeNormal a b c Plane.angleEpsilon).1 = true := by
      rw [← fromPoints_fst]; exact fun h' => h ((C54_success_iff a b c).1 h')
    rw [polygonContainsPointAuto]
    rcases hp : Plane.planeNormal a b c Plane.angleEpsilon with ⟨_ | _, _ | n⟩
    · rfl
    · rfl
    · rfl
    · rw [hp] at hf; exact absurd rfl hf

/-- A ray that meets the plane of the polygon in the point `o + t d` hits the polygon at distance `t` if that point is inside, and
misses it if the point is outside, with the same exceptions.  `n` is the normal of the plane with unit length. -/
theorem C95_ray_partial (az : ℝ) (haz : 0 ≤ az) (junk : ℕ → ℝ × ℕ) (r : Ray ℝ 3) (V : Fin (m + 3) → Vec ℝ 3)
    (hspan : SpanPlane (V 0) (V 1) (V 2)) (hplane : ∀ i, dot (V i - V 0) (turnNormal V) = 0)
    (hconv : ConvexAbout (turnNormal V) V) (hdist : ∀ i, V i ≠ V (i + 1)) :
    ∃ (n : Vec ℝ 3) (c : ℝ) (k : Fin 3), dot n n = 1 ∧ 0 < c ∧ n = -(c • turnNormal V) ∧ (∀ j, |n j| ≤ |n k|) ∧
      (∀ t : ℝ, az < |dot r.direction n| → -az ≤ t → dot (r.origin + t • r.direction - V 0) n = 0 →
        (∀ i, az < |swizzle (V i - (r.origin + t • r.direction)) k 1|) →
        (InsideAbout (turnNormal V) V (r.origin + t • r.direction) →
          intersectRayPolygonAuto az junk r (List.ofFn V) = some (some t)) ∧
        (¬ InsideAbout (turnNormal V) V (r.origin + t • r.direction) →
          (∀ i, ∀ s : ℝ, 0 ≤ s → s ≤ 1 → swizzle (edgePoint (V i) (V (i + 1)) s - (r.origin + t • r.direction)) k 1 = 0 →
            az < |swizzle (edgePoint (V i) (V (i + 1)) s - (r.origin + t • r.direction)) k 0|) →
          intersectRayPolygonAuto az junk r (List.ofFn V) = some none)) ∧
      (¬ (az < |dot r.direction n| ∧ ∃ t : ℝ, -az ≤ t ∧ dot (r.origin + t • r.direction - V 0) n = 0) →
        intersectRayPolygonAuto az junk r (List.ofFn V) = some none) := by
  have hc := spanPlane_cross hspan
  have hl := inv_pos.2 (length_pos hc)
  have hs := (fromPoints_of_success ((C54_success_iff _ _ _).2 hspan)).2
  have hunit : dot ((length (cross (V 2 - V 0) (V 1 - V 0)))⁻¹ • cross (V 2 - V 0) (V 1 - V 0))
      ((length (cross (V 2 - V 0) (V 1 - V 0)))⁻¹ • cross (V 2 - V 0) (V 1 - V 0)) = 1 := dot_unit hc
  have htn : (length (cross (V 2 - V 0) (V 1 - V 0)))⁻¹ • cross (V 2 - V 0) (V 1 - V 0) =
      -((length (cross (V 2 - V 0) (V 1 - V 0)))⁻¹ • turnNormal V) := by
    rw [turnNormal, ← smul_neg, ← cross_swap]
  generalize hnd : (length (cross (V 2 - V 0) (V 1 - V 0)))⁻¹ • cross (V 2 - V 0) (V 1 - V 0) = n at *
  generalize (length (cross (V 2 - V 0) (V 1 - V 0)))⁻¹ = l at *
  have hneg : -n = l • turnNormal V := by rw [htn, neg_neg]
  obtain ⟨k, hk, hkmax⟩ := C17_find_abs_max_first n (by norm_num) junk
  have hauto : intersectRayPolygonAuto az junk r (List.ofFn V) =
      intersectRayPolygon az junk r (Plane.ofAnchor (V 0) n) (List.ofFn V) := by
    obtain ⟨rest, hr⟩ := ofFn_three V
    rw [hr, intersectRayPolygonAuto, Plane.fromPointsRange, hs]
  have hev : ∀ x : Vec ℝ 3, planeEval (Plane.ofAnchor (V 0) n) x = dot (x - V 0) n := by
    intro x; rw [dot_sub_left]; rfl
  have key := C69_ray_polygon_partial az haz junk r (Plane.ofAnchor (V 0) n) hunit V (-n) (Or.inr rfl)
    (fun i => by rw [hev, htn, ← neg_smul, dot_smul_right, hplane, mul_zero])
    (hneg ▸ (convexAbout_smul hl).2 hconv) hdist
  refine ⟨n, l, k, hunit, hl, htn, hkmax, ?_, ?_⟩
  · intro t h1 h2 h3 h4
    rw [hauto]
    have := key.1 t h1 h2 (by rw [hev]; exact h3) (by
      show ∀ i, az < |swizzle _ (findAbsMaxComponent n 0 junk) 1|
      rw [hk]; exact h4)
    rw [hneg, insideAbout_smul hl] at this
    change (_ → _) ∧ (_ → (∀ i, ∀ s : ℝ, 0 ≤ s → s ≤ 1 → swizzle _ (findAbsMaxComponent n 0 junk) 1 = 0 →
      az < |swizzle _ (findAbsMaxComponent n 0 junk) 0|) → _) at this
    rw [hk] at this
    exact this
  · intro h
    rw [hauto]
    refine key.2 fun ⟨h1, t, h2, h3⟩ => h ⟨h1, t, h2, ?_⟩
    rw [← hev]; exact h3

/-- With less than three vertices, or if the first three vertices do not span a plane, there is no hit: the function returns NaN also
for a polygon that the ray meets. -/
theorem C95_ray_no_plane (az : ℝ) (junk : ℕ → ℝ × ℕ) (r : Ray ℝ 3) :
    (∀ l : List (Vec ℝ 3), l.length < 3 → intersectRayPolygonAuto az junk r l = some none) ∧
    (∀ (a b c : Vec ℝ 3) (rest), ¬ SpanPlane a b c → intersectRayPolygonAuto az junk r (a :: b :: c :: rest) = some none) := by
  have hf : ∀ l : List (Vec ℝ 3), (Plane.fromPointsRange l).1 = false → intersectRayPolygonAuto az junk r l = some none := by
    intro l h
    rw [intersectRayPolygonAuto]
    rcases hp : Plane.fromPointsRange l with ⟨_ | _, _ | n⟩
    · rfl
    · rfl
    · rfl
    · rw [hp] at h; cases h
  refine ⟨fun l h => hf l ((C54_range l).2 h), fun a b c rest h => hf _ ?_⟩
  rw [Plane.fromPointsRange]
  by_contra h'
  exact h ((C54_success_iff a b c).1 (by simpa using h'))

/-- The polygon with the vertices `(0,0)`, `(1,0)`, `(2,0)`, `(2,2)`, `(0,2)` begins with three colinear vertices; a ray through its
interior is reported to miss it. -/
theorem C95_ray_fails (az : ℝ) (junk : ℕ → ℝ × ℕ) : ∃ V : Fin 5 → Vec ℝ 3,
    ConvexAbout ![0, 0, 1] V ∧ InsideAbout ![0, 0, 1] (![V 0, V 2, V 3, V 4] : Fin 4 → Vec ℝ 3) ![1, 1, 0] ∧
    (∀ i, V i ≠ V (i + 1)) ∧
    intersectRayPolygonAuto az junk ⟨![1, 1, 1], ![0, 0, -1]⟩ (List.ofFn V) = some none := by
  refine ⟨![![0, 0, 0], ![1, 0, 0], ![2, 0, 0], ![2, 2, 0], ![0, 2, 0]], ?_, ?_, ?_, ?_⟩
  · intro i j k h1 h2
    fin_cases i <;> fin_cases j <;> first | exact absurd h1 (by decide) | skip
    all_goals
      fin_cases k <;> first | exact absurd h2 (by decide) | skip
      all_goals simp [dot3, cross]; try norm_num
  · intro i
    fin_cases i <;> simp [dot3, cross] <;> norm_num
  · intro i h
    have h0 := congrFun h 0
    have h1 := congrFun h 1
    fin_cases i <;> simp at h0 h1
  · have := (C95_ray_no_plane az junk ⟨![1, 1, 1], ![0, 0, -1]⟩).2 ![0, 0, 0] ![1, 0, 0] ![2, 0, 0] [![2, 2, 0], ![0, 2, 0]] (by
      rintro ⟨-, -, h⟩
      simp [dot3] at h
      norm_num at h)
    exact this

/-! ### Non-vacuity -/

/-- A clockwise tilted square. -/
noncomputable def clockSquare : Fin 4 → Vec ℝ 3 := ![![2, 1, 0], ![1, -2, 0], ![-2, -1, 0], ![-1, 2, 0]]

example : SpanPlane (clockSquare 0) (clockSquare 1) (clockSquare 2) ∧
    (∀ i, dot (clockSquare i - 0) (turnNormal (m := 1) clockSquare) = 0) ∧
    ConvexAbout (turnNormal (m := 1) clockSquare) clockSquare ∧ (∀ i, clockSquare i ≠ clockSquare (i + 1)) ∧
    InsideAbout (turnNormal (m := 1) clockSquare) clockSquare 0 ∧
    (∀ i, (1 / 1000 : ℝ) < |swizzle (clockSquare i - 0) 2 1|) := by
  have ht : turnNormal (m := 1) clockSquare = ![0, 0, -10] := by
    apply ext3 <;> simp [turnNormal, clockSquare, cross]
    norm_num
  rw [ht]
  refine ⟨⟨fun h => ?_, fun h => ?_, ?_⟩, ?_, ?_, ?_, ?_, ?_⟩
  · have := congrFun h 0; simp [clockSquare] at this
  · have := congrFun h 0; simp [clockSquare] at this; norm_num at this
  · simp [dot3, clockSquare]; norm_num
  · intro i; fin_cases i <;> simp [dot3, clockSquare]
  · intro i j k h1 h2
    fin_cases i <;> fin_cases j <;> first | exact absurd h1 (by decide) | skip
    all_goals
      fin_cases k <;> first | exact absurd h2 (by decide) | skip
      all_goals simp [dot3, cross, clockSquare]; try norm_num
  · intro i h
    have h0 := congrFun h 0
    fin_cases i <;> simp [clockSquare] at h0 <;> norm_num at h0
  · intro i
    fin_cases i <;> simp [dot3, cross, clockSquare] <;> norm_num
  · intro i
    fin_cases i <;> simp [swizzle, clockSquare] <;> norm_num

end vm
