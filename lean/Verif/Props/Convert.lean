import Verif.Props.Polygon
import Verif.Props.Segment
import Verif.Props.BBox
import Verif.Props.Affine
import Verif.Props.Sort
import Verif.Lemmas.Geom
import Verif.Lemmas.MatExt

/-! # C80 (type conversions), C76 (list operators), C55 (axis aligned orthogonal planes) -/

universe u

set_option linter.unusedSectionVars false
set_option linter.unusedSimpArgs false

namespace vm

/-! ### C80 -/
section C80
variable {U T : Type u} [IEEE U] [IEEE T] {S : ℕ}

/-- Specification: a conversion that never inverts the order of two values, such as `static_cast` from
`double` to `float`, to an integer type or to a wider type. -/
def MonotoneCast (cast : U → T) : Prop := ∀ a b, Cmp.lt (cast a) (cast b) = true → Cmp.lt a b = true

/-- Specification: a conversion that keeps the order of any two values including the position of NaN, such as
`static_cast` from `float` to `double`. -/
def ExactCast (cast : U → T) : Prop :=
  ∀ a b, (beforeScalar (cast a) (cast b) ↔ beforeScalar a b) ∧ (sameScalar (cast a) (cast b) ↔ sameScalar a b)

/-- The bounding box invariant survives every monotone conversion, also if components are NaN. -/
theorem C80_bbox (cast : U → T) (h : MonotoneCast cast) (b : BBox U S) (hb : b.isValid = true) :
    (BBox.convert cast b).isValid = true := by
  unfold BBox.isValid BBox.isValidPair BBox.convert at *
  rw [List.all_eq_true] at *
  intro i hi
  have := hb i hi
  simp only [Bool.not_eq_true', ← Bool.not_eq_true] at *
  exact fun h' => this (h _ _ h')

variable [Add U] [Sub U] [Zero U] [ZeroLaw U] [Add T] [Sub T] [Zero T] [ZeroLaw T]

theorem vlt_cast {cast : U → T} (h : ExactCast cast) (a b : Vec U S) :
    vlt (fun i => cast (a i)) (fun i => cast (b i)) = vlt a b := by
  rw [Bool.eq_iff_iff, C01_lt_is_lexicographic, C01_lt_is_lexicographic]
  simp only [(h _ _).1, (h _ _).2]

theorem convert_vertices {α β : Type u} (cast : α → β) (p : Polygon α S) :
    (Polygon.convert cast p).vertices = p.vertices.map fun v i => cast (v i) :=
  foldl_append_map (fun (v : Vec α S) i => cast (v i)) p.vertices

/-- Segment and polygon invariants survive conversions that keep the order exactly, and then converting a
segment or polygon is the same as constructing it from the converted points.  Missing for the full claim:
monotone conversions that identify values, for which it is false (`C80_segment_fails`,
`C80_polygon_fails`). -/
theorem C80_exact_partial (cast : U → T) (h : ExactCast cast) (s : Segment U S)
    (hs : vle s.start s.end_ = true) (p : Polygon U S) (hp : p.Canonical) (q r : Vec U S) (l : List (Vec U S)) :
    vle (Segment.convert cast s).start (Segment.convert cast s).end_ = true ∧
    (Polygon.convert cast p).Canonical ∧
    Segment.convert cast (Segment.mk' q r) = Segment.mk' (fun i => cast (q i)) (fun i => cast (r i)) ∧
    Polygon.convert cast (Polygon.mk' l) = Polygon.mk' (l.map fun v i => cast (v i)) := by
  have hpoly : ∀ p : Polygon U S, p.Canonical → (Polygon.convert cast p).Canonical := by
    intro p hp v vs e w hw
    rw [convert_vertices] at e
    rcases ep : p.vertices with _ | ⟨v', vs'⟩
    · rw [ep] at e; cases e
    · rw [ep] at e
      simp only [List.map_cons, List.cons.injEq] at e
      obtain ⟨rfl, rfl⟩ := e
      obtain ⟨w', hw', rfl⟩ := List.mem_map.1 hw
      rw [vlt_cast h]
      exact hp _ _ ep w' hw'
  refine ⟨?_, hpoly p hp, ?_, ?_⟩
  · have hno : ¬ vlt s.end_ s.start = true := by
      rw [vle_iff] at hs; rw [vlt_iff]; exact not_lt.2 hs
    rw [vle_iff, ← not_lt, ← vlt_iff]
    show ¬ vlt (fun i => cast (s.end_ i)) (fun i => cast (s.start i)) = true
    rw [vlt_cast h]; exact hno
  · unfold Segment.convert Segment.mk'
    simp only [vlt_cast h]
    congr 1 <;> by_cases hlt : vlt q r = true <;> simp [hlt]
  · -- the position of the least vertex is the same before and after the conversion
    have hmin : ∀ (rest : List (Vec U S)) (sm : Vec U S) si i,
        minElement vlt (fun j => cast (sm j)) si i (rest.map fun v j => cast (v j)) = minElement vlt sm si i rest := by
      intro rest
      induction rest with
      | nil => intro sm si i; rfl
      | cons x l ih =>
        intro sm si i
        rw [List.map_cons]
        unfold minElement
        rw [vlt_cast h]
        by_cases hx : vlt x sm = true
        · simp only [hx, if_true]; exact ih _ _ _
        · simp only [hx]; exact ih _ _ _
    apply Polygon.ext
    rw [convert_vertices]
    show (Polygon.rotateMinToFront l).map _ = Polygon.rotateMinToFront _
    rcases l with _ | ⟨v, vs⟩
    · rfl
    · rw [List.map_cons]
      unfold Polygon.rotateMinToFront
      simp only [hmin, List.map_append, List.map_drop, List.map_take, List.map_cons]

end C80

/-- Truncating the components of a segment to integers is monotone, but the converted segment can have its
start after its end; it is then different from the segment between the converted points. -/
theorem C80_segment_fails :
    let cast : ℚ → ℤ := fun x => ⌊x⌋
    let s : Segment ℚ 2 := Segment.mk' ![0, 5] ![1 / 2, 0]
    MonotoneCast cast ∧ vle s.start s.end_ = true ∧
    vle (Segment.convert cast s).start (Segment.convert cast s).end_ = false ∧
    Segment.beq (Segment.convert cast s) (Segment.mk' ![0, 5] ![0, 0]) = false := by
  refine ⟨?_, by decide +kernel, by decide +kernel, by decide +kernel⟩
  intro a b h
  simp only [exact_lt, decide_eq_true_eq] at *
  exact not_le.1 fun hba => absurd (Int.floor_le_floor hba) (not_le.2 h)

/-- The same for polygons: after the conversion the least vertex is not the first one. -/
theorem C80_polygon_fails :
    let cast : ℚ → ℤ := fun x => ⌊x⌋
    let p : Polygon ℚ 2 := Polygon.mk' [![0, 5], ![1 / 2, 0], ![3, 3]]
    p.Canonical ∧ ¬ (Polygon.convert cast p).Canonical := by
  refine ⟨mk'_canonical _, fun h => ?_⟩
  have e : (Polygon.convert (fun x : ℚ => ⌊x⌋) (Polygon.mk' [![0, 5], ![1 / 2, 0], ![3, 3]] : Polygon ℚ 2)).vertices
      = ![0, 5] :: [![0, 0], ![3, 3]] := by decide +kernel
  exact absurd (h _ _ e ![0, 0] List.mem_cons_self) (by decide +kernel)

example : MonotoneCast (fun x : ℚ => ⌊x⌋) ∧ ExactCast (fun x : ℤ => (x : ℚ)) := by
  refine ⟨C80_segment_fails.1, fun a b => ?_⟩
  simp [beforeScalar, sameScalar, isNan, Cmp.lt, Cmp.eq]

/-! ### C76 -/
section C76
variable {T : Type u} {S : ℕ}

/-- Adding a vector to, and multiplying a scalar with, a list or array does so for every element. -/
theorem C76_add_scale [Add T] [Mul T] (l : List (Vec T S)) (d : Vec T S) (f : T) :
    (addList l d).length = l.length ∧ (scaleList l f).length = l.length ∧
    (∀ i : ℕ, (addList l d)[i]? = l[i]?.map (· + d)) ∧
    (∀ i j : ℕ, ∀ v ∈ l[i]?, ∀ hj : j < S, ∃ w ∈ (scaleList l f)[i]?, w ⟨j, hj⟩ = v ⟨j, hj⟩ * f) := by
  have e1 : addList l d = l.map (· + d) := foldl_append_map _ _
  have e2 : scaleList l f = l.map (vscale · f) := foldl_append_map _ _
  rw [e1, e2]
  refine ⟨by simp, by simp, by simp, fun i j v hv hj => ?_⟩
  refine ⟨vscale v f, ?_, rfl⟩
  rw [List.getElem?_map, Option.mem_def.1 hv]; rfl

/-- Transforming a list by two matrices in turn equals transforming by their product: always for vectors of
the size of the matrices, and for points whenever the inner transformation maps no point of the list to
infinity. -/
theorem C76_compose {K : Type u} [Field K] (a b : Mat K (S + 1) (S + 1)) (vs : List (Vec K (S + 1)))
    (ps : List (Vec K S)) (h : ∀ p ∈ ps, homCoord b p ≠ 0) :
    mmulVecs a (mmulVecs b vs) = mmulVecs (mmul a b) vs ∧
    mmulPoints a (mmulPoints b ps) = mmulPoints (mmul a b) ps := by
  have ev : ∀ (m : Mat K (S + 1) (S + 1)) l, mmulVecs m l = l.map (mmulVec m) := fun m l => foldl_append_map _ _
  have ep : ∀ (m : Mat K (S + 1) (S + 1)) l, mmulPoints m l = l.map (mmulPoint m) := fun m l => foldl_append_map _ _
  rw [ev, ev, ev, ep, ep, ep, List.map_map, List.map_map]
  constructor
  · refine List.map_congr_left fun v _ => ?_
    funext r
    simp only [Function.comp, mmulVec_apply, mmul_apply, Finset.sum_mul, Finset.mul_sum]
    rw [Finset.sum_comm]
    refine Finset.sum_congr rfl fun x _ => Finset.sum_congr rfl fun y _ => ?_
    ring
  · refine List.map_congr_left fun p hp => ?_
    exact (mmulPoint_mmul a b p (h p hp)).symm

example : ∀ p ∈ ([![1, 2], ![3, 4]] : List (Vec ℚ 2)), homCoord (matId 3 3) p ≠ 0 := by decide +kernel

end C76

/-! ### C55: axis aligned orthogonal planes -/

/-- `aligned_orthogonal_plane` always succeeds; the plane contains the given point, its normal is a signed
coordinate axis belonging to a component of `direction` of maximal absolute value, and it makes the smallest
possible angle with `direction` among the axes: no signed axis has a larger dot product with it. -/
theorem C55_aligned_orthogonal {K : Type u} [Field K] [LinearOrder K] [IsStrictOrderedRing K]
    (position direction : Vec K 3) (junk : ℕ → K × ℕ) :
    ∃ p : Plane K 3, Plane.alignedOrthogonal junk position direction = some p ∧
      p.pointDistance position = 0 ∧ dot p.normal p.normal = 1 ∧
      (∃ i, ∀ j, j ≠ i → p.normal j = 0) ∧ ∀ j, |direction j| ≤ dot p.normal direction := by
  obtain ⟨i, hi, hmax⟩ := C17_find_abs_max_first direction (by norm_num) junk
  obtain ⟨idx, axis, h1, h2, h3, h4, h5⟩ := C17_axis direction 0 (by norm_num) junk
  have hii : i = idx := Fin.ext (by rw [← hi, ← h1])
  subst hii
  have hdot : ∀ v : Vec K 3, dot axis v = axis i * v i := by
    intro v
    rw [dot_eq_sum, Finset.sum_eq_single i]
    · intro j _ hj; rw [h3 j hj, zero_mul]
    · intro h; exact absurd (Finset.mem_univ _) h
  refine ⟨Plane.ofAnchor position axis, by unfold Plane.alignedOrthogonal; rw [h2]; rfl, ?_, ?_, ⟨i, h3⟩, ?_⟩
  · show dot position axis - dot position axis = 0 
    ring
  · show dot axis axis = 1
    rw [hdot, ← abs_mul_abs_self, h4, one_mul]
  · intro j
    show _ ≤ dot axis direction
    rw [hdot, h5]
    exact hmax j

example : (Plane.alignedOrthogonal (fun _ => (0, 0)) (![1, 2, 3] : Vec ℚ 3) ![1, -5, 2]).map Plane.normal =
    some ![0, -1, 0] := by decide +kernel

end vm
