import Verif.Lemmas.ConvexHull
import Verif.Props.PointInPolygon
import Verif.Props.Plane
import Verif.Props.Vec
import Mathlib.Data.List.Sort

/-!
# C73: convex hulls (convex_hull.h)

All theorems hold for every implementation of `std::sort` that meets its specification `StdSort`, for every value of the
tolerance of `is_colinear` and for every content of the memory outside of the array that `find_abs_max_component` sorts.
-/

universe u

set_option linter.unusedSectionVars false
set_option linter.unusedSimpArgs false

namespace vm
variable {K : Type u} [Field K] [LinearOrder K] [IsStrictOrderedRing K]

/-- Insertion sort is an implementation of `std::sort`. -/
def refSort {α : Type u} (lt : α → α → Bool) (l : List α) : List α := l.insertionSort fun a b => lt b a = false

theorem refSort_spec {α : Type u} : StdSort (refSort (α := α)) := by
  intro lt l h
  refine ⟨List.perm_insertionSort _ _, ?_⟩
  let r : {x // x ∈ l} → {x // x ∈ l} → Prop := fun a b => lt b.1 a.1 = false
  have tot : Std.Total r := ⟨fun a b => by
    by_contra hc
    simp only [r, not_or, Bool.not_eq_false] at hc
    have := h.trans _ a.2 _ b.2 _ a.2 hc.2 hc.1
    rw [h.irrefl _ a.2] at this; cases this⟩
  have tr : IsTrans {x // x ∈ l} r := ⟨fun a b c hab hbc => by
    simp only [r] at *
    by_contra hc
    rw [Bool.not_eq_false] at hc
    rcases hba : lt a.1 b.1 with _ | _
    · rcases hcb : lt b.1 c.1 with _ | _
      · have := h.equiv_trans _ a.2 _ b.2 _ c.2 hba hab hcb hbc
        rw [this.2] at hc; cases hc
      · have := h.trans _ b.2 _ c.2 _ a.2 hcb hc
        rw [hab] at this; cases this
    · have := h.trans _ c.2 _ a.2 _ b.2 hc hba
      rw [hbc] at this; cases this⟩
  have e : refSort lt l = (l.attach.insertionSort r).map Subtype.val := by
    rw [List.map_insertionSort (s := fun a b => lt b a = false) (r := r) Subtype.val l.attach (by
      intro a _ b _; rfl), List.attach_map_subtype_val]
    rfl
  rw [e, List.pairwise_map]
  exact List.pairwise_insertionSort r l.attach

theorem swizzle_sub (a b : Vec K 3) (k : ℕ) : swizzle (a - b) k = swizzle a k - swizzle b k := by
  rcases k with _ | _ | k
  · apply ext3 <;> rfl
  · apply ext3 <;> rfl
  · rfl

theorem unswizzle_combo (a b : K) (x y : Vec K 3) (k : ℕ) :
    unswizzle (a • x + b • y) k = a • unswizzle x k + b • unswizzle y k := by
  rcases k with _ | _ | k
  · apply ext3 <;> rfl
  · apply ext3 <;> rfl
  · rfl

/-- The comparator given to `std::sort` is a strict weak order on the points that are sorted, namely all points but the
anchor, whatever the points are. -/
theorem C73_comparator (points tail : List (Vec K 3)) (anchor : Vec K 3) (h : findAnchor points = anchor :: tail) :
    StrictWeakOn (lessThanByAngle anchor) tail := by
  rcases points with _ | ⟨p, t⟩
  · have : findAnchor ([] : List (Vec K 3)) = [] := rfl
    rw [this] at h; cases h
  · obtain ⟨a, t', e, hperm, hup⟩ := Hull.findAnchor_spec (p :: t) (by simp)
    rw [e] at h
    cases h
    exact Hull.strictWeak anchor tail fun q hq => hup q (hperm.subset (List.mem_cons_of_mem _ hq))

/-- It is not a strict weak order on arbitrary points: three points around the anchor are each less than the next. -/
theorem C73_comparator_cyclic : ∃ a p q r : Vec ℚ 3, lessThanByAngle a p q = true ∧ lessThanByAngle a q r = true ∧
    lessThanByAngle a r p = true :=
  ⟨![0, 0, 0], ![2, 0, 0], ![-1, 2, 0], ![-1, -2, 0], by decide +kernel⟩

example : ∃ t a, findAnchor [![0, 0, 0], ![2, 2, 0], ![2, 0, 0], ![0, 2, (0:ℚ)]] = a :: t ∧ a = ![2, 0, 0] ∧ t.length = 3 :=
  ⟨[![2, 2, 0], ![0, 0, 0], ![0, 2, 0]], ![2, 0, 0], by decide +kernel⟩

/-- Specification of the colinearity test of the code. -/
theorem isColinear_cross (a b c : Vec K 3) {e : K} (he : 0 ≤ e) :
    isColinear a b c e = true ↔ dot (cross (b - a) (c - a)) (cross (b - a) (c - a)) ≤ e := by
  rw [isColinear_exact, isZero_exact_nonneg _ he, decide_eq_true_eq, lagrange]
  have : dot (a - c) (b - a) * dot (a - c) (b - a) - dot (a - c) (a - c) * dot (b - a) (b - a) =
      -(dot (b - a) (b - a) * dot (c - a) (c - a) - dot (b - a) (c - a) ^ 2) := by
    simp only [dot3, Pi.sub_apply]; ring
  rw [this, abs_neg, abs_of_nonneg]
  rw [← lagrange]; exact dot_self_nonneg _

/-- The projection along an axis of largest component of the normal keeps the three points off a line. -/
theorem hull_orient (p0 p1 third : Vec K 3) {e : K} (he : 0 ≤ e) (h : isColinear p0 p1 third e = false) (k : Fin 3)
    (hmax : ∀ j, |cross (third - p0) (p1 - p0) j| ≤ |cross (third - p0) (p1 - p0) k|) :
    cross (third - p0) (p1 - p0) k ≠ 0 ∧ orient2 (swizzle p0 k) (swizzle p1 k) (swizzle third k) ≠ 0 := by
  rw [← Bool.not_eq_true, isColinear_cross _ _ _ he, not_le] at h
  have hne : cross (third - p0) (p1 - p0) k ≠ 0 := by
    intro h0
    rw [h0, abs_zero] at hmax
    have hz : ∀ j, cross (third - p0) (p1 - p0) j = 0 := fun j => abs_eq_zero.1 (le_antisymm (hmax j) (abs_nonneg _))
    have h0 := hz 0
    have h1 := hz 1
    have h2 := hz 2
    simp only [cross_0, cross_1, cross_2] at h0 h1 h2
    have : dot (cross (p1 - p0) (third - p0)) (cross (p1 - p0) (third - p0)) = 0 := by
      simp only [dot3, cross_0, cross_1, cross_2]
      linear_combination (-((p1 - p0) 1 * (third - p0) 2 - (p1 - p0) 2 * (third - p0) 1)) * h0 +
        (-((p1 - p0) 2 * (third - p0) 0 - (p1 - p0) 0 * (third - p0) 2)) * h1 +
        (-((p1 - p0) 0 * (third - p0) 1 - (p1 - p0) 1 * (third - p0) 0)) * h2
    rw [this] at h
    exact absurd he h.not_ge
  refine ⟨hne, ?_⟩
  have e : orient2 (swizzle p0 k) (swizzle p1 k) (swizzle third k) = -cross (third - p0) (p1 - p0) k := by
    unfold orient2
    fin_cases k
    · show _ = -(cross (third - p0) (p1 - p0) 0)
      simp only [swizzle, cross_0, Pi.sub_apply, Matrix.cons_val_zero, Matrix.cons_val_one]; ring
    · show _ = -(cross (third - p0) (p1 - p0) 1)
      simp only [swizzle, cross_1, Pi.sub_apply, Matrix.cons_val_zero, Matrix.cons_val_one]; ring
    · show _ = -(cross (third - p0) (p1 - p0) 2)
      simp only [swizzle, cross_2, Pi.sub_apply]; ring
  rw [e]; exact neg_ne_zero.2 hne

/-- What the constructor does once a third point has been found. -/
theorem hull_axis (p0 p1 third : Vec K 3) {e : K} (he : 0 ≤ e) (h : isColinear p0 p1 third e = false)
    (junk : ℕ → K × ℕ) :
    ∃ k : Fin 3, computeAxis p0 p1 third junk = k ∧ cross (third - p0) (p1 - p0) k ≠ 0 ∧
      orient2 (swizzle p0 k) (swizzle p1 k) (swizzle third k) ≠ 0 := by
  obtain ⟨k, hk, hmax⟩ := C17_find_abs_max_first (cross (third - p0) (p1 - p0)) (by norm_num) junk
  exact ⟨k, hk, hull_orient p0 p1 third he h k hmax⟩

variable {sort : (Vec K 3 → Vec K 3 → Bool) → List (Vec K 3) → List (Vec K 3)}

/-- The shape of a result that is not empty. -/
theorem hull_cases (hsort : StdSort sort) {e : K} (he : 0 ≤ e) (junk : ℕ → K × ℕ) (p0 p1 p2 : Vec K 3)
    (rest : List (Vec K 3)) :
    (convexHullPoints sort e junk (p0 :: p1 :: p2 :: rest) = [] ∧ ∀ p ∈ p2 :: rest, isColinear p0 p1 p e = true) ∨
    ∃ third ∈ p2 :: rest, isColinear p0 p1 third e = false ∧ ∃ k : Fin 3, cross (third - p0) (p1 - p0) k ≠ 0 ∧
      orient2 (swizzle p0 k) (swizzle p1 k) (swizzle third k) ≠ 0 ∧
      convexHullPoints sort e junk (p0 :: p1 :: p2 :: rest) =
        (buildHull (sortPoints sort (findAnchor ((p0 :: p1 :: p2 :: rest).map fun p => swizzle p k)))).map
          (fun p => unswizzle p k) ∧
      3 ≤ (sortPoints sort (findAnchor ((p0 :: p1 :: p2 :: rest).map fun p => swizzle p k))).length := by
  rcases hf : findLinearlyIndependentPoint e p0 p1 (p2 :: rest) with _ | third
  · left
    constructor
    · simp only [convexHullPoints, hf]
    · unfold findLinearlyIndependentPoint at hf
      rw [List.find?_eq_none] at hf
      intro p hp
      simpa using hf p hp
  · right
    have hmem := List.mem_of_find?_eq_some hf
    have hcol : isColinear p0 p1 third e = false := by simpa using List.find?_some hf
    obtain ⟨k, hk, hne, hor⟩ := hull_axis p0 p1 third he hcol junk
    refine ⟨third, hmem, hcol, k, hne, hor, ?_⟩
    have hlen : 3 ≤ (sortPoints sort (findAnchor ((p0 :: p1 :: p2 :: rest).map fun p => swizzle p k))).length := by
      obtain ⟨a, q1, q2, r, e', -⟩ := Hull.sortPoints_spec hsort ((p0 :: p1 :: p2 :: rest).map fun p => swizzle p k)
        (swizzle p0 k) (swizzle p1 k) (swizzle third k) (List.mem_map_of_mem (by simp)) (List.mem_map_of_mem (by simp))
        (List.mem_map_of_mem (List.mem_cons_of_mem _ (List.mem_cons_of_mem _ hmem))) hor
      rw [e']; simp
    refine ⟨?_, hlen⟩
    simp only [convexHullPoints, hf, hk]
    rw [if_neg (by omega)]

/-- The result is empty exactly if there are fewer than three points, or all points are (within the tolerance of
`is_colinear`) on the line through the first two. -/
theorem C73_empty (hsort : StdSort sort) {e : K} (he : 0 ≤ e) (junk : ℕ → K × ℕ) (points : List (Vec K 3)) :
    convexHullPoints sort e junk points = [] ↔ points.length < 3 ∨
      ∃ p0 p1 rest, points = p0 :: p1 :: rest ∧
        ∀ p ∈ rest, squaredLength (cross (p1 - p0) (p - p0)) ≤ e := by
  rcases points with _ | ⟨p0, _ | ⟨p1, _ | ⟨p2, rest⟩⟩⟩
  · simp [convexHullPoints]
  · simp [convexHullPoints]
  · simp [convexHullPoints]
  · have hl : ¬ (p0 :: p1 :: p2 :: rest).length < 3 := by simp
    simp only [hl, false_or]
    rcases hull_cases hsort he junk p0 p1 p2 rest with ⟨h1, h2⟩ | ⟨third, hm, hc, k, -, -, heq, hlen⟩
    · refine ⟨fun _ => ⟨p0, p1, p2 :: rest, rfl, fun p hp => ?_⟩, fun _ => h1⟩
      rw [squaredLength, ← isColinear_cross _ _ _ he]; exact h2 p hp
    · constructor
      · intro h
        rw [heq, List.map_eq_nil_iff] at h
        rcases hs : sortPoints sort (findAnchor ((p0 :: p1 :: p2 :: rest).map fun p => swizzle p k)) with
          _ | ⟨a, _ | ⟨q1, _ | ⟨q2, r⟩⟩⟩
        · rw [hs] at hlen; simp at hlen
        · rw [hs] at hlen; simp at hlen
        · rw [hs] at hlen; simp at hlen
        · exfalso
          rw [hs, buildHull, List.reverse_eq_nil_iff] at h
          have : ∀ (l st : List (Vec K 3)), st ≠ [] → l.foldl (fun stack p => p :: popStalePoints p stack) st ≠ [] := by
            intro l
            induction l with
            | nil => intro st h; exact h
            | cons x l ih => intro st _; exact ih _ (by simp)
          exact this _ _ (by simp) h
      · rintro ⟨q0, q1, r, hq, hall⟩
        cases hq
        have := hall third hm
        rw [squaredLength, ← isColinear_cross _ _ _ he, hc] at this
        cases this

/-- With an exact test of colinearity and different first points: the result is empty exactly if there are fewer than
three points or all points are on a line.  Missing from C73: the case in which the first two points coincide, for which this
is false (`C73_empty_fails`). -/
theorem C73_empty_partial (hsort : StdSort sort) (junk : ℕ → K × ℕ) (points : List (Vec K 3))
    (hdiff : ∀ p0 p1 rest, points = p0 :: p1 :: rest → p0 ≠ p1) :
    convexHullPoints sort 0 junk points = [] ↔
      points.length < 3 ∨ Collinear K {p : Fin 3 → K | p ∈ points} := by
  rw [C73_empty hsort le_rfl]
  rcases points with _ | ⟨p0, _ | ⟨p1, rest⟩⟩
  · simp
  · simp
  · have hd := hdiff p0 p1 rest rfl
    apply or_congr_right
    have hcol : ∀ p, squaredLength (cross (p1 - p0) (p - p0)) ≤ 0 ↔ Collinear K ({p0, p1, p} : Set (Fin 3 → K)) := by
      intro p
      rw [squaredLength, ← isColinear_cross _ _ _ le_rfl, C21_isColinear]
    constructor
    · rintro ⟨q0, q1, r, hq, hall⟩
      cases hq
      rw [collinear_iff_of_mem (p₀ := p0) (by simp)]
      refine ⟨p1 - p0, fun p hp => ?_⟩
      have : Collinear K ({p0, p1, p} : Set (Fin 3 → K)) := by
        rcases List.mem_cons.1 hp with rfl | hp
        · rw [Set.pair_comm, Set.insert_comm, Set.insert_eq_of_mem (by simp)]
          exact collinear_pair K _ _
        rcases List.mem_cons.1 hp with rfl | hp
        · rw [Set.insert_eq_of_mem (show p ∈ ({p} : Set (Fin 3 → K)) from rfl)]
          exact collinear_pair K _ _
        · exact (hcol p).1 (hall p hp)
      obtain ⟨v, hv⟩ := (collinear_iff_of_mem (p₀ := p0) (by simp)).1 this
      obtain ⟨r1, h1⟩ := hv p1 (by simp)
      obtain ⟨r, h2⟩ := hv p (by simp)
      simp only [vadd_eq_add] at h1 h2
      have hr1 : r1 ≠ 0 := by
        rintro rfl
        rw [zero_smul, zero_add] at h1
        exact hd h1.symm
      refine ⟨r / r1, ?_⟩
      rw [vadd_eq_add, h1, add_sub_cancel_right, smul_smul, div_mul_cancel₀ _ hr1, ← h2]
    · intro h
      refine ⟨p0, p1, rest, rfl, fun p hp => (hcol p).2 (h.subset ?_)⟩
      rintro q (rfl | rfl | rfl)
      · simp
      · simp
      · simp [hp]

/-- Points on a line always give the empty hull, whatever the tolerance. -/
theorem C73_collinear_empty (hsort : StdSort sort) {e : K} (he : 0 ≤ e) (junk : ℕ → K × ℕ) (points : List (Vec K 3))
    (h : Collinear K {p : Fin 3 → K | p ∈ points}) : convexHullPoints sort e junk points = [] := by
  rw [C73_empty hsort he]
  rcases points with _ | ⟨p0, _ | ⟨p1, rest⟩⟩
  · simp
  · simp
  · right
    refine ⟨p0, p1, rest, rfl, fun p hp => le_trans ?_ he⟩
    rw [squaredLength, ← isColinear_cross _ _ _ le_rfl, C21_isColinear]
    refine h.subset ?_
    rintro q (rfl | rfl | rfl)
    · simp
    · simp
    · simp [hp]

/-- If the first point occurs twice at the beginning, the result is empty, though the points are the corners of a
triangle. -/
theorem C73_empty_fails : ∃ points : List (Vec ℚ 3), 3 ≤ points.length ∧
    (∃ x ∈ points, ∃ y ∈ points, ∃ z ∈ points, ¬ Collinear ℚ ({x, y, z} : Set (Fin 3 → ℚ))) ∧
    ∀ (sort : (Vec ℚ 3 → Vec ℚ 3 → Bool) → List (Vec ℚ 3) → List (Vec ℚ 3)) (junk : ℕ → ℚ × ℕ),
      convexHullPoints sort 0 junk points = [] := by
  refine ⟨[![0, 0, 0], ![0, 0, 0], ![1, 0, 0], ![0, 1, 0]], by simp,
    ⟨![0, 0, 0], by simp, ![1, 0, 0], by simp, ![0, 1, 0], by simp, ?_⟩, ?_⟩
  · rw [← C21_isColinear]; decide +kernel
  · intro sort junk
    have : findLinearlyIndependentPoint 0 ![0, 0, 0] ![0, 0, 0] [![1, 0, 0], ![0, 1, (0:ℚ)]] = none := by
      decide +kernel
    simp only [convexHullPoints, this]

/-- The hull that is computed after projection along an axis, if three of the projected points are not on a line. -/
theorem hull_core (hsort : StdSort sort) (points : List (Vec K 3)) (m : Vec K 3)
    (d : K) (hm : m ≠ 0) (hplane : ∀ p ∈ points, dot p m = d) (k : Fin 3) (p0 p1 third : Vec K 3) (m0 : p0 ∈ points) (m1 : p1 ∈ points)
    (m3 : third ∈ points) (hor : orient2 (swizzle p0 k) (swizzle p1 k) (swizzle third k) ≠ 0) (h : List (Vec K 3))
    (heq : h = (buildHull (sortPoints sort (findAnchor (points.map fun p => swizzle p k)))).map (fun p => unswizzle p k)) :
    3 ≤ h.length ∧ h.Nodup ∧ h.Subperm points ∧
    (∃ n : Vec K 3, (n = m ∨ n = -m) ∧
      (∀ i j k (_ : i < j) (_ : j < k) (_ : k < h.length), (0:K) ≤ dot (cross (h[j] - h[i]) (h[k] - h[i])) n) ∧
      (∀ j k (_ : 0 < j) (_ : j < k) (_ : k < h.length), (0:K) < dot (cross (h[j] - h[0]) (h[k] - h[0])) n) ∧
      ∀ i (hi : i < h.length), ∀ p ∈ points,
        0 ≤ dot (cross (h[(i + 1) % h.length]'(Nat.mod_lt _ (by omega)) - h[i]) (p - h[i])) n) ∧
    convexHull K {p : Fin 3 → K | p ∈ h} = convexHull K {p : Fin 3 → K | p ∈ points} := by
  have hmm : 0 < dot m m := dot_self_pos hm
  have hdiff : ∀ p ∈ points, ∀ q ∈ points, dot (p - q) m = 0 := by
    intro p hp q hq; rw [dot_sub_left, hplane p hp, hplane q hq, sub_self]
  have horient : ∀ a ∈ points, ∀ b ∈ points, ∀ c ∈ points,
      orient2 (swizzle a k) (swizzle b k) (swizzle c k) * dot m m = dot (cross (b - a) (c - a)) m * m k := by
    intro a ha b hb c hc
    rw [← swizzle_cross m _ _ (hdiff b hb a ha) (hdiff c hc a ha) k, swizzle_sub, swizzle_sub]
    rfl
  have hmk : m k ≠ 0 := by
    intro h0
    have := horient p0 m0 p1 m1 third m3
    rw [h0, mul_zero] at this
    rcases mul_eq_zero.1 this with h | h
    · exact hor h
    · exact hmm.ne' h
  -- the plane is the graph of an affine function after swizzling
  have hflat : ∀ p ∈ points.map fun p => swizzle p k,
      Hull.Flat (-(swizzle m k 0) / m k) (-(swizzle m k 1) / m k) (d / m k) p := by
    intro p hp
    obtain ⟨q, hq, rfl⟩ := List.mem_map.1 hp
    have h1 := hplane q hq
    rw [← (C18_preserves q m k).1, dot3, (C18_moves_axis m k).1] at h1
    unfold Hull.Flat
    rw [div_mul_eq_mul_div, div_mul_eq_mul_div, ← add_div, ← add_div, eq_div_iff hmk]
    linear_combination h1
  have H := Hull.hull_spec hsort (points.map fun p => swizzle p k) hflat (swizzle p0 k) (swizzle p1 k) (swizzle third k)
    (List.mem_map_of_mem m0) (List.mem_map_of_mem m1) (List.mem_map_of_mem m3) hor
  generalize hb : buildHull (sortPoints sort (findAnchor (points.map fun p => swizzle p k))) = g at *
  rw [heq]
  have hsw : ∀ x : Vec K 3, swizzle (unswizzle x k) k = x := fun x => (C18_inverse x k).2
  have hlen : (g.map fun p => unswizzle p k).length = g.length := List.length_map _
  have hget : ∀ i (hi : i < (g.map fun p => unswizzle p k).length),
      (g.map fun p => unswizzle p k)[i] = unswizzle (g[i]'(by rw [← hlen]; exact hi)) k := fun i hi => by
    rw [List.getElem_map]
  have hsub : (g.map fun p => unswizzle p k).Subperm points := by
    obtain ⟨l', hl1, hl2⟩ := H.sub
    have : (g.map fun p => unswizzle p k).Subperm ((points.map fun p => swizzle p k).map fun p => unswizzle p k) :=
      ⟨_, hl1.map _, hl2.map _⟩
    rw [List.map_map] at this
    have e2 : ((fun p : Vec K 3 => unswizzle p k) ∘ fun p => swizzle p k) = id := by
      funext p; exact (C18_inverse p k).1
    rw [e2, List.map_id] at this
    exact this
  have hmemg : ∀ i (hi : i < g.length), unswizzle g[i] k ∈ points := fun i hi =>
    hsub.subset (List.mem_map_of_mem (List.getElem_mem hi))
  have horient' : ∀ x ∈ points, ∀ y ∈ points, ∀ z ∈ points,
      orient2 (swizzle x k) (swizzle y k) (swizzle z k) * dot m m = dot (cross (y - x) (z - x)) m * m k := horient
  have hconv : ∀ s : Set (Fin 3 → K), Convex K s → (∀ x ∈ g.map fun p => unswizzle p k, x ∈ s) → ∀ x ∈ points, x ∈ s := by
    intro s hs hg x hx
    have := H.conv {y | unswizzle y k ∈ s} (by
      intro a ha b hb u v hu hv huv
      show unswizzle (u • a + v • b) k ∈ s
      rw [unswizzle_combo]
      exact hs ha hb hu hv huv) (fun y hy => hg _ (List.mem_map_of_mem hy)) (swizzle x k) (List.mem_map_of_mem hx)
    have e2 : unswizzle (swizzle x k) k = x := (C18_inverse x k).1
    show x ∈ s
    rw [← e2]; exact this
  -- the orientation
  obtain ⟨n, hn, hnn, hnk⟩ : ∃ n : Vec K 3, (n = m ∨ n = -m) ∧ (∀ x ∈ points, ∀ y ∈ points, ∀ z ∈ points,
      orient2 (swizzle x k) (swizzle y k) (swizzle z k) * dot m m = dot (cross (y - x) (z - x)) n * n k) ∧ 0 < n k := by
    rcases lt_or_gt_of_ne hmk with h | h
    · refine ⟨-m, Or.inr rfl, fun x hx y hy z hz => ?_, by simpa using h⟩
      rw [horient x hx y hy z hz, dot_neg_right, Pi.neg_apply, neg_mul_neg]
    · exact ⟨m, Or.inl rfl, horient, h⟩
  have hnonneg : ∀ x ∈ points, ∀ y ∈ points, ∀ z ∈ points, 0 ≤ orient2 (swizzle x k) (swizzle y k) (swizzle z k) →
      0 ≤ dot (cross (y - x) (z - x)) n := by
    intro x hx y hy z hz h
    have := mul_nonneg h hmm.le
    rw [hnn x hx y hy z hz] at this
    exact nonneg_of_mul_nonneg_left this hnk
  have hposi : ∀ x ∈ points, ∀ y ∈ points, ∀ z ∈ points, 0 < orient2 (swizzle x k) (swizzle y k) (swizzle z k) →
      0 < dot (cross (y - x) (z - x)) n := by
    intro x hx y hy z hz h
    have := mul_pos h hmm
    rw [hnn x hx y hy z hz] at this
    exact (mul_pos_iff_of_pos_right hnk).1 this
  have hedge : ∀ i (hi : i < g.length) j (hj : j < g.length),
      0 ≤ orient2 g[i] (g[(i + 1) % g.length]'(Nat.mod_lt _ (by omega))) g[j] := by
    intro i hi j hj
    by_cases hlast : i + 1 = g.length
    · have e1 : (i + 1) % g.length = 0 := by rw [hlast, Nat.mod_self]
      simp only [e1]
      rcases Nat.lt_trichotomy j 0 with h | h | h
      · omega
      · subst h; unfold orient2; ring_nf; exact le_rfl
      · rcases Nat.lt_trichotomy j i with h' | h' | h'
        · rw [← orient2_rotate]; exact (H.left 0 j i h h' hi)
        · subst h'; unfold orient2; ring_nf; exact le_rfl
        · omega
    · have e1 : (i + 1) % g.length = i + 1 := Nat.mod_eq_of_lt (by omega)
      simp only [e1]
      rcases Nat.lt_trichotomy j i with h | h | h
      · rw [orient2_rotate]; exact H.left j i (i + 1) h (by omega) (by omega)
      · subst h; unfold orient2; ring_nf; exact le_rfl
      · rcases Nat.lt_trichotomy j (i + 1) with h' | h' | h'
        · omega
        · subst h'; unfold orient2; ring_nf; exact le_rfl
        · exact H.left i (i + 1) j (by omega) h' hj
  refine ⟨by rw [hlen]; exact H.three, ?_, hsub, ⟨n, hn, ?_, ?_, ?_⟩, ?_⟩
  · -- no repetition
    rw [List.nodup_iff_pairwise_ne, List.pairwise_iff_getElem]
    intro i j hi hj hij he'
    rw [hget i hi, hget j hj] at he'
    have e3 := congrArg (fun x => swizzle x (k : ℕ)) he'
    simp only [hsw] at e3
    have hi' : i < g.length := by rw [← hlen]; exact hi
    have hj' : j < g.length := by rw [← hlen]; exact hj
    rcases Nat.eq_zero_or_pos i with h0 | h0
    · subst h0
      rcases Nat.lt_or_ge (j + 1) g.length with h' | h'
      · have := H.strict j (j + 1) hij (by omega) h'
        rw [← e3] at this
        unfold orient2 at this; ring_nf at this; exact lt_irrefl _ this
      · have h3 := H.three
        have := H.strict 1 j (by omega) (by omega) hj'
        rw [← e3] at this
        unfold orient2 at this; ring_nf at this; exact lt_irrefl _ this
    · have := H.strict i j h0 hij hj'
      rw [e3] at this
      unfold orient2 at this; ring_nf at this; exact lt_irrefl _ this
  · intro i j l hij hjl hl
    rw [hget i (by omega), hget j (by omega), hget l hl]
    rw [hlen] at hl
    apply hnonneg _ (hmemg _ _) _ (hmemg _ _) _ (hmemg _ _)
    rw [hsw, hsw, hsw]
    exact H.left i j l hij hjl hl
  · intro j l hj hjl hl
    rw [hget 0 (by omega), hget j (by omega), hget l hl]
    rw [hlen] at hl
    apply hposi _ (hmemg _ _) _ (hmemg _ _) _ (hmemg _ _)
    rw [hsw, hsw, hsw]
    exact H.strict j l hj hjl hl
  · intro i hi p hp
    have hi' : i < g.length := by rw [← hlen]; exact hi
    have key := hconv {x | 0 ≤ dot (cross (unswizzle (g[(i + 1) % g.length]'(Nat.mod_lt _ (by omega))) k -
      unswizzle g[i] k) (x - unswizzle g[i] k)) n} (by
        intro a ha b hb u v hu hv huv
        simp only [Set.mem_ofPred_eq] at ha hb ⊢
        have hv' : v = 1 - u := by linarith
        have := add_nonneg (mul_nonneg hu ha) (mul_nonneg hv hb)
        refine this.trans_eq ?_
        subst hv'
        simp only [dot3, cross_0, cross_1, cross_2, Pi.sub_apply, Pi.add_apply, Pi.smul_apply, smul_eq_mul]
        ring) (by
        intro x hx
        obtain ⟨y, hy, rfl⟩ := List.mem_map.1 hx
        obtain ⟨j, hj, rfl⟩ := List.mem_iff_getElem.1 hy
        apply hnonneg _ (hmemg _ _) _ (hmemg _ _) _ (hmemg _ _)
        rw [hsw, hsw, hsw]
        exact hedge i hi' j hj) p hp
    simp only [hlen, hget]
    exact key
  · apply subset_antisymm
    · exact convexHull_mono fun x hx => hsub.subset hx
    · exact convexHull_min (fun x hx => hconv _ (convex_convexHull K _) (fun y hy => subset_convexHull K _ hy) x hx)
        (convex_convexHull K _)

/-- The hull of points of a common plane with normal `m`, if it is not empty:
its vertices are input points, without repetition and at least three;
for one of the two unit directions of the normal it is a convex polygon that runs counterclockwise (every three vertices in
order make no right turn, and strictly a left turn if the first is the first vertex);
every input point is on the left of or on every edge;
and the convex hull (in the sense of convex geometry) of the vertices is that of the input. -/
theorem C73_hull (hsort : StdSort sort) {e : K} (he : 0 ≤ e) (junk : ℕ → K × ℕ) (points : List (Vec K 3)) (m : Vec K 3)
    (d : K) (hm : m ≠ 0) (hplane : ∀ p ∈ points, dot p m = d) (h : List (Vec K 3))
    (hh : convexHullPoints sort e junk points = h) (hne : h ≠ []) :
    3 ≤ h.length ∧ h.Nodup ∧ h.Subperm points ∧
    (∃ n : Vec K 3, (n = m ∨ n = -m) ∧
      (∀ i j k (_ : i < j) (_ : j < k) (_ : k < h.length), (0:K) ≤ dot (cross (h[j] - h[i]) (h[k] - h[i])) n) ∧
      (∀ j k (_ : 0 < j) (_ : j < k) (_ : k < h.length), (0:K) < dot (cross (h[j] - h[0]) (h[k] - h[0])) n) ∧
      ∀ i (hi : i < h.length), ∀ p ∈ points,
        0 ≤ dot (cross (h[(i + 1) % h.length]'(Nat.mod_lt _ (by omega)) - h[i]) (p - h[i])) n) ∧
    convexHull K {p : Fin 3 → K | p ∈ h} = convexHull K {p : Fin 3 → K | p ∈ points} := by
  subst hh
  rcases points with _ | ⟨p0, _ | ⟨p1, _ | ⟨p2, rest⟩⟩⟩
  · exact absurd rfl hne
  · exact absurd rfl hne
  · exact absurd rfl hne
  rcases hull_cases hsort he junk p0 p1 p2 rest with ⟨h1, -⟩ | ⟨third, hmem, hc, k, hcr, hor, heq, -⟩
  · exact absurd h1 hne
  exact hull_core hsort _ m d hm hplane k p0 p1 third (by simp) (by simp) (List.mem_cons_of_mem _ (List.mem_cons_of_mem _ hmem)) hor _ heq

/-- The vertices need not all be corners: a point in the middle of an edge of a square remains, if the edge is not next to the
lowest point. -/
theorem C73_not_minimal : convexHullPoints refSort 0 (fun i => (0, i))
      [![0, 0, 0], ![2, 0, 0], ![2, 2, 0], ![0, 2, 0], ![1, 2, (0:ℚ)]] =
    [![2, 0, 0], ![2, 2, 0], ![1, 2, 0], ![0, 2, 0], ![0, 0, 0]] := by
  decide +kernel

/-- The hypotheses of `C73_hull` for a tilted square with an inner point and a duplicate. -/
example : let points : List (Vec ℚ 3) := [![0, 0, 0], ![2, 0, 2], ![1, 1, 1], ![2, 2, 2], ![0, 2, 0], ![2, 2, 2]]
    (∀ p ∈ points, dot p ![1, 0, -1] = 0) ∧ (![1, 0, -1] : Vec ℚ 3) ≠ 0 ∧ StdSort (refSort (α := Vec ℚ 3)) ∧
    convexHullPoints refSort (1/100000) (fun i => (0, i)) points ≠ [] := by
  refine ⟨by decide +kernel, ?_, refSort_spec, by decide +kernel⟩
  intro h; simpa using congrFun h 0

end vm
