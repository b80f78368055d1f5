import Verif.Lemmas.PointInPolygon
import Verif.Props.Sort
import Verif.Props.Intersect
import Mathlib.Tactic.FinCases

/-!
# C69: points in polygons

`polygon_contains_point` projects the polygon along an axis and counts the edges that cross a half-line which
starts at the projected point.
-/

universe u

set_option linter.unusedSectionVars false
set_option linter.unusedSimpArgs false

namespace vm
variable {K : Type u} [Field K] [LinearOrder K] [IsStrictOrderedRing K] {m : ℕ}

/-- The vertices are in convex position, in counter-clockwise order when seen against the direction `n`:
every three of them, in the given order, turn left or are colinear. -/
def ConvexAbout (n : Vec K 3) (V : Fin (m + 1) → Vec K 3) : Prop :=
  ∀ i j k, i < j → j < k → 0 ≤ dot (cross (V j - V i) (V k - V i)) n

/-- The point is strictly to the left of every edge. -/
def InsideAbout (n : Vec K 3) (V : Fin (m + 1) → Vec K 3) (p : Vec K 3) : Prop :=
  ∀ i, 0 < dot (cross (V (i + 1) - V i) (p - V i)) n

/-- The point `t` along the edge from `a` to `b`. -/
def edgePoint (a b : Vec K 3) (t : K) : Vec K 3 := a + t • (b - a)

theorem swizzle_add' (a b : Vec K 3) (k : ℕ) : swizzle (a + b) k = swizzle a k + swizzle b k := by
  unfold swizzle; split <;> ext i <;> fin_cases i <;> rfl

theorem swizzle_sub' (a b : Vec K 3) (k : ℕ) : swizzle (a - b) k = swizzle a k - swizzle b k := by
  unfold swizzle; split <;> ext i <;> fin_cases i <;> rfl

theorem swizzle_smul' (t : K) (a : Vec K 3) (k : ℕ) : swizzle (t • a) k = t • swizzle a k := by
  unfold swizzle; split <;> ext i <;> fin_cases i <;> rfl

/-- For vectors orthogonal to `n` the projected cross product is a multiple of the true one. -/
theorem swizzle_cross (n u w : Vec K 3) (hu : dot u n = 0) (hw : dot w n = 0) (k : Fin 3) :
    (swizzle u k 0 * swizzle w k 1 - swizzle u k 1 * swizzle w k 0) * dot n n = dot (cross u w) n * n k := by
  simp only [dot3] at *
  fin_cases k <;>
    simp only [swizzle, cross_0, cross_1, cross_2, Matrix.cons_val_zero, Matrix.cons_val_one, Matrix.cons_val,
      Fin.mk_zero, Fin.mk_one, Fin.val_zero, Fin.val_one, Fin.zero_eta, Fin.isValue, Fin.reduceFinMk, Fin.val_two]
  · linear_combination (n 2 * u 1 - n 1 * u 2) * hw + (n 1 * w 2 - n 2 * w 1) * hu
  · linear_combination (n 0 * u 2 - n 2 * u 0) * hw + (n 2 * w 0 - n 0 * w 2) * hu
  · linear_combination (n 1 * u 0 - n 0 * u 1) * hw + (n 0 * w 1 - n 1 * w 0) * hu

/-- The edge point with the height of the point `p`, relative to `p`. -/
theorem crossing_point (a b p : Vec K 3) (k : ℕ)
    (hc : Crosses (swizzle a k - swizzle p k) (swizzle b k - swizzle p k)) :
    ∃ t : K, 0 ≤ t ∧ t ≤ 1 ∧ swizzle (edgePoint a b t - p) k 1 = 0 ∧
      swizzle (edgePoint a b t - p) k 0 = xcross (swizzle a k - swizzle p k) (swizzle b k - swizzle p k) := by
  set A := swizzle a k - swizzle p k with hA
  set B := swizzle b k - swizzle p k with hB
  have hne := crosses_ne hc
  have e : ∀ t, swizzle (edgePoint a b t - p) k = A + t • (B - A) := by
    intro t
    rw [hA, hB, edgePoint, swizzle_sub', swizzle_add', swizzle_smul', swizzle_sub']
    funext i
    simp only [Pi.sub_apply, Pi.add_apply, Pi.smul_apply, smul_eq_mul]
    ring
  refine ⟨-A 1 / (B 1 - A 1), ?_, ?_, ?_, ?_⟩
  · rcases hc with ⟨h1, h2⟩ | ⟨h1, h2⟩
    · exact div_nonneg (by linarith) (by linarith)
    · exact div_nonneg_of_nonpos (by linarith) (by linarith)
  · rcases hc with ⟨h1, h2⟩ | ⟨h1, h2⟩
    · rw [div_le_one (by linarith)]; linarith
    · rw [div_le_one_of_neg (by linarith)]; linarith
  · rw [e]
    simp only [Pi.sub_apply, Pi.add_apply, Pi.smul_apply, smul_eq_mul]
    rw [div_mul_cancel₀ _ hne]; ring
  · rw [e, ← xcross_eq hc]
    simp only [Pi.sub_apply, Pi.add_apply, Pi.smul_apply, smul_eq_mul]
    ring

/-- The crossing number of a convex polygon seen from either side. -/
theorem crossing_number_either (az : K) (haz : 0 ≤ az) (W : Fin (m + 1) → Vec K 3) (s : K) (hs : s ≠ 0)
    (hW : ∀ i j k, i < j → j < k → 0 ≤ s * orient2 (W i) (W j) (W k))
    (hdist : ∀ i, ¬ (W i 0 = W (i + 1) 0 ∧ W i 1 = W (i + 1) 1)) (hy : ∀ i, az < |W i 1|) :
    ((∀ i, 0 < s * cr (W i) (W (i + 1))) →
      (∃ i, handlePolygonEdgeIntersection az (W i) (W (i + 1)) = -1) ∨
      (∑ i, handlePolygonEdgeIntersection az (W i) (W (i + 1))) % 2 ≠ 0) ∧
    ((∀ i, Crosses (W i) (W (i + 1)) → az < |xcross (W i) (W (i + 1))|) → ¬ (∀ i, 0 < s * cr (W i) (W (i + 1))) →
      (∀ i, handlePolygonEdgeIntersection az (W i) (W (i + 1)) ≠ -1) ∧
      (∑ i, handlePolygonEdgeIntersection az (W i) (W (i + 1))) % 2 = 0) := by
  rcases lt_or_gt_of_ne hs with hs | hs
  · -- mirrored
    have ho : ∀ a b c : Vec K 3, orient2 (mirror a) (mirror b) (mirror c) = -orient2 a b c := by
      intro a b c; simp only [orient2, mirror, Matrix.cons_val_zero, Matrix.cons_val_one]; ring
    have hcr : ∀ a b : Vec K 3, cr (mirror a) (mirror b) = -cr a b := by
      intro a b; simp only [cr, mirror, Matrix.cons_val_zero, Matrix.cons_val_one]; ring
    have hin : Inside2 (fun i => mirror (W i)) ↔ ∀ i, 0 < s * cr (W i) (W (i + 1)) := by
      unfold Inside2
      refine forall_congr' fun i => ?_
      show 0 < cr (mirror (W i)) (mirror (W (i + 1))) ↔ _
      rw [hcr, neg_pos]
      exact ⟨fun h => mul_pos_of_neg_of_neg hs h, fun h => neg_of_mul_pos_right h hs.le⟩
    have hcs : ∀ a b : Vec K 3, Crosses (mirror a) (mirror b) ↔ Crosses a b := by
      intro a b
      simp only [Crosses, mirror, Matrix.cons_val_zero, Matrix.cons_val_one, neg_lt_zero, neg_pos]
      constructor
      · rintro (⟨h1, h2⟩ | ⟨h1, h2⟩)
        · exact Or.inr ⟨h2, h1⟩
        · exact Or.inl ⟨h2, h1⟩
      · rintro (⟨h1, h2⟩ | ⟨h1, h2⟩)
        · exact Or.inr ⟨h2, h1⟩
        · exact Or.inl ⟨h2, h1⟩
    have hx : ∀ a b : Vec K 3, xcross (mirror a) (mirror b) = xcross a b := by
      intro a b
      unfold xcross
      rw [hcr]
      simp only [mirror, Matrix.cons_val_zero, Matrix.cons_val_one]
      rw [show -b 1 - -a 1 = -(b 1 - a 1) by ring, neg_div_neg_eq]
    have := crossing_number (fun i => mirror (W i)) az haz
      (fun i j k hij hjk => by
        rw [ho]
        have := hW i j k hij hjk
        by_contra hc
        have := mul_neg_of_neg_of_pos hs (by linarith : 0 < orient2 (W i) (W j) (W k))
        linarith)
      (fun i h => hdist i ⟨h.1, by
        have h2 : -W i 1 = -W (i + 1) 1 := h.2
        linarith⟩)
      (fun i => by
        show az < |(-W i 1)|
        rw [abs_neg]; exact hy i)
    rw [hin] at this
    simp only [handle_mirror az haz, hcs, hx] at this
    exact this
  · have := crossing_number W az haz
      (fun i j k hij hjk => by
        have := hW i j k hij hjk
        exact (mul_nonneg_iff_of_pos_left hs).1 this)
      hdist hy
    have hin : Inside2 W ↔ ∀ i, 0 < s * cr (W i) (W (i + 1)) := by
      unfold Inside2
      refine forall_congr' fun i => ?_
      rw [mul_pos_iff_of_pos_left hs]
    rw [hin] at this
    exact this

/-- Let the vertices of a convex polygon, in either orientation, and the point be in a plane with normal `n`,
consecutive vertices being different.  Suppose that no vertex is at the height of the point, where the height is
the second coordinate after the projection along the axis chosen for `n`.  Then the function returns true if the
point is inside, and false if it is not inside, provided that no edge is within the tolerance of the point in
the scan direction.  The heights must be excluded, see `C69_fails`. -/
theorem C69_convex_partial (az : K) (haz : 0 ≤ az) (junk : ℕ → K × ℕ) (n : Vec K 3) (hn : n ≠ 0)
    (V : Fin (m + 1) → Vec K 3) (p : Vec K 3) (ν : Vec K 3) (hν : ν = n ∨ ν = -n)
    (hplane : ∀ i, dot (V i - p) n = 0) (hconv : ConvexAbout ν V) (hdist : ∀ i, V i ≠ V (i + 1))
    (hheight : ∀ i, az < |swizzle (V i - p) (findAbsMaxComponent n 0 junk) 1|) :
    (InsideAbout ν V p → polygonContainsPointNormal az junk p n (List.ofFn V) = some true) ∧
    (¬ InsideAbout ν V p →
      (∀ i, ∀ t : K, 0 ≤ t → t ≤ 1 → swizzle (edgePoint (V i) (V (i + 1)) t - p) (findAbsMaxComponent n 0 junk) 1 = 0 →
        az < |swizzle (edgePoint (V i) (V (i + 1)) t - p) (findAbsMaxComponent n 0 junk) 0|) →
      polygonContainsPointNormal az junk p n (List.ofFn V) = some false) := by
  obtain ⟨k, hk, hkmax⟩ := C17_find_abs_max_first n (by norm_num) junk
  rw [hk] at hheight ⊢
  have hnk : n k ≠ 0 := by
    intro h
    apply hn
    funext j
    have := hkmax j
    rw [h, abs_zero] at this
    exact abs_eq_zero.1 (le_antisymm this (abs_nonneg _))
  have hνk : ν k ≠ 0 := by
    rcases hν with rfl | rfl
    · exact hnk
    · simpa using hnk
  have hν0 : ν ≠ 0 := fun h => hνk (by rw [h]; rfl)
  have hνν : 0 < dot ν ν := dot_self_pos hν0
  have hpl : ∀ i, dot (V i - p) ν = 0 := by
    intro i
    rcases hν with rfl | rfl
    · exact hplane i
    · rw [dot_neg_right, hplane i, neg_zero]
  set W : Fin (m + 1) → Vec K 3 := fun i => swizzle (V i) k - swizzle p k with hW
  have hWe : ∀ i, W i = swizzle (V i - p) k := fun i => (swizzle_sub' _ _ _).symm
  have horient : ∀ i j l, ν k * orient2 (W i) (W j) (W l) * dot ν ν =
      dot (cross (V j - V i) (V l - V i)) ν * (ν k * ν k) := by
    intro i j l
    have h1 : dot (V j - V i) ν = 0 := by
      rw [show V j - V i = (V j - p) - (V i - p) by abel, dot_sub_left, hpl, hpl, sub_zero]
    have h2 : dot (V l - V i) ν = 0 := by
      rw [show V l - V i = (V l - p) - (V i - p) by abel, dot_sub_left, hpl, hpl, sub_zero]
    have := swizzle_cross ν _ _ h1 h2 k
    simp only [swizzle_sub', Pi.sub_apply] at this
    simp only [orient2, hW, Pi.sub_apply]
    linear_combination ν k * this
  have hcr : ∀ i, ν k * cr (W i) (W (i + 1)) * dot ν ν =
      dot (cross (V (i + 1) - V i) (p - V i)) ν * (ν k * ν k) := by
    intro i
    have := swizzle_cross ν _ _ (hpl i) (hpl (i + 1)) k
    rw [← hWe, ← hWe] at this
    have e : dot (cross (V (i + 1) - V i) (p - V i)) ν = dot (cross (V i - p) (V (i + 1) - p)) ν := by
      congr 1
      apply ext3 <;> simp only [cross_0, cross_1, cross_2, Pi.sub_apply] <;> ring
    rw [e]
    simp only [cr]
    linear_combination ν k * this
  have hkk : 0 < ν k * ν k := mul_self_pos.2 hνk
  have hin : InsideAbout ν V p ↔ ∀ i, 0 < ν k * cr (W i) (W (i + 1)) := by
    refine forall_congr' fun i => ?_
    rw [← mul_pos_iff_of_pos_right hkk, ← hcr, mul_pos_iff_of_pos_right hνν]
  have hcn := crossing_number_either az haz W (ν k) hνk
    (fun i j l hij hjl => by
      rw [← mul_nonneg_iff_of_pos_right hνν, horient]
      exact mul_nonneg (hconv i j l hij hjl) hkk.le)
    (fun i h => by
      apply hdist i
      -- the projection is injective on the plane
      have hd : dot (V i - V (i + 1)) n = 0 := by
        rw [show V i - V (i + 1) = (V i - p) - (V (i + 1) - p) by abel, dot_sub_left, hplane, hplane, sub_zero]
      obtain ⟨h1, h2⟩ := h
      simp only [hW, Pi.sub_apply, sub_left_inj] at h1 h2
      rw [dot3] at hd
      simp only [Pi.sub_apply] at hd
      clear_value W
      fin_cases k <;>
        simp only [swizzle, Matrix.cons_val_zero, Matrix.cons_val_one, Matrix.cons_val,
          Fin.mk_zero, Fin.mk_one, Fin.val_zero, Fin.val_one, Fin.zero_eta, Fin.isValue, Fin.reduceFinMk,
          Fin.val_two] at h1 h2 hnk
      · rw [h1, h2, sub_self, sub_self, zero_mul, zero_mul, add_zero, add_zero] at hd
        exact ext3 (sub_eq_zero.1 ((mul_eq_zero.1 hd).resolve_right hnk)) h1 h2
      · rw [h1, h2, sub_self, sub_self, zero_mul, zero_mul, add_zero, zero_add] at hd
        exact ext3 h2 (sub_eq_zero.1 ((mul_eq_zero.1 hd).resolve_right hnk)) h1
      · rw [h1, h2, sub_self, sub_self, zero_mul, zero_mul, add_zero, zero_add] at hd
        exact ext3 h1 h2 (sub_eq_zero.1 ((mul_eq_zero.1 hd).resolve_right hnk)))
    (fun i => by rw [hWe]; exact hheight i)
  unfold polygonContainsPointNormal
  rw [hk, contains_ofFn]
  constructor
  · intro h
    rw [Option.some.injEq, decide_eq_true_eq]
    exact hcn.1 (hin.1 h)
  · intro h ht
    rw [Option.some.injEq, decide_eq_false_iff_not]
    have := hcn.2 (fun i hc => by
      obtain ⟨t, t0, t1, e1, e0⟩ := crossing_point (V i) (V (i + 1)) p k hc
      have := ht i t t0 t1 e1
      rw [e0] at this
      exact this) (fun h' => h (hin.2 h'))
    rintro (⟨i, hi⟩ | hs)
    · exact this.1 i hi
    · exact hs this.2

/-- The even-odd rule, for every polygon: in general position the function tells whether the number of edges that
meet the half-line is odd.  The half-line starts at the point and has the direction of the first
coordinate after the projection. -/
theorem C69_even_odd (az : K) (haz : 0 ≤ az) (axis : ℕ) (V : Fin (m + 1) → Vec K 3) (p : Vec K 3)
    (hheight : ∀ i, az < |swizzle (V i - p) axis 1|)
    (hclear : ∀ i, ∀ t : K, 0 ≤ t → t ≤ 1 → swizzle (edgePoint (V i) (V (i + 1)) t - p) axis 1 = 0 →
        az < |swizzle (edgePoint (V i) (V (i + 1)) t - p) axis 0|) :
    ∃ crossed : Finset (Fin (m + 1)),
      (∀ i, i ∈ crossed ↔ ∃ t : K, 0 ≤ t ∧ t ≤ 1 ∧ swizzle (edgePoint (V i) (V (i + 1)) t - p) axis 1 = 0 ∧
        0 < swizzle (edgePoint (V i) (V (i + 1)) t - p) axis 0) ∧
      polygonContainsPoint az p axis (List.ofFn V) = some (decide (Odd crossed.card)) := by
  classical
  set W : Fin (m + 1) → Vec K 3 := fun i => swizzle (V i) axis - swizzle p axis with hW
  have hWe : ∀ i, W i = swizzle (V i - p) axis := fun i => (swizzle_sub' _ _ _).symm
  have hspec := fun i => handle_spec az haz (W i) (W (i + 1)) (by rw [hWe]; exact hheight i)
    (by rw [hWe]; exact hheight (i + 1))
  have h0 : ∀ i, W i 1 ≠ 0 := by
    intro i h
    have := hheight i
    rw [← hWe, h, abs_zero] at this; exact absurd this (not_lt.2 haz)
  have hx : ∀ i, Crosses (W i) (W (i + 1)) → az < |xcross (W i) (W (i + 1))| := by
    intro i hc
    obtain ⟨t, t0, t1, e1, e0⟩ := crossing_point (V i) (V (i + 1)) p axis hc
    have := hclear i t t0 t1 e1
    rw [e0] at this; exact this
  have hval : ∀ i, handlePolygonEdgeIntersection az (W i) (W (i + 1)) =
      if Crosses (W i) (W (i + 1)) ∧ 0 < xcross (W i) (W (i + 1)) then 1 else 0 := by
    intro i
    by_cases hc : Crosses (W i) (W (i + 1))
    · rcases (hspec i).2 hc with ⟨-, h2⟩ | ⟨h1, h2⟩ | ⟨h1, h2⟩
      · exact absurd (hx i hc) (not_lt.2 h2)
      · rw [h1, if_pos ⟨hc, h2⟩]
      · rw [h1, if_neg fun h => absurd h.2 (not_lt.2 h2.le)]
    · rw [(hspec i).1 hc, if_neg fun h => hc h.1]
  refine ⟨Finset.univ.filter fun i => Crosses (W i) (W (i + 1)) ∧ 0 < xcross (W i) (W (i + 1)), ?_, ?_⟩
  · intro i
    rw [Finset.mem_filter]
    constructor
    · rintro ⟨-, hc, hpos⟩
      obtain ⟨t, t0, t1, e1, e0⟩ := crossing_point (V i) (V (i + 1)) p axis hc
      exact ⟨t, t0, t1, e1, by rw [e0]; exact hpos⟩
    · rintro ⟨t, t0, t1, e1, hpos⟩
      have e : swizzle (edgePoint (V i) (V (i + 1)) t - p) axis = W i + t • (W (i + 1) - W i) := by
        rw [hWe, hWe, edgePoint]
        simp only [swizzle_sub', swizzle_add', swizzle_smul']
        funext i
        simp only [Pi.sub_apply, Pi.add_apply, Pi.smul_apply, smul_eq_mul]
        ring
      rw [e] at e1 hpos
      simp only [Pi.sub_apply, Pi.add_apply, Pi.smul_apply, smul_eq_mul] at e1 hpos
      have e1' : (1 - t) * W i 1 + t * W (i + 1) 1 = 0 := by linear_combination e1
      have hc : Crosses (W i) (W (i + 1)) := by
        rcases lt_or_gt_of_ne (h0 i) with h1 | h1 <;> rcases lt_or_gt_of_ne (h0 (i + 1)) with h2 | h2
        · exfalso
          have a1 := mul_nonneg (sub_nonneg.2 t1) (neg_pos.2 h1).le
          have a2 := mul_nonneg t0 (neg_pos.2 h2).le
          rcases t0.lt_or_eq with ht | ht
          · have := mul_pos ht (neg_pos.2 h2); linarith
          · rw [← ht] at e1'; simp at e1'; exact h0 i e1'
        · exact Or.inl ⟨h1, h2⟩
        · exact Or.inr ⟨h2, h1⟩
        · exfalso
          have a1 := mul_nonneg (sub_nonneg.2 t1) h1.le
          have a2 := mul_nonneg t0 h2.le
          rcases t0.lt_or_eq with ht | ht
          · have := mul_pos ht h2; linarith
          · rw [← ht] at e1'; simp at e1'; exact h0 i e1'
      refine ⟨Finset.mem_univ _, hc, ?_⟩
      have hne := crosses_ne hc
      have ht : t = -W i 1 / (W (i + 1) 1 - W i 1) := by
        rw [eq_div_iff hne]; linear_combination e1
      rw [← xcross_eq hc]
      rw [ht] at hpos
      have e2 : -W i 1 * (W (i + 1) 0 - W i 0) / (W (i + 1) 1 - W i 1) + W i 0 =
          W i 0 + -W i 1 / (W (i + 1) 1 - W i 1) * (W (i + 1) 0 - W i 0) := by ring
      rw [e2]; exact hpos
  · rw [contains_ofFn, Option.some.injEq]
    have hsum : ∑ i, handlePolygonEdgeIntersection az (W i) (W (i + 1)) =
        ((Finset.univ.filter fun i => Crosses (W i) (W (i + 1)) ∧ 0 < xcross (W i) (W (i + 1))).card : ℤ) := by
      rw [Finset.sum_congr rfl fun i _ => hval i, Finset.card_filter]
      push_cast
      rfl
    have hnone : ¬ ∃ i, handlePolygonEdgeIntersection az (W i) (W (i + 1)) = -1 := by
      rintro ⟨i, hi⟩
      rw [hval i] at hi
      split_ifs at hi
    rw [Bool.eq_iff_iff, decide_eq_true_eq, decide_eq_true_eq]
    change ((∃ i, handlePolygonEdgeIntersection az (W i) (W (i + 1)) = -1) ∨
      (∑ i, handlePolygonEdgeIntersection az (W i) (W (i + 1))) % 2 ≠ 0) ↔ _
    rw [hsum, or_iff_right hnone, Nat.odd_iff]
    omega

/-- A point within the tolerance of some vertex is contained in every polygon with that vertex. -/
theorem C69_vertex (az : K) (haz : 0 ≤ az) (axis : ℕ) (V : Fin (m + 1) → Vec K 3) (p : Vec K 3) (i : Fin (m + 1))
    (h : ∀ j, |V i j - p j| ≤ az) : polygonContainsPoint az p axis (List.ofFn V) = some true := by
  rw [contains_ofFn, Option.some.injEq, decide_eq_true_eq]
  refine Or.inl ⟨i, ?_⟩
  unfold handlePolygonEdgeIntersection
  rw [if_pos]
  unfold visZero
  rw [List.all_eq_true]
  intro j _
  rw [isZero_exact_nonneg _ haz, decide_eq_true_eq]
  beta_reduce
  rw [← swizzle_sub']
  unfold swizzle
  split <;> fin_cases j <;> first | exact h 0 | exact h 1 | exact h 2

/-- A point on an edge is contained in every polygon with that edge, unless the end points of the edge are at the
height of the point (up to the tolerance). -/
theorem C69_edge (az : K) (haz : 0 ≤ az) (axis : ℕ) (V : Fin (m + 1) → Vec K 3) (i : Fin (m + 1)) (t : K)
    (h0 : 0 ≤ t) (h1 : t ≤ 1)
    (hheight : ¬ (|swizzle (V i - edgePoint (V i) (V (i + 1)) t) axis 1| ≤ az ∧
      |swizzle (V (i + 1) - edgePoint (V i) (V (i + 1)) t) axis 1| ≤ az)) :
    polygonContainsPoint az (edgePoint (V i) (V (i + 1)) t) axis (List.ofFn V) = some true := by
  rw [contains_ofFn, Option.some.injEq, decide_eq_true_eq]
  refine Or.inl ⟨i, ?_⟩
  set A := swizzle (V i) axis with hA
  set B := swizzle (V (i + 1)) axis with hB
  have ep : swizzle (edgePoint (V i) (V (i + 1)) t) axis = A + t • (B - A) := by
    rw [edgePoint, swizzle_add', swizzle_smul', swizzle_sub']
  have ea : A - swizzle (edgePoint (V i) (V (i + 1)) t) axis = -(t • (B - A)) := by
    rw [ep]; abel
  have eb : B - swizzle (edgePoint (V i) (V (i + 1)) t) axis = (1 - t) • (B - A) := by
    rw [ep]
    funext j
    simp only [Pi.sub_apply, Pi.add_apply, Pi.smul_apply, smul_eq_mul]; ring
  rw [swizzle_sub', swizzle_sub', ← hA, ← hB, ea, eb] at hheight
  beta_reduce
  rw [← hA, ← hB, ea, eb]
  have ht1 : 0 ≤ 1 - t := by linarith
  simp only [Pi.neg_apply, Pi.sub_apply, Pi.smul_apply, smul_eq_mul] at hheight
  have hne : B 1 - A 1 ≠ 0 := by
    intro h
    apply hheight
    rw [h, mul_zero, mul_zero, neg_zero, abs_zero]
    exact ⟨haz, haz⟩
  unfold handlePolygonEdgeIntersection
  split_ifs with c1 c2 c3 c4
  · rfl
  · exfalso
    simp only [Pi.neg_apply, Pi.sub_apply, Pi.smul_apply, smul_eq_mul, Bool.or_eq_true, Bool.and_eq_true,
      isZero_exact_nonneg _ haz, exact_lt, decide_eq_true_eq] at c2
    rcases c2 with (c2 | ⟨c2, c3⟩) | ⟨c2, c3⟩
    · exact hheight c2
    · have hb : 0 < B 1 - A 1 := by
        rcases lt_or_gt_of_ne hne with hh | hh
        · have := mul_nonneg ht1 (neg_pos.2 hh).le; linarith
        · exact hh
      have := mul_nonneg h0 hb.le; linarith
    · have hb : B 1 - A 1 < 0 := by
        rcases lt_or_gt_of_ne hne with hh | hh
        · exact hh
        · have := mul_nonneg ht1 hh.le; linarith
      have := mul_nonneg h0 (neg_pos.2 hb).le; linarith
  · exfalso
    simp only [Pi.neg_apply, Pi.sub_apply, Pi.smul_apply, smul_eq_mul, Bool.and_eq_true, exact_lt,
      decide_eq_true_eq] at c3
    obtain ⟨c3, c4⟩ := c3
    rcases le_total 0 (B 0 - A 0) with hh | hh
    · have := mul_nonneg h0 hh; linarith
    · have := mul_nonneg ht1 (neg_nonneg.2 hh); linarith
  · exfalso
    simp only [Pi.neg_apply, Pi.sub_apply, Pi.smul_apply, smul_eq_mul, Bool.and_eq_true, exact_lt,
      decide_eq_true_eq] at c4
    obtain ⟨c3, c4⟩ := c4
    rcases le_total 0 (B 0 - A 0) with hh | hh
    · have := mul_nonneg ht1 hh; linarith
    · have := mul_nonneg h0 (neg_nonneg.2 hh); linarith
  · have hz : -(-(t • (B - A))) 1 * (((1 - t) • (B - A)) 0 - (-(t • (B - A))) 0) /
        (((1 - t) • (B - A)) 1 - (-(t • (B - A))) 1) + (-(t • (B - A))) 0 = 0 := by
      simp only [Pi.neg_apply, Pi.sub_apply, Pi.smul_apply, smul_eq_mul]
      rw [show (1 - t) * (B 1 - A 1) - -(t * (B 1 - A 1)) = B 1 - A 1 by ring]
      field_simp
      ring
    simp only [hz]
    rw [if_pos]
    rw [isZero_exact_nonneg _ haz, abs_zero]
    exact decide_eq_true haz

/-- The centre of a diamond is not contained in it: the half-line passes through a vertex, which is counted twice. -/
theorem C69_fails (junk : ℕ → ℚ × ℕ) :
    let V : Fin 4 → Vec ℚ 3 := ![![1, 0, 0], ![0, 1, 0], ![-1, 0, 0], ![0, -1, 0]]
    ConvexAbout ![0, 0, 1] V ∧ InsideAbout ![0, 0, 1] V 0 ∧
    polygonContainsPointNormal (1 / 1000) junk 0 ![0, 0, 1] (List.ofFn V) = some false := by
  intro V
  refine ⟨?_, ?_, ?_⟩
  · show ∀ i j k : Fin 4, i < j → j < k → 0 ≤ dot (cross (V j - V i) (V k - V i)) ![0, 0, 1]
    decide +kernel
  · show ∀ i : Fin 4, 0 < dot (cross (V (i + 1) - V i) (0 - V i)) ![0, 0, 1]
    decide +kernel
  have hk : findAbsMaxComponent (![0, 0, 1] : Vec ℚ 3) 0 junk = 2 := by
    obtain ⟨k, hk, hkmax⟩ := C17_find_abs_max_first (![0, 0, 1] : Vec ℚ 3) (by norm_num) junk
    rw [hk]
    have := hkmax 2
    fin_cases k
    · exact absurd this (by decide +kernel)
    · exact absurd this (by decide +kernel)
    · rfl
  unfold polygonContainsPointNormal
  rw [hk]
  decide +kernel

/-- `intersect_ray_polygon` for a convex polygon in a plane with unit normal which the ray meets at distance `t`:
if the common point is inside the polygon then the result is `t`, and if it is outside, as in
`C69_convex_partial`, the result is NaN.  If the ray does not meet the plane the result is NaN. -/
theorem C69_ray_polygon_partial (az : K) (haz : 0 ≤ az) (junk : ℕ → K × ℕ) (r : Ray K 3) (pl : Plane K 3)
    (hn : dot pl.normal pl.normal = 1) (V : Fin (m + 1) → Vec K 3) (ν : Vec K 3)
    (hν : ν = pl.normal ∨ ν = -pl.normal) (hplane : ∀ i, planeEval pl (V i) = 0) (hconv : ConvexAbout ν V)
    (hdist : ∀ i, V i ≠ V (i + 1)) :
    (∀ t : K, az < |dot r.direction pl.normal| → -az ≤ t → planeEval pl (r.origin + t • r.direction) = 0 →
      (∀ i, az < |swizzle (V i - (r.origin + t • r.direction)) (findAbsMaxComponent pl.normal 0 junk) 1|) →
      (InsideAbout ν V (r.origin + t • r.direction) →
        intersectRayPolygon az junk r pl (List.ofFn V) = some (some t)) ∧
      (¬ InsideAbout ν V (r.origin + t • r.direction) →
        (∀ i, ∀ s : K, 0 ≤ s → s ≤ 1 →
          swizzle (edgePoint (V i) (V (i + 1)) s - (r.origin + t • r.direction))
            (findAbsMaxComponent pl.normal 0 junk) 1 = 0 →
          az < |swizzle (edgePoint (V i) (V (i + 1)) s - (r.origin + t • r.direction))
            (findAbsMaxComponent pl.normal 0 junk) 0|) →
        intersectRayPolygon az junk r pl (List.ofFn V) = some none)) ∧
    (¬ (az < |dot r.direction pl.normal| ∧ ∃ t : K, -az ≤ t ∧ planeEval pl (r.origin + t • r.direction) = 0) →
      intersectRayPolygon az junk r pl (List.ofFn V) = some none) := by
  constructor
  · intro t h1 h2 h3 hheight
    have hn0 : pl.normal ≠ 0 := by
      intro h; rw [h, dot_zero_left] at hn; exact zero_ne_one hn
    have hco : ∀ i, dot (V i - (r.origin + t • r.direction)) pl.normal = 0 := by
      intro i
      have := hplane i
      unfold planeEval at this h3
      rw [dot_sub_left]; linarith
    have key := C69_convex_partial az haz junk pl.normal hn0 V _ ν hν hco hconv hdist hheight
    have hp : pointAtDistance r.origin r.direction t = r.origin + t • r.direction := by
      unfold pointAtDistance; rw [vscale_eq_smul]
    unfold intersectRayPolygon
    rw [(C64_ray_plane az haz r pl hn t).2 ⟨h1, h3, h2⟩]
    simp only [hp]
    constructor
    · intro h; rw [key.1 h]; rfl
    · intro h ht; rw [key.2 h ht]; rfl
  · intro h
    unfold intersectRayPolygon
    rcases hr : intersectRayPlane az r pl with _ | t
    · rfl
    · have := (C64_ray_plane az haz r pl hn t).1 hr
      exact absurd ⟨this.1, t, this.2.2, this.2.1⟩ h

/-! ### Non-vacuity -/

/-- A tilted square around the origin. -/
def tiltedSquare : Fin 4 → Vec ℚ 3 := ![![2, 1, 0], ![-1, 2, 0], ![-2, -1, 0], ![1, -2, 0]]

theorem tilted_convex : ConvexAbout ![0, 0, 1] tiltedSquare := by
  show ∀ i j k : Fin 4, i < j → j < k →
    0 ≤ dot (cross (tiltedSquare j - tiltedSquare i) (tiltedSquare k - tiltedSquare i)) ![0, 0, 1]
  decide +kernel

theorem z_axis_max (junk : ℕ → ℚ × ℕ) (s : ℚ) (hs : s ≠ 0) :
    findAbsMaxComponent (![0, 0, s] : Vec ℚ 3) 0 junk = 2 := by
  obtain ⟨k, hk, hkmax⟩ := C17_find_abs_max_first (![0, 0, s] : Vec ℚ 3) (by norm_num) junk
  rw [hk]
  have := hkmax 2
  fin_cases k
  · exact absurd (show |s| ≤ |0| from this) (by simpa using hs)
  · exact absurd (show |s| ≤ |0| from this) (by simpa using hs)
  · rfl

/-- The origin is inside and found to be so. -/
example (junk : ℕ → ℚ × ℕ) :
    polygonContainsPointNormal (1 / 1000) junk 0 ![0, 0, 1] (List.ofFn tiltedSquare) = some true := by
  refine (C69_convex_partial (1 / 1000) (by norm_num) junk _ (by decide +kernel) tiltedSquare 0 ![0, 0, 1] (Or.inl rfl)
    (by decide +kernel) tilted_convex (by decide +kernel) ?_).1 ?_
  · rw [z_axis_max _ _ (by decide)]; decide +kernel
  · show ∀ i : Fin 4, 0 < dot (cross (tiltedSquare (i + 1) - tiltedSquare i) (0 - tiltedSquare i)) ![0, 0, 1]
    decide +kernel

/-- The edges of the square at the height of the point `(5, 0, 0)` are to the left of it. -/
theorem tilted_clear : ∀ i, ∀ t : ℚ, 0 ≤ t → t ≤ 1 →
    swizzle (edgePoint (tiltedSquare i) (tiltedSquare (i + 1)) t - ![5, 0, 0]) 2 1 = 0 →
    1 / 1000 < |swizzle (edgePoint (tiltedSquare i) (tiltedSquare (i + 1)) t - ![5, 0, 0]) 2 0| := by
  intro i t h0 h1 h
  have e : ∀ j, swizzle (edgePoint (tiltedSquare i) (tiltedSquare (i + 1)) t - ![5, 0, 0]) 2 j =
      tiltedSquare i j + t * (tiltedSquare (i + 1) j - tiltedSquare i j) - (![5, 0, 0] : Vec ℚ 3) j := fun j => rfl
  rw [e] at h ⊢
  rw [lt_abs]
  right
  fin_cases i <;>
    (simp only [tiltedSquare, Fin.zero_eta, Fin.mk_one, Fin.reduceFinMk, Fin.isValue, Fin.reduceAdd, zero_add,
      Matrix.cons_val_zero, Matrix.cons_val_one, Matrix.cons_val] at h ⊢; norm_num at h ⊢; linarith)

/-- A point outside, with all hypotheses of the second part. -/
example (junk : ℕ → ℚ × ℕ) :
    polygonContainsPointNormal (1 / 1000) junk ![5, 0, 0] ![0, 0, 1] (List.ofFn tiltedSquare) = some false := by
  refine (C69_convex_partial (1 / 1000) (by norm_num) junk _ (by decide +kernel) tiltedSquare ![5, 0, 0] ![0, 0, 1]
    (Or.inl rfl) (by decide +kernel) tilted_convex (by decide +kernel) ?_).2 ?_ ?_
  · rw [z_axis_max _ _ (by decide)]; decide +kernel
  · show ¬ ∀ i : Fin 4, 0 < dot (cross (tiltedSquare (i + 1) - tiltedSquare i) (![5, 0, 0] - tiltedSquare i)) ![0, 0, 1]
    decide +kernel
  · rw [z_axis_max _ _ (by decide)]; exact tilted_clear

/-- A ray hitting the square, seen from above (so that the order of the vertices is clockwise for the normal). -/
example (junk : ℕ → ℚ × ℕ) :
    intersectRayPolygon (1 / 1000) junk ⟨![0, 0, 7], ![0, 0, -1]⟩ ⟨0, ![0, 0, -1]⟩ (List.ofFn tiltedSquare) =
      some (some 7) := by
  refine ((C69_ray_polygon_partial (1 / 1000) (by norm_num) junk ⟨![0, 0, 7], ![0, 0, -1]⟩ ⟨0, ![0, 0, -1]⟩
    (by decide +kernel) tiltedSquare ![0, 0, 1] (Or.inr (by decide +kernel))
    (by unfold planeEval; decide +kernel) tilted_convex (by decide +kernel)).1 7
    (by decide +kernel) (by decide +kernel) (by unfold planeEval; decide +kernel) ?_).1 ?_
  · rw [z_axis_max _ _ (by decide)]; decide +kernel
  · show ∀ i : Fin 4, 0 < dot (cross (tiltedSquare (i + 1) - tiltedSquare i)
      ((![0, 0, 7] + (7 : ℚ) • ![0, 0, -1]) - tiltedSquare i)) ![0, 0, 1]
    decide +kernel

/-- The even-odd rule applies to the outside point as well. -/
example : ∃ crossed : Finset (Fin 4),
    polygonContainsPoint (1 / 1000) ![5, 0, 0] 2 (List.ofFn tiltedSquare) = some (decide (Odd crossed.card)) := by
  obtain ⟨c, -, h⟩ := C69_even_odd (1 / 1000) (by norm_num) 2 tiltedSquare ![5, 0, 0] (by decide +kernel) tilted_clear
  exact ⟨c, h⟩

/-- A vertex and a point of an edge. -/
example : polygonContainsPoint (1 / 1000 : ℚ) ![2, 1, 0] 2 (List.ofFn tiltedSquare) = some true ∧
    polygonContainsPoint (1 / 1000 : ℚ) (edgePoint (tiltedSquare 0) (tiltedSquare (0 + 1)) (1 / 3)) 2
      (List.ofFn tiltedSquare) = some true :=
  ⟨C69_vertex _ (by norm_num) 2 tiltedSquare _ 0 (by decide +kernel),
   C69_edge _ (by norm_num) 2 tiltedSquare 0 (1 / 3) (by norm_num) (by norm_num) (by decide +kernel)⟩

end vm
