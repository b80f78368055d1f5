import Verif.Model.Intersect
import Verif.Lemmas.Vec
import Verif.Lemmas.Scalar
import Mathlib.Logic.Equiv.Fin.Rotate
import Mathlib.Algebra.BigOperators.Fin
import Mathlib.Algebra.Order.BigOperators.Group.Finset
import Mathlib.Tactic.Linarith
import Mathlib.Tactic.LinearCombination
import Mathlib.Tactic.FieldSimp
import Mathlib.Tactic.Ring

/-! # The crossing number of a convex polygon -/

universe u

set_option linter.unusedSectionVars false
set_option linter.unusedSimpArgs false

namespace vm
variable {K : Type u} [Field K] [LinearOrder K] [IsStrictOrderedRing K]

/-- Twice the signed area of the triangle `a b c`, first two coordinates. -/
def orient2 (a b c : Vec K 3) : K := (b 0 - a 0) * (c 1 - a 1) - (b 1 - a 1) * (c 0 - a 0)

/-- The cross product of the first two coordinates: `orient2 a b 0`. -/
def cr (a b : Vec K 3) : K := a 0 * b 1 - a 1 * b 0

/-- The abscissa where the edge crosses the X axis. -/
def xcross (a b : Vec K 3) : K := cr a b / (b 1 - a 1)

/-- The end points of the edge are on different sides of the X axis. -/
def Crosses (a b : Vec K 3) : Prop := (a 1 < 0 ∧ 0 < b 1) ∨ (b 1 < 0 ∧ 0 < a 1)

theorem crosses_ne {a b : Vec K 3} (h : Crosses a b) : b 1 - a 1 ≠ 0 := by
  rcases h with h | h
  · exact (by linarith [h.1, h.2] : (0 : K) < b 1 - a 1).ne'
  · exact (by linarith [h.1, h.2] : b 1 - a 1 < 0).ne

theorem xcross_mul {a b : Vec K 3} (h : Crosses a b) : xcross a b * (b 1 - a 1) = cr a b :=
  div_mul_cancel₀ _ (crosses_ne h)

theorem xcross_eq {a b : Vec K 3} (h : Crosses a b) :
    -(a 1) * (b 0 - a 0) / (b 1 - a 1) + a 0 = xcross a b := by
  have := crosses_ne h
  unfold xcross cr
  field_simp
  ring

/-- The value computed for an edge whose end points are not near the X axis. -/
theorem handle_spec (az : K) (haz : 0 ≤ az) (a b : Vec K 3) (ha : az < |a 1|) (hb : az < |b 1|) :
    (¬ Crosses a b → handlePolygonEdgeIntersection az a b = 0) ∧
    (Crosses a b →
      (handlePolygonEdgeIntersection az a b = -1 ∧ |xcross a b| ≤ az) ∨
      (handlePolygonEdgeIntersection az a b = 1 ∧ 0 < xcross a b) ∨
      (handlePolygonEdgeIntersection az a b = 0 ∧ xcross a b < 0)) := by
  have ha0 : a 1 ≠ 0 := by intro h; rw [h, abs_zero] at ha; exact absurd ha (not_lt.2 haz)
  have hb0 : b 1 ≠ 0 := by intro h; rw [h, abs_zero] at hb; exact absurd hb (not_lt.2 haz)
  have hvz : visZero a az = false := by
    rw [← Bool.not_eq_true]
    intro h
    unfold visZero at h
    rw [List.all_eq_true] at h
    have := h 1 (List.mem_finRange 1)
    rw [isZero_exact_nonneg _ haz, decide_eq_true_eq] at this
    exact absurd this (not_le.2 ha)
  have hiz : isZero (a 1) az = false := by
    rw [isZero_exact_nonneg _ haz, decide_eq_false_iff_not]; exact not_le.2 ha
  unfold handlePolygonEdgeIntersection
  simp only [hvz, hiz, Bool.false_and, Bool.false_or, exact_lt, Bool.or_eq_true, Bool.and_eq_true,
    decide_eq_true_eq, if_false, Bool.false_eq_true]
  constructor
  · intro hc
    rw [if_pos]
    rcases lt_or_gt_of_ne ha0 with h1 | h1 <;> rcases lt_or_gt_of_ne hb0 with h2 | h2
    · exact Or.inr ⟨h1, h2⟩
    · exact absurd (Or.inl ⟨h1, h2⟩) hc
    · exact absurd (Or.inr ⟨h2, h1⟩) hc
    · exact Or.inl ⟨h1, h2⟩
  · intro hc
    have hx := xcross_mul hc
    have hne := crosses_ne hc
    rw [if_neg (by
      rcases hc with ⟨h1, h2⟩ | ⟨h1, h2⟩
      · rintro (⟨h3, -⟩ | ⟨-, h3⟩)
        · exact absurd h3 (not_lt.2 h1.le)
        · exact absurd h3 (not_lt.2 h2.le)
      · rintro (⟨-, h3⟩ | ⟨h3, -⟩)
        · exact absurd h3 (not_lt.2 h1.le)
        · exact absurd h3 (not_lt.2 h2.le))]
    -- the intercept has the common sign of the abscissae
    have hpos : 0 < a 0 → 0 < b 0 → 0 < xcross a b := by
      intro h1 h2
      unfold xcross cr
      rcases hc with ⟨h3, h4⟩ | ⟨h3, h4⟩
      · apply div_pos
        · nlinarith [mul_pos h1 h4, mul_pos h2 (neg_pos.2 h3)]
        · linarith
      · apply div_pos_of_neg_of_neg
        · nlinarith [mul_pos h1 (neg_pos.2 h3), mul_pos h2 h4]
        · linarith
    have hneg : a 0 < 0 → b 0 < 0 → xcross a b < 0 := by
      intro h1 h2
      unfold xcross cr
      rcases hc with ⟨h3, h4⟩ | ⟨h3, h4⟩
      · apply div_neg_of_neg_of_pos
        · nlinarith [mul_pos (neg_pos.2 h1) h4, mul_pos (neg_pos.2 h2) (neg_pos.2 h3)]
        · linarith
      · apply div_neg_of_pos_of_neg
        · nlinarith [mul_pos (neg_pos.2 h1) (neg_pos.2 h3), mul_pos (neg_pos.2 h2) h4]
        · linarith
    by_cases h1 : 0 < a 0 ∧ 0 < b 0
    · rw [if_pos h1]; exact Or.inr (Or.inl ⟨rfl, hpos h1.1 h1.2⟩)
    rw [if_neg h1]
    by_cases h2 : a 0 < 0 ∧ b 0 < 0
    · rw [if_pos h2]; exact Or.inr (Or.inr ⟨rfl, hneg h2.1 h2.2⟩)
    rw [if_neg h2, xcross_eq hc, isZero_exact_nonneg _ haz]
    simp only [decide_eq_true_eq]
    by_cases h3 : |xcross a b| ≤ az
    · rw [if_pos h3]; exact Or.inl ⟨rfl, h3⟩
    rw [if_neg h3]
    by_cases h4 : 0 < xcross a b
    · rw [if_pos h4]; exact Or.inr (Or.inl ⟨rfl, h4⟩)
    · rw [if_neg h4]
      refine Or.inr (Or.inr ⟨rfl, lt_of_le_of_ne (not_lt.1 h4) fun h => ?_⟩)
      rw [h, abs_zero] at h3; exact h3 haz

section core
variable {m : ℕ} (V : Fin (m + 1) → Vec K 3)

/-- Vertices of a convex polygon in counter-clockwise order (colinear vertices are allowed). -/
def ConvexCcw2 : Prop := ∀ i j k, i < j → j < k → 0 ≤ orient2 (V i) (V j) (V k)

/-- The origin is strictly to the left of every edge. -/
def Inside2 : Prop := ∀ i, 0 < cr (V i) (V (i + 1))

theorem orient2_rotate (a b c : Vec K 3) : orient2 b c a = orient2 a b c := by unfold orient2; ring

theorem orient2_swap (a b c : Vec K 3) : orient2 a c b = -orient2 a b c := by unfold orient2; ring

theorem next_lt (i : Fin (m + 1)) (h : i < Fin.last m) : (i + 1).val = i.val + 1 ∧ i < i + 1 := by
  have h' : i.val < m := h
  have : (i + 1).val = i.val + 1 := by rw [Fin.val_add_one_of_lt h]
  exact ⟨this, by rw [Fin.lt_def, this]; omega⟩

theorem next_last (i : Fin (m + 1)) (h : ¬ i < Fin.last m) : i = Fin.last m ∧ i + 1 = 0 := by
  have : i = Fin.last m := le_antisymm (Fin.le_last i) (not_lt.1 h)
  exact ⟨this, by rw [this, Fin.last_add_one]⟩

/-- Every vertex is to the left of every edge. -/
theorem left_of_edge (hV : ConvexCcw2 V) (i k : Fin (m + 1)) : 0 ≤ orient2 (V i) (V (i + 1)) (V k) := by
  by_cases hi : i < Fin.last m
  · obtain ⟨h1, h2⟩ := next_lt i hi
    rcases lt_trichotomy k i with h | h | h
    · have := hV k i (i + 1) h h2
      rw [orient2_rotate (V k)]; exact this
    · rw [h]; unfold orient2; apply le_of_eq; ring
    · rcases (show i + 1 < k ∨ i + 1 = k by
        rw [Fin.lt_def, Fin.ext_iff, h1]; rw [Fin.lt_def] at h; omega) with h' | h'
      · exact hV i (i + 1) k h2 h'
      · rw [h']; unfold orient2; apply le_of_eq; ring
  · obtain ⟨h1, h2⟩ := next_last i hi
    rw [h2]
    rcases lt_trichotomy k i with h | h | h
    · rcases (Fin.zero_le k).lt_or_eq with h0 | h0
      · have := hV 0 k i h0 h
        rw [← orient2_rotate (V i)]; exact this
      · rw [← h0]; unfold orient2; apply le_of_eq; ring
    · rw [h]; unfold orient2; apply le_of_eq; ring
    · exact absurd h (not_lt.2 (h1 ▸ Fin.le_last k))

/-- The point where an edge crosses the X axis is to the left of every edge. -/
theorem crossing_left (hV : ConvexCcw2 V) (i j : Fin (m + 1)) (hj : Crosses (V j) (V (j + 1))) :
    xcross (V j) (V (j + 1)) * (V (i + 1) 1 - V i 1) ≤ cr (V i) (V (i + 1)) := by
  have h1 := left_of_edge V hV i j
  have h2 := left_of_edge V hV i (j + 1)
  have hx := xcross_mul hj
  set a := V i
  set b := V (i + 1)
  set c := V j
  set d := V (j + 1)
  set x := xcross c d
  -- (x, 0) is a convex combination of c and d
  have key : (d 1 - c 1) * (cr a b - x * (b 1 - a 1)) = d 1 * orient2 a b c - c 1 * orient2 a b d := by
    unfold cr at hx
    unfold cr orient2
    linear_combination (-(b 1 - a 1)) * hx
  rcases hj with ⟨h3, h4⟩ | ⟨h3, h4⟩
  · have : 0 ≤ (d 1 - c 1) * (cr a b - x * (b 1 - a 1)) := by
      rw [key]; nlinarith [mul_nonneg h4.le h1, mul_nonneg (neg_pos.2 h3).le h2]
    have hp : 0 < d 1 - c 1 := by linarith
    have := nonneg_of_mul_nonneg_right this hp
    linarith
  · have : (d 1 - c 1) * (cr a b - x * (b 1 - a 1)) ≤ 0 := by
      rw [key]; nlinarith [mul_nonneg (neg_pos.2 h3).le h1, mul_nonneg h4.le h2]
    have hn : d 1 - c 1 < 0 := by linarith
    by_contra hc
    have := mul_pos_of_neg_of_neg hn (by linarith : cr a b - x * (b 1 - a 1) < 0)
    linarith

/-- Going upwards through the X axis. -/
def Up (i : Fin (m + 1)) : Prop := V i 1 < 0 ∧ 0 < V (i + 1) 1

/-- Going downwards through the X axis. -/
def Down (i : Fin (m + 1)) : Prop := V (i + 1) 1 < 0 ∧ 0 < V i 1

instance (i : Fin (m + 1)) : Decidable (Up V i) := by unfold Up; infer_instance
instance (i : Fin (m + 1)) : Decidable (Down V i) := by unfold Down; infer_instance

theorem sum_next (f : Fin (m + 1) → K) : ∑ i, f (i + 1) = ∑ i, f i := by
  have := Equiv.sum_comp (finRotate (m + 1)) f
  simpa [finRotate_apply] using this

theorem sum_next_int (f : Fin (m + 1) → ℤ) : ∑ i, f (i + 1) = ∑ i, f i := by
  have := Equiv.sum_comp (finRotate (m + 1)) f
  simpa [finRotate_apply] using this

/-- There are as many upward as downward edges. -/
theorem up_eq_down (h0 : ∀ i, V i 1 ≠ 0) :
    ∑ i, (if Up V i then (1 : ℤ) else 0) = ∑ i, (if Down V i then (1 : ℤ) else 0) := by
  have e : ∀ i, (if Up V i then (1 : ℤ) else 0) - (if Down V i then (1 : ℤ) else 0) =
      (if 0 < V (i + 1) 1 then 1 else 0) - (if 0 < V i 1 then 1 else 0) := by
    intro i
    unfold Up Down
    rcases lt_or_gt_of_ne (h0 i) with h1 | h1 <;> rcases lt_or_gt_of_ne (h0 (i + 1)) with h2 | h2 <;>
      simp [h1, h2, not_lt.2 h1.le, not_lt.2 h2.le]
  have := Finset.sum_congr rfl fun i (_ : i ∈ Finset.univ) => e i
  rw [Finset.sum_sub_distrib, Finset.sum_sub_distrib,
    sum_next_int (fun i => if 0 < V i 1 then (1 : ℤ) else 0), sub_self, sub_eq_zero] at this
  exact this

/-- If the origin is strictly between the crossings then there is only one upward edge. -/
theorem up_unique (hV : ConvexCcw2 V) (xu xd : K) (hlt : xd < xu)
    (hu : ∀ i, Up V i → xcross (V i) (V (i + 1)) = xu) (d : Fin (m + 1)) (hd : Down V d)
    (hxd : xcross (V d) (V (d + 1)) = xd) (i j : Fin (m + 1)) (hi : Up V i) (hj : Up V j) : i = j := by
  -- it is enough to exclude i < j
  have main : ∀ i j, Up V i → Up V j → i < j → False := by
    intro i j hi hj hij
    have hci : Crosses (V i) (V (i + 1)) := Or.inl hi
    have hcj : Crosses (V j) (V (j + 1)) := Or.inl hj
    have hcd : Crosses (V d) (V (d + 1)) := Or.inr hd
    -- both edges are on the same line
    have hxi := xcross_mul hci
    have hxj := xcross_mul hcj
    rw [hu i hi] at hxi
    rw [hu j hj] at hxj
    have l1 := left_of_edge V hV i j
    have l2 := left_of_edge V hV i (j + 1)
    have l3 := left_of_edge V hV j i
    have l4 := left_of_edge V hV j (i + 1)
    -- some vertex is strictly left of that line
    obtain ⟨k, hk⟩ : ∃ k, 0 < orient2 (V i) (V (i + 1)) (V k) := by
      by_contra hc
      push Not at hc
      have z1 := le_antisymm (hc d) (left_of_edge V hV i d)
      have z2 := le_antisymm (hc (d + 1)) (left_of_edge V hV i (d + 1))
      have hx := xcross_mul hcd
      rw [hxd] at hx
      have key : (V (d + 1) 1 - V d 1) * (cr (V i) (V (i + 1)) - xd * (V (i + 1) 1 - V i 1)) =
          V (d + 1) 1 * orient2 (V i) (V (i + 1)) (V d) - V d 1 * orient2 (V i) (V (i + 1)) (V (d + 1)) := by
        unfold cr at hx
        unfold cr orient2
        linear_combination (-(V (i + 1) 1 - V i 1)) * hx
      rw [z1, z2, mul_zero, mul_zero, sub_zero, ← hxi] at key
      have hne := crosses_ne hcd
      have h2 : xu * (V (i + 1) 1 - V i 1) - xd * (V (i + 1) 1 - V i 1) = 0 := by
        rcases mul_eq_zero.1 key with h | h
        · exact absurd h hne
        · exact h
      have hp : 0 < V (i + 1) 1 - V i 1 := by linarith [hi.1, hi.2]
      nlinarith [mul_pos (sub_pos.2 hlt) hp]
    obtain ⟨ha, hb⟩ := hi
    obtain ⟨hc, hd'⟩ := hj
    set a := V i with hadef
    set b := V (i + 1) with hbdef
    set c := V j with hcdef
    set e := V (j + 1) with hedef
    have hα : 0 < b 1 - a 1 := by linarith
    have hγ : 0 < e 1 - c 1 := by linarith
    -- slopes
    obtain ⟨s1, hs1⟩ : ∃ s1, s1 * (b 1 - a 1) = b 0 - a 0 := ⟨(b 0 - a 0) / (b 1 - a 1), div_mul_cancel₀ _ hα.ne'⟩
    obtain ⟨s2, hs2⟩ : ∃ s2, s2 * (e 1 - c 1) = e 0 - c 0 := ⟨(e 0 - c 0) / (e 1 - c 1), div_mul_cancel₀ _ hγ.ne'⟩
    unfold cr at hxi hxj
    have pa : a 0 = xu + s1 * a 1 := by
      apply mul_right_cancel₀ hα.ne'
      linear_combination -hxi - a 1 * hs1
    have pb : b 0 = xu + s1 * b 1 := by linear_combination pa - hs1
    have pc : c 0 = xu + s2 * c 1 := by
      apply mul_right_cancel₀ hγ.ne'
      linear_combination -hxj - c 1 * hs2
    have pe : e 0 = xu + s2 * e 1 := by linear_combination pc - hs2
    have on1 : ∀ p q k : Vec K 3, p 0 = xu + s1 * p 1 → q 0 = xu + s1 * q 1 →
        orient2 p q k = (q 1 - p 1) * (xu + s1 * k 1 - k 0) := by
      intro p q k hp hq
      unfold orient2
      rw [hp, hq]; ring
    have hs : s1 = s2 := by
      rw [on1 a b c pa pb] at l1
      rw [on1 a b e pa pb] at l2
      have h1 := nonneg_of_mul_nonneg_right l1 hα
      have h2 := nonneg_of_mul_nonneg_right l2 hα
      rw [pc] at h1
      rw [pe] at h2
      have h3 : 0 ≤ (s1 - s2) * c 1 := by linarith
      have h4 : 0 ≤ (s1 - s2) * e 1 := by linarith
      apply le_antisymm
      · by_contra h
        have := mul_neg_of_pos_of_neg (sub_pos.2 (not_le.1 h)) hc
        linarith
      · by_contra h
        have := mul_neg_of_neg_of_pos (sub_neg.2 (not_le.1 h)) hd'
        linarith
    rw [← hs] at pc pe
    have hw : 0 < xu + s1 * V k 1 - V k 0 := by
      rw [on1 a b (V k) pa pb] at hk
      exact (mul_pos_iff_of_pos_left hα).1 hk
    have offline : ∀ x : Fin (m + 1), V x 0 = xu + s1 * V x 1 → k ≠ x := by
      rintro x hx rfl
      rw [hx] at hw; linarith
    have hki : k ≠ i := offline i pa
    have hkj : k ≠ j := offline j pc
    have hilast : i < Fin.last m := lt_of_lt_of_le hij (Fin.le_last j)
    obtain ⟨vi, hi1⟩ := next_lt i hilast
    have hi1j : i + 1 < j := by
      have hne : i + 1 ≠ j := by
        intro h
        rw [hbdef, h, ← hcdef] at hb
        linarith
      refine lt_of_le_of_ne ?_ hne
      rw [Fin.le_def, vi]; rw [Fin.lt_def] at hij; omega
    have hbc : orient2 b c (V k) < 0 := by
      rw [on1 b c (V k) pb pc]
      exact mul_neg_of_neg_of_pos (by linarith) hw
    rcases lt_or_gt_of_ne hki with h1 | h1
    · have := hV k (i + 1) j (h1.trans hi1) hi1j
      rw [← orient2_rotate] at this
      exact absurd this (not_le.2 hbc)
    · rcases lt_or_gt_of_ne hkj with h2 | h2
      · by_cases hjl : j < Fin.last m
        · obtain ⟨-, hj1⟩ := next_lt j hjl
          have := hV i k (j + 1) h1 (h2.trans hj1)
          rw [orient2_swap, on1 a e (V k) pa pe] at this
          have := mul_pos (by linarith : 0 < e 1 - a 1) hw
          linarith
        · obtain ⟨-, hj0⟩ := next_last j hjl
          have hi0 : i ≠ 0 := by
            intro h
            rw [hedef, hj0, ← h, ← hadef] at hd'
            linarith
          have := hV 0 i k (Fin.pos_of_ne_zero hi0) h1
          rw [← hj0, ← hedef, on1 e a (V k) pe pa] at this
          have := mul_neg_of_neg_of_pos (by linarith : a 1 - e 1 < 0) hw
          linarith
      · have := hV (i + 1) j k hi1j h2
        exact absurd this (not_le.2 hbc)
  rcases lt_trichotomy i j with h | h | h
  · exact (main i j hi hj h).elim
  · exact h
  · exact (main j i hj hi h).elim

/-- The number of crossings of a convex polygon. -/
theorem crossing_number (az : K) (haz : 0 ≤ az) (hV : ConvexCcw2 V) (hdist : ∀ i, ¬ (V i 0 = V (i + 1) 0 ∧ V i 1 = V (i + 1) 1))
    (hy : ∀ i, az < |V i 1|) :
    (Inside2 V → (∃ i, handlePolygonEdgeIntersection az (V i) (V (i + 1)) = -1) ∨
      (∑ i, handlePolygonEdgeIntersection az (V i) (V (i + 1))) % 2 ≠ 0) ∧
    ((∀ i, Crosses (V i) (V (i + 1)) → az < |xcross (V i) (V (i + 1))|) → ¬ Inside2 V →
      (∀ i, handlePolygonEdgeIntersection az (V i) (V (i + 1)) ≠ -1) ∧
      (∑ i, handlePolygonEdgeIntersection az (V i) (V (i + 1))) % 2 = 0) := by
  have h0 : ∀ i, V i 1 ≠ 0 := by
    intro i h
    have := hy i
    rw [h, abs_zero] at this; exact absurd this (not_lt.2 haz)
  have hspec := fun i => handle_spec az haz (V i) (V (i + 1)) (hy i) (hy (i + 1))
  have hcross : ∀ i, Crosses (V i) (V (i + 1)) ↔ Up V i ∨ Down V i := fun i => Iff.rfl
  have hexcl : ∀ i, Up V i → ¬ Down V i := fun i h h' => absurd (h.1.trans h'.2) (lt_irrefl _)
  -- the value of an edge, if the search is not cancelled
  have hval : ∀ i, handlePolygonEdgeIntersection az (V i) (V (i + 1)) ≠ -1 →
      handlePolygonEdgeIntersection az (V i) (V (i + 1)) =
        if (Up V i ∨ Down V i) ∧ 0 < xcross (V i) (V (i + 1)) then 1 else 0 := by
    intro i hne
    by_cases hc : Crosses (V i) (V (i + 1))
    · rcases (hspec i).2 hc with ⟨h1, -⟩ | ⟨h1, h2⟩ | ⟨h1, h2⟩
      · exact absurd h1 hne
      · rw [h1, if_pos ⟨(hcross i).1 hc, h2⟩]
      · rw [h1, if_neg fun h => absurd h.2 (not_lt.2 h2.le)]
    · rw [(hspec i).1 hc, if_neg fun h => hc ((hcross i).2 h.1)]
  -- all upward edges cross at the same place, and all downward edges, which cross left of the upward ones
  have hle : ∀ i j, Up V i → Crosses (V j) (V (j + 1)) → xcross (V j) (V (j + 1)) ≤ xcross (V i) (V (i + 1)) := by
    intro i j hi hj
    have := crossing_left V hV i j hj
    have hp : 0 < V (i + 1) 1 - V i 1 := by linarith [hi.1, hi.2]
    rw [← xcross_mul ((hcross i).2 (Or.inl hi))] at this
    exact le_of_mul_le_mul_right this hp
  have hge : ∀ i j, Down V i → Crosses (V j) (V (j + 1)) → xcross (V i) (V (i + 1)) ≤ xcross (V j) (V (j + 1)) := by
    intro i j hi hj
    have := crossing_left V hV i j hj
    have hp : V (i + 1) 1 - V i 1 < 0 := by linarith [hi.1, hi.2]
    rw [← xcross_mul ((hcross i).2 (Or.inr hi))] at this
    exact (mul_le_mul_right_of_neg hp).1 this
  by_cases hnone : ∀ i, ¬ Crosses (V i) (V (i + 1))
  · -- no edge crosses the axis: all vertices are on one side
    have hzero : ∀ i, handlePolygonEdgeIntersection az (V i) (V (i + 1)) = 0 := fun i => (hspec i).1 (hnone i)
    have hnot : ¬ Inside2 V := by
      intro hin
      have hpos : ∀ i, 0 < V i 0 / V i 1 - V (i + 1) 0 / V (i + 1) 1 := by
        intro i
        have hprod : 0 < V i 1 * V (i + 1) 1 := by
          rcases lt_or_gt_of_ne (h0 i) with h1 | h1 <;> rcases lt_or_gt_of_ne (h0 (i + 1)) with h2 | h2
          · exact mul_pos_of_neg_of_neg h1 h2
          · exact absurd (Or.inl ⟨h1, h2⟩) (hnone i)
          · exact absurd (Or.inr ⟨h2, h1⟩) (hnone i)
          · exact mul_pos h1 h2
        have e : V i 0 / V i 1 - V (i + 1) 0 / V (i + 1) 1 = cr (V i) (V (i + 1)) / (V i 1 * V (i + 1) 1) := by
          have := h0 i
          have := h0 (i + 1)
          unfold cr
          field_simp
        rw [e]
        exact div_pos (hin i) hprod
      have hs : 0 < ∑ i, (V i 0 / V i 1 - V (i + 1) 0 / V (i + 1) 1) :=
        Finset.sum_pos (fun i _ => hpos i) Finset.univ_nonempty
      rw [Finset.sum_sub_distrib, sum_next (fun i => V i 0 / V i 1), sub_self] at hs
      exact lt_irrefl _ hs
    refine ⟨fun h => absurd h hnot, fun _ _ => ⟨fun i => by rw [hzero i]; decide, ?_⟩⟩
    rw [Finset.sum_congr rfl fun i _ => hzero i]; simp
  · push Not at hnone
    obtain ⟨i0, hi0⟩ := hnone
    -- there is an upward and a downward edge
    have hbal := up_eq_down V h0
    obtain ⟨u, hu⟩ : ∃ u, Up V u := by
      by_contra hc
      push Not at hc
      rcases (hcross i0).1 hi0 with h | h
      · exact hc i0 h
      · rw [Finset.sum_eq_zero fun i _ => if_neg (hc i)] at hbal
        have := (Finset.sum_eq_zero_iff_of_nonneg fun i _ => by split_ifs <;> norm_num).1 hbal.symm i0 (Finset.mem_univ _)
        rw [if_pos h] at this; exact absurd this one_ne_zero
    obtain ⟨d, hd⟩ : ∃ d, Down V d := by
      by_contra hc
      push Not at hc
      rcases (hcross i0).1 hi0 with h | h
      · rw [Finset.sum_eq_zero fun i _ => if_neg (hc i)] at hbal
        have := (Finset.sum_eq_zero_iff_of_nonneg fun i _ => by split_ifs <;> norm_num).1 hbal i0 (Finset.mem_univ _)
        rw [if_pos h] at this; exact absurd this one_ne_zero
      · exact hc i0 h
    have hcu : Crosses (V u) (V (u + 1)) := Or.inl hu
    have hcd : Crosses (V d) (V (d + 1)) := Or.inr hd
    set xu := xcross (V u) (V (u + 1)) with hxu
    set xd := xcross (V d) (V (d + 1)) with hxd
    have allu : ∀ i, Up V i → xcross (V i) (V (i + 1)) = xu := fun i hi =>
      le_antisymm (hle u i hu (Or.inl hi)) (hle i u hi hcu)
    have alld : ∀ i, Down V i → xcross (V i) (V (i + 1)) = xd := fun i hi =>
      le_antisymm (hge i d hi hcd) (hge d i hd (Or.inr hi))
    have hdu : xd ≤ xu := hle u d hu hcd
    have hpu : 0 < V (u + 1) 1 - V u 1 := by linarith [hu.1, hu.2]
    have hnd : V (d + 1) 1 - V d 1 < 0 := by linarith [hd.1, hd.2]
    have hcru := xcross_mul hcu
    have hcrd := xcross_mul hcd
    -- inside exactly if the crossings are on different sides
    have hin : Inside2 V ↔ xd < 0 ∧ 0 < xu := by
      constructor
      · intro h
        have h1 := h u
        have h2 := h d
        rw [← hcru] at h1
        rw [← hcrd] at h2
        refine ⟨?_, (mul_pos_iff_of_pos_right hpu).1 h1⟩
        by_contra hc
        have := mul_nonpos_of_nonneg_of_nonpos (not_lt.1 hc) hnd.le
        exact absurd h2 (not_lt.2 this)
      · rintro ⟨h1, h2⟩ i
        have l1 := crossing_left V hV i u hcu
        have l2 := crossing_left V hV i d hcd
        rw [← hxu] at l1
        rw [← hxd] at l2
        rcases lt_trichotomy (V (i + 1) 1 - V i 1) 0 with h | h | h
        · exact lt_of_lt_of_le (mul_pos_of_neg_of_neg h1 h) l2
        · rw [h, mul_zero] at l1
          refine lt_of_le_of_ne l1 fun hz => ?_
          have hyy : V (i + 1) 1 = V i 1 := by linarith
          unfold cr at hz
          rw [hyy] at hz
          have : V i 1 * (V i 0 - V (i + 1) 0) = 0 := by linear_combination -hz
          rcases mul_eq_zero.1 this with h3 | h3
          · exact h0 i h3
          · exact hdist i ⟨by linarith, hyy.symm⟩
        · exact lt_of_lt_of_le (mul_pos h2 h) l1
    constructor
    · intro hi
      obtain ⟨h1, h2⟩ := hin.1 hi
      by_cases hcancel : ∃ i, handlePolygonEdgeIntersection az (V i) (V (i + 1)) = -1
      · exact Or.inl hcancel
      · right
        push Not at hcancel
        have hsum : ∑ i, handlePolygonEdgeIntersection az (V i) (V (i + 1)) = 1 := by
          rw [Finset.sum_eq_single u]
          · rw [hval u (hcancel u), if_pos ⟨Or.inl hu, h2⟩]
          · intro i _ hiu
            rw [hval i (hcancel i), if_neg]
            rintro ⟨h3 | h3, h4⟩
            · exact hiu (up_unique V hV xu xd (h1.trans h2) allu d hd rfl i u h3 hu)
            · rw [alld i h3] at h4; exact absurd h4 (not_lt.2 h1.le)
          · intro h; exact absurd (Finset.mem_univ _) h
        rw [hsum]; decide
    · intro htol hout
      have hcancel : ∀ i, handlePolygonEdgeIntersection az (V i) (V (i + 1)) ≠ -1 := by
        intro i h
        by_cases hc : Crosses (V i) (V (i + 1))
        · rcases (hspec i).2 hc with ⟨-, h2⟩ | ⟨h1, -⟩ | ⟨h1, -⟩
          · exact absurd (htol i hc) (not_lt.2 h2)
          · rw [h1] at h; exact absurd h (by decide)
          · rw [h1] at h; exact absurd h (by decide)
        · rw [(hspec i).1 hc] at h; exact absurd h (by decide)
      refine ⟨hcancel, ?_⟩
      rw [Finset.sum_congr rfl fun i _ => hval i (hcancel i)]
      have hxu0 : xu ≠ 0 := by
        intro h; have := htol u hcu; rw [← hxu, h, abs_zero] at this; exact absurd this (not_lt.2 haz)
      have hxd0 : xd ≠ 0 := by
        intro h; have := htol d hcd; rw [← hxd, h, abs_zero] at this; exact absurd this (not_lt.2 haz)
      rcases lt_or_gt_of_ne hxd0 with h1 | h1
      · -- then no crossing is on the positive side
        have h2 : xu < 0 := by
          rcases lt_or_gt_of_ne hxu0 with h | h
          · exact h
          · exact absurd (hin.2 ⟨h1, h⟩) hout
        rw [Finset.sum_eq_zero]
        · rfl
        · intro i _
          rw [if_neg]
          rintro ⟨h3 | h3, h4⟩
          · rw [allu i h3] at h4; exact absurd h4 (not_lt.2 h2.le)
          · rw [alld i h3] at h4; exact absurd h4 (not_lt.2 h1.le)
      · -- all crossings are on the positive side, half of them upward
        have h2 : 0 < xu := lt_of_lt_of_le h1 hdu
        have e : ∀ i, (if (Up V i ∨ Down V i) ∧ 0 < xcross (V i) (V (i + 1)) then (1 : ℤ) else 0) =
            (if Up V i then 1 else 0) + (if Down V i then 1 else 0) := by
          intro i
          by_cases hu' : Up V i
          · rw [if_pos ⟨Or.inl hu', by rw [allu i hu']; exact h2⟩, if_pos hu', if_neg (hexcl i hu')]; rfl
          · by_cases hd' : Down V i
            · rw [if_pos ⟨Or.inr hd', by rw [alld i hd']; exact h1⟩, if_neg hu', if_pos hd']; rfl
            · rw [if_neg (by rintro ⟨h | h, -⟩; exacts [hu' h, hd' h]), if_neg hu', if_neg hd']; rfl
        rw [Finset.sum_congr rfl fun i _ => e i, Finset.sum_add_distrib, hbal]
        omega

end core
end vm

namespace vm
variable {K : Type u} [Field K] [LinearOrder K] [IsStrictOrderedRing K]

/-! ### The loop over the vertices -/

section loop
variable {K : Type u} [Cmp K] [Zero K] [Neg K] [Add K] [Sub K] [Mul K] [Div K]

/-- The loop finds out whether some edge cancels the search, or else the parity of the number of crossings. -/
theorem containsLoop_eq (az : K) (o : Vec K 3) (axis : ℕ) (fv : Vec K 3) :
    ∀ (R : List (Vec K 3)) (pv : Vec K 3) (d : ℤ),
      let w := R.map fun v => swizzle v axis - o
      let hs := ((pv :: w).zip (w ++ [fv])).map fun e => handlePolygonEdgeIntersection az e.1 e.2
      containsLoop az o axis fv pv d R = (hs.any (fun h => decide (h = -1)) || (d + hs.sum) % 2 != 0) := by
  intro R
  induction R with
  | nil =>
    intro pv d
    simp only [List.map_nil, List.nil_append, List.zip_cons_cons, List.zip_nil_left, List.map_cons, List.any_cons,
      List.any_nil, Bool.or_false, List.sum_cons, List.sum_nil, add_zero, containsLoop]
    by_cases h : handlePolygonEdgeIntersection az pv fv = -1
    · rw [if_pos h]; simp [h]
    · rw [if_neg h]; simp [h]
  | cons v R ih =>
    intro pv d
    have := ih (swizzle v axis - o) (d + handlePolygonEdgeIntersection az pv (swizzle v axis - o))
    simp only [List.map_cons, List.cons_append, List.zip_cons_cons, List.any_cons, List.sum_cons,
      containsLoop] at this ⊢
    by_cases h : handlePolygonEdgeIntersection az pv (swizzle v axis - o) = -1
    · rw [if_pos h]; simp [h]
    · rw [if_neg h, this]
      simp only [h, decide_false, Bool.false_or, add_assoc]

theorem contains_ofFn (az : K) (p : Vec K 3) (axis : ℕ) {m : ℕ} (V : Fin (m + 1) → Vec K 3) :
    let W := fun i => swizzle (V i) axis - swizzle p axis
    polygonContainsPoint az p axis (List.ofFn V) =
      some (decide ((∃ i, handlePolygonEdgeIntersection az (W i) (W (i + 1)) = -1) ∨
        (∑ i, handlePolygonEdgeIntersection az (W i) (W (i + 1))) % 2 ≠ 0)) := by
  intro W
  have hedges : ((W 0 :: (List.ofFn fun i : Fin m => V i.succ).map fun v => swizzle v axis - swizzle p axis).zip
      (((List.ofFn fun i : Fin m => V i.succ).map fun v => swizzle v axis - swizzle p axis) ++ [W 0])) =
      List.ofFn fun i => (W i, W (i + 1)) := by
    have e1 : (List.ofFn fun i : Fin m => V i.succ).map (fun v => swizzle v axis - swizzle p axis) =
        List.ofFn fun i : Fin m => W i.succ := by
      rw [List.map_ofFn]; rfl
    rw [e1]
    have e2 : W 0 :: (List.ofFn fun i : Fin m => W i.succ) = List.ofFn W := (List.ofFn_succ (f := W)).symm
    rw [e2]
    apply List.ext_getElem
    · simp
    · intro i h1 h2
      rw [List.length_ofFn] at h2
      rw [List.getElem_zip, List.getElem_ofFn, List.getElem_ofFn]
      congr 1
      by_cases hi : i < m
      · rw [List.getElem_append_left (by simpa using hi), List.getElem_ofFn]
        congr 1
        apply Fin.ext
        rw [(next_lt (⟨i, h2⟩ : Fin (m + 1)) (by rw [Fin.lt_def]; exact hi)).1]
        rfl
      · have him : i = m := by omega
        subst him
        rw [List.getElem_append_right (by simp)]
        have : (⟨i, h2⟩ : Fin (i + 1)) + 1 = 0 := (next_last _ (by simp [Fin.lt_def])).2
        rw [this]; simp
  rw [List.ofFn_succ]
  unfold polygonContainsPoint
  have := containsLoop_eq az (swizzle p axis) axis (W 0) (List.ofFn fun i : Fin m => V i.succ) (W 0) 0
  simp only [hedges] at this
  simp only [Option.some.injEq]
  rw [show swizzle (V 0) axis - swizzle p axis = W 0 from rfl, this, List.map_ofFn, List.sum_ofFn, zero_add]
  rw [Bool.eq_iff_iff]
  simp only [Bool.or_eq_true, List.any_eq_true, List.mem_ofFn, decide_eq_true_eq, bne_iff_ne, Function.comp]
  constructor
  · rintro (⟨x, ⟨i, rfl⟩, h⟩ | h)
    · exact Or.inl ⟨i, h⟩
    · exact Or.inr h
  · rintro (⟨i, h⟩ | h)
    · exact Or.inl ⟨_, ⟨i, rfl⟩, h⟩
    · exact Or.inr h

end loop

/-! ### Mirroring -/

/-- The mirror image at the X axis. -/
def mirror (a : Vec K 3) : Vec K 3 := ![a 0, -a 1, a 2]

theorem handle_mirror (az : K) (haz : 0 ≤ az) (a b : Vec K 3) :
    handlePolygonEdgeIntersection az (mirror a) (mirror b) = handlePolygonEdgeIntersection az a b := by
  have h0 : ∀ a : Vec K 3, mirror a 0 = a 0 := fun _ => rfl
  have h1 : ∀ a : Vec K 3, mirror a 1 = -a 1 := fun _ => rfl
  have hz : ∀ x : K, isZero (-x) az = isZero x az := by
    intro x; rw [isZero_exact_nonneg _ haz, isZero_exact_nonneg _ haz, abs_neg]
  have hv : visZero (mirror a) az = visZero a az := by
    unfold visZero
    rw [Bool.eq_iff_iff, List.all_eq_true, List.all_eq_true]
    constructor
    · intro h i hi
      have := h i hi
      fin_cases i
      · exact this
      · have : isZero (-a 1) az = true := this
        rw [hz] at this; exact this
      · exact this
    · intro h i hi
      have := h i hi
      fin_cases i
      · exact this
      · have h2 : isZero (a 1) az = true := this
        rw [← hz] at h2; exact h2
      · exact this
  have hx : -(-a 1) * (b 0 - a 0) / (-b 1 - -a 1) + a 0 = -a 1 * (b 0 - a 0) / (b 1 - a 1) + a 0 := by
    rw [show -b 1 - -a 1 = -(b 1 - a 1) by ring, div_neg, neg_neg, neg_mul, neg_div]
  unfold handlePolygonEdgeIntersection
  rw [hv]
  simp only [h0, h1, hz, hx, exact_lt, neg_pos, neg_neg_iff_pos, neg_lt_zero, Bool.or_assoc,
    Bool.or_comm (decide (a 1 < 0) && decide (b 1 < 0))]

end vm
