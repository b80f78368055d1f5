import Verif.Props.Line
import Verif.Props.Order

/-! # C59, C60 and C78 (segments) -/

universe u

set_option linter.unusedSectionVars false
set_option linter.unusedSimpArgs false

namespace vm

/-! ### C59 -/
section C59
variable {T : Type u} [IEEE T] [Add T] [Sub T] [Zero T] [ZeroLaw T] {S : ℕ}

theorem seg_compare_zero (a b : Segment T S) :
    Segment.compare a b 0 =
      if toLex (keyVec a.start, keyVec a.end_) < toLex (keyVec b.start, keyVec b.end_) then -1
      else if toLex (keyVec b.start, keyVec b.end_) < toLex (keyVec a.start, keyVec a.end_) then 1 else 0 := by
  unfold Segment.compare
  rw [vcompare_zero, vcompare_zero]
  simp only [Prod.Lex.toLex_lt_toLex]
  rcases lt_trichotomy (keyVec a.start) (keyVec b.start) with h | h | h
  · simp [h]
  · simp [h]
  · simp [h, not_lt_of_gt h, h.ne']

/-- Both orders of the end points give equal segments; the end points are exactly the given points, and
`start() <= end()`.  Holds for all points, including those with NaN components. -/
theorem C59_canonical (p q : Vec T S) :
    Segment.beq (Segment.mk' p q) (Segment.mk' q p) = true ∧
    (((Segment.mk' p q).start = p ∧ (Segment.mk' p q).end_ = q) ∨
      ((Segment.mk' p q).start = q ∧ (Segment.mk' p q).end_ = p)) ∧
    vle (Segment.mk' p q).start (Segment.mk' p q).end_ = true := by
  have hlt := vlt_iff p q
  have hgt := vlt_iff q p
  refine ⟨?_, ?_, ?_⟩
  · unfold Segment.beq
    rw [seg_compare_zero]
    rcases lt_trichotomy (keyVec p) (keyVec q) with h | h | h
    · have h1 := hlt.2 h
      have h2 : vlt q p ≠ true := fun hc => not_lt_of_gt h (hgt.1 hc)
      simp [Segment.mk', h1, h2]
    · have h1 : vlt p q ≠ true := fun hc => absurd (hlt.1 hc) (by rw [h]; exact lt_irrefl _)
      have h2 : vlt q p ≠ true := fun hc => absurd (hgt.1 hc) (by rw [h]; exact lt_irrefl _)
      simp [Segment.mk', h1, h2, h]
    · have h2 := hgt.2 h
      have h1 : vlt p q ≠ true := fun hc => not_lt_of_gt h (hlt.1 hc)
      simp [Segment.mk', h1, h2]
  · unfold Segment.mk'
    by_cases h : vlt p q = true
    · simp [h]
    · simp [h]
  · rw [vle_iff]
    unfold Segment.mk'
    by_cases h : vlt p q = true
    · simp only [h, if_true]; exact (hlt.1 h).le
    · simp only [h, if_false]; exact not_lt.1 fun hc => h (hlt.2 hc)

/-- The segments that can be built with the constructors and operations of the class (the converting
constructor is the subject of C80). -/
inductive Segment.Built [One T] [Mul T] [Div T] : Segment T S → Prop
  | default : Segment.Built Segment.zero
  | points (p q : Vec T S) : Segment.Built (Segment.mk' p q)
  | translate {s : Segment T S} (d : Vec T S) : Segment.Built s → Segment.Built (s.translate d)
  | transform {s : Segment T S} (m : Mat T (S + 1) (S + 1)) : Segment.Built s → Segment.Built (s.transform m)

/-- `start() <= end()` holds after every sequence of constructors and operations, whatever the arithmetic does. -/
theorem C59_invariant [One T] [Mul T] [Div T] (s : Segment T S) (h : Segment.Built s) :
    vle s.start s.end_ = true := by
  cases h with
  | default => rw [vle_iff]; exact le_refl _
  | points p q => exact (C59_canonical p q).2.2
  | translate d h => exact (C59_canonical _ _).2.2
  | transform m h => exact (C59_canonical _ _).2.2

/-- Segments are equal exactly if they have equal end points, in either order. -/
theorem C59_equality (s t : Segment T S) (p q p' q' : Vec T S) :
    (Segment.beq s t = true ↔ veq s.start t.start = true ∧ veq s.end_ t.end_ = true) ∧
    (Segment.beq (Segment.mk' p q) (Segment.mk' p' q') = true ↔
      (veq p p' = true ∧ veq q q' = true) ∨ (veq p q' = true ∧ veq q p' = true)) := by
  have h1 : ∀ s t : Segment T S, Segment.beq s t = true ↔ veq s.start t.start = true ∧ veq s.end_ t.end_ = true := by
    intro s t
    unfold Segment.beq
    rw [seg_compare_zero, veq_iff, veq_iff]
    have : (keyVec s.start = keyVec t.start ∧ keyVec s.end_ = keyVec t.end_) ↔
        toLex (keyVec s.start, keyVec s.end_) = toLex (keyVec t.start, keyVec t.end_) := by
      rw [toLex_inj, Prod.mk.injEq]
    rw [this]
    rcases lt_trichotomy (toLex (keyVec s.start, keyVec s.end_)) (toLex (keyVec t.start, keyVec t.end_)) with h | h | h
    · simp only [h, if_true, h.ne]; simp
    · simp only [h, lt_irrefl, if_false]; simp
    · simp only [h, not_lt_of_gt h, if_true, if_false, h.ne']; simp
  refine ⟨h1 s t, ?_⟩
  rw [h1]
  simp only [veq_iff, Segment.mk', vlt_iff]
  by_cases ha : vlt p q = true <;> by_cases hb : vlt p' q' = true <;> rw [vlt_iff] at ha hb <;>
    simp only [ha, hb, if_true, if_false, vlt_iff]
  all_goals
    constructor
    · rintro ⟨e1, e2⟩; simp [e1, e2]
    · rintro (⟨e1, e2⟩ | ⟨e1, e2⟩)
      · first
        | exact ⟨e1, e2⟩
        | exact ⟨e2, e1⟩
        | (rw [e1, e2] at ha; first | exact absurd ha hb | exact absurd hb ha)
      · first
        | exact ⟨e2, e1⟩
        | exact ⟨e1, e2⟩
        | (rw [e1, e2] at ha; exact absurd ha (not_lt_of_gt hb))
        | (rw [e1, e2] at ha
           have e := le_antisymm (not_lt.1 ha) (not_lt.1 hb)
           exact ⟨by rw [e2, e], by rw [e1, e]⟩)

/-- `compare` on segments returns only -1, 0 and 1, is antisymmetric and transitive and `compare == 0` is a
congruence: `<` is a strict weak order.  The relational operators are consistent with it. -/
theorem C59_compare :
    (∀ a b : Segment T S, Segment.compare a b 0 = -1 ∨ Segment.compare a b 0 = 0 ∨ Segment.compare a b 0 = 1) ∧
    (∀ a b : Segment T S, Segment.compare b a 0 = -Segment.compare a b 0) ∧
    (∀ a b c : Segment T S, Segment.blt a b = true → Segment.blt b c = true → Segment.blt a c = true) ∧
    (∀ a b c : Segment T S, Segment.beq a b = true → Segment.compare a c 0 = Segment.compare b c 0) ∧
    (∀ a b : Segment T S, Segment.blt a b = true ↔
      vlt a.start b.start = true ∨ (veq a.start b.start = true ∧ vlt a.end_ b.end_ = true)) ∧
    (∀ a b : Segment T S, Segment.bne a b = !(Segment.beq a b) ∧ Segment.bgt a b = Segment.blt b a ∧
      Segment.bge a b = !(Segment.blt a b) ∧ Segment.ble a b = !(Segment.blt b a) ∧
      Segment.ble a b = (Segment.blt a b || Segment.beq a b)) := by
  let k : Segment T S → KV T S ×ₗ KV T S := fun s => toLex (keyVec s.start, keyVec s.end_)
  have hk : ∀ a b : Segment T S, Segment.compare a b 0 = if k a < k b then -1 else if k b < k a then 1 else 0 :=
    fun a b => seg_compare_zero a b
  have tri : ∀ a b : Segment T S, (k a < k b ∧ Segment.compare a b 0 = -1 ∧ Segment.compare b a 0 = 1) ∨
      (k a = k b ∧ Segment.compare a b 0 = 0 ∧ Segment.compare b a 0 = 0) ∨
      (k b < k a ∧ Segment.compare a b 0 = 1 ∧ Segment.compare b a 0 = -1) := by
    intro a b
    rw [hk, hk]
    rcases lt_trichotomy (k a) (k b) with h | h | h
    · exact Or.inl ⟨h, by simp [h], by simp [h, not_lt_of_gt h]⟩
    · exact Or.inr (Or.inl ⟨h, by simp [h], by simp [h]⟩)
    · exact Or.inr (Or.inr ⟨h, by simp [h, not_lt_of_gt h], by simp [h]⟩)
  have hlt : ∀ a b : Segment T S, Segment.blt a b = true ↔ k a < k b := by
    intro a b
    unfold Segment.blt
    rcases tri a b with ⟨h, e, -⟩ | ⟨h, e, -⟩ | ⟨h, e, -⟩ <;> rw [e]
    · simp [h]
    · simp [h]
    · simp [not_lt_of_gt h]
  refine ⟨fun a b => ?_, fun a b => ?_, fun a b c h1 h2 => ?_, fun a b c h => ?_, fun a b => ?_, fun a b => ?_⟩
  · rcases tri a b with ⟨_, h, _⟩ | ⟨_, h, _⟩ | ⟨_, h, _⟩ <;> simp [h]
  · rcases tri a b with ⟨_, h, h'⟩ | ⟨_, h, h'⟩ | ⟨_, h, h'⟩ <;> rw [h, h'] <;> rfl
  · rw [hlt] at *; exact h1.trans h2
  · have e : k a = k b := by
      unfold Segment.beq at h
      rcases tri a b with ⟨_, h', _⟩ | ⟨h', _, _⟩ | ⟨_, h', _⟩
      · rw [h'] at h; cases h
      · exact h'
      · rw [h'] at h; cases h
    rw [hk, hk, e]
  · rw [hlt, vlt_iff, veq_iff, vlt_iff]
    exact Prod.Lex.toLex_lt_toLex
  · unfold Segment.bne Segment.beq Segment.bgt Segment.blt Segment.bge Segment.ble
    rcases tri a b with ⟨_, h, h'⟩ | ⟨_, h, h'⟩ | ⟨_, h, h'⟩ <;> rw [h, h'] <;> decide

/-- `get_vertices` lists the end points of all segments in order. -/
theorem C59_get_vertices {α : Type u} (l : List (Segment α S)) :
    Segment.getVertices l = l.flatMap fun s => [s.start, s.end_] := by
  have gen : ∀ (l : List (Segment α S)) acc,
      l.foldl (fun out s => out ++ [s.start] ++ [s.end_]) acc = acc ++ l.flatMap fun s => [s.start, s.end_] := by
    intro l
    induction l with
    | nil => intro acc; simp
    | cons x l ih => intro acc; rw [List.foldl_cons, ih]; simp
  simpa [Segment.getVertices] using gen l []

/-- A segment with a NaN component: the point with the NaN is the end. -/
example (F : Fmt) : (Segment.mk' ![(1 : Flt F), Flt.nan] ![1, Flt.pinf]).start = ![1, Flt.pinf] := by
  have h : vlt ![(1 : Flt F), Flt.nan] ![1, Flt.pinf] ≠ true := by
    intro h
    rw [C01_lt_is_lexicographic] at h
    obtain ⟨i, -, hi⟩ := h
    rw [beforeScalar_iff] at hi
    fin_cases i
    · exact absurd hi (lt_irrefl _)
    · exact absurd hi not_top_lt
  simp [Segment.mk', h]

end C59

/-! ### C60 -/
section C60
variable {S : ℕ}

/-- Specification: the points of a segment. -/
def InSegment {K : Type u} [Field K] [LinearOrder K] (a b q : Vec K S) : Prop :=
  ∃ t : K, 0 ≤ t ∧ t ≤ 1 ∧ q = a + t • (b - a)

theorem contains_iff (s : Segment ℝ S) (hs : s.start ≠ s.end_) (p : Vec ℝ S) (d : ℝ) :
    ∃ u : Vec ℝ S, dot u u = 1 ∧ s.end_ - s.start = s.length • u ∧ 0 < s.length ∧
      (s.contains p d = true ↔
        -d ≤ dot (p - s.start) u ∧ dot (p - s.start) u ^ 2 ≤ s.length ^ 2 + d ^ 2 ∧
        dot (p - s.start) (p - s.start) - dot (p - s.start) u ^ 2 ≤ d ^ 2) := by
  have hne : s.end_ - s.start ≠ 0 := sub_ne_zero.2 (Ne.symm hs)
  have hpos : 0 < s.length := length_pos hne
  refine ⟨(s.length)⁻¹ • (s.end_ - s.start), dot_unit hne, ?_, hpos, ?_⟩
  · rw [smul_smul, mul_inv_cancel₀ hpos.ne', one_smul]
  · have hdir : s.direction = some ((s.length)⁻¹ • (s.end_ - s.start)) := normalize_of_ne hne
    set u := (s.length)⁻¹ • (s.end_ - s.start) with hu
    have huu : dot u u = 1 := dot_unit hne
    have hsl : s.squaredLength = s.length ^ 2 := (length_sq _).symm
    unfold Segment.contains
    rw [hdir]
    simp only [hsl]
    have hsd : squaredDistance (pointAtDistance s.start u (distanceToProjectedPoint s.start u p)) p
        = dot (p - s.start) (p - s.start) - dot (p - s.start) u ^ 2 := by
      show dot _ _ = _
      unfold pointAtDistance distanceToProjectedPoint
      rw [vscale_eq_smul]
      have e : s.start + dot (p - s.start) u • u - p = -((p - s.start) - dot (p - s.start) u • u) := by abel
      rw [e, dot_self_neg, dot_sub_smul _ _ _ huu]
      ring
    rw [hsd]
    show (if dot (p - s.start) u < -d ∨ s.length ^ 2 + d * d < dot (p - s.start) u * dot (p - s.start) u then _ else _) = _ ↔ _
    by_cases hc : dot (p - s.start) u < -d ∨ s.length ^ 2 + d * d < dot (p - s.start) u * dot (p - s.start) u
    · rw [if_pos hc]
      simp only [Bool.false_eq_true, false_iff, not_and]
      rcases hc with hc | hc
      · intro h; linarith
      · intro _ h; nlinarith
    · rw [if_neg hc]
      push Not at hc
      rw [decide_eq_true_eq]
      constructor
      · intro h; exact ⟨hc.1, by nlinarith [hc.2], by nlinarith⟩
      · rintro ⟨-, -, h⟩; nlinarith

/-- `contains(p, d)` holds for every point of the segment itself, for every `d >= 0`; more generally for every
point within distance `d` of a point of the segment that does not project beyond the end point.
Missing for the full claim: degenerate segments, which contain nothing (`C60_degenerate`). -/
theorem C60_complete_partial (s : Segment ℝ S) (hs : s.start ≠ s.end_) (d : ℝ) (hd : 0 ≤ d) (p q : Vec ℝ S)
    (hq : InSegment s.start s.end_ q) :
    s.contains q d = true ∧
    (squaredDistance p q ≤ d ^ 2 → dot (p - s.end_) (s.end_ - s.start) ≤ 0 → s.contains p d = true) := by
  have main : ∀ p : Vec ℝ S, squaredDistance p q ≤ d ^ 2 → dot (p - s.end_) (s.end_ - s.start) ≤ 0 →
      s.contains p d = true := by
    intro p hp hb
    obtain ⟨u, huu, hL, hpos, hiff⟩ := contains_iff s hs p d
    obtain ⟨t, ht0, ht1, rfl⟩ := hq
    rw [hiff]
    have hp' : dot (p - (s.start + t • (s.end_ - s.start))) (p - (s.start + t • (s.end_ - s.start))) ≤ d ^ 2 := hp
    set x := p - s.start with hx
    have e : p - (s.start + t • (s.end_ - s.start)) = x - (t * s.length) • u := by
      rw [hL, smul_smul, hx]; abel
    rw [e] at hp'
    have hexp : dot (x - (t * s.length) • u) (x - (t * s.length) • u)
        = dot x x - dot x u ^ 2 + (dot x u - t * s.length) ^ 2 := dot_sub_smul _ _ _ huu
    rw [hexp] at hp'
    have hcs : dot x u ^ 2 ≤ dot x x := by
      have := dot_sq_le x u; rw [huu, mul_one] at this; exact this
    have hb' : dot x u ≤ s.length := by
      have e2 : p - s.end_ = x - s.length • u := by rw [← hL, hx]; abel
      rw [e2, hL, dot_smul_right, dot_sub_left, dot_smul_left, huu, mul_one] at hb
      by_contra hc
      push Not at hc
      nlinarith
    have htL : 0 ≤ t * s.length := mul_nonneg ht0 hpos.le
    have hlow : -d ≤ dot x u := by
      have h1 : (dot x u - t * s.length) ^ 2 ≤ d ^ 2 := by linarith
      have := abs_le.1 (abs_le_of_sq_le_sq h1 hd)
      linarith [this.1]
    refine ⟨hlow, ?_, ?_⟩
    · rcases le_or_gt 0 (dot x u) with h0 | h0
      · nlinarith
      · nlinarith
    · nlinarith [sq_nonneg (dot x u - t * s.length)]
  refine ⟨main q ?_ ?_, main p⟩
  · show dot (q - q) (q - q) ≤ _
    rw [sub_self, dot_zero_left]; positivity
  · obtain ⟨t, ht0, ht1, rfl⟩ := hq
    have e : s.start + t • (s.end_ - s.start) - s.end_ = (t - 1) • (s.end_ - s.start) := by
      rw [sub_smul, one_smul]; abel
    rw [e, dot_smul_left]
    exact mul_nonpos_of_nonpos_of_nonneg (by linarith) (dot_self_nonneg _)

/-- If `contains(p, d)` holds then some point of the segment is within distance `√2 d` of `p`; the factor is
needed at the ends, elsewhere the distance is at most `d`. -/
theorem C60_sound (s : Segment ℝ S) (d : ℝ) (hd : 0 ≤ d) (p : Vec ℝ S) (h : s.contains p d = true) :
    ∃ q, InSegment s.start s.end_ q ∧ squaredDistance p q ≤ 2 * d ^ 2 ∧
      (0 ≤ dot (p - s.start) (s.end_ - s.start) → dot (p - s.end_) (s.end_ - s.start) ≤ 0 →
        squaredDistance p q ≤ d ^ 2) := by
  by_cases hs : s.start = s.end_
  · unfold Segment.contains Segment.direction at h
    rw [hs, sub_self, normalize_zero] at h
    cases h
  obtain ⟨u, huu, hL, hpos, hiff⟩ := contains_iff s hs p d
  obtain ⟨h1, h2, h3⟩ := hiff.1 h
  set x := p - s.start with hx
  have hdist : ∀ t : ℝ, squaredDistance p (s.start + t • (s.end_ - s.start)) =
      dot x x - dot x u ^ 2 + (dot x u - t * s.length) ^ 2 := by
    intro t
    show dot _ _ = _
    have e : p - (s.start + t • (s.end_ - s.start)) = x - (t * s.length) • u := by
      rw [hL, smul_smul, hx]; abel
    rw [e, dot_sub_smul _ _ _ huu]
  have hA : dot x (s.end_ - s.start) = s.length * dot x u := by rw [hL, dot_smul_right]
  have hB : dot (p - s.end_) (s.end_ - s.start) = s.length * (dot x u - s.length) := by
    have e2 : p - s.end_ = x - s.length • u := by rw [← hL, hx]; abel
    rw [e2, hL, dot_smul_right, dot_sub_left, dot_smul_left, huu, mul_one]
  rcases lt_or_ge (dot x u) 0 with hf | hf
  · refine ⟨s.start + (0 : ℝ) • (s.end_ - s.start), ⟨0, le_refl _, zero_le_one, rfl⟩, ?_, fun hc => ?_⟩
    · rw [hdist]; nlinarith
    · rw [hA] at hc; nlinarith
  · rcases le_or_gt (dot x u) s.length with hg | hg
    · have key : squaredDistance p (s.start + (dot x u / s.length) • (s.end_ - s.start)) ≤ d ^ 2 := by
        rw [hdist, div_mul_cancel₀ _ hpos.ne', sub_self]; nlinarith
      refine ⟨s.start + (dot x u / s.length) • (s.end_ - s.start),
        ⟨_, div_nonneg hf hpos.le, (div_le_one hpos).2 hg, rfl⟩, ?_, fun _ _ => key⟩
      nlinarith [sq_nonneg d]
    · refine ⟨s.start + (1 : ℝ) • (s.end_ - s.start), ⟨1, zero_le_one, le_refl _, rfl⟩, ?_, fun _ hc => ?_⟩
      · rw [hdist]; nlinarith
      · rw [hB] at hc; nlinarith

/-- A degenerate segment (both end points equal) contains no point, not even its own end point, because its
direction is NaN. -/
theorem C60_degenerate (s : Segment ℝ S) (hs : s.start = s.end_) (p : Vec ℝ S) (d : ℝ) :
    InSegment s.start s.end_ s.start ∧ s.contains p d = false := by
  refine ⟨⟨0, le_refl _, zero_le_one, by simp⟩, ?_⟩
  unfold Segment.contains Segment.direction
  rw [hs, sub_self, normalize_zero]

/-- A point that is within distance `d` of the end point is not contained if it lies beyond it: the tolerance
at the end is smaller than at the start. -/
theorem C60_end_tolerance : ∃ (s : Segment ℝ 1) (p : Vec ℝ 1) (d : ℝ), s.start ≠ s.end_ ∧ 0 ≤ d ∧
    squaredDistance p s.end_ ≤ d ^ 2 ∧ s.contains p d = false := by
  refine ⟨⟨![0], ![1]⟩, ![2], 1, ?_, by norm_num, ?_, ?_⟩
  · intro h; have := congrFun h 0; simp at this
  · show dot ((![2] : Vec ℝ 1) - ![1]) (![2] - ![1]) ≤ 1 ^ 2
    rw [dot_eq_sum]; simp; norm_num
  · have hs : (⟨![0], ![1]⟩ : Segment ℝ 1).start ≠ (⟨![0], ![1]⟩ : Segment ℝ 1).end_ := by
      intro h; have := congrFun h 0; simp at this
    obtain ⟨u, huu, hL, hpos, hiff⟩ := contains_iff _ hs (![2] : Vec ℝ 1) 1
    rw [← Bool.not_eq_true, hiff]
    have hlen : (⟨![0], ![1]⟩ : Segment ℝ 1).length = 1 := by
      show Real.sqrt (dot ((![1] : Vec ℝ 1) - ![0]) (![1] - ![0])) = 1
      rw [dot_eq_sum]; simp
    rw [hlen] at hL ⊢
    rw [one_smul] at hL
    rintro ⟨-, h, -⟩
    rw [← hL, dot_eq_sum] at h
    simp at h
    norm_num at h

example : (⟨![0, 0], ![4, 0]⟩ : Segment ℝ 2).start ≠ (⟨![0, 0], ![4, 0]⟩ : Segment ℝ 2).end_ ∧
    InSegment (![0, 0] : Vec ℝ 2) ![4, 0] ![1, 0] := by
  refine ⟨fun h => ?_, ⟨1 / 4, by norm_num, by norm_num, ?_⟩⟩
  · have := congrFun h 0; simp at this
  · funext i; fin_cases i <;> simp

end C60

/-! ### C78 for segments -/
section C78
variable {K : Type u} [Field K] [LinearOrder K] [IsStrictOrderedRing K] {S : ℕ}

theorem inSegment_mk' (p q x : Vec K S) :
    InSegment (Segment.mk' p q).start (Segment.mk' p q).end_ x ↔ InSegment p q x := by
  have swap : ∀ p q : Vec K S, InSegment p q x → InSegment q p x := by
    rintro p q ⟨t, h0, h1, rfl⟩
    refine ⟨1 - t, by linarith, by linarith, ?_⟩
    rw [sub_smul, one_smul, smul_sub, smul_sub]; abel
  rcases (C59_canonical p q).2.1 with ⟨h1, h2⟩ | ⟨h1, h2⟩ <;> rw [h1, h2]
  exact ⟨swap _ _, swap _ _⟩

/-- The points of a transformed (translated) segment are exactly the images of the points of the segment, for
every affine matrix. -/
theorem C78_segment_points (m : Mat K (S + 1) (S + 1)) (hm : IsAffine m) (s : Segment K S) (d x : Vec K S) :
    (InSegment (s.transform m).start (s.transform m).end_ x ↔
      ∃ y, InSegment s.start s.end_ y ∧ x = mmulPoint m y) ∧
    (InSegment (s.translate d).start (s.translate d).end_ x ↔ ∃ y, InSegment s.start s.end_ y ∧ x = y + d) := by
  unfold Segment.transform Segment.translate
  rw [inSegment_mk', inSegment_mk']
  have e : ∀ t : K, mmulPoint m (s.start + t • (s.end_ - s.start)) =
      mmulPoint m s.start + t • (mmulPoint m s.end_ - mmulPoint m s.start) := by
    intro t
    rw [affine_add hm, strip_smul hm, affine_sub hm]
  constructor
  · constructor
    · rintro ⟨t, h0, h1, rfl⟩
      exact ⟨_, ⟨t, h0, h1, rfl⟩, (e t).symm⟩
    · rintro ⟨y, ⟨t, h0, h1, rfl⟩, rfl⟩
      exact ⟨t, h0, h1, e t⟩
  · have e' : ∀ t : K, s.start + t • (s.end_ - s.start) + d = s.start + d + t • (s.end_ + d - (s.start + d)) := by
      intro t; rw [add_sub_add_right_eq_sub]; abel
    constructor
    · rintro ⟨t, h0, h1, rfl⟩
      exact ⟨_, ⟨t, h0, h1, rfl⟩, (e' t).symm⟩
    · rintro ⟨y, ⟨t, h0, h1, rfl⟩, rfl⟩
      exact ⟨t, h0, h1, e' t⟩

/-- The center of a segment is the point in the middle. -/
theorem C78_center (s : Segment K S) :
    s.center = s.start + (1 / 2 : K) • (s.end_ - s.start) ∧ InSegment s.start s.end_ s.center := by
  have e : s.center = s.start + (1 / 2 : K) • (s.end_ - s.start) := by
    funext i; simp [Segment.center, vdivs]; ring
  exact ⟨e, 1 / 2, by positivity, by rw [div_le_one (by norm_num)]; norm_num, e⟩

end C78
end vm
