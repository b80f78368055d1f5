import Verif.Model.Intersect
import Verif.Lemmas.Vec
import Mathlib.Order.Bounds.Basic
import Mathlib.Tactic.Linarith
import Mathlib.Tactic.LinearCombination
import Mathlib.Tactic.FieldSimp

/-! # C66: intersection of rays and bounding boxes -/

universe u

set_option linter.unusedSectionVars false
set_option linter.unusedSimpArgs false

namespace vm
variable {K : Type u} [Field K] [LinearOrder K] [IsStrictOrderedRing K] {S : ℕ}

/-- Specification: the point of the ray with parameter `t` is in the closed box. -/
def HitsBoxAt (r : Ray K S) (b : BBox K S) (t : K) : Prop :=
  ∀ i, b.min i ≤ r.origin i + t * r.direction i ∧ r.origin i + t * r.direction i ≤ b.max i

/-- Specification: the origin of the ray is in the closed box. -/
def OriginInBox (r : Ray K S) (b : BBox K S) : Prop := ∀ i, b.min i ≤ r.origin i ∧ r.origin i ≤ b.max i

theorem bboxInside_iff (r : Ray K S) (b : BBox K S) (i : Fin S) :
    bboxInside r b i = true ↔ b.min i ≤ r.origin i ∧ r.origin i ≤ b.max i := by
  simp [bboxInside]

/-- The fold that keeps the index of a least value. -/
theorem foldl_argmin {ι : Type} (f : ι → K) (l : List ι) (x : ι) :
    let best := l.foldl (fun best i => if Cmp.lt (f i) (f best) then i else best) x
    best ∈ x :: l ∧ ∀ i ∈ x :: l, f best ≤ f i := by
  induction l generalizing x with
  | nil => simp
  | cons y l ih =>
    simp only [List.foldl_cons]
    by_cases h : f y < f x
    · rw [if_pos (by simpa using h)]
      obtain ⟨h1, h2⟩ := ih y
      refine ⟨List.mem_cons_of_mem _ h1, ?_⟩
      intro i hi
      rcases List.mem_cons.1 hi with rfl | hi
      · exact (h2 y List.mem_cons_self).trans h.le
      · exact h2 i hi
    · rw [if_neg (by simpa using h)]
      obtain ⟨h1, h2⟩ := ih x
      refine ⟨?_, ?_⟩
      · rcases List.mem_cons.1 h1 with h1 | h1
        · rw [h1]; exact List.mem_cons_self
        · exact List.mem_cons_of_mem _ (List.mem_cons_of_mem _ h1)
      · intro i hi
        rcases List.mem_cons.1 hi with rfl | hi
        · exact h2 i List.mem_cons_self
        · rcases List.mem_cons.1 hi with rfl | hi
          · exact (h2 x List.mem_cons_self).trans (not_lt.1 h)
          · exact h2 i (List.mem_cons_of_mem _ hi)

/-- The fold that keeps the index of a greatest value among the indices that satisfy a condition. -/
theorem foldl_argmax {ι : Type} (f : ι → K) (c : ι → Bool) (l : List ι) (x : ι) (hx : c x = true) :
    let best := l.foldl (fun best i => if c i && Cmp.lt (f best) (f i) then i else best) x
    c best = true ∧ f x ≤ f best ∧ ∀ i ∈ l, c i = true → f i ≤ f best := by
  induction l generalizing x with
  | nil => simp [hx]
  | cons y l ih =>
    simp only [List.foldl_cons]
    by_cases h : c y = true ∧ f x < f y
    · rw [if_pos (by simpa using h)]
      obtain ⟨h1, h2, h3⟩ := ih y h.1
      refine ⟨h1, h.2.le.trans h2, ?_⟩
      intro i hi hc
      rcases List.mem_cons.1 hi with rfl | hi
      · exact h2
      · exact h3 i hi hc
    · rw [if_neg (by simpa using h)]
      obtain ⟨h1, h2, h3⟩ := ih x hx
      refine ⟨h1, h2, ?_⟩
      intro i hi hc
      rcases List.mem_cons.1 hi with rfl | hi
      · exact (not_lt.1 fun h' => h ⟨hc, h'⟩).trans h2
      · exact h3 i hi hc

theorem bestPlane_inside (r : Ray K (S + 1)) (b : BBox K (S + 1)) (h : OriginInBox r b) :
    ∀ i, bboxDistance r b (bboxBestPlane r b) ≤ bboxDistance r b i := by
  have hall : (List.finRange (S + 1)).all (bboxInside r b) = true := by
    rw [List.all_eq_true]; exact fun i _ => (bboxInside_iff r b i).2 (h i)
  unfold bboxBestPlane
  rw [if_pos hall]
  obtain ⟨-, h2⟩ := foldl_argmin (bboxDistance r b) (List.finRange (S + 1)).tail 0
  intro i
  refine h2 i ?_
  have : (0 : Fin (S + 1)) :: (List.finRange (S + 1)).tail = List.finRange (S + 1) := by
    rw [List.finRange_succ]; rfl
  rw [this]; exact List.mem_finRange i

theorem bestPlane_outside (r : Ray K (S + 1)) (b : BBox K (S + 1)) (h : ¬ OriginInBox r b) :
    bboxInside r b (bboxBestPlane r b) = false ∧
    ∀ i, bboxInside r b i = false → bboxDistance r b i ≤ bboxDistance r b (bboxBestPlane r b) := by
  have hall : ¬ (List.finRange (S + 1)).all (bboxInside r b) = true := by
    rw [List.all_eq_true]
    intro hc
    exact h fun i => (bboxInside_iff r b i).1 (hc i (List.mem_finRange i))
  obtain ⟨j, hj⟩ : ∃ j, bboxInside r b j = false := by
    by_contra hc
    push Not at hc
    exact h fun i => (bboxInside_iff r b i).1 (by simpa using hc i)
  unfold bboxBestPlane
  rw [if_neg hall]
  simp only
  rcases e : (List.finRange (S + 1)).find? (fun i => !(bboxInside r b i)) with _ | first
  · exact absurd (List.find?_eq_none.1 e j (List.mem_finRange j)) (by simp [hj])
  · have hfirst : (!(bboxInside r b first)) = true := by have := List.find?_some e; simpa using this
    obtain ⟨h1, h2, h3⟩ := foldl_argmax (bboxDistance r b) (fun i => !(bboxInside r b i))
      ((List.finRange (S + 1)).filter fun i => decide (first < i)) first hfirst
    simp only [Option.getD_some]
    refine ⟨by simpa using h1, fun i hi => ?_⟩
    rcases lt_trichotomy first i with hlt | rfl | hlt
    · exact h3 i (List.mem_filter.2 ⟨List.mem_finRange i, by simpa using hlt⟩) (by simp [hi])
    · exact h2
    · -- smaller indices are inside
      obtain ⟨-, as, bs, hl, has⟩ := List.find?_eq_some_iff_append.1 e
      exfalso
      have hmem : i ∈ as := by
        have hi' : i ∈ as ++ first :: bs := hl ▸ List.mem_finRange i
        rcases List.mem_append.1 hi' with h' | h'
        · exact h'
        · exfalso
          have hs : (as ++ first :: bs).Pairwise (· < ·) := hl ▸ List.pairwise_lt_finRange (S + 1)
          have hs2 := (List.pairwise_append.1 hs).2.1
          rcases List.mem_cons.1 h' with h' | h'
          · exact absurd h' hlt.ne
          · exact absurd ((List.pairwise_cons.1 hs2).1 i h') (not_lt.2 hlt.le)
      have := has i hmem
      simp [hi] at this

/-- A dimension in which the origin is outside: the ray can only be in the slab after a positive distance to
the near face. -/
theorem outside_distance (r : Ray K S) (b : BBox K S) (i : Fin S) (ho : bboxInside r b i = false) (s : K)
    (hs : 0 ≤ s) (h : b.min i ≤ r.origin i + s * r.direction i ∧ r.origin i + s * r.direction i ≤ b.max i) :
    0 < bboxDistance r b i ∧ bboxDistance r b i ≤ s := by
  rw [← Bool.not_eq_true, bboxInside_iff] at ho
  unfold bboxDistance bboxOrigin
  simp only [exact_lt, exact_eq, decide_eq_true_eq, Bool.not_eq_true', decide_eq_false_iff_not]
  by_cases h1 : r.origin i < b.min i
  · have hd : 0 < r.direction i := by
      by_contra hd
      have := mul_nonpos_of_nonneg_of_nonpos hs (not_lt.1 hd)
      linarith [h.1]
    rw [if_pos hd.ne', if_pos h1]
    refine ⟨div_pos (by linarith) hd, ?_⟩
    rw [div_le_iff₀ hd]; linarith [h.1]
  · have h2 : b.max i < r.origin i := by
      by_contra h2; exact ho ⟨not_lt.1 h1, not_lt.1 h2⟩
    have hd : r.direction i < 0 := by
      by_contra hd
      have := mul_nonneg hs (not_lt.1 hd)
      linarith [h.2]
    rw [if_pos hd.ne, if_neg h1, if_pos h2]
    refine ⟨div_pos_of_neg_of_neg (by linarith) hd, ?_⟩
    rw [div_le_iff_of_neg hd]; linarith [h.2]

/-- At its candidate distance the ray is on the candidate face. -/
theorem at_distance (r : Ray K S) (b : BBox K S) (i : Fin S) (hd : r.direction i ≠ 0) :
    r.origin i + bboxDistance r b i * r.direction i = bboxOrigin r b i := by
  unfold bboxDistance
  simp only [exact_eq, hd, decide_false, Bool.not_false, if_true]
  rw [div_mul_cancel₀ _ hd]; ring

theorem origin_mem (r : Ray K S) (b : BBox K S) (hb : ∀ i, b.min i ≤ b.max i) (i : Fin S) :
    b.min i ≤ bboxOrigin r b i ∧ bboxOrigin r b i ≤ b.max i := by
  unfold bboxOrigin
  split_ifs <;> exact ⟨by first | exact le_rfl | exact hb i, by first | exact le_rfl | exact hb i⟩

theorem slab_convex (o d lo hi s t u : K) (h1 : s ≤ t) (h2 : t ≤ u) (hs : lo ≤ o + s * d ∧ o + s * d ≤ hi)
    (hu : lo ≤ o + u * d ∧ o + u * d ≤ hi) : lo ≤ o + t * d ∧ o + t * d ≤ hi := by
  rcases le_total 0 d with hd | hd
  · have e1 := mul_le_mul_of_nonneg_right h1 hd
    have e2 := mul_le_mul_of_nonneg_right h2 hd
    constructor <;> linarith [hs.1, hu.2]
  · have e1 := mul_le_mul_of_nonpos_right h1 hd
    have e2 := mul_le_mul_of_nonpos_right h2 hd
    constructor <;> linarith [hs.2, hu.1]

theorem rayBBox_some_iff (r : Ray K (S + 1)) (b : BBox K (S + 1)) (t : K) :
    intersectRayBBox r b = some t ↔ bboxDistance r b (bboxBestPlane r b) = t ∧ 0 ≤ t ∧
      ∀ i, i ≠ bboxBestPlane r b →
        b.min i ≤ r.origin i + t * r.direction i ∧ r.origin i + t * r.direction i ≤ b.max i := by
  unfold intersectRayBBox
  simp only [exact_lt, decide_eq_true_eq]
  set best := bboxBestPlane r b
  by_cases h : bboxDistance r b best < 0
  · rw [if_pos h]
    simp only [false_iff, reduceCtorEq]
    rintro ⟨rfl, h2, -⟩
    exact not_le.2 h h2
  · rw [if_neg h]
    by_cases hany : ∃ i, i ≠ best ∧ ¬ (b.min i ≤ r.origin i + bboxDistance r b best * r.direction i ∧
        r.origin i + bboxDistance r b best * r.direction i ≤ b.max i)
    · rw [if_pos]
      · simp only [false_iff, reduceCtorEq]
        rintro ⟨rfl, -, h3⟩
        obtain ⟨i, hi, hn⟩ := hany
        exact hn (h3 i hi)
      · obtain ⟨i, hi, hn⟩ := hany
        rw [List.any_eq_true]
        refine ⟨i, List.mem_finRange i, ?_⟩
        simp only [Bool.and_eq_true, decide_eq_true_eq, Bool.or_eq_true]
        refine ⟨Ne.symm hi, ?_⟩
        rw [not_and_or, not_le, not_le] at hn
        exact hn
    · push Not at hany
      rw [if_neg]
      · simp only [Option.some.injEq]
        constructor
        · rintro rfl; exact ⟨rfl, not_lt.1 h, hany⟩
        · exact fun h => h.1
      · rw [List.any_eq_true]
        rintro ⟨i, -, hi⟩
        simp only [Bool.and_eq_true, decide_eq_true_eq, Bool.or_eq_true] at hi
        have := hany i (Ne.symm hi.1)
        rcases hi.2 with h' | h'
        · exact absurd this.1 (not_le.2 h')
        · exact absurd this.2 (not_le.2 h')

/-- Origin outside of the box: the result is the parameter of the first point of the ray in the box, and NaN
exactly if the ray misses the box.  For all directions, including those with zero components and the zero
vector. -/
theorem C66_outside (r : Ray K (S + 1)) (b : BBox K (S + 1)) (hb : ∀ i, b.min i ≤ b.max i)
    (ho : ¬ OriginInBox r b) :
    (∀ t, intersectRayBBox r b = some t ↔ IsLeast {t | 0 ≤ t ∧ HitsBoxAt r b t} t) ∧
    (intersectRayBBox r b = none ↔ ∀ t ≥ 0, ¬ HitsBoxAt r b t) := by
  obtain ⟨hbest, hmax⟩ := bestPlane_outside r b ho
  set best := bboxBestPlane r b with hbdef
  have hlow : ∀ s, 0 ≤ s → HitsBoxAt r b s → 0 < bboxDistance r b best ∧ bboxDistance r b best ≤ s := fun s hs h =>
    outside_distance r b best hbest s hs (h best)
  have hhit : ∀ s, 0 ≤ s → HitsBoxAt r b s → HitsBoxAt r b (bboxDistance r b best) := by
    intro s hs h i
    obtain ⟨hpos, hle⟩ := hlow s hs h
    by_cases hi : bboxInside r b i = true
    · refine slab_convex _ _ _ _ 0 _ s hpos.le hle ?_ (h i)
      rw [zero_mul, add_zero]; exact (bboxInside_iff r b i).1 hi
    · have hi' : bboxInside r b i = false := by simpa using hi
      obtain ⟨hp, hl⟩ := outside_distance r b i hi' s hs (h i)
      refine slab_convex _ _ _ _ (bboxDistance r b i) _ s (hmax i hi') hle ?_ (h i)
      have hd : r.direction i ≠ 0 := by
        intro h0
        unfold bboxDistance at hp
        simp [h0] at hp
        linarith
      rw [at_distance r b i hd]
      exact origin_mem r b hb i
  have hsome : ∀ t, intersectRayBBox r b = some t ↔ IsLeast {t | 0 ≤ t ∧ HitsBoxAt r b t} t := by
    intro t
    rw [rayBBox_some_iff]
    constructor
    · rintro ⟨rfl, h0, h⟩
      refine ⟨⟨h0, fun i => ?_⟩, fun s hs => (hlow s hs.1 hs.2).2⟩
      by_cases hi : i = best
      · rw [hi]
        have hd : r.direction best ≠ 0 := by
          intro h0'
          rw [← hbdef] at h0
          unfold bboxDistance at h0
          simp [h0'] at h0
          linarith
        rw [at_distance r b best hd]
        exact origin_mem r b hb best
      · exact h i hi
    · rintro ⟨⟨h0, hhits⟩, hleast⟩
      have hb' := hlow t h0 hhits
      have heq : bboxDistance r b best = t :=
        le_antisymm hb'.2 (hleast ⟨hb'.1.le, hhit t h0 hhits⟩)
      exact ⟨heq, h0, fun i _ => hhits i⟩
  refine ⟨hsome, ?_⟩
  constructor
  · intro hn t ht h
    obtain ⟨hpos, -⟩ := hlow t ht h
    have := (hsome (bboxDistance r b best)).2 ⟨⟨hpos.le, hhit t ht h⟩, fun s hs => (hlow s hs.1 hs.2).2⟩
    rw [hn] at this; cases this
  · intro h
    rcases e : intersectRayBBox r b with _ | t
    · rfl
    · have := (hsome t).1 e
      exact absurd this.1.2 (h t this.1.1)

/-- Origin in the box and no component of the direction zero: the result is the parameter of the point where
the ray leaves the box (that is the first point where it meets the surface, not counting the origin).  Missing
for the full claim: directions with a zero component, for which it is false
(`C66_inside_axis_parallel`). -/
theorem C66_inside_partial (r : Ray K (S + 1)) (b : BBox K (S + 1)) (ho : OriginInBox r b)
    (hd : ∀ i, r.direction i ≠ 0) :
    ∃ t, intersectRayBBox r b = some t ∧ IsGreatest {t | 0 ≤ t ∧ HitsBoxAt r b t} t := by
  have hmin := bestPlane_inside r b ho
  set best := bboxBestPlane r b with hbdef
  have hiff : ∀ i s, 0 ≤ s → ((b.min i ≤ r.origin i + s * r.direction i ∧ r.origin i + s * r.direction i ≤ b.max i) ↔
      s ≤ bboxDistance r b i) := by
    intro i s hs
    unfold bboxDistance bboxOrigin
    simp only [exact_lt, exact_eq, hd i, decide_false, Bool.not_false, if_true, decide_eq_true_eq,
      not_lt.2 (ho i).1, not_lt.2 (ho i).2, if_false, Bool.false_eq_true]
    by_cases hneg : r.direction i < 0
    · rw [if_pos hneg, le_div_iff_of_neg hneg]
      have := mul_nonpos_of_nonneg_of_nonpos hs hneg.le
      constructor
      · rintro ⟨h1, -⟩; linarith
      · intro h; exact ⟨by linarith, by linarith [(ho i).2]⟩
    · have hpos : 0 < r.direction i := lt_of_le_of_ne (not_lt.1 hneg) (Ne.symm (hd i))
      rw [if_neg hneg, le_div_iff₀ hpos]
      have := mul_nonneg hs hpos.le
      constructor
      · rintro ⟨-, h1⟩; linarith
      · intro h; exact ⟨by linarith [(ho i).1], by linarith⟩
  have h0 : 0 ≤ bboxDistance r b best := by
    rw [← hiff best 0 le_rfl, zero_mul, add_zero]; exact ho best
  have hits : HitsBoxAt r b (bboxDistance r b best) := fun i => (hiff i _ h0).2 (hmin i)
  refine ⟨bboxDistance r b best, (rayBBox_some_iff r b _).2 ⟨rfl, h0, fun i _ => hits i⟩, ⟨h0, hits⟩, ?_⟩
  exact fun s hs => (hiff best s hs.1).1 (hs.2 best)

/-- Origin in the box and some component of the direction zero: the result is always NaN, although a ray from
inside of a bounded box always leaves it (unless the direction is zero). -/
theorem C66_inside_axis_parallel (r : Ray K (S + 1)) (b : BBox K (S + 1)) (ho : OriginInBox r b) (i : Fin (S + 1))
    (hd : r.direction i = 0) : intersectRayBBox r b = none := by
  have h := bestPlane_inside r b ho i
  have hi : bboxDistance r b i = -1 := by unfold bboxDistance; simp [hd]
  rcases e : intersectRayBBox r b with _ | t
  · rfl
  · obtain ⟨rfl, h0, -⟩ := (rayBBox_some_iff r b t).1 e
    rw [hi] at h
    linarith

/-- The claim fails: a ray from the centre of the unit box along an axis meets the surface, but the result is
NaN. -/
theorem C66_fails :
    intersectRayBBox (⟨![0, 0, 0], ![1, 0, 0]⟩ : Ray ℚ 3) ⟨![-1, -1, -1], ![1, 1, 1]⟩ = none ∧
    HitsBoxAt (⟨![0, 0, 0], ![1, 0, 0]⟩ : Ray ℚ 3) ⟨![-1, -1, -1], ![1, 1, 1]⟩ 1 := by
  constructor
  · decide +kernel
  · unfold HitsBoxAt; decide +kernel

example : ¬ OriginInBox (⟨![3, 0, 0], ![-1, 0, 0]⟩ : Ray ℚ 3) ⟨![-1, -1, -1], ![1, 1, 1]⟩ ∧
    intersectRayBBox (⟨![3, 0, 0], ![-1, 0, 0]⟩ : Ray ℚ 3) ⟨![-1, -1, -1], ![1, 1, 1]⟩ = some 2 := by
  unfold OriginInBox; decide +kernel

example : OriginInBox (⟨![0, 0, 0], ![-1, 2, 1]⟩ : Ray ℚ 3) ⟨![-1, -1, -1], ![1, 1, 1]⟩ ∧
    intersectRayBBox (⟨![0, 0, 0], ![-1, 2, 1]⟩ : Ray ℚ 3) ⟨![-1, -1, -1], ![1, 1, 1]⟩ = some (1 / 2) := by
  unfold OriginInBox; decide +kernel

end vm
