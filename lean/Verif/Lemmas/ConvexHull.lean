import Verif.Model.ConvexHull
import Verif.Lemmas.PointInPolygon
import Mathlib.Analysis.Convex.Combination
import Mathlib.Data.List.Basic
import Mathlib.Data.List.GetD
import Mathlib.Tactic.Ring
import Mathlib.Tactic.LinearCombination
import Mathlib.Tactic.Linarith
import Mathlib.Tactic.FieldSimp
import Mathlib.Tactic.NormNum

/-!
# Lemmas about the Graham scan of convex_hull.h
-/

universe u

set_option linter.unusedSectionVars false
set_option linter.unusedSimpArgs false

namespace vm
namespace Hull
variable {K : Type u} [Field K] [LinearOrder K] [IsStrictOrderedRing K]

theorem isLeft_pos (a b c : Vec K 3) : 0 < isLeft a b c ↔ 0 < orient2 a b c := by
  have e : (b 0 - a 0) * (c 1 - a 1) - (c 0 - a 0) * (b 1 - a 1) = orient2 a b c := by unfold orient2; ring
  unfold isLeft
  simp only [e, exact_lt, decide_eq_true_eq]
  rcases lt_trichotomy (orient2 a b c) 0 with h | h | h
  · simp [h, h.not_gt]
  · simp [h]
  · simp [h, h.not_gt]

theorem isLeft_neg (a b c : Vec K 3) : isLeft a b c < 0 ↔ orient2 a b c < 0 := by
  have e : (b 0 - a 0) * (c 1 - a 1) - (c 0 - a 0) * (b 1 - a 1) = orient2 a b c := by unfold orient2; ring
  unfold isLeft
  simp only [e, exact_lt, decide_eq_true_eq]
  rcases lt_trichotomy (orient2 a b c) 0 with h | h | h
  · simp [h, h.not_gt]
  · simp [h]
  · simp [h, h.not_gt]

theorem isLeft_zero (a b c : Vec K 3) : isLeft a b c = 0 ↔ orient2 a b c = 0 := by
  have h1 := isLeft_pos a b c
  have h2 := isLeft_neg a b c
  rcases lt_trichotomy (orient2 a b c) 0 with h | h | h
  · have := h2.2 h; constructor <;> intro h' <;> [omega; exact absurd h' h.ne]
  · rw [h] at h1 h2 ⊢
    simp only [lt_irrefl, iff_false, not_lt] at h1 h2
    exact iff_of_true (le_antisymm h1 h2) rfl
  · have := h1.2 h; constructor <;> intro h' <;> [omega; exact absurd h' h.ne']

/-- `p` lies above the anchor or at the same height and not to the right of it. -/
def Up (a p : Vec K 3) : Prop := a 1 < p 1 ∨ (p 1 = a 1 ∧ p 0 ≤ a 0)

/-- `p` and `q` agree in the first two coordinates. -/
def Same2 (p q : Vec K 3) : Prop := p 0 = q 0 ∧ p 1 = q 1

/-- `p` is farther from the anchor than `q`. -/
def Far (a p q : Vec K 3) : Prop := |q 0 - a 0| < |p 0 - a 0| ∨ (|p 0 - a 0| = |q 0 - a 0| ∧ |q 1 - a 1| < |p 1 - a 1|)

theorem less_iff (a p q : Vec K 3) :
    lessThanByAngle a p q = true ↔ 0 < orient2 a p q ∨ (orient2 a p q = 0 ∧ Far a p q) := by
  have h1 := isLeft_pos a p q
  have h2 := isLeft_neg a p q
  unfold lessThanByAngle
  simp only [gt_iff_lt, h1, h2, abs_exact, exact_lt, exact_eq, decide_eq_true_eq, Far]
  rcases lt_trichotomy (orient2 a p q) 0 with h | h | h
  · simp [h, h.not_gt, h.ne]
  · simp only [h, lt_irrefl, if_false, false_or, true_and]
    by_cases hd : |p 0 - a 0| = |q 0 - a 0|
    · simp [hd]
    · simp [hd]
  · simp [h, h.not_gt]

theorem Far.trans {a p q r : Vec K 3} (h1 : Far a p q) (h2 : Far a q r) : Far a p r := by
  unfold Far at *
  rcases h1 with h1 | ⟨h1, h1'⟩ <;> rcases h2 with h2 | ⟨h2, h2'⟩
  · left; exact h2.trans h1
  · left; rw [← h2]; exact h1
  · left; rw [h1]; exact h2
  · right; exact ⟨h1.trans h2, h2'.trans h1'⟩

theorem Far.irrefl (a p : Vec K 3) : ¬ Far a p p := by
  rintro (h | ⟨-, h⟩) <;> exact lt_irrefl _ h

theorem Far.ne {a p q : Vec K 3} (h : Far a p q) : ¬ Same2 p a := by
  rintro ⟨h0, h1⟩
  rcases h with h | ⟨-, h⟩
  · rw [h0, sub_self, abs_zero] at h; exact absurd (abs_nonneg (q 0 - a 0)) h.not_ge
  · rw [h1, sub_self, abs_zero] at h; exact absurd (abs_nonneg (q 1 - a 1)) h.not_ge

theorem far_anchor {a p r : Vec K 3} (hp : ¬ Same2 p a) (hr : Same2 r a) : Far a p r := by
  obtain ⟨h0, h1⟩ := hr
  unfold Far
  rw [h0, h1, sub_self, sub_self, abs_zero]
  by_cases h : p 0 = a 0
  · right
    refine ⟨by rw [h, sub_self, abs_zero], abs_pos.2 (sub_ne_zero.2 fun h' => hp ⟨h, h'⟩)⟩
  · left; exact abs_pos.2 (sub_ne_zero.2 h)

theorem orient2_anchor {a p r : Vec K 3} (hr : Same2 r a) : orient2 a p r = 0 := by
  unfold orient2; rw [hr.1, hr.2]; ring

theorem orient2_anchor' {a p r : Vec K 3} (hr : Same2 p a) : orient2 a p r = 0 := by
  unfold orient2; rw [hr.1, hr.2]; ring

/-- Two points of the half plane on a common line with the anchor, other than the anchor, are positive multiples of each
other. -/
theorem Up.ray {a p q : Vec K 3} (hp : Up a p) (hq : Up a q) (hp0 : ¬ Same2 p a) (hq0 : ¬ Same2 q a)
    (h : orient2 a p q = 0) : ∃ t : K, 0 < t ∧ q 0 - a 0 = t * (p 0 - a 0) ∧ q 1 - a 1 = t * (p 1 - a 1) := by
  unfold orient2 at h
  rcases hp with hp | ⟨hp, hp'⟩
  · have hp1 : 0 < p 1 - a 1 := sub_pos.2 hp
    have hq1 : a 1 < q 1 := by
      rcases hq with hq | ⟨hq, hq'⟩
      · exact hq
      · exfalso
        apply hq0
        refine ⟨?_, hq⟩
        rw [hq, sub_self, mul_zero, zero_sub, neg_eq_zero] at h
        exact sub_eq_zero.1 ((mul_eq_zero.1 h).resolve_left hp1.ne')
    refine ⟨(q 1 - a 1) / (p 1 - a 1), div_pos (sub_pos.2 hq1) hp1, ?_, ?_⟩
    · field_simp; linear_combination -h
    · field_simp
  · have hp1 : p 0 - a 0 < 0 := by
      rcases hp'.lt_or_eq with h' | h'
      · linarith
      · exact absurd ⟨h', hp⟩ hp0
    have hq1 : q 1 = a 1 := by
      rw [hp, sub_self, zero_mul, sub_zero] at h
      exact sub_eq_zero.1 ((mul_eq_zero.1 h).resolve_left hp1.ne)
    have hq2 : q 0 - a 0 < 0 := by
      rcases hq with hq | ⟨-, hq'⟩
      · exact absurd hq1 hq.ne'
      · rcases hq'.lt_or_eq with h' | h'
        · linarith
        · exact absurd ⟨h', hq1⟩ hq0
    refine ⟨(q 0 - a 0) / (p 0 - a 0), div_pos_of_neg_of_neg hq2 hp1, ?_, ?_⟩
    · field_simp [hp1.ne]
    · rw [hp, hq1]; ring

/-- Angles are transitive. -/
theorem Up.trans {a p q r : Vec K 3} (hp : Up a p) (hq : Up a q) (hr : Up a r) (h1 : 0 < orient2 a p q)
    (h2 : 0 < orient2 a q r) : 0 < orient2 a p r := by
  have key : (q 1 - a 1) * orient2 a p r = (p 1 - a 1) * orient2 a q r + (r 1 - a 1) * orient2 a p q := by
    unfold orient2; ring
  have hp' : 0 ≤ p 1 - a 1 := by rcases hp with h | ⟨h, -⟩ <;> linarith
  have hr' : 0 ≤ r 1 - a 1 := by rcases hr with h | ⟨h, -⟩ <;> linarith
  rcases hq with hq | ⟨hq, hq'⟩
  · have hq1 : 0 < q 1 - a 1 := sub_pos.2 hq
    have hpos : 0 < (q 1 - a 1) * orient2 a p r := by
      rw [key]
      rcases hp'.lt_or_eq with h | h
      · exact add_pos_of_pos_of_nonneg (mul_pos h h2) (mul_nonneg hr' h1.le)
      · exfalso
        have hp0 : p 0 ≤ a 0 := by
          rcases hp with hp | ⟨-, hp⟩
          · linarith
          · exact hp
        unfold orient2 at h1
        rw [← h, zero_mul, sub_zero] at h1
        have := mul_nonneg (sub_nonneg.2 hp0) hq1.le
        linarith
    exact (mul_pos_iff_of_pos_left hq1).1 hpos
  · exfalso
    unfold orient2 at h2
    rw [hq, sub_self, zero_mul, sub_zero] at h2
    have := mul_nonneg (sub_nonneg.2 hq') hr'
    linarith

/-- Irreflexivity of the comparator. -/
theorem less_irrefl (a p : Vec K 3) : ¬ lessThanByAngle a p p = true := by
  rw [less_iff]
  rintro (h | ⟨-, h⟩)
  · have : orient2 a p p = 0 := by unfold orient2; ring
    rw [this] at h; exact lt_irrefl _ h
  · exact Far.irrefl _ _ h

theorem orient2_ray {a p q r : Vec K 3} {t : K} (h0 : q 0 - a 0 = t * (p 0 - a 0)) (h1 : q 1 - a 1 = t * (p 1 - a 1)) :
    orient2 a q r = t * orient2 a p r ∧ orient2 a r q = t * orient2 a r p := by
  unfold orient2; rw [h0, h1]; constructor <;> ring

/-- Transitivity of the comparator. -/
theorem less_trans {a p q r : Vec K 3} (hp : Up a p) (hq : Up a q) (hr : Up a r) (h1 : lessThanByAngle a p q = true)
    (h2 : lessThanByAngle a q r = true) : lessThanByAngle a p r = true := by
  rw [less_iff] at *
  have hp0 : ¬ Same2 p a := by
    intro h
    rcases h1 with h1 | ⟨-, h1⟩
    · rw [orient2_anchor' h] at h1; exact lt_irrefl _ h1
    · exact h1.ne h
  have hq0 : ¬ Same2 q a := by
    intro h
    rcases h2 with h2 | ⟨-, h2⟩
    · rw [orient2_anchor' h] at h2; exact lt_irrefl _ h2
    · exact h2.ne h
  by_cases hr0 : Same2 r a
  · right; exact ⟨orient2_anchor hr0, far_anchor hp0 hr0⟩
  rcases h1 with h1 | ⟨h1, h1'⟩ <;> rcases h2 with h2 | ⟨h2, h2'⟩
  · left; exact hp.trans hq hr h1 h2
  · left
    obtain ⟨t, ht, e0, e1⟩ := hq.ray hr hq0 hr0 h2
    rw [(orient2_ray e0 e1).2]; exact mul_pos ht h1
  · left
    obtain ⟨t, ht, e0, e1⟩ := hp.ray hq hp0 hq0 h1
    rw [(orient2_ray e0 e1).1] at h2
    exact (mul_pos_iff_of_pos_left ht).1 h2
  · right
    refine ⟨?_, h1'.trans h2'⟩
    obtain ⟨t, ht, e0, e1⟩ := hq.ray hr hq0 hr0 h2
    rw [(orient2_ray e0 e1).2, h1, mul_zero]

/-- Points of the half plane of which none is less than the other agree in the first two coordinates. -/
theorem same_of_not_less {a p q : Vec K 3} (hp : Up a p) (hq : Up a q) (h1 : ¬ lessThanByAngle a p q = true)
    (h2 : ¬ lessThanByAngle a q p = true) : Same2 p q := by
  rw [less_iff] at *
  push Not at h1 h2
  have hsw : orient2 a q p = -orient2 a p q := orient2_swap _ _ _
  have h0 : orient2 a p q = 0 := by
    have := h1.1; have := h2.1; linarith
  have f1 := h1.2 h0
  have f2 := h2.2 (by rw [hsw, h0, neg_zero])
  unfold Far at f1 f2
  push Not at f1 f2
  have ex : |p 0 - a 0| = |q 0 - a 0| := le_antisymm f1.1 f2.1
  have ey : |p 1 - a 1| = |q 1 - a 1| := le_antisymm (f1.2 ex) (f2.2 ex.symm)
  have hp1 : 0 ≤ p 1 - a 1 := by rcases hp with h | ⟨h, -⟩ <;> linarith
  have hq1 : 0 ≤ q 1 - a 1 := by rcases hq with h | ⟨h, -⟩ <;> linarith
  rw [abs_of_nonneg hp1, abs_of_nonneg hq1] at ey
  have hy : p 1 = q 1 := by linarith
  refine ⟨?_, hy⟩
  rcases abs_eq_abs.1 ex with h | h
  · linarith
  · unfold orient2 at h0
    rw [hy] at h0
    have e : (q 0 - a 0) * (q 1 - a 1) = 0 := by linear_combination (-1/2) * h0 + (q 1 - a 1) / 2 * h
    rcases mul_eq_zero.1 e with e | e
    · rw [e, neg_zero] at h; linarith
    · have hp0 : p 0 ≤ a 0 := by rcases hp with h | ⟨-, h⟩ <;> [linarith; exact h]
      have hq0 : q 0 ≤ a 0 := by rcases hq with h | ⟨-, h⟩ <;> [linarith; exact h]
      linarith

theorem less_congr {a p q r s : Vec K 3} (h1 : Same2 p q) (h2 : Same2 r s) :
    lessThanByAngle a p r = lessThanByAngle a q s := by
  simp only [lessThanByAngle, isLeft, h1.1, h1.2, h2.1, h2.2]

/-- Negative transitivity of the comparator: with irreflexivity and transitivity, it is a strict weak order. -/
theorem less_negtrans {a p q r : Vec K 3} (hp : Up a p) (hq : Up a q) (hr : Up a r)
    (h : lessThanByAngle a p r = true) : lessThanByAngle a p q = true ∨ lessThanByAngle a q r = true := by
  by_contra hc
  push Not at hc
  by_cases h1 : lessThanByAngle a q p = true
  · exact hc.2 (less_trans hq hp hr h1 h)
  · exact hc.2 (by rw [← less_congr (same_of_not_less hp hq hc.1 h1) ⟨rfl, rfl⟩]; exact h)

/-! ### The anchor -/

theorem Up.refl (a : Vec K 3) : Up a a := Or.inr ⟨rfl, le_rfl⟩

theorem Up.chain {a b c : Vec K 3} (h1 : Up a b) (h2 : Up b c) : Up a c := by
  rcases h1 with h1 | ⟨h1, h1'⟩ <;> rcases h2 with h2 | ⟨h2, h2'⟩
  · left; exact h1.trans h2
  · left; rw [h2]; exact h1
  · left; rw [← h1]; exact h2
  · right; exact ⟨h2.trans h1, h2'.trans h1'⟩

theorem Up.total (a b : Vec K 3) : Up a b ∨ Up b a := by
  unfold Up
  rcases lt_trichotomy (a 1) (b 1) with h | h | h
  · left; left; exact h
  · rcases le_total (a 0) (b 0) with h' | h'
    · right; right; exact ⟨h, h'⟩
    · left; right; exact ⟨h.symm, h'⟩
  · right; left; exact h

theorem better_iff (p q : Vec K 3) :
    (Cmp.lt (p 1) (q 1) || (Cmp.eq (p 1) (q 1) && Cmp.lt (q 0) (p 0))) = true ↔ ¬ Up q p := by
  rw [Bool.or_eq_true, Bool.and_eq_true, exact_lt, exact_lt, exact_eq, decide_eq_true_eq, decide_eq_true_eq,
    decide_eq_true_eq]
  unfold Up
  push Not
  rcases lt_trichotomy (p 1) (q 1) with h | h | h
  · simp [h, h.le, h.ne]
  · simp [h]
  · simp [h.not_gt, h.ne', h.not_ge]

theorem findAnchorIndex_spec (l : List (Vec K 3)) (hl : l ≠ []) :
    findAnchorIndex l < l.length ∧
      ∀ p ∈ l, Up (l.getD (findAnchorIndex l) fun _ => 0) p := by
  have hlen : 0 < l.length := List.length_pos_iff.2 hl
  unfold findAnchorIndex
  generalize hf : (fun (anchor i : ℕ) =>
    let p := l.getD i fun _ => 0
    let q := l.getD anchor fun _ => 0
    if Cmp.lt (p 1) (q 1) || (Cmp.eq (p 1) (q 1) && Cmp.lt (q 0) (p 0)) then i else anchor) = f
  have hstep : ∀ r i, (Up (l.getD r fun _ => 0) (l.getD i fun _ => 0) ∧ f r i = r) ∨
      (¬ Up (l.getD r fun _ => 0) (l.getD i fun _ => 0) ∧ f r i = i) := by
    intro r i
    rw [← hf]
    by_cases h : Up (l.getD r fun _ => 0) (l.getD i fun _ => 0)
    · left; exact ⟨h, if_neg fun h' => (better_iff _ _).1 h' h⟩
    · right; exact ⟨h, if_pos ((better_iff _ _).2 h)⟩
  clear hf
  have gen : ∀ n i r, i + n = l.length → r < l.length → (∀ j < i, Up (l.getD r fun _ => 0) (l.getD j fun _ => 0)) →
      (List.range' i n).foldl f r < l.length ∧
        ∀ j < l.length, Up (l.getD ((List.range' i n).foldl f r) fun _ => 0) (l.getD j fun _ => 0) := by
    intro n
    induction n with
    | zero =>
      intro i r hi hr h
      exact ⟨hr, fun j hj => h j (by omega)⟩
    | succ n ih =>
      intro i r hi hr h
      rw [List.range'_succ, List.foldl_cons]
      rcases hstep r i with ⟨hb, e⟩ | ⟨hb, e⟩
      · rw [e]
        refine ih (i + 1) r (by omega) hr fun j hj => ?_
        rcases Nat.lt_succ_iff_lt_or_eq.1 hj with hj | rfl
        · exact h j hj
        · exact hb
      · rw [e]
        refine ih (i + 1) i (by omega) (by omega) fun j hj => ?_
        have := (Up.total (l.getD r fun _ => 0) (l.getD i fun _ => 0)).resolve_left hb
        rcases Nat.lt_succ_iff_lt_or_eq.1 hj with hj | rfl
        · exact this.chain (h j hj)
        · exact Up.refl _
  obtain ⟨h1, h2⟩ := gen (l.length - 1) 1 0 (by omega) hlen (fun j hj => by
    rw [Nat.lt_one_iff.1 hj]; exact Up.refl _)
  refine ⟨h1, fun p hp => ?_⟩
  obtain ⟨j, hj, rfl⟩ := List.mem_iff_getElem.1 hp
  have := h2 j hj
  rw [List.getD_eq_getElem _ _ hj] at this
  exact this

/-- `find_anchor` permutes the points and moves a lowest, and among those a rightmost, point to the front. -/
theorem findAnchor_spec (l : List (Vec K 3)) (hl : l ≠ []) :
    ∃ a t, findAnchor l = a :: t ∧ (a :: t).Perm l ∧ ∀ p ∈ l, Up a p := by
  obtain ⟨h1, h2⟩ := findAnchorIndex_spec l hl
  have hlen : 0 < l.length := List.length_pos_iff.2 hl
  unfold findAnchor
  simp only []
  split_ifs with h
  · rw [List.getD_eq_getElem _ _ h1, List.getD_eq_getElem _ _ hlen]
    rw [List.getD_eq_getElem _ _ h1] at h2
    have hperm := List.set_set_perm (as := l) hlen h1
    rcases hl' : (l.set 0 l[findAnchorIndex l]).set (findAnchorIndex l) l[0] with _ | ⟨a, t⟩
    · have := congrArg List.length hl'
      simp at this
      exact absurd this hl
    · refine ⟨a, t, rfl, by rw [← hl']; exact hperm, ?_⟩
      have ha : a = l[findAnchorIndex l] := by
        have : ((l.set 0 l[findAnchorIndex l]).set (findAnchorIndex l) l[0])[0]? = some a := by rw [hl']; rfl
        rw [List.getElem?_set_ne (by omega), List.getElem?_set_self (by omega)] at this
        exact (Option.some.inj this).symm
      rw [ha]; exact h2
  · have h0 : findAnchorIndex l = 0 := by omega
    rw [h0] at h2
    rcases l with _ | ⟨a, t⟩
    · exact absurd rfl hl
    · exact ⟨a, t, rfl, List.Perm.refl _, h2⟩

/-! ### Removal of duplicates -/

/-- A point that is on the line through the anchor and `p` and not farther away is between them. -/
theorem segment_of_not_less {a p x : Vec K 3} (hp : Up a p) (hx : Up a x) (hp0 : ¬ Same2 p a)
    (h0 : orient2 a p x = 0) (hl : lessThanByAngle a x p = false) :
    ∃ t : K, 0 ≤ t ∧ t ≤ 1 ∧ x 0 - a 0 = t * (p 0 - a 0) ∧ x 1 - a 1 = t * (p 1 - a 1) := by
  by_cases hx0 : Same2 x a
  · exact ⟨0, le_rfl, zero_le_one, by rw [hx0.1]; ring, by rw [hx0.2]; ring⟩
  obtain ⟨t, ht, e0, e1⟩ := hp.ray hx hp0 hx0 h0
  refine ⟨t, ht.le, ?_, e0, e1⟩
  by_contra hc
  push Not at hc
  rw [← Bool.not_eq_true, less_iff, orient2_swap, h0, neg_zero] at hl
  apply hl
  right
  refine ⟨rfl, ?_⟩
  unfold Far
  rw [e0, e1, abs_mul, abs_mul, abs_of_pos ht]
  by_cases h : p 0 - a 0 = 0
  · right
    refine ⟨by rw [h, abs_zero, mul_zero], ?_⟩
    have : 0 < |p 1 - a 1| := abs_pos.2 fun h' => hp0 ⟨sub_eq_zero.1 h, sub_eq_zero.1 h'⟩
    nlinarith
  · left
    have : 0 < |p 0 - a 0| := abs_pos.2 h
    nlinarith

theorem dedupe_spec (a : Vec K 3) (l : List (Vec K 3)) : ∀ p1 : Vec K 3, Up a p1 → ¬ Same2 p1 a → (∀ p ∈ l, Up a p) →
    (p1 :: l).Pairwise (fun x y => lessThanByAngle a y x = false) →
    (∃ t, dedupe a p1 l = p1 :: t) ∧ (dedupe a p1 l).Sublist (p1 :: l) ∧
    (dedupe a p1 l).Pairwise (fun p q => 0 < orient2 a p q) ∧
    ∀ x ∈ p1 :: l, ∃ p ∈ dedupe a p1 l, ∃ t : K, 0 ≤ t ∧ t ≤ 1 ∧ x 0 - a 0 = t * (p 0 - a 0) ∧
      x 1 - a 1 = t * (p 1 - a 1) := by
  induction l with
  | nil =>
    intro p1 _ _ _ _
    refine ⟨⟨[], rfl⟩, List.Sublist.refl _, List.pairwise_singleton _ _, fun x hx => ⟨x, hx, 1, zero_le_one, le_rfl, ?_, ?_⟩⟩
    · ring
    · ring
  | cons p2 rest ih =>
    intro p1 hp1 hne hup hs
    have hs' := List.pairwise_cons.1 hs
    have hs2 := List.pairwise_cons.1 hs'.2
    by_cases h0 : orient2 a p1 p2 = 0
    · have e : dedupe a p1 (p2 :: rest) = dedupe a p1 rest := by
        rw [dedupe, if_pos ((isLeft_zero _ _ _).2 h0)]
      rw [e]
      obtain ⟨i1, i2, i3, i4⟩ := ih p1 hp1 hne (fun p hp => hup p (List.mem_cons_of_mem _ hp))
        (List.pairwise_cons.2 ⟨fun x hx => hs'.1 x (List.mem_cons_of_mem _ hx), hs2.2⟩)
      refine ⟨i1, i2.trans ((List.sublist_cons_self p2 rest).cons_cons p1), i3, fun x hx => ?_⟩
      rcases List.mem_cons.1 hx with rfl | hx
      · exact i4 _ List.mem_cons_self
      rcases List.mem_cons.1 hx with rfl | hx
      · obtain ⟨t, ht⟩ := i1
        refine ⟨p1, by rw [ht]; exact List.mem_cons_self, ?_⟩
        exact segment_of_not_less hp1 (hup _ List.mem_cons_self) hne h0 (hs'.1 _ List.mem_cons_self)
      · exact i4 x (List.mem_cons_of_mem _ hx)
    · have e : dedupe a p1 (p2 :: rest) = p1 :: dedupe a p2 rest := by
        rw [dedupe, if_neg (fun h => h0 ((isLeft_zero _ _ _).1 h))]
      rw [e]
      have hp2 := hup p2 List.mem_cons_self
      have hne2 : ¬ Same2 p2 a := fun h => h0 (orient2_anchor h)
      obtain ⟨⟨t, ht⟩, i2, i3, i4⟩ := ih p2 hp2 hne2 (fun p hp => hup p (List.mem_cons_of_mem _ hp)) hs'.2
      have hpos : 0 < orient2 a p1 p2 := by
        have := hs'.1 p2 List.mem_cons_self
        rw [← Bool.not_eq_true, less_iff, orient2_swap] at this
        push Not at this
        have := this.1
        exact lt_of_le_of_ne (by linarith) (Ne.symm h0)
      refine ⟨⟨_, rfl⟩, i2.cons_cons p1, ?_, ?_⟩
      · refine List.pairwise_cons.2 ⟨fun x hx => ?_, i3⟩
        have hxup : Up a x := by
          rcases List.mem_cons.1 (i2.subset hx) with rfl | hx'
          · exact hp2
          · exact hup x (List.mem_cons_of_mem _ hx')
        rw [ht] at hx i3
        rcases List.mem_cons.1 hx with rfl | hx
        · exact hpos
        · exact hp1.trans hp2 hxup hpos ((List.pairwise_cons.1 i3).1 x hx)
      · intro x hx
        rcases List.mem_cons.1 hx with rfl | hx
        · exact ⟨x, List.mem_cons_self, 1, zero_le_one, le_rfl, by ring, by ring⟩
        · obtain ⟨p, hp, h⟩ := i4 x hx
          exact ⟨p, List.mem_cons_of_mem _ hp, h⟩

/-! ### The scan -/

theorem orient2_split (a i j k : Vec K 3) : orient2 i j k = orient2 a i j + orient2 a j k - orient2 a i k := by
  unfold orient2; ring

theorem orient2_plucker (a i j k l : Vec K 3) :
    orient2 a i k * orient2 a j l = orient2 a i j * orient2 a k l + orient2 a i l * orient2 a j k := by
  unfold orient2; ring

/-- Left turns compose: with `i`, `j`, `k`, `l` in angular order about `a`. -/
theorem left_compose {a i j k l : Vec K 3} (hij : 0 < orient2 a i j) (hjk : 0 < orient2 a j k) (hkl : 0 < orient2 a k l)
    (hik : 0 < orient2 a i k) (hjl : 0 < orient2 a j l) (h1 : 0 ≤ orient2 i j k) (h2 : 0 ≤ orient2 j k l) :
    0 ≤ orient2 i j l ∧ 0 ≤ orient2 i k l := by
  rw [orient2_split a] at h1 h2 ⊢
  rw [orient2_split a i k l]
  have pl := orient2_plucker a i j k l
  generalize orient2 a i j = ij at *
  generalize orient2 a j k = jk at *
  generalize orient2 a k l = kl at *
  generalize orient2 a i k = ik at *
  generalize orient2 a j l = jl at *
  generalize orient2 a i l = il at *
  constructor
  · have : 0 ≤ jk * (ij + jl - il) := by
      have a1 := mul_nonneg h1 hjl.le
      have a2 := mul_nonneg h2 hij.le
      nlinarith
    exact nonneg_of_mul_nonneg_right this hjk
  · have : 0 ≤ jk * (ik + kl - il) := by
      have a1 := mul_nonneg h1 hkl.le
      have a2 := mul_nonneg h2 hik.le
      nlinarith
    exact nonneg_of_mul_nonneg_right this hjk

/-- The invariant of the stack without the anchor, top first: angles about the anchor increase towards the top and every three
points make no right turn. -/
def Good (a : Vec K 3) : List (Vec K 3) → Prop
  | [] => True
  | p :: st => Good a st ∧ (∀ q ∈ st, 0 < orient2 a q p) ∧ st.Pairwise (fun q r => 0 ≤ orient2 r q p)

/-- All points lie on a common plane that is not vertical. -/
def Flat (α β γ : K) (p : Vec K 3) : Prop := p 2 = α * p 0 + β * p 1 + γ

/-- A point on the left of `a t1`, on the right of `a p` and not on the right of `p t1` is in the triangle. -/
theorem triangle_mem {a t1 t2 p : Vec K 3} {α β γ : K} (fa : Flat α β γ a) (f1 : Flat α β γ t1) (f2 : Flat α β γ t2)
    (fp : Flat α β γ p) (h1 : 0 < orient2 a t1 t2) (h2 : 0 < orient2 a t2 p) (h3 : orient2 t1 t2 p ≤ 0)
    {s : Set (Fin 3 → K)} (hs : Convex K s) (ma : a ∈ s) (m1 : t1 ∈ s) (mp : p ∈ s) : t2 ∈ s := by
  have hD : 0 < orient2 a t1 p := by
    have := orient2_split a t1 t2 p; linarith
  have e : t2 = (-orient2 t1 t2 p / orient2 a t1 p) • a + (orient2 a t2 p / orient2 a t1 p) • t1 +
      (orient2 a t1 t2 / orient2 a t1 p) • p := by
    have hne := hD.ne'
    have i0 : orient2 a t1 p * t2 0 = -orient2 t1 t2 p * a 0 + orient2 a t2 p * t1 0 + orient2 a t1 t2 * p 0 := by
      unfold orient2; ring
    have i1 : orient2 a t1 p * t2 1 = -orient2 t1 t2 p * a 1 + orient2 a t2 p * t1 1 + orient2 a t1 t2 * p 1 := by
      unfold orient2; ring
    have i2 : orient2 a t1 p = -orient2 t1 t2 p + orient2 a t2 p + orient2 a t1 t2 := by
      unfold orient2; ring
    unfold Flat at *
    apply ext3
    · simp only [Pi.add_apply, Pi.smul_apply, smul_eq_mul]
      rw [div_mul_eq_mul_div, div_mul_eq_mul_div, div_mul_eq_mul_div, ← add_div, ← add_div, eq_div_iff hne]
      linear_combination i0
    · simp only [Pi.add_apply, Pi.smul_apply, smul_eq_mul]
      rw [div_mul_eq_mul_div, div_mul_eq_mul_div, div_mul_eq_mul_div, ← add_div, ← add_div, eq_div_iff hne]
      linear_combination i1
    · simp only [Pi.add_apply, Pi.smul_apply, smul_eq_mul]
      rw [div_mul_eq_mul_div, div_mul_eq_mul_div, div_mul_eq_mul_div, ← add_div, ← add_div, eq_div_iff hne, fa, f1, f2, fp]
      linear_combination α * i0 + β * i1 + γ * i2
  have hw : -orient2 t1 t2 p / orient2 a t1 p + orient2 a t2 p / orient2 a t1 p + orient2 a t1 t2 / orient2 a t1 p = 1 := by
    rw [← add_div, ← add_div, div_eq_one_iff_eq hD.ne']
    unfold orient2; ring
  have w0 : 0 ≤ -orient2 t1 t2 p / orient2 a t1 p := div_nonneg (by linarith) hD.le
  have w1 : 0 ≤ orient2 a t2 p / orient2 a t1 p := div_nonneg h2.le hD.le
  have w2 : 0 ≤ orient2 a t1 t2 / orient2 a t1 p := div_nonneg h1.le hD.le
  rw [e]
  have hsum := hs.sum_mem (t := Finset.univ) (w := ![-orient2 t1 t2 p / orient2 a t1 p, orient2 a t2 p / orient2 a t1 p,
    orient2 a t1 t2 / orient2 a t1 p]) (z := ![a, t1, p])
    (by intro i _; fin_cases i <;> [exact w0; exact w1; exact w2])
    (by rw [Fin.sum_univ_three]; exact hw)
    (by intro i _; fin_cases i <;> [exact ma; exact m1; exact mp])
  rw [Fin.sum_univ_three] at hsum
  exact hsum

theorem popStale_spec {α β γ : K} (a p : Vec K 3) (fa : Flat α β γ a) (fp : Flat α β γ p) (st : List (Vec K 3)) :
    st ≠ [] → Good a st → (∀ q ∈ st, 0 < orient2 a q p) → (∀ q ∈ st, Flat α β γ q) →
    ∃ st', popStalePoints p (st ++ [a]) = st' ++ [a] ∧ st' ≠ [] ∧ st'.Sublist st ∧ Good a (p :: st') ∧
      ∀ s : Set (Fin 3 → K), Convex K s → a ∈ s → p ∈ s → (∀ x ∈ st', x ∈ s) → ∀ x ∈ st, x ∈ s := by
  induction st with
  | nil => intro h; exact absurd rfl h
  | cons t2 st ih =>
    intro _ hg hpos hflat
    rcases st with _ | ⟨t1, st⟩
    · refine ⟨[t2], ?_, by simp, List.Sublist.refl _, ⟨hg, hpos, List.pairwise_singleton _ _⟩, fun s _ _ _ h => h⟩
      have := hpos t2 List.mem_cons_self
      simp only [List.cons_append, List.nil_append, popStalePoints]
      rw [if_neg]
      rw [isLeft_neg]
      exact this.not_gt
    · simp only [List.cons_append, popStalePoints]
      by_cases h : orient2 t1 t2 p < 0
      · rw [if_pos ((isLeft_neg _ _ _).2 h)]
        obtain ⟨st', h1, h2, h3, h4, h5⟩ := ih (by simp) hg.1 (fun q hq => hpos q (List.mem_cons_of_mem _ hq))
          (fun q hq => hflat q (List.mem_cons_of_mem _ hq))
        refine ⟨st', h1, h2, h3.cons t2, h4, fun s hs ma mp hx x hxm => ?_⟩
        have key := h5 s hs ma mp hx
        rcases List.mem_cons.1 hxm with rfl | hxm
        · exact triangle_mem fa (hflat t1 (by simp)) (hflat x (by simp)) fp (hg.2.1 t1 (by simp)) (hpos x (by simp)) h.le
            hs ma (key t1 (by simp)) mp
        · exact key x hxm
      · rw [if_neg (fun h' => h ((isLeft_neg _ _ _).1 h'))]
        have h := not_lt.1 h
        refine ⟨t2 :: t1 :: st, rfl, by simp, List.Sublist.refl _, ⟨hg, hpos, ?_⟩, fun s _ _ _ h => h⟩
        have hg2 := List.pairwise_cons.1 hg.2.2
        have hr : ∀ r ∈ t1 :: st, 0 ≤ orient2 r t2 p := by
          intro r hr
          rcases List.mem_cons.1 hr with rfl | hr
          · exact h
          · exact (left_compose (hg.1.2.1 r hr) (hg.2.1 t1 (by simp)) (hpos t2 (by simp)) (hg.2.1 r (by simp [hr]))
              (hpos t1 (by simp)) (hg2.1 r hr) h).2
        refine List.pairwise_cons.2 ⟨hr, ?_⟩
        have hang : (t1 :: st).Pairwise (fun q r => 0 < orient2 a r q) := by
          have : ∀ l : List (Vec K 3), Good a l → l.Pairwise (fun q r => 0 < orient2 a r q) := by
            intro l
            induction l with
            | nil => intro _; exact List.Pairwise.nil
            | cons x l ih => intro h; exact List.pairwise_cons.2 ⟨h.2.1, ih h.1⟩
          exact this _ hg.1
        refine List.Pairwise.imp_of_mem ?_ (hang.and hg.2.2)
        rintro q r hq hr' ⟨h1, h2⟩
        exact (left_compose h1 (hg.2.1 q hq) (hpos t2 (by simp)) (hg.2.1 r hr') (hpos q (List.mem_cons_of_mem _ hq)) h2
          (hr q hq)).1

theorem scan_spec {α β γ : K} (a : Vec K 3) (fa : Flat α β γ a) (rest : List (Vec K 3)) : ∀ st : List (Vec K 3),
    st ≠ [] → Good a st → (∀ q ∈ st, Flat α β γ q) → (∀ q ∈ st, ∀ p ∈ rest, 0 < orient2 a q p) →
    rest.Pairwise (fun p q => 0 < orient2 a p q) → (∀ q ∈ rest, Flat α β γ q) →
    ∃ st', rest.foldl (fun stack p => p :: popStalePoints p stack) (st ++ [a]) = st' ++ [a] ∧ Good a st' ∧
      (rest ≠ [] → 2 ≤ st'.length) ∧ st'.reverse.Sublist (st.reverse ++ rest) ∧
      ∀ s : Set (Fin 3 → K), Convex K s → a ∈ s → (∀ x ∈ st', x ∈ s) → ∀ x ∈ st ++ rest, x ∈ s := by
  induction rest with
  | nil =>
    intro st _ hg _ _ _ _
    refine ⟨st, rfl, hg, fun h => absurd rfl h, by simp, fun s _ _ h => by simpa using h⟩
  | cons p rest ih =>
    intro st hne hg hflat hpos hpw hflat2
    obtain ⟨st1, e1, n1, s1, g1, c1⟩ := popStale_spec a p fa (hflat2 p (by simp)) st hne hg
      (fun q hq => hpos q hq p (by simp)) hflat
    have hpw' := List.pairwise_cons.1 hpw
    obtain ⟨st2, e2, g2, l2, s2, c2⟩ := ih (p :: st1) (by simp) g1
      (by
        intro q hq
        rcases List.mem_cons.1 hq with rfl | hq
        · exact hflat2 _ (by simp)
        · exact hflat q (s1.subset hq))
      (by
        intro q hq x hx
        rcases List.mem_cons.1 hq with rfl | hq
        · exact hpw'.1 x hx
        · exact hpos q (s1.subset hq) x (List.mem_cons_of_mem _ hx))
      hpw'.2 (fun q hq => hflat2 q (List.mem_cons_of_mem _ hq))
    refine ⟨st2, ?_, g2, fun _ => ?_, ?_, ?_⟩
    · rw [List.foldl_cons, e1]; exact e2
    · by_cases hr : rest = []
      · subst hr
        have : st2 = p :: st1 := List.append_cancel_right e2.symm
        rw [this]
        have := List.length_pos_iff.2 n1
        simp only [List.length_cons]; omega
      · exact l2 hr
    · refine s2.trans ?_
      rw [List.reverse_cons, List.append_assoc]
      exact (s1.reverse).append (List.Sublist.refl _)
    · intro s hs ma hx x hxm
      have key := c2 s hs ma hx
      have mp : p ∈ s := key p (by simp)
      rcases List.mem_append.1 hxm with h | h
      · exact c1 s hs ma mp (fun y hy => key y (by simp [hy])) x h
      · rcases List.mem_cons.1 h with rfl | h
        · exact mp
        · exact key x (by simp [h])

/-! ### Assembling the result in the plane -/

theorem Good.get {a : Vec K 3} : ∀ {st : List (Vec K 3)}, Good a st →
    (∀ i j (hij : i < j) (hj : j < st.length), (0:K) < orient2 a st[j] st[i]) ∧
    ∀ i j k (hij : i < j) (hjk : j < k) (hk : k < st.length), (0:K) ≤ orient2 st[k] st[j] st[i] := by
  intro st
  induction st with
  | nil => intro _; exact ⟨fun i j _ hj => absurd hj (by simp), fun i j k _ _ hk => absurd hk (by simp)⟩
  | cons p st ih =>
    intro hg
    obtain ⟨i1, i2⟩ := ih hg.1
    constructor
    · intro i j hij hj
      obtain ⟨j, rfl⟩ := Nat.exists_eq_succ_of_ne_zero (by omega : j ≠ 0)
      rcases i with _ | i
      · exact hg.2.1 _ (List.getElem_mem _)
      · exact i1 i j (by omega) (by simpa using hj)
    · intro i j k hij hjk hk
      obtain ⟨j, rfl⟩ := Nat.exists_eq_succ_of_ne_zero (by omega : j ≠ 0)
      obtain ⟨k, rfl⟩ := Nat.exists_eq_succ_of_ne_zero (by omega : k ≠ 0)
      rcases i with _ | i
      · exact (List.pairwise_iff_getElem.1 hg.2.2) j k _ (by simpa using hk) (by omega)
      · exact i2 i j k (by omega) (by omega) (by simpa using hk)

/-- The specification of a polygon found by the scan. -/
structure IsHull (l h : List (Vec K 3)) : Prop where
  three : 3 ≤ h.length
  sub : h.Subperm l
  left : ∀ i j k (_hij : i < j) (hjk : j < k) (hk : k < h.length), (0:K) ≤ orient2 h[i] h[j] h[k]
  strict : ∀ j k (_hij : 0 < j) (hjk : j < k) (hk : k < h.length), (0:K) < orient2 h[0] h[j] h[k]
  conv : ∀ s : Set (Fin 3 → K), Convex K s → (∀ x ∈ h, x ∈ s) → ∀ x ∈ l, x ∈ s

theorem buildHull_spec {α β γ : K} (a p1 p2 : Vec K 3) (rest : List (Vec K 3)) (fl : ∀ p ∈ a :: p1 :: p2 :: rest, Flat α β γ p)
    (hpw : (p1 :: p2 :: rest).Pairwise (fun p q => 0 < orient2 a p q)) :
    IsHull (a :: p1 :: p2 :: rest) (buildHull (a :: p1 :: p2 :: rest)) := by
  have hpw' := List.pairwise_cons.1 hpw
  obtain ⟨st, e, g, hl, hsub, hc⟩ := scan_spec a (fl a (by simp)) (p2 :: rest) [p1] (by simp)
    ⟨trivial, by simp, List.Pairwise.nil⟩ (by intro q hq; exact fl q (by simp at hq; simp [hq]))
    (by intro q hq x hx; rw [List.mem_singleton.1 hq]; exact hpw'.1 x hx) hpw'.2
    (by intro q hq; exact fl q (by simp at hq; simp [hq]))
  have hb : buildHull (a :: p1 :: p2 :: rest) = a :: st.reverse := by
    have : [p1, a] = [p1] ++ [a] := rfl
    rw [buildHull, this, e, List.reverse_append]; rfl
  have hl := hl (by simp)
  obtain ⟨g1, g2⟩ := g.get
  have hget : ∀ i (hi : i < st.length), st.reverse[i]'(by simpa using hi) = st[st.length - 1 - i] := by
    intro i hi; rw [List.getElem_reverse]
  have hstrict : ∀ j k (_hij : 0 < j) (hjk : j < k) (hk : k < (a :: st.reverse).length),
      (0:K) < orient2 (a :: st.reverse)[0] (a :: st.reverse)[j] (a :: st.reverse)[k] := by
    intro j k hj hjk hk
    obtain ⟨j, rfl⟩ := Nat.exists_eq_succ_of_ne_zero (by omega : j ≠ 0)
    obtain ⟨k, rfl⟩ := Nat.exists_eq_succ_of_ne_zero (by omega : k ≠ 0)
    have hk' : k < st.length := by simpa using hk
    simp only [List.getElem_cons_succ, List.getElem_cons_zero]
    rw [hget j (by omega), hget k hk']
    exact g1 (st.length - 1 - k) (st.length - 1 - j) (by omega) (by omega)
  rw [hb]
  refine ⟨by simp; omega, ?_, ?_, hstrict, ?_⟩
  · exact (hsub.cons_cons a).subperm
  · intro i j k hij hjk hk
    rcases i with _ | i
    · exact (hstrict j k hij hjk hk).le
    · obtain ⟨j, rfl⟩ := Nat.exists_eq_succ_of_ne_zero (by omega : j ≠ 0)
      obtain ⟨k, rfl⟩ := Nat.exists_eq_succ_of_ne_zero (by omega : k ≠ 0)
      have hk' : k < st.length := by simpa using hk
      simp only [List.getElem_cons_succ]
      rw [hget i (by omega), hget j (by omega), hget k hk']
      exact g2 (st.length - 1 - k) (st.length - 1 - j) (st.length - 1 - i) (by omega) (by omega) (by omega)
  · intro s hs hx x hxm
    rcases List.mem_cons.1 hxm with rfl | hxm
    · exact hx _ (by simp)
    · exact hc s hs (hx a (by simp)) (fun y hy => hx y (by simp [hy])) x (by simpa using hxm)

end Hull

/-- What a comparator must satisfy on the elements that are sorted ([alg.sorting]). -/
structure StrictWeakOn {α : Type u} (lt : α → α → Bool) (l : List α) : Prop where
  irrefl : ∀ x ∈ l, lt x x = false
  trans : ∀ x ∈ l, ∀ y ∈ l, ∀ z ∈ l, lt x y = true → lt y z = true → lt x z = true
  equiv_trans : ∀ x ∈ l, ∀ y ∈ l, ∀ z ∈ l, lt x y = false → lt y x = false → lt y z = false → lt z y = false →
    lt x z = false ∧ lt z x = false

/-- The specification of `std::sort`: if the comparator is a strict weak order on the elements of the range, then the
result is a permutation of the range in which no element is less than an earlier one.  Nothing is said otherwise. -/
def StdSort {α : Type u} (sort : (α → α → Bool) → List α → List α) : Prop :=
  ∀ lt l, StrictWeakOn lt l → (sort lt l).Perm l ∧ (sort lt l).Pairwise fun x y => lt y x = false

namespace Hull
variable {K : Type u} [Field K] [LinearOrder K] [IsStrictOrderedRing K]

theorem strictWeak (a : Vec K 3) (l : List (Vec K 3)) (h : ∀ p ∈ l, Up a p) : StrictWeakOn (lessThanByAngle a) l where
  irrefl x _ := by rw [← Bool.not_eq_true]; exact less_irrefl a x
  trans x hx y hy z hz h1 h2 := less_trans (h x hx) (h y hy) (h z hz) h1 h2
  equiv_trans x hx y hy z hz h1 h2 h3 h4 := by
    have s1 := same_of_not_less (h x hx) (h y hy) (by simp [h1]) (by simp [h2])
    rw [less_congr s1 ⟨rfl, rfl⟩, less_congr ⟨rfl, rfl⟩ s1]
    exact ⟨h3, h4⟩

/-- `sort_points` after `find_anchor`: at least three points if the points are not on a line, in strict angular order
about the first, and every point is on a segment from the first to one of them. -/
theorem sortPoints_spec {sort : (Vec K 3 → Vec K 3 → Bool) → List (Vec K 3) → List (Vec K 3)} (hsort : StdSort sort)
    (l : List (Vec K 3)) (x y z : Vec K 3) (hx : x ∈ l) (hy : y ∈ l) (hz : z ∈ l) (hxyz : orient2 x y z ≠ 0) :
    ∃ a p1 p2 rest, sortPoints sort (findAnchor l) = a :: p1 :: p2 :: rest ∧ (a :: p1 :: p2 :: rest).Subperm l ∧
      (p1 :: p2 :: rest).Pairwise (fun p q => 0 < orient2 a p q) ∧
      ∀ x ∈ l, ∃ p ∈ a :: p1 :: p2 :: rest, ∃ t : K, 0 ≤ t ∧ t ≤ 1 ∧ x 0 - a 0 = t * (p 0 - a 0) ∧
        x 1 - a 1 = t * (p 1 - a 1) := by
  obtain ⟨a, tl, e, hperm, hup⟩ := findAnchor_spec l (List.ne_nil_of_mem hx)
  have hup' : ∀ p ∈ tl, Up a p := fun p hp => hup p (hperm.subset (List.mem_cons_of_mem _ hp))
  obtain ⟨sp, ss⟩ := hsort _ _ (strictWeak a tl hup')
  rw [e, sortPoints]
  rcases hs : sort (lessThanByAngle a) tl with _ | ⟨p1, tail⟩
  · exfalso
    rw [hs] at sp
    have : tl = [] := sp.symm.eq_nil
    rw [this] at hperm
    have ha : ∀ w ∈ l, w = a := fun w hw => by simpa using hperm.symm.subset hw
    apply hxyz
    rw [ha x hx, ha y hy, ha z hz]; unfold orient2; ring
  · rw [hs] at sp ss
    have hup1 : ∀ p ∈ p1 :: tail, Up a p := fun p hp => hup' p (sp.subset hp)
    have hmem : ∀ w ∈ l, w = a ∨ w ∈ p1 :: tail := by
      intro w hw
      rcases List.mem_cons.1 (hperm.symm.subset hw) with h | h
      · exact Or.inl h
      · exact Or.inr (sp.symm.subset h)
    have hp1 : ¬ Same2 p1 a := by
      intro h
      have hall : ∀ w ∈ l, Same2 w a := by
        intro w hw
        rcases hmem w hw with rfl | hw
        · exact ⟨rfl, rfl⟩
        · by_contra hc
          rcases List.mem_cons.1 hw with rfl | hw
          · exact hc h
          · have := (List.pairwise_cons.1 ss).1 w hw
            rw [← Bool.not_eq_true, less_iff] at this
            exact this (Or.inr ⟨orient2_anchor h, far_anchor hc h⟩)
      apply hxyz
      unfold orient2
      rw [(hall x hx).1, (hall x hx).2, (hall y hy).1, (hall y hy).2, (hall z hz).1, (hall z hz).2]; ring
    obtain ⟨⟨t, ht⟩, d2, d3, d4⟩ := dedupe_spec a tail p1 (hup1 p1 List.mem_cons_self) hp1
      (fun p hp => hup1 p (List.mem_cons_of_mem _ hp)) ss
    simp only []
    rcases t with _ | ⟨p2, rest⟩
    · exfalso
      have hseg : ∀ w ∈ l, ∃ t : K, w 0 - a 0 = t * (p1 0 - a 0) ∧ w 1 - a 1 = t * (p1 1 - a 1) := by
        intro w hw
        rcases hmem w hw with rfl | hw
        · exact ⟨0, by ring, by ring⟩
        · obtain ⟨p, hp, t, -, -, h0, h1⟩ := d4 w hw
          rw [ht, List.mem_singleton] at hp
          subst hp
          exact ⟨t, h0, h1⟩
      obtain ⟨tx, x0, x1⟩ := hseg x hx
      obtain ⟨ty, y0, y1⟩ := hseg y hy
      obtain ⟨tz, z0, z1⟩ := hseg z hz
      apply hxyz
      have e : ∀ u v : Vec K 3, orient2 x u v = ((u 0 - a 0) - (x 0 - a 0)) * ((v 1 - a 1) - (x 1 - a 1)) -
        ((u 1 - a 1) - (x 1 - a 1)) * ((v 0 - a 0) - (x 0 - a 0)) := by intro u v; unfold orient2; ring
      rw [e, x0, x1, y0, y1, z0, z1]; ring
    · rw [ht] at d2 d3 d4
      refine ⟨a, p1, p2, rest, by rw [ht], ?_, d3, ?_⟩
      · have h1 : (a :: p1 :: p2 :: rest).Subperm (a :: p1 :: tail) := (d2.cons_cons a).subperm
        exact h1.trans (((sp.cons a).trans hperm).subperm)
      · intro w hw
        rcases hmem w hw with rfl | hw
        · exact ⟨w, by simp, 0, le_rfl, zero_le_one, by ring, by ring⟩
        · obtain ⟨p, hp, h⟩ := d4 w hw
          exact ⟨p, List.mem_cons_of_mem _ hp, h⟩

/-- The hull of points of a common plane that is not vertical and that are not on a line. -/
theorem hull_spec {sort : (Vec K 3 → Vec K 3 → Bool) → List (Vec K 3) → List (Vec K 3)} (hsort : StdSort sort)
    {α β γ : K} (l : List (Vec K 3)) (fl : ∀ p ∈ l, Flat α β γ p) (x y z : Vec K 3) (hx : x ∈ l) (hy : y ∈ l) (hz : z ∈ l)
    (hxyz : orient2 x y z ≠ 0) : IsHull l (buildHull (sortPoints sort (findAnchor l))) := by
  obtain ⟨a, p1, p2, rest, e, hsub, hpw, hseg⟩ := sortPoints_spec hsort l x y z hx hy hz hxyz
  rw [e]
  have fl' : ∀ p ∈ a :: p1 :: p2 :: rest, Flat α β γ p := fun p hp => fl p (hsub.subset hp)
  have H := buildHull_spec a p1 p2 rest fl' hpw
  refine ⟨H.three, H.sub.trans hsub, H.left, H.strict, fun s hs hh w hw => ?_⟩
  obtain ⟨p, hp, t, t0, t1, e0, e1⟩ := hseg w hw
  have mp := H.conv s hs hh p hp
  have ma := H.conv s hs hh a List.mem_cons_self
  have : w = (1 - t) • a + t • p := by
    have fa := fl' a List.mem_cons_self
    have fp := fl' p hp
    have fw := fl w hw
    unfold Flat at fa fp fw
    apply ext3
    · simp only [Pi.add_apply, Pi.smul_apply, smul_eq_mul]; linear_combination e0
    · simp only [Pi.add_apply, Pi.smul_apply, smul_eq_mul]; linear_combination e1
    · simp only [Pi.add_apply, Pi.smul_apply, smul_eq_mul]
      rw [fw, fa, fp]; linear_combination α * e0 + β * e1
  rw [this]
  exact hs ma mp (by linarith) t0 (by ring)

end Hull
end vm
