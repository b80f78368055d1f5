import Verif.Model.Intersect
import Verif.Lemmas.Vec
import Verif.Props.Solve
import Verif.Props.MinMax
import Mathlib.Tactic.Linarith
import Mathlib.Tactic.LinearCombination
import Mathlib.Tactic.Positivity

/-! # C68: intersection of rays and tori -/

universe u

set_option linter.unusedSectionVars false
set_option linter.unusedSimpArgs false

namespace vm

/-- Specification: the point is on the torus around the z axis, i.e. its distance to the circle of radius
`M` in the plane through the centre orthogonal to the z axis is `m`. -/
noncomputable def OnTorus (M m : ℝ) (center x : Vec ℝ 3) : Prop :=
  (Real.sqrt ((x 0 - center 0) ^ 2 + (x 1 - center 1) ^ 2) - M) ^ 2 + (x 2 - center 2) ^ 2 = m ^ 2

/-- The implicit equation of degree four. -/
theorem onTorus_iff (M m : ℝ) (hm : |m| ≤ M) (center x : Vec ℝ 3) :
    OnTorus M m center x ↔
      ((x 0 - center 0) ^ 2 + (x 1 - center 1) ^ 2 + (x 2 - center 2) ^ 2 + M ^ 2 - m ^ 2) ^ 2
        = 4 * M ^ 2 * ((x 0 - center 0) ^ 2 + (x 1 - center 1) ^ 2) := by
  unfold OnTorus
  generalize hA : (x 0 - center 0) ^ 2 + (x 1 - center 1) ^ 2 = A
  generalize (x 2 - center 2) = z
  have hA0 : 0 ≤ A := by rw [← hA]; positivity
  have hM : 0 ≤ M := (abs_nonneg m).trans hm
  set ρ := Real.sqrt A with hρ
  have hρ0 : 0 ≤ ρ := Real.sqrt_nonneg A
  have hρA : ρ ^ 2 = A := Real.sq_sqrt hA0
  rw [← hρA]
  constructor
  · intro h
    have : ρ ^ 2 + z ^ 2 + M ^ 2 - m ^ 2 = 2 * M * ρ := by linear_combination h
    rw [this]; ring
  · intro h
    have h2 : (ρ ^ 2 + z ^ 2 + M ^ 2 - m ^ 2 - 2 * M * ρ) * (ρ ^ 2 + z ^ 2 + M ^ 2 - m ^ 2 + 2 * M * ρ) = 0 := by
      linear_combination h
    rcases mul_eq_zero.1 h2 with h3 | h3
    · linear_combination h3
    · have h4 : (ρ + M) ^ 2 + z ^ 2 = m ^ 2 := by linear_combination h3
      have h5 : m ^ 2 ≤ M ^ 2 := by rw [← sq_abs m]; exact pow_le_pow_left₀ (abs_nonneg m) hm 2
      have h6 : ρ ^ 2 + 2 * ρ * M + z ^ 2 ≤ 0 := by nlinarith
      have h7 : ρ ^ 2 = 0 := by nlinarith [mul_nonneg hρ0 hM, sq_nonneg ρ, sq_nonneg z]
      have h8 : ρ = 0 := by simpa using h7
      rw [h8] at h4 ⊢
      linear_combination h4

/-- The coefficients computed by the code are those of the implicit equation along the ray, for every ray,
position and radii, over every field. -/
theorem C68_quartic {K : Type u} [Field K] (r : Ray K 3) (position : Vec K 3) (M m t : K) :
    let c := torusQuartic r position M m
    let x := r.origin + t • r.direction - position
    c.1 * t ^ 4 + c.2.1 * t ^ 3 + c.2.2.1 * t ^ 2 + c.2.2.2.1 * t + c.2.2.2.2 =
      (x 0 ^ 2 + x 1 ^ 2 + x 2 ^ 2 + M ^ 2 - m ^ 2) ^ 2 - 4 * M ^ 2 * (x 0 ^ 2 + x 1 ^ 2) := by
  simp only [torusQuartic, dot3, Pi.sub_apply, Pi.add_apply, Pi.smul_apply, smul_eq_mul]
  ring

theorem solveQuadratic_unreported (a b c e : ℝ) (i : Fin 2) (h : (solveQuadratic a b c e).num ≤ i.val) :
    (solveQuadratic a b c e).sol i = none := by
  unfold solveQuadratic at *
  simp only at *
  split_ifs at * <;> fin_cases i <;> simp_all

theorem solveCubic_unreported (a b c d e : ℝ) (i : Fin 3) (h : (solveCubic a b c d e).num ≤ i.val) :
    (solveCubic a b c d e).sol i = none := by
  unfold solveCubic resubstitute solveDepressed at *
  simp only at *
  split_ifs at * <;> fin_cases i <;> simp_all

theorem solveQuadratic_num_le (a b c e : ℝ) : (solveQuadratic a b c e).num ≤ 2 := by
  unfold solveQuadratic; simp only; split_ifs <;> simp

/-- Slots after the reported ones are NaN, for every tolerance. -/
theorem solveQuartic_unreported (a b c d e eps : ℝ) (i : Fin 4) (h : (solveQuartic a b c d e eps).num ≤ i.val) :
    (solveQuartic a b c d e eps).sol i = none := by
  have key : ∀ p q r, (solveDepressedQuartic p q r eps).num ≤ i.val → (solveDepressedQuartic p q r eps).sol i = none := by
    intro p q r h
    unfold solveDepressedQuartic at *
    by_cases hr : isZero r eps = true
    · rw [if_pos hr] at *
      simp only at *
      rw [if_neg (by omega)]
      by_cases h3 : i.val < 3
      · rw [dif_pos h3]; exact solveCubic_unreported _ _ _ _ _ _ (by simp only; omega)
      · rw [dif_neg h3]
    · rw [if_neg hr] at *
      simp only at *
      split at * <;> try rfl
      split at * <;> try rfl
      split at * <;> try rfl
      rename_i z _ _ u _ _ v _
      generalize hs1 : solveQuadratic 1 (if q < 0 then -v else v) (z - u) eps = s1 at *
      generalize hs2 : solveQuadratic 1 (if q < 0 then v else -v) (z + u) eps = s2 at *
      have u1 : ∀ i : Fin 2, s1.num ≤ i.val → s1.sol i = none := by
        intro i h; rw [← hs1] at *; exact solveQuadratic_unreported _ _ _ _ i h
      have u2 : ∀ i : Fin 2, s2.num ≤ i.val → s2.sol i = none := by
        intro i h; rw [← hs2] at *; exact solveQuadratic_unreported _ _ _ _ i h
      have n1 : s1.num ≤ 2 := by rw [← hs1]; exact solveQuadratic_num_le _ _ _ _
      obtain ⟨k1, f1⟩ := s1
      obtain ⟨k2, f2⟩ := s2
      simp only [storeQuadratics] at *
      interval_cases k1
      · simp
      · have e0 : (i : ℕ) ≠ 0 := by omega
        have hi0 : i ≠ 0 := fun h => e0 (by rw [h]; rfl)
        simp only [Nat.lt_irrefl, if_false, Nat.zero_lt_one, if_true, Nat.zero_add]
        by_cases e1 : i.val = 1
        · rw [if_pos e1]; exact u2 0 (by simp; omega)
        · rw [if_neg e1, Function.update_of_ne hi0]
      · have hi0 : i ≠ 0 := fun h' => by rw [h'] at h; simp at h
        have hi1 : i ≠ 1 := fun h' => by rw [h'] at h; simp at h; omega
        simp only [Nat.lt_irrefl, if_false, Nat.zero_lt_two, Nat.one_lt_two, if_true, Nat.zero_add]
        by_cases e3 : i.val = 1 + 2
        · rw [if_pos e3]; exact u2 1 (by simp; omega)
        · rw [if_neg e3]
          by_cases e2 : i.val = 2
          · rw [if_pos e2]; exact u2 0 (by simp; omega)
          · rw [if_neg e2, Function.update_of_ne hi1, Function.update_of_ne hi0]
  unfold solveQuartic resubstitute at *
  simp only at *
  rw [if_neg (not_lt.2 h)]
  exact key _ _ _ h

/-- The selection returns the least positive reported solution, NaN if there is none. -/
theorem torusSelect_spec (s : Sols 4) (hu : ∀ i : Fin 4, s.num ≤ i.val → s.sol i = none) :
    (∀ t, torusSelect s = some t → 0 < t ∧ (∃ i : Fin 4, i.val < s.num ∧ s.sol i = some t) ∧
      ∀ (i : Fin 4) x, i.val < s.num → s.sol i = some x → 0 < x → t ≤ x) ∧
    (torusSelect s = none → ∀ (i : Fin 4) x, i.val < s.num → s.sol i = some x → x ≤ 0) := by
  unfold torusSelect
  by_cases h0 : s.num = 0
  · rw [if_pos h0]
    refine ⟨fun t h => (by cases h), fun _ i x hi => ?_⟩
    rw [h0] at hi; exact absurd hi (Nat.not_lt_zero _)
  · rw [if_neg h0]
    simp only
    set pick : Fin 4 → Option ℝ := fun i => if i.val < s.num then (match s.sol i with
        | some x => if 0 < x then some x else none
        | none => none)
      else s.sol i with hpick
    have hp : ∀ i x, pick i = some x ↔ i.val < s.num ∧ s.sol i = some x ∧ 0 < x := by
      intro i x
      rw [hpick]
      simp only
      by_cases hi : i.val < s.num
      · rw [if_pos hi]
        rcases s.sol i with _ | y
        · simp
        · by_cases hy : 0 < y
          · simp only [hy, if_true, Option.some.injEq, hi, true_and]
            constructor
            · rintro rfl; exact ⟨rfl, hy⟩
            · exact fun h => h.1
          · simp only [hy, if_false, Option.some.injEq, hi, true_and, reduceCtorEq, false_iff]
            rintro ⟨rfl, h⟩; exact hy h
      · rw [if_neg hi, hu i (not_lt.1 hi)]; simp [hi]
    have hlist : ∀ i, pick i ∈ [pick 0, pick 1, pick 2, pick 3] := by
      intro i; fin_cases i <;> simp
    obtain ⟨hmem, hnan, hle⟩ := C03_safeMin (pick 0) [pick 1, pick 2, pick 3]
    change (∀ t, safeMin (pick 0) [pick 1, pick 2, pick 3] = some t → _) ∧
      (safeMin (pick 0) [pick 1, pick 2, pick 3] = none → _)
    constructor
    · intro t ht
      rw [ht] at hmem hle
      obtain ⟨j, hj⟩ : ∃ j, pick j = some t := by
        simp only [List.mem_cons, List.not_mem_nil, or_false] at hmem
        rcases hmem with h | h | h | h
        · exact ⟨0, h.symm⟩
        · exact ⟨1, h.symm⟩
        · exact ⟨2, h.symm⟩
        · exact ⟨3, h.symm⟩
      obtain ⟨h1, h2, h3⟩ := (hp j t).1 hj
      refine ⟨h3, ⟨j, h1, h2⟩, fun i x hi hx hx0 => ?_⟩
      have hpi : pick i = some x := (hp i x).2 ⟨hi, hx, hx0⟩
      have := hle (pick i) (hlist i) (by rw [hpi]; simp [isNan, Cmp.eq])
      rw [hpi] at this
      simpa [Cmp.le] using this
    · intro ht i x hi hx
      by_contra hx0
      have hpi : pick i = some x := (hp i x).2 ⟨hi, hx, not_le.1 hx0⟩
      rw [ht] at hnan
      have := hnan.1 (by simp [isNan, Cmp.eq]) (pick i) (hlist i)
      rw [hpi] at this
      simp [isNan, Cmp.eq] at this

/-- `intersect_ray_torus` returns the parameter of the first torus point in front of the origin, and NaN
exactly if there is none: for every ray, position and every torus that does not intersect itself, provided that
the tolerance `eps` does not influence the quartic solver, in particular for tolerance 0.  Missing for the full
claim: inputs for which the tolerance 0.001 built into the code does influence the solver; for those it can be
false (`C68_fails`). -/
theorem C68_ray_torus_partial (eps : ℝ) (r : Ray ℝ 3) (hd : r.direction ≠ 0) (position : Vec ℝ 3) (M m : ℝ)
    (hm : |m| ≤ M)
    (heps : ∀ a b c d e, torusQuartic r position M m = (a, b, c, d, e) →
      solveQuartic a b c d e eps = solveQuartic a b c d e 0) :
    (∀ t, intersectRayTorus eps r position M m = some t ↔
      IsLeast {t : ℝ | 0 < t ∧ OnTorus M m position (r.origin + t • r.direction)} t) ∧
    (intersectRayTorus eps r position M m = none ↔
      ∀ t : ℝ, 0 < t → ¬ OnTorus M m position (r.origin + t • r.direction)) := by
  rcases hq : torusQuartic r position M m with ⟨a, b, c, d, e⟩
  have hrun : intersectRayTorus eps r position M m = torusSelect (solveQuartic a b c d e 0) := by
    unfold intersectRayTorus; rw [hq]; simp only; rw [heps a b c d e hq]
  have ha : a ≠ 0 := by
    have : a = dot r.direction r.direction * dot r.direction r.direction := by
      have := congrArg Prod.fst hq; exact this.symm
    rw [this]
    exact mul_ne_zero (dot_self_pos hd).ne' (dot_self_pos hd).ne'
  have hon : ∀ t, OnTorus M m position (r.origin + t • r.direction) ↔
      a * t ^ 4 + b * t ^ 3 + c * t ^ 2 + d * t + e = 0 := by
    intro t
    have h := C68_quartic r position M m t
    rw [hq] at h
    simp only [Pi.sub_apply] at h
    rw [onTorus_iff M m hm, h, sub_eq_zero]
  obtain ⟨-, -, hroots⟩ := C14_quartic a b c d e ha
  obtain ⟨hsome, hnone⟩ := torusSelect_spec (solveQuartic a b c d e 0)
    (fun i h => solveQuartic_unreported a b c d e 0 i h)
  rw [hrun]
  have hs : ∀ t, torusSelect (solveQuartic a b c d e 0) = some t →
      IsLeast {t : ℝ | 0 < t ∧ OnTorus M m position (r.origin + t • r.direction)} t := by
    intro t ht
    obtain ⟨h1, h2, h3⟩ := hsome t ht
    refine ⟨⟨h1, (hon t).2 ((hroots t).1 h2)⟩, ?_⟩
    rintro s ⟨hs0, hs1⟩
    obtain ⟨i, hi, hx⟩ := (hroots s).2 ((hon s).1 hs1)
    exact h3 i s hi hx hs0
  refine ⟨fun t => ⟨hs t, fun h => ?_⟩, ⟨fun h t ht hon' => ?_, fun h => ?_⟩⟩
  · rcases e' : torusSelect (solveQuartic a b c d e 0) with _ | t'
    · obtain ⟨i, hi, hx⟩ := (hroots t).2 ((hon t).1 h.1.2)
      exact absurd h.1.1 (not_lt.2 (hnone e' i t hi hx))
    · rw [(hs t' e').unique h]
  · obtain ⟨i, hi, hx⟩ := (hroots t).2 ((hon t).1 hon')
    exact absurd ht (not_lt.2 (hnone h i t hi hx))
  · rcases e' : torusSelect (solveQuartic a b c d e 0) with _ | t
    · rfl
    · exact absurd (hs t e').1.2 (h t (hs t e').1.1)

/-- With the tolerance of the code a ray through the hole of a small torus is reported to hit it: radii 1/10
and 1/100, ray along the axis. -/
theorem C68_fails :
    let r : Ray ℝ 3 := ⟨![0, 0, 10], ![0, 0, -1]⟩
    intersectRayTorus almostZeroR r 0 (1 / 10) (1 / 100) = some 10 ∧
    ∀ t : ℝ, ¬ OnTorus (1 / 10) (1 / 100) 0 (r.origin + t • r.direction) := by
  intro r
  constructor
  · have hq : torusQuartic r 0 (1 / 10 : ℝ) (1 / 100) =
        (1, -40, 2 * (100 - 1 / 10000 - 1 / 100) + 4 * (100 + 1 / 100),
          -40 * (100 - 1 / 10000 - 1 / 100) - 8 / 10,
          (100 - 1 / 10000 - 1 / 100) ^ 2 - 4 / 100 * (1 / 10000 - 100)) := by
      simp only [torusQuartic, dot3, Pi.sub_apply, Pi.zero_apply, r, Matrix.cons_val_zero, Matrix.cons_val_one,
        Matrix.cons_val]
      norm_num
    unfold intersectRayTorus
    rw [hq]
    simp only
    have hs : ∀ a b c d e : ℝ, a = 1 → b = -40 → c = 2 * (100 - 1 / 10000 - 1 / 100) + 4 * (100 + 1 / 100) →
        d = -40 * (100 - 1 / 10000 - 1 / 100) - 8 / 10 →
        e = (100 - 1 / 10000 - 1 / 100) ^ 2 - 4 / 100 * (1 / 10000 - 100) →
        solveQuartic a b c d e almostZeroR = ⟨2, ![some 10, some 10, none, none]⟩ := by
      rintro a b c d e rfl rfl rfl rfl rfl
      have haz : (0 : ℝ) ≤ almostZeroR := by unfold almostZeroR; norm_num
      unfold solveQuartic
      simp only
      have e1 : (-(3 / 8) * (-40 / 1) * (-40 / 1) + (2 * (100 - 1 / 10000 - 1 / 100) + 4 * (100 + 1 / 100)) / 1 : ℝ)
          = 198 / 10000 := by norm_num
      have e2 : (1 / 8 * (-40 / 1) * (-40 / 1) * (-40 / 1) -
          1 / 2 * (-40 / 1) * ((2 * (100 - 1 / 10000 - 1 / 100) + 4 * (100 + 1 / 100)) / 1) +
          (-40 * (100 - 1 / 10000 - 1 / 100) - 8 / 10) / 1 : ℝ) = 0 := by norm_num
      have e3 : (-(3 / 256) * (-40 / 1) * (-40 / 1) * (-40 / 1) * (-40 / 1) +
          1 / 16 * (-40 / 1) * (-40 / 1) * ((2 * (100 - 1 / 10000 - 1 / 100) + 4 * (100 + 1 / 100)) / 1) -
          1 / 4 * (-40 / 1) * ((-40 * (100 - 1 / 10000 - 1 / 100) - 8 / 10) / 1) +
          ((100 - 1 / 10000 - 1 / 100) ^ 2 - 4 / 100 * (1 / 10000 - 100)) / 1 : ℝ) = 9801 / 100000000 := by norm_num
      rw [e1, e2, e3]
      have hdq : solveDepressedQuartic (198 / 10000) 0 (9801 / 100000000) almostZeroR =
          ⟨2, fun i => if i.val < 2 then some 0 else none⟩ := by
        have hc : solveCubic 1 0 (198 / 10000) 0 almostZeroR = ⟨1, ![some 0, none, none]⟩ := by
          unfold solveCubic solveDepressed resubstitute
          have z1 : isZero (1 / 2 * (2 / 27 * (0 / 1 : ℝ) * (0 / 1) * (0 / 1) - 1 / 3 * (0 / 1) * (198 / 10000 / 1) + 0 / 1)
              * (1 / 2 * (2 / 27 * (0 / 1 : ℝ) * (0 / 1) * (0 / 1) - 1 / 3 * (0 / 1) * (198 / 10000 / 1) + 0 / 1)) +
              1 / 3 * (-(1 / 3) * (0 / 1) * (0 / 1) + 198 / 10000 / 1) * (1 / 3 * (-(1 / 3) * (0 / 1) * (0 / 1) + 198 / 10000 / 1))
              * (1 / 3 * (-(1 / 3) * (0 / 1) * (0 / 1) + 198 / 10000 / 1))) almostZeroR = true := by
            rw [isZero_exact_nonneg _ haz, decide_eq_true_eq, abs_of_nonneg (by norm_num)]
            unfold almostZeroR; norm_num
          have z2 : isZero (1 / 2 * (2 / 27 * (0 / 1 : ℝ) * (0 / 1) * (0 / 1) - 1 / 3 * (0 / 1) * (198 / 10000 / 1) + 0 / 1))
              almostZeroR = true := by
            rw [isZero_exact_nonneg _ haz, decide_eq_true_eq]
            unfold almostZeroR; norm_num
          simp only [z1, z2, if_true]
          congr 1
          funext i
          fin_cases i <;> simp
        unfold solveDepressedQuartic
        have z3 : isZero (9801 / 100000000 : ℝ) almostZeroR = true := by
          rw [isZero_exact_nonneg _ haz, decide_eq_true_eq, abs_of_nonneg (by norm_num)]
          unfold almostZeroR; norm_num
        rw [if_pos z3, hc]
        simp only
        congr 1
        funext i
        fin_cases i <;> simp
      rw [hdq]
      unfold resubstitute
      simp only
      congr 1
      funext i
      fin_cases i <;> norm_num
    rw [hs _ _ _ _ _ rfl rfl rfl rfl rfl]
    unfold torusSelect
    simp [safeMin, isNan, Cmp.eq, Cmp.lt]
  · intro t h
    unfold OnTorus at h
    simp only [r, Pi.add_apply, Pi.smul_apply, Pi.zero_apply, smul_eq_mul, Matrix.cons_val_zero,
      Matrix.cons_val_one, Matrix.cons_val] at h
    norm_num at h
    nlinarith [sq_nonneg (10 - t), h]

example : |(1 / 4 : ℝ)| ≤ 1 ∧ (![0, 0, -1] : Vec ℝ 3) ≠ 0 ∧
    OnTorus 1 (1 / 4) 0 ((⟨![1, 0, 2], ![0, 0, -1]⟩ : Ray ℝ 3).origin + (7 / 4 : ℝ) • ![0, 0, -1]) := by
  refine ⟨by rw [abs_of_pos] <;> norm_num, fun h => ?_, ?_⟩
  · have := congrFun h 2
    simp only [Matrix.cons_val, Pi.zero_apply] at this
    norm_num at this
  · unfold OnTorus
    simp only [Pi.add_apply, Pi.smul_apply, Pi.zero_apply, smul_eq_mul, Matrix.cons_val_zero,
      Matrix.cons_val_one, Matrix.cons_val]
    norm_num

end vm
