import Verif.Model.Solve
import Verif.Lemmas.Scalar
import Mathlib.Tactic.FinCases
import Mathlib.Tactic.IntervalCases
import Mathlib.Data.Set.Card
import Mathlib.Tactic.NormNum
import Mathlib.Tactic.LinearCombination

/-! Helper lemmas about the polynomial solvers. -/

set_option linter.unusedSectionVars false
set_option linter.unusedSimpArgs false

namespace vm

theorem cbrt_pow (x : ℝ) : cbrt x ^ 3 = x := by
  unfold cbrt
  split_ifs with h
  · rw [← Real.rpow_natCast, ← Real.rpow_mul h]; norm_num
  · have h' : 0 ≤ -x := by linarith
    have : (-((-x) ^ (1 / 3 : ℝ))) ^ 3 = -(((-x) ^ (1 / 3 : ℝ)) ^ 3) := by ring
    rw [this, ← Real.rpow_natCast, ← Real.rpow_mul h']; norm_num

theorem cube_inj {x y : ℝ} (h : x ^ 3 = y ^ 3) : x = y := by
  have h1 : (x - y) * (x ^ 2 + x * y + y ^ 2) = 0 := by linear_combination h
  rcases mul_eq_zero.1 h1 with h2 | h2
  · linarith
  · have hx : x = 0 := by nlinarith [sq_nonneg (x + y), sq_nonneg x, sq_nonneg y]
    have hy : y = 0 := by nlinarith [sq_nonneg (x + y), sq_nonneg x, sq_nonneg y]
    rw [hx, hy]

/-- Value `x` is among the reported solutions. -/
def Sols.Reported {n : ℕ} (s : Sols n) (x : ℝ) : Prop := ∃ i : Fin n, i.val < s.num ∧ s.sol i = some x

theorem reported_resubstitute {n : ℕ} (s : Sols n) (t x : ℝ) :
    (resubstitute s t).Reported x ↔ s.Reported (x + t) := by
  unfold Sols.Reported resubstitute
  constructor
  · rintro ⟨i, hi, h⟩
    simp only at hi h
    rw [if_pos hi, Option.map_eq_some_iff] at h
    obtain ⟨y, hy, rfl⟩ := h
    exact ⟨i, hi, by rw [hy]; congr 1; ring⟩
  · rintro ⟨i, hi, h⟩
    exact ⟨i, hi, by simp [hi, h]⟩

/-- All the reported slots are numbers and distinct, and the reported numbers are the roots. -/
structure Sols.Exact {n : ℕ} (s : Sols n) (P : ℝ → Prop) : Prop where
  num_le : s.num ≤ n
  some_ : ∀ i : Fin n, i.val < s.num → (s.sol i).isSome = true
  inj : ∀ i j : Fin n, i.val < s.num → j.val < s.num → s.sol i = s.sol j → i = j
  iff : ∀ x, s.Reported x ↔ P x

theorem Sols.Exact.card {n : ℕ} {s : Sols n} {P : ℝ → Prop} (h : s.Exact P) :
    s.num = Set.ncard {x | P x} := by
  have hsub : ∀ i : Fin s.num, i.val < n := fun i => lt_of_lt_of_le i.2 h.num_le
  let f : Fin s.num → ℝ := fun i => (s.sol ⟨i, hsub i⟩).get (h.some_ ⟨i, hsub i⟩ i.2)
  have hf : ∀ i : Fin s.num, s.sol ⟨i, hsub i⟩ = some (f i) := fun i => by simp [f]
  have hinj : Function.Injective f := by
    intro i j hij
    have := h.inj ⟨i, hsub i⟩ ⟨j, hsub j⟩ i.2 j.2 (by rw [hf, hf, hij])
    exact Fin.ext (by simpa using congrArg Fin.val this)
  have hr : {x | P x} = Set.range f := by
    ext x
    simp only [Set.mem_ofPred_eq, Set.mem_range]
    rw [← h.iff]
    constructor
    · rintro ⟨i, hi, hx⟩
      refine ⟨⟨i, hi⟩, ?_⟩
      have := hf ⟨i, hi⟩
      simp only [Fin.eta] at this
      rw [hx] at this
      exact (Option.some.inj this).symm
    · rintro ⟨i, rfl⟩
      exact ⟨⟨i, hsub i⟩, i.2, hf i⟩
  rw [hr, ← Nat.card_coe_set_eq, Nat.card_range_of_injective hinj]; simp

theorem Sols.Exact.resubstitute {n : ℕ} {s : Sols n} {P Q : ℝ → Prop} (h : s.Exact P) (t : ℝ)
    (hQ : ∀ x, P (x + t) ↔ Q x) : (resubstitute s t).Exact Q where
  num_le := h.num_le
  some_ i hi := by
    have := h.some_ i hi
    simp only [vm.resubstitute] at hi ⊢
    simp [hi, this]
  inj i j hi hj hij := by
    simp only [vm.resubstitute] at hi hj hij
    rw [if_pos hi, if_pos hj] at hij
    apply h.inj i j hi hj
    obtain ⟨x, hx⟩ := Option.isSome_iff_exists.1 (h.some_ i hi)
    obtain ⟨y, hy⟩ := Option.isSome_iff_exists.1 (h.some_ j hj)
    rw [hx, hy] at hij ⊢
    simp at hij
    rw [hij]
  iff x := by rw [reported_resubstitute, h.iff, hQ]

theorem reported_zero {n : ℕ} {f : Fin n → Option ℝ} (x : ℝ) : ¬ (Sols.mk 0 f).Reported x := by
  rintro ⟨i, hi, -⟩; simp at hi

theorem solveQuadratic_exact {a b c : ℝ} (ha : a ≠ 0) :
    (solveQuadratic a b c 0).Exact (fun x => a * x ^ 2 + b * x + c = 0) := by
  have key : ∀ x : ℝ, a * x ^ 2 + b * x + c = 0 ↔
      (x + b / (2 * a)) ^ 2 = b / (2 * a) * (b / (2 * a)) - c / a := by
    intro x
    constructor
    · intro h; field_simp; linear_combination 4 * a * h
    · intro h; field_simp at h; 
      have : a * (a * x ^ 2 + b * x + c) = 0 := by linear_combination (1 / 4) * h
      exact (mul_eq_zero.1 this).resolve_left ha
  unfold solveQuadratic
  simp only [isZero_zero_exact, decide_eq_true_eq]
  generalize b / (2 * a) = p at *
  generalize c / a = q at *
  split_ifs with h1 h2
  · refine ⟨by norm_num, ?_, ?_, ?_⟩
    · intro i hi; fin_cases i <;> simp at hi ⊢
    · intro i j hi hj _; fin_cases i <;> fin_cases j <;> simp at hi hj ⊢
    · intro x
      rw [key, h1]
      constructor
      · rintro ⟨i, hi, h⟩; fin_cases i <;> simp at hi h; rw [← h]; ring
      · intro h
        have : x = -p := by nlinarith [pow_eq_zero_iff (n := 2) (two_ne_zero) |>.1 h]
        exact ⟨0, by simp, by simp [this]⟩
  · refine ⟨by norm_num, ?_, ?_, ?_⟩
    · intro i hi; simp at hi
    · intro i j hi; simp at hi
    · intro x
      rw [key]
      constructor
      · intro h; exact absurd h (reported_zero x)
      · intro h; nlinarith [sq_nonneg (x + p)]
  · have hD : 0 < p * p - q := lt_of_le_of_ne (not_lt.1 h2) (Ne.symm h1)
    have hs := Real.sq_sqrt hD.le
    have hs0 := Real.sqrt_pos.2 hD
    refine ⟨by norm_num, ?_, ?_, ?_⟩
    · intro i hi; fin_cases i <;> simp
    · intro i j hi hj hij
      fin_cases i <;> fin_cases j <;> simp at hij ⊢ <;> linarith
    · intro x
      rw [key, ← hs]
      constructor
      · rintro ⟨i, hi, h⟩; fin_cases i <;> simp at h <;> rw [← h] <;> ring
      · intro h
        rcases sq_eq_sq_iff_eq_or_eq_neg.1 h with h | h
        · exact ⟨0, by simp, by simp; linarith⟩
        · exact ⟨1, by simp, by simp; linarith⟩

/-- What is needed about the first slot of `solve_cubic`. -/
def FirstSlot (s : Sols 3) (f : ℝ → ℝ) : Prop :=
  ∃ z, s.sol 0 = some z ∧ 0 < s.num ∧ f z = 0 ∧
    ((∀ x, f x = 0 → x ≤ z) ∨ ∃ z1, z < z1 ∧ ∀ x, f x = (x - z) * (x - z1) ^ 2)

theorem solveDepressed_exact (p q : ℝ) :
    (solveDepressed p q 0).Exact (fun y => y ^ 3 + 3 * p * y + 2 * q = 0) ∧
    FirstSlot (solveDepressed p q 0) (fun y => y ^ 3 + 3 * p * y + 2 * q) := by
  unfold solveDepressed
  simp only [isZero_zero_exact, decide_eq_true_eq]
  split_ifs with h1 h2 h3
  · have hp : p = 0 := by
      rw [h2] at h1
      have : p ^ 3 = 0 := by linear_combination h1
      exact pow_eq_zero_iff (by norm_num) |>.1 this
    have hroot : ∀ x : ℝ, x ^ 3 + 3 * p * x + 2 * q = 0 → x = 0 := by
      intro x h
      rw [hp, h2] at h; simp at h; exact h
    refine ⟨⟨by norm_num, ?_, ?_, ?_⟩, ⟨0, by simp, by norm_num, by simp [h2], Or.inl fun x hx => (hroot x hx).le⟩⟩
    · intro i hi; fin_cases i <;> simp at hi ⊢
    · intro i j hi hj _; fin_cases i <;> fin_cases j <;> simp at hi hj ⊢
    · intro x
      constructor
      · rintro ⟨i, hi, h⟩; fin_cases i <;> simp at hi h; rw [← h, h2]; ring
      · intro h
        exact ⟨0, by simp, by simp [hroot x h]⟩
  · have hu := cbrt_pow (-q)
    generalize cbrt (-q) = u at *
    have hp : p = -u ^ 2 := by
      apply cube_inj
      linear_combination h1 + (-q + u ^ 3) * hu
    have hu0 : u ≠ 0 := by
      rintro rfl; apply h2; linarith
    have fact : ∀ y : ℝ, y ^ 3 + 3 * p * y + 2 * q = (y - u * 2) * (y - -u) ^ 2 := by
      intro y; rw [hp]; linear_combination 2 * hu
    have hroot : ∀ y : ℝ, y ^ 3 + 3 * p * y + 2 * q = 0 → y = u * 2 ∨ y = -u := by
      intro y h
      rw [fact] at h
      rcases mul_eq_zero.1 h with h | h
      · left; linarith
      · right; have := pow_eq_zero_iff (n := 2) (by norm_num) |>.1 h; linarith
    refine ⟨⟨by norm_num, ?_, ?_, ?_⟩, ⟨u * 2, by simp, by norm_num, by simp only [fact]; ring, ?_⟩⟩
    · intro i hi; fin_cases i <;> simp at hi ⊢
    · intro i j hi hj hij
      fin_cases i <;> fin_cases j <;> simp at hi hj hij ⊢ <;> exact hu0 (by linarith)
    · intro x
      constructor
      · rintro ⟨i, hi, h⟩; fin_cases i <;> simp at hi h <;> rw [fact, ← h] <;> ring
      · intro h
        rcases hroot x h with h | h
        · exact ⟨0, by simp, by simp [h]⟩
        · exact ⟨1, by simp, by simp [h]⟩
    · rcases lt_or_gt_of_ne hu0 with h | h
      · right; exact ⟨-u, by linarith, fact⟩
      · left
        intro x hx
        rcases hroot x hx with hx | hx <;> linarith
  · -- casus irreducibilis
    have hp : p < 0 := by
      by_contra hp; push Not at hp
      nlinarith [mul_self_nonneg q, mul_nonneg (mul_nonneg hp hp) hp]
    have hw := Real.sq_sqrt (by linarith : 0 ≤ -p)
    have hw0 := Real.sqrt_pos.2 (by linarith : 0 < -p)
    have hp3 : 0 < -(p * p * p) := by nlinarith [mul_self_nonneg q]
    have hsq : Real.sqrt (-(p * p * p)) = Real.sqrt (-p) ^ 3 := by
      rw [show -(p * p * p) = (Real.sqrt (-p) ^ 3) ^ 2 by
        have : (Real.sqrt (-p) ^ 3) ^ 2 = (Real.sqrt (-p) ^ 2) ^ 3 := by ring
        rw [this, hw]; ring, Real.sqrt_sq (by positivity)]
    rw [hsq]
    generalize Real.sqrt (-p) = w at *
    have hpw : p = -w ^ 2 := by linarith
    have hx2 : q ^ 2 < (w ^ 3) ^ 2 := by
      rw [hpw] at h3; linear_combination h3
    have hw3 : 0 < w ^ 3 := by positivity
    have habs : |q| < w ^ 3 := by
      rw [← abs_of_pos hw3]; exact sq_lt_sq.1 hx2
    have hx1 : -1 < -q / w ^ 3 := by
      rw [lt_div_iff₀ hw3]; linarith [(abs_lt.1 habs).2]
    have hx1' : -q / w ^ 3 < 1 := by
      rw [div_lt_iff₀ hw3]; linarith [(abs_lt.1 habs).1]
    have hc3 : Real.cos (Real.arccos (-q / w ^ 3)) = -q / w ^ 3 := Real.cos_arccos hx1.le hx1'.le
    set th := Real.arccos (-q / w ^ 3) with hth
    have hth0 : 0 < th := Real.arccos_pos.2 hx1'
    have hthpi : th < Real.pi := by
      refine lt_of_le_of_ne (Real.arccos_le_pi _) fun h => ?_
      have := (Real.arccos_eq_pi).1 h
      linarith
    set phi := 1 / 3 * th with hphi
    have h3phi : th = 3 * phi := by rw [hphi]; ring
    rw [h3phi, Real.cos_three_mul] at hc3
    have hp0 : 0 < phi := by linarith
    have hp1 : phi < Real.pi / 3 := by linarith
    have hpi := Real.pi_pos
    have b1 : 1 / 2 < Real.cos phi := by
      rw [← Real.cos_pi_div_three]
      exact Real.cos_lt_cos_of_nonneg_of_le_pi_div_two hp0.le (by linarith) hp1
    have b2 : Real.cos (phi + Real.pi / 3) < 1 / 2 := by
      rw [← Real.cos_pi_div_three]
      exact Real.cos_lt_cos_of_nonneg_of_le_pi (by linarith) (by linarith) (by linarith)
    have b3 : -(1 / 2) < Real.cos (phi + Real.pi / 3) := by
      have : Real.cos (Real.pi - Real.pi / 3) = -(1 / 2) := by
        rw [Real.cos_pi_sub, Real.cos_pi_div_three]
      rw [← this]
      exact Real.cos_lt_cos_of_nonneg_of_le_pi (by linarith) (by linarith) (by linarith)
    have b4 : 1 / 2 < Real.cos (phi - Real.pi / 3) := by
      rw [← Real.cos_pi_div_three, ← Real.cos_neg (phi - _), neg_sub]
      exact Real.cos_lt_cos_of_nonneg_of_le_pi_div_two (by linarith) (by linarith) (by linarith)
    have e2 : Real.cos (phi + Real.pi / 3) = Real.cos phi / 2 - Real.sin phi * (Real.sqrt 3 / 2) := by
      rw [Real.cos_add, Real.cos_pi_div_three, Real.sin_pi_div_three]; ring
    have e3 : Real.cos (phi - Real.pi / 3) = Real.cos phi / 2 + Real.sin phi * (Real.sqrt 3 / 2) := by
      rw [Real.cos_sub, Real.cos_pi_div_three, Real.sin_pi_div_three]; ring
    have hs3 : Real.sqrt 3 ^ 2 = 3 := Real.sq_sqrt (by norm_num)
    have hcs := Real.sin_sq_add_cos_sq phi
    have hq' : -q = (4 * Real.cos phi ^ 3 - 3 * Real.cos phi) * w ^ 3 := by
      rw [hc3]; field_simp
    have fact : ∀ y : ℝ, y ^ 3 + 3 * p * y + 2 * q = (y - 2 * w * Real.cos phi) *
        (y - -(2 * w) * Real.cos (phi + Real.pi / 3)) * (y - -(2 * w) * Real.cos (phi - Real.pi / 3)) := by
      intro y
      rw [e2, e3, hpw]
      generalize Real.cos phi = c at *
      generalize Real.sin phi = s at *
      generalize Real.sqrt 3 = r at *
      have hs2 : s ^ 2 = 1 - c ^ 2 := by linarith
      linear_combination (-2) * hq' + (w ^ 2 * y - 2 * w ^ 3 * c) * (s ^ 2 * hs3 + 3 * hs2)
    have hroot : ∀ y : ℝ, y ^ 3 + 3 * p * y + 2 * q = 0 ↔ y = 2 * w * Real.cos phi ∨
        y = -(2 * w) * Real.cos (phi + Real.pi / 3) ∨ y = -(2 * w) * Real.cos (phi - Real.pi / 3) := by
      intro y
      rw [fact, mul_eq_zero, mul_eq_zero, sub_eq_zero, sub_eq_zero, sub_eq_zero, or_assoc]
    have o1 : -(2 * w) * Real.cos (phi + Real.pi / 3) < 2 * w * Real.cos phi := by nlinarith
    have o2 : -(2 * w) * Real.cos (phi - Real.pi / 3) < -(2 * w) * Real.cos (phi + Real.pi / 3) := by
      nlinarith
    refine ⟨⟨by norm_num, ?_, ?_, ?_⟩, ⟨2 * w * Real.cos phi, by simp, by norm_num,
      (hroot _).2 (Or.inl rfl), Or.inl ?_⟩⟩
    · intro i hi; fin_cases i <;> simp at hi ⊢
    · intro i j hi hj hij
      generalize 2 * w * Real.cos phi = y1 at *
      generalize -(2 * w) * Real.cos (phi + Real.pi / 3) = y2 at *
      generalize -(2 * w) * Real.cos (phi - Real.pi / 3) = y3 at *
      fin_cases i <;> fin_cases j <;> simp at hij ⊢ <;> linarith
    · intro x
      rw [hroot]
      constructor
      · rintro ⟨i, hi, h⟩
        fin_cases i
        · left; simpa using h.symm
        · right; left; simpa using h.symm
        · right; right; simpa using h.symm
      · rintro (h | h | h)
        · exact ⟨0, by simp, by simp [h]⟩
        · exact ⟨1, by simp, by simp [h]⟩
        · exact ⟨2, by simp, by simp [h]⟩
    · intro x hx
      rcases (hroot x).1 hx with h | h | h <;> linarith
  · -- one real solution
    have hD : 0 < q * q + p * p * p := lt_of_le_of_ne (not_lt.1 h3) (Ne.symm h1)
    have hs := Real.sq_sqrt hD.le
    have hs0 := Real.sqrt_pos.2 hD
    generalize Real.sqrt (q * q + p * p * p) = e at *
    have hu := cbrt_pow (e - q)
    have hv := cbrt_pow (e + q)
    generalize cbrt (e - q) = u at *
    generalize hvv : cbrt (e + q) = v at *
    have huv : u * v = p := by
      apply cube_inj
      have : (u * v) ^ 3 = u ^ 3 * v ^ 3 := by ring
      rw [this, hu, hv]; linear_combination hs
    have hne : u + v ≠ 0 := by
      intro h
      have h4 : u = -v := by linarith
      rw [h4] at hu
      have : (-v) ^ 3 = -v ^ 3 := by ring
      rw [this, hv] at hu
      linarith
    have fact : ∀ y : ℝ, y ^ 3 + 3 * p * y + 2 * q =
        (y - (u + -v)) * ((y + (u - v) / 2) ^ 2 + 3 / 4 * (u + v) ^ 2) := by
      intro y
      rw [← huv]
      have : 2 * q = v ^ 3 - u ^ 3 := by rw [hu, hv]; ring
      rw [this]; ring
    have hroot : ∀ y : ℝ, y ^ 3 + 3 * p * y + 2 * q = 0 ↔ y = u + -v := by
      intro y
      rw [fact, mul_eq_zero, sub_eq_zero]
      have : 0 < (u + v) ^ 2 := by positivity
      have : (y + (u - v) / 2) ^ 2 + 3 / 4 * (u + v) ^ 2 ≠ 0 := by nlinarith [sq_nonneg (y + (u - v) / 2)]
      simp [this]
    refine ⟨⟨by norm_num, ?_, ?_, ?_⟩, ⟨u + -v, by simp, by norm_num, (hroot _).2 rfl,
      Or.inl fun x hx => ((hroot x).1 hx).le⟩⟩
    · intro i hi; fin_cases i <;> simp at hi ⊢
    · intro i j hi hj _; fin_cases i <;> fin_cases j <;> simp at hi hj ⊢
    · intro x
      rw [hroot]
      constructor
      · rintro ⟨i, hi, h⟩; fin_cases i <;> simp at hi h; rw [← h]
      · rintro h
        exact ⟨0, by simp, by simp [h]⟩

theorem cubic_subst {a b c d : ℝ} (ha : a ≠ 0) (x : ℝ) :
    (x + 1 / 3 * (b / a)) ^ 3 + 3 * (1 / 3 * (-(1 / 3) * (b / a) * (b / a) + c / a)) * (x + 1 / 3 * (b / a))
      + 2 * (1 / 2 * (2 / 27 * (b / a) * (b / a) * (b / a) - 1 / 3 * (b / a) * (c / a) + d / a))
      = (a * x ^ 3 + b * x ^ 2 + c * x + d) / a := by
  field_simp; ring

theorem solveCubic_exact {a b c d : ℝ} (ha : a ≠ 0) :
    (solveCubic a b c d 0).Exact (fun x => a * x ^ 3 + b * x ^ 2 + c * x + d = 0) := by
  unfold solveCubic
  refine (solveDepressed_exact _ _).1.resubstitute _ fun x => ?_
  rw [cubic_subst ha, div_eq_zero_iff]
  simp [ha]

theorem solveCubic_slot0 (b c d : ℝ) :
    FirstSlot (solveCubic 1 b c d 0) (fun x => x ^ 3 + b * x ^ 2 + c * x + d) := by
  unfold solveCubic
  simp only [div_one]
  obtain ⟨z, h1, h2, h3, h4⟩ := (solveDepressed_exact (1 / 3 * (-(1 / 3) * b * b + c))
    (1 / 2 * (2 / 27 * b * b * b - 1 / 3 * b * c + d))).2
  have hs : ∀ x : ℝ, x ^ 3 + b * x ^ 2 + c * x + d = (x + 1 / 3 * b) ^ 3 + 3 * (1 / 3 * (-(1 / 3) * b * b + c)) * (x + 1 / 3 * b)
      + 2 * (1 / 2 * (2 / 27 * b * b * b - 1 / 3 * b * c + d)) := by
    intro x; ring
  refine ⟨z - 1 / 3 * b, ?_, h2, ?_, ?_⟩
  · simp only [resubstitute, h1, Fin.val_zero, h2, if_true, Option.map_some]
  · simp only at h3 ⊢
    rw [hs]; linear_combination h3
  · rcases h4 with h4 | ⟨z1, h4, h5⟩
    · left
      intro x hx
      simp only [hs] at hx
      have := h4 _ hx
      linarith
    · right
      refine ⟨z1 - 1 / 3 * b, by linarith, fun x => ?_⟩
      simp only [hs]
      have := h5 (x + 1 / 3 * b)
      simp only at this
      rw [this]; ring

theorem exists_fin4 (P : Fin 4 → Prop) : (∃ i, P i) ↔ P 0 ∨ P 1 ∨ P 2 ∨ P 3 := by
  constructor
  · rintro ⟨i, hi⟩; fin_cases i <;> simp_all
  · rintro (h | h | h | h) <;> exact ⟨_, h⟩

theorem forall_fin4 (P : Fin 4 → Prop) : (∀ i, P i) ↔ P 0 ∧ P 1 ∧ P 2 ∧ P 3 := by
  constructor
  · intro h; exact ⟨h 0, h 1, h 2, h 3⟩
  · rintro ⟨h0, h1, h2, h3⟩ i; fin_cases i <;> assumption

theorem reported_storeQuadratics {s1 s2 : Sols 2} {P Q : ℝ → Prop} (h1 : s1.Exact P) (h2 : s2.Exact Q)
    (h : s1.num = 2 ∨ (s1.num = 1 ∧ s2.num ≤ 1) ∨ s2.num = 0) (x : ℝ) :
    (storeQuadratics s1 s2).Reported x ↔ P x ∨ Q x := by
  rw [← h1.iff, ← h2.iff]
  have l1 := h1.num_le
  have l2 := h2.num_le
  clear h1 h2
  obtain ⟨n1, f1⟩ := s1
  obtain ⟨n2, f2⟩ := s2
  unfold Sols.Reported storeQuadratics
  simp only at *
  interval_cases n1 <;> interval_cases n2 <;>
    simp [Fin.exists_fin_two, exists_fin4, Function.update, or_assoc] at h ⊢

theorem num_storeQuadratics {s1 s2 : Sols 2} {P Q : ℝ → Prop} (h1 : s1.Exact P) (h2 : s2.Exact Q)
    (h : s1.num = 2 ∨ (s1.num = 1 ∧ s2.num ≤ 1) ∨ s2.num = 0) :
    (storeQuadratics s1 s2).num ≤ 4 ∧
    ∀ i : Fin 4, i.val < (storeQuadratics s1 s2).num → ((storeQuadratics s1 s2).sol i).isSome = true := by
  have l1 := h1.num_le
  have l2 := h2.num_le
  have m1 := h1.some_
  have m2 := h2.some_
  clear h1 h2
  obtain ⟨n1, f1⟩ := s1
  obtain ⟨n2, f2⟩ := s2
  unfold storeQuadratics
  simp only at *
  interval_cases n1 <;> interval_cases n2 <;>
    simp [Fin.forall_fin_two, forall_fin4, Function.update] at h m1 m2 ⊢ <;>
    simp_all

theorem solveQuadratic_num (b c : ℝ) :
    (solveQuadratic 1 b c 0).num = if b * b / 4 - c = 0 then 1 else if b * b / 4 - c < 0 then 0 else 2 := by
  unfold solveQuadratic
  have : b / (2 * 1) * (b / (2 * 1)) - c / 1 = b * b / 4 - c := by ring
  simp only [isZero_zero_exact, decide_eq_true_eq, this]
  split_ifs <;> rfl

theorem sqrtOrFail_some {u w : ℝ} (h : sqrtOrFail u 0 = some w) : 0 ≤ w ∧ w ^ 2 = u := by
  unfold sqrtOrFail at h
  simp only [isZero_zero_exact, decide_eq_true_eq] at h
  split_ifs at h with h1 h2
  · cases h; simp [h1]
  · cases h; exact ⟨Real.sqrt_nonneg _, Real.sq_sqrt h2.le⟩

theorem sqrtOrFail_none {u : ℝ} (h : sqrtOrFail u 0 = none) : u < 0 := by
  unfold sqrtOrFail at h
  simp only [isZero_zero_exact, decide_eq_true_eq] at h
  split_ifs at h with h1 h2
  exact lt_of_le_of_ne (not_lt.1 h2) h1

/-- If the resolvent root does not split the quartic then there is no real root. -/
theorem no_root_of_fail {p q r z : ℝ} (hr : r ≠ 0)
    (hz : z ^ 3 + -(1 / 2) * p * z ^ 2 + -r * z + (1 / 2 * r * p - 1 / 8 * q * q) = 0)
    (hfs : (∀ x, x ^ 3 + -(1 / 2) * p * x ^ 2 + -r * x + (1 / 2 * r * p - 1 / 8 * q * q) = 0 → x ≤ z) ∨
      ∃ z1, z < z1 ∧ ∀ x, x ^ 3 + -(1 / 2) * p * x ^ 2 + -r * x + (1 / 2 * r * p - 1 / 8 * q * q)
        = (x - z) * (x - z1) ^ 2)
    (hfail : z * z - r < 0 ∨ 2 * z - p < 0) (y : ℝ) : y ^ 4 + p * y ^ 2 + q * y + r ≠ 0 := by
  have huv : 4 * (2 * z - p) * (z * z - r) = q ^ 2 := by linear_combination 8 * hz
  by_cases hq : q = 0
  · subst hq
    have hprod : (2 * z - p) * (z * z - r) = 0 := by linarith
    rcases mul_eq_zero.1 hprod with h | h
    · -- z = p/2, z² < r
      have hu : z * z - r < 0 := by
        rcases hfail with h' | h'
        · exact h'
        · linarith
      have hrpos : 0 < r := by nlinarith [mul_self_nonneg z]
      have hsq := Real.sq_sqrt hrpos.le
      have hsp := Real.sqrt_pos.2 hrpos
      have habs : |z| < Real.sqrt r := by
        rw [← Real.sqrt_sq_eq_abs]; exact Real.sqrt_lt_sqrt (sq_nonneg _) (by nlinarith)
      obtain ⟨hz1, hz2⟩ := abs_lt.1 habs
      exfalso
      rcases hfs with hfs | ⟨z1, hz1', hfs⟩
      · have := hfs (Real.sqrt r) (by linear_combination (Real.sqrt r - 1 / 2 * p) * hsq)
        linarith
      · have h3 := hfs (-Real.sqrt r)
        have h4 : (-Real.sqrt r) ^ 3 + -(1 / 2) * p * (-Real.sqrt r) ^ 2 + -r * (-Real.sqrt r) +
            (1 / 2 * r * p - 1 / 8 * 0 * 0) = 0 := by linear_combination (-Real.sqrt r - 1 / 2 * p) * hsq
        rw [h4] at h3
        rcases mul_eq_zero.1 h3.symm with h5 | h5
        · linarith
        · have := pow_eq_zero_iff (n := 2) (by norm_num) |>.1 h5; linarith
    · -- z² = r, 2z < p
      have hv : 2 * z - p < 0 := by
        rcases hfail with h' | h'
        · linarith
        · exact h'
      have hr' : r = z * z := by linarith
      have hz0 : z ≠ 0 := by rintro rfl; simp at hr'; exact hr hr'
      have hroot : ∀ x : ℝ, x ^ 3 + -(1 / 2) * p * x ^ 2 + -r * x + (1 / 2 * r * p - 1 / 8 * 0 * 0)
          = (x - p / 2) * (x - z) * (x + z) := by intro x; rw [hr']; ring
      rcases hfs with hfs | ⟨z1, hz1', hfs⟩
      · exfalso
        have := hfs (p / 2) (by rw [hroot]; ring)
        linarith
      · have h1 := hfs (p / 2)
        rw [hroot] at h1
        have h2 : p / 2 = z1 := by
          have : (p / 2 - z) * (p / 2 - z1) ^ 2 = 0 := by rw [← h1]; ring
          rcases mul_eq_zero.1 this with h3 | h3
          · linarith
          · have := pow_eq_zero_iff (n := 2) (by norm_num) |>.1 h3; linarith
        have h3 := hfs (-z)
        rw [hroot] at h3
        have h4 : -z = z1 := by
          have : (-z - z) * (-z - z1) ^ 2 = 0 := by rw [← h3]; ring
          rcases mul_eq_zero.1 this with h5 | h5
          · exfalso; apply hz0; linarith
          · have := pow_eq_zero_iff (n := 2) (by norm_num) |>.1 h5; linarith
        have hzn : z < 0 := by linarith
        have hp : p = -2 * z := by linarith
        have : y ^ 4 + p * y ^ 2 + 0 * y + r = (y ^ 2 - z) ^ 2 := by rw [hp, hr']; ring
        rw [this]
        have : 0 < y ^ 2 - z := by nlinarith [sq_nonneg y]
        positivity
  · have hq2 : 0 < q ^ 2 := by positivity
    have hv : 2 * z - p < 0 := by
      rcases hfail with h | h
      · by_contra h'; push Not at h'; nlinarith
      · exact h
    exfalso
    have hneg : (p / 2) ^ 3 + -(1 / 2) * p * (p / 2) ^ 2 + -r * (p / 2) +
        (1 / 2 * r * p - 1 / 8 * q * q) < 0 := by nlinarith
    rcases hfs with hfs | ⟨z1, hz1', hfs⟩
    · -- intermediate value theorem: a root above p/2
      have hcont : Continuous fun x : ℝ => x ^ 3 + -(1 / 2) * p * x ^ 2 + -r * x +
        (1 / 2 * r * p - 1 / 8 * q * q) := by fun_prop
      obtain ⟨M, hM1, hM2⟩ : ∃ M : ℝ, p / 2 ≤ M ∧ 0 ≤ M ^ 3 + -(1 / 2) * p * M ^ 2 + -r * M +
          (1 / 2 * r * p - 1 / 8 * q * q) := by
        refine ⟨1 + |p| + |r| + q ^ 2, ?_, ?_⟩
        · have := le_abs_self p
          have := abs_nonneg p
          have := abs_nonneg r
          nlinarith
        · have e : ∀ M : ℝ, M ^ 3 + -(1 / 2) * p * M ^ 2 + -r * M + (1 / 2 * r * p - 1 / 8 * q * q)
              = (M - p / 2) * (M ^ 2 - r) - q ^ 2 / 8 := by intro M; ring
          rw [e]
          have a1 := le_abs_self p
          have a2 := abs_nonneg p
          have a3 := le_abs_self r
          have a4 := abs_nonneg r
          set M := 1 + |p| + |r| + q ^ 2 with hM
          have h1 : 1 ≤ M - p / 2 := by linarith
          have h2 : q ^ 2 ≤ M ^ 2 - r := by
            have : 1 + |r| + q ^ 2 ≤ M := by linarith
            nlinarith
          nlinarith
      have := intermediate_value_Icc hM1 hcont.continuousOn
      obtain ⟨x, hx, hx0⟩ := this ⟨hneg.le, hM2⟩
      have := hfs x hx0
      have := hx.1
      linarith
    · rw [hfs] at hneg
      have : 0 ≤ (p / 2 - z) * (p / 2 - z1) ^ 2 := mul_nonneg (by linarith) (sq_nonneg _)
      linarith

theorem solveDepressedQuartic_spec (p q r : ℝ) :
    (solveDepressedQuartic p q r 0).num ≤ 4 ∧
    (∀ i : Fin 4, i.val < (solveDepressedQuartic p q r 0).num →
      ((solveDepressedQuartic p q r 0).sol i).isSome = true) ∧
    ∀ y, (solveDepressedQuartic p q r 0).Reported y ↔ y ^ 4 + p * y ^ 2 + q * y + r = 0 := by
  unfold solveDepressedQuartic
  simp only [isZero_zero_exact, decide_eq_true_eq]
  by_cases hr : r = 0
  · rw [if_pos hr]
    have h3 := solveCubic_exact (a := 1) (b := 0) (c := p) (d := q) one_ne_zero
    have hn := h3.num_le
    refine ⟨by simp only; omega, ?_, ?_⟩
    · intro i hi
      simp only at hi ⊢
      split_ifs with h4 h5
      · rfl
      · exact h3.some_ ⟨i, h5⟩ (by simp only; omega)
      · have := i.2; omega
    · intro y
      have : y ^ 4 + p * y ^ 2 + q * y + r = 0 ↔ y = 0 ∨ 1 * y ^ 3 + 0 * y ^ 2 + p * y + q = 0 := by
        rw [hr, ← mul_eq_zero]
        constructor <;> intro h <;> linear_combination h
      rw [this, ← h3.iff]
      constructor
      · rintro ⟨i, hi, h⟩
        simp only at hi h
        split_ifs at h with h4 h5
        · left; simpa using h.symm
        · right; exact ⟨⟨i, h5⟩, by simp only; omega, h⟩
      · rintro (h | ⟨i, hi, h⟩)
        · exact ⟨⟨(solveCubic 1 0 p q 0).num, by omega⟩, by simp, by simp [h]⟩
        · exact ⟨⟨i, by omega⟩, by simp only; omega, by
            have : i.val ≠ (solveCubic 1 0 p q 0).num := by omega
            simp [this, h]⟩
  · rw [if_neg hr]
    obtain ⟨z, hz, -, hz0, hfs⟩ := solveCubic_slot0 (-(1 / 2) * p) (-r) (1 / 2 * r * p - 1 / 8 * q * q)
    simp only at hz0 hfs
    rw [hz]
    simp only
    rcases hu : sqrtOrFail (z * z - r) 0 with _ | u
    · refine ⟨by simp, by simp, fun y => ?_⟩
      have := no_root_of_fail hr hz0 hfs (Or.inl (sqrtOrFail_none hu)) y
      simp [this, Sols.Reported]
    rcases hv : sqrtOrFail (2 * z - p) 0 with _ | v
    · refine ⟨by simp, by simp, fun y => ?_⟩
      have := no_root_of_fail hr hz0 hfs (Or.inr (sqrtOrFail_none hv)) y
      simp [this, Sols.Reported]
    simp only
    obtain ⟨hu0, hu2⟩ := sqrtOrFail_some hu
    obtain ⟨hv0, hv2⟩ := sqrtOrFail_some hv
    have h1 := solveQuadratic_exact (a := 1) (b := if q < 0 then -v else v) (c := z - u) one_ne_zero
    have h2 := solveQuadratic_exact (a := 1) (b := if q < 0 then v else -v) (c := z + u) one_ne_zero
    have hq2 : (2 * u * v) ^ 2 = q ^ 2 := by
      have : (2 * u * v) ^ 2 = 4 * (u ^ 2) * (v ^ 2) := by ring
      rw [this, hu2, hv2]; linear_combination 8 * hz0
    have hq : q = if q < 0 then -(2 * u * v) else 2 * u * v := by
      have h3 : 2 * u * v = |q| := by
        rw [← abs_of_nonneg (by positivity : 0 ≤ 2 * u * v)]
        exact (sq_eq_sq_iff_abs_eq_abs _ _).1 hq2
      split_ifs with h
      · rw [h3, abs_of_neg h]; ring
      · rw [h3, abs_of_nonneg (not_lt.1 h)]
    have hnum : (solveQuadratic 1 (if q < 0 then -v else v) (z - u) 0).num = 2 ∨
        ((solveQuadratic 1 (if q < 0 then -v else v) (z - u) 0).num = 1 ∧
          (solveQuadratic 1 (if q < 0 then v else -v) (z + u) 0).num ≤ 1) ∨
        (solveQuadratic 1 (if q < 0 then v else -v) (z + u) 0).num = 0 := by
      rw [solveQuadratic_num, solveQuadratic_num]
      have e1 : (if q < 0 then -v else v) * (if q < 0 then -v else v) = v * v := by
        split_ifs <;> ring
      have e2 : (if q < 0 then v else -v) * (if q < 0 then v else -v) = v * v := by
        split_ifs <;> ring
      rw [e1, e2]
      clear hq hfs h1 h2
      split_ifs with a1 a2 a3 a4 a5 a6 <;> first | simp; done | (exfalso; linarith) | (exfalso; exact absurd (by linarith) a2)
    obtain ⟨n1, n2⟩ := num_storeQuadratics h1 h2 hnum
    refine ⟨n1, n2, fun y => ?_⟩
    rw [reported_storeQuadratics h1 h2 hnum, ← mul_eq_zero]
    have : (1 * y ^ 2 + (if q < 0 then -v else v) * y + (z - u)) *
        (1 * y ^ 2 + (if q < 0 then v else -v) * y + (z + u)) = y ^ 4 + p * y ^ 2 + q * y + r := by
      split_ifs at hq ⊢ with h
      · linear_combination (-y ^ 2) * hv2 - hu2 - y * hq
      · linear_combination (-y ^ 2) * hv2 - hu2 - y * hq
    rw [this]

end vm
