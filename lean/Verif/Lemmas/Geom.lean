import Verif.Model.Geom
import Verif.Props.Affine
import Verif.Lemmas.Vec

/-! Helper lemmas about lines, planes and affine maps. -/

universe u

set_option linter.unusedSectionVars false
set_option linter.unusedSimpArgs false

namespace vm

section field
variable {K : Type u} [Field K] {S : ℕ}

theorem strip_sub {m : Mat K (S + 1) (S + 1)} (h : IsAffine m) (p : Vec K S) :
    mmulPoint (stripTranslation m) p = mmulPoint m p - mmulPoint m 0 := (C42_strip_translation m h p).1

theorem IsAffine.apply {m : Mat K (S + 1) (S + 1)} (h : IsAffine m) (p : Vec K S) (i : Fin S) :
    mmulPoint m p i = ∑ c : Fin S, m c.castSucc i.castSucc * p c + m (Fin.last S) i.castSucc := by
  rw [mmulPoint_eq, h.homCoord, div_one]

theorem strip_apply {m : Mat K (S + 1) (S + 1)} (h : IsAffine m) (p : Vec K S) (i : Fin S) :
    mmulPoint (stripTranslation m) p i = ∑ c : Fin S, m c.castSucc i.castSucc * p c := by
  rw [strip_sub h, Pi.sub_apply, h.apply, h.apply]; simp

theorem strip_add {m : Mat K (S + 1) (S + 1)} (h : IsAffine m) (p q : Vec K S) :
    mmulPoint (stripTranslation m) (p + q) =
      mmulPoint (stripTranslation m) p + mmulPoint (stripTranslation m) q := by
  funext i
  simp only [strip_apply h, Pi.add_apply, mul_add, Finset.sum_add_distrib]

theorem strip_smul {m : Mat K (S + 1) (S + 1)} (h : IsAffine m) (t : K) (p : Vec K S) :
    mmulPoint (stripTranslation m) (t • p) = t • mmulPoint (stripTranslation m) p := by
  funext i
  simp only [strip_apply h, Pi.smul_apply, smul_eq_mul, Finset.mul_sum]
  exact Finset.sum_congr rfl fun c _ => by ring

theorem affine_add {m : Mat K (S + 1) (S + 1)} (h : IsAffine m) (p q : Vec K S) :
    mmulPoint m (p + q) = mmulPoint m p + mmulPoint (stripTranslation m) q := by
  funext i
  simp only [strip_apply h, h.apply, Pi.add_apply, mul_add, Finset.sum_add_distrib]
  ring

theorem affine_sub {m : Mat K (S + 1) (S + 1)} (h : IsAffine m) (p q : Vec K S) :
    mmulPoint m p - mmulPoint m q = mmulPoint (stripTranslation m) (p - q) := by
  have := affine_add h q (p - q)
  rw [add_sub_cancel] at this
  rw [this]; abel

end field

theorem dot_sub_smul {K : Type u} [CommRing K] {S : ℕ} (x u : Vec K S) (c : K) (hu : dot u u = 1) :
    dot (x - c • u) (x - c • u) = dot x x - dot x u ^ 2 + (dot x u - c) ^ 2 := by
  simp only [dot_sub_left, dot_sub_right, dot_smul_left, dot_smul_right, hu]
  rw [dot_comm u x]
  ring

theorem dot_self_neg {K : Type u} [CommRing K] {S : ℕ} (x : Vec K S) : dot (-x) (-x) = dot x x := by
  rw [dot_neg_left, dot_neg_right, neg_neg]

/-- The loop of `plane::at` visits the components of the point in order, skipping the axis. -/
theorem at_loop {K : Type u} [CommRing K] (a : ℕ) (pt : ℕ → K) : ∀ (n : ℕ) (g : Fin n → K),
    Fin.foldl n (fun (st : K × ℕ) i => if i.val ≠ a then (st.1 + g i * pt st.2, st.2 + 1) else st) (0, 0)
      = (∑ i : Fin n, if i.val = a then 0 else g i * pt (if i.val < a then i.val else i.val - 1),
          if n ≤ a then n else n - 1) := by
  intro n
  induction n with
  | zero => intro g; simp
  | succ n ih =>
    intro g
    rw [Fin.foldl_succ_last]
    simp only [Fin.val_castSucc, Fin.val_last]
    rw [ih fun i => g i.castSucc, Fin.sum_univ_castSucc]
    simp only [Fin.val_castSucc, Fin.val_last]
    by_cases h : n = a
    · subst h; simp
    · rw [if_pos h, if_neg h]
      rcases lt_or_gt_of_ne h with h' | h'
      · simp [h', h'.le, Nat.succ_le_of_lt h']
      · have h1 : ¬ n < a := by omega
        have h2 : ¬ n ≤ a := by omega
        have h3 : ¬ n + 1 ≤ a := by omega
        simp [h1, h2, h3]
        omega

section real
variable {S : ℕ}

theorem dot_unit {v : Vec ℝ S} (h : v ≠ 0) : dot ((length v)⁻¹ • v) ((length v)⁻¹ • v) = 1 := by
  have hl : length v ≠ 0 := (length_pos h).ne'
  rw [dot_smul_left, dot_smul_right, ← length_sq]
  field_simp

theorem length_unit {v : Vec ℝ S} (h : v ≠ 0) : length ((length v)⁻¹ • v) = 1 := by
  rw [length_smul, abs_of_nonneg (inv_nonneg.2 (length_nonneg v)), inv_mul_cancel₀ (length_pos h).ne']

theorem length_eq_one_iff {v : Vec ℝ S} : length v = 1 ↔ dot v v = 1 := by
  rw [← length_sq]
  constructor
  · intro h; rw [h]; norm_num
  · intro h
    have := length_nonneg v
    nlinarith [sq_nonneg (length v - 1)]

theorem normalize_eq_some {v w : Vec ℝ S} (h : normalize v = some w) : v ≠ 0 ∧ w = (length v)⁻¹ • v := by
  by_cases hv : v = 0
  · rw [hv, normalize_zero] at h; cases h
  · rw [normalize_of_ne hv] at h
    exact ⟨hv, (Option.some.inj h).symm⟩

end real
end vm
