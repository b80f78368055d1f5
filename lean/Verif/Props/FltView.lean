import Verif.Lemmas.FltPersp
import Verif.Props.Projection
import Verif.Props.FltShear

/-! # C137: `view_matrix` in IEEE arithmetic -/

set_option linter.unusedSectionVars false
set_option linter.unusedSimpArgs false

namespace vm
open BinPar FltBM FltPersp

namespace FltView
variable {P : BinPar}

theorem view_point (f up p : Vec (Flt P.fmt) 3) (hp : ∀ i, (p i).isFinite) :
    mmulPoint (viewMatrix f up) p 0 = cross f up 0 * p 0 + cross f up 1 * p 1 + cross f up 2 * p 2 ∧
    mmulPoint (viewMatrix f up) p 1 = cross (cross f up) f 0 * p 0 + cross (cross f up) f 1 * p 1 + cross (cross f up) f 2 * p 2 ∧
    mmulPoint (viewMatrix f up) p 2 = -f 0 * p 0 + -f 1 * p 1 + -f 2 * p 2 := by
  have e : viewMatrix f up = aff (fun c r => ![cross f up c, cross (cross f up) f c, -f c] r) 0 := by
    funext c r
    fin_cases c <;> fin_cases r <;> rfl
  rw [e, aff_point _ _ _ hp, aff_point _ _ _ hp, aff_point _ _ _ hp]
  refine ⟨?_, ?_, ?_⟩ <;> exact Flt.add_zero' _

/-- A bound of the exact number bounds the computed one. -/
theorem ap_refine {k B : ℝ} {x : Flt P.fmt} {y : ℝ} (hu : 1000 * (P.u : ℝ) ≤ 1) (h : Ap 1 k B x y) (hk : 0 ≤ k) (hy : |y| ≤ 1) : Ap 1 k (1 + k / 1000) x y := by
  refine ⟨h.fin, h.err, ?_⟩
  have := abs_sub_abs_le_abs_sub (x.val : ℝ) y
  have e := h.err
  have : k * P.u ≤ k * (1 / 1000) := mul_le_mul_of_nonneg_left (by linarith) hk
  linarith

/-- A sum of three products with coefficients of size one. -/
theorem row_ap {X k B : ℝ} {m0 m1 m2 : Flt P.fmt} {a0 a1 a2 : ℝ} {p : Vec (Flt P.fmt) 3} (hX : ApOk P X) (h0 : Ap 1 k B m0 a0) (h1 : Ap 1 k B m1 a1) (h2 : Ap 1 k B m2 a2)
    (hk : 0 ≤ k) (hB0 : 0 ≤ B) (hB : B ≤ 1.2) (hp : ∀ i, (p i).isFinite) (hpX : ∀ i, |((p i).val : ℝ)| ≤ X) :
    (m0 * p 0 + m1 * p 1 + m2 * p 2).isFinite ∧
    |((m0 * p 0 + m1 * p 1 + m2 * p 2).val : ℝ) - (a0 * (p 0).val + a1 * (p 1).val + a2 * (p 2).val)| ≤ (3 * k + 10) * P.u * X := by
  have X0 : 0 ≤ X := by linarith [hX.one]
  have q : ∀ i, Ap X 0 1 (p i) (p i).val := fun i => Ap.exact (hp i) (by rw [one_mul]; exact hpX i)
  have M : ∀ {m : Flt P.fmt} {a : ℝ} (i), Ap 1 k B m a → Ap X (k + 1.2005) 1.203 (m * p i) (a * (p i).val) := fun i h =>
    (Ap.mul hX h (q i) hk hB0 le_rfl (by norm_num) (by linarith)).mono X0 (by linarith) (by linarith)
  have S1 := (Ap.add hX (M 0 h0) (M 1 h1) (by norm_num)).mono (k1 := 2 * k + 4.81) (B1 := 2.41) X0 (by linarith) (by norm_num)
  have S2 := (Ap.add hX S1 (M 2 h2) (by norm_num)).mono (k1 := 3 * k + 10) (B1 := 3.63) X0 (by linarith) (by norm_num)
  exact ⟨S2.fin, S2.err⟩

end FltView
open FltView

variable {P : BinPar}

/-- If the direction and the up vector are within `c` rounding units of two orthogonal unit vectors `a` and `b`, then every point with coordinates up to `X` is moved close to
its exact coordinates to the right, upwards and backwards. -/
theorem C137_error (f up p : Vec (Flt P.fmt) 3) (a b : Vec ℝ 3) (X c : ℝ) (hX : ApOk P X) (hc0 : 0 ≤ c) (hc : c ≤ 16) (ha : length a = 1) (hb : length b = 1) (hab : dot a b = 0)
    (hf : ∀ i, (f i).isFinite) (hfa : ∀ i, |((f i).val : ℝ) - a i| ≤ c * P.u) (hup : ∀ i, (up i).isFinite) (hub : ∀ i, |((up i).val : ℝ) - b i| ≤ c * P.u)
    (hp : ∀ i, (p i).isFinite) (hpX : ∀ i, |((p i).val : ℝ)| ≤ X) :
    let q := mmulPoint (viewMatrix f up) p
    let r : Vec ℝ 3 := fun i => (p i).val
    (∀ i, (q i).isFinite) ∧ |((q 0).val : ℝ) - dot (cross a b) r| ≤ (13 * c + 24) * P.u * X ∧ |((q 1).val : ℝ) - dot b r| ≤ (34 * c + 50) * P.u * X ∧
    |((q 2).val : ℝ) - -dot a r| ≤ (3 * c + 10) * P.u * X := by
  intro q r
  obtain ⟨e0, e1, e2⟩ := view_point f up p hp
  have ok : ApOk P 1 := ⟨hX.u, le_rfl, by have := hX.bound; have := hX.one; linarith⟩
  have aa : dot a a = 1 := by rw [← length_sq, ha, one_pow]
  have bb : dot b b = 1 := by rw [← length_sq, hb, one_pow]
  have hba : cross (cross a b) a = b := by
    have ff := aa
    have hfu := hab
    rw [dot3] at ff hfu
    apply ext3 <;> simp only [cross_0, cross_1, cross_2]
    · linear_combination (b 0) * ff - (a 0) * hfu
    · linear_combination (b 1) * ff - (a 1) * hfu
    · linear_combination (b 2) * ff - (a 2) * hfu
  have ss : dot (cross a b) (cross a b) = 1 := by
    have : dot (cross a b) (cross a b) = dot a a * dot b b - dot a b ^ 2 := by
      simp only [dot3, cross_0, cross_1, cross_2]; ring
    rw [this, aa, bb, hab]; ring
  have unit : ∀ {v : Vec ℝ 3}, dot v v = 1 → ∀ i, |v i| ≤ 1 := by
    intro v hv i
    rw [dot3] at hv
    refine abs_le_one_iff_mul_self_le_one.2 ?_
    rcases three i with rfl | rfl | rfl <;> nlinarith [mul_self_nonneg (v 0), mul_self_nonneg (v 1), mul_self_nonneg (v 2)]
  have u0 := Ap.u_pos P
  have vec : ∀ {v : Vec (Flt P.fmt) 3} {w : Vec ℝ 3}, dot w w = 1 → (∀ i, (v i).isFinite) → (∀ i, |((v i).val : ℝ) - w i| ≤ c * P.u) → ∀ i, Ap 1 c 1.016 (v i) (w i) := by
    intro v w hw hv he i
    have k : |((v i).val : ℝ)| ≤ (1 + c / 1000) * 1 := by
      have h1 := abs_sub_abs_le_abs_sub ((v i).val : ℝ) (w i)
      have h2 := unit hw i
      have h3 := he i
      have : c * P.u ≤ c * (1 / 1000) := mul_le_mul_of_nonneg_left (by linarith [hX.u]) hc0
      linarith
    exact (Ap.mk (hv i) (by rw [mul_one]; exact he i) k).mono zero_le_one le_rfl (by linarith)
  have F := vec aa hf hfa
  have U := vec bb hup hub
  -- the direction to the right
  have prod : ∀ {k B : ℝ} {x y : Flt P.fmt} {s t : ℝ}, 0 ≤ k → 0 ≤ B → B ≤ 1.072 → k ≤ 72 → Ap 1 k B x s → Ap 1 c 1.016 y t →
      Ap 1 (1.016 * k + 1.144 * c + 1.09) 1.1 (x * y) (s * t) := by
    intro k B x y s t hk hB0 hB hk2 h h'
    refine (Ap.mul ok h h' hk hB0 hc0 (by norm_num) (by linarith)).mono zero_le_one ?_ (by linarith)
    have : (B + 1 / 1000 * k) * c ≤ 1.144 * c := mul_le_mul_of_nonneg_right (by linarith) hc0
    linarith
  have S' : ∀ {x y x' y' : Flt P.fmt} {s t s' t' k B : ℝ}, 0 ≤ k → 0 ≤ B → B ≤ 1.072 → k ≤ 72 → Ap 1 k B x s → Ap 1 c 1.016 y t → Ap 1 k B x' s' → Ap 1 c 1.016 y' t' →
      Ap 1 (2.032 * k + 2.288 * c + 4.3805) 2.3 (x * y - x' * y') (s * t - s' * t') := by
    intro x y x' y' s t s' t' k B hk hB0 hB hk2 h1 h2 h3 h4
    exact (Ap.sub ok (prod hk hB0 hB hk2 h1 h2) (prod hk hB0 hB hk2 h3 h4) (by norm_num)).mono zero_le_one (by linarith) (by norm_num)
  have S : ∀ i, Ap 1 (4.33 * c + 4.39) 1.074 (cross f up i) (cross a b i) := by
    intro i
    have base : ∀ {x : Flt P.fmt} {y : ℝ}, Ap 1 (2.032 * c + 2.288 * c + 4.3805) 2.3 x y → |y| ≤ 1 → Ap 1 (4.33 * c + 4.39) 1.074 x y := by
      intro x y h hy
      exact (ap_refine hX.u h (by linarith) hy).mono zero_le_one (by linarith) (by linarith)
    have bd := unit ss i
    have c16 : c ≤ 72 := by linarith
    rcases three i with rfl | rfl | rfl
    · exact base (S' hc0 (by norm_num) (by norm_num) c16 (F 1) (U 2) (F 2) (U 1)) bd
    · exact base (S' hc0 (by norm_num) (by norm_num) c16 (F 2) (U 0) (F 0) (U 2)) bd
    · exact base (S' hc0 (by norm_num) (by norm_num) c16 (F 0) (U 1) (F 1) (U 0)) bd
  have V : ∀ i, Ap 1 (11.1 * c + 13.33) 1.2 (cross (cross f up) f i) (b i) := by
    intro i
    have prod : ∀ {x y : Flt P.fmt} {s t : ℝ}, Ap 1 (4.33 * c + 4.39) 1.074 x s → Ap 1 c 1.016 y t → Ap 1 (5.55 * c + 5.56) 1.1 (x * y) (s * t) := by
      intro x y s t h h'
      refine (Ap.mul ok h h' (by linarith) (by norm_num) hc0 (by norm_num) (by norm_num)).mono zero_le_one ?_ (by norm_num)
      have : (1.074 + 1 / 1000 * (4.33 * c + 4.39)) * c ≤ 1.148 * c := mul_le_mul_of_nonneg_right (by linarith) hc0
      linarith
    have sub : ∀ {x y x' y' : Flt P.fmt} {s t s' t' z : ℝ}, Ap 1 (4.33 * c + 4.39) 1.074 x s → Ap 1 c 1.016 y t → Ap 1 (4.33 * c + 4.39) 1.074 x' s' → Ap 1 c 1.016 y' t' →
        s * t - s' * t' = z → |z| ≤ 1 → Ap 1 (11.1 * c + 13.33) 1.2 (x * y - x' * y') z := by
      intro x y x' y' s t s' t' z h1 h2 h3 h4 hz bz
      have := (Ap.sub ok (prod h1 h2) (prod h3 h4) (by norm_num)).mono (k1 := 11.1 * c + 13.33) (B1 := 2.3) zero_le_one (by linarith) (by norm_num)
      rw [hz] at this
      exact (ap_refine hX.u this (by linarith) bz).mono zero_le_one le_rfl (by linarith)
    have bd := unit bb i
    have hb' := congrFun hba i
    rcases three i with rfl | rfl | rfl
    · exact sub (S 1) (F 2) (S 2) (F 1) hb' bd
    · exact sub (S 2) (F 0) (S 0) (F 2) hb' bd
    · exact sub (S 0) (F 1) (S 1) (F 0) hb' bd
  have R0 := row_ap hX (S 0) (S 1) (S 2) (by linarith) (by norm_num) (by norm_num) hp hpX
  have R1 := row_ap hX (V 0) (V 1) (V 2) (by linarith) (by norm_num) (by norm_num) hp hpX
  have R2 := row_ap hX (F 0).neg (F 1).neg (F 2).neg hc0 (by norm_num) (by norm_num) hp hpX
  have uX : 0 ≤ P.u * X := mul_nonneg u0.le (by linarith [hX.one])
  have le : ∀ {k k' : ℝ}, k ≤ k' → k * P.u * X ≤ k' * P.u * X := by
    intro k k' h
    rw [mul_assoc, mul_assoc]
    exact mul_le_mul_of_nonneg_right h uX
  rw [dot3, dot3, dot3, show q 0 = _ from e0, show q 1 = _ from e1, show q 2 = _ from e2]
  refine ⟨fun i => ?_, R0.2.trans (le (by linarith)), R1.2.trans (le (by linarith)), ?_⟩
  · rcases three i with rfl | rfl | rfl
    · rw [show q 0 = _ from e0]; exact R0.1
    · rw [show q 1 = _ from e1]; exact R1.1
    · rw [show q 2 = _ from e2]; exact R2.1
  · have := R2.2
    rwa [show -a 0 * ((p 0).val : ℝ) + -a 1 * (p 1).val + -a 2 * (p 2).val = -(a 0 * (p 0).val + a 1 * (p 1).val + a 2 * (p 2).val) by ring] at this

/-- For a direction and an up vector along two coordinate axes nothing is rounded: the images are coordinates of the point or their negations. -/
theorem C137_axes (i j : Fin 3) (hij : i ≠ j) (b c : Bool) (f up p : Vec (Flt P.fmt) 3) (hp : ∀ i, (p i).isFinite) (hf : ∀ k, f k = if k = i then (if b then 1 else -1) else 0)
    (hu : ∀ k, up k = if k = j then (if c then 1 else -1) else 0) :
    let q := mmulPoint (viewMatrix f up) p
    (j = i + 1 → q 0 = if b = c then p (i + 2) else -p (i + 2)) ∧ (j = i + 2 → q 0 = if b = c then -p (i + 1) else p (i + 1)) ∧
    q 1 = (if c then p j else -p j) ∧ q 2 = (if b then -p i else p i) := by
  intro q
  obtain ⟨e0, e1, e2⟩ := view_point f up p hp
  rw [show q 0 = _ from e0, show q 1 = _ from e1, show q 2 = _ from e2]
  have z : ∀ k, 0 * p k = 0 := fun k => Flt.zero_mul_fin (hp k)
  have o : ∀ k, -1 * p k = -p k := fun k => by rw [Flt.neg_mul', Flt.one_mul']
  have nz : (-0 : Flt P.fmt) = 0 := Flt.key_inj (by show some (Ext.ofRat (-0)) = some (Ext.ofRat 0); rw [neg_zero])
  have z1 : ∀ x : Flt P.fmt, x.isFinite → 0 * x = 0 := fun x hx => Flt.zero_mul_fin hx
  have m1 : (-1 : Flt P.fmt).isFinite := Flt.neg_finite.2 Flt.one_finite
  have a00 : (0 * 0 : Flt P.fmt) = 0 := z1 0 Flt.zero_isFin
  have a0m : (0 * -1 : Flt P.fmt) = 0 := z1 _ m1
  have am0 : (-1 * 0 : Flt P.fmt) = 0 := by rw [Flt.mul_comm', a0m]
  have amm : (-1 * -1 : Flt P.fmt) = 1 := by rw [Flt.neg_mul', Flt.one_mul', neg_neg_flt]
  have sb : ∀ x y : Flt P.fmt, x - y = x + -y := fun _ _ => rfl
  have hf0 := hf 0
  have hf1 := hf 1
  have hf2 := hf 2
  have hu0 := hu 0
  have hu1 := hu 1
  have hu2 := hu 2
  simp only [cross]
  rcases three i with rfl | rfl | rfl <;> rcases three j with rfl | rfl | rfl <;> first | exact absurd rfl hij | skip
  all_goals
    cases b <;> cases c <;>
    simp [hf0, hf1, hf2, hu0, hu1, hu2, sb, a00, a0m, am0, amm, z, o, nz, Flt.one_mul', Flt.mul_one', Flt.zero_add', Flt.add_zero', neg_neg_flt] at *

/-- If the up vector equals the direction, then every point is moved to the axis of depth: the picture collapses without any error being reported. -/
theorem C137_parallel_fails (f p : Vec (Flt P.fmt) 3) (hp : ∀ i, (p i).isFinite) (hf : ∀ i, (f i).isFinite) (hff : ∀ i j, (f i * f j).isFinite) :
    mmulPoint (viewMatrix f f) p 0 = 0 ∧ mmulPoint (viewMatrix f f) p 1 = 0 := by
  obtain ⟨e0, e1, -⟩ := view_point f f p hp
  have c : ∀ i, cross f f i = 0 := by
    have k : ∀ i j, f i * f j - f j * f i = 0 := by
      intro i j
      rw [Flt.mul_comm' (f j), Flt.sub_eq (hff i j) (hff i j), sub_self]
      exact Flt.round_of_rep P.fmt.rep_zero
    intro i
    rcases three i with rfl | rfl | rfl
    · exact k 1 2
    · exact k 2 0
    · exact k 0 1
  have z : ∀ {x : Flt P.fmt}, x.isFinite → 0 * x = 0 := fun hx => Flt.zero_mul_fin hx
  have s0 : (0 : Flt P.fmt) - 0 = 0 := by
    rw [Flt.sub_eq Flt.zero_isFin Flt.zero_isFin, sub_self]
    exact Flt.round_of_rep P.fmt.rep_zero
  have d : ∀ i, cross (cross f f) f i = 0 := by
    have k : ∀ i j k l, cross f f i * f j - cross f f k * f l = 0 := by
      intro i j k l
      rw [c, c, z (hf j), z (hf l), s0]
    intro i
    rcases three i with rfl | rfl | rfl
    · exact k 1 2 2 1
    · exact k 2 0 0 2
    · exact k 0 1 1 0
  rw [e0, e1, c, c, c, d, d, d, z (hp 0), z (hp 1), z (hp 2), Flt.zero_add', Flt.zero_add']
  exact ⟨rfl, rfl⟩

/-- A camera of `double` that looks along the first axis with the third axis upwards, and a point: the hypotheses of the theorems hold. -/
example : ∃ (f up p : Vec (Flt binary64.fmt) 3) (a b : Vec ℝ 3), ApOk binary64 2 ∧ length a = 1 ∧ length b = 1 ∧ dot a b = 0 ∧ (∀ i, (f i).isFinite ∧ (up i).isFinite ∧ (p i).isFinite) ∧
    (∀ i, |((f i).val : ℝ) - a i| ≤ 1 * binary64.u) ∧ (∀ i, |((up i).val : ℝ) - b i| ≤ 1 * binary64.u) ∧ (∀ i, |((p i).val : ℝ)| ≤ 2) ∧ (p 1).val = 2 ∧
    (∀ k, f k = if k = 0 then (if true then 1 else -1) else 0) ∧ (∀ k, up k = if k = 2 then (if true then 1 else -1) else 0) ∧ (∀ i j, (f i * f j).isFinite) := by
  have h2 := Flt.two_eq binary64

  refine ⟨![1, 0, 0], ![0, 0, 1], ![1, 2, 1], ![1, 0, 0], ![0, 0, 1], ⟨?_, by norm_num, ?_⟩, ?_, ?_, ?_, fun i => ?_, fun i => ?_, fun i => ?_, fun i => ?_, h2.2, fun k => ?_, fun k => ?_, fun i j => ?_⟩
  · have : 1000 * binary64.u ≤ 1 := by norm_num [BinPar.u, binary64]
    exact_mod_cast this
  · have : 128 < binary64.bound := by
      unfold BinPar.bound
      calc (128 : ℚ) = 2 ^ (7 : ℤ) := by norm_num
        _ < _ := zpow_lt_zpow_right₀ (by norm_num) (by simp [binary64])
    have : ((128 : ℚ) : ℝ) < (binary64.bound : ℝ) := by exact_mod_cast this
    push_cast at this
    linarith
  · simp [length, squaredLength, dot3]
  · simp [length, squaredLength, dot3]
  · simp [dot3]
  · rcases three i with rfl | rfl | rfl
    · exact ⟨trivial, trivial, trivial⟩
    · exact ⟨trivial, trivial, h2.1⟩
    · exact ⟨trivial, trivial, trivial⟩
  · rcases three i with rfl | rfl | rfl
    · show |((1 : Flt binary64.fmt).val : ℝ) - 1| ≤ _
      rw [Flt.one_val]; simp; exact binary64.u_pos.le
    · show |((0 : Flt binary64.fmt).val : ℝ) - 0| ≤ _
      rw [Flt.zero_val]; simp; exact binary64.u_pos.le
    · show |((0 : Flt binary64.fmt).val : ℝ) - 0| ≤ _
      rw [Flt.zero_val]; simp; exact binary64.u_pos.le
  · rcases three i with rfl | rfl | rfl
    · show |((0 : Flt binary64.fmt).val : ℝ) - 0| ≤ _
      rw [Flt.zero_val]; simp; exact binary64.u_pos.le
    · show |((0 : Flt binary64.fmt).val : ℝ) - 0| ≤ _
      rw [Flt.zero_val]; simp; exact binary64.u_pos.le
    · show |((1 : Flt binary64.fmt).val : ℝ) - 1| ≤ _
      rw [Flt.one_val]; simp; exact binary64.u_pos.le
  · rcases three i with rfl | rfl | rfl
    · show |((1 : Flt binary64.fmt).val : ℝ)| ≤ 2
      rw [Flt.one_val]; norm_num
    · show |((2 : Flt binary64.fmt).val : ℝ)| ≤ 2
      rw [h2.2]; norm_num
    · show |((1 : Flt binary64.fmt).val : ℝ)| ≤ 2
      rw [Flt.one_val]; norm_num
  · rcases three k with rfl | rfl | rfl <;> rfl
  · rcases three k with rfl | rfl | rfl <;> rfl
  · have one : ∀ x : Flt binary64.fmt, x.isFinite → (1 * x).isFinite := fun x hx => by rw [Flt.one_mul']; exact hx
    have zer : ∀ x : Flt binary64.fmt, x.isFinite → (0 * x).isFinite := fun x hx => by rw [Flt.zero_mul_fin hx]; exact trivial
    have fj : ((![1, 0, 0] : Vec (Flt binary64.fmt) 3) j).isFinite := by rcases three j with rfl | rfl | rfl <;> exact trivial
    rcases three i with rfl | rfl | rfl
    · exact one _ fj
    · exact zer _ fj
    · exact zer _ fj

end vm
