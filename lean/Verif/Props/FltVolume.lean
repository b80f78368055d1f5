import Verif.Props.FltBox
import Verif.Lemmas.FltConst
import Verif.Lemmas.FltPolygon
import Verif.Lemmas.FltAp

/-! C154: the volume of a box in IEEE arithmetic. -/

set_option linter.unusedSectionVars false
set_option linter.unusedSimpArgs false

namespace vm
open BBox BinPar
variable {P : BinPar} {S : ℕ}

namespace FltVol

/-- A product of smaller numbers that are not negative is smaller. -/
theorem fold_mono : ∀ {S : ℕ} {f g : Fin S → Flt P.fmt} {x y : Flt P.fmt}, (Fin.foldl S (fun r i => r * g i) y).isFinite →
    (∀ i, (g i).isFinite → (f i).isFinite ∧ 0 ≤ (f i).val ∧ (f i).val ≤ (g i).val) → (y.isFinite → x.isFinite ∧ 0 ≤ x.val ∧ x.val ≤ y.val) →
    (Fin.foldl S (fun r i => r * f i) x).isFinite ∧ 0 ≤ (Fin.foldl S (fun r i => r * f i) x).val ∧
      (Fin.foldl S (fun r i => r * f i) x).val ≤ (Fin.foldl S (fun r i => r * g i) y).val
  | 0, f, g, x, y, h, _, hx => by
    rw [Fin.foldl_zero] at h ⊢
    rw [Fin.foldl_zero]
    exact hx h
  | S + 1, f, g, x, y, h, hf, hx => by
    rw [Fin.foldl_succ] at h
    rw [Fin.foldl_succ, Fin.foldl_succ]
    refine fold_mono h (fun i => hf i.succ) fun hy => ?_
    obtain ⟨h1, h2⟩ := Flt.mul_finite hy
    obtain ⟨x1, x2, x3⟩ := hx h1
    obtain ⟨f1, f2, f3⟩ := hf 0 h2
    have l : x.val * (f 0).val ≤ y.val * (g 0).val := mul_le_mul x3 f3 f2 (x2.trans x3)
    have l0 : 0 ≤ P.fl (x.val * (f 0).val) := P.fl_nonneg (mul_nonneg x2 f2)
    have hl := P.fl_mono l
    have hv := Flt.mul_val hy
    have fin : (x * f 0).isFinite := by
      rw [Flt.mul_eq x1 f1, Flt.round_finite, abs_of_nonneg l0]
      rw [Flt.mul_eq h1 h2, Flt.round_finite, abs_of_nonneg (l0.trans hl)] at hy
      exact hl.trans_lt hy
    rw [Flt.mul_val fin, hv]
    exact ⟨fin, l0, hl⟩

/-- All factors of a finite product are finite. -/
theorem fold_finite : ∀ {S : ℕ} {f : Fin S → Flt P.fmt} {x : Flt P.fmt}, (Fin.foldl S (fun r i => r * f i) x).isFinite → x.isFinite ∧ ∀ i, (f i).isFinite
  | 0, f, x, h => ⟨by rwa [Fin.foldl_zero] at h, fun i => i.elim0⟩
  | S + 1, f, x, h => by
    rw [Fin.foldl_succ] at h
    obtain ⟨h1, h2⟩ := fold_finite h
    obtain ⟨h3, h4⟩ := Flt.mul_finite h1
    exact ⟨h3, Fin.cases h4 h2⟩

/-- A finite product with a zero is zero. -/
theorem fold_zero : ∀ {S : ℕ} {f : Fin S → Flt P.fmt} {x : Flt P.fmt}, (Fin.foldl S (fun r i => r * f i) x).isFinite → (x.val = 0 ∨ ∃ i, (f i).val = 0) →
    (Fin.foldl S (fun r i => r * f i) x).val = 0
  | 0, f, x, _, h => by
    rw [Fin.foldl_zero]
    rcases h with h | ⟨i, -⟩
    · exact h
    · exact i.elim0
  | S + 1, f, x, hf, h => by
    rw [Fin.foldl_succ] at hf ⊢
    have hv := Flt.mul_val (fold_finite hf).1
    refine fold_zero hf ?_
    rcases h with h | ⟨i, h⟩
    · left; rw [hv, h, zero_mul, P.fl_zero]
    · revert h
      refine Fin.cases (fun h => ?_) (fun i h => ?_) i
      · left; rw [hv, h, mul_zero, P.fl_zero]
      · right; exact ⟨i, h⟩

/-- Products of positive integers are exact as long as they are not too large. -/
theorem fold_exact (hb : (2 : ℚ) ^ P.p < P.bound) : ∀ {S : ℕ} {f : Fin S → Flt P.fmt} {x : Flt P.fmt} {k : Fin S → ℕ} {n : ℕ}, x.isFinite → x.val = n →
    (∀ i, (f i).isFinite ∧ (f i).val = k i ∧ 1 ≤ k i) → n * ∏ i, k i ≤ 2 ^ P.p →
    (Fin.foldl S (fun r i => r * f i) x).isFinite ∧ (Fin.foldl S (fun r i => r * f i) x).val = (n * ∏ i, k i : ℕ)
  | 0, f, x, k, n, hx, hn, _, _ => by
    rw [Fin.foldl_zero]
    simpa using ⟨hx, hn⟩
  | S + 1, f, x, k, n, hx, hn, hf, hp => by
    rw [Fin.foldl_succ]
    obtain ⟨f1, f2, f3⟩ := hf 0
    rw [Fin.prod_univ_succ, ← mul_assoc] at hp ⊢
    have h1 : n * k 0 ≤ 2 ^ P.p := le_trans (Nat.le_mul_of_pos_right _ (Finset.prod_pos fun i _ => (hf i.succ).2.2)) hp
    have hr : P.fl (x.val * (f 0).val) = (n * k 0 : ℕ) := by
      rw [hn, f2]
      have := (P.rep_of_int (n := ((n * k 0 : ℕ) : ℤ)) (by rw [abs_of_nonneg (by positivity)]; exact_mod_cast h1)).1
      have := P.fl_rep this
      push_cast at this ⊢
      exact this
    have fin : (x * f 0).isFinite := by
      rw [Flt.mul_eq hx f1, Flt.round_finite, hr, abs_of_nonneg (by positivity)]
      refine lt_of_le_of_lt ?_ hb
      exact_mod_cast h1
    exact fold_exact hb fin (by rw [Flt.mul_val fin, hr]) (fun i => hf i.succ) hp

/-- The size of a valid box. -/
theorem size_val {b : BBox (Flt P.fmt) S} (hb : FiniteBox b) (i : Fin S) (h : (b.size i).isFinite) :
    (b.size i).val = P.fl ((b.max i).val - (b.min i).val) ∧ 0 ≤ (b.size i).val ∧
      |(b.size i).val - ((b.max i).val - (b.min i).val)| ≤ P.u * ((b.max i).val - (b.min i).val) := by
  have h0 : 0 ≤ (b.max i).val - (b.min i).val := by linarith [hb.2.2 i]
  have e : (b.size i).val = P.fl ((b.max i).val - (b.min i).val) := Flt.sub_val h
  refine ⟨e, by rw [e]; exact P.fl_nonneg h0, ?_⟩
  rw [e]
  have := fl_sub_err_u (Flt.rep_val (b.max i)).1 (Flt.rep_val (b.min i)).1
  rwa [abs_of_nonneg h0] at this

/-- The sizes of two boxes, one in the other. -/
theorem size_mono {a b : BBox (Flt P.fmt) S} (ha : FiniteBox a) (hb : FiniteBox b) (h : a.containsBox b = true) (i : Fin S) (hf : (a.size i).isFinite) :
    (b.size i).isFinite ∧ 0 ≤ (b.size i).val ∧ (b.size i).val ≤ (a.size i).val := by
  simp only [containsBox, List.all_eq_true, List.mem_finRange, forall_true_left, Bool.not_eq_true', Bool.or_eq_false_iff] at h
  obtain ⟨h1, h2⟩ := h i
  rw [Flt.lt_val (hb.1 i) (ha.1 i), decide_eq_false_iff_not, not_lt] at h1
  rw [Flt.lt_val (ha.2.1 i) (hb.2.1 i), decide_eq_false_iff_not, not_lt] at h2
  have l : (b.max i).val - (b.min i).val ≤ (a.max i).val - (a.min i).val := by linarith
  have l0 : 0 ≤ P.fl ((b.max i).val - (b.min i).val) := P.fl_nonneg (by linarith [hb.2.2 i])
  have hl := P.fl_mono l
  have fin : (b.size i).isFinite := by
    have e1 : b.size i = Flt.round ((b.max i).val - (b.min i).val) := Flt.sub_eq (hb.2.1 i) (hb.1 i)
    have e2 : a.size i = Flt.round ((a.max i).val - (a.min i).val) := Flt.sub_eq (ha.2.1 i) (ha.1 i)
    rw [e1, Flt.round_finite, abs_of_nonneg l0]
    rw [e2, Flt.round_finite, abs_of_nonneg (l0.trans hl)] at hf
    exact hl.trans_lt hf
  rw [(size_val hb i fin).1, (size_val ha i hf).1]
  exact ⟨fin, l0, hl⟩

/-- The error of a product of two numbers with relative errors. -/
theorem mul_rel' {u v x y x' y' : ℚ} (v0 : 0 ≤ v) (hx : 0 ≤ x) (y0 : 0 ≤ y') (ex : |x' - x| ≤ v * x) (ey : |y' - y| ≤ u * y)
    (y1 : y' ≤ (1 + u) * y) : |x' * y' - x * y| ≤ ((1 + v) * (1 + u) - 1) * (x * y) := by
  rw [show x' * y' - x * y = (x' - x) * y' + x * (y' - y) by ring]
  refine (abs_add_le _ _).trans ?_
  rw [abs_mul, abs_mul, abs_of_nonneg y0, abs_of_nonneg hx]
  have h1 : |x' - x| * y' ≤ v * x * ((1 + u) * y) := mul_le_mul ex y1 y0 (mul_nonneg v0 hx)
  have h2 : x * |y' - y| ≤ x * (u * y) := mul_le_mul_of_nonneg_left ey hx
  linarith

/-- The same with the same error for both numbers. -/
theorem mul_rel {u x y x' y' : ℚ} (u0 : 0 ≤ u) (hx : 0 ≤ x) (y0 : 0 ≤ y') (ex : |x' - x| ≤ u * x) (ey : |y' - y| ≤ u * y)
    (y1 : y' ≤ (1 + u) * y) : |x' * y' - x * y| ≤ ((1 + u) ^ 2 - 1) * (x * y) := by
  have := mul_rel' u0 hx y0 ex ey y1
  rwa [← sq] at this

/-- The error of a product of three numbers with relative errors. -/
theorem prod_err {u η x y z x' y' z' r s : ℚ} (u0 : 0 ≤ u) (u1 : u ≤ 1 / 8) (η0 : 0 ≤ η) (hx : 0 ≤ x) (hy : 0 ≤ y) (hz : 0 ≤ z)
    (ex : |x' - x| ≤ u * x) (ey : |y' - y| ≤ u * y) (ez : |z' - z| ≤ u * z) (er : |r - x' * y'| ≤ u * (x' * y') + η)
    (es : |s - r * z'| ≤ u * |r * z'| + η) : |s - x * y * z| ≤ ((1 + u) ^ 5 - 1) * (x * y * z) + 2 * η * (1 + z) := by
  have x0 : 0 ≤ x' := by nlinarith [(abs_le.1 ex).1]
  have y0 : 0 ≤ y' := by nlinarith [(abs_le.1 ey).1]
  have z0 : 0 ≤ z' := by nlinarith [(abs_le.1 ez).1]
  have x1 : x' ≤ (1 + u) * x := by linarith [(abs_le.1 ex).2]
  have y1 : y' ≤ (1 + u) * y := by linarith [(abs_le.1 ey).2]
  have z1 : z' ≤ (1 + u) * z := by linarith [(abs_le.1 ez).2]
  have exy := mul_rel u0 hx y0 ex ey y1
  have xy1 : x' * y' ≤ (1 + u) ^ 2 * (x * y) := by linarith [(abs_le.1 exy).2]
  have exyz := mul_rel' (v := (1 + u) ^ 2 - 1) (by nlinarith) (mul_nonneg hx hy) z0 exy ez z1
  have xy0 := mul_nonneg x0 y0
  have xyz0 : 0 ≤ x * y * z := mul_nonneg (mul_nonneg hx hy) hz
  have t2 : |r - x' * y'| * z' ≤ (u * (x' * y') + η) * z' := mul_le_mul_of_nonneg_right er z0
  have r1 : |r| ≤ (1 + u) * (x' * y') + η := by
    rw [show r = (r - x' * y') + x' * y' by ring]
    refine (abs_add_le _ _).trans ?_
    rw [abs_of_nonneg xy0]; linarith
  have t1 : u * |r * z'| ≤ u * (((1 + u) * (x' * y') + η) * z') := by
    rw [abs_mul, abs_of_nonneg z0]
    exact mul_le_mul_of_nonneg_left (mul_le_mul_of_nonneg_right r1 z0) u0
  have k1 : x' * y' * z' ≤ (1 + u) ^ 2 * (x * y) * ((1 + u) * z) := mul_le_mul xy1 z1 z0 (by positivity)
  have k2 : η * z' ≤ η * ((1 + u) * z) := mul_le_mul_of_nonneg_left z1 η0
  have k3 : (u * (1 + u) + u) * (x' * y' * z') ≤ (u * (1 + u) + u) * ((1 + u) ^ 2 * (x * y) * ((1 + u) * z)) := mul_le_mul_of_nonneg_left k1 (by positivity)
  have k4 : (1 + u) * (η * z') ≤ (1 + u) * (η * ((1 + u) * z)) := mul_le_mul_of_nonneg_left k2 (by positivity)
  have k5 : (1 + u) * (1 + u) * (η * z) ≤ 2 * (η * z) := mul_le_mul_of_nonneg_right (by nlinarith) (by positivity)
  have tri : |s - x * y * z| ≤ |s - r * z'| + |r - x' * y'| * z' + |x' * y' * z' - x * y * z| := by
    rw [show s - x * y * z = (s - r * z') + (r - x' * y') * z' + (x' * y' * z' - x * y * z) by ring]
    refine (abs_add_le _ _).trans (add_le_add_left ((abs_add_le _ _).trans ?_) _)
    rw [abs_mul, abs_of_nonneg z0]
  refine tri.trans ?_
  have : ((1 + u) ^ 5 - 1) * (x * y * z) = (u * (1 + u) + u) * ((1 + u) ^ 2 * (x * y) * ((1 + u) * z)) + ((1 + ((1 + u) ^ 2 - 1)) * (1 + u) - 1) * (x * y * z) := by ring
  rw [this]
  linarith

end FltVol

/-- The volume of a box in another box is not larger, also with rounding; in particular it is finite if the other volume is. -/
theorem C154_monotone (a b : BBox (Flt P.fmt) (S + 1)) (ha : FiniteBox a) (hb : FiniteBox b) (h : a.containsBox b = true) (hf : a.volume.isFinite) :
    b.volume.isFinite ∧ 0 ≤ b.volume.val ∧ b.volume.val ≤ a.volume.val :=
  FltVol.fold_mono hf (fun i => FltVol.size_mono ha hb h i.succ) (FltVol.size_mono ha hb h 0)

/-- The volume of an empty box is zero, if it is finite. -/
theorem C154_empty (b : BBox (Flt P.fmt) (S + 1)) (hb : FiniteBox b) (h : b.isEmpty = true) (hf : b.volume.isFinite) : b.volume.val = 0 := by
  obtain ⟨h1, h2⟩ := FltVol.fold_finite hf
  have hall : ∀ i, (b.size i).isFinite := Fin.cases h1 h2
  simp only [isEmpty, List.any_eq_true, List.mem_finRange, true_and] at h
  obtain ⟨i, hi⟩ := h
  have h0 : (b.size i).val = 0 := by
    rw [(FltVol.size_val hb i (hall i)).1]
    rw [Flt.lt_asymm_le (hb.2.1 i) (hb.1 i), decide_eq_true_eq] at hi
    rw [le_antisymm hi (hb.2.2 i), sub_self, P.fl_zero]
  refine FltVol.fold_zero hf ?_
  revert h0
  exact Fin.cases (fun h => Or.inl h) (fun i h => Or.inr ⟨i, h⟩) i

/-- The volume of a box of dimension three has a small relative error, unless it underflows. -/
theorem C154_error (b : BBox (Flt P.fmt) 3) (hb : FiniteBox b) (hf : b.volume.isFinite) :
    let x := fun i => (b.max i).val - (b.min i).val
    |b.volume.val - x 0 * x 1 * x 2| ≤ ((1 + P.u) ^ 5 - 1) * (x 0 * x 1 * x 2) + 2 * P.eta * (1 + x 2) := by
  intro x
  have e : b.volume = b.size 0 * b.size 1 * b.size 2 := rfl
  rw [e] at hf ⊢
  obtain ⟨f1, f2⟩ := Flt.mul_finite hf
  obtain ⟨f3, f4⟩ := Flt.mul_finite f1
  obtain ⟨-, x0, x1⟩ := FltVol.size_val hb 0 f3
  obtain ⟨-, y0, y1⟩ := FltVol.size_val hb 1 f4
  obtain ⟨-, z0, z1⟩ := FltVol.size_val hb 2 f2
  have h0 : ∀ i, 0 ≤ x i := fun i => sub_nonneg.2 (hb.2.2 i)
  have er := P.fl_err_u ((b.size 0).val * (b.size 1).val)
  have es := P.fl_err_u ((b.size 0 * b.size 1).val * (b.size 2).val)
  rw [abs_of_nonneg (mul_nonneg x0 y0), ← Flt.mul_val f1] at er
  rw [← Flt.mul_val hf] at es
  exact FltVol.prod_err P.u_pos.le P.u_le (Er.eta_pos P).le (h0 0) (h0 1) (h0 2) x1 y1 z1 er es

/-- Boxes whose corners are on the grid of integers have exact volumes, as long as these are not too large. -/
theorem C154_exact (hp : (2 : ℚ) ^ P.p < P.bound) (b : BBox (Flt P.fmt) (S + 1)) (k : Fin (S + 1) → ℕ) (h1 : ∀ i, (b.min i).isFinite) (h2 : ∀ i, (b.max i).isFinite)
    (h : ∀ i, (b.max i).val - (b.min i).val = k i) (hk : ∀ i, 1 ≤ k i) (hb : ∏ i, k i ≤ 2 ^ P.p) :
    b.volume.isFinite ∧ b.volume.val = ∏ i, ((b.max i).val - (b.min i).val) := by
  have hle : ∀ i, k i ≤ 2 ^ P.p := fun i => (Nat.le_of_dvd (Finset.prod_pos fun i _ => hk i) (Finset.dvd_prod_of_mem k (Finset.mem_univ i))).trans hb
  have hs : ∀ i, (b.size i).isFinite ∧ (b.size i).val = k i := fun i => by
    have e1 : b.size i = Flt.round ((b.max i).val - (b.min i).val) := Flt.sub_eq (h2 i) (h1 i)
    have hr := P.fl_rep (P.rep_of_int (n := (k i : ℤ)) (by rw [abs_of_nonneg (by positivity)]; exact_mod_cast hle i)).1
    rw [Int.cast_natCast] at hr
    have fin : (b.size i).isFinite := by
      rw [e1, h i, Flt.round_finite, hr, abs_of_nonneg (by positivity)]
      refine lt_of_le_of_lt ?_ hp
      exact_mod_cast hle i
    refine ⟨fin, ?_⟩
    have : (b.size i).val = P.fl ((b.max i).val - (b.min i).val) := Flt.sub_val fin
    rw [this, h i, hr]
  rw [Fin.prod_univ_succ] at hb
  obtain ⟨r1, r2⟩ := FltVol.fold_exact hp (hs 0).1 (hs 0).2 (fun i => ⟨(hs i.succ).1, (hs i.succ).2, hk i.succ⟩) hb
  refine ⟨r1, ?_⟩
  have : b.volume.val = _ := r2
  rw [this]
  simp only [h]
  rw [Fin.prod_univ_succ]
  push_cast
  rfl

/-- The hypotheses of the four theorems: two boxes of `float` numbers, one in the other; the smaller one is empty. -/
example : let a : BBox (Flt binary32.fmt) 3 := ⟨fun _ => 0, fun _ => 1⟩
    let b : BBox (Flt binary32.fmt) 3 := ⟨fun _ => 0, ![1, 0, 1]⟩
    FiniteBox a ∧ FiniteBox b ∧ a.containsBox b = true ∧ a.volume.isFinite ∧ a.volume.val = 1 ∧ b.isEmpty = true ∧ (2 : ℚ) ^ binary32.p < binary32.bound := by
  intro a b
  have hb32 : (2 : ℚ) ^ binary32.p < binary32.bound := by norm_num [binary32, BinPar.bound]
  have hv : ∀ i, (b.max i).isFinite ∧ 0 ≤ (b.max i).val ∧ (b.max i).val ≤ 1 := fun i => by
    fin_cases i
    · exact ⟨Flt.one_finite, by show 0 ≤ (1 : Flt binary32.fmt).val; rw [Flt.one_val]; norm_num, by show (1 : Flt binary32.fmt).val ≤ 1; rw [Flt.one_val]⟩
    · exact ⟨Flt.zero_finite, by show 0 ≤ (0 : Flt binary32.fmt).val; rw [Flt.zero_val], by show (0 : Flt binary32.fmt).val ≤ 1; rw [Flt.zero_val]; norm_num⟩
    · exact ⟨Flt.one_finite, by show 0 ≤ (1 : Flt binary32.fmt).val; rw [Flt.one_val]; norm_num, by show (1 : Flt binary32.fmt).val ≤ 1; rw [Flt.one_val]⟩
  have fa : FiniteBox a := ⟨fun _ => Flt.zero_finite, fun _ => Flt.one_finite, fun _ => by
    show (0 : Flt binary32.fmt).val ≤ (1 : Flt binary32.fmt).val; rw [Flt.zero_val, Flt.one_val]; norm_num⟩
  have fb : FiniteBox b := ⟨fun _ => Flt.zero_finite, fun i => (hv i).1, fun i => by
    show (0 : Flt binary32.fmt).val ≤ _; rw [Flt.zero_val]; exact (hv i).2.1⟩
  have hd : ∀ i, (a.max i).val - (a.min i).val = ((1 : ℕ) : ℚ) := fun i => by
    show (1 : Flt binary32.fmt).val - (0 : Flt binary32.fmt).val = _; rw [Flt.zero_val, Flt.one_val]; norm_num
  obtain ⟨e1, e2⟩ := C154_exact hb32 a (fun _ => 1) fa.1 fa.2.1 hd (fun _ => le_rfl) (by simp [Nat.one_le_pow])
  refine ⟨fa, fb, ?_, e1, by rw [e2]; simp [hd], ?_, hb32⟩
  · simp only [containsBox, List.all_eq_true, List.mem_finRange, forall_true_left, Bool.not_eq_true', Bool.or_eq_false_iff]
    intro i
    rw [Flt.lt_val (fb.1 i) (fa.1 i), decide_eq_false_iff_not, not_lt, Flt.lt_val (fa.2.1 i) (fb.2.1 i), decide_eq_false_iff_not, not_lt]
    exact ⟨le_rfl, (hv i).2.2.trans_eq (by show (1 : ℚ) = (1 : Flt binary32.fmt).val; rw [Flt.one_val])⟩
  · simp only [isEmpty, List.any_eq_true, List.mem_finRange, true_and]
    refine ⟨1, ?_⟩
    rw [Flt.lt_asymm_le (fb.2.1 1) (fb.1 1), decide_eq_true_eq]
    exact le_refl (0 : Flt binary32.fmt).val

/-- The volume of a flat box that is very long is NaN: the coordinates are the greatest number and its negative in one direction and zero in the other. -/
theorem C154_nan_fails (P : BinPar) : ∃ b : BBox (Flt P.fmt) 2, FiniteBox b ∧ b.isEmpty = true ∧ b.volume = Flt.nan := by
  have hc : (Flt.fin (greatest P) rep_greatest - -Flt.fin (greatest P) rep_greatest : Flt P.fmt) = Flt.pinf := by
    have hp := P.hp
    have h1 : P.bound ≤ greatest P - -greatest P := by
      unfold BinPar.bound greatest
      rw [zpow_add2, zpow_natCast]
      have h2 := two_zpow_pos P.qmax
      have h3 : (2 : ℚ) ≤ 2 ^ P.p := by
        calc (2 : ℚ) = 2 ^ 1 := by norm_num
          _ ≤ 2 ^ P.p := pow_le_pow_right₀ (by norm_num) (by omega)
      nlinarith
    have gf : (Flt.fin (greatest P) rep_greatest : Flt P.fmt).isFinite := trivial
    rw [Flt.sub_eq gf (Flt.neg_finite.2 gf), Flt.neg_val]
    refine Flt.round_pinf (P.le_fl_of_rep ?_ h1)
    refine ⟨1, P.p + P.qmax, ?_, ?_, ?_⟩
    · unfold BinPar.bound; push_cast; ring
    · rw [abs_one]; exact one_lt_pow₀ (by norm_num) (by omega)
    · have := P.hmin; have := P.hmax; omega
  have g0 : 0 ≤ greatest P := by
    unfold greatest
    have : (1 : ℚ) ≤ 2 ^ P.p := one_le_pow₀ (by norm_num)
    exact mul_nonneg (by linarith) (two_zpow_pos P.qmax).le
  refine ⟨⟨![-Flt.fin (greatest P) rep_greatest, 0], ![Flt.fin (greatest P) rep_greatest, 0]⟩, ⟨fun i => ?_, fun i => ?_, fun i => ?_⟩, ?_, ?_⟩
  · fin_cases i
    · exact Flt.neg_finite.2 trivial
    · exact Flt.zero_finite
  · fin_cases i
    · trivial
    · exact Flt.zero_finite
  · fin_cases i
    · show (-Flt.fin (greatest P) rep_greatest : Flt P.fmt).val ≤ greatest P
      rw [Flt.neg_val]
      show -greatest P ≤ greatest P
      linarith
    · exact le_rfl
  · simp only [isEmpty, List.any_eq_true, List.mem_finRange, true_and]
    refine ⟨1, ?_⟩
    rw [Flt.lt_asymm_le (show (![Flt.fin (greatest P) rep_greatest, 0] 1 : Flt P.fmt).isFinite from Flt.zero_finite)
      (show (![-Flt.fin (greatest P) rep_greatest, 0] 1 : Flt P.fmt).isFinite from Flt.zero_finite), decide_eq_true_eq]
    exact le_refl (0 : Flt P.fmt).val
  · show (Flt.fin (greatest P) rep_greatest - -Flt.fin (greatest P) rep_greatest : Flt P.fmt) * (0 - 0) = Flt.nan
    rw [hc, Flt.sub_eq Flt.zero_finite Flt.zero_finite, sub_self]
    have : (Flt.round 0 : Flt P.fmt) = 0 := round_rep P.fmt.rep_zero
    rw [this]
    show Flt.infTimes (0 : ℚ) = Flt.nan
    simp [Flt.infTimes]

namespace FltVol

/-- The box from the origin to a given point. -/
def corner (x y z : Flt P.fmt) : BBox (Flt P.fmt) 3 := ⟨fun _ => 0, ![x, y, z]⟩

theorem corner_size {x y z : Flt P.fmt} : (corner x y z).volume = (x - 0) * (y - 0) * (z - 0) := rfl

end FltVol

/-- The order of the axes matters: a `float` box of extents 2^64, 2^64 and 2^-128 has the volume infinity, and the same box turned on its side has the
volume one. -/
theorem C154_order_fails : ∃ a b c : Flt binary32.fmt, a.isFinite ∧ b.isFinite ∧ c.isFinite ∧ a.val * b.val * c.val = 1 ∧
    (FltVol.corner a b c).volume = Flt.pinf ∧ (FltVol.corner a c b).volume = 1 := by
  have r1 : binary32.fmt.rep ((2 : ℚ) ^ 64) := ⟨⟨1, 64, by norm_num, by norm_num [binary32], by norm_num [binary32]⟩, by norm_num [binary32, BinPar.bound]⟩
  have r2 : binary32.fmt.rep (1 / (2 : ℚ) ^ 128) := ⟨⟨1, -128, by norm_num, by norm_num [binary32], by norm_num [binary32]⟩, by norm_num [binary32, BinPar.bound, abs_of_pos]⟩
  have s : ∀ x : Flt binary32.fmt, x.isFinite → x - 0 = x := fun x hx => sub_zero_flt hx
  have m1 : (Flt.fin (2 ^ 64) r1 * Flt.fin (2 ^ 64) r1 : Flt binary32.fmt) = Flt.pinf := by
    have gf : (Flt.fin (2 ^ 64) r1 : Flt binary32.fmt).isFinite := trivial
    rw [Flt.mul_eq gf gf]
    refine Flt.round_pinf ?_
    show binary32.bound ≤ binary32.fl (2 ^ 64 * 2 ^ 64)
    rw [binary32.fl_rep ⟨1, 128, by norm_num, by norm_num [binary32], by norm_num [binary32]⟩]
    norm_num [binary32, BinPar.bound]
  have m2 := is_mul (c := 1 / 2 ^ 64) (show (Flt.fin (2 ^ 64) r1 : Flt binary32.fmt).isFinite ∧ (Flt.fin (2 ^ 64) r1 : Flt binary32.fmt).val = 2 ^ 64 from ⟨trivial, rfl⟩)
    (show (Flt.fin _ r2 : Flt binary32.fmt).isFinite ∧ (Flt.fin _ r2 : Flt binary32.fmt).val = 1 / 2 ^ 128 from ⟨trivial, rfl⟩) (by
    rw [show (2 : ℚ) ^ 64 * (1 / 2 ^ 128) = 1 / 2 ^ 64 by norm_num]
    exact binary32.fl_rep ⟨1, -64, by norm_num, by norm_num [binary32], by norm_num [binary32]⟩) (lt_bound32 (by norm_num [abs_of_pos]))
  have m3 := is_mul (c := 1) m2 (show (Flt.fin (2 ^ 64) r1 : Flt binary32.fmt).isFinite ∧ (Flt.fin (2 ^ 64) r1 : Flt binary32.fmt).val = 2 ^ 64 from ⟨trivial, rfl⟩) (by
    rw [show 1 / (2 : ℚ) ^ 64 * 2 ^ 64 = 1 by norm_num]
    exact binary32.fl_rep ⟨1, 0, by norm_num, by norm_num [binary32], by norm_num [binary32]⟩) (lt_bound32 (by norm_num [abs_of_pos]))
  refine ⟨Flt.fin _ r1, Flt.fin _ r1, Flt.fin _ r2, trivial, trivial, trivial, by show (2 : ℚ) ^ 64 * 2 ^ 64 * (1 / 2 ^ 128) = 1; norm_num, ?_, ?_⟩
  · rw [FltVol.corner_size, s (Flt.fin _ r1) trivial, s (Flt.fin _ r2) trivial, m1]
    show Flt.infTimes (1 / (2 : ℚ) ^ 128) = Flt.pinf
    norm_num [Flt.infTimes]
  · rw [FltVol.corner_size, s (Flt.fin _ r1) trivial, s (Flt.fin _ r2) trivial]
    exact Flt.ext m3.1 Flt.one_finite (by rw [m3.2, Flt.one_val])

/-- The volume can be zero although the box is not empty: if the extents are the least positive number. -/
theorem C154_zero_fails (P : BinPar) : ∃ b : BBox (Flt P.fmt) 2, FiniteBox b ∧ b.isEmpty = false ∧ b.volume = 0 := by
  have q0 := two_zpow_pos P.qmin
  have hmin := P.hmin
  have hmax := P.hmax
  have hp := P.hp
  have q1 : (2 : ℚ) ^ P.qmin ≤ 1 / 8 := by
    calc (2 : ℚ) ^ P.qmin ≤ 2 ^ (-3 : ℤ) := zpow_le_zpow_right₀ (by norm_num) (by omega)
      _ = 1 / 8 := by norm_num
  have r : P.fmt.rep (2 ^ P.qmin) := by
    refine ⟨⟨1, P.qmin, by simp, by rw [abs_one]; exact one_lt_pow₀ (by norm_num) (by omega), le_rfl⟩, ?_⟩
    rw [abs_of_pos q0]
    unfold BinPar.bound
    exact zpow_lt_zpow_right₀ (by norm_num) (by omega)
  have f : (Flt.fin (2 ^ P.qmin) r : Flt P.fmt).isFinite := trivial
  have s : (Flt.fin (2 ^ P.qmin) r - 0 : Flt P.fmt) = Flt.fin (2 ^ P.qmin) r := sub_zero_flt f
  have z : P.fl (2 ^ P.qmin * 2 ^ P.qmin) = 0 := by
    by_contra h
    have e := P.fl_err_u (2 ^ P.qmin * 2 ^ P.qmin)
    have n0 : 0 ≤ P.fl (2 ^ P.qmin * 2 ^ P.qmin) := P.fl_nonneg (by positivity)
    obtain ⟨m, k, h1, -, h3⟩ := P.rep_fl (2 ^ P.qmin * 2 ^ P.qmin)
    have m0 : m ≠ 0 := fun m0 => h (by rw [h1, m0]; simp)
    have m1 : (1 : ℚ) ≤ |(m : ℚ)| := by exact_mod_cast Int.one_le_abs m0
    have l : (2 : ℚ) ^ P.qmin ≤ P.fl (2 ^ P.qmin * 2 ^ P.qmin) := by
      rw [← abs_of_nonneg n0, h1, abs_mul, abs_of_pos (two_zpow_pos k)]
      calc (2 : ℚ) ^ P.qmin ≤ 2 ^ k := zpow_le_zpow_right₀ (by norm_num) h3
        _ ≤ _ := le_mul_of_one_le_left (two_zpow_pos k).le m1
    have he : P.eta * 2 = 2 ^ P.qmin := by
      unfold BinPar.eta
      rw [zpow_sub_one₀ (by norm_num)]; ring
    have hu := P.u_le
    have u0 := P.u_pos
    rw [abs_of_nonneg (by positivity : (0 : ℚ) ≤ 2 ^ P.qmin * 2 ^ P.qmin)] at e
    have := (abs_le.1 e).2
    nlinarith [mul_pos q0 q0]
  refine ⟨⟨fun _ => 0, fun _ => Flt.fin (2 ^ P.qmin) r⟩, ⟨fun _ => Flt.zero_finite, fun _ => trivial, fun _ => ?_⟩, ?_, ?_⟩
  · show (0 : Flt P.fmt).val ≤ 2 ^ P.qmin
    rw [Flt.zero_val]; exact q0.le
  · rw [← Bool.not_eq_true]
    simp only [isEmpty, List.any_eq_true, List.mem_finRange, true_and]
    rintro ⟨i, hi⟩
    rw [Flt.lt_asymm_le f Flt.zero_finite, decide_eq_true_eq, Flt.zero_val] at hi
    exact absurd hi (not_le.2 q0)
  · show (Flt.fin (2 ^ P.qmin) r - 0 : Flt P.fmt) * (Flt.fin (2 ^ P.qmin) r - 0) = 0
    rw [s, Flt.mul_eq f f]
    have e1 : (Flt.fin (2 ^ P.qmin) r : Flt P.fmt).val = 2 ^ P.qmin := rfl
    have fin : (Flt.round ((Flt.fin (2 ^ P.qmin) r : Flt P.fmt).val * (Flt.fin (2 ^ P.qmin) r : Flt P.fmt).val) : Flt P.fmt).isFinite := by
      rw [Flt.round_finite, e1, z, abs_zero]; exact P.bound_pos
    exact Flt.ext fin Flt.zero_finite (by rw [Flt.round_val fin, e1, z, Flt.zero_val])

end vm
