import Verif.Lemmas.FltBoxMat
import Verif.Lemmas.FltConst
import Verif.Lemmas.FltPolygon
import Verif.Props.FltBox
import Verif.Props.FltGrid
import Verif.Props.FltNan

/-! # C133: `scale_bbox_matrix` and `scale_bbox_matrix_with_anchor` in IEEE arithmetic -/

set_option linter.unusedSectionVars false
set_option linter.unusedSimpArgs false

namespace vm
open BinPar

namespace FltBM
variable {P : BinPar}

/-- Specification: the factor by which a box is scaled along an axis, as computed. -/
def factor (newSize oldSize : Vec (Flt P.fmt) 3) (i : Fin 3) : Flt P.fmt := newSize i / oldSize i

theorem scale_conj (f a b p : Vec (Flt P.fmt) 3) (hf : ∀ i, (f i).isFinite) (ha : ∀ i, (a i).isFinite) (hb : ∀ i, (b i).isFinite)
    (hp : ∀ i, (p i).isFinite) (r : Fin 3) :
    mmulPoint (mmul (mmul (translationMatrix a) (scalingMatrix f)) (translationMatrix b)) p r = f r * p r + (f r * b r + a r) := by
  rw [scaling_aff, conj_aff _ a b (fun c r => by split_ifs; exacts [hf c, Flt.zero_isFin]) ha hb, aff_point _ _ _ hp]
  have z : ∀ (v : Vec (Flt P.fmt) 3) (i : Fin 3), (∀ i, (v i).isFinite) → 0 * v i = 0 := fun v i hv => Flt.zero_mul_fin (hv i)
  fin_cases r <;> simp [z p _ hp, z b _ hb, Flt.zero_add', Flt.add_zero']

theorem u_eighth (P : BinPar) : P.u ≤ 1 / 8 := by
  have h := P.hp
  unfold BinPar.u
  calc (2 : ℚ) ^ (-(P.p : ℤ)) ≤ 2 ^ (-3 : ℤ) := zpow_le_zpow_right₀ (by norm_num) (by omega)
    _ = 1 / 8 := by norm_num

/-- The value of `f * p + (f * b + a)` is near the exact one. -/
theorem scale_err {f p b a : Flt P.fmt} (h : (f * p + (f * b + a)).isFinite) :
    |(f * p + (f * b + a)).val - (f.val * (p.val + b.val) + a.val)| ≤ 4 * P.u * (|f.val| * (|p.val| + |b.val|) + |a.val|) + 3 * P.eta := by
  obtain ⟨h1, h2⟩ := Flt.add_finite h
  obtain ⟨h3, h4⟩ := Flt.add_finite h2
  have u8 := u_eighth P
  have u0 := P.u_pos
  have e0 : 0 < P.eta := P.eta_pos
  have r1 := P.fl_err_u (f.val * p.val)
  rw [← Flt.mul_val h1] at r1
  have r2 := P.fl_err_u (f.val * b.val)
  rw [← Flt.mul_val h3] at r2
  have r3 := P.fl_add_err_u (Flt.rep_val (f * b)).1 (Flt.rep_val a).1
  rw [← Flt.add_val h2] at r3
  have r4 := P.fl_add_err_u (Flt.rep_val (f * p)).1 (Flt.rep_val (f * b + a)).1
  rw [← Flt.add_val h] at r4
  generalize (f * p + (f * b + a)).val = R at *
  generalize (f * b + a).val = T at *
  generalize (f * p).val = A at *
  generalize (f * b).val = B at *
  rw [abs_mul] at r1 r2
  set x := |f.val| * |p.val| with hx
  set y := |f.val| * |b.val| with hy
  set n := |a.val| with hn
  have hx0 : 0 ≤ x := by positivity
  have hy0 : 0 ≤ y := by positivity
  have hn0 : 0 ≤ n := abs_nonneg _
  have bA : |A| ≤ x + P.u * x + P.eta := by
    have := abs_sub_abs_le_abs_sub A (f.val * p.val)
    rw [abs_mul, ← hx] at this
    linarith
  have bB : |B| ≤ y + P.u * y + P.eta := by
    have := abs_sub_abs_le_abs_sub B (f.val * b.val)
    rw [abs_mul, ← hy] at this
    linarith
  have bBa : |B + a.val| ≤ |B| + n := abs_add_le _ _
  have bT : |T| ≤ |B + a.val| + P.u * |B + a.val| := by
    have := abs_sub_abs_le_abs_sub T (B + a.val)
    linarith
  have bAT : |A + T| ≤ |A| + |T| := abs_add_le _ _
  have tri : |R - (f.val * (p.val + b.val) + a.val)| ≤ |R - (A + T)| + |T - (B + a.val)| + |A - f.val * p.val| + |B - f.val * b.val| := by
    have e : R - (f.val * (p.val + b.val) + a.val) = (R - (A + T)) + (T - (B + a.val)) + (A - f.val * p.val) + (B - f.val * b.val) := by ring
    rw [e]
    refine (abs_add_le _ _).trans (add_le_add_left ((abs_add_le _ _).trans (add_le_add_left (abs_add_le _ _) _)) _)
  have bB' : |B| + n ≤ 9 / 8 * y + P.eta + n := by
    have := mul_le_mul_of_nonneg_right u8 hy0
    linarith
  have s1 : P.u * |B + a.val| ≤ P.u * (9 / 8 * y + P.eta + n) := mul_le_mul_of_nonneg_left (bBa.trans bB') u0.le
  have s2 : |T| ≤ 9 / 8 * (9 / 8 * y + P.eta + n) := by
    have h5 := bBa.trans bB'
    have h6 := mul_le_mul_of_nonneg_right u8 (abs_nonneg (B + a.val))
    linarith
  have s3 : |A| ≤ 9 / 8 * x + P.eta := by
    have := mul_le_mul_of_nonneg_right u8 hx0
    linarith
  have s4 : P.u * |A + T| ≤ P.u * (9 / 8 * x + P.eta + 9 / 8 * (9 / 8 * y + P.eta + n)) := mul_le_mul_of_nonneg_left (by linarith) u0.le
  have s5 : P.u * P.eta ≤ 1 / 8 * P.eta := mul_le_mul_of_nonneg_right u8 e0.le
  have ux : 0 ≤ P.u * x := by positivity
  have uy : 0 ≤ P.u * y := by positivity
  have un : 0 ≤ P.u * n := by positivity
  have e : 4 * P.u * (|f.val| * (|p.val| + |b.val|) + n) = 4 * (P.u * x) + 4 * (P.u * y) + 4 * (P.u * n) := by rw [hx, hy]; ring
  rw [e]
  linarith

/-- The computed factor is near the exact ratio of the sizes. -/
theorem factor_err {a b c d : Flt P.fmt} (h : ((a - b) / (c - d)).isFinite) (h1 : (a - b).isFinite) (h2 : (c - d).isFinite) (h0 : c.val ≠ d.val) :
    |((a - b) / (c - d)).val - (a.val - b.val) / (c.val - d.val)| ≤ 4 * P.u * |(a.val - b.val) / (c.val - d.val)| + P.eta := by
  have u8 := u_eighth P
  have u0 := P.u_pos
  have h0' : c.val - d.val ≠ 0 := sub_ne_zero.2 h0
  have r1 := P.fl_sub_err_u (Flt.rep_val a).1 (Flt.rep_val b).1
  rw [← Flt.sub_val h1] at r1
  have r2 := P.fl_sub_err_u (Flt.rep_val c).1 (Flt.rep_val d).1
  rw [← Flt.sub_val h2] at r2
  set N := a.val - b.val
  set D := c.val - d.val
  set n := (a - b).val with hn
  set e := (c - d).val with he
  have D0 : 0 < |D| := abs_pos.2 h0'
  have e0 : 7 / 8 * |D| ≤ |e| := by
    have h3 := abs_sub_abs_le_abs_sub D e
    rw [abs_sub_comm D e] at h3
    have := mul_le_mul_of_nonneg_right u8 (abs_nonneg D)
    linarith
  have ene : e ≠ 0 := fun hc => by rw [hc, abs_zero] at e0; linarith
  have r3 := P.fl_err_u (n / e)
  have hv : ((a - b) / (c - d)).val = P.fl (n / e) := by
    rw [fin_div_fin h1 h2 ene] at h ⊢
    exact Flt.round_val h
  rw [hv]
  have key : |n / e - N / D| * |e| ≤ 2 * P.u * |N| := by
    rw [← abs_mul, sub_mul, div_mul_cancel₀ _ ene]
    have e1 : n - N / D * e = (n - N) - N / D * (e - D) := by
      field_simp; ring
    rw [e1]
    have h3 := abs_sub (n - N) (N / D * (e - D))
    rw [abs_mul, abs_div] at h3
    have h4 : |N| / |D| * |e - D| ≤ |N| / |D| * (P.u * |D|) := mul_le_mul_of_nonneg_left r2 (by positivity)
    rw [show |N| / |D| * (P.u * |D|) = P.u * |N| by field_simp] at h4
    linarith
  have k2 : |n / e - N / D| ≤ 16 / 7 * P.u * |N / D| := by
    have h5 : |n / e - N / D| * (7 / 8 * |D|) ≤ 2 * P.u * |N| := (mul_le_mul_of_nonneg_left e0 (abs_nonneg _)).trans key
    rw [abs_div N D, mul_div_assoc', le_div_iff₀ D0]
    linarith
  have k3 : |n / e| ≤ |N / D| + |n / e - N / D| := by
    have := abs_sub_abs_le_abs_sub (n / e) (N / D)
    linarith
  have k4 : |P.fl (n / e) - N / D| ≤ |P.fl (n / e) - n / e| + |n / e - N / D| := abs_sub_le _ _ _
  have w0 : 0 ≤ P.u * |N / D| := by positivity
  have k5 : |n / e| ≤ 9 / 7 * |N / D| := by
    have := mul_le_mul_of_nonneg_right u8 (abs_nonneg (N / D))
    linarith
  have k6 := mul_le_mul_of_nonneg_left k5 u0.le
  linarith

/-- The two errors together. -/
theorem move_err {f p o n : Flt P.fmt} {φ : ℚ} (h : (f * p + (f * -o + n)).isFinite) (e2 : |f.val - φ| ≤ 4 * P.u * |φ| + P.eta) :
    |(f * p + (f * -o + n)).val - (n.val + φ * (p.val - o.val))| ≤
      10 * P.u * |φ| * (|p.val| + |o.val|) + 4 * P.u * |n.val| + (2 * (|p.val| + |o.val|) + 3) * P.eta := by
  have e1 := scale_err h
  rw [Flt.neg_val, abs_neg] at e1
  generalize (f * p + (f * -o + n)).val = R at *
  generalize f.val = f at *
  generalize p.val = x at *
  generalize o.val = o at *
  generalize n.val = n at *
  have u8 := u_eighth P
  have u0 := P.u_pos
  have n0 : 0 < P.eta := P.eta_pos
  have f1 : |f| ≤ 3 / 2 * |φ| + P.eta := by
    have h1 := abs_sub_abs_le_abs_sub f φ
    have h2 := mul_le_mul_of_nonneg_right u8 (abs_nonneg φ)
    linarith
  have tri : |R - (n + φ * (x - o))| ≤ |R - (f * (x + -o) + n)| + |f - φ| * (|x| + |o|) := by
    have e : R - (n + φ * (x - o)) = (R - (f * (x + -o) + n)) + (f - φ) * (x - o) := by ring
    rw [e]
    refine (abs_add_le _ _).trans (add_le_add_right ?_ _)
    rw [abs_mul]
    exact mul_le_mul_of_nonneg_left (abs_sub x o) (abs_nonneg _)
  set w := |x| + |o| with hw
  have w0 : 0 ≤ w := by positivity
  have t1 := mul_le_mul_of_nonneg_right e2 w0
  have t2 : P.u * (|f| * w) ≤ P.u * ((3 / 2 * |φ| + P.eta) * w) := mul_le_mul_of_nonneg_left (mul_le_mul_of_nonneg_right f1 w0) u0.le
  have t3 : P.u * (P.eta * w) ≤ 1 / 8 * (P.eta * w) := mul_le_mul_of_nonneg_right u8 (by positivity)
  have g1 : 0 ≤ P.eta * w := by positivity
  linarith

end FltBM
open FltBM Nan

variable {P : BinPar}

/-- `scale_bbox_matrix` and `scale_bbox_matrix_with_anchor` move every finite point by one product and two sums per coordinate, with the ratio of the sizes as
factor: the translation is folded into the matrix, and the other axes have no influence. -/
theorem C133_formula (old new : BBox (Flt P.fmt) 3) (size anchor p : Vec (Flt P.fmt) 3) (ho : ∀ i, (old.min i).isFinite) (hn : ∀ i, (new.min i).isFinite)
    (ha : ∀ i, (anchor i).isFinite) (hp : ∀ i, (p i).isFinite) :
    ((∀ i, (factor new.size old.size i).isFinite) → ∀ i, mmulPoint (scaleBBoxMatrix old new) p i =
      factor new.size old.size i * p i + (factor new.size old.size i * -old.min i + new.min i)) ∧
    ((∀ i, (factor size old.size i).isFinite) → ∀ i, mmulPoint (scaleBBoxMatrixWithAnchor old size anchor) p i =
      factor size old.size i * p i + (factor size old.size i * -anchor i + anchor i)) :=
  ⟨fun hf i => scale_conj (factor new.size old.size) new.min (-old.min) p hf hn (fun i => Flt.neg_fin (ho i)) hp i,
    fun hf i => scale_conj (factor size old.size) anchor (-anchor) p hf ha (fun i => Flt.neg_fin (ha i)) hp i⟩

/-- Every point is moved close to where the exact scaling from the old box to the new box moves it: at most ten rounding units of the scaled distances from the
origin, four of the new corner, and the effect of an underflow of the factor.  The same holds for the scaling to a new size relative to an anchor. -/
theorem C133_error (old new : BBox (Flt P.fmt) 3) (size anchor p : Vec (Flt P.fmt) 3) (ho : ∀ i, (old.min i).isFinite) (hn : ∀ i, (new.min i).isFinite)
    (ha : ∀ i, (anchor i).isFinite) (hp : ∀ i, (p i).isFinite) (hs : ∀ i, (old.size i).isFinite) (hne : ∀ i, (old.min i).val ≠ (old.max i).val) (i : Fin 3) :
    ((∀ i, (new.size i).isFinite) → (∀ i, (factor new.size old.size i).isFinite) → (mmulPoint (scaleBBoxMatrix old new) p i).isFinite →
      let φ := ((new.max i).val - (new.min i).val) / ((old.max i).val - (old.min i).val)
      |(mmulPoint (scaleBBoxMatrix old new) p i).val - ((new.min i).val + φ * ((p i).val - (old.min i).val))| ≤
        10 * P.u * |φ| * (|(p i).val| + |(old.min i).val|) + 4 * P.u * |(new.min i).val| + (2 * (|(p i).val| + |(old.min i).val|) + 3) * P.eta) ∧
    ((∀ i, (size i).isFinite) → (∀ i, (factor size old.size i).isFinite) → (mmulPoint (scaleBBoxMatrixWithAnchor old size anchor) p i).isFinite →
      let φ := (size i).val / ((old.max i).val - (old.min i).val)
      |(mmulPoint (scaleBBoxMatrixWithAnchor old size anchor) p i).val - ((anchor i).val + φ * ((p i).val - (anchor i).val))| ≤
        10 * P.u * |φ| * (|(p i).val| + |(anchor i).val|) + 4 * P.u * |(anchor i).val| + (2 * (|(p i).val| + |(anchor i).val|) + 3) * P.eta) := by
  refine ⟨fun h1 hf h => ?_, fun h1 hf h => ?_⟩
  · rw [(C133_formula old new size anchor p ho hn ha hp).1 hf] at h ⊢
    exact move_err h (factor_err (hf i) (h1 i) (hs i) (hne i).symm)
  · rw [(C133_formula old new size anchor p ho hn ha hp).2 hf] at h ⊢
    refine move_err h ?_
    have z : size i - 0 = size i := by
      rw [Flt.sub_eq (h1 i) Flt.zero_isFin]
      obtain ⟨k, e⟩ := Flt.eq_fin (h1 i)
      rw [show (0 : Flt P.fmt).val = 0 from rfl, sub_zero, Flt.round_of_rep k, ← e]
    have hfi := hf i
    have h3 : (size i - 0).isFinite := by rw [z]; exact h1 i
    have := factor_err (P := P) (a := size i) (b := 0) (c := old.max i) (d := old.min i) (by rw [z]; exact hfi) h3 (hs i) (hne i).symm
    rw [z, show (0 : Flt P.fmt).val = 0 from rfl, sub_zero] at this
    exact this

/-- The corner to which the scaling is relative is hit much better: the minimum of the old box is moved to the minimum of the new box up to three rounding units of
the scaled old minimum and the new one, whatever the rounding error of the factor, and exactly if the minimum of the old box is zero.  The same holds for
the anchor point. -/
theorem C133_corner (old new : BBox (Flt P.fmt) 3) (size anchor : Vec (Flt P.fmt) 3) (ho : ∀ i, (old.min i).isFinite) (hn : ∀ i, (new.min i).isFinite)
    (ha : ∀ i, (anchor i).isFinite) (i : Fin 3) :
    ((∀ i, (factor new.size old.size i).isFinite) →
      ((mmulPoint (scaleBBoxMatrix old new) old.min i).isFinite → |(mmulPoint (scaleBBoxMatrix old new) old.min i).val - (new.min i).val| ≤
        3 * P.u * (|(factor new.size old.size i * old.min i).val| + |(new.min i).val|)) ∧
      (old.min i = 0 → mmulPoint (scaleBBoxMatrix old new) old.min i = new.min i)) ∧
    ((∀ i, (factor size old.size i).isFinite) →
      ((mmulPoint (scaleBBoxMatrixWithAnchor old size anchor) anchor i).isFinite →
        |(mmulPoint (scaleBBoxMatrixWithAnchor old size anchor) anchor i).val - (anchor i).val| ≤
          3 * P.u * (|(factor size old.size i * anchor i).val| + |(anchor i).val|)) ∧
      (anchor i = 0 → mmulPoint (scaleBBoxMatrixWithAnchor old size anchor) anchor i = anchor i)) := by
  have key : ∀ f o n : Flt P.fmt, f.isFinite → ((f * o + (f * -o + n)).isFinite →
      |(f * o + (f * -o + n)).val - n.val| ≤ 3 * P.u * (|(f * o).val| + |n.val|)) ∧ (o = 0 → f * o + (f * -o + n) = n) := by
    intro f o n hf
    constructor
    · intro h
      obtain ⟨h1, h2⟩ := Flt.add_finite h
      obtain ⟨h3, h4⟩ := Flt.add_finite h2
      have e1 : (f * -o).val = -(f * o).val := by
        rw [Flt.mul_val h3, Flt.mul_val h1, Flt.neg_val, mul_neg, P.fl_neg]
      have r3 := P.fl_add_err_u (Flt.rep_val (f * -o)).1 (Flt.rep_val n).1
      rw [← Flt.add_val h2, e1] at r3
      have r4 := P.fl_add_err_u (Flt.rep_val (f * o)).1 (Flt.rep_val (f * -o + n)).1
      rw [← Flt.add_val h] at r4
      generalize (f * o + (f * -o + n)).val = R at *
      generalize (f * -o + n).val = T at *
      generalize (f * o).val = A at *
      generalize n.val = N at *
      have u8 := u_eighth P
      have u0 := P.u_pos
      have b1 : |-A + N| ≤ |A| + |N| := by have := abs_add_le (-A) N; rwa [abs_neg] at this
      have b2 : |A + T| ≤ |N| + |T - (-A + N)| := by
        have e : A + T = N + (T - (-A + N)) := by ring
        rw [e]; exact abs_add_le _ _
      have b3 : |R - N| ≤ |R - (A + T)| + |T - (-A + N)| := by
        have e : R - N = (R - (A + T)) + (T - (-A + N)) := by ring
        rw [e]; exact abs_add_le _ _
      have c1 := mul_le_mul_of_nonneg_left b1 u0.le
      have c2 := mul_le_mul_of_nonneg_left b2 u0.le
      have c3 := mul_le_mul_of_nonneg_left (r3.trans c1) u0.le
      have c4 := mul_le_mul_of_nonneg_right u8 (by positivity : 0 ≤ P.u * (|A| + |N|))
      have c5 : 0 ≤ P.u * |A| := by positivity
      have c6 : 0 ≤ P.u * |N| := by positivity
      linarith
    · rintro rfl
      have e : (-0 : Flt P.fmt) = 0 := Flt.key_inj (by show some (Ext.ofRat (-0)) = some (Ext.ofRat 0); rw [neg_zero])
      rw [e, Flt.mul_zero_fin hf, Flt.zero_add', Flt.zero_add']
  refine ⟨fun hf => ?_, fun hf => ?_⟩
  · rw [(C133_formula old new size anchor old.min ho hn ha ho).1 hf]
    exact key _ _ _ (hf i)
  · rw [(C133_formula old new size anchor anchor ho hn ha ha).2 hf]
    exact key _ _ _ (hf i)

/-- Scaling to a valid box keeps the order of points: points of the old box are moved between the images of its corners. -/
theorem C133_order (old new : BBox (Flt P.fmt) 3) (p q : Vec (Flt P.fmt) 3) (ho : ∀ i, (old.min i).isFinite ∧ (old.max i).isFinite)
    (hn : ∀ i, (new.min i).isFinite ∧ (new.max i).isFinite) (hp : ∀ i, (p i).isFinite) (hq : ∀ i, (q i).isFinite)
    (hob : ∀ i, (old.min i).val ≤ (old.max i).val) (hnb : ∀ i, (new.min i).val ≤ (new.max i).val)
    (hs : ∀ i, (old.size i).isFinite ∧ (new.size i).isFinite)
    (hf : ∀ i, (factor new.size old.size i).isFinite) (i : Fin 3) (h : (p i).val ≤ (q i).val)
    (h1 : (mmulPoint (scaleBBoxMatrix old new) p i).isFinite) (h2 : (mmulPoint (scaleBBoxMatrix old new) q i).isFinite) :
    (mmulPoint (scaleBBoxMatrix old new) p i).val ≤ (mmulPoint (scaleBBoxMatrix old new) q i).val := by
  have f0 : 0 ≤ (factor new.size old.size i).val := by
    have s1 : 0 ≤ (new.size i).val := by
      show 0 ≤ (new.max i - new.min i).val
      rw [Flt.sub_val (hs i).2]
      exact P.fl_nonneg (sub_nonneg.2 (hnb i))
    have s2 : 0 ≤ (old.size i).val := by
      show 0 ≤ (old.max i - old.min i).val
      rw [Flt.sub_val (hs i).1]
      exact P.fl_nonneg (sub_nonneg.2 (hob i))
    have hfi := hf i
    unfold factor at hfi ⊢
    by_cases hz : (old.size i).val = 0
    · exfalso
      obtain ⟨k1, e1⟩ := Flt.eq_fin (hs i).2
      obtain ⟨k2, e2⟩ := Flt.eq_fin (hs i).1
      rw [e1, e2] at hfi
      change Flt.isFinite (if (old.size i).val = 0 then Flt.infTimes (new.size i).val else Flt.round _ : Flt P.fmt) at hfi
      rw [if_pos hz] at hfi
      unfold Flt.infTimes at hfi
      split_ifs at hfi <;> exact hfi
    · rw [fin_div_fin (hs i).2 (hs i).1 hz] at hfi ⊢
      rw [Flt.round_val hfi]
      exact P.fl_nonneg (div_nonneg s1 s2)
  have F1 := (C133_formula old new 0 0 p (fun i => (ho i).1) (fun i => (hn i).1) (fun _ => Flt.zero_isFin) hp).1 hf i
  have F2 := (C133_formula old new 0 0 q (fun i => (ho i).1) (fun i => (hn i).1) (fun _ => Flt.zero_isFin) hq).1 hf i
  rw [F1] at h1 ⊢
  rw [F2] at h2 ⊢
  obtain ⟨a1, a2⟩ := Flt.add_finite h1
  obtain ⟨b1, b2⟩ := Flt.add_finite h2
  rw [Flt.add_val h1, Flt.add_val h2]
  refine P.fl_mono (add_le_add_left ?_ _)
  rw [Flt.mul_val a1, Flt.mul_val b1]
  exact P.fl_mono (mul_le_mul_of_nonneg_left h f0)

/-- Scaling a box to itself gives exactly the identity matrix. -/
theorem C133_same (b : BBox (Flt P.fmt) 3) (hb : ∀ i, (b.min i).isFinite) (hs : ∀ i, (b.size i).isFinite ∧ (b.size i).val ≠ 0) :
    scaleBBoxMatrix b b = matId 4 4 := by
  have f1 : (fun i => b.size i / b.size i) = (fun _ => 1 : Vec (Flt P.fmt) 3) := by
    funext i
    rw [fin_div_fin (hs i).1 (hs i).1 (hs i).2, div_self (hs i).2]
    exact Flt.round_of_rep P.fmt.rep_one
  unfold scaleBBoxMatrix
  simp only [f1]
  rw [scaling_aff, conj_aff _ _ (-b.min) (fun c r => by split_ifs; exacts [Flt.one_isFin, Flt.zero_isFin]) hb (fun i => Flt.neg_fin (hb i))]
  have z : ∀ i, 0 * (-b.min i) = 0 := fun i => Flt.zero_mul_fin (Flt.neg_fin (hb i))
  have cancel : ∀ i, -b.min i + b.min i = 0 := by
    intro i
    rw [Flt.add_eq (Flt.neg_fin (hb i)) (hb i), Flt.neg_val, neg_add_cancel]
    exact Flt.round_of_rep P.fmt.rep_zero
  funext c r
  rw [matId_apply]
  fin_cases c <;> fin_cases r <;> simp [aff, z, cancel, Flt.zero_add', Flt.add_zero', Flt.one_mul']

/-- Scaling by a dyadic factor, such as doubling or halving, moves points of a grid exactly: if the bounds of the old box and the point are multiples of 2^g, the bounds of the
new box are multiples of 2^(g+h), and the new size is a multiple of 2^h times the old one, then nothing is rounded. -/
theorem C133_grid (old new : BBox (Flt P.fmt) 3) (p : Vec (Flt P.fmt) 3) (g h B C K : ℤ) (k : Fin 3 → ℤ) (hg : P.Ok g) (hh : P.Ok h) (hgh : P.Ok (g + h))
    (hom : ∀ i, OnGrid g B (old.min i)) (hoM : ∀ i, OnGrid g B (old.max i)) (hnm : ∀ i, OnGrid (g + h) C (new.min i))
    (hnM : ∀ i, OnGrid (g + h) C (new.max i)) (hp : ∀ i, OnGrid g B (p i)) (hne : ∀ i, (old.min i).val ≠ (old.max i).val)
    (hk : ∀ i, (new.max i).val - (new.min i).val = k i * 2 ^ h * ((old.max i).val - (old.min i).val)) (hK : ∀ i, |k i| ≤ K)
    (h1 : 2 * C < 2 ^ P.p) (h2 : 2 * (K * B) + C < 2 ^ P.p) (h3 : K < 2 ^ P.p) (h4 : 2 * B < 2 ^ P.p) (i : Fin 3) :
    (mmulPoint (scaleBBoxMatrix old new) p i).isFinite ∧
    (mmulPoint (scaleBBoxMatrix old new) p i).val = (new.min i).val + k i * 2 ^ h * ((p i).val - (old.min i).val) := by
  obtain ⟨om, hom'⟩ := OnGrid.steps hom
  obtain ⟨oM, hoM'⟩ := OnGrid.steps hoM
  obtain ⟨nm, hnm'⟩ := OnGrid.steps hnm
  obtain ⟨nM, hnM'⟩ := OnGrid.steps hnM
  obtain ⟨q, hq⟩ := OnGrid.steps hp
  have hf : ∀ i, Gr h (factor new.size old.size i) (k i) K := by
    intro i
    have s1 : Gr (g + h) (new.size i) (nM i - nm i) (C + C) := (hnM' i).sub (hnm' i) hgh (by linarith)
    have s2 : Gr g (old.size i) (oM i - om i) (B + B) := (hoM' i).sub (hom' i) hg (by linarith)
    have v1 : (new.size i).val = (new.max i).val - (new.min i).val := by rw [s1.val, (hnM' i).val, (hnm' i).val]; push_cast; ring
    have v2 : (old.size i).val = (old.max i).val - (old.min i).val := by rw [s2.val, (hoM' i).val, (hom' i).val]; push_cast; ring
    have d0 : (old.max i).val - (old.min i).val ≠ 0 := sub_ne_zero.2 (hne i).symm
    unfold factor
    rw [fin_div_fin s1.fin s2.fin (by rw [v2]; exact d0)]
    refine Gr.round hh ?_ (hK i) h3
    rw [v1, v2, hk, mul_div_cancel_right₀ _ d0]
  rw [(C133_formula old new 0 0 p (fun i => (hom i).1) (fun i => (hnm i).1) (fun _ => Flt.zero_isFin) (fun i => (hp i).1)).1 (fun i => (hf i).fin)]
  have hgh' : P.Ok (h + g) := by rw [add_comm]; exact hgh
  have K0 : 0 ≤ K * B := mul_nonneg ((abs_nonneg _).trans (hK i)) ((abs_nonneg _).trans (hq i).le)
  have C0 : 0 ≤ C := (abs_nonneg _).trans (hnm' i).le
  have m1 := (hf i).mul (hq i) hgh' (by linarith)
  have m2 := (hf i).mul (hom' i).neg hgh' (by linarith)
  have a1 := m2.add ((hnm' i).cast (add_comm g h)) hgh' (by linarith)
  have a2 := m1.add a1 hgh' (by linarith)
  refine ⟨a2.fin, ?_⟩
  rw [a2.val, (hnm' i).val, (hq i).val, (hom' i).val, zpow_add2, zpow_add2]
  push_cast
  ring

/-- A flat box cannot be scaled, not even along the axes along which it is not flat: every coordinate of every point becomes NaN. -/
theorem C133_flat_fails (old new : BBox (Flt P.fmt) 3) (p : Vec (Flt P.fmt) 3) (j : Fin 3) (ho : (old.min j).isFinite) (hj : old.max j = old.min j) (hs : (new.size j).isFinite)
    (i : Fin 3) : mmulPoint (scaleBBoxMatrix old new) p i = .nan := by
  have f : 0 * factor new.size old.size j = Flt.nan := by
    have e : old.size j = 0 := by
      show old.max j - old.min j = 0
      rw [hj, Flt.sub_eq ho ho, sub_self]
      exact Flt.round_of_rep P.fmt.rep_zero
    unfold factor
    rw [e]
    obtain ⟨k, e⟩ := Flt.eq_fin hs
    rw [e]
    show (0 : Flt P.fmt) * (if (0 : ℚ) = 0 then Flt.infTimes (new.size j).val else Flt.round _) = _
    rw [if_pos rfl]
    unfold Flt.infTimes
    split_ifs
    · rfl
    · show Flt.infTimes 0 = _
      simp [Flt.infTimes]
    · show Flt.infTimes (-0) = _
      simp [Flt.infTimes]
  have n1 : ∀ x : Flt P.fmt, (Flt.nan : Flt P.fmt) * x = Flt.nan := fun x => by cases x <;> rfl
  have t3 : mmul (translationMatrix new.min) (scalingMatrix (factor new.size old.size)) j.castSucc 3 = Flt.nan := by
    rw [mmul4, scaling_aff, translation_aff]
    fin_cases j
    · show 0 + 0 * factor new.size old.size 0 + 0 * 0 + 0 * 0 + 1 * 0 = Flt.nan
      rw [show 0 * factor new.size old.size 0 = Flt.nan from f, add_nan, nan_add, nan_add, nan_add]
    · show 0 + 0 * 0 + 0 * factor new.size old.size 1 + 0 * 0 + 1 * 0 = Flt.nan
      rw [show 0 * factor new.size old.size 1 = Flt.nan from f, add_nan, nan_add, nan_add]
    · show 0 + 0 * 0 + 0 * 0 + 0 * factor new.size old.size 2 + 1 * 0 = Flt.nan
      rw [show 0 * factor new.size old.size 2 = Flt.nan from f, add_nan, nan_add]
  have m3 : ∀ c, scaleBBoxMatrix old new c 3 = Flt.nan := by
    intro c
    show mmul (mmul (translationMatrix new.min) (scalingMatrix (factor new.size old.size))) (translationMatrix (-old.min)) c 3 = _
    rw [mmul4]
    fin_cases j
    · rw [show mmul (translationMatrix new.min) (scalingMatrix (factor new.size old.size)) 0 3 = Flt.nan from t3, n1, add_nan, nan_add, nan_add, nan_add]
    · rw [show mmul (translationMatrix new.min) (scalingMatrix (factor new.size old.size)) 1 3 = Flt.nan from t3, n1, add_nan, nan_add, nan_add]
    · rw [show mmul (translationMatrix new.min) (scalingMatrix (factor new.size old.size)) 2 3 = Flt.nan from t3, n1, add_nan, nan_add]
  rw [mmulPoint4, m3 0, n1, add_nan, nan_add, nan_add, nan_add, div_nan]

/-- The maximum of the old box is not always moved to the maximum of the new box, not even if both minima are zero: in `double`, scaling the box from 0 to 49 to the unit box moves
its maximum to the number below 1. -/
theorem C133_max_fails : ∃ old new : BBox (Flt binary64.fmt) 3, (∀ i, (old.min i).val = 0 ∧ (old.max i).val = 49 ∧ (new.min i).val = 0 ∧ (new.max i).val = 1) ∧
    ∀ i, (mmulPoint (scaleBBoxMatrix old new) old.max i).isFinite ∧ (mmulPoint (scaleBBoxMatrix old new) old.max i).val = 1 - 1 / 2 ^ 53 := by
  have h49 : (Flt.round 49 : Flt binary64.fmt).isFinite ∧ (Flt.round 49 : Flt binary64.fmt).val = 49 :=
    is_round (by fl_num (-47) (49 * 2 ^ 47)) (lt_bound64 (by norm_num [abs_le]))
  set x : Flt binary64.fmt := Flt.round 49
  have h1 : (1 : Flt binary64.fmt).isFinite ∧ (1 : Flt binary64.fmt).val = 1 := ⟨trivial, rfl⟩
  have h0 : (0 : Flt binary64.fmt).isFinite ∧ (0 : Flt binary64.fmt).val = 0 := ⟨trivial, rfl⟩
  have hm0 : (-0 : Flt binary64.fmt).isFinite ∧ (-0 : Flt binary64.fmt).val = 0 := ⟨trivial, neg_zero⟩
  have s1 := is_sub (c := 49) h49 h0 (by fl_num (-47) (49 * 2 ^ 47)) (lt_bound64 (by norm_num [abs_le]))
  have s2 := is_sub (c := 1) h1 h0 (by fl_num (-52) (2 ^ 52)) (lt_bound64 (by norm_num [abs_le]))
  have d := is_div (c := 5882252574524729 / 2 ^ 58) s2 s1 (by norm_num) (by fl_num (-58) 5882252574524729) (lt_bound64 (by norm_num [abs_le]))
  have z := is_mul (c := 0) d hm0 (by rw [mul_zero]; exact binary64.fl_zero) (lt_bound64 (by norm_num))
  have z2 := is_add (c := 0) z h0 (by rw [add_zero]; exact binary64.fl_zero) (lt_bound64 (by norm_num))
  have m := is_mul (c := 1 - 1 / 2 ^ 53) d h49 (by fl_num (-53) (2 ^ 53 - 1)) (lt_bound64 (by norm_num [abs_le]))
  have r := is_add (c := 1 - 1 / 2 ^ 53) m z2 (by fl_num (-53) (2 ^ 53 - 1)) (lt_bound64 (by norm_num [abs_le]))
  refine ⟨⟨fun _ => 0, fun _ => x⟩, ⟨fun _ => 0, fun _ => 1⟩, fun i => ⟨rfl, h49.2, rfl, rfl⟩, fun i => ?_⟩
  rw [(C133_formula ⟨fun _ => 0, fun _ => x⟩ ⟨fun _ => 0, fun _ => 1⟩ 0 0 (fun _ => x) (fun _ => h0.1) (fun _ => h0.1) (fun _ => h0.1) (fun _ => h49.1)).1 (fun _ => d.1)]
  exact r

/-- The box from 1 to 3 can be scaled to the box from 1 to 2 and to the size 1 relative to 1, which moves the point 2 to 3/2: it meets the hypotheses of the theorems, and the box from
1 to 1 those of the last but one. -/
example : ∃ (old new flat : BBox (Flt binary64.fmt) 3) (size anchor p : Vec (Flt binary64.fmt) 3),
    (∀ i, (old.min i).isFinite ∧ (old.max i).isFinite ∧ (new.min i).isFinite ∧ (new.max i).isFinite ∧ (anchor i).isFinite ∧ (p i).isFinite ∧ (size i).isFinite) ∧
    (∀ i, (old.min i).val < (old.max i).val ∧ (new.min i).val ≤ (new.max i).val ∧ (p i).val ≤ (old.max i).val) ∧
    (∀ i, (old.size i).isFinite ∧ (old.size i).val ≠ 0 ∧ (new.size i).isFinite) ∧
    (∀ i, (factor new.size old.size i).isFinite ∧ (factor size old.size i).isFinite) ∧
    (∀ i, (mmulPoint (scaleBBoxMatrix old new) p i).isFinite ∧ (mmulPoint (scaleBBoxMatrix old new) p i).val = 3 / 2) ∧
    (∀ i, (mmulPoint (scaleBBoxMatrixWithAnchor old size anchor) p i).isFinite) ∧
    (∀ i, OnGrid 0 3 (old.min i) ∧ OnGrid 0 3 (old.max i) ∧ OnGrid (0 + -1) 4 (new.min i) ∧ OnGrid (0 + -1) 4 (new.max i) ∧ OnGrid 0 3 (p i) ∧
      (new.max i).val - (new.min i).val = (1 : ℤ) * 2 ^ (-1 : ℤ) * ((old.max i).val - (old.min i).val)) ∧
    (binary64.Ok 0 ∧ binary64.Ok (-1) ∧ binary64.Ok (0 + -1) ∧ (2 * 4 : ℤ) < 2 ^ binary64.p ∧ (2 * (1 * 3) + 4 : ℤ) < 2 ^ binary64.p) ∧
    flat.max 0 = flat.min 0 ∧ mmulPoint (scaleBBoxMatrix flat new) p 1 = .nan := by
  have h3 : (Flt.round 3 : Flt binary64.fmt).isFinite ∧ (Flt.round 3 : Flt binary64.fmt).val = 3 :=
    is_round (by fl_num (-51) (3 * 2 ^ 51)) (lt_bound64 (by norm_num [abs_le]))
  have h2 : (Flt.round 2 : Flt binary64.fmt).isFinite ∧ (Flt.round 2 : Flt binary64.fmt).val = 2 :=
    is_round (by fl_num (-51) (2 * 2 ^ 51)) (lt_bound64 (by norm_num [abs_le]))
  set x : Flt binary64.fmt := Flt.round 3
  set y : Flt binary64.fmt := Flt.round 2
  have h1 : (1 : Flt binary64.fmt).isFinite ∧ (1 : Flt binary64.fmt).val = 1 := ⟨trivial, rfl⟩
  have hm1 : (-1 : Flt binary64.fmt).isFinite ∧ (-1 : Flt binary64.fmt).val = -1 := ⟨trivial, rfl⟩
  have s1 := is_sub (c := 2) h3 h1 (by fl_num (-51) (2 * 2 ^ 51)) (lt_bound64 (by norm_num [abs_le]))
  have s2 := is_sub (c := 1) h2 h1 (by fl_num (-52) (2 ^ 52)) (lt_bound64 (by norm_num [abs_le]))
  have d := is_div (c := 1 / 2) s2 s1 (by norm_num) (by fl_num (-53) (2 ^ 52)) (lt_bound64 (by norm_num [abs_le]))
  have d' := is_div (c := 1 / 2) h1 s1 (by norm_num) (by fl_num (-53) (2 ^ 52)) (lt_bound64 (by norm_num [abs_le]))
  have m : ∀ {f : Flt binary64.fmt}, f.isFinite ∧ f.val = 1 / 2 → (f * y + (f * -1 + 1)).isFinite ∧ (f * y + (f * -1 + 1)).val = 3 / 2 := by
    intro f hf
    have m1 := is_mul (c := 1) hf h2 (by fl_num (-52) (2 ^ 52)) (lt_bound64 (by norm_num [abs_le]))
    have m2 := is_mul (c := -(1 / 2)) hf hm1 (by fl_num (-53) (-2 ^ 52)) (lt_bound64 (by norm_num [abs_le]))
    have m3 := is_add (c := 1 / 2) m2 h1 (by fl_num (-53) (2 ^ 52)) (lt_bound64 (by norm_num [abs_le]))
    exact is_add m1 m3 (by fl_num (-52) (3 * 2 ^ 51)) (lt_bound64 (by norm_num [abs_le]))
  refine ⟨⟨fun _ => 1, fun _ => x⟩, ⟨fun _ => 1, fun _ => y⟩, ⟨fun _ => 1, fun _ => 1⟩, fun _ => 1, fun _ => 1, fun _ => y,
    fun _ => ⟨h1.1, h3.1, h1.1, h2.1, h1.1, h2.1, h1.1⟩, fun _ => ⟨?_, ?_, ?_⟩, fun _ => ⟨s1.1, ?_, s2.1⟩, fun _ => ⟨d.1, d'.1⟩, fun i => ?_, fun i => ?_,
    fun _ => ⟨⟨h1.1, 1, ?_, by norm_num⟩, ⟨h3.1, 3, ?_, by norm_num⟩, ⟨h1.1, 2, ?_, by norm_num⟩, ⟨h2.1, 4, ?_, by norm_num⟩, ⟨h2.1, 2, ?_, by norm_num⟩, ?_⟩,
    ⟨by norm_num [BinPar.Ok, binary64], by norm_num [BinPar.Ok, binary64], by norm_num [BinPar.Ok, binary64], by norm_num [binary64], by norm_num [binary64]⟩, rfl,
    C133_flat_fails ⟨fun _ => 1, fun _ => 1⟩ ⟨fun _ => 1, fun _ => y⟩ _ 0 h1.1 rfl s2.1 1⟩
  · show (1 : Flt binary64.fmt).val < x.val
    rw [h3.2, h1.2]; norm_num
  · show (1 : Flt binary64.fmt).val ≤ y.val
    rw [h2.2, h1.2]; norm_num
  · show y.val ≤ x.val
    rw [h3.2, h2.2]; norm_num
  · show (x - 1).val ≠ 0
    rw [s1.2]; norm_num
  · rw [(C133_formula ⟨fun _ => 1, fun _ => x⟩ ⟨fun _ => 1, fun _ => y⟩ 0 0 (fun _ => y) (fun _ => h1.1) (fun _ => h1.1) (fun _ => Flt.zero_isFin) (fun _ => h2.1)).1 (fun _ => d.1)]
    exact m d
  · rw [(C133_formula ⟨fun _ => 1, fun _ => x⟩ ⟨fun _ => 1, fun _ => y⟩ (fun _ => 1) (fun _ => 1) (fun _ => y) (fun _ => h1.1) (fun _ => h1.1) (fun _ => h1.1) (fun _ => h2.1)).2
      (fun _ => d'.1)]
    exact (m d').1
  · rw [h1.2]; norm_num
  · rw [h3.2]; norm_num
  · rw [h1.2]; norm_num
  · rw [h2.2]; norm_num
  · rw [h2.2]; norm_num
  · show y.val - (1 : Flt binary64.fmt).val = (1 : ℤ) * 2 ^ (-1 : ℤ) * (x.val - (1 : Flt binary64.fmt).val)
    rw [h2.2, h3.2, h1.2]; norm_num

end vm
