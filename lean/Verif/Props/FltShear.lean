import Verif.Props.FltBoxMat

/-! # C134: `shear_bbox_matrix` in IEEE arithmetic -/

set_option linter.unusedSectionVars false
set_option linter.unusedSimpArgs false

namespace vm
open BinPar FltBM Nan

namespace FltBM
variable {P : BinPar}

/-- Linear part of a shear along axis `k` with slopes `κ`. -/
def shearLin (k : Fin 3) (κ : Vec (Flt P.fmt) 3) (c r : Fin 3) : Flt P.fmt := if c = r then 1 else if c = k then κ r else 0

theorem shear_aff0 (κ : Vec (Flt P.fmt) 3) : shearMatrix (κ 1) (κ 2) 0 0 0 0 = aff (shearLin 0 κ) 0 := by
  funext c r
  fin_cases c <;> fin_cases r <;> rfl

theorem shear_aff1 (κ : Vec (Flt P.fmt) 3) : shearMatrix 0 0 (κ 0) (κ 2) 0 0 = aff (shearLin 1 κ) 0 := by
  funext c r
  fin_cases c <;> fin_cases r <;> rfl

theorem shear_aff2 (κ : Vec (Flt P.fmt) 3) : shearMatrix 0 0 0 0 (κ 0) (κ 1) = aff (shearLin 2 κ) 0 := by
  funext c r
  fin_cases c <;> fin_cases r <;> rfl

theorem neg_zero_flt : (-0 : Flt P.fmt) = 0 := Flt.key_inj (by show some (Ext.ofRat (-0)) = some (Ext.ofRat 0); rw [neg_zero])

theorem neg_neg_flt (a : Flt P.fmt) : - -a = a := by
  cases a with
  | nan => rfl
  | ninf => rfl
  | pinf => rfl
  | fin q h => exact Flt.key_inj (by show some (Ext.ofRat (- -q)) = some (Ext.ofRat q); rw [neg_neg])

theorem one_ne_zero_flt : (1 : Flt P.fmt) ≠ 0 := fun h => by
  have : (1 : ℚ) = 0 := congrArg Flt.val h
  norm_num at this

theorem one_ne_neg_one_flt : (1 : Flt P.fmt) ≠ -1 := fun h => by
  have : (1 : ℚ) = -1 := congrArg Flt.val h
  norm_num at this

theorem neg_vec_inj (a b : Vec (Flt P.fmt) 3) : -a = -b ↔ a = b := by
  constructor
  · intro h
    funext i
    have := congrFun h i
    rw [← neg_neg_flt (a i), ← neg_neg_flt (b i)]
    exact congrArg _ this
  · rintro rfl; rfl

theorem neg_neg_vec (a : Vec (Flt P.fmt) 3) : - -a = a := by
  funext i
  exact neg_neg_flt (a i)

theorem vaxis_ne (i j : Fin 3) : (vaxis 3 i : Vec (Flt P.fmt) 3) ≠ -vaxis 3 j := by
  intro h
  have h2 := congrFun h i
  simp only [vaxis, if_true, Pi.neg_apply] at h2
  split_ifs at h2
  · exact one_ne_neg_one_flt h2
  · rw [neg_zero_flt] at h2; exact one_ne_zero_flt h2

theorem vaxis_inj (i j : Fin 3) : (vaxis 3 i : Vec (Flt P.fmt) 3) = vaxis 3 j ↔ i = j := by
  constructor
  · intro h
    have h2 := congrFun h i
    simp only [vaxis, if_true] at h2
    by_contra hc
    rw [if_neg hc] at h2
    exact one_ne_zero_flt h2
  · rintro rfl; rfl

theorem veq_dec (a b : Vec (Flt P.fmt) 3) : (veq a b = true) = (a = b) := propext (veq_flt a b)

/-- The slopes of the shear of a side, as computed: delta divided by the size of the box along the axis, negated for the sides at the minimum. -/
def slope (box : BBox (Flt P.fmt) 3) (delta : Vec (Flt P.fmt) 3) (k : Fin 3) (atMax : Bool) (r : Fin 3) : Flt P.fmt :=
  if atMax then delta r / box.size k else -(delta r / box.size k)

/-- Specification: the side of the box at its maximum or minimum along axis `k`, and the corner of the opposite side. -/
def side (P : BinPar) (k : Fin 3) (atMax : Bool) : Vec (Flt P.fmt) 3 := if atMax then vaxis 3 k else -vaxis 3 k

/-- The corner of the box on the side opposite to the sheared one. -/
def opposite (box : BBox (Flt P.fmt) 3) (atMax : Bool) : Vec (Flt P.fmt) 3 := if atMax then box.min else box.max

theorem shear_is (box : BBox (Flt P.fmt) 3) (delta : Vec (Flt P.fmt) 3) (k : Fin 3) (s : Bool) :
    shearBBoxMatrix box (side P k s) delta = some (mmul (mmul (translationMatrix (opposite box s)) (aff (shearLin k (slope box delta k s)) 0))
      (translationMatrix (-opposite box s))) := by
  have n0 : (![1, 0, 0] : Vec (Flt P.fmt) 3) = vaxis 3 0 := by funext i; fin_cases i <;> rfl
  have n1 : (![0, 1, 0] : Vec (Flt P.fmt) 3) = vaxis 3 1 := by funext i; fin_cases i <;> rfl
  have n2 : (![0, 0, 1] : Vec (Flt P.fmt) 3) = vaxis 3 2 := by funext i; fin_cases i <;> rfl
  have m0 : (![-1, 0, 0] : Vec (Flt P.fmt) 3) = -vaxis 3 0 := by
    funext i; fin_cases i; exacts [rfl, neg_zero_flt.symm, neg_zero_flt.symm]
  have m1 : (![0, -1, 0] : Vec (Flt P.fmt) 3) = -vaxis 3 1 := by
    funext i; fin_cases i; exacts [neg_zero_flt.symm, rfl, neg_zero_flt.symm]
  have m2 : (![0, 0, -1] : Vec (Flt P.fmt) 3) = -vaxis 3 2 := by
    funext i; fin_cases i; exacts [neg_zero_flt.symm, neg_zero_flt.symm, rfl]
  have hpos : ∀ j : Fin 3, (box.faces.foldl (fun acc f => if veq f.2 (-vaxis 3 j) then some (f.1 0) else acc) none
      : Option (Vec (Flt P.fmt) 3)) = some box.min := by
    intro j
    simp only [BBox.faces, List.foldl, n0, n1, n2, m0, m1, m2, veq_dec, neg_vec_inj, vaxis_inj, vaxis_ne, if_false]
    fin_cases j <;> simp
  have hneg : ∀ j : Fin 3, (box.faces.foldl (fun acc f => if veq f.2 (- -vaxis 3 j) then some (f.1 0) else acc) none
      : Option (Vec (Flt P.fmt) 3)) = some box.max := by
    intro j
    simp only [BBox.faces, List.foldl, n0, n1, n2, m0, m1, m2, veq_dec, neg_neg_vec, vaxis_inj, (vaxis_ne _ _).symm, if_false]
    fin_cases j <;> simp
  cases s with
  | true =>
    show shearBBoxMatrix box (vaxis 3 k) delta = some (mmul (mmul (translationMatrix box.min) (aff (shearLin k (slope box delta k true)) 0)) (translationMatrix (-box.min)))
    unfold shearBBoxMatrix
    simp only
    rw [hpos k]
    simp only [Option.map_some, veq_dec, neg_vec_inj, vaxis_inj, vaxis_ne, if_false]
    rcases (by omega : k = 0 ∨ k = 1 ∨ k = 2) with rfl | rfl | rfl
    · rw [← shear_aff0, if_pos rfl]; rfl
    · rw [← shear_aff1, if_neg (by decide), if_pos rfl]; rfl
    · rw [← shear_aff2, if_neg (by decide), if_neg (by decide), if_pos rfl]; rfl
  | false =>
    show shearBBoxMatrix box (-vaxis 3 k) delta = some (mmul (mmul (translationMatrix box.max) (aff (shearLin k (slope box delta k false)) 0)) (translationMatrix (-box.max)))
    unfold shearBBoxMatrix
    simp only
    rw [hneg k]
    simp only [Option.map_some, veq_dec, neg_vec_inj, vaxis_inj, (vaxis_ne _ _).symm, if_false]
    rcases (by omega : k = 0 ∨ k = 1 ∨ k = 2) with rfl | rfl | rfl
    · rw [← shear_aff0, if_pos rfl]; rfl
    · rw [← shear_aff1, if_neg (by decide), if_pos rfl]; rfl
    · rw [← shear_aff2, if_neg (by decide), if_neg (by decide), if_pos rfl]; rfl

/-- The sum of the coordinates weighted with a row of the shear matrix. -/
theorem shear_row (k : Fin 3) (κ p : Vec (Flt P.fmt) 3) (hp : ∀ i, (p i).isFinite) (r : Fin 3) :
    shearLin k κ 0 r * p 0 + shearLin k κ 1 r * p 1 + shearLin k κ 2 r * p 2 = if r = k then p k else κ r * p k + p r := by
  have z : ∀ i, 0 * p i = 0 := fun i => Flt.zero_mul_fin (hp i)
  fin_cases k <;> fin_cases r <;> simp [shearLin, z, Flt.zero_add', Flt.add_zero', Flt.one_mul'] <;> exact Flt.add_comm' _ _

theorem cancel_flt {a : Flt P.fmt} (h : a.isFinite) : -a + a = 0 := by
  rw [Flt.add_eq (Flt.neg_fin h) h, Flt.neg_val, neg_add_cancel]
  exact Flt.round_of_rep P.fmt.rep_zero

/-- The error of the sums of a sheared coordinate. -/
theorem shear_err {k x y v w : Flt P.fmt} (h : ((k * x + y) + ((k * -v + -w) + w)).isFinite) :
    |((k * x + y) + ((k * -v + -w) + w)).val - (y.val + k.val * (x.val - v.val))| ≤
      5 * P.u * (|k.val| * (|x.val| + |v.val|)) + 3 * P.u * |y.val| + 2 * P.u * |w.val| + 3 * P.eta := by
  obtain ⟨hS, hD⟩ := Flt.add_finite h
  obtain ⟨hA, hy⟩ := Flt.add_finite hS
  obtain ⟨hC, hw⟩ := Flt.add_finite hD
  obtain ⟨hB, -⟩ := Flt.add_finite hC
  have u8 := u_eighth P
  have u0 := P.u_pos
  have n0 : 0 < P.eta := P.eta_pos
  have r1 := P.fl_err_u (k.val * x.val)
  rw [← Flt.mul_val hA] at r1
  have r2 := P.fl_err_u (k.val * (-v).val)
  rw [← Flt.mul_val hB] at r2
  have r3 := P.fl_add_err_u (Flt.rep_val (k * x)).1 (Flt.rep_val y).1
  rw [← Flt.add_val hS] at r3
  have r4 := P.fl_add_err_u (Flt.rep_val (k * -v)).1 (Flt.rep_val (-w)).1
  rw [← Flt.add_val hC] at r4
  have r5 := P.fl_add_err_u (Flt.rep_val (k * -v + -w)).1 (Flt.rep_val w).1
  rw [← Flt.add_val hD] at r5
  have r6 := P.fl_add_err_u (Flt.rep_val (k * x + y)).1 (Flt.rep_val (k * -v + -w + w)).1
  rw [← Flt.add_val h] at r6
  rw [Flt.neg_val] at r2 r4
  generalize ((k * x + y) + ((k * -v + -w) + w)).val = R at *
  generalize (k * -v + -w + w).val = D at *
  generalize (k * -v + -w).val = C at *
  generalize (k * x + y).val = S at *
  generalize (k * x).val = A at *
  generalize (k * -v).val = B at *
  rw [mul_neg, abs_neg, sub_neg_eq_add, abs_mul] at r2
  rw [abs_mul] at r1
  generalize k.val = k at *
  generalize x.val = x at *
  generalize y.val = y at *
  generalize v.val = v at *
  generalize w.val = w at *
  set X := |k| * |x| with hX
  set Y := |k| * |v| with hY
  have X0 : 0 ≤ X := by positivity
  have Y0 : 0 ≤ Y := by positivity
  have uX : 0 ≤ P.u * X := by positivity
  have uY : 0 ≤ P.u * Y := by positivity
  have uy : 0 ≤ P.u * |y| := by positivity
  have uw : 0 ≤ P.u * |w| := by positivity
  have u8X := mul_le_mul_of_nonneg_right u8 X0
  have u8Y := mul_le_mul_of_nonneg_right u8 Y0
  have u8y := mul_le_mul_of_nonneg_right u8 (abs_nonneg y)
  have u8w := mul_le_mul_of_nonneg_right u8 (abs_nonneg w)
  have ue : P.u * P.eta ≤ 1 / 8 * P.eta := mul_le_mul_of_nonneg_right u8 n0.le
  have bA : |A| ≤ 9 / 8 * X + P.eta := by
    have := abs_sub_abs_le_abs_sub A (k * x)
    rw [abs_mul, ← hX] at this
    linarith
  have bB : |B| ≤ 9 / 8 * Y + P.eta := by
    have := abs_sub_abs_le_abs_sub B (-(k * v))
    rw [abs_neg, abs_mul, ← hY, sub_neg_eq_add] at this
    linarith
  have bAy : |A + y| ≤ 9 / 8 * X + P.eta + |y| := (abs_add_le _ _).trans (by linarith)
  have bBw : |B + -w| ≤ 9 / 8 * Y + P.eta + |w| := (abs_add_le _ _).trans (by rw [abs_neg]; linarith)
  have eS := mul_le_mul_of_nonneg_left bAy u0.le
  have eC := mul_le_mul_of_nonneg_left bBw u0.le
  have bS : |S| ≤ 9 / 8 * (9 / 8 * X + P.eta + |y|) := by
    have := abs_sub_abs_le_abs_sub S (A + y)
    have h8 := mul_le_mul_of_nonneg_right u8 (abs_nonneg (A + y))
    linarith
  have bCw : |C + w| ≤ 9 / 8 * (9 / 8 * Y + P.eta) + 1 / 8 * |w| := by
    have e : C + w = B + (C - (B + -w)) := by ring
    rw [e]
    refine (abs_add_le _ _).trans ?_
    have h8 := mul_le_mul_of_nonneg_right u8 (abs_nonneg (B + -w))
    linarith
  have eD := mul_le_mul_of_nonneg_left bCw u0.le
  have bD : |D| ≤ 9 / 8 * (9 / 8 * (9 / 8 * Y + P.eta) + 1 / 8 * |w|) := by
    have := abs_sub_abs_le_abs_sub D (C + w)
    have h8 := mul_le_mul_of_nonneg_right u8 (abs_nonneg (C + w))
    linarith
  have eR := mul_le_mul_of_nonneg_left ((abs_add_le S D).trans (add_le_add bS bD)) u0.le
  have tri : |R - (y + k * (x - v))| ≤ |R - (S + D)| + |D - (C + w)| + |S - (A + y)| + |C - (B + -w)| + |A - k * x| + |B + k * v| := by
    have e : R - (y + k * (x - v)) = (R - (S + D)) + (D - (C + w)) + (S - (A + y)) + (C - (B + -w)) + (A - k * x) + (B + k * v) := by ring
    rw [e]
    refine (abs_add_le _ _).trans (add_le_add_left ((abs_add_le _ _).trans (add_le_add_left ((abs_add_le _ _).trans (add_le_add_left ((abs_add_le _ _).trans
      (add_le_add_left (abs_add_le _ _) _)) _)) _)) _)
  have e : 5 * P.u * (|k| * (|x| + |v|)) = 5 * (P.u * X) + 5 * (P.u * Y) := by rw [hX, hY]; ring
  rw [e]
  linarith

/-- On the opposite side the errors of the slope cancel. -/
theorem shear_fix_err {k x y w : Flt P.fmt} (h : ((k * x + y) + ((k * -x + -w) + w)).isFinite) :
    |((k * x + y) + ((k * -x + -w) + w)).val - y.val| ≤ P.u * (4 * |(k * x).val| + 3 * |y.val| + 2 * |w.val|) := by
  obtain ⟨hS, hD⟩ := Flt.add_finite h
  obtain ⟨hA, hy⟩ := Flt.add_finite hS
  obtain ⟨hC, hw⟩ := Flt.add_finite hD
  obtain ⟨hB, -⟩ := Flt.add_finite hC
  have u8 := u_eighth P
  have u0 := P.u_pos
  have e1 : (k * -x).val = -(k * x).val := by
    rw [Flt.mul_val hB, Flt.mul_val hA, Flt.neg_val, mul_neg, P.fl_neg]
  have r3 := P.fl_add_err_u (Flt.rep_val (k * x)).1 (Flt.rep_val y).1
  rw [← Flt.add_val hS] at r3
  have r4 := P.fl_add_err_u (Flt.rep_val (k * -x)).1 (Flt.rep_val (-w)).1
  rw [← Flt.add_val hC] at r4
  have r5 := P.fl_add_err_u (Flt.rep_val (k * -x + -w)).1 (Flt.rep_val w).1
  rw [← Flt.add_val hD] at r5
  have r6 := P.fl_add_err_u (Flt.rep_val (k * x + y)).1 (Flt.rep_val (k * -x + -w + w)).1
  rw [← Flt.add_val h] at r6
  rw [Flt.neg_val, e1] at r4
  generalize ((k * x + y) + ((k * -x + -w) + w)).val = R at *
  generalize (k * -x + -w + w).val = D at *
  generalize (k * -x + -w).val = C at *
  generalize (k * x + y).val = S at *
  generalize (k * x).val = A at *
  generalize y.val = y at *
  generalize w.val = w at *
  have uA : 0 ≤ P.u * |A| := by positivity
  have uy : 0 ≤ P.u * |y| := by positivity
  have uw : 0 ≤ P.u * |w| := by positivity
  have eS := mul_le_mul_of_nonneg_left (abs_add_le A y) u0.le
  have eC := mul_le_mul_of_nonneg_left (abs_add_le (-A) (-w)) u0.le
  rw [abs_neg, abs_neg] at eC
  have bCw : |C + w| ≤ |A| + |C - (-A + -w)| := by
    have e : C + w = -A + (C - (-A + -w)) := by ring
    rw [e]
    refine (abs_add_le _ _).trans ?_
    rw [abs_neg]
  have bSD : |S + D| ≤ |y| + |S - (A + y)| + |C - (-A + -w)| + |D - (C + w)| := by
    have e : S + D = y + (S - (A + y)) + (C - (-A + -w)) + (D - (C + w)) := by ring
    rw [e]
    exact (abs_add_le _ _).trans (add_le_add_left ((abs_add_le _ _).trans (add_le_add_left (abs_add_le _ _) _)) _)
  have eD := mul_le_mul_of_nonneg_left bCw u0.le
  have eR := mul_le_mul_of_nonneg_left bSD u0.le
  have q1 := mul_le_mul_of_nonneg_right u8 (abs_nonneg (C - (-A + -w)))
  have q2 := mul_le_mul_of_nonneg_right u8 (abs_nonneg (S - (A + y)))
  have q3 := mul_le_mul_of_nonneg_right u8 (abs_nonneg (D - (C + w)))
  have tri : |R - y| ≤ |R - (S + D)| + |D - (C + w)| + |S - (A + y)| + |C - (-A + -w)| := by
    have e : R - y = (R - (S + D)) + (D - (C + w)) + (S - (A + y)) + (C - (-A + -w)) := by ring
    rw [e]
    exact (abs_add_le _ _).trans (add_le_add_left ((abs_add_le _ _).trans (add_le_add_left (abs_add_le _ _) _)) _)
  linarith

/-- The slope as a rational number: delta over size. -/
def slopeQ (box : BBox (Flt P.fmt) 3) (delta : Vec (Flt P.fmt) 3) (k : Fin 3) (s : Bool) (r : Fin 3) : ℚ :=
  if s then (delta r).val / ((box.max k).val - (box.min k).val) else -((delta r).val / ((box.max k).val - (box.min k).val))

theorem slope_err {box : BBox (Flt P.fmt) 3} {delta : Vec (Flt P.fmt) 3} {k : Fin 3} {s : Bool} {r : Fin 3} (h : (slope box delta k s r).isFinite)
    (hd : (delta r).isFinite) (hs : (box.size k).isFinite) (h0 : (box.min k).val ≠ (box.max k).val) :
    |(slope box delta k s r).val - slopeQ box delta k s r| ≤ 4 * P.u * |slopeQ box delta k s r| + P.eta := by
  have z : delta r - 0 = delta r := by
    rw [Flt.sub_eq hd Flt.zero_isFin]
    obtain ⟨k, e⟩ := Flt.eq_fin hd
    rw [show (0 : Flt P.fmt).val = 0 from rfl, sub_zero, Flt.round_of_rep k, ← e]
  have hq : (delta r / box.size k).isFinite := by
    cases s
    · exact Flt.neg_finite.1 h
    · exact h
  have := factor_err (P := P) (a := delta r) (b := 0) (c := box.max k) (d := box.min k) (by rw [z]; exact hq) (by rw [z]; exact hd) hs h0.symm
  rw [z, show (0 : Flt P.fmt).val = 0 from rfl, sub_zero] at this
  cases s with
  | true => exact this
  | false =>
    show |(-(delta r / box.size k)).val - -_| ≤ 4 * P.u * |-_| + P.eta
    rw [Flt.neg_val, abs_neg, ← neg_sub', abs_neg]
    exact this

end FltBM

variable {P : BinPar}

/-- `shear_bbox_matrix` for each of the six sides: the coordinate along the axis is returned unchanged, every other coordinate gets the slope times the coordinate along
the axis and a translation computed from a corner of the opposite side. -/
theorem C134_formula (box : BBox (Flt P.fmt) 3) (delta : Vec (Flt P.fmt) 3) (k : Fin 3) (s : Bool) (hv : ∀ i, (opposite box s i).isFinite)
    (hκ : ∀ r, (slope box delta k s r).isFinite) :
    ∃ m, shearBBoxMatrix box (side P k s) delta = some m ∧ ∀ p : Vec (Flt P.fmt) 3, (∀ i, (p i).isFinite) →
      mmulPoint m p k = p k ∧
      ∀ r, r ≠ k → mmulPoint m p r = (slope box delta k s r * p k + p r) +
        ((slope box delta k s r * -opposite box s k + -opposite box s r) + opposite box s r) := by
  refine ⟨_, shear_is box delta k s, fun p hp => ?_⟩
  have hA : ∀ c r, (shearLin k (slope box delta k s) c r).isFinite := by
    intro c r
    unfold shearLin
    split_ifs
    exacts [Flt.one_isFin, hκ r, Flt.zero_isFin]
  have hv' : ∀ i, ((-opposite box s) i).isFinite := fun i => Flt.neg_fin (hv i)
  rw [conj_aff _ _ (-opposite box s) hA hv hv']
  refine ⟨?_, fun r hr => ?_⟩
  · rw [aff_point _ _ _ hp, shear_row k _ _ hp, if_pos rfl, shear_row k _ (-opposite box s) hv', if_pos rfl]
    show p k + (-opposite box s k + opposite box s k) = p k
    rw [cancel_flt (hv k), Flt.add_zero']
  · rw [aff_point _ _ _ hp, shear_row k _ _ hp, if_neg hr, shear_row k _ (-opposite box s) hv', if_neg hr]
    rfl

/-- Every point is moved close to where the exact shear moves it. -/
theorem C134_error (box : BBox (Flt P.fmt) 3) (delta p : Vec (Flt P.fmt) 3) (k : Fin 3) (s : Bool) (hb : ∀ i, (opposite box s i).isFinite)
    (hs : (box.size k).isFinite) (hne : (box.min k).val ≠ (box.max k).val) (hd : ∀ i, (delta i).isFinite) (hκ : ∀ r, (slope box delta k s r).isFinite)
    (hp : ∀ i, (p i).isFinite) : ∃ m, shearBBoxMatrix box (side P k s) delta = some m ∧ ∀ r, r ≠ k → (mmulPoint m p r).isFinite →
      let κ := slopeQ box delta k s r
      |(mmulPoint m p r).val - ((p r).val + κ * ((p k).val - (opposite box s k).val))| ≤
        12 * P.u * |κ| * (|(p k).val| + |(opposite box s k).val|) + 3 * P.u * |(p r).val| + 2 * P.u * |(opposite box s r).val| +
          (2 * (|(p k).val| + |(opposite box s k).val|) + 3) * P.eta := by
  obtain ⟨m, hm, hm'⟩ := C134_formula box delta k s hb hκ
  refine ⟨m, hm, fun r hr h => ?_⟩
  intro κ
  have e2 := slope_err (hκ r) (hd r) hs hne
  change |(slope box delta k s r).val - κ| ≤ 4 * P.u * |κ| + P.eta at e2
  rw [(hm' p hp).2 r hr] at h ⊢
  have e1 := shear_err h
  generalize ((slope box delta k s r * p k + p r) + ((slope box delta k s r * -opposite box s k + -opposite box s r) + opposite box s r)).val = R at *
  generalize (slope box delta k s r).val = f at *
  generalize (p k).val = x at *
  generalize (p r).val = y at *
  generalize (opposite box s k).val = v at *
  generalize (opposite box s r).val = w at *
  have u8 := u_eighth P
  have u0 := P.u_pos
  have n0 : 0 < P.eta := P.eta_pos
  have f1 : |f| ≤ 3 / 2 * |κ| + P.eta := by
    have h1 := abs_sub_abs_le_abs_sub f κ
    have h2 := mul_le_mul_of_nonneg_right u8 (abs_nonneg κ)
    linarith
  have tri : |R - (y + κ * (x - v))| ≤ |R - (y + f * (x - v))| + |f - κ| * (|x| + |v|) := by
    have e : R - (y + κ * (x - v)) = (R - (y + f * (x - v))) + (f - κ) * (x - v) := by ring
    rw [e]
    refine (abs_add_le _ _).trans (add_le_add_right ?_ _)
    rw [abs_mul]
    exact mul_le_mul_of_nonneg_left (abs_sub x v) (abs_nonneg _)
  set W := |x| + |v| with hW
  have W0 : 0 ≤ W := by positivity
  have t1 := mul_le_mul_of_nonneg_right e2 W0
  have t2 : P.u * (|f| * W) ≤ P.u * ((3 / 2 * |κ| + P.eta) * W) := mul_le_mul_of_nonneg_left (mul_le_mul_of_nonneg_right f1 W0) u0.le
  have t3 : P.u * (P.eta * W) ≤ 1 / 8 * (P.eta * W) := mul_le_mul_of_nonneg_right u8 (by positivity)
  have g1 : 0 ≤ P.eta * W := by positivity
  have g2 : 0 ≤ P.u * (|κ| * W) := by positivity
  linarith

/-- Points of the side opposite to the sheared one stay where they are, up to a few rounding units whatever the error of the slope, and exactly if that side lies in a coordinate
plane. -/
theorem C134_fixed (box : BBox (Flt P.fmt) 3) (delta p : Vec (Flt P.fmt) 3) (k : Fin 3) (s : Bool) (hb : ∀ i, (opposite box s i).isFinite)
    (hκ : ∀ r, (slope box delta k s r).isFinite) (hp : ∀ i, (p i).isFinite) (hk : p k = opposite box s k) :
    ∃ m, shearBBoxMatrix box (side P k s) delta = some m ∧
      (∀ r, r ≠ k → (mmulPoint m p r).isFinite → |(mmulPoint m p r).val - (p r).val| ≤
        P.u * (4 * |(slope box delta k s r * p k).val| + 3 * |(p r).val| + 2 * |(opposite box s r).val|)) ∧
      (p k = 0 → mmulPoint m p = p) := by
  obtain ⟨m, hm, hm'⟩ := C134_formula box delta k s hb hκ
  refine ⟨m, hm, fun r hr h => ?_, fun h0 => ?_⟩
  · rw [(hm' p hp).2 r hr, ← hk] at h ⊢
    exact shear_fix_err h
  · funext r
    by_cases hr : r = k
    · rw [hr]; exact (hm' p hp).1
    · rw [(hm' p hp).2 r hr, ← hk, h0, neg_zero_flt, Flt.mul_zero_fin (hκ r), Flt.zero_add', Flt.zero_add', cancel_flt (hb r), Flt.add_zero']

/-- Shearing by a dyadic slope moves points of a grid exactly. -/
theorem C134_grid (box : BBox (Flt P.fmt) 3) (delta p : Vec (Flt P.fmt) 3) (k : Fin 3) (s : Bool) (g h B C K : ℤ) (n : Fin 3 → ℤ) (hg : P.Ok g) (hh : P.Ok h)
    (hgh : P.Ok (g + h)) (hm : OnGrid g B (box.min k)) (hM : OnGrid g B (box.max k)) (hpk : OnGrid g B (p k)) (hv : ∀ i, OnGrid (g + h) C (opposite box s i))
    (hp : ∀ i, OnGrid (g + h) C (p i)) (hne : (box.min k).val ≠ (box.max k).val) (hd : ∀ i, (delta i).isFinite)
    (hn : ∀ r, (delta r).val = n r * 2 ^ h * ((box.max k).val - (box.min k).val)) (hK : ∀ r, |n r| ≤ K) (h1 : 2 * B < 2 ^ P.p) (h2 : 2 * (K * B) + 3 * C < 2 ^ P.p)
    (h3 : K < 2 ^ P.p) :
    ∃ m, shearBBoxMatrix box (side P k s) delta = some m ∧ mmulPoint m p k = p k ∧ ∀ r, r ≠ k → (mmulPoint m p r).isFinite ∧
      (mmulPoint m p r).val = (p r).val + (if s then 1 else -1) * n r * 2 ^ h * ((p k).val - (opposite box s k).val) := by
  have s2 : (box.size k).isFinite ∧ (box.size k).val = (box.max k).val - (box.min k).val := by
    obtain ⟨f1, z1, v1, c1⟩ := hm
    obtain ⟨f2, z2, v2, c2⟩ := hM
    have g1 : Gr g (box.min k) z1 B := ⟨f1, v1, c1⟩
    have g2 : Gr g (box.max k) z2 B := ⟨f2, v2, c2⟩
    have := g2.sub g1 hg (by linarith)
    exact ⟨this.fin, by rw [v1, v2]; exact this.val.trans (by push_cast; ring)⟩
  have hvk : OnGrid g B (opposite box s k) := by cases s; exacts [hM, hm]
  have d0 : (box.max k).val - (box.min k).val ≠ 0 := sub_ne_zero.2 hne.symm
  have hq : ∀ r, Gr h (delta r / box.size k) (n r) K := by
    intro r
    rw [fin_div_fin (hd r) s2.1 (by rw [s2.2]; exact d0)]
    refine Gr.round hh ?_ (hK r) h3
    rw [s2.2, hn, mul_div_cancel_right₀ _ d0]
  have hκ : ∀ r, Gr h (slope box delta k s r) ((if s then 1 else -1) * n r) K := by
    intro r
    cases s with
    | true => rw [if_pos rfl, one_mul]; exact hq r
    | false =>
      have := (hq r).neg
      simp only [Bool.false_eq_true, if_false, neg_mul, one_mul]
      exact this
  obtain ⟨m, hm1, hm2⟩ := C134_formula box delta k s (fun i => (hv i).1) (fun r => (hκ r).fin)
  have hpf : ∀ i, (p i).isFinite := fun i => (hp i).1
  refine ⟨m, hm1, (hm2 p hpf).1, fun r hr => ?_⟩
  rw [(hm2 p hpf).2 r hr]
  obtain ⟨x, gx⟩ : ∃ x, Gr g (p k) x B := by obtain ⟨f, z, v, c⟩ := hpk; exact ⟨z, f, v, c⟩
  obtain ⟨v, gv⟩ : ∃ v, Gr g (opposite box s k) v B := by obtain ⟨f, z, v, c⟩ := hvk; exact ⟨z, f, v, c⟩
  obtain ⟨y, gy⟩ : ∃ y, Gr (h + g) (p r) y C := by obtain ⟨f, z, v, c⟩ := hp r; exact ⟨z, f, by rw [add_comm]; exact v, c⟩
  obtain ⟨w, gw⟩ : ∃ w, Gr (h + g) (opposite box s r) w C := by obtain ⟨f, z, v, c⟩ := hv r; exact ⟨z, f, by rw [add_comm]; exact v, c⟩
  have hgh' : P.Ok (h + g) := by rw [add_comm]; exact hgh
  have K0 : 0 ≤ K * B := mul_nonneg ((abs_nonneg _).trans (hK r)) ((abs_nonneg _).trans gx.le)
  have C0 : 0 ≤ C := (abs_nonneg _).trans gy.le
  have a1 := ((hκ r).mul gx hgh' (by linarith)).add gy hgh' (by linarith)
  have a2 := (((hκ r).mul gv.neg hgh' (by linarith)).add gw.neg hgh' (by linarith)).add gw hgh' (by linarith)
  have a3 := a1.add a2 hgh' (by linarith)
  refine ⟨a3.fin, ?_⟩
  rw [a3.val, gy.val, gx.val, gv.val, zpow_add2]
  push_cast
  ring

/-- A box that is flat along the axis cannot be sheared: all coordinates of all points become NaN, even if delta is zero and for the coordinate along the axis. -/
theorem C134_flat_fails (box : BBox (Flt P.fmt) 3) (delta p : Vec (Flt P.fmt) 3) (k : Fin 3) (s : Bool) (hb : (box.min k).isFinite) (hk : box.max k = box.min k)
    (hd : ∀ i, (delta i).isFinite) : ∃ m, shearBBoxMatrix box (side P k s) delta = some m ∧ ∀ i, mmulPoint m p i = .nan := by
  refine ⟨_, shear_is box delta k s, fun i => ?_⟩
  have n1 : ∀ x : Flt P.fmt, (Flt.nan : Flt P.fmt) * x = Flt.nan := fun x => by cases x <;> rfl
  have f : ∀ r, 0 * slope box delta k s r = Flt.nan := by
    intro r
    have e : box.size k = 0 := by
      show box.max k - box.min k = 0
      rw [hk, Flt.sub_eq hb hb, sub_self]
      exact Flt.round_of_rep P.fmt.rep_zero
    unfold slope
    rw [e]
    obtain ⟨q, e⟩ := Flt.eq_fin (hd r)
    have e' : delta r / 0 = Flt.infTimes (delta r).val := by
      rw [e]
      show (if (0 : ℚ) = 0 then Flt.infTimes (delta r).val else Flt.round _) = _
      rw [if_pos rfl]
      rfl
    rw [e']
    unfold Flt.infTimes
    split_ifs
    · rfl
    · show Flt.infTimes 0 = _
      simp [Flt.infTimes]
    · show Flt.infTimes (-0) = _
      simp [Flt.infTimes]
    · rfl
    · show Flt.infTimes (-0) = _
      simp [Flt.infTimes]
    · show Flt.infTimes 0 = _
      simp [Flt.infTimes]
  set v := opposite box s
  set κ := slope box delta k s
  have t3 : mmul (translationMatrix v) (aff (shearLin k κ) 0) k.castSucc 3 = Flt.nan := by
    rw [mmul4, translation_aff]
    rcases (by omega : k = 0 ∨ k = 1 ∨ k = 2) with rfl | rfl | rfl
    · show 0 + 0 * 1 + 0 * κ 1 + 0 * κ 2 + 1 * 0 = Flt.nan
      rw [f 1, add_nan, nan_add, nan_add]
    · show 0 + 0 * κ 0 + 0 * 1 + 0 * κ 2 + 1 * 0 = Flt.nan
      rw [f 0, add_nan, nan_add, nan_add, nan_add]
    · show 0 + 0 * κ 0 + 0 * κ 1 + 0 * 1 + 1 * 0 = Flt.nan
      rw [f 0, add_nan, nan_add, nan_add, nan_add]
  have m3 : ∀ c, mmul (mmul (translationMatrix v) (aff (shearLin k κ) 0)) (translationMatrix (-v)) c 3 = Flt.nan := by
    intro c
    rw [mmul4 (mmul (translationMatrix v) (aff (shearLin k κ) 0))]
    rcases (by omega : k = 0 ∨ k = 1 ∨ k = 2) with rfl | rfl | rfl
    · rw [show mmul (translationMatrix v) (aff (shearLin 0 κ) 0) 0 3 = Flt.nan from t3, n1, add_nan, nan_add, nan_add, nan_add]
    · rw [show mmul (translationMatrix v) (aff (shearLin 1 κ) 0) 1 3 = Flt.nan from t3, n1, add_nan, nan_add, nan_add]
    · rw [show mmul (translationMatrix v) (aff (shearLin 2 κ) 0) 2 3 = Flt.nan from t3, n1, add_nan, nan_add]
  rw [mmulPoint4, m3 0, n1, add_nan, nan_add, nan_add, nan_add, div_nan]

/-- The box from 1 to 3 sheared by (1, 1, 1) along the first axis: the hypotheses of the theorems hold, the point (2, 1, 3) moves by 1/2 in the other coordinates; a point of the
opposite side; a flat box. -/
example : ∃ (box flat : BBox (Flt binary64.fmt) 3) (delta p q : Vec (Flt binary64.fmt) 3),
    (∀ i, (opposite box true i).isFinite ∧ (delta i).isFinite ∧ (p i).isFinite ∧ (q i).isFinite ∧ (slope box delta 0 true i).isFinite) ∧
    ((box.size 0).isFinite ∧ (box.min 0).val ≠ (box.max 0).val) ∧ q 0 = opposite box true 0 ∧
    (OnGrid 0 3 (box.min 0) ∧ OnGrid 0 3 (box.max 0) ∧ OnGrid 0 3 (p 0) ∧ (∀ i, OnGrid (0 + -1) 6 (opposite box true i) ∧ OnGrid (0 + -1) 6 (p i))) ∧
    (∀ r, (delta r).val = (1 : ℤ) * 2 ^ (-1 : ℤ) * ((box.max 0).val - (box.min 0).val)) ∧
    (binary64.Ok 0 ∧ binary64.Ok (-1) ∧ binary64.Ok (0 + -1) ∧ (2 * (1 * 3) + 3 * 6 : ℤ) < 2 ^ binary64.p) ∧
    (∃ m, shearBBoxMatrix box (vaxis 3 0) delta = some m ∧ (mmulPoint m p 0).val = 2 ∧ (mmulPoint m p 1).val = 3 / 2 ∧ (mmulPoint m p 2).val = 7 / 2) ∧
    flat.max 0 = flat.min 0 ∧ (flat.min 0).isFinite := by
  have h3 : (Flt.round 3 : Flt binary64.fmt).isFinite ∧ (Flt.round 3 : Flt binary64.fmt).val = 3 :=
    is_round (by fl_num (-51) (3 * 2 ^ 51)) (lt_bound64 (by norm_num [abs_le]))
  have h2 : (Flt.round 2 : Flt binary64.fmt).isFinite ∧ (Flt.round 2 : Flt binary64.fmt).val = 2 :=
    is_round (by fl_num (-51) (2 * 2 ^ 51)) (lt_bound64 (by norm_num [abs_le]))
  set x : Flt binary64.fmt := Flt.round 3
  set y : Flt binary64.fmt := Flt.round 2
  have h1 : (1 : Flt binary64.fmt).isFinite ∧ (1 : Flt binary64.fmt).val = 1 := ⟨trivial, rfl⟩
  have s1 := is_sub (c := 2) h3 h1 (by fl_num (-51) (2 * 2 ^ 51)) (lt_bound64 (by norm_num [abs_le]))
  have d := is_div (c := 1 / 2) h1 s1 (by norm_num) (by fl_num (-53) (2 ^ 52)) (lt_bound64 (by norm_num [abs_le]))
  have g1 : OnGrid 0 3 (1 : Flt binary64.fmt) := ⟨h1.1, 1, by rw [h1.2]; norm_num, by norm_num⟩
  have g3 : OnGrid 0 3 x := ⟨h3.1, 3, by rw [h3.2]; norm_num, by norm_num⟩
  have g2 : OnGrid 0 3 y := ⟨h2.1, 2, by rw [h2.2]; norm_num, by norm_num⟩
  have e1 : OnGrid (0 + -1) 6 (1 : Flt binary64.fmt) := ⟨h1.1, 2, by rw [h1.2]; norm_num, by norm_num⟩
  have e3 : OnGrid (0 + -1) 6 x := ⟨h3.1, 6, by rw [h3.2]; norm_num, by norm_num⟩
  have e2 : OnGrid (0 + -1) 6 y := ⟨h2.1, 4, by rw [h2.2]; norm_num, by norm_num⟩
  have hp : ∀ i, OnGrid (0 + -1) 6 ((![y, 1, x] : Vec (Flt binary64.fmt) 3) i) := by intro i; fin_cases i; exacts [e2, e1, e3]
  have hn : ∀ r : Fin 3, ((fun _ => 1 : Vec (Flt binary64.fmt) 3) r).val = ((fun _ => 1 : Fin 3 → ℤ) r : ℚ) * 2 ^ (-1 : ℤ) * (x.val - (1 : Flt binary64.fmt).val) := by
    intro r
    show (1 : Flt binary64.fmt).val = _
    rw [h3.2, h1.2]; norm_num
  have ok : binary64.Ok 0 ∧ binary64.Ok (-1) ∧ binary64.Ok (0 + -1) ∧ (2 * (1 * 3) + 3 * 6 : ℤ) < 2 ^ binary64.p :=
    ⟨by norm_num [BinPar.Ok, binary64], by norm_num [BinPar.Ok, binary64], by norm_num [BinPar.Ok, binary64], by norm_num [binary64]⟩
  have ne : (1 : Flt binary64.fmt).val ≠ x.val := by rw [h3.2, h1.2]; norm_num
  obtain ⟨m, hm, hk, hr⟩ := C134_grid ⟨fun _ => 1, fun _ => x⟩ (fun _ => 1) ![y, 1, x] 0 true 0 (-1) 3 6 1 (fun _ => 1) ok.1 ok.2.1 ok.2.2.1 g1 g3 g2 (fun _ => e1) hp ne
    (fun _ => h1.1) hn (fun _ => by norm_num) (by norm_num [binary64]) ok.2.2.2 (by norm_num [binary64])
  refine ⟨⟨fun _ => 1, fun _ => x⟩, ⟨fun _ => 1, fun _ => 1⟩, fun _ => 1, ![y, 1, x], fun _ => 1, fun i => ⟨h1.1, h1.1, (hp i).1, h1.1, d.1⟩, ⟨s1.1, ne⟩, rfl,
    ⟨g1, g3, g2, fun i => ⟨e1, hp i⟩⟩, hn, ok, ⟨m, hm, ?_, ?_, ?_⟩, rfl, h1.1⟩
  · rw [hk]; exact h2.2
  · rw [(hr 1 (by decide)).2]
    show (1 : Flt binary64.fmt).val + _ * _ * _ * (y.val - (1 : Flt binary64.fmt).val) = _
    rw [h1.2, h2.2]; norm_num
  · rw [(hr 2 (by decide)).2]
    show x.val + _ * _ * _ * (y.val - (1 : Flt binary64.fmt).val) = _
    rw [h1.2, h2.2, h3.2]; norm_num

end vm
