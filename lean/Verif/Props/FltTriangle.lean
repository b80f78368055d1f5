import Verif.Lemmas.FltTriangle
import Verif.Props.Intersect
import Verif.Props.FltLupExact

/-!
C123: the intersection of rays and triangles with corners on a grid in IEEE arithmetic.
-/

set_option linter.unusedSectionVars false
set_option linter.unusedSimpArgs false

namespace vm
variable {P : BinPar}

namespace FltTri

theorem fin_val_inj {x y : Flt P.fmt} (hx : x.isFinite) (hy : y.isFinite) (h : x.val = y.val) : x = y := by
  obtain ⟨r1, e1⟩ := Flt.eq_fin hx
  obtain ⟨r2, e2⟩ := Flt.eq_fin hy
  rw [e1, e2]; simp only [h]

/-- The program with floating point numbers decides like the exact program and returns its result rounded once. -/
theorem rounded (P : BinPar) {g h M N : ℤ} {az : Flt P.fmt} (haz : az.isFinite) (haz0 : 0 ≤ az.val) {r : Ray (Flt P.fmt) 3}
    {p1 p2 p3 : Vec (Flt P.fmt) 3} (ho : GridPt g M r.origin) (hd : GridPt h N r.direction) (h1 : GridPt g M p1) (h2 : GridPt g M p2)
    (h3 : GridPt g M p3) (hg : P.Ok (3 * g)) (hh : P.Ok h) (hgh : P.Ok (2 * g + h)) (hs : P.qmin + P.p - 1 ≤ g - h ∧ g - h ≤ P.qmax)
    (hN : 24 * (N * M ^ 2) < 2 ^ (P.p - 1)) (hM : 48 * M ^ 3 < 2 ^ P.p) :
    (intersectRayTriangle az r p1 p2 p3 =
      (intersectRayTriangle az.val ⟨vval r.origin, vval r.direction⟩ (vval p1) (vval p2) (vval p3)).map Flt.round) ∧
    (∀ t, intersectRayTriangle az.val ⟨vval r.origin, vval r.direction⟩ (vval p1) (vval p2) (vval p3) = some t → |P.fl t| < P.bound) := by
  have hp := P.hp
  have hmin := P.hmin
  have hmax := P.hmax
  have hM0 : 0 ≤ M := by obtain ⟨_, z, _, hz⟩ := h1 0; exact (abs_nonneg z).trans hz
  have hN0 : 0 ≤ N := by obtain ⟨_, z, _, hz⟩ := hd 0; exact (abs_nonneg z).trans hz
  have hM2 : M ≤ M ^ 2 := by nlinarith
  have hM3 : M ^ 2 ≤ M ^ 3 := by nlinarith [mul_nonneg (mul_nonneg hM0 hM0) hM0, mul_le_mul_of_nonneg_left hM2 hM0]
  have hNM : N * M ≤ N * M ^ 2 := mul_le_mul_of_nonneg_left hM2 hN0
  have hNM0 : 0 ≤ N * M := mul_nonneg hN0 hM0
  have hpp : (2 : ℤ) * 2 ^ (P.p - 1) = 2 ^ P.p := by rw [← pow_succ', Nat.sub_add_cancel (by omega)]
  have g1 : P.Ok g := by obtain ⟨_, _⟩ := hg; constructor <;> omega
  have g2 : P.Ok (g + g) := by obtain ⟨_, _⟩ := hg; constructor <;> omega
  have g3 : P.Ok (h + g) := by obtain ⟨_, _⟩ := hh; obtain ⟨_, _⟩ := hgh; constructor <;> omega
  obtain ⟨G1, e1⟩ := sub_grid h2 h1 g1 (by linarith)
  obtain ⟨G2, e2⟩ := sub_grid h3 h1 g1 (by linarith)
  obtain ⟨G3, e3⟩ := sub_grid ho h1 g1 (by linarith)
  obtain ⟨Gp, ep⟩ := cross_grid hd G2 g3 (by linarith)
  obtain ⟨Gq, eq⟩ := cross_grid G3 G1 g2 (by nlinarith)
  have b1 : 3 * (2 * (N * (M + M)) * (M + M)) = 24 * (N * M ^ 2) := by ring
  have b2 : 3 * (2 * ((M + M) * (M + M)) * (M + M)) = 48 * M ^ 3 := by ring
  have b3 : 3 * (2 * ((M + M) * (M + M)) * N) = 24 * (N * M ^ 2) := by ring
  obtain ⟨Da, ea⟩ := dot_grid Gp G1 (by rw [show h + g + g = 2 * g + h by ring]; exact hgh) (by linarith)
  obtain ⟨Dv, ev⟩ := dot_grid Gp G3 (by rw [show h + g + g = 2 * g + h by ring]; exact hgh) (by linarith)
  obtain ⟨Du, eu⟩ := dot_grid Gq G2 (by rw [show g + g + g = 3 * g by ring]; exact hg) (by linarith)
  obtain ⟨Dw, ew⟩ := dot_grid Gq hd (by rw [show g + g + h = 2 * g + h by ring]; exact hgh) (by linarith)
  rw [ep, e1, e2] at ea
  rw [ep, e2, e3] at ev
  rw [eq, e1, e2, e3] at eu
  rw [eq, e1, e3] at ew
  rw [b1] at Da Dv
  rw [b2] at Du
  rw [b3] at Dw
  unfold intersectRayTriangle
  simp only [isZero_exact_nonneg _ haz0, decide_eq_true_eq, exact_lt]
  rw [isZero_flt Da.1 haz haz0]
  rw [← ea, ← ev, ← eu, ← ew]
  generalize dot (cross r.direction (p3 - p1)) (p2 - p1) = A at *
  generalize dot (cross r.direction (p3 - p1)) (r.origin - p1) = V at *
  generalize dot (cross (r.origin - p1) (p2 - p1)) (p3 - p1) = U at *
  generalize dot (cross (r.origin - p1) (p2 - p1)) r.direction = W at *
  by_cases hz : |A.val| ≤ az.val
  · simp [hz]
  have hne : A.val ≠ 0 := by
    intro h0; rw [h0, abs_zero] at hz; exact hz haz0
  obtain ⟨fA, za, vA, lA⟩ := Da
  obtain ⟨fV, zv, vV, lV⟩ := Dv
  obtain ⟨fU, zu, vU, lU⟩ := Du
  obtain ⟨fW, zw, vW, lW⟩ := Dw
  have hza : za ≠ 0 := by rintro rfl; rw [vA] at hne; simp at hne
  have lA' : |za| < 2 ^ (P.p - 1) := by linarith
  have hgp := BinPar.two_zpow_pos (h + g + g)
  have qV : V.val / A.val = (zv : ℚ) / za := by rw [vA, vV, mul_div_mul_right _ _ hgp.ne']
  have qW : W.val / A.val = (zw : ℚ) / za := by
    rw [vA, vW, show g + g + h = h + g + g by ring, mul_div_mul_right _ _ hgp.ne']
  have qU : U.val / A.val = (zu : ℚ) / za * 2 ^ (g - h) := by
    rw [vA, vU, show g + g + g = (g - h) + (h + g + g) by ring, BinPar.zpow_add2, ← mul_assoc, mul_div_mul_right _ _ hgp.ne']
    ring
  have one_pos : (1 : ℤ) ≤ 2 ^ (P.p - 1) := one_le_pow₀ (by norm_num)
  -- the three quotients
  have bU : |P.fl (U.val / A.val)| < P.bound := by
    rw [qU]; exact scaled_bound hza (lt_of_le_of_lt lU hM) hs.2
  have bI : ∀ n : ℤ, |n| < 2 ^ P.p → |P.fl ((n : ℚ) / za)| < P.bound := fun n hn => by
    have := scaled_bound (P := P) (n := n) (d := za) (k := 0) hza hn (by omega)
    rwa [zpow_zero, mul_one] at this
  have sI : ∀ n : ℤ, P.fl ((n : ℚ) / za) < 0 ↔ (n : ℚ) / za < 0 := fun n => by
    have := scaled_sign (P := P) (n := n) (d := za) (k := 0) hza lA' (by omega)
    rwa [zpow_zero, mul_one] at this
  have iU := is_div ⟨fU, rfl⟩ ⟨fA, rfl⟩ hne rfl bU
  have iV := is_div ⟨fV, rfl⟩ ⟨fA, rfl⟩ hne rfl (by rw [qV]; exact bI zv (by linarith))
  have iW := is_div ⟨fW, rfl⟩ ⟨fA, rfl⟩ hne rfl (by rw [qW]; exact bI zw (by linarith))
  have sU : P.fl (U.val / A.val) < 0 ↔ U.val / A.val < 0 := by rw [qU]; exact scaled_sign hza lA' hs.1
  have sV : P.fl (V.val / A.val) < 0 ↔ V.val / A.val < 0 := by rw [qV]; exact sI zv
  have sW : P.fl (W.val / A.val) < 0 ↔ W.val / A.val < 0 := by rw [qW]; exact sI zw
  rw [lt_zero_flt iU.1, lt_zero_flt iV.1, lt_zero_flt iW.1, iU.2, iV.2, iW.2]
  simp only [decide_eq_true_eq, sU, sV, sW, if_neg hz]
  have hA1 : 1 ≤ |(za : ℚ)| := by exact_mod_cast Int.one_le_abs hza
  split_ifs with c1 c2 c3 c4 c5 c6
  all_goals try (simp; done)
  all_goals
    rw [not_lt, qV] at c2
    rw [not_lt, qW] at c3
  all_goals
    have sm := sum_le_one (P := P) hza lA' c2 c3
    have hle : ∀ n : ℤ, |n| ≤ 24 * (N * M ^ 2) → (n : ℚ) / za ≤ ((2 ^ (P.p - 1) - 1 : ℤ) : ℚ) := fun n hn => by
      refine (le_abs_self _).trans ?_
      rw [abs_div]
      refine (div_le_self (abs_nonneg _) hA1).trans ?_
      have : |n| ≤ 2 ^ (P.p - 1) - 1 := by omega
      exact_mod_cast this
    have hrep : P.Rep ((2 ^ (P.p - 1) - 1 : ℤ) : ℚ) := P.rep_int (by rw [abs_of_nonneg (by omega)]; omega)
    have hrep2 : P.Rep ((2 ^ P.p - 2 : ℤ) : ℚ) := P.rep_int (by rw [abs_of_nonneg (by omega)]; omega)
    have l1 := P.fl_le_of_rep hrep (hle zv lV)
    have l2 := P.fl_le_of_rep hrep (hle zw lW)
    have n1 := P.fl_nonneg c2
    have n2 := P.fl_nonneg c3
    have l3 : P.fl ((zv : ℚ) / za) + P.fl ((zw : ℚ) / za) ≤ ((2 ^ P.p - 2 : ℤ) : ℚ) := by
      have : (((2 ^ (P.p - 1) - 1 : ℤ) : ℚ)) + ((2 ^ (P.p - 1) - 1 : ℤ) : ℚ) = ((2 ^ P.p - 2 : ℤ) : ℚ) := by
        rw [← hpp]; push_cast; ring
      linarith
    have l4 := P.fl_le_of_rep hrep2 l3
    have l5 := P.fl_nonneg (add_nonneg n1 n2)
    have l6 : (((2 ^ P.p - 2 : ℤ) : ℚ)) < P.bound := by
      have : (2 : ℚ) ^ (P.p : ℤ) ≤ P.bound := zpow_le_zpow_right₀ (by norm_num) (by omega)
      rw [zpow_natCast] at this
      push_cast; linarith
    have iS := is_add iV iW rfl (by rw [qV, qW, abs_of_nonneg l5]; exact lt_of_le_of_lt l4 l6)
  all_goals
    rw [Flt.lt_val Flt.one_finite iS.1, iS.2, decide_eq_true_eq] at c4
    have e1 : (1 : Flt P.fmt).val = 1 := Flt.one_val
    rw [e1, qV, qW] at c4
  · rw [← not_le, sm] at c4
    exact absurd (by rw [qV, qW]; exact not_le.1 c4) c5
  · rw [not_lt, sm] at c4
    exact absurd c6 (by rw [qV, qW, not_lt]; exact c4)
  · refine ⟨?_, fun t ht => ?_⟩
    · rw [Option.map_some, fin_div_fin fU fA hne]
    · rw [Option.some.injEq] at ht
      rw [← ht]; exact bU

end FltTri

open FltTri

/-- Let the corners of the triangle and the origin of the ray be multiples of `2 ^ g`, the direction a multiple of `2 ^ h`, with few
enough bits.  Then `intersect_ray_triangle` decides exactly: it returns a number if and only if the ray is not (nearly) parallel to the
triangle and meets it, and the number is the exact parameter of the point of intersection rounded once. -/
theorem C123_ray_triangle (P : BinPar) (g h M N : ℤ) (az : Flt P.fmt) (haz : az.isFinite) (haz0 : 0 ≤ az.val) (r : Ray (Flt P.fmt) 3)
    (p1 p2 p3 : Vec (Flt P.fmt) 3) (ho : GridPt g M r.origin) (hd : GridPt h N r.direction) (h1 : GridPt g M p1) (h2 : GridPt g M p2)
    (h3 : GridPt g M p3) (hg : P.Ok (3 * g)) (hh : P.Ok h) (hgh : P.Ok (2 * g + h)) (hs : P.qmin + P.p - 1 ≤ g - h ∧ g - h ≤ P.qmax)
    (hN : 24 * (N * M ^ 2) < 2 ^ (P.p - 1)) (hM : 48 * M ^ 3 < 2 ^ P.p) (x : Flt P.fmt) :
    intersectRayTriangle az r p1 p2 p3 = some x ↔
      az.val < |dot (vval r.direction) (cross (vval p2 - vval p1) (vval p3 - vval p1))| ∧ x.isFinite ∧
      ∃ t : ℚ, 0 ≤ t ∧ x.val = P.fl t ∧
        ∃ a b c : ℚ, 0 ≤ a ∧ 0 ≤ b ∧ 0 ≤ c ∧ a + b + c = 1 ∧
          vval r.origin + t • vval r.direction = a • vval p1 + b • vval p2 + c • vval p3 := by
  obtain ⟨hr, hb⟩ := rounded P haz haz0 ho hd h1 h2 h3 hg hh hgh hs hN hM
  have hx := fun t => C65_ray_triangle az.val haz0 ⟨vval r.origin, vval r.direction⟩ (vval p1) (vval p2) (vval p3) t
  rw [hr, Option.map_eq_some_iff]
  constructor
  · rintro ⟨t, ht, rfl⟩
    have := is_round (P := P) rfl (hb t ht)
    obtain ⟨k1, k2, k3⟩ := (hx t).1 ht
    exact ⟨k1, this.1, t, k2, this.2, k3⟩
  · rintro ⟨k1, k2, t, k3, k4, k5⟩
    have ht := (hx t).2 ⟨k1, k3, k5⟩
    refine ⟨t, ht, ?_⟩
    have := is_round (P := P) rfl (hb t ht)
    exact fin_val_inj this.1 k2 (this.2.trans k4.symm)

/-- No gaps: if a ray meets the edge shared by two triangles, then it hits both, at the same distance. -/
theorem C123_shared_edge (P : BinPar) (g h M N : ℤ) (az : Flt P.fmt) (haz : az.isFinite) (haz0 : 0 ≤ az.val) (r : Ray (Flt P.fmt) 3)
    (p1 p2 p3 p4 : Vec (Flt P.fmt) 3) (ho : GridPt g M r.origin) (hd : GridPt h N r.direction) (h1 : GridPt g M p1) (h2 : GridPt g M p2)
    (h3 : GridPt g M p3) (h4 : GridPt g M p4) (hg : P.Ok (3 * g)) (hh : P.Ok h) (hgh : P.Ok (2 * g + h))
    (hs : P.qmin + P.p - 1 ≤ g - h ∧ g - h ≤ P.qmax) (hN : 24 * (N * M ^ 2) < 2 ^ (P.p - 1)) (hM : 48 * M ^ 3 < 2 ^ P.p)
    (hv3 : az.val < |dot (vval r.direction) (cross (vval p2 - vval p1) (vval p3 - vval p1))|)
    (hv4 : az.val < |dot (vval r.direction) (cross (vval p4 - vval p1) (vval p2 - vval p1))|) (t a b : ℚ) (ht : 0 ≤ t) (ha : 0 ≤ a) (hb : 0 ≤ b)
    (hab : a + b = 1) (hit : vval r.origin + t • vval r.direction = a • vval p1 + b • vval p2) :
    ∃ x : Flt P.fmt, x.isFinite ∧ x.val = P.fl t ∧ intersectRayTriangle az r p1 p2 p3 = some x ∧ intersectRayTriangle az r p1 p4 p2 = some x := by
  obtain ⟨-, hb3⟩ := rounded P haz haz0 ho hd h1 h2 h3 hg hh hgh hs hN hM
  have hx := (C65_ray_triangle az.val haz0 ⟨vval r.origin, vval r.direction⟩ (vval p1) (vval p2) (vval p3) t).2
    ⟨hv3, ht, a, b, 0, ha, hb, le_rfl, by linarith, by rw [zero_smul, add_zero]; exact hit⟩
  have hf := is_round (P := P) rfl (hb3 t hx)
  refine ⟨Flt.round t, hf.1, hf.2, ?_, ?_⟩
  · exact (C123_ray_triangle P g h M N az haz haz0 r p1 p2 p3 ho hd h1 h2 h3 hg hh hgh hs hN hM _).2
      ⟨hv3, hf.1, t, ht, hf.2, a, b, 0, ha, hb, le_rfl, by linarith, by rw [zero_smul, add_zero]; exact hit⟩
  · exact (C123_ray_triangle P g h M N az haz haz0 r p1 p4 p2 ho hd h1 h4 h2 hg hh hgh hs hN hM _).2
      ⟨hv4, hf.1, t, ht, hf.2, a, 0, b, ha, le_rfl, hb, by linarith, by rw [zero_smul, add_zero]; exact hit⟩

/-- Large coordinates: a ray that points away from a triangle is reported to hit it, at distance NaN, if the square of the length of the
sides overflows. -/
theorem C123_overflow_fails (P : BinPar) (az B : Flt P.fmt) (haz : az.isFinite) (hB : B.isFinite) (hB0 : P.bound ≤ B.val ^ 2) :
    intersectRayTriangle az ⟨![0, 0, 1], ![0, 0, 1]⟩ ![0, 0, 0] ![B, 0, 0] ![0, B, 0] = some Flt.nan ∧
    ∀ t : ℚ, 0 ≤ t → ∀ a b c : ℚ, (![0, 0, 1] + t • ![0, 0, 1] : Vec ℚ 3) ≠ a • ![0, 0, 0] + b • ![B.val, 0, 0] + c • ![0, B.val, 0] := by
  refine ⟨?_, fun t ht a b c h => ?_⟩
  · have hBB : B * B = Flt.pinf := by
      rw [Flt.mul_eq hB hB]; exact round_over (by rw [← sq]; exact hB0)
    have e1 : (![B, 0, 0] - ![0, 0, 0] : Vec (Flt P.fmt) 3) = ![B, 0, 0] := by
      funext i; fin_cases i <;> simp [Flt.sub_zero']
    have e2 : (![0, B, 0] - ![0, 0, 0] : Vec (Flt P.fmt) 3) = ![0, B, 0] := by
      funext i; fin_cases i <;> simp [Flt.sub_zero']
    have e3 : (![0, 0, 1] - ![0, 0, 0] : Vec (Flt P.fmt) 3) = ![0, 0, 1] := by
      funext i; fin_cases i <;> simp [Flt.sub_zero']
    have n0 : -(0 : Flt P.fmt) = 0 := by
      refine fin_val_inj (Flt.neg_finite.2 Flt.zero_finite) Flt.zero_finite ?_
      rw [Flt.neg_val, Flt.zero_val, neg_zero]
    have z1 := Flt.zero_mul_fin hB
    have z2 := Flt.mul_zero_fin hB
    have z3 : (0 : Flt P.fmt) * 0 = 0 := Flt.zero_mul_fin Flt.zero_finite
    have z4 := Flt.mul_zero_fin (Flt.neg_finite.2 hB)
    have c1 : cross (![0, 0, 1] : Vec (Flt P.fmt) 3) ![0, B, 0] = ![-B, 0, 0] := by
      funext i; fin_cases i <;> simp [cross, Flt.sub_zero', Flt.zero_sub', Flt.one_mul', Flt.mul_one', z1, z2, z3]
    have c2 : cross (![0, 0, 1] : Vec (Flt P.fmt) 3) ![B, 0, 0] = ![0, B, 0] := by
      funext i; fin_cases i <;> simp [cross, Flt.sub_zero', Flt.zero_sub', Flt.one_mul', Flt.mul_one', z1, z2, z3]
    have nB : -B * B = Flt.ninf := by rw [Flt.neg_mul', hBB]; rfl
    have d3 : ∀ a b : Vec (Flt P.fmt) 3, dot a b = 0 + a 0 * b 0 + a 1 * b 1 + a 2 * b 2 := fun a b => rfl
    have d1 : dot (![-B, 0, 0] : Vec (Flt P.fmt) 3) ![B, 0, 0] = Flt.ninf := by
      simp [d3, Flt.zero_add', Flt.add_zero', nB, z3]
    have d2 : dot (![-B, 0, 0] : Vec (Flt P.fmt) 3) ![0, 0, 1] = 0 := by
      simp [d3, Flt.zero_add', Flt.add_zero', z3, z4, Flt.mul_one']
    have d4 : dot (![0, B, 0] : Vec (Flt P.fmt) 3) ![0, B, 0] = Flt.pinf := by
      simp [d3, Flt.zero_add', Flt.add_zero', hBB, z3]
    have d5 : dot (![0, B, 0] : Vec (Flt P.fmt) 3) ![0, 0, 1] = 0 := by
      simp [d3, Flt.zero_add', Flt.add_zero', z3, z2, Flt.mul_one']
    unfold intersectRayTriangle
    simp only [e1, e2, e3, c1, c2, d1, d2, d4, d5]
    have q1 : (Flt.pinf : Flt P.fmt) / Flt.ninf = Flt.nan := rfl
    have q2 : (0 : Flt P.fmt) / Flt.ninf = 0 := rfl
    have hz : isZero (Flt.ninf : Flt P.fmt) az = false := by
      obtain ⟨h1, h2⟩ := Flt.eq_fin haz
      rw [h2]; rfl
    rw [hz, q1, q2, Flt.zero_add']
    have l1 : Cmp.lt (Flt.nan : Flt P.fmt) 0 = false := rfl
    have l2 : Cmp.lt (0 : Flt P.fmt) 0 = false := by rw [lt_zero_flt Flt.zero_finite, Flt.zero_val]; simp
    have l3 : Cmp.lt (1 : Flt P.fmt) 0 = false := by rw [lt_zero_flt Flt.one_finite, Flt.one_val]; simp
    rw [l1, l2, l3]
    rfl
  · have := congrFun h 2
    simp at this
    linarith

theorem FltTri.third (a b c : ℤ) : (![a, b, c] : Fin 3 → ℤ) 2 = c := rfl

theorem FltTri.none_of_w {az : Flt P.fmt} {r : Ray (Flt P.fmt) 3} {p1 p2 p3 : Vec (Flt P.fmt) 3}
    (h : Cmp.lt (dot (cross (r.origin - p1) (p2 - p1)) r.direction / dot (cross r.direction (p3 - p1)) (p2 - p1)) 0 = true) :
    intersectRayTriangle az r p1 p2 p3 = none := by
  unfold intersectRayTriangle
  simp only [h, if_true]
  split_ifs <;> rfl

theorem FltTri.none_of_v {az : Flt P.fmt} {r : Ray (Flt P.fmt) 3} {p1 p2 p3 : Vec (Flt P.fmt) 3}
    (h : Cmp.lt (dot (cross r.direction (p3 - p1)) (r.origin - p1) / dot (cross r.direction (p3 - p1)) (p2 - p1)) 0 = true) :
    intersectRayTriangle az r p1 p2 p3 = none := by
  unfold intersectRayTriangle
  simp only [h, if_true]
  split_ifs <;> rfl

/-- A gap: with larger coordinates, integers below 300 in single precision, there is a ray that meets the edge shared by two triangles on
either side of it in the middle and hits neither of them, for every tolerance. -/
theorem C123_gap_fails : ∃ (r : Ray (Flt binary32.fmt) 3) (p1 p2 p3 p4 : Vec (Flt binary32.fmt) 3),
    GridPt 0 300 r.origin ∧ GridPt 0 300 r.direction ∧ GridPt 0 300 p1 ∧ GridPt 0 300 p2 ∧ GridPt 0 300 p3 ∧ GridPt 0 300 p4 ∧
    vval r.origin + (1 : ℚ) • vval r.direction = (1 / 2 : ℚ) • vval p1 + (1 / 2 : ℚ) • vval p2 ∧
    10 ^ 6 < dot (vval r.direction) (cross (vval p3 - vval p1) (vval p2 - vval p1)) ∧
    10 ^ 6 < dot (vval r.direction) (cross (vval p2 - vval p1) (vval p4 - vval p1)) ∧
    ∀ az : Flt binary32.fmt, intersectRayTriangle az r p1 p2 p3 = none ∧ intersectRayTriangle az r p1 p4 p2 = none := by
  have ho := gr_int (S := 3) (P := binary32) (![0, 0, 0] : Fin 3 → ℤ) (M := 300) (fun i => by fin_cases i <;> norm_num) (by norm_num [binary32])
  have hd := gr_int (S := 3) (P := binary32) (![-10, 259, 289] : Fin 3 → ℤ) (M := 300) (fun i => by fin_cases i <;> norm_num) (by norm_num [binary32])
  have h1 := gr_int (S := 3) (P := binary32) (![255, 235, 294] : Fin 3 → ℤ) (M := 300) (fun i => by fin_cases i <;> norm_num) (by norm_num [binary32])
  have h2 := gr_int (S := 3) (P := binary32) (![-275, 283, 284] : Fin 3 → ℤ) (M := 300) (fun i => by fin_cases i <;> norm_num) (by norm_num [binary32])
  have h3 := gr_int (S := 3) (P := binary32) (![220, 0, 0] : Fin 3 → ℤ) (M := 300) (fun i => by fin_cases i <;> norm_num) (by norm_num [binary32])
  have h4 := gr_int (S := 3) (P := binary32) (![-191, 0, 0] : Fin 3 → ℤ) (M := 300) (fun i => by fin_cases i <;> norm_num) (by norm_num [binary32])
  have val : ∀ {z : Fin 3 → ℤ}, (∀ i, Gr 0 (intVec binary32 z i) (z i) 300) → vval (intVec binary32 z) = fun i => (z i : ℚ) := fun {z} h =>
    funext fun i => (h i).val.trans (by rw [zpow_zero, mul_one])
  have fv : ∀ {z : Fin 3 → ℤ}, (∀ i, Gr 0 (intVec binary32 z i) (z i) 300) → ∀ (i : Fin 3) (c : ℤ) {q : ℚ}, z i = c → (c : ℚ) = q →
      (intVec binary32 z i).isFinite ∧ (intVec binary32 z i).val = q := fun {z} h i c q hc hq =>
    ⟨(h i).fin, (h i).val.trans (by rw [zpow_zero, mul_one, hc, hq])⟩
  have g := gap_values (fv ho 0 (0) rfl (by norm_num)) (fv ho 1 (0) rfl (by norm_num)) (fv ho 2 (0) rfl (by norm_num)) (fv hd 0 (-10) rfl (by norm_num)) (fv hd 1 (259) rfl (by norm_num))
    (fv hd 2 (289) rfl (by norm_num)) (fv h1 0 (255) rfl (by norm_num)) (fv h1 1 (235) rfl (by norm_num)) (fv h1 2 (294) rfl (by norm_num)) (fv h2 0 (-275) rfl (by norm_num))
    (fv h2 1 (283) rfl (by norm_num)) (fv h2 2 (284) rfl (by norm_num)) (fv h3 0 (220) rfl (by norm_num)) (fv h3 1 (0) rfl (by norm_num)) (fv h3 2 (0) rfl (by norm_num))
    (fv h4 0 (-191) rfl (by norm_num)) (fv h4 1 (0) rfl (by norm_num)) (fv h4 2 (0) rfl (by norm_num))
  refine ⟨⟨intVec binary32 ![0, 0, 0], intVec binary32 ![-10, 259, 289]⟩, intVec binary32 ![255, 235, 294], intVec binary32 ![-275, 283, 284],
    intVec binary32 ![220, 0, 0], intVec binary32 ![-191, 0, 0], fun i => (ho i).onGrid, fun i => (hd i).onGrid, fun i => (h1 i).onGrid,
    fun i => (h2 i).onGrid, fun i => (h3 i).onGrid, fun i => (h4 i).onGrid, ?_, ?_, ?_, fun az => ⟨none_of_w g.1, none_of_v g.2⟩⟩
  · simp only [val ho, val hd, val h1, val h2]
    funext i; fin_cases i <;> norm_num
  · simp only [val hd, val h1, val h2, val h3, dot3, cross_0, cross_1, cross_2, Pi.sub_apply, third]
    norm_num
  · simp only [val hd, val h1, val h2, val h4, dot3, cross_0, cross_1, cross_2, Pi.sub_apply, third]
    norm_num

/-- The hypotheses of `C123_ray_triangle` and `C123_shared_edge` are met by integers below 64 in single precision and below 2¹⁵ in double
precision. -/
example : (∀ g h : ℤ, g = 0 ∧ h = 0 → binary32.Ok (3 * g) ∧ binary32.Ok h ∧ binary32.Ok (2 * g + h) ∧
      (binary32.qmin + binary32.p - 1 ≤ g - h ∧ g - h ≤ binary32.qmax) ∧ 24 * ((64 : ℤ) * 64 ^ 2) < 2 ^ (binary32.p - 1) ∧
      48 * (64 : ℤ) ^ 3 < 2 ^ binary32.p) ∧
    (∀ g h : ℤ, g = 0 ∧ h = 0 → binary64.Ok (3 * g) ∧ binary64.Ok h ∧ binary64.Ok (2 * g + h) ∧
      (binary64.qmin + binary64.p - 1 ≤ g - h ∧ g - h ≤ binary64.qmax) ∧ 24 * ((2 ^ 15 : ℤ) * (2 ^ 15) ^ 2) < 2 ^ (binary64.p - 1) ∧
      48 * (2 ^ 15 : ℤ) ^ 3 < 2 ^ binary64.p) := by
  constructor <;> rintro _ _ ⟨rfl, rfl⟩ <;> norm_num [BinPar.Ok, binary32, binary64]

/-- A hit at a parameter that is not a number of the format. -/
example : ∃ x : Flt binary32.fmt, x.val = binary32.fl (3 / 7) ∧ intersectRayTriangle (0 : Flt binary32.fmt)
    ⟨intVec binary32 ![1, 1, 0], intVec binary32 ![0, 0, 7]⟩ (intVec binary32 ![0, 0, 3]) (intVec binary32 ![40, 0, 3])
    (intVec binary32 ![0, 40, 3]) = some x := by
  have ho := gr_int (S := 3) (P := binary32) (![1, 1, 0] : Fin 3 → ℤ) (M := 64) (fun i => by fin_cases i <;> norm_num) (by norm_num [binary32])
  have hd := gr_int (S := 3) (P := binary32) (![0, 0, 7] : Fin 3 → ℤ) (M := 64) (fun i => by fin_cases i <;> norm_num) (by norm_num [binary32])
  have h1 := gr_int (S := 3) (P := binary32) (![0, 0, 3] : Fin 3 → ℤ) (M := 64) (fun i => by fin_cases i <;> norm_num) (by norm_num [binary32])
  have h2 := gr_int (S := 3) (P := binary32) (![40, 0, 3] : Fin 3 → ℤ) (M := 64) (fun i => by fin_cases i <;> norm_num) (by norm_num [binary32])
  have h3 := gr_int (S := 3) (P := binary32) (![0, 40, 3] : Fin 3 → ℤ) (M := 64) (fun i => by fin_cases i <;> norm_num) (by norm_num [binary32])
  have val : ∀ {z : Fin 3 → ℤ}, (∀ i, Gr 0 (intVec binary32 z i) (z i) 64) → vval (intVec binary32 z) = fun i => (z i : ℚ) := fun {z} h =>
    funext fun i => (h i).val.trans (by rw [zpow_zero, mul_one])
  have hf := is_round (P := binary32) (q := 3 / 7) (c := 14380471 / 2 ^ 25) (by fl_num (-25) 14380471) (lt_bound32 (by norm_num [abs_le]))
  refine ⟨Flt.round (3 / 7), by rw [hf.2]; symm; fl_num (-25) 14380471, ?_⟩
  refine (C123_ray_triangle binary32 0 0 64 64 0 Flt.zero_finite le_rfl ⟨intVec _ _, intVec _ _⟩ _ _ _ (fun i => (ho i).onGrid) (fun i => (hd i).onGrid)
    (fun i => (h1 i).onGrid) (fun i => (h2 i).onGrid) (fun i => (h3 i).onGrid) (by norm_num [BinPar.Ok, binary32])
    (by norm_num [BinPar.Ok, binary32]) (by norm_num [BinPar.Ok, binary32]) (by norm_num [BinPar.Ok, binary32])
    (by norm_num [BinPar.Ok, binary32]) (by norm_num [BinPar.Ok, binary32]) _).2
    ⟨?_, hf.1, 3 / 7, by norm_num, Flt.round_val hf.1, 38 / 40, 1 / 40, 1 / 40, by norm_num, by norm_num, by norm_num, by norm_num, ?_⟩
  · simp only [val hd, val h1, val h2, val h3, dot3, cross_0, cross_1, cross_2, Pi.sub_apply, Flt.zero_val, third]
    norm_num
  · simp only [val ho, val hd, val h1, val h2, val h3]
    funext i; fin_cases i <;> norm_num

/-- The hypotheses of `C123_overflow_fails` are met in single precision by 2⁶⁴. -/
example : ∃ B : Flt binary32.fmt, B.isFinite ∧ binary32.bound ≤ B.val ^ 2 := by
  have h := is_round (P := binary32) (q := 2 ^ 64) (c := 2 ^ 64) (by fl_num 41 8388608) (lt_bound32 (by norm_num [abs_le]))
  refine ⟨_, h.1, ?_⟩
  rw [h.2]
  norm_num [BinPar.bound, binary32]

end vm
