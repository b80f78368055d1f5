import Verif.Model.TorusG
import Verif.Props.FltQuartic
import Verif.Props.Torus

/-!
C158: `intersect_ray_torus` in IEEE arithmetic.
-/

set_option linter.unusedSectionVars false
set_option linter.unusedSimpArgs false

namespace vm
variable {P : BinPar}

open FltQua

namespace FltTorus

theorem nan_lt : Cmp.lt (0 : Flt P.fmt) Flt.nan = false := rfl

theorem isNan_nan {x : Flt P.fmt} : isNan x = true ↔ x = Flt.nan := by
  rw [isNan_iff_key]
  constructor
  · intro h
    rcases x with _ | _ | _ | ⟨q, hq⟩
    · rfl
    all_goals exact absurd h (by intro h; cases h)
  · rintro rfl; rfl

theorem dot3_flt (a b : Vec (Flt P.fmt) 3) : dot a b = 0 + a 0 * b 0 + a 1 * b 1 + a 2 * b 2 := by
  unfold dot
  simp [Fin.foldl_succ]

/-- A number of the format that is a small integer. -/
def IsInt (x : Flt P.fmt) (n : ℤ) : Prop := x.isFinite ∧ x.val = n

theorem int_lt {n : ℤ} (h : |n| ≤ 2 ^ P.p) : |(n : ℚ)| < P.bound := by
  have h1 : |(n : ℚ)| ≤ (2 : ℚ) ^ P.p := by exact_mod_cast h
  refine lt_of_le_of_lt h1 ?_
  unfold BinPar.bound
  rw [← zpow_natCast]
  exact zpow_lt_zpow_right₀ (by norm_num) (by have := P.hmax; omega)

variable {x y : Flt P.fmt} {m n : ℤ}

theorem IsInt.mul (hx : IsInt x m) (hy : IsInt y n) (h : |m * n| ≤ 2 ^ P.p) : IsInt (x * y) (m * n) := by
  have := is_mul (P := P) hx hy (c := ((m * n : ℤ) : ℚ)) (by have := P.fl_rep (P.rep_int h); push_cast at this ⊢; exact this) (int_lt h)
  exact this

theorem IsInt.add (hx : IsInt x m) (hy : IsInt y n) (h : |m + n| ≤ 2 ^ P.p) : IsInt (x + y) (m + n) := by
  have := is_add (P := P) hx hy (c := ((m + n : ℤ) : ℚ)) (by have := P.fl_rep (P.rep_int h); push_cast at this ⊢; exact this) (int_lt h)
  exact this

theorem IsInt.sub (hx : IsInt x m) (hy : IsInt y n) (h : |m - n| ≤ 2 ^ P.p) : IsInt (x - y) (m - n) := by
  have := is_sub (P := P) hx hy (c := ((m - n : ℤ) : ℚ)) (by have := P.fl_rep (P.rep_int h); push_cast at this ⊢; exact this) (int_lt h)
  exact this

theorem abs_sq_le {a N : ℤ} (h : |a| ≤ N) {b : ℤ} (h' : |b| ≤ N) : |a * b| ≤ N * N := by
  rw [abs_mul]
  exact mul_le_mul h h' (abs_nonneg _) ((abs_nonneg _).trans h)

theorem mul_bd {a b A B : ℤ} (h : |a| ≤ A) (h' : |b| ≤ B) : |a * b| ≤ A * B := by
  rw [abs_mul]
  exact mul_le_mul h h' (abs_nonneg _) ((abs_nonneg _).trans h)

theorem add_bd {a b A B : ℤ} (h : |a| ≤ A) (h' : |b| ≤ B) : |a + b| ≤ A + B := (abs_add_le a b).trans (add_le_add h h')

theorem sub_bd {a b A B : ℤ} (h : |a| ≤ A) (h' : |b| ≤ B) : |a - b| ≤ A + B := (abs_sub a b).trans (add_le_add h h')

/-- A bounded integer, with the bound in units of a number that the format can multiply. -/
structure Bd (x : Flt P.fmt) (n : ℤ) (k : ℤ) : Prop where
  int : IsInt x n
  le : |n| ≤ k

theorem Bd.mul {k l : ℤ} (hx : Bd x m k) (hy : Bd y n l) (h : k * l ≤ 2 ^ P.p) : Bd (x * y) (m * n) (k * l) :=
  ⟨hx.int.mul hy.int ((mul_bd hx.le hy.le).trans h), mul_bd hx.le hy.le⟩

theorem Bd.add {k l : ℤ} (hx : Bd x m k) (hy : Bd y n l) (h : k + l ≤ 2 ^ P.p) : Bd (x + y) (m + n) (k + l) :=
  ⟨hx.int.add hy.int ((add_bd hx.le hy.le).trans h), add_bd hx.le hy.le⟩

theorem Bd.sub {k l : ℤ} (hx : Bd x m k) (hy : Bd y n l) (h : k + l ≤ 2 ^ P.p) : Bd (x - y) (m - n) (k + l) :=
  ⟨hx.int.sub hy.int ((sub_bd hx.le hy.le).trans h), sub_bd hx.le hy.le⟩

theorem Bd.nat (P : BinPar) {n : ℕ} [n.AtLeastTwo] (h : (n : ℤ) ≤ 2 ^ P.p) : Bd (OfNat.ofNat n : Flt P.fmt) (n : ℤ) n := by
  have h' : |(n : ℤ)| ≤ 2 ^ P.p := by rw [abs_of_nonneg (by positivity)]; exact h
  refine ⟨?_, by rw [abs_of_nonneg (by positivity)]⟩
  have := is_round (P := P) (q := (n : ℚ)) (c := ((n : ℤ) : ℚ)) (by have := P.fl_rep (P.rep_int h'); push_cast at this ⊢; exact this) (int_lt h')
  exact this

theorem Bd.mono {k l : ℤ} (h : Bd x m k) (hl : k ≤ l) : Bd x m l := ⟨h.int, h.le.trans hl⟩

theorem Bd.val {k : ℤ} (h : Bd x m k) : (x.val : ℝ) = m := by rw [h.int.2]; norm_num

theorem dot_bd {a b : Vec (Flt P.fmt) 3} {i j : Fin 3 → ℤ} {N : ℤ} (ha : ∀ k, Bd (a k) (i k) N) (hb : ∀ k, Bd (b k) (j k) N) (h : 3 * (N * N) ≤ 2 ^ P.p) :
    Bd (dot a b) (i 0 * j 0 + i 1 * j 1 + i 2 * j 2) (N * N + N * N + N * N) := by
  have N0 := (abs_nonneg _).trans (ha 0).le
  have NN := mul_nonneg N0 N0
  rw [dot3_flt, Flt.zero_add']
  exact (((ha 0).mul (hb 0) (by linarith)).add ((ha 1).mul (hb 1) (by linarith)) (by linarith)).add ((ha 2).mul (hb 2) (by linarith)) (by linarith)

end FltTorus

open FltTorus

/-- Whatever the ray and the torus (also for infinities and NaN) and whatever the library functions compute: the result is NaN or a positive number, it is
one of the reported solutions of the quartic equation, and there is no smaller positive one. -/
theorem C158_select (P : BinPar) (s cb ac cs : Flt P.fmt → Flt P.fmt) (r : Ray (Flt P.fmt) 3) (position : Vec (Flt P.fmt) 3) (M m : Flt P.fmt) :
    let q := torusQuarticG r position M m
    let S := solveQuarticF P s cb ac cs q.1 q.2.1 q.2.2.1 q.2.2.2.1 q.2.2.2.2 P.almostZero
    let t := intersectRayTorusF P s cb ac cs r position M m
    (t = Flt.nan ∨ Cmp.lt 0 t = true ∧ ∃ i : Fin 4, i.val < S.1 ∧ S.2 i = t) ∧
    ∀ i : Fin 4, i.val < S.1 → Cmp.lt 0 (S.2 i) = true → Cmp.le t (S.2 i) = true := by
  intro q S t
  have sh := C157_shape s cb ac cs P.pi Flt.nan P.literal q.1 q.2.1 q.2.2.1 q.2.2.2.1 q.2.2.2.2 P.almostZero
  change S.1 ≤ 4 ∧ ∀ i : Fin 4, S.1 ≤ i.val → S.2 i = Flt.nan at sh
  have e0 : t = torusSelectG Flt.nan S := rfl
  unfold torusSelectG at e0
  by_cases h : S.1 = 0
  · rw [if_pos h] at e0
    exact ⟨Or.inl e0, fun i hi => absurd hi (by omega)⟩
  rw [if_neg h] at e0
  simp only at e0
  obtain ⟨pick, hpick⟩ : ∃ pick : Fin 4 → Flt P.fmt, pick = fun i => if i.val < S.1 then (if Cmp.lt 0 (S.2 i) then S.2 i else Flt.nan) else S.2 i := ⟨_, rfl⟩
  have pk : ∀ i, pick i = Flt.nan ∨ Cmp.lt 0 (pick i) = true ∧ i.val < S.1 ∧ S.2 i = pick i := by
    intro i
    rw [hpick]
    simp only
    split_ifs with h1 h2
    · exact Or.inr ⟨h2, h1, rfl⟩
    · exact Or.inl rfl
    · exact Or.inl (sh.2 i (not_lt.1 h1))
  have e1 : t = safeMin (pick 0) [pick 1, pick 2, pick 3] := by rw [hpick]; exact e0
  obtain ⟨m1, -, m3⟩ := C03_safeMin (pick 0) [pick 1, pick 2, pick 3]
  rw [← e1] at m1 m3
  have all : ∀ x, x ∈ pick 0 :: [pick 1, pick 2, pick 3] ↔ ∃ i, x = pick i := by
    intro x
    simp only [List.mem_cons, List.not_mem_nil, or_false]
    constructor
    · rintro (h | h | h | h)
      exacts [⟨0, h⟩, ⟨1, h⟩, ⟨2, h⟩, ⟨3, h⟩]
    · rintro ⟨i, h⟩
      fin_cases i
      exacts [Or.inl h, Or.inr (Or.inl h), Or.inr (Or.inr (Or.inl h)), Or.inr (Or.inr (Or.inr h))]
  constructor
  · obtain ⟨i, hi⟩ := (all t).1 m1
    rcases pk i with h1 | ⟨h1, h2, h3⟩
    · exact Or.inl (hi.trans h1)
    · exact Or.inr ⟨by rw [hi]; exact h1, i, h2, by rw [hi]; exact h3⟩
  · intro i hi hp
    have hv : pick i = S.2 i := by
      rw [hpick]
      simp only
      rw [if_pos hi, if_pos hp]
    refine m3 (S.2 i) ((all _).2 ⟨i, hv.symm⟩) ?_
    rw [← Bool.not_eq_true, isNan_nan]
    intro hc
    rw [hc, nan_lt] at hp
    cases hp

/-- On a grid the equation is the right one: if the coordinates relative to the centre, the direction and the radii are integers of absolute value at most `N`, and
`70 N⁴` is at most `2^p`, then the coefficients are computed without error, and so their solutions are exactly the distances along the ray to
the points of the torus. -/
theorem C158_exact (P : BinPar) (r : Ray (Flt P.fmt) 3) (position : Vec (Flt P.fmt) 3) (M m : Flt P.fmt) (o c d : Fin 3 → ℤ) (M' m' N : ℤ)
    (ho : ∀ k, (r.origin k).isFinite ∧ (r.origin k).val = o k) (hc : ∀ k, (position k).isFinite ∧ (position k).val = c k)
    (hd : ∀ k, (r.direction k).isFinite ∧ (r.direction k).val = d k) (hM : M.isFinite ∧ M.val = M') (hm : m.isFinite ∧ m.val = m')
    (oN : ∀ k, |o k - c k| ≤ N) (dN : ∀ k, |d k| ≤ N) (MN : |M'| ≤ N) (mN : |m'| ≤ N) (hN : 70 * N ^ 4 ≤ 2 ^ P.p) (hmM : |m'| ≤ M') :
    let q := torusQuarticG r position M m
    (q.1.isFinite ∧ q.2.1.isFinite ∧ q.2.2.1.isFinite ∧ q.2.2.2.1.isFinite ∧ q.2.2.2.2.isFinite) ∧
    ∀ t : ℝ, q.1.val * t ^ 4 + q.2.1.val * t ^ 3 + q.2.2.1.val * t ^ 2 + q.2.2.2.1.val * t + q.2.2.2.2.val = 0 ↔
      OnTorus (M' : ℝ) m' (fun k => (c k : ℝ)) fun k => o k + t * d k := by
  intro q
  have N0 := (abs_nonneg _).trans MN
  obtain ⟨W, hW⟩ : ∃ W, W = N * N := ⟨_, rfl⟩
  have h70 : 70 * (W * W) ≤ 2 ^ P.p := by rw [hW]; calc _ = 70 * N ^ 4 := by ring
    _ ≤ _ := hN
  have NW : N ≤ W := by rw [hW]; rcases N0.eq_or_lt with h | h <;> nlinarith
  have W0 : 0 ≤ W := N0.trans NW
  have WW : W ≤ W * W := by rcases W0.eq_or_lt with h | h <;> nlinarith
  have p8 : (8 : ℤ) ≤ 2 ^ P.p := by
    calc (8 : ℤ) = 2 ^ 3 := by norm_num
      _ ≤ 2 ^ P.p := pow_le_pow_right₀ (by norm_num) P.hp
  have four : Bd (4 : Flt P.fmt) 4 4 := Bd.nat P (n := 4) (by push_cast; linarith)
  have two : Bd (2 : Flt P.fmt) 2 2 := Bd.nat P (n := 2) (by push_cast; linarith)
  have eight : Bd (8 : Flt P.fmt) 8 8 := Bd.nat P (n := 8) (by push_cast; linarith)
  have or : ∀ k, Bd (r.origin k - position k) (o k - c k) N := fun k => ⟨IsInt.sub (ho k) (hc k) ((oN k).trans (by linarith)), oN k⟩
  have di : ∀ k, Bd (r.direction k) (d k) N := fun k => ⟨hd k, dN k⟩
  have bM : Bd M M' N := ⟨hM, MN⟩
  have bm : Bd m m' N := ⟨hm, mN⟩
  have n3 : 3 * (N * N) ≤ 2 ^ P.p := by rw [← hW]; linarith
  have dd := (dot_bd di di n3).mono (l := 3 * W) (by rw [hW]; linarith)
  have od := (dot_bd or di n3).mono (l := 3 * W) (by rw [hW]; linarith)
  have oo := (dot_bd or or n3).mono (l := 3 * W) (by rw [hW]; linarith)
  have MM := (bM.mul bM (by rw [← hW]; linarith)).mono (l := W) hW.ge
  have mm := (bm.mul bm (by rw [← hW]; linarith)).mono (l := W) hW.ge
  have oz := ((or 2).mul (or 2) (by rw [← hW]; linarith)).mono (l := W) hW.ge
  have omM := ((oo.sub mm (by linarith)).sub MM (by linarith)).mono (l := 5 * W) (by linarith)
  have a1 := dd.mul dd (by linarith)
  have b1 := (four.mul dd (by linarith)).mul od (by linarith)
  have N2 : W * N ≤ W * W := mul_le_mul_of_nonneg_left NW W0
  have z2 := (((MM.mul (di 2) (by linarith)).mul (di 2) (by rw [mul_assoc, ← hW]; linarith))).mono (l := W * W) (by rw [mul_assoc, ← hW])
  have c1 := ((two.mul dd (by linarith)).mul omM (by linarith)).add (four.mul ((od.mul od (by linarith)).add z2 (by linarith)) (by linarith)) (by linarith)
  have W8 : 8 * W * N = 8 * (W * N) := by ring
  have z3 := (((eight.mul MM (by linarith)).mul (or 2) (by linarith)).mul (di 2) (by rw [mul_assoc, ← hW]; linarith)).mono (l := 8 * (W * W))
    (by rw [mul_assoc, ← hW]; linarith)
  have d1 := ((four.mul od (by linarith)).mul omM (by linarith)).add z3 (by linarith)
  have e1 := (omM.mul omM (by linarith)).sub ((four.mul MM (by linarith)).mul (mm.sub oz (by linarith)) (by linarith)) (by linarith)
  refine ⟨⟨a1.int.1, b1.int.1, c1.int.1, d1.int.1, e1.int.1⟩, fun t => ?_⟩
  have va : (q.1.val : ℝ) = _ := a1.val
  have vb : (q.2.1.val : ℝ) = _ := b1.val
  have vc : (q.2.2.1.val : ℝ) = _ := c1.val
  have vd : (q.2.2.2.1.val : ℝ) = _ := d1.val
  have ve : (q.2.2.2.2.val : ℝ) = _ := e1.val
  rw [va, vb, vc, vd, ve, onTorus_iff _ _ (by exact_mod_cast hmM)]
  push_cast
  constructor
  · intro h
    linear_combination h
  · intro h
    linear_combination h

namespace FltTorus

/-- The value of a number of type `float`. -/
def V (x : Flt binary32.fmt) (c : ℚ) : Prop := x.isFinite ∧ x.val = c

variable {x y : Flt binary32.fmt} {a b : ℚ}

theorem ex32 (c : ℚ) (n : ℤ) (e : ℕ) (h : c = n * 2 ^ e) (hn : |n| < 2 ^ 24) : binary32.fl c = c :=
  binary32.fl_rep ⟨n, e, by rw [h, zpow_natCast], by exact_mod_cast hn, by
    show (-149 : ℤ) ≤ e
    omega⟩

theorem V.mul (hx : V x a) (hy : V y b) (c : ℚ) (n : ℤ) (e : ℕ) (hc : a * b = c := by norm_num) (h : c = n * 2 ^ e := by norm_num)
    (hn : |n| < 2 ^ 24 := by norm_num) (hb : |c| ≤ 2 ^ 100 := by norm_num) : V (x * y) c :=
  is_mul (P := binary32) hx hy (by rw [hc]; exact ex32 c n e h hn) (lt_bound32 hb)

theorem V.add (hx : V x a) (hy : V y b) (c : ℚ) (n : ℤ) (e : ℕ) (hc : a + b = c := by norm_num) (h : c = n * 2 ^ e := by norm_num)
    (hn : |n| < 2 ^ 24 := by norm_num) (hb : |c| ≤ 2 ^ 100 := by norm_num) : V (x + y) c :=
  is_add (P := binary32) hx hy (by rw [hc]; exact ex32 c n e h hn) (lt_bound32 hb)

theorem V.sub (hx : V x a) (hy : V y b) (c : ℚ) (n : ℤ) (e : ℕ) (hc : a - b = c := by norm_num) (h : c = n * 2 ^ e := by norm_num)
    (hn : |n| < 2 ^ 24 := by norm_num) (hb : |c| ≤ 2 ^ 100 := by norm_num) : V (x - y) c :=
  is_sub (P := binary32) hx hy (by rw [hc]; exact ex32 c n e h hn) (lt_bound32 hb)

theorem V.lit (q : ℚ) (hq : q ∈ [(3 / 8 : ℚ), 1 / 8, 1 / 2, 3 / 256, 1 / 16, 1 / 4]) : V (binary32.literal q) q := lits32 q hq

theorem V.neg (hx : V x a) : V (-x) (-a) := ⟨Flt.neg_finite.2 hx.1, by rw [Flt.neg_val, hx.2]⟩

theorem V.eq (hx : V x a) (hy : V y a) : x = y := Flt.ext hx.1 hy.1 (hx.2.trans hy.2.symm)

theorem V.zero : V 0 0 := ⟨Flt.zero_finite, Flt.zero_val⟩
theorem V.one : V 1 1 := ⟨Flt.one_finite, Flt.one_val⟩
theorem V.four : V (4 : Flt binary32.fmt) 4 := is_round (P := binary32) (ex32 4 4 0 (by norm_num) (by norm_num)) (lt_bound32 (by norm_num))
theorem V.eight : V (8 : Flt binary32.fmt) 8 := is_round (P := binary32) (ex32 8 8 0 (by norm_num) (by norm_num)) (lt_bound32 (by norm_num))
theorem V.two : V (2 : Flt binary32.fmt) 2 := Flt.two_eq binary32

/-- The coefficients of the counterexample: the radii are lost. -/
theorem lost_radii {z : Flt binary32.fmt} (hz : V z (-2 ^ 14)) :
    let q := torusQuarticG (⟨![0, 0, z], ![0, 0, 1]⟩ : Ray (Flt binary32.fmt) 3) (fun _ => 0) 2 1
    V q.1 1 ∧ V q.2.1 (-2 ^ 16) ∧ V q.2.2.1 (3 * 2 ^ 29) ∧ V q.2.2.2.1 (-2 ^ 44) ∧ V q.2.2.2.2 (2 ^ 56) := by
  unfold torusQuarticG
  simp only [dot3_flt, Matrix.cons_val_zero, Matrix.cons_val_one, Matrix.cons_val, Flt.sub_zero']
  have zz : (0 : Flt binary32.fmt) * 0 = 0 := Flt.mul_zero_fin Flt.zero_finite
  rw [zz, Flt.zero_add', Flt.zero_add', Flt.zero_add', Flt.zero_add', Flt.zero_add', ]
  have dd := V.one.mul V.one 1 1 0
  have od := hz.mul V.one (-2 ^ 14) (-2 ^ 14) 0
  have oo := hz.mul hz (2 ^ 28) 1 28
  have MM := V.two.mul V.two 4 4 0
  have mm := V.one.mul V.one 1 1 0
  have om1 : V (z * z - 1 * 1) (2 ^ 28) := is_sub (P := binary32) oo mm (by fl_num (4) (16777216)) (lt_bound32 (by norm_num))
  have omM : V (z * z - 1 * 1 - 2 * 2) (2 ^ 28) := is_sub (P := binary32) om1 MM (by fl_num (4) (16777216)) (lt_bound32 (by norm_num))
  have odod := od.mul od (2 ^ 28) 1 28
  have md := (MM.mul V.one 4 4 0).mul V.one 4 4 0
  have s1 : V (z * 1 * (z * 1) + 2 * 2 * 1 * 1) (2 ^ 28) := is_add (P := binary32) odod md (by fl_num (5) (8388608)) (lt_bound32 (by norm_num))
  have t1 := (V.four.mul od (-2 ^ 16) (-1) 16).mul omM (-2 ^ 44) (-1) 44
  have t2 := ((V.eight.mul MM 32 32 0).mul hz (-2 ^ 19) (-1) 19).mul V.one (-2 ^ 19) (-1) 19
  have u1 : V (1 * 1 - z * z) (-2 ^ 28) := is_sub (P := binary32) mm oo (by
    rw [show (1 : ℚ) - 2 ^ 28 = -(2 ^ 28 - 1) by norm_num, binary32.fl_neg]; congr 1; fl_num (4) (16777216)) (lt_bound32 (by norm_num))
  have u2 := (V.four.mul MM 16 16 0).mul u1 (-2 ^ 32) (-1) 32
  have u3 := omM.mul omM (2 ^ 56) 1 56
  refine ⟨dd.mul dd 1 1 0, (V.four.mul dd 4 4 0).mul od (-2 ^ 16) (-1) 16,
    ((V.two.mul dd 2 2 0).mul omM (2 ^ 29) 1 29).add (V.four.mul s1 (2 ^ 30) 1 30) (3 * 2 ^ 29) 3 29, ?_, ?_⟩
  · exact is_add (P := binary32) t1 t2 (by
      rw [show (-2 ^ 44 : ℚ) + -2 ^ 19 = -(2 ^ 44 + 2 ^ 19) by norm_num, binary32.fl_neg]; congr 1; fl_num (21) (8388608)) (lt_bound32 (by norm_num))
  · exact is_sub (P := binary32) u3 u2 (by fl_tie (33) (8388608)) (lt_bound32 (by norm_num))

/-- The equation `(x - 2¹⁴)⁴ = 0`. -/
theorem fourfold (s cb ac cs : Flt binary32.fmt → Flt binary32.fmt) {b c d e eps w : Flt binary32.fmt} (hb : V b (-2 ^ 16)) (hc : V c (3 * 2 ^ 29))
    (hd : V d (-2 ^ 44)) (he : V e (2 ^ 56)) (hw : V w (2 ^ 14)) (he1 : eps.isFinite) (he0 : 0 ≤ eps.val) :
    let S := solveQuarticF binary32 s cb ac cs 1 b c d e eps
    S.1 = 2 ∧ S.2 0 = w ∧ S.2 1 = w ∧ S.2 2 = Flt.nan ∧ S.2 3 = Flt.nan := by
  have hP : binary32 = binary32 ∨ binary32 = binary64 := Or.inl rfl
  have l38 := V.lit (3 / 8) (by simp)
  have l18 := V.lit (1 / 8) (by simp)
  have l12 := V.lit (1 / 2) (by simp)
  have l256 := V.lit (3 / 256) (by simp)
  have l16 := V.lit (1 / 16) (by simp)
  have l14 := V.lit (1 / 4) (by simp)
  have p := ((l38.neg.mul hb (3 * 2 ^ 13) 3 13).mul hb (-3 * 2 ^ 29) (-3) 29).add hc 0 0 0
  have q := ((((l18.mul hb (-2 ^ 13) (-1) 13).mul hb (2 ^ 29) 1 29).mul hb (-2 ^ 45) (-1) 45).sub ((l12.mul hb (-2 ^ 15) (-1) 15).mul hc (-3 * 2 ^ 44) (-3) 44)
    (2 ^ 44) 1 44).add hd 0 0 0
  have r1 := (((l256.neg.mul hb (3 * 2 ^ 8) 3 8).mul hb (-3 * 2 ^ 24) (-3) 24).mul hb (3 * 2 ^ 40) 3 40).mul hb (-3 * 2 ^ 56) (-3) 56
  have r2 := ((l16.mul hb (-2 ^ 12) (-1) 12).mul hb (2 ^ 28) 1 28).mul hc (3 * 2 ^ 57) 3 57
  have r3 := (l14.mul hb (-2 ^ 14) (-1) 14).mul hd (2 ^ 58) 1 58
  have r := ((r1.add r2 (3 * 2 ^ 56) 3 56).sub r3 (-2 ^ 56) (-1) 56).add he 0 0 0
  have sub := l14.mul hb (-2 ^ 14) (-1) 14
  have wv := V.zero.sub sub (2 ^ 14) 1 14
  unfold solveQuarticF solveQuarticG
  simp only [Flt.div_one']
  rw [p.eq V.zero, q.eq V.zero, r.eq V.zero]
  have iz : isZero (0 : Flt binary32.fmt) eps = true := by
    rw [isZero_flt Flt.zero_finite he1 he0, decide_eq_true_eq, Flt.zero_val, abs_zero]
    exact he0
  have z3 : binary32.literal (1 / 3) * 0 = 0 := Flt.mul_zero_fin (FltCub.third_rl hP).1
  have z2 : binary32.literal (1 / 2) * 0 = 0 := Flt.mul_zero_fin l12.1
  have zz : (0 : Flt binary32.fmt) * 0 = 0 := Flt.mul_zero_fin Flt.zero_finite
  have e1 : solveCubicG s cb ac cs binary32.pi Flt.nan (binary32.literal (1 / 3)) (binary32.literal (1 / 2)) (binary32.literal (2 / 27)) 1 0 0 0 eps =
      (1, 0, Flt.nan, Flt.nan) := by
    rw [FltCub.no_square (FltCub.third_rl hP).1 (FltCub.twt_fin hP) Flt.zero_finite, z3, z2]
    unfold solveDepressedG
    simp only [zz, Flt.zero_add', iz, if_true]
    unfold resubstituteG
    simp [Flt.sub_zero']
  have e2 : solveDepressedQuarticG s cb ac cs binary32.pi Flt.nan binary32.literal 0 0 0 eps =
      (2, fun i : Fin 4 => if i.val = 1 then 0 else ![0, Flt.nan, Flt.nan, Flt.nan] i) := by
    unfold solveDepressedQuarticG
    rw [iz, e1]
    rfl
  rw [e2]
  have ew : 0 - binary32.literal (1 / 4) * b = w := wv.eq hw
  refine ⟨rfl, ?_, ?_, ?_, ?_⟩
  · exact ew
  · exact ew
  · rfl
  · rfl

end FltTorus

/-- In `float` the radii are lost if the ray starts far away: a ray along the axis of the torus with the radii 2 and 1 around the origin, starting 16384 above it, is
reported to hit the torus at the distance 16384, which is the centre of the hole, although no point of the ray is on the torus.  For all
functions of the library. -/
theorem C158_hole_fails (s cb ac cs : Flt binary32.fmt → Flt binary32.fmt) :
    ∃ z : Flt binary32.fmt, z.isFinite ∧ z.val = -2 ^ 14 ∧
      let t := intersectRayTorusF binary32 s cb ac cs ⟨![0, 0, z], ![0, 0, 1]⟩ (fun _ => 0) 2 1
      t.isFinite ∧ t.val = 2 ^ 14 ∧ ∀ t : ℝ, ¬ OnTorus 2 1 (fun _ => 0) ![0, 0, -2 ^ 14 + t] := by
  have w : V (Flt.round (2 ^ 14)) (2 ^ 14) := is_round (P := binary32) (ex32 _ 1 14 (by norm_num) (by norm_num)) (lt_bound32 (by norm_num))
  generalize (Flt.round (2 ^ 14) : Flt binary32.fmt) = w' at *
  refine ⟨-w', w.neg.1, w.neg.2, ?_⟩
  intro t
  obtain ⟨q1, q2, q3, q4, q5⟩ := lost_radii w.neg
  have az := almostZero32
  obtain ⟨S1, S2, S3, S4, S5⟩ := fourfold s cb ac cs (eps := binary32.almostZero) q2 q3 q4 q5 w az.1 (by rw [az.2]; norm_num)
  have e0 : t = (fun q : Flt binary32.fmt × Flt binary32.fmt × Flt binary32.fmt × Flt binary32.fmt × Flt binary32.fmt => torusSelectG Flt.nan
      (solveQuarticF binary32 s cb ac cs q.1 q.2.1 q.2.2.1 q.2.2.2.1 q.2.2.2.2 binary32.almostZero))
      (torusQuarticG (⟨![0, 0, -w'], ![0, 0, 1]⟩ : Ray (Flt binary32.fmt) 3) (fun _ => 0) 2 1) := rfl
  generalize torusQuarticG (⟨![0, 0, -w'], ![0, 0, 1]⟩ : Ray (Flt binary32.fmt) 3) (fun _ => 0) 2 1 = q at *
  simp only at e0
  rw [q1.eq V.one] at e0
  generalize solveQuarticF binary32 s cb ac cs 1 q.2.1 q.2.2.1 q.2.2.2.1 q.2.2.2.2 binary32.almostZero = S at *
  have lt : Cmp.lt 0 w' = true := by
    rw [Flt.lt_val Flt.zero_finite w.1, decide_eq_true_eq, Flt.zero_val, w.2]; norm_num
  have n1 : isNan w' = false := by rw [← Bool.not_eq_true, isNan_nan]; exact fin_ne_nan w.1
  have n2 : isNan (Flt.nan : Flt binary32.fmt) = true := isNan_nan.2 rfl
  have e1 : t = w' := by
    rw [e0]
    unfold torusSelectG
    rw [if_neg (by rw [S1]; norm_num)]
    simp only [S1, S2, S3, S4, S5]
    simp [lt, safeMin, n1, n2]
  rw [e1]
  refine ⟨w.1, w.2, fun t h => ?_⟩
  unfold OnTorus at h
  simp at h
  nlinarith [sq_nonneg (-2 ^ 14 + t)]

/-- Over the real numbers the coefficients are those of the exact properties. -/
theorem C158_model (r : Ray ℝ 3) (position : Vec ℝ 3) (M m : ℝ) : torusQuarticG r position M m = torusQuartic r position M m := by
  unfold torusQuarticG torusQuartic
  rfl

/-- The hypotheses of `C158_exact` are met by the ray from (-5, 0, 0) along the x axis and the torus with the radii 3 and 1 around the origin; it is hit at the
distance 1. -/
example : ∃ (r : Ray (Flt binary32.fmt) 3) (position : Vec (Flt binary32.fmt) 3) (M m : Flt binary32.fmt),
    let q := torusQuarticG r position M m
    (q.1.val : ℝ) * 1 ^ 4 + q.2.1.val * 1 ^ 3 + q.2.2.1.val * 1 ^ 2 + q.2.2.2.1.val * 1 + q.2.2.2.2.val = 0 := by
  have five : V (Flt.round 5) 5 := is_round (P := binary32) (ex32 5 5 0 (by norm_num) (by norm_num)) (lt_bound32 (by norm_num))
  have three : V (Flt.round 3) 3 := is_round (P := binary32) (ex32 3 3 0 (by norm_num) (by norm_num)) (lt_bound32 (by norm_num))
  have k := C158_exact binary32 ⟨![-Flt.round 5, 0, 0], ![1, 0, 0]⟩ (fun _ => 0) (Flt.round 3) 1 ![-5, 0, 0] (fun _ => 0) ![1, 0, 0] 3 1 5
    (fun k => by
      fin_cases k
      · have := five.neg; exact ⟨this.1, this.2.trans (by norm_num)⟩
      · exact ⟨V.zero.1, V.zero.2.trans (by norm_num)⟩
      · exact ⟨V.zero.1, V.zero.2.trans (by norm_num)⟩)
    (fun k => ⟨V.zero.1, V.zero.2.trans (by norm_num)⟩)
    (fun k => by
      fin_cases k
      · exact ⟨V.one.1, V.one.2.trans (by norm_num)⟩
      · exact ⟨V.zero.1, V.zero.2.trans (by norm_num)⟩
      · exact ⟨V.zero.1, V.zero.2.trans (by norm_num)⟩)
    ⟨three.1, three.2.trans (by norm_num)⟩ ⟨V.one.1, V.one.2.trans (by norm_num)⟩
    (fun k => by fin_cases k <;> norm_num) (fun k => by fin_cases k <;> norm_num) (by norm_num) (by norm_num)
    (by show (70 * 5 ^ 4 : ℤ) ≤ 2 ^ 24; norm_num) (by norm_num)
  refine ⟨_, _, _, _, (k.2 1).2 ?_⟩
  unfold OnTorus
  have : Real.sqrt (((-5 : ℝ) + 1 * 1) ^ 2) = 4 := by
    rw [show ((-5 : ℝ) + 1 * 1) ^ 2 = 4 ^ 2 by norm_num]; exact Real.sqrt_sq (by norm_num)
  norm_num at this ⊢
  rw [this]
  norm_num
  simp

end vm
