import Verif.Props.BBox
import Verif.Lemmas.FltCmp

/-! # C100: boxes in IEEE arithmetic

`P` is an arbitrary binary format with rounding to nearest, ties to even; `binary32` and `binary64` are instances. -/

set_option linter.unusedSectionVars false
set_option linter.unusedSimpArgs false

namespace vm
open BBox BinPar
variable {P : BinPar} {S : ℕ}

/-- A box with finite corners, the first below the second. -/
def FiniteBox (b : BBox (Flt P.fmt) S) : Prop :=
  (∀ i, (b.min i).isFinite) ∧ (∀ i, (b.max i).isFinite) ∧ ∀ i, (b.min i).val ≤ (b.max i).val

theorem contains_flt {b : BBox (Flt P.fmt) S} (hb : FiniteBox b) (p : Vec (Flt P.fmt) S) (hp : ∀ i, (p i).isFinite) :
    b.contains p = true ↔ ∀ i, (b.min i).val ≤ (p i).val ∧ (p i).val ≤ (b.max i).val := by
  simp only [contains, List.all_eq_true, List.mem_finRange, forall_true_left, Bool.not_eq_true', Bool.or_eq_false_iff]
  refine forall_congr' fun i => ?_
  rw [Flt.lt_val (hp i) (hb.1 i), Flt.lt_val (hb.2.1 i) (hp i), decide_eq_false_iff_not, decide_eq_false_iff_not, not_lt, not_lt]

theorem div_two {x : Flt P.fmt} (hx : x.isFinite) : x / 2 = Flt.round (x.val / 2) := by
  obtain ⟨h1, h2⟩ := Flt.eq_fin (Flt.two_eq P).1
  obtain ⟨h3, h4⟩ := Flt.eq_fin hx
  rw [h2, h4]
  show (if (2 : Flt P.fmt).val = 0 then Flt.infTimes x.val else Flt.round (x.val / (2 : Flt P.fmt).val)) = Flt.round (x.val / 2)
  rw [(Flt.two_eq P).2, if_neg (by norm_num)]

/-- The center is in the box unless the sum of the corners overflows, and it is the exact center up to the rounding of the sum and of the
quotient. -/
theorem C100_center (b : BBox (Flt P.fmt) S) (hb : FiniteBox b) (ho : ∀ i, (b.min i + b.max i).isFinite) :
    b.contains b.center = true ∧ ∀ i, (b.center i).isFinite ∧
      (b.center i).val = P.fl (P.fl ((b.min i).val + (b.max i).val) / 2) := by
  have key : ∀ i, (b.center i).isFinite ∧ (b.center i).val = P.fl (P.fl ((b.min i).val + (b.max i).val) / 2) ∧
      (b.min i).val ≤ (b.center i).val ∧ (b.center i).val ≤ (b.max i).val := by
    intro i
    have hle := hb.2.2 i
    have r1 := Flt.rep_val (b.min i)
    have r2 := Flt.rep_val (b.max i)
    have e : b.center i = Flt.round (P.fl ((b.min i).val + (b.max i).val) / 2) := by
      show (b.min i + b.max i) / 2 = _
      rw [div_two (ho i), Flt.add_val (ho i)]
    have l1 := P.le_fl_of_rep r1.1.double (show 2 * (b.min i).val ≤ (b.min i).val + (b.max i).val by linarith)
    have l2 := P.fl_le_of_rep r2.1.double (show (b.min i).val + (b.max i).val ≤ 2 * (b.max i).val by linarith)
    have := Flt.round_between (q := P.fl ((b.min i).val + (b.max i).val) / 2) r1 r2 (by linarith) (by linarith)
    rw [e, this.2.1]
    exact ⟨this.1, rfl, this.2.2.1, this.2.2.2⟩
  exact ⟨(contains_flt hb _ fun i => (key i).1).2 fun i => (key i).2.2, fun i => ⟨(key i).1, (key i).2.1⟩⟩

/-- The greatest number of a format. -/
def greatest (P : BinPar) : ℚ := (2 ^ P.p - 1) * 2 ^ P.qmax

theorem rep_greatest : P.fmt.rep (greatest P) := by
  have h1 : (1 : ℚ) ≤ 2 ^ P.p := one_le_pow₀ (by norm_num)
  have h2 := two_zpow_pos P.qmax
  refine ⟨⟨2 ^ P.p - 1, P.qmax, by unfold greatest; push_cast; ring, ?_, ?_⟩, ?_⟩
  · rw [abs_of_nonneg (by have : (1 : ℤ) ≤ 2 ^ P.p := one_le_pow₀ (by norm_num); linarith)]; linarith
  · have := P.hmin; have := P.hmax; omega
  · unfold greatest BinPar.bound
    rw [abs_of_nonneg (mul_nonneg (by linarith) h2.le), zpow_add2, zpow_natCast]
    exact mul_lt_mul_of_pos_right (by linarith) h2

/-- If the sum overflows then the center is infinite and not in the box: the box whose corners are the greatest number. -/
theorem C100_center_fails (P : BinPar) : ∃ b : BBox (Flt P.fmt) 1, FiniteBox b ∧ b.center 0 = Flt.pinf ∧ b.contains b.center = false := by
  have hc : (Flt.fin (greatest P) rep_greatest + Flt.fin (greatest P) rep_greatest : Flt P.fmt) = Flt.pinf := by
    rw [add_fin]
    have hp := P.hp
    have h1 : P.bound ≤ greatest P + greatest P := by
      unfold BinPar.bound greatest
      rw [zpow_add2, zpow_natCast]
      have h2 := two_zpow_pos P.qmax
      have h3 : (2 : ℚ) ≤ 2 ^ P.p := by
        calc (2 : ℚ) = 2 ^ 1 := by norm_num
          _ ≤ 2 ^ P.p := pow_le_pow_right₀ (by norm_num) (by omega)
      nlinarith
    refine Flt.round_pinf (P.le_fl_of_rep ?_ h1)
    refine ⟨1, P.p + P.qmax, ?_, ?_, ?_⟩
    · unfold BinPar.bound; push_cast; ring
    · rw [abs_one]; exact one_lt_pow₀ (by norm_num) (by omega)
    · have := P.hmin; have := P.hmax; omega
  have hd : (Flt.pinf / 2 : Flt P.fmt) = Flt.pinf := by
    obtain ⟨h1, h2⟩ := Flt.eq_fin (Flt.two_eq P).1
    rw [h2]
    show (if 0 ≤ (2 : Flt P.fmt).val then Flt.pinf else Flt.ninf) = _
    rw [(Flt.two_eq P).2, if_pos (by norm_num)]
  have hcen : ∀ b : BBox (Flt P.fmt) 1, b = ⟨fun _ => Flt.fin (greatest P) rep_greatest, fun _ => Flt.fin (greatest P) rep_greatest⟩ →
      ∀ i, b.center i = Flt.pinf := by
    rintro b rfl i
    show (Flt.fin (greatest P) rep_greatest + Flt.fin (greatest P) rep_greatest : Flt P.fmt) / 2 = Flt.pinf
    rw [hc, hd]
  refine ⟨⟨fun _ => Flt.fin (greatest P) rep_greatest, fun _ => Flt.fin (greatest P) rep_greatest⟩,
    ⟨fun _ => trivial, fun _ => trivial, fun _ => le_rfl⟩, hcen _ rfl 0, ?_⟩
  rw [← Bool.not_eq_true]
  intro h
  simp only [contains, List.all_eq_true, List.mem_finRange, forall_true_left, Bool.not_eq_true', Bool.or_eq_false_iff] at h
  have h2 := (h 0).2
  rw [hcen _ rfl 0] at h2
  have h3 : Cmp.lt (Flt.fin (greatest P) rep_greatest : Flt P.fmt) Flt.pinf = true :=
    decide_eq_true (WithBot.coe_lt_coe.2 (WithTop.coe_lt_top _))
  exact absurd (h2.symm.trans h3) (by simp)

/-- No component of the size is negative, and it is zero only for equal coordinates. -/
theorem C100_size (b : BBox (Flt P.fmt) S) (hb : FiniteBox b) (i : Fin S) :
    Cmp.le 0 (b.size i) = true ∧ (b.size i = 0 ↔ b.min i = b.max i) := by
  have e : b.size i = Flt.round ((b.max i).val - (b.min i).val) := Flt.sub_eq (hb.2.1 i) (hb.1 i)
  have h0 : 0 ≤ (b.max i).val - (b.min i).val := by linarith [hb.2.2 i]
  rw [e]
  refine ⟨?_, ?_, ?_⟩
  · rw [Flt.le_round Flt.zero_finite]; exact decide_eq_true (P.fl_nonneg h0)
  · intro h
    have hf : (Flt.round ((b.max i).val - (b.min i).val) : Flt P.fmt).isFinite := by rw [h]; trivial
    have hv := Flt.round_val hf
    rw [h] at hv
    exact Flt.ext (hb.1 i) (hb.2.1 i) (fl_sub_eq_zero (Flt.rep_val _).1 (Flt.rep_val _).1 hv.symm).symm
  · intro h
    rw [h, sub_self]
    exact round_rep P.fmt.rep_zero

/-- `translate` moves the points of the box into the translated box, also with rounding. -/
theorem C100_translate (b : BBox (Flt P.fmt) S) (p d : Vec (Flt P.fmt) S) (hp : b.contains p = true) :
    (b.translate d).contains (p + d) = true := by
  simp only [contains, List.all_eq_true, List.mem_finRange, forall_true_left, Bool.not_eq_true', Bool.or_eq_false_iff] at hp ⊢
  exact fun i => ⟨Flt.add_mono (hp i).1, Flt.add_mono (hp i).2⟩

/-- `expand` by a non-negative amount keeps all points of the box. -/
theorem C100_expand (b : BBox (Flt P.fmt) S) (hb : FiniteBox b) (f : Flt P.fmt) (hf : f.isFinite) (h0 : 0 ≤ f.val)
    (p : Vec (Flt P.fmt) S) (hp : ∀ i, (p i).isFinite) (hc : b.contains p = true) : (b.expand f).contains p = true := by
  rw [contains_flt hb p hp] at hc
  simp only [contains, List.all_eq_true, List.mem_finRange, forall_true_left, Bool.not_eq_true', Bool.or_eq_false_iff]
  intro i
  have e1 : (b.expand f).min i = Flt.round ((b.min i).val - f.val) := Flt.sub_eq (hb.1 i) hf
  have e2 : (b.expand f).max i = Flt.round ((b.max i).val + f.val) := Flt.add_eq (hb.2.1 i) hf
  rw [e1, e2, Flt.lt_round (hp i), Flt.round_lt (hp i)]
  exact ⟨decide_eq_false (not_lt.2 (P.fl_le_of_rep (Flt.rep_val _).1 (by linarith [(hc i).1]))),
    decide_eq_false (not_lt.2 (P.le_fl_of_rep (Flt.rep_val _).1 (by linarith [(hc i).2])))⟩

/-! ### Vertices -/

/-- The difference of the corners is a number of the format in every coordinate (for example for integral coordinates that are not too
large). -/
def ExactSize (b : BBox (Flt P.fmt) S) : Prop := ∀ i, P.fmt.rep ((b.max i).val - (b.min i).val)

theorem add_zero_flt {x : Flt P.fmt} (hx : x.isFinite) : x + 0 = x := by
  rw [Flt.add_eq hx Flt.zero_finite, Flt.zero_val, add_zero, round_rep (Flt.rep_val x)]
  exact (Flt.eq_fin hx).2.symm

theorem sub_zero_flt {x : Flt P.fmt} (hx : x.isFinite) : x - 0 = x := by
  rw [Flt.sub_eq hx Flt.zero_finite, Flt.zero_val, sub_zero, round_rep (Flt.rep_val x)]
  exact (Flt.eq_fin hx).2.symm

theorem size_exact {x y : Flt P.fmt} (hx : x.isFinite) (hy : y.isFinite) (h : P.fmt.rep (y.val - x.val)) :
    x + (y - x) = y ∧ y - (y - x) = x := by
  have hd : (y - x).isFinite ∧ (y - x).val = y.val - x.val := by
    rw [Flt.sub_eq hy hx, round_rep h]; exact ⟨trivial, rfl⟩
  constructor
  · rw [Flt.add_eq hx hd.1, hd.2, add_sub_cancel, round_rep (Flt.rep_val y)]
    exact (Flt.eq_fin hy).2.symm
  · rw [Flt.sub_eq hy hd.1, hd.2, sub_sub_cancel, round_rep (Flt.rep_val x)]
    exact (Flt.eq_fin hx).2.symm

open Corner in
/-- If the size of the box is exact then `for_each_vertex` visits exactly the eight corners. -/
theorem C100_vertices_exact (b : BBox (Flt P.fmt) 3) (h1 : ∀ i, (b.min i).isFinite) (h2 : ∀ i, (b.max i).isFinite) (h : ExactSize b) :
    ∃ l : List (Fin 3 → Corner), b.vertices = l.map b.corner ∧ l.Nodup ∧ ∀ c, c ∈ l := by
  refine ⟨[![max, max, max], ![max, min, max], ![min, min, max], ![min, max, max], ![min, min, min],
    ![max, min, min], ![max, max, min], ![min, max, min]], ?_, by decide +kernel, ?_⟩
  · have a := fun i => add_zero_flt (h1 i)
    have s := fun i => sub_zero_flt (h2 i)
    have e := fun i => size_exact (h1 i) (h2 i) (h i)
    simp only [vertices, List.map_cons, List.map_nil, List.cons.injEq, and_true]
    refine ⟨?_, ?_, ?_, ?_, ?_, ?_, ?_, ?_⟩ <;> apply ext3 <;>
      simp [BBox.ex, ey, ez, size, corner, Matrix.vecHead, Matrix.vecTail, a, s, e]
  · intro c
    have : c = ![c 0, c 1, c 2] := vec3_eq c
    rw [this]
    rcases c 0 <;> rcases c 1 <;> rcases c 2 <;> simp

/-- In general every coordinate of a vertex is a corner coordinate up to two roundings. -/
theorem C100_vertices_near (b : BBox (Flt P.fmt) 3) (hb : FiniteBox b) (hs : ∀ i, (b.size i).isFinite) (v : Vec (Flt P.fmt) 3)
    (hv : v ∈ b.vertices) (i : Fin 3) (hf : (v i).isFinite) :
    v i = b.min i ∨ v i = b.max i ∨
    |(v i).val - (b.max i).val| ≤ P.u * |(b.max i).val| + P.u * (1 + P.u) * ((b.max i).val - (b.min i).val) ∨
    |(v i).val - (b.min i).val| ≤ P.u * |(b.min i).val| + P.u * (1 + P.u) * ((b.max i).val - (b.min i).val) := by
  have hu := P.u_pos
  have key : v i = b.min i ∨ v i = b.max i ∨ v i = b.min i + b.size i ∨ v i = b.max i - b.size i := by
    have a := fun i => add_zero_flt (hb.1 i)
    have s := fun i => sub_zero_flt (hb.2.1 i)
    simp only [vertices, List.mem_cons, List.mem_nil_iff, or_false] at hv
    rcases hv with rfl | rfl | rfl | rfl | rfl | rfl | rfl | rfl <;> fin_cases i <;>
      simp [BBox.ex, ey, ez, Matrix.vecHead, Matrix.vecTail, a, s]
  have hd : 0 ≤ (b.max i).val - (b.min i).val := by linarith [hb.2.2 i]
  have hsz : (b.size i).val = P.fl ((b.max i).val - (b.min i).val) := Flt.sub_val (hs i)
  have e1 := fl_sub_err_u (Flt.rep_val (b.max i)).1 (Flt.rep_val (b.min i)).1
  rw [abs_of_nonneg hd, ← hsz] at e1
  rcases key with h | h | h | h
  · exact Or.inl h
  · exact Or.inr (Or.inl h)
  · right; right; left
    rw [h] at hf ⊢
    rw [Flt.add_val hf]
    have e2 := fl_add_err_u (Flt.rep_val (b.min i)).1 (Flt.rep_val (b.size i)).1
    have t1 : |(b.min i).val + (b.size i).val| ≤ |(b.max i).val| + P.u * ((b.max i).val - (b.min i).val) := by
      have : (b.min i).val + (b.size i).val = (b.max i).val + ((b.size i).val - ((b.max i).val - (b.min i).val)) := by ring
      rw [this]
      exact (abs_add_le _ _).trans (by linarith)
    have t2 := mul_le_mul_of_nonneg_left t1 hu.le
    rw [abs_le] at e1 e2 ⊢
    constructor <;> linarith [e1.1, e1.2, e2.1, e2.2]
  · right; right; right
    rw [h] at hf ⊢
    rw [Flt.sub_val hf]
    have e2 := fl_sub_err_u (Flt.rep_val (b.max i)).1 (Flt.rep_val (b.size i)).1
    have t1 : |(b.max i).val - (b.size i).val| ≤ |(b.min i).val| + P.u * ((b.max i).val - (b.min i).val) := by
      have : (b.max i).val - (b.size i).val = (b.min i).val - ((b.size i).val - ((b.max i).val - (b.min i).val)) := by ring
      rw [this]
      exact (abs_sub _ _).trans (by linarith)
    have t2 := mul_le_mul_of_nonneg_left t1 hu.le
    rw [abs_le] at e1 e2 ⊢
    constructor <;> linarith [e1.1, e1.2, e2.1, e2.2]

theorem rep_u_mul {k : ℕ} (hk : k ≤ 4) : P.fmt.rep (k * P.u) := by
  have hu := P.u_pos
  have hu8 := P.u_le
  have hp := P.hp
  have h8 : (2 : ℤ) ^ 3 ≤ 2 ^ P.p := pow_le_pow_right₀ (by norm_num) hp
  have hkz : (k : ℤ) ≤ 4 := by exact_mod_cast hk
  have hkq : (k : ℚ) ≤ 4 := by exact_mod_cast hk
  have hk0 : (0 : ℚ) ≤ k := by positivity
  refine ⟨⟨k, -(P.p : ℤ), by unfold u; push_cast; ring, ?_, ?_⟩, ?_⟩
  · rw [abs_of_nonneg (by positivity)]; linarith
  · have := P.hmin; omega
  · rw [abs_of_nonneg (by positivity)]
    have : (k : ℚ) * P.u ≤ 4 * (1 / 8) := mul_le_mul hkq hu8 hu.le (by norm_num)
    linarith [P.one_lt_bound]

/-- `1 + 3 · 2^-p` is a tie and is rounded up. -/
theorem fl_tie_up : P.fl (3 * P.u + 1) = 1 + 4 * P.u := by
  have hu := P.u_pos
  have hu8 := P.u_le
  have hp := P.hp
  have e : (2 : ℚ) ^ (P.p - 1) * 2 ^ (1 - (P.p : ℤ)) = 1 := by
    rw [← zpow_natCast, ← zpow_add2]
    have : (((P.p - 1 : ℕ) : ℤ) + (1 - P.p)) = 0 := by omega
    rw [this, zpow_zero]
  have eu : (2 : ℚ) ^ (1 - (P.p : ℤ)) = 2 * P.u := by
    unfold u
    rw [sub_eq_add_neg, zpow_add2]; norm_num
  have h := fl_eval_even (P := P) (q := 3 * P.u + 1) (1 - (P.p : ℤ)) (2 ^ (P.p - 1) + 2) (by have := P.hmin; omega) ?_ ?_ ?_ ?_
  · rw [h]; push_cast; rw [add_mul, e, eu]; ring
  · rw [abs_of_pos (by linarith)]
    have : 1 - (P.p : ℤ) + P.p - 1 = 0 := by ring
    rw [this, zpow_zero]; linarith
  · rw [abs_of_pos (by linarith)]
    have : 1 - (P.p : ℤ) + P.p = 1 := by ring
    rw [this, zpow_one]; linarith
  · have h1 : (3 * P.u + 1) / 2 ^ (1 - (P.p : ℤ)) = 2 ^ (P.p - 1) + 3 / 2 := by
      have h2 := two_zpow_pos (1 - (P.p : ℤ))
      rw [div_eq_iff h2.ne', add_mul, e, eu]; ring
    rw [h1]; push_cast
    rw [add_sub_add_left_eq_sub]; norm_num [abs_of_neg]
  · obtain ⟨k, hk⟩ : ∃ k, P.p - 1 = k + 1 := ⟨P.p - 2, by omega⟩
    rw [hk, pow_succ]; omega

/-- Vertices may be outside of the box: for the box with corners `-1` and `3 · 2^-p` in each coordinate, `for_each_vertex` visits a
vertex with the coordinate `4 · 2^-p`. -/
theorem C100_vertices_fails (P : BinPar) : ∃ b : BBox (Flt P.fmt) 3, FiniteBox b ∧ ∃ v ∈ b.vertices, (∀ i, (v i).isFinite) ∧
    b.contains v = false := by
  have hu := P.u_pos
  have hu8 := P.u_le
  have r3 : P.fmt.rep (3 * P.u) := by exact_mod_cast rep_u_mul (P := P) (k := 3) (by norm_num)
  have r4 : P.fmt.rep (4 * P.u) := by exact_mod_cast rep_u_mul (P := P) (k := 4) (by norm_num)
  have rs : P.fmt.rep (1 + 4 * P.u) := by
    rw [← fl_tie_up]
    refine ⟨P.rep_fl _, ?_⟩
    rw [fl_tie_up, abs_of_pos (by linarith)]
    have := (Flt.rep_val (3 : Flt P.fmt)).2
    rw [(Flt.three_eq P).2] at this
    norm_num at this
    linarith
  have hsz : (Flt.fin (3 * P.u) r3 - -1 : Flt P.fmt) = Flt.fin (1 + 4 * P.u) rs := by
    rw [Flt.sub_eq (by trivial) (by trivial)]
    refine Flt.round_to rs ?_
    show P.fl (3 * P.u - -1) = _
    rw [sub_neg_eq_add]; exact fl_tie_up
  have hv : (-1 + Flt.fin (1 + 4 * P.u) rs : Flt P.fmt) = Flt.fin (4 * P.u) r4 := by
    rw [Flt.add_eq (by trivial) (by trivial)]
    refine Flt.round_to r4 ?_
    show P.fl (-1 + (1 + 4 * P.u)) = _
    rw [neg_add_cancel_left]; exact P.fl_rep r4.1
  have hm1 : (-1 + 0 : Flt P.fmt) = -1 := add_zero_flt (by trivial)
  have hvi : ∀ w : Vec (Flt P.fmt) 3, w = (fun _ => -1 : Vec (Flt P.fmt) 3) + ![0, 0, Flt.fin (3 * P.u) r3 - -1] →
      w 0 = -1 ∧ w 1 = -1 ∧ w 2 = Flt.fin (4 * P.u) r4 := by
    rintro w rfl
    refine ⟨hm1, hm1, ?_⟩
    show (-1 + (Flt.fin (3 * P.u) r3 - -1) : Flt P.fmt) = _
    rw [hsz, hv]
  have hfb : FiniteBox (⟨fun _ => -1, fun _ => Flt.fin (3 * P.u) r3⟩ : BBox (Flt P.fmt) 3) := by
    refine ⟨fun _ => trivial, fun _ => trivial, fun _ => ?_⟩
    show (-1 : ℚ) ≤ 3 * P.u
    linarith
  refine ⟨⟨fun _ => -1, fun _ => Flt.fin (3 * P.u) r3⟩, hfb, _, List.mem_cons_of_mem _ (List.mem_cons_of_mem _ List.mem_cons_self), ?_, ?_⟩
  · have h := hvi _ rfl
    intro i
    fin_cases i
    · exact (congrArg Flt.isFinite h.1).mpr trivial
    · exact (congrArg Flt.isFinite h.2.1).mpr trivial
    · exact (congrArg Flt.isFinite h.2.2).mpr trivial
  · have h := hvi _ rfl
    rw [← Bool.not_eq_true]
    intro hc
    have hfin : ∀ i, (((fun _ => -1 : Vec (Flt P.fmt) 3) + ![0, 0, Flt.fin (3 * P.u) r3 - -1]) i).isFinite := by
      intro i
      fin_cases i
      · exact (congrArg Flt.isFinite h.1).mpr trivial
      · exact (congrArg Flt.isFinite h.2.1).mpr trivial
      · exact (congrArg Flt.isFinite h.2.2).mpr trivial
    have h2 := ((contains_flt hfb _ hfin).1 hc 2).2
    rw [h.2.2] at h2
    have h3 : 4 * P.u ≤ 3 * P.u := h2
    linarith

/-- The box from 1 to 3 has an exact size. -/
example : ∃ b : BBox (Flt binary32.fmt) 3, FiniteBox b ∧ ExactSize b ∧ (∀ i, (b.min i + b.max i).isFinite) ∧ b.min 0 ≠ b.max 0 := by
  have h3 := Flt.three_eq binary32
  have r2 := Flt.rep_val (2 : Flt binary32.fmt)
  rw [(Flt.two_eq binary32).2] at r2
  refine ⟨⟨fun _ => 1, fun _ => 3⟩, ⟨fun _ => trivial, fun _ => h3.1, fun _ => ?_⟩, fun _ => ?_, fun _ => ?_, fun h => ?_⟩
  · show (1 : ℚ) ≤ (3 : Flt binary32.fmt).val
    rw [h3.2]; norm_num
  · show binary32.fmt.rep ((3 : Flt binary32.fmt).val - 1)
    rw [h3.2]; norm_num; exact r2
  · show (1 + 3 : Flt binary32.fmt).isFinite
    rw [Flt.add_eq Flt.one_finite h3.1, Flt.one_val, h3.2]
    refine (Flt.round_between (P := binary32) binary32.fmt.rep_zero (b := 4) ?_ (by norm_num) (by norm_num)).1
    have := binary32.rep_of_int (n := 4) (by norm_num [binary32])
    exact_mod_cast this
  · have : (1 : Flt binary32.fmt).val = (3 : Flt binary32.fmt).val := congrArg Flt.val h
    rw [h3.2, Flt.one_val] at this
    norm_num at this

end vm
