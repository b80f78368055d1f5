import Verif.Model.Cast
import Verif.Lemmas.FltGeom
import Verif.Lemmas.FltError
import Verif.Lemmas.FltCmp
import Verif.Props.Convert

/-! Conversions between floating point formats: order, and double rounding. -/

set_option linter.unusedSectionVars false
set_option linter.unusedSimpArgs false

namespace vm

namespace FltCast
variable {F G : Fmt}

theorem key_cast (x : Flt F) : Flt.key (Flt.cast x : Flt G) = match x with
    | .nan => none
    | .ninf => some ⊥
    | .pinf => some ((⊤ : WithTop ℚ) : WithBot (WithTop ℚ))
    | .fin q _ => some (G.rnd q) := by
  rcases x with _ | _ | _ | ⟨q, h⟩
  · rfl
  · rfl
  · rfl
  · exact Flt.key_round q

theorem lt_iff' (a b : Flt F) : Cmp.lt a b = true ↔ ∃ x y, Flt.key a = some x ∧ Flt.key b = some y ∧ x < y := by
  show (match Flt.key a, Flt.key b with
    | some x, some y => decide (x < y)
    | _, _ => false) = true ↔ _
  rcases ha : Flt.key a with _ | x <;> rcases hb : Flt.key b with _ | y <;> simp

theorem eq_iff' (a b : Flt F) : Cmp.eq a b = true ↔ ∃ x, Flt.key a = some x ∧ Flt.key b = some x := by
  show (match Flt.key a, Flt.key b with
    | some x, some y => decide (x = y)
    | _, _ => false) = true ↔ _
  rcases ha : Flt.key a with _ | x <;> rcases hb : Flt.key b with _ | y <;> simp [eq_comm]

/-- What a conversion does to the values. -/
def kmap (G : Fmt) : Ext → Ext
  | none => ⊥
  | some none => ((⊤ : WithTop ℚ) : WithBot (WithTop ℚ))
  | some (some q) => G.rnd q

theorem key_map (x : Flt F) : Flt.key (Flt.cast x : Flt G) = (Flt.key x).map (kmap G) := by
  rw [key_cast]
  rcases x with _ | _ | _ | ⟨q, h⟩ <;> rfl

theorem kmap_mono {x y : Ext} (h : x ≤ y) : kmap G x ≤ kmap G y := by
  rcases x with _ | _ | x
  · exact bot_le
  · rcases y with _ | _ | y
    · exact absurd (show ((⊤ : WithTop ℚ) : WithBot (WithTop ℚ)) ≤ ⊥ from h) (by rw [not_le]; exact WithBot.bot_lt_coe _)
    · exact le_rfl
    · have h' : ((⊤ : WithTop ℚ) : WithBot (WithTop ℚ)) ≤ ((y : WithTop ℚ) : WithBot (WithTop ℚ)) := h
      exact absurd (WithBot.coe_le_coe.1 h') (by rw [not_le]; exact WithTop.coe_lt_top y)
  · rcases y with _ | _ | y
    · exact absurd (show ((x : WithTop ℚ) : WithBot (WithTop ℚ)) ≤ ⊥ from h) (by rw [not_le]; exact WithBot.bot_lt_coe _)
    · show kmap G _ ≤ ((⊤ : WithTop ℚ) : WithBot (WithTop ℚ))
      exact le_top
    · exact G.rnd_mono (WithTop.coe_le_coe.1 (WithBot.coe_le_coe.1 h))

/-- Every conversion is monotone. -/
theorem monotone_cast : MonotoneCast (Flt.cast : Flt F → Flt G) := by
  intro a b h
  rw [lt_iff'] at h ⊢
  obtain ⟨x, y, hx, hy, hxy⟩ := h
  rw [key_map] at hx hy
  rcases ha : Flt.key a with _ | x'
  · rw [ha] at hx; exact absurd hx (by simp)
  rcases hb : Flt.key b with _ | y'
  · rw [hb] at hy; exact absurd hy (by simp)
  rw [ha] at hx
  rw [hb] at hy
  simp only [Option.map_some, Option.some.injEq] at hx hy
  refine ⟨x', y', rfl, rfl, ?_⟩
  by_contra hc
  have := kmap_mono (G := G) (not_lt.1 hc)
  rw [hx, hy] at this
  exact absurd hxy (not_lt.2 this)

/-- Values that are ordered and whose conversions are not become equal. -/
theorem cast_collapse {a b : Flt F} (h : Cmp.lt a b = true) (hc : Cmp.lt (Flt.cast a : Flt G) (Flt.cast b) = false) :
    (Flt.cast a : Flt G) = Flt.cast b := by
  apply Flt.key_inj
  rw [lt_iff'] at h
  obtain ⟨x, y, hx, hy, hxy⟩ := h
  have h1 := key_map (G := G) a
  have h2 := key_map (G := G) b
  rw [hx, Option.map_some] at h1
  rw [hy, Option.map_some] at h2
  rw [h1, h2]
  congr 1
  refine le_antisymm (kmap_mono hxy.le) ?_
  by_contra hn
  have : Cmp.lt (Flt.cast a : Flt G) (Flt.cast b) = true := (lt_iff' _ _).2 ⟨_, _, h1, h2, not_le.1 hn⟩
  rw [this] at hc
  exact absurd hc (by simp)

theorem cast_min (a b : Flt F) : (Flt.cast (min2 a b) : Flt G) = min2 (Flt.cast a) (Flt.cast b) := by
  show (Flt.cast (if Cmp.lt a b = true then a else b) : Flt G) = if Cmp.lt (Flt.cast a : Flt G) (Flt.cast b) = true then Flt.cast a else Flt.cast b
  by_cases h : Cmp.lt (Flt.cast a : Flt G) (Flt.cast b) = true
  · rw [if_pos h, if_pos (monotone_cast _ _ h)]
  · rw [if_neg h]
    by_cases h' : Cmp.lt a b = true
    · rw [if_pos h']; exact cast_collapse h' (by simpa using h)
    · rw [if_neg h']

theorem cast_max (a b : Flt F) : (Flt.cast (max2 a b) : Flt G) = max2 (Flt.cast a) (Flt.cast b) := by
  show (Flt.cast (if Cmp.lt b a = true then a else b) : Flt G) = if Cmp.lt (Flt.cast b : Flt G) (Flt.cast a) = true then Flt.cast a else Flt.cast b
  by_cases h : Cmp.lt (Flt.cast b : Flt G) (Flt.cast a) = true
  · rw [if_pos h, if_pos (monotone_cast _ _ h)]
  · rw [if_neg h]
    by_cases h' : Cmp.lt b a = true
    · rw [if_pos h']; exact (cast_collapse h' (by simpa using h)).symm
    · rw [if_neg h']

/-- Conversion to a format with more numbers keeps the value. -/
theorem key_widen (h : ∀ q, F.rep q → G.rep q) (x : Flt F) : Flt.key (Flt.cast x : Flt G) = Flt.key x := by
  rw [key_cast]
  rcases x with _ | _ | _ | ⟨q, hq⟩
  · rfl
  · rfl
  · rfl
  · show some (G.rnd q) = some (Ext.ofRat q)
    rw [G.rnd_rep (h q hq)]

theorem cast_back (h : ∀ q, F.rep q → G.rep q) (x : Flt F) : (Flt.cast (Flt.cast x : Flt G) : Flt F) = x := by
  apply Flt.key_inj
  rw [key_map, key_widen h]
  rcases x with _ | _ | _ | ⟨q, hq⟩
  · rfl
  · rfl
  · rfl
  · show some (F.rnd q) = some (Ext.ofRat q)
    rw [F.rnd_rep hq]

end FltCast

/-! ### Double rounding -/

namespace BinPar
variable {P Q : BinPar}

/-- The numbers of the format and the numbers halfway between neighbours. -/
def Mid (P : BinPar) (q : ℚ) : Prop := ∃ m e : ℤ, q = m * 2 ^ e ∧ |m| < 2 ^ (P.p + 1) ∧ P.qmin - 1 ≤ e

/-- Numbers that no number or midpoint of the format separates are rounded to the same number. -/
theorem same_side {z w : ℚ} (h : ∀ μ, P.Mid μ → (z < μ ↔ w < μ) ∧ (μ < z ↔ μ < w)) : P.fl z = P.fl w := by
  have hp := P.hp
  have mid_pow : ∀ e : ℤ, P.qmin ≤ e → P.Mid (2 ^ (e + P.p)) ∧ P.Mid (-2 ^ (e + P.p)) ∧ P.Mid (2 ^ (e + P.p - 1)) ∧ P.Mid (-2 ^ (e + P.p - 1)) := by
    intro e he
    have lt1 : (2 : ℤ) ^ P.p < 2 ^ (P.p + 1) := pow_lt_pow_right₀ (by norm_num) (by omega)
    have e1 : (2 : ℚ) ^ (e + P.p) = ((2 ^ P.p : ℤ) : ℚ) * 2 ^ e := by push_cast; rw [zpow_add2, zpow_natCast]; ring
    have e2 : (2 : ℚ) ^ (e + P.p - 1) = ((2 ^ P.p : ℤ) : ℚ) * 2 ^ (e - 1) := by
      rw [show e + (P.p : ℤ) - 1 = (e - 1) + P.p by ring]; push_cast; rw [zpow_add2, zpow_natCast]; ring
    refine ⟨⟨2 ^ P.p, e, e1, ?_, by omega⟩, ⟨-2 ^ P.p, e, by rw [e1]; push_cast; ring, ?_, by omega⟩, ⟨2 ^ P.p, e - 1, e2, ?_, by omega⟩,
      ⟨-2 ^ P.p, e - 1, by rw [e2]; push_cast; ring, ?_, by omega⟩⟩ <;> (try rw [abs_neg]) <;> rw [abs_of_pos (by positivity)] <;> exact lt1
  have mid0 : P.Mid 0 := ⟨0, P.qmin, by simp, by simp, by omega⟩
  have zero_iff : z = 0 ↔ w = 0 := by
    have := h 0 mid0
    constructor <;> intro hz <;> subst hz <;> simp at this <;> linarith [this.1, this.2]
  rcases eq_or_ne z 0 with hz | hz
  · rw [hz, zero_iff.1 hz]
  have hw : w ≠ 0 := fun hw => hz (zero_iff.2 hw)
  have abs_lt : ∀ e : ℤ, P.qmin ≤ e → (|z| < 2 ^ (e + P.p) ↔ |w| < 2 ^ (e + P.p)) := by
    intro e he
    have h1 := h _ (mid_pow e he).1
    have h2 := h _ (mid_pow e he).2.1
    rw [abs_lt, abs_lt, h1.1, h2.2]
  have abs_le' : ∀ e : ℤ, P.qmin ≤ e → (2 ^ (e + P.p - 1) ≤ |z| ↔ 2 ^ (e + P.p - 1) ≤ |w|) := by
    intro e he
    have h1 := h _ (mid_pow e he).2.2.1
    have h2 := h _ (mid_pow e he).2.2.2
    rw [← not_lt, ← not_lt, _root_.abs_lt, _root_.abs_lt, h1.1, h2.2]
  have ee : P.ex w = P.ex z := by
    have a1 := (abs_lt _ (P.qmin_le_ex z)).1 (P.abs_lt_ex z)
    have a2 := (abs_lt _ (P.qmin_le_ex w)).2 (P.abs_lt_ex w)
    exact le_antisymm (P.ex_le_of_lt hw a1 (P.qmin_le_ex z)) (P.ex_le_of_lt hz a2 (P.qmin_le_ex w))
  set e := P.ex z with he
  have h2 := two_zpow_pos e
  have hq := P.qmin_le_ex z
  rw [← he] at hq
  have key : ∀ z w : ℚ, (∀ μ, P.Mid μ → (z < μ ↔ w < μ) ∧ (μ < z ↔ μ < w)) → |z| < 2 ^ (e + P.p) → |w| < 2 ^ (e + P.p) → z ≤ w →
      rne (z / 2 ^ e) = rne (w / 2 ^ e) := by
    intro z w h bz bw hle
    have hm := rne_mono (div_le_div_of_nonneg_right hle h2.le)
    rcases hm.lt_or_eq with hlt | heq
    · exfalso
      have r1 := (abs_le.1 (rne_err (z / 2 ^ e))).2
      have r2 := (abs_le.1 (rne_err (w / 2 ^ e))).1
      have hlt' : ((rne (z / 2 ^ e) : ℤ) : ℚ) + 1 ≤ (rne (w / 2 ^ e) : ℤ) := by exact_mod_cast hlt
      set n := rne (z / 2 ^ e)
      have k1 : z ≤ (n + 1 / 2) * 2 ^ e := by rw [← div_le_iff₀ h2]; linarith
      have k2 : (n + 1 / 2) * 2 ^ e ≤ w := by rw [← le_div_iff₀ h2]; linarith
      have eq : ((n : ℚ) + 1 / 2) * 2 ^ e = ((2 * n + 1 : ℤ) : ℚ) * 2 ^ (e - 1) := by
        rw [zpow_sub₀ (by norm_num), zpow_one]; push_cast; ring
      have hb : |((2 * n + 1 : ℤ) : ℚ)| < 2 ^ (P.p + 1) := by
        have hh : |((n : ℚ) + 1 / 2) * 2 ^ e| < 2 ^ (e + P.p) := by
          rw [_root_.abs_lt] at bz bw ⊢
          exact ⟨by linarith, by linarith⟩
        rw [abs_mul, abs_of_pos h2, zpow_add2, mul_comm, mul_lt_mul_iff_right₀ h2, zpow_natCast] at hh
        have : ((2 * n + 1 : ℤ) : ℚ) = 2 * ((n : ℚ) + 1 / 2) := by push_cast; ring
        rw [this, abs_mul, abs_two, pow_succ]
        linarith
      have hM : P.Mid ((n + 1 / 2) * 2 ^ e) := ⟨2 * n + 1, e - 1, eq, by exact_mod_cast hb, by omega⟩
      have hs := h _ hM
      rcases k1.lt_or_eq with hc | hc
      · exact absurd (hs.1.1 hc) (not_lt.2 k2)
      · have k3 : ¬ (n + 1 / 2) * 2 ^ e < w := fun hc' => absurd (hs.2.2 hc') (by rw [hc]; exact lt_irrefl _)
        have : w = z := by rw [hc]; exact le_antisymm (not_lt.1 k3) k2
        rw [this] at hlt
        exact lt_irrefl _ hlt
    · exact heq
  have bz := P.abs_lt_ex z
  have bw := P.abs_lt_ex w
  rw [ee] at bw
  rw [← he] at bz
  unfold fl
  rw [ee, ← he]
  congr 2
  rcases le_total z w with hle | hle
  · exact key z w h bz bw hle
  · exact (key w z (fun μ hμ => ⟨(h μ hμ).1.symm, (h μ hμ).2.symm⟩) bw bz hle).symm

/-- The format `Q` is wide enough for single operations on numbers of the format `P`. -/
structure Wide (P Q : BinPar) : Prop where
  p : 2 * P.p + 2 ≤ Q.p
  mul : Q.qmin ≤ 2 * P.qmin
  div : Q.qmin + Q.p - 1 ≤ P.qmin - P.p - P.qmax
  bound : 2 * (P.p + P.qmax) ≤ Q.p + Q.qmax
  quot : P.p + P.qmax - P.qmin < Q.p + Q.qmax

theorem wide_32_64 : Wide binary32 binary64 := ⟨by decide, by decide, by decide, by decide, by decide⟩

theorem Wide.qmin (h : Wide P Q) : Q.qmin ≤ P.qmin - 1 := by
  have := h.mul; have := P.hmin; have := P.hp; omega

theorem Wide.rep_mid (h : Wide P Q) {q : ℚ} (hq : P.Mid q) : Q.Rep q := by
  obtain ⟨m, e, h1, h2, h3⟩ := hq
  have := h.qmin
  refine ⟨m, e, h1, h2.trans_le (pow_le_pow_right₀ (by norm_num) ?_), by omega⟩
  have := h.p; omega

theorem Wide.rep (h : Wide P Q) {q : ℚ} (hq : P.Rep q) : Q.Rep q := by
  obtain ⟨m, e, h1, h2, h3⟩ := hq
  have := h.qmin
  refine ⟨m, e, h1, h2.trans_le (pow_le_pow_right₀ (by norm_num) ?_), by omega⟩
  have := h.p; omega

theorem Wide.bound_le (h : Wide P Q) : P.bound ≤ Q.bound := by
  unfold BinPar.bound
  refine zpow_le_zpow_right₀ (by norm_num) ?_
  have := h.bound; have := P.hmax; have := P.hp; omega

theorem Wide.fmt (h : Wide P Q) : ∀ q, P.fmt.rep q → Q.fmt.rep q := fun _ hq => ⟨h.rep hq.1, hq.2.trans_le h.bound_le⟩

/-- Rounding to the wide format first does no harm, unless it produces a number or midpoint of the narrow format. -/
theorem double_round (hW : Wide P Q) {z : ℚ} (h : ∀ μ, P.Mid μ → Q.fl z = μ → z = μ) : P.fl (Q.fl z) = P.fl z := by
  refine (same_side fun μ hμ => ?_).symm
  have hr := hW.rep_mid hμ
  have hne := h μ hμ
  refine ⟨⟨fun hz => ?_, fun hw => ?_⟩, ⟨fun hz => ?_, fun hw => ?_⟩⟩
  · exact lt_of_le_of_ne (Q.fl_le_of_rep hr hz.le) fun hc => hz.ne (hne hc)
  · by_contra hc
    exact absurd (Q.le_fl_of_rep hr (not_lt.1 hc)) (not_le.2 hw)
  · exact lt_of_le_of_ne (Q.le_fl_of_rep hr hz.le) fun hc => hz.ne' (hne hc.symm)
  · by_contra hc
    exact absurd (Q.fl_le_of_rep hr (not_lt.1 hc)) (not_le.2 hw)

theorem double_mul (hW : Wide P Q) {x y : ℚ} (hx : P.Rep x) (hy : P.Rep y) : Q.Rep (x * y) := by
  obtain ⟨m, e, rfl, h2, h3⟩ := hx
  obtain ⟨n, f, rfl, h5, h6⟩ := hy
  have := hW.mul
  have := hW.p
  refine ⟨m * n, e + f, by rw [zpow_add2]; push_cast; ring, ?_, by omega⟩
  rw [abs_mul]
  calc |m| * |n| < 2 ^ P.p * 2 ^ P.p := mul_lt_mul'' h2 h5 (abs_nonneg _) (abs_nonneg _)
    _ = 2 ^ (P.p + P.p) := by rw [pow_add]
    _ ≤ 2 ^ Q.p := pow_le_pow_right₀ (by norm_num) (by omega)

theorem multiple_eq {x y g : ℚ} (hg : 0 < g) {m n : ℤ} (hx : x = m * g) (hy : y = n * g) (h : |x - y| < g) : x = y := by
  rw [hx, hy, ← sub_mul, abs_mul, abs_of_pos hg] at h
  have h1 : |((m : ℚ) - n)| < 1 := by
    by_contra hc
    have := mul_le_mul_of_nonneg_right (not_lt.1 hc) hg.le
    linarith
  have h2 : |m - n| < 1 := by exact_mod_cast h1
  have := Int.abs_lt_one_iff.1 h2
  rw [hx, hy, show m = n by omega]

theorem double_add_aux (hW : Wide P Q) {X Y a b : ℤ} (hX : |X| < 2 ^ P.p) (ha : P.qmin ≤ a) (hY : |Y| < 2 ^ P.p) (hb : P.qmin ≤ b) (hab : b ≤ a) :
    P.fl (Q.fl ((X : ℚ) * 2 ^ a + Y * 2 ^ b)) = P.fl ((X : ℚ) * 2 ^ a + Y * 2 ^ b) := by
  have hp := P.hp
  have hQp := hW.p
  have hQm := hW.qmin
  have b0 := two_zpow_pos b
  have hx : P.Rep ((X : ℚ) * 2 ^ a) := ⟨X, a, rfl, hX, ha⟩
  set x := (X : ℚ) * 2 ^ a with hxd
  set y := (Y : ℚ) * 2 ^ b with hyd
  by_cases hr : Q.Rep (x + y)
  · rw [Q.fl_rep hr]
  have hz : 2 ^ (b + Q.p) < |x + y| := by
    by_contra hc
    refine hr (Q.rep_multiple (e := b) (by omega) (not_lt.1 hc) (m := X * 2 ^ (a - b).toNat + Y) ?_)
    rw [hxd, hyd, zpow_eq_int_mul hab]; push_cast; ring
  have hz2 : 2 ^ (b + (2 * P.p + 2 : ℕ)) < |x + y| := lt_of_le_of_lt (zpow_le_zpow_right₀ (by norm_num) (by push_cast; omega)) hz
  have hy' : |y| < 2 ^ (b + P.p) := by
    rw [hyd, abs_mul, abs_of_pos b0, zpow_add2, mul_comm, zpow_natCast]
    refine mul_lt_mul_of_pos_left ?_ b0
    exact_mod_cast hY
  -- sizes in units of 2 ^ (b + p)
  set g : ℚ := 2 ^ (b + P.p) with hg
  have g0 : 0 < g := two_zpow_pos _
  have e8 : (8 : ℚ) ≤ 2 ^ P.p := by
    calc (8 : ℚ) = 2 ^ 3 := by norm_num
      _ ≤ 2 ^ P.p := pow_le_pow_right₀ (by norm_num) hp
  have eb : (2 : ℚ) ^ (b + (2 * P.p + 2 : ℕ)) = 4 * 2 ^ P.p * g := by
    rw [hg, zpow_add2, zpow_add2, zpow_natCast, zpow_natCast, pow_add, two_mul, pow_add]; ring
  rw [eb] at hz2
  have hgp : 8 * g ≤ 2 ^ P.p * g := mul_le_mul_of_nonneg_right e8 g0.le
  have near : ∀ t : ℚ, P.Rep t → |t - x| < 4 * g → t = x := by
    intro t ht hd
    have ax : |x + y| ≤ |x| + |y| := abs_add_le _ _
    have at' : |x| ≤ |t| + |t - x| := by
      have := abs_sub_abs_le_abs_sub x t
      rw [abs_sub_comm] at this
      linarith
    have big : ∀ s : ℚ, 4 * 2 ^ P.p * g - 5 * g < |s| → P.Rep s → ∃ m : ℤ, s = m * 2 ^ (b + P.p + 2) := by
      intro s hs hrs
      refine hrs.multiple ?_
      have e : (2 : ℚ) ^ (b + (P.p : ℤ) + 2 + P.p - 1) = 2 * 2 ^ P.p * g := by
        rw [hg, show b + (P.p : ℤ) + 2 + P.p - 1 = (b + P.p) + (P.p + 1 : ℕ) by push_cast; ring, zpow_add2 (b + P.p), zpow_natCast, pow_succ]; ring
      rw [e]
      linarith
    obtain ⟨m, hm⟩ := big t (by linarith) ht
    obtain ⟨n, hn⟩ := big x (by linarith) hx
    refine multiple_eq (two_zpow_pos (b + P.p + 2)) hm hn ?_
    rw [zpow_add2 (b + P.p), ← hg]
    norm_num
    linarith
  have n1 : P.fl (x + y) = x := by
    refine near _ (P.rep_fl _) ?_
    have h1 := P.fl_nearest hx (x + y)
    have h2 := abs_sub_le (P.fl (x + y)) (x + y) x
    rw [show x - (x + y) = -y by ring, abs_neg] at h1
    rw [show x + y - x = y by ring] at h2
    linarith
  have n2 : P.fl (Q.fl (x + y)) = x := by
    have h1 := Q.fl_nearest (hW.rep hx) (x + y)
    have h2 := abs_sub_le (Q.fl (x + y)) (x + y) x
    rw [show x - (x + y) = -y by ring, abs_neg] at h1
    rw [show x + y - x = y by ring] at h2
    refine near _ (P.rep_fl _) ?_
    have h3 := P.fl_nearest hx (Q.fl (x + y))
    have h4 := abs_sub_le (P.fl (Q.fl (x + y))) (Q.fl (x + y)) x
    rw [abs_sub_comm x] at h3
    linarith
  rw [n1, n2]

theorem double_add (hW : Wide P Q) {x y : ℚ} (hx : P.Rep x) (hy : P.Rep y) : P.fl (Q.fl (x + y)) = P.fl (x + y) := by
  obtain ⟨X, a, rfl, h2, h3⟩ := hx
  obtain ⟨Y, b, rfl, h5, h6⟩ := hy
  rcases le_total b a with h | h
  · exact double_add_aux hW h2 h3 h5 h6 h
  · rw [add_comm]; exact double_add_aux hW h5 h6 h2 h3 h

theorem double_div (hW : Wide P Q) {x y : ℚ} (hx : P.Rep x) (hy : P.Rep y) (hyb : |y| < P.bound) (hy0 : y ≠ 0) :
    P.fl (Q.fl (x / y)) = P.fl (x / y) := by
  rcases eq_or_ne x 0 with hx0 | hx0
  · rw [hx0, zero_div, Q.fl_zero]
  refine double_round hW fun μ hμ hf => ?_
  have hp := P.hp
  have hQp := hW.p
  have hz0 : 0 < |x / y| := abs_pos.2 (div_ne_zero hx0 hy0)
  have hy1 : 0 < |y| := abs_pos.2 hy0
  -- the quotient is not small
  have hnorm : (2 : ℚ) ^ (Q.qmin + Q.p - 1) ≤ |x / y| := by
    have hxq : (2 : ℚ) ^ P.qmin ≤ |x| := by
      obtain ⟨m, hm⟩ := hx.multiple_qmin
      have hm0 : m ≠ 0 := by rintro rfl; simp at hm; exact hx0 hm
      have : (1 : ℚ) ≤ |(m : ℚ)| := by exact_mod_cast Int.one_le_abs hm0
      rw [hm, abs_mul, abs_of_pos (two_zpow_pos _)]
      exact le_mul_of_one_le_left (two_zpow_pos _).le this
    rw [abs_div, le_div_iff₀ hy1]
    unfold BinPar.bound at hyb
    calc (2 : ℚ) ^ (Q.qmin + Q.p - 1) * |y| ≤ 2 ^ (P.qmin - P.p - P.qmax) * 2 ^ (P.p + P.qmax) :=
          mul_le_mul (zpow_le_zpow_right₀ (by norm_num) hW.div) hyb.le (abs_nonneg _) (two_zpow_pos _).le
      _ = 2 ^ P.qmin := by rw [← zpow_add2]; congr 1; ring
      _ ≤ |x| := hxq
  have err := fl_err_rel hnorm
  rw [hf] at err
  have hu : (2 : ℚ) ^ (-(Q.p : ℤ)) ≤ 2 ^ (-(2 * P.p + 2 : ℤ)) := zpow_le_zpow_right₀ (by norm_num) (by omega)
  obtain ⟨X, a, hxX, hX, ha⟩ := hx
  obtain ⟨Y, b, hyY, hY, hb⟩ := hy
  obtain ⟨M, k, hμM, hM, hk⟩ := hμ
  have a0 := two_zpow_pos a
  have b0 := two_zpow_pos b
  have k0 := two_zpow_pos k
  set U : ℚ := 2 ^ P.p with hU
  have U8 : 8 ≤ U := by
    calc (8 : ℚ) = 2 ^ 3 := by norm_num
      _ ≤ 2 ^ P.p := pow_le_pow_right₀ (by norm_num) hp
  have hX' : |(X : ℚ)| < U := by rw [hU]; exact_mod_cast hX
  have hY' : |(Y : ℚ)| < U := by rw [hU]; exact_mod_cast hY
  have hM' : |(M : ℚ)| < 2 * U := by rw [hU, ← pow_succ']; exact_mod_cast hM
  have eu : (2 : ℚ) ^ (-(2 * P.p + 2 : ℤ)) = 1 / (4 * U * U) := by
    rw [zpow_neg, hU, one_div, show (2 * (P.p : ℤ) + 2) = ((P.p + P.p + 2 : ℕ) : ℤ) by push_cast; ring, zpow_natCast, pow_add, pow_add]; ring
  have err2 : |μ - x / y| * (4 * U * U) ≤ |x / y| := by
    have := err.trans (mul_le_mul_of_nonneg_right hu hz0.le)
    rw [eu, one_div_mul_eq_div, le_div_iff₀ (by positivity)] at this
    exact this
  by_contra hne
  have hd0 : 0 < |μ - x / y| := abs_pos.2 (sub_ne_zero.2 (Ne.symm hne))
  -- the difference times y
  have hD : |μ * y - x| = |μ - x / y| * |y| := by
    rw [← abs_mul, sub_mul, div_mul_cancel₀ _ hy0]
  have hD0 : 0 < |μ * y - x| := by rw [hD]; exact mul_pos hd0 hy1
  have hxy : |x / y| * |y| = |x| := by rw [← abs_mul, div_mul_cancel₀ _ hy0]
  have err3 : |μ * y - x| * (4 * U * U) ≤ |x| := by
    rw [hD, ← hxy]
    have := mul_le_mul_of_nonneg_right err2 hy1.le
    linarith
  have UU : U ≤ 4 * U * U := by nlinarith
  have minmul : ∀ (c : ℤ) (n : ℤ), μ * y - x = n * 2 ^ c → (2 : ℚ) ^ c ≤ |μ * y - x| := by
    intro c n hn
    have hn0 : n ≠ 0 := by
      rintro rfl
      rw [hn] at hD0
      simp at hD0
    have : (1 : ℚ) ≤ |(n : ℚ)| := by exact_mod_cast Int.one_le_abs hn0
    rw [hn, abs_mul, abs_of_pos (two_zpow_pos _)]
    exact le_mul_of_one_le_left (two_zpow_pos _).le this
  rcases le_total a (k + b) with hc | hc
  · -- multiple of 2 ^ a
    have hm := minmul a (M * Y * 2 ^ (k + b - a).toNat - X) (by
      rw [hμM, hyY, hxX]
      have e : (M : ℚ) * 2 ^ k * (Y * 2 ^ b) = M * Y * 2 ^ (k + b) := by rw [zpow_add2]; ring
      rw [e, zpow_eq_int_mul hc]; push_cast; ring)
    have hxa : |x| < U * 2 ^ a := by
      rw [hxX, abs_mul, abs_of_pos a0]
      exact mul_lt_mul_of_pos_right hX' a0
    have m1 := mul_le_mul hm UU (by linarith) (abs_nonneg _)
    linarith
  · -- multiple of 2 ^ (k + b)
    have hm := minmul (k + b) (M * Y - X * 2 ^ (a - (k + b)).toNat) (by
      rw [hμM, hyY, hxX, zpow_eq_int_mul hc, zpow_add2]; push_cast; ring)
    have hμy : |μ * y| ≤ 2 * U * U * 2 ^ (k + b) := by
      rw [hμM, hyY, show (M : ℚ) * 2 ^ k * (Y * 2 ^ b) = M * Y * (2 ^ k * 2 ^ b) by ring, ← zpow_add2, abs_mul, abs_mul,
        abs_of_pos (two_zpow_pos _)]
      exact mul_le_mul_of_nonneg_right (mul_le_mul hM'.le hY'.le (abs_nonneg _) (by linarith)) (two_zpow_pos _).le
    have tri : |x| ≤ |μ * y| + |μ * y - x| := by
      have := abs_sub_abs_le_abs_sub x (μ * y)
      rw [abs_sub_comm] at this
      linarith
    have m1 := mul_le_mul_of_nonneg_right hm (by nlinarith : (0 : ℚ) ≤ 4 * U * U - 1)
    have kb0 := two_zpow_pos (k + b)
    have m2 : (2 : ℚ) ^ (k + b) * (4 * U * U - 1) > 2 * U * U * 2 ^ (k + b) := by
      have : 2 * U * U < 4 * U * U - 1 := by nlinarith
      have := mul_lt_mul_of_pos_left this kb0
      linarith
    linarith

end BinPar
end vm
