import Verif.Lemmas.SqrtC
import Mathlib.Analysis.SpecialFunctions.Pow.Real

/-! # C83: the compile time square root in IEEE arithmetic

`P` is an arbitrary binary format (binary32 and binary64 are instances), arithmetic is rounded to nearest with ties to
even. -/

set_option linter.unusedSectionVars false
set_option linter.unusedSimpArgs false

namespace vm
namespace BinPar
variable (P : BinPar)

theorem rep_half : P.fmt.rep (1 / 2) := by
  have := P.hmin
  have := P.hp
  have := P.one_lt_bound
  refine ⟨⟨1, -1, by norm_num, ?_, by omega⟩, ?_⟩
  · simp only [abs_one]
    exact one_lt_pow₀ (by norm_num) (by omega)
  · rw [abs_of_pos (by norm_num)]; linarith

/-- The literal 0.5. -/
def half : Flt P.fmt := Flt.fin (1 / 2) P.rep_half

theorem rep_le_max {x : ℚ} (hx : P.fmt.rep x) : x ≤ P.bound - 2 ^ P.qmax := by
  have hp := P.hp
  have hz := two_zpow_pos P.qmax
  have hb : P.bound = 2 * 2 ^ (P.qmax + P.p - 1) := by
    unfold bound
    rw [show (P.p : ℤ) + P.qmax = (P.qmax + P.p - 1) + 1 by ring, zpow_add2, zpow_one]; ring
  have hq : (2 : ℚ) ^ P.qmax ≤ 2 ^ (P.qmax + P.p - 1) := zpow_le_zpow_right₀ (by norm_num) (by omega)
  by_cases h : 2 ^ (P.qmax + P.p - 1) ≤ x
  · have hx0 : 0 < x := lt_of_lt_of_le (two_zpow_pos _) h
    obtain ⟨m, hm⟩ := hx.1.multiple (j := P.qmax) (by rw [abs_of_pos hx0]; exact h)
    have h1 := hx.2
    rw [abs_of_pos hx0] at h1
    unfold bound at h1 ⊢
    rw [zpow_add2, zpow_natCast] at h1 ⊢
    rw [hm] at h1 ⊢
    have h2 : (m : ℚ) < 2 ^ P.p := lt_of_mul_lt_mul_right h1 hz.le
    have h3 : m < 2 ^ P.p := by exact_mod_cast h2
    have h4 : (m : ℚ) ≤ 2 ^ P.p - 1 := by exact_mod_cast (by omega : m ≤ 2 ^ P.p - 1)
    nlinarith
  · rw [not_le] at h
    linarith

theorem fl_add_one_lt {x : ℚ} (hx : P.fmt.rep x) : P.fl (x + 1) < P.bound := by
  have h1 := P.rep_le_max hx
  by_contra hc
  rw [not_lt] at hc
  have hz : (4 : ℚ) ≤ 2 ^ P.qmax := by
    have := zpow_le_zpow_right₀ (by norm_num : (1 : ℚ) ≤ 2) P.hmax
    norm_num at this; exact this
  have hr : P.Rep (P.bound - 2 ^ P.qmax) := by
    refine ⟨2 ^ P.p - 1, P.qmax, ?_, ?_, ?_⟩
    · unfold bound; rw [zpow_add2, zpow_natCast]; push_cast; ring
    · have : (1 : ℤ) ≤ 2 ^ P.p := one_le_pow₀ (by norm_num)
      rw [abs_of_nonneg (by omega)]; omega
    · have := P.hmin; have := P.hmax; omega
  rcases P.mean_le_of_fl (y := x + 1) hr (by linarith) with h | h
  · linarith
  · linarith

namespace Near
variable {P} {x : ℚ} {k A : ℤ} (N : P.Near x k A)
include N

theorem two_b_lt (hx : P.fmt.rep x) : 2 * ((A : ℚ) * 2 ^ k + 2 ^ k) < P.bound := by
  have h1 := N.hi_q
  have h2 := N.lo_q
  have h3 := N.le
  have h4 := hx.2
  have hp := P.hp
  have hq := P.hmax
  rw [abs_of_pos N.x_pos] at h4
  have h5 : (2 : ℚ) ^ (2 * (k + P.p - 1)) < 2 ^ (P.p + P.qmax) := by
    rw [two_mul, zpow_add2, ← sq]
    have : ((2 : ℚ) ^ (k + P.p - 1)) ^ 2 ≤ (A * 2 ^ k) ^ 2 := pow_le_pow_left₀ (two_zpow_pos _).le h2 2
    exact lt_of_le_of_lt (this.trans h3) h4
  have h6 := (zpow_lt_zpow_iff_right₀ (by norm_num : (1 : ℚ) < 2)).1 h5
  have h7 : (2 : ℚ) * 2 ^ (k + P.p) < P.bound := by
    unfold bound
    rw [show (2 : ℚ) * 2 ^ (k + P.p) = 2 ^ (k + P.p + 1) by rw [zpow_add2 _ 1, zpow_one]; ring]
    exact zpow_lt_zpow_right₀ (by norm_num) (by omega)
  linarith

/-- The states that the iteration runs through. -/
def Inv (_ : P.Near x k A) (c : ℚ) : Prop := P.Rep c ∧ A * 2 ^ k ≤ c ∧ 2 * c < P.bound

theorem inv_pos {c : ℚ} (h : N.Inv c) : 0 < c := by
  have hu := N.u_pos
  have hA := N.A_pos
  have ha : (0 : ℚ) < A * 2 ^ k := by positivity
  linarith [h.2.1]

theorem inv_rep {c : ℚ} (h : N.Inv c) : P.fmt.rep c :=
  ⟨h.1, by rw [abs_of_pos (N.inv_pos h)]; linarith [h.2.2, N.inv_pos h]⟩

theorem ge_b {c : ℚ} (hr : P.Rep c) (h : A * 2 ^ k < c) : A * 2 ^ k + 2 ^ k ≤ c := by
  have hu := N.u_pos
  obtain ⟨m, hm⟩ := N.multiple hr (by linarith [N.lo_q])
  rw [hm] at h ⊢
  have : (A : ℚ) < m := lt_of_mul_lt_mul_right h hu.le
  have : A < m := by exact_mod_cast this
  have : (A : ℚ) + 1 ≤ m := by exact_mod_cast this
  nlinarith

theorem inv_newt (hx : P.fmt.rep x) {c : ℚ} (h : N.Inv c) : N.Inv (P.newt x c) := by
  have hu := N.u_pos
  have hA := N.A_pos
  obtain ⟨h1, h2, h3⟩ := N.newt_eq (N.inv_pos h) (Or.inl h.2.1)
  refine ⟨h2, h3, ?_⟩
  have h4 := N.two_b_lt hx
  rcases h.2.1.eq_or_lt with h5 | h5
  · rcases N.newt_a with h6 | h6 <;> rw [← h5, h6] <;> linarith
  · have := N.newt_le h.1 (N.ge_b h.1 h5)
    linarith [h.2.2]

theorem quot_bound (hx : P.fmt.rep x) {c : ℚ} (h : N.Inv c) : 0 ≤ P.fl (x / c) ∧ P.fl (x / c) < P.bound := by
  have hu := N.u_pos
  have hA := N.A_pos
  have hx0 := N.x_pos
  have hc := N.inv_pos h
  have ha : (0 : ℚ) < A * 2 ^ k := by positivity
  refine ⟨P.fl_nonneg (by positivity), ?_⟩
  have h1 : P.fl (x / c) ≤ P.fl (x / (A * 2 ^ k)) := P.fl_mono (div_le_div_of_nonneg_left hx0.le ha h.2.1)
  have h2 := N.quot_le
  have h3 := N.two_b_lt hx
  linarith

theorem sum_bound (hx : P.fmt.rep x) {c : ℚ} (h : N.Inv c) : P.fl (c + P.fl (x / c)) < P.bound := by
  have h1 := (N.newt_eq (N.inv_pos h) (Or.inl h.2.1)).1
  have h2 := (N.inv_newt hx h).2.2
  linarith

end Near

/-- One step of the loop on floats. -/
theorem step_eq {x c : ℚ} (hx : P.fmt.rep x) (hc : P.fmt.rep c) (h0 : c ≠ 0) (h1 : |P.fl (x / c)| < P.bound)
    (h2 : |P.fl (c + P.fl (x / c))| < P.bound) (h3 : P.fmt.rep (P.newt x c)) :
    P.half * (Flt.fin c hc + Flt.fin x hx / Flt.fin c hc) = (Flt.fin (P.newt x c) h3 : Flt P.fmt) := by
  have e1 : (Flt.fin x hx / Flt.fin c hc : Flt P.fmt) = Flt.fin (F := P.fmt) (P.fl (x / c)) ⟨P.rep_fl _, h1⟩ := by
    show (if c = 0 then Flt.infTimes x else Flt.round (x / c)) = _
    rw [if_neg h0, P.round_eq h1]
  have e2 : (Flt.fin c hc + Flt.fin (F := P.fmt) (P.fl (x / c)) ⟨P.rep_fl _, h1⟩ : Flt P.fmt) =
      Flt.fin (F := P.fmt) (P.fl (c + P.fl (x / c))) ⟨P.rep_fl _, h2⟩ := P.round_eq h2
  rw [e1, e2]
  exact P.round_eq h3.2

theorem eq_fin {a b : ℚ} (ha : P.fmt.rep a) (hb : P.fmt.rep b) :
    Cmp.eq (Flt.fin a ha : Flt P.fmt) (Flt.fin b hb) = decide (a = b) := by
  have h : (Cmp.eq (Flt.fin a ha : Flt P.fmt) (Flt.fin b hb) = true) ↔ a = b := by
    rw [IEEE.eq_iff]
    show (∃ y, some (Ext.ofRat a) = some y ∧ some (Ext.ofRat b) = some y) ↔ _
    constructor
    · rintro ⟨y, h1, h2⟩
      have := (Option.some.inj h1).trans (Option.some.inj h2).symm
      exact WithTop.coe_injective (WithBot.coe_injective this)
    · rintro rfl; exact ⟨_, rfl, rfl⟩
  by_cases hab : a = b
  · rw [decide_eq_true hab]; exact h.2 hab
  · rw [decide_eq_false hab]
    rw [← Bool.not_eq_true]; exact fun hc => hab (h.1 hc)

theorem le_fin {a b : ℚ} (ha : P.fmt.rep a) (hb : P.fmt.rep b) :
    Cmp.le (Flt.fin a ha : Flt P.fmt) (Flt.fin b hb) = decide (a ≤ b) := by
  have h : (Cmp.le (Flt.fin a ha : Flt P.fmt) (Flt.fin b hb) = true) ↔ a ≤ b := by
    rw [IEEE.le_iff]
    show (∃ y z, some (Ext.ofRat a) = some y ∧ some (Ext.ofRat b) = some z ∧ y ≤ z) ↔ _
    constructor
    · rintro ⟨y, z, h1, h2, h3⟩
      rw [← Option.some.inj h1, ← Option.some.inj h2] at h3
      exact WithTop.coe_le_coe.1 (WithBot.coe_le_coe.1 h3)
    · intro h; exact ⟨_, _, rfl, rfl, WithBot.coe_le_coe.2 (WithTop.coe_le_coe.2 h)⟩
  by_cases hab : a ≤ b
  · rw [decide_eq_true hab]; exact h.2 hab
  · rw [decide_eq_false hab]
    rw [← Bool.not_eq_true]; exact fun hc => hab (h.1 hc)

namespace Near
variable {P} {x : ℚ} {k A : ℤ} (N : P.Near x k A)
include N

theorem step {c : ℚ} (hx : P.fmt.rep x) (h : N.Inv c) :
    P.half * (Flt.fin c (N.inv_rep h) + Flt.fin x hx / Flt.fin c (N.inv_rep h)) =
      (Flt.fin (P.newt x c) (N.inv_rep (N.inv_newt hx h)) : Flt P.fmt) := by
  have h1 := N.quot_bound hx h
  have h2 := N.sum_bound hx h
  have h3 := N.sum_ge (N.inv_pos h) (Or.inl h.2.1)
  have hu := N.u_pos
  have hA := N.A_pos
  have ha : (0 : ℚ) < A * 2 ^ k := by positivity
  exact P.step_eq hx _ (N.inv_pos h).ne' (by rw [abs_of_nonneg h1.1]; exact h1.2)
    (by rw [abs_of_nonneg (by linarith)]; exact h2) _

/-- The iteration becomes stationary. -/
theorem stationary (hx : P.fmt.rep x) : ∀ (d : ℕ) (c : ℚ), N.Inv c → c ≤ (A + d) * 2 ^ k →
    ∃ n, (P.newt x)^[n + 1] c = (P.newt x)^[n] c := by
  have hu := N.u_pos
  intro d
  induction d using Nat.strong_induction_on with
  | _ d ih =>
  intro c hc hd
  rcases lt_or_ge ((A : ℚ) * 2 ^ k + 2 ^ k) c with h | h
  · have h1 := N.newt_lt hc.1 h
    have h2 := N.inv_newt hx hc
    obtain ⟨m, hm⟩ := N.multiple h2.1 (N.lo_q.trans h2.2.1)
    obtain ⟨l, hl⟩ := N.multiple hc.1 (N.lo_q.trans hc.2.1)
    have h3 : (A : ℚ) ≤ m := le_of_mul_le_mul_right (by rw [← hm]; exact h2.2.1) hu
    have h3' : A ≤ m := by exact_mod_cast h3
    have h4 : (m : ℚ) < l := lt_of_mul_lt_mul_right (by rw [← hm, ← hl]; exact h1) hu.le
    have h4' : m < l := by exact_mod_cast h4
    have h5 : (l : ℚ) ≤ A + d := le_of_mul_le_mul_right (by rw [← hl]; exact hd) hu
    have h5' : l ≤ A + d := by exact_mod_cast h5
    obtain ⟨n, hn⟩ := ih (m - A).toNat (by omega) _ h2 (by
      rw [hm]
      refine mul_le_mul_of_nonneg_right ?_ hu.le
      have : m ≤ A + ((m - A).toNat : ℤ) := by omega
      exact_mod_cast this)
    exact ⟨n + 1, hn⟩
  · have ha := N.newt_a
    have hb : P.newt x (A * 2 ^ k + 2 ^ k) = A * 2 ^ k ∨ P.newt x (A * 2 ^ k + 2 ^ k) = A * 2 ^ k + 2 ^ k := by
      have hA := N.A_pos
      have hb0 : (0 : ℚ) < A * 2 ^ k + 2 ^ k := by positivity
      have hle := N.newt_le N.rep_b le_rfl
      have h1 := N.newt_eq hb0 (Or.inl (by linarith))
      rcases h1.2.2.eq_or_lt with h2 | h2
      · exact Or.inl h2.symm
      · exact Or.inr (le_antisymm hle (N.ge_b h1.2.1 h2))
    have hno := N.no_cycle
    have hcc : c = A * 2 ^ k ∨ c = A * 2 ^ k + 2 ^ k := by
      rcases hc.2.1.eq_or_lt with h1 | h1
      · exact Or.inl h1.symm
      · exact Or.inr (le_antisymm h (N.ge_b hc.1 h1))
    rcases hcc with rfl | rfl
    · rcases ha with h1 | h1
      · exact ⟨0, h1⟩
      · rcases hb with h2 | h2
        · exact (hno h1 h2).elim
        · exact ⟨1, by simp [h1, h2]⟩
    · rcases hb with h2 | h2
      · rcases ha with h1 | h1
        · exact ⟨1, by simp [h1, h2]⟩
        · exact (hno h1 h2).elim
      · exact ⟨0, h2⟩

theorem loop (hx : P.fmt.rep x) : ∀ (n : ℕ) (c prev : ℚ) (hc : N.Inv c) (hp : P.fmt.rep prev), P.newt x prev = c →
    (P.newt x)^[n + 1] c = (P.newt x)^[n] c →
    ∃ (r : ℚ) (hr : N.Inv r), P.newt x r = r ∧ ∀ f, n + 1 ≤ f →
      sqrtNR P.half (Flt.fin x hx) f (Flt.fin c (N.inv_rep hc)) (Flt.fin prev hp) = some (Flt.fin r (N.inv_rep hr)) := by
  intro n
  induction n with
  | zero =>
    intro c prev hc hp h1 h2
    refine ⟨c, hc, h2, ?_⟩
    intro f hf
    obtain ⟨f, rfl⟩ : ∃ g, f = g + 1 := ⟨f - 1, by omega⟩
    simp only [sqrtNR, P.eq_fin, decide_eq_true_eq]
    by_cases h3 : c = prev
    · rw [if_pos h3]
    · rw [if_neg h3, N.step hx hc]
      have h4 : P.newt x c = c := h2
      cases f <;> simp only [sqrtNR, P.eq_fin, decide_eq_true_eq, if_pos h4] <;> congr 2
  | succ n ih =>
    intro c prev hc hp h1 h2
    by_cases h3 : c = prev
    · refine ⟨c, hc, by rw [← h3] at h1; exact h1, ?_⟩
      intro f hf
      obtain ⟨f, rfl⟩ : ∃ g, f = g + 1 := ⟨f - 1, by omega⟩
      simp only [sqrtNR, P.eq_fin, decide_eq_true_eq, if_pos h3]
    · obtain ⟨r, hr, hr1, hr2⟩ := ih (P.newt x c) c (N.inv_newt hx hc) (N.inv_rep hc) rfl h2
      refine ⟨r, hr, hr1, ?_⟩
      intro f hf
      obtain ⟨f, rfl⟩ : ∃ g, f = g + 1 := ⟨f - 1, by omega⟩
      simp only [sqrtNR, P.eq_fin, decide_eq_true_eq, if_neg h3]
      rw [N.step hx hc]
      exact hr2 f (by omega)

end Near

end BinPar

open BinPar

/-- `sqrt_c` in IEEE arithmetic terminates for every finite non-negative argument.  Its result is a finite number `r` with
no number of the format strictly between `r` and the exact root; if the exact root is a number of the format then it is
the result.  The relative error is less than `2^(1-p)`. -/
theorem C83_sqrt_c (P : BinPar) (x : ℚ) (hx : P.fmt.rep x) (h0 : 0 ≤ x) :
    ∃ (r : ℚ) (hr : P.fmt.rep r) (fuel : ℕ),
      (∀ n, fuel ≤ n → sqrtC P.half Flt.pinf Flt.nan n (Flt.fin x hx) = some (Flt.fin r hr)) ∧ 0 ≤ r ∧
      (∀ y, P.fmt.rep y → 0 ≤ y → (y < r → y * y < x) ∧ (r < y → x < y * y)) ∧
      |(r : ℝ) - Real.sqrt x| ≤ 2 ^ (1 - (P.p : ℤ)) * Real.sqrt x := by
  have hnan : isNan (Flt.fin x hx : Flt P.fmt) = false := by
    unfold isNan; rw [P.eq_fin]; simp
  have hinf : Cmp.eq (Flt.fin x hx : Flt P.fmt) Flt.pinf = false := by
    rw [← Bool.not_eq_true, IEEE.eq_iff]
    rintro ⟨y, h1, h2⟩
    have h1' : Ext.ofRat x = y := Option.some.inj h1
    have h2' : ((⊤ : WithTop ℚ) : WithBot (WithTop ℚ)) = y := Option.some.inj h2
    exact absurd (WithBot.coe_injective (h1'.trans h2'.symm)) WithTop.coe_ne_top
  have hle : Cmp.le (0 : Flt P.fmt) (Flt.fin x hx) = true := by
    show Cmp.le (Flt.fin 0 P.fmt.rep_zero : Flt P.fmt) (Flt.fin x hx) = true
    rw [P.le_fin]; simpa using h0
  have hC : ∀ n, sqrtC P.half Flt.pinf Flt.nan n (Flt.fin x hx) =
      sqrtNR P.half (Flt.fin x hx) n (Flt.fin x hx) (Flt.fin 0 P.fmt.rep_zero) := by
    intro n
    unfold sqrtC
    rw [hnan, hinf, hle]; rfl
  rcases h0.eq_or_lt with h | hpos
  · subst h
    refine ⟨0, hx, 0, ?_, le_rfl, ?_, by simp⟩
    · intro n _
      rw [hC]
      cases n <;> simp only [sqrtNR, P.eq_fin, decide_true, if_true]
    · intro y _ hy
      exact ⟨fun h => by linarith, fun h => by positivity⟩
  obtain ⟨k, A, N⟩ := P.exists_near hx.1 hpos
  have hu := N.u_pos
  have hA := N.A_pos
  have ha : (0 : ℚ) < A * 2 ^ k := by positivity
  have hdiv : x / x = 1 := div_self hpos.ne'
  have hrep1 : P.Rep (x / x) := by rw [hdiv]; exact P.rep_one
  obtain ⟨e1, e2, e3⟩ := N.newt_eq hpos (Or.inr hrep1)
  have hfl1 : P.fl (x / x) = 1 := by rw [hdiv]; exact P.fl_rep P.rep_one
  have hsum : P.fl (x + P.fl (x / x)) < P.bound := by rw [hfl1]; exact P.fl_add_one_lt hx
  have hge := N.sum_ge hpos (Or.inr hrep1)
  have hinv : N.Inv (P.newt x x) := ⟨e2, e3, by rw [e1]; linarith⟩
  obtain ⟨m, hm⟩ := N.multiple e2 (N.lo_q.trans e3)
  obtain ⟨n, hn⟩ := N.stationary hx (m - A).toNat _ hinv (by
    rw [hm]
    refine mul_le_mul_of_nonneg_right ?_ hu.le
    have : m ≤ A + ((m - A).toNat : ℤ) := by omega
    exact_mod_cast this)
  obtain ⟨r, hr, hr1, hr2⟩ := N.loop hx n _ x hinv hx rfl hn
  have hrab : r = A * 2 ^ k ∨ r = A * 2 ^ k + 2 ^ k := by
    rcases hr.2.1.eq_or_lt with h | h
    · exact Or.inl h.symm
    · right
      refine le_antisymm ?_ (N.ge_b hr.1 h)
      by_contra hc
      rw [not_le] at hc
      have := N.newt_lt hr.1 hc
      linarith
  have hrpos := N.inv_pos hr
  refine ⟨r, N.inv_rep hr, n + 2, ?_, hrpos.le, ?_, ?_⟩
  · intro f hf
    rw [hC]
    obtain ⟨f, rfl⟩ : ∃ g, f = g + 1 := ⟨f - 1, by omega⟩
    simp only [sqrtNR, P.eq_fin, decide_eq_true_eq, if_neg hpos.ne']
    rw [P.step_eq hx hx hpos.ne' (by rw [hfl1]; simpa using P.one_lt_bound)
      (by rw [abs_of_nonneg (by linarith)]; exact hsum) (N.inv_rep hinv)]
    exact hr2 f (by omega)
  · intro y hy hy0
    have hlow := N.le
    have hhigh := N.lt
    constructor
    · intro hyr
      rcases hrab with h | h
      · rw [h] at hyr; nlinarith
      · have hya : y ≤ A * 2 ^ k := by
          by_contra hc
          have := N.ge_b hy.1 (not_le.1 hc)
          linarith
        rcases hya.eq_or_lt with h1 | h1
        · refine lt_of_le_of_ne (by rw [h1, ← sq]; exact hlow) fun h2 => ?_
          have h3 := N.newt_b_of_square (by rw [← h2, h1]; ring)
          rw [← h, hr1] at h3
          linarith
        · nlinarith
    · intro hry
      have hyb : A * 2 ^ k + 2 ^ k ≤ y := by
        apply N.ge_b hy.1
        rcases hrab with h | h <;> linarith
      nlinarith
  · have hlow := N.le
    have hhigh := N.lt
    have hs0 : (0 : ℝ) ≤ A * 2 ^ k := by
      have : (0 : ℝ) ≤ ((A * 2 ^ k : ℚ) : ℝ) := by exact_mod_cast ha.le
      push_cast at this; exact this
    have s1 : ((A : ℝ) * 2 ^ k) ≤ Real.sqrt x := by
      apply Real.le_sqrt_of_sq_le
      have : (((A * 2 ^ k) ^ 2 : ℚ) : ℝ) ≤ x := by exact_mod_cast hlow
      push_cast at this; exact this
    have s2 : Real.sqrt x ≤ (A : ℝ) * 2 ^ k + 2 ^ k := by
      apply Real.sqrt_le_iff.2
      refine ⟨by positivity, ?_⟩
      have : (x : ℝ) ≤ (((A * 2 ^ k + 2 ^ k) ^ 2 : ℚ) : ℝ) := by exact_mod_cast hhigh.le
      push_cast at this; exact this
    have s3 : (2 : ℝ) ^ k ≤ 2 ^ (1 - (P.p : ℤ)) * Real.sqrt x := by
      have h1 := N.lo_q
      have h2 : (2 : ℝ) ^ (k + P.p - 1) ≤ A * 2 ^ k := by
        have : (((2 : ℚ) ^ (k + P.p - 1) : ℚ) : ℝ) ≤ ((A * 2 ^ k : ℚ) : ℝ) := by exact_mod_cast h1
        push_cast at this; exact this
      calc (2 : ℝ) ^ k = 2 ^ (1 - (P.p : ℤ)) * 2 ^ (k + P.p - 1) := by
            rw [← zpow_add₀ (by norm_num : (2 : ℝ) ≠ 0)]; congr 1; ring
        _ ≤ 2 ^ (1 - (P.p : ℤ)) * Real.sqrt x :=
            mul_le_mul_of_nonneg_left (h2.trans s1) (by positivity)
    rw [abs_le]
    rcases hrab with h | h
    · rw [h]; push_cast
      constructor <;> linarith [show (0 : ℝ) < 2 ^ k by positivity]
    · rw [h]; push_cast
      constructor <;> linarith [show (0 : ℝ) < 2 ^ k by positivity]

/-- The remaining arguments: NaN, the infinities and negative numbers. -/
theorem C83_special (P : BinPar) (n : ℕ) :
    sqrtC P.half Flt.pinf Flt.nan n (Flt.nan : Flt P.fmt) = some Flt.nan ∧
    sqrtC P.half Flt.pinf Flt.nan n (Flt.pinf : Flt P.fmt) = some Flt.pinf ∧
    sqrtC P.half Flt.pinf Flt.nan n (Flt.ninf : Flt P.fmt) = some Flt.nan ∧
    ∀ x (hx : P.fmt.rep x), x < 0 → sqrtC P.half Flt.pinf Flt.nan n (Flt.fin x hx : Flt P.fmt) = some Flt.nan := by
  have hne : ∀ q : ℚ, (Ext.ofRat q : Ext) ≠ ((⊤ : WithTop ℚ) : WithBot (WithTop ℚ)) := fun q h =>
    absurd (WithBot.coe_injective h) WithTop.coe_ne_top
  refine ⟨rfl, ?_, ?_, ?_⟩
  · unfold sqrtC
    have : Cmp.eq (Flt.pinf : Flt P.fmt) Flt.pinf = true := by
      rw [IEEE.eq_iff]; exact ⟨_, rfl, rfl⟩
    rw [this]; simp
  · unfold sqrtC
    have h1 : isNan (Flt.ninf : Flt P.fmt) = false := by
      have : Cmp.eq (Flt.ninf : Flt P.fmt) Flt.ninf = true := by
        rw [IEEE.eq_iff]; exact ⟨_, rfl, rfl⟩
      unfold isNan; rw [this]; rfl
    have h2 : Cmp.eq (Flt.ninf : Flt P.fmt) Flt.pinf = false := by
      rw [← Bool.not_eq_true, IEEE.eq_iff]
      rintro ⟨y, h1, h2⟩
      have h1' : (⊥ : Ext) = y := Option.some.inj h1
      have h2' : ((⊤ : WithTop ℚ) : WithBot (WithTop ℚ)) = y := Option.some.inj h2
      exact absurd (h1'.trans h2'.symm) WithBot.bot_ne_coe
    have h3 : Cmp.le (0 : Flt P.fmt) Flt.ninf = false := by
      rw [← Bool.not_eq_true, IEEE.le_iff]
      rintro ⟨y, z, h1, h2, h3⟩
      have h1' : Ext.ofRat 0 = y := Option.some.inj h1
      have h2' : (⊥ : Ext) = z := Option.some.inj h2
      rw [← h1', ← h2'] at h3
      exact Ext.not_le_bot 0 h3
    rw [h1, h2, h3]; rfl
  · intro x hx h0
    unfold sqrtC
    have h1 : isNan (Flt.fin x hx : Flt P.fmt) = false := by unfold isNan; rw [P.eq_fin]; simp
    have h2 : Cmp.eq (Flt.fin x hx : Flt P.fmt) Flt.pinf = false := by
      rw [← Bool.not_eq_true, IEEE.eq_iff]
      rintro ⟨y, h1, h2⟩
      have h1' : Ext.ofRat x = y := Option.some.inj h1
      have h2' : ((⊤ : WithTop ℚ) : WithBot (WithTop ℚ)) = y := Option.some.inj h2
      exact hne x (h1'.trans h2'.symm)
    have h3 : Cmp.le (0 : Flt P.fmt) (Flt.fin x hx) = false := by
      show Cmp.le (Flt.fin 0 P.fmt.rep_zero : Flt P.fmt) (Flt.fin x hx) = false
      rw [P.le_fin]; simpa using h0
    rw [h1, h2, h3]; rfl

/-- In particular the square root of a square is exact in `double`. -/
theorem C83_exact_square (P : BinPar) (y : ℚ) (hy : P.fmt.rep y) (h0 : 0 ≤ y) (hx : P.fmt.rep (y * y)) :
    ∃ fuel, ∀ n, fuel ≤ n → sqrtC P.half Flt.pinf Flt.nan n (Flt.fin (y * y) hx) = some (Flt.fin y hy) := by
  obtain ⟨r, hr, fuel, h1, h2, h3, _⟩ := C83_sqrt_c P (y * y) hx (mul_self_nonneg y)
  have h4 := h3 y hy h0
  have : r = y := by
    rcases lt_trichotomy r y with h | h | h
    · exact absurd (h4.2 h) (lt_irrefl _)
    · exact h
    · exact absurd (h4.1 h) (lt_irrefl _)
  subst this
  exact ⟨fuel, h1⟩

/-- 2, whose root is irrational, and 9 are numbers of type `double`. -/
example : binary64.fmt.rep 2 ∧ binary64.fmt.rep 3 ∧ binary64.fmt.rep (3 * 3) := by
  have h : ∀ n : ℤ, |n| ≤ 9 → binary64.fmt.rep n := by
    intro n hn
    refine ⟨binary64.rep_int (hn.trans (by norm_num [binary64])), ?_⟩
    have h1 : |(n : ℚ)| ≤ 9 := by exact_mod_cast hn
    refine lt_of_le_of_lt h1 ?_
    have : ((2 : ℚ) ^ 4) < 2 ^ ((53 : ℕ) + (971 : ℤ)) := by
      rw [← zpow_natCast]; exact zpow_lt_zpow_right₀ (by norm_num) (by norm_num)
    refine lt_trans (by norm_num) this
  exact ⟨by exact_mod_cast h 2 (by norm_num), by exact_mod_cast h 3 (by norm_num), by
    have := h 9 (by norm_num); norm_num at this ⊢; exact this⟩

end vm
