import Verif.Props.FltProducts

/-! C106: `is_between` in IEEE arithmetic. -/

set_option linter.unusedSectionVars false
set_option linter.unusedSimpArgs false

namespace vm

variable {P : BinPar} {S : ℕ}

/-! ### Signs -/

/-- Not negative, or NaN. -/
def NonNegN {F : Fmt} : Flt F → Prop
  | Flt.ninf => False
  | Flt.fin q _ => 0 ≤ q
  | _ => True

/-- Not positive, or NaN. -/
def NonPosN {F : Fmt} : Flt F → Prop
  | Flt.pinf => False
  | Flt.fin q _ => q ≤ 0
  | _ => True

theorem nn_lt {a : Flt P.fmt} (h : NonNegN a) : Cmp.lt a 0 = false := by
  rcases a with _ | _ | _ | ⟨q, hq⟩
  · rfl
  · exact h.elim
  · exact decide_eq_false (not_lt.2 (Ext.le_top' _))
  · rw [Flt.lt_val (a := Flt.fin q hq) trivial Flt.zero_finite]
    exact decide_eq_false (not_lt.2 h)

theorem nn_round {q : ℚ} (h : 0 ≤ q) : NonNegN (Flt.round q : Flt P.fmt) := by
  have h1 : Cmp.lt (Flt.round q : Flt P.fmt) 0 = false := by
    rw [Flt.round_lt Flt.zero_finite]
    exact decide_eq_false (not_lt.2 (P.fl_nonneg h))
  generalize (Flt.round q : Flt P.fmt) = x at h1 ⊢
  rcases x with _ | _ | _ | ⟨r, hr⟩
  · trivial
  · have : Cmp.lt (Flt.ninf : Flt P.fmt) 0 = true := decide_eq_true (WithBot.bot_lt_coe _)
    rw [this] at h1; exact Bool.noConfusion h1
  · trivial
  · rw [Flt.lt_val (a := Flt.fin r hr) trivial Flt.zero_finite] at h1
    exact not_lt.1 (of_decide_eq_false h1)

theorem np_round {q : ℚ} (h : q ≤ 0) : NonPosN (Flt.round q : Flt P.fmt) := by
  have h1 := nn_round (P := P) (q := -q) (by linarith)
  rw [Flt.round_neg] at h1
  generalize (Flt.round q : Flt P.fmt) = x at h1 ⊢
  rcases x with _ | _ | _ | ⟨r, hr⟩
  · trivial
  · trivial
  · exact h1
  · exact neg_nonneg.1 h1

theorem nn_infTimes {F : Fmt} {q : ℚ} (h : 0 ≤ q) : NonNegN (Flt.infTimes q : Flt F) := by
  unfold Flt.infTimes
  split_ifs with h1 h2
  · trivial
  · trivial
  · exact absurd (lt_of_le_of_ne h (Ne.symm h1)) h2

theorem np_infTimes {F : Fmt} {q : ℚ} (h : q ≤ 0) : NonPosN (Flt.infTimes q : Flt F) := by
  unfold Flt.infTimes
  split_ifs with h1 h2
  · trivial
  · linarith
  · trivial

theorem nn_add {a b : Flt P.fmt} (ha : NonNegN a) (hb : NonNegN b) : NonNegN (a + b) := by
  rcases a with _ | _ | _ | ⟨q, hq⟩ <;> rcases b with _ | _ | _ | ⟨r, hr⟩ <;> try trivial
  exact nn_round (add_nonneg ha hb)

theorem nn_mul {a b : Flt P.fmt} (ha : NonNegN a) (hb : NonNegN b) : NonNegN (a * b) := by
  rcases a with _ | _ | _ | ⟨q, hq⟩ <;> rcases b with _ | _ | _ | ⟨r, hr⟩ <;> try trivial
  · exact nn_infTimes hb
  · exact nn_infTimes ha
  · exact nn_round (mul_nonneg ha hb)

theorem nn_mul_np {a b : Flt P.fmt} (ha : NonPosN a) (hb : NonPosN b) : NonNegN (a * b) := by
  rcases a with _ | _ | _ | ⟨q, hq⟩ <;> rcases b with _ | _ | _ | ⟨r, hr⟩ <;> try trivial
  · exact nn_infTimes (neg_nonneg.2 hb)
  · exact nn_infTimes (neg_nonneg.2 ha)
  · exact nn_round (mul_nonneg_of_nonpos_of_nonpos ha hb)

theorem nn_mul_self (a : Flt P.fmt) : NonNegN (a * a) := by
  rcases a with _ | _ | _ | ⟨q, hq⟩ <;> try trivial
  exact nn_round (mul_self_nonneg q)

theorem nn_div {a b : Flt P.fmt} (ha : NonNegN a) (hb : NonNegN b) : NonNegN (a / b) := by
  rcases a with _ | _ | _ | ⟨q, hq⟩ <;> rcases b with _ | _ | _ | ⟨r, hr⟩ <;> try trivial
  · show NonNegN (if 0 ≤ r then Flt.pinf else Flt.ninf : Flt P.fmt)
    rw [if_pos (show 0 ≤ r from hb)]; trivial
  · show NonNegN (if r = 0 then Flt.infTimes q else Flt.round (q / r) : Flt P.fmt)
    split_ifs
    · exact nn_infTimes ha
    · exact nn_round (div_nonneg ha hb)

theorem np_div {a b : Flt P.fmt} (ha : NonPosN a) (hb : NonNegN b) : NonPosN (a / b) := by
  rcases a with _ | _ | _ | ⟨q, hq⟩ <;> rcases b with _ | _ | _ | ⟨r, hr⟩ <;> try trivial
  · show NonPosN (if 0 ≤ r then Flt.ninf else Flt.pinf : Flt P.fmt)
    rw [if_pos (show 0 ≤ r from hb)]; trivial
  · show NonPosN (if r = 0 then Flt.infTimes q else Flt.round (q / r) : Flt P.fmt)
    split_ifs
    · exact np_infTimes ha
    · exact np_round (div_nonpos_of_nonpos_of_nonneg ha hb)

theorem nn_dot : ∀ {S : ℕ} (a b : Vec (Flt P.fmt) S), (∀ i, NonNegN (a i * b i)) → NonNegN (dot a b)
  | 0, _, _, _ => le_refl (0 : ℚ)
  | S + 1, a, b, h => by
    rw [dot_succ']
    exact nn_add (nn_dot _ _ fun i => h i.castSucc) (h _)

theorem nn_length {s : Flt P.fmt → Flt P.fmt} (hs : FaithfulSqrt P s) (v : Vec (Flt P.fmt) S) : NonNegN (lengthG s v) := by
  have h : NonNegN (squaredLength v) := nn_dot v v fun i => nn_mul_self _
  unfold lengthG
  rcases hq : squaredLength v with _ | _ | _ | ⟨q, hr⟩ <;> rw [hq] at h
  · rw [hs.nan]; trivial
  · exact h.elim
  · rw [hs.pinf]; trivial
  · obtain ⟨r, hr', h1, h2⟩ := hs.fin q hr h
    rw [h1]; exact h2.1

theorem Flt.veq_iff {a b : Vec (Flt P.fmt) S} : veq a b = true ↔ a = b := by
  rw [vm.veq_iff]
  refine ⟨fun h => funext fun i => ?_, fun h => by rw [h]⟩
  have h1 : nanTop (a i) = nanTop (b i) := congrFun h i
  apply Flt.key_inj
  unfold nanTop at h1
  change IEEE.key (a i) = IEEE.key (b i)
  rcases h2 : IEEE.key (a i) with _ | x <;> rcases h3 : IEEE.key (b i) with _ | y <;> rw [h2, h3] at h1
  · exact absurd h1.symm (WithTop.coe_ne_top)
  · exact absurd h1 (WithTop.coe_ne_top)
  · exact congrArg some (WithTop.coe_injective h1)

theorem nn_sub {a b : Flt P.fmt} (ha : a.isFinite) (hb : b.isFinite) (h : b.val ≤ a.val) : NonNegN (a - b) := by
  rw [Flt.sub_eq ha hb]; exact nn_round (by linarith)

theorem np_sub {a b : Flt P.fmt} (ha : a.isFinite) (hb : b.isFinite) (h : a.val ≤ b.val) : NonPosN (a - b) := by
  rw [Flt.sub_eq ha hb]; exact np_round (by linarith)

/-- A point of the line through two different points that does not lie between them is always rejected, without any
hypothesis about overflow or underflow. -/
theorem C106_outside (P : BinPar) {S : ℕ} {s : Flt P.fmt → Flt P.fmt} (hs : FaithfulSqrt P s) (p a b : Vec (Flt P.fmt) S)
    (hp : ∀ i, (p i).isFinite) (ha : ∀ i, (a i).isFinite) (hb : ∀ i, (b i).isFinite) (hne : ∃ i, (a i).val ≠ (b i).val)
    (t : ℚ) (ht : t < 0 ∨ 1 < t) (hl : ∀ i, (p i).val = (a i).val + t * ((b i).val - (a i).val)) :
    isBetweenG s p a b = false := by
  obtain ⟨k, hk⟩ := hne
  have hk' : (b k).val - (a k).val ≠ 0 := fun h => hk (by linarith)
  have h1 : veq p a = false := by
    rw [← Bool.not_eq_true, Flt.veq_iff]
    rintro rfl
    have h3 : t * ((b k).val - (p k).val) = 0 := by linarith [hl k]
    rcases mul_eq_zero.1 h3 with h | h
    · rcases ht with ht | ht <;> linarith
    · exact hk' h
  have h2 : veq p b = false := by
    rw [← Bool.not_eq_true, Flt.veq_iff]
    rintro rfl
    have h3 : (t - 1) * ((p k).val - (a k).val) = 0 := by linarith [hl k]
    rcases mul_eq_zero.1 h3 with h | h
    · rcases ht with ht | ht <;> linarith
    · exact hk' h
  unfold isBetweenG
  rw [h1, h2]
  simp only [Bool.or_self, Bool.false_eq_true, if_false]
  apply nn_lt
  refine nn_dot _ _ fun i => ?_
  have hL := nn_length hs (a - p)
  show NonNegN ((b i - p i) * ((a i - p i) / lengthG s (a - p)))
  have e1 : (a i).val - (p i).val = -t * ((b i).val - (a i).val) := by rw [hl i]; ring
  have e2 : (b i).val - (p i).val = (1 - t) * ((b i).val - (a i).val) := by rw [hl i]; ring
  generalize (b i).val - (a i).val = d at e1 e2
  have hsgn : (0 ≤ (a i).val - (p i).val ∧ 0 ≤ (b i).val - (p i).val) ∨
      ((a i).val - (p i).val ≤ 0 ∧ (b i).val - (p i).val ≤ 0) := by
    rw [e1, e2]
    rcases ht with ht | ht <;> rcases le_total 0 d with hd | hd
    · exact Or.inl ⟨mul_nonneg (by linarith) hd, mul_nonneg (by linarith) hd⟩
    · exact Or.inr ⟨mul_nonpos_of_nonneg_of_nonpos (by linarith) hd, mul_nonpos_of_nonneg_of_nonpos (by linarith) hd⟩
    · exact Or.inr ⟨mul_nonpos_of_nonpos_of_nonneg (by linarith) hd, mul_nonpos_of_nonpos_of_nonneg (by linarith) hd⟩
    · exact Or.inl ⟨mul_nonneg_of_nonpos_of_nonpos (by linarith) hd, mul_nonneg_of_nonpos_of_nonpos (by linarith) hd⟩
  rcases hsgn with ⟨g1, g2⟩ | ⟨g1, g2⟩
  · exact nn_mul (nn_sub (hb i) (hp i) (by linarith)) (nn_div (nn_sub (ha i) (hp i) (by linarith)) hL)
  · exact nn_mul_np (np_sub (hb i) (hp i) (by linarith)) (np_div (np_sub (ha i) (hp i) (by linarith)) hL)

/-! ### Points between the end points -/

theorem le_zero_cases {a : Flt P.fmt} (h : Cmp.le a 0 = true) :
    a = Flt.ninf ∨ ∃ q hq, a = Flt.fin (F := P.fmt) q hq ∧ q ≤ 0 := by
  rcases a with _ | _ | _ | ⟨q, hq⟩
  · exact absurd h Bool.false_ne_true
  · exact Or.inl rfl
  · exact absurd (of_decide_eq_true h) (Ext.top_not_le 0)
  · rw [Flt.lt_asymm_le (a := Flt.fin q hq) trivial Flt.zero_finite, decide_eq_true_eq] at h
    exact Or.inr ⟨q, hq, rfl, h⟩

theorem lt_zero_cases {a : Flt P.fmt} (h : Cmp.lt a 0 = true) :
    a = Flt.ninf ∨ ∃ q hq, a = Flt.fin (F := P.fmt) q hq ∧ q < 0 := by
  rcases a with _ | _ | _ | ⟨q, hq⟩
  · exact absurd h Bool.false_ne_true
  · exact Or.inl rfl
  · exact absurd (of_decide_eq_true h) (not_lt.2 (Ext.le_top' _))
  · rw [Flt.lt_val (a := Flt.fin q hq) trivial Flt.zero_finite, decide_eq_true_eq] at h
    exact Or.inr ⟨q, hq, rfl, h⟩

theorem ninf_lt_zero : Cmp.lt (Flt.ninf : Flt P.fmt) 0 = true := decide_eq_true (WithBot.bot_lt_coe _)
theorem ninf_le_zero : Cmp.le (Flt.ninf : Flt P.fmt) 0 = true := decide_eq_true bot_le

theorem le_zero_add {a b : Flt P.fmt} (ha : Cmp.le a 0 = true) (hb : Cmp.le b 0 = true) : Cmp.le (a + b) 0 = true := by
  rcases le_zero_cases ha with rfl | ⟨q, hq, rfl, h1⟩ <;> rcases le_zero_cases hb with rfl | ⟨r, hr, rfl, h2⟩
  · exact ninf_le_zero
  · exact ninf_le_zero
  · exact ninf_le_zero
  · show Cmp.le (Flt.round (q + r)) 0 = true
    rw [Flt.round_le Flt.zero_finite, decide_eq_true_eq]
    exact P.fl_le_of_rep P.rep_zero (add_nonpos h1 h2)

theorem lt_zero_add {a b : Flt P.fmt} (ha : Cmp.lt a 0 = true) (hb : Cmp.le b 0 = true) : Cmp.lt (a + b) 0 = true := by
  rcases lt_zero_cases ha with rfl | ⟨q, hq, rfl, h1⟩ <;> rcases le_zero_cases hb with rfl | ⟨r, hr, rfl, h2⟩
  · exact ninf_lt_zero
  · exact ninf_lt_zero
  · exact ninf_lt_zero
  · show Cmp.lt (Flt.round (q + r)) 0 = true
    rw [Flt.round_lt Flt.zero_finite, decide_eq_true_eq]
    exact lt_of_le_of_lt (P.fl_le_of_rep hq.1 (show q + r ≤ q by linarith)) h1

theorem dot_le_zero : ∀ {S : ℕ} (a b : Vec (Flt P.fmt) S), (∀ i, Cmp.le (a i * b i) 0 = true) → Cmp.le (dot a b) 0 = true
  | 0, _, _, _ => by show Cmp.le (0 : Flt P.fmt) 0 = true; rw [Flt.lt_asymm_le Flt.zero_finite Flt.zero_finite]; simp
  | S + 1, a, b, h => by
    rw [dot_succ']
    exact le_zero_add (dot_le_zero _ _ fun i => h i.castSucc) (h _)

theorem dot_lt_zero : ∀ {S : ℕ} (a b : Vec (Flt P.fmt) S), (∀ i, Cmp.le (a i * b i) 0 = true) →
    (∃ i, Cmp.lt (a i * b i) 0 = true) → Cmp.lt (dot a b) 0 = true
  | 0, _, _, _, ⟨i, _⟩ => i.elim0
  | S + 1, a, b, h, ⟨i, hi⟩ => by
    rw [dot_succ']
    induction i using Fin.lastCases with
    | last => rw [Flt.add_comm']; exact lt_zero_add hi (dot_le_zero _ _ fun i => h i.castSucc)
    | cast i => exact lt_zero_add (dot_lt_zero _ _ (fun i => h i.castSucc) ⟨i, hi⟩) (h _)

theorem fl_abs_mono {x y : ℚ} (h : |x| ≤ |y|) : |P.fl x| ≤ |P.fl y| := by
  have e : ∀ z, |P.fl z| = P.fl |z| := fun z => by
    rcases le_total 0 z with hz | hz
    · rw [abs_of_nonneg hz, abs_of_nonneg (P.fl_nonneg hz)]
    · rw [abs_of_nonpos hz, abs_of_nonpos (P.fl_le_of_rep P.rep_zero hz), P.fl_neg]
  rw [e, e]
  exact P.fl_mono h

/-- The greatest component of a normalised vector is not small. -/
theorem normalize_big {s : Flt P.fmt → Flt P.fmt} (hs : FaithfulSqrt P s) (hS : 0 < S) (hε : P.lenErr S ≤ 1 / 50)
    (v : Vec (Flt P.fmt) S) (h : (squaredLength v).isFinite) (hX : NoUnderflow v) (i : Fin S) (hi : ∀ j, |(v j).val| ≤ |(v i).val|) :
    1 ≤ 4 * S * (normalizeG s v i).val ^ 2 := by
  have hL := realLen_pos hS hX
  obtain ⟨-, h2⟩ := C101_normalize_error P hS hε hs v h hX i
  have hd := normErr_le hε
  have hdr : (P.normErr S : ℝ) + P.u / 60 ≤ 1 / 25 := by
    have := (Rat.cast_le (K := ℝ)).2 hd; push_cast at this; exact this
  have hSe : (S * P.eta : ℝ) ≤ P.u / 60 := by
    have := (Rat.cast_le (K := ℝ)).2 (S_eta hε)
    push_cast at this; exact this
  have hu : (0 : ℝ) < P.u := by exact_mod_cast P.u_pos
  have he : (0 : ℝ) < P.eta := by exact_mod_cast P.eta_pos
  have hu8 : (P.u : ℝ) ≤ 1 / 8 := by
    have := (Rat.cast_le (K := ℝ)).2 P.u_le; push_cast at this; linarith
  have hSr : (1 : ℝ) ≤ S := by exact_mod_cast hS
  have hn0 : (0 : ℝ) ≤ P.normErr S := by
    have : (0 : ℚ) ≤ P.normErr S := by unfold BinPar.normErr; have := P.lenErr_pos S; have := P.u_pos; positivity
    exact_mod_cast this
  set x : ℝ := |((v i).val : ℝ)| / realLen v with hx
  have hx0 : 0 ≤ x := by positivity
  have hsum : realLen v ^ 2 ≤ S * ((v i).val : ℝ) ^ 2 := by
    unfold realLen
    rw [Real.sq_sqrt (Finset.sum_nonneg fun _ _ => sq_nonneg _)]
    calc ∑ j, ((v j).val : ℝ) ^ 2 ≤ ∑ _j : Fin S, ((v i).val : ℝ) ^ 2 := by
          refine Finset.sum_le_sum fun j _ => ?_
          rw [← sq_abs ((v j).val : ℝ), ← sq_abs ((v i).val : ℝ)]
          have : |((v j).val : ℝ)| ≤ |((v i).val : ℝ)| := by exact_mod_cast hi j
          exact pow_le_pow_left₀ (abs_nonneg _) this 2
      _ = _ := by rw [Finset.sum_const, Finset.card_univ, Fintype.card_fin, nsmul_eq_mul]
  have hxS : 1 ≤ S * x ^ 2 := by
    rw [hx, div_pow, sq_abs, mul_div_assoc', le_div_iff₀ (by positivity)]
    linarith
  have hlow : x - (P.normErr S * x + P.eta) ≤ |((normalizeG s v i).val : ℝ)| := by
    have h3 := abs_sub_abs_le_abs_sub (((v i).val : ℝ) / realLen v) ((normalizeG s v i).val : ℝ)
    rw [abs_sub_comm, abs_div, abs_of_pos hL] at h3
    linarith
  have hxge : 1 / (S : ℝ) ≤ x := by
    by_contra hc
    rw [not_le] at hc
    have h4 : S * x < 1 := by rw [lt_div_iff₀ (by linarith)] at hc; linarith
    have h5 : x < 1 := by nlinarith
    nlinarith
  have hex : (P.eta : ℝ) ≤ 1 / 400 * x := by
    have h4 : (P.eta : ℝ) ≤ P.u / 60 * (1 / S) := by
      rw [mul_one_div, le_div_iff₀ (by linarith)]; linarith
    nlinarith
  have hhalf : x / 2 ≤ |((normalizeG s v i).val : ℝ)| := by nlinarith
  have hfin : (1 : ℝ) ≤ 4 * S * ((normalizeG s v i).val : ℝ) ^ 2 := by
    rw [← sq_abs]
    have : (x / 2) ^ 2 ≤ |((normalizeG s v i).val : ℝ)| ^ 2 := pow_le_pow_left₀ (by positivity) hhalf 2
    nlinarith
  exact_mod_cast hfin

/-- The end points are always accepted, whatever the numbers are. -/
theorem C106_endpoints (P : BinPar) {S : ℕ} (s : Flt P.fmt → Flt P.fmt) (a b : Vec (Flt P.fmt) S) :
    isBetweenG s a a b = true ∧ isBetweenG s b a b = true := by
  have h : ∀ v : Vec (Flt P.fmt) S, veq v v = true := fun v => Flt.veq_iff.2 rfl
  constructor <;> unfold isBetweenG <;> simp [h]

/-- A point of the segment is always accepted if no square overflows or underflows altogether. -/
theorem C106_inside (P : BinPar) {S : ℕ} (hε : P.lenErr S ≤ 1 / 50) {s : Flt P.fmt → Flt P.fmt} (hs : FaithfulSqrt P s)
    (p a b : Vec (Flt P.fmt) S)
    (h1 : (squaredLength (a - p)).isFinite) (h2 : NoUnderflow (a - p)) (h3 : ∀ i, (b i - p i).isFinite) (h4 : NoUnderflow (b - p))
    (t : ℚ) (ht0 : 0 < t) (ht1 : t < 1) (hl : ∀ i, (p i).val = (a i).val + t * ((b i).val - (a i).val)) :
    isBetweenG s p a b = true := by
  unfold isBetweenG
  by_cases hv : (veq p a || veq p b) = true
  · rw [if_pos hv]
  rw [if_neg hv]
  have hS : 0 < S := by
    rcases Nat.eq_zero_or_pos S with h | h
    · subst h
      exact absurd (Bool.or_eq_true_iff.2 (Or.inl (Flt.veq_iff.2 (funext fun i => i.elim0)))) hv
    · exact h
  have e1 : ∀ i, (a i).val - (p i).val = -(t * ((b i).val - (a i).val)) := fun i => by rw [hl i]; ring
  have e2 : ∀ i, (b i).val - (p i).val = (1 - t) * ((b i).val - (a i).val) := fun i => by rw [hl i]; ring
  have hav : ∀ i, ((a - p) i).val = P.fl ((a i).val - (p i).val) := fun i =>
    Flt.sub_val (dot_finite_terms (a - p) (a - p) h1 i).1
  have hbv : ∀ i, ((b - p) i).val = P.fl ((b i).val - (p i).val) := fun i => Flt.sub_val (h3 i)
  have : Nonempty (Fin S) := ⟨⟨0, hS⟩⟩
  obtain ⟨k, hk⟩ := Finite.exists_max fun i => |(b i).val - (a i).val|
  obtain ⟨r, hr, hlen, hfr⟩ := length_faithful hs (a - p) h1
  have hrerr := faithful_err hε (a - p) h1 h2 hfr
  have hL := realLen_pos hS h2
  have hr0 : 0 < r := by
    have hεr : (P.lenErr S : ℝ) ≤ 1 / 50 := by have := (Rat.cast_le (K := ℝ)).2 hε; push_cast at this; exact this
    have : (0 : ℝ) < r := by have := (abs_le.1 hrerr).1; nlinarith
    exact_mod_cast this
  have hn : ∀ i, (normalizeG s (a - p) i).isFinite ∧
      (normalizeG s (a - p) i).val = P.fl (((a - p) i).val / r) := by
    intro i
    have hf := (C101_normalize_error P hS hε hs _ h1 h2 i).1
    have e : normalizeG s (a - p) i = Flt.round (((a - p) i).val / r) := by
      obtain ⟨h5, h6⟩ := Flt.eq_fin (dot_finite_terms (a - p) (a - p) h1 i).1
      show (a - p) i / lengthG s (a - p) = _
      rw [hlen]
      conv_lhs => rw [h6]
      exact div_fin h5 hr hr0.ne'
    rw [e] at hf ⊢
    exact ⟨hf, Flt.round_val hf⟩
  have hprod : ∀ i, ((b - p) i).val * (normalizeG s (a - p) i).val ≤ 0 := by
    intro i
    rw [(hn i).2, hbv i, hav i, e1 i, e2 i]
    generalize (b i).val - (a i).val = d
    rcases le_total 0 d with hd | hd
    · refine mul_nonpos_of_nonneg_of_nonpos (P.fl_nonneg (mul_nonneg (by linarith) hd)) ?_
      refine P.fl_le_of_rep P.rep_zero (div_nonpos_of_nonpos_of_nonneg ?_ hr0.le)
      exact P.fl_le_of_rep P.rep_zero (neg_nonpos.2 (mul_nonneg ht0.le hd))
    · refine mul_nonpos_of_nonpos_of_nonneg (P.fl_le_of_rep P.rep_zero (mul_nonpos_of_nonneg_of_nonpos (by linarith) hd)) ?_
      refine P.fl_nonneg (div_nonneg ?_ hr0.le)
      exact P.fl_nonneg (neg_nonneg.2 (mul_nonpos_of_nonneg_of_nonpos ht0.le hd))
  apply dot_lt_zero
  · intro i
    rw [Flt.mul_eq (a := (b - p) i) (h3 i) (hn i).1, Flt.round_le Flt.zero_finite, decide_eq_true_eq]
    exact P.fl_le_of_rep P.rep_zero (hprod i)
  · refine ⟨k, ?_⟩
    rw [Flt.mul_eq (a := (b - p) k) (h3 k) (hn k).1, Flt.round_lt Flt.zero_finite, decide_eq_true_eq, Flt.zero_val]
    have hamax : ∀ j, |((a - p) j).val| ≤ |((a - p) k).val| := fun j => by
      rw [hav, hav]
      apply fl_abs_mono
      rw [e1, e1, abs_neg, abs_neg, abs_mul, abs_mul]
      exact mul_le_mul_of_nonneg_left (hk j) (abs_nonneg _)
    have hbmax : ∀ j, |((b - p) j).val| ≤ |((b - p) k).val| := fun j => by
      rw [hbv, hbv]
      apply fl_abs_mono
      rw [e2, e2, abs_mul, abs_mul]
      exact mul_le_mul_of_nonneg_left (hk j) (abs_nonneg _)
    have hN := normalize_big hs hS hε (a - p) h1 h2 k hamax
    have hSq : (0 : ℚ) < S := by exact_mod_cast hS
    have hB : P.eta ≤ P.u * ((b - p) k).val ^ 2 := by
      have h5 : ∑ i, ((b - p) i).val ^ 2 ≤ S * ((b - p) k).val ^ 2 := by
        calc ∑ i, ((b - p) i).val ^ 2 ≤ ∑ _i : Fin S, ((b - p) k).val ^ 2 := by
              refine Finset.sum_le_sum fun j _ => ?_
              rw [← sq_abs ((b - p) j).val, ← sq_abs ((b - p) k).val]
              exact pow_le_pow_left₀ (abs_nonneg _) (hbmax j) 2
          _ = _ := by rw [Finset.sum_const, Finset.card_univ, Fintype.card_fin, nsmul_eq_mul]
      have h6 : S * P.eta ≤ S * (P.u * ((b - p) k).val ^ 2) := by
        refine le_trans h4 ?_
        calc P.u * ∑ i, ((b - p) i).val ^ 2 ≤ P.u * (S * ((b - p) k).val ^ 2) := mul_le_mul_of_nonneg_left h5 P.u_pos.le
          _ = _ := by ring
      exact le_of_mul_le_mul_left h6 hSq
    have hle := hprod k
    have hu := P.u_pos
    have heta := P.eta_pos
    have hSe := S_eta hε
    have hu8 := P.u_le
    set x := ((b - p) k).val
    set y := (normalizeG s (a - p) k).val
    have hxy : 2 * P.eta ≤ |x * y| := by
      by_contra hc
      rw [not_le] at hc
      have h7 : (x * y) ^ 2 < 4 * P.eta ^ 2 := by
        rw [← sq_abs]
        nlinarith [abs_nonneg (x * y)]
      have h8 : P.eta ≤ P.u * (4 * S * (x * y) ^ 2) := by
        calc P.eta ≤ P.u * x ^ 2 := hB
          _ = P.u * x ^ 2 * 1 := by ring
          _ ≤ P.u * x ^ 2 * (4 * S * y ^ 2) := mul_le_mul_of_nonneg_left hN (by positivity)
          _ = _ := by ring
      have h9 : P.u * (4 * S * (x * y) ^ 2) ≤ P.u * (4 * S * (4 * P.eta ^ 2)) := by
        refine mul_le_mul_of_nonneg_left (mul_le_mul_of_nonneg_left h7.le (by positivity)) hu.le
      have h10 : P.u * (4 * S * (4 * P.eta ^ 2)) = 16 * P.u * (S * P.eta) * P.eta := by ring
      have h11 : 16 * P.u * (S * P.eta) ≤ 16 * (1 / 8) * (1 / 480) := by
        refine mul_le_mul (by linarith) (by linarith) (mul_nonneg hSq.le heta.le) (by norm_num)
      nlinarith
    rw [abs_of_nonpos hle] at hxy
    have hrep : P.Rep (-(2 * P.eta)) := by
      refine BinPar.Rep.neg ⟨1, P.qmin, ?_, by
        rw [abs_one]; exact one_lt_pow₀ (by norm_num) (by have := P.hp; omega), le_rfl⟩
      unfold BinPar.eta
      rw [show P.qmin - 1 = P.qmin + (-1) by ring, BinPar.zpow_add2]; norm_num; ring
    have := P.fl_le_of_rep hrep (show x * y ≤ -(2 * P.eta) by linarith)
    linarith

theorem mul_nan' {F : Fmt} (a : Flt F) : a * Flt.nan = Flt.nan := by cases a <;> rfl
theorem add_nan' {F : Fmt} (a : Flt F) : a + Flt.nan = Flt.nan := by cases a <;> rfl

/-- The middle of a segment is rejected if the squared length of the difference underflows. -/
theorem C106_underflow_fails : ∃ p a b : Vec (Flt binary64.fmt) 3, (∀ i, (p i).isFinite ∧ (a i).isFinite ∧ (b i).isFinite) ∧
    (∀ i, (p i).val = (a i).val + 1 / 2 * ((b i).val - (a i).val)) ∧ (a 0).val ≠ (b 0).val ∧
    ∀ s, CorrectSqrt binary64 s → isBetweenG s p a b = false := by
  obtain ⟨v, hf, h0, hv⟩ := C101_normalize_underflow_fails
  refine ⟨fun _ => 0, v, -v, fun i => ⟨Flt.zero_finite, hf i, Flt.neg_finite.2 (hf i)⟩, fun i => ?_, ?_, fun s hs => ?_⟩
  · show (0 : ℚ) = (v i).val + 1 / 2 * ((-(v i)).val - (v i).val)
    rw [Flt.neg_val]; ring
  · show (v 0).val ≠ (-(v 0)).val
    rw [Flt.neg_val, h0]
    have := BinPar.two_zpow_pos (-600)
    intro h; linarith
  · have hp := BinPar.two_zpow_pos (-600)
    have e : v - (fun _ => 0) = v := by
      funext i
      show v i - 0 = v i
      rw [Flt.sub_eq (hf i) Flt.zero_finite, Flt.zero_val, sub_zero]
      obtain ⟨h1, h2⟩ := Flt.eq_fin (hf i)
      conv_rhs => rw [h2]
      exact BinPar.round_rep h1
    have h1 : veq (fun _ => 0) v = false := by
      rw [← Bool.not_eq_true, Flt.veq_iff]
      intro h
      rw [← h] at h0
      exact hp.ne h0
    have h2 : veq (fun _ => 0) (-v) = false := by
      rw [← Bool.not_eq_true, Flt.veq_iff]
      intro h
      have h3 : (0 : Flt binary64.fmt) = -(v 0) := congrFun h 0
      have h4 := congrArg Flt.val h3
      rw [Flt.neg_val, h0, Flt.zero_val] at h4
      linarith
    unfold isBetweenG
    rw [h1, h2]
    simp only [Bool.or_self, Bool.false_eq_true, if_false]
    rw [e, hv s hs, dot_succ']
    have : ∀ x y : Flt binary64.fmt, x + y * Flt.nan = Flt.nan := fun x y => by rw [mul_nan', add_nan']
    exact (congrArg (fun z => Cmp.lt z 0) (this _ _)).trans rfl

theorem sample32 : binary32.lenErr 3 ≤ 1 / 50 ∧ (squaredLength (sample binary32)).isFinite ∧ NoUnderflow (sample binary32) := by
  have hu : binary32.u = 1 / 2 ^ 24 := by norm_num [BinPar.u, binary32]
  have he : binary32.eta = 1 / 2 ^ 150 := by norm_num [BinPar.eta, binary32]
  have hb : binary32.bound = 2 ^ 128 := by norm_num [BinPar.bound, binary32]
  have hl : binary32.lenErr 3 = 5 / 2 ^ 24 := by unfold BinPar.lenErr; rw [hu]; norm_num
  obtain ⟨hf, h0, h1, h2⟩ := sample_ok binary32
  refine ⟨by rw [hl]; norm_num, dot_finite _ _ hf hf ?_, ?_⟩
  · rw [absDot_self, sample_sum, hb]
    unfold dotErr
    rw [hu, he]; norm_num
  · unfold NoUnderflow
    rw [sample_sum, hu, he]; norm_num

/-- The origin is the middle of (1, -2, 2) and (-1, 2, -2) in single precision. -/
example : let a : Vec (Flt binary32.fmt) 3 := sample binary32
    let b : Vec (Flt binary32.fmt) 3 := -sample binary32
    let p : Vec (Flt binary32.fmt) 3 := fun _ => 0
    binary32.lenErr 3 ≤ 1 / 50 ∧ (squaredLength (a - p)).isFinite ∧ NoUnderflow (a - p) ∧ (∀ i, (b i - p i).isFinite) ∧
    NoUnderflow (b - p) ∧ ∀ i, (p i).val = (a i).val + 1 / 2 * ((b i).val - (a i).val) := by
  intro a b p
  obtain ⟨h1, h2, h3⟩ := sample32
  obtain ⟨hf, -, -, -⟩ := sample_ok binary32
  have e : ∀ v : Vec (Flt binary32.fmt) 3, v - p = v := fun v => funext fun i => Flt.sub_zero' (v i)
  rw [e, e]
  refine ⟨h1, h2, h3, fun i => ?_, ?_, fun i => ?_⟩
  · show (b i - 0).isFinite
    rw [Flt.sub_zero']; exact Flt.neg_finite.2 (hf i)
  · have hs : ∑ i, (b i).val ^ 2 = ∑ i, (sample binary32 i).val ^ 2 := Finset.sum_congr rfl fun i _ => by
      show (-(sample binary32 i)).val ^ 2 = _
      rw [Flt.neg_val, neg_sq]
    unfold NoUnderflow
    rw [hs]; exact h3
  · show (0 : ℚ) = (sample binary32 i).val + 1 / 2 * ((-(sample binary32 i)).val - (sample binary32 i).val)
    rw [Flt.neg_val]; ring

/-- (-1, 2, -2) lies on the line through (1, -2, 2) and the origin, beyond the origin. -/
example : let a : Vec (Flt binary32.fmt) 3 := sample binary32
    let b : Vec (Flt binary32.fmt) 3 := fun _ => 0
    let p : Vec (Flt binary32.fmt) 3 := -sample binary32
    (∀ i, (p i).isFinite ∧ (a i).isFinite ∧ (b i).isFinite) ∧ (∃ i, (a i).val ≠ (b i).val) ∧
    ∀ i, (p i).val = (a i).val + 2 * ((b i).val - (a i).val) := by
  intro a b p
  obtain ⟨hf, h0, -, -⟩ := sample_ok binary32
  refine ⟨fun i => ⟨Flt.neg_finite.2 (hf i), hf i, Flt.zero_finite⟩, ⟨0, ?_⟩, fun i => ?_⟩
  · show (sample binary32 0).val ≠ (0 : ℚ)
    rw [h0]; norm_num
  · show (-(sample binary32 i)).val = (sample binary32 i).val + 2 * (0 - (sample binary32 i).val)
    rw [Flt.neg_val]; ring

end vm
