import Verif.Props.FltLup

/-! Forward and backward substitution with factors whose pivots are not small: nothing overflows. -/

set_option linter.unusedSectionVars false
set_option linter.unusedSimpArgs false

namespace vm
namespace FltCond
open BinPar
variable {P : BinPar} {S : ℕ}

theorem mul_bound {a b : Flt P.fmt} (ha : a.isFinite) (hb : b.isFinite) {T : ℚ} (hT : P.fmt.rep T) (h : |a.val| * |b.val| ≤ T) :
    (a * b).isFinite ∧ |(a * b).val| ≤ T := by
  rw [← abs_mul] at h
  obtain ⟨h1, h2, h3⟩ := round_abs_le hT h
  rw [Flt.mul_eq ha hb]
  exact ⟨h1, by rw [h2]; exact h3⟩

theorem add_bound {a b : Flt P.fmt} (ha : a.isFinite) (hb : b.isFinite) {T : ℚ} (hT : P.fmt.rep T) (h : |a.val| + |b.val| ≤ T) :
    (a + b).isFinite ∧ |(a + b).val| ≤ T := by
  obtain ⟨h1, h2, h3⟩ := round_abs_le hT ((abs_add_le _ _).trans h)
  rw [Flt.add_eq ha hb]
  exact ⟨h1, by rw [h2]; exact h3⟩

theorem sub_bound {a b : Flt P.fmt} (ha : a.isFinite) (hb : b.isFinite) {T : ℚ} (hT : P.fmt.rep T) (h : |a.val| + |b.val| ≤ T) :
    (a - b).isFinite ∧ |(a - b).val| ≤ T := by
  obtain ⟨h1, h2, h3⟩ := round_abs_le hT ((abs_sub _ _).trans h)
  rw [Flt.sub_eq ha hb]
  exact ⟨h1, by rw [h2]; exact h3⟩

theorem rep_room {T : ℚ} (hT : P.Rep T) (h0 : 0 ≤ T) {k n : ℕ} (hk : k ≤ n) (room : 2 ^ n * T < P.bound) : P.fmt.rep (2 ^ k * T) := by
  refine ⟨rep_pow_mul hT k, ?_⟩
  rw [abs_of_nonneg (by positivity)]
  exact lt_of_le_of_lt (mul_le_mul_of_nonneg_right (pow_le_pow_right₀ (by norm_num) hk) h0) room

/-- A sum of products that are at most `T`. -/
theorem fold_bound {ι : Type*} (f g : ι → Flt P.fmt) {T : ℚ} (hT : P.Rep T) (h0 : 0 ≤ T) {N : ℕ} (room : 2 ^ N * T < P.bound) :
    ∀ (l : List ι), (∀ j ∈ l, (f j).isFinite ∧ (g j).isFinite ∧ |(f j).val| * |(g j).val| ≤ T) → ∀ (k : ℕ) (acc : Flt P.fmt), k + l.length ≤ N →
      acc.isFinite → |acc.val| ≤ 2 ^ k * T →
      (l.foldl (fun s j => s + f j * g j) acc).isFinite ∧ |(l.foldl (fun s j => s + f j * g j) acc).val| ≤ 2 ^ (k + l.length) * T
  | [], _, k, acc, _, h1, h2 => by simpa using ⟨h1, h2⟩
  | j :: l, h, k, acc, hk, h1, h2 => by
    rw [List.length_cons] at hk
    obtain ⟨hf, hg, hb⟩ := h j List.mem_cons_self
    have hT' : P.fmt.rep T := by have := rep_room hT h0 (Nat.zero_le N) room; simpa using this
    obtain ⟨m1, m2⟩ := mul_bound hf hg hT' hb
    obtain ⟨a1, a2⟩ := add_bound h1 m1 (rep_room hT h0 (show k + 1 ≤ N by omega) room) (by
      have : T ≤ 2 ^ k * T := le_mul_of_one_le_left h0 (one_le_pow₀ (by norm_num))
      rw [pow_succ]; linarith)
    have := fold_bound f g hT h0 room l (fun i hi => h i (List.mem_cons_of_mem _ hi)) (k + 1) _ (by omega) a1 a2
    rw [List.foldl_cons, List.length_cons, show k + (l.length + 1) = k + 1 + l.length by omega]
    exact this

theorem filter_length (p : Fin S → Bool) : ((List.finRange S).filter p).length ≤ S :=
  (List.length_filter_le _ _).trans (by rw [List.length_finRange])

/-- One step of the forward substitution. -/
theorem forward_step (lu : Mat (Flt P.fmt) S S) (pi : Fin S → Fin S) (b : Vec (Flt P.fmt) S) (i : Fin S) {T : ℚ} (hT : P.Rep T) (h0 : 0 ≤ T)
    (room : 2 ^ (S + 1) * T < P.bound) (hb : (b (pi i)).isFinite) (hbT : |(b (pi i)).val| ≤ T)
    (h : ∀ j, j < i → (lu j i).isFinite ∧ (lupForward lu pi b j).isFinite ∧ |(lu j i).val| * |(lupForward lu pi b j).val| ≤ T) :
    (lupForward lu pi b i).isFinite ∧ |(lupForward lu pi b i).val| ≤ 2 ^ (S + 1) * T := by
  have room' : 2 ^ S * T < P.bound := lt_of_le_of_lt (mul_le_mul_of_nonneg_right (pow_le_pow_right₀ (by norm_num) (by omega)) h0) room
  obtain ⟨f1, f2⟩ := fold_bound (fun j => lu j i) (lupForward lu pi b) hT h0 room' ((List.finRange S).filter (· < i))
    (fun j hj => h j (by simpa using hj)) 0 0 (by rw [zero_add]; exact filter_length _) Flt.zero_finite (by rw [Flt.zero_val, abs_zero]; positivity)
  rw [lupForward_eq]
  refine sub_bound hb f1 (rep_room hT h0 le_rfl room) ?_
  have e1 : T ≤ 2 ^ S * T := le_mul_of_one_le_left h0 (one_le_pow₀ (by norm_num))
  have e2 : (2 : ℚ) ^ (0 + ((List.finRange S).filter (· < i)).length) * T ≤ 2 ^ S * T :=
    mul_le_mul_of_nonneg_right (pow_le_pow_right₀ (by norm_num) (by rw [zero_add]; exact filter_length _)) h0
  rw [pow_succ]
  linarith

/-- One step of the backward substitution, with a pivot of at least `2⁻ᵉ`. -/
theorem backward_step (lu : Mat (Flt P.fmt) S S) (y : Vec (Flt P.fmt) S) (i : Fin S) {T : ℚ} (hT : P.Rep T) (h0 : 0 ≤ T) {e : ℕ}
    (room : 2 ^ (S + 1 + e) * T < P.bound) (hy : (y i).isFinite) (hyT : |(y i).val| ≤ T)
    (hd : (lu i i).isFinite) (hde : 1 ≤ 2 ^ e * |(lu i i).val|)
    (h : ∀ j, i < j → (lu j i).isFinite ∧ (lupBackward lu y j).isFinite ∧ |(lu j i).val| * |(lupBackward lu y j).val| ≤ T) :
    (lupBackward lu y i).isFinite ∧ |(lupBackward lu y i).val| ≤ 2 ^ (S + 1 + e) * T := by
  have room' : 2 ^ S * T < P.bound := lt_of_le_of_lt (mul_le_mul_of_nonneg_right (pow_le_pow_right₀ (by norm_num) (by omega)) h0) room
  obtain ⟨f1, f2⟩ := fold_bound (fun j => lu j i) (lupBackward lu y) hT h0 room' ((List.finRange S).filter (i < ·))
    (fun j hj => h j (by simpa using hj)) 0 0 (by rw [zero_add]; exact filter_length _) Flt.zero_finite (by rw [Flt.zero_val, abs_zero]; positivity)
  have e1 : T ≤ 2 ^ S * T := le_mul_of_one_le_left h0 (one_le_pow₀ (by norm_num))
  have e2 : (2 : ℚ) ^ (0 + ((List.finRange S).filter (i < ·)).length) * T ≤ 2 ^ S * T :=
    mul_le_mul_of_nonneg_right (pow_le_pow_right₀ (by norm_num) (by rw [zero_add]; exact filter_length _)) h0
  obtain ⟨s1, s2⟩ := sub_bound hy f1 (rep_room hT h0 (show S + 1 ≤ S + 1 + e by omega) room) (by rw [pow_succ]; linarith)
  have d0 : (lu i i).val ≠ 0 := by
    intro h; rw [h, abs_zero, mul_zero] at hde; linarith
  rw [lupBackward_eq]
  have q : |(y i - ((List.finRange S).filter (i < ·)).foldl (fun sum j => sum + lu j i * lupBackward lu y j) 0).val / (lu i i).val| ≤
      2 ^ (S + 1 + e) * T := by
    rw [abs_div, div_le_iff₀ (abs_pos.2 d0), pow_add]
    refine s2.trans ?_
    have : (0 : ℚ) ≤ 2 ^ (S + 1) * T := by positivity
    have := mul_le_mul_of_nonneg_left hde this
    linarith
  obtain ⟨r1, r2, r3⟩ := round_abs_le (rep_room hT h0 le_rfl room) q
  rw [fin_div_fin s1 hd d0]
  exact ⟨r1, by rw [r2]; exact r3⟩

/-- The solution for a right hand side of size `β`, if the entries of the matrix are at most `2^g` and the pivots at least `2⁻ᵉ`. -/
theorem solve_bound {g e : ℕ} {A : Mat (Flt P.fmt) S S} {st : Mat (Flt P.fmt) S S × (Fin S → Fin S)} (h : FltLup (2 ^ g) A S st)
    (hpiv : ∀ i, 1 ≤ 2 ^ e * |(st.1 i i).val|) {β : ℚ} (hβ : P.Rep β) (h0 : 0 ≤ β)
    (room : 2 ^ (S * (S + 1) + S * (2 * S + g + e)) * β < P.bound) (b : Vec (Flt P.fmt) S) (hb : ∀ i, (b i).isFinite ∧ |(b i).val| ≤ β) (i : Fin S) :
    (lupSolveInternal st.1 st.2 b i).isFinite ∧ |(lupSolveInternal st.1 st.2 b i).val| ≤ 2 ^ (S * (S + 1) + S * (2 * S + g + e)) * β := by
  have mono : ∀ {m n : ℕ}, m ≤ n → (2 : ℚ) ^ m * β ≤ 2 ^ n * β := fun hmn => mul_le_mul_of_nonneg_right (pow_le_pow_right₀ (by norm_num) hmn) h0
  have S1 : 1 ≤ S := i.pos
  -- forward
  have F : ∀ j : Fin S, (lupForward st.1 st.2 b j).isFinite ∧ |(lupForward st.1 st.2 b j).val| ≤ 2 ^ ((j.val + 1) * (S + 1)) * β := by
    intro j
    induction hj : j.val using Nat.strong_induction_on generalizing j with
    | _ m ih =>
      have hm : m < S := by rw [← hj]; exact j.isLt
      have le : (m + 1) * (S + 1) ≤ S * (S + 1) := Nat.mul_le_mul_right _ hm
      have e1 : (2 : ℚ) ^ (S + 1) * (2 ^ (m * (S + 1)) * β) = 2 ^ ((m + 1) * (S + 1)) * β := by
        rw [← mul_assoc, ← pow_add]; congr 2; ring
      have := forward_step st.1 st.2 b j (T := 2 ^ (m * (S + 1)) * β) (rep_pow_mul hβ _) (by positivity)
        (by rw [e1]; exact lt_of_le_of_lt (mono (by omega)) room) (hb _).1
        ((hb _).2.trans (le_mul_of_one_le_left h0 (one_le_pow₀ (by norm_num)))) (fun k hk => by
          have hkm : k.val < m := by rw [← hj]; exact hk
          obtain ⟨i1, i2⟩ := ih k.val hkm k rfl
          refine ⟨h.fin _ _, i1, ?_⟩
          have l := h.mult k j k.isLt hk
          refine (mul_le_of_le_one_left (abs_nonneg _) l).trans (i2.trans (mono ?_))
          exact Nat.mul_le_mul_right _ hkm)
      rw [e1] at this
      exact this
  set Y := 2 ^ (S * (S + 1)) * β with hY
  have Y0 : 0 ≤ Y := by positivity
  have hYr : P.Rep Y := rep_pow_mul hβ _
  have FY : ∀ j : Fin S, |(lupForward st.1 st.2 b j).val| ≤ Y := fun j => (F j).2.trans (mono (Nat.mul_le_mul_right _ j.isLt))
  rw [pow_add, mul_right_comm, mul_comm (_ * _)] at room ⊢
  change 2 ^ (S * (2 * S + g + e)) * Y < P.bound at room
  change _ ∧ _ ≤ 2 ^ (S * (2 * S + g + e)) * Y
  have monoY : ∀ {m n : ℕ}, m ≤ n → (2 : ℚ) ^ m * Y ≤ 2 ^ n * Y := fun hmn => mul_le_mul_of_nonneg_right (pow_le_pow_right₀ (by norm_num) hmn) Y0
  set D := 2 * S + g + e with hD
  have B : ∀ m : ℕ, ∀ j : Fin S, S - 1 - j.val = m → (lupBackward st.1 (lupForward st.1 st.2 b) j).isFinite ∧
      |(lupBackward st.1 (lupForward st.1 st.2 b) j).val| ≤ 2 ^ ((m + 1) * D) * Y := by
    intro m
    induction m using Nat.strong_induction_on with
    | _ m ih =>
      intro j hj
      have hm : m + 1 ≤ S := by omega
      have le : (m + 1) * D ≤ S * D := Nat.mul_le_mul_right _ hm
      have e1 : (2 : ℚ) ^ (S + 1 + e) * (2 ^ (S - 1 + g + m * D) * Y) = 2 ^ ((m + 1) * D) * Y := by
        rw [← mul_assoc, ← pow_add]; congr 2; rw [Nat.succ_mul]; omega
      have := backward_step st.1 (lupForward st.1 st.2 b) j (T := 2 ^ (S - 1 + g + m * D) * Y) (e := e) (rep_pow_mul hYr _) (by positivity)
        (by rw [e1]; exact lt_of_le_of_lt (monoY le) room) (F j).1
        ((FY j).trans (le_mul_of_one_le_left Y0 (one_le_pow₀ (by norm_num)))) (h.fin _ _) (hpiv j) (fun k hk => by
          have hkj : j.val < k.val := hk
          have hlt : S - 1 - k.val < m := by have := k.isLt; omega
          obtain ⟨i1, i2⟩ := ih _ hlt k rfl
          refine ⟨h.fin _ _, i1, ?_⟩
          have l := h.up_le (by positivity) j k
          rw [upEntry, if_pos hk.le] at l
          change |(st.1 k j).val| ≤ _ at l
          have i3 : |(lupBackward st.1 (lupForward st.1 st.2 b) k).val| ≤ 2 ^ (m * D) * Y := i2.trans (monoY (Nat.mul_le_mul_right _ hlt))
          refine (mul_le_mul l i3 (abs_nonneg _) (by positivity)).trans (le_of_eq ?_)
          rw [pow_add, pow_add]; ring)
      rw [e1] at this
      exact this
  obtain ⟨b1, b2⟩ := B _ i rfl
  exact ⟨b1, b2.trans (monoY (Nat.mul_le_mul_right _ (by omega)))⟩

/-- A small pivot of a complete decomposition means that the matrix is almost singular. -/
theorem pivot_vector {M : ℚ} (hM0 : 0 ≤ M) {A : Mat (Flt P.fmt) S S} {st : Mat (Flt P.fmt) S S × (Fin S → Fin S)} (h : FltLup M A S st) (k : Fin S) :
    ∃ v : Fin S → ℚ, v ≠ 0 ∧ ∀ r, |∑ c, (A c r).val * v c| ≤ (|(st.1 k k).val| + singularErr P S M) * ∑ c, |v c| := by
  obtain ⟨v, hv0, hv1, hv2⟩ := up_kernel (vals st.1) k
  refine ⟨v, hv0, fun r => ?_⟩
  obtain ⟨i, rfl⟩ := h.approx.perm.2 r
  set G := 2 ^ (S - 1) * M with hG
  have hG0 : 0 ≤ G := by positivity
  have hfac : ∀ c, |(A c (st.2 i)).val - lupRec (vals st.1) S i c| ≤ singularErr P S M := by
    intro c
    refine (h.approx.prod i c).trans ?_
    have : lupErr P S (lupAbs (vals st.1) S i c) (colDiag (vals st.1) S c) ≤ lupErr P S (S * G) G := by
      refine lupErr_mono ?_ ?_
      · unfold lupAbs
        rw [if_neg (fun hc => absurd hc.1 (not_le.2 i.isLt)), add_zero]
        refine (Finset.sum_le_sum (g := fun _ => G) fun t _ => ?_).trans (le_of_eq (by rw [Finset.sum_const, Finset.card_univ, Fintype.card_fin, nsmul_eq_mul]))
        rw [if_pos t.isLt]
        exact (mul_le_of_le_one_left (abs_nonneg _) (h.low_le i t t.isLt)).trans (h.up_le hM0 t c)
      · unfold colDiag
        rw [if_pos c.isLt]
        have := h.up_le hM0 c c
        simpa [upEntry] using this
    exact this
  have e1 : ∑ c, (A c (st.2 i)).val * v c = (∑ c, v c * ((A c (st.2 i)).val - lupRec (vals st.1) S i c)) +
      ∑ c, lupRec (vals st.1) S i c * v c := by
    rw [← Finset.sum_add_distrib]
    exact Finset.sum_congr rfl fun c _ => by ring
  have row : ∀ t : Fin S, ∑ c, upEntry (vals st.1) t c * v c = if t = k then (st.1 k k).val * v k else 0 := by
    intro t
    rcases lt_trichotomy t k with ht | ht | ht
    · rw [if_neg ht.ne, hv2 t ht]
    · subst ht
      rw [if_pos rfl, Finset.sum_eq_single t]
      · unfold upEntry; rw [if_pos le_rfl]; rfl
      · intro c _ hc
        rcases lt_or_gt_of_ne hc with hc | hc
        · unfold upEntry; rw [if_neg (not_le.2 hc), zero_mul]
        · rw [hv1 c hc, mul_zero]
      · simp
    · rw [if_neg ht.ne']
      refine Finset.sum_eq_zero fun c _ => ?_
      by_cases hc : t ≤ c
      · rw [hv1 c (lt_of_lt_of_le ht hc), mul_zero]
      · unfold upEntry; rw [if_neg hc, zero_mul]
  have e2 : ∑ c, lupRec (vals st.1) S i c * v c = lowEntry (vals st.1) i k * ((st.1 k k).val * v k) := by
    have : ∀ c, lupRec (vals st.1) S i c * v c = ∑ t, lowEntry (vals st.1) i t * (upEntry (vals st.1) t c * v c) := by
      intro c
      unfold lupRec
      rw [if_neg (fun hc => absurd hc.1 (not_le.2 i.isLt)), add_zero, Finset.sum_mul]
      exact Finset.sum_congr rfl fun t _ => by rw [if_pos t.isLt]; ring
    rw [Finset.sum_congr rfl fun c _ => this c, Finset.sum_comm]
    simp only [← Finset.mul_sum, row]
    rw [Finset.sum_eq_single k]
    · rw [if_pos rfl]
    · intro t _ ht; rw [if_neg ht, mul_zero]
    · simp
  rw [e1, e2]
  have hk : |v k| ≤ ∑ c, |v c| := Finset.single_le_sum (f := fun c => |v c|) (fun c _ => abs_nonneg _) (Finset.mem_univ k)
  have t1 : |∑ c, v c * ((A c (st.2 i)).val - lupRec (vals st.1) S i c)| ≤ singularErr P S M * ∑ c, |v c| := by
    refine (abs_mul_sum_le _ _ _ hfac).trans (le_of_eq ?_)
    rw [← Finset.sum_mul, mul_comm]
  have t2 : |lowEntry (vals st.1) i k * ((st.1 k k).val * v k)| ≤ |(st.1 k k).val| * ∑ c, |v c| := by
    rw [abs_mul, abs_mul]
    refine (mul_le_of_le_one_left (by positivity) (h.low_le i k k.isLt)).trans ?_
    exact mul_le_mul_of_nonneg_left hk (abs_nonneg _)
  refine (abs_add_le _ _).trans ((add_le_add t1 t2).trans (le_of_eq ?_))
  ring

end FltCond
end vm
