import Verif.Model.Text
import Verif.Lemmas.Io
import Mathlib.Tactic.Linarith
import Mathlib.Tactic.FieldSimp
import Mathlib.Tactic.NormNum
import Mathlib.Tactic.Positivity
import Mathlib.Tactic.Ring

/-!
# Lemmas about the text of numbers
-/

set_option linter.unusedSectionVars false
set_option linter.unusedSimpArgs false

namespace vm
namespace TextL

theorem natOf_foldl (l : List Char) (k : ℕ) :
    l.foldl (fun k c => 10 * k + (c.toNat - 48)) k = k * 10 ^ l.length + natOfDigits l := by
  induction l generalizing k with
  | nil => simp [natOfDigits]
  | cons c l ih =>
    unfold natOfDigits
    rw [List.foldl_cons, List.foldl_cons, ih, ih (10 * 0 + _)]
    simp only [List.length_cons, pow_succ]
    ring

theorem natOf_append (a b : List Char) : natOfDigits (a ++ b) = natOfDigits a * 10 ^ b.length + natOfDigits b := by
  have h := natOf_foldl b (natOfDigits a)
  rw [← h]
  unfold natOfDigits
  rw [List.foldl_append]

theorem digit_val : ∀ d < 10, (Nat.digitChar d).toNat - 48 = d := by decide

theorem digit_digit : ∀ d < 10, (Nat.digitChar d).isDigit = true := by decide

theorem decDigits_length (w k : ℕ) : (decDigits w k).length = w := by
  induction w generalizing k with
  | zero => rfl
  | succ w ih => simp [decDigits, ih]

theorem decDigits_digit (w k : ℕ) : ∀ c ∈ decDigits w k, c.isDigit = true := by
  induction w generalizing k with
  | zero => simp [decDigits]
  | succ w ih =>
    intro c hc
    rw [decDigits, List.mem_append, List.mem_singleton] at hc
    rcases hc with hc | rfl
    · exact ih _ c hc
    · exact digit_digit _ (Nat.mod_lt _ (by norm_num))

theorem decDigits_val {w k : ℕ} (h : k < 10 ^ w) : natOfDigits (decDigits w k) = k := by
  induction w generalizing k with
  | zero => simp at h; subst h; rfl
  | succ w ih =>
    rw [decDigits, natOf_append, ih (by rw [pow_succ] at h; omega)]
    have e : natOfDigits [Nat.digitChar (k % 10)] = k % 10 := by
      unfold natOfDigits
      simp only [List.foldl_cons, List.foldl_nil, mul_zero, zero_add]
      exact digit_val _ (Nat.mod_lt _ (by norm_num))
    rw [e]
    simp
    omega

theorem natOf_zeros {l : List Char} (h : ∀ c ∈ l, c = '0') : natOfDigits l = 0 := by
  induction l with
  | nil => rfl
  | cons c l ih =>
    have e : c :: l = [c] ++ l := rfl
    rw [e, natOf_append, ih fun d hd => h d (List.mem_cons_of_mem _ hd), h c List.mem_cons_self]
    simp [natOfDigits]

/-- The value of a number with the digits `a` before and `b` after the point. -/
def dval (a b : List Char) : ℚ := natOfDigits (a ++ b) * 10 ^ (-(b.length : ℤ))

theorem dval_strip (a b : List Char) : dval a (b.rdropWhile (· == '0')) = dval a b := by
  have e : b.rdropWhile (· == '0') ++ b.rtakeWhile (· == '0') = b := by
    unfold List.rdropWhile List.rtakeWhile
    rw [← List.reverse_append, List.takeWhile_append_dropWhile, List.reverse_reverse]
  set s := b.rdropWhile (· == '0')
  set z := b.rtakeWhile (· == '0') with hz
  have h0 : natOfDigits z = 0 := natOf_zeros fun c hc => by
    have := List.mem_rtakeWhile_imp (hz ▸ hc)
    simpa using this
  conv_rhs => rw [← e]
  unfold dval
  rw [← List.append_assoc, natOf_append (a ++ s), h0, List.length_append]
  push_cast
  rw [neg_add, zpow_add₀ (by norm_num), zpow_neg _ (z.length : ℤ), zpow_natCast]
  have : (10 : ℚ) ^ z.length ≠ 0 := by positivity
  field_simp
  simp

theorem dval_split (ds : List Char) (k : ℕ) :
    dval (ds.take k) (ds.drop k) = natOfDigits ds * 10 ^ (-((ds.length - k : ℕ) : ℤ)) := by
  unfold dval
  rw [List.take_append_drop, List.length_drop]

/-- The text does not continue a row of digits. -/
def NoDigit (r : List Char) : Prop := r = [] ∨ ∃ c cs, r = c :: cs ∧ c.isDigit = false

theorem take_digits {a r : List Char} (ha : ∀ c ∈ a, c.isDigit = true) (hr : NoDigit r) : (a ++ r).takeWhile Char.isDigit = a := by
  rw [List.takeWhile_append_of_pos ha]
  rcases hr with rfl | ⟨c, cs, rfl, hc⟩
  · simp
  · rw [List.takeWhile_cons_of_neg (by simp [hc])]; simp

theorem drop_digits {a r : List Char} (ha : ∀ c ∈ a, c.isDigit = true) (hr : NoDigit r) : (a ++ r).dropWhile Char.isDigit = r := by
  rw [List.dropWhile_append_of_pos ha]
  rcases hr with rfl | ⟨c, cs, rfl, hc⟩
  · simp
  · rw [List.dropWhile_cons_of_neg (by simp [hc])]

theorem readDec_text {a b r : List Char} (ha : ∀ c ∈ a, c.isDigit = true) (hb : ∀ c ∈ b, c.isDigit = true) (hr : NoDigit r)
    (hp : ∀ c cs, r = c :: cs → c ≠ '.') : readDec (a ++ (fracText b ++ r)) = dval a b * 10 ^ readExp r := by
  rw [← dval_strip a b]
  have hs : ∀ c ∈ b.rdropWhile (· == '0'), c.isDigit = true := fun c hc =>
    hb c ((List.rdropWhile_prefix (· == '0') (l := b)).subset hc)
  unfold fracText
  cases hst : b.rdropWhile (· == '0') with
  | nil =>
    simp only [List.nil_append]
    unfold readDec
    rw [take_digits ha hr, drop_digits ha hr]
    have e : readFrac r = ([], r) := by
      rcases r with _ | ⟨c, cs⟩
      · rfl
      · rw [readFrac, if_neg (hp c cs rfl)]
    rw [e]
    unfold dval
    simp
  | cons c cs =>
    rw [hst] at hs
    unfold readDec
    have hn : NoDigit ('.' :: c :: cs ++ r) := Or.inr ⟨'.', _, rfl, by decide⟩
    simp only
    rw [take_digits ha hn, drop_digits ha hn]
    have e : readFrac ('.' :: c :: cs ++ r) = (c :: cs, r) := by
      rw [List.cons_append, readFrac, if_pos rfl, take_digits hs hr, drop_digits hs hr]
    rw [e]
    unfold dval
    simp only
    rw [sub_eq_add_neg, zpow_add₀ (by norm_num)]
    ring

theorem stops_noDigit {r : List Char} (h : Stops r) : NoDigit r := by
  rcases h with rfl | ⟨c, cs, rfl, hc⟩
  · exact Or.inl rfl
  · refine Or.inr ⟨c, cs, rfl, ?_⟩
    simp only [stops, List.mem_cons, List.not_mem_nil, or_false] at hc
    rcases hc with rfl | rfl | rfl | rfl | rfl | rfl | rfl | rfl | rfl <;> decide

theorem stops_point {r : List Char} (h : Stops r) : ∀ c cs, r = c :: cs → c ≠ '.' := by
  rcases h with rfl | ⟨c, cs, rfl, hc⟩
  · intro c cs h; cases h
  · intro d ds h
    obtain ⟨rfl, -⟩ := List.cons.inj h
    simp only [stops, List.mem_cons, List.not_mem_nil, or_false] at hc
    rcases hc with rfl | rfl | rfl | rfl | rfl | rfl | rfl | rfl | rfl <;> decide

theorem stops_exp {r : List Char} (h : Stops r) : readExp r = 0 := by
  rcases h with rfl | ⟨c, cs, rfl, hc⟩
  · rfl
  · rw [readExp.eq_def]
    simp only
    rw [if_neg]
    simp only [stops, List.mem_cons, List.not_mem_nil, or_false] at hc
    rcases hc with rfl | rfl | rfl | rfl | rfl | rfl | rfl | rfl | rfl <;> decide

theorem readExp_text (X : ℤ) {r : List Char} (h : Stops r) : readExp (expText X ++ r) = X := by
  have hd := take_digits (decDigits_digit (max 2 (Nat.log 10 X.natAbs + 1)) X.natAbs) (stops_noDigit h)
  have hv : natOfDigits (decDigits (max 2 (Nat.log 10 X.natAbs + 1)) X.natAbs) = X.natAbs := by
    apply decDigits_val
    calc X.natAbs < 10 ^ (Nat.log 10 X.natAbs + 1) := Nat.lt_pow_succ_log_self (by norm_num) _
      _ ≤ _ := Nat.pow_le_pow_right (by norm_num) (le_max_right _ _)
  unfold expText
  simp only [List.cons_append]
  rw [readExp.eq_def]
  simp only
  rw [if_pos (Or.inl trivial)]
  by_cases hX : X < 0
  · simp only [if_pos hX, if_true]
    rw [hd, hv]; omega
  · simp only [if_neg hX]
    rw [if_neg (by decide), if_pos trivial, hd, hv]; omega

/-- The decimal number with `n` digits nearest to a positive number. -/
def nearDec (n : ℕ) (q : ℚ) : ℚ := rne (q / 10 ^ (Int.log 10 q - n + 1)) * 10 ^ (Int.log 10 q - n + 1)

theorem log_bounds {q : ℚ} (h : 0 < q) : (10 : ℚ) ^ Int.log 10 q ≤ q ∧ q < 10 ^ (Int.log 10 q + 1) := by
  have h1 := Int.zpow_log_le_self (b := 10) (by norm_num) h
  have h2 := Int.lt_zpow_succ_log_self (b := 10) (by norm_num) q
  push_cast at h1 h2
  exact ⟨h1, h2⟩

theorem ten_pos (e : ℤ) : (0 : ℚ) < 10 ^ e := zpow_pos (by norm_num) e

theorem rne_range {n : ℕ} (hn : 1 ≤ n) {q : ℚ} (h : 0 < q) :
    10 ^ (n - 1) ≤ rne (q / 10 ^ (Int.log 10 q - n + 1)) ∧ rne (q / 10 ^ (Int.log 10 q - n + 1)) ≤ 10 ^ n := by
  obtain ⟨h1, h2⟩ := log_bounds h
  have hg := ten_pos (Int.log 10 q - n + 1)
  constructor
  · apply int_le_rne
    rw [le_div_iff₀ hg]
    push_cast
    rw [← zpow_natCast, ← zpow_add₀ (by norm_num)]
    rwa [show ((n - 1 : ℕ) : ℤ) + (Int.log 10 q - n + 1) = Int.log 10 q by omega]
  · apply rne_le_int
    rw [div_le_iff₀ hg]
    push_cast
    rw [← zpow_natCast, ← zpow_add₀ (by norm_num)]
    rw [show (n : ℤ) + (Int.log 10 q - n + 1) = Int.log 10 q + 1 by ring]
    exact h2.le

theorem roundDec_spec {n : ℕ} (hn : 1 ≤ n) {q : ℚ} (h : 0 < q) :
    (roundDec n q).1 < 10 ^ n ∧ ((roundDec n q).1 : ℚ) * 10 ^ ((roundDec n q).2 - n + 1) = nearDec n q := by
  obtain ⟨h1, h2⟩ := rne_range hn h
  unfold roundDec nearDec
  simp only
  set r := rne (q / 10 ^ (Int.log 10 q - n + 1)) with hr
  have hr0 : (r.toNat : ℤ) = r := Int.toNat_of_nonneg (le_trans (by positivity) h1)
  have hrq : (r.toNat : ℚ) = r := by exact_mod_cast hr0
  by_cases hc : r.toNat = 10 ^ n
  · rw [if_pos hc]
    refine ⟨Nat.pow_lt_pow_right (by norm_num) (by omega), ?_⟩
    rw [← hrq, hc]
    push_cast
    rw [← zpow_natCast, ← zpow_natCast, ← zpow_add₀ (by norm_num), ← zpow_add₀ (by norm_num)]
    congr 1
    omega
  · rw [if_neg hc]
    refine ⟨?_, by rw [← hrq]⟩
    have : r.toNat ≤ 10 ^ n := by
      have : (r.toNat : ℤ) ≤ ((10 ^ n : ℕ) : ℤ) := by rw [hr0]; push_cast; exact h2
      exact_mod_cast this
    exact lt_of_le_of_ne this hc

theorem near_err {n : ℕ} {q : ℚ} (h : 0 < q) : |nearDec n q - q| ≤ q * (10 ^ (1 - n : ℤ) / 2) := by
  obtain ⟨h1, -⟩ := log_bounds h
  have hg := ten_pos (Int.log 10 q - n + 1)
  have he := rne_err (q / 10 ^ (Int.log 10 q - n + 1))
  have e : nearDec n q - q = -((q / 10 ^ (Int.log 10 q - n + 1) - rne (q / 10 ^ (Int.log 10 q - n + 1))) * 10 ^ (Int.log 10 q - n + 1)) := by
    unfold nearDec
    field_simp
    ring
  rw [e, abs_neg, abs_mul, abs_of_pos hg]
  calc |q / 10 ^ (Int.log 10 q - n + 1) - rne (q / 10 ^ (Int.log 10 q - n + 1))| * 10 ^ (Int.log 10 q - n + 1)
      ≤ 1 / 2 * 10 ^ (Int.log 10 q - n + 1) := mul_le_mul_of_nonneg_right he hg.le
    _ = 10 ^ Int.log 10 q * (10 ^ (1 - n : ℤ) / 2) := by
      rw [show Int.log 10 q - n + 1 = Int.log 10 q + (1 - n) by ring, zpow_add₀ (by norm_num)]; ring
    _ ≤ _ := mul_le_mul_of_nonneg_right h1 (by have := ten_pos (1 - n); positivity)

/-- Reading a printed positive number gives the decimal number nearest to it. -/
theorem readDec_print {n : ℕ} (hn : 1 ≤ n) {q : ℚ} (h : 0 < q) {r : List Char} (hr : Stops r) :
    readDec (printPos n q ++ r) = nearDec n q := by
  obtain ⟨h1, h2⟩ := roundDec_spec hn h
  unfold printPos
  simp only
  set m := (roundDec n q).1
  set X := (roundDec n q).2
  have hdd := decDigits_digit n m
  have hlen := decDigits_length n m
  have hv := decDigits_val h1
  have htake : ∀ k, ∀ c ∈ (decDigits n m).take k, c.isDigit = true := fun k c hc => hdd c (List.mem_of_mem_take hc)
  have hdrop : ∀ k, ∀ c ∈ (decDigits n m).drop k, c.isDigit = true := fun k c hc => hdd c (List.mem_of_mem_drop hc)
  split_ifs with hf h0
  · rw [List.append_assoc, readDec_text (htake _) (hdrop _) (stops_noDigit hr) (stops_point hr), stops_exp hr, dval_split, hv, hlen, ← h2]
    rw [zpow_zero, mul_one]
    congr 2
    omega
  · have e : '0' :: fracText (List.replicate (-X - 1).toNat '0' ++ decDigits n m) ++ r =
        ['0'] ++ (fracText (List.replicate (-X - 1).toNat '0' ++ decDigits n m) ++ r) := rfl
    have hd : ∀ c ∈ List.replicate (-X - 1).toNat '0' ++ decDigits n m, c.isDigit = true := by
      intro c hc
      rcases List.mem_append.1 hc with hc | hc
      · rw [List.eq_of_mem_replicate hc]; decide
      · exact hdd c hc
    rw [e, readDec_text (by simp) hd (stops_noDigit hr) (stops_point hr), stops_exp hr, ← h2]
    unfold dval
    rw [← List.append_assoc, natOf_append, hv]
    rw [natOf_zeros (l := ['0'] ++ List.replicate (-X - 1).toNat '0') (by
      intro c hc
      rcases List.mem_append.1 hc with hc | hc
      · simpa using hc
      · exact List.eq_of_mem_replicate hc)]
    rw [zpow_zero, mul_one, zero_mul, zero_add, List.length_append, List.length_replicate, hlen]
    congr 2
    omega
  · rw [List.append_assoc, List.append_assoc, readDec_text (r := expText X ++ r) (htake _) (hdrop _) (Or.inr ⟨'e', _, rfl, by decide⟩)
      (by intro c cs h; obtain ⟨rfl, -⟩ := List.cons.inj h; decide), readExp_text X hr, dval_split, hv, hlen, ← h2]
    rw [mul_assoc, ← zpow_add₀ (by norm_num)]
    congr 2
    omega

theorem fracText_chars {b : List Char} (hb : ∀ c ∈ b, c.isDigit = true) : ∀ c ∈ fracText b, c.isDigit = true ∨ c ∈ ['.', 'e', '+', '-'] := by
  intro c hc
  have hs : ∀ c ∈ b.rdropWhile (· == '0'), c.isDigit = true := fun c hc =>
    hb c ((List.rdropWhile_prefix (· == '0') (l := b)).subset hc)
  unfold fracText at hc
  cases hst : b.rdropWhile (· == '0') with
  | nil => rw [hst] at hc; simp at hc
  | cons d ds =>
    rw [hst] at hc hs
    rcases List.mem_cons.1 hc with rfl | hc
    · exact Or.inr (by decide)
    · exact Or.inl (hs c hc)

theorem print_chars (n : ℕ) (q : ℚ) : ∀ c ∈ printPos n q, c.isDigit = true ∨ c ∈ ['.', 'e', '+', '-'] := by
  unfold printPos
  simp only
  set m := (roundDec n q).1
  set X := (roundDec n q).2
  have hdd := decDigits_digit n m
  have htake : ∀ k, ∀ c ∈ (decDigits n m).take k, c.isDigit = true := fun k c hc => hdd c (List.mem_of_mem_take hc)
  have hdrop : ∀ k, ∀ c ∈ (decDigits n m).drop k, c.isDigit = true := fun k c hc => hdd c (List.mem_of_mem_drop hc)
  split_ifs with hf h0
  · intro c hc
    rcases List.mem_append.1 hc with hc | hc
    · exact Or.inl (htake _ c hc)
    · exact fracText_chars (hdrop _) c hc
  · intro c hc
    rcases List.mem_cons.1 hc with rfl | hc
    · exact Or.inl (by decide)
    · refine fracText_chars ?_ c hc
      intro c hc
      rcases List.mem_append.1 hc with hc | hc
      · rw [List.eq_of_mem_replicate hc]; decide
      · exact hdd c hc
  · intro c hc
    rcases List.mem_append.1 hc with hc | hc
    · rcases List.mem_append.1 hc with hc | hc
      · exact Or.inl (htake _ c hc)
      · exact fracText_chars (hdrop _) c hc
    · unfold expText at hc
      rcases List.mem_cons.1 hc with rfl | hc
      · exact Or.inr (by decide)
      · rcases List.mem_cons.1 hc with hc | hc
        · split_ifs at hc <;> subst hc <;> exact Or.inr (by decide)
        · exact Or.inl (decDigits_digit _ _ c hc)

theorem print_head {n : ℕ} (hn : 1 ≤ n) (q : ℚ) : ∃ c cs, printPos n q = c :: cs ∧ c.isDigit = true := by
  unfold printPos
  simp only
  set m := (roundDec n q).1
  set X := (roundDec n q).2
  have hdd := decDigits_digit n m
  have hlen := decDigits_length n m
  rcases hds : decDigits n m with _ | ⟨d, ds⟩
  · rw [hds] at hlen; simp at hlen; omega
  · have hd : d.isDigit = true := hdd d (by rw [hds]; exact List.mem_cons_self)
    split_ifs with hf h0
    · exact ⟨d, _, by rw [List.take_succ_cons, List.cons_append], hd⟩
    · exact ⟨'0', _, rfl, by decide⟩
    · exact ⟨d, _, by rw [List.take_succ_cons, List.cons_append, List.cons_append], hd⟩

theorem chars_stops {c : Char} (h : c.isDigit = true ∨ c ∈ ['.', 'e', '+', '-']) : c ∉ stops := by
  intro hc
  simp only [stops, List.mem_cons, List.not_mem_nil, or_false] at hc
  rcases hc with rfl | rfl | rfl | rfl | rfl | rfl | rfl | rfl | rfl <;> revert h <;> decide

theorem digit_cases {c : Char} (h : c.isDigit = true) : ∃ d < 10, c = Nat.digitChar d := by
  have h1 : 48 ≤ c.toNat ∧ c.toNat ≤ 57 := by
    simp only [Char.isDigit, Bool.and_eq_true, decide_eq_true_eq] at h
    exact ⟨UInt32.le_iff_toNat_le.1 h.1, UInt32.le_iff_toNat_le.1 h.2⟩
  refine ⟨c.toNat - 48, by omega, ?_⟩
  have key : ∀ k ≤ 57, 48 ≤ k → Char.ofNat k = Nat.digitChar (k - 48) := by decide
  rw [← key c.toNat h1.2 h1.1, Char.ofNat_toNat]

theorem readAbs_digit {c : Char} (h : c.isDigit = true) (cs : List Char) : readAbs (c :: cs) = Flt.round (readDec (c :: cs)) := by
  obtain ⟨d, hd, rfl⟩ := digit_cases h
  have h1 : ∀ d < 10, (Nat.digitChar d).toLower ≠ 'i' := by decide
  have h2 : ∀ d < 10, (Nat.digitChar d).toLower ≠ 'n' := by decide
  unfold readAbs
  rw [if_neg, if_neg]
  · intro e; rw [List.take_succ_cons, List.map_cons] at e
    exact h2 d hd (List.cons.inj e).1
  · intro e; rw [List.take_succ_cons, List.map_cons] at e
    exact h1 d hd (List.cons.inj e).1

theorem atof_digit {c : Char} (h : c.isDigit = true) (cs : List Char) : atofD (c :: cs) = Flt.round (readDec (c :: cs)) := by
  rw [← readAbs_digit h]
  obtain ⟨d, hd, rfl⟩ := digit_cases h
  have h1 : ∀ d < 10, ¬ ([' ', '\t', '\n', '\r', '\x0b', '\x0c'].contains (Nat.digitChar d) = true) := by decide
  have h2 : ∀ d < 10, Nat.digitChar d ≠ '-' := by decide
  have h3 : ∀ d < 10, Nat.digitChar d ≠ '+' := by decide
  unfold atofD
  rw [List.dropWhile_cons_of_neg (h1 d hd)]
  simp only
  rw [if_neg (h2 d hd), if_neg (h3 d hd)]

theorem atof_neg_digit {c : Char} (h : c.isDigit = true) (cs : List Char) : atofD ('-' :: c :: cs) = -Flt.round (readDec (c :: cs)) := by
  rw [← readAbs_digit h]
  unfold atofD
  rw [List.dropWhile_cons_of_neg (by decide)]
  rfl

/-- Reading a printed positive number. -/
theorem atof_print {n : ℕ} (hn : 1 ≤ n) {q : ℚ} (h : 0 < q) {r : List Char} (hr : Stops r) :
    atofD (printPos n q ++ r) = Flt.round (nearDec n q) ∧ atofD ('-' :: printPos n q ++ r) = -Flt.round (nearDec n q) := by
  obtain ⟨c, cs, hc, hd⟩ := print_head hn q
  rw [← readDec_print hn h hr, hc]
  exact ⟨atof_digit hd _, atof_neg_digit hd _⟩

end TextL
end vm
