import Verif.Lemmas.TextNum
import Mathlib.Data.Fin.VecNotation

/-!
# C138: vectors and matrices of floating point numbers written as text and read again

C26 and C77 take the printer and the reader of numbers as parameters.  Here they are the ones of the C and C++ libraries: `stream << x` prints with the precision of
the stream (`%g`, six digits unless the user sets another precision), `std::atof` reads a decimal number and rounds it to `double`, and the result is cast
to the component type.
-/

set_option linter.unusedSectionVars false
set_option linter.unusedSimpArgs false

namespace vm

open TextL BinPar

variable {S R C : ℕ}

/-- Text before or between vectors. -/
def Blanks (pre : List Char) : Prop := ∀ c ∈ pre, c ∈ [' ', '\t', '\n', '\r', '(', ')']

/-- The end of the text, or text that begins with a blank or a parenthesis. -/
def BlankFirst (post : List Char) : Prop := post = [] ∨ ∃ c cs, post = c :: cs ∧ c ∈ [' ', '\t', '\n', '\r', '(', ')']

/-- With at least 17 digits, every vector and matrix of `double`s is read back exactly as it was printed, infinities and NaN included. -/
theorem C138_double {n : ℕ} (hn : 17 ≤ n) (v : Vec (Flt binary64.fmt) S) (m : Mat (Flt binary64.fmt) R C) {after pre post : List Char} (hafter : Stops after)
    (hpre : Blanks pre) (hpost : BlankFirst post) :
    parseVec atofT after S (pre ++ printVec (printFlt n) v ++ post) = some v ∧
    parseMat atofT after R C (pre ++ printMat (printFlt n) m ++ post) = some m :=
  ⟨C26_round_trip _ _ _ v (fun _ => numberText (by omega) _) (fun _ => reads_double hn _) hafter pre post hpre hpost,
    C77_round_trip _ _ _ m (fun _ _ => numberText (by omega) _) (fun _ _ => reads_double hn _) hafter pre post hpre hpost⟩

/-- With at least 9 digits, every vector and matrix of `float`s is read back exactly, although the text is first rounded to `double` and then to `float`. -/
theorem C138_float {n : ℕ} (hn : 9 ≤ n) (v : Vec (Flt binary32.fmt) S) (m : Mat (Flt binary32.fmt) R C) {after pre post : List Char} (hafter : Stops after)
    (hpre : Blanks pre) (hpost : BlankFirst post) :
    parseVec atofT after S (pre ++ printVec (printFlt n) v ++ post) = some v ∧
    parseMat atofT after R C (pre ++ printMat (printFlt n) m ++ post) = some m :=
  ⟨C26_round_trip _ _ _ v (fun _ => numberText (by omega) _) (fun _ => reads_float hn _) hafter pre post hpre hpost,
    C77_round_trip _ _ _ m (fun _ _ => numberText (by omega) _) (fun _ _ => reads_float hn _) hafter pre post hpre hpost⟩

/-- The components are read back one by one. -/
theorem parse_printed {F : Fmt} {n : ℕ} (hn : 1 ≤ n) (v w : Vec (Flt F) S) (hr : ∀ i, Reads (atofT (F := F)) (printFlt n (v i)) (w i))
    {after pre post : List Char} (hafter : Stops after) (hpre : Blanks pre) (hpost : BlankFirst post) :
    parseVec atofT after S (pre ++ printVec (printFlt n) v ++ post) = some w := by
  rcases Nat.eq_zero_or_pos S with h0 | hS
  · subst h0
    unfold parseVec
    simp only [doParse, Option.map_some, Option.some.injEq]
    funext i; exact i.elim0
  have ht : tokens (pre ++ printVec (printFlt n) v ++ post) = List.ofFn (fun i => printFlt n (v i)) ++ tokens post := by
    rw [List.append_assoc, tokens_blanks hpre, tokens_printVec (printFlt n) v hS (fun _ => numberText hn _) post hpost]
  rcases h : parseVec atofT after S (pre ++ printVec (printFlt n) v ++ post) with _ | w'
  · rw [C26_none_iff, ht] at h
    simp at h
  · congr 1
    funext i
    obtain ⟨tok, h1, h2⟩ := C26_some atofT after _ hafter w' h i
    apply h2
    rw [ht, List.getElem?_append_left (by simp), List.getElem?_ofFn, dif_pos i.2, Option.some.injEq] at h1
    rw [← h1]
    exact hr i

theorem parseMat_printed {F : Fmt} {n : ℕ} (hn : 1 ≤ n) (m w : Mat (Flt F) R C) (hr : ∀ c r, Reads (atofT (F := F)) (printFlt n (m c r)) (w c r))
    {after : List Char} (hafter : Stops after) : parseMat atofT after R C (printMat (printFlt n) m) = some w := by
  have hrow := C77_row_major (printFlt n) m fun c r => numberText hn _
  rcases h : parseMat (atofT (F := F)) after R C (printMat (printFlt n) m) with _ | w'
  · exfalso
    rw [C77_none_iff] at h
    rcases Nat.eq_zero_or_pos R with h0 | hR
    · subst h0; simp at h
    rcases Nat.eq_zero_or_pos C with h0 | hC
    · subst h0; simp at h
    have h1 := hrow ⟨C - 1, by omega⟩ ⟨R - 1, by omega⟩
    have h2 := (List.getElem?_eq_some_iff.1 h1).1
    have e : R * C = (R - 1) * C + C := by
      obtain ⟨R', rfl⟩ := Nat.exists_eq_succ_of_ne_zero hR.ne'
      simp only [Nat.succ_eq_add_one, Nat.add_sub_cancel]
      ring
    simp only at h2
    omega
  · congr 1
    funext c r
    obtain ⟨tok, h1, h2⟩ := C77_some atofT after _ hafter w' h c r
    apply h2
    rw [hrow, Option.some.injEq] at h1
    rw [← h1]
    exact hr c r

/-- With any precision `n`, components of type `double` are read back with a relative error of at most 10^(1-n); subnormal numbers are no exception.
With the default precision this is 0.00001. -/
theorem C138_error_double {n : ℕ} (hn : 1 ≤ n) (v : Vec (Flt binary64.fmt) S) (m : Mat (Flt binary64.fmt) R C)
    (hv : ∀ i, (v i).isFinite ∧ |(v i).val| ≤ 2 ^ 1022) (hm : ∀ c r, (m c r).isFinite ∧ |(m c r).val| ≤ 2 ^ 1022)
    {after pre post : List Char} (hafter : Stops after) (hpre : Blanks pre) (hpost : BlankFirst post) :
    (∃ w : Vec (Flt binary64.fmt) S, parseVec atofT after S (pre ++ printVec (printFlt n) v ++ post) = some w ∧
      ∀ i, (w i).isFinite ∧ |(w i).val - (v i).val| ≤ 10 ^ (1 - n : ℤ) * |(v i).val|) ∧
    ∃ w : Mat (Flt binary64.fmt) R C, parseMat atofT after R C (printMat (printFlt n) m) = some w ∧
      ∀ c r, (w c r).isFinite ∧ |(w c r).val - (m c r).val| ≤ 10 ^ (1 - n : ℤ) * |(m c r).val| := by
  have key : ∀ x : Flt binary64.fmt, x.isFinite ∧ |x.val| ≤ 2 ^ 1022 → ∃ y : Flt binary64.fmt, Reads (atofT (F := binary64.fmt)) (printFlt n x) y ∧
      y.isFinite ∧ |y.val - x.val| ≤ 10 ^ (1 - n : ℤ) * |x.val| := by
    rintro x ⟨hx, hb⟩
    rcases x with _ | _ | _ | ⟨q, hq⟩
    · exact hx.elim
    · exact hx.elim
    · exact hx.elim
    · refine reads_error_double hn hq (hb.trans (le_of_eq ?_))
      have e : binary64.bound = 2 ^ 1022 * 4 := by
        show (2 : ℚ) ^ (1024 : ℤ) = _
        rw [show (1024 : ℤ) = ((1022 + 2 : ℕ) : ℤ) from rfl, zpow_natCast, pow_add]
        norm_num
      rw [e, mul_div_assoc, div_self (by norm_num), mul_one]
  constructor
  · choose w h1 h2 using fun i => key (v i) (hv i)
    exact ⟨w, parse_printed hn v w h1 hafter hpre hpost, h2⟩
  · choose w h1 h2 using fun c r => key (m c r) (hm c r)
    exact ⟨w, parseMat_printed hn m w h1 hafter, h2⟩

/-- The same for `float`, with twice the error for the two roundings. -/
theorem C138_error_float {n : ℕ} (hn : 1 ≤ n) (v : Vec (Flt binary32.fmt) S) (m : Mat (Flt binary32.fmt) R C)
    (hv : ∀ i, (v i).isFinite ∧ |(v i).val| ≤ 2 ^ 126) (hm : ∀ c r, (m c r).isFinite ∧ |(m c r).val| ≤ 2 ^ 126)
    {after pre post : List Char} (hafter : Stops after) (hpre : Blanks pre) (hpost : BlankFirst post) :
    (∃ w : Vec (Flt binary32.fmt) S, parseVec atofT after S (pre ++ printVec (printFlt n) v ++ post) = some w ∧
      ∀ i, (w i).isFinite ∧ |(w i).val - (v i).val| ≤ 2 * 10 ^ (1 - n : ℤ) * |(v i).val|) ∧
    ∃ w : Mat (Flt binary32.fmt) R C, parseMat atofT after R C (printMat (printFlt n) m) = some w ∧
      ∀ c r, (w c r).isFinite ∧ |(w c r).val - (m c r).val| ≤ 2 * 10 ^ (1 - n : ℤ) * |(m c r).val| := by
  have key : ∀ x : Flt binary32.fmt, x.isFinite ∧ |x.val| ≤ 2 ^ 126 → ∃ y : Flt binary32.fmt, Reads (atofT (F := binary32.fmt)) (printFlt n x) y ∧
      y.isFinite ∧ |y.val - x.val| ≤ 2 * 10 ^ (1 - n : ℤ) * |x.val| := by
    rintro x ⟨hx, hb⟩
    rcases x with _ | _ | _ | ⟨q, hq⟩
    · exact hx.elim
    · exact hx.elim
    · exact hx.elim
    · refine reads_error_float hn hq (hb.trans (le_of_eq ?_))
      show _ = (2 : ℚ) ^ (128 : ℤ) / 4
      norm_num
  constructor
  · choose w h1 h2 using fun i => key (v i) (hv i)
    exact ⟨w, parse_printed hn v w h1 hafter hpre hpost, h2⟩
  · choose w h1 h2 using fun c r => key (m c r) (hm c r)
    exact ⟨w, parseMat_printed hn m w h1 hafter, h2⟩

/-- The number `x` is what one gets by reading a decimal number with at most `n` digits in the range of normal numbers of the format `P`. -/
def ReadDecimal (P : BinPar) (n : ℕ) (x : Flt P.fmt) : Prop :=
  ∃ k j : ℤ, |k| < 10 ^ n ∧ x = Flt.cast (Flt.round ((k : ℚ) * 10 ^ j) : Flt binary64.fmt) ∧
    (k = 0 ∨ 2 ^ (P.qmin + P.p - 1) ≤ |(k : ℚ) * 10 ^ j| ∧ |(k : ℚ) * 10 ^ j| ≤ 2 ^ (P.p + P.qmax - 2))

theorem decimal_double {n : ℕ} (h1 : 1 ≤ n) (hn : n ≤ 15) {x : Flt binary64.fmt} (h : ReadDecimal binary64 n x) :
    Reads (atofT (F := binary64.fmt)) (printFlt n x) x := by
  obtain ⟨k, j, hk, rfl, hr⟩ := h
  rw [cast_self]
  set K : ℚ := k * 10 ^ j with hK
  have herr : |binary64.fl K - K| ≤ 2 ^ (-(53 : ℤ)) * |K| := by
    rcases hr with rfl | ⟨hr, -⟩
    · rw [hK]; simp [binary64.fl_zero]
    · exact fl_err_rel hr
  have hb : |binary64.fl K| < binary64.bound := by
    have h1 : |binary64.fl K| ≤ |binary64.fl K - K| + |K| := by
      have := abs_add_le (binary64.fl K - K) K
      rwa [sub_add_cancel] at this
    have h2 : |K| ≤ 2 ^ (1022 : ℤ) := by
      rcases hr with rfl | ⟨-, hr⟩
      · rw [hK, Int.cast_zero, zero_mul, abs_zero]; exact (two_zpow_pos _).le
      · rwa [show (binary64.p : ℤ) + binary64.qmax - 2 = 1022 by decide] at hr
    have h3 : |binary64.fl K - K| ≤ |K| := herr.trans (mul_le_of_le_one_left (abs_nonneg K) (by norm_num))
    have h4 : binary64.bound = 2 ^ (1022 : ℤ) * 4 := by
      show (2 : ℚ) ^ (1024 : ℤ) = _
      rw [show (1024 : ℤ) = 1022 + 2 by norm_num, zpow_add₀ (by norm_num)]
      norm_num
    have h5 : (0 : ℚ) < 2 ^ (1022 : ℤ) := two_zpow_pos _
    generalize (2 : ℚ) ^ (1022 : ℤ) = z at *
    linarith
  intro rest hs
  have hp := reads_fin (F := binary64.fmt) h1 (q := binary64.fl K) ⟨binary64.rep_fl _, hb⟩ rest hs
  rw [nearZ_decimal (ε := 2 ^ (-(53 : ℤ))) hk j ?_ (by positivity) herr] at hp
  · unfold atofT
    rw [cast_self, binary64.round_eq hb, hp]
    exact binary64.round_eq hb
  have : (10 : ℚ) ^ n ≤ 10 ^ 15 := pow_le_pow_right₀ (by norm_num) hn
  norm_num at this ⊢
  linarith

theorem decimal_float {n : ℕ} (h1 : 1 ≤ n) (hn : n ≤ 6) {x : Flt binary32.fmt} (h : ReadDecimal binary32 n x) :
    Reads (atofT (F := binary32.fmt)) (printFlt n x) x := by
  obtain ⟨k, j, hk, rfl, hr⟩ := h
  set K : ℚ := k * 10 ^ j with hK
  have hr' : K = 0 ∨ 2 ^ (-126 : ℤ) ≤ |K| ∧ |K| ≤ 2 ^ (126 : ℤ) := by
    rcases hr with rfl | hr
    · left; rw [hK]; simp
    · right; exact hr
  have hab : ∀ y z : ℚ, |y| ≤ |y - z| + |z| := fun y z => by
    have := abs_add_le (y - z) z
    rwa [sub_add_cancel] at this
  have herr : |binary64.fl K - K| ≤ 2 ^ (-(53 : ℤ)) * |K| := by
    rcases hr' with h | ⟨hr, -⟩
    · rw [h]; simp [binary64.fl_zero]
    · refine fl_err_rel (le_trans ?_ hr)
      exact zpow_le_zpow_right₀ (by norm_num) (by decide)
  have hK0 := abs_nonneg K
  have h126 : |K| ≤ 2 ^ (126 : ℤ) := by
    rcases hr' with h | ⟨-, h⟩
    · rw [h]; simp
    · exact h
  have hy := hab (binary64.fl K) K
  have hb : |binary64.fl K| < binary64.bound := by
    have h4 : (2 : ℚ) ^ (128 : ℤ) ≤ binary64.bound := zpow_le_zpow_right₀ (by norm_num) (by decide)
    norm_num at herr h126 h4
    linarith
  have herr2 : |binary32.fl (binary64.fl K) - K| ≤ 2 ^ (-(22 : ℤ)) * |K| := by
    rcases hr' with h | ⟨hr, -⟩
    · rw [h]; simp [binary64.fl_zero, binary32.fl_zero]
    · have h5 := binary32.fl_err_abs (binary64.fl K)
      have e : binary32.qmin - 1 = -150 := rfl
      have e2 : (binary32.p : ℤ) = 24 := rfl
      rw [e, e2] at h5
      have h6 := abs_add_le (binary32.fl (binary64.fl K) - binary64.fl K) (binary64.fl K - K)
      rw [sub_add_sub_cancel] at h6
      have h7 : (2 : ℚ) ^ (-150 : ℤ) = 2 ^ (-24 : ℤ) * 2 ^ (-126 : ℤ) := by rw [← zpow_add₀ (by norm_num)]; norm_num
      rw [h7] at h5
      have h8 : (2 : ℚ) ^ (-24 : ℤ) * 2 ^ (-126 : ℤ) ≤ 2 ^ (-24 : ℤ) * |K| := mul_le_mul_of_nonneg_left hr (by positivity)
      have h9 : (2 : ℚ) ^ (-24 : ℤ) * |binary64.fl K| ≤ 2 ^ (-24 : ℤ) * (|binary64.fl K - K| + |K|) := mul_le_mul_of_nonneg_left hy (by positivity)
      clear h7 hr hb h126 hK
      generalize (2 : ℚ) ^ (-126 : ℤ) = z at *
      norm_num at h5 h8 h9 herr ⊢
      linarith
  have hb2 : |binary32.fl (binary64.fl K)| < binary32.bound := by
    have := hab (binary32.fl (binary64.fl K)) K
    have h4 : binary32.bound = 2 ^ (128 : ℤ) := rfl
    rw [h4]
    norm_num at herr2 h126 ⊢
    linarith
  have hcast : (Flt.cast (Flt.round K : Flt binary64.fmt) : Flt binary32.fmt) =
      Flt.fin (F := binary32.fmt) (binary32.fl (binary64.fl K)) ⟨binary32.rep_fl _, hb2⟩ := by
    rw [binary64.round_eq hb]
    exact binary32.round_eq hb2
  intro rest hs
  have hp := reads_fin (F := binary32.fmt) h1 (q := binary32.fl (binary64.fl K)) ⟨binary32.rep_fl _, hb2⟩ rest hs
  rw [nearZ_decimal (ε := 2 ^ (-(22 : ℤ))) hk j ?_ (by positivity) herr2] at hp
  · unfold atofT
    rw [hcast, hp]
    exact hcast
  · have : (10 : ℚ) ^ n ≤ 10 ^ 6 := pow_le_pow_right₀ (by norm_num) hn
    norm_num at this ⊢
    linarith

/-- Numbers with few digits survive: a component that was itself read from a decimal number with at most `n` digits is printed as this decimal number, and is
read back exactly, for up to 15 digits (`double`).  The default precision is 6. -/
theorem C138_decimal_double {n : ℕ} (h1 : 1 ≤ n) (hn : n ≤ 15) (v : Vec (Flt binary64.fmt) S) (m : Mat (Flt binary64.fmt) R C)
    (hv : ∀ i, ReadDecimal binary64 n (v i)) (hm : ∀ c r, ReadDecimal binary64 n (m c r)) {after pre post : List Char} (hafter : Stops after)
    (hpre : Blanks pre) (hpost : BlankFirst post) :
    parseVec atofT after S (pre ++ printVec (printFlt n) v ++ post) = some v ∧
    parseMat atofT after R C (pre ++ printMat (printFlt n) m ++ post) = some m :=
  ⟨C26_round_trip _ _ _ v (fun _ => numberText h1 _) (fun i => decimal_double h1 hn (hv i)) hafter pre post hpre hpost,
    C77_round_trip _ _ _ m (fun _ _ => numberText h1 _) (fun c r => decimal_double h1 hn (hm c r)) hafter pre post hpre hpost⟩

/-- The same for `float` and up to 6 digits, which is the default precision. -/
theorem C138_decimal_float {n : ℕ} (h1 : 1 ≤ n) (hn : n ≤ 6) (v : Vec (Flt binary32.fmt) S) (m : Mat (Flt binary32.fmt) R C)
    (hv : ∀ i, ReadDecimal binary32 n (v i)) (hm : ∀ c r, ReadDecimal binary32 n (m c r)) {after pre post : List Char} (hafter : Stops after)
    (hpre : Blanks pre) (hpost : BlankFirst post) :
    parseVec atofT after S (pre ++ printVec (printFlt n) v ++ post) = some v ∧
    parseMat atofT after R C (pre ++ printMat (printFlt n) m ++ post) = some m :=
  ⟨C26_round_trip _ _ _ v (fun _ => numberText h1 _) (fun i => decimal_float h1 hn (hv i)) hafter pre post hpre hpost,
    C77_round_trip _ _ _ m (fun _ _ => numberText h1 _) (fun c r => decimal_float h1 hn (hm c r)) hafter pre post hpre hpost⟩

theorem log_eq {q : ℚ} {L : ℤ} (h1 : (10 : ℚ) ^ L ≤ q) (h2 : q < 10 ^ (L + 1)) : Int.log 10 q = L := by
  have hq : 0 < q := (ten_pos L).trans_le h1
  have a : L ≤ Int.log 10 q := (Int.zpow_le_iff_le_log (b := 10) (by norm_num) hq).1 (by exact_mod_cast h1)
  have b : Int.log 10 q < L + 1 := (Int.lt_zpow_iff_log_lt (b := 10) (by norm_num) hq).1 (by exact_mod_cast h2)
  omega

theorem roundDec_eval {n : ℕ} {q : ℚ} {L : ℤ} {m : ℕ} (h1 : (10 : ℚ) ^ L ≤ q) (h2 : q < 10 ^ (L + 1)) (hm : m ≠ 10 ^ n)
    (h3 : |q / 10 ^ (L - n + 1) - m| < 1 / 2) : roundDec n q = (m, L) := by
  unfold roundDec
  have e : rne (q / 10 ^ (L - n + 1)) = (m : ℤ) := rne_unique (by push_cast; exact h3)
  simp only
  rw [log_eq h1 h2, e, Int.toNat_natCast, if_neg hm]

theorem printPos_congr {n : ℕ} {p q : ℚ} (h : roundDec n p = roundDec n q) : printPos n p = printPos n q := by
  unfold printPos
  rw [h]

/-- Fewer digits do not suffice, whatever the reader does: with the default precision the numbers 1234567 and 1234568 are printed with the same text (as
`double` and as `float`), with 8 digits two neighbouring `float`s, and with 16 digits the two `double`s next to 0.3. -/
theorem C138_digits_fails :
    (∃ x y : Flt binary64.fmt, x.isFinite ∧ y.isFinite ∧ x.val = 1234567 ∧ y.val = 1234568 ∧
      printVec (printFlt 6) (![x, 0] : Vec _ 2) = printVec (printFlt 6) ![y, 0]) ∧
    (∃ x y : Flt binary32.fmt, x.isFinite ∧ y.isFinite ∧ x.val = 1234567 ∧ y.val = 1234568 ∧
      printVec (printFlt 6) (![x, 0] : Vec _ 2) = printVec (printFlt 6) ![y, 0]) ∧
    (∃ x y : Flt binary32.fmt, x.isFinite ∧ y.isFinite ∧ x ≠ y ∧ printVec (printFlt 8) (![x, 0] : Vec _ 2) = printVec (printFlt 8) ![y, 0]) ∧
    ∃ x y : Flt binary64.fmt, x.isFinite ∧ y.isFinite ∧ x ≠ y ∧ printVec (printFlt 16) (![x, 0] : Vec _ 2) = printVec (printFlt 16) ![y, 0] := by
  have key : ∀ (F : Fmt) (n : ℕ) (p q : ℚ) (hp : F.rep p) (hq : F.rep q), 0 < p → 0 < q → roundDec n p = roundDec n q →
      printVec (printFlt n) (![Flt.fin p hp, 0] : Vec (Flt F) 2) = printVec (printFlt n) ![Flt.fin q hq, 0] := by
    intro F n p q hp hq h1 h2 h
    have e : printFlt n (Flt.fin p hp) = printFlt n (Flt.fin q hq) := by
      unfold printFlt
      simp only
      rw [if_neg h1.ne', if_neg h2.ne', if_neg h1.le.not_gt, if_neg h2.le.not_gt, printPos_congr h]
    unfold printVec
    simp [e]
  have r6 : ∀ q : ℚ, q = 1234567 ∨ q = 1234568 → roundDec 6 q = (123457, 6) := by
    rintro q (rfl | rfl) <;> refine roundDec_eval (by norm_num) (by norm_num) (by norm_num) ?_ <;> norm_num [abs_lt]
  have b32 : ∀ q : ℚ, |q| ≤ 10000000 → |q| < binary32.bound := fun q h => by
    refine h.trans_lt ?_
    show (10000000 : ℚ) < 2 ^ (128 : ℤ)
    norm_num
  have b64 : ∀ q : ℚ, |q| ≤ 10000000 → |q| < binary64.bound := fun q h => by
    refine h.trans_lt ?_
    have h4 : (2 : ℚ) ^ (128 : ℤ) ≤ binary64.bound := zpow_le_zpow_right₀ (by norm_num) (by decide)
    refine lt_of_lt_of_le ?_ h4
    norm_num
  have i32 : ∀ n : ℕ, n ≤ 10000000 → binary32.fmt.rep n := fun n h =>
    ⟨by
      have := binary32.rep_int (n := n) (by rw [abs_of_nonneg (by positivity)]; show (n : ℤ) ≤ 2 ^ 24; norm_num; omega)
      exact_mod_cast this, b32 _ (by rw [abs_of_nonneg (by positivity)]; exact_mod_cast h)⟩
  have i64 : ∀ n : ℕ, n ≤ 10000000 → binary64.fmt.rep n := fun n h =>
    ⟨by
      have := binary64.rep_int (n := n) (by rw [abs_of_nonneg (by positivity)]; show (n : ℤ) ≤ 2 ^ 53; norm_num; omega)
      exact_mod_cast this, b64 _ (by rw [abs_of_nonneg (by positivity)]; exact_mod_cast h)⟩
  refine ⟨⟨Flt.fin _ (i64 1234567 (by norm_num)), Flt.fin _ (i64 1234568 (by norm_num)), trivial, trivial, by simp [Flt.val], by simp [Flt.val], ?_⟩,
    ⟨Flt.fin _ (i32 1234567 (by norm_num)), Flt.fin _ (i32 1234568 (by norm_num)), trivial, trivial, by simp [Flt.val], by simp [Flt.val], ?_⟩, ?_, ?_⟩
  · exact key _ _ _ _ _ _ (by norm_num) (by norm_num) (by rw [r6 _ (Or.inl (by norm_num)), r6 _ (Or.inr (by norm_num))])
  · exact key _ _ _ _ _ _ (by norm_num) (by norm_num) (by rw [r6 _ (Or.inl (by norm_num)), r6 _ (Or.inr (by norm_num))])
  · have hx : binary32.fmt.rep (16384001 / 2 ^ 14) := ⟨⟨16384001, -14, by norm_num, by decide, by decide⟩, b32 _ (by norm_num [abs_le])⟩
    have hy : binary32.fmt.rep (16384002 / 2 ^ 14) := ⟨⟨16384002, -14, by norm_num, by decide, by decide⟩, b32 _ (by norm_num [abs_le])⟩
    refine ⟨Flt.fin _ hx, Flt.fin _ hy, trivial, trivial, ?_, key _ _ _ _ _ _ (by norm_num) (by norm_num) ?_⟩
    · intro h; injection h with h; norm_num at h
    · rw [roundDec_eval (L := 3) (m := 10000001), roundDec_eval (L := 3) (m := 10000001)] <;> norm_num [abs_lt]
  · have hx : binary64.fmt.rep (5404319552844595 / 2 ^ 54) := ⟨⟨5404319552844595, -54, by norm_num, by decide, by decide⟩, b64 _ (by norm_num [abs_le])⟩
    have hy : binary64.fmt.rep (5404319552844596 / 2 ^ 54) := ⟨⟨5404319552844596, -54, by norm_num, by decide, by decide⟩, b64 _ (by norm_num [abs_le])⟩
    refine ⟨Flt.fin _ hx, Flt.fin _ hy, trivial, trivial, ?_, key _ _ _ _ _ _ (by norm_num) (by norm_num) ?_⟩
    · intro h; injection h with h; norm_num at h
    · rw [roundDec_eval (L := -1) (m := 3000000000000000), roundDec_eval (L := -1) (m := 3000000000000000)] <;> norm_num [abs_lt]

/-! ### The hypotheses are met -/

/-- The text of the vector (0.1, -250) in parentheses, with 17 digits, with 9 digits, and with the default precision. -/
example (x y : Flt binary64.fmt) : parseVec atofT [] 2 (['('] ++ printVec (printFlt 17) ![x, y] ++ [')']) = some ![x, y] :=
  (C138_double (R := 1) (C := 1) le_rfl ![x, y] (fun _ _ => 0) (Or.inl rfl) (by unfold Blanks; decide) (Or.inr ⟨')', [], rfl, by decide⟩)).1

example (m : Mat (Flt binary32.fmt) 2 3) : parseMat atofT [Char.ofNat 0] 2 3 ([] ++ printMat (printFlt 9) m ++ []) = some m :=
  (C138_float le_rfl (0 : Vec _ 1) m (Or.inr ⟨_, [], rfl, by decide⟩) (fun _ h => absurd h List.not_mem_nil) (Or.inl rfl)).2

example : ReadDecimal binary32 6 (Flt.cast (Flt.round (((-123456 : ℤ) : ℚ) * 10 ^ (-6 : ℤ)) : Flt binary64.fmt)) := by
  refine ⟨-123456, -6, by decide, rfl, Or.inr ⟨?_, ?_⟩⟩
  · show (2 : ℚ) ^ (-126 : ℤ) ≤ _
    norm_num [abs_of_neg]
  · show _ ≤ (2 : ℚ) ^ (126 : ℤ)
    norm_num [abs_of_neg]

example : ReadDecimal binary64 6 (Flt.cast (Flt.round (((1 : ℤ) : ℚ) * 10 ^ (-1 : ℤ)) : Flt binary64.fmt)) := by
  refine ⟨1, -1, by decide, rfl, Or.inr ⟨?_, ?_⟩⟩
  · refine le_trans (zpow_le_zpow_right₀ (by norm_num) (show binary64.qmin + binary64.p - 1 ≤ -4 by decide)) ?_
    norm_num [abs_of_pos]
  · refine le_trans ?_ (zpow_le_zpow_right₀ (by norm_num) (show 0 ≤ (binary64.p : ℤ) + binary64.qmax - 2 by decide))
    norm_num [abs_of_pos]

example (x : Flt binary64.fmt) (h : ReadDecimal binary64 6 x) : parseVec atofT [] 2 ([] ++ printVec (printFlt 6) ![x, x] ++ []) = some ![x, x] :=
  (C138_decimal_double (R := 0) (C := 0) (by norm_num) (by norm_num) ![x, x] (fun _ _ => 0) (fun i => by fin_cases i <;> exact h) (fun c => c.elim0)
    (Or.inl rfl) (fun _ h => absurd h List.not_mem_nil) (Or.inl rfl)).1

example : ∃ w : Vec (Flt binary64.fmt) 2, parseVec atofT [] 2 ([] ++ printVec (printFlt 6) ![(1 : Flt binary64.fmt), 0] ++ []) = some w ∧
    ∀ i, (w i).isFinite ∧ |(w i).val - ((![(1 : Flt binary64.fmt), 0] : Vec _ 2) i).val| ≤ 10 ^ (1 - 6 : ℤ) * |((![(1 : Flt binary64.fmt), 0] : Vec _ 2) i).val| :=
  (C138_error_double (R := 0) (C := 0) (n := 6) (by norm_num) ![(1 : Flt binary64.fmt), 0] (fun _ _ => 0)
    (fun i => by fin_cases i
                 · exact ⟨trivial, by show |(1 : ℚ)| ≤ _; rw [abs_one]; exact one_le_pow₀ (by norm_num)⟩
                 · exact ⟨trivial, by show |(0 : ℚ)| ≤ _; rw [abs_zero]; exact pow_nonneg (by norm_num) _⟩) (fun c => c.elim0)
    (Or.inl rfl) (fun _ h => absurd h List.not_mem_nil) (Or.inl rfl)).1

/-- What is printed. -/
example : String.ofList (printPos 6 1234567) = "1.23457e+06" ∧ String.ofList (printPos 6 (1 / 3)) = "0.333333" ∧
    String.ofList (printPos 6 100000) = "100000" ∧ String.ofList (printPos 9 (1 / 10)) = "0.1" := by
  have h1 : roundDec 6 1234567 = (123457, 6) := roundDec_eval (by norm_num) (by norm_num) (by norm_num) (by norm_num [abs_lt])
  have h2 : roundDec 6 (1 / 3) = (333333, -1) := roundDec_eval (by norm_num) (by norm_num) (by norm_num) (by norm_num [abs_lt])
  have h3 : roundDec 6 100000 = (100000, 5) := roundDec_eval (by norm_num) (by norm_num) (by norm_num) (by norm_num [abs_lt])
  have h4 : roundDec 9 (1 / 10) = (100000000, -1) := roundDec_eval (by norm_num) (by norm_num) (by norm_num) (by norm_num [abs_lt])
  unfold printPos
  rw [h1, h2, h3, h4]
  decide +kernel

end vm
