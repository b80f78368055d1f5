import Verif.Props.FltProject

/-!
# C111: the average of points in IEEE arithmetic

The divisor is counted in the component type.
-/

set_option linter.unusedSectionVars false
set_option linter.unusedSimpArgs false

namespace vm
variable {P : BinPar} {S : ℕ}

theorem averageParts {T : Type*} [One T] [Add T] : ∀ (rest : List (Vec T S)) (v : Vec T S) (c : T) (i : Fin S),
    (rest.foldl (fun (acc : Vec T S × T) p => (acc.1 + p, acc.2 + 1)) (v, c)).1 i = rest.foldl (fun s p => s + p i) (v i) ∧
    (rest.foldl (fun (acc : Vec T S × T) p => (acc.1 + p, acc.2 + 1)) (v, c)).2 = rest.foldl (fun n _ => n + 1) c
  | [], _, _, _ => ⟨rfl, rfl⟩
  | p :: rest, v, c, i => by
    simp only [List.foldl_cons]
    exact averageParts rest (v + p) (c + 1) i

theorem average_apply {T : Type*} [One T] [Add T] [Div T] (first : Vec T S) (rest : List (Vec T S)) (i : Fin S) :
    average first rest i = rest.foldl (fun s p => s + p i) (first i) / rest.foldl (fun n _ => n + 1) 1 := by
  have h := averageParts rest first 1 i
  show _ / _ = _
  rw [h.1, h.2]

/-- A small integer as a number of the format. -/
theorem round_int_add {n : ℤ} (h0 : 0 ≤ n) (h : n + 1 ≤ 2 ^ P.p) :
    (Flt.round (n : ℚ) : Flt P.fmt) + 1 = Flt.round ((n + 1 : ℤ) : ℚ) := by
  have h1 := Flt.int_finite (P := P) (n := n) (by rw [abs_of_nonneg h0]; linarith)
  rw [Flt.add_eq h1.1 Flt.one_finite, h1.2, Flt.one_val]
  push_cast
  rfl

theorem count_exact {α : Type*} : ∀ (l : List α) (n : ℤ), 0 ≤ n → n + l.length ≤ 2 ^ P.p →
    l.foldl (fun (c : Flt P.fmt) _ => c + 1) (Flt.round (n : ℚ)) = Flt.round ((n + l.length : ℤ) : ℚ)
  | [], n, _, _ => by simp
  | a :: l, n, h0, h => by
    rw [List.length_cons] at h
    push_cast at h
    rw [List.foldl_cons, round_int_add h0 (by have : (0 : ℤ) ≤ l.length := Int.natCast_nonneg _; linarith),
      count_exact l (n + 1) (by linarith) (by linarith)]
    congr 1
    rw [List.length_cons]
    push_cast
    ring

theorem round_one : (Flt.round ((1 : ℤ) : ℚ) : Flt P.fmt) = 1 := by
  push_cast
  exact BinPar.round_rep P.fmt.rep_one

/-- Up to `2ᵖ` points are counted exactly. -/
theorem average_count {α : Type*} (l : List α) (h : l.length + 1 ≤ 2 ^ P.p) :
    (l.foldl (fun (c : Flt P.fmt) _ => c + 1) 1).isFinite ∧ (l.foldl (fun (c : Flt P.fmt) _ => c + 1) 1).val = l.length + 1 := by
  have h' : (1 : ℤ) + l.length ≤ 2 ^ P.p := by
    have : ((l.length + 1 : ℕ) : ℤ) ≤ ((2 ^ P.p : ℕ) : ℤ) := by exact_mod_cast h
    push_cast at this
    linarith
  have h1 := count_exact (P := P) l 1 (by norm_num) h'
  rw [round_one] at h1
  have h2 := Flt.int_finite (P := P) (n := 1 + l.length) (by rw [abs_of_nonneg (by positivity)]; exact h')
  rw [h1]
  refine ⟨h2.1, h2.2.trans ?_⟩
  push_cast; ring

/-- The computed sum. -/
theorem average_sum : ∀ (l : List (Flt P.fmt)) (s : Flt P.fmt) (S₀ A E : ℚ), (l.foldl (fun s x => s + x) s).isFinite → |s.val - S₀| ≤ E → |S₀| ≤ A →
    s.isFinite ∧ (∀ x ∈ l, x.isFinite) ∧
    |(l.foldl (fun s x => s + x) s).val - (S₀ + (l.map Flt.val).sum)| ≤
      (1 + P.u) ^ l.length * E + ((1 + P.u) ^ l.length - 1) * (A + (l.map fun x => |x.val|).sum)
  | [], s, S₀, A, E, h, hE, hA => by
    refine ⟨h, by simp, ?_⟩
    simpa using hE
  | x :: l, s, S₀, A, E, h, hE, hA => by
    rw [List.foldl_cons] at h ⊢
    have hu := P.u_pos
    have hsx : (s + x).isFinite := by
      have := (average_sum l (s + x) (s + x).val |(s + x).val| 0 h (by simp) le_rfl).1
      exact this
    obtain ⟨h1, h2⟩ := Flt.add_finite hsx
    have e1 := BinPar.fl_add_err_u (Flt.rep_val s).1 (Flt.rep_val x).1
    rw [← Flt.add_val hsx] at e1
    have hE0 : 0 ≤ E := (abs_nonneg _).trans hE
    have e2 : |s.val + x.val| ≤ A + |x.val| + E := by
      have k1 := abs_add_le s.val x.val
      have k2 := abs_sub_abs_le_abs_sub s.val S₀
      linarith
    have e3 : |(s + x).val - (S₀ + x.val)| ≤ (1 + P.u) * E + P.u * (A + |x.val|) := by
      have k1 : (s + x).val - (S₀ + x.val) = ((s + x).val - (s.val + x.val)) + (s.val - S₀) := by ring
      rw [k1]
      have k2 := abs_add_le ((s + x).val - (s.val + x.val)) (s.val - S₀)
      have k3 := mul_le_mul_of_nonneg_left e2 hu.le
      linarith
    have hA' : |S₀ + x.val| ≤ A + |x.val| := (abs_add_le _ _).trans (by linarith)
    obtain ⟨-, h4, h5⟩ := average_sum l (s + x) (S₀ + x.val) (A + |x.val|) _ h e3 hA'
    refine ⟨h1, fun y hy => ?_, ?_⟩
    · rcases List.mem_cons.1 hy with rfl | hy
      exacts [h2, h4 y hy]
    · simp only [List.map_cons, List.sum_cons, List.length_cons]
      have e4 : S₀ + (x.val + (l.map Flt.val).sum) = S₀ + x.val + (l.map Flt.val).sum := by ring
      rw [e4]
      refine h5.trans ?_
      have hB : 0 ≤ (l.map fun x => |x.val|).sum := by
        refine List.sum_nonneg fun a ha => ?_
        obtain ⟨b, -, rfl⟩ := List.mem_map.1 ha
        exact abs_nonneg _
      have hp : (1 : ℚ) ≤ (1 + P.u) ^ l.length := one_le_pow₀ (by linarith)
      have hA0 : 0 ≤ A := (abs_nonneg _).trans hA
      rw [pow_succ]
      set w := (1 + P.u) ^ l.length
      set B := (l.map fun x => |x.val|).sum
      have k : 0 ≤ w * P.u * B := by positivity
      have e5 : w * ((1 + P.u) * E + P.u * (A + |x.val|)) + (w - 1) * (A + |x.val| + B) + w * P.u * B =
          w * (1 + P.u) * E + (w * (1 + P.u) - 1) * (A + (|x.val| + B)) := by ring
      linarith

theorem foldl_map_comp (l : List (Vec (Flt P.fmt) S)) (i : Fin S) (s : Flt P.fmt) :
    l.foldl (fun s p => s + p i) s = (l.map fun p => p i).foldl (fun s x => s + x) s := by
  rw [List.foldl_map]

/-- The average of up to `2ᵖ` points: a finite component differs from the exact average by at most `((1 + u)ⁿ - 1)` times the average of the
absolute values, apart from underflow of the quotient. -/
theorem C111_error (P : BinPar) {S : ℕ} (first : Vec (Flt P.fmt) S) (rest : List (Vec (Flt P.fmt) S)) (i : Fin S)
    (hn : rest.length + 1 ≤ 2 ^ P.p) (h : (average first rest i).isFinite) :
    ((first i).isFinite ∧ ∀ p ∈ rest, (p i).isFinite) ∧
    |(average first rest i).val - ((first i).val + (rest.map fun p => (p i).val).sum) / (rest.length + 1)| ≤
      ((1 + P.u) ^ (rest.length + 1) - 1) * ((|(first i).val| + (rest.map fun p => |(p i).val|).sum) / (rest.length + 1)) + P.eta := by
  have hu := P.u_pos
  obtain ⟨hc, hcv⟩ := average_count (P := P) rest hn
  rw [average_apply] at h ⊢
  rw [foldl_map_comp] at h ⊢
  have hpos : (0 : ℚ) < rest.length + 1 := by positivity
  have hne : (rest.foldl (fun (c : Flt P.fmt) _ => c + 1) 1).val ≠ 0 := by rw [hcv]; exact hpos.ne'
  have hs := div_finite_left hc h
  have e := fin_div_fin hs hc hne
  rw [e] at h ⊢
  obtain ⟨h1, h2, h3⟩ := average_sum (rest.map fun p => p i) (first i) (first i).val |(first i).val| 0 hs (by simp) le_rfl
  refine ⟨⟨h1, fun p hp => h2 _ (List.mem_map.2 ⟨p, hp, rfl⟩)⟩, ?_⟩
  rw [Flt.round_val h, hcv]
  rw [List.map_map, List.map_map, List.length_map, mul_zero, zero_add] at h3
  change |_ - ((first i).val + (rest.map fun p => (p i).val).sum)| ≤ _ * (_ + (rest.map fun p => |(p i).val|).sum) at h3
  set s := ((rest.map fun p => p i).foldl (fun s x => s + x) (first i)).val
  set X := (first i).val + (rest.map fun p => (p i).val).sum with hX
  set A := |(first i).val| + (rest.map fun p => |(p i).val|).sum with hA
  have hXA : |X| ≤ A := by
    have k : ∀ l : List (Vec (Flt P.fmt) S), |(l.map fun p => (p i).val).sum| ≤ (l.map fun p => |(p i).val|).sum := by
      intro l
      induction l with
      | nil => simp
      | cons a l ih =>
        simp only [List.map_cons, List.sum_cons]
        exact (abs_add_le _ _).trans (by linarith)
    exact (abs_add_le _ _).trans (by have := k rest; linarith)
  generalize hN : ((rest.length : ℚ) + 1) = N at *
  have e1 := BinPar.fl_err_u (P := P) (s / N)
  set w := (1 + P.u) ^ rest.length
  have e2 : |s / N - X / N| ≤ (w - 1) * (A / N) := by
    rw [← sub_div, abs_div, abs_of_pos hpos, ← mul_div_assoc]
    exact div_le_div_of_nonneg_right h3 hpos.le
  have e3 : |s / N| ≤ w * (A / N) := by
    have k1 := abs_sub_abs_le_abs_sub (s / N) (X / N)
    have k2 : |X / N| ≤ A / N := by rw [abs_div, abs_of_pos hpos]; exact div_le_div_of_nonneg_right hXA hpos.le
    linarith
  have e4 := mul_le_mul_of_nonneg_left e3 hu.le
  have e5 := abs_sub_le (P.fl (s / N)) (s / N) (X / N)
  rw [pow_succ]
  have e6 : (w * (1 + P.u) - 1) * (A / N) = P.u * (w * (A / N)) + (w - 1) * (A / N) := by ring
  rw [e6]
  linarith

/-- The average of two points lies between them in every component unless the sum overflows. -/
theorem C111_two (P : BinPar) {S : ℕ} (a b : Vec (Flt P.fmt) S) (i : Fin S) (h : (a i + b i).isFinite) :
    (average a [b] i).isFinite ∧ min (a i).val (b i).val ≤ (average a [b] i).val ∧ (average a [b] i).val ≤ max (a i).val (b i).val := by
  have e : average a [b] i = (a i + b i) / 2 := by
    rw [average_apply]
    show (a i + b i) / (1 + 1) = _
    have : (1 : Flt P.fmt) + 1 = 2 := Flt.ext (one_sum_finite P).1 (Flt.two_eq P).1 ((one_sum_finite P).2.trans (Flt.two_eq P).2.symm)
    rw [this]
  have := C110_segment_center P (S := 1) ⟨fun _ => a i, fun _ => b i⟩ (fun _ => h) 0
  have e2 : Segment.center (S := 1) ⟨fun _ => a i, fun _ => b i⟩ 0 = (a i + b i) / 2 := rfl
  rw [e2, ← e] at this
  exact ⟨this.1, this.2.1, this.2.2.1⟩

/-- The counter sticks at `2ᵖ`. -/
theorem count_stuck (P : BinPar) : (Flt.round ((2 ^ P.p : ℤ) : ℚ) : Flt P.fmt) + 1 = Flt.round ((2 ^ P.p : ℤ) : ℚ) := by
  have h1 := Flt.int_finite (P := P) (n := 2 ^ P.p) (by rw [abs_of_nonneg (by positivity)])
  rw [Flt.add_eq h1.1 Flt.one_finite, h1.2, Flt.one_val]
  obtain ⟨q, hq⟩ : ∃ q, P.p = q + 2 := ⟨P.p - 2, by have := P.hp; omega⟩
  have h2 : P.fl (((2 ^ P.p : ℤ) : ℚ) + 1) = ((2 ^ (q + 1) : ℤ) : ℚ) * 2 ^ (1 : ℤ) := by
    have hpos : (0 : ℚ) < ((2 ^ P.p : ℤ) : ℚ) + 1 := by positivity
    have hone : (1 : ℚ) < 2 ^ P.p := one_lt_pow₀ (by norm_num) (by have := P.hp; omega)
    refine BinPar.fl_eval_even (P := P) 1 (2 ^ (q + 1)) (by have := P.hmin; omega) ?_ ?_ ?_ ?_
    · rw [abs_of_pos hpos]
      push_cast
      rw [show (1 + (P.p : ℤ) - 1) = P.p by ring, zpow_natCast]
      linarith
    · rw [abs_of_pos hpos]
      push_cast
      rw [zpow_add₀ (by norm_num), zpow_natCast, zpow_one]
      linarith
    · push_cast
      rw [hq, show ((2 : ℚ) ^ (q + 2) + 1) / 2 - 2 ^ (q + 1) = 1 / 2 by rw [pow_succ 2 (q + 1)]; ring]
      norm_num [abs_of_pos]
    · rw [pow_succ]; exact Int.mul_emod_left _ _
  have h3 : ((2 ^ (q + 1) : ℤ) : ℚ) * 2 ^ (1 : ℤ) = ((2 ^ P.p : ℤ) : ℚ) := by
    rw [hq, pow_succ 2 (q + 1)]; push_cast; rfl
  rw [h3] at h2
  have h4 := Flt.rep_val (Flt.round ((2 ^ P.p : ℤ) : ℚ) : Flt P.fmt)
  rw [h1.2] at h4
  rw [Flt.round_to h4 h2, Flt.round_to h4 (P.fl_rep h4.1)]

theorem stuck_fold {α : Type*} (P : BinPar) : ∀ l : List α,
    l.foldl (fun (c : Flt P.fmt) _ => c + 1) (Flt.round ((2 ^ P.p : ℤ) : ℚ)) = Flt.round ((2 ^ P.p : ℤ) : ℚ)
  | [] => rfl
  | _ :: l => by rw [List.foldl_cons, count_stuck, stuck_fold P l]

theorem count_long {α : Type*} (P : BinPar) (l : List α) (h : 2 ^ P.p ≤ l.length + 1) :
    l.foldl (fun (c : Flt P.fmt) _ => c + 1) 1 = Flt.round ((2 ^ P.p : ℤ) : ℚ) := by
  have h1 : 1 ≤ 2 ^ P.p := Nat.one_le_two_pow
  have e : l = l.take (2 ^ P.p - 1) ++ l.drop (2 ^ P.p - 1) := (List.take_append_drop _ _).symm
  have hl : (l.take (2 ^ P.p - 1)).length = 2 ^ P.p - 1 := by rw [List.length_take]; omega
  have hl' : (1 : ℤ) + (l.take (2 ^ P.p - 1)).length = 2 ^ P.p := by rw [hl]; push_cast [h1]; ring
  have h2 := count_exact (P := P) (l.take (2 ^ P.p - 1)) 1 (by norm_num) hl'.le
  rw [round_one, hl'] at h2
  rw [e, List.foldl_append, h2]
  exact stuck_fold P _

/-- More than `2ᵖ` points are divided by `2ᵖ`: the average of `2ᵖ` points at 0 and `2ᵖ` points at 1 is 1 instead of one half. -/
theorem C111_count_fails (P : BinPar) :
    average (S := 1) (fun _ => (0 : Flt P.fmt)) (List.replicate (2 ^ P.p - 1) (fun _ => 0) ++ List.replicate (2 ^ P.p) (fun _ => 1)) 0 = 1 := by
  have h1 : 1 ≤ 2 ^ P.p := Nat.one_le_two_pow
  rw [average_apply, count_long P _ (by rw [List.length_append, List.length_replicate, List.length_replicate]; omega), foldl_map_comp,
    List.map_append, List.map_replicate, List.map_replicate, List.foldl_append]
  have hz : ∀ n : ℕ, (List.replicate n (0 : Flt P.fmt)).foldl (fun s x => s + x) 0 = 0 := by
    intro n
    induction n with
    | zero => rfl
    | succ n ih => rw [List.replicate_succ, List.foldl_cons, Flt.zero_add', ih]
  have ho : ∀ (n : ℕ) (s : Flt P.fmt), (List.replicate n (1 : Flt P.fmt)).foldl (fun s x => s + x) s =
      (List.replicate n ()).foldl (fun (c : Flt P.fmt) _ => c + 1) s := by
    intro n
    induction n with
    | zero => intro s; rfl
    | succ n ih => intro s; rw [List.replicate_succ, List.replicate_succ, List.foldl_cons, List.foldl_cons, ih]
  rw [hz, ho]
  have hc := count_exact (P := P) (List.replicate (2 ^ P.p) ()) 0 le_rfl (by rw [List.length_replicate]; push_cast; simp)
  have e0 : (Flt.round ((0 : ℤ) : ℚ) : Flt P.fmt) = 0 := by push_cast; exact BinPar.round_rep P.fmt.rep_zero
  rw [e0] at hc
  rw [hc, List.length_replicate]
  have h2 := Flt.int_finite (P := P) (n := 2 ^ P.p) (by rw [abs_of_nonneg (by positivity)])
  have e1 : (0 + ((2 ^ P.p : ℕ) : ℤ)) = 2 ^ P.p := by push_cast; ring
  rw [e1, fin_div_fin h2.1 h2.1 (by rw [h2.2]; positivity), div_self (by rw [h2.2]; positivity)]
  exact BinPar.round_rep P.fmt.rep_one

/-- The average of equal points need not be that point, and need not even lie in their bounding box: the average of six times 8388610 in `float` is
8388609. -/
theorem C111_equal_fails : ∃ x : Vec (Flt binary32.fmt) 1, (x 0).isFinite ∧ (x 0).val = 8388610 ∧
    (average x [x, x, x, x, x] 0).isFinite ∧ (average x [x, x, x, x, x] 0).val = 8388609 := by
  have rep : ∀ q : ℚ, ∀ m e : ℤ, q = m * 2 ^ e → |m| < 2 ^ 24 → -149 ≤ e → |q| < 2 ^ 27 → binary32.fmt.rep q := by
    intro q m e h1 h2 h3 h4
    refine ⟨⟨m, e, h1, h2, h3⟩, h4.trans ?_⟩
    unfold BinPar.bound binary32
    rw [← zpow_natCast]
    exact zpow_lt_zpow_right₀ (by norm_num) (by norm_num)
  have r1 : binary32.fmt.rep 8388610 := rep _ 8388610 0 (by norm_num) (by norm_num) (by norm_num) (by norm_num)
  have r2 : binary32.fmt.rep 16777220 := rep _ 8388610 1 (by norm_num) (by norm_num) (by norm_num) (by norm_num)
  have r3 : binary32.fmt.rep 25165830 := rep _ 12582915 1 (by norm_num) (by norm_num) (by norm_num) (by norm_num)
  have r4 : binary32.fmt.rep 33554440 := rep _ 8388610 2 (by norm_num) (by norm_num) (by norm_num) (by norm_num)
  have r5 : binary32.fmt.rep 41943048 := rep _ 10485762 2 (by norm_num) (by norm_num) (by norm_num) (by norm_num)
  have r6 : binary32.fmt.rep 50331656 := rep _ 12582914 2 (by norm_num) (by norm_num) (by norm_num) (by norm_num)
  have r9 : binary32.fmt.rep 8388609 := rep _ 8388609 0 (by norm_num) (by norm_num) (by norm_num) (by norm_num)
  have step : ∀ {a b c : ℚ} (ha : binary32.fmt.rep a) (hb : binary32.fmt.rep b) (hc : binary32.fmt.rep c), binary32.fl (a + b) = c →
      (Flt.fin (F := binary32.fmt) a ha + Flt.fin (F := binary32.fmt) b hb) = Flt.fin (F := binary32.fmt) c hc :=
    fun ha hb hc h => Flt.round_to hc h
  have f5 : binary32.fl (33554440 + 8388610) = 41943048 := by
    rw [BinPar.fl_eval_even (P := binary32) 2 10485762 (by norm_num [binary32]) (by norm_num [binary32, abs_of_pos])
      (by norm_num [binary32, abs_of_pos]) (by norm_num [abs_of_pos]) (by norm_num)]
    norm_num
  have f6 : binary32.fl (41943048 + 8388610) = 50331656 := by
    rw [BinPar.fl_eval_even (P := binary32) 2 12582914 (by norm_num [binary32]) (by norm_num [binary32, abs_of_pos])
      (by norm_num [binary32, abs_of_pos]) (by norm_num [abs_of_pos]) (by norm_num)]
    norm_num
  have f7 : binary32.fl (50331656 / (5 + 1)) = 8388609 := by
    rw [BinPar.fl_eval (P := binary32) 0 8388609 (by norm_num [binary32]) (by norm_num [binary32, abs_of_pos])
      (by norm_num [binary32, abs_of_pos]) (by norm_num [abs_of_pos])]
    norm_num
  set x := Flt.fin (F := binary32.fmt) 8388610 r1 with hx
  have hs : x + x + x + x + x + x = Flt.fin (F := binary32.fmt) 50331656 r6 := by
    rw [hx, step r1 r1 r2 (by rw [show (8388610 + 8388610 : ℚ) = 16777220 by norm_num]; exact binary32.fl_rep r2.1),
      step r2 r1 r3 (by rw [show (16777220 + 8388610 : ℚ) = 25165830 by norm_num]; exact binary32.fl_rep r3.1),
      step r3 r1 r4 (by rw [show (25165830 + 8388610 : ℚ) = 33554440 by norm_num]; exact binary32.fl_rep r4.1),
      step r4 r1 r5 f5, step r5 r1 r6 f6]
  obtain ⟨hc, hcv⟩ := average_count (P := binary32) (List.replicate 5 ()) (by norm_num [binary32])
  rw [List.length_replicate] at hcv
  have e : average (fun _ : Fin 1 => x) [fun _ => x, fun _ => x, fun _ => x, fun _ => x, fun _ => x] 0 =
      Flt.fin (F := binary32.fmt) 8388609 r9 := by
    rw [average_apply]
    show (x + x + x + x + x + x) / (List.replicate 5 ()).foldl (fun (c : Flt binary32.fmt) _ => c + 1) 1 = _
    rw [hs, fin_div_fin (a := Flt.fin (F := binary32.fmt) 50331656 r6) trivial hc (by rw [hcv]; norm_num), hcv]
    refine Flt.round_to r9 ?_
    exact_mod_cast f7
  refine ⟨fun _ => x, trivial, rfl, ?_⟩
  rw [e]
  exact ⟨trivial, rfl⟩

/-! ### Concrete cases -/

/-- The hypotheses of `C111_error` are met by the six points above, those of `C111_two` by the number one. -/
example : ∃ x : Vec (Flt binary32.fmt) 1, [x, x, x, x, x].length + 1 ≤ 2 ^ binary32.p ∧ (average x [x, x, x, x, x] 0).isFinite := by
  obtain ⟨x, -, -, h, -⟩ := C111_equal_fails
  exact ⟨x, by norm_num [binary32], h⟩

example : ((1 : Flt binary32.fmt) + 1).isFinite := (one_sum_finite binary32).1

end vm
