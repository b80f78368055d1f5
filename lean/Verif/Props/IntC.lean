import Verif.Lemmas.IntC
import Verif.Props.FltAverage

/-!
C114: vectors, matrices and boxes of signed integers.  `x.toInt = some z` says that the expression `x` is defined and has the value `z`;
`x.toInt = none` says that an operation overflows, which is undefined behaviour.
-/

set_option linter.unusedSectionVars false
set_option linter.unusedSimpArgs false

namespace vm
variable {w S : ℕ}
open SInt

theorem sum_ub : ∀ {n : ℕ} (t : Fin n → SInt w) (i : Fin n), (t i).toInt = none → (Fin.foldl n (fun acc i => acc + t i) 0).toInt = none
  | 0, _, i, _ => i.elim0
  | n + 1, t, i, h => by
    rw [Fin.foldl_succ_last]
    induction i using Fin.lastCases with
    | last => exact add_ub_right h
    | cast i => exact add_ub_left (sum_ub (fun i => t i.castSucc) i h)

/-- The scalar product of integer vectors is defined if and only if all products and all partial sums are in the range of the type, and then it
is the exact scalar product. -/
theorem C114_dot (a b : Vec (SInt w) S) (za zb : Fin S → ℤ) (ha : ∀ i, (a i).toInt = some (za i)) (hb : ∀ i, (b i).toInt = some (zb i)) (s : ℤ) :
    (dot a b).toInt = some s ↔ (∀ i, InRange w (za i * zb i)) ∧ (∀ k ≤ S, InRange w (∑ i : Fin S, if i.val < k then za i * zb i else 0)) ∧
      s = ∑ i, za i * zb i := by
  by_cases hp : ∀ i, InRange w (za i * zb i)
  · rw [dot, sum_int_iff (fun i => a i * b i) (fun i => za i * zb i) (fun i => by rw [mul_int (ha i) (hb i), if_pos (hp i)])]
    exact ⟨fun h => ⟨hp, h⟩, fun h => h.2⟩
  · constructor
    · intro h
      push Not at hp
      obtain ⟨i, hi⟩ := hp
      rw [dot, sum_ub (fun i => a i * b i) i (by rw [mul_int (ha i) (hb i), if_neg hi])] at h
      exact (nomatch h)
    · exact fun h => absurd h.1 hp

/-- A sufficient bound for the components. -/
theorem C114_dot_small (a b : Vec (SInt w) S) (za zb : Fin S → ℤ) (ha : ∀ i, (a i).toInt = some (za i)) (hb : ∀ i, (b i).toInt = some (zb i))
    (A B : ℤ) (hA : ∀ i, |za i| ≤ A) (hB : ∀ i, |zb i| ≤ B) (h : S * (A * B) < 2 ^ (w - 1)) : (dot a b).toInt = some (∑ i, za i * zb i) := by
  rcases Nat.eq_zero_or_pos S with rfl | hS
  · have : dot a b = 0 := Fin.foldl_zero _ _
    rw [this, zero_int]
    simp
  have hA0 : 0 ≤ A := (abs_nonneg _).trans (hA ⟨0, hS⟩)
  have hB0 : 0 ≤ B := (abs_nonneg _).trans (hB ⟨0, hS⟩)
  have hAB : A * B < 2 ^ (w - 1) := by
    have : (1 : ℤ) ≤ S := by exact_mod_cast hS
    have := mul_nonneg hA0 hB0
    nlinarith
  exact (sum_int (fun i => a i * b i) (fun i => za i * zb i) (fun _ => A * B) (fun i => Bd.mul ⟨ha i, hA i⟩ ⟨hb i, hB i⟩ hAB) (by
    rw [Finset.sum_const, Finset.card_univ, Fintype.card_fin, nsmul_eq_mul]; exact h)).1

/-- The cross product is exact if twice the product of the bounds is in range, that is for `int` and components up to 32767. -/
theorem C114_cross (a b : Vec (SInt w) 3) (za zb : Fin 3 → ℤ) (ha : ∀ i, (a i).toInt = some (za i)) (hb : ∀ i, (b i).toInt = some (zb i))
    (A B : ℤ) (hA : ∀ i, |za i| ≤ A) (hB : ∀ i, |zb i| ≤ B) (h : 2 * (A * B) < 2 ^ (w - 1)) :
    (cross a b 0).toInt = some (za 1 * zb 2 - za 2 * zb 1) ∧ (cross a b 1).toInt = some (za 2 * zb 0 - za 0 * zb 2) ∧
    (cross a b 2).toInt = some (za 0 * zb 1 - za 1 * zb 0) := by
  have hA0 : 0 ≤ A := (abs_nonneg _).trans (hA 0)
  have hB0 : 0 ≤ B := (abs_nonneg _).trans (hB 0)
  have hAB := mul_nonneg hA0 hB0
  have p := fun i j => Bd.mul ⟨ha i, hA i⟩ ⟨hb j, hB j⟩ (by linarith : A * B < 2 ^ (w - 1))
  exact ⟨((p 1 2).sub (p 2 1) (by linarith)).1, ((p 2 0).sub (p 0 2) (by linarith)).1, ((p 0 1).sub (p 1 0) (by linarith)).1⟩

/-- The squared distance of points with coordinates of magnitude at most `M` is exact if `4 S M²` is in range. -/
theorem C114_squared_distance (a b : Vec (SInt w) S) (za zb : Fin S → ℤ) (ha : ∀ i, (a i).toInt = some (za i)) (hb : ∀ i, (b i).toInt = some (zb i))
    (M : ℤ) (hM : 1 ≤ M) (hA : ∀ i, |za i| ≤ M) (hB : ∀ i, |zb i| ≤ M) (h : S * (4 * M ^ 2) < 2 ^ (w - 1)) :
    (squaredDistance a b).toInt = some (∑ i, (za i - zb i) ^ 2) := by
  have hd : ∀ i, Bd ((a - b) i) (za i - zb i) (2 * M) := by
    intro i
    have hS : (1 : ℤ) ≤ S := by exact_mod_cast i.pos
    have hM2 : M + M < 2 ^ (w - 1) := by nlinarith [sq_nonneg M]
    exact (Bd.sub ⟨ha i, hA i⟩ ⟨hb i, hB i⟩ hM2).mono (by linarith)
  have := C114_dot_small (a - b) (a - b) (fun i => za i - zb i) (fun i => za i - zb i) (fun i => (hd i).1) (fun i => (hd i).1)
    (2 * M) (2 * M) (fun i => (hd i).2) (fun i => (hd i).2) (by
      have : (2 * M) * (2 * M) = 4 * M ^ 2 := by ring
      rw [this]; exact h)
  simp only [sq]
  exact this

/-- Even a single component of `int` can be too large: the squared length of (46341, 0, 0) is undefined. -/
theorem C114_length_fails : ∃ v : Vec (SInt 32) 3, (v 0).toInt = some 46341 ∧ (v 1).toInt = some 0 ∧ (v 2).toInt = some 0 ∧
    (squaredLength v).toInt = none := by
  refine ⟨![of 46341, 0, 0], by decide, by decide, by decide, ?_⟩
  exact sum_ub (fun i => (![of 46341, 0, 0] : Vec (SInt 32) 3) i * (![of 46341, 0, 0] : Vec (SInt 32) 3) i) 0 (by decide)

/-- The determinant of a matrix of integers of any size is exact if `n! Mⁿ` is in range. -/
theorem C114_determinant {n : ℕ} (m : Mat (SInt w) (n + 1) (n + 1)) (z : Mat ℤ (n + 1) (n + 1)) (h : ∀ c r, (m c r).toInt = some (z c r))
    (M : ℤ) (hM : 1 ≤ M) (hz : ∀ c r, |z c r| ≤ M) (hw : ((n + 1).factorial : ℤ) * M ^ (n + 1) < 2 ^ (w - 1)) :
    (computeDeterminant n m).toInt = some (Matrix.det fun r c => z c r) := by
  rw [det_int hM n m z h hz hw, computeDeterminant_eq]
  rfl

/-- The product of matrices of integers is exact if the number of terms times the product of the bounds is in range. -/
theorem C114_product {R N C : ℕ} (a : Mat (SInt w) R N) (b : Mat (SInt w) N C) (za : Mat ℤ R N) (zb : Mat ℤ N C)
    (ha : ∀ c r, (a c r).toInt = some (za c r)) (hb : ∀ c r, (b c r).toInt = some (zb c r)) (A B : ℤ) (hA : ∀ c r, |za c r| ≤ A)
    (hB : ∀ c r, |zb c r| ≤ B) (h : N * (A * B) < 2 ^ (w - 1)) (c : Fin C) (r : Fin R) :
    (mmul a b c r).toInt = some (∑ i, za i r * zb c i) :=
  C114_dot_small (fun i => a i r) (b c) (fun i => za i r) (zb c) (fun i => ha i r) (hb c) A B (fun i => hA i r) (hB c) h

/-- `abs` is undefined for the least number and the magnitude for all others. -/
theorem C114_abs (x : SInt w) (z : ℤ) (h : x.toInt = some z) (r : ℤ) : (vm.abs x).toInt = some r ↔ r = |z| ∧ z ≠ -2 ^ (w - 1) := by
  have hr := inRange h
  unfold vm.abs
  rw [lt_int h zero_int]
  have hp := two_pow_pos (w := w)
  by_cases hz : z < 0
  · rw [if_pos (decide_eq_true hz), neg_int h, abs_of_neg hz]
    by_cases hm : z = -2 ^ (w - 1)
    · rw [if_neg]
      · simp [hm]
      · rw [hm, neg_neg]; exact fun hc => lt_irrefl _ hc.2
    · have : InRange w (-z) := ⟨by linarith, by have := lt_of_le_of_ne hr.1 (Ne.symm hm); linarith⟩
      rw [if_pos this]
      simp [hm, eq_comm]
  · rw [if_neg (by simpa using hz), h, abs_of_nonneg (not_lt.1 hz)]
    have : z ≠ -2 ^ (w - 1) := by intro e; rw [e] at hz; linarith
    simp [this, eq_comm]

theorem tdiv_between {a lo hi : ℤ} {n : ℤ} (hn : 0 < n) (h1 : n * lo ≤ a) (h2 : a ≤ n * hi) : lo ≤ a.tdiv n ∧ a.tdiv n ≤ hi := by
  rcases le_total 0 a with ha | ha
  · rw [Int.tdiv_eq_ediv_of_nonneg ha]
    exact ⟨(Int.le_ediv_iff_mul_le hn).2 (by linarith [mul_comm n lo]), Int.le_of_lt_add_one ((Int.ediv_lt_iff_lt_mul hn).2 (by nlinarith))⟩
  · have e : a.tdiv n = -((-a) / n) := by
      rw [← Int.tdiv_eq_ediv_of_nonneg (by linarith : 0 ≤ -a), Int.neg_tdiv, neg_neg]
    rw [e]
    constructor
    · have : -a / n ≤ -lo := Int.le_of_lt_add_one ((Int.ediv_lt_iff_lt_mul hn).2 (by nlinarith))
      linarith
    · have : -hi ≤ -a / n := (Int.le_ediv_iff_mul_le hn).2 (by nlinarith)
      linarith

theorem tdiv_near {a n : ℤ} (hn : 0 < n) : |n * a.tdiv n - a| < n := by
  have h := Int.tmod_add_mul_tdiv a n
  have h1 : n * a.tdiv n - a = -(a.tmod n) := by linarith
  rw [h1, abs_neg]
  have := Int.natAbs_tmod a n
  have h2 : |a.tmod n| = ((a.tmod n).natAbs : ℤ) := (Int.natCast_natAbs _).symm
  rw [h2, this]
  have : a.natAbs % n.natAbs < n.natAbs := Nat.mod_lt _ (by omega)
  omega

/-- The center of a valid box of integers is defined if and only if the sum of the corners is in range; then it is in the box, and twice the
center differs from the sum of the corners by at most one. -/
theorem C114_center (hw : 3 ≤ w) (b : BBox (SInt w) S) (lo hi : Fin S → ℤ) (h1 : ∀ i, (b.min i).toInt = some (lo i))
    (h2 : ∀ i, (b.max i).toInt = some (hi i)) (hv : ∀ i, lo i ≤ hi i) (i : Fin S) :
    (InRange w (lo i + hi i) → ∃ c, (b.center i).toInt = some c ∧ lo i ≤ c ∧ c ≤ hi i ∧ |2 * c - (lo i + hi i)| ≤ 1) ∧
    (¬ InRange w (lo i + hi i) → (b.center i).toInt = none) := by
  constructor
  · intro hr
    have hs : (b.min i + b.max i).toInt = some (lo i + hi i) := by rw [add_int (h1 i) (h2 i), if_pos hr]
    have hb := tdiv_between (a := lo i + hi i) (lo := lo i) (hi := hi i) (n := 2) (by norm_num) (by linarith [hv i]) (by linarith [hv i])
    have hc : ((b.min i + b.max i) / 2).toInt = some ((lo i + hi i).tdiv 2) := by
      rw [div_int hs (two_int hw) (by norm_num), if_pos]
      exact ⟨(inRange (h1 i)).1.trans hb.1, lt_of_le_of_lt hb.2 (inRange (h2 i)).2⟩
    refine ⟨_, hc, hb.1, hb.2, ?_⟩
    have := tdiv_near (a := lo i + hi i) (n := 2) (by norm_num)
    omega
  · intro hr
    have hs : (b.min i + b.max i).toInt = none := by rw [add_int (h1 i) (h2 i), if_neg hr]
    show ((b.min i + b.max i) / 2).toInt = none
    generalize b.min i + b.max i = x at hs
    cases x with
    | ub => rfl
    | val z hz => exact (nomatch hs)

theorem sum_list_int {T : Type*} (f : T → SInt w) (M : ℤ) : ∀ (l : List T) (zs : List ℤ) (s : SInt w) (z B : ℤ), Bd s z B →
    List.Forall₂ (fun p z => Bd (f p) z M) l zs → B + l.length * M < 2 ^ (w - 1) → 0 ≤ M →
    Bd (l.foldl (fun s p => s + f p) s) (z + zs.sum) (B + l.length * M)
  | [], [], s, z, B, hs, _, _, _ => by simpa using hs
  | p :: l, z' :: zs, s, z, B, hs, hf, hb, hM => by
    cases hf with
    | cons h1 h2 =>
      have hl : (0 : ℤ) ≤ l.length * M := mul_nonneg (by positivity) hM
      have e : (B + M) + l.length * M = B + ((p :: l).length : ℤ) * M := by
        rw [List.length_cons]; push_cast; ring
      have := sum_list_int f M l zs (s + f p) (z + z') (B + M) (hs.add h1 (by linarith)) h2 (by rw [e]; exact hb) hM
      rw [List.foldl_cons, List.sum_cons, ← add_assoc, ← e]
      exact this

theorem count_int {T : Type*} (hw : 2 ≤ w) : ∀ (l : List T) (s : SInt w) (n : ℤ), s.toInt = some n → 0 ≤ n → n + l.length < 2 ^ (w - 1) →
    (l.foldl (fun n _ => n + 1) s).toInt = some (n + l.length)
  | [], s, n, hs, _, _ => by simpa using hs
  | _ :: l, s, n, hs, h0, hb => by
    rw [List.length_cons] at hb
    push_cast at hb
    rw [List.foldl_cons, count_int hw l (s + 1) (n + 1) _ (by linarith) (by linarith)]
    · rw [List.length_cons]; push_cast; congr 1; ring
    · rw [add_int hs (bd_one hw).1, if_pos]
      have : (0 : ℤ) ≤ l.length := by positivity
      exact ⟨by linarith [two_pow_pos (w := w)], by linarith⟩

/-- The average of points with integer coordinates of magnitude at most `M`, whose number times `M` is in range: every component is defined, is
between any bounds of the components of the points, and differs from the exact mean by less than one. -/
theorem C114_average (hw : 2 ≤ w) (first : Vec (SInt w) S) (rest : List (Vec (SInt w) S)) (i : Fin S) (z : ℤ) (zs : List ℤ)
    (h1 : (first i).toInt = some z) (h2 : List.Forall₂ (fun p z => (p i).toInt = some z) rest zs) (M lo hi : ℤ) (hM : 1 ≤ M)
    (hb : ∀ x ∈ z :: zs, |x| ≤ M ∧ lo ≤ x ∧ x ≤ hi) (h : (rest.length + 1) * M < 2 ^ (w - 1)) :
    ∃ c, (average first rest i).toInt = some c ∧ lo ≤ c ∧ c ≤ hi ∧ |((zs.length : ℤ) + 1) * c - (z + zs.sum)| < (zs.length : ℤ) + 1 := by
  have hlen : rest.length = zs.length := h2.length_eq
  have hl0 : (0 : ℤ) ≤ rest.length := by positivity
  have hs := sum_list_int (w := w) (fun p : Vec (SInt w) S => p i) M rest zs (first i) z M ⟨h1, (hb z (by simp)).1⟩
    (by
      clear h hlen hl0
      induction h2 with
      | nil => exact .nil
      | @cons p x l zs hp _ ih =>
        exact .cons ⟨hp, (hb x (by simp)).1⟩ (ih (fun y hy => hb y (by
          rcases List.mem_cons.1 hy with rfl | hy
          · simp
          · simp [hy])))) (by linarith) (by linarith)
  have hc := count_int (T := Vec (SInt w) S) hw rest 1 1 (bd_one hw).1 (by norm_num) (by nlinarith)
  have hn : (0 : ℤ) < 1 + rest.length := by linarith
  have hsum : ∀ zs : List ℤ, (∀ x ∈ zs, |x| ≤ M ∧ lo ≤ x ∧ x ≤ hi) → zs.length * lo ≤ zs.sum ∧ zs.sum ≤ zs.length * hi := by
    intro zs
    induction zs with
    | nil => simp
    | cons x zs ih =>
      intro hx
      have := ih (fun y hy => hx y (by simp [hy]))
      have hx' := hx x (by simp)
      rw [List.length_cons, List.sum_cons]
      push_cast
      constructor <;> nlinarith [this.1, this.2, hx'.2.1, hx'.2.2]
  have hz := hsum (z :: zs) hb
  rw [List.length_cons, List.sum_cons] at hz
  push_cast at hz
  have hbt := tdiv_between (a := z + zs.sum) (lo := lo) (hi := hi) (n := 1 + rest.length) hn (by rw [hlen]; linarith [hz.1])
    (by rw [hlen]; linarith [hz.2])
  have hbM := tdiv_between (a := z + zs.sum) (lo := -M) (hi := M) (n := 1 + rest.length) hn
    (by have := (abs_le.1 hs.2).1; linarith) (by have := (abs_le.1 hs.2).2; linarith)
  refine ⟨(z + zs.sum).tdiv (1 + rest.length), ?_, hbt.1, hbt.2, ?_⟩
  · rw [average_apply, div_int hs.1 hc (by linarith), if_pos]
    refine inRange_of_lt (lt_of_le_of_lt (abs_le.2 hbM) ?_)
    nlinarith
  · have := tdiv_near (a := z + zs.sum) hn
    rw [hlen] at this ⊢
    rw [add_comm (zs.length : ℤ) 1]
    exact this

/-- The center of the valid one-dimensional box from 2³⁰ to 2³¹ - 1 of `int` is undefined, and so is the average of its corners. -/
theorem C114_center_fails : ∃ a b : Vec (SInt 32) 1, (a 0).toInt = some (2 ^ 30) ∧ (b 0).toInt = some (2 ^ 31 - 1) ∧
    ((BBox.mk a b).center 0).toInt = none ∧ (average a [b] 0).toInt = none :=
  ⟨![of (2 ^ 30)], ![of (2 ^ 31 - 1)], by decide, by decide, by decide, by decide⟩

/-- The truncated quotient is determined by the remainder. -/
theorem tdiv_unique {z s q : ℤ} (hs : s ≠ 0) : q = z.tdiv s ↔ |z - q * s| < |s| ∧ 0 ≤ z * (z - q * s) := by
  have hm : z - z.tdiv s * s = z.tmod s := by have := Int.tmod_add_tdiv_mul z s; linarith
  have hlt : |z.tmod s| < |s| := by
    rw [Int.abs_eq_natAbs, Int.abs_eq_natAbs, Int.natAbs_tmod]
    exact_mod_cast Nat.mod_lt _ (Int.natAbs_pos.2 hs)
  have hsg : 0 ≤ z * z.tmod s := by
    rcases le_total 0 z with h | h
    · exact mul_nonneg h (Int.tmod_nonneg _ h)
    · have : 0 ≤ (-z).tmod s := Int.tmod_nonneg _ (by linarith)
      rw [Int.neg_tmod] at this
      nlinarith
  constructor
  · rintro rfl
    rw [hm]; exact ⟨hlt, hsg⟩
  · rintro ⟨h1, h2⟩
    rw [← hm] at hlt hsg
    by_contra hq
    have hd : |s| ≤ |(q - z.tdiv s) * s| := by
      rw [abs_mul]
      have : 1 ≤ |q - z.tdiv s| := Int.one_le_abs (sub_ne_zero.2 hq)
      nlinarith [abs_nonneg s]
    have e : (q - z.tdiv s) * s = (z - z.tdiv s * s) - (z - q * s) := by ring
    rcases lt_trichotomy z 0 with hz | hz | hz
    · have a1 : z - q * s ≤ 0 := by by_contra hc; nlinarith
      have a2 : z - z.tdiv s * s ≤ 0 := by by_contra hc; nlinarith
      rw [abs_of_nonpos a1] at h1
      rw [abs_of_nonpos a2] at hlt
      rw [e] at hd
      exact absurd (abs_lt.2 ⟨by linarith, by linarith⟩) (not_lt.2 hd)
    · subst hz
      rw [Int.zero_tdiv, sub_zero] at hd
      rw [zero_sub, abs_neg] at h1
      exact absurd h1 (not_lt.2 hd)
    · have a1 : 0 ≤ z - q * s := by by_contra hc; nlinarith
      have a2 : 0 ≤ z - z.tdiv s * s := by by_contra hc; nlinarith
      rw [abs_of_nonneg a1] at h1
      rw [abs_of_nonneg a2] at hlt
      rw [e] at hd
      exact absurd (abs_lt.2 ⟨by linarith, by linarith⟩) (not_lt.2 hd)

/-- Division of a vector by a scalar: a component is defined exactly if the divisor is not zero and it is not the least number divided by -1, and
then it is the quotient whose remainder is smaller than the divisor and has the sign of the dividend. -/
theorem C114_divide (hw : 2 ≤ w) (v : Vec (SInt w) S) (x : SInt w) (z : Fin S → ℤ) (s : ℤ) (hv : ∀ i, (v i).toInt = some (z i)) (hx : x.toInt = some s)
    (i : Fin S) (q : ℤ) : (vdivs v x i).toInt = some q ↔
      s ≠ 0 ∧ ¬ (z i = -2 ^ (w - 1) ∧ s = -1) ∧ |z i - q * s| < |s| ∧ 0 ≤ z i * (z i - q * s) := by
  show (v i / x).toInt = some q ↔ _
  by_cases hs : s = 0
  · obtain ⟨_, e1⟩ := eq_val (hv i)
    obtain ⟨_, e2⟩ := eq_val hx
    have : (v i / x).toInt = none := by
      rw [e1, e2]
      show (div (val _ _) (val _ _)).toInt = _
      unfold div
      simp only [if_pos hs]
      rfl
    rw [this]
    simp [hs]
  rw [div_int (hv i) hx hs, ← tdiv_unique hs]
  have hr := inRange (hv i)
  have hrange : InRange w ((z i).tdiv s) ↔ ¬ (z i = -2 ^ (w - 1) ∧ s = -1) := by
    have hp : (2 : ℤ) ≤ 2 ^ (w - 1) := by
      calc (2 : ℤ) = 2 ^ 1 := by norm_num
        _ ≤ 2 ^ (w - 1) := pow_le_pow_right₀ (by norm_num) (by omega)
    constructor
    · rintro h ⟨h1, h2⟩
      rw [h1, h2, Int.tdiv_neg, Int.tdiv_one, neg_neg] at h
      exact absurd h.2 (lt_irrefl _)
    · intro h
      have hb : |(z i).tdiv s| * |s| ≤ |z i| := by
        rw [← abs_mul, Int.abs_eq_natAbs, Int.abs_eq_natAbs, Int.natAbs_mul, Int.natAbs_tdiv]
        exact_mod_cast Nat.div_mul_le_self _ _
      have hs1 : 1 ≤ |s| := Int.one_le_abs hs
      have hz : |z i| ≤ 2 ^ (w - 1) := abs_le.2 ⟨hr.1, hr.2.le⟩
      have hle : |(z i).tdiv s| ≤ 2 ^ (w - 1) := by nlinarith [abs_nonneg ((z i).tdiv s)]
      refine ⟨(abs_le.1 hle).1, lt_of_le_of_ne (abs_le.1 hle).2 fun he => h ?_⟩
      rw [he, abs_of_pos (by linarith)] at hb
      have h1 : |s| = 1 := by nlinarith
      rcases (abs_eq (by norm_num : (0 : ℤ) ≤ 1)).1 h1 with h2 | h2
      · rw [h2, Int.tdiv_one] at he
        exact absurd hr.2 (by rw [he]; exact lt_irrefl _)
      · rw [h2, Int.tdiv_neg, Int.tdiv_one] at he
        exact ⟨by linarith, h2⟩
  by_cases hin : InRange w ((z i).tdiv s)
  · rw [if_pos hin, Option.some.injEq]
    exact ⟨fun h => ⟨hs, hrange.1 hin, h.symm⟩, fun h => h.2.2.symm⟩
  · rw [if_neg hin]
    refine ⟨fun h => (by cases h), fun h => absurd (hrange.2 h.2.1) hin⟩

/-! The hypotheses are met by non-trivial vectors, matrices and boxes of `int`. -/

example : (vdivs ![of 7, of (-7), of (-2 ^ 31)] (of (-2)) 1 : SInt 32).toInt = some 3 := by
  rw [C114_divide (by norm_num) _ _ ![7, -7, -2 ^ 31] (-2) (fun i => by fin_cases i <;> decide) (by decide)]
  decide

example : (dot ![of 3000, of (-4000), of 5] ![of 7, of 20000, of (-1)] : SInt 32).toInt = some (-79979005) := by
  rw [C114_dot _ _ ![3000, -4000, 5] ![7, 20000, -1] (fun i => by fin_cases i <;> decide)
    (fun i => by fin_cases i <;> decide)]
  refine ⟨by decide, ?_, by decide⟩
  intro k hk
  interval_cases k <;> decide

example : ∃ v : Vec (SInt 32) 3, (squaredDistance v ![of 10000, of 20, of (-30)]).toInt = some 401000400 := by
  refine ⟨![of (-10000), of (-980), of (-10)], ?_⟩
  rw [C114_squared_distance _ _ ![-10000, -980, -10] ![10000, 20, -30] (fun i => by fin_cases i <;> decide)
    (fun i => by fin_cases i <;> decide) 10000 (by norm_num) (fun i => by fin_cases i <;> decide)
    (fun i => by fin_cases i <;> decide) (by norm_num)]
  simp [Fin.sum_univ_succ]

example : (cross ![of 32767, of 1, of 2] ![of 3, of (-32767), of 4] 2 : SInt 32).toInt = some (-1073676292) := by
  have := (C114_cross (w := 32) ![of 32767, of 1, of 2] ![of 3, of (-32767), of 4] ![32767, 1, 2] ![3, -32767, 4] (fun i => by fin_cases i <;> decide)
    (fun i => by fin_cases i <;> decide) 32767 32767 (fun i => by fin_cases i <;> decide)
    (fun i => by fin_cases i <;> decide) (by norm_num)).2.2
  rw [this]
  simp

example : (computeDeterminant 2 ![![of 700, of 3, of 0], ![of (-2), of 500, of 1], ![of 5, of 0, of 600]] : SInt 32).toInt = some 210003615 := by
  rw [C114_determinant (w := 32) _ ![![700, 3, 0], ![-2, 500, 1], ![5, 0, 600]] (fun c r => by
    fin_cases c <;> fin_cases r <;> decide) 700 (by norm_num) (fun c r => by fin_cases c <;> fin_cases r <;> decide)
    (by norm_num [Nat.factorial])]
  exact congrArg some ((Matrix.det_fin_three _).trans (by decide))

example (c r : Fin 2) : (mmul ![![of 30000, of 1], ![of 2, of (-30000)]] ![![of 30000, of 5], ![of 1, of 30000]] c r : SInt 32).toInt ≠ none := by
  rw [C114_product (w := 32) _ _ ![![30000, 1], ![2, -30000]] ![![30000, 5], ![1, 30000]]
    (fun c r => by fin_cases c <;> fin_cases r <;> decide)
    (fun c r => by fin_cases c <;> fin_cases r <;> decide) 30000 30000
    (fun c r => by fin_cases c <;> fin_cases r <;> decide) (fun c r => by fin_cases c <;> fin_cases r <;> decide) (by norm_num)]
  simp

example : (vm.abs (of (-2147483648) : SInt 32)).toInt = none ∧ (vm.abs (of (-2147483647) : SInt 32)).toInt = some 2147483647 := by
  constructor
  · have h := C114_abs (of (-2147483648) : SInt 32) (-2147483648) (by decide)
    cases e : (vm.abs (of (-2147483648) : SInt 32)).toInt with
    | none => rfl
    | some r => exact absurd ((h r).1 e).2 (by norm_num)
  · exact (C114_abs (of (-2147483647) : SInt 32) (-2147483647) (by decide) _).2 ⟨by norm_num, by norm_num⟩

example : ∃ c, ((BBox.mk ![of (-5)] ![of 2] : BBox (SInt 32) 1).center 0).toInt = some c ∧ -5 ≤ c ∧ c ≤ 2 ∧ |2 * c - (-5 + 2)| ≤ 1 :=
  (C114_center (w := 32) (by norm_num) (BBox.mk ![of (-5)] ![of 2]) (fun _ => -5) (fun _ => 2)
    (fun i => by fin_cases i; decide) (fun i => by fin_cases i; decide) (fun _ => by norm_num) 0).1 (by decide)

example : ∃ c, (average ![of 7] [![of (-2)], ![of 1000]] (0 : Fin 1) : SInt 32).toInt = some c ∧ -2 ≤ c ∧ c ≤ 1000 ∧
    |(2 + 1) * c - (7 + [-2, 1000].sum)| < 2 + 1 :=
  C114_average (w := 32) (by norm_num) ![of 7] [![of (-2)], ![of 1000]] 0 7 [-2, 1000] (by decide)
    (.cons (by decide) (.cons (by decide) .nil)) 1000 (-2) 1000 (by norm_num) (by simp) (by norm_num)

end vm
