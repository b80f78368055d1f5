import Verif.Model.Mat
import Verif.Lemmas.Vec
import Mathlib.LinearAlgebra.Matrix.Determinant.Basic
import Mathlib.LinearAlgebra.Matrix.Adjugate
import Mathlib.LinearAlgebra.Matrix.Block
import Mathlib.LinearAlgebra.Matrix.ToLinearEquiv

/-! Helper lemmas about matrices. -/

universe u

set_option linter.unusedSectionVars false
set_option linter.unusedSimpArgs false

namespace vm

/-- The mathematical matrix of a `mat` (rows first). -/
def toMatrix {T : Type u} {R C : ℕ} (m : Mat T R C) : Matrix (Fin R) (Fin C) T :=
  Matrix.of fun r c => m c r

@[simp] theorem toMatrix_apply {T : Type u} {R C : ℕ} (m : Mat T R C) (r : Fin R) (c : Fin C) :
    toMatrix m r c = m c r := rfl

theorem toMatrix_inj {T : Type u} {R C : ℕ} {m n : Mat T R C} (h : toMatrix m = toMatrix n) : m = n := by
  funext c r; exact congrFun (congrFun h r) c

section ring
variable {A : Type u} [CommRing A] {R C S : ℕ}

theorem mmul_apply {R1 C1 C2 : ℕ} (l : Mat A R1 C1) (m : Mat A C1 C2) (c : Fin C2) (r : Fin R1) :
    mmul l m c r = ∑ i, l i r * m c i := by
  rw [mmul, foldl_add_eq_sum, zero_add]

theorem toMatrix_mmul {R1 C1 C2 : ℕ} (l : Mat A R1 C1) (m : Mat A C1 C2) :
    toMatrix (mmul l m) = toMatrix l * toMatrix m := by
  ext r c; rw [toMatrix_apply, mmul_apply, Matrix.mul_apply]; rfl

theorem toMatrix_id : toMatrix (matId S S : Mat A S S) = 1 := by
  ext r c
  simp only [toMatrix_apply, matId, Matrix.one_apply, Fin.ext_iff, eq_comm]

theorem mmulVec_apply (m : Mat A S S) (v : Vec A S) (r : Fin S) : mmulVec m v r = ∑ c, m c r * v c := by
  rw [mmulVec, foldl_add_eq_sum, zero_add]

theorem mmulVec_eq (m : Mat A S S) (v : Vec A S) : mmulVec m v = (toMatrix m).mulVec v := by
  funext r; rw [mmulVec_apply]; rfl

theorem vmulMat_eq (v : Vec A S) (m : Mat A S S) : vmulMat v m = Matrix.vecMul v (toMatrix m) := by
  funext c; rw [vmulMat, dot_eq_sum]; rfl

theorem sign_eq_pow (k : ℕ) : (if k % 2 = 0 then 1 else -1 : A) = (-1) ^ k := by
  rcases Nat.even_or_odd k with h | h
  · rw [if_pos (Nat.even_iff.1 h), h.neg_one_pow]
  · rw [if_neg (by rw [Nat.odd_iff.1 h]; decide), h.neg_one_pow]

theorem toMatrix_minor (m : Mat A (R + 1) (C + 1)) (r : Fin (R + 1)) (c : Fin (C + 1)) :
    toMatrix (extractMinor m r c) = (toMatrix m).submatrix r.succAbove c.succAbove := rfl

theorem computeDeterminant_eq : ∀ (n : ℕ) (m : Mat A (n + 1) (n + 1)),
    computeDeterminant n m = (toMatrix m).det
  | 0, m => by
    rw [computeDeterminant, Matrix.det_fin_one]; rfl
  | 1, m => by
    rw [computeDeterminant, Matrix.det_fin_two]; simp only [toMatrix_apply]
  | 2, m => by
    rw [computeDeterminant, Matrix.det_fin_three]; simp only [toMatrix_apply]; ring
  | n + 3, m => by
    rw [computeDeterminant, Matrix.det_succ_column_zero]
    rw [show (fun (result : A) (r : Fin (n + 4)) =>
        let f : A := if r.val % 2 = 0 then 1 else -1
        result + f * m 0 r * computeDeterminant (n + 2) (extractMinor m r 0))
      = fun (result : A) (r : Fin (n + 4)) => result + ((-1) ^ r.val * m 0 r * (toMatrix (extractMinor m r 0)).det) from ?_]
    · rw [foldl_add_eq_sum, zero_add]
      refine Finset.sum_congr rfl fun r _ => ?_
      rw [toMatrix_minor]; rfl
    · funext result r
      simp only [sign_eq_pow, computeDeterminant_eq (n + 2)]

theorem computeAdjugate_eq {n : ℕ} (m : Mat A (n + 2) (n + 2)) :
    toMatrix (computeAdjugate m) = (toMatrix m).adjugate := by
  ext c r
  rw [Matrix.adjugate_fin_succ_eq_det_submatrix, toMatrix_apply, computeAdjugate]
  simp only [sign_eq_pow, computeDeterminant_eq, toMatrix_minor]
  rw [add_comm]

theorem toMatrix_add (m n : Mat A R C) : toMatrix (m + n) = toMatrix m + toMatrix n := rfl

theorem toMatrix_scale (m : Mat A R C) (k : A) : toMatrix (mscale m k) = k • toMatrix m := by
  ext r c; simp [mscale, vscale, mul_comm]

end ring

/-! ### transpose -/
section transpose
variable {T : Type u} {S : ℕ}

theorem mset_apply {R C : ℕ} (m : Mat T R C) (r : Fin R) (c : Fin C) (v : T) (x : Fin C) (y : Fin R) :
    mset m r c v x y = if x = c ∧ y = r then v else m x y := by
  unfold mset
  by_cases hx : x = c
  · subst hx
    by_cases hy : y = r
    · subst hy; simp
    · simp [hy]
  · simp [hx]

theorem transpose_inner (c : Fin S) : ∀ (l : List (Fin S)) (m : Mat T S S), l.Nodup → (∀ r ∈ l, c < r) →
    ∀ x y, l.foldl (fun m r => mset (mset m r c (m r c)) c r (m c r)) m x y =
      if (x = c ∧ y ∈ l) ∨ (y = c ∧ x ∈ l) then m y x else m x y
  | [], m, _, _, x, y => by simp
  | r :: l, m, hn, hl, x, y => by
    rw [List.foldl_cons, transpose_inner c l _ (List.nodup_cons.1 hn).2 fun r hr => hl r (by simp [hr])]
    have hrl : r ∉ l := (List.nodup_cons.1 hn).1
    have hcr : c ≠ r := (hl r (by simp)).ne
    have hcl : c ∉ l := fun h => lt_irrefl c (hl c (by simp [h]))
    simp only [mset_apply, List.mem_cons]
    by_cases h1 : x = c ∧ y ∈ l
    · obtain ⟨rfl, h⟩ := h1
      have hyr : y ≠ r := fun e => hrl (e ▸ h)
      have hyc : y ≠ x := fun e => hcl (e ▸ h)
      simp [h, hyr, hyc, hcr]
    · by_cases h2 : y = c ∧ x ∈ l
      · obtain ⟨rfl, h⟩ := h2
        have hxr : x ≠ r := fun e => hrl (e ▸ h)
        have hxc : x ≠ y := fun e => hcl (e ▸ h)
        simp [h, hxr, hxc, hcr]
      · rw [if_neg (by tauto)]
        by_cases h3 : x = r ∧ y = c
        · obtain ⟨rfl, rfl⟩ := h3; simp
        · by_cases h4 : x = c ∧ y = r
          · obtain ⟨rfl, rfl⟩ := h4; simp [hcr]
          · rw [if_neg h3, if_neg h4, if_neg (by tauto)]

theorem transpose_outer : ∀ (L : List (Fin S)) (m : Mat T S S), L.Nodup →
    ∀ x y, L.foldl (fun m c =>
      ((List.finRange S).filter (c < ·)).foldl (fun m r => mset (mset m r c (m r c)) c r (m c r)) m) m x y =
      if (x < y ∧ x ∈ L) ∨ (y < x ∧ y ∈ L) then m y x else m x y
  | [], m, _, x, y => by simp
  | c :: L, m, hn, x, y => by
    rw [List.foldl_cons, transpose_outer L _ (List.nodup_cons.1 hn).2]
    have hin := transpose_inner c ((List.finRange S).filter (c < ·)) m
      ((List.nodup_finRange S).filter _) (by simp)
    rw [hin, hin]
    have hcl : c ∉ L := (List.nodup_cons.1 hn).1
    simp only [List.mem_filter, List.mem_finRange, true_and, decide_eq_true_eq, List.mem_cons]
    rcases lt_trichotomy x y with h | h | h
    · simp only [h, true_and, not_lt.2 h.le, false_and, or_false, h.not_gt]
      by_cases hx : x = c
      · subst hx
        simp [hcl, h, h.ne', h.not_gt]
      · by_cases hy : y = c
        · subst hy; simp [hx, h.not_gt]
        · simp [hx, hy]
    · subst h; simp
    · simp only [h, true_and, not_lt.2 h.le, false_and, or_false, h.not_gt, false_or]
      by_cases hy : y = c
      · subst hy
        simp [hcl, h, h.ne', h.not_gt]
      · by_cases hx : x = c
        · subst hx; simp [hy, h.not_gt]
        · simp [hx, hy]

theorem transpose_apply (m : Mat T S S) (x y : Fin S) : transpose m x y = m y x := by
  rw [transpose, transpose_outer _ _ (List.nodup_finRange S)]
  rcases lt_trichotomy x y with h | h | h
  · simp [h]
  · simp [h]
  · simp [h]

end transpose

/-! ### LUP -/
section lup
variable {K : Type u} [Field K] [LinearOrder K] [IsStrictOrderedRing K] {S : ℕ}

theorem lupThreshold_pos : (0 : K) < lupThreshold K := by unfold lupThreshold; positivity

theorem swapElems_apply {α : Type u} {n : ℕ} (v : Fin n → α) (i j x : Fin n) :
    swapElems v i j x = v (Equiv.swap i j x) := by
  unfold swapElems
  rw [Equiv.swap_apply_def]
  by_cases hj : x = j
  · subst hj
    by_cases hi : x = i
    · subst hi; simp
    · simp [hi]
  · by_cases hi : x = i
    · subst hi; simp [hj]
    · simp [hi, hj]

theorem lupSwapRows_apply {T : Type u} (a : Mat T S S) (k k' c r : Fin S) :
    lupSwapRows a k k' c r = a c (Equiv.swap k k' r) := by
  have gen : ∀ (l : List (Fin S)) (a : Mat T S S), l.Nodup → ∀ c r,
      l.foldl (fun a i => Function.update a i (swapElems (a i) k k')) a c r
        = if c ∈ l then a c (Equiv.swap k k' r) else a c r := by
    intro l
    induction l with
    | nil => intro a _ c r; simp
    | cons i l ih =>
      intro a hn c r
      rw [List.foldl_cons, ih _ (List.nodup_cons.1 hn).2]
      by_cases hc : c = i
      · subst hc
        simp [(List.nodup_cons.1 hn).1, swapElems_apply]
      · simp [hc]
  rw [lupSwapRows, gen _ _ (List.nodup_finRange S)]
  simp

theorem lupPivot_spec (a : Mat K S S) (k : Fin S) :
    (∀ i, k ≤ i → |a k i| ≤ (lupPivot a k).1) ∧
    (0 < (lupPivot a k).1 → k ≤ (lupPivot a k).2 ∧ |a k (lupPivot a k).2| = (lupPivot a k).1) := by
  have gen : ∀ (l : List (Fin S)) (acc : K × Fin S), (∀ i ∈ l, k ≤ i) → 0 ≤ acc.1 →
      (0 < acc.1 → k ≤ acc.2 ∧ |a k acc.2| = acc.1) →
      let res := l.foldl (fun acc i => if Cmp.lt acc.1 (abs (a k i)) then (abs (a k i), i) else acc) acc
      acc.1 ≤ res.1 ∧ (∀ i ∈ l, |a k i| ≤ res.1) ∧ (0 < res.1 → k ≤ res.2 ∧ |a k res.2| = res.1) := by
    intro l
    induction l with
    | nil => intro acc _ _ h; exact ⟨le_rfl, by simp, h⟩
    | cons i l ih =>
      intro acc hk h0 h
      simp only [List.foldl_cons, abs_exact]
      split_ifs with hlt0
      · have hlt : acc.1 < |a k i| := of_decide_eq_true hlt0
        obtain ⟨h1, h2, h3⟩ := ih (|a k i|, i) (fun j hj => hk j (by simp [hj])) (abs_nonneg _)
          (fun _ => ⟨hk i (by simp), rfl⟩)
        simp only [abs_exact] at h1 h2 h3
        refine ⟨hlt.le.trans h1, ?_, h3⟩
        intro j hj
        rcases List.mem_cons.1 hj with rfl | hj
        · exact h1
        · exact h2 j hj
      · have hlt : ¬ acc.1 < |a k i| := fun h => hlt0 (decide_eq_true h)
        obtain ⟨h1, h2, h3⟩ := ih acc (fun j hj => hk j (by simp [hj])) h0 h
        simp only [abs_exact] at h1 h2 h3
        refine ⟨h1, ?_, h3⟩
        intro j hj
        rcases List.mem_cons.1 hj with rfl | hj
        · exact (not_lt.1 hlt).trans h1
        · exact h2 j hj
  obtain ⟨_, h2, h3⟩ := gen ((List.finRange S).filter (k ≤ ·)) (0, ⟨0, k.pos⟩) (by simp) le_rfl
    (fun h => absurd h (lt_irrefl _))
  exact ⟨fun i hi => h2 i (by simp [hi]), h3⟩

section generic
variable {T : Type u} [Sub T] [Mul T] [Div T]

theorem lupEliminate_inner (k i : Fin S) (hki : k < i) : ∀ (l : List (Fin S)) (a : Mat T S S), l.Nodup →
    (∀ j ∈ l, k < j) → ∀ x y,
    l.foldl (fun a j => mset a i j (a j i - a k i * a j k)) a x y =
      if y = i ∧ x ∈ l then a x i - a k i * a x k else a x y
  | [], a, _, _, x, y => by simp
  | j :: l, a, hn, hl, x, y => by
    rw [List.foldl_cons, lupEliminate_inner k i hki l _ (List.nodup_cons.1 hn).2
      fun j hj => hl j (by simp [hj])]
    have hjl : j ∉ l := (List.nodup_cons.1 hn).1
    have hkj : k ≠ j := (hl j (by simp)).ne
    simp only [mset_apply, List.mem_cons]
    by_cases hy : y = i
    · subst hy
      by_cases hx : x ∈ l
      · have hxj : x ≠ j := fun e => hjl (e ▸ hx)
        simp [hx, hxj, hkj]
      · by_cases hxj : x = j
        · subst hxj; simp [hx]
        · simp [hx, hxj]
    · simp [hy]

theorem lupEliminate_outer (k : Fin S) : ∀ (L : List (Fin S)) (a : Mat T S S), L.Nodup →
    (∀ i ∈ L, k < i) → ∀ x y,
    L.foldl (fun a i =>
      let a := mset a i k (a k i / a k k)
      ((List.finRange S).filter (k < ·)).foldl (fun a j => mset a i j (a j i - a k i * a j k)) a) a x y =
      if y ∈ L then
        if x = k then a k y / a k k else if k < x then a x y - a k y / a k k * a x k else a x y
      else a x y
  | [], a, _, _, x, y => by simp
  | i :: L, a, hn, hl, x, y => by
    have hki : k < i := hl i (by simp)
    have hiL : i ∉ L := (List.nodup_cons.1 hn).1
    have hkL : k ∉ L := fun h => lt_irrefl k (hl k (by simp [h]))
    rw [List.foldl_cons, lupEliminate_outer k L _ (List.nodup_cons.1 hn).2
      fun j hj => hl j (by simp [hj])]
    have hin := lupEliminate_inner k i hki ((List.finRange S).filter (k < ·))
      (mset a i k (a k i / a k k)) ((List.nodup_finRange S).filter _) (by simp)
    simp only [hin, mset_apply, List.mem_filter, List.mem_finRange, true_and, decide_eq_true_eq,
      List.mem_cons]
    by_cases hy : y = i
    · subst hy
      by_cases hx : x = k
      · subst hx; simp [hiL]
      · simp [hiL, hx, hki.ne]
    · by_cases hyL : y ∈ L
      · simp [hy, hyL, hki.ne]
      · simp [hy, hyL]

theorem lupEliminate_apply (a : Mat T S S) (k x y : Fin S) :
    lupEliminate a k x y =
      if k < y then
        if x = k then a k y / a k k else if k < x then a x y - a k y / a k k * a x k else a x y
      else a x y := by
  rw [lupEliminate, lupEliminate_outer k _ _ ((List.nodup_finRange S).filter _) (by simp)]
  simp

end generic

/-- Entries of the unit lower triangular factor stored below the diagonal in the first `k` columns. -/
def lowEntry (a : Mat K S S) (i t : Fin S) : K := if t < i then a t i else if t = i then 1 else 0

/-- Entries of the upper triangular factor. -/
def upEntry (a : Mat K S S) (t j : Fin S) : K := if t ≤ j then a j t else 0

/-- The state of the decomposition after `k` steps. -/
structure LupInv (A : Mat K S S) (k : ℕ) (st : Mat K S S × (Fin S → Fin S)) : Prop where
  perm : Function.Bijective st.2
  diag : ∀ t : Fin S, t.val < k → st.1 t t ≠ 0
  prod : ∀ i j : Fin S, A j (st.2 i) =
    (∑ t : Fin S, if t.val < k then lowEntry st.1 i t * upEntry st.1 t j else 0) +
      if k ≤ i.val ∧ k ≤ j.val then st.1 j i else 0

theorem lupInv_init (A : Mat K S S) : LupInv A 0 (A, fun i => i) where
  perm := Function.bijective_id
  diag t h := absurd h (Nat.not_lt_zero _)
  prod i j := by simp

theorem lupInv_swap {A : Mat K S S} {k : Fin S} {a : Mat K S S} {pi : Fin S → Fin S}
    (h : LupInv A k (a, pi)) {k' : Fin S} (hk : k ≤ k') :
    LupInv A k (lupSwapRows a k k',
      Function.update (Function.update pi k (pi k')) k' (pi k)) := by
  have hpi : Function.update (Function.update pi k (pi k')) k' (pi k) = pi ∘ Equiv.swap k k' := by
    funext x; exact swapElems_apply pi k k' x
  have hlt : ∀ t : Fin S, t.val < k.val → Equiv.swap k k' t = t := by
    intro t ht
    apply Equiv.swap_apply_of_ne_of_ne
    · rintro rfl; exact lt_irrefl _ ht
    · rintro rfl; exact absurd hk (not_le.2 ht)
  have hge : ∀ t : Fin S, k.val ≤ t.val → k.val ≤ (Equiv.swap k k' t).val := by
    intro t ht
    by_contra hc
    push Not at hc
    have := hlt _ hc
    rw [Equiv.swap_apply_self] at this
    rw [← this] at hc
    omega
  rw [hpi]
  refine ⟨h.perm.comp (Equiv.bijective _), ?_, ?_⟩
  · intro t ht
    simp only [lupSwapRows_apply, hlt t ht]
    exact h.diag t ht
  · intro i j
    simp only [Function.comp_apply]
    rw [h.prod]
    congr 1
    · refine Finset.sum_congr rfl fun t _ => ?_
      split_ifs with ht
      · congr 1
        · by_cases hi : i.val < k.val
          · rw [hlt i hi]
            simp only [lowEntry, lupSwapRows_apply, hlt i hi]
          · push Not at hi
            have h1 : t < Equiv.swap k k' i := lt_of_lt_of_le ht (hge i hi)
            have h2 : t < i := lt_of_lt_of_le ht hi
            simp only [lowEntry, lupSwapRows_apply, h1, h2, if_true]
        · simp only [upEntry, lupSwapRows_apply, hlt t ht]
      · rfl
    · by_cases hi : i.val < k.val
      · rw [hlt i hi, if_neg (by omega), if_neg (by omega)]
      · push Not at hi
        simp only [hi, hge i hi, true_and, lupSwapRows_apply]

theorem lupInv_elim {A : Mat K S S} {k : Fin S} {a : Mat K S S} {pi : Fin S → Fin S}
    (h : LupInv A k (a, pi)) (hp : a k k ≠ 0) : LupInv A (k + 1) (lupEliminate a k, pi) := by
  have hlow : ∀ i t : Fin S, t < k → lowEntry (lupEliminate a k) i t = lowEntry a i t := by
    intro i t ht
    simp only [lowEntry, lupEliminate_apply, ht.ne, not_lt.2 ht.le, if_false, ite_self]
  have hup : ∀ t j : Fin S, t ≤ k → upEntry (lupEliminate a k) t j = upEntry a t j := by
    intro t j ht
    simp only [upEntry, lupEliminate_apply, not_lt.2 ht, if_false]
  refine ⟨h.perm, ?_, ?_⟩
  · intro t ht
    rcases Nat.lt_succ_iff_lt_or_eq.1 ht with ht | ht
    · have : t < k := ht
      simp only [lupEliminate_apply, not_lt.2 this.le, if_false]
      exact h.diag t ht
    · have : t = k := Fin.ext ht
      subst this
      simp only [lupEliminate_apply, lt_irrefl, if_false]; exact hp
  · intro i j
    have hp' := h.prod i j
    simp only at hp'
    rw [hp']
    have hsum : ∀ t : Fin S,
        (if t.val < k.val + 1 then lowEntry (lupEliminate a k) i t * upEntry (lupEliminate a k) t j else 0)
        = (if t.val < k.val then lowEntry a i t * upEntry a t j else 0)
          + (if t = k then lowEntry (lupEliminate a k) i k * upEntry a k j else 0) := by
      intro t
      rcases lt_trichotomy t k with ht | ht | ht
      · have h1 : t.val < k.val := ht
        rw [if_pos (by omega), if_pos h1, if_neg ht.ne, hlow i t ht, hup t j ht.le, add_zero]
      · subst ht
        simp [hup t j le_rfl]
      · have h1 : k.val < t.val := ht
        rw [if_neg (by omega), if_neg (by omega), if_neg ht.ne', add_zero]
    rw [Finset.sum_congr rfl fun t _ => hsum t, Finset.sum_add_distrib, add_assoc]
    congr 1
    rw [Finset.sum_ite_eq' Finset.univ k, if_pos (Finset.mem_univ _)]
    simp only [lowEntry, upEntry, lupEliminate_apply]
    rcases lt_trichotomy i k with hi | hi | hi
    · have h1 : i.val < k.val := hi
      simp [hi.ne', not_lt.2 hi.le, h1, show ¬ (k.val + 1 ≤ i.val) by omega, show ¬ (k.val ≤ i.val) by omega]
    · subst hi
      simp [show ¬ (i.val + 1 ≤ i.val) by omega]
    · have h1 : k.val < i.val := hi
      have h2 : k.val ≤ i.val := by omega
      have h3 : k.val + 1 ≤ i.val := by omega
      simp only [hi, if_true, h2, h3, true_and]
      rcases lt_trichotomy j k with hj | hj | hj
      · have h4 : j.val < k.val := hj
        simp [not_le.2 hj, show ¬ (k.val + 1 ≤ j.val) by omega, show ¬ (k.val ≤ j.val) by omega]
      · subst hj
        simp [show ¬ (j.val + 1 ≤ j.val) by omega]
        field_simp
      · have h4 : k.val < j.val := hj
        simp only [hj.le, if_true, show k.val + 1 ≤ j.val by omega, show k.val ≤ j.val by omega, hj.ne', hj,
          if_false]
        ring

theorem lupInv_step {A : Mat K S S} {k : Fin S} {st st' : Mat K S S × (Fin S → Fin S)}
    (h : LupInv A k st) (hs : lupStep st k = some st') : LupInv A (k + 1) st' := by
  unfold lupStep at hs
  simp only at hs
  split_ifs at hs with hlt0
  cases hs
  have hlt : ¬ (lupPivot st.1 k).1 < lupThreshold K := fun h => hlt0 (decide_eq_true h)
  obtain ⟨_, h2⟩ := lupPivot_spec st.1 k
  have hpos : 0 < (lupPivot st.1 k).1 := lupThreshold_pos.trans_le (not_lt.1 hlt)
  obtain ⟨h3, h4⟩ := h2 hpos
  apply lupInv_elim (lupInv_swap h h3)
  rw [lupSwapRows_apply, Equiv.swap_apply_left]
  intro h0; rw [h0, abs_zero] at h4; rw [← h4] at hpos; exact lt_irrefl _ hpos

/-- Running the main loop either succeeds with the invariant or fails at some step where the invariant
held. -/
theorem lup_run (A : Mat K S S) : ∀ (n : ℕ) (st : Mat K S S × (Fin S → Fin S)) (_ : n ≤ S),
    LupInv A (S - n) st →
    match ((List.finRange S).drop (S - n)).foldlM lupStep st with
    | some st' => LupInv A S st'
    | none => ∃ (k : Fin S) (st' : Mat K S S × (Fin S → Fin S)), LupInv A k st' ∧ lupStep st' k = none
  | 0, st, hn, h => by
    have : (List.finRange S).drop (S - 0) = [] := by
      apply List.drop_eq_nil_of_le; simp
    rw [this]
    simpa using h
  | n + 1, st, hn, h => by
    have hlt : S - (n + 1) < S := by omega
    have hd : (List.finRange S).drop (S - (n + 1)) =
        ⟨S - (n + 1), hlt⟩ :: (List.finRange S).drop (S - n) := by
      rw [List.drop_eq_getElem_cons (by simpa using hlt), List.getElem_finRange]
      congr 2
      omega
    rw [hd, List.foldlM_cons]
    rcases hs : lupStep st ⟨S - (n + 1), hlt⟩ with _ | st'
    · exact ⟨_, st, h, hs⟩
    · have h' := lupInv_step (k := ⟨S - (n + 1), hlt⟩) h hs
      have : S - (n + 1) + 1 = S - n := by omega
      simp only [this] at h'
      exact lup_run A n st' (by omega) h'

theorem lup_cases (A : Mat K S S) :
    (∃ st, lupFindDecomposition A = some st ∧ LupInv A S st) ∨
    (lupFindDecomposition A = none ∧
      ∃ (k : Fin S) (st : Mat K S S × (Fin S → Fin S)), LupInv A k st ∧ lupStep st k = none) := by
  have := lup_run A S (A, fun i => i) le_rfl (by rw [Nat.sub_self]; exact lupInv_init A)
  rw [Nat.sub_self, List.drop_zero] at this
  unfold lupFindDecomposition
  rcases h : (List.finRange S).foldlM lupStep (A, fun i => i) with _ | st
  · rw [h] at this; exact Or.inr ⟨rfl, this⟩
  · rw [h] at this; exact Or.inl ⟨st, rfl, this⟩

/-! substitution -/

theorem foldl_filter_sum (p : Fin S → Prop) [DecidablePred p] (f : Fin S → K) :
    ((List.finRange S).filter p).foldl (fun sum j => sum + f j) 0 = ∑ j, if p j then f j else 0 := by
  have gen : ∀ (l : List (Fin S)) (x : K), (l.filter p).foldl (fun sum j => sum + f j) x
      = x + (l.map fun j => if p j then f j else 0).sum := by
    intro l
    induction l with
    | nil => intro x; simp
    | cons a l ih =>
      intro x
      by_cases h : p a
      · simp [h, ih, add_assoc]
      · simp [h, ih]
  rw [gen, zero_add, ← List.ofFn_eq_map, List.sum_ofFn]

theorem lupForward_spec (lu : Mat K S S) (pi : Fin S → Fin S) (b : Vec K S) (i : Fin S) :
    lupForward lu pi b i + ∑ j, (if j < i then lu j i * lupForward lu pi b j else 0) = b (pi i) := by
  -- after processing the indices below n, the equations below n hold and the rest is zero
  set F := fun (y : Vec K S) (i : Fin S) => Function.update y i (b (pi i) -
      ((List.finRange S).filter (· < i)).foldl (fun sum j => sum + lu j i * y j) 0) with hF
  have gen : ∀ n ≤ S, ∀ i : Fin S, i.val < n →
      (((List.finRange S).take n).foldl F 0) i +
        ∑ j, (if j < i then lu j i * (((List.finRange S).take n).foldl F 0) j else 0) = b (pi i) := by
    intro n
    induction n with
    | zero => intro _ i hi; omega
    | succ n ih =>
      intro hn i hi
      have hlt : n < S := by omega
      have ht : (List.finRange S).take (n + 1) = (List.finRange S).take n ++ [⟨n, hlt⟩] := by
        rw [List.take_succ_eq_append_getElem (by simpa using hlt), List.getElem_finRange]; simp
      rw [ht, List.foldl_append, List.foldl_cons, List.foldl_nil]
      set y := ((List.finRange S).take n).foldl F 0 with hy
      have hsum : ∑ j, (if j < i then lu j i * F y ⟨n, hlt⟩ j else 0)
          = ∑ j, (if j < i then lu j i * y j else 0) := by
        refine Finset.sum_congr rfl fun j _ => ?_
        split_ifs with hj
        · have : j ≠ ⟨n, hlt⟩ := by
            rintro rfl
            have : n < i.val := hj
            omega
          simp [hF, this]
        · rfl
      rw [hsum]
      rcases Nat.lt_succ_iff_lt_or_eq.1 hi with hi | hi
      · have : i ≠ ⟨n, hlt⟩ := by rintro rfl; exact lt_irrefl _ hi
        have hFi : F y ⟨n, hlt⟩ i = y i := by simp [hF, this]
        rw [hFi]; exact ih (by omega) i hi
      · have : i = ⟨n, hlt⟩ := Fin.ext hi
        have hFi : F y ⟨n, hlt⟩ i = b (pi i) - ∑ j, (if j < i then lu j i * y j else 0) := by
          rw [this]; simp only [hF, Function.update_self]
          rw [← foldl_filter_sum]
        rw [hFi]; ring
  have := gen S le_rfl i i.isLt
  rw [List.take_of_length_le (by simp)] at this
  exact this

theorem lupBackward_spec (lu : Mat K S S) (y : Vec K S) (hd : ∀ i, lu i i ≠ 0) (i : Fin S) :
    lu i i * lupBackward lu y i + ∑ j, (if i < j then lu j i * lupBackward lu y j else 0) = y i := by
  set F := fun (x : Vec K S) (i : Fin S) => Function.update x i ((y i -
      ((List.finRange S).filter (i < ·)).foldl (fun sum j => sum + lu j i * x j) 0) / lu i i) with hF
  have gen : ∀ n ≤ S, ∀ i : Fin S, S - n ≤ i.val →
      lu i i * (((List.finRange S).drop (S - n)).reverse.foldl F 0) i +
        ∑ j, (if i < j then lu j i * (((List.finRange S).drop (S - n)).reverse.foldl F 0) j else 0) = y i := by
    intro n
    induction n with
    | zero => intro _ i hi; omega
    | succ n ih =>
      intro hn i hi
      have hlt : S - (n + 1) < S := by omega
      have hdr : (List.finRange S).drop (S - (n + 1)) =
          ⟨S - (n + 1), hlt⟩ :: (List.finRange S).drop (S - n) := by
        rw [List.drop_eq_getElem_cons (by simpa using hlt), List.getElem_finRange]
        congr 2
        omega
      rw [hdr, List.reverse_cons, List.foldl_append, List.foldl_cons, List.foldl_nil]
      set x := ((List.finRange S).drop (S - n)).reverse.foldl F 0 with hx
      set k : Fin S := ⟨S - (n + 1), hlt⟩ with hk
      have hsum : ∑ j, (if i < j then lu j i * F x k j else 0)
          = ∑ j, (if i < j then lu j i * x j else 0) := by
        refine Finset.sum_congr rfl fun j _ => ?_
        split_ifs with hj
        · have : j ≠ k := by
            rintro rfl
            have : i.val < S - (n + 1) := hj
            omega
          simp [hF, this]
        · rfl
      rw [hsum]
      by_cases hik : i = k
      · have hFi : F x k i = (y i - ∑ j, (if i < j then lu j i * x j else 0)) / lu i i := by
          rw [hik]; simp only [hF, Function.update_self]
          rw [← foldl_filter_sum]
        rw [hFi]
        have := hd i
        field_simp; ring
      · have hFi : F x k i = x i := by simp [hF, hik]
        rw [hFi]
        apply ih (by omega)
        have : i.val ≠ S - (n + 1) := fun e => hik (Fin.ext e)
        omega
  have := gen S le_rfl i (by omega)
  rw [Nat.sub_self, List.drop_zero] at this
  exact this

/-- The permuted product of the stored factors is the input. -/
theorem LupInv.final {A : Mat K S S} {st : Mat K S S × (Fin S → Fin S)} (h : LupInv A S st) (i j : Fin S) :
    A j (st.2 i) = ∑ t, lowEntry st.1 i t * upEntry st.1 t j := by
  rw [h.prod i j, if_neg (by omega), add_zero]
  exact Finset.sum_congr rfl fun t _ => if_pos t.isLt

theorem lupSolveInternal_spec {A : Mat K S S} {st : Mat K S S × (Fin S → Fin S)} (h : LupInv A S st)
    (b : Vec K S) : mmulVec A (lupSolveInternal st.1 st.2 b) = b := by
  funext r
  obtain ⟨i, rfl⟩ := h.perm.2 r
  set y := lupForward st.1 st.2 b with hy
  set x := lupBackward st.1 y with hx
  have h1 : ∀ t, ∑ j, upEntry st.1 t j * x j = y t := by
    intro t
    have := lupBackward_spec st.1 y (fun i => h.diag i i.isLt) t
    rw [← this]
    have hs : ∀ j, upEntry st.1 t j * x j =
        (if j = t then st.1 t t * x t else 0) + (if t < j then st.1 j t * x j else 0) := by
      intro j
      rcases lt_trichotomy j t with hj | hj | hj
      · simp [upEntry, not_le.2 hj, hj.ne, hj.not_gt]
      · subst hj; simp [upEntry]
      · simp [upEntry, hj.le, hj.ne', hj]
    rw [Finset.sum_congr rfl fun j _ => hs j, Finset.sum_add_distrib]
    simp [hx]
  have h2 : ∑ t, lowEntry st.1 i t * y t = b (st.2 i) := by
    rw [← lupForward_spec st.1 st.2 b i]
    have hs : ∀ j, lowEntry st.1 i j * y j =
        (if j = i then y i else 0) + (if j < i then st.1 j i * y j else 0) := by
      intro j
      rcases lt_trichotomy j i with hj | hj | hj
      · simp [lowEntry, hj, hj.ne]
      · subst hj; simp [lowEntry]
      · simp [lowEntry, hj.not_gt, hj.ne']
    rw [Finset.sum_congr rfl fun j _ => hs j, Finset.sum_add_distrib]
    simp [hy]
  rw [mmulVec_apply, ← h2]
  calc ∑ c, A c (st.2 i) * lupSolveInternal st.1 st.2 b c
      = ∑ c, ∑ t, lowEntry st.1 i t * (upEntry st.1 t c * x c) := by
        refine Finset.sum_congr rfl fun c _ => ?_
        rw [h.final, Finset.sum_mul]
        exact Finset.sum_congr rfl fun t _ => by rw [mul_assoc]; rfl
    _ = ∑ t, lowEntry st.1 i t * ∑ c, upEntry st.1 t c * x c := by
        rw [Finset.sum_comm]
        exact Finset.sum_congr rfl fun t _ => by rw [Finset.mul_sum]
    _ = ∑ t, lowEntry st.1 i t * y t := by simp only [h1]

end lup
end vm
