import Verif.Props.FltLup
import Verif.Model.BBox
import Verif.Model.Geom

/-!
# C122: NaN in products, determinants, linear systems, boxes and planes

All statements are for every IEEE format, every size and all values of the other components (infinities included).
-/

set_option linter.unusedSectionVars false
set_option linter.unusedSimpArgs false

namespace vm
open BinPar

variable {P : BinPar} {S : ℕ}

namespace Nan

theorem nan_add (a : Flt P.fmt) : (Flt.nan : Flt P.fmt) + a = Flt.nan := by cases a <;> rfl
theorem add_nan (a : Flt P.fmt) : a + (Flt.nan : Flt P.fmt) = Flt.nan := by cases a <;> rfl
theorem mul_nan (a : Flt P.fmt) : a * (Flt.nan : Flt P.fmt) = Flt.nan := by cases a <;> rfl
theorem div_nan (a : Flt P.fmt) : a / (Flt.nan : Flt P.fmt) = Flt.nan := by cases a <;> rfl
theorem lt_nan (a : Flt P.fmt) : Cmp.lt a (Flt.nan : Flt P.fmt) = false := by cases a <;> rfl
theorem nan_lt (a : Flt P.fmt) : Cmp.lt (Flt.nan : Flt P.fmt) a = false := by cases a <;> rfl

/-- A sum with a NaN term is NaN. -/
theorem sum_nan {n : ℕ} (f : Fin n → Flt P.fmt) (i : Fin n) (h : f i = Flt.nan) (z : Flt P.fmt) :
    Fin.foldl n (fun acc i => acc + f i) z = Flt.nan := by
  rw [Fin.foldl_eq_finRange_foldl]
  have hm : i ∈ List.finRange n := List.mem_finRange i
  generalize List.finRange n = l at hm
  induction l generalizing z with
  | nil => simp at hm
  | cons j l ih =>
    rw [List.foldl_cons]
    rcases List.mem_cons.1 hm with rfl | hm
    · rw [h, add_nan]
      clear ih hm
      induction l with
      | nil => rfl
      | cons k l ih => rw [List.foldl_cons, nan_add, ih]
    · exact ih _ hm

end Nan
open Nan

/-- C122: the dot product of vectors is NaN if a component of either vector is NaN, even if the other factor is zero. -/
theorem C122_dot (a b : Vec (Flt P.fmt) S) (i : Fin S) (h : a i = Flt.nan ∨ b i = Flt.nan) : dot a b = Flt.nan :=
  sum_nan (fun i => a i * b i) i (by rcases h with h | h <;> simp only [h, nan_mul', mul_nan]) 0

/-- C122: the squared length of a vector and the squared distance of two points are NaN if a component is NaN. -/
theorem C122_distance (a b : Vec (Flt P.fmt) S) (i : Fin S) (h : a i = Flt.nan ∨ b i = Flt.nan) :
    (a i = Flt.nan → squaredLength a = Flt.nan) ∧ squaredDistance a b = Flt.nan := by
  refine ⟨fun h => C122_dot a a i (Or.inl h), C122_dot _ _ i (Or.inl ?_)⟩
  show a i - b i = Flt.nan
  rcases h with h | h <;> simp only [h, nan_sub', sub_nan']

/-- C122: a NaN in row `r` of the first matrix makes row `r` of the product NaN, a NaN in column `c` of the second one makes column `c` of the
product NaN. -/
theorem C122_product {R N C : ℕ} (a : Mat (Flt P.fmt) R N) (b : Mat (Flt P.fmt) N C) (c : Fin C) (r : Fin R) (i : Fin N)
    (h : a i r = Flt.nan ∨ b c i = Flt.nan) : mmul a b c r = Flt.nan :=
  sum_nan (fun i => a i r * b c i) i (by rcases h with h | h <;> simp only [h, nan_mul', mul_nan]) 0

/-- C122: the image of a point under a matrix has only NaN coordinates if a coordinate of the point or an entry of the last row of the matrix
is NaN, and coordinate `r` is NaN if an entry of row `r` is NaN. -/
theorem C122_point (m : Mat (Flt P.fmt) (S + 1) (S + 1)) (p : Vec (Flt P.fmt) S) (r : Fin S)
    (h : (∃ i, p i = Flt.nan) ∨ (∃ c, m c (Fin.last S) = Flt.nan) ∨ (∃ c, m c r.castSucc = Flt.nan)) : mmulPoint m p r = Flt.nan := by
  show mmulVec m (toHomogeneous p) r.castSucc / mmulVec m (toHomogeneous p) (Fin.last S) = Flt.nan
  have key : ∀ (r : Fin (S + 1)) c, m c r = Flt.nan ∨ toHomogeneous p c = Flt.nan → mmulVec m (toHomogeneous p) r = Flt.nan := by
    intro r c h
    exact sum_nan (fun c => m c r * toHomogeneous p c) c (by rcases h with h | h <;> simp only [h, nan_mul', mul_nan]) 0
  rcases h with ⟨i, h⟩ | ⟨c, h⟩ | ⟨c, h⟩
  · rw [key r.castSucc i.castSucc (Or.inr (by rw [toHomogeneous, Fin.snoc_castSucc]; exact h)), nan_div']
  · rw [key (Fin.last S) c (Or.inl h), div_nan]
  · rw [key r.castSucc c (Or.inl h), nan_div']

/-- C122: the determinant of a matrix of any size is NaN if an entry is NaN, even if the matrix has a zero row or column. -/
theorem C122_determinant : ∀ (n : ℕ) (m : Mat (Flt P.fmt) (n + 1) (n + 1)) (c r : Fin (n + 1)), m c r = Flt.nan →
    computeDeterminant n m = Flt.nan
  | 0, m, c, r, h => by
    have hc : c = 0 := Fin.ext (by omega)
    have hr : r = 0 := Fin.ext (by omega)
    subst hc hr
    exact h
  | 1, m, c, r, h => by
    show m 0 0 * m 1 1 - m 1 0 * m 0 1 = _
    fin_cases c <;> fin_cases r <;> simp only [Fin.zero_eta, Fin.mk_one] at h <;>
      simp only [h, nan_mul', mul_nan, nan_sub', sub_nan']
  | 2, m, c, r, h => by
    show m 0 0 * m 1 1 * m 2 2 + m 1 0 * m 2 1 * m 0 2 + m 2 0 * m 0 1 * m 1 2
      - m 2 0 * m 1 1 * m 0 2 - m 1 0 * m 0 1 * m 2 2 - m 0 0 * m 2 1 * m 1 2 = _
    fin_cases c <;> fin_cases r <;> simp only [Fin.zero_eta, Fin.mk_one, Fin.reduceFinMk] at h <;>
      simp only [h, nan_mul', mul_nan, nan_sub', sub_nan', nan_add, add_nan]
  | n + 3, m, c, r, h => by
    have ht : ∃ i : Fin (n + 4), (if i.val % 2 = 0 then (1 : Flt P.fmt) else -1) * m 0 i * computeDeterminant (n + 2) (extractMinor m i 0) = Flt.nan := by
      rcases Fin.eq_zero_or_eq_succ c with rfl | ⟨c', rfl⟩
      · exact ⟨r, by rw [h, mul_nan, nan_mul']⟩
      · obtain ⟨i, hi⟩ : ∃ i : Fin (n + 4), i ≠ r := exists_ne r
        obtain ⟨r', hr'⟩ := Fin.exists_succAbove_eq hi.symm
        refine ⟨i, ?_⟩
        rw [C122_determinant (n + 2) (extractMinor m i 0) c' r' (by rw [extractMinor, hr', Fin.zero_succAbove]; exact h), mul_nan]
    obtain ⟨i, hi⟩ := ht
    exact sum_nan (fun r => (if r.val % 2 = 0 then (1 : Flt P.fmt) else -1) * m 0 r * computeDeterminant (n + 2) (extractMinor m r 0)) i hi 0

/-- The permutation of the decomposition is a permutation. -/
theorem lup_perm (A : Mat (Flt P.fmt) S S) {d : Mat (Flt P.fmt) S S × (Fin S → Fin S)} (h : lupFindDecomposition A = some d) :
    Function.Bijective d.2 := by
  have gen : ∀ (l : List (Fin S)) (st d : Mat (Flt P.fmt) S S × (Fin S → Fin S)), Function.Bijective st.2 →
      l.foldlM lupStep st = some d → Function.Bijective d.2 := by
    intro l
    induction l with
    | nil => intro st d hb h; cases h; exact hb
    | cons k l ih =>
      intro st d hb h
      rw [List.foldlM_cons] at h
      unfold lupStep at h
      by_cases hs : LupSmall.small (lupPivot st.1 k).1 = true
      · simp [hs] at h
      · simp only [hs] at h
        refine ih _ d ?_ h
        show Function.Bijective (Function.update (Function.update st.2 k (st.2 (lupPivot st.1 k).2)) (lupPivot st.1 k).2 (st.2 k))
        rw [swap_pi]
        exact hb.comp (Equiv.bijective _)
  exact gen _ _ _ Function.bijective_id h

/-- C122: if `lup_solve` reports success and the solution has no NaN, then neither the matrix nor the right hand side has a NaN. -/
theorem C122_solve (A : Mat (Flt P.fmt) S S) (b x : Vec (Flt P.fmt) S) (h : lupSolve A b = (true, x)) (hx : ∀ i, x i ≠ Flt.nan) :
    (∀ c r, A c r ≠ Flt.nan) ∧ ∀ r, b r ≠ Flt.nan := by
  refine ⟨fun c r hn => ?_, fun r hn => ?_⟩
  · have := (C112_nan P A c r hn b).1
    rw [h] at this
    exact Bool.noConfusion this
  · rcases hd : lupFindDecomposition A with _ | d
    · rw [lupSolve, hd] at h
      exact Bool.noConfusion (Prod.mk.inj h).1
    · rw [lupSolve, hd] at h
      have e := (Prod.mk.inj h).2
      obtain ⟨i, hi⟩ := (lup_perm A hd).2 r
      have hy : lupForward d.1 d.2 b i = Flt.nan := by rw [lupForward_eq, hi, hn, nan_sub']
      refine hx i ?_
      rw [← e]
      show lupBackward d.1 (lupForward d.1 d.2 b) i = _
      rw [lupBackward_eq, hy, nan_sub', nan_div']

/-! ### Planes -/

/-- C122: a point with a NaN coordinate is reported to be inside every plane, and every point is inside a plane with a NaN normal or distance. -/
theorem C122_point_status (p : Plane (Flt P.fmt) S) (q : Vec (Flt P.fmt) S) (eps : Flt P.fmt)
    (h : (∃ i, q i = Flt.nan) ∨ (∃ i, p.normal i = Flt.nan) ∨ p.distance = Flt.nan) : p.pointStatus q eps = .inside := by
  have hd : p.pointDistance q = Flt.nan := by
    show dot q p.normal - p.distance = _
    rcases h with ⟨i, h⟩ | ⟨i, h⟩ | h
    · rw [C122_dot _ _ i (Or.inl h), nan_sub']
    · rw [C122_dot _ _ i (Or.inr h), nan_sub']
    · rw [h, sub_nan']
  unfold Plane.pointStatus
  simp only [hd, lt_nan, nan_lt]
  rfl

/-! ### Boxes -/

/-- C122: a NaN coordinate of a point counts as inside: replacing it by any number between the bounds does not change whether the point is
contained. -/
theorem C122_contains (b : BBox (Flt P.fmt) S) (p : Vec (Flt P.fmt) S) (i : Fin S) (h : p i = Flt.nan) (x : Flt P.fmt)
    (h1 : Cmp.le (b.min i) x = true) (h2 : Cmp.le x (b.max i) = true) : b.contains p = b.contains (Function.update p i x) := by
  have hle : ∀ {a b : Flt P.fmt}, Cmp.le a b = true → Cmp.lt b a = false := by
    intro a b hab
    rw [Bool.eq_false_iff]
    intro hlt
    obtain ⟨k1, k2, e1, e2, hk⟩ := (IEEE.le_iff a b).1 hab
    obtain ⟨l1, l2, f1, f2, hl⟩ := (IEEE.lt_iff b a).1 hlt
    rw [e1] at f2; rw [e2] at f1
    cases f1; cases f2
    exact absurd hl (not_lt.2 hk)
  unfold BBox.contains
  refine List.all_congr rfl fun j => ?_
  by_cases hj : j = i
  · subst hj
    rw [Function.update_self, h, nan_lt, lt_nan, hle h1, hle h2]
  · rw [Function.update_of_ne hj]

/-- C122: a point of NaNs is contained in every box and has the relative position `within` on every axis. -/
theorem C122_contains_nan (b : BBox (Flt P.fmt) S) : b.contains (fun _ => Flt.nan) = true ∧ ∀ i, b.relativePosition (fun _ => Flt.nan) i = .within := by
  refine ⟨?_, fun i => ?_⟩
  · unfold BBox.contains
    rw [List.all_eq_true]
    intro i _
    rw [nan_lt, lt_nan]; rfl
  · unfold BBox.relativePosition
    simp only [nan_lt, lt_nan]
    rfl

theorem mergePoint_nan (b : BBox (Flt P.fmt) S) (p : Vec (Flt P.fmt) S) (i : Fin S) :
    (p i = Flt.nan → (b.mergePoint p).min i = Flt.nan ∧ (b.mergePoint p).max i = Flt.nan) ∧
    (b.min i = Flt.nan → (b.mergePoint p).min i = p i) ∧ (b.max i = Flt.nan → (b.mergePoint p).max i = p i) := by
  have e1 : (b.mergePoint p).min i = if Cmp.lt (b.min i) (p i) then b.min i else p i := rfl
  have e2 : (b.mergePoint p).max i = if Cmp.lt (p i) (b.max i) then b.max i else p i := rfl
  refine ⟨fun h => ?_, fun h => ?_, fun h => ?_⟩
  · rw [e1, e2, h, lt_nan, nan_lt]; exact ⟨rfl, rfl⟩
  · rw [e1, h, nan_lt]; rfl
  · rw [e2, h, lt_nan]; rfl

/-- Merging acts on every axis separately. -/
theorem merge_axis (i : Fin S) (l : List (Vec (Flt P.fmt) S)) (a b : BBox (Flt P.fmt) S) (h1 : a.min i = b.min i) (h2 : a.max i = b.max i) :
    (l.foldl BBox.mergePoint a).min i = (l.foldl BBox.mergePoint b).min i ∧ (l.foldl BBox.mergePoint a).max i = (l.foldl BBox.mergePoint b).max i := by
  induction l generalizing a b with
  | nil => exact ⟨h1, h2⟩
  | cons p l ih =>
    refine ih _ _ ?_ ?_
    · show (if Cmp.lt (a.min i) (p i) then a.min i else p i) = if Cmp.lt (b.min i) (p i) then b.min i else p i
      rw [h1]
    · show (if Cmp.lt (p i) (a.max i) then a.max i else p i) = if Cmp.lt (p i) (b.max i) then b.max i else p i
      rw [h2]

/-- C122: the box of a list of points forgets all points before a point with a NaN coordinate: the bounds for this coordinate are the bounds of
the points after it, or NaN if there are none. -/
theorem C122_merge_all (first : Vec (Flt P.fmt) S) (pre post : List (Vec (Flt P.fmt) S)) (p : Vec (Flt P.fmt) S) (i : Fin S) (h : p i = Flt.nan) :
    ((BBox.mergeAll first (pre ++ [p])).min i = Flt.nan ∧ (BBox.mergeAll first (pre ++ [p])).max i = Flt.nan) ∧
    ∀ q, (BBox.mergeAll first (pre ++ p :: q :: post)).min i = (BBox.mergeAll q post).min i ∧
      (BBox.mergeAll first (pre ++ p :: q :: post)).max i = (BBox.mergeAll q post).max i := by
  unfold BBox.mergeAll
  refine ⟨?_, fun q => ?_⟩
  · rw [List.foldl_append, List.foldl_cons, List.foldl_nil]
    exact (mergePoint_nan _ _ _).1 h
  · rw [List.foldl_append, List.foldl_cons, List.foldl_cons]
    have h1 := (mergePoint_nan (pre.foldl BBox.mergePoint ⟨first, first⟩) p i).1 h
    exact merge_axis i post _ _ ((mergePoint_nan _ q i).2.1 h1.1) ((mergePoint_nan _ q i).2.2 h1.2)

theorem lt_asymm_flt {a b : Flt P.fmt} (h : Cmp.lt a b = true) : Cmp.lt b a = false := by
  rw [Bool.eq_false_iff]
  intro h'
  obtain ⟨k1, k2, e1, e2, hk⟩ := (IEEE.lt_iff a b).1 h
  obtain ⟨l1, l2, f1, f2, hl⟩ := (IEEE.lt_iff b a).1 h'
  rw [e1] at f2; rw [e2] at f1
  cases f1; cases f2
  exact absurd hl (lt_asymm hk)

theorem lt_irrefl_flt (a : Flt P.fmt) : Cmp.lt a a = false := by
  by_contra h
  have h' : Cmp.lt a a = true := by simpa using h
  have := lt_asymm_flt h'
  rw [h'] at this; exact Bool.noConfusion this

theorem isValid_mergePoint {b : BBox (Flt P.fmt) S} (h : b.isValid = true) (p : Vec (Flt P.fmt) S) : (b.mergePoint p).isValid = true := by
  unfold BBox.isValid BBox.isValidPair at *
  rw [List.all_eq_true] at *
  intro i hi
  have hb := h i hi
  rw [Bool.not_eq_true'] at *
  show Cmp.lt (if Cmp.lt (p i) (b.max i) then b.max i else p i) (if Cmp.lt (b.min i) (p i) then b.min i else p i) = false
  split_ifs with h1 h2 h2
  · exact hb
  · exact lt_asymm_flt h1
  · exact lt_asymm_flt h2
  · exact lt_irrefl_flt _

/-- C122: a builder behaves in the same way, also for points with NaN coordinates. -/
theorem C122_builder (first : Vec (Flt P.fmt) (S + 1)) (rest : List (Vec (Flt P.fmt) (S + 1))) :
    BBox.builderRun ((first :: rest).map BBox.Add'.point) = BBox.mergeAll first rest := by
  have gen : ∀ (l : List (Vec (Flt P.fmt) (S + 1))) (b : BBox (Flt P.fmt) (S + 1)), b.isValid = true →
      (l.map BBox.Add'.point).foldl BBox.builderAdd b = l.foldl BBox.mergePoint b := by
    intro l
    induction l with
    | nil => intro b _; rfl
    | cons p l ih =>
      intro b hb
      have e : BBox.builderAdd b (.point p) = b.mergePoint p := by
        unfold BBox.builderAdd BBox.builderInitialized
        rw [hb]; rfl
      rw [List.map_cons, List.foldl_cons, List.foldl_cons, e]
      exact ih _ (isValid_mergePoint hb p)
  have h0 : (BBox.builderInit : BBox (Flt P.fmt) (S + 1)).isValid = false := by
    rw [Bool.eq_false_iff]
    intro h
    have := (List.all_eq_true.1 h) 0 (List.mem_finRange _)
    have l : Cmp.lt (0 : Flt P.fmt) 1 = true := by
      rw [Flt.lt_val Flt.zero_finite (show (1 : Flt P.fmt).isFinite from trivial)]
      exact decide_eq_true (show (0 : ℚ) < 1 by norm_num)
    change (!Cmp.lt (0 : Flt P.fmt) 1) = true at this
    rw [l] at this
    exact Bool.noConfusion this
  have h1 : BBox.builderAdd (BBox.builderInit : BBox (Flt P.fmt) (S + 1)) (.point first) = ⟨first, first⟩ := by
    unfold BBox.builderAdd BBox.builderInitialized
    rw [h0]; rfl
  have hv : (⟨first, first⟩ : BBox (Flt P.fmt) (S + 1)).isValid = true := by
    unfold BBox.isValid BBox.isValidPair
    rw [List.all_eq_true]
    intro i _
    rw [lt_irrefl_flt]; rfl
  unfold BBox.builderRun BBox.mergeAll
  rw [List.map_cons, List.foldl_cons, h1]
  exact gen rest _ hv

/-- C122: so the box of points does not contain all points without NaN: the box of 0, NaN and 1 is the valid box from 1 to 1 and does not
contain 0. -/
theorem C122_merge_all_fails : ∃ a n b : Vec (Flt P.fmt) 1, n 0 = Flt.nan ∧ a 0 = 0 ∧ b 0 = 1 ∧
    BBox.mergeAll a [n, b] = ⟨b, b⟩ ∧ BBox.builderRun [.point a, .point n, .point b] = ⟨b, b⟩ ∧ (⟨b, b⟩ : BBox (Flt P.fmt) 1).isValid = true ∧
    (⟨b, b⟩ : BBox (Flt P.fmt) 1).contains a = false := by
  have e : BBox.mergeAll (fun _ => 0 : Vec (Flt P.fmt) 1) [fun _ => Flt.nan, fun _ => 1] = ⟨fun _ => 1, fun _ => 1⟩ := by
    obtain ⟨_, h⟩ := C122_merge_all (fun _ => 0 : Vec (Flt P.fmt) 1) [] [] (fun _ => Flt.nan) 0 rfl
    have h := h fun _ => 1
    have e : ∀ {b c : BBox (Flt P.fmt) 1}, b.min 0 = c.min 0 → b.max 0 = c.max 0 → b = c := by
      rintro ⟨b1, b2⟩ ⟨c1, c2⟩ h1 h2
      have e1 : b1 = c1 := funext fun i => by rw [Fin.fin_one_eq_zero i]; exact h1
      have e2 : b2 = c2 := funext fun i => by rw [Fin.fin_one_eq_zero i]; exact h2
      rw [e1, e2]
    exact e h.1 h.2
  refine ⟨fun _ => 0, fun _ => Flt.nan, fun _ => 1, rfl, rfl, rfl, e, ?_, ?_, ?_⟩
  · rw [← e, ← C122_builder]; rfl
  · unfold BBox.isValid BBox.isValidPair
    rw [List.all_eq_true]
    intro i _
    rw [lt_irrefl_flt]; rfl
  · have l : Cmp.lt (0 : Flt P.fmt) 1 = true := by
      rw [Flt.lt_val Flt.zero_finite (show (1 : Flt P.fmt).isFinite from trivial)]
      exact decide_eq_true (show (0 : ℚ) < 1 by norm_num)
    rw [Bool.eq_false_iff]
    intro h
    have := (List.all_eq_true.1 h) 0 (List.mem_finRange _)
    rw [l] at this
    exact Bool.noConfusion this

/-! The hypotheses are met by vectors, matrices and boxes whose other components are numbers. -/

example : ∃ a b : Vec (Flt binary32.fmt) 3, (a 1 = Flt.nan ∨ b 1 = Flt.nan) ∧ a 0 = 1 ∧ b 1 = 0 :=
  ⟨![1, Flt.nan, 0], ![1, 0, 1], Or.inl rfl, rfl, rfl⟩

example : ∃ m : Mat (Flt binary32.fmt) 4 4, m 3 2 = Flt.nan ∧ ∀ r, m 0 r = 0 :=
  ⟨fun c r => if c = 3 ∧ r = 2 then Flt.nan else 0, rfl, fun _ => rfl⟩

/-- The system `x + 3 y = 0`, `y = 1`. -/
example : ∃ (A : Mat (Flt binary64.fmt) 2 2) (b x : Vec (Flt binary64.fmt) 2), lupSolve A b = (true, x) ∧ (∀ i, x i ≠ Flt.nan) := by
  obtain ⟨_, x, h1, h2⟩ := shear_solved
  refine ⟨_, _, x, h1, fun i h => ?_⟩
  have := h2 i
  rw [h] at this
  exact this

example : ∃ (b : BBox (Flt binary32.fmt) 2) (p : Vec (Flt binary32.fmt) 2), p 0 = Flt.nan ∧ p 1 = 1 ∧ Cmp.le (b.min 0) (1 : Flt binary32.fmt) = true ∧
    Cmp.le (1 : Flt binary32.fmt) (b.max 0) = true :=
  ⟨⟨fun _ => 1, fun _ => 1⟩, ![Flt.nan, 1], rfl, rfl, (IEEE.le_iff _ _).2 ⟨_, _, rfl, rfl, le_rfl⟩,
    (IEEE.le_iff _ _).2 ⟨_, _, rfl, rfl, le_rfl⟩⟩

end vm
