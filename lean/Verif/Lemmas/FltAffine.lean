import Verif.Props.FltLup

/-!
# LUP decomposition of affine matrices in IEEE arithmetic

A matrix whose last row is `0 … 0 1` is decomposed exactly as its linear part (the block without the last row and the last column) is:
the last row is never a pivot row, no multiple of another row is subtracted from it, and the last column does not influence the others.
-/

set_option linter.unusedSectionVars false
set_option linter.unusedSimpArgs false

namespace vm
namespace FltAff

open BinPar

variable {P : BinPar} {n : ℕ}

/-- The block without the last row and the last column. -/
def block {T : Type*} (a : Mat T (n + 1) (n + 1)) : Mat T n n := fun c r => a c.castSucc r.castSucc

/-- The last row is `0 … 0 1`. -/
def LastRow (a : Mat (Flt P.fmt) (n + 1) (n + 1)) : Prop := ∀ c, a c (Fin.last n) = if c = Fin.last n then 1 else 0

/-- A state of the decomposition of a matrix and a state of the decomposition of its linear part. -/
structure Rel (st : Mat (Flt P.fmt) (n + 1) (n + 1) × (Fin (n + 1) → Fin (n + 1))) (st' : Mat (Flt P.fmt) n n × (Fin n → Fin n)) : Prop where
  block : ∀ c r, st.1 c.castSucc r.castSucc = st'.1 c r
  last : LastRow st.1
  pi : ∀ r, st.2 r.castSucc = (st'.2 r).castSucc
  piLast : st.2 (Fin.last n) = Fin.last n

theorem filter_le (k : Fin n) : (List.finRange (n + 1)).filter (k.castSucc ≤ ·) =
    ((List.finRange n).filter (k ≤ ·)).map Fin.castSucc ++ [Fin.last n] := by
  rw [List.finRange_succ_last, List.filter_append, List.filter_map]
  congr 1
  simp [Fin.le_last]

theorem filter_gt (k : Fin n) : (List.finRange (n + 1)).filter (k.castSucc < ·) =
    ((List.finRange n).filter (k < ·)).map Fin.castSucc ++ [Fin.last n] := by
  rw [List.finRange_succ_last, List.filter_append, List.filter_map]
  congr 1
  simp [Fin.castSucc_lt_last]

theorem filter_lt (k : Fin n) : (List.finRange (n + 1)).filter (· < k.castSucc) =
    ((List.finRange n).filter (· < k)).map Fin.castSucc := by
  rw [List.finRange_succ_last, List.filter_append, List.filter_map]
  have : ([Fin.last n].filter (· < k.castSucc)) = [] := by
    simp [Fin.le_last]
  rw [this, List.append_nil]
  congr 1

/-- The pivot search of the matrix finds what the search of the linear part finds. -/
theorem pivot {a : Mat (Flt P.fmt) (n + 1) (n + 1)} {a' : Mat (Flt P.fmt) n n} (hb : ∀ c r, a c.castSucc r.castSucc = a' c r)
    (hl : LastRow a) (hf : ∀ c r, (a' c r).isFinite) (k : Fin n) :
    lupPivot a k.castSucc = ((lupPivot a' k).1, (lupPivot a' k).2.castSucc) := by
  have hz : a k.castSucc (Fin.last n) = 0 := by rw [hl, if_neg (Fin.castSucc_lt_last k).ne]
  have gen : ∀ (l : List (Fin n)) (acc : Flt P.fmt × Fin (n + 1)) (acc' : Flt P.fmt × Fin n), acc = (acc'.1, acc'.2.castSucc) →
      (l.map Fin.castSucc).foldl (fun acc i => if Cmp.lt acc.1 (vm.abs (a k.castSucc i)) then (vm.abs (a k.castSucc i), i) else acc) acc =
      ((l.foldl (fun acc i => if Cmp.lt acc.1 (vm.abs (a' k i)) then (vm.abs (a' k i), i) else acc) acc').1,
       (l.foldl (fun acc i => if Cmp.lt acc.1 (vm.abs (a' k i)) then (vm.abs (a' k i), i) else acc) acc').2.castSucc) := by
    intro l
    induction l with
    | nil => intro acc acc' h; exact h
    | cons i l ih =>
      intro acc acc' h
      rw [List.map_cons, List.foldl_cons, List.foldl_cons]
      apply ih
      rw [h, hb]
      by_cases hc : Cmp.lt acc'.1 (vm.abs (a' k i)) = true
      · rw [if_pos hc, if_pos hc]
      · rw [if_neg hc, if_neg hc]
  obtain ⟨h1, h2, h3⟩ := lupPivot_flt hf k
  have h4 := (lupPivot_spec (vals a') k).1 k le_rfl
  have hge : 0 ≤ (lupPivot a' k).1.val := by rw [h2]; exact le_trans (abs_nonneg _) h4
  have e : lupPivot a k.castSucc = ([Fin.last n]).foldl
      (fun acc i => if Cmp.lt acc.1 (vm.abs (a k.castSucc i)) then (vm.abs (a k.castSucc i), i) else acc)
      ((lupPivot a' k).1, (lupPivot a' k).2.castSucc) := by
    show ((List.finRange (n + 1)).filter (k.castSucc ≤ ·)).foldl _ _ = _
    rw [filter_le, List.foldl_append]
    congr 1
    exact gen _ _ (0, ⟨0, k.pos⟩) rfl
  rw [e, List.foldl_cons, List.foldl_nil, hz]
  have a0 := abs_flt (P := P) (a := 0) Flt.zero_finite
  rw [if_neg]
  rw [Flt.lt_val h1 a0.1, a0.2, Flt.zero_val, abs_zero]
  simpa using hge

theorem swap_castSucc (i j r : Fin n) : Equiv.swap i.castSucc j.castSucc r.castSucc = (Equiv.swap i j r).castSucc := by
  have inj := Fin.castSucc_injective n
  by_cases h1 : r = i
  · rw [h1, Equiv.swap_apply_left, Equiv.swap_apply_left]
  · by_cases h2 : r = j
    · rw [h2, Equiv.swap_apply_right, Equiv.swap_apply_right]
    · rw [Equiv.swap_apply_of_ne_of_ne h1 h2, Equiv.swap_apply_of_ne_of_ne (fun h => h1 (inj h)) (fun h => h2 (inj h))]

theorem swap_last (i j : Fin n) : Equiv.swap i.castSucc j.castSucc (Fin.last n) = Fin.last n :=
  Equiv.swap_apply_of_ne_of_ne (Fin.castSucc_lt_last i).ne' (Fin.castSucc_lt_last j).ne'

/-- One step of the decomposition. -/
theorem step {st : Mat (Flt P.fmt) (n + 1) (n + 1) × (Fin (n + 1) → Fin (n + 1))} {st' : Mat (Flt P.fmt) n n × (Fin n → Fin n)}
    (h : Rel st st') (hf : ∀ c r, (st.1 c r).isFinite) (k : Fin n) :
    (lupStep st k.castSucc = none ∧ lupStep st' k = none) ∨
    ∃ s s', lupStep st k.castSucc = some s ∧ lupStep st' k = some s' ∧ Rel s s' := by
  have hf' : ∀ c r, (st'.1 c r).isFinite := fun c r => by rw [← h.block]; exact hf _ _
  have hp := pivot h.block h.last hf' k
  unfold lupStep
  simp only [hp]
  rcases lupPivot_finite hf' k with ⟨h1, _⟩ | ⟨h1, h2, h3, _⟩
  · left; rw [if_pos h1, if_pos h1]; exact ⟨rfl, rfl⟩
  right
  rw [if_neg (by rw [h1]; simp), if_neg (by rw [h1]; simp)]
  refine ⟨_, _, rfl, rfl, ?_⟩
  set k' := (lupPivot st'.1 k).2
  have ne : ∀ c : Fin n, c.castSucc ≠ Fin.last n := fun c => (Fin.castSucc_lt_last c).ne
  constructor
  · intro c r
    simp only [lupEliminate_apply, lupSwapRows_apply, swap_castSucc, h.block, Fin.castSucc_lt_castSucc_iff, Fin.castSucc_inj]
  · intro c
    have hd : (st'.1 k k').val ≠ 0 := by
      intro h0; rw [h0, abs_zero] at h3; exact absurd h3 (not_le.2 lupLimit_pos)
    have hq : (0 : Flt P.fmt) / st'.1 k k' = 0 := zero_div_flt (hf' _ _) hd
    simp only [lupEliminate_apply, lupSwapRows_apply, swap_last, Equiv.swap_apply_left, Fin.castSucc_lt_last, if_true, h.block]
    rw [h.last k.castSucc, if_neg (ne k), hq]
    by_cases hc : c = k.castSucc
    · rw [if_pos hc, hc, if_neg (ne k)]
    · rw [if_neg hc]
      split
      · rw [h.last c, Flt.zero_mul_fin (hf _ _), Flt.sub_zero']
      · exact h.last c
  · intro r
    simp only [Function.update_apply, h.pi, Fin.castSucc_inj]
    split
    · rfl
    · split
      · rfl
      · rfl
  · show Function.update _ _ _ _ = _
    rw [Function.update_of_ne (ne k').symm, Function.update_of_ne (ne k).symm]
    exact h.piLast

/-- The last step changes nothing. -/
theorem step_last {st : Mat (Flt P.fmt) (n + 1) (n + 1) × (Fin (n + 1) → Fin (n + 1))} (h : LastRow st.1) :
    lupStep st (Fin.last n) = some st := by
  have hfl : (List.finRange (n + 1)).filter (Fin.last n ≤ ·) = [Fin.last n] := by
    rw [List.finRange_succ_last, List.filter_append, List.filter_map]
    have : (List.finRange n).filter ((fun x => decide (Fin.last n ≤ x)) ∘ Fin.castSucc) = [] := by
      apply List.filter_eq_nil_iff.2
      intro i _
      simp [Fin.castSucc_lt_last]
    rw [this]; simp
  have h1 : st.1 (Fin.last n) (Fin.last n) = 1 := by rw [h, if_pos rfl]
  have a1 := abs_flt (P := P) (a := 1) Flt.one_finite
  have hp : lupPivot st.1 (Fin.last n) = (vm.abs 1, Fin.last n) := by
    unfold lupPivot
    rw [hfl, List.foldl_cons, List.foldl_nil, h1, if_pos]
    rw [Flt.lt_val Flt.zero_finite a1.1, a1.2, Flt.zero_val, Flt.one_val]
    simp
  have hs : LupSmall.small (vm.abs (1 : Flt P.fmt)) = false := by
    have := small_flt (P := P) a1.1
    rw [this, a1.2, Flt.one_val, abs_one]
    exact decide_eq_false (not_lt.2 lupLimit_le_one)
  unfold lupStep
  simp only [hp]
  rw [if_neg (by rw [hs]; simp)]
  congr 1
  refine Prod.ext ?_ ?_
  · funext c r
    show lupEliminate _ _ c r = _
    rw [lupEliminate_apply, if_neg (not_lt.2 (Fin.le_last r)), lupSwapRows_apply, Equiv.swap_self]
    rfl
  · show Function.update (Function.update _ _ _) _ _ = _
    rw [Function.update_idem, Function.update_eq_self]

/-- The decomposition of the matrix and the decomposition of its linear part. -/
theorem decomposition {M : ℚ} {A : Mat (Flt P.fmt) (n + 1) (n + 1)} (hA : BoundedMat M A) (hl : LastRow A) :
    (lupFindDecomposition A = none ∧ lupFindDecomposition (block A) = none) ∨
    ∃ s s', lupFindDecomposition A = some s ∧ lupFindDecomposition (block A) = some s' ∧ Rel s s' ∧ FltLup M A (n + 1) s := by
  have run : ∀ (m : ℕ) (st : Mat (Flt P.fmt) (n + 1) (n + 1) × (Fin (n + 1) → Fin (n + 1))) (st' : Mat (Flt P.fmt) n n × (Fin n → Fin n)),
      m ≤ n → FltLup M A (n - m) st → Rel st st' →
      (((((List.finRange n).drop (n - m)).map Fin.castSucc).foldlM lupStep st = none ∧ ((List.finRange n).drop (n - m)).foldlM lupStep st' = none) ∨
      ∃ s s', (((List.finRange n).drop (n - m)).map Fin.castSucc).foldlM lupStep st = some s ∧
        ((List.finRange n).drop (n - m)).foldlM lupStep st' = some s' ∧ Rel s s') := by
    intro m
    induction m with
    | zero =>
      intro st st' _ _ h
      right
      have : (List.finRange n).drop (n - 0) = [] := by apply List.drop_eq_nil_of_le; simp
      rw [this]
      exact ⟨st, st', rfl, rfl, h⟩
    | succ m ih =>
      intro st st' hm hL h
      have hlt : n - (m + 1) < n := by omega
      have hd : (List.finRange n).drop (n - (m + 1)) = ⟨n - (m + 1), hlt⟩ :: (List.finRange n).drop (n - m) := by
        rw [List.drop_eq_getElem_cons (by simpa using hlt), List.getElem_finRange]
        congr 2
        omega
      rw [hd, List.map_cons, List.foldlM_cons, List.foldlM_cons]
      set k : Fin n := ⟨n - (m + 1), hlt⟩
      have hst := fltLup_step hA.rep hA.room (k := k.castSucc) hL
      rcases step h hL.fin k with ⟨e1, e2⟩ | ⟨s, s', e1, e2, hr⟩
      · left; rw [e1, e2]; exact ⟨rfl, rfl⟩
      · rw [e1] at hst
        have hk : (k.castSucc : Fin (n + 1)).val + 1 = n - m := by show n - (m + 1) + 1 = n - m; omega
        rw [hk] at hst
        rw [e1, e2]
        exact ih s s' (by omega) hst hr
  have r := run n (A, fun i => i) (block A, fun i => i) le_rfl (by rw [Nat.sub_self]; exact fltLup_init hA.finite hA.le)
    ⟨fun _ _ => rfl, hl, fun _ => rfl, rfl⟩
  rw [Nat.sub_self, List.drop_zero] at r
  have e : lupFindDecomposition A = (((List.finRange n).map Fin.castSucc).foldlM lupStep (A, fun i => i)).bind (fun s => lupStep s (Fin.last n)) := by
    unfold lupFindDecomposition
    rw [List.finRange_succ_last, List.foldlM_append]
    show Option.bind _ _ = _
    congr 1
    funext s
    rw [List.foldlM_cons]
    show Option.bind _ _ = _
    cases lupStep s (Fin.last n) <;> rfl
  rcases r with ⟨r1, r2⟩ | ⟨s, s', r1, r2, hr⟩
  · left; rw [e, r1]; exact ⟨rfl, r2⟩
  · right
    have es : lupFindDecomposition A = some s := by rw [e, r1]; exact step_last hr.last
    refine ⟨s, s', es, r2, hr, ?_⟩
    rcases hA.cases with ⟨t, ht, hL⟩ | ⟨ht, _⟩
    · rw [es] at ht; cases ht; exact hL
    · rw [es] at ht; cases ht

/-! ### The substitutions -/

theorem forward {s : Mat (Flt P.fmt) (n + 1) (n + 1) × (Fin (n + 1) → Fin (n + 1))} {s' : Mat (Flt P.fmt) n n × (Fin n → Fin n)}
    (h : Rel s s') (b : Vec (Flt P.fmt) (n + 1)) (i : Fin n) :
    lupForward s.1 s.2 b i.castSucc = lupForward s'.1 s'.2 (fun r => b r.castSucc) i := by
  induction hi : i.val using Nat.strong_induction_on generalizing i with
  | _ m ih =>
    rw [lupForward_eq, lupForward_eq, h.pi, filter_lt, List.foldl_map]
    congr 1
    apply foldl_filter_congr (· < i) (f := fun j => s.1 j.castSucc i.castSucc * lupForward s.1 s.2 b j.castSucc)
      (f' := fun j => s'.1 j i * lupForward s'.1 s'.2 (fun r => b r.castSucc) j)
    intro j hj
    rw [h.block, ih j.val (by rw [← hi]; exact hj) j rfl]

theorem forward_last {s : Mat (Flt P.fmt) (n + 1) (n + 1) × (Fin (n + 1) → Fin (n + 1))} {s' : Mat (Flt P.fmt) n n × (Fin n → Fin n)}
    (h : Rel s s') (b : Vec (Flt P.fmt) (n + 1)) (hy : ∀ i : Fin n, (lupForward s.1 s.2 b i.castSucc).isFinite) :
    lupForward s.1 s.2 b (Fin.last n) = b (Fin.last n) := by
  rw [lupForward_eq, h.piLast, foldl_zero_terms (fun j => s.1 j (Fin.last n) * lupForward s.1 s.2 b j), Flt.sub_zero']
  intro j hj
  have hlt : j < Fin.last n := by simpa using hj
  rw [h.last, if_neg hlt.ne]
  obtain ⟨j', rfl⟩ := Fin.exists_castSucc_eq.2 hlt.ne
  exact Flt.zero_mul_fin (hy j')

theorem backward_last {s : Mat (Flt P.fmt) (n + 1) (n + 1) × (Fin (n + 1) → Fin (n + 1))} {s' : Mat (Flt P.fmt) n n × (Fin n → Fin n)}
    (h : Rel s s') (y : Vec (Flt P.fmt) (n + 1)) : lupBackward s.1 y (Fin.last n) = y (Fin.last n) := by
  rw [lupBackward_eq]
  have hfl : (List.finRange (n + 1)).filter (Fin.last n < ·) = [] := by
    apply List.filter_eq_nil_iff.2
    intro i _
    simp [Fin.le_last]
  rw [hfl, List.foldl_nil, Flt.sub_zero', h.last, if_pos rfl, Flt.div_one']

theorem backward {s : Mat (Flt P.fmt) (n + 1) (n + 1) × (Fin (n + 1) → Fin (n + 1))} {s' : Mat (Flt P.fmt) n n × (Fin n → Fin n)}
    (h : Rel s s') (hf : ∀ c r, (s.1 c r).isFinite) (y : Vec (Flt P.fmt) (n + 1)) (h0 : y (Fin.last n) = 0) (i : Fin n) :
    lupBackward s.1 y i.castSucc = lupBackward s'.1 (fun r => y r.castSucc) i := by
  induction hi : n - i.val using Nat.strong_induction_on generalizing i with
  | _ m ih =>
    rw [lupBackward_eq, lupBackward_eq, h.block, filter_gt, List.foldl_append, List.foldl_map, List.foldl_cons, List.foldl_nil,
      backward_last h, h0, Flt.mul_zero_fin (hf _ _), Flt.add_zero']
    congr 2
    apply foldl_filter_congr (i < ·) (f := fun j => s.1 j.castSucc i.castSucc * lupBackward s.1 y j.castSucc)
      (f' := fun j => s'.1 j i * lupBackward s'.1 (fun r => y r.castSucc) j)
    intro j hj
    rw [h.block, ih (n - j.val) (by have : i.val < j.val := hj; omega) j rfl]

end FltAff
end vm
