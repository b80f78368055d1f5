import Verif.Lemmas.FltLup
import Verif.Props.FltMat
import Verif.Props.FltRayPlane

/-!
C113: matrices for which `lup_solve` and `invert` are exact in IEEE arithmetic, or as exact as the format permits.
-/

set_option linter.unusedSectionVars false
set_option linter.unusedSimpArgs false

namespace vm
variable {P : BinPar} {S : ℕ}

/-! ### Upper triangular matrices, up to the order of the rows -/

theorem Flt.zero_sub' {F : Fmt} (a : Flt F) : 0 - a = -a := Flt.zero_add' _

theorem zero_div_flt {d : Flt P.fmt} (hd : d.isFinite) (h0 : d.val ≠ 0) : 0 / d = 0 := by
  rw [fin_div_fin Flt.zero_finite hd h0, Flt.zero_val, zero_div]
  exact Flt.round_of_rep P.fmt.rep_zero

theorem round_self {a : Flt P.fmt} (h : a.isFinite) : (Flt.round a.val : Flt P.fmt) = a := by
  cases a with
  | fin q hq => exact Flt.round_of_rep hq
  | _ => exact h.elim

/-- The state of the decomposition of a matrix that is upper triangular up to the order of its rows. -/
structure UpperState (u : Mat (Flt P.fmt) S S) (σ : Fin S → Fin S) (k : ℕ) (st : Mat (Flt P.fmt) S S × (Fin S → Fin S)) : Prop where
  ex : ∃ τ : Equiv.Perm (Fin S), (∀ c i, st.1 c i = u c (τ i)) ∧ (∀ i : Fin S, i.val < k → τ i = i) ∧ ∀ i, σ (st.2 i) = τ i

theorem upper_step {u : Mat (Flt P.fmt) S S} (hf : ∀ c r, (u c r).isFinite) (hu : ∀ c i, c < i → u c i = 0) {σ : Fin S → Fin S} {k : Fin S}
    {st : Mat (Flt P.fmt) S S × (Fin S → Fin S)} (h : UpperState u σ k st) :
    (|(u k k).val| < lupLimit ∧ lupStep st k = none) ∨
    (lupLimit ≤ |(u k k).val| ∧ ∃ st', lupStep st k = some st' ∧ UpperState u σ (k + 1) st') := by
  obtain ⟨τ, h1, h2, h3⟩ := h.ex
  have hfin : ∀ c r, (st.1 c r).isFinite := fun c r => by rw [h1]; exact hf _ _
  have hge : ∀ i : Fin S, k ≤ i → k ≤ τ i := by
    intro i hi
    by_contra hc
    push Not at hc
    have := h2 (τ i) hc
    have := τ.injective this
    rw [this] at hc
    exact absurd hi (not_le.2 hc)
  have hcol : ∀ i, k ≤ i → τ i ≠ k → st.1 k i = 0 := by
    intro i hi hne
    rw [h1]
    exact hu _ _ (lt_of_le_of_ne (hge i hi) (Ne.symm hne))
  -- the row of the pivot
  obtain ⟨k0, hk0⟩ := τ.surjective k
  have hk0k : k ≤ k0 := by
    by_contra hc
    push Not at hc
    have := h2 k0 hc
    rw [this] at hk0
    rw [hk0] at hc
    exact lt_irrefl _ hc
  have hval : st.1 k k0 = u k k := by rw [h1, hk0]
  unfold lupStep
  simp only
  rcases lupPivot_finite hfin k with ⟨hs, hall⟩ | ⟨hs, hk, hlim, _⟩
  · left
    rw [if_pos hs]
    refine ⟨?_, rfl⟩
    rw [← hval]
    exact hall k0 hk0k
  · right
    rw [if_neg (by rw [hs]; simp)]
    set k' := (lupPivot st.1 k).2
    have hτ : τ k' = k := by
      by_contra hne
      rw [hcol k' hk hne, Flt.zero_val, abs_zero] at hlim
      exact absurd lupLimit_pos (not_lt.2 hlim)
    have hlim' : lupLimit ≤ |(u k k).val| := by
      have : st.1 k k' = u k k := by rw [h1, hτ]
      rwa [this] at hlim
    have hkk0 : (u k k).val ≠ 0 := by
      intro h0
      rw [h0, abs_zero] at hlim'
      exact absurd lupLimit_pos (not_lt.2 hlim')
    refine ⟨hlim', _, rfl, ⟨(Equiv.swap k k').trans τ, ?_, ?_, ?_⟩⟩
    · intro c i
      have hsw : ∀ c i, lupSwapRows st.1 k k' c i = u c (τ (Equiv.swap k k' i)) := by
        intro c i
        rw [lupSwapRows_apply, h1]
      show lupEliminate (lupSwapRows st.1 k k') k c i = u c (τ (Equiv.swap k k' i))
      rw [lupEliminate_apply]
      simp only [hsw]
      by_cases hi : k < i
      · rw [if_pos hi]
        have hkk : u k (τ (Equiv.swap k k' k)) = u k k := by rw [Equiv.swap_apply_left, hτ]
        have hki : u k (τ (Equiv.swap k k' i)) = 0 := by
          apply hu
          refine lt_of_le_of_ne (hge _ (swap_ge hk hi.le)) ?_
          intro e
          have e2 : k' = Equiv.swap k k' i := τ.injective (hτ.trans e)
          have e3 : Equiv.swap k k' k' = i := (congrArg (Equiv.swap k k') e2).trans (Equiv.swap_apply_self k k' i)
          rw [Equiv.swap_apply_right] at e3
          exact hi.ne e3
        rw [hkk, hki, zero_div_flt (hf k k) hkk0]
        split_ifs with hc hc
        · rw [hc, hki]
        · rw [Flt.zero_mul_fin (hf _ _), Flt.sub_zero']
        · rfl
      · rw [if_neg hi]
    · intro i hi
      show τ (Equiv.swap k k' i) = i
      rcases Nat.lt_succ_iff_lt_or_eq.1 hi with hi | hi
      · rw [swap_lt hk hi]; exact h2 i hi
      · have : i = k := Fin.ext hi
        rw [this, Equiv.swap_apply_left, hτ]
    · intro i
      show σ (Function.update (Function.update st.2 k (st.2 k')) k' (st.2 k) i) = τ (Equiv.swap k k' i)
      rw [swap_pi]
      exact h3 _


theorem upper_run {u : Mat (Flt P.fmt) S S} (hf : ∀ c r, (u c r).isFinite) (hu : ∀ c i, c < i → u c i = 0) {σ : Fin S → Fin S} :
    ∀ (n : ℕ) (st : Mat (Flt P.fmt) S S × (Fin S → Fin S)) (_ : n ≤ S), UpperState u σ (S - n) st →
    ((∃ k, |(u k k).val| < lupLimit) ∧ ((List.finRange S).drop (S - n)).foldlM lupStep st = none) ∨
    ((∀ k : Fin S, S - n ≤ k.val → lupLimit ≤ |(u k k).val|) ∧
      ∃ st', ((List.finRange S).drop (S - n)).foldlM lupStep st = some st' ∧ UpperState u σ S st')
  | 0, st, hn, h => by
    have : (List.finRange S).drop (S - 0) = [] := by
      apply List.drop_eq_nil_of_le; simp
    rw [this]
    exact Or.inr ⟨fun k hk => absurd k.isLt (by omega), st, rfl, h⟩
  | n + 1, st, hn, h => by
    have hlt : S - (n + 1) < S := by omega
    have hd : (List.finRange S).drop (S - (n + 1)) =
        ⟨S - (n + 1), hlt⟩ :: (List.finRange S).drop (S - n) := by
      rw [List.drop_eq_getElem_cons (by simpa using hlt), List.getElem_finRange]
      congr 2
      omega
    rw [hd, List.foldlM_cons]
    rcases upper_step (k := ⟨S - (n + 1), hlt⟩) hf hu h with ⟨hl, hs⟩ | ⟨hl, st', hs, h'⟩
    · rw [hs]
      exact Or.inl ⟨⟨_, hl⟩, rfl⟩
    · rw [hs]
      have e : S - (n + 1) + 1 = S - n := by omega
      simp only [e] at h'
      rcases upper_run hf hu n st' (by omega) h' with h | ⟨h, h2⟩
      · exact Or.inl h
      · refine Or.inr ⟨fun k hk => ?_, h2⟩
        by_cases hk' : S - n ≤ k.val
        · exact h k hk'
        · have : k = ⟨S - (n + 1), hlt⟩ := Fin.ext (by simp only; omega)
          rw [this]; exact hl

/-- The decomposition of a matrix that is upper triangular up to the order of its rows is that triangular matrix, without any rounding. -/
theorem upper_decomposition {u A : Mat (Flt P.fmt) S S} (hf : ∀ c r, (u c r).isFinite) (hu : ∀ c i, c < i → u c i = 0)
    (σ : Equiv.Perm (Fin S)) (hA : ∀ c r, A c r = u c (σ r)) :
    ((∃ k, |(u k k).val| < lupLimit) → lupFindDecomposition A = none) ∧
    ((∀ k, lupLimit ≤ |(u k k).val|) → lupFindDecomposition A = some (u, ⇑σ.symm)) := by
  have := upper_run hf hu (σ := σ) S (A, fun i => i) le_rfl ⟨σ, hA, fun i hi => by omega, fun i => rfl⟩
  rw [Nat.sub_self, List.drop_zero] at this
  unfold lupFindDecomposition
  rcases this with ⟨⟨k, hk⟩, h⟩ | ⟨hk, st, h, τ, h1, h2, h3⟩
  · exact ⟨fun _ => h, fun hc => absurd hk (not_lt.2 (hc k))⟩
  · refine ⟨fun ⟨k, hc⟩ => absurd hc (not_lt.2 (hk k (by omega))), fun _ => ?_⟩
    rw [h]
    congr 1
    refine Prod.ext ?_ ?_
    · funext c i
      rw [h1, h2 i i.isLt]
    · funext i
      rw [Equiv.eq_symm_apply, h3, h2 i i.isLt]

/-- A sum of terms that are zero. -/
theorem foldl_zero_terms {α : Type*} (t : α → Flt P.fmt) : ∀ (l : List α), (∀ j ∈ l, t j = 0) → l.foldl (fun sum j => sum + t j) 0 = 0
  | [], _ => rfl
  | a :: l, h => by
    rw [List.foldl_cons, h a (by simp), Flt.zero_add', foldl_zero_terms t l fun j hj => h j (by simp [hj])]

/-- A sum with one term that may be different from zero is that term. -/
theorem foldl_single_term {α : Type*} (t : α → Flt P.fmt) (i : α) : ∀ (l : List α), l.Nodup → i ∈ l → (∀ j ∈ l, j ≠ i → t j = 0) →
    l.foldl (fun sum j => sum + t j) 0 = t i
  | [], _, h, _ => by simp at h
  | a :: l, hn, hi, h => by
    rw [List.foldl_cons, Flt.zero_add']
    rw [List.nodup_cons] at hn
    by_cases ha : a = i
    · subst ha
      have gen : ∀ (l : List α) (x : Flt P.fmt), (∀ j ∈ l, t j = 0) → l.foldl (fun sum j => sum + t j) x = x := by
        intro l
        induction l with
        | nil => intro x _; rfl
        | cons b l ih =>
          intro x hl
          rw [List.foldl_cons, hl b (by simp), Flt.add_zero', ih x fun j hj => hl j (by simp [hj])]
      exact gen l _ fun j hj => h j (by simp [hj]) (by rintro rfl; exact hn.1 hj)
    · rw [h a (by simp) ha]
      exact foldl_single_term t i l hn.2 (by simpa [Ne.symm ha] using hi) fun j hj => h j (by simp [hj])

/-- Forward substitution with a triangular matrix only permutes a finite right hand side. -/
theorem upper_forward {u : Mat (Flt P.fmt) S S} (hu : ∀ c i, c < i → u c i = 0) (pi : Fin S → Fin S) (b : Vec (Flt P.fmt) S)
    (hb : ∀ i, (b i).isFinite) : lupForward u pi b = fun i => b (pi i) := by
  have : ∀ (n : ℕ) (i : Fin S), i.val < n → lupForward u pi b i = b (pi i) := by
    intro n
    induction n with
    | zero => intro i hi; omega
    | succ n ih =>
      intro i hi
      rw [lupForward_eq, foldl_zero_terms, Flt.sub_zero']
      intro j hj
      have hj : j < i := by simpa using hj
      rw [hu j i hj, ih j (by omega), Flt.zero_mul_fin (hb _)]
  funext i
  exact this S i i.isLt

theorem upper_solve {u A : Mat (Flt P.fmt) S S} (hf : ∀ c r, (u c r).isFinite) (hu : ∀ c i, c < i → u c i = 0)
    (σ : Equiv.Perm (Fin S)) (hA : ∀ c r, A c r = u c (σ r)) (hd : ∀ k, lupLimit ≤ |(u k k).val|) (b : Vec (Flt P.fmt) S)
    (hb : ∀ i, (b i).isFinite) : lupSolve A b = (true, lupBackward u fun i => b (σ.symm i)) := by
  rw [lupSolve, (upper_decomposition hf hu σ hA).2 hd]
  show (true, lupBackward u (lupForward u σ.symm b)) = _
  rw [upper_forward hu _ _ hb]

theorem axis_finite (i j : Fin S) : ((vaxis S i : Vec (Flt P.fmt) S) j).isFinite := by
  unfold vaxis
  split_ifs
  · exact Flt.one_finite
  · exact Flt.zero_finite

theorem upper_invert {u A : Mat (Flt P.fmt) S S} (hf : ∀ c r, (u c r).isFinite) (hu : ∀ c i, c < i → u c i = 0)
    (σ : Equiv.Perm (Fin S)) (hA : ∀ c r, A c r = u c (σ r)) (hd : ∀ k, lupLimit ≤ |(u k k).val|) :
    invert A = (true, fun i => lupBackward u fun j => vaxis S i (σ.symm j)) := by
  rw [invert, (upper_decomposition hf hu σ hA).2 hd]
  show (true, fun i => lupBackward u (lupForward u σ.symm (vaxis S i))) = _
  congr 1
  funext i
  rw [upper_forward hu _ _ (axis_finite _)]


/-! ### One element in each row and column -/

theorem finite_ne_zero {d : Flt P.fmt} (hl : lupLimit ≤ |d.val|) : d.val ≠ 0 := by
  intro h0
  rw [h0, abs_zero] at hl
  exact absurd lupLimit_pos (not_lt.2 hl)

theorem diag_backward {u : Mat (Flt P.fmt) S S} (hu : ∀ c i, c ≠ i → u c i = 0) (y : Vec (Flt P.fmt) S)
    (hq : ∀ i, (y i / u i i).isFinite) : lupBackward u y = fun i => y i / u i i := by
  have : ∀ (n : ℕ) (i : Fin S), S ≤ i.val + n → lupBackward u y i = y i / u i i := by
    intro n
    induction n with
    | zero => intro i hi; omega
    | succ n ih =>
      intro i hi
      rw [lupBackward_eq, foldl_zero_terms, Flt.sub_zero']
      intro j hj
      have hj : i < j := by simpa using hj
      rw [hu j i hj.ne', ih j (by omega), Flt.zero_mul_fin (hq j)]
  funext i
  exact this S i (by omega)

/-- The diagonal matrix that a matrix with one element in each row and column is up to the order of the rows. -/
def diagMat (d : Fin S → Flt P.fmt) : Mat (Flt P.fmt) S S := fun c i => if i = c then d c else 0

theorem diagMat_finite {d : Fin S → Flt P.fmt} (hd : ∀ c, (d c).isFinite) (c r : Fin S) : (diagMat d c r).isFinite := by
  unfold diagMat
  split_ifs
  · exact hd c
  · exact Flt.zero_finite

theorem diagMat_ne (d : Fin S → Flt P.fmt) (c i : Fin S) (h : c ≠ i) : diagMat d c i = 0 := if_neg (Ne.symm h)

theorem diagMat_eq (d : Fin S → Flt P.fmt) (c : Fin S) : diagMat d c c = d c := if_pos rfl

/-- A linear system whose matrix has one element `d c` in each column `c` and one in each row: every component of the solution is a single
floating point division, so it is the correctly rounded value of the exact solution. -/
theorem C113_monomial_solve (P : BinPar) {S : ℕ} (ρ : Equiv.Perm (Fin S)) (d b : Vec (Flt P.fmt) S) (A : Mat (Flt P.fmt) S S)
    (hA : ∀ c r, A c r = if r = ρ c then d c else 0) (hd : ∀ c, (d c).isFinite) (hl : ∀ c, lupLimit ≤ |(d c).val|)
    (hb : ∀ r, (b r).isFinite) (hq : ∀ c, (b (ρ c) / d c).isFinite) :
    lupSolve A b = (true, fun c => b (ρ c) / d c) ∧
    ∀ c, ((lupSolve A b).2 c).val = P.fl ((b (ρ c)).val / (d c).val) := by
  have e : lupSolve A b = (true, fun c => b (ρ c) / d c) := by
    rw [upper_solve (u := diagMat d) (diagMat_finite hd) (fun c i h => diagMat_ne d c i h.ne) ρ.symm (fun c r => by
      rw [hA, diagMat]; congr 1; rw [Equiv.symm_apply_eq]) (fun k => by rw [diagMat_eq]; exact hl k) b hb]
    rw [diag_backward (diagMat_ne d) _ (fun i => by rw [diagMat_eq]; exact hq i)]
    simp only [diagMat_eq]
    rfl
  refine ⟨e, fun c => ?_⟩
  rw [e]
  show (b (ρ c) / d c).val = _
  have := hq c
  rw [fin_div_fin (hb _) (hd c) (finite_ne_zero (hl c))] at this ⊢
  exact Flt.round_val this

/-- The inverse of such a matrix has the reciprocals, correctly rounded, at the transposed places, and zeros elsewhere. -/
theorem C113_monomial_invert (P : BinPar) {S : ℕ} (ρ : Equiv.Perm (Fin S)) (d : Vec (Flt P.fmt) S) (A : Mat (Flt P.fmt) S S)
    (hA : ∀ c r, A c r = if r = ρ c then d c else 0) (hd : ∀ c, (d c).isFinite) (hl : ∀ c, lupLimit ≤ |(d c).val|)
    (hq : ∀ c, (1 / d c).isFinite) :
    invert A = (true, fun c r => if c = ρ r then 1 / d r else 0) := by
  have hz : ∀ c, 0 / d c = 0 := fun c => zero_div_flt (hd c) (finite_ne_zero (hl c))
  have e1 : ∀ c r : Fin S, (vaxis S c : Vec (Flt P.fmt) S) (ρ r) / d r = if c = ρ r then 1 / d r else 0 := by
    intro c r
    unfold vaxis
    by_cases h : ρ r = c
    · rw [if_pos h, if_pos h.symm]
    · rw [if_neg h, if_neg (Ne.symm h), hz]
  rw [upper_invert (u := diagMat d) (diagMat_finite hd) (fun c i h => diagMat_ne d c i h.ne) ρ.symm (fun c r => by
    rw [hA, diagMat]; congr 1; rw [Equiv.symm_apply_eq]) (fun k => by rw [diagMat_eq]; exact hl k)]
  congr 1
  funext c
  rw [diag_backward (diagMat_ne d) _ (fun r => by
    rw [diagMat_eq]
    show ((vaxis S c : Vec (Flt P.fmt) S) (ρ r) / d r).isFinite
    rw [e1]
    split_ifs
    · exact hq r
    · exact Flt.zero_finite)]
  funext r
  rw [diagMat_eq]
  exact e1 c r

/-- Success is decided by the magnitude of the elements alone: an element below `1e-15` is taken for zero, however the other elements and the
right hand side are. -/
theorem C113_monomial_success (P : BinPar) {S : ℕ} (ρ : Equiv.Perm (Fin S)) (d b : Vec (Flt P.fmt) S) (A : Mat (Flt P.fmt) S S)
    (hA : ∀ c r, A c r = if r = ρ c then d c else 0) (hd : ∀ c, (d c).isFinite) :
    ((lupSolve A b).1 = true ↔ ∀ c, lupLimit ≤ |(d c).val|) ∧ ((invert A).1 = true ↔ ∀ c, lupLimit ≤ |(d c).val|) := by
  have := upper_decomposition (u := diagMat d) (A := A) (diagMat_finite hd) (fun c i h => diagMat_ne d c i h.ne) ρ.symm (fun c r => by
    rw [hA, diagMat]; congr 1; rw [Equiv.symm_apply_eq])
  simp only [diagMat_eq] at this
  by_cases h : ∀ c, lupLimit ≤ |(d c).val|
  · rw [lupSolve, invert, this.2 h]
    exact ⟨⟨fun _ => h, fun _ => rfl⟩, ⟨fun _ => h, fun _ => rfl⟩⟩
  · have h' : ∃ k, |(d k).val| < lupLimit := by push Not at h; exact h
    rw [lupSolve, invert, this.1 h']
    exact ⟨⟨fun hc => (nomatch hc), fun hc => absurd hc h⟩, ⟨fun hc => (nomatch hc), fun hc => absurd hc h⟩⟩

set_option exponentiation.threshold 2000 in
/-- The system `-4 y = b₀`, `2 x = b₁`. -/
example : let ρ : Equiv.Perm (Fin 2) := Equiv.swap 0 1
    let d : Vec (Flt binary64.fmt) 2 := ![dbl 2 0, dbl (-4) 0]
    let A : Mat (Flt binary64.fmt) 2 2 := ![![0, dbl 2 0], ![dbl (-4) 0, 0]]
    let b : Vec (Flt binary64.fmt) 2 := ![dbl 1 0, dbl 3 0]
    (∀ c r, A c r = if r = ρ c then d c else 0) ∧ (∀ c, (d c).isFinite) ∧ (∀ c, lupLimit ≤ |(d c).val|) ∧
      (∀ r, (b r).isFinite) ∧ (∀ c, (b (ρ c) / d c).isFinite) ∧ ∀ c, (1 / d c).isFinite := by
  have h2 : (dbl 2 0).val = 2 := by rw [dbl_val]; norm_num
  have h4 : (dbl (-4) 0).val = -4 := by rw [dbl_val]; norm_num
  have hl1 : lupLimit ≤ |(dbl 2 0).val| := by rw [h2]; unfold lupLimit; norm_num
  have hl2 : lupLimit ≤ |(dbl (-4) 0).val| := by rw [h4]; unfold lupLimit; norm_num
  have hq : ∀ m : ℚ, |m| ≤ 4 → (Flt.round m : Flt binary64.fmt).isFinite := by
    intro m hm
    rw [Flt.round_finite]
    have h4 : binary64.Rep 4 := ⟨4, 0, by norm_num, by norm_num [binary64], by norm_num [binary64]⟩
    rw [abs_le] at hm
    have h1 := binary64.fl_le_of_rep h4 hm.2
    have h2 := binary64.le_fl_of_rep h4.neg hm.1
    refine lt_of_le_of_lt (abs_le.2 ⟨h2, h1⟩) ?_
    norm_num [BinPar.bound, binary64]
  refine ⟨?_, ?_, ?_, ?_, ?_, ?_⟩
  · intro c r; fin_cases c <;> fin_cases r <;> rfl
  · intro c; fin_cases c <;> trivial
  · intro c; fin_cases c
    · exact hl1
    · exact hl2
  · intro r; fin_cases r <;> trivial
  · intro c; fin_cases c
    · show (dbl 3 0 / dbl 2 0).isFinite
      rw [fin_div_fin (a := dbl 3 0) (d := dbl 2 0) trivial trivial (finite_ne_zero hl1)]
      apply hq; rw [dbl_val, dbl_val]; norm_num
    · show (dbl 1 0 / dbl (-4) 0).isFinite
      rw [fin_div_fin (a := dbl 1 0) (d := dbl (-4) 0) trivial trivial (finite_ne_zero hl2)]
      apply hq; rw [dbl_val, dbl_val]; norm_num
  · intro c; fin_cases c
    · show (1 / dbl 2 0).isFinite
      rw [fin_div_fin (a := 1) (d := dbl 2 0) trivial trivial (finite_ne_zero hl1), Flt.one_val]
      apply hq; rw [dbl_val]; norm_num
    · show (1 / dbl (-4) 0).isFinite
      rw [fin_div_fin (a := 1) (d := dbl (-4) 0) trivial trivial (finite_ne_zero hl2), Flt.one_val]
      apply hq; rw [dbl_val]; norm_num

/-- A diagonal matrix with the elements 1 and `2⁻⁵⁰`, the second of which is smaller than `1e-15`. -/
example : let d : Vec (Flt binary64.fmt) 2 := ![1, dbl 1 (-50)]
    (∀ c r, diagMat d c r = if r = Equiv.refl _ c then d c else 0) ∧ (∀ c, (d c).isFinite) ∧ ¬ ∀ c, lupLimit ≤ |(d c).val| := by
  refine ⟨fun c r => rfl, ?_, fun h => ?_⟩
  · intro c; fin_cases c <;> trivial
  · have h := h 1
    have e : (dbl 1 (-50)).val = 1 / 2 ^ 50 := by rw [dbl_val]; norm_num
    have h : lupLimit ≤ |(dbl 1 (-50)).val| := h
    rw [e] at h
    unfold lupLimit at h
    norm_num [abs_of_pos] at h

theorem lupLimit_le_one : lupLimit ≤ 1 := by
  unfold lupLimit; norm_num

theorem one_div_unit {d : Flt P.fmt} (hd : d = 1 ∨ d = -1) : d.isFinite ∧ lupLimit ≤ |d.val| ∧ 1 / d = d := by
  rcases hd with rfl | rfl
  · exact ⟨Flt.one_finite, by rw [Flt.one_val, abs_one]; exact lupLimit_le_one, Flt.div_one' _⟩
  · refine ⟨Flt.neg_finite.2 Flt.one_finite, by rw [Flt.neg_val, Flt.one_val, abs_neg, abs_one]; exact lupLimit_le_one, ?_⟩
    have hf : (-(1 : Flt P.fmt)).isFinite := Flt.neg_finite.2 Flt.one_finite
    rw [fin_div_fin Flt.one_finite hf (by rw [Flt.neg_val, Flt.one_val]; norm_num), Flt.neg_val, Flt.one_val]
    have : (1 : ℚ) / -1 = (-(1 : Flt P.fmt)).val := by rw [Flt.neg_val, Flt.one_val]; norm_num
    rw [this]
    exact round_self hf

/-- The inverse of a matrix with one element `1` or `-1` in each row and column is its transpose, exactly.  Identity, mirror and quarter turn
matrices and their products are of this form. -/
theorem C113_signed_permutation (P : BinPar) {S : ℕ} (ρ : Equiv.Perm (Fin S)) (d : Vec (Flt P.fmt) S) (A : Mat (Flt P.fmt) S S)
    (hA : ∀ c r, A c r = if r = ρ c then d c else 0) (hd : ∀ c, d c = 1 ∨ d c = -1) :
    invert A = (true, fun c r => A r c) := by
  rw [C113_monomial_invert P ρ d A hA (fun c => (one_div_unit (hd c)).1) (fun c => (one_div_unit (hd c)).2.1) (fun c => by
    rw [(one_div_unit (hd c)).2.2]; exact (one_div_unit (hd c)).1)]
  congr 1
  funext c r
  rw [hA, (one_div_unit (hd r)).2.2]


/-- The quarter turn of the plane. -/
example : let d : Vec (Flt binary32.fmt) 2 := ![1, -1]
    let A : Mat (Flt binary32.fmt) 2 2 := ![![0, 1], ![-1, 0]]
    (∀ c r, A c r = if r = Equiv.swap (0 : Fin 2) 1 c then d c else 0) ∧ ∀ c, d c = 1 ∨ d c = -1 := by
  refine ⟨?_, ?_⟩
  · intro c r; fin_cases c <;> fin_cases r <;> rfl
  · intro c; fin_cases c
    · exact Or.inl rfl
    · exact Or.inr rfl

/-- `B` is the transpose of `A`, which has the element `d c` in column `c` and row `ρ c`. -/
def Opposite {T : Type*} [Zero T] (ρ : Equiv.Perm (Fin 4)) (d : Vec T 4) (A B : Mat T 4 4) : Prop :=
  ∀ c r, (A c r = if r = ρ c then d c else 0) ∧ A r c = B c r

section opposite
variable {T : Type*} [Zero T] [One T] [Neg T]

theorem opposite_x : Opposite (Equiv.swap 1 2) ![1, -1, 1, 1] (rot90XCw : Mat T 4 4) rot90XCcw := by
  intro c r; fin_cases c <;> fin_cases r <;> constructor <;>
    simp [rot90XCw, rot90XCcw, rot90YCw, rot90YCcw, rot90ZCw, rot90ZCcw, rot180X, rot180Y, rot180Z, mirrorX, mirrorY, mirrorZ, matOfRowMajor,
      Equiv.swap_apply_def]
theorem opposite_x' : Opposite (Equiv.swap 1 2) ![1, 1, -1, 1] (rot90XCcw : Mat T 4 4) rot90XCw := by
  intro c r; fin_cases c <;> fin_cases r <;> constructor <;>
    simp [rot90XCw, rot90XCcw, rot90YCw, rot90YCcw, rot90ZCw, rot90ZCcw, rot180X, rot180Y, rot180Z, mirrorX, mirrorY, mirrorZ, matOfRowMajor,
      Equiv.swap_apply_def]
theorem opposite_y : Opposite (Equiv.swap 0 2) ![1, 1, -1, 1] (rot90YCw : Mat T 4 4) rot90YCcw := by
  intro c r; fin_cases c <;> fin_cases r <;> constructor <;>
    simp [rot90XCw, rot90XCcw, rot90YCw, rot90YCcw, rot90ZCw, rot90ZCcw, rot180X, rot180Y, rot180Z, mirrorX, mirrorY, mirrorZ, matOfRowMajor,
      Equiv.swap_apply_def]
theorem opposite_y' : Opposite (Equiv.swap 0 2) ![-1, 1, 1, 1] (rot90YCcw : Mat T 4 4) rot90YCw := by
  intro c r; fin_cases c <;> fin_cases r <;> constructor <;>
    simp [rot90XCw, rot90XCcw, rot90YCw, rot90YCcw, rot90ZCw, rot90ZCcw, rot180X, rot180Y, rot180Z, mirrorX, mirrorY, mirrorZ, matOfRowMajor,
      Equiv.swap_apply_def]
theorem opposite_z : Opposite (Equiv.swap 0 1) ![-1, 1, 1, 1] (rot90ZCw : Mat T 4 4) rot90ZCcw := by
  intro c r; fin_cases c <;> fin_cases r <;> constructor <;>
    simp [rot90XCw, rot90XCcw, rot90YCw, rot90YCcw, rot90ZCw, rot90ZCcw, rot180X, rot180Y, rot180Z, mirrorX, mirrorY, mirrorZ, matOfRowMajor,
      Equiv.swap_apply_def]
theorem opposite_z' : Opposite (Equiv.swap 0 1) ![1, -1, 1, 1] (rot90ZCcw : Mat T 4 4) rot90ZCw := by
  intro c r; fin_cases c <;> fin_cases r <;> constructor <;>
    simp [rot90XCw, rot90XCcw, rot90YCw, rot90YCcw, rot90ZCw, rot90ZCcw, rot180X, rot180Y, rot180Z, mirrorX, mirrorY, mirrorZ, matOfRowMajor,
      Equiv.swap_apply_def]
theorem opposite_xx : Opposite (Equiv.refl _) ![1, -1, -1, 1] (rot180X : Mat T 4 4) rot180X := by
  intro c r; fin_cases c <;> fin_cases r <;> constructor <;>
    simp [rot90XCw, rot90XCcw, rot90YCw, rot90YCcw, rot90ZCw, rot90ZCcw, rot180X, rot180Y, rot180Z, mirrorX, mirrorY, mirrorZ, matOfRowMajor,
      Equiv.swap_apply_def]
theorem opposite_yy : Opposite (Equiv.refl _) ![-1, 1, -1, 1] (rot180Y : Mat T 4 4) rot180Y := by
  intro c r; fin_cases c <;> fin_cases r <;> constructor <;>
    simp [rot90XCw, rot90XCcw, rot90YCw, rot90YCcw, rot90ZCw, rot90ZCcw, rot180X, rot180Y, rot180Z, mirrorX, mirrorY, mirrorZ, matOfRowMajor,
      Equiv.swap_apply_def]
theorem opposite_zz : Opposite (Equiv.refl _) ![-1, -1, 1, 1] (rot180Z : Mat T 4 4) rot180Z := by
  intro c r; fin_cases c <;> fin_cases r <;> constructor <;>
    simp [rot90XCw, rot90XCcw, rot90YCw, rot90YCcw, rot90ZCw, rot90ZCcw, rot180X, rot180Y, rot180Z, mirrorX, mirrorY, mirrorZ, matOfRowMajor,
      Equiv.swap_apply_def]
theorem opposite_mx : Opposite (Equiv.refl _) ![-1, 1, 1, 1] (mirrorX : Mat T 4 4) mirrorX := by
  intro c r; fin_cases c <;> fin_cases r <;> constructor <;>
    simp [rot90XCw, rot90XCcw, rot90YCw, rot90YCcw, rot90ZCw, rot90ZCcw, rot180X, rot180Y, rot180Z, mirrorX, mirrorY, mirrorZ, matOfRowMajor,
      Equiv.swap_apply_def]
theorem opposite_my : Opposite (Equiv.refl _) ![1, -1, 1, 1] (mirrorY : Mat T 4 4) mirrorY := by
  intro c r; fin_cases c <;> fin_cases r <;> constructor <;>
    simp [rot90XCw, rot90XCcw, rot90YCw, rot90YCcw, rot90ZCw, rot90ZCcw, rot180X, rot180Y, rot180Z, mirrorX, mirrorY, mirrorZ, matOfRowMajor,
      Equiv.swap_apply_def]
theorem opposite_mz : Opposite (Equiv.refl _) ![1, 1, -1, 1] (mirrorZ : Mat T 4 4) mirrorZ := by
  intro c r; fin_cases c <;> fin_cases r <;> constructor <;>
    simp [rot90XCw, rot90XCcw, rot90YCw, rot90YCcw, rot90ZCw, rot90ZCcw, rot180X, rot180Y, rot180Z, mirrorX, mirrorY, mirrorZ, matOfRowMajor,
      Equiv.swap_apply_def]

end opposite

/-- The inverses of the predefined rotation and mirror matrices are the opposite rotations and the mirror matrices themselves. -/
theorem C113_constants (P : BinPar) :
    invert (rot90XCw : Mat (Flt P.fmt) 4 4) = (true, rot90XCcw) ∧ invert (rot90XCcw : Mat (Flt P.fmt) 4 4) = (true, rot90XCw) ∧
    invert (rot90YCw : Mat (Flt P.fmt) 4 4) = (true, rot90YCcw) ∧ invert (rot90YCcw : Mat (Flt P.fmt) 4 4) = (true, rot90YCw) ∧
    invert (rot90ZCw : Mat (Flt P.fmt) 4 4) = (true, rot90ZCcw) ∧ invert (rot90ZCcw : Mat (Flt P.fmt) 4 4) = (true, rot90ZCw) ∧
    invert (rot180X : Mat (Flt P.fmt) 4 4) = (true, rot180X) ∧ invert (rot180Y : Mat (Flt P.fmt) 4 4) = (true, rot180Y) ∧
    invert (rot180Z : Mat (Flt P.fmt) 4 4) = (true, rot180Z) ∧ invert (mirrorX : Mat (Flt P.fmt) 4 4) = (true, mirrorX) ∧
    invert (mirrorY : Mat (Flt P.fmt) 4 4) = (true, mirrorY) ∧ invert (mirrorZ : Mat (Flt P.fmt) 4 4) = (true, mirrorZ) := by
  have key : ∀ (ρ : Equiv.Perm (Fin 4)) (a b c d : Flt P.fmt) (A B : Mat (Flt P.fmt) 4 4), Opposite ρ ![a, b, c, d] A B →
      (a = 1 ∨ a = -1) → (b = 1 ∨ b = -1) → (c = 1 ∨ c = -1) → (d = 1 ∨ d = -1) → invert A = (true, B) := by
    intro ρ a b c d A B h ha hb hc hd
    rw [C113_signed_permutation P ρ ![a, b, c, d] A (fun c r => (h c r).1) (fun i => by
      fin_cases i
      · exact ha
      · exact hb
      · exact hc
      · exact hd)]
    congr 1
    funext c r
    exact (h c r).2
  have p : (1 : Flt P.fmt) = 1 ∨ (1 : Flt P.fmt) = -1 := Or.inl rfl
  have m : -(1 : Flt P.fmt) = 1 ∨ -(1 : Flt P.fmt) = -1 := Or.inr rfl
  exact ⟨key _ _ _ _ _ _ _ opposite_x p m p p, key _ _ _ _ _ _ _ opposite_x' p p m p, key _ _ _ _ _ _ _ opposite_y p p m p,
    key _ _ _ _ _ _ _ opposite_y' m p p p, key _ _ _ _ _ _ _ opposite_z m p p p, key _ _ _ _ _ _ _ opposite_z' p m p p,
    key _ _ _ _ _ _ _ opposite_xx p m m p, key _ _ _ _ _ _ _ opposite_yy m p m p, key _ _ _ _ _ _ _ opposite_zz m m p p,
    key _ _ _ _ _ _ _ opposite_mx m p p p, key _ _ _ _ _ _ _ opposite_my p m p p, key _ _ _ _ _ _ _ opposite_mz p p m p⟩

/-- The inverse of a scaling matrix is the scaling by the correctly rounded reciprocals. -/
theorem C113_scaling (P : BinPar) {S : ℕ} (f : Vec (Flt P.fmt) S) (hf : ∀ i, (f i).isFinite) (hl : ∀ i, lupLimit ≤ |(f i).val|)
    (hq : ∀ i, (1 / f i).isFinite) : invert (scalingMatrix f) = (true, scalingMatrix fun i => 1 / f i) := by
  have h1 := one_div_unit (P := P) (d := 1) (Or.inl rfl)
  have hsc : ∀ (g : Vec (Flt P.fmt) S) (c r : Fin (S + 1)), scalingMatrix g c r = if r = c then (Fin.snoc g 1 : Fin (S + 1) → Flt P.fmt) c else 0 := by
    intro g c r
    induction c using Fin.lastCases with
    | last =>
      rw [scaling_last, Fin.snoc_last]
      congr 1
      exact propext eq_comm
    | cast c =>
      rw [Fin.snoc_castSucc]
      induction r using Fin.lastCases with
      | last => rw [scaling_cast_last, if_neg (Fin.castSucc_lt_last c).ne']
      | cast r =>
        rw [scaling_cast]
        congr 1
        exact propext ⟨fun h => by rw [h], fun h => (Fin.castSucc_injective _ h).symm⟩
  rw [C113_monomial_invert P (Equiv.refl _) (Fin.snoc f 1) (scalingMatrix f) (hsc f)]
  · congr 1
    funext c r
    rw [hsc]
    show (if c = r then _ else _) = _
    by_cases h : c = r
    · subst h
      rw [if_pos rfl, if_pos rfl]
      induction c using Fin.lastCases with
      | last => rw [Fin.snoc_last, Fin.snoc_last]; exact h1.2.2
      | cast c => rw [Fin.snoc_castSucc, Fin.snoc_castSucc]
    · rw [if_neg h, if_neg (Ne.symm h)]
  all_goals
    intro c
    induction c using Fin.lastCases with
    | last => rw [Fin.snoc_last]; first | exact h1.1 | exact h1.2.1 | (rw [h1.2.2]; exact h1.1)
    | cast c => rw [Fin.snoc_castSucc]; first | exact hf c | exact hl c | exact hq c

/-- The hypotheses hold for the factors 2, -4 and 1. -/
example : let f : Vec (Flt binary64.fmt) 3 := ![dbl 2 0, dbl (-4) 0, 1]
    (∀ i, (f i).isFinite) ∧ (∀ i, lupLimit ≤ |(f i).val|) ∧ ∀ i, (1 / f i).isFinite := by
  have h2 : (dbl 2 0).val = 2 := by rw [dbl_val]; norm_num
  have h4 : (dbl (-4) 0).val = -4 := by rw [dbl_val]; norm_num
  have hl1 : lupLimit ≤ |(dbl 2 0).val| := by rw [h2]; unfold lupLimit; norm_num
  have hl2 : lupLimit ≤ |(dbl (-4) 0).val| := by rw [h4]; unfold lupLimit; norm_num
  refine ⟨?_, ?_, ?_⟩
  · intro i; fin_cases i <;> trivial
  · intro i; fin_cases i
    · exact hl1
    · exact hl2
    · exact (one_div_unit (P := binary64) (d := 1) (Or.inl rfl)).2.1
  · intro i; fin_cases i
    · show (1 / dbl 2 0).isFinite
      rw [fin_div_fin (a := 1) (d := dbl 2 0) trivial trivial (finite_ne_zero hl1), Flt.one_val, h2]
      rw [show (1 : ℚ) / 2 = (dbl 1 (-1)).val by rw [dbl_val]; norm_num, round_self (a := dbl 1 (-1)) trivial]
      trivial
    · show (1 / dbl (-4) 0).isFinite
      rw [fin_div_fin (a := 1) (d := dbl (-4) 0) trivial trivial (finite_ne_zero hl2), Flt.one_val, h4]
      rw [show (1 : ℚ) / -4 = (dbl (-1) (-2)).val by rw [dbl_val]; norm_num, round_self (a := dbl (-1) (-2)) trivial]
      trivial
    · show (1 / (1 : Flt binary64.fmt)).isFinite
      rw [Flt.div_one']
      exact Flt.one_finite

/-! ### Translations -/

theorem translation_finite {S : ℕ} {v : Vec (Flt P.fmt) S} (hv : ∀ i, (v i).isFinite) (c r : Fin (S + 1)) :
    (translationMatrix v c r).isFinite := by
  induction c using Fin.lastCases with
  | last =>
    induction r using Fin.lastCases with
    | last => rw [translation_corner]; exact Flt.one_finite
    | cast r => rw [translation_last]; exact hv r
  | cast c =>
    rw [translation_cast]
    split_ifs
    · exact Flt.one_finite
    · exact Flt.zero_finite

theorem translation_upper {S : ℕ} (v : Vec (Flt P.fmt) S) (c r : Fin (S + 1)) (h : c < r) : translationMatrix v c r = 0 := by
  induction c using Fin.lastCases with
  | last => exact absurd h (not_lt.2 (Fin.le_last r))
  | cast c => rw [translation_cast, if_neg h.ne]

theorem translation_diag {S : ℕ} (v : Vec (Flt P.fmt) S) (c : Fin (S + 1)) : translationMatrix v c c = 1 := by
  induction c using Fin.lastCases with
  | last => exact translation_corner v
  | cast c => rw [translation_cast, if_pos rfl]

theorem translation_backward {S : ℕ} (v : Vec (Flt P.fmt) S) (y : Vec (Flt P.fmt) (S + 1))
    (hy : ∀ i : Fin S, (y i.castSucc - v i * y (Fin.last S)).isFinite) :
    lupBackward (translationMatrix v) y (Fin.last S) = y (Fin.last S) ∧
    ∀ i : Fin S, lupBackward (translationMatrix v) y i.castSucc = y i.castSucc - v i * y (Fin.last S) := by
  have hlast : lupBackward (translationMatrix v) y (Fin.last S) = y (Fin.last S) := by
    rw [lupBackward_eq, foldl_zero_terms, Flt.sub_zero', translation_corner, Flt.div_one']
    intro j hj
    have hj : Fin.last S < j := by simpa using hj
    exact absurd hj (not_lt.2 (Fin.le_last j))
  refine ⟨hlast, ?_⟩
  have : ∀ (n : ℕ) (i : Fin S), S ≤ i.val + n → lupBackward (translationMatrix v) y i.castSucc = y i.castSucc - v i * y (Fin.last S) := by
    intro n
    induction n with
    | zero => intro i hi; omega
    | succ n ih =>
      intro i hi
      rw [lupBackward_eq, foldl_single_term (fun j => translationMatrix v j i.castSucc * lupBackward (translationMatrix v) y j) (Fin.last S)
        _ ((List.nodup_finRange _).filter _) (by simp [Fin.castSucc_lt_last]), translation_diag, Flt.div_one', translation_last, hlast]
      intro j hj hjl
      have hj : i.castSucc < j := by simpa using hj
      induction j using Fin.lastCases with
      | last => exact absurd rfl hjl
      | cast j =>
        have hij : i.val < j.val := hj
        rw [translation_cast, if_neg hj.ne', ih j (by omega), Flt.zero_mul_fin (hy j)]
  exact fun i => this S i (by omega)

/-- The inverse of a translation is the opposite translation, exactly, whatever the finite offsets are. -/
theorem C113_translation (P : BinPar) {S : ℕ} (v : Vec (Flt P.fmt) S) (hv : ∀ i, (v i).isFinite) :
    invert (translationMatrix v) = (true, translationMatrix (-v)) := by
  rw [upper_invert (A := translationMatrix v) (translation_finite hv) (translation_upper v) (Equiv.refl _) (fun _ _ => rfl) (fun k => by
    rw [translation_diag, Flt.one_val, abs_one]; exact lupLimit_le_one)]
  congr 1
  funext c
  show lupBackward (translationMatrix v) (vaxis (S + 1) c) = _
  induction c using Fin.lastCases with
  | last =>
    have e : ∀ i : Fin S, (vaxis (S + 1) (Fin.last S) : Vec (Flt P.fmt) (S + 1)) i.castSucc - v i * (vaxis (S + 1) (Fin.last S) : Vec (Flt P.fmt) (S + 1)) (Fin.last S) = -v i := by
      intro i
      unfold vaxis
      rw [if_neg (Fin.castSucc_lt_last i).ne, if_pos rfl, Flt.mul_one', Flt.zero_sub']
    have h := translation_backward v (vaxis (S + 1) (Fin.last S)) (fun i => by rw [e]; exact Flt.neg_finite.2 (hv i))
    funext r
    induction r using Fin.lastCases with
    | last => rw [h.1, translation_corner, vaxis, if_pos rfl]
    | cast r => rw [h.2, e, translation_last]; rfl
  | cast c =>
    have e : ∀ i : Fin S, (vaxis (S + 1) c.castSucc : Vec (Flt P.fmt) (S + 1)) i.castSucc - v i * (vaxis (S + 1) c.castSucc : Vec (Flt P.fmt) (S + 1)) (Fin.last S) = if c.castSucc = i.castSucc then 1 else 0 := by
      intro i
      have : (vaxis (S + 1) c.castSucc : Vec (Flt P.fmt) (S + 1)) (Fin.last S) = 0 := if_neg (Fin.castSucc_lt_last c).ne'
      rw [this, Flt.mul_zero_fin (hv i), Flt.sub_zero', vaxis]
      congr 1
      exact propext eq_comm
    have h := translation_backward v (vaxis (S + 1) c.castSucc) (fun i => by
      rw [e]
      split_ifs
      · exact Flt.one_finite
      · exact Flt.zero_finite)
    funext r
    induction r using Fin.lastCases with
    | last => rw [h.1, translation_cast, if_neg (Fin.castSucc_lt_last c).ne, vaxis, if_neg (Fin.castSucc_lt_last c).ne']
    | cast r => rw [h.2, e, translation_cast]


example : ∃ v : Vec (Flt binary64.fmt) 3, (∀ i, (v i).isFinite) ∧ v 0 ≠ 0 :=
  ⟨![dbl 3 1000, dbl (-1) (-1074), 1], by intro i; fin_cases i <;> trivial, fun h => by
    have h : (dbl 3 1000).val = 0 := congrArg Flt.val h
    rw [dbl_val] at h
    exact absurd h (by positivity)⟩

/-! ### A quotient that overflows -/

theorem finite_small {p : Flt P.fmt} (h : p.isFinite) (hl : lupLimit ≤ |p.val|) :
    Cmp.lt 0 (vm.abs p) = true ∧ LupSmall.small (vm.abs p) = false := by
  obtain ⟨h1, h2⟩ := abs_flt h
  refine ⟨?_, ?_⟩
  · rw [Flt.lt_val Flt.zero_finite h1, Flt.zero_val, h2]
    exact decide_eq_true (lupLimit_pos.trans_le hl)
  · rw [small_flt h1, h2]
    exact decide_eq_false (not_lt.2 hl)

theorem round_over {q : ℚ} (h : P.bound ≤ q) : (Flt.round q : Flt P.fmt) = Flt.pinf := by
  refine Flt.round_pinf (P.le_fl_of_rep ⟨1, P.p + P.qmax, ?_, ?_, ?_⟩ h)
  · unfold BinPar.bound; push_cast; ring
  · have := P.hp
    rw [abs_one]; exact one_lt_pow₀ (by norm_num) (by omega)
  · have := P.hmin; have := P.hmax; omega

set_option exponentiation.threshold 2000 in
/-- If one component of the solution is out of range, then components with exact solutions become NaN: the system `x = 1`, `2⁻⁴⁰ y = 2¹⁰⁰⁰`
is reported as solved by `(NaN, +∞)`. -/
theorem C113_overflow_fails : ∃ (A : Mat (Flt binary64.fmt) 2 2) (b : Vec (Flt binary64.fmt) 2), (∀ c r, (A c r).isFinite) ∧ (∀ r, (b r).isFinite) ∧
    A 0 0 = 1 ∧ A 1 0 = 0 ∧ A 0 1 = 0 ∧ b 0 = 1 ∧ lupSolve A b = (true, ![Flt.nan, Flt.pinf]) := by
  refine ⟨![![1, 0], ![0, dbl 1 (-40)]], ![1, dbl 1 1000], ?_, ?_, rfl, rfl, rfl, rfl, ?_⟩
  · intro c r
    fin_cases c <;> fin_cases r <;> trivial
  · intro r
    fin_cases r <;> trivial
  have hd : (dbl 1 (-40)).val = 1 / 2 ^ 40 := by rw [dbl_val]; norm_num
  have hdf : (dbl 1 (-40)).isFinite := trivial
  have hbf : (dbl 1 1000).isFinite := trivial
  have hu : (dbl 1 (-40)) = dbl 1 (-40) - 0 * 0 := by rw [Flt.zero_mul_fin Flt.zero_finite, Flt.sub_zero']
  have hq : dbl 1 1000 / dbl 1 (-40) = Flt.pinf := by
    rw [fin_div_fin hbf hdf (by rw [hd]; norm_num), hd, dbl_val]
    apply round_over
    norm_num [BinPar.bound, binary64]
  have hz : (0 : Flt binary64.fmt) = 0 / 1 := (Flt.div_one' _).symm
  have h1 := finite_small (P := binary64) (p := 1) Flt.one_finite (by rw [Flt.one_val, abs_one]; exact lupLimit_le_one)
  have h2 := finite_small hdf (by rw [hd]; unfold lupLimit; norm_num [abs_of_pos])
  rw [lupSolve_two _ _ 0 (dbl 1 (-40)) 1 Flt.pinf h1.1 (by
    show Cmp.lt (vm.abs 1) (vm.abs 0) = false
    have a1 := abs_flt (P := binary64) (a := 1) Flt.one_finite
    have a0 := abs_flt (P := binary64) (a := 0) Flt.zero_finite
    rw [Flt.lt_val a1.1 a0.1, a1.2, a0.2, Flt.one_val, Flt.zero_val]
    exact decide_eq_false (by norm_num)) h1.2 hz hu h2.1 h2.2 (Flt.sub_zero' _).symm (by
    show Flt.pinf = (dbl 1 1000 - (0 + 0 * 1) - 0) / dbl 1 (-40)
    rw [Flt.zero_mul_fin Flt.one_finite, Flt.zero_add', Flt.sub_zero', Flt.sub_zero', hq])]
  refine Prod.ext rfl (funext fun i => ?_)
  fin_cases i
  · show (1 - (0 + 0 * Flt.pinf)) / 1 = (Flt.nan : Flt binary64.fmt)
    have : (0 : Flt binary64.fmt) * Flt.pinf = Flt.nan := by
      show Flt.infTimes 0 = _
      simp [Flt.infTimes]
    rw [this]
    rfl
  · rfl

end vm
