import Verif.Model.Sort
import Verif.Lemmas.Scalar
import Mathlib.Logic.Equiv.Basic
import Mathlib.Order.Interval.Finset.Nat
import Mathlib.Tactic.NormNum

/-! # C16, C17: the constexpr quicksort and the k-th largest component -/

universe u

set_option linter.unusedSectionVars false
set_option linter.unusedSimpArgs false

namespace vm
section C16
variable {α : Type u} (cmp : α → α → Bool)

theorem iterSwap_perm (a : ℕ → α) (i j : ℕ) : iterSwap a i j = a ∘ Equiv.swap i j := by
  funext k
  simp only [iterSwap, Function.comp, Equiv.swap_apply_def]
  split_ifs <;> rfl

/-- The loop permutes the memory between `left + 1` and the end of its range. -/
theorem partLoop_perm (left n i mid : ℕ) (a : ℕ → α) (hm : left ≤ mid) (hmi : mid < i) :
    ∃ σ : Equiv.Perm ℕ, (partLoop cmp left n i mid a).2 = a ∘ σ ∧
      ∀ k, (k ≤ left ∨ i + n ≤ k) → σ k = k := by
  induction n generalizing i mid a with
  | zero => exact ⟨Equiv.refl _, rfl, fun _ _ => rfl⟩
  | succ n ih =>
    unfold partLoop
    split_ifs
    · obtain ⟨σ, h1, h2⟩ := ih (i + 1) (mid + 1) (iterSwap a (mid + 1) i) (by omega) (by omega)
      refine ⟨σ.trans (Equiv.swap (mid + 1) i), ?_, ?_⟩
      · rw [h1, iterSwap_perm]; rfl
      · intro k hk
        simp only [Equiv.trans_apply]
        rw [h2 k (by omega), Equiv.swap_apply_of_ne_of_ne (by omega) (by omega)]
    · obtain ⟨σ, h1, h2⟩ := ih (i + 1) mid a (by omega) (by omega)
      exact ⟨σ, h1, fun k hk => h2 k (by omega)⟩

theorem partLoop_spec (left n i mid : ℕ) (a : ℕ → α) (hm : left ≤ mid) (hmi : mid < i)
    (h1 : ∀ k, left < k → k ≤ mid → cmp (a k) (a left) = true)
    (h2 : ∀ k, mid < k → k < i → cmp (a k) (a left) = false) :
    let p := partLoop cmp left n i mid a
    p.2 left = a left ∧
    (∀ k, left < k → k ≤ p.1 → cmp (p.2 k) (a left) = true) ∧
    (∀ k, p.1 < k → k < i + n → cmp (p.2 k) (a left) = false) := by
  induction n generalizing i mid a with
  | zero => exact ⟨rfl, h1, h2⟩
  | succ n ih =>
    unfold partLoop
    split_ifs with hc
    · have hl : iterSwap a (mid + 1) i left = a left := by
        simp only [iterSwap]; rw [if_neg (by omega), if_neg (by omega)]
      have := ih (i + 1) (mid + 1) (iterSwap a (mid + 1) i) (by omega) (by omega) ?_ ?_
      · simp only [hl] at this
        obtain ⟨g1, g2, g3⟩ := this
        exact ⟨g1, g2, fun k hk hk' => g3 k hk (by omega)⟩
      · intro k hk hk'
        rw [hl]
        simp only [iterSwap]
        split_ifs with e1 e2
        · exact hc
        · exact h1 (mid + 1) (by omega) (by omega)
        · exact h1 k hk (by omega)
      · intro k hk hk'
        rw [hl]
        simp only [iterSwap]
        rw [if_neg (by omega)]
        split_ifs with e2
        · exact h2 (mid + 1) (by omega) (by omega)
        · exact h2 k (by omega) (by omega)
    · have := ih (i + 1) mid a hm (by omega) h1 ?_
      · obtain ⟨g1, g2, g3⟩ := this
        exact ⟨g1, g2, fun k hk hk' => g3 k hk (by omega)⟩
      · intro k hk hk'
        by_cases e : k = i
        · rw [e]; simpa using hc
        · exact h2 k hk (by omega)

theorem sort_eq {left right : ℕ} {a : ℕ → α} (h : left < right) :
    sort cmp left right a =
      sort cmp ((partLoop cmp left (right - (left + 1)) (left + 1) left a).1 + 1) right
        (sort cmp left (partLoop cmp left (right - (left + 1)) (left + 1) left a).1
          (iterSwap (partLoop cmp left (right - (left + 1)) (left + 1) left a).2 left
            (partLoop cmp left (right - (left + 1)) (left + 1) left a).1)) := by
  rw [sort, dif_pos h]

/-- For every comparator, even an inconsistent one, `sort` only permutes the contents of the range and
leaves the memory outside of the range unchanged. -/
theorem C16_sort_permutes (left right : ℕ) (a : ℕ → α) :
    ∃ σ : Equiv.Perm ℕ, sort cmp left right a = a ∘ σ ∧
      (∀ k, (k < left ∨ right ≤ k) → σ k = k) := by
  induction hn : right - left using Nat.strong_induction_on generalizing left right a with
  | _ n ih =>
  unfold sort
  split_ifs with h
  · simp only
    obtain ⟨m1, m2⟩ := partLoop_mid cmp left (right - (left + 1)) (left + 1) left a
    obtain ⟨σ, s1, s2⟩ := partLoop_perm cmp left (right - (left + 1)) (left + 1) left a le_rfl (by omega)
    generalize partLoop cmp left (right - (left + 1)) (left + 1) left a = p at *
    obtain ⟨τ, t1, t2⟩ := ih (p.1 - left) (by omega) left p.1 (iterSwap p.2 left p.1) rfl
    obtain ⟨ρ, r1, r2⟩ := ih (right - (p.1 + 1)) (by omega) (p.1 + 1) right
      (sort cmp left p.1 (iterSwap p.2 left p.1)) rfl
    refine ⟨((ρ.trans τ).trans (Equiv.swap left p.1)).trans σ, ?_, ?_⟩
    · rw [r1, t1, iterSwap_perm, s1]; rfl
    · intro k hk
      simp only [Equiv.trans_apply]
      rw [r2 k (by omega), t2 k (by omega), Equiv.swap_apply_of_ne_of_ne (by omega) (by omega),
        s2 k (by omega)]
  · exact ⟨Equiv.refl _, rfl, fun _ _ => rfl⟩

theorem perm_range {σ : Equiv.Perm ℕ} {left right : ℕ}
    (h : ∀ k, (k < left ∨ right ≤ k) → σ k = k) {k : ℕ} (h1 : left ≤ k) (h2 : k < right) :
    left ≤ σ k ∧ σ k < right := by
  constructor
  · by_contra hc
    have := h (σ k) (Or.inl (by omega))
    have := σ.injective this
    omega
  · by_contra hc
    have := h (σ k) (Or.inr (by omega))
    have := σ.injective this
    omega

/-- If the comparator is a strict weak order on the values in the range (`P` holds for all of them and the
comparator is asymmetric and has transitive "not less than" on `P`) then the range is sorted
afterwards: no element is less than an earlier one. -/
theorem C16_sort_sorts (P : α → Prop)
    (asymm : ∀ x y, P x → P y → cmp x y = true → cmp y x = false)
    (negtrans : ∀ x y z, P x → P y → P z → cmp x y = false → cmp y z = false → cmp x z = false)
    (left right : ℕ) (a : ℕ → α) (hP : ∀ k, left ≤ k → k < right → P (a k)) :
    ∀ i j, left ≤ i → i < j → j < right →
      cmp (sort cmp left right a j) (sort cmp left right a i) = false := by
  have irrefl : ∀ x, P x → cmp x x = false := fun x hx => by
    by_contra h
    have h' : cmp x x = true := by simpa using h
    have := asymm x x hx hx h'
    rw [h'] at this; cases this
  induction hn : right - left using Nat.strong_induction_on generalizing left right a with
  | _ n ih =>
  intro i j hi hij hj
  rw [sort_eq cmp (by omega)]
  obtain ⟨m1, m2⟩ := partLoop_mid cmp left (right - (left + 1)) (left + 1) left a
  obtain ⟨σ, s1, s2⟩ := partLoop_perm cmp left (right - (left + 1)) (left + 1) left a le_rfl (by omega)
  obtain ⟨q1, q2, q3⟩ := partLoop_spec cmp left (right - (left + 1)) (left + 1) left a le_rfl (by omega)
    (by intro k; omega) (by intro k; omega)
  generalize partLoop cmp left (right - (left + 1)) (left + 1) left a = p at *
  set a1 := iterSwap p.2 left p.1 with ha1
  have hPp : ∀ k, left ≤ k → k < right → P (p.2 k) := by
    intro k h1 h2
    rw [s1]
    have := perm_range (σ := σ) (left := left) (right := right) (fun k hk => s2 k (by omega)) h1 h2
    exact hP _ this.1 this.2
  have hPl : P (a left) := hP left le_rfl (by omega)
  have hP1 : ∀ k, left ≤ k → k < right → P (a1 k) := by
    intro k h1 h2
    simp only [ha1, iterSwap]
    split_ifs
    · exact hPp _ (by omega) (by omega)
    · exact hPp _ (by omega) (by omega)
    · exact hPp _ h1 h2
  have low : ∀ k, left ≤ k → k < p.1 → cmp (a1 k) (a left) = true := by
    intro k h1 h2
    simp only [ha1, iterSwap]
    split_ifs with e1 e2
    · exact q2 p.1 (by omega) le_rfl
    · omega
    · exact q2 k (by omega) (by omega)
  have pivot : a1 p.1 = a left := by
    simp only [ha1, iterSwap]
    split_ifs with e1
    · rw [e1, q1]
    · exact q1
  have high : ∀ k, p.1 < k → k < right → cmp (a1 k) (a left) = false := by
    intro k h1 h2
    simp only [ha1, iterSwap]
    rw [if_neg (by omega), if_neg (by omega)]
    exact q3 k h1 (by omega)
  obtain ⟨τ, t1, t2⟩ := C16_sort_permutes cmp left p.1 a1
  obtain ⟨ρ, r1, r2⟩ := C16_sort_permutes cmp (p.1 + 1) right (sort cmp left p.1 a1)
  set a2 := sort cmp left p.1 a1 with ha2
  have val2 : ∀ k, left ≤ k → k < p.1 → ∃ k', left ≤ k' ∧ k' < p.1 ∧ a2 k = a1 k' := by
    intro k h1 h2
    have := perm_range t2 h1 h2
    exact ⟨τ k, this.1, this.2, by rw [t1]; rfl⟩
  have val2' : ∀ k, p.1 ≤ k → a2 k = a1 k := by
    intro k h1; rw [t1]; simp [t2 k (Or.inr h1)]
  have val3 : ∀ k, k ≤ p.1 → sort cmp (p.1 + 1) right a2 k = a2 k := by
    intro k h1; rw [r1]; simp [r2 k (Or.inl (by omega))]
  have val3' : ∀ k, p.1 < k → k < right →
      ∃ k', p.1 < k' ∧ k' < right ∧ sort cmp (p.1 + 1) right a2 k = a1 k' := by
    intro k h1 h2
    have := perm_range r2 (k := k) (by omega) h2
    exact ⟨ρ k, by omega, this.2, by rw [r1]; exact val2' _ (by omega)⟩
  have hP2 : ∀ k, p.1 + 1 ≤ k → k < right → P (a2 k) := by
    intro k h1 h2; rw [val2' k (by omega)]; exact hP1 k (by omega) h2
  rcases lt_trichotomy j p.1 with hjp | hjp | hjp
  · rw [val3 j (by omega), val3 i (by omega)]
    exact ih (p.1 - left) (by omega) left p.1 a1 (fun k h1 h2 => hP1 k h1 (by omega)) rfl i j hi hij hjp
  · rw [val3 j (by omega), val3 i (by omega), hjp, val2' _ le_rfl, pivot]
    obtain ⟨k', h1, h2, h3⟩ := val2 i hi (by omega)
    rw [h3]
    exact asymm _ _ (hP1 k' h1 (by omega)) hPl (low k' h1 h2)
  · rcases lt_trichotomy i p.1 with hip | hip | hip
    · obtain ⟨k', h1, h2, h3⟩ := val3' j hjp hj
      obtain ⟨k'', g1, g2, g3⟩ := val2 i hi hip
      rw [h3, val3 i (by omega), g3]
      refine negtrans _ (a left) _ (hP1 k' (by omega) h2) hPl (hP1 k'' g1 (by omega)) (high k' h1 h2) ?_
      exact asymm _ _ (hP1 k'' g1 (by omega)) hPl (low k'' g1 g2)
    · obtain ⟨k', h1, h2, h3⟩ := val3' j hjp hj
      rw [h3, val3 i (by omega), hip, val2' _ le_rfl, pivot]
      exact high k' h1 h2
    · exact ih (right - (p.1 + 1)) (by omega) (p.1 + 1) right a2 hP2 rfl i j (by omega) hij hj

/-- Non-vacuity: `<` on integers is a strict weak order; sorting `3 1 2`. -/
example : (∀ x y : ℤ, True → True → decide (x < y) = true → decide (y < x) = false) ∧
    (∀ x y z : ℤ, True → True → True → decide (x < y) = false → decide (y < z) = false →
      decide (x < z) = false) ∧
    (let a := sort (fun x y : ℤ => decide (x < y)) 0 3 (fun k => ([3, 1, 2] : List ℤ).getD k 7)
     (a 0, a 1, a 2, a 3) = (1, 2, 3, 7)) := by
  refine ⟨by intro x y; simp; omega, by intro x y z; simp; omega, by decide +kernel⟩

end C16

section C17
variable {T : Type u} {S : ℕ}

/-- Core argument: if the comparator compares the ranks `r` of the components then the entry at position
`S - k - 1` is the k-th largest. -/
theorem sortVector_rank {κ : Type*} [LinearOrder κ] (cmp : T × ℕ → T × ℕ → Bool) (v : Vec T S)
    (junk : ℕ → T × ℕ) (r : Fin S → κ)
    (hcmp : ∀ i j : Fin S, cmp (v i, i) (v j, j) = decide (r i < r j)) (k : ℕ) (hk : k < S) :
    ∃ idx : Fin S, sortVector cmp v junk (S - k - 1) = (v idx, idx.val) ∧
      (Finset.univ.filter fun j => r idx < r j).card ≤ k ∧
      k < (Finset.univ.filter fun j => r idx ≤ r j).card := by
  unfold sortVector
  set a : ℕ → T × ℕ := fun i => if h : i < S then (v ⟨i, h⟩, i) else junk i with ha
  have hav : ∀ i : Fin S, a i = (v i, i.val) := by intro i; simp [ha]
  obtain ⟨σ, s1, s2⟩ := C16_sort_permutes cmp 0 S a
  have hσ : ∀ i : Fin S, σ i < S := fun i => (perm_range s2 (Nat.zero_le _) i.2).2
  let f : Fin S → Fin S := fun i => ⟨σ i, hσ i⟩
  have hf : Function.Injective f := by
    intro i j h
    have : σ i = σ j := congrArg Fin.val h
    exact Fin.ext (σ.injective this)
  have hfs : Function.Surjective f := Finite.surjective_of_injective hf
  have hval : ∀ i : Fin S, sort cmp 0 S a i = (v (f i), (f i).val) := by
    intro i; rw [s1]; exact hav (f i)
  have sorted : ∀ i j : Fin S, i < j → r (f i) ≤ r (f j) := by
    intro i j hij
    have := C16_sort_sorts cmp (fun x => ∃ i : Fin S, x = (v i, i.val)) ?_ ?_ 0 S a ?_ i j
      (Nat.zero_le _) hij j.2
    · rw [hval, hval, hcmp] at this
      simpa using this
    · rintro _ _ ⟨i, rfl⟩ ⟨j, rfl⟩ h
      rw [hcmp] at h ⊢
      simp only [decide_eq_true_eq, decide_eq_false_iff_not, not_lt] at h ⊢
      exact h.le
    · rintro _ _ _ ⟨i, rfl⟩ ⟨j, rfl⟩ ⟨l, rfl⟩ h1 h2
      rw [hcmp] at h1 h2 ⊢
      simp only [decide_eq_false_iff_not, not_lt] at *
      exact h2.trans h1
    · intro k _ hk
      exact ⟨⟨k, hk⟩, hav ⟨k, hk⟩⟩
  have sorted' : ∀ i j : Fin S, i ≤ j → r (f i) ≤ r (f j) := by
    intro i j hij
    rcases hij.eq_or_lt with rfl | h
    · exact le_rfl
    · exact sorted i j h
  let p : Fin S := ⟨S - k - 1, by omega⟩
  refine ⟨f p, hval p, ?_, ?_⟩
  · have : (Finset.univ.filter fun j => r (f p) < r j) ⊆ (Finset.univ.filter fun m => p < m).image f := by
      intro j hj
      simp only [Finset.mem_filter, Finset.mem_univ, true_and, Finset.mem_image] at hj ⊢
      obtain ⟨m, rfl⟩ := hfs j
      refine ⟨m, ?_, rfl⟩
      by_contra h
      exact absurd (sorted' m p (not_lt.1 h)) (not_le.2 hj)
    refine (Finset.card_le_card this).trans (Finset.card_image_le.trans ?_)
    have e : (Finset.univ.filter fun m => p < m) = Finset.Ioi p := by ext; simp
    rw [e, Fin.card_Ioi]
    simp only [p]; omega
  · have : (Finset.univ.filter fun m => p ≤ m).image f ⊆ (Finset.univ.filter fun j => r (f p) ≤ r j) := by
      intro j hj
      simp only [Finset.mem_filter, Finset.mem_univ, true_and, Finset.mem_image] at hj ⊢
      obtain ⟨m, hm, rfl⟩ := hj
      exact sorted' p m hm
    refine lt_of_lt_of_le ?_ (Finset.card_le_card this)
    rw [Finset.card_image_of_injective _ hf]
    have e : (Finset.univ.filter fun m => p ≤ m) = Finset.Ici p := by ext; simp
    rw [e, Fin.card_Ici]
    simp only [p]; omega

variable {K : Type u} [Field K] [LinearOrder K] [IsStrictOrderedRing K]

/-- `find_max_component(v, k)` returns the index of the k-th largest component: at most `k` components are
larger and more than `k` are at least as large. -/
theorem C17_find_max (v : Vec K S) (k : ℕ) (hk : k < S) (junk : ℕ → K × ℕ) :
    ∃ idx : Fin S, findMaxComponent v k junk = idx ∧
      (Finset.univ.filter fun j => v idx < v j).card ≤ k ∧
      k < (Finset.univ.filter fun j => v idx ≤ v j).card := by
  obtain ⟨idx, h1, h2, h3⟩ := sortVector_rank (fun l r => Cmp.lt l.1 r.1) v junk v
    (fun i j => by simp) k hk
  exact ⟨idx, by rw [findMaxComponent, h1], h2, h3⟩

/-- `find_abs_max_component(v, k)`, the same for absolute values. -/
theorem C17_find_abs_max (v : Vec K S) (k : ℕ) (hk : k < S) (junk : ℕ → K × ℕ) :
    ∃ idx : Fin S, findAbsMaxComponent v k junk = idx ∧
      (Finset.univ.filter fun j => |v idx| < |v j|).card ≤ k ∧
      k < (Finset.univ.filter fun j => |v idx| ≤ |v j|).card := by
  obtain ⟨idx, h1, h2, h3⟩ := sortVector_rank (fun l r => Cmp.lt (abs l.1) (abs r.1)) v junk
    (fun i => |v i|) (fun i j => by simp) k hk
  exact ⟨idx, by rw [findAbsMaxComponent, h1], h2, h3⟩

/-- In particular `find_abs_max_component(v)` is the index of a component of largest absolute value. -/
theorem C17_find_abs_max_first (v : Vec K S) (hS : 0 < S) (junk : ℕ → K × ℕ) :
    ∃ idx : Fin S, findAbsMaxComponent v 0 junk = idx ∧ ∀ j, |v j| ≤ |v idx| := by
  obtain ⟨idx, h1, h2, -⟩ := C17_find_abs_max v 0 hS junk
  refine ⟨idx, h1, fun j => ?_⟩
  rw [Nat.le_zero, Finset.card_eq_zero, Finset.filter_eq_empty_iff] at h2
  exact not_lt.1 (h2 (Finset.mem_univ j))

/-- `get_abs_max_component_axis` is the coordinate axis of that index with the sign of the component, so
its dot product with the vector is the absolute value of the component. -/
theorem C17_axis (v : Vec K S) (k : ℕ) (hk : k < S) (junk : ℕ → K × ℕ) :
    ∃ (idx : Fin S) (axis : Vec K S), findAbsMaxComponent v k junk = idx ∧
      getAbsMaxComponentAxis v k junk = some axis ∧ (∀ j, j ≠ idx → axis j = 0) ∧
      |axis idx| = 1 ∧ axis idx * v idx = |v idx| := by
  obtain ⟨idx, h1, -, -⟩ := C17_find_abs_max v k hk junk
  unfold getAbsMaxComponentAxis
  simp only [h1, idx.2, dite_true, Fin.eta, exact_lt, decide_eq_true_eq]
  refine ⟨idx, _, rfl, rfl, fun j hj => ?_, ?_, ?_⟩
  · split_ifs <;> simp [vaxis, hj]
  · split_ifs <;> simp [vaxis]
  · split_ifs with h
    · simp [vaxis, abs_of_neg h]
    · simp [vaxis, abs_of_nonneg (not_lt.1 h)]

/-- `get_max_component(v, k)` is the value of the k-th largest component; since that value is unique it is
the component found by `find_max_component`. -/
theorem C17_get_max (v : Vec K S) (k : ℕ) (hk : k < S) (junk : ℕ → K) (junk' : ℕ → K × ℕ) :
    ∃ idx : Fin S, findMaxComponent v k junk' = idx ∧ getMaxComponent v k junk = v idx := by
  -- rank argument with the values themselves
  obtain ⟨idx, h1, h2, h3⟩ := C17_find_max v k hk junk'
  refine ⟨idx, h1, ?_⟩
  unfold getMaxComponent
  set a : ℕ → K := fun i => if h : i < S then v ⟨i, h⟩ else junk i with ha
  have hav : ∀ i : Fin S, a i = v i := by intro i; simp [ha]
  obtain ⟨σ, s1, s2⟩ := C16_sort_permutes (fun l r : K => Cmp.lt l r) 0 S a
  have hσ : ∀ i : Fin S, σ i < S := fun i => (perm_range s2 (Nat.zero_le _) i.2).2
  let f : Fin S → Fin S := fun i => ⟨σ i, hσ i⟩
  have hf : Function.Injective f := by
    intro i j h
    have : σ i = σ j := congrArg Fin.val h
    exact Fin.ext (σ.injective this)
  have hfs : Function.Surjective f := Finite.surjective_of_injective hf
  have hval : ∀ i : Fin S, sort (fun l r : K => Cmp.lt l r) 0 S a i = v (f i) := by
    intro i; rw [s1]; exact hav (f i)
  have sorted : ∀ i j : Fin S, i ≤ j → v (f i) ≤ v (f j) := by
    intro i j hij
    rcases hij.eq_or_lt with rfl | hij
    · exact le_rfl
    have := C16_sort_sorts (fun l r : K => Cmp.lt l r) (fun _ => True) (by
      intro x y _ _; simp only [exact_lt, decide_eq_true_eq, decide_eq_false_iff_not, not_lt]
      exact le_of_lt) (by
      intro x y z _ _ _; simp only [exact_lt, decide_eq_false_iff_not, not_lt]
      exact fun h1 h2 => h2.trans h1) 0 S a (fun _ _ _ => trivial) i j (Nat.zero_le _) hij j.2
    rw [hval, hval] at this
    simpa using this
  let p : Fin S := ⟨S - k - 1, by omega⟩
  have hp : sort (fun l r : K => Cmp.lt l r) 0 S a (S - k - 1) = v (f p) := hval p
  rw [hp]
  apply le_antisymm
  · by_contra hlt; push Not at hlt
    have : (Finset.univ.filter fun m => p ≤ m).image f ⊆ (Finset.univ.filter fun j => v idx < v j) := by
      intro j hj
      simp only [Finset.mem_filter, Finset.mem_univ, true_and, Finset.mem_image] at hj ⊢
      obtain ⟨m, hm, rfl⟩ := hj
      exact hlt.trans_le (sorted p m hm)
    have := Finset.card_le_card this
    rw [Finset.card_image_of_injective _ hf] at this
    have e : (Finset.univ.filter fun m => p ≤ m) = Finset.Ici p := by ext; simp
    rw [e, Fin.card_Ici] at this
    simp only [p] at this; omega
  · by_contra hlt; push Not at hlt
    have : (Finset.univ.filter fun j => v idx ≤ v j) ⊆ (Finset.univ.filter fun m => p < m).image f := by
      intro j hj
      simp only [Finset.mem_filter, Finset.mem_univ, true_and, Finset.mem_image] at hj ⊢
      obtain ⟨m, rfl⟩ := hfs j
      refine ⟨m, ?_, rfl⟩
      by_contra h
      exact absurd (sorted m p (not_lt.1 h)) (not_le.2 (hlt.trans_le hj))
    have := (Finset.card_le_card this).trans Finset.card_image_le
    have e : (Finset.univ.filter fun m => p < m) = Finset.Ioi p := by ext; simp
    rw [e, Fin.card_Ioi] at this
    simp only [p] at this; omega

end C17

section C17ieee
variable {T : Type u} [IEEE T] {S : ℕ}

/-- For floating point vectors: the returned index is always a valid index, NaN components or not. -/
theorem C17_find_max_index_valid [Zero T] [Neg T] (v : Vec T S) (k : ℕ) (hk : k < S)
    (junk : ℕ → T × ℕ) : findMaxComponent v k junk < S ∧ findAbsMaxComponent v k junk < S := by
  have gen : ∀ cmp : T × ℕ → T × ℕ → Bool, (sortVector cmp v junk (S - k - 1)).2 < S := by
    intro cmp
    unfold sortVector
    obtain ⟨σ, s1, s2⟩ := C16_sort_permutes cmp 0 S
      (fun i => if h : i < S then (v ⟨i, h⟩, i) else junk i)
    have := (perm_range s2 (k := S - k - 1) (Nat.zero_le _) (by omega)).2
    rw [s1]; simp [this]
  exact ⟨gen _, gen _⟩

/-- For floating point vectors without NaN components: at most `k` components compare greater than the
found one, and more than `k` compare greater or equal. -/
theorem C17_find_max_float (v : Vec T S) (hv : ∀ i, isNan (v i) = false) (k : ℕ) (hk : k < S)
    (junk : ℕ → T × ℕ) :
    ∃ idx : Fin S, findMaxComponent v k junk = idx ∧
      (Finset.univ.filter fun j => Cmp.lt (v idx) (v j) = true).card ≤ k ∧
      k < (Finset.univ.filter fun j => Cmp.le (v idx) (v j) = true).card := by
  have hkey : ∀ i, ∃ x, IEEE.key (v i) = some x := by
    intro i
    have := hv i
    rw [← Bool.not_eq_true, isNan_iff_key, ← ne_eq, Option.ne_none_iff_exists'] at this
    exact this
  choose r hr using hkey
  obtain ⟨idx, h1, h2, h3⟩ := sortVector_rank (fun l r => Cmp.lt l.1 r.1) v junk r
    (fun i j => by simp [lt_of_keys (hr i) (hr j)]) k hk
  refine ⟨idx, by rw [findMaxComponent, h1], ?_, ?_⟩
  · simpa [lt_of_keys (hr _) (hr _)] using h2
  · simpa [le_of_keys (hr _) (hr _)] using h3

example : findMaxComponent (![-1, 3, -5] : Vec ℤ 3) 0 (fun _ => (0, 0)) = 1 ∧
    findAbsMaxComponent (![-1, 3, -5] : Vec ℤ 3) 0 (fun _ => (0, 0)) = 2 ∧
    getAbsMaxComponentAxis (![-1, 3, -5] : Vec ℤ 3) 0 (fun _ => (0, 0)) = some ![0, 0, -1] ∧
    (0 < 3) ∧ (∀ i, isNan ((![-1, 3, -5] : Vec ℤ 3) i) = false) := by
  refine ⟨by decide +kernel, by decide +kernel, by decide +kernel, by decide, by simp⟩

end C17ieee
end vm
