import Verif.Lemmas.BBox
import Verif.Lemmas.Flt
import Mathlib.Tactic.NormNum
import Mathlib.Tactic.FinCases

/-! # C28 to C36, C82: bounding boxes

The point set of a box is the interval `Set.Icc b.min b.max` of Mathlib (componentwise order). -/

universe u

set_option linter.unusedSectionVars false
set_option linter.unusedSimpArgs false

namespace vm
open BBox

/-! ### C28 -/
section C28
variable {K : Type u} [LinearOrder K] [Zero K] [One K] {S : ℕ}

/-- The points covered by one call of `add`. -/
def addedSet : Add' K S → Set (Vec K S)
  | .point p => {p}
  | .box b => Set.Icc b.min b.max

/-- Boxes passed to `add` must be valid (the C++ constructors assert it). -/
def addValid : Add' K S → Prop
  | .point _ => True
  | .box b => b.min ≤ b.max

theorem addedSet_eq (x : Add' K S) : addedSet x = Set.Icc x.bounds.min x.bounds.max := by
  cases x with
  | point p => simp [addedSet, Add'.bounds]
  | box b => rfl

theorem addValid_iff (x : Add' K S) : addValid x ↔ x.bounds.isValid = true := by
  rw [isValid_iff]
  cases x with
  | point p => simp [addValid, Add'.bounds]
  | box b => rfl

/-- After any non-empty history of additions the bounds of a builder are valid, cover everything that was
added, and are contained in every box that covers everything that was added. -/
theorem C28_builder (h01 : (0 : K) < 1) (hS : 0 < S) (history : List (Add' K S)) (hne : history ≠ [])
    (hv : ∀ x ∈ history, addValid x) :
    (builderRun history).min ≤ (builderRun history).max ∧
    (∀ x ∈ history, addedSet x ⊆ Set.Icc (builderRun history).min (builderRun history).max) ∧
    ∀ lo hi : Vec K S, (∀ x ∈ history, addedSet x ⊆ Set.Icc lo hi) →
      Set.Icc (builderRun history).min (builderRun history).max ⊆ Set.Icc lo hi := by
  obtain ⟨h1, h2, h3⟩ := builderRun_spec h01 hS history hne fun x hx => (addValid_iff x).1 (hv x hx)
  refine ⟨(isValid_iff _).1 h1, ?_, ?_⟩
  · intro x hx
    rw [addedSet_eq]
    exact Set.Icc_subset_Icc (h2 x hx).1 (h2 x hx).2
  · intro lo hi hl
    have := h3 lo hi fun x hx => by
      have hs := hl x hx
      rw [addedSet_eq] at hs
      have hvx := (isValid_iff _).1 ((addValid_iff x).1 (hv x hx))
      exact ⟨(hs (Set.left_mem_Icc.2 hvx)).1, (hs (Set.right_mem_Icc.2 hvx)).2⟩
    exact Set.Icc_subset_Icc this.1 this.2

/-- The bounds depend only on the set of additions, not on their order or multiplicity. -/
theorem C28_builder_order (h01 : (0 : K) < 1) (hS : 0 < S) (h h' : List (Add' K S))
    (hne : h ≠ []) (hv : ∀ x ∈ h, addValid x) (hsame : ∀ x, x ∈ h ↔ x ∈ h') :
    builderRun h = builderRun h' := by
  have hne' : h' ≠ [] := by
    rcases h with _ | ⟨x, h⟩
    · exact absurd rfl hne
    · have := (hsame x).1 (by simp)
      intro e; rw [e] at this; cases this
  obtain ⟨_, h2, h3⟩ := builderRun_spec h01 hS h hne fun x hx => (addValid_iff x).1 (hv x hx)
  obtain ⟨_, h2', h3'⟩ := builderRun_spec h01 hS h' hne' fun x hx =>
    (addValid_iff x).1 (hv x ((hsame x).2 hx))
  have a1 := h3 _ _ fun x hx => h2' x ((hsame x).1 hx)
  have a2 := h3' _ _ fun x hx => h2 x ((hsame x).2 hx)
  exact ext' (le_antisymm a2.1 a1.1) (le_antisymm a1.2 a2.2)

/-- `merge_all` of a non-empty list of points is the smallest box that contains them, and agrees with the
builder. -/
theorem C28_mergeAll (h01 : (0 : K) < 1) (hS : 0 < S) (p : Vec K S) (ps : List (Vec K S)) :
    mergeAll p ps = builderRun ((p :: ps).map Add'.point) := by
  have gen : ∀ (ps : List (Vec K S)) (b : BBox K S), b.isValid = true →
      ps.foldl mergePoint b = (ps.map Add'.point).foldl builderAdd b := by
    intro ps
    induction ps with
    | nil => intro b _; rfl
    | cons q ps ih =>
      intro b hb
      have e : builderAdd b (.point q) = b.mergePoint q := by
        rw [builderAdd_valid b hb, mergePoint_eq]; rfl
      rw [List.foldl_cons, List.map_cons, List.foldl_cons, e, ih]
      rw [isValid_iff, mergePoint_eq, merge_min, merge_max]
      exact inf_le_left.trans (((isValid_iff b).1 hb).trans le_sup_left)
  rw [mergeAll, builderRun, List.map_cons, List.foldl_cons, builderAdd_invalid _ (init_invalid h01 hS)]
  exact gen ps ⟨p, p⟩ ((isValid_iff _).2 le_rfl)

/-- The same for floating point data without NaN (infinities allowed): no rounding takes place. -/
theorem C28_floating_point {F : Fmt} (hS : 0 < S) (history : List (Add' (NN F) S)) (hne : history ≠ [])
    (hv : ∀ x ∈ history, addValid x) :
    let b := builderRun (history.map (Add'.map Subtype.val))
    b.isValid = true ∧
    (∀ p, Add'.point p ∈ history → ∀ i,
      Cmp.le (b.min i) (p i).1 = true ∧ Cmp.le (p i).1 (b.max i) = true) ∧
    (∀ c, Add'.box c ∈ history → ∀ i,
      Cmp.le (b.min i) (c.min i).1 = true ∧ Cmp.le (c.max i).1 (b.max i) = true) ∧
    (∀ i, ∃ x ∈ history, b.min i = (x.bounds.min i).1) ∧
    (∀ i, ∃ x ∈ history, b.max i = (x.bounds.max i).1) := by
  have hrun := (NN.cmpHom (F := F)).builderRun (S := S) rfl rfl history
  simp only [hrun]
  obtain ⟨h1, h2, h3⟩ := builderRun_spec NN.zero_lt_one hS history hne fun x hx => (addValid_iff x).1 (hv x hx)
  have le' : ∀ a b : NN F, a ≤ b → Cmp.le a.1 b.1 = true := by
    intro a b h
    rw [NN.cmpHom.le, exact_le]; simpa using h
  refine ⟨by rw [NN.cmpHom.isValid]; exact h1, ?_, ?_, ?_, ?_⟩
  · intro p hp i
    exact ⟨le' _ _ ((h2 _ hp).1 i), le' _ _ ((h2 _ hp).2 i)⟩
  · intro c hc i
    exact ⟨le' _ _ ((h2 _ hc).1 i), le' _ _ ((h2 _ hc).2 i)⟩
  · intro i
    by_contra hcon
    push Not at hcon
    -- the least of the finitely many minima would be a larger lower bound
    have hfin : ∃ m : NN F, (∀ x ∈ history, m ≤ x.bounds.min i) ∧ ∃ x ∈ history, x.bounds.min i = m := by
      clear hcon h1 h2 h3 hrun hv
      induction history with
      | nil => exact absurd rfl hne
      | cons x l ih =>
        by_cases hl : l = []
        · subst hl; exact ⟨x.bounds.min i, by simp, x, by simp, rfl⟩
        · obtain ⟨m, hm, y, hy, hym⟩ := ih hl
          rcases le_total m (x.bounds.min i) with hle | hle
          · refine ⟨m, ?_, y, by simp [hy], hym⟩
            intro z hz
            rcases List.mem_cons.1 hz with rfl | hz
            · exact hle
            · exact hm z hz
          · refine ⟨x.bounds.min i, ?_, x, by simp, rfl⟩
            intro z hz
            rcases List.mem_cons.1 hz with rfl | hz
            · exact le_rfl
            · exact hle.trans (hm z hz)
    obtain ⟨m, hm, y, hy, hym⟩ := hfin
    have := h3 (Function.update (builderRun history).min i m) (builderRun history).max fun x hx => by
      refine ⟨?_, (h2 x hx).2⟩
      intro j
      by_cases hj : j = i
      · subst hj; simpa using hm x hx
      · simpa [hj] using (h2 x hx).1 j
    have h4 := this.1 i
    rw [Function.update_self] at h4
    have h5 := (h2 y hy).1 i
    rw [hym] at h5
    exact hcon y hy (by rw [hym]; exact congrArg Subtype.val (le_antisymm h5 h4))
  · intro i
    by_contra hcon
    push Not at hcon
    have hfin : ∃ m : NN F, (∀ x ∈ history, x.bounds.max i ≤ m) ∧ ∃ x ∈ history, x.bounds.max i = m := by
      clear hcon h1 h2 h3 hrun hv
      induction history with
      | nil => exact absurd rfl hne
      | cons x l ih =>
        by_cases hl : l = []
        · subst hl; exact ⟨x.bounds.max i, by simp, x, by simp, rfl⟩
        · obtain ⟨m, hm, y, hy, hym⟩ := ih hl
          rcases le_total (x.bounds.max i) m with hle | hle
          · refine ⟨m, ?_, y, by simp [hy], hym⟩
            intro z hz
            rcases List.mem_cons.1 hz with rfl | hz
            · exact hle
            · exact hm z hz
          · refine ⟨x.bounds.max i, ?_, x, by simp, rfl⟩
            intro z hz
            rcases List.mem_cons.1 hz with rfl | hz
            · exact le_rfl
            · exact (hm z hz).trans hle
    obtain ⟨m, hm, y, hy, hym⟩ := hfin
    have := h3 (builderRun history).min (Function.update (builderRun history).max i m) fun x hx => by
      refine ⟨(h2 x hx).1, ?_⟩
      intro j
      by_cases hj : j = i
      · subst hj; simpa using hm x hx
      · simpa [hj] using (h2 x hx).2 j
    have h4 := this.2 i
    rw [Function.update_self] at h4
    have h5 := (h2 y hy).2 i
    rw [hym] at h5
    exact hcon y hy (by rw [hym]; exact congrArg Subtype.val (le_antisymm h4 h5))

example : builderRun [Add'.point (![1, 5] : Vec ℤ 2), .box ⟨![0, 2], ![3, 3]⟩] = ⟨![0, 2], ![3, 5]⟩ ∧
    (∀ x ∈ [Add'.point (![1, 5] : Vec ℤ 2), .box ⟨![0, 2], ![3, 3]⟩], addValid x) := by
  refine ⟨by decide +kernel, ?_⟩
  intro x hx
  simp only [List.mem_cons, List.mem_nil_iff, or_false] at hx
  rcases hx with rfl | rfl
  · trivial
  · show (![0, 2] : Vec ℤ 2) ≤ ![3, 3]
    decide +kernel

end C28

/-! ### C29 -/
section C29
variable {K : Type u} [LinearOrder K] {S : ℕ}

/-- `contains(point)` is membership; `contains(box)` is inclusion of the point sets (for a valid argument);
`intersects` is non-emptiness of the intersection (for valid boxes). -/
theorem C29_predicates (a b : BBox K S) (p : Vec K S) (ha : a.min ≤ a.max) (hb : b.min ≤ b.max) :
    (a.isValid = true) ∧
    (a.contains p = true ↔ p ∈ Set.Icc a.min a.max) ∧
    (a.containsBox b = true ↔ Set.Icc b.min b.max ⊆ Set.Icc a.min a.max) ∧
    (a.intersects b = true ↔ (Set.Icc a.min a.max ∩ Set.Icc b.min b.max).Nonempty) := by
  refine ⟨(isValid_iff a).2 ha, contains_iff a p, ?_, ?_⟩
  · rw [containsBox_iff]
    constructor
    · rintro ⟨h1, h2⟩; exact Set.Icc_subset_Icc h1 h2
    · intro h
      exact ⟨(h (Set.left_mem_Icc.2 hb)).1, (h (Set.right_mem_Icc.2 hb)).2⟩
  · rw [intersects_iff]
    constructor
    · rintro ⟨h1, h2⟩
      exact ⟨a.min ⊔ b.min, ⟨le_sup_left, sup_le ha h2⟩, le_sup_right, sup_le h1 hb⟩
    · rintro ⟨x, hx1, hx2⟩
      exact ⟨hx1.1.trans hx2.2, hx2.1.trans hx1.2⟩

/-- `encloses` means that the box lies in the interior: between the bounds strictly in every component. -/
theorem C29_encloses (a b : BBox K S) (hb : b.min ≤ b.max) :
    a.encloses b = true ↔ ∀ p ∈ Set.Icc b.min b.max, ∀ i, a.min i < p i ∧ p i < a.max i := by
  rw [encloses_iff]
  constructor
  · intro h p hp i
    exact ⟨(h i).1.trans_le (hp.1 i), (hp.2 i).trans_lt (h i).2⟩
  · intro h i
    exact ⟨(h _ (Set.left_mem_Icc.2 hb) i).1, (h _ (Set.right_mem_Icc.2 hb) i).2⟩

/-- Floating point data without NaN: `contains` answers according to the comparison of the numbers. -/
theorem C29_floating_point {F : Fmt} (b : BBox (NN F) S) (p : Vec (NN F) S) :
    (b.map Subtype.val).contains (Subtype.val ∘ p) = true ↔ p ∈ Set.Icc b.min b.max := by
  rw [NN.cmpHom.contains, contains_iff]

example : (⟨![0, 0], ![2, 2]⟩ : BBox ℤ 2).min ≤ (⟨![0, 0], ![2, 2]⟩ : BBox ℤ 2).max ∧
    (⟨![0, 0], ![4, 4]⟩ : BBox ℤ 2).encloses ⟨![1, 1], ![2, 2]⟩ = true := by decide +kernel

end C29

/-! ### C30 -/
section C30
variable {K : Type u} [LinearOrder K] {S : ℕ}

/-- `merge` is the least upper bound: the result is valid, contains both boxes, and is contained in every
box that contains both. -/
theorem C30_merge_lub (a b : BBox K S) (ha : a.min ≤ a.max) :
    (a.merge b).isValid = true ∧
    (a.merge b).containsBox a = true ∧ (a.merge b).containsBox b = true ∧
    ∀ c : BBox K S, c.containsBox a = true → c.containsBox b = true → c.containsBox (a.merge b) = true := by
  simp only [isValid_iff, containsBox_iff, merge_min, merge_max]
  refine ⟨inf_le_left.trans (ha.trans le_sup_left), ⟨inf_le_left, le_sup_left⟩,
    ⟨inf_le_right, le_sup_right⟩, ?_⟩
  rintro c ⟨h1, h2⟩ ⟨h3, h4⟩
  exact ⟨le_inf h1 h3, sup_le h2 h4⟩

/-- `merge` is commutative, associative and idempotent. -/
theorem C30_merge_laws (a b c : BBox K S) :
    a.merge b = b.merge a ∧ (a.merge b).merge c = a.merge (b.merge c) ∧ a.merge a = a := by
  refine ⟨?_, ?_, ?_⟩
  · apply ext'
    · rw [merge_min, merge_min, inf_comm]
    · rw [merge_max, merge_max, sup_comm]
  · apply ext'
    · simp only [merge_min, inf_assoc]
    · simp only [merge_max, sup_assoc]
  · apply ext'
    · rw [merge_min, inf_idem]
    · rw [merge_max, sup_idem]

theorem intersect_eq [Zero K] (a b : BBox K S) :
    a.intersect b = if a.min ⊔ b.min ≤ a.max ⊓ b.max then ⟨a.min ⊔ b.min, a.max ⊓ b.max⟩ else
      ⟨vfill S 0, vfill S 0⟩ := by
  have h1 : vmax2 a.min b.min = a.min ⊔ b.min := by rw [vmax2_exact]; rfl
  have h2 : vmin2 a.max b.max = a.max ⊓ b.max := by rw [vmin2_exact]; rfl
  unfold intersect
  simp only [h1, h2]
  by_cases h : a.min ⊔ b.min ≤ a.max ⊓ b.max
  · rw [if_pos h, if_pos ((isValidPair_iff _ _).2 h)]
  · rw [if_neg h, if_neg (fun h' => h ((isValidPair_iff _ _).1 h'))]

/-- For intersecting boxes `intersect` is exactly the intersection of the point sets; for disjoint boxes it
is the degenerate box at the origin.  The result is always valid. -/
theorem C30_intersect [Zero K] (a b : BBox K S) (ha : a.min ≤ a.max) (hb : b.min ≤ b.max) :
    (a.intersect b).isValid = true ∧
    (a.intersects b = true → Set.Icc (a.intersect b).min (a.intersect b).max
      = Set.Icc a.min a.max ∩ Set.Icc b.min b.max) ∧
    (a.intersects b = false → a.intersect b = ⟨fun _ => 0, fun _ => 0⟩) := by
  have hiff : a.intersects b = true ↔ a.min ⊔ b.min ≤ a.max ⊓ b.max := by
    rw [intersects_iff]
    constructor
    · rintro ⟨h1, h2⟩; exact sup_le (le_inf ha h1) (le_inf h2 hb)
    · intro h; exact ⟨le_sup_left.trans (h.trans inf_le_right), le_sup_right.trans (h.trans inf_le_left)⟩
  rw [intersect_eq]
  refine ⟨?_, ?_, ?_⟩
  · split_ifs with h
    · exact (isValid_iff _).2 h
    · exact (isValid_iff _).2 le_rfl
  · intro h
    rw [if_pos (hiff.1 h), Set.Icc_inter_Icc]
  · intro h
    rw [if_neg (fun h' => by rw [hiff.2 h'] at h; cases h)]; rfl

/-- `intersect` of intersecting boxes is the greatest lower bound, and the absorption laws hold. -/
theorem C30_intersect_glb [Zero K] (a b : BBox K S) (ha : a.min ≤ a.max) (hb : b.min ≤ b.max)
    (h : a.intersects b = true) :
    (∀ c : BBox K S, a.containsBox c = true → b.containsBox c = true →
      (a.intersect b).containsBox c = true) ∧
    a.merge (a.intersect b) = a ∧ a.intersect (a.merge b) = a := by
  have hle : a.min ⊔ b.min ≤ a.max ⊓ b.max := by
    obtain ⟨h1, h2⟩ := (intersects_iff a b).1 h
    exact sup_le (le_inf ha h1) (le_inf h2 hb)
  refine ⟨?_, ?_, ?_⟩
  · intro c h1 h2
    rw [containsBox_iff] at h1 h2 ⊢
    rw [intersect_eq, if_pos hle]
    exact ⟨sup_le h1.1 h2.1, le_inf h1.2 h2.2⟩
  · rw [intersect_eq, if_pos hle]
    apply ext'
    · rw [merge_min]; exact inf_sup_self
    · rw [merge_max]; exact sup_inf_self
  · rw [intersect_eq, if_pos]
    · apply ext'
      · rw [merge_min]; exact sup_inf_self
      · rw [merge_max]; exact inf_sup_self
    · rw [merge_min, merge_max, sup_inf_self, inf_sup_self]; exact ha

example : (⟨![0, 0], ![2, 2]⟩ : BBox ℤ 2).intersects ⟨![1, 1], ![3, 3]⟩ = true ∧
    (⟨![0, 0], ![2, 2]⟩ : BBox ℤ 2).intersect ⟨![1, 1], ![3, 3]⟩ = ⟨![1, 1], ![2, 2]⟩ := by decide +kernel

end C30

/-! ### C31 -/
section C31
variable {K : Type u} [Field K] [LinearOrder K] [IsStrictOrderedRing K] {S : ℕ}

theorem constrain_apply (b : BBox K S) (p : Vec K S) (i : Fin S) :
    b.constrain p i = max (b.min i) (min (b.max i) (p i)) := by
  simp [constrain]

/-- `constrain(p)` is in the box, is `p` itself for points of the box, and is the unique closest point of
the box: no point of the box is closer in any component, and every other point has a greater distance. -/
theorem C31_constrain (b : BBox K S) (p : Vec K S) (hb : b.min ≤ b.max) :
    b.constrain p ∈ Set.Icc b.min b.max ∧ (p ∈ Set.Icc b.min b.max → b.constrain p = p) ∧
    (∀ q ∈ Set.Icc b.min b.max, ∀ i, |p i - b.constrain p i| ≤ |p i - q i|) ∧
    (∀ q ∈ Set.Icc b.min b.max, q ≠ b.constrain p →
      squaredDistance p (b.constrain p) < squaredDistance p q) := by
  have key : ∀ q ∈ Set.Icc b.min b.max, ∀ i, |p i - b.constrain p i| ≤ |p i - q i| ∧
      (|p i - b.constrain p i| = |p i - q i| → q i = b.constrain p i) := by
    intro q hq i
    have h1 := hq.1 i
    have h2 := hq.2 i
    rw [constrain_apply]
    rcases le_total (p i) (b.min i) with h | h
    · rw [min_eq_right (h.trans (hb i)), max_eq_left h, abs_of_nonpos (by linarith),
        abs_of_nonpos (by linarith)]
      exact ⟨by linarith, fun e => by linarith⟩
    · rcases le_total (p i) (b.max i) with h' | h'
      · rw [min_eq_right h', max_eq_right h, sub_self, abs_zero]
        refine ⟨abs_nonneg _, fun e => ?_⟩
        have := abs_eq_zero.1 e.symm
        linarith
      · rw [min_eq_left h', max_eq_right (hb i), abs_of_nonneg (by linarith), abs_of_nonneg (by linarith)]
        exact ⟨by linarith, fun e => by linarith⟩
  refine ⟨⟨fun i => ?_, fun i => ?_⟩, ?_, fun q hq i => (key q hq i).1, ?_⟩
  · rw [constrain_apply]; exact le_max_left _ _
  · rw [constrain_apply]; exact max_le (hb i) (min_le_left _ _)
  · intro hp; funext i
    rw [constrain_apply, min_eq_right (hp.2 i), max_eq_right (hp.1 i)]
  · intro q hq hne
    rw [squaredDistance, squaredDistance, squaredLength, squaredLength, dot_eq_sum, dot_eq_sum]
    have hle : ∀ i, (p - b.constrain p) i * (p - b.constrain p) i ≤ (p - q) i * (p - q) i := fun i => by
      have := (key q hq i).1
      rw [← sq, ← sq]
      exact sq_le_sq.2 this
    obtain ⟨i, hi⟩ : ∃ i, q i ≠ b.constrain p i := by
      by_contra hc; push Not at hc; exact hne (funext hc)
    refine Finset.sum_lt_sum (fun i _ => hle i) ⟨i, Finset.mem_univ _, ?_⟩
    rw [← sq, ← sq]
    refine sq_lt_sq.2 (lt_of_le_of_ne (key q hq i).1 fun e => hi ((key q hq i).2 e))

example : (⟨![0, 0], ![2, 2]⟩ : BBox ℚ 2).constrain ![5, 1] = ![2, 1] ∧
    (![0, 0] : Vec ℚ 2) ≤ ![2, 2] := by decide +kernel

end C31

/-! ### C32 -/
section C32
variable {K : Type u} [Field K] [LinearOrder K] [IsStrictOrderedRing K] {S : ℕ}

/-- `translate` keeps a box valid, moves exactly its points, and translations compose additively. -/
theorem C32_translate (b : BBox K S) (d e p : Vec K S) (hb : b.min ≤ b.max) :
    (b.translate d).isValid = true ∧
    ((b.translate d).contains (p + d) = true ↔ b.contains p = true) ∧
    (b.translate d).size = b.size ∧ (b.translate d).translate e = b.translate (d + e) ∧
    b.translate 0 = b := by
  refine ⟨?_, ?_, ?_, ?_, ?_⟩
  · rw [isValid_iff]; exact add_le_add_left hb d
  · simp only [contains_iff, translate, Set.mem_Icc, add_le_add_iff_right]
  · funext i; simp [size, translate]
  · simp [translate, add_assoc]
  · simp [translate]

/-- `expand(f)` for `f ≥ 0` keeps a box valid and contains exactly the points that differ from some point
of the box by at most `f` in every component. -/
theorem C32_expand (b : BBox K S) (f : K) (p : Vec K S) (hb : b.min ≤ b.max) (hf : 0 ≤ f) :
    (b.expand f).isValid = true ∧
    ((b.expand f).contains p = true ↔ ∃ q ∈ Set.Icc b.min b.max, ∀ i, |p i - q i| ≤ f) := by
  constructor
  · rw [isValid_iff]
    intro i
    have := hb i
    simp only [expand, Pi.sub_apply, Pi.add_apply, vfill]
    linarith
  · rw [contains_iff]
    simp only [Set.mem_Icc, expand, Pi.le_def, Pi.sub_apply, Pi.add_apply, vfill]
    constructor
    · rintro ⟨h1, h2⟩
      obtain ⟨c1, -, -, -⟩ := C31_constrain b p hb
      refine ⟨b.constrain p, c1, fun i => ?_⟩
      have := h1 i
      have := h2 i
      have := hb i
      rw [constrain_apply, abs_le]
      rcases le_total (p i) (b.min i) with h | h
      · rw [min_eq_right (h.trans (hb i)), max_eq_left h]
        constructor <;> linarith
      · rcases le_total (p i) (b.max i) with h' | h'
        · rw [min_eq_right h', max_eq_right h]; constructor <;> linarith
        · rw [min_eq_left h', max_eq_right (hb i)]; constructor <;> linarith
    · rintro ⟨q, ⟨h1, h2⟩, h3⟩
      constructor <;> intro i <;> have := abs_le.1 (h3 i) <;> have := h1 i <;> have := h2 i <;> linarith

/-- `size`, `center` and `volume` in terms of the corners: the centre is in the box and equally far from
both corners, `center ± size/2` are the corners, the volume is the product of the extents, and it is zero
exactly for boxes that `is_empty` accepts. -/
theorem C32_size_center (b : BBox K (S + 1)) (hb : b.min ≤ b.max) :
    b.min + b.size = b.max ∧ b.center ∈ Set.Icc b.min b.max ∧ b.center - b.min = b.max - b.center ∧
    b.volume = ∏ i, (b.max i - b.min i) ∧ (b.volume = 0 ↔ b.isEmpty = true) ∧ 0 ≤ b.volume := by
  have hvol : b.volume = ∏ i, (b.max i - b.min i) := by
    have gen : ∀ (n : ℕ) (g : Fin n → K) (x : K), Fin.foldl n (fun r i => r * g i) x = x * ∏ i, g i := by
      intro n
      induction n with
      | zero => intro g x; simp
      | succ n ih => intro g x; rw [Fin.foldl_succ, ih, Fin.prod_univ_succ, mul_assoc]
    rw [volume, gen, Fin.prod_univ_succ]; rfl
  refine ⟨?_, ⟨?_, ?_⟩, ?_, hvol, ?_, ?_⟩
  · simp [size]
  · intro i
    have := hb i
    simp only [center, vdivs, Pi.add_apply]
    rw [le_div_iff₀ (by norm_num)]; linarith
  · intro i
    have := hb i
    simp only [center, vdivs, Pi.add_apply]
    rw [div_le_iff₀ (by norm_num)]; linarith
  · funext i
    simp only [center, vdivs, Pi.add_apply, Pi.sub_apply]
    ring
  · rw [hvol, Finset.prod_eq_zero_iff]
    simp only [isEmpty, List.any_eq_true, List.mem_finRange, true_and, exact_le, decide_eq_true_eq,
      Finset.mem_univ]
    constructor
    · rintro ⟨i, hi⟩; exact ⟨i, by linarith⟩
    · rintro ⟨i, hi⟩; exact ⟨i, by linarith [hb i]⟩
  · rw [hvol]; exact Finset.prod_nonneg fun i _ => sub_nonneg.2 (hb i)

/-- In floating point arithmetic with arbitrary monotone rounding, overflow and NaN, `translate` by any
vector and `expand` by any non-negative amount never turn a valid box into an invalid one. -/
theorem C32_floating_point {F : Fmt} (b : BBox (Flt F) S) (hb : b.isValid = true) :
    (∀ d, (b.translate d).isValid = true) ∧ (∀ f, Cmp.le 0 f = true → (b.expand f).isValid = true) := by
  simp only [isValid, isValidPair, List.all_eq_true, List.mem_finRange, forall_true_left,
    Bool.not_eq_true'] at hb ⊢
  constructor
  · intro d i; exact Flt.add_mono (hb i)
  · intro f hf i
    exact Flt.expand_mono (hb i) hf

example : (⟨![0, 0], ![2, 2]⟩ : BBox ℚ 2).expand 1 = ⟨![-1, -1], ![3, 3]⟩ ∧
    (![0, 0] : Vec ℚ 2) ≤ ![2, 2] := by decide +kernel

example : (⟨fun _ => 0, fun _ => 1⟩ : BBox (Flt exactFmt) 2).isValid = true := by
  have : Cmp.lt (1 : Flt exactFmt) 0 = false := by
    show decide (Ext.ofRat 1 < Ext.ofRat 0) = false
    rw [decide_eq_false_iff_not, not_lt]
    exact WithBot.coe_le_coe.2 (WithTop.coe_le_coe.2 (by norm_num))
  simp [isValid, isValidPair, this]

end C32

/-! ### C33 -/
section C33
variable {K : Type u} [Field K] [LinearOrder K] [IsStrictOrderedRing K]

/-- The homogeneous coordinate that `matrix * point` divides by. -/
def homW (m : Mat K 4 4) (p : Vec K 3) : K := m 0 3 * p 0 + m 1 3 * p 1 + m 2 3 * p 2 + m 3 3

theorem mmulPoint3 (m : Mat K 4 4) (p : Vec K 3) (i : Fin 3) :
    mmulPoint m p i = (m 0 i.castSucc * p 0 + m 1 i.castSucc * p 1 + m 2 i.castSucc * p 2 + m 3 i.castSucc)
      / homW m p := by
  rw [mmulPoint_apply, Fin.sum_univ_three, Fin.sum_univ_three]; rfl

theorem mem_vertices (b : BBox K 3) (c : Fin 3 → Corner) : b.corner c ∈ b.vertices := by
  have hv : b.vertices = [b.max, ![b.max 0, b.min 1, b.max 2], ![b.min 0, b.min 1, b.max 2],
      ![b.min 0, b.max 1, b.max 2], b.min, ![b.max 0, b.min 1, b.min 2], ![b.max 0, b.max 1, b.min 2],
      ![b.min 0, b.max 1, b.min 2]] := by
    simp only [vertices, List.cons.injEq, and_true, true_and]
    refine ⟨?_, ?_, ?_, ?_, ?_, ?_⟩ <;> apply ext3 <;> simp [ex, ey, ez, size]
  rw [hv]
  have hc : b.corner c = ![b.corner c 0, b.corner c 1, b.corner c 2] := vec3_eq _
  have h0 : b.corner c 0 = b.min 0 ∨ b.corner c 0 = b.max 0 := by
    unfold corner; split_ifs <;> simp
  have h1 : b.corner c 1 = b.min 1 ∨ b.corner c 1 = b.max 1 := by
    unfold corner; split_ifs <;> simp
  have h2 : b.corner c 2 = b.min 2 ∨ b.corner c 2 = b.max 2 := by
    unfold corner; split_ifs <;> simp
  have e1 := vec3_eq b.min
  have e2 := vec3_eq b.max
  rw [hc]
  rcases h0 with h0 | h0 <;> rcases h1 with h1 | h1 <;> rcases h2 with h2 | h2 <;>
    rw [h0, h1, h2] <;> simp [← e1, ← e2]

theorem vertices_mem (b : BBox K 3) (hb : b.min ≤ b.max) (v : Vec K 3) (hv : v ∈ b.vertices) :
    v ∈ Set.Icc b.min b.max := by
  have h0 := hb 0
  have h1 := hb 1
  have h2 := hb 2
  simp only [vertices, List.mem_cons, List.mem_nil_iff, or_false] at hv
  rcases hv with rfl | rfl | rfl | rfl | rfl | rfl | rfl | rfl <;> constructor <;> intro i <;>
    fin_cases i <;> simp [ex, ey, ez, size] <;> assumption

/-- An affine function takes its maximum over a box at a corner. -/
theorem affine_max (b : BBox K 3) (g : Vec K 3) (p : Vec K 3) (hp : p ∈ Set.Icc b.min b.max) :
    ∃ v ∈ b.vertices, g 0 * p 0 + g 1 * p 1 + g 2 * p 2 ≤ g 0 * v 0 + g 1 * v 1 + g 2 * v 2 := by
  refine ⟨b.corner fun i => if g i < 0 then Corner.min else Corner.max, mem_vertices b _, ?_⟩
  have : ∀ i, g i * p i ≤ g i * b.corner (fun i => if g i < 0 then Corner.min else Corner.max) i := by
    intro i
    unfold corner
    by_cases h : g i < 0
    · simp only [h, if_true]
      exact mul_le_mul_of_nonpos_left (hp.1 i) h.le
    · simp only [h, if_false]
      simpa using mul_le_mul_of_nonneg_left (hp.2 i) (not_lt.1 h)
  linarith [this 0, this 1, this 2]

/-- `transform` returns the smallest box that contains the image of every point of the box, for every
matrix whose homogeneous coordinate is positive on the box (in particular for every affine matrix). -/
theorem C33_transform (b : BBox K 3) (m : Mat K 4 4) (hb : b.min ≤ b.max)
    (hw : ∀ p ∈ Set.Icc b.min b.max, 0 < homW m p) :
    (b.transform m).isValid = true ∧
    (∀ p ∈ Set.Icc b.min b.max, mmulPoint m p ∈ Set.Icc (b.transform m).min (b.transform m).max) ∧
    ∀ lo hi : Vec K 3, (∀ p ∈ Set.Icc b.min b.max, mmulPoint m p ∈ Set.Icc lo hi) →
      Set.Icc (b.transform m).min (b.transform m).max ⊆ Set.Icc lo hi := by
  obtain ⟨h1, h2, h3⟩ := builderRun_spec (zero_lt_one (α := K)) (by norm_num : 0 < 3)
    (b.vertices.map fun v => Add'.point (mmulPoint m v)) (by simp [vertices]) (by
      intro x hx
      obtain ⟨v, _, rfl⟩ := List.mem_map.1 hx
      exact (isValid_iff _).2 le_rfl)
  refine ⟨h1, ?_, ?_⟩
  · intro p hp
    have hwp := hw p hp
    have hvert : ∀ v ∈ b.vertices, (b.transform m).min ≤ mmulPoint m v ∧ mmulPoint m v ≤ (b.transform m).max :=
      fun v hv => h2 _ (List.mem_map.2 ⟨v, hv, rfl⟩)
    constructor
    · intro i
      rw [mmulPoint3, le_div_iff₀ hwp]
      set L := (b.transform m).min i with hL
      obtain ⟨v, hv, hle⟩ := affine_max b (fun j => L * m j.castSucc 3 - m j.castSucc i.castSucc) p hp
      have hwv := hw v (vertices_mem b hb v hv)
      have := (hvert v hv).1 i
      rw [mmulPoint3, le_div_iff₀ hwv] at this
      simp only [homW] at this ⊢
      have e0 : (Fin.castSucc (0 : Fin 3) : Fin 4) = 0 := rfl
      have e1 : (Fin.castSucc (1 : Fin 3) : Fin 4) = 1 := rfl
      have e2 : (Fin.castSucc (2 : Fin 3) : Fin 4) = 2 := rfl
      simp only [e0, e1, e2] at hle
      linarith
    · intro i
      rw [mmulPoint3, div_le_iff₀ hwp]
      set U := (b.transform m).max i with hU
      obtain ⟨v, hv, hle⟩ := affine_max b (fun j => m j.castSucc i.castSucc - U * m j.castSucc 3) p hp
      have hwv := hw v (vertices_mem b hb v hv)
      have := (hvert v hv).2 i
      rw [mmulPoint3, div_le_iff₀ hwv] at this
      simp only [homW] at this ⊢
      have e0 : (Fin.castSucc (0 : Fin 3) : Fin 4) = 0 := rfl
      have e1 : (Fin.castSucc (1 : Fin 3) : Fin 4) = 1 := rfl
      have e2 : (Fin.castSucc (2 : Fin 3) : Fin 4) = 2 := rfl
      simp only [e0, e1, e2] at hle
      linarith
  · intro lo hi hl
    have := h3 lo hi fun x hx => by
      obtain ⟨v, hv, rfl⟩ := List.mem_map.1 hx
      have := hl v (vertices_mem b hb v hv)
      exact ⟨this.1, this.2⟩
    exact Set.Icc_subset_Icc this.1 this.2

/-- Affine matrices (last row 0,0,0,1) satisfy the hypothesis. -/
example (b : BBox K 3) (m : Mat K 4 4) (h0 : m 0 3 = 0) (h1 : m 1 3 = 0) (h2 : m 2 3 = 0) (h3 : m 3 3 = 1) :
    ∀ p ∈ Set.Icc b.min b.max, 0 < homW m p := by
  intro p _; simp [homW, h0, h1, h2, h3]

example : (⟨![0, 0, 0], ![1, 2, 3]⟩ : BBox ℚ 3).transform rot90ZCcw = ⟨![-2, 0, 0], ![0, 1, 3]⟩ := by
  decide +kernel

end C33

/-! ### C34 -/
section C34
variable {K : Type u} [Field K] [LinearOrder K] [IsStrictOrderedRing K]

instance : Fintype Corner := ⟨{.min, .max}, fun x => by cases x <;> simp⟩

/-- Two corner codes differ in exactly one coordinate. -/
def Neighbours (c d : Fin 3 → Corner) : Prop := ∃ i, c i ≠ d i ∧ ∀ j, j ≠ i → c j = d j

instance (c d : Fin 3 → Corner) : Decidable (Neighbours c d) :=
  inferInstanceAs (Decidable (∃ i, c i ≠ d i ∧ ∀ j, j ≠ i → c j = d j))

open Corner in
/-- `for_each_vertex` visits the eight corners, each once. -/
theorem C34_vertices (b : BBox K 3) :
    ∃ l : List (Fin 3 → Corner), b.vertices = l.map b.corner ∧ l.Nodup ∧ ∀ c, c ∈ l := by
  refine ⟨[![max, max, max], ![max, min, max], ![min, min, max], ![min, max, max], ![min, min, min],
    ![max, min, min], ![max, max, min], ![min, max, min]], ?_, by decide +kernel, ?_⟩
  · simp only [vertices, List.map_cons, List.map_nil, List.cons.injEq, and_true]
    refine ⟨?_, ?_, ?_, ?_, ?_, ?_, ?_, ?_⟩ <;> apply ext3 <;> simp [ex, ey, ez, size, corner, Matrix.vecHead, Matrix.vecTail]
  · intro c
    have : c = ![c 0, c 1, c 2] := vec3_eq c
    rw [this]
    rcases c 0 <;> rcases c 1 <;> rcases c 2 <;> simp

open Corner in
/-- `for_each_edge` visits exactly the twelve unordered pairs of corners that differ in one coordinate,
each once. -/
theorem C34_edges (b : BBox K 3) :
    ∃ l : List ((Fin 3 → Corner) × (Fin 3 → Corner)), b.edges = l.map (fun e => (b.corner e.1, b.corner e.2)) ∧
      l.length = 12 ∧ (∀ e ∈ l, Neighbours e.1 e.2) ∧
      ∀ c d : Fin 3 → Corner, Neighbours c d → ((c, d) ∈ l ∧ (d, c) ∉ l) ∨ ((d, c) ∈ l ∧ (c, d) ∉ l) := by
  refine ⟨[(![max, max, max], ![max, min, max]), (![max, min, max], ![min, min, max]),
    (![min, min, max], ![min, max, max]), (![min, max, max], ![max, max, max]),
    (![min, min, min], ![max, min, min]), (![max, min, min], ![max, max, min]),
    (![max, max, min], ![min, max, min]), (![min, max, min], ![min, min, min]),
    (![min, min, min], ![min, min, max]), (![min, max, min], ![min, max, max]),
    (![max, max, min], ![max, max, max]), (![max, min, min], ![max, min, max])], ?_, rfl, ?_, ?_⟩
  · simp only [edges, List.map_cons, List.map_nil, List.cons.injEq, and_true, Prod.mk.injEq]
    refine ⟨⟨?_, ?_⟩, ⟨?_, ?_⟩, ⟨?_, ?_⟩, ⟨?_, ?_⟩, ⟨?_, ?_⟩, ⟨?_, ?_⟩, ⟨?_, ?_⟩, ⟨?_, ?_⟩, ⟨?_, ?_⟩,
      ⟨?_, ?_⟩, ⟨?_, ?_⟩, ⟨?_, ?_⟩⟩ <;> apply ext3 <;> simp [ex, ey, ez, size, corner, Matrix.vecHead, Matrix.vecTail]
  · decide +kernel
  · intro c d h
    have hc : c = ![c 0, c 1, c 2] := vec3_eq c
    have hd : d = ![d 0, d 1, d 2] := vec3_eq d
    rw [hc, hd] at h ⊢
    generalize c 0 = c0 at h ⊢; generalize c 1 = c1 at h ⊢; generalize c 2 = c2 at h ⊢
    generalize d 0 = d0 at h ⊢; generalize d 1 = d1 at h ⊢; generalize d 2 = d2 at h ⊢
    clear hc hd
    revert h c0 c1 c2 d0 d1 d2
    decide +kernel

open Corner in
/-- `for_each_face` visits the six faces: every face consists of the four corners whose coordinate on one
axis is fixed to the minimum or the maximum, in an order in which neighbours differ in one coordinate; the
announced normal is the outward unit vector of that axis; and the winding is clockwise seen from outside. -/
theorem C34_faces (b : BBox K 3) :
    ∃ l : List ((Fin 4 → Fin 3 → Corner) × Fin 3 × Corner),
      b.faces = l.map (fun f => (fun i => b.corner (f.1 i),
        fun j => if j = f.2.1 then (if f.2.2 = Corner.max then 1 else -1) else 0)) ∧
      (∀ (axis : Fin 3) (side : Corner), ∃! f, f ∈ l ∧ f.2 = (axis, side)) ∧
      (∀ f ∈ l, (∀ i, f.1 i f.2.1 = f.2.2) ∧ (∀ i, Neighbours (f.1 i) (f.1 (i + 1))) ∧
        Function.Injective f.1) := by
  refine ⟨[(![![max, max, max], ![max, min, max], ![min, min, max], ![min, max, max]], 2, max),
    (![![min, min, min], ![max, min, min], ![max, max, min], ![min, max, min]], 2, min),
    (![![min, min, min], ![min, min, max], ![max, min, max], ![max, min, min]], 1, min),
    (![![max, max, max], ![min, max, max], ![min, max, min], ![max, max, min]], 1, max),
    (![![min, min, min], ![min, max, min], ![min, max, max], ![min, min, max]], 0, min),
    (![![max, max, max], ![max, max, min], ![max, min, min], ![max, min, max]], 0, max)], ?_, ?_, ?_⟩
  · simp only [faces, List.map_cons, List.map_nil, List.cons.injEq, and_true, Prod.mk.injEq]
    refine ⟨⟨?_, ?_⟩, ⟨?_, ?_⟩, ⟨?_, ?_⟩, ⟨?_, ?_⟩, ⟨?_, ?_⟩, ⟨?_, ?_⟩⟩
    all_goals first
      | (funext i; fin_cases i <;> apply ext3 <;> simp [ex, ey, ez, size, corner, Matrix.vecHead, Matrix.vecTail])
      | (apply ext3 <;> simp)
  · intro axis side
    fin_cases axis <;> rcases side <;> simp [ExistsUnique]
  · intro f hf
    simp only [List.mem_cons, List.mem_nil_iff, or_false] at hf
    have inj : ∀ g : Fin 4 → Fin 3 → Corner, (∀ i j, g i = g j → i = j) → Function.Injective g :=
      fun g h i j => h i j
    rcases hf with rfl | rfl | rfl | rfl | rfl | rfl <;>
      exact ⟨by decide +kernel, by decide +kernel, inj _ (by decide +kernel)⟩

/-- Geometry of the faces of a valid box: every point of the box is on the inner side of every face, the
vertices are on it, and the cross product of the edge vectors in clockwise order is the announced normal
times the area of the face. -/
theorem C34_faces_outward (b : BBox K 3) (hb : b.min ≤ b.max) :
    ∀ f ∈ b.faces,
      (∀ p ∈ Set.Icc b.min b.max, ∀ i, dot f.2 p ≤ dot f.2 (f.1 i)) ∧ dot f.2 f.2 = 1 ∧
      ∃ area : K, 0 ≤ area ∧ (b.isEmpty = false → 0 < area) ∧
        ∀ i : Fin 4, cross (f.1 (i + 2) - f.1 i) (f.1 (i + 1) - f.1 i) = vscale f.2 area := by
  intro f hf
  have h0 := hb 0
  have h1 := hb 1
  have h2 := hb 2
  have hemp : b.isEmpty = false → b.min 0 < b.max 0 ∧ b.min 1 < b.max 1 ∧ b.min 2 < b.max 2 := by
    intro he
    simp only [isEmpty, ← Bool.not_eq_true, List.any_eq_true, List.mem_finRange, true_and, exact_le,
      decide_eq_true_eq, not_exists, not_le] at he
    exact ⟨he 0, he 1, he 2⟩
  simp only [faces, List.mem_cons, List.mem_nil_iff, or_false] at hf
  rcases hf with rfl | rfl | rfl | rfl | rfl | rfl
  · refine ⟨?_, by simp [dot3], (b.max 0 - b.min 0) * (b.max 1 - b.min 1), ?_, ?_, ?_⟩
    · intro p hp i
      have := hp.2 2
      fin_cases i <;> simp [dot3, ex, ey, ez, size, Matrix.vecHead, Matrix.vecTail] <;> linarith
    · exact mul_nonneg (by linarith) (by linarith)
    · intro he; obtain ⟨a, b, c⟩ := hemp he; exact mul_pos (by linarith) (by linarith)
    · intro i
      fin_cases i <;> apply ext3 <;> simp [cross, ex, ey, ez, size, vscale, Matrix.vecHead, Matrix.vecTail] <;> ring
  · refine ⟨?_, by simp [dot3], (b.max 0 - b.min 0) * (b.max 1 - b.min 1), ?_, ?_, ?_⟩
    · intro p hp i
      have := hp.1 2
      fin_cases i <;> simp [dot3, ex, ey, ez, size, Matrix.vecHead, Matrix.vecTail] <;> linarith
    · exact mul_nonneg (by linarith) (by linarith)
    · intro he; obtain ⟨a, b, c⟩ := hemp he; exact mul_pos (by linarith) (by linarith)
    · intro i
      fin_cases i <;> apply ext3 <;> simp [cross, ex, ey, ez, size, vscale, Matrix.vecHead, Matrix.vecTail] <;> ring
  · refine ⟨?_, by simp [dot3], (b.max 0 - b.min 0) * (b.max 2 - b.min 2), ?_, ?_, ?_⟩
    · intro p hp i
      have := hp.1 1
      fin_cases i <;> simp [dot3, ex, ey, ez, size, Matrix.vecHead, Matrix.vecTail] <;> linarith
    · exact mul_nonneg (by linarith) (by linarith)
    · intro he; obtain ⟨a, b, c⟩ := hemp he; exact mul_pos (by linarith) (by linarith)
    · intro i
      fin_cases i <;> apply ext3 <;> simp [cross, ex, ey, ez, size, vscale, Matrix.vecHead, Matrix.vecTail] <;> ring
  · refine ⟨?_, by simp [dot3], (b.max 0 - b.min 0) * (b.max 2 - b.min 2), ?_, ?_, ?_⟩
    · intro p hp i
      have := hp.2 1
      fin_cases i <;> simp [dot3, ex, ey, ez, size, Matrix.vecHead, Matrix.vecTail] <;> linarith
    · exact mul_nonneg (by linarith) (by linarith)
    · intro he; obtain ⟨a, b, c⟩ := hemp he; exact mul_pos (by linarith) (by linarith)
    · intro i
      fin_cases i <;> apply ext3 <;> simp [cross, ex, ey, ez, size, vscale, Matrix.vecHead, Matrix.vecTail] <;> ring
  · refine ⟨?_, by simp [dot3], (b.max 1 - b.min 1) * (b.max 2 - b.min 2), ?_, ?_, ?_⟩
    · intro p hp i
      have := hp.1 0
      fin_cases i <;> simp [dot3, ex, ey, ez, size, Matrix.vecHead, Matrix.vecTail] <;> linarith
    · exact mul_nonneg (by linarith) (by linarith)
    · intro he; obtain ⟨a, b, c⟩ := hemp he; exact mul_pos (by linarith) (by linarith)
    · intro i
      fin_cases i <;> apply ext3 <;> simp [cross, ex, ey, ez, size, vscale, Matrix.vecHead, Matrix.vecTail] <;> ring
  · refine ⟨?_, by simp [dot3], (b.max 1 - b.min 1) * (b.max 2 - b.min 2), ?_, ?_, ?_⟩
    · intro p hp i
      have := hp.2 0
      fin_cases i <;> simp [dot3, ex, ey, ez, size, Matrix.vecHead, Matrix.vecTail] <;> linarith
    · exact mul_nonneg (by linarith) (by linarith)
    · intro he; obtain ⟨a, b, c⟩ := hemp he; exact mul_pos (by linarith) (by linarith)
    · intro i
      fin_cases i <;> apply ext3 <;> simp [cross, ex, ey, ez, size, vscale, Matrix.vecHead, Matrix.vecTail] <;> ring

example : (⟨![0, 0, 0], ![1, 2, 3]⟩ : BBox ℚ 3).isEmpty = false ∧ (![0, 0, 0] : Vec ℚ 3) ≤ ![1, 2, 3] := by
  decide +kernel

end C34

/-! ### C35 -/
section C35
variable {K : Type u} [LinearOrder K] {S : ℕ}

/-- `relative_position` classifies every coordinate; all coordinates are `within` exactly for the points of
the box. -/
theorem C35_relativePosition (b : BBox K S) (p : Vec K S) (hb : b.min ≤ b.max) :
    (∀ i, (b.relativePosition p i = .less ↔ p i < b.min i) ∧
      (b.relativePosition p i = .greater ↔ b.max i < p i) ∧
      (b.relativePosition p i = .within ↔ b.min i ≤ p i ∧ p i ≤ b.max i)) ∧
    ((∀ i, b.relativePosition p i = .within) ↔ p ∈ Set.Icc b.min b.max) := by
  have key : ∀ i, (b.relativePosition p i = .less ↔ p i < b.min i) ∧
      (b.relativePosition p i = .greater ↔ b.max i < p i) ∧
      (b.relativePosition p i = .within ↔ b.min i ≤ p i ∧ p i ≤ b.max i) := by
    intro i
    simp only [relativePosition, exact_lt, decide_eq_true_eq]
    have := hb i
    by_cases h1 : p i < b.min i
    · simp [h1, (h1.trans_le this).le, not_le.2 h1]
    · by_cases h2 : b.max i < p i
      · simp [h1, h2, not_le.2 h2]
      · simp [h1, h2, not_lt.1 h1, not_lt.1 h2]
  refine ⟨key, ?_⟩
  simp only [fun i => (key i).2.2, Set.mem_Icc, Pi.le_def, forall_and]

example : (⟨![0, 0], ![2, 2]⟩ : BBox ℤ 2).relativePosition ![-1, 3] = ![.less, .greater] := by decide +kernel

end C35

/-! ### C36 -/
section C36

/-- The documentation of `bounds()` promises an empty box at the origin if nothing has been added.  The
code returns an invalid box instead. -/
theorem C36_counterexample {S : ℕ} (hS : 0 < S) :
    builderRun ([] : List (Add' ℚ S)) ≠ ⟨vfill S 0, vfill S 0⟩ ∧
    (builderRun ([] : List (Add' ℚ S))).isValid = false := by
  refine ⟨?_, init_invalid zero_lt_one hS⟩
  intro h
  have := congrFun (congrArg BBox.min h) ⟨0, hS⟩
  simp [builderRun, builderInit, vfill] at this

/-- What does hold: the state is recognised as uninitialised until the first addition and never again
afterwards. -/
theorem C36_initialized_partial {K : Type u} [LinearOrder K] [Zero K] [One K] {S : ℕ} (h01 : (0 : K) < 1)
    (hS : 0 < S) (history : List (Add' K S)) (hv : ∀ x ∈ history, addValid x) :
    builderInitialized (builderRun history) = true ↔ history ≠ [] := by
  rcases history with _ | ⟨x, l⟩
  · have : builderInitialized (builderRun ([] : List (Add' K S))) = false := init_invalid h01 hS
    simp [this]
  · simp only [ne_eq, reduceCtorEq, not_false_iff, iff_true]
    exact (builderRun_spec h01 hS (x :: l) (by simp) fun y hy => (addValid_iff y).1 (hv y hy)).1

example : ∀ x ∈ [Add'.point (![1, 2] : Vec ℚ 2)], addValid x := by simp [addValid]

end C36

/-! ### C82 -/
section C82
variable {K : Type u} [LinearOrder K] {S : ℕ}

/-- `repair` always returns a valid box, the smallest one that contains both stored corners, and leaves
valid boxes unchanged. -/
theorem C82_repair (b : BBox K S) :
    b.repair.isValid = true ∧ b.min ∈ Set.Icc b.repair.min b.repair.max ∧
    b.max ∈ Set.Icc b.repair.min b.repair.max ∧
    (∀ lo hi, b.min ∈ Set.Icc lo hi → b.max ∈ Set.Icc lo hi →
      Set.Icc b.repair.min b.repair.max ⊆ Set.Icc lo hi) ∧
    (b.isValid = true → b.repair = b) := by
  have e1 : b.repair.min = b.min ⊓ b.max := by simp [repair]; rfl
  have e2 : b.repair.max = b.min ⊔ b.max := by simp [repair]; rfl
  rw [isValid_iff, isValid_iff, e1, e2]
  refine ⟨inf_le_left.trans le_sup_left, ⟨inf_le_left, le_sup_left⟩, ⟨inf_le_right, le_sup_right⟩, ?_, ?_⟩
  · rintro lo hi ⟨h1, h2⟩ ⟨h3, h4⟩
    exact Set.Icc_subset_Icc (le_inf h1 h3) (sup_le h2 h4)
  · intro h
    exact ext' (by rw [e1, inf_eq_left.2 h]) (by rw [e2, sup_eq_right.2 h])

/-- `==` on boxes is equality of the corners, and for valid boxes equality of the point sets. -/
theorem C82_equality {K : Type u} [Field K] [LinearOrder K] [IsStrictOrderedRing K] (a b : BBox K S) :
    (a.beq b = true ↔ a = b) ∧ (a.bne b = true ↔ a ≠ b) ∧
    (a.min ≤ a.max → b.min ≤ b.max → (a.beq b = true ↔ Set.Icc a.min a.max = Set.Icc b.min b.max)) := by
  have h1 : a.beq b = true ↔ a = b := by
    simp only [beq, veq_exact, Bool.and_eq_true, decide_eq_true_eq]
    constructor
    · rintro ⟨h1, h2⟩; exact ext' h1 h2
    · rintro rfl; exact ⟨rfl, rfl⟩
  have h2 : a.bne b = !(a.beq b) := by
    simp only [BBox.bne, BBox.beq, vne, veq]
    rcases h : (vcompare a.min b.min 0 == 0) with _ | _ <;>
      rcases h' : (vcompare a.max b.max 0 == 0) with _ | _ <;> simp_all [_root_.bne]
  refine ⟨h1, by rw [h2, Bool.not_eq_true', ← Bool.not_eq_true, h1], ?_⟩
  intro ha hb
  rw [h1]
  constructor
  · rintro rfl; rfl
  · intro h
    have h3 : a.min ∈ Set.Icc b.min b.max := h ▸ Set.left_mem_Icc.2 ha
    have h4 : a.max ∈ Set.Icc b.min b.max := h ▸ Set.right_mem_Icc.2 ha
    have h5 : b.min ∈ Set.Icc a.min a.max := h ▸ Set.left_mem_Icc.2 hb
    have h6 : b.max ∈ Set.Icc a.min a.max := h ▸ Set.right_mem_Icc.2 hb
    exact ext' (le_antisymm h5.1 h3.1) (le_antisymm h4.2 h6.2)

example : (⟨![2, 0], ![0, 1]⟩ : BBox ℤ 2).repair = ⟨![0, 0], ![2, 1]⟩ := by decide +kernel

end C82
end vm
