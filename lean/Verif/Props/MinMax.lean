import Verif.Lemmas.Scalar
import Mathlib.Tactic.NormNum

/-! # C03, C04: minimum, maximum and clamping -/

universe u

set_option linter.unusedSectionVars false
set_option linter.unusedSimpArgs false

namespace vm
section C03
variable {T : Type u} [IEEE T]

theorem isNan_false_iff (a : T) : isNan a = false ↔ ∃ x, IEEE.key a = some x := by
  rw [← Bool.not_eq_true, isNan_iff_key, ← ne_eq, Option.ne_none_iff_exists']

/-- `safe_min` of a non-empty argument list returns one of its arguments; it is NaN only if all
arguments are NaN; otherwise it is below every argument that is not NaN. -/
theorem C03_safeMin (v : T) (rest : List T) :
    safeMin v rest ∈ v :: rest ∧
    (isNan (safeMin v rest) = true ↔ ∀ x ∈ v :: rest, isNan x = true) ∧
    (∀ x ∈ v :: rest, isNan x = false → Cmp.le (safeMin v rest) x = true) := by
  induction rest generalizing v with
  | nil =>
    refine ⟨by simp [safeMin], by simp [safeMin], ?_⟩
    intro x hx hn
    simp only [List.mem_singleton] at hx
    subst hx
    obtain ⟨k, hk⟩ := (isNan_false_iff _).1 hn
    simp [safeMin, le_of_keys hk hk]
  | cons r rest ih =>
    unfold safeMin
    split_ifs with h1 h2 h3
    · obtain ⟨i1, i2, i3⟩ := ih r
      refine ⟨List.mem_cons_of_mem _ i1, ?_, ?_⟩
      · rw [i2]; simp [h1]
      · intro x hx hn
        rcases List.mem_cons.1 hx with rfl | hx
        · rw [h1] at hn; cases hn
        · exact i3 x hx hn
    · obtain ⟨i1, i2, i3⟩ := ih v
      refine ⟨?_, ?_, ?_⟩
      · rcases List.mem_cons.1 i1 with h | h
        · rw [h]; simp
        · exact List.mem_cons_of_mem _ (List.mem_cons_of_mem _ h)
      · rw [i2]; simp [h1, h2]
      · intro x hx hn
        rcases List.mem_cons.1 hx with rfl | hx
        · exact i3 _ (List.mem_cons_self) hn
        · rcases List.mem_cons.1 hx with rfl | hx
          · rw [h2] at hn; cases hn
          · exact i3 x (List.mem_cons_of_mem _ hx) hn
    · obtain ⟨i1, i2, i3⟩ := ih v
      refine ⟨?_, ?_, ?_⟩
      · rcases List.mem_cons.1 i1 with h | h
        · rw [h]; simp
        · exact List.mem_cons_of_mem _ (List.mem_cons_of_mem _ h)
      · rw [i2]; simp [h1]
      · intro x hx hn
        rcases List.mem_cons.1 hx with rfl | hx
        · exact i3 _ (List.mem_cons_self) hn
        · rcases List.mem_cons.1 hx with rfl | hx
          · have hv := i3 v List.mem_cons_self (by simpa using h1)
            obtain ⟨a, b, ha, hb, hab⟩ := (IEEE.le_iff _ _).1 hv
            obtain ⟨c, d, hc, hd, hcd⟩ := (IEEE.lt_iff _ _).1 h3
            rw [hb] at hc; cases hc
            exact (IEEE.le_iff _ _).2 ⟨a, d, ha, hd, hab.trans hcd.le⟩
          · exact i3 x (List.mem_cons_of_mem _ hx) hn
    · obtain ⟨i1, i2, i3⟩ := ih r
      refine ⟨List.mem_cons_of_mem _ i1, ?_, ?_⟩
      · rw [i2]; simp [h2]
      · intro x hx hn
        rcases List.mem_cons.1 hx with rfl | hx
        · have hv := i3 r List.mem_cons_self (by simpa using h2)
          obtain ⟨a, b, ha, hb, hab⟩ := (IEEE.le_iff _ _).1 hv
          obtain ⟨k, hk⟩ := (isNan_false_iff _).1 hn
          rw [lt_of_keys hk hb] at h3
          simp only [decide_eq_true_eq, not_lt] at h3
          exact (IEEE.le_iff _ _).2 ⟨a, k, ha, hk, hab.trans h3⟩
        · exact i3 x hx hn

/-- `safe_max`, dually. -/
theorem C03_safeMax (v : T) (rest : List T) :
    safeMax v rest ∈ v :: rest ∧
    (isNan (safeMax v rest) = true ↔ ∀ x ∈ v :: rest, isNan x = true) ∧
    (∀ x ∈ v :: rest, isNan x = false → Cmp.le x (safeMax v rest) = true) := by
  induction rest generalizing v with
  | nil =>
    refine ⟨by simp [safeMax], by simp [safeMax], ?_⟩
    intro x hx hn
    simp only [List.mem_singleton] at hx
    subst hx
    obtain ⟨k, hk⟩ := (isNan_false_iff _).1 hn
    simp [safeMax, le_of_keys hk hk]
  | cons r rest ih =>
    unfold safeMax
    split_ifs with h1 h2 h3
    · obtain ⟨i1, i2, i3⟩ := ih r
      refine ⟨List.mem_cons_of_mem _ i1, ?_, ?_⟩
      · rw [i2]; simp [h1]
      · intro x hx hn
        rcases List.mem_cons.1 hx with rfl | hx
        · rw [h1] at hn; cases hn
        · exact i3 x hx hn
    · obtain ⟨i1, i2, i3⟩ := ih v
      refine ⟨?_, ?_, ?_⟩
      · rcases List.mem_cons.1 i1 with h | h
        · rw [h]; simp
        · exact List.mem_cons_of_mem _ (List.mem_cons_of_mem _ h)
      · rw [i2]; simp [h1, h2]
      · intro x hx hn
        rcases List.mem_cons.1 hx with rfl | hx
        · exact i3 _ (List.mem_cons_self) hn
        · rcases List.mem_cons.1 hx with rfl | hx
          · rw [h2] at hn; cases hn
          · exact i3 x (List.mem_cons_of_mem _ hx) hn
    · obtain ⟨i1, i2, i3⟩ := ih v
      refine ⟨?_, ?_, ?_⟩
      · rcases List.mem_cons.1 i1 with h | h
        · rw [h]; simp
        · exact List.mem_cons_of_mem _ (List.mem_cons_of_mem _ h)
      · rw [i2]; simp [h1]
      · intro x hx hn
        rcases List.mem_cons.1 hx with rfl | hx
        · exact i3 _ (List.mem_cons_self) hn
        · rcases List.mem_cons.1 hx with rfl | hx
          · have hv := i3 v List.mem_cons_self (by simpa using h1)
            obtain ⟨a, b, ha, hb, hab⟩ := (IEEE.le_iff _ _).1 hv
            obtain ⟨c, d, hc, hd, hcd⟩ := (IEEE.lt_iff _ _).1 h3
            rw [ha] at hd; cases hd
            exact (IEEE.le_iff _ _).2 ⟨c, b, hc, hb, hcd.le.trans hab⟩
          · exact i3 x (List.mem_cons_of_mem _ hx) hn
    · obtain ⟨i1, i2, i3⟩ := ih r
      refine ⟨List.mem_cons_of_mem _ i1, ?_, ?_⟩
      · rw [i2]; simp [h2]
      · intro x hx hn
        rcases List.mem_cons.1 hx with rfl | hx
        · have hv := i3 r List.mem_cons_self (by simpa using h2)
          obtain ⟨a, b, ha, hb, hab⟩ := (IEEE.le_iff _ _).1 hv
          obtain ⟨k, hk⟩ := (isNan_false_iff _).1 hn
          rw [lt_of_keys ha hk] at h3
          simp only [decide_eq_true_eq, not_lt] at h3
          exact (IEEE.le_iff _ _).2 ⟨k, b, hk, hb, h3.trans hab⟩
        · exact i3 x hx hn

theorem vmin_eq_safeMin_of_no_nan (v : T) (rest : List T)
    (h : ∀ x ∈ v :: rest, isNan x = false) : vmin v rest = safeMin v rest := by
  induction rest generalizing v with
  | nil => rfl
  | cons r rest ih =>
    have hv : isNan v = false := h v (by simp)
    have hr : isNan r = false := h r (by simp)
    have h' : ∀ x ∈ rest, isNan x = false := fun x hx => h x (by simp [hx])
    have i1 := ih v (by intro x hx; rcases List.mem_cons.1 hx with rfl | hx <;> [exact hv; exact h' x hx])
    have i2 := ih r (by intro x hx; rcases List.mem_cons.1 hx with rfl | hx <;> [exact hr; exact h' x hx])
    simp [vmin, safeMin, hv, hr, i1, i2]

theorem vmax_eq_safeMax_of_no_nan (v : T) (rest : List T)
    (h : ∀ x ∈ v :: rest, isNan x = false) : vmax v rest = safeMax v rest := by
  induction rest generalizing v with
  | nil => rfl
  | cons r rest ih =>
    have hv : isNan v = false := h v (by simp)
    have hr : isNan r = false := h r (by simp)
    have h' : ∀ x ∈ rest, isNan x = false := fun x hx => h x (by simp [hx])
    have i1 := ih v (by intro x hx; rcases List.mem_cons.1 hx with rfl | hx <;> [exact hv; exact h' x hx])
    have i2 := ih r (by intro x hx; rcases List.mem_cons.1 hx with rfl | hx <;> [exact hr; exact h' x hx])
    simp [vmax, safeMax, hv, hr, i1, i2]

/-- Plain `min` and `max` always return one of their arguments (NaN or not) and, if no argument is NaN,
the least and the greatest one. -/
theorem C03_min_max (v : T) (rest : List T) :
    vmin v rest ∈ v :: rest ∧ vmax v rest ∈ v :: rest ∧
    ((∀ x ∈ v :: rest, isNan x = false) →
      ∀ x ∈ v :: rest, Cmp.le (vmin v rest) x = true ∧ Cmp.le x (vmax v rest) = true) := by
  refine ⟨?_, ?_, ?_⟩
  · induction rest generalizing v with
    | nil => simp [vmin]
    | cons r rest ih =>
      unfold vmin
      split_ifs
      · rcases List.mem_cons.1 (ih v) with h | h
        · rw [h]; simp
        · exact List.mem_cons_of_mem _ (List.mem_cons_of_mem _ h)
      · exact List.mem_cons_of_mem _ (ih r)
  · induction rest generalizing v with
    | nil => simp [vmax]
    | cons r rest ih =>
      unfold vmax
      split_ifs
      · rcases List.mem_cons.1 (ih v) with h | h
        · rw [h]; simp
        · exact List.mem_cons_of_mem _ (List.mem_cons_of_mem _ h)
      · exact List.mem_cons_of_mem _ (ih r)
  · intro h x hx
    rw [vmin_eq_safeMin_of_no_nan v rest h, vmax_eq_safeMax_of_no_nan v rest h]
    exact ⟨(C03_safeMin v rest).2.2 x hx (h x hx), (C03_safeMax v rest).2.2 x hx (h x hx)⟩

/-- Unlike `safe_min`, plain `min` does not ignore NaN: whether a NaN argument survives depends on its
position. -/
theorem C03_min_position_dependent (x : T) (n : T) (hn : isNan n = true) :
    vmin x [n] = n ∧ vmin n [x] = x := by
  have hk := (isNan_iff_key n).1 hn
  simp [vmin, lt_false_of_none_left hk, lt_false_of_none_right hk]

example (F : Fmt) : safeMin (Flt.nan : Flt F) [1, Flt.nan, 0] = 0 ∧
    isNan (safeMin (Flt.nan : Flt F) [Flt.nan]) = true := by
  have h1 : isNan (Flt.nan : Flt F) = true := rfl
  have h2 : isNan (1 : Flt F) = false := by
    rw [isNan_false_iff]; exact ⟨_, rfl⟩
  have h3 : isNan (0 : Flt F) = false := by
    rw [isNan_false_iff]; exact ⟨_, rfl⟩
  have h4 : Cmp.lt (1 : Flt F) 0 = false := by
    rw [← Bool.not_eq_true, IEEE.lt_iff]
    rintro ⟨x, y, hx, hy, hxy⟩
    cases hx; cases hy
    have : (1 : ℚ) < 0 := WithTop.coe_lt_coe.1 (WithBot.coe_lt_coe.1 hxy)
    norm_num at this
  simp [safeMin, h1, h2, h3, h4]

end C03

section C04
variable {T : Type u} [IEEE T]

/-- For bounds with `minV <= maxV` (in particular neither is NaN), `clamp` always lands in the interval,
whatever the value is: NaN and infinities included. -/
theorem C04_clamp_in_interval (v minV maxV : T) (h : Cmp.le minV maxV = true) :
    Cmp.le minV (clamp v minV maxV) = true ∧ Cmp.le (clamp v minV maxV) maxV = true := by
  obtain ⟨a, b, ha, hb, hab⟩ := (IEEE.le_iff _ _).1 h
  unfold clamp min2 max2 vmin vmax
  simp only [vmin, vmax]
  split_ifs with h1 h2 h2
  · obtain ⟨c, d, hc, hd, hcd⟩ := (IEEE.lt_iff _ _).1 h1
    obtain ⟨e, f, he, hf, hef⟩ := (IEEE.lt_iff _ _).1 h2
    rw [he] at ha; cases ha
    rw [hf] at hc; cases hc
    rw [hd] at hb; cases hb
    simp [le_of_keys he hf, le_of_keys hf hd, hef.le, hcd.le]
  · simp [le_of_keys ha ha, le_of_keys ha hb, hab]
  · simp [le_of_keys ha hb, le_of_keys hb hb, hab]
  · simp [le_of_keys ha ha, le_of_keys ha hb, hab]

/-- `clamp` returns the value itself if it is inside the interval (with `==` in place of identity only
in the sense that a bound equal to the value may be returned instead). -/
theorem C04_clamp_inside (v minV maxV : T) (h1 : Cmp.le minV v = true) (h2 : Cmp.le v maxV = true) :
    Cmp.eq (clamp v minV maxV) v = true := by
  obtain ⟨a, b, ha, hb, hab⟩ := (IEEE.le_iff _ _).1 h1
  obtain ⟨c, d, hc, hd, hcd⟩ := (IEEE.le_iff _ _).1 h2
  rw [hb] at hc; cases hc
  unfold clamp min2 max2
  simp only [vmin, vmax, lt_of_keys hb hd]
  split_ifs with h3 h4 h4
  · simp [eq_of_keys hb hb]
  · rw [lt_of_keys ha hb] at h4
    simp only [decide_eq_true_eq, not_lt] at h4
    rw [eq_of_keys ha hb]; simp [le_antisymm hab h4]
  · simp only [decide_eq_true_eq, not_lt] at h3
    rw [eq_of_keys hd hb]; simp [le_antisymm h3 hcd]
  · simp only [decide_eq_true_eq, not_lt] at h3
    rw [lt_of_keys ha hd] at h4
    simp only [decide_eq_true_eq, not_lt] at h4
    rw [eq_of_keys ha hb]; simp [le_antisymm hab (hcd.trans h4)]

/-- NaN is mapped to the upper bound by the scalar version but to the lower bound by the vector
version. -/
theorem C04_clamp_nan {S : ℕ} (n minV maxV : T) (hn : isNan n = true)
    (h : Cmp.lt minV maxV = true) :
    clamp n minV maxV = maxV ∧ ∀ i : Fin S, vclamp (vfill S n) (vfill S minV) (vfill S maxV) i = minV := by
  have hk := (isNan_iff_key n).1 hn
  constructor
  · simp [clamp, min2, max2, vmin, vmax, lt_false_of_none_left hk, h]
  · intro i
    simp [vclamp, vmin2, vmax2, vvmin, vvmax, vmin, vmax, vfill, lt_false_of_none_right hk, h]

end C04

section C04exact
variable {K : Type u} [Field K] [LinearOrder K] [IsStrictOrderedRing K] {S : ℕ}

/-- For `minV ≤ maxV` the result of `clamp` is the point of the interval closest to `v`. -/
theorem C04_clamp_closest (v minV maxV w : K) (h : minV ≤ maxV) (hw : minV ≤ w ∧ w ≤ maxV) :
    |v - clamp v minV maxV| ≤ |v - w| := by
  rw [clamp_exact]
  rcases le_total v maxV with h1 | h1
  · rw [min_eq_left h1]
    rcases le_total v minV with h2 | h2
    · rw [max_eq_right h2, abs_sub_comm, abs_sub_comm v w, abs_of_nonneg (by linarith),
        abs_of_nonneg (by linarith [hw.1])]
      linarith [hw.1]
    · rw [max_eq_left h2]; simp
  · rw [min_eq_right h1, max_eq_left h, abs_of_nonneg (by linarith),
      abs_of_nonneg (by linarith [hw.2])]
    linarith [hw.2]

/-- `clamp` is idempotent and monotone for every choice of bounds. -/
theorem C04_clamp_idempotent_monotone (v w minV maxV : K) :
    clamp (clamp v minV maxV) minV maxV = clamp v minV maxV ∧
    (v ≤ w → clamp v minV maxV ≤ clamp w minV maxV) := by
  simp only [clamp_exact]
  constructor
  · rcases le_total minV maxV with h | h
    · rw [min_eq_left (max_le (min_le_right _ _) h), max_eq_left (le_max_right _ _)]
    · have : max (min v maxV) minV = minV := max_eq_right ((min_le_right _ _).trans h)
      rw [this, max_eq_right ((min_le_right _ _).trans h)]
  · intro h
    exact max_le_max (min_le_min h le_rfl) le_rfl

/-- Scalar and vector `clamp` agree component-wise if `minVal ≤ maxVal` in that component; otherwise the
scalar version yields the lower and the vector version the upper bound. -/
theorem C04_vclamp_agrees (v minVal maxVal : Vec K S) (i : Fin S) :
    (minVal i ≤ maxVal i → vclamp v minVal maxVal i = clamp (v i) (minVal i) (maxVal i)) ∧
    (maxVal i < minVal i →
      vclamp v minVal maxVal i = maxVal i ∧ clamp (v i) (minVal i) (maxVal i) = minVal i) := by
  simp only [vclamp, vmin2_exact, vmax2_exact, clamp_exact]
  constructor
  · intro h
    rcases le_total (v i) (minVal i) with h1 | h1
    · rw [max_eq_right h1, min_eq_left h, min_eq_left (h1.trans h), max_eq_right h1]
    · rw [max_eq_left h1, max_eq_left (le_min h1 h)]
  · intro h
    exact ⟨min_eq_right (h.le.trans (le_max_right _ _)), max_eq_right ((min_le_right _ _).trans h.le)⟩

example : clamp (5 : ℚ) 0 1 = 1 ∧ clamp (-5 : ℚ) 0 1 = 0 ∧ clamp (1 / 2 : ℚ) 0 1 = 1 / 2 ∧
    Cmp.le (0 : ℚ) 1 = true := by
  simp only [clamp_exact]; norm_num

end C04exact
end vm
