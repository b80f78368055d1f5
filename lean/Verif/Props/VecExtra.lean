import Verif.Props.Rounding
import Verif.Props.ScalarMisc
import Verif.Props.Convert
import Verif.Model.Mat

/-!
# C91: component-wise vector functions
# C92: slices, extension, conversion and access
-/

set_option linter.unusedSectionVars false
set_option linter.unusedSimpArgs false

universe u

namespace vm

section C91
variable {K : Type u} [Field K] [LinearOrder K] [IsStrictOrderedRing K] {S : ℕ}

/-- `abs` of a vector has the absolute values of the components, `sign` their signs, and the component-wise product of the two is
the vector. -/
theorem C91_abs_sign (v : Vec K S) :
    (∀ i, vabs v i = |v i|) ∧ (∀ i, vsign v i = (SignType.sign (v i) : SignType)) ∧ vsign v * vabs v = v := by
  have h1 : ∀ i, vabs v i = |v i| := fun i => abs_exact (v i)
  have h2 : ∀ i, vsign v i = (SignType.sign (v i) : SignType) := by
    intro i
    show sign (v i) = _
    obtain ⟨-, -, h1, h2, h3, -⟩ := C15_step_sign (0 : K) (v i)
    rcases lt_trichotomy (v i) 0 with h | h | h
    · rw [h2 h, sign_neg h]; simp
    · rw [h, h3, sign_zero]; simp
    · rw [h1 h, sign_pos h]; simp
  refine ⟨h1, h2, ?_⟩
  funext i
  rw [Pi.mul_apply, h1]
  exact (C15_step_sign (0 : K) (v i)).2.2.2.2.2

/-- `step` is zero in the components below the edge and one in the others. -/
theorem C91_step (e v : Vec K S) (i : Fin S) : (vstep e v i = 0 ↔ v i < e i) ∧ (vstep e v i = 1 ↔ e i ≤ v i) := by
  obtain ⟨h1, h2, -⟩ := C15_step_sign (e i) (v i)
  rcases lt_or_ge (v i) (e i) with h | h
  · have : vstep e v i = 0 := h1 h
    simp [this, h]
  · have : vstep e v i = 1 := h2 h
    simp [this, h]

/-- `smoothstep` interpolates every component between its own edges. -/
theorem C91_smoothstep (e0 e1 v w : Vec K S) (he : ∀ i, e0 i < e1 i) (i : Fin S) :
    (v i ≤ e0 i → vsmoothstep e0 e1 v i = 0) ∧ (e1 i ≤ v i → vsmoothstep e0 e1 v i = 1) ∧
    0 ≤ vsmoothstep e0 e1 v i ∧ vsmoothstep e0 e1 v i ≤ 1 ∧
    (v i ≤ w i → vsmoothstep e0 e1 v i ≤ vsmoothstep e0 e1 w i) := by
  obtain ⟨h1, h2, ⟨h3, h4⟩, h5, -⟩ := C15_smoothstep (e0 i) (e1 i) (v i) (w i) (he i)
  exact ⟨h1, h2, h3, h4, h5⟩

/-- Dividing a scalar by a vector and a vector by a scalar are undone by multiplication. -/
theorem C91_division (s : K) (v : Vec K S) (hv : ∀ i, v i ≠ 0) (hs : s ≠ 0) {R C : ℕ} (m : Mat K R C) :
    (∀ i, vsdiv s v i * v i = s) ∧ vscale (vdivs v s) s = v ∧ mscale (mdivs m s) s = m := by
  refine ⟨fun i => ?_, ?_, ?_⟩
  · rw [vsdiv]; exact div_mul_cancel₀ _ (hv i)
  · funext i; exact div_mul_cancel₀ _ hs
  · funext c r; exact div_mul_cancel₀ _ hs

section floorRing
variable [FloorRing K]

/-- `fract` of a vector is defined exactly if all components are in the range of 64 bit integers; the result differs from the
vector by integers, has components of absolute value less than one and of the same sign. -/
theorem C91_fract (v r : Vec K S) :
    vfract v = some r ↔ ∀ i, InInt64 (v i) ∧ 0 ≤ r i * v i ∧ |r i| < 1 ∧ |r i| ≤ |v i| ∧ ∃ n : ℤ, v i = n + r i := by
  rw [vfract, vmapUB_eq_some]
  exact forall_congr' fun i => C05_fract (v i) (r i)

/-- `mod` of vectors is the truncated remainder in every component. -/
theorem C91_mod (v f r : Vec K S) :
    vmod v f = some r ↔ ∀ i, f i ≠ 0 ∧ InInt64 (v i / f i) ∧ 0 ≤ r i * v i ∧ |r i| < |f i| ∧ |r i| ≤ |v i| ∧
      ∃ n : ℤ, v i = f i * n + r i := by
  rw [vmod, vmapUB_eq_some]
  exact forall_congr' fun i => C07_mod (v i) (f i) (r i)

/-- `correct` with zero decimals replaces the components that are close to an integer by this integer and leaves the others
unchanged (with more decimals the function does not do what it should, see C10). -/
theorem C91_correct (v r : Vec K S) (eps : K) (h : ∀ i, RoundRange (v i)) (hr : vcorrect v 0 eps = some r) (i : Fin S) :
    (∃ n : ℤ, |v i - n| < eps ∧ |v i - n| ≤ 1 / 2 ∧ r i = n) ∨ ((∀ n : ℤ, eps ≤ |v i - n|) ∧ r i = v i) := by
  rw [vcorrect, vmapUB_eq_some] at hr
  rcases C10_correct_partial (v i) eps (h i) with ⟨n, h1, h2, h3⟩ | ⟨h1, h2⟩
  · rw [hr i, Option.some.injEq] at h3
    exact Or.inl ⟨n, h1, h2, h3⟩
  · rw [hr i, Option.some.injEq] at h2
    exact Or.inr ⟨h1, h2⟩

/-- `correct` is defined for these vectors. -/
theorem C91_correct_defined (v : Vec K S) (eps : K) (h : ∀ i, RoundRange (v i)) : ∃ r, vcorrect v 0 eps = some r := by
  have : ∀ i, ∃ r, correct (v i) 0 eps = some r := by
    intro i
    rcases C10_correct_partial (v i) eps (h i) with ⟨n, _, _, h3⟩ | ⟨_, h2⟩
    exacts [⟨_, h3⟩, ⟨_, h2⟩]
  choose r hr using this
  exact ⟨r, (vmapUB_eq_some _ _).2 hr⟩

/-- `correct` with one or more decimals and a tolerance of at most 1/4 does nothing but replace components close to zero by zero. -/
theorem C91_correct_decimals (v r : Vec K S) (eps : K) (d : ℕ) (hd : 1 ≤ d) (he : eps ≤ 1 / 4) (hr : vcorrect v d eps = some r) (i : Fin S) :
    r i = v i ∨ (r i = 0 ∧ |v i| < eps) :=
  C10_correct_decimals_inert _ _ _ d hd he ((vmapUB_eq_some _ _).1 hr i)

example : vcorrect (fun _ => 5001 / 10000 : Vec ℚ 2) 1 (1 / 1000) = some fun _ => 5001 / 10000 :=
  (vmapUB_eq_some _ _).2 fun _ => C10_counterexample

end floorRing

/-- `is_nan` of a floating point vector holds exactly if a component is NaN. -/
theorem C91_is_nan {F : Fmt} (v : Vec (Flt F) S) : visNan v = true ↔ ∃ i, v i = Flt.nan := by
  have h : ∀ x : Flt F, isNan x = true ↔ x = Flt.nan := by
    intro x
    rw [isNan_iff_key]
    show Flt.key x = none ↔ _
    cases x <;> simp [Flt.key]
  simp only [visNan, List.any_eq_true, List.mem_finRange, true_and, h]

example : (∀ i, (![0, 0] : Vec ℚ 2) i < ![1, 2] i) ∧ (∀ i, (![1, 2] : Vec ℚ 2) i ≠ 0) ∧
    vsmoothstep (![0, 0] : Vec ℚ 2) ![1, 2] ![1/2, 3] = ![1/2, 1] ∧ vstep (![0, 0] : Vec ℚ 2) ![-1, 2] = ![0, 1] ∧
    vabs (![-1, 2] : Vec ℚ 2) = ![1, 2] ∧ vsign (![-1, 2] : Vec ℚ 2) = ![-1, 1] ∧
    (∀ i, RoundRange ((![1/3, 5/2] : Vec ℚ 2) i)) := by
  refine ⟨by decide +kernel, by decide +kernel, by decide +kernel, by decide +kernel, by decide +kernel, by decide +kernel, ?_⟩
  intro i
  unfold RoundRange
  fin_cases i <;> norm_num

end C91

/-! ### C92 -/
section C92
variable {T : Type u} {S R C : ℕ}

/-- Slicing an extended vector gives the two parts, and joining two consecutive slices gives the vector. -/
theorem C92_slice_extend {k : ℕ} (a : Vec T S) (b : Vec T k) (v : Vec T (S + k)) :
    vslice S (vextend a b) 0 (by omega) = a ∧ vslice k (vextend a b) S (by omega) = b ∧
    vextend (vslice S v 0 (by omega)) (vslice k v S (by omega)) = v := by
  refine ⟨?_, ?_, ?_⟩
  · funext i
    exact Fin.append_left a b i
  · funext i
    have : (⟨i.val + S, by omega⟩ : Fin (S + k)) = Fin.natAdd S i := by ext; simp [add_comm]
    rw [vslice, this]
    exact Fin.append_right a b i
  · funext i
    refine Fin.addCases (fun j => ?_) (fun j => ?_) i
    · rw [vextend, Fin.append_left]; rfl
    · rw [vextend, Fin.append_right, vslice]
      congr 1
      ext; simp [add_comm]

/-- A slice of a slice is a slice with the sum of the offsets; the slice of full length is the vector. -/
theorem C92_slice_slice (v : Vec T S) (k l i j : ℕ) (h1 : i + k ≤ S) (h2 : j + l ≤ k) :
    vslice l (vslice k v i h1) j h2 = vslice l v (i + j) (by omega) ∧ vslice S v 0 (by omega) = v := by
  refine ⟨?_, ?_⟩
  · funext m
    simp only [vslice]
    congr 1
    ext; simp only; omega
  · funext m; rfl

/-- Converting to a vector of at least the same length and back gives the original vector; the additional components are zero,
and converting to a shorter vector keeps the first components. -/
theorem C92_convert [Zero T] (v : Vec T S) (k : ℕ) (hk : S ≤ k) :
    vconvert id S (vconvert id k v) = v ∧ (∀ i : Fin k, S ≤ i.val → vconvert id k v i = 0) ∧
    ∀ (m : ℕ) (hm : m ≤ S), vconvert id m v = vslice m v 0 (by omega) := by
  refine ⟨?_, ?_, ?_⟩
  · funext i
    have h1 : i.val < k := by omega
    simp [vconvert, h1]
  · intro i hi
    simp [vconvert, hi]
  · intro m hm
    funext i
    have h1 : i.val < S := by omega
    simp [vconvert, vslice, h1]

/-- A vector made from a list has the elements of the list in order; missing elements are zero and surplus elements are ignored;
a vector made from its own components is the vector. -/
theorem C92_of_list [Zero T] (l : List T) (v : Vec T S) (rest : List T) :
    (∀ i : Fin S, (∃ h : i.val < l.length, vofList S l i = l[i.val]) ∨ (l.length ≤ i.val ∧ vofList S l i = 0)) ∧
    vofList S (List.ofFn v ++ rest) = v := by
  constructor
  · intro i
    rcases lt_or_ge i.val l.length with h | h
    · left; exact ⟨h, by simp [vofList, h]⟩
    · right; exact ⟨h, by simp [vofList, h]⟩
  · funext i
    have : i.val < (List.ofFn v ++ rest).length := by simp; omega
    simp [vofList, List.getD_eq_getElem?_getD, List.getElem?_append_left]

/-- After setting an element of a matrix, reading it gives the new value and all other elements are unchanged. -/
theorem C92_set (m : Mat T R C) (r : Fin R) (c : Fin C) (x : T) :
    mset m r c x c r = x ∧ ∀ r' c', (r' ≠ r ∨ c' ≠ c) → mset m r c x c' r' = m c' r' := by
  constructor
  · simp [mset]
  · intro r' c' h
    unfold mset
    by_cases hc : c' = c
    · subst hc
      have : r' ≠ r := by rcases h with h | h <;> [exact h; exact absurd rfl h]
      simp [this]
    · simp [hc]

/-- A slice of a matrix has the elements from the given row and column on; a slice of a slice is a slice, and a slice of full
size is the matrix. -/
theorem C92_matrix_slice (m : Mat T R C) (RR RC r c RR' RC' r' c' : ℕ) (hr : r + RR ≤ R) (hc : c + RC ≤ C)
    (hr' : r' + RR' ≤ RR) (hc' : c' + RC' ≤ RC) :
    (∀ (i : Fin RR) (j : Fin RC), mslice RR RC m r c hr hc j i = m ⟨c + j, by omega⟩ ⟨r + i, by omega⟩) ∧
    mslice RR' RC' (mslice RR RC m r c hr hc) r' c' hr' hc' = mslice RR' RC' m (r + r') (c + c') (by omega) (by omega) ∧
    mslice R C m 0 0 (by omega) (by omega) = m := by
  refine ⟨?_, ?_, rfl⟩
  · intro i j
    simp only [mslice]
    congr 1 <;> ext <;> simp only [add_comm]
  · funext i j
    simp only [mslice]
    congr 1 <;> ext <;> simp only <;> omega

/-- Converting the scalar type of a matrix and converting back gives the original if the conversions are inverse on the elements;
a filled matrix has the same value everywhere. -/
theorem C92_matrix_convert {U : Type u} (cast : T → U) (back : U → T) (m : Mat T R C) (h : ∀ c r, back (cast (m c r)) = m c r)
    (x : T) :
    mconvert back (mconvert cast m) = m ∧ (∀ c r, mconvert cast m c r = cast (m c r)) ∧
    (∀ c r c' r', mfill R C x c r = mfill R C x c' r') ∧ mconvert cast (mfill R C x) = mfill R C (cast x) := by
  refine ⟨?_, fun _ _ => rfl, fun _ _ _ _ => rfl, rfl⟩
  funext c r; exact h c r

example : vconvert id 2 (vconvert id 3 (![1, 2] : Vec ℚ 2)) = ![1, 2] ∧ vofList 3 [(1:ℚ), 2] = ![1, 2, 0] ∧
    vslice 2 (![1, 2, 3] : Vec ℚ 3) 1 (by decide) = ![2, 3] ∧
    mslice 1 2 ![![(1:ℚ), 2], ![3, 4]] 1 0 (by decide) (by decide) = ![![2], ![4]] := by decide +kernel

end C92
end vm
