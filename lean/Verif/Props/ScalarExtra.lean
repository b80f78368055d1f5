import Verif.Lemmas.Flt
import Verif.Lemmas.Scalar
import Verif.Props.Sort

/-!
# C90: selection by magnitude, interval membership and angle units
-/

set_option linter.unusedSectionVars false
set_option linter.unusedSimpArgs false

universe u

namespace vm

/-! ### Lemmas -/

/-- A selection loop that keeps the current element only if the next one is strictly smaller ends with the last of the largest
elements. -/
theorem pickLast {T : Type u} {L : Type*} [LinearOrder L] (f : T → L) (P : T → Prop) (sel : T → List T → T)
    (h0 : ∀ v, sel v [] = v)
    (h1 : ∀ v w l, P v → P w → sel v (w :: l) = if f w < f v then sel v l else sel w l) :
    ∀ (l : List T) (v : T), P v → (∀ x ∈ l, P x) →
      ∃ pre post, v :: l = pre ++ sel v l :: post ∧ (∀ x ∈ pre, f x ≤ f (sel v l)) ∧ ∀ x ∈ post, f x < f (sel v l) := by
  intro l
  induction l with
  | nil => intro v _ _; exact ⟨[], [], by simp [h0], by simp, by simp⟩
  | cons w l ih =>
    intro v hv hl
    have hw := hl w (by simp)
    rw [h1 v w l hv hw]
    split_ifs with h
    · obtain ⟨pre, post, e, h2, h3⟩ := ih v hv (fun x hx => hl x (by simp [hx]))
      cases pre with
      | nil =>
        simp only [List.nil_append, List.cons.injEq] at e
        refine ⟨[], w :: post, by simp [← e.1, ← e.2], by simp, ?_⟩
        intro x hx
        rcases List.mem_cons.1 hx with rfl | hx
        · rw [← e.1]; exact h
        · exact h3 x hx
      | cons y pre =>
        simp only [List.cons_append, List.cons.injEq] at e
        obtain ⟨rfl, e⟩ := e
        refine ⟨v :: w :: pre, post, by simp [← e], ?_, h3⟩
        have hvr := h2 v (by simp)
        intro x hx
        simp only [List.mem_cons] at hx
        rcases hx with rfl | rfl | hx
        · exact hvr
        · exact h.le.trans hvr
        · exact h2 x (by simp [hx])
    · obtain ⟨pre, post, e, h2, h3⟩ := ih w hw (fun x hx => hl x (by simp [hx]))
      refine ⟨v :: pre, post, by rw [List.cons_append, ← e], ?_, h3⟩
      have hwr : f w ≤ f (sel w l) := by
        cases pre with
        | nil =>
          simp only [List.nil_append, List.cons.injEq] at e
          rw [← e.1]
        | cons y pre =>
          simp only [List.cons_append, List.cons.injEq] at e
          exact h2 w (by simp [e.1])
      intro x hx
      rcases List.mem_cons.1 hx with rfl | hx
      · exact (not_lt.1 h).trans hwr
      · exact h2 x hx

/-- The partition loop treats related memories alike. -/
theorem partLoop_rel {α β : Type u} {cmp : α → α → Bool} {cmp' : β → β → Bool} {Rel : α → β → Prop}
    (hc : ∀ x y x' y', Rel x y → Rel x' y' → cmp x x' = cmp' y y') {lo hi left : ℕ} (hl : lo ≤ left ∧ left < hi) :
    ∀ (n i mid : ℕ) (a : ℕ → α) (b : ℕ → β), lo ≤ i → i + n ≤ hi → lo ≤ mid → mid < i →
      (∀ k, lo ≤ k → k < hi → Rel (a k) (b k)) →
      (partLoop cmp left n i mid a).1 = (partLoop cmp' left n i mid b).1 ∧
      ∀ k, lo ≤ k → k < hi → Rel ((partLoop cmp left n i mid a).2 k) ((partLoop cmp' left n i mid b).2 k) := by
  intro n
  induction n with
  | zero => intro i mid a b _ _ _ _ h; exact ⟨rfl, h⟩
  | succ n ih =>
    intro i mid a b h1 h2 h3 h4 h
    unfold partLoop
    rw [hc _ _ _ _ (h i h1 (by omega)) (h left hl.1 hl.2)]
    by_cases hcmp : cmp' (b i) (b left) = true
    · rw [if_pos hcmp, if_pos hcmp]
      refine ih _ _ _ _ (by omega) (by omega) (by omega) (by omega) fun k k1 k2 => ?_
      unfold iterSwap
      split_ifs
      · exact h _ h1 (by omega)
      · exact h _ (by omega) (by omega)
      · exact h _ k1 k2
    · rw [if_neg hcmp, if_neg hcmp]
      exact ih _ _ _ _ (by omega) (by omega) (by omega) (by omega) h

/-- The recursive equation of `sort`. -/
theorem sort_step {α : Type u} (cmp : α → α → Bool) {left right : ℕ} (h : left < right) (a : ℕ → α) :
    sort cmp left right a =
      sort cmp ((partLoop cmp left (right - (left + 1)) (left + 1) left a).1 + 1) right
        (sort cmp left (partLoop cmp left (right - (left + 1)) (left + 1) left a).1
          (iterSwap (partLoop cmp left (right - (left + 1)) (left + 1) left a).2 left
            (partLoop cmp left (right - (left + 1)) (left + 1) left a).1)) := by
  conv_lhs => rw [sort, dif_pos h]

/-- Sorting treats related memories alike. -/
theorem sort_rel {α β : Type u} {cmp : α → α → Bool} {cmp' : β → β → Bool} {Rel : α → β → Prop}
    (hc : ∀ x y x' y', Rel x y → Rel x' y' → cmp x x' = cmp' y y') {lo hi : ℕ} :
    ∀ (n left right : ℕ) (a : ℕ → α) (b : ℕ → β), right - left ≤ n → lo ≤ left → right ≤ hi →
      (∀ k, lo ≤ k → k < hi → Rel (a k) (b k)) →
      ∀ k, lo ≤ k → k < hi → Rel (sort cmp left right a k) (sort cmp' left right b k) := by
  intro n
  induction n with
  | zero =>
    intro left right a b hn h1 h2 h
    have hlr : ¬ left < right := by omega
    rw [sort, dif_neg hlr, sort, dif_neg hlr]
    exact h
  | succ n ih =>
    intro left right a b hn h1 h2 h
    by_cases hlr : left < right
    · obtain ⟨e, h3⟩ := partLoop_rel hc (lo := lo) (hi := hi) (left := left) ⟨h1, by omega⟩ (right - (left + 1)) (left + 1)
        left a b (by omega) (by omega) h1 (by omega) h
      obtain ⟨m1, m2⟩ := partLoop_mid cmp' left (right - (left + 1)) (left + 1) left b
      rw [sort_step cmp hlr a, sort_step cmp' hlr b, e]
      refine ih _ _ _ _ (by omega) (by omega) h2 ?_
      refine ih _ _ _ _ (by omega) (by omega) (by omega) fun k k1 k2 => ?_
      unfold iterSwap
      split_ifs
      · exact h3 _ (by omega) (by omega)
      · exact h3 _ (by omega) (by omega)
      · exact h3 _ k1 k2
    · rw [sort, dif_neg hlr, sort, dif_neg hlr]
      exact h

/-- The absolute value of a number that is not NaN is not NaN. -/
theorem Flt.abs_not_nan {F : Fmt} {x : Flt F} (h : isNan x = false) : isNan (abs x) = false := by
  rw [← Bool.not_eq_true, isNan_iff_key] at *
  unfold abs
  split_ifs
  · show ¬ Flt.key (-x) = none
    rw [Flt.key_neg, Option.map_eq_none_iff]
    exact h
  · exact h

/-! ### Properties -/

section exactArith
variable {K : Type u} [Field K] [LinearOrder K] [IsStrictOrderedRing K] {S : ℕ}

/-- `abs_max` of any number of arguments returns an argument of largest absolute value, the last of these if there are
several. -/
theorem C90_abs_max (v : K) (l : List K) :
    ∃ pre post, v :: l = pre ++ absMax v l :: post ∧ (∀ x ∈ pre, |x| ≤ |absMax v l|) ∧ ∀ x ∈ post, |x| < |absMax v l| :=
  pickLast (fun x : K => |x|) (fun _ => True) absMax (fun _ => rfl) (fun v w l _ _ => by
    rw [absMax]; simp only [abs_exact, exact_lt, decide_eq_true_eq]) l v trivial (fun _ _ => trivial)

/-- `abs_min` returns an argument of smallest absolute value, the last of these if there are several. -/
theorem C90_abs_min (v : K) (l : List K) :
    ∃ pre post, v :: l = pre ++ absMin v l :: post ∧ (∀ x ∈ pre, |absMin v l| ≤ |x|) ∧ ∀ x ∈ post, |absMin v l| < |x| :=
  pickLast (fun x : K => OrderDual.toDual |x|) (fun _ => True) absMin (fun _ => rfl) (fun v w l _ _ => by
    rw [absMin]; simp only [abs_exact, exact_lt, decide_eq_true_eq, OrderDual.toDual_lt_toDual]) l v trivial
    (fun _ _ => trivial)

/-- The vector versions work component by component: the component of the result is one of the components of the arguments at
that index, and no other has a greater (smaller) absolute value. -/
theorem C90_vector (v w : Vec K S) (l : List (Vec K S)) (i : Fin S) :
    (∃ x ∈ v :: w :: l, vabsMax v w l i = x i) ∧ (∀ x ∈ v :: w :: l, |x i| ≤ |vabsMax v w l i|) ∧
    (∃ x ∈ v :: w :: l, vabsMin v w l i = x i) ∧ ∀ x ∈ v :: w :: l, |vabsMin v w l i| ≤ |x i| := by
  have e : v i :: w i :: l.map (fun r => r i) = (v :: w :: l).map (fun r => r i) := rfl
  obtain ⟨pre, post, h1, h2, h3⟩ := C90_abs_max (v i) (w i :: l.map fun r => r i)
  obtain ⟨pre', post', h1', h2', h3'⟩ := C90_abs_min (v i) (w i :: l.map fun r => r i)
  rw [e] at h1 h1'
  have m : ∀ (r : K) (p q : List K), (v :: w :: l).map (fun r => r i) = p ++ r :: q → ∃ x ∈ v :: w :: l, r = x i := by
    intro r p q h
    have : r ∈ (v :: w :: l).map (fun r => r i) := by rw [h]; simp
    obtain ⟨x, hx, hr⟩ := List.mem_map.1 this
    exact ⟨x, hx, hr.symm⟩
  refine ⟨m _ _ _ h1, fun x hx => ?_, m _ _ _ h1', fun x hx => ?_⟩
  · have : x i ∈ pre ++ _ :: post := h1 ▸ List.mem_map_of_mem (f := fun r : Vec K S => r i) hx
    rcases List.mem_append.1 this with h | h
    · exact h2 _ h
    · rcases List.mem_cons.1 h with h | h
      · rw [h]; exact le_rfl
      · exact (h3 _ h).le
  · have : x i ∈ pre' ++ _ :: post' := h1' ▸ List.mem_map_of_mem (f := fun r : Vec K S => r i) hx
    rcases List.mem_append.1 this with h | h
    · exact h2' _ h
    · rcases List.mem_cons.1 h with h | h
      · rw [h]; exact le_rfl
      · exact (h3' _ h).le

/-- Converting between degrees and radians and back gives the original angle; half a turn is `pi`, and the conversions are
linear. -/
theorem C90_angle_units (pi : K) (hpi : pi ≠ 0) (x y c : K) :
    toDegrees pi (toRadians pi x) = x ∧ toRadians pi (toDegrees pi x) = x ∧ toRadians pi 180 = pi ∧
    toDegrees pi pi = 180 ∧ toRadians pi (c * x + y) = c * toRadians pi x + toRadians pi y ∧
    toDegrees pi (c * x + y) = c * toDegrees pi x + toDegrees pi y := by
  have h180 : (180 : K) ≠ 0 := by norm_num
  unfold toDegrees toRadians
  refine ⟨?_, ?_, ?_, ?_, ?_, ?_⟩ <;> field_simp

end exactArith

section ieee
variable {T : Type u} [IEEE T] {S : ℕ}

/-- `contains(v, s, e)` holds exactly if `v` lies between `s` and `e` (inclusive) in either order.  It is false if one of the
numbers is NaN. -/
theorem C90_contains (v s e : T) :
    (containsScalar v s e = true ↔
      (Cmp.le s v = true ∧ Cmp.le v e = true) ∨ (Cmp.le e v = true ∧ Cmp.le v s = true)) ∧
    containsScalar v s e = containsScalar v e s ∧
    (isNan v = true ∨ isNan s = true ∨ isNan e = true → containsScalar v s e = false) := by
  have key : ∀ v s e : T, containsScalar v s e = true ↔
      (Cmp.le s v = true ∧ Cmp.le v e = true) ∨ (Cmp.le e v = true ∧ Cmp.le v s = true) := by
    intro v s e
    unfold containsScalar
    rcases hv : IEEE.key v with _ | x
    · simp [le_false_of_none_left hv, le_false_of_none_right hv]
    rcases hs : IEEE.key s with _ | y
    · simp [le_false_of_none_left hs, le_false_of_none_right hs]
    rcases he : IEEE.key e with _ | z
    · simp [le_false_of_none_left he, le_false_of_none_right he]
    simp only [lt_of_keys hs he, le_of_keys hs hv, le_of_keys hv he, le_of_keys he hv, le_of_keys hv hs, decide_eq_true_eq]
    by_cases h : y < z
    · rw [if_pos h]
      simp only [Bool.and_eq_true, decide_eq_true_eq]
      constructor
      · exact Or.inl
      · rintro (h' | h')
        · exact h'
        · exact absurd (h'.1.trans h'.2) (not_le.2 h)
    · rw [if_neg h]
      simp only [Bool.and_eq_true, decide_eq_true_eq]
      constructor
      · exact Or.inr
      · rintro (h' | h')
        · have h1 := h'.1.trans h'.2
          have : y = z := le_antisymm h1 (not_lt.1 h)
          subst this
          exact h'
        · exact h'
  refine ⟨key v s e, ?_, ?_⟩
  · rw [Bool.eq_iff_iff, key, key, or_comm]
  · intro h
    rw [← Bool.not_eq_true, key]
    simp only [isNan_iff_key] at h
    rcases h with h | h | h <;>
      simp [le_false_of_none_left h, le_false_of_none_right h]

/-- `get_max_component` and `get_abs_max_component` return the component whose index `find_max_component` and
`find_abs_max_component` return, also for vectors with equal components and with NaN components. -/
theorem C90_get_component [Zero T] [Neg T] (v : Vec T S) (k : ℕ) (hk : k < S) (junk : ℕ → T) (junk' : ℕ → T × ℕ) :
    (∃ idx : Fin S, findMaxComponent v k junk' = idx ∧ getMaxComponent v k junk = v idx) ∧
    ∃ idx : Fin S, findAbsMaxComponent v k junk' = idx ∧ getAbsMaxComponent v k junk = v idx := by
  have gen : ∀ cmp : T → T → Bool, ∃ idx : Fin S,
      (sortVector (fun l r : T × ℕ => cmp l.1 r.1) v junk' (S - k - 1)).2 = idx ∧
      sort cmp 0 S (fun i => if h : i < S then v ⟨i, h⟩ else junk i) (S - k - 1) = v idx := by
    intro cmp
    have h := sort_rel (cmp := fun l r : T × ℕ => cmp l.1 r.1) (cmp' := cmp)
      (Rel := fun x y => ∃ h : x.2 < S, x.1 = y ∧ y = v ⟨x.2, h⟩) (by
        rintro x y x' y' ⟨-, h, -⟩ ⟨-, h', -⟩; rw [h, h']) (lo := 0) (hi := S) S 0 S
      (fun i => if h : i < S then (v ⟨i, h⟩, i) else junk' i) (fun i => if h : i < S then v ⟨i, h⟩ else junk i)
      (by omega) le_rfl le_rfl (by intro k _ hk; simp [hk]) (S - k - 1) (Nat.zero_le _) (by omega)
    obtain ⟨h1, h2, h3⟩ := h
    exact ⟨⟨_, h1⟩, rfl, h3⟩
  exact ⟨gen _, gen fun l r => Cmp.lt (abs l) (abs r)⟩

end ieee

section float
variable {F : Fmt} {S : ℕ}

/-- In floating point arithmetic, for arguments that are not NaN, `abs_max` returns the last of the arguments of largest absolute
value and `abs_min` the last of those with the smallest. -/
theorem C90_float (v : Flt F) (l : List (Flt F)) (h : ∀ x ∈ v :: l, isNan x = false) :
    (∃ pre post, v :: l = pre ++ absMax v l :: post ∧ (∀ x ∈ pre, Cmp.le (abs x) (abs (absMax v l)) = true) ∧
      ∀ x ∈ post, Cmp.lt (abs x) (abs (absMax v l)) = true) ∧
    ∃ pre post, v :: l = pre ++ absMin v l :: post ∧ (∀ x ∈ pre, Cmp.le (abs (absMin v l)) (abs x) = true) ∧
      ∀ x ∈ post, Cmp.lt (abs (absMin v l)) (abs x) = true := by
  let f : Flt F → Ext := fun x => (IEEE.key (abs x)).getD (Ext.ofRat 0)
  have hf : ∀ x : Flt F, isNan x = false → IEEE.key (abs x) = some (f x) := by
    intro x hx
    have := Flt.abs_not_nan hx
    rw [← Bool.not_eq_true, isNan_iff_key] at this
    rcases e : IEEE.key (abs x) with _ | y
    · exact absurd e this
    · simp [f, e]
  have hl : ∀ x ∈ l, isNan x = false := fun x hx => h x (by simp [hx])
  have hv := h v (by simp)
  constructor
  · obtain ⟨pre, post, e, h1, h2⟩ := pickLast f (fun x => isNan x = false) absMax (fun _ => rfl) (fun v w l hv hw => by
      rw [absMax, lt_of_keys (hf w hw) (hf v hv)]; simp only [decide_eq_true_eq]) l v hv hl
    rw [e] at h
    have hr := hf _ (h (absMax v l) (by simp))
    refine ⟨pre, post, e, fun x hx => ?_, fun x hx => ?_⟩
    · rw [le_of_keys (hf x (h x (by simp [hx]))) hr, decide_eq_true_eq]; exact h1 x hx
    · rw [lt_of_keys (hf x (h x (by simp [hx]))) hr, decide_eq_true_eq]; exact h2 x hx
  · obtain ⟨pre, post, e, h1, h2⟩ := pickLast (fun x => OrderDual.toDual (f x)) (fun x => isNan x = false) absMin
      (fun _ => rfl) (fun v w l hv hw => by
        rw [absMin, lt_of_keys (hf v hv) (hf w hw)]; simp only [decide_eq_true_eq, OrderDual.toDual_lt_toDual]) l v hv hl
    rw [e] at h
    have hr := hf _ (h (absMin v l) (by simp))
    refine ⟨pre, post, e, fun x hx => ?_, fun x hx => ?_⟩
    · rw [le_of_keys hr (hf x (h x (by simp [hx]))), decide_eq_true_eq]; exact h1 x hx
    · rw [lt_of_keys hr (hf x (h x (by simp [hx]))), decide_eq_true_eq]; exact h2 x hx

end float

example : absMax (1:ℚ) [-3, 2, 3, 0] = 3 ∧ absMin (-1:ℚ) [3, 1, -2] = 1 ∧ containsScalar (1:ℚ) 2 0 = true ∧
    containsScalar (3:ℚ) 2 0 = false ∧ toRadians (22/7 : ℚ) 90 = 11/7 := by decide +kernel

example : ∀ x ∈ (1 : Flt exactFmt) :: [0], isNan x = false := by
  intro x hx
  simp only [List.mem_cons, List.not_mem_nil, or_false] at hx
  rcases hx with rfl | rfl <;> rfl

end vm
