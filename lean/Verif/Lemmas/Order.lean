import Verif.Model.Vec
import Mathlib.Order.PiLex
import Mathlib.Order.WithBot
import Mathlib.Data.List.FinRange
import Mathlib.Tactic.Linarith

/-! Helper lemmas about the comparison functions. -/

universe u

set_option linter.unusedSectionVars false

namespace vm

theorem findSome_finRange_eq_none {β : Type*} {S : ℕ} (f : Fin S → Option β) :
    (List.finRange S).findSome? f = none ↔ ∀ i, f i = none := by
  simp [List.findSome?_eq_none_iff]

theorem findSome_finRange_eq_some {β : Type*} : ∀ {S : ℕ} (f : Fin S → Option β) (b : β),
    (List.finRange S).findSome? f = some b ↔ ∃ i, f i = some b ∧ ∀ j < i, f j = none
  | 0, f, b => by simp
  | S + 1, f, b => by
    rw [List.finRange_succ, List.findSome?_cons]
    rcases h0 : f 0 with _ | c
    · simp only [List.findSome?_map]
      rw [findSome_finRange_eq_some]
      constructor
      · rintro ⟨i, hi, hj⟩
        refine ⟨i.succ, hi, fun j hji => ?_⟩
        rcases Fin.eq_zero_or_eq_succ j with rfl | ⟨k, rfl⟩
        · exact h0
        · exact hj k (Fin.succ_lt_succ_iff.1 hji)
      · rintro ⟨i, hi, hj⟩
        rcases Fin.eq_zero_or_eq_succ i with rfl | ⟨k, rfl⟩
        · rw [h0] at hi; cases hi
        · exact ⟨k, hi, fun j hjk => hj _ (Fin.succ_lt_succ_iff.2 hjk)⟩
    · simp only [Option.some.injEq]
      constructor
      · rintro rfl
        exact ⟨0, h0, fun j hj => absurd hj (Fin.not_lt_zero j)⟩
      · rintro ⟨i, hi, hj⟩
        rcases Fin.eq_zero_or_eq_succ i with rfl | ⟨k, rfl⟩
        · rw [h0] at hi; exact Option.some.inj hi
        · have := hj 0 (Fin.succ_pos k)
          rw [h0] at this; cases this

section ieee
variable {T : Type u} [IEEE T]

/-- The position of a value in the order that `compare` realises: NaN sits above all numbers. -/
def nanTop (a : T) : WithTop (IEEE.Key T) :=
  match IEEE.key a with
  | none => ⊤
  | some x => (x : WithTop (IEEE.Key T))

theorem isNan_iff_key (a : T) : isNan a = true ↔ IEEE.key a = none := by
  unfold isNan
  rcases h : IEEE.key a with _ | x
  · simp only [iff_true, Bool.not_eq_true']
    by_contra hc
    rw [Bool.not_eq_false, IEEE.eq_iff] at hc
    obtain ⟨x, hx, _⟩ := hc
    rw [h] at hx; cases hx
  · have : Cmp.eq a a = true := (IEEE.eq_iff a a).2 ⟨x, h, h⟩
    simp [this]

theorem nanTop_eq_top_iff (a : T) : nanTop a = ⊤ ↔ isNan a = true := by
  rw [isNan_iff_key]; unfold nanTop
  rcases h : IEEE.key a with _ | x <;> simp

theorem isNan_of_key_none {a : T} (h : IEEE.key a = none) : Cmp.eq a a = false := by
  have := (isNan_iff_key a).2 h
  simpa [isNan] using this

theorem eq_self_of_key_some {a : T} {x} (h : IEEE.key a = some x) : Cmp.eq a a = true :=
  (IEEE.eq_iff a a).2 ⟨x, h, h⟩

theorem lt_of_keys {a b : T} {x y} (ha : IEEE.key a = some x) (hb : IEEE.key b = some y) :
    Cmp.lt a b = decide (x < y) := by
  rw [Bool.eq_iff_iff, IEEE.lt_iff]
  simp [ha, hb]

theorem le_of_keys {a b : T} {x y} (ha : IEEE.key a = some x) (hb : IEEE.key b = some y) :
    Cmp.le a b = decide (x ≤ y) := by
  rw [Bool.eq_iff_iff, IEEE.le_iff]
  simp [ha, hb]

theorem eq_of_keys {a b : T} {x y} (ha : IEEE.key a = some x) (hb : IEEE.key b = some y) :
    Cmp.eq a b = decide (x = y) := by
  rw [Bool.eq_iff_iff, IEEE.eq_iff]
  simp [ha, hb]; tauto

theorem lt_false_of_none_left {a b : T} (ha : IEEE.key a = none) : Cmp.lt a b = false := by
  by_contra hc
  rw [Bool.not_eq_false, IEEE.lt_iff] at hc
  obtain ⟨x, y, hx, _⟩ := hc
  rw [ha] at hx; cases hx

theorem lt_false_of_none_right {a b : T} (hb : IEEE.key b = none) : Cmp.lt a b = false := by
  by_contra hc
  rw [Bool.not_eq_false, IEEE.lt_iff] at hc
  obtain ⟨x, y, _, hy, _⟩ := hc
  rw [hb] at hy; cases hy

theorem le_false_of_none_left {a b : T} (ha : IEEE.key a = none) : Cmp.le a b = false := by
  by_contra hc
  rw [Bool.not_eq_false, IEEE.le_iff] at hc
  obtain ⟨x, y, hx, _⟩ := hc
  rw [ha] at hx; cases hx

theorem le_false_of_none_right {a b : T} (hb : IEEE.key b = none) : Cmp.le a b = false := by
  by_contra hc
  rw [Bool.not_eq_false, IEEE.le_iff] at hc
  obtain ⟨x, y, _, hy, _⟩ := hc
  rw [hb] at hy; cases hy

/-- Adding or subtracting zero does not change the numerical value of a scalar (true for every IEEE
rounding mode and for exact arithmetic). -/
class ZeroLaw (T : Type u) [IEEE T] [Add T] [Sub T] [Zero T] : Prop where
  add_zero : ∀ a : T, IEEE.key (a + 0) = IEEE.key a
  sub_zero : ∀ a : T, IEEE.key (a - 0) = IEEE.key a

instance (priority := low) exactZeroLaw {K : Type u} [AddGroup K] [LinearOrder K] :
    ZeroLaw K where
  add_zero a := by simp [IEEE.key]
  sub_zero a := by simp [IEEE.key]

variable [Add T] [Sub T] [Zero T] [ZeroLaw T] {S : ℕ}

theorem compareStep_zero (a b : T) :
    compareStep a b 0 =
      if nanTop a < nanTop b then some (-1) else if nanTop b < nanTop a then some 1 else none := by
  unfold compareStep nanTop
  rcases ha : IEEE.key a with _ | x <;> rcases hb : IEEE.key b with _ | y
  · simp [isNan_of_key_none ha, isNan_of_key_none hb]
  · simp [isNan_of_key_none ha, eq_self_of_key_some hb]
  · simp [eq_self_of_key_some ha, isNan_of_key_none hb]
  · have h1 : IEEE.key (b - 0) = some y := by rw [ZeroLaw.sub_zero, hb]
    have h2 : IEEE.key (b + 0) = some y := by rw [ZeroLaw.add_zero, hb]
    simp [eq_self_of_key_some ha, eq_self_of_key_some hb, lt_of_keys ha h1, lt_of_keys h2 ha]

/-- Vectors of positions, ordered lexicographically. -/
def KV (T : Type u) [IEEE T] (S : ℕ) : Type u := Lex (Fin S → WithTop (IEEE.Key T))

noncomputable instance (T : Type u) [IEEE T] (S : ℕ) : LinearOrder (KV T S) :=
  inferInstanceAs (LinearOrder (Lex (Fin S → WithTop (IEEE.Key T))))

/-- The vector of positions of the components. -/
def keyVec (a : Vec T S) : KV T S := toLex fun i => nanTop (a i)

omit [Add T] [Sub T] [Zero T] [ZeroLaw T] in
theorem keyVec_lt_iff (a b : Vec T S) :
    keyVec a < keyVec b ↔
      ∃ i, (∀ j < i, nanTop (a j) = nanTop (b j)) ∧ nanTop (a i) < nanTop (b i) := Iff.rfl

theorem compareStep_zero_none (a b : T) : compareStep a b 0 = none ↔ nanTop a = nanTop b := by
  rw [compareStep_zero]
  rcases lt_trichotomy (nanTop a) (nanTop b) with h | h | h
  · simp [h, h.ne]
  · simp [h]
  · simp [h, h.ne', not_lt_of_gt h]

theorem compareStep_zero_neg (a b : T) : compareStep a b 0 = some (-1) ↔ nanTop a < nanTop b := by
  rw [compareStep_zero]
  rcases lt_trichotomy (nanTop a) (nanTop b) with h | h | h
  · simp [h]
  · simp [h]
  · simp [h, not_lt_of_gt h]

theorem compareStep_zero_pos (a b : T) : compareStep a b 0 = some 1 ↔ nanTop b < nanTop a := by
  rw [compareStep_zero]
  rcases lt_trichotomy (nanTop a) (nanTop b) with h | h | h
  · simp [h, not_lt_of_gt h]
  · simp [h]
  · simp [h, not_lt_of_gt h]

theorem vcompare_zero (a b : Vec T S) :
    vcompare a b 0 =
      if keyVec a < keyVec b then -1 else if keyVec b < keyVec a then 1 else 0 := by
  unfold vcompare
  rcases lt_trichotomy (keyVec a) (keyVec b) with h | h | h
  · rw [if_pos h]
    obtain ⟨i, hj, hi⟩ := (keyVec_lt_iff a b).1 h
    rw [(findSome_finRange_eq_some _ _).2
      ⟨i, (compareStep_zero_neg _ _).2 hi, fun j hji => (compareStep_zero_none _ _).2 (hj j hji)⟩]
    rfl
  · rw [if_neg (by rw [h]; exact lt_irrefl _), if_neg (by rw [h]; exact lt_irrefl _)]
    rw [(findSome_finRange_eq_none _).2 fun i => (compareStep_zero_none _ _).2 (congrFun h i)]
    rfl
  · rw [if_neg (not_lt_of_gt h), if_pos h]
    obtain ⟨i, hj, hi⟩ := (keyVec_lt_iff b a).1 h
    rw [(findSome_finRange_eq_some _ _).2
      ⟨i, (compareStep_zero_pos _ _).2 hi,
        fun j hji => (compareStep_zero_none _ _).2 (hj j hji).symm⟩]
    rfl

theorem vlt_iff (a b : Vec T S) : vlt a b = true ↔ keyVec a < keyVec b := by
  simp only [vlt, decide_eq_true_eq, vcompare_zero]
  rcases lt_trichotomy (keyVec a) (keyVec b) with h | h | h
  · simp [h]
  · simp [h]
  · simp [h, not_lt_of_gt h]

theorem veq_iff (a b : Vec T S) : veq a b = true ↔ keyVec a = keyVec b := by
  simp only [veq, beq_iff_eq, vcompare_zero]
  rcases lt_trichotomy (keyVec a) (keyVec b) with h | h | h
  · simp [h, h.ne]
  · simp [h]
  · simp [h, not_lt_of_gt h, h.ne']

theorem vle_iff (a b : Vec T S) : vle a b = true ↔ keyVec a ≤ keyVec b := by
  simp only [vle, decide_eq_true_eq, vcompare_zero]
  rcases lt_trichotomy (keyVec a) (keyVec b) with h | h | h
  · simp [h, h.le]
  · simp [h]
  · simp [h, not_lt_of_gt h]

end ieee

section exact
variable {K : Type u} [AddGroup K] [LinearOrder K] {S : ℕ}

@[simp] theorem nanTop_exact (a : K) : nanTop a = (a : WithTop K) := rfl

theorem keyVec_exact_eq (a b : Vec K S) : keyVec a = keyVec b ↔ a = b := by
  constructor
  · intro h; funext i
    exact WithTop.coe_injective (congrFun h i)
  · rintro rfl; rfl

theorem veq_exact (a b : Vec K S) : veq a b = decide (a = b) := by
  rw [Bool.eq_iff_iff, veq_iff, keyVec_exact_eq]; simp

theorem vlt_exact (a b : Vec K S) : vlt a b = true ↔ toLex a < toLex b := by
  rw [vlt_iff, keyVec_lt_iff]
  simp only [nanTop_exact, WithTop.coe_inj, WithTop.coe_lt_coe]
  rfl

end exact
end vm
