import Verif.Props.SFltSolve
import Verif.Props.SFltSign

set_option linter.unusedSectionVars false

/-! C117, continued: quadratic equations with the leading coefficient zero. -/

namespace vm

open SFlt

variable {P : BinPar}

/-- The restriction in C117_solve is needed: `0 x² + x - 1` and `-0 x² + x - 1` have coefficients that compare equal and are both reported to have two
solutions, but the second number is minus infinity for the first equation and NaN for the second. -/
theorem C117_solve_fails (s : Flt P.fmt → Flt P.fmt) (hi : s .pinf = .pinf) (hn : s .nan = .nan) (nan eps : SFlt P.fmt) (he : eps.toFlt.isFinite) :
    Cmp.eq (0 : SFlt P.fmt) negZero = true ∧
    solveQuadraticG (sqrtS s) nan 0 1 (-1) eps = (2, of .nan, of .ninf) ∧
    solveQuadraticG (sqrtS s) nan negZero 1 (-1) eps = (2, of .nan, of .nan) := by
  have h2 : ∃ h, (2 : Flt P.fmt) = .fin 2 h := by
    obtain ⟨hf, hv⟩ := Flt.two_eq P
    generalize (2 : Flt P.fmt) = x at hf hv
    rcases x with _ | _ | _ | ⟨q, hq⟩
    · exact hf.elim
    · exact hf.elim
    · exact hf.elim
    · have hv' : q = 2 := hv
      subst hv'
      exact ⟨hq, rfl⟩
  obtain ⟨h, e⟩ := h2
  have b2 : (2 : SFlt P.fmt).signBit = false := by
    show (2 : Flt P.fmt).isNegB = false
    rw [e]
    show decide ((2 : ℚ) < 0) = false
    exact decide_eq_false (by norm_num)
  have m0 : (2 : Flt P.fmt) * 0 = 0 := by
    rw [e]
    show Flt.round (F := P.fmt) (2 * 0) = 0
    rw [mul_zero]
    have := Flt.add_zero' (0 : Flt P.fmt)
    rw [← this]
    show _ = Flt.round (F := P.fmt) (0 + 0)
    rw [add_zero]
  have p0 : (2 : SFlt P.fmt) * 0 = 0 := by
    show signed ((2 : SFlt P.fmt).signBit != (0 : SFlt P.fmt).signBit) ((2 : Flt P.fmt) * 0) = 0
    rw [m0, b2]; rfl
  have n0 : (2 : SFlt P.fmt) * negZero = negZero := by
    show signed ((2 : SFlt P.fmt).signBit != true) ((2 : Flt P.fmt) * 0) = negZero
    rw [m0, b2]; rfl
  have n1 : (-1 : SFlt P.fmt).signBit = true := by
    rw [neg_sign 1 (by intro h; cases h), one_sign]; rfl
  have dv : ∀ y : SFlt P.fmt, y.toFlt.isZeroB = true → (1 / y : SFlt P.fmt) = (if y.signBit then of .ninf else of .pinf) ∧
      (-1 / y : SFlt P.fmt) = (if y.signBit then of .pinf else of .ninf) := by
    intro y hy
    have en : ∃ h, (-1 : SFlt P.fmt).toFlt = Flt.fin (-1) h := ⟨_, hom.neg 1⟩
    obtain ⟨h', en⟩ := en
    have en' : (-1 : SFlt P.fmt) = of (Flt.fin (-1) h') := by
      cases hx : (-1 : SFlt P.fmt) with
      | negZero => rw [hx] at en; have := congrArg Flt.val en; exact absurd this (by show ¬ ((0 : ℚ) = -1); norm_num)
      | of x => rw [hx] at en; exact congrArg of en
    constructor
    · show (if y.toFlt.isZeroB then (if (1 : ℚ) = 0 then of .nan else if ((1 : SFlt P.fmt).signBit != y.signBit) then of .ninf else of .pinf) else _ :
        SFlt P.fmt) = _
      rw [hy, one_sign, if_pos rfl, if_neg (by norm_num)]
      cases y.signBit <;> rfl
    · rw [en'] at n1 ⊢
      show (if y.toFlt.isZeroB then (if (-1 : ℚ) = 0 then of .nan else if ((of (Flt.fin (-1) h') : SFlt P.fmt).signBit != y.signBit) then of .ninf
        else of .pinf) else _ : SFlt P.fmt) = _
      rw [hy, n1, if_pos rfl, if_neg (by norm_num)]
      cases y.signBit <;> rfl
  obtain ⟨d1, d2⟩ := dv 0 rfl
  obtain ⟨d3, d4⟩ := dv negZero rfl
  have z0 : (0 : SFlt P.fmt).signBit = false := by
    show decide ((0 : ℚ) < 0) = false
    simp
  rw [z0] at d1 d2
  have zi : isZero (of .pinf : SFlt P.fmt) eps = false := by
    rcases eps with _ | x
    · rfl
    · rcases x with _ | _ | _ | ⟨q, hq⟩
      · exact he.elim
      · exact he.elim
      · exact he.elim
      · rfl
  have zn : isZero (of .nan : SFlt P.fmt) eps = false := by
    rcases eps with _ | x
    · rfl
    · rcases x with _ | _ | _ | ⟨q, hq⟩ <;> rfl
  refine ⟨eq_zero_iff (0 : SFlt P.fmt), ?_, ?_⟩
  · unfold solveQuadraticG
    dsimp only
    rw [p0, d1, d2]
    have D : (of .pinf * of .pinf - of .ninf : SFlt P.fmt) = of .pinf := rfl
    simp only [Bool.false_eq_true, if_false, D, zi]
    rw [if_neg (by intro h; cases h)]
    have q : sqrtS s (of .pinf) = (of .pinf : SFlt P.fmt) := congrArg of hi
    rw [q]
    rfl
  · unfold solveQuadraticG
    dsimp only
    rw [n0, d3, d4]
    have D : (of .ninf * of .ninf - of .pinf : SFlt P.fmt) = of .nan := rfl
    have t : (negZero : SFlt P.fmt).signBit = true := rfl
    simp only [t, if_true, D, zn, Bool.false_eq_true, if_false]
    rw [if_neg (by intro h; cases h)]
    have q : sqrtS s (of .nan) = (of .nan : SFlt P.fmt) := congrArg of hn
    rw [q]
    rfl

/-- Every faithfully rounded square root and the tolerance zero meet the hypotheses. -/
example {s : Flt binary64.fmt → Flt binary64.fmt} (hs : FaithfulSqrt binary64 s) :
    s .pinf = .pinf ∧ s .nan = .nan ∧ (0 : SFlt binary64.fmt).toFlt.isFinite :=
  ⟨hs.pinf, hs.nan, trivial⟩

end vm
