import Verif.Props.FltCompare
import Verif.Props.FltProducts
import Verif.Model.PlaneG
import Verif.Model.SphereG
import Verif.Model.Intersect

/-! Helper lemmas for C159: changes of sign pass unchanged through every rounded operation. -/

set_option linter.unusedSectionVars false
set_option linter.unusedSimpArgs false

namespace vm
namespace FltSym
variable {F : Fmt}

theorem infTimes_neg (q : ℚ) : (Flt.infTimes (-q) : Flt F) = -Flt.infTimes q := by
  unfold Flt.infTimes
  rcases lt_trichotomy q 0 with h | h | h
  · rw [if_neg (by linarith), if_pos (by linarith), if_neg h.ne, if_neg (by linarith)]; rfl
  · subst h; simp; rfl
  · rw [if_neg (by linarith), if_neg (by linarith), if_neg h.ne', if_pos h]; rfl

theorem neg_zero' : (-0 : Flt F) = 0 := Flt.key_inj (by show some (Ext.ofRat (-0)) = some (Ext.ofRat 0); rw [neg_zero])

theorem neg_div' (a b : Flt F) : -a / b = -(a / b) := by
  rcases a with _ | _ | _ | ⟨q, hq⟩ <;> rcases b with _ | _ | _ | ⟨r, hr⟩ <;> try rfl
  · show (if 0 ≤ r then Flt.pinf else Flt.ninf) = -(if 0 ≤ r then Flt.ninf else Flt.pinf : Flt F)
    split_ifs <;> rfl
  · show (if 0 ≤ r then Flt.ninf else Flt.pinf) = -(if 0 ≤ r then Flt.pinf else Flt.ninf : Flt F)
    split_ifs <;> rfl
  · show (if r = 0 then Flt.infTimes (-q) else Flt.round (-q / r)) = -(if r = 0 then Flt.infTimes q else Flt.round (q / r) : Flt F)
    split_ifs
    · exact infTimes_neg q
    · rw [← Flt.round_neg, neg_div]

theorem div_neg' (a : Flt F) {b : Flt F} (h : b ≠ 0) : a / -b = -(a / b) := by
  have hr0 : ∀ r hr, b = Flt.fin r hr → r ≠ 0 := by
    intro r hr e h0; subst h0; exact h e
  rcases a with _ | _ | _ | ⟨q, hq⟩ <;> rcases b with _ | _ | _ | ⟨r, hr⟩ <;> try rfl
  · have r0 := hr0 r hr rfl
    show (if 0 ≤ -r then Flt.ninf else Flt.pinf) = -(if 0 ≤ r then Flt.ninf else Flt.pinf : Flt F)
    rcases lt_or_gt_of_ne r0 with h | h
    · rw [if_pos (by linarith), if_neg (by linarith)]; rfl
    · rw [if_neg (by linarith), if_pos (by linarith)]; rfl
  · have r0 := hr0 r hr rfl
    show (if 0 ≤ -r then Flt.pinf else Flt.ninf) = -(if 0 ≤ r then Flt.pinf else Flt.ninf : Flt F)
    rcases lt_or_gt_of_ne r0 with h | h
    · rw [if_pos (by linarith), if_neg (by linarith)]; rfl
    · rw [if_neg (by linarith), if_pos (by linarith)]; rfl
  · have r0 := hr0 r hr rfl
    show (if -r = 0 then Flt.infTimes q else Flt.round (q / -r)) = -(if r = 0 then Flt.infTimes q else Flt.round (q / r) : Flt F)
    rw [if_neg (by simpa using r0), if_neg r0, ← Flt.round_neg, div_neg]

theorem neg_div_neg' (a : Flt F) {b : Flt F} (h : b ≠ 0) : -a / -b = a / b := by rw [neg_div', div_neg' a h, Flt.neg_neg']

theorem mul_neg' (a b : Flt F) : a * -b = -(a * b) := by rw [Flt.mul_comm', Flt.neg_mul', Flt.mul_comm']

theorem neg_mul_neg' (a b : Flt F) : -a * -b = a * b := by rw [Flt.neg_mul', mul_neg', Flt.neg_neg']

theorem neg_sub_neg' (a b : Flt F) : -a - -b = -(a - b) := by
  show -a + - -b = -(a + -b)
  rw [Flt.neg_add']

theorem vneg_sub {S : ℕ} (a b : Vec (Flt F) S) : -a - -b = -(a - b) := funext fun i => neg_sub_neg' (a i) (b i)

theorem dot_neg_neg {S : ℕ} (a b : Vec (Flt F) S) : dot (-a) (-b) = dot a b := by
  rw [(C102_dot_neg F a (-b)).1, (C102_dot_neg F a b).2, Flt.neg_neg']

theorem cross_neg_neg (a b : Vec (Flt F) 3) : cross (-a) (-b) = cross a b := by
  unfold cross
  simp only [Pi.neg_apply, neg_mul_neg']

theorem cross_swap (a b : Vec (Flt F) 3) : cross b a = -cross a b := by
  unfold cross
  funext i
  fin_cases i <;>
  · simp only [Pi.neg_apply, Fin.zero_eta, Fin.mk_one, Fin.reduceFinMk, Matrix.cons_val_zero, Matrix.cons_val_one, Matrix.cons_val]
    rw [Flt.neg_sub']
    congr 1 <;> exact Flt.mul_comm' _ _

theorem lt_neg_neg (a b : Flt F) : Cmp.lt (-a) (-b) = Cmp.lt b a := by
  rcases a with _ | _ | _ | ⟨q, hq⟩ <;> rcases b with _ | _ | _ | ⟨r, hr⟩ <;> try rfl
  show decide (Ext.ofRat (-q) < Ext.ofRat (-r)) = decide (Ext.ofRat r < Ext.ofRat q)
  congr 1
  simp only [Ext.ofRat, WithBot.coe_lt_coe, WithTop.coe_lt_coe, neg_lt_neg_iff]

theorem abs_neg' (x : Flt F) : vm.abs (-x) = vm.abs x := by
  unfold vm.abs
  have e : Cmp.lt (-x) 0 = Cmp.lt 0 x := by
    conv_lhs => rw [← neg_zero' (F := F)]
    exact lt_neg_neg x 0
  rw [e]
  by_cases h1 : Cmp.lt 0 x = true
  · rw [if_pos h1]
    by_cases h2 : Cmp.lt x 0 = true
    · exfalso
      rcases x with _ | _ | _ | ⟨q, hq⟩
      · cases h1
      · cases h1
      · cases h2
      · have a : 0 < q := by simpa [Cmp.lt, IEEE.toCmp, Flt.key, Ext.ofRat] using h1
        have b : q < 0 := by simpa [Cmp.lt, IEEE.toCmp, Flt.key, Ext.ofRat] using h2
        linarith
    · rw [if_neg h2, Flt.neg_neg']
  · rw [if_neg h1]
    by_cases h2 : Cmp.lt x 0 = true
    · rw [if_pos h2]
    · rw [if_neg h2]
      rcases x with _ | _ | _ | ⟨q, hq⟩
      · rfl
      · exact absurd rfl h2
      · exact absurd rfl h1
      · have a : ¬ 0 < q := fun h => h1 (by
          show decide (Ext.ofRat 0 < Ext.ofRat q) = true
          simpa [Ext.ofRat] using h)
        have b : ¬ q < 0 := fun h => h2 (by
          show decide (Ext.ofRat q < Ext.ofRat 0) = true
          simpa [Ext.ofRat] using h)
        have : q = 0 := le_antisymm (not_lt.1 a) (not_lt.1 b)
        subst this
        exact neg_zero'

theorem eq_neg_zero (x : Flt F) : Cmp.eq (-x) 0 = Cmp.eq x 0 := by
  rcases x with _ | _ | _ | ⟨q, hq⟩ <;> try rfl
  show decide (Ext.ofRat (-q) = Ext.ofRat 0) = decide (Ext.ofRat q = Ext.ofRat 0)
  congr 1
  simp [Ext.ofRat]

theorem isZero_neg (x e : Flt F) : isZero (-x) e = isZero x e := by
  unfold isZero
  rw [abs_neg', eq_neg_zero]

theorem eq_zero_refl : Cmp.eq (0 : Flt F) 0 = true := by
  show decide (Ext.ofRat 0 = Ext.ofRat 0) = true
  simp

theorem ne_zero {x e : Flt F} (h : isZero x e ≠ true) : x ≠ 0 := by
  rintro rfl
  apply h
  unfold isZero
  rw [eq_zero_refl, Bool.true_or]

theorem lt_trans' {a b c : Flt F} (h : Cmp.lt a b = true) (k : Cmp.lt b c = true) : Cmp.lt a c = true := by
  change (match Flt.key a, Flt.key b with
    | some x, some y => decide (x < y)
    | _, _ => false) = true at h
  change (match Flt.key b, Flt.key c with
    | some x, some y => decide (x < y)
    | _, _ => false) = true at k
  show (match Flt.key a, Flt.key c with
    | some x, some y => decide (x < y)
    | _, _ => false) = true
  rcases ha : Flt.key a with _ | x <;> rcases hb : Flt.key b with _ | y <;> rcases hc : Flt.key c with _ | z <;> rw [ha, hb] at h <;>
    rw [hb, hc] at k <;> simp_all
  exact lt_trans h k

theorem squaredLength_neg {S : ℕ} (v : Vec (Flt F) S) : squaredLength (-v) = squaredLength v := dot_neg_neg v v

theorem scale_neg {S : ℕ} (v : Vec (Flt F) S) (a : Flt F) : vscale (-v) (-a) = vscale v a := funext fun i => neg_mul_neg' (v i) a

theorem scale_neg_left {S : ℕ} (v : Vec (Flt F) S) (a : Flt F) : vscale (-v) a = -vscale v a := funext fun i => Flt.neg_mul' (v i) a

end FltSym
end vm
