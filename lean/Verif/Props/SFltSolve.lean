import Verif.Props.SFltHull
import Verif.Props.FltBetween
import Verif.Model.TorusG

set_option linter.unusedSectionVars false
set_option linter.unusedSimpArgs false

/-! C117, continued: the solvers of polynomial equations and the torus. -/

namespace vm

open SFlt

variable {P : BinPar} {S : ℕ}

namespace SFlt

/-- The double of a number that is not `-0` is not `-0`. -/
theorem two_mul_ne (a : SFlt P.fmt) (ha : a ≠ negZero) : 2 * a ≠ negZero := by
  intro h
  obtain ⟨hz, hs⟩ := signed_eq_negZero (s := (2 : SFlt P.fmt).signBit != a.signBit) (x := (2 : SFlt P.fmt).toFlt * a.toFlt) h
  rcases a with _ | x
  · exact ha rfl
  · have h2 : P.fmt.rep 2 := (Flt.two_eq P).2 ▸ (Flt.eq_fin (Flt.two_eq P).1).1
    have t2 : (2 : SFlt P.fmt).toFlt = Flt.fin 2 h2 := (Flt.eq_fin (Flt.two_eq P).1).2.trans (BinPar.fin_congr _ (Flt.two_eq P).2)
    have sb : (2 : SFlt P.fmt).signBit = false := by
      show Flt.isNegB (2 : SFlt P.fmt).toFlt = false
      rw [t2]
      show decide ((2 : ℚ) < 0) = false
      norm_num
    rw [t2] at hz
    rw [sb] at hs
    have hs : x.isNegB = true := by
      have : (false != x.isNegB) = true := hs
      simpa using this
    rcases x with _ | _ | _ | ⟨q, hq⟩
    · exact absurd hs (by simp [Flt.isNegB])
    · have : Flt.isZeroB (Flt.infTimes (-2) : Flt P.fmt) = true := hz
      unfold Flt.infTimes at this
      norm_num [Flt.isZeroB] at this
    · exact absurd hs (by simp [Flt.isNegB])
    · have hq0 : q < 0 := by simpa [Flt.isNegB] using hs
      have hz : (Flt.round (2 * q) : Flt P.fmt).isZeroB = true := hz
      have e := (isZeroB_iff _).1 hz
      have := Flt.round_mono (P := P) (x := 2 * q) (y := q) (by linarith)
      rw [e, Flt.le_round (x := (0 : Flt P.fmt)) trivial, P.fl_rep hq.1] at this
      have : (0 : ℚ) ≤ q := of_decide_eq_true this
      linarith

theorem sqrtS_ne {s : Flt P.fmt → Flt P.fmt} {x : SFlt P.fmt} (hx : x ≠ negZero) : sqrtS s x ≠ negZero := by
  rcases x with _ | x
  · exact absurd rfl hx
  · exact fun h => nomatch h

theorem solveQuadraticG_toFlt {s : Flt P.fmt → Flt P.fmt} (s0 : s 0 = 0) (nan a b c e : SFlt P.fmt) (ha : a ≠ negZero) :
    ((solveQuadraticG (sqrtS s) nan a b c e).1, (solveQuadraticG (sqrtS s) nan a b c e).2.1.toFlt, (solveQuadraticG (sqrtS s) nan a b c e).2.2.toFlt) =
      solveQuadraticG s nan.toFlt a.toFlt b.toFlt c.toFlt e.toFlt := by
  have hs : ∀ x : SFlt P.fmt, (sqrtS s x).toFlt = s x.toFlt := by
    intro x
    rcases x with _ | x
    · exact s0.symm
    · rfl
  have t2 : (2 : Flt P.fmt) = (2 : SFlt P.fmt).toFlt := rfl
  unfold solveQuadraticG
  dsimp only
  rw [t2, ← hom.mul, ← div_of_ne_negZero b (2 * a) (two_mul_ne a ha), ← div_of_ne_negZero c a ha, ← hom.mul, ← hom.sub, hom.isZero, hom.lt0, ← hs, ← hom.sub,
    ← hom.neg, ← hom.neg, ← hom.sub]
  split
  · rfl
  · split <;> rfl

/-- The numbers of a result of `solve_cubic`. -/
def tmap {A B : Type} (φ : A → B) (s : ℕ × A × A × A) : ℕ × B × B × B := (s.1, φ s.2.1, φ s.2.2.1, φ s.2.2.2)

theorem solveDepressedG_toFlt {s cbrt acos cos : Flt P.fmt → Flt P.fmt} {cbrtS acosS cosS : SFlt P.fmt → SFlt P.fmt} (s0 : s 0 = 0)
    (hcbrt : ∀ x, (cbrtS x).toFlt = cbrt x.toFlt) (hacos : ∀ x, (acosS x).toFlt = acos x.toFlt) (hcos : ∀ x, (cosS x).toFlt = cos x.toFlt)
    (pi nan third p q e : SFlt P.fmt) :
    tmap toFlt (solveDepressedG (sqrtS s) cbrtS acosS cosS pi nan third p q e) =
      solveDepressedG s cbrt acos cos pi.toFlt nan.toFlt third.toFlt p.toFlt q.toFlt e.toFlt := by
  have hs : ∀ x : SFlt P.fmt, (sqrtS s x).toFlt = s x.toFlt := by
    intro x
    rcases x with _ | x
    · exact s0.symm
    · rfl
  have t2 : (2 : Flt P.fmt) = (2 : SFlt P.fmt).toFlt := rfl
  have t3 : ∀ x : SFlt P.fmt, x.toFlt / 3 = (x / 3).toFlt := fun x => (div_of_ne_negZero x 3 (fun h => nomatch h)).symm
  unfold solveDepressedG
  dsimp only
  rw [t2, t3, ← hom.mul p p, ← hom.mul (p * p) p, ← hom.mul q q, ← hom.add, hom.isZero, hom.isZero, hom.lt0]
  split
  · split
    · rfl
    · rw [← hom.neg q, ← hcbrt, ← hom.mul, ← hom.neg]
      rfl
  · split
    · rename_i hD
      have hne : -(p * p * p) ≠ negZero := by
        intro hn
        have h0 : (p * p * p).toFlt = 0 := by
          have h1 : -(p * p * p).toFlt = 0 := by rw [← hom.neg, hn]; rfl
          rcases h : (p * p * p).toFlt with _ | _ | _ | ⟨r, hr⟩
          · rw [h] at h1; exact nomatch h1
          · rw [h] at h1; exact nomatch h1
          · rw [h] at h1; exact nomatch h1
          · rw [h] at h1
            have : -r = 0 := Flt.fin.inj h1
            have : r = 0 := by linarith
            subst this
            rfl
        have h2 : NonNegN (q * q + p * p * p).toFlt := by
          rw [hom.add, h0, hom.mul]
          exact nn_add (nn_mul_self _) (le_refl (0 : ℚ))
        rw [← hom.lt0, nn_lt h2] at hD
        exact nomatch hD
      rw [← hom.neg q, ← hom.neg (p * p * p), ← hs, ← div_of_ne_negZero _ _ (sqrtS_ne hne), ← hacos, ← hom.mul, ← hom.neg p, ← hs, ← hom.mul, ← hom.neg, ← hcos,
        ← hom.mul, ← hom.add, ← hom.sub, ← hcos, ← hcos, ← hom.mul, ← hom.mul]
      rfl
    · rw [← hs, ← hom.sub, ← hom.add, ← hcbrt, ← hcbrt, ← hom.neg, ← hom.add]
      rfl

theorem solveCubicG_toFlt {s cbrt acos cos : Flt P.fmt → Flt P.fmt} {cbrtS acosS cosS : SFlt P.fmt → SFlt P.fmt} (s0 : s 0 = 0)
    (hcbrt : ∀ x, (cbrtS x).toFlt = cbrt x.toFlt) (hacos : ∀ x, (acosS x).toFlt = acos x.toFlt) (hcos : ∀ x, (cosS x).toFlt = cos x.toFlt)
    (pi nan third half twt a b c d e : SFlt P.fmt) (ha : a ≠ negZero) :
    tmap toFlt (solveCubicG (sqrtS s) cbrtS acosS cosS pi nan third half twt a b c d e) =
      solveCubicG s cbrt acos cos pi.toFlt nan.toFlt third.toFlt half.toFlt twt.toFlt a.toFlt b.toFlt c.toFlt d.toFlt e.toFlt := by
  have hr : ∀ (t : ℕ × SFlt P.fmt × SFlt P.fmt × SFlt P.fmt) (x : SFlt P.fmt), tmap toFlt (resubstituteG t x) = resubstituteG (tmap toFlt t) x.toFlt := by
    intro t x
    unfold resubstituteG tmap
    dsimp only
    rw [← hom.sub, ← hom.sub, ← hom.sub]
    split <;> split <;> split <;> rfl
  unfold solveCubicG
  dsimp only
  rw [hr, solveDepressedG_toFlt s0 hcbrt hacos hcos]
  simp only [hom.mul, hom.add, hom.sub, hom.neg, div_of_ne_negZero _ a ha]

theorem sqrtOrFailG_toFlt {s : Flt P.fmt → Flt P.fmt} (s0 : s 0 = 0) (u e : SFlt P.fmt) :
    (sqrtOrFailG (sqrtS s) u e).map toFlt = sqrtOrFailG s u.toFlt e.toFlt := by
  have hs : (sqrtS s u).toFlt = s u.toFlt := by
    rcases u with _ | x
    · exact s0.symm
    · rfl
  unfold sqrtOrFailG
  rw [hom.isZero, hom.lt0', ← hs]
  split
  · rfl
  · split <;> rfl

theorem storeQuadraticsG_toFlt (nan : SFlt P.fmt) (s1 s2 : ℕ × SFlt P.fmt × SFlt P.fmt) :
    ((storeQuadraticsG nan s1 s2).1, vmap toFlt (storeQuadraticsG nan s1 s2).2) =
      storeQuadraticsG nan.toFlt (s1.1, s1.2.1.toFlt, s1.2.2.toFlt) (s2.1, s2.2.1.toFlt, s2.2.2.toFlt) := by
  have hu : ∀ (f : Fin 4 → SFlt P.fmt) (i : Fin 4) (x : SFlt P.fmt), Function.update (vmap toFlt f) i x.toFlt = vmap toFlt (Function.update f i x) :=
    fun f i x => (Hom.update f i x).symm
  have hi : ∀ (f : Fin 4 → SFlt P.fmt) (k : ℕ) (x : SFlt P.fmt), (fun i : Fin 4 => if i.val = k then x.toFlt else vmap toFlt f i) =
      vmap toFlt (fun i : Fin 4 => if i.val = k then x else f i) := by
    intro f k x
    funext i
    unfold vmap
    dsimp only
    split <;> rfl
  have h0 : (fun _ => nan.toFlt : Fin 4 → Flt P.fmt) = vmap toFlt (fun _ => nan) := rfl
  have hite : ∀ (p : Prop) [Decidable p] (f g : Fin 4 → SFlt P.fmt), (if p then vmap toFlt f else vmap toFlt g) = vmap toFlt (if p then f else g) := by
    intro p _ f g
    split <;> rfl
  unfold storeQuadraticsG
  simp only [h0, hu, hi, hite]

theorem solveDepressedQuarticG_toFlt {s cbrt acos cos : Flt P.fmt → Flt P.fmt} {cbrtS acosS cosS : SFlt P.fmt → SFlt P.fmt} (s0 : s 0 = 0)
    (hcbrt : ∀ x, (cbrtS x).toFlt = cbrt x.toFlt) (hacos : ∀ x, (acosS x).toFlt = acos x.toFlt) (hcos : ∀ x, (cosS x).toFlt = cos x.toFlt)
    (pi nan : SFlt P.fmt) (lit : ℚ → Flt P.fmt) (p q r e : SFlt P.fmt) :
    ((solveDepressedQuarticG (sqrtS s) cbrtS acosS cosS pi nan (fun x => of (lit x)) p q r e).1,
        vmap toFlt (solveDepressedQuarticG (sqrtS s) cbrtS acosS cosS pi nan (fun x => of (lit x)) p q r e).2) =
      solveDepressedQuarticG s cbrt acos cos pi.toFlt nan.toFlt lit p.toFlt q.toFlt r.toFlt e.toFlt := by
  have one1 : (1 : SFlt P.fmt) ≠ negZero := fun h => nomatch h
  have t2 : (2 : Flt P.fmt) = (2 : SFlt P.fmt).toFlt := rfl
  have tl : ∀ x, lit x = (of (lit x) : SFlt P.fmt).toFlt := fun _ => rfl
  have ite : ∀ (b : Bool) (x y : SFlt P.fmt), (if b = true then x.toFlt else y.toFlt) = (if b = true then x else y : SFlt P.fmt).toFlt := by
    intro b x y
    cases b <;> rfl
  unfold solveDepressedQuarticG
  rw [hom.isZero]
  by_cases hz : isZero r e = true
  · rw [if_pos hz, if_pos hz]
    dsimp only
    have := solveCubicG_toFlt s0 hcbrt hacos hcos pi nan (of (lit (1 / 3))) (of (lit (1 / 2))) (of (lit (2 / 27))) 1 0 p q e one1
    rw [hom.one, hom.zero] at this
    have this := this.symm
    simp only [toFlt_of] at this
    rw [this]
    unfold tmap vmap
    dsimp only
    congr 1
    funext i
    split
    · rfl
    · fin_cases i <;> rfl
  · rw [if_neg hz, if_neg hz]
    dsimp only
    have hc := solveCubicG_toFlt s0 hcbrt hacos hcos pi nan (of (lit (1 / 3))) (of (lit (1 / 2))) (of (lit (2 / 27))) 1 (-of (lit (1 / 2)) * p) (-r)
      (of (lit (1 / 2)) * r * p - of (lit (1 / 8)) * q * q) e one1
    have hc := hc.symm
    simp only [hom.one, hom.mul, hom.neg, hom.sub, toFlt_of] at hc
    rw [hc]
    generalize solveCubicG (sqrtS s) cbrtS acosS cosS pi nan (of (lit (1 / 3))) (of (lit (1 / 2))) (of (lit (2 / 27))) 1 (-of (lit (1 / 2)) * p) (-r)
      (of (lit (1 / 2)) * r * p - of (lit (1 / 8)) * q * q) e = t
    unfold tmap
    dsimp only
    rw [t2, ← hom.mul, ← hom.sub, ← hom.mul, ← hom.sub, ← sqrtOrFailG_toFlt s0, ← sqrtOrFailG_toFlt s0]
    cases sqrtOrFailG (sqrtS s) (t.2.1 * t.2.1 - r) e with
    | none => rfl
    | some u =>
      cases sqrtOrFailG (sqrtS s) (2 * t.2.1 - p) e with
      | none => rfl
      | some v =>
        simp only [Option.map_some]
        rw [hom.lt0, ← hom.neg, ite, ite, ← hom.sub, ← hom.add, ← hom.one, ← solveQuadraticG_toFlt s0 _ _ _ _ _ one1,
          ← solveQuadraticG_toFlt s0 _ _ _ _ _ one1, ← storeQuadraticsG_toFlt]

theorem solveQuarticG_toFlt {s cbrt acos cos : Flt P.fmt → Flt P.fmt} {cbrtS acosS cosS : SFlt P.fmt → SFlt P.fmt} (s0 : s 0 = 0)
    (hcbrt : ∀ x, (cbrtS x).toFlt = cbrt x.toFlt) (hacos : ∀ x, (acosS x).toFlt = acos x.toFlt) (hcos : ∀ x, (cosS x).toFlt = cos x.toFlt)
    (pi nan : SFlt P.fmt) (lit : ℚ → Flt P.fmt) (a b c d e eps : SFlt P.fmt) (ha : a ≠ negZero) :
    ((solveQuarticG (sqrtS s) cbrtS acosS cosS pi nan (fun x => of (lit x)) a b c d e eps).1,
        vmap toFlt (solveQuarticG (sqrtS s) cbrtS acosS cosS pi nan (fun x => of (lit x)) a b c d e eps).2) =
      solveQuarticG s cbrt acos cos pi.toFlt nan.toFlt lit a.toFlt b.toFlt c.toFlt d.toFlt e.toFlt eps.toFlt := by
  unfold solveQuarticG
  dsimp only
  have h := solveDepressedQuarticG_toFlt s0 hcbrt hacos hcos pi nan lit
    (-of (lit (3 / 8)) * (b / a) * (b / a) + c / a)
    (of (lit (1 / 8)) * (b / a) * (b / a) * (b / a) - of (lit (1 / 2)) * (b / a) * (c / a) + d / a)
    (-of (lit (3 / 256)) * (b / a) * (b / a) * (b / a) * (b / a) + of (lit (1 / 16)) * (b / a) * (b / a) * (c / a) -
      of (lit (1 / 4)) * (b / a) * (d / a) + e / a) eps
  have h := h.symm
  simp only [hom.mul, hom.add, hom.sub, hom.neg, div_of_ne_negZero _ a ha, toFlt_of] at h
  rw [h]
  dsimp only
  congr 1
  funext i
  unfold vmap
  dsimp only
  split
  · rw [hom.sub, hom.mul, div_of_ne_negZero _ a ha, toFlt_of]
  · rfl

end SFlt

/-- The solvers of quadratic, cubic and quartic equations, if the leading coefficient is not `-0`: the same number of solutions and the same solutions up to
the signs of zeros.  The library functions are as in C117_rotation. -/
theorem C117_solve {s cbrt acos cos : Flt P.fmt → Flt P.fmt} {cbrtS acosS cosS : SFlt P.fmt → SFlt P.fmt} (s0 : s 0 = 0)
    (hcbrt : ∀ x, (cbrtS x).toFlt = cbrt x.toFlt) (hacos : ∀ x, (acosS x).toFlt = acos x.toFlt) (hcos : ∀ x, (cosS x).toFlt = cos x.toFlt)
    (pi nan third half twt a b c d e eps : SFlt P.fmt) (lit : ℚ → Flt P.fmt) (ha : a ≠ negZero) :
    ((solveQuadraticG (sqrtS s) nan a b c eps).1, (solveQuadraticG (sqrtS s) nan a b c eps).2.1.toFlt,
        (solveQuadraticG (sqrtS s) nan a b c eps).2.2.toFlt) = solveQuadraticG s nan.toFlt a.toFlt b.toFlt c.toFlt eps.toFlt ∧
    tmap toFlt (solveCubicG (sqrtS s) cbrtS acosS cosS pi nan third half twt a b c d eps) =
      solveCubicG s cbrt acos cos pi.toFlt nan.toFlt third.toFlt half.toFlt twt.toFlt a.toFlt b.toFlt c.toFlt d.toFlt eps.toFlt ∧
    ((solveQuarticG (sqrtS s) cbrtS acosS cosS pi nan (fun x => of (lit x)) a b c d e eps).1,
        vmap toFlt (solveQuarticG (sqrtS s) cbrtS acosS cosS pi nan (fun x => of (lit x)) a b c d e eps).2) =
      solveQuarticG s cbrt acos cos pi.toFlt nan.toFlt lit a.toFlt b.toFlt c.toFlt d.toFlt e.toFlt eps.toFlt :=
  ⟨solveQuadraticG_toFlt s0 nan a b c eps ha, solveCubicG_toFlt s0 hcbrt hacos hcos pi nan third half twt a b c d eps ha,
    solveQuarticG_toFlt s0 hcbrt hacos hcos pi nan lit a b c d e eps ha⟩

/-- `intersect_ray_torus`: the same distance up to the sign of a zero; the leading coefficient of its equation is never `-0`. -/
theorem C117_torus {s cbrt acos cos : Flt P.fmt → Flt P.fmt} {cbrtS acosS cosS : SFlt P.fmt → SFlt P.fmt} (s0 : s 0 = 0)
    (hcbrt : ∀ x, (cbrtS x).toFlt = cbrt x.toFlt) (hacos : ∀ x, (acosS x).toFlt = acos x.toFlt) (hcos : ∀ x, (cosS x).toFlt = cos x.toFlt)
    (pi nan az : SFlt P.fmt) (lit : ℚ → Flt P.fmt) (r : Ray (SFlt P.fmt) 3) (c : Vec (SFlt P.fmt) 3) (R m : SFlt P.fmt) :
    (intersectRayTorusG (sqrtS s) cbrtS acosS cosS pi nan (fun x => of (lit x)) az r c R m).toFlt =
      intersectRayTorusG s cbrt acos cos pi.toFlt nan.toFlt lit az.toFlt (rmap toFlt r) (vmap toFlt c) R.toFlt m.toFlt := by
  have hq : torusQuarticG (rmap toFlt r) (vmap toFlt c) R.toFlt m.toFlt =
      ((torusQuarticG r c R m).1.toFlt, (torusQuarticG r c R m).2.1.toFlt, (torusQuarticG r c R m).2.2.1.toFlt, (torusQuarticG r c R m).2.2.2.1.toFlt,
        (torusQuarticG r c R m).2.2.2.2.toFlt) := by
    have t2 : (2 : SFlt P.fmt).toFlt = 2 := rfl
    have t4 : (4 : SFlt P.fmt).toFlt = 4 := rfl
    have t8 : (8 : SFlt P.fmt).toFlt = 8 := rfl
    have ho : (fun i => (rmap toFlt r).origin i - vmap toFlt c i : Vec (Flt P.fmt) 3) = vmap toFlt (fun i => r.origin i - c i) :=
      funext fun i => (hom.sub _ _).symm
    unfold torusQuarticG
    dsimp only
    rw [ho]
    simp only [hom.mul, hom.add, hom.sub, hom.dot, t2, t4, t8]
    rfl
  have hne : (torusQuarticG r c R m).1 ≠ negZero := by
    intro h
    have := (signed_eq_negZero (s := (dot r.direction r.direction).signBit != (dot r.direction r.direction).signBit)
      (x := (dot r.direction r.direction).toFlt * (dot r.direction r.direction).toFlt) h).2
    simp at this
  unfold intersectRayTorusG
  rw [hq]
  clear hq
  revert hne
  obtain ⟨a, b, cc, d, e⟩ := torusQuarticG r c R m
  intro hne
  dsimp only at hne ⊢
  rw [← solveQuarticG_toFlt s0 hcbrt hacos hcos pi nan lit a b cc d e az hne]
  generalize solveQuarticG (sqrtS s) cbrtS acosS cosS pi nan (fun x => of (lit x)) a b cc d e az = t
  have hp : ∀ i : Fin 4, (if i.val < t.1 then (if Cmp.lt 0 (vmap toFlt t.2 i) then vmap toFlt t.2 i else nan.toFlt) else vmap toFlt t.2 i) =
      (if i.val < t.1 then (if Cmp.lt 0 (t.2 i) then t.2 i else nan) else t.2 i : SFlt P.fmt).toFlt := by
    intro i
    unfold vmap
    rw [hom.lt0']
    split
    · split <;> rfl
    · rfl
  unfold torusSelectG
  dsimp only
  by_cases h0 : t.1 = 0
  · rw [if_pos h0, if_pos h0]
  · rw [if_neg h0, if_neg h0, hp, hp, hp, hp, hom.safeMin]
    rfl

/-- Coefficients of both signs and `+0` meet the condition of C117_solve. -/
example : (1 : SFlt binary64.fmt) ≠ negZero ∧ (-1 : SFlt binary64.fmt) ≠ negZero ∧ (0 : SFlt binary64.fmt) ≠ negZero := by
  refine ⟨fun h => (nomatch h), fun h => ?_, fun h => (nomatch h)⟩
  have := (signed_eq_negZero (s := !(1 : SFlt binary64.fmt).signBit) (x := -(1 : SFlt binary64.fmt).toFlt) h).1
  have : decide (-(1 : ℚ) = 0) = true := this
  norm_num at this

end vm
