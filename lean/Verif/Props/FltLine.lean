import Verif.Props.FltCond
import Verif.Props.FltPoints
import Verif.Props.FltProducts
import Verif.Lemmas.FltBoxMat
import Verif.Lemmas.FltPolygon

/-! C147: canonical lines and equality of lines in IEEE arithmetic. -/

set_option linter.unusedSectionVars false
set_option linter.unusedSimpArgs false

namespace vm
open BinPar
variable {P : BinPar} {S : ℕ}

namespace FltLine

theorem beq_iff {F : Fmt} (l m : Line (Flt F) S) : l.beq m = true ↔ l.makeCanonical = m.makeCanonical := by
  unfold Line.beq
  rw [Bool.and_eq_true, FltBM.veq_flt, FltBM.veq_flt]
  constructor
  · rintro ⟨h1, h2⟩
    cases h : l.makeCanonical
    cases h' : m.makeCanonical
    rw [h, h'] at h1 h2
    exact congrArg₂ Line.mk h1 h2
  · intro h; rw [h]; exact ⟨rfl, rfl⟩

theorem eq_zero {a : Flt P.fmt} (h : a.isFinite) : Cmp.eq a 0 = decide (a.val = 0) := by
  by_cases h0 : a.val = 0
  · have : a = 0 := Flt.ext h Flt.zero_finite (by rw [h0, Flt.zero_val])
    rw [this]
    simp [Flt.eq_self Flt.zero_finite, Flt.zero_val]
  · rw [decide_eq_false h0, Bool.eq_false_iff]
    intro hc
    rw [IEEE.eq_iff] at hc
    obtain ⟨x, h1, h2⟩ := hc
    exact h0 (by rw [Flt.key_inj (h1.trans h2.symm), Flt.zero_val])

theorem lt_zero {a : Flt P.fmt} (h : a.isFinite) : Cmp.lt a 0 = decide (a.val < 0) := by
  rw [Flt.lt_val h Flt.zero_finite, Flt.zero_val]

/-- The canonical direction of a finite vector. -/
theorem direction_eq {d : Vec (Flt P.fmt) S} (hd : ∀ i, (d i).isFinite) :
    canonicalDirection d = match (List.finRange S).find? (fun i => !decide ((d i).val = 0)) with
      | some i => if (d i).val < 0 then -d else d
      | none => d := by
  unfold canonicalDirection
  have : (fun i => !(Cmp.eq (d i) 0)) = fun i => !decide ((d i).val = 0) := by
    funext i; rw [eq_zero (hd i)]
  rw [this]
  rcases (List.finRange S).find? _ with _ | i
  · rfl
  · dsimp only
    rw [lt_zero (hd i)]
    simp

theorem direction_neg {d : Vec (Flt P.fmt) S} (hd : ∀ i, (d i).isFinite) : canonicalDirection (-d) = canonicalDirection d := by
  have hn : ∀ i, ((-d) i).isFinite := fun i => Flt.neg_finite.2 (hd i)
  rw [direction_eq hn, direction_eq hd]
  have e : ∀ i, ((-d) i).val = -(d i).val := fun i => Flt.neg_val _
  have : (fun i => !decide (((-d) i).val = 0)) = fun i => !decide ((d i).val = 0) := by
    funext i; rw [e]; simp
  rw [this]
  have nn : -(-d) = d := by funext i; exact Flt.neg_neg' _
  rcases h : (List.finRange S).find? (fun i => !decide ((d i).val = 0)) with _ | i
  · have : ∀ i, (d i).val = 0 := by
      intro i
      have := List.find?_eq_none.1 h i (List.mem_finRange i)
      simpa using this
    funext i
    refine Flt.ext (hn i) (hd i) ?_
    rw [e, this, neg_zero]
  · have h1 := List.find?_some h
    have h2 : (d i).val ≠ 0 := by simpa using h1
    dsimp only
    rw [e, nn]
    rcases lt_or_gt_of_ne h2 with h3 | h3
    · rw [if_neg (by linarith), if_pos h3]
    · rw [if_pos (by linarith), if_neg (by linarith)]

theorem direction_or (d : Vec (Flt P.fmt) S) : canonicalDirection d = d ∨ canonicalDirection d = -d := by
  unfold canonicalDirection
  rcases (List.finRange S).find? _ with _ | i
  · exact Or.inl rfl
  · dsimp only
    split_ifs
    · exact Or.inr rfl
    · exact Or.inl rfl

theorem point_neg {F : Fmt} (p d : Vec (Flt F) S) : (Line.mk p (-d)).makeCanonical.point = (Line.mk p d).makeCanonical.point := by
  funext i
  show p i - -(d i) * dot p (-d) = p i - d i * dot p d
  rw [(C102_dot_neg F p d).2, Flt.neg_mul', Flt.mul_comm', Flt.neg_mul', Flt.neg_neg', Flt.mul_comm']

/-- The inner product of vectors whose products are small. -/
theorem dot_bound {T : ℚ} (hT : P.Rep T) (h0 : 0 ≤ T) {N : ℕ} (room : 2 ^ N * T < P.bound) : ∀ {S : ℕ} (a b : Vec (Flt P.fmt) S), S ≤ N →
    (∀ i, (a i).isFinite ∧ (b i).isFinite ∧ |(a i).val| * |(b i).val| ≤ T) → (dot a b).isFinite ∧ |(dot a b).val| ≤ 2 ^ S * T
  | 0, a, b, _, _ => ⟨trivial, by
      have : (dot a b).val = 0 := rfl
      rw [this, abs_zero]; positivity⟩
  | S + 1, a, b, hS, h => by
    obtain ⟨h1, h2⟩ := dot_bound hT h0 room (fun i : Fin S => a i.castSucc) (fun i => b i.castSucc) (by omega) (fun i => h i.castSucc)
    obtain ⟨a1, a2, a3⟩ := h (Fin.last S)
    have hT' : P.fmt.rep T := by have := FltCond.rep_room hT h0 (Nat.zero_le N) room; simpa using this
    obtain ⟨m1, m2⟩ := FltCond.mul_bound a1 a2 hT' a3
    rw [dot_succ']
    refine FltCond.add_bound h1 m1 (FltCond.rep_room hT h0 hS room) ?_
    have : T ≤ 2 ^ S * T := le_mul_of_one_le_left h0 (one_le_pow₀ (by norm_num))
    rw [pow_succ]; linarith

end FltLine

/-- `operator==` of lines is an equivalence relation and `operator!=` is its negation, for all components including infinities and NaN. -/
theorem C147_equivalence (F : Fmt) {S : ℕ} (l m n : Line (Flt F) S) :
    l.beq l = true ∧ l.beq m = m.beq l ∧ (l.beq m = true → m.beq n = true → l.beq n = true) ∧ l.bne m = !l.beq m := by
  refine ⟨(FltLine.beq_iff _ _).2 rfl, ?_, fun h1 h2 => ?_, ?_⟩
  · rw [Bool.eq_iff_iff, FltLine.beq_iff, FltLine.beq_iff]
    exact eq_comm
  · rw [FltLine.beq_iff] at *
    exact h1.trans h2
  · unfold Line.bne Line.beq vne veq
    rw [bne, bne, Bool.not_and]

/-- A line and the same line in the opposite direction are equal, exactly, and equal to the same lines. -/
theorem C147_reverse (P : BinPar) {S : ℕ} (p d : Vec (Flt P.fmt) S) (hd : ∀ i, (d i).isFinite) (m : Line (Flt P.fmt) S) :
    (Line.mk p (-d)).beq ⟨p, d⟩ = true ∧ (Line.mk p (-d)).beq m = (Line.mk p d).beq m := by
  have e : (Line.mk p (-d)).makeCanonical = (Line.mk p d).makeCanonical :=
    congrArg₂ Line.mk (FltLine.point_neg p d) (FltLine.direction_neg hd)
  refine ⟨(FltLine.beq_iff _ _).2 e, ?_⟩
  rw [Bool.eq_iff_iff, FltLine.beq_iff, FltLine.beq_iff, e]

/-- The direction of the canonical form is the direction or its opposite, its first component that is not zero is positive, and the canonical form of
the canonical form has the same direction. -/
theorem C147_direction (P : BinPar) {S : ℕ} (l : Line (Flt P.fmt) S) (hd : ∀ i, (l.direction i).isFinite) :
    (l.makeCanonical.direction = l.direction ∨ l.makeCanonical.direction = -l.direction) ∧
    ((∃ i, (l.direction i).val ≠ 0) → ∃ i, 0 < (l.makeCanonical.direction i).val ∧ ∀ j < i, (l.makeCanonical.direction j).val = 0) ∧
    l.makeCanonical.makeCanonical.direction = l.makeCanonical.direction := by
  refine ⟨FltLine.direction_or _, ?_, ?_⟩
  · rintro ⟨k, hk⟩
    show ∃ i, 0 < (canonicalDirection l.direction i).val ∧ ∀ j < i, (canonicalDirection l.direction j).val = 0
    rw [FltLine.direction_eq hd]
    rcases h : (List.finRange S).find? (fun i => !decide ((l.direction i).val = 0)) with _ | i
    · have := List.find?_eq_none.1 h k (List.mem_finRange k)
      exact absurd (by simpa using this) hk
    · have h2 : (l.direction i).val ≠ 0 := by simpa using List.find?_some h
      have h3 : ∀ j < i, (l.direction j).val = 0 := by
        intro j hj
        obtain ⟨_, as, bs, e, hz⟩ := List.find?_eq_some_iff_append.1 h
        have hj' : j ∈ as := by
          have hm := List.mem_finRange j
          rw [e] at hm
          have sorted : (as ++ i :: bs).Pairwise (· < ·) := by rw [← e]; exact List.pairwise_lt_finRange S
          rcases List.mem_append.1 hm with hm | hm
          · exact hm
          · rcases List.mem_cons.1 hm with hm | hm
            · exact absurd hm hj.ne
            · have := (List.pairwise_cons.1 (List.pairwise_append.1 sorted).2.1).1 j hm
              exact absurd hj (not_lt.2 this.le)
        simpa using hz j hj'
      refine ⟨i, ?_⟩
      dsimp only
      split_ifs with h4
      · exact ⟨by show 0 < (-(l.direction i)).val; rw [Flt.neg_val]; linarith, fun j hj => by
          show (-(l.direction j)).val = 0
          rw [Flt.neg_val, h3 j hj, neg_zero]⟩
      · exact ⟨lt_of_le_of_ne (not_lt.1 h4) h2.symm, h3⟩
  · show canonicalDirection (canonicalDirection l.direction) = canonicalDirection l.direction
    rcases FltLine.direction_or l.direction with h | h
    · rw [h, h]
    · rw [h, FltLine.direction_neg hd, h]

/-- Lines that are parallel to a coordinate axis: they are equal if and only if the other coordinates of their points are equal, wherever the points are
along the axis. -/
theorem C147_axis (P : BinPar) {S : ℕ} (k : Fin S) (d d' : Vec (Flt P.fmt) S) (hd : d = vaxis S k ∨ d = -vaxis S k)
    (hd' : d' = vaxis S k ∨ d' = -vaxis S k) (p q : Vec (Flt P.fmt) S) (hp : ∀ i, (p i).isFinite) (hq : ∀ i, (q i).isFinite) :
    (Line.mk p d).beq ⟨q, d'⟩ = true ↔ ∀ i, i ≠ k → p i = q i := by
  have ax : ∀ i : Fin S, ((vaxis S k : Vec (Flt P.fmt) S) i).isFinite := axis_finite k
  have key : ∀ (p : Vec (Flt P.fmt) S), (∀ i, (p i).isFinite) → (Line.mk p (vaxis S k)).makeCanonical.point = fun i => if i = k then 0 else p i := by
    intro p hp
    have hdot : dot p (vaxis S k) = p k := by
      unfold dot
      rw [fsum_single (fun i => p i * (vaxis S k : Vec (Flt P.fmt) S) i) k]
      · show p k * (if k = k then 1 else 0) = _
        rw [if_pos rfl, Flt.mul_one']
      · intro j hj
        show p j * (if j = k then 1 else 0) = 0
        rw [if_neg hj, Flt.mul_zero_fin (hp j)]
    funext i
    show p i - (vaxis S k : Vec (Flt P.fmt) S) i * dot p (vaxis S k) = _
    rw [hdot]
    by_cases hi : i = k
    · subst hi
      have : (vaxis S i : Vec (Flt P.fmt) S) i = 1 := by unfold vaxis; rw [if_pos rfl]
      rw [this, Flt.one_mul', if_pos rfl, Flt.sub_eq (hp i) (hp i), sub_self]
      exact Flt.ext (Flt.round_finite.2 (by rw [P.fl_zero, abs_zero]; exact P.bound_pos)) Flt.zero_finite (by
        rw [Flt.round_val (Flt.round_finite.2 (by rw [P.fl_zero, abs_zero]; exact P.bound_pos)), P.fl_zero, Flt.zero_val])
    · have : (vaxis S k : Vec (Flt P.fmt) S) i = 0 := by unfold vaxis; rw [if_neg hi]
      rw [this, Flt.zero_mul_fin (hp k), Flt.sub_zero', if_neg hi]
  have red : ∀ (p d : Vec (Flt P.fmt) S) (m : Line (Flt P.fmt) S), (d = vaxis S k ∨ d = -vaxis S k) →
      (Line.mk p d).beq m = (Line.mk p (vaxis S k)).beq m := by
    rintro p d m (rfl | rfl)
    · rfl
    · exact (C147_reverse P p _ ax m).2
  rw [red p d _ hd, (C147_equivalence P.fmt _ _ ⟨q, d'⟩).2.1, red q d' _ hd', (C147_equivalence P.fmt _ _ ⟨p, vaxis S k⟩).2.1, FltLine.beq_iff]
  constructor
  · intro h i hi
    have h1 := congrFun (congrArg Line.point h) i
    rw [key p hp, key q hq] at h1
    simpa [hi] using h1
  · intro h
    refine congrArg₂ Line.mk ?_ rfl
    show (Line.mk p (vaxis S k)).makeCanonical.point = (Line.mk q (vaxis S k)).makeCanonical.point
    rw [key p hp, key q hq]
    funext i
    by_cases hi : i = k
    · rw [if_pos hi, if_pos hi]
    · rw [if_neg hi, if_neg hi, h i hi]

/-- The hypotheses of `C147_reverse`, `C147_direction` and `C147_axis` hold for the line through (1, 0) in the direction -x. -/
example : (∀ i, ((-vaxis 2 0 : Vec (Flt binary32.fmt) 2) i).isFinite) ∧ (∃ i, ((-vaxis 2 0 : Vec (Flt binary32.fmt) 2) i).val ≠ 0) ∧
    ∀ i, ((vaxis 2 0 : Vec (Flt binary32.fmt) 2) i).isFinite :=
  ⟨fun i => Flt.neg_finite.2 (axis_finite 0 i), ⟨0, by show (-(1 : Flt binary32.fmt)).val ≠ 0; rw [Flt.neg_val, Flt.one_val]; norm_num⟩, axis_finite 0⟩

/-- The canonical point in three dimensions: it is finite, differs from the projection of the origin by rounding errors, and is perpendicular to the
direction up to rounding errors and the error of the length of the direction. -/
theorem C147_point (P : BinPar) (hp24 : 24 ≤ P.p) (l : Line (Flt P.fmt) 3) {M : ℚ} (hMr : P.Rep M) (hM : 1 ≤ M) (room : 16 * M < P.bound)
    (hp : ∀ i, (l.point i).isFinite ∧ |(l.point i).val| ≤ M) (hd : ∀ i, (l.direction i).isFinite ∧ |(l.direction i).val| ≤ 1) :
    (∀ i, (l.makeCanonical.point i).isFinite ∧
      |(l.makeCanonical.point i).val - ((l.point i).val - (∑ j, (l.point j).val * (l.direction j).val) * (l.direction i).val)| ≤ 25 * P.u * M) ∧
    |∑ i, (l.makeCanonical.point i).val * (l.makeCanonical.direction i).val| ≤
      75 * P.u * M + 3 * M * |1 - ∑ i, (l.direction i).val ^ 2| := by
  have hu := FltPts.u24 hp24
  have hu0 := P.u_pos
  have he := FltPts.eta_sq P
  have he0 := P.eta_pos
  have M0 : 0 ≤ M := by linarith
  set D := ∑ j, (l.point j).val * (l.direction j).val with hD
  have prod : ∀ i, |(l.point i).val| * |(l.direction i).val| ≤ M := fun i =>
    (mul_le_mul (hp i).2 (hd i).2 (abs_nonneg _) M0).trans (by rw [mul_one])
  obtain ⟨s1, s2⟩ := FltLine.dot_bound (N := 4) hMr M0 (by norm_num; exact room) l.point l.direction (by norm_num) fun i => ⟨(hp i).1, (hd i).1, prod i⟩
  have absD : absDot l.point l.direction ≤ 3 * M := by
    unfold absDot
    rw [Fin.sum_univ_three]
    have a0 := prod 0; have a1 := prod 1; have a2 := prod 2
    rw [← abs_mul] at a0 a1 a2
    linarith
  have eD : |(dot l.point l.direction).val - D| ≤ 13 * P.u * M := by
    refine (dot_err _ _ s1).trans ?_
    have h1 : dotErr P 3 (absDot l.point l.direction) ≤ dotErr P 3 (3 * M) := by
      unfold dotErr
      have : (0 : ℚ) ≤ (1 + P.u) ^ 3 - 1 := by
        have := one_le_pow₀ (n := 3) (show (1 : ℚ) ≤ 1 + P.u by linarith); linarith
      have := mul_le_mul_of_nonneg_left absD this
      linarith
    refine h1.trans ?_
    unfold dotErr
    have c1 : (1 + P.u) ^ 3 - 1 ≤ 4 * P.u := by nlinarith [mul_nonneg hu0.le hu0.le, mul_nonneg hu0.le (mul_nonneg hu0.le hu0.le)]
    have c2 : (1 + P.u) ^ 3 ≤ 2 := by nlinarith
    have t1 := mul_le_mul_of_nonneg_right c1 (show 0 ≤ 3 * M by linarith)
    have t2 : ((3 : ℕ) : ℚ) * (1 + P.u) ^ 3 * P.eta ≤ 6 * P.eta := by
      have := mul_le_mul_of_nonneg_right c2 he0.le
      push_cast; linarith
    have t3 : 6 * P.eta ≤ P.u := by nlinarith
    have t4 : P.u ≤ P.u * M := le_mul_of_one_le_right hu0.le hM
    linarith
  have s3 : |(dot l.point l.direction).val| ≤ 8 * M := by norm_num at s2; exact s2
  have Dle : |D| ≤ 3 * M := by
    refine (Finset.abs_sum_le_sum_abs _ _).trans absD
  have main : ∀ i, (l.makeCanonical.point i).isFinite ∧
      |(l.makeCanonical.point i).val - ((l.point i).val - D * (l.direction i).val)| ≤ 25 * P.u * M := by
    intro i
    have r8 : P.fmt.rep (8 * M) := by
      have := FltCond.rep_room hMr M0 (show 3 ≤ 4 by norm_num) (by norm_num; exact room); norm_num at this; exact this
    have r16 : P.fmt.rep (16 * M) := by
      have := FltCond.rep_room hMr M0 (show 4 ≤ 4 by norm_num) (by norm_num; exact room); norm_num at this; exact this
    obtain ⟨m1, m2⟩ := FltCond.mul_bound (hd i).1 s1 r8 ((mul_le_of_le_one_left (abs_nonneg _) (hd i).2).trans s3)
    obtain ⟨f1, f2⟩ := FltCond.sub_bound (hp i).1 m1 r16 (by have := (hp i).2; linarith)
    have f1' : (l.makeCanonical.point i).isFinite := f1
    refine ⟨f1', ?_⟩
    have hc : l.makeCanonical.point i = l.point i - l.direction i * dot l.point l.direction := rfl
    rw [hc]
    -- rounding of the product and of the difference
    have em : |(l.direction i * dot l.point l.direction).val - (l.direction i).val * (dot l.point l.direction).val| ≤ 4 * P.u * M := by
      rw [Flt.mul_val m1]
      refine (P.fl_err_u _).trans ?_
      have b1 : |(l.direction i).val * (dot l.point l.direction).val| ≤ 3 * M + 13 * P.u * M := by
        rw [abs_mul]
        refine (mul_le_of_le_one_left (abs_nonneg _) (hd i).2).trans ?_
        have := abs_sub_abs_le_abs_sub (dot l.point l.direction).val D
        linarith
      have b2 := mul_le_mul_of_nonneg_left b1 hu0.le
      have b3 : P.u * (13 * P.u * M) ≤ P.u * M / 2 := by nlinarith [mul_nonneg hu0.le M0]
      have b4 : P.eta ≤ P.u * M / 4 := by nlinarith [mul_nonneg hu0.le M0]
      linarith
    have bm : |(l.direction i * dot l.point l.direction).val| ≤ 3 * M + 17 * P.u * M := by
      have b1 : |(l.direction i).val * (dot l.point l.direction).val| ≤ 3 * M + 13 * P.u * M := by
        rw [abs_mul]
        refine (mul_le_of_le_one_left (abs_nonneg _) (hd i).2).trans ?_
        have := abs_sub_abs_le_abs_sub (dot l.point l.direction).val D
        linarith
      have := abs_sub_abs_le_abs_sub (l.direction i * dot l.point l.direction).val ((l.direction i).val * (dot l.point l.direction).val)
      linarith
    have es : |(l.point i - l.direction i * dot l.point l.direction).val - ((l.point i).val - (l.direction i * dot l.point l.direction).val)| ≤ 5 * P.u * M := by
      rw [Flt.sub_val f1]
      refine (P.fl_err_u _).trans ?_
      have b1 := (abs_sub (l.point i).val (l.direction i * dot l.point l.direction).val).trans (add_le_add (hp i).2 bm)
      have b2 := mul_le_mul_of_nonneg_left b1 hu0.le
      have b3 : P.u * (17 * P.u * M) ≤ P.u * M / 2 := by nlinarith [mul_nonneg hu0.le M0]
      have b4 : P.eta ≤ P.u * M / 4 := by nlinarith [mul_nonneg hu0.le M0]
      linarith
    have ed : |(l.direction i).val * (dot l.point l.direction).val - D * (l.direction i).val| ≤ 13 * P.u * M := by
      rw [show (l.direction i).val * (dot l.point l.direction).val - D * (l.direction i).val =
        (l.direction i).val * ((dot l.point l.direction).val - D) by ring, abs_mul]
      exact (mul_le_of_le_one_left (abs_nonneg _) (hd i).2).trans eD
    rw [abs_le] at em es ed ⊢
    constructor <;> nlinarith [em.1, em.2, es.1, es.2, ed.1, ed.2, mul_nonneg hu0.le M0]
  refine ⟨main, ?_⟩
  have dir : |∑ i, (l.makeCanonical.point i).val * (l.makeCanonical.direction i).val| = |∑ i, (l.makeCanonical.point i).val * (l.direction i).val| := by
    show |∑ i, (l.makeCanonical.point i).val * (canonicalDirection l.direction i).val| = _
    rcases FltLine.direction_or l.direction with h | h
    · rw [h]
    · rw [h, ← abs_neg, ← Finset.sum_neg_distrib]
      congr 1
      refine Finset.sum_congr rfl fun i _ => ?_
      show -(_ * (-(l.direction i)).val) = _
      rw [Flt.neg_val]; ring
  rw [dir]
  have split : ∑ i, (l.makeCanonical.point i).val * (l.direction i).val =
      (∑ i, (l.direction i).val * ((l.makeCanonical.point i).val - ((l.point i).val - D * (l.direction i).val))) +
        D * (1 - ∑ i, (l.direction i).val ^ 2) := by
    rw [mul_sub, mul_one, Finset.mul_sum, hD]
    simp only [Fin.sum_univ_three]
    ring
  rw [split]
  refine (abs_add_le _ _).trans (add_le_add ?_ ?_)
  · refine (Finset.abs_sum_le_sum_abs _ _).trans ?_
    rw [Fin.sum_univ_three]
    have t : ∀ i, |(l.direction i).val * ((l.makeCanonical.point i).val - ((l.point i).val - D * (l.direction i).val))| ≤ 25 * P.u * M := fun i => by
      rw [abs_mul]
      exact (mul_le_of_le_one_left (abs_nonneg _) (hd i).2).trans (main i).2
    linarith [t 0, t 1, t 2]
  · rw [abs_mul]
    exact mul_le_mul_of_nonneg_right Dle (abs_nonneg _)

/-- The hypotheses of `C147_point` hold for the line through (1, 0, 0) in the direction (0, 1, 0). -/
example : 24 ≤ binary32.p ∧ binary32.Rep 1 ∧ 16 * (1 : ℚ) < binary32.bound ∧
    ∀ k i : Fin 3, ((vaxis 3 k : Vec (Flt binary32.fmt) 3) i).isFinite ∧ |((vaxis 3 k : Vec (Flt binary32.fmt) 3) i).val| ≤ 1 :=
  ⟨le_rfl, FltCond.rep_one, by norm_num [BinPar.bound, binary32], FltCond.axis_le⟩

/-- In other directions equality is lost by rounding: a line of floats is not equal to its own canonical form, and not equal to the line through the point
at the distance 5 on it. -/
theorem C147_moved_fails : ∃ l : Line (Flt binary32.fmt) 2, l.point = ![1, 0] ∧ (∀ i, (l.direction i).isFinite) ∧
    |1 - ∑ i, (l.direction i).val ^ 2| ≤ 1 / 2 ^ 24 ∧ l.beq l.makeCanonical = false ∧
    l.beq ⟨pointAtDistance l.point l.direction (Flt.round 5), l.direction⟩ = false := by
  set d : Vec (Flt binary32.fmt) 2 := ![Flt.round (5033165 / 8388608), Flt.round (13421773 / 16777216)] with hd
  have d0 : (d 0).isFinite ∧ (d 0).val = 5033165 / 8388608 := is_round (by fl_num (-24) (10066330)) (lt_bound32 (by norm_num [abs_le]))
  have d1 : (d 1).isFinite ∧ (d 1).val = 13421773 / 16777216 := is_round (by fl_num (-24) (13421773)) (lt_bound32 (by norm_num [abs_le]))
  have z0 : (0 : Flt binary32.fmt).isFinite ∧ (0 : Flt binary32.fmt).val = 0 := ⟨Flt.zero_finite, Flt.zero_val⟩
  have z1 : (1 : Flt binary32.fmt).isFinite ∧ (1 : Flt binary32.fmt).val = 1 := ⟨Flt.one_finite, Flt.one_val⟩
  have h5 : (Flt.round 5 : Flt binary32.fmt).isFinite ∧ (Flt.round 5 : Flt binary32.fmt).val = 5 :=
    is_round (by fl_num (-21) (10485760)) (lt_bound32 (by norm_num [abs_le]))
  have x1 := is_mul (c := (5033165 / 8388608)) z1 d0 (by fl_num (-24) (10066330)) (lt_bound32 (by norm_num [abs_le]))
  have x2 := is_add (c := (5033165 / 8388608)) z0 x1 (by fl_num (-24) (10066330)) (lt_bound32 (by norm_num [abs_le]))
  have x3 := is_mul (c := (0)) z0 d1 (by norm_num [BinPar.fl_zero]) (lt_bound32 (by norm_num [abs_le]))
  have x4 := is_add (c := (5033165 / 8388608)) x2 x3 (by fl_num (-24) (10066330)) (lt_bound32 (by norm_num [abs_le]))
  have x5 := is_mul (c := (3019899 / 8388608)) d0 x4 (by fl_num (-25) (12079596)) (lt_bound32 (by norm_num [abs_le]))
  have x6 := is_sub (c := (5368709 / 8388608)) z1 x5 (by fl_num (-24) (10737418)) (lt_bound32 (by norm_num [abs_le]))
  have x7 := is_mul (c := (1006633 / 2097152)) d1 x4 (by fl_num (-25) (16106128)) (lt_bound32 (by norm_num [abs_le]))
  have x8 := is_sub (c := (-1006633 / 2097152)) z0 x7 (by fl_num (-25) (-16106128)) (lt_bound32 (by norm_num [abs_le]))
  have x9 := is_mul (c := (6442451 / 16777216)) x6 d0 (by fl_num (-25) (12884902)) (lt_bound32 (by norm_num [abs_le]))
  have x10 := is_add (c := (6442451 / 16777216)) z0 x9 (by fl_num (-25) (12884902)) (lt_bound32 (by norm_num [abs_le]))
  have x11 := is_mul (c := (-12884903 / 33554432)) x8 d1 (by fl_num (-25) (-12884903)) (lt_bound32 (by norm_num [abs_le]))
  have x12 := is_add (c := (-1 / 33554432)) x10 x11 (by fl_num (-48) (-8388608)) (lt_bound32 (by norm_num [abs_le]))
  have x13 := is_mul (c := (-5033165 / 281474976710656)) d0 x12 (by fl_num (-49) (-10066330)) (lt_bound32 (by norm_num [abs_le]))
  have x14 := is_sub (c := (5368709 / 8388608)) x6 x13 (by fl_num (-24) (10737418)) (lt_bound32 (by norm_num [abs_le]))
  have x15 := is_mul (c := (-13421773 / 562949953421312)) d1 x12 (by fl_num (-49) (-13421773)) (lt_bound32 (by norm_num [abs_le]))
  have x16 := is_sub (c := (-16106127 / 33554432)) x8 x15 (by fl_num (-25) (-16106127)) (lt_bound32 (by norm_num [abs_le]))
  have x17 := is_mul (c := (3)) d0 h5 (by fl_tie (-22) (12582912)) (lt_bound32 (by norm_num [abs_le]))
  have x18 := is_add (c := (4)) z1 x17 (by fl_num (-21) (8388608)) (lt_bound32 (by norm_num [abs_le]))
  have x19 := is_mul (c := (4)) d1 h5 (by fl_num (-21) (8388608)) (lt_bound32 (by norm_num [abs_le]))
  have x20 := is_add (c := (4)) z0 x19 (by fl_num (-21) (8388608)) (lt_bound32 (by norm_num [abs_le]))
  have x21 := is_mul (c := (5033165 / 2097152)) x18 d0 (by fl_num (-22) (10066330)) (lt_bound32 (by norm_num [abs_le]))
  have x22 := is_add (c := (5033165 / 2097152)) z0 x21 (by fl_num (-22) (10066330)) (lt_bound32 (by norm_num [abs_le]))
  have x23 := is_mul (c := (13421773 / 4194304)) x20 d1 (by fl_num (-22) (13421773)) (lt_bound32 (by norm_num [abs_le]))
  have x24 := is_add (c := (2936013 / 524288)) x22 x23 (by fl_tie (-21) (11744052)) (lt_bound32 (by norm_num [abs_le]))
  have x25 := is_mul (c := (14092863 / 4194304)) d0 x24 (by fl_num (-22) (14092863)) (lt_bound32 (by norm_num [abs_le]))
  have x26 := is_sub (c := (2684353 / 4194304)) x18 x25 (by fl_num (-24) (10737412)) (lt_bound32 (by norm_num [abs_le]))
  have x27 := is_mul (c := (4697621 / 1048576)) d1 x24 (by fl_num (-21) (9395242)) (lt_bound32 (by norm_num [abs_le]))
  have x28 := is_sub (c := (-503317 / 1048576)) x20 x27 (by fl_num (-25) (-16106144)) (lt_bound32 (by norm_num [abs_le]))
  refine ⟨⟨![1, 0], d⟩, rfl, ?_, ?_, ?_, ?_⟩
  · intro i; fin_cases i
    exacts [d0.1, d1.1]
  · rw [Fin.sum_univ_two]
    show |1 - ((d 0).val ^ 2 + (d 1).val ^ 2)| ≤ _
    rw [d0.2, d1.2]
    norm_num [abs_le]
  · rw [Bool.eq_false_iff, ne_eq, FltLine.beq_iff]
    intro h
    have h1 : (Line.mk ![1, 0] d).makeCanonical.point 1 = (Line.mk ![1, 0] d).makeCanonical.makeCanonical.point 1 := congrFun (congrArg Line.point h) 1
    have h2 := congrArg Flt.val h1
    have e1 : ((Line.mk ![1, 0] d).makeCanonical.point 1).val = -1006633 / 2097152 := x8.2
    have cd : canonicalDirection d = d := by
      have hf : ∀ i, (d i).isFinite := by intro i; fin_cases i; exacts [d0.1, d1.1]
      rcases FltLine.direction_or d with h | h
      · exact h
      · obtain ⟨_, h3, _⟩ := C147_direction binary32 ⟨d, d⟩ hf
        obtain ⟨i, h4, h5⟩ := h3 ⟨0, by show (d 0).val ≠ 0; rw [d0.2]; norm_num⟩
        have h4 : 0 < (canonicalDirection d i).val := h4
        rw [h] at h4
        have h4 : 0 < (-(d i)).val := h4
        rw [Flt.neg_val] at h4
        fin_cases i
        · have h4 : 0 < -(d 0).val := h4
          rw [d0.2] at h4; norm_num at h4
        · have h4 : 0 < -(d 1).val := h4
          rw [d1.2] at h4; norm_num at h4
    have e2 : ((Line.mk ![1, 0] d).makeCanonical.makeCanonical.point 1).val = -16106127 / 33554432 := by
      show ((Line.mk (Line.mk ![1, 0] d).makeCanonical.point (canonicalDirection d)).makeCanonical.point 1).val = _
      rw [cd]
      exact x16.2
    rw [e1, e2] at h2
    norm_num at h2
  · rw [Bool.eq_false_iff, ne_eq, FltLine.beq_iff]
    intro h
    have h1 := congrArg Flt.val (congrFun (congrArg Line.point h) 1)
    have e1 : ((Line.mk ![1, 0] d).makeCanonical.point 1).val = -1006633 / 2097152 := x8.2
    have e2 : ((Line.mk (pointAtDistance ![1, 0] d (Flt.round 5)) d).makeCanonical.point 1).val = -503317 / 1048576 := x28.2
    rw [e1] at h1
    change _ = ((Line.mk (pointAtDistance ![1, 0] d (Flt.round 5)) d).makeCanonical.point 1).val at h1
    rw [e2] at h1
    norm_num at h1

end vm
