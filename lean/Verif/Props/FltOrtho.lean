import Verif.Lemmas.FltProj
import Verif.Props.FltGrid
import Verif.Props.FltProducts

/-! # C135: `ortho_matrix` in IEEE arithmetic -/

set_option linter.unusedSectionVars false
set_option linter.unusedSimpArgs false

namespace vm
open BinPar FltBM FltProj

namespace FltProj
variable {P : BinPar}

theorem ortho_aff (n f l t r b : Flt P.fmt) :
    orthoMatrix n f l t r b = aff (fun c i => if c = i then ![2 / (r - l), 2 / (t - b), -2 / (f - n)] c else 0)
      ![-(l + r) / (r - l), -(t + b) / (t - b), -(f + n) / (f - n)] := by
  funext c i
  fin_cases c <;> fin_cases i <;> rfl

theorem ortho_point (n f l t r b : Flt P.fmt) (p : Vec (Flt P.fmt) 3) (hp : ∀ i, (p i).isFinite) :
    mmulPoint (orthoMatrix n f l t r b) p 0 = 2 / (r - l) * p 0 + -(l + r) / (r - l) ∧
    mmulPoint (orthoMatrix n f l t r b) p 1 = 2 / (t - b) * p 1 + -(t + b) / (t - b) ∧
    mmulPoint (orthoMatrix n f l t r b) p 2 = -2 / (f - n) * p 2 + -(f + n) / (f - n) := by
  have z : ∀ i, 0 * p i = 0 := fun i => Flt.zero_mul_fin (hp i)
  rw [ortho_aff, aff_point _ _ _ hp, aff_point _ _ _ hp, aff_point _ _ _ hp]
  refine ⟨?_, ?_, ?_⟩ <;> simp [z, Flt.zero_add', Flt.add_zero']

theorem neg_zero_f : (-0 : Flt P.fmt) = 0 := Flt.key_inj (by show some (Ext.ofRat (-0)) = some (Ext.ofRat 0); rw [neg_zero])

theorem mul_neg_flt (a b : Flt P.fmt) : a * -b = -(a * b) := by rw [Flt.mul_comm', Flt.neg_mul', Flt.mul_comm']

theorem div_nonpos_flt {a b : Flt P.fmt} (ha : a.isFinite) (hb : b.isFinite) (h : (a / b).isFinite) (ha0 : a.val ≤ 0) (hb0 : 0 ≤ b.val) : (a / b).val ≤ 0 := by
  by_cases hz : b.val = 0
  · exfalso
    obtain ⟨k1, e1⟩ := Flt.eq_fin ha
    obtain ⟨k2, e2⟩ := Flt.eq_fin hb
    rw [e1, e2] at h
    change Flt.isFinite (if b.val = 0 then Flt.infTimes a.val else Flt.round _ : Flt P.fmt) at h
    rw [if_pos hz] at h
    unfold Flt.infTimes at h
    split_ifs at h <;> exact h
  · rw [fin_div_fin ha hb hz] at h ⊢
    rw [Flt.round_val h, ← P.fl_zero]
    exact P.fl_mono (div_nonpos_of_nonpos_of_nonneg ha0 hb0)

theorem lin_anti {f p q t : Flt P.fmt} (h1 : (f * p + t).isFinite) (h2 : (f * q + t).isFinite) (hf : f.val ≤ 0) (h : q.val ≤ p.val) :
    (f * p + t).val ≤ (f * q + t).val := by
  obtain ⟨a1, a2⟩ := Flt.add_finite h1
  obtain ⟨b1, b2⟩ := Flt.add_finite h2
  rw [Flt.add_val h1, Flt.add_val h2, Flt.mul_val a1, Flt.mul_val b1]
  exact P.fl_mono (add_le_add_left (P.fl_mono (mul_le_mul_of_nonpos_left h hf)) _)

/-- One coordinate of the image. -/
theorem axis_err {c lo hi s p : Flt P.fmt} {C : ℚ} (hc : c.isFinite ∧ c.val = C) (h : (c / (hi - lo) * p + -s / (hi - lo)).isFinite)
    (hd : (hi - lo).isFinite) (hs : s.isFinite) (hsv : |s.val - (lo.val + hi.val)| ≤ P.u * |lo.val + hi.val|) (hne : lo.val ≠ hi.val) :
    |(c / (hi - lo) * p + -s / (hi - lo)).val - (C * p.val - (lo.val + hi.val)) / (hi.val - lo.val)| ≤
      8 * P.u * ((|C * p.val| + |lo.val + hi.val|) / |hi.val - lo.val|) + (2 * |p.val| + 3) * P.eta := by
  obtain ⟨h1, h2⟩ := Flt.add_finite h
  have hD : hi.val - lo.val ≠ 0 := sub_ne_zero.2 hne.symm
  have rd := P.fl_sub_err_u (Flt.rep_val hi).1 (Flt.rep_val lo).1
  rw [← Flt.sub_val hd] at rd
  have e1 := quot_err hc.1 hd (Flt.mul_finite h1).1 hD (exact_err c.val) rd
  rw [hc.2] at e1
  have e2 := quot_err (N := -(lo.val + hi.val)) (Flt.neg_finite.2 hs) hd h2 hD
    (by rw [Flt.neg_val, abs_neg, ← neg_sub', abs_neg]; exact hsv) rd
  have := lin_err h e1 e2
  have e : C / (hi.val - lo.val) * p.val + -(lo.val + hi.val) / (hi.val - lo.val) = (C * p.val - (lo.val + hi.val)) / (hi.val - lo.val) := by
    field_simp
    ring
  rw [e, abs_div (-_), abs_neg, show C / (hi.val - lo.val) * p.val = C * p.val / (hi.val - lo.val) by ring, abs_div (_ * _), ← add_div] at this
  exact this

theorem sum_err {a b : Flt P.fmt} (h : (a + b).isFinite) : |(a + b).val - (a.val + b.val)| ≤ P.u * |a.val + b.val| := by
  have := P.fl_add_err_u (Flt.rep_val a).1 (Flt.rep_val b).1
  rwa [← Flt.add_val h] at this

/-- A viewport that is symmetric about the centre. -/
theorem sym_coord {r : Flt P.fmt} (hw : (r - -r).isFinite) (hr : 0 < r.val) :
    (∀ p, 2 / (r - -r) * p + -(-r + r) / (r - -r) = 2 / (r - -r) * p) ∧ ((2 / (r - -r)).isFinite → (2 / (r - -r)).val = P.fl (1 / r.val)) := by
  have hf : r.isFinite := (Flt.sub_finite hw).1
  have wv : (r - -r).val = 2 * r.val := by
    rw [Flt.sub_val hw, Flt.neg_val, sub_neg_eq_add, ← two_mul]
    exact P.fl_rep (Flt.rep_val r).1.double
  have w0 : (r - -r).val ≠ 0 := by rw [wv]; positivity
  have hq : 2 / (r - -r) = Flt.round (1 / r.val) := by
    rw [fin_div_fin (Flt.two_eq P).1 hw w0, wv, (Flt.two_eq P).2]
    congr 1
    field_simp
  refine ⟨fun p => ?_, fun h => ?_⟩
  · have e : -r + r = 0 := by
      rw [Flt.add_eq (Flt.neg_fin hf) hf, Flt.neg_val, neg_add_cancel]
      exact Flt.round_of_rep P.fmt.rep_zero
    rw [e, neg_zero_f, fin_div_fin Flt.zero_isFin hw w0, show (0 : Flt P.fmt).val = 0 from rfl, zero_div]
    rw [show (Flt.round 0 : Flt P.fmt) = 0 from Flt.round_of_rep P.fmt.rep_zero, Flt.add_zero']
  · rw [hq] at h ⊢
    exact Flt.round_val h

end FltProj

variable {P : BinPar}

/-- Every coordinate of the image of a point is close to its exact normalised coordinate: for the first coordinate (2x - (left + right)) / (right - left), for the second
the same with bottom and top, for the third with near and far and the reversed coordinate. -/
theorem C135_error (n f l t r b : Flt P.fmt) (p : Vec (Flt P.fmt) 3) (hp : ∀ i, (p i).isFinite) :
    let q := mmulPoint (orthoMatrix n f l t r b) p
    ((r - l).isFinite → (l + r).isFinite → l.val ≠ r.val → (q 0).isFinite →
      |(q 0).val - (2 * (p 0).val - (l.val + r.val)) / (r.val - l.val)| ≤
        8 * P.u * ((|2 * (p 0).val| + |l.val + r.val|) / |r.val - l.val|) + (2 * |(p 0).val| + 3) * P.eta) ∧
    ((t - b).isFinite → (t + b).isFinite → b.val ≠ t.val → (q 1).isFinite →
      |(q 1).val - (2 * (p 1).val - (b.val + t.val)) / (t.val - b.val)| ≤
        8 * P.u * ((|2 * (p 1).val| + |b.val + t.val|) / |t.val - b.val|) + (2 * |(p 1).val| + 3) * P.eta) ∧
    ((f - n).isFinite → (f + n).isFinite → n.val ≠ f.val → (q 2).isFinite →
      |(q 2).val - (2 * -(p 2).val - (n.val + f.val)) / (f.val - n.val)| ≤
        8 * P.u * ((|2 * (p 2).val| + |n.val + f.val|) / |f.val - n.val|) + (2 * |(p 2).val| + 3) * P.eta) := by
  intro q
  obtain ⟨e0, e1, e2⟩ := ortho_point n f l t r b p hp
  refine ⟨fun hd hs hne h => ?_, fun hd hs hne h => ?_, fun hd hs hne h => ?_⟩
  · rw [show q 0 = _ from e0] at h ⊢
    exact axis_err (Flt.two_eq P) h hd hs (sum_err hs) hne
  · rw [show q 1 = _ from e1] at h ⊢
    exact axis_err (Flt.two_eq P) h hd hs (by rw [add_comm b.val]; exact sum_err hs) hne
  · rw [show q 2 = _ from e2] at h ⊢
    have := axis_err (C := -2) ⟨Flt.neg_finite.2 (Flt.two_eq P).1, by rw [Flt.neg_val, (Flt.two_eq P).2]⟩ h hd hs (by rw [add_comm n.val]; exact sum_err hs) hne
    rw [show 2 * -(p 2).val = -2 * (p 2).val by ring]
    rwa [show |2 * (p 2).val| = |-2 * (p 2).val| by rw [abs_mul, abs_mul, abs_neg]]

/-- Points keep their order: to the right and upwards for the first two coordinates, and away from the camera for the depth. -/
theorem C135_order (n f l t r b : Flt P.fmt) (p p' : Vec (Flt P.fmt) 3) (hp : ∀ i, (p i).isFinite) (hp' : ∀ i, (p' i).isFinite) :
    let q := mmulPoint (orthoMatrix n f l t r b) p
    let q' := mmulPoint (orthoMatrix n f l t r b) p'
    ((r - l).isFinite → l.val ≤ r.val → (q 0).isFinite → (q' 0).isFinite → (p 0).val ≤ (p' 0).val → (q 0).val ≤ (q' 0).val) ∧
    ((t - b).isFinite → b.val ≤ t.val → (q 1).isFinite → (q' 1).isFinite → (p 1).val ≤ (p' 1).val → (q 1).val ≤ (q' 1).val) ∧
    ((f - n).isFinite → n.val ≤ f.val → (q 2).isFinite → (q' 2).isFinite → (p' 2).val ≤ (p 2).val → (q 2).val ≤ (q' 2).val) := by
  intro q q'
  obtain ⟨e0, e1, e2⟩ := ortho_point n f l t r b p hp
  obtain ⟨e0', e1', e2'⟩ := ortho_point n f l t r b p' hp'
  have pos : ∀ {a b : Flt P.fmt}, (a - b).isFinite → b.val ≤ a.val → 0 ≤ (a - b).val := by
    intro a b h1 h2
    rw [Flt.sub_val h1]
    exact P.fl_nonneg (sub_nonneg.2 h2)
  have two0 : 0 ≤ (2 : Flt P.fmt).val := by rw [(Flt.two_eq P).2]; norm_num
  refine ⟨fun hd hlr h h' hx => ?_, fun hd hlr h h' hx => ?_, fun hd hlr h h' hx => ?_⟩
  · rw [show q 0 = _ from e0] at h ⊢
    rw [show q' 0 = _ from e0'] at h' ⊢
    exact lin_mono h h' (div_nonneg_flt (Flt.two_eq P).1 hd (Flt.mul_finite (Flt.add_finite h).1).1 two0 (pos hd hlr)) hx
  · rw [show q 1 = _ from e1] at h ⊢
    rw [show q' 1 = _ from e1'] at h' ⊢
    exact lin_mono h h' (div_nonneg_flt (Flt.two_eq P).1 hd (Flt.mul_finite (Flt.add_finite h).1).1 two0 (pos hd hlr)) hx
  · rw [show q 2 = _ from e2] at h ⊢
    rw [show q' 2 = _ from e2'] at h' ⊢
    refine lin_anti h h' (div_nonpos_flt (Flt.neg_finite.2 (Flt.two_eq P).1) hd (Flt.mul_finite (Flt.add_finite h).1).1 ?_ (pos hd hlr)) hx
    rw [Flt.neg_val]; linarith

/-- If the viewport is symmetric about the centre, then the centre is moved to zero, mirrored points are moved to mirrored points, and points of the viewport are moved between -1
and 1: rounding never moves them out of view. -/
theorem C135_symmetric (n f t r : Flt P.fmt) (p p' : Vec (Flt P.fmt) 3) (hp : ∀ i, (p i).isFinite) (hp' : ∀ i, (p' i).isFinite) :
    let q := mmulPoint (orthoMatrix n f (-r) t r (-t)) p
    let q' := mmulPoint (orthoMatrix n f (-r) t r (-t)) p'
    (0 < r.val → (r - -r).isFinite → (2 / (r - -r)).isFinite →
      (p 0 = 0 → q 0 = 0) ∧ (p' 0 = -p 0 → q' 0 = -q 0) ∧
      (r.val ≤ 2 ^ (1 - P.qmin - P.p) → |(p 0).val| ≤ r.val → (q 0).isFinite ∧ |(q 0).val| ≤ 1)) ∧
    (0 < t.val → (t - -t).isFinite → (2 / (t - -t)).isFinite →
      (p 1 = 0 → q 1 = 0) ∧ (p' 1 = -p 1 → q' 1 = -q 1) ∧
      (t.val ≤ 2 ^ (1 - P.qmin - P.p) → |(p 1).val| ≤ t.val → (q 1).isFinite ∧ |(q 1).val| ≤ 1)) := by
  intro q q'
  obtain ⟨e0, e1, -⟩ := ortho_point n f (-r) t r (-t) p hp
  obtain ⟨e0', e1', -⟩ := ortho_point n f (-r) t r (-t) p' hp'
  have key : ∀ (r x : Flt P.fmt), 0 < r.val → (r - -r).isFinite → (2 / (r - -r)).isFinite → x.isFinite → r.val ≤ 2 ^ (1 - P.qmin - P.p) → |x.val| ≤ r.val →
      (2 / (r - -r) * x).isFinite ∧ |(2 / (r - -r) * x).val| ≤ 1 := by
    intro r x hr hw hf hx hle h
    have fv := (sym_coord hw hr).2 hf
    have hmin : (2 : ℚ) ^ (P.qmin + P.p - 1) ≤ 1 / r.val := by
      rw [le_div_iff₀ hr]
      refine (mul_le_mul_of_nonneg_left hle (two_zpow_pos _).le).trans ?_
      rw [← zpow_add2, show P.qmin + P.p - 1 + (1 - P.qmin - P.p) = 0 by ring, zpow_zero]
    have f0 : 0 ≤ P.fl (1 / r.val) := P.fl_nonneg (by positivity)
    have one := fl_recip_le_one hr hmin
    have b1 : |P.fl (P.fl (1 / r.val) * x.val)| ≤ 1 := by
      have h1 := (abs_le.1 h)
      have h2 := P.fl_mono (mul_le_mul_of_nonneg_left h1.2 f0)
      have h3 := P.fl_mono (mul_le_mul_of_nonneg_left h1.1 f0)
      rw [mul_neg, P.fl_neg] at h3
      exact abs_le.2 ⟨by linarith, by linarith⟩
    have hfin : (2 / (r - -r) * x).isFinite := by
      rw [Flt.mul_eq hf hx, fv]
      exact Flt.round_finite.2 (lt_of_le_of_lt b1 P.one_lt_bound)
    refine ⟨hfin, ?_⟩
    rw [Flt.mul_val hfin, fv]
    exact b1
  refine ⟨fun hr hw hf => ?_, fun hr hw hf => ?_⟩
  · have E := (sym_coord hw hr).1
    rw [show q 0 = _ from e0, show q' 0 = _ from e0', E, E]
    refine ⟨fun h => by rw [h, Flt.mul_zero_fin hf], fun h => by rw [h, mul_neg_flt], fun h1 h2 => key r (p 0) hr hw hf (hp 0) h1 h2⟩
  · have E : ∀ x, 2 / (t - -t) * x + -(t + -t) / (t - -t) = 2 / (t - -t) * x := by
      intro x
      rw [Flt.add_comm' t (-t)]
      exact (sym_coord hw hr).1 x
    rw [show q 1 = _ from e1, show q' 1 = _ from e1', E, E]
    refine ⟨fun h => by rw [h, Flt.mul_zero_fin hf], fun h => by rw [h, mul_neg_flt], fun h1 h2 => key t (p 1) hr hw hf (hp 1) h1 h2⟩

/-- Viewports whose width is a power of two move points of a grid exactly. -/
theorem C135_grid (n f l t r b : Flt P.fmt) (p : Vec (Flt P.fmt) 3) (g e B : ℤ) (hp : ∀ i, (p i).isFinite) (hg : P.Ok g) (he : P.Ok (-e)) (hge : P.Ok (-e + g))
    (hl : OnGrid g B l) (hr : OnGrid g B r) (hx : OnGrid g B (p 0)) (hw : r.val - l.val = 2 ^ e) (hB : 4 * B < 2 ^ P.p) :
    (mmulPoint (orthoMatrix n f l t r b) p 0).isFinite ∧
    (mmulPoint (orthoMatrix n f l t r b) p 0).val = (2 * (p 0).val - (l.val + r.val)) / (r.val - l.val) := by
  rw [(ortho_point n f l t r b p hp).1]
  obtain ⟨lf, lz, lv, lb⟩ := hl
  obtain ⟨rf, rz, rv, rb⟩ := hr
  obtain ⟨xf, xz, xv, xb⟩ := hx
  have L : Gr g l lz B := ⟨lf, lv, lb⟩
  have R : Gr g r rz B := ⟨rf, rv, rb⟩
  have X : Gr g (p 0) xz B := ⟨xf, xv, xb⟩
  have B0 : 0 ≤ B := (abs_nonneg _).trans lb
  have D := R.sub L hg (by linarith)
  have S := (L.add R hg (by linarith)).neg
  have dv : (r - l).val = 2 ^ e := by rw [D.val, ← hw, rv, lv]; push_cast; ring
  have d0 : (r - l).val ≠ 0 := by rw [dv]; exact (two_zpow_pos _).ne'
  have p8 : (2 : ℤ) ^ 3 ≤ 2 ^ P.p := pow_le_pow_right₀ (by norm_num) P.hp
  have F : Gr (-e) (2 / (r - l)) 2 2 := by
    rw [fin_div_fin (Flt.two_eq P).1 D.fin d0]
    refine Gr.round he ?_ (by norm_num) (by linarith)
    rw [(Flt.two_eq P).2, dv, zpow_neg]
    push_cast
    rfl
  have T : Gr (-e + g) (-(l + r) / (r - l)) (-(lz + rz)) (B + B) := by
    rw [fin_div_fin S.fin D.fin d0]
    refine Gr.round hge ?_ S.le (by linarith)
    rw [dv, S.val, zpow_add2, zpow_neg]
    field_simp
  have Z := (F.mul X hge (by linarith)).add T hge (by linarith)
  refine ⟨Z.fin, ?_⟩
  rw [Z.val, hw, xv, lv, rv, zpow_add2, zpow_neg]
  push_cast
  field_simp
  ring

/-- An empty viewport gives no finite coordinate for any point. -/
theorem C135_empty_fails (n f l t b : Flt P.fmt) (p : Vec (Flt P.fmt) 3) (hp : ∀ i, (p i).isFinite) (hl : l.isFinite) :
    ¬ (mmulPoint (orthoMatrix n f l t l b) p 0).isFinite := by
  rw [(ortho_point n f l t l b p hp).1]
  intro h
  have h2 := (Flt.add_finite h).2
  have h1 := (Flt.mul_finite (Flt.add_finite h).1).1
  have e : l - l = 0 := by
    rw [Flt.sub_eq hl hl, sub_self]
    exact Flt.round_of_rep P.fmt.rep_zero
  rw [e] at h1
  obtain ⟨k, e2⟩ := Flt.eq_fin (Flt.two_eq P).1
  rw [e2] at h1
  change Flt.isFinite (if (0 : ℚ) = 0 then Flt.infTimes (2 : Flt P.fmt).val else Flt.round _ : Flt P.fmt) at h1
  rw [if_pos rfl] at h1
  unfold Flt.infTimes at h1
  split_ifs at h1 <;> exact h1

/-- The border of the viewport is not always moved to 1, not even for a symmetric viewport: in `double`, 49 is moved to the number below 1. -/
theorem C135_border_fails : ∃ (t r : Flt binary64.fmt) (p : Vec (Flt binary64.fmt) 3), r.val = 49 ∧ p 0 = r ∧
    (mmulPoint (orthoMatrix 1 2 (-r) t r (-t)) p 0).isFinite ∧ (mmulPoint (orthoMatrix 1 2 (-r) t r (-t)) p 0).val = 1 - 1 / 2 ^ 53 := by
  have h49 : (Flt.round 49 : Flt binary64.fmt).isFinite ∧ (Flt.round 49 : Flt binary64.fmt).val = 49 :=
    is_round (by fl_num (-47) (49 * 2 ^ 47)) (lt_bound64 (by norm_num [abs_le]))
  set x : Flt binary64.fmt := Flt.round 49
  have hn : (-x).isFinite ∧ (-x).val = -49 := ⟨Flt.neg_finite.2 h49.1, by rw [Flt.neg_val, h49.2]⟩
  have w := is_sub (c := 98) h49 hn (by fl_num (-46) (49 * 2 ^ 47)) (lt_bound64 (by norm_num [abs_le]))
  have d := is_div (c := 5882252574524729 / 2 ^ 58) (Flt.two_eq binary64) w (by norm_num) (by fl_num (-58) 5882252574524729) (lt_bound64 (by norm_num [abs_le]))
  have m := is_mul (c := 1 - 1 / 2 ^ 53) d h49 (by fl_num (-53) (2 ^ 53 - 1)) (lt_bound64 (by norm_num [abs_le]))
  refine ⟨1, x, fun _ => x, h49.2, rfl, ?_⟩
  rw [(ortho_point 1 2 (-x) 1 x (-1) (fun _ => x) (fun _ => h49.1)).1, (sym_coord w.1 (by rw [h49.2]; norm_num)).1]
  exact m

/-- The viewport from -2 to 2 in both directions with depth 1 to 3, a point in it, and one on the right: the hypotheses of the theorems hold. -/
example : ∃ (n f l t r b : Flt binary64.fmt) (p p' : Vec (Flt binary64.fmt) 3), (∀ i, (p i).isFinite ∧ (p' i).isFinite) ∧ l = -r ∧ b = -t ∧ 0 < r.val ∧ 0 < t.val ∧
    ((r - l).isFinite ∧ (l + r).isFinite ∧ (t - b).isFinite ∧ (t + b).isFinite ∧ (f - n).isFinite ∧ (f + n).isFinite ∧ (2 / (r - l)).isFinite ∧ (2 / (t - b)).isFinite) ∧
    (l.val < r.val ∧ b.val < t.val ∧ n.val < f.val) ∧ (r.val ≤ 2 ^ (1 - binary64.qmin - binary64.p) ∧ |(p 0).val| ≤ r.val) ∧ (p 0).val ≤ (p' 0).val ∧
    (∀ i, (mmulPoint (orthoMatrix n f l t r b) p i).isFinite) ∧ (mmulPoint (orthoMatrix n f l t r b) p' 0).isFinite ∧
    (mmulPoint (orthoMatrix n f l t r b) p 0).val = 1 / 2 ∧
    OnGrid 0 3 l ∧ OnGrid 0 3 r ∧ OnGrid 0 3 (p 0) ∧ r.val - l.val = 2 ^ (2 : ℤ) ∧ (4 * 3 : ℤ) < 2 ^ binary64.p ∧
    binary64.Ok 0 ∧ binary64.Ok (-2) ∧ binary64.Ok (-2 + 0) := by
  have h3 : (Flt.round 3 : Flt binary64.fmt).isFinite ∧ (Flt.round 3 : Flt binary64.fmt).val = 3 :=
    is_round (by fl_num (-51) (3 * 2 ^ 51)) (lt_bound64 (by norm_num [abs_le]))
  set x : Flt binary64.fmt := Flt.round 3
  have h2 := Flt.two_eq binary64
  have h1 : (1 : Flt binary64.fmt).isFinite ∧ (1 : Flt binary64.fmt).val = 1 := ⟨trivial, rfl⟩
  have hn2 : (-2 : Flt binary64.fmt).isFinite ∧ (-2 : Flt binary64.fmt).val = -2 := ⟨Flt.neg_finite.2 h2.1, by rw [Flt.neg_val, h2.2]⟩
  have w := is_sub (c := 4) h2 hn2 (by fl_num (-50) (2 ^ 52)) (lt_bound64 (by norm_num [abs_le]))
  have s := is_add (c := 0) hn2 h2 (by norm_num [binary64.fl_zero]) (lt_bound64 (by norm_num [abs_le]))
  have s' := is_add (c := 0) h2 hn2 (by norm_num [binary64.fl_zero]) (lt_bound64 (by norm_num [abs_le]))
  have wz := is_sub (c := 2) h3 h1 (by fl_num (-51) (2 ^ 52)) (lt_bound64 (by norm_num [abs_le]))
  have sz := is_add (c := 4) h3 h1 (by fl_num (-50) (2 ^ 52)) (lt_bound64 (by norm_num [abs_le]))
  have d := is_div (c := 1 / 2) h2 w (by norm_num) (by fl_num (-53) (2 ^ 52)) (lt_bound64 (by norm_num [abs_le]))
  have m := is_mul (c := 1 / 2) d h1 (by fl_num (-53) (2 ^ 52)) (lt_bound64 (by norm_num [abs_le]))
  have m' := is_mul (c := 1) d h2 (by fl_num (-52) (2 ^ 52)) (lt_bound64 (by norm_num [abs_le]))
  have dz := is_div (c := -1) hn2 wz (by norm_num) (by fl_num (-52) (-2 ^ 52)) (lt_bound64 (by norm_num [abs_le]))
  have tz := is_div (c := -2) ⟨Flt.neg_finite.2 sz.1, (Flt.neg_val _).trans (congrArg _ sz.2)⟩ wz (by norm_num) (by fl_num (-51) (-2 ^ 52)) (lt_bound64 (by norm_num [abs_le]))
  have mz := is_mul (c := -1) dz h1 (by fl_num (-52) (-2 ^ 52)) (lt_bound64 (by norm_num [abs_le]))
  have rz := is_add (c := -3) mz tz (by fl_num (-51) (-3 * 2 ^ 51)) (lt_bound64 (by norm_num [abs_le]))
  have pt := ortho_point 1 x (-2) 2 2 (-2) (fun _ => 1) (fun _ => h1.1)
  have pt' := ortho_point 1 x (-2) 2 2 (-2) (fun _ => 2) (fun _ => h2.1)
  have E := (sym_coord w.1 (by rw [h2.2]; norm_num)).1
  have E' : ∀ y, 2 / (2 - -2) * y + -(2 + -2) / (2 - -2) = 2 / (2 - -2 : Flt binary64.fmt) * y := by
    intro y; rw [Flt.add_comm' 2 (-2)]; exact E y
  refine ⟨1, x, -2, 2, 2, -2, fun _ => 1, fun _ => 2, fun i => ⟨h1.1, h2.1⟩, rfl, rfl, by rw [h2.2]; norm_num, by rw [h2.2]; norm_num,
    ⟨w.1, s.1, w.1, s'.1, wz.1, sz.1, d.1, d.1⟩, ⟨by rw [h2.2, hn2.2]; norm_num, by rw [h2.2, hn2.2]; norm_num, by rw [h1.2, h3.2]; norm_num⟩, ⟨?_, ?_⟩, ?_, ?_, ?_, ?_,
    ⟨hn2.1, -2, by rw [hn2.2]; norm_num, by norm_num⟩, ⟨h2.1, 2, by rw [h2.2]; norm_num, by norm_num⟩, ⟨h1.1, 1, by rw [h1.2]; norm_num, by norm_num⟩,
    by rw [h2.2, hn2.2]; norm_num, by norm_num [binary64], by norm_num [BinPar.Ok, binary64], by norm_num [BinPar.Ok, binary64], by norm_num [BinPar.Ok, binary64]⟩
  · rw [h2.2]
    calc (2 : ℚ) = 2 ^ (1 : ℤ) := by norm_num
      _ ≤ _ := zpow_le_zpow_right₀ (by norm_num) (by norm_num [binary64])
  · show |(1 : Flt binary64.fmt).val| ≤ _
    rw [h1.2, h2.2]; norm_num
  · show (1 : Flt binary64.fmt).val ≤ (2 : Flt binary64.fmt).val
    rw [h1.2, h2.2]; norm_num
  · intro i
    fin_cases i
    · show (mmulPoint (orthoMatrix 1 x (-2) 2 2 (-2)) (fun _ => 1) 0).isFinite
      rw [pt.1, E]; exact m.1
    · show (mmulPoint (orthoMatrix 1 x (-2) 2 2 (-2)) (fun _ => 1) 1).isFinite
      rw [pt.2.1, E']; exact m.1
    · show (mmulPoint (orthoMatrix 1 x (-2) 2 2 (-2)) (fun _ => 1) 2).isFinite
      rw [pt.2.2]; exact rz.1
  · rw [pt'.1, E]; exact m'.1
  · rw [pt.1, E]; exact m.2

end vm
