import Verif.Props.FltBetween
import Verif.Model.Intersect

/-! C108: `intersect_ray_bbox` in IEEE arithmetic. -/

set_option linter.unusedSectionVars false
set_option linter.unusedSimpArgs false

namespace vm

variable {P : BinPar} {S : ℕ}

/-! ### Selection of the candidate plane -/

/-- The fold that keeps the index of a least value, for an arbitrary comparison that is `<` of some ranks. -/
theorem foldl_least {ι L : Type*} [LinearOrder L] (g : ι → L) (lt : ι → ι → Bool) (hlt : ∀ i j, lt i j = decide (g i < g j))
    (l : List ι) (x : ι) :
    let best := l.foldl (fun best i => if lt i best then i else best) x
    g best ≤ g x ∧ ∀ i ∈ l, g best ≤ g i := by
  induction l generalizing x with
  | nil => simp
  | cons y l ih =>
    simp only [List.foldl_cons]
    by_cases h : g y < g x
    · rw [if_pos (by rw [hlt]; exact decide_eq_true h)]
      obtain ⟨h1, h2⟩ := ih y
      refine ⟨h1.trans h.le, fun i hi => ?_⟩
      rcases List.mem_cons.1 hi with rfl | hi
      · exact h1
      · exact h2 i hi
    · rw [if_neg (by rw [hlt]; exact Bool.eq_false_iff.1 (decide_eq_false h))]
      obtain ⟨h1, h2⟩ := ih x
      refine ⟨h1, fun i hi => ?_⟩
      rcases List.mem_cons.1 hi with rfl | hi
      · exact h1.trans (not_lt.1 h)
      · exact h2 i hi

/-- The fold that keeps the index of a greatest value among the indices with a property. -/
theorem foldl_greatest {ι L : Type*} [LinearOrder L] (g : ι → L) (lt : ι → ι → Bool) (hlt : ∀ i j, lt i j = decide (g i < g j))
    (c : ι → Bool) (l : List ι) (x : ι) (hx : c x = true) :
    let best := l.foldl (fun best i => if c i && lt best i then i else best) x
    c best = true ∧ g x ≤ g best ∧ ∀ i ∈ l, c i = true → g i ≤ g best := by
  induction l generalizing x with
  | nil => simp [hx]
  | cons y l ih =>
    simp only [List.foldl_cons]
    by_cases h : c y = true ∧ g x < g y
    · rw [if_pos (by rw [hlt, Bool.and_eq_true]; exact ⟨h.1, decide_eq_true h.2⟩)]
      obtain ⟨h1, h2, h3⟩ := ih y h.1
      refine ⟨h1, h.2.le.trans h2, fun i hi hc => ?_⟩
      rcases List.mem_cons.1 hi with rfl | hi
      · exact h2
      · exact h3 i hi hc
    · rw [if_neg (by rw [hlt, Bool.and_eq_true]; exact fun h' => h ⟨h'.1, of_decide_eq_true h'.2⟩)]
      obtain ⟨h1, h2, h3⟩ := ih x hx
      refine ⟨h1, h2, fun i hi hc => ?_⟩
      rcases List.mem_cons.1 hi with rfl | hi
      · exact (not_lt.1 fun h' => h ⟨hc, h'⟩).trans h2
      · exact h3 i hi hc

/-- A ray and a box with finite coordinates, the box not being inverted. -/
structure FiniteRayBox (r : Ray (Flt P.fmt) S) (b : BBox (Flt P.fmt) S) : Prop where
  origin : ∀ i, (r.origin i).isFinite
  direction : ∀ i, (r.direction i).isFinite
  min : ∀ i, (b.min i).isFinite
  max : ∀ i, (b.max i).isFinite
  valid : ∀ i, (b.min i).val ≤ (b.max i).val

/-- The origin is in the slab between the two faces with number `i`. -/
def InSlab (r : Ray (Flt P.fmt) S) (b : BBox (Flt P.fmt) S) (i : Fin S) : Prop :=
  (b.min i).val ≤ (r.origin i).val ∧ (r.origin i).val ≤ (b.max i).val

section
variable {r : Ray (Flt P.fmt) S} {b : BBox (Flt P.fmt) S}

theorem inside_flt (h : FiniteRayBox r b) (i : Fin S) : bboxInside r b i = true ↔ InSlab r b i := by
  unfold bboxInside InSlab
  rw [Flt.lt_val (h.origin i) (h.min i), Flt.lt_val (h.max i) (h.origin i)]
  simp

theorem origin_cases (h : FiniteRayBox r b) (i : Fin S) :
    (bboxOrigin r b i = b.min i ∧ ((r.origin i).val < (b.min i).val ∨ (InSlab r b i ∧ (r.direction i).val < 0))) ∨
    (bboxOrigin r b i = b.max i ∧ ((b.max i).val < (r.origin i).val ∨ (InSlab r b i ∧ 0 ≤ (r.direction i).val))) := by
  unfold bboxOrigin InSlab
  rw [Flt.lt_val (h.origin i) (h.min i), Flt.lt_val (h.max i) (h.origin i), Flt.lt_val (h.direction i) Flt.zero_finite,
    Flt.zero_val]
  simp only [decide_eq_true_eq]
  have := h.valid i
  split_ifs with h1 h2 h3
  · exact Or.inl ⟨rfl, Or.inl h1⟩
  · exact Or.inr ⟨rfl, Or.inl h2⟩
  · exact Or.inl ⟨rfl, Or.inr ⟨⟨not_lt.1 h1, not_lt.1 h2⟩, h3⟩⟩
  · exact Or.inr ⟨rfl, Or.inr ⟨⟨not_lt.1 h1, not_lt.1 h2⟩, not_lt.1 h3⟩⟩

theorem origin_finite (h : FiniteRayBox r b) (i : Fin S) : (bboxOrigin r b i).isFinite := by
  rcases origin_cases h i with h1 | h1 <;> rw [h1.1]
  · exact h.min i
  · exact h.max i

theorem eq_zero_val {a : Flt P.fmt} (ha : a.isFinite) : Cmp.eq a 0 = decide (a.val = 0) := by
  rw [eq_of_keys (Flt.key_fin ha) (Flt.key_fin Flt.zero_finite), Flt.zero_val, decide_eq_decide]
  refine ⟨fun h => WithTop.coe_inj.1 (WithBot.coe_inj.1 h), fun h => by rw [h]⟩

theorem distance_flt (h : FiniteRayBox r b) {i : Fin S} (hd : (r.direction i).val ≠ 0) :
    bboxDistance r b i = Flt.round ((bboxOrigin r b i).val - (r.origin i).val) / r.direction i := by
  unfold bboxDistance
  rw [eq_zero_val (h.direction i), decide_eq_false hd, Flt.sub_eq (origin_finite h i) (h.origin i)]
  rfl

theorem distance_flt_zero (h : FiniteRayBox r b) {i : Fin S} (hd : (r.direction i).val = 0) : bboxDistance r b i = -1 := by
  unfold bboxDistance
  rw [eq_zero_val (h.direction i), decide_eq_true hd]
  rfl

theorem div_key (q : ℚ) {d : Flt P.fmt} (hd : d.isFinite) (h0 : d.val ≠ 0) :
    ∃ k, IEEE.key ((Flt.round q : Flt P.fmt) / d) = some k := by
  have h1 : ∃ k, IEEE.key (Flt.round q : Flt P.fmt) = some k := ⟨_, Flt.key_round q⟩
  obtain ⟨hr, e⟩ := Flt.eq_fin hd
  rw [e]
  generalize (Flt.round q : Flt P.fmt) = x at h1 ⊢
  rcases x with _ | _ | _ | ⟨s, hs⟩
  · obtain ⟨k, hk⟩ := h1
    exact absurd hk (by intro h; exact nomatch h)
  · show ∃ k, IEEE.key (if 0 ≤ d.val then Flt.ninf else Flt.pinf : Flt P.fmt) = some k
    split_ifs <;> exact ⟨_, rfl⟩
  · show ∃ k, IEEE.key (if 0 ≤ d.val then Flt.pinf else Flt.ninf : Flt P.fmt) = some k
    split_ifs <;> exact ⟨_, rfl⟩
  · show ∃ k, IEEE.key (if d.val = 0 then Flt.infTimes s else Flt.round (s / d.val) : Flt P.fmt) = some k
    rw [if_neg h0]
    exact ⟨_, Flt.key_round _⟩

theorem distance_key (h : FiniteRayBox r b) (i : Fin S) : ∃ k, IEEE.key (bboxDistance r b i) = some k := by
  by_cases hd : (r.direction i).val = 0
  · rw [distance_flt_zero h hd]
    exact ⟨_, rfl⟩
  · rw [distance_flt h hd]
    exact div_key _ (h.direction i) hd

/-- The value of the computed distance as an extended number. -/
def distRank (r : Ray (Flt P.fmt) S) (b : BBox (Flt P.fmt) S) (i : Fin S) : Ext :=
  Option.getD (α := Ext) (Flt.key (bboxDistance r b i)) ⊥

theorem distRank_eq (h : FiniteRayBox r b) (i : Fin S) : IEEE.key (bboxDistance r b i) = some (distRank r b i) := by
  obtain ⟨k, hk⟩ := distance_key h i
  have h2 : Flt.key (bboxDistance r b i) = some k := hk
  unfold distRank
  rw [hk, h2]; rfl

theorem distance_lt (h : FiniteRayBox r b) (i j : Fin S) :
    Cmp.lt (bboxDistance r b i) (bboxDistance r b j) = decide (distRank r b i < distRank r b j) :=
  lt_of_keys (distRank_eq h i) (distRank_eq h j)

end

section
variable {r : Ray (Flt P.fmt) (S + 1)} {b : BBox (Flt P.fmt) (S + 1)}

theorem best_inside (h : FiniteRayBox r b) (hin : ∀ i, InSlab r b i) (i : Fin (S + 1)) :
    distRank r b (bboxBestPlane r b) ≤ distRank r b i := by
  have hall : (List.finRange (S + 1)).all (bboxInside r b) = true := by
    rw [List.all_eq_true]; exact fun i _ => (inside_flt h i).2 (hin i)
  unfold bboxBestPlane
  rw [if_pos hall]
  obtain ⟨h1, h2⟩ := foldl_least (distRank r b) (fun i j => Cmp.lt (bboxDistance r b i) (bboxDistance r b j))
    (fun i j => distance_lt h i j) (List.finRange (S + 1)).tail 0
  have : (0 : Fin (S + 1)) :: (List.finRange (S + 1)).tail = List.finRange (S + 1) := by
    rw [List.finRange_succ]; rfl
  have hi : i ∈ (0 : Fin (S + 1)) :: (List.finRange (S + 1)).tail := by rw [this]; exact List.mem_finRange i
  rcases List.mem_cons.1 hi with rfl | hi
  · exact h1
  · exact h2 i hi

theorem best_outside (h : FiniteRayBox r b) (hout : ∃ i, ¬ InSlab r b i) :
    ¬ InSlab r b (bboxBestPlane r b) ∧ ∀ i, ¬ InSlab r b i → distRank r b i ≤ distRank r b (bboxBestPlane r b) := by
  obtain ⟨j, hj⟩ := hout
  have hc : ∀ i, (!(bboxInside r b i)) = true ↔ ¬ InSlab r b i := by
    intro i
    rw [← inside_flt h i]; simp
  have hall : ¬ (List.finRange (S + 1)).all (bboxInside r b) = true := by
    rw [List.all_eq_true]
    exact fun hc => hj ((inside_flt h j).1 (hc j (List.mem_finRange j)))
  unfold bboxBestPlane
  rw [if_neg hall]
  simp only
  rcases e : (List.finRange (S + 1)).find? (fun i => !(bboxInside r b i)) with _ | first
  · exact absurd (List.find?_eq_none.1 e j (List.mem_finRange j)) (by rw [not_not]; exact (hc j).2 hj)
  · have hfirst : (!(bboxInside r b first)) = true := by have := List.find?_some e; simpa using this
    obtain ⟨h1, h2, h3⟩ := foldl_greatest (distRank r b) (fun i j => Cmp.lt (bboxDistance r b i) (bboxDistance r b j))
      (fun i j => distance_lt h i j) (fun i => !(bboxInside r b i))
      ((List.finRange (S + 1)).filter fun i => decide (first < i)) first hfirst
    simp only [Option.getD_some]
    refine ⟨(hc _).1 h1, fun i hi => ?_⟩
    rcases lt_trichotomy first i with hlt | rfl | hlt
    · exact h3 i (List.mem_filter.2 ⟨List.mem_finRange i, decide_eq_true hlt⟩) ((hc i).2 hi)
    · exact h2
    · exfalso
      rw [List.find?_eq_some_iff_append] at e
      obtain ⟨-, as, bs, hab, has⟩ := e
      have hmem : i ∈ as := by
        have hi' : i ∈ as ++ first :: bs := by rw [← hab]; exact List.mem_finRange i
        rcases List.mem_append.1 hi' with h' | h'
        · exact h'
        · exfalso
          have hs : (as ++ first :: bs).Pairwise (· < ·) := by
            rw [← hab]; exact List.pairwise_lt_finRange _
          have := (List.pairwise_append.1 hs).2.1
          rcases List.mem_cons.1 h' with rfl | h''
          · exact lt_irrefl _ hlt
          · exact lt_asymm hlt ((List.pairwise_cons.1 this).1 i h'')
      have := has i hmem
      rw [(hc i).2 hi] at this
      exact absurd this (by decide)

theorem rayBBox_flt {t : Flt P.fmt} (ht : intersectRayBBox r b = some t) :
    t = bboxDistance r b (bboxBestPlane r b) ∧ Cmp.lt t 0 = false ∧ ∀ i, i ≠ bboxBestPlane r b →
      Cmp.lt (r.origin i + t * r.direction i) (b.min i) = false ∧
      Cmp.lt (b.max i) (r.origin i + t * r.direction i) = false := by
  unfold intersectRayBBox at ht
  simp only at ht
  split_ifs at ht with h1 h2
  obtain rfl := Option.some.inj ht
  refine ⟨rfl, by simpa using h1, fun i hi => ?_⟩
  rw [List.any_eq_true] at h2
  by_contra hc
  refine h2 ⟨i, List.mem_finRange i, ?_⟩
  rw [Bool.and_eq_true]
  refine ⟨decide_eq_true (Ne.symm hi), ?_⟩
  rw [Bool.or_eq_true]
  by_contra hc2
  rw [not_or] at hc2
  exact hc ⟨by simpa using hc2.1, by simpa using hc2.2⟩

theorem rayBBox_flt_of (h1 : Cmp.lt (bboxDistance r b (bboxBestPlane r b)) 0 = false)
    (h2 : ∀ i, i ≠ bboxBestPlane r b →
      Cmp.lt (r.origin i + bboxDistance r b (bboxBestPlane r b) * r.direction i) (b.min i) = false ∧
      Cmp.lt (b.max i) (r.origin i + bboxDistance r b (bboxBestPlane r b) * r.direction i) = false) :
    intersectRayBBox r b = some (bboxDistance r b (bboxBestPlane r b)) := by
  unfold intersectRayBBox
  simp only
  rw [if_neg (by rw [h1]; exact Bool.false_ne_true), if_neg]
  rw [List.any_eq_true]
  rintro ⟨i, -, hi⟩
  rw [Bool.and_eq_true] at hi
  obtain ⟨h3, h4⟩ := h2 i (Ne.symm (of_decide_eq_true hi.1))
  have := hi.2
  rw [h3, h4] at this
  exact absurd this (by decide)

/-- A reported distance is a number, not negative. -/
theorem C108_distance_nonneg (P : BinPar) {S : ℕ} (r : Ray (Flt P.fmt) (S + 1)) (b : BBox (Flt P.fmt) (S + 1))
    (h : FiniteRayBox r b) (t : Flt P.fmt) (ht : intersectRayBBox r b = some t) : Cmp.le 0 t = true := by
  obtain ⟨h1, h2, -⟩ := rayBBox_flt ht
  obtain ⟨k, hk⟩ := distance_key h (bboxBestPlane r b)
  rw [← h1] at hk
  rw [lt_of_keys hk (Flt.key_fin Flt.zero_finite)] at h2
  rw [le_of_keys (Flt.key_fin Flt.zero_finite) hk]
  exact decide_eq_true (not_lt.1 (of_decide_eq_false h2))

theorem fl_sub_pos {x y : ℚ} (hx : P.Rep x) (hy : P.Rep y) (h : y < x) : 0 < P.fl (x - y) := by
  refine lt_of_le_of_ne (P.fl_nonneg (by linarith)) fun h0 => ?_
  have := BinPar.fl_sub_eq_zero hx hy h0.symm
  linarith

theorem div_away {q : ℚ} {d : Flt P.fmt} (hd : d.isFinite)
    (h : (0 < P.fl q ∧ d.val < 0 ∧ -1 ≤ d.val) ∨ (P.fl q < 0 ∧ 0 < d.val ∧ d.val ≤ 1)) :
    Cmp.lt ((Flt.round q : Flt P.fmt) / d) 0 = true := by
  obtain ⟨hr, e⟩ := Flt.eq_fin hd
  have hninf : Cmp.lt (Flt.ninf : Flt P.fmt) 0 = true := decide_eq_true (WithBot.bot_lt_coe _)
  rcases lt_or_ge |P.fl q| P.bound with hb | hb
  · rw [P.round_eq hb, e]
    show Cmp.lt (if d.val = 0 then Flt.infTimes (P.fl q) else Flt.round (P.fl q / d.val) : Flt P.fmt) 0 = true
    rw [if_neg (by rcases h with h | h; exacts [h.2.1.ne, h.2.1.ne']), Flt.round_lt Flt.zero_finite, Flt.zero_val]
    refine decide_eq_true ?_
    rcases h with h | h
    · have h1 : P.fl q / d.val ≤ -P.fl q := by
        rw [div_le_iff_of_neg h.2.1]; nlinarith
      have h2 := P.fl_le_of_rep (P.rep_fl q).neg h1
      linarith
    · have h1 : P.fl q / d.val ≤ P.fl q := by
        rw [div_le_iff₀ h.2.1]; nlinarith
      have h2 := P.fl_le_of_rep (P.rep_fl q) h1
      linarith
  · rw [e]
    rcases h with h | h
    · rw [abs_of_pos h.1] at hb
      rw [Flt.round_pinf hb]
      show Cmp.lt (if 0 ≤ d.val then Flt.pinf else Flt.ninf : Flt P.fmt) 0 = true
      rw [if_neg (not_le.2 h.2.1)]; exact hninf
    · rw [abs_of_neg h.1] at hb
      rw [Flt.round_ninf (by linarith)]
      show Cmp.lt (if 0 ≤ d.val then Flt.ninf else Flt.pinf : Flt P.fmt) 0 = true
      rw [if_pos h.2.1.le]; exact hninf

/-- The ray starts outside of the slab with number `i` and moves away from it. -/
def MovesAway (r : Ray (Flt P.fmt) S) (b : BBox (Flt P.fmt) S) (i : Fin S) : Prop :=
  ((r.origin i).val < (b.min i).val ∧ (r.direction i).val < 0) ∨ ((b.max i).val < (r.origin i).val ∧ 0 < (r.direction i).val)

theorem np_mul_right {a c : Flt P.fmt} (ha : NonNegN a) (hc : NonPosN c) : NonPosN (a * c) := by
  rcases a with _ | _ | _ | ⟨q, hq⟩ <;> rcases c with _ | _ | _ | ⟨s, hs⟩ <;> try trivial
  · exact np_infTimes hc
  · exact np_infTimes (neg_nonpos.2 ha)
  · exact np_round (mul_nonpos_of_nonneg_of_nonpos ha hc)

/-- Adding something that is not positive to a finite float does not increase it. -/
theorem add_np_lt {o c m : Flt P.fmt} (ho : o.isFinite) (hc : c.isFinite) (h : o.val < c.val) (hm : NonPosN m)
    (hn : ∃ k, IEEE.key m = some k) : Cmp.lt (o + m) c = true := by
  rcases m with _ | _ | _ | ⟨q, hq⟩
  · obtain ⟨k, hk⟩ := hn
    exact absurd hk (by intro h; exact nomatch h)
  · obtain ⟨h1, e⟩ := Flt.eq_fin ho
    obtain ⟨h2, e2⟩ := Flt.eq_fin hc
    rw [e, e2]
    exact decide_eq_true (WithBot.bot_lt_coe _)
  · exact hm.elim
  · rw [Flt.add_eq ho (b := Flt.fin q hq) trivial, Flt.round_lt hc]
    refine decide_eq_true (lt_of_le_of_lt ?_ h)
    exact P.fl_le_of_rep (Flt.rep_val o).1 (by have : q ≤ 0 := hm; show o.val + q ≤ o.val; linarith)

theorem add_nn_lt {o c m : Flt P.fmt} (ho : o.isFinite) (hc : c.isFinite) (h : c.val < o.val) (hm : NonNegN m)
    (hn : ∃ k, IEEE.key m = some k) : Cmp.lt c (o + m) = true := by
  rcases m with _ | _ | _ | ⟨q, hq⟩
  · obtain ⟨k, hk⟩ := hn
    exact absurd hk (by intro h; exact nomatch h)
  · exact hm.elim
  · obtain ⟨h1, e⟩ := Flt.eq_fin ho
    obtain ⟨h2, e2⟩ := Flt.eq_fin hc
    rw [e, e2]
    exact decide_eq_true (WithBot.coe_lt_coe.2 (WithTop.coe_lt_top _))
  · rw [Flt.add_eq ho (b := Flt.fin q hq) trivial, Flt.lt_round hc]
    refine decide_eq_true (lt_of_lt_of_le h ?_)
    exact P.le_fl_of_rep (Flt.rep_val o).1 (by have : 0 ≤ q := hm; show o.val ≤ o.val + q; linarith)

theorem nn_of_le {t : Flt P.fmt} (h : Cmp.le 0 t = true) : NonNegN t := by
  rcases t with _ | _ | _ | ⟨q, hq⟩
  · trivial
  · have : Cmp.le (0 : Flt P.fmt) Flt.ninf = false := decide_eq_false (not_le.2 (WithBot.bot_lt_coe _))
    rw [this] at h; exact Bool.noConfusion h
  · trivial
  · rw [Flt.lt_asymm_le Flt.zero_finite (b := Flt.fin q hq) trivial] at h
    show (0 : ℚ) ≤ q
    exact of_decide_eq_true h

theorem mul_key {t d : Flt P.fmt} (ht : Cmp.le 0 t = true) (hd : d.isFinite) (h0 : d.val ≠ 0) :
    ∃ k, IEEE.key (t * d) = some k := by
  obtain ⟨hr, e⟩ := Flt.eq_fin hd
  rw [e]
  rcases t with _ | _ | _ | ⟨q, hq⟩
  · exact Bool.noConfusion (show false = true from ht)
  · show ∃ k, IEEE.key (Flt.infTimes (-d.val) : Flt P.fmt) = some k
    unfold Flt.infTimes
    rw [if_neg (by simpa using h0)]
    split_ifs <;> exact ⟨_, rfl⟩
  · show ∃ k, IEEE.key (Flt.infTimes (d.val) : Flt P.fmt) = some k
    unfold Flt.infTimes
    rw [if_neg h0]
    split_ifs <;> exact ⟨_, rfl⟩
  · exact ⟨_, Flt.key_round _⟩

/-- A ray that moves away from one of the slabs is never reported to hit the box if that component of its direction is at most
one in absolute value.  All finite coordinates are allowed, whatever overflows or underflows. -/
theorem C108_away (P : BinPar) {S : ℕ} (r : Ray (Flt P.fmt) (S + 1)) (b : BBox (Flt P.fmt) (S + 1)) (h : FiniteRayBox r b)
    (i : Fin (S + 1)) (haway : MovesAway r b i) (hd : |(r.direction i).val| ≤ 1) : intersectRayBBox r b = none := by
  rcases e : intersectRayBBox r b with _ | t
  · rfl
  exfalso
  obtain ⟨h1, h2, h3⟩ := rayBBox_flt e
  have hle := C108_distance_nonneg P r b h t e
  have hd' := abs_le.1 hd
  have hd0 : (r.direction i).val ≠ 0 := by rcases haway with h' | h'; exacts [h'.2.ne, h'.2.ne']
  by_cases hi : i = bboxBestPlane r b
  · have h4 : Cmp.lt (bboxDistance r b i) 0 = true := by
      rw [distance_flt h hd0]
      apply div_away (h.direction i)
      have hv := h.valid i
      rcases haway with h' | h'
      · left
        rcases origin_cases h i with h5 | h5
        · rw [h5.1]
          exact ⟨fl_sub_pos (Flt.rep_val _).1 (Flt.rep_val _).1 h'.1, h'.2, hd'.1⟩
        · rcases h5.2 with h6 | h6
          · linarith
          · linarith [h6.1.1]
      · right
        rcases origin_cases h i with h5 | h5
        · rcases h5.2 with h6 | h6
          · linarith
          · linarith [h6.1.2]
        · rw [h5.1]
          refine ⟨?_, h'.2, hd'.2⟩
          have := fl_sub_pos (Flt.rep_val _).1 (Flt.rep_val _).1 h'.1
          rw [← neg_sub, P.fl_neg] at this
          linarith
    rw [hi, ← h1, h2] at h4
    exact Bool.noConfusion h4
  · obtain ⟨h4, h5⟩ := h3 i hi
    have hk := mul_key hle (h.direction i) hd0
    obtain ⟨hr, ed⟩ := Flt.eq_fin (h.direction i)
    rcases haway with h' | h'
    · have := add_np_lt (h.origin i) (h.min i) h'.1 (np_mul_right (nn_of_le hle) (by rw [ed]; exact h'.2.le)) hk
      rw [h4] at this
      exact Bool.noConfusion this
    · have := add_nn_lt (h.origin i) (h.max i) h'.1 (nn_mul (nn_of_le hle) (by rw [ed]; exact h'.2.le)) hk
      rw [h5] at this
      exact Bool.noConfusion this

/-- A ray that is parallel to a slab and starts outside of it is never reported to hit the box at a finite distance. -/
theorem C108_parallel_outside (P : BinPar) {S : ℕ} (r : Ray (Flt P.fmt) (S + 1)) (b : BBox (Flt P.fmt) (S + 1))
    (h : FiniteRayBox r b) (i : Fin (S + 1)) (hout : ¬ InSlab r b i) (hd : (r.direction i).val = 0) (t : Flt P.fmt)
    (ht : intersectRayBBox r b = some t) : ¬ t.isFinite := by
  intro hf
  obtain ⟨h1, h2, h3⟩ := rayBBox_flt ht
  have hz : r.direction i = 0 := Flt.ext (h.direction i) Flt.zero_finite hd
  by_cases hi : i = bboxBestPlane r b
  · rw [← hi, distance_flt_zero h hd] at h1
    rw [h1, Flt.lt_val (Flt.neg_finite.2 Flt.one_finite) Flt.zero_finite, Flt.neg_val, Flt.one_val] at h2
    exact absurd (of_decide_eq_false h2) (by norm_num [Flt.zero_val])
  · obtain ⟨h4, h5⟩ := h3 i hi
    have hc : r.origin i + t * r.direction i = r.origin i := by
      rw [hz, Flt.mul_eq hf Flt.zero_finite, Flt.zero_val, mul_zero, BinPar.round_rep P.fmt.rep_zero,
        Flt.add_eq (h.origin i) (b := Flt.fin (F := P.fmt) 0 _) trivial]
      show Flt.round ((r.origin i).val + 0) = _
      rw [add_zero, BinPar.round_rep (Flt.rep_val _)]
      exact (Flt.eq_fin (h.origin i)).2.symm
    rw [hc, Flt.lt_val (h.origin i) (h.min i)] at h4
    rw [hc, Flt.lt_val (h.max i) (h.origin i)] at h5
    exact hout ⟨not_lt.1 (of_decide_eq_false h4), not_lt.1 (of_decide_eq_false h5)⟩

theorem fin_div_fin {a d : Flt P.fmt} (ha : a.isFinite) (hd : d.isFinite) (h0 : d.val ≠ 0) : a / d = Flt.round (a.val / d.val) := by
  obtain ⟨h1, e1⟩ := Flt.eq_fin ha
  obtain ⟨h2, e2⟩ := Flt.eq_fin hd
  rw [e1, e2]
  show (if d.val = 0 then Flt.infTimes a.val else Flt.round (a.val / d.val) : Flt P.fmt) = _
  rw [if_neg h0]; rfl

theorem div_finite_left {a d : Flt P.fmt} (hd : d.isFinite) (h : (a / d).isFinite) : a.isFinite := by
  obtain ⟨h2, e2⟩ := Flt.eq_fin hd
  rw [e2] at h
  rcases a with _ | _ | _ | ⟨q, hq⟩
  · exact h
  · change (if 0 ≤ d.val then Flt.ninf else Flt.pinf : Flt P.fmt).isFinite at h
    split_ifs at h <;> exact h
  · change (if 0 ≤ d.val then Flt.pinf else Flt.ninf : Flt P.fmt).isFinite at h
    split_ifs at h <;> exact h
  · trivial

/-- Error of `(c - o) / d`. -/
theorem slab_distance_err {c o d w t : ℚ} (hw : |w - (c - o)| ≤ P.u * |c - o|) (ht : |t - w / d| ≤ P.u * |w / d| + P.eta)
    (hd : d ≠ 0) :
    |t - (c - o) / d| ≤ ((1 + P.u) ^ 2 - 1) * |(c - o) / d| + P.eta ∧
    |o + t * d - c| ≤ ((1 + P.u) ^ 2 - 1) * |c - o| + P.eta * |d| := by
  have hu := P.u_pos
  have he := P.eta_pos
  have hd' : 0 < |d| := abs_pos.2 hd
  have h2 : |o + t * d - c| ≤ ((1 + P.u) ^ 2 - 1) * |c - o| + P.eta * |d| := by
    have e1 : o + t * d - c = (t - w / d) * d + (w - (c - o)) := by field_simp; ring
    have e2 : |w| ≤ (1 + P.u) * |c - o| := by
      have := abs_sub_abs_le_abs_sub w (c - o); linarith
    have e3 : |(t - w / d) * d| ≤ P.u * |w| + P.eta * |d| := by
      rw [abs_mul]
      calc |t - w / d| * |d| ≤ (P.u * |w / d| + P.eta) * |d| := mul_le_mul_of_nonneg_right ht hd'.le
        _ = P.u * |w| + P.eta * |d| := by rw [abs_div, add_mul, mul_assoc, div_mul_cancel₀ _ hd'.ne']
    rw [e1]
    refine (abs_add_le _ _).trans ?_
    have e4 := mul_le_mul_of_nonneg_left e2 hu.le
    nlinarith
  refine ⟨?_, h2⟩
  have e1 : t - (c - o) / d = (o + t * d - c) / d := by field_simp; ring
  rw [e1, abs_div, abs_div, div_le_iff₀ hd', add_mul, mul_assoc, div_mul_cancel₀ _ hd'.ne']
  exact h2

theorem coord_flt {o t d lo hi : Flt P.fmt} (ho : o.isFinite) (ht : t.isFinite) (hd : d.isFinite) (hlo : lo.isFinite)
    (hhi : hi.isFinite) : (Cmp.lt (o + t * d) lo = false ∧ Cmp.lt hi (o + t * d) = false) ↔
      (|P.fl (t.val * d.val)| < P.bound ∧ lo.val ≤ P.fl (o.val + P.fl (t.val * d.val)) ∧
        P.fl (o.val + P.fl (t.val * d.val)) ≤ hi.val) := by
  rw [Flt.mul_eq ht hd]
  obtain ⟨h1, eo⟩ := Flt.eq_fin ho
  obtain ⟨h2, el⟩ := Flt.eq_fin hlo
  obtain ⟨h3, eh⟩ := Flt.eq_fin hhi
  rcases lt_or_ge |P.fl (t.val * d.val)| P.bound with hb | hb
  · have hf : (Flt.round (t.val * d.val) : Flt P.fmt).isFinite := Flt.round_finite.2 hb
    rw [Flt.add_eq ho hf, Flt.round_lt hlo, Flt.lt_round hhi, Flt.round_val hf, decide_eq_false_iff_not, decide_eq_false_iff_not,
      not_lt, not_lt]
    exact ⟨fun h => ⟨hb, h⟩, fun h => h.2⟩
  · refine iff_of_false ?_ fun h => absurd h.1 (not_lt.2 hb)
    rcases le_abs.1 hb with hb' | hb'
    · rw [Flt.round_pinf hb']
      rintro ⟨-, h⟩
      have : Cmp.lt hi (o + Flt.pinf) = true := by
        rw [eo, eh]; exact decide_eq_true (WithBot.coe_lt_coe.2 (WithTop.coe_lt_top _))
      rw [h] at this; exact Bool.noConfusion this
    · rw [Flt.round_ninf (by linarith)]
      rintro ⟨h, -⟩
      have : Cmp.lt (o + Flt.ninf) lo = true := by
        rw [eo, el]; exact decide_eq_true (WithBot.bot_lt_coe _)
      rw [h] at this; exact Bool.noConfusion this

/-- Error of a computed coordinate. -/
theorem coord_err {o : ℚ} (ho : P.Rep o) (y : ℚ) :
    |P.fl (o + P.fl y) - (o + y)| ≤ ((1 + P.u) ^ 2 - 1) * (|o| + |y|) + (1 + P.u) * P.eta := by
  have hu := P.u_pos
  have he := P.eta_pos
  have e1 := BinPar.fl_err_u (P := P) y
  have e2 := BinPar.fl_add_err_u ho (P.rep_fl y)
  have e3 : |P.fl y| ≤ |y| + (P.u * |y| + P.eta) := by
    have := abs_sub_abs_le_abs_sub (P.fl y) y; linarith
  have e4 : |o + P.fl y| ≤ |o| + (|y| + (P.u * |y| + P.eta)) := (abs_add_le _ _).trans (by linarith)
  have e5 := mul_le_mul_of_nonneg_left e4 hu.le
  calc |P.fl (o + P.fl y) - (o + y)| = |(P.fl (o + P.fl y) - (o + P.fl y)) + (P.fl y - y)| := by congr 1; ring
    _ ≤ |P.fl (o + P.fl y) - (o + P.fl y)| + |P.fl y - y| := abs_add_le _ _
    _ ≤ _ := by nlinarith [mul_nonneg hu.le (abs_nonneg o), mul_nonneg (mul_nonneg hu.le hu.le) (abs_nonneg o)]

/-- Soundness up to rounding: at a reported finite distance the ray is, up to the stated rounding errors, on a face `k` of the
box and between the other pairs of faces.  There is no hypothesis about the position of the origin. -/
theorem C108_hit_near_box (P : BinPar) {S : ℕ} (r : Ray (Flt P.fmt) (S + 1)) (b : BBox (Flt P.fmt) (S + 1))
    (h : FiniteRayBox r b) (t : Flt P.fmt) (ht : intersectRayBBox r b = some t) (hf : t.isFinite) :
    ∃ k, (∃ c, (c = (b.min k).val ∨ c = (b.max k).val) ∧ |(r.origin k).val + t.val * (r.direction k).val - c| ≤
        ((1 + P.u) ^ 2 - 1) * |c - (r.origin k).val| + P.eta * |(r.direction k).val|) ∧
      ∀ i, i ≠ k →
        (b.min i).val - (((1 + P.u) ^ 2 - 1) * (|(r.origin i).val| + |t.val * (r.direction i).val|) + (1 + P.u) * P.eta) ≤
          (r.origin i).val + t.val * (r.direction i).val ∧
        (r.origin i).val + t.val * (r.direction i).val ≤
          (b.max i).val + (((1 + P.u) ^ 2 - 1) * (|(r.origin i).val| + |t.val * (r.direction i).val|) + (1 + P.u) * P.eta) := by
  obtain ⟨h1, h2, h3⟩ := rayBBox_flt ht
  refine ⟨bboxBestPlane r b, ?_, fun i hi => ?_⟩
  · generalize bboxBestPlane r b = k at h1
    refine ⟨(bboxOrigin r b k).val, ?_, ?_⟩
    · rcases origin_cases h k with h4 | h4
      · exact Or.inl (by rw [h4.1])
      · exact Or.inr (by rw [h4.1])
    · by_cases hd : (r.direction k).val = 0
      · exfalso
        rw [distance_flt_zero h hd] at h1
        rw [h1, Flt.lt_val (Flt.neg_finite.2 Flt.one_finite) Flt.zero_finite, Flt.neg_val, Flt.one_val] at h2
        exact absurd (of_decide_eq_false h2) (by norm_num [Flt.zero_val])
      · rw [distance_flt h hd] at h1
        have hw : (Flt.round ((bboxOrigin r b k).val - (r.origin k).val) : Flt P.fmt).isFinite :=
          div_finite_left (h.direction k) (by rw [← h1]; exact hf)
        rw [fin_div_fin hw (h.direction k) hd] at h1
        have hv : t.val = P.fl (P.fl ((bboxOrigin r b k).val - (r.origin k).val) / (r.direction k).val) := by
          rw [h1] at hf ⊢
          rw [Flt.round_val hf, Flt.round_val hw]
        exact (slab_distance_err (BinPar.fl_sub_err_u (Flt.rep_val _).1 (Flt.rep_val _).1)
          (by rw [hv]; exact BinPar.fl_err_u _) hd).2
  · obtain ⟨-, h4, h5⟩ := (coord_flt (h.origin i) hf (h.direction i) (h.min i) (h.max i)).1 (h3 i hi)
    have := abs_le.1 (coord_err (P := P) (Flt.rep_val (r.origin i)).1 (t.val * (r.direction i).val))
    constructor <;> linarith [this.1, this.2]

/-- The margin by which the exact ray has to pass between two faces. -/
def rayMargin (P : BinPar) (T o d : ℚ) : ℚ := ((1 + P.u) ^ 4 - 1) * (|o| + T * |d|) + 2 * P.eta * (1 + |d|)

theorem margin_lt {T T' D m q t : ℚ} (hT : 0 < T) (hD : 0 < D) (hm : ((1 + P.u) ^ 4 - 1) * (T * D) + 2 * P.eta * (1 + D) ≤ m)
    (h : T' * D ≤ T * D - m) (hT' : 0 ≤ T') (hq : |q - T'| ≤ ((1 + P.u) ^ 2 - 1) * |T'| + P.eta)
    (ht : |t - T| ≤ ((1 + P.u) ^ 2 - 1) * |T| + P.eta) : q < t := by
  have hu := P.u_pos
  have he := P.eta_pos
  rw [abs_of_nonneg hT'] at hq
  rw [abs_of_pos hT] at ht
  have h1 := (abs_le.1 hq).2
  have h2 := (abs_le.1 ht).1
  obtain ⟨x, hx⟩ : ∃ x, x = (1 + P.u) ^ 2 := ⟨_, rfl⟩
  have hx1 : 1 < x := by rw [hx]; nlinarith
  have hx4 : (1 + P.u) ^ 4 = x ^ 2 := by rw [hx]; ring
  rw [← hx] at h1 h2
  rw [hx4] at hm
  have h3 : T' ≤ T * (2 - x ^ 2) - 2 * P.eta := by
    have h4 : T' * D ≤ (T * (2 - x ^ 2) - 2 * P.eta) * D := by nlinarith
    exact le_of_mul_le_mul_right h4 hD
  have h5 : x * T' ≤ x * (T * (2 - x ^ 2) - 2 * P.eta) := mul_le_mul_of_nonneg_left h3 (by linarith)
  have h6 : 0 < T * ((x - 1) ^ 2 * (x + 2)) := by
    have : 0 < x - 1 := by linarith
    positivity
  have h7 : 0 < P.eta * (x - 1) := mul_pos he (by linarith)
  nlinarith

theorem slab_outside {r : Ray (Flt P.fmt) (S + 1)} {b : BBox (Flt P.fmt) (S + 1)} (h : FiniteRayBox r b)
    (hs : ∀ i, |(r.origin i).val| ≤ P.bound / 8 ∧ |(b.min i).val| ≤ P.bound / 8 ∧ |(b.max i).val| ≤ P.bound / 8)
    {k : Fin (S + 1)} (hd : (r.direction k).val ≠ 0) :
    ∃ w, bboxDistance r b k = Flt.round (w / (r.direction k).val) ∧
      |w - ((bboxOrigin r b k).val - (r.origin k).val)| ≤ P.u * |(bboxOrigin r b k).val - (r.origin k).val| := by
  have hb := P.bound_pos
  have hu := P.u_pos
  have hu2 := P.u_le
  have h1 := BinPar.fl_sub_err_u (P := P) (Flt.rep_val (bboxOrigin r b k)).1 (Flt.rep_val (r.origin k)).1
  have h2 : |(bboxOrigin r b k).val - (r.origin k).val| ≤ P.bound / 4 := by
    refine (abs_sub _ _).trans ?_
    have := hs k
    rcases origin_cases h k with h3 | h3 <;> rw [h3.1] <;> linarith [this.1, this.2.1, this.2.2]
  have h3 : |P.fl ((bboxOrigin r b k).val - (r.origin k).val)| < P.bound := by
    have := abs_sub_abs_le_abs_sub (P.fl ((bboxOrigin r b k).val - (r.origin k).val)) ((bboxOrigin r b k).val - (r.origin k).val)
    nlinarith
  have hf : (Flt.round ((bboxOrigin r b k).val - (r.origin k).val) : Flt P.fmt).isFinite := Flt.round_finite.2 h3
  refine ⟨_, ?_, h1⟩
  rw [distance_flt h hd, fin_div_fin hf (h.direction k) hd, Flt.round_val hf]

theorem coord_margin {T t o d lo hi : ℚ} (ho : P.Rep o) (hTpos : 0 < T) (ht1 : |t - T| ≤ ((1 + P.u) ^ 2 - 1) * |T| + P.eta)
    (hsi : |o| ≤ P.bound / 8 ∧ |lo| ≤ P.bound / 8 ∧ |hi| ≤ P.bound / 8)
    (hmi : lo + rayMargin P T o d ≤ o + T * d ∧ o + T * d + rayMargin P T o d ≤ hi) :
    |P.fl (t * d)| < P.bound ∧ lo ≤ P.fl (o + P.fl (t * d)) ∧ P.fl (o + P.fl (t * d)) ≤ hi := by
  have hu := P.u_pos
  have he := P.eta_pos
  have hu2 := P.u_le
  have hb := P.bound_pos
  obtain ⟨x, hx⟩ : ∃ x, x = (1 + P.u) ^ 2 := ⟨_, rfl⟩
  have hx1 : 1 < x := by rw [hx]; nlinarith
  have hx2 : x ≤ 81 / 64 := by rw [hx]; nlinarith
  have hc1 := coord_err (P := P) ho (t * d)
  have hfe := BinPar.fl_err_u (P := P) (t * d)
  rw [abs_of_pos hTpos, ← hx] at ht1
  rw [← hx] at hc1
  unfold rayMargin at hmi
  rw [show (1 + P.u) ^ 4 = x ^ 2 by rw [hx]; ring] at hmi
  have hd0 := abs_nonneg d
  have ho0 := abs_nonneg o
  have hTd : |t * d - T * d| ≤ ((x - 1) * T + P.eta) * |d| := by
    rw [← sub_mul, abs_mul]; exact mul_le_mul_of_nonneg_right ht1 hd0
  have hTdabs : |T * d| = T * |d| := by rw [abs_mul, abs_of_pos hTpos]
  have htd : |t * d| ≤ (x * T + P.eta) * |d| := by
    have := abs_sub_abs_le_abs_sub (t * d) (T * d)
    nlinarith
  have hTd0 : 0 ≤ T * |d| := mul_nonneg hTpos.le hd0
  have hed0 : 0 ≤ P.eta * |d| := mul_nonneg he.le hd0
  have htotal : |P.fl (o + P.fl (t * d)) - (o + T * d)| ≤ (x ^ 2 - 1) * (|o| + T * |d|) + 2 * P.eta * (1 + |d|) := by
    have h1 : |P.fl (o + P.fl (t * d)) - (o + T * d)| ≤ |P.fl (o + P.fl (t * d)) - (o + t * d)| + |t * d - T * d| := by
      have := abs_add_le (P.fl (o + P.fl (t * d)) - (o + t * d)) (t * d - T * d)
      rwa [show P.fl (o + P.fl (t * d)) - (o + t * d) + (t * d - T * d) = P.fl (o + P.fl (t * d)) - (o + T * d) by ring] at this
    have h2 : (x - 1) * |t * d| ≤ (x - 1) * ((x * T + P.eta) * |d|) := mul_le_mul_of_nonneg_left htd (by linarith)
    have h3 : (x - 1) * |o| ≤ (x ^ 2 - 1) * |o| := mul_le_mul_of_nonneg_right (by nlinarith) ho0
    have h4 : x * (P.eta * |d|) ≤ 2 * (P.eta * |d|) := mul_le_mul_of_nonneg_right (by linarith) hed0
    nlinarith
  have h5 := abs_le.1 htotal
  refine ⟨?_, by linarith [hmi.1], by linarith [hmi.2]⟩
  have h6 : T * |d| ≤ P.bound / 4 := by
    rw [← hTdabs]
    have hx4 : 0 ≤ (x ^ 2 - 1) * (|o| + T * |d|) + 2 * P.eta * (1 + |d|) := (abs_nonneg _).trans htotal
    have e1 := abs_le.1 hsi.1
    have e2 := abs_le.1 hsi.2.1
    have e3 := abs_le.1 hsi.2.2
    rw [abs_le]
    constructor <;> linarith [hmi.1, hmi.2]
  have h7 : 2 * P.eta * (1 + |d|) ≤ P.bound / 8 := by
    have hx4 : 0 ≤ (x ^ 2 - 1) * (|o| + T * |d|) := mul_nonneg (by nlinarith) (by linarith)
    have e2 := abs_le.1 hsi.2.1
    have e3 := abs_le.1 hsi.2.2
    linarith [hmi.1, hmi.2]
  have h8 : |P.fl (t * d)| ≤ |t * d| + (P.u * |t * d| + P.eta) := by
    have := abs_sub_abs_le_abs_sub (P.fl (t * d)) (t * d); linarith
  have h9 : |t * d| ≤ 81 / 64 * (P.bound / 4) + P.bound / 16 := by
    have h11 : x * (T * |d|) ≤ 81 / 64 * (P.bound / 4) := mul_le_mul hx2 h6 hTd0 (by norm_num)
    have h12 : (x * T + P.eta) * |d| = x * (T * |d|) + P.eta * |d| := by ring
    linarith
  have h10 : P.u * |t * d| ≤ 1 / 8 * |t * d| := mul_le_mul_of_nonneg_right hu2 (abs_nonneg _)
  linarith

/-- Completeness up to rounding, for a ray that starts outside of the box: if the exact ray enters the box through the face at
`c` of the slab `k`, at the parameter `T`, and there passes between the other pairs of faces with a margin of a few units of
rounding, then the ray is reported to hit the box, and the reported distance is accurate. -/
theorem C108_complete (P : BinPar) {S : ℕ} (r : Ray (Flt P.fmt) (S + 1)) (b : BBox (Flt P.fmt) (S + 1))
    (h : FiniteRayBox r b)
    (hs : ∀ i, |(r.origin i).val| ≤ P.bound / 8 ∧ |(b.min i).val| ≤ P.bound / 8 ∧ |(b.max i).val| ≤ P.bound / 8)
    (k : Fin (S + 1)) (c T : ℚ) (hc : (r.origin k).val + T * (r.direction k).val = c)
    (hk : ((r.origin k).val < (b.min k).val ∧ c = (b.min k).val ∧ 0 < (r.direction k).val) ∨
      ((b.max k).val < (r.origin k).val ∧ c = (b.max k).val ∧ (r.direction k).val < 0))
    (hT : (1 + P.u) ^ 2 * T + P.eta < P.bound)
    (hm : ∀ j, j ≠ k →
      (b.min j).val + rayMargin P T (r.origin j).val (r.direction j).val ≤ (r.origin j).val + T * (r.direction j).val ∧
      (r.origin j).val + T * (r.direction j).val + rayMargin P T (r.origin j).val (r.direction j).val ≤ (b.max j).val) :
    ∃ t, intersectRayBBox r b = some t ∧ t.isFinite ∧ |t.val - T| ≤ ((1 + P.u) ^ 2 - 1) * T + P.eta := by
  have hu := P.u_pos
  have he := P.eta_pos
  have hu2 := P.u_le
  have hb := P.bound_pos
  obtain ⟨x, hx⟩ : ∃ x, x = (1 + P.u) ^ 2 := ⟨_, rfl⟩
  have hx1 : 1 < x := by rw [hx]; nlinarith
  have hx2 : x ≤ 81 / 64 := by rw [hx]; nlinarith
  have hdk : (r.direction k).val ≠ 0 := by rcases hk with h' | h'; exacts [h'.2.2.ne', h'.2.2.ne]
  have hTeq : T = (c - (r.origin k).val) / (r.direction k).val := by field_simp; linarith
  have hTpos : 0 < T := by
    rw [hTeq]
    rcases hk with h' | h'
    · exact div_pos (by linarith) h'.2.2
    · exact div_pos_of_neg_of_neg (by linarith) h'.2.2
  have hout : ¬ InSlab r b k := by
    rintro ⟨h1, h2⟩
    rcases hk with h' | h' <;> linarith
  have hok : (bboxOrigin r b k).val = c := by
    rcases origin_cases h k with h1 | h1
    · rw [h1.1]
      rcases hk with h' | h'
      · exact h'.2.1.symm
      · rcases h1.2 with h2 | h2
        · linarith [h.valid k]
        · exact absurd h2.1 hout
    · rw [h1.1]
      rcases hk with h' | h'
      · rcases h1.2 with h2 | h2
        · linarith [h.valid k]
        · exact absurd h2.1 hout
      · exact h'.2.1.symm
  obtain ⟨w, hw1, hw2⟩ := slab_outside h hs hdk
  rw [hok] at hw2
  have ht1 := (slab_distance_err (P := P) hw2 (BinPar.fl_err_u (w / (r.direction k).val)) hdk).1
  rw [← hTeq] at ht1
  have hfin : (bboxDistance r b k).isFinite := by
    rw [hw1]
    apply Flt.round_finite.2
    have h1 := abs_sub_abs_le_abs_sub (P.fl (w / (r.direction k).val)) T
    rw [abs_of_pos hTpos] at h1 ht1
    linarith
  have htv : (bboxDistance r b k).val = P.fl (w / (r.direction k).val) := by
    rw [hw1] at hfin ⊢
    exact Flt.round_val hfin
  rw [← htv] at ht1
  have hbest : bboxBestPlane r b = k := by
    by_contra hne
    obtain ⟨h1, h2⟩ := best_outside h ⟨k, hout⟩
    have h3 := h2 k hout
    generalize bboxBestPlane r b = j at hne h1 h3
    have hmj := hm j hne
    have hM : 0 < rayMargin P T (r.origin j).val (r.direction j).val := by
      unfold rayMargin
      have h4 : 0 < (1 + P.u) ^ 4 - 1 := by rw [show (1 + P.u) ^ 4 = x ^ 2 by rw [hx]; ring]; nlinarith
      have h5 := abs_nonneg (r.origin j).val
      have h6 := abs_nonneg (r.direction j).val
      positivity
    have hMle : ((1 + P.u) ^ 4 - 1) * (T * |(r.direction j).val|) + 2 * P.eta * (1 + |(r.direction j).val|) ≤
        rayMargin P T (r.origin j).val (r.direction j).val := by
      unfold rayMargin
      have h4 : 0 ≤ (1 + P.u) ^ 4 - 1 := by rw [show (1 + P.u) ^ 4 = x ^ 2 by rw [hx]; ring]; nlinarith
      have := mul_nonneg h4 (abs_nonneg (r.origin j).val)
      linarith
    have key : ∃ T', (bboxOrigin r b j).val - (r.origin j).val = T' * (r.direction j).val ∧ 0 ≤ T' ∧ (r.direction j).val ≠ 0 ∧
        T' * |(r.direction j).val| ≤ T * |(r.direction j).val| - rayMargin P T (r.origin j).val (r.direction j).val := by
      rcases origin_cases h j with h4 | h4
      · rcases h4.2 with h5 | h5
        · have hdp : 0 < (r.direction j).val := by
            by_contra hc'
            have := mul_nonneg hTpos.le (neg_nonneg.2 (not_lt.1 hc'))
            linarith [hmj.1]
          refine ⟨((bboxOrigin r b j).val - (r.origin j).val) / (r.direction j).val, (div_mul_cancel₀ _ hdp.ne').symm,
            div_nonneg (by rw [h4.1]; linarith) hdp.le, hdp.ne', ?_⟩
          rw [abs_of_pos hdp] at *
          rw [div_mul_cancel₀ _ hdp.ne', h4.1]
          linarith [hmj.1]
        · exact absurd h5.1 h1
      · rcases h4.2 with h5 | h5
        · have hdp : (r.direction j).val < 0 := by
            by_contra hc'
            have := mul_nonneg hTpos.le (not_lt.1 hc')
            linarith [hmj.2]
          refine ⟨((bboxOrigin r b j).val - (r.origin j).val) / (r.direction j).val, (div_mul_cancel₀ _ hdp.ne).symm,
            div_nonneg_of_nonpos (by rw [h4.1]; linarith) hdp.le, hdp.ne, ?_⟩
          have e : ((bboxOrigin r b j).val - (r.origin j).val) / (r.direction j).val * |(r.direction j).val| =
              -((bboxOrigin r b j).val - (r.origin j).val) := by
            rw [abs_of_neg hdp, mul_neg, div_mul_cancel₀ _ hdp.ne]
          rw [e, h4.1]
          have e2 : T * |(r.direction j).val| = -(T * (r.direction j).val) := by rw [abs_of_neg hdp, mul_neg]
          linarith [hmj.2]
        · exact absurd h5.1 h1
    obtain ⟨T', hT1, hT2, hdj, hT3⟩ := key
    obtain ⟨w', hw3, hw4⟩ := slab_outside h hs hdj
    have ht3 := (slab_distance_err (P := P) hw4 (BinPar.fl_err_u (w' / (r.direction j).val)) hdj).1
    rw [hT1, mul_div_cancel_right₀ _ hdj] at ht3
    have hlt := margin_lt hTpos (abs_pos.2 hdj) hMle hT3 hT2 ht3 ht1
    have h6 : Cmp.lt (bboxDistance r b j) (bboxDistance r b k) = true := by
      rw [hw3, Flt.round_lt hfin]
      exact decide_eq_true hlt
    rw [distance_lt h] at h6
    exact absurd h3 (not_le.2 (of_decide_eq_true h6))
  refine ⟨bboxDistance r b k, ?_, hfin, by rwa [abs_of_pos hTpos] at ht1⟩
  have hnn : 0 ≤ (bboxDistance r b k).val := by
    rw [htv]
    apply P.fl_nonneg
    have h1 : 0 ≤ w / (r.direction k).val := by
      have h2 := (abs_le.1 hw2)
      rcases hk with h' | h'
      · rw [abs_of_nonneg (by linarith)] at h2
        apply div_nonneg _ h'.2.2.le
        nlinarith
      · rw [abs_of_nonpos (by linarith)] at h2
        apply div_nonneg_of_nonpos _ h'.2.2.le
        nlinarith
    exact h1
  have hgoal := rayBBox_flt_of (r := r) (b := b)
  rw [hbest] at hgoal
  refine hgoal ?_ fun i hi => ?_
  · rw [Flt.lt_val hfin Flt.zero_finite, Flt.zero_val]
    exact decide_eq_false (not_lt.2 hnn)
  · rw [coord_flt (h.origin i) hfin (h.direction i) (h.min i) (h.max i)]
    exact coord_margin (Flt.rep_val (r.origin i)).1 hTpos ht1 (hs i) (hm i hi)

theorem div_one_flt (a : Flt P.fmt) : a / 1 = a ∧ a / -1 = -a := by
  rcases a with _ | _ | _ | ⟨q, hq⟩
  · exact ⟨rfl, rfl⟩
  · refine ⟨?_, ?_⟩
    · show (if (0 : ℚ) ≤ 1 then Flt.ninf else Flt.pinf : Flt P.fmt) = _
      rw [if_pos (by norm_num)]
    · show (if (0 : ℚ) ≤ -1 then Flt.ninf else Flt.pinf : Flt P.fmt) = _
      rw [if_neg (by norm_num)]; rfl
  · refine ⟨?_, ?_⟩
    · show (if (0 : ℚ) ≤ 1 then Flt.pinf else Flt.ninf : Flt P.fmt) = _
      rw [if_pos (by norm_num)]
    · show (if (0 : ℚ) ≤ -1 then Flt.pinf else Flt.ninf : Flt P.fmt) = _
      rw [if_neg (by norm_num)]; rfl
  · refine ⟨?_, ?_⟩
    · show (if (1 : ℚ) = 0 then Flt.infTimes q else Flt.round (q / 1) : Flt P.fmt) = _
      rw [if_neg (by norm_num), div_one, BinPar.round_rep hq]
    · show (if (-1 : ℚ) = 0 then Flt.infTimes q else Flt.round (q / -1) : Flt P.fmt) = _
      rw [if_neg (by norm_num), div_neg, div_one, Flt.round_neg, BinPar.round_rep hq]

/-- The check of a coordinate in which the ray does not move. -/
theorem coord_fixed {o t d lo hi : Flt P.fmt} (ho : o.isFinite) (hd : d = 0) (hlo : lo.isFinite) (hhi : hi.isFinite)
    (h : lo.val ≤ o.val ∧ o.val ≤ hi.val) : Cmp.lt (o + t * d) lo = false ∧ Cmp.lt hi (o + t * d) = false := by
  have h0 : Flt.infTimes (0 : ℚ) = (Flt.nan : Flt P.fmt) := if_pos rfl
  have hnan : ∀ x : Flt P.fmt, x + Flt.nan = Flt.nan := add_nan'
  have hlt : ∀ x : Flt P.fmt, Cmp.lt Flt.nan x = false ∧ Cmp.lt x Flt.nan = false := by
    intro x; rcases x with _ | _ | _ | ⟨q, hq⟩ <;> exact ⟨rfl, rfl⟩
  subst hd
  rcases t with _ | _ | _ | ⟨q, hq⟩
  · have : o + (Flt.nan : Flt P.fmt) * 0 = Flt.nan := hnan o
    rw [this]; exact ⟨(hlt _).1, (hlt _).2⟩
  · have : o + (Flt.ninf : Flt P.fmt) * 0 = Flt.nan := by
      show o + Flt.infTimes (-0 : ℚ) = _
      rw [neg_zero, h0, hnan]
    rw [this]; exact ⟨(hlt _).1, (hlt _).2⟩
  · have : o + (Flt.pinf : Flt P.fmt) * 0 = Flt.nan := by
      show o + Flt.infTimes (0 : ℚ) = _
      rw [h0, hnan]
    rw [this]; exact ⟨(hlt _).1, (hlt _).2⟩
  · rw [coord_flt ho (t := Flt.fin q hq) trivial Flt.zero_finite hlo hhi, Flt.zero_val, mul_zero, P.fl_zero, add_zero,
      P.fl_rep (Flt.rep_val o).1, abs_zero]
    exact ⟨P.bound_pos, h⟩

/-- Rays that are parallel to an axis and start outside, within the cross section of the box: the result is the correctly rounded
distance to the face.  There is no hypothesis about overflow. -/
theorem C108_axis (P : BinPar) {S : ℕ} (r : Ray (Flt P.fmt) (S + 1)) (b : BBox (Flt P.fmt) (S + 1)) (h : FiniteRayBox r b)
    (k : Fin (S + 1)) (hin : ∀ i, i ≠ k → InSlab r b i) (hd : ∀ i, i ≠ k → (r.direction i).val = 0) :
    ((r.direction k).val = 1 → (r.origin k).val < (b.min k).val → intersectRayBBox r b = some (b.min k - r.origin k)) ∧
    ((r.direction k).val = -1 → (b.max k).val < (r.origin k).val → intersectRayBBox r b = some (r.origin k - b.max k)) := by
  have hbest : ¬ InSlab r b k → bboxBestPlane r b = k := by
    intro hk
    by_contra hne
    exact (best_outside h ⟨k, hk⟩).1 (hin _ hne)
  have main : ¬ InSlab r b k → Cmp.lt (bboxDistance r b k) 0 = false →
      intersectRayBBox r b = some (bboxDistance r b k) := by
    intro hk h1
    have := rayBBox_flt_of (r := r) (b := b)
    rw [hbest hk] at this
    exact this h1 fun i hi => coord_fixed (h.origin i) (Flt.ext (h.direction i) Flt.zero_finite (hd i hi)) (h.min i) (h.max i)
      (hin i hi)
  refine ⟨fun h1 h2 => ?_, fun h1 h2 => ?_⟩
  · have hk : ¬ InSlab r b k := fun h' => by linarith [h'.1]
    have ed : r.direction k = 1 := Flt.ext (h.direction k) Flt.one_finite h1
    have e : bboxDistance r b k = b.min k - r.origin k := by
      rw [distance_flt h (by rw [h1]; norm_num), ed, (div_one_flt _).1]
      rcases origin_cases h k with h3 | h3
      · rw [h3.1, Flt.sub_eq (h.min k) (h.origin k)]
      · rcases h3.2 with h4 | h4
        · linarith [h.valid k]
        · exact absurd h4.1 hk
    rw [main hk ?_, e]
    rw [e]
    exact nn_lt (nn_sub (h.min k) (h.origin k) h2.le)
  · have hk : ¬ InSlab r b k := fun h' => by linarith [h'.2]
    have ed : r.direction k = -1 := Flt.ext (h.direction k) (Flt.neg_finite.2 Flt.one_finite) (by rw [h1, Flt.neg_val, Flt.one_val])
    have e : bboxDistance r b k = r.origin k - b.max k := by
      rw [distance_flt h (by rw [h1]; norm_num), ed, (div_one_flt _).2, ← Flt.round_neg, neg_sub]
      rcases origin_cases h k with h3 | h3
      · rcases h3.2 with h4 | h4
        · linarith [h.valid k]
        · exact absurd h4.1 hk
      · rw [h3.1, Flt.sub_eq (h.origin k) (h.max k)]
    rw [main hk ?_, e]
    rw [e]
    exact nn_lt (nn_sub (h.origin k) (h.max k) h2.le)

/-- A ray that starts in the box (or on its boundary) and is parallel to one of the slabs is always reported as a miss although
it leaves the box. -/
theorem C108_inside_parallel_fails (P : BinPar) {S : ℕ} (r : Ray (Flt P.fmt) (S + 1)) (b : BBox (Flt P.fmt) (S + 1))
    (h : FiniteRayBox r b) (hin : ∀ i, InSlab r b i) (k : Fin (S + 1)) (hd : (r.direction k).val = 0) :
    intersectRayBBox r b = none := by
  have h1 := best_inside h hin k
  have h2 : distRank r b k = Ext.ofRat (-1) := by
    have := distRank_eq h k
    rw [distance_flt_zero h hd] at this
    exact (Option.some.inj this).symm
  rcases e : intersectRayBBox r b with _ | t
  · rfl
  exfalso
  obtain ⟨h3, h4, -⟩ := rayBBox_flt e
  rw [h3, lt_of_keys (distRank_eq h _) (Flt.key_fin Flt.zero_finite)] at h4
  have h5 := not_lt.1 (of_decide_eq_false h4)
  have h6 := h5.trans h1
  rw [h2, Flt.zero_val] at h6
  have h7 : (0 : ℚ) ≤ -1 := WithTop.coe_le_coe.1 (WithBot.coe_le_coe.1 h6)
  norm_num at h7

end

/-! ### Examples and counterexamples -/

set_option exponentiation.threshold 2000

theorem rep_dyadic64 {m e : ℤ} (hm : |m| ≤ 4) (he : -1074 ≤ e) (he' : e ≤ 1021) : binary64.fmt.rep (m * 2 ^ e) := by
  refine ⟨⟨m, e, rfl, lt_of_le_of_lt hm (by norm_num [binary64]), he⟩, ?_⟩
  have h1 : (2 : ℚ) ^ e ≤ 2 ^ (1021 : ℤ) := zpow_le_zpow_right₀ (by norm_num) he'
  have h2 : |(m : ℚ)| ≤ 4 := by exact_mod_cast hm
  rw [abs_mul, abs_of_pos (BinPar.two_zpow_pos e)]
  calc |(m : ℚ)| * 2 ^ e ≤ 4 * 2 ^ (1021 : ℤ) := mul_le_mul h2 h1 (BinPar.two_zpow_pos e).le (by norm_num)
    _ < 2 ^ ((53 : ℕ) + 971 : ℤ) := by norm_num

/-- The double `m * 2 ^ e`. -/
def dbl (m e : ℤ) (hm : |m| ≤ 4 := by decide) (he : -1074 ≤ e := by decide) (he' : e ≤ 1021 := by decide) : Flt binary64.fmt :=
  Flt.fin (F := binary64.fmt) (m * 2 ^ e) (rep_dyadic64 hm he he')

/-- The box with the corners (0, -1, -1) and (1, 1, 1). -/
def boxD : BBox (Flt binary64.fmt) 3 := ⟨![0, dbl (-1) 0, dbl (-1) 0], ![dbl 1 0, dbl 1 0, dbl 1 0]⟩

/-- A ray in the direction of an axis; the first coordinate of the direction is given. -/
def rayD (o0 o1 d0 : Flt binary64.fmt) : Ray (Flt binary64.fmt) 3 := ⟨![o0, o1, 0], ![d0, 0, 0]⟩

theorem rayD_finite {o0 o1 d0 : Flt binary64.fmt} (h0 : o0.isFinite) (h1 : o1.isFinite) (h2 : d0.isFinite) :
    FiniteRayBox (rayD o0 o1 d0) boxD := by
  refine ⟨fun i => ?_, fun i => ?_, fun i => ?_, fun i => ?_, fun i => ?_⟩
  · fin_cases i
    exacts [h0, h1, trivial]
  · fin_cases i
    exacts [h2, trivial, trivial]
  · fin_cases i <;> trivial
  · fin_cases i <;> trivial
  · fin_cases i
    · show (0 : ℚ) ≤ ((1 : ℤ) : ℚ) * 2 ^ (0 : ℤ)
      norm_num
    · show (((-1 : ℤ) : ℚ)) * 2 ^ (0 : ℤ) ≤ ((1 : ℤ) : ℚ) * 2 ^ (0 : ℤ)
      norm_num
    · show (((-1 : ℤ) : ℚ)) * 2 ^ (0 : ℤ) ≤ ((1 : ℤ) : ℚ) * 2 ^ (0 : ℤ)
      norm_num

theorem inSlab_boxD {o0 o1 d0 : Flt binary64.fmt} :
    (InSlab (rayD o0 o1 d0) boxD 0 ↔ 0 ≤ o0.val ∧ o0.val ≤ 1) ∧ (InSlab (rayD o0 o1 d0) boxD 1 ↔ -1 ≤ o1.val ∧ o1.val ≤ 1) ∧
    InSlab (rayD o0 o1 d0) boxD 2 := by
  refine ⟨?_, ?_, ?_⟩
  · show (0 : ℚ) ≤ o0.val ∧ o0.val ≤ ((1 : ℤ) : ℚ) * 2 ^ (0 : ℤ) ↔ _
    norm_num
  · show (((-1 : ℤ) : ℚ)) * 2 ^ (0 : ℤ) ≤ o1.val ∧ o1.val ≤ ((1 : ℤ) : ℚ) * 2 ^ (0 : ℤ) ↔ _
    norm_num
  · show (((-1 : ℤ) : ℚ)) * 2 ^ (0 : ℤ) ≤ 0 ∧ 0 ≤ ((1 : ℤ) : ℚ) * 2 ^ (0 : ℤ)
    norm_num

/-- The ray from (-1, 0, 0) in the direction (1, 1/4, 0) meets the hypotheses of `C108_complete`: it enters the box through the
first face, at the parameter 1.  The ray in the opposite direction moves away from the box. -/
example : let r : Ray (Flt binary64.fmt) 3 := ⟨![dbl (-1) 0, 0, 0], ![dbl 1 0, dbl 1 (-2), 0]⟩
    FiniteRayBox r boxD ∧
    (∀ i, |(r.origin i).val| ≤ binary64.bound / 8 ∧ |(boxD.min i).val| ≤ binary64.bound / 8 ∧
      |(boxD.max i).val| ≤ binary64.bound / 8) ∧
    (r.origin 0).val + 1 * (r.direction 0).val = 0 ∧ (r.origin 0).val < (boxD.min 0).val ∧ (0 : ℚ) = (boxD.min 0).val ∧
    0 < (r.direction 0).val ∧ (1 + binary64.u) ^ 2 * 1 + binary64.eta < binary64.bound ∧
    (∀ j, j ≠ 0 → (boxD.min j).val + rayMargin binary64 1 (r.origin j).val (r.direction j).val ≤
        (r.origin j).val + 1 * (r.direction j).val ∧
      (r.origin j).val + 1 * (r.direction j).val + rayMargin binary64 1 (r.origin j).val (r.direction j).val ≤ (boxD.max j).val) ∧
    MovesAway ⟨r.origin, ![dbl (-1) 0, dbl 1 (-2), 0]⟩ boxD 0 ∧ |(dbl (-1) 0).val| ≤ 1 := by
  intro r
  have hm1 : (dbl (-1) 0).val = -1 := by
    show (((-1 : ℤ) : ℚ)) * 2 ^ (0 : ℤ) = _
    norm_num
  have h1 : (dbl 1 0).val = 1 := by
    show (((1 : ℤ) : ℚ)) * 2 ^ (0 : ℤ) = _
    norm_num
  have h14 : (dbl 1 (-2)).val = 1 / 4 := by
    show (((1 : ℤ) : ℚ)) * 2 ^ (-2 : ℤ) = _
    norm_num
  have hu : binary64.u = 1 / 2 ^ 53 := by norm_num [BinPar.u, binary64]
  have he : binary64.eta = 1 / 2 ^ 1075 := by norm_num [BinPar.eta, binary64]
  have hb : binary64.bound = 2 ^ 1024 := by norm_num [BinPar.bound, binary64]
  have hM : ∀ d : ℚ, 0 ≤ d → d ≤ 1 → rayMargin binary64 1 0 d ≤ 1 / 4 := by
    intro d h0 h1
    unfold rayMargin
    rw [hu, he, abs_zero, abs_of_nonneg h0]
    have : ((1 + 1 / 2 ^ 53 : ℚ) ^ 4 - 1) * (0 + 1 * d) ≤ ((1 + 1 / 2 ^ 53 : ℚ) ^ 4 - 1) * 1 := by
      apply mul_le_mul_of_nonneg_left (by linarith); norm_num
    have h2 : (2 : ℚ) * (1 / 2 ^ 1075) * (1 + d) ≤ 2 * (1 / 2 ^ 1075) * 2 := by
      apply mul_le_mul_of_nonneg_left (by linarith); norm_num
    refine (add_le_add this h2).trans ?_
    norm_num
  refine ⟨⟨fun i => ?_, fun i => ?_, fun i => ?_, fun i => ?_, (rayD_finite (o0 := 0) (o1 := 0) (d0 := 0) trivial trivial trivial).valid⟩,
    fun i => ?_, ?_, ?_, rfl, ?_, ?_, fun j hj => ?_, Or.inl ⟨?_, ?_⟩, ?_⟩
  · fin_cases i <;> trivial
  · fin_cases i <;> trivial
  · fin_cases i <;> trivial
  · fin_cases i <;> trivial
  · rw [hb]
    fin_cases i
    · show |(dbl (-1) 0).val| ≤ _ ∧ |(0 : ℚ)| ≤ _ ∧ |(dbl 1 0).val| ≤ _
      rw [hm1, h1]; norm_num
    · show |(0 : ℚ)| ≤ _ ∧ |(dbl (-1) 0).val| ≤ _ ∧ |(dbl 1 0).val| ≤ _
      rw [hm1, h1]; norm_num
    · show |(0 : ℚ)| ≤ _ ∧ |(dbl (-1) 0).val| ≤ _ ∧ |(dbl 1 0).val| ≤ _
      rw [hm1, h1]; norm_num
  · show (dbl (-1) 0).val + 1 * (dbl 1 0).val = 0
    rw [hm1, h1]; norm_num
  · show (dbl (-1) 0).val < 0
    rw [hm1]; norm_num
  · show 0 < (dbl 1 0).val
    rw [h1]; norm_num
  · rw [hu, he, hb]; norm_num
  · fin_cases j
    · exact absurd rfl hj
    · show (dbl (-1) 0).val + rayMargin binary64 1 0 (dbl 1 (-2)).val ≤ 0 + 1 * (dbl 1 (-2)).val ∧
        0 + 1 * (dbl 1 (-2)).val + rayMargin binary64 1 0 (dbl 1 (-2)).val ≤ (dbl 1 0).val
      have := hM (1 / 4) (by norm_num) (by norm_num)
      rw [hm1, h1, h14]
      constructor <;> linarith
    · show (dbl (-1) 0).val + rayMargin binary64 1 0 0 ≤ 0 + 1 * 0 ∧ 0 + 1 * 0 + rayMargin binary64 1 0 0 ≤ (dbl 1 0).val
      have := hM 0 (by norm_num) (by norm_num)
      rw [hm1, h1]
      constructor <;> linarith
  · show (dbl (-1) 0).val < 0
    rw [hm1]; norm_num
  · show (dbl (-1) 0).val < 0
    rw [hm1]; norm_num
  · rw [hm1]; norm_num

/-- The ray from (-2, 1, 0) in the direction (1, 0, 0) meets the hypotheses of `C108_axis`, and so it is reported to hit the box;
the ray from (1, 1, 0) in the same direction starts in the box and is parallel to two slabs; the ray from (-2, 2, 0) runs beside
the box. -/
example : (FiniteRayBox (rayD (dbl (-2) 0) (dbl 1 0) 1) boxD ∧
      (∀ i, i ≠ 0 → InSlab (rayD (dbl (-2) 0) (dbl 1 0) 1) boxD i) ∧ ∃ t, intersectRayBBox (rayD (dbl (-2) 0) (dbl 1 0) 1) boxD = some t ∧ t.isFinite) ∧
    (∀ i, InSlab (rayD (dbl 1 0) (dbl 1 0) 1) boxD i) ∧ ¬ InSlab (rayD (dbl (-2) 0) (dbl 2 0) 1) boxD 1 := by
  have h1 : (dbl 1 0).val = 1 := by
    show (((1 : ℤ) : ℚ)) * 2 ^ (0 : ℤ) = _
    norm_num
  have h2 : (dbl 2 0).val = 2 := by
    show (((2 : ℤ) : ℚ)) * 2 ^ (0 : ℤ) = _
    norm_num
  have hm2 : (dbl (-2) 0).val = -2 := by
    show (((-2 : ℤ) : ℚ)) * 2 ^ (0 : ℤ) = _
    norm_num
  have hf := rayD_finite (o0 := dbl (-2) 0) (o1 := dbl 1 0) (d0 := 1) trivial trivial trivial
  have hin : ∀ i, i ≠ 0 → InSlab (rayD (dbl (-2) 0) (dbl 1 0) 1) boxD i := by
    intro i hi
    fin_cases i
    · exact absurd rfl hi
    · refine inSlab_boxD.2.1.2 ?_
      rw [h1]; norm_num
    · exact inSlab_boxD.2.2
  refine ⟨⟨hf, hin, _, (C108_axis binary64 _ _ hf 0 hin ?_).1 rfl ?_, ?_⟩, ?_, ?_⟩
  · intro i hi
    fin_cases i
    exacts [absurd rfl hi, rfl, rfl]
  · show (dbl (-2) 0).val < 0
    rw [hm2]; norm_num
  · show ((0 : Flt binary64.fmt) - dbl (-2) 0).isFinite
    rw [Flt.sub_eq Flt.zero_finite (b := dbl (-2) 0) trivial, hm2, Flt.zero_val,
      show (0 - -2 : ℚ) = ((2 : ℤ) : ℚ) by norm_num]
    exact (Flt.int_finite (P := binary64) (by norm_num [binary64])).1
  · intro i
    fin_cases i
    · refine inSlab_boxD.1.2 ?_
      rw [h1]; norm_num
    · refine inSlab_boxD.2.1.2 ?_
      rw [h1]; norm_num
    · exact inSlab_boxD.2.2
  · rw [inSlab_boxD.2.1, h2]; norm_num

/-- The hypothesis about the direction in `C108_away` is needed: a ray that starts 2^-1074 before the box and moves away from it
with the direction (-4, 0, 0) is reported to hit the box, because the quotient underflows. -/
theorem C108_underflow_fails : ∃ (r : Ray (Flt binary64.fmt) 3) (b : BBox (Flt binary64.fmt) 3), FiniteRayBox r b ∧
    MovesAway r b 0 ∧ (r.direction 0).val = -4 ∧ intersectRayBBox r b = some 0 := by
  have hpos := BinPar.two_zpow_pos (-1074)
  have hov : (dbl (-1) (-1074)).val = -2 ^ (-1074 : ℤ) := by
    show (((-1 : ℤ) : ℚ)) * 2 ^ (-1074 : ℤ) = _
    push_cast; ring
  have hdv : (dbl (-4) 0).val = -4 := by
    show (((-4 : ℤ) : ℚ)) * 2 ^ (0 : ℤ) = _
    norm_num
  have h := rayD_finite (o0 := dbl (-1) (-1074)) (o1 := 0) (d0 := dbl (-4) 0) trivial trivial trivial
  have hin := inSlab_boxD (o0 := dbl (-1) (-1074)) (o1 := 0) (d0 := dbl (-4) 0)
  refine ⟨rayD (dbl (-1) (-1074)) 0 (dbl (-4) 0), boxD, h, Or.inl ⟨?_, ?_⟩, hdv, ?_⟩
  · show (dbl (-1) (-1074)).val < 0
    rw [hov]; linarith
  · show (dbl (-4) 0).val < 0
    rw [hdv]; norm_num
  · have hout : ¬ InSlab (rayD (dbl (-1) (-1074)) 0 (dbl (-4) 0)) boxD 0 := by
      rw [hin.1, hov]
      intro h; linarith [h.1]
    have hin' : ∀ i, i ≠ 0 → InSlab (rayD (dbl (-1) (-1074)) 0 (dbl (-4) 0)) boxD i := by
      intro i hi
      fin_cases i
      · exact absurd rfl hi
      · refine hin.2.1.2 ?_
        rw [Flt.zero_val]; norm_num
      · exact hin.2.2
    have hbest : bboxBestPlane (rayD (dbl (-1) (-1074)) 0 (dbl (-4) 0)) boxD = 0 := by
      by_contra hne
      exact (best_outside h ⟨0, hout⟩).1 (hin' _ hne)
    have hdist : bboxDistance (rayD (dbl (-1) (-1074)) 0 (dbl (-4) 0)) boxD 0 = 0 := by
      rw [distance_flt h (i := 0) (by show (dbl (-4) 0).val ≠ 0; rw [hdv]; norm_num)]
      have ho : bboxOrigin (rayD (dbl (-1) (-1074)) 0 (dbl (-4) 0)) boxD 0 = 0 := by
        rcases origin_cases h 0 with h1 | h1
        · exact h1.1
        · exfalso
          rcases h1.2 with h2 | h2
          · have h3 : ((1 : ℤ) : ℚ) * 2 ^ (0 : ℤ) < (dbl (-1) (-1074)).val := h2
            rw [hov] at h3
            norm_num at h3
          · exact hout h2.1
      rw [ho]
      have e : (0 : Flt binary64.fmt).val - ((rayD (dbl (-1) (-1074)) 0 (dbl (-4) 0)).origin 0).val = ((1 : ℤ) : ℚ) * 2 ^ (-1074 : ℤ) := by
        show 0 - (dbl (-1) (-1074)).val = _
        rw [hov]; push_cast; ring
      rw [e, BinPar.round_rep (rep_dyadic64 (by decide) (by decide) (by decide)),
        fin_div_fin (a := Flt.fin (F := binary64.fmt) _ _) trivial (h.direction 0) (by show (dbl (-4) 0).val ≠ 0; rw [hdv]; norm_num)]
      have hz : binary64.fl (((1 : ℤ) : ℚ) * 2 ^ (-1074 : ℤ) / (dbl (-4) 0).val) = 0 := by
        apply fl_tiny
        rw [hdv]
        show |_| < (2 : ℚ) ^ (-1074 - 1 : ℤ)
        norm_num
      exact Flt.round_to binary64.fmt.rep_zero hz
    have := rayBBox_flt_of (r := rayD (dbl (-1) (-1074)) 0 (dbl (-4) 0)) (b := boxD)
    rw [hbest, hdist] at this
    refine this (nn_lt (le_refl (0 : ℚ))) fun i hi => ?_
    refine coord_fixed (h.origin i) ?_ (h.min i) (h.max i) (hin' i hi)
    fin_cases i
    exacts [absurd rfl hi, rfl, rfl]

/-- A ray that runs beside the box, parallel to it, is reported to hit the box at infinite distance if the distance overflows. -/
theorem C108_overflow_fails : ∃ (r : Ray (Flt binary64.fmt) 3) (b : BBox (Flt binary64.fmt) 3), FiniteRayBox r b ∧
    ¬ InSlab r b 1 ∧ (r.direction 1).val = 0 ∧ intersectRayBBox r b = some Flt.pinf := by
  have hpos := BinPar.two_zpow_pos 1021
  have hov : (dbl (-4) 1021).val = -4 * 2 ^ (1021 : ℤ) := by
    show (((-4 : ℤ) : ℚ)) * 2 ^ (1021 : ℤ) = _
    push_cast; ring
  have hdv : (dbl 1 (-1)).val = 1 / 2 := by
    show (((1 : ℤ) : ℚ)) * 2 ^ (-1 : ℤ) = _
    norm_num
  have h2v : (dbl 2 0).val = 2 := by
    show (((2 : ℤ) : ℚ)) * 2 ^ (0 : ℤ) = _
    norm_num
  have h := rayD_finite (o0 := dbl (-4) 1021) (o1 := dbl 2 0) (d0 := dbl 1 (-1)) trivial trivial trivial
  have hin := inSlab_boxD (o0 := dbl (-4) 1021) (o1 := dbl 2 0) (d0 := dbl 1 (-1))
  have hout1 : ¬ InSlab (rayD (dbl (-4) 1021) (dbl 2 0) (dbl 1 (-1))) boxD 1 := by
    rw [hin.2.1, h2v]; norm_num
  refine ⟨rayD (dbl (-4) 1021) (dbl 2 0) (dbl 1 (-1)), boxD, h, hout1, rfl, ?_⟩
  have hout : ¬ InSlab (rayD (dbl (-4) 1021) (dbl 2 0) (dbl 1 (-1))) boxD 0 := by
    rw [hin.1, hov]
    intro h; linarith [h.1]
  have hdist : bboxDistance (rayD (dbl (-4) 1021) (dbl 2 0) (dbl 1 (-1))) boxD 0 = Flt.pinf := by
    rw [distance_flt h (i := 0) (by show (dbl 1 (-1)).val ≠ 0; rw [hdv]; norm_num)]
    have ho : bboxOrigin (rayD (dbl (-4) 1021) (dbl 2 0) (dbl 1 (-1))) boxD 0 = 0 := by
      rcases origin_cases h 0 with h1 | h1
      · exact h1.1
      · exfalso
        rcases h1.2 with h2 | h2
        · have h3 : ((1 : ℤ) : ℚ) * 2 ^ (0 : ℤ) < (dbl (-4) 1021).val := h2
          rw [hov] at h3
          norm_num at h3
        · exact hout h2.1
    rw [ho]
    have e : (0 : Flt binary64.fmt).val - ((rayD (dbl (-4) 1021) (dbl 2 0) (dbl 1 (-1))).origin 0).val = ((4 : ℤ) : ℚ) * 2 ^ (1021 : ℤ) := by
      show 0 - (dbl (-4) 1021).val = _
      rw [hov]; push_cast; ring
    rw [e, BinPar.round_rep (rep_dyadic64 (by decide) (by decide) (by decide)),
      fin_div_fin (a := Flt.fin (F := binary64.fmt) _ _) trivial (h.direction 0) (by show (dbl 1 (-1)).val ≠ 0; rw [hdv]; norm_num)]
    apply Flt.round_pinf
    have e2 : ((4 : ℤ) : ℚ) * 2 ^ (1021 : ℤ) / (dbl 1 (-1)).val = ((1 : ℤ) : ℚ) * 2 ^ (1024 : ℤ) := by
      rw [hdv]; norm_num
    refine le_of_eq ?_
    refine Eq.trans ?_ (congrArg binary64.fl e2).symm
    rw [binary64.fl_rep ⟨1, 1024, rfl, by norm_num [binary64], by norm_num [binary64]⟩]
    norm_num [BinPar.bound, binary64]
  have hbest : bboxBestPlane (rayD (dbl (-4) 1021) (dbl 2 0) (dbl 1 (-1))) boxD = 0 := by
    obtain ⟨h1, h2⟩ := best_outside h ⟨0, hout⟩
    have h3 := h2 0 hout
    generalize bboxBestPlane (rayD (dbl (-4) 1021) (dbl 2 0) (dbl 1 (-1))) boxD = k at h1 h3
    have hr0 : distRank (rayD (dbl (-4) 1021) (dbl 2 0) (dbl 1 (-1))) boxD 0 = ((⊤ : WithTop ℚ) : Ext) := by
      have := distRank_eq h 0
      rw [hdist] at this
      exact (Option.some.inj this).symm
    have hr1 : distRank (rayD (dbl (-4) 1021) (dbl 2 0) (dbl 1 (-1))) boxD 1 = Ext.ofRat (-1) := by
      have := distRank_eq h 1
      rw [distance_flt_zero h (i := 1) rfl] at this
      exact (Option.some.inj this).symm
    fin_cases k
    · rfl
    · exfalso
      change distRank (rayD (dbl (-4) 1021) (dbl 2 0) (dbl 1 (-1))) boxD 0 ≤ distRank (rayD (dbl (-4) 1021) (dbl 2 0) (dbl 1 (-1))) boxD 1 at h3
      rw [hr0, hr1] at h3
      exact absurd h3 (not_le.2 (WithBot.coe_lt_coe.2 (WithTop.coe_lt_top _)))
    · exact absurd hin.2.2 h1
  have := rayBBox_flt_of (r := rayD (dbl (-4) 1021) (dbl 2 0) (dbl 1 (-1))) (b := boxD)
  rw [hbest, hdist] at this
  have hz : (Flt.pinf : Flt binary64.fmt) * 0 = Flt.nan := by
    show Flt.infTimes (0 : ℚ) = _
    exact if_pos rfl
  have hlt : ∀ x : Flt binary64.fmt, Cmp.lt Flt.nan x = false ∧ Cmp.lt x Flt.nan = false := by
    intro x; rcases x with _ | _ | _ | ⟨q, hq⟩ <;> exact ⟨rfl, rfl⟩
  refine this (decide_eq_false (not_lt.2 (Ext.le_top' _))) fun i hi => ?_
  have hd : (rayD (dbl (-4) 1021) (dbl 2 0) (dbl 1 (-1))).direction i = 0 := by
    fin_cases i
    exacts [absurd rfl hi, rfl, rfl]
  rw [hd, hz, add_nan']
  exact ⟨(hlt _).1, (hlt _).2⟩

end vm
