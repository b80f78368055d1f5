import Verif.Lemmas.FltCast
import Verif.Lemmas.FltConst
import Verif.Lemmas.FltPolygon

/-! # C132: conversions between `float` and `double` -/

set_option linter.unusedSectionVars false
set_option linter.unusedSimpArgs false

namespace vm
open BinPar

variable {S : ℕ}

namespace FltCast
variable {P Q : BinPar} {F G : Fmt}

/-- Specification: the format `G` has all numbers of the format `F`. -/
def Contains (F G : Fmt) : Prop := ∀ q, F.rep q → G.rep q

theorem contains_32_64 : Contains binary32.fmt binary64.fmt := wide_32_64.fmt

theorem cast_fin (h : Contains F G) (q : ℚ) (hq : F.rep q) : (Flt.cast (Flt.fin q hq : Flt F) : Flt G) = Flt.fin q (h q hq) :=
  Flt.key_inj ((key_widen h _).trans rfl)

theorem isNan_cast (x : Flt F) : isNan (Flt.cast x : Flt G) = isNan x := by
  rw [Bool.eq_iff_iff, isNan_iff_key, isNan_iff_key]
  show Flt.key _ = none ↔ Flt.key x = none
  rw [key_map, Option.map_eq_none_iff]

theorem cast_neg (x : Flt F) : (Flt.cast (-x) : Flt G) = -Flt.cast x := by
  rcases x with _ | _ | _ | ⟨q, h⟩
  · rfl
  · rfl
  · rfl
  · exact Flt.round_neg q

theorem cast_zero : (Flt.cast (0 : Flt F) : Flt G) = 0 := by
  show (Flt.round 0 : Flt G) = 0
  exact Flt.round_of_rep G.rep_zero

theorem cast_round_finite {x : Flt F} (h : x.isFinite) : (Flt.cast x : Flt G) = Flt.round x.val := by
  rcases x with _ | _ | _ | ⟨q, hq⟩
  · exact h.elim
  · exact h.elim
  · exact h.elim
  · rfl

theorem round_congr {a b : ℚ} (h : P.fl a = P.fl b) : (Flt.round a : Flt P.fmt) = Flt.round b := by
  by_cases hb : |P.fl b| < P.bound
  · have ha : |P.fl a| < P.bound := by rw [h]; exact hb
    apply Flt.key_inj
    rw [P.round_eq ha, P.round_eq hb]
    show some (Ext.ofRat (P.fl a)) = some (Ext.ofRat (P.fl b))
    rw [h]
  · have ha : ¬ |P.fl a| < P.bound := by rw [h]; exact hb
    have hpos : (0 : ℚ) < P.bound := two_zpow_pos _
    have key : ∀ {a : ℚ}, ¬ |P.fl a| < P.bound → (0 < a ↔ 0 < P.fl a) := by
      intro a ha
      have h0 : P.fl a ≠ 0 := fun hc => ha (by rw [hc, abs_zero]; exact hpos)
      constructor
      · exact fun hp => lt_of_le_of_ne (P.fl_nonneg hp.le) (Ne.symm h0)
      · intro hp
        by_contra hc
        have := P.fl_mono (not_lt.1 hc)
        rw [P.fl_zero] at this
        linarith
    have hs : (0 < a) ↔ (0 < b) := by rw [key ha, key hb, h]
    apply Flt.key_inj
    rw [Flt.key_round, Flt.key_round]
    show some (P.rnd a) = some (P.rnd b)
    unfold BinPar.rnd
    rw [if_neg ha, if_neg hb]
    by_cases h0 : 0 < a
    · rw [if_pos h0, if_pos (hs.1 h0)]
    · rw [if_neg h0, if_neg (fun hc => h0 (hs.2 hc))]

/-- Rounding to a wide format and then to a narrow one. -/
theorem round_round {z : ℚ} (hb : |Q.fl z| < Q.bound) (h : P.fl (Q.fl z) = P.fl z) :
    (Flt.cast (Flt.round z : Flt Q.fmt) : Flt P.fmt) = Flt.round z := by
  have hf : (Flt.round z : Flt Q.fmt).isFinite := Flt.round_finite.2 hb
  rw [cast_round_finite hf, Flt.round_val hf]
  exact round_congr h

theorem abs_fl_le {z r : ℚ} (hr : Q.Rep r) (h : |z| ≤ r) : |Q.fl z| ≤ r := by
  rw [abs_le] at h ⊢
  exact ⟨Q.le_fl_of_rep hr.neg h.1, Q.fl_le_of_rep hr h.2⟩

theorem rep_pow {k : ℤ} (hk : Q.qmin ≤ k) : Q.Rep (2 ^ k) :=
  ⟨1, k, by simp, by simpa using one_lt_pow₀ (by norm_num : (1 : ℤ) < 2) (by have := Q.hp; omega), hk⟩

theorem pow_lt_bound {z : ℚ} {k : ℤ} (hk : Q.qmin ≤ k) (hk2 : k < Q.p + Q.qmax) (h : |z| ≤ 2 ^ k) : |Q.fl z| < Q.bound :=
  lt_of_le_of_lt (abs_fl_le (rep_pow hk) h) (zpow_lt_zpow_right₀ (by norm_num) hk2)

theorem wide_add (hW : Wide P Q) (x y : Flt P.fmt) : (Flt.cast ((Flt.cast x : Flt Q.fmt) + Flt.cast y) : Flt P.fmt) = x + y := by
  have hp := P.hp; have hm := P.hmax; have h1 := hW.bound; have h2 := hW.qmin; have h3 := P.hmin
  rcases x with _ | _ | _ | ⟨a, ha⟩ <;> rcases y with _ | _ | _ | ⟨b, hb⟩ <;> (try rw [cast_fin hW.fmt]) <;> (try rfl)
  rw [cast_fin hW.fmt]
  refine round_round ?_ (double_add hW ha.1 hb.1)
  refine pow_lt_bound (k := P.p + P.qmax + 1) (by omega) (by omega) ?_
  have h4 := ha.2
  have h5 := hb.2
  unfold BinPar.bound at h4 h5
  rw [zpow_add2]
  have := abs_add_le a b
  norm_num
  linarith

theorem wide_sub (hW : Wide P Q) (x y : Flt P.fmt) : (Flt.cast ((Flt.cast x : Flt Q.fmt) - Flt.cast y) : Flt P.fmt) = x - y := by
  show (Flt.cast ((Flt.cast x : Flt Q.fmt) + -Flt.cast y) : Flt P.fmt) = x + -y
  rw [← cast_neg]
  exact wide_add hW x (-y)

theorem wide_mul (hW : Wide P Q) (x y : Flt P.fmt) : (Flt.cast ((Flt.cast x : Flt Q.fmt) * Flt.cast y) : Flt P.fmt) = x * y := by
  have h1 := hW.bound
  have inf : ∀ q : ℚ, (Flt.cast (Flt.infTimes q : Flt Q.fmt) : Flt P.fmt) = Flt.infTimes q := by
    intro q
    unfold Flt.infTimes
    by_cases h : q = 0
    · rw [if_pos h, if_pos h]; rfl
    · rw [if_neg h, if_neg h]
      by_cases h' : 0 < q
      · rw [if_pos h', if_pos h']; rfl
      · rw [if_neg h', if_neg h']; rfl
  rcases x with _ | _ | _ | ⟨a, ha⟩ <;> rcases y with _ | _ | _ | ⟨b, hb⟩ <;> (try rw [cast_fin hW.fmt]) <;> (try rfl) <;> (try exact inf _)
  rw [cast_fin hW.fmt]
  have hr := double_mul hW ha.1 hb.1
  refine round_round ?_ (by rw [Q.fl_rep hr])
  rw [Q.fl_rep hr, abs_mul]
  have h4 := ha.2
  have h5 := hb.2
  calc |a| * |b| < P.bound * P.bound := mul_lt_mul'' h4 h5 (abs_nonneg _) (abs_nonneg _)
    _ = 2 ^ (2 * (P.p + P.qmax : ℤ)) := by unfold BinPar.bound; rw [← zpow_add2]; congr 1; ring
    _ ≤ Q.bound := zpow_le_zpow_right₀ (by norm_num) h1

theorem wide_div (hW : Wide P Q) (x y : Flt P.fmt) : (Flt.cast ((Flt.cast x : Flt Q.fmt) / Flt.cast y) : Flt P.fmt) = x / y := by
  have hp := P.hp; have hm := P.hmax; have h1 := hW.quot; have h2 := hW.qmin; have h3 := P.hmin
  have inf : ∀ q : ℚ, (Flt.cast (Flt.infTimes q : Flt Q.fmt) : Flt P.fmt) = Flt.infTimes q := by
    intro q
    unfold Flt.infTimes
    by_cases h : q = 0
    · rw [if_pos h, if_pos h]; rfl
    · rw [if_neg h, if_neg h]
      by_cases h' : 0 < q
      · rw [if_pos h', if_pos h']; rfl
      · rw [if_neg h', if_neg h']; rfl
  rcases x with _ | _ | _ | ⟨a, ha⟩ <;> rcases y with _ | _ | _ | ⟨b, hb⟩ <;> (try rw [cast_fin hW.fmt]) <;> (try rfl) <;> (try exact cast_zero)
  · show (Flt.cast (if 0 ≤ b then Flt.ninf else Flt.pinf : Flt Q.fmt) : Flt P.fmt) = if 0 ≤ b then Flt.ninf else Flt.pinf
    by_cases h : 0 ≤ b
    · rw [if_pos h, if_pos h]; rfl
    · rw [if_neg h, if_neg h]; rfl
  · show (Flt.cast (if 0 ≤ b then Flt.pinf else Flt.ninf : Flt Q.fmt) : Flt P.fmt) = if 0 ≤ b then Flt.pinf else Flt.ninf
    by_cases h : 0 ≤ b
    · rw [if_pos h, if_pos h]; rfl
    · rw [if_neg h, if_neg h]; rfl
  · rw [cast_fin hW.fmt]
    show (Flt.cast (if b = 0 then Flt.infTimes a else Flt.round (a / b) : Flt Q.fmt) : Flt P.fmt) = if b = 0 then Flt.infTimes a else Flt.round (a / b)
    by_cases h0 : b = 0
    · rw [if_pos h0, if_pos h0]; exact inf a
    rw [if_neg h0, if_neg h0]
    refine round_round ?_ (double_div hW ha.1 hb.1 hb.2 h0)
    refine pow_lt_bound (k := P.p + P.qmax - P.qmin) (by omega) (by omega) ?_
    have hbq : (2 : ℚ) ^ P.qmin ≤ |b| := by
      obtain ⟨m, hm⟩ := hb.1.multiple_qmin
      have hm0 : m ≠ 0 := by rintro rfl; simp at hm; exact h0 hm
      have : (1 : ℚ) ≤ |(m : ℚ)| := by exact_mod_cast Int.one_le_abs hm0
      rw [hm, abs_mul, abs_of_pos (two_zpow_pos _)]
      exact le_mul_of_one_le_left (two_zpow_pos _).le this
    have h4 := ha.2
    unfold BinPar.bound at h4
    rw [abs_div, div_le_iff₀ (abs_pos.2 h0)]
    calc |a| ≤ 2 ^ (P.p + P.qmax : ℤ) := h4.le
      _ = 2 ^ (P.p + P.qmax - P.qmin : ℤ) * 2 ^ P.qmin := by rw [← zpow_add2]; congr 1; ring
      _ ≤ 2 ^ (P.p + P.qmax - P.qmin : ℤ) * |b| := mul_le_mul_of_nonneg_left hbq (two_zpow_pos _).le

theorem cast_vmin (x : Flt F) (l : List (Flt F)) : (Flt.cast (vmin x l) : Flt G) = vmin (Flt.cast x) (l.map Flt.cast) := by
  induction l generalizing x with
  | nil => rfl
  | cons y l ih =>
    have e : ∀ (T : Type) [Cmp T] (x y : T) (l : List T), vmin x (y :: l) = vmin (min2 x y) l := by
      intro T _ x y l
      show (if Cmp.lt x y = true then vmin x l else vmin y l) = vmin (if Cmp.lt x y = true then x else y) l
      by_cases h : Cmp.lt x y = true
      · rw [if_pos h, if_pos h]
      · rw [if_neg h, if_neg h]
    rw [List.map_cons, e, e, ih, cast_min]

theorem cast_vmax (x : Flt F) (l : List (Flt F)) : (Flt.cast (vmax x l) : Flt G) = vmax (Flt.cast x) (l.map Flt.cast) := by
  induction l generalizing x with
  | nil => rfl
  | cons y l ih =>
    have e : ∀ (T : Type) [Cmp T] (x y : T) (l : List T), vmax x (y :: l) = vmax (max2 x y) l := by
      intro T _ x y l
      show (if Cmp.lt y x = true then vmax x l else vmax y l) = vmax (if Cmp.lt y x = true then x else y) l
      by_cases h : Cmp.lt y x = true
      · rw [if_pos h, if_pos h]
      · rw [if_neg h, if_neg h]
    rw [List.map_cons, e, e, ih, cast_max]

/-- Specification: a vector with every component converted. -/
def vcast (G : Fmt) (v : Vec (Flt F) S) : Vec (Flt G) S := fun i => Flt.cast (v i)

theorem vcast_min (a b : Vec (Flt F) S) : vcast G (vmin2 a b) = vmin2 (vcast G a) (vcast G b) := funext fun i => cast_vmin (a i) [b i]
theorem vcast_max (a b : Vec (Flt F) S) : vcast G (vmax2 a b) = vmax2 (vcast G a) (vcast G b) := funext fun i => cast_vmax (a i) [b i]

theorem lt_false {a b : Flt F} (h : Cmp.lt a b = false) : Cmp.lt (Flt.cast a : Flt G) (Flt.cast b) = false := by
  rw [← Bool.not_eq_true] at h ⊢
  exact fun hc => h (monotone_cast _ _ hc)

theorem intersect_valid {a b : BBox (Flt F) S} (ha : a.isValid = true) (hb : b.isValid = true) (hab : a.intersects b = true) :
    BBox.isValidPair (vmax2 a.min b.min) (vmin2 a.max b.max) = true := by
  unfold BBox.isValid BBox.isValidPair BBox.intersects at *
  rw [List.all_eq_true] at *
  intro i hi
  have h1 := ha i hi
  have h2 := hb i hi
  have h3 := hab i hi
  simp only [Bool.not_eq_true', Bool.or_eq_false_iff] at h1 h2 h3 ⊢
  show Cmp.lt (if Cmp.lt (a.max i) (b.max i) = true then a.max i else b.max i) (if Cmp.lt (b.min i) (a.min i) = true then a.min i else b.min i) = false
  split_ifs
  · exact h1
  · exact h3.2
  · exact h3.1
  · exact h2

end FltCast
open FltCast

/-- Conversion to a format that has all numbers of the source, such as from `float` to `double`, is exact: values, infinities and NaN are kept, all
comparisons give the same results, the order of vectors is kept, and converting back gives the original. -/
theorem C132_widen {F G : Fmt} (h : Contains F G) (x y : Flt F) :
    ((Flt.cast x : Flt G).isFinite ↔ x.isFinite) ∧ (Flt.cast x : Flt G).val = x.val ∧ isNan (Flt.cast x : Flt G) = isNan x ∧
    Cmp.lt (Flt.cast x : Flt G) (Flt.cast y) = Cmp.lt x y ∧ Cmp.le (Flt.cast x : Flt G) (Flt.cast y) = Cmp.le x y ∧
    Cmp.eq (Flt.cast x : Flt G) (Flt.cast y) = Cmp.eq x y ∧ (Flt.cast (Flt.cast x : Flt G) : Flt F) = x ∧
    ExactCast (Flt.cast : Flt F → Flt G) := by
  have hlt : ∀ x y : Flt F, Cmp.lt (Flt.cast x : Flt G) (Flt.cast y) = Cmp.lt x y := fun x y => by
    rw [Bool.eq_iff_iff, lt_iff', lt_iff', key_widen h, key_widen h]
  have heq : ∀ x y : Flt F, Cmp.eq (Flt.cast x : Flt G) (Flt.cast y) = Cmp.eq x y := fun x y => by
    rw [Bool.eq_iff_iff, eq_iff', eq_iff', key_widen h, key_widen h]
  have hle : ∀ x y : Flt F, Cmp.le (Flt.cast x : Flt G) (Flt.cast y) = Cmp.le x y := fun x y => by
    show (match Flt.key (Flt.cast x : Flt G), Flt.key (Flt.cast y : Flt G) with
      | some x, some y => decide (x ≤ y)
      | _, _ => false) = (match Flt.key x, Flt.key y with
      | some x, some y => decide (x ≤ y)
      | _, _ => false)
    rw [key_widen h, key_widen h]
  refine ⟨?_, ?_, isNan_cast x, hlt x y, hle x y, heq x y, cast_back h x, fun a b => ?_⟩
  · rcases x with _ | _ | _ | ⟨q, hq⟩
    · exact Iff.rfl
    · exact Iff.rfl
    · exact Iff.rfl
    · rw [cast_fin h]; exact Iff.rfl
  · rcases x with _ | _ | _ | ⟨q, hq⟩
    · rfl
    · rfl
    · rfl
    · rw [cast_fin h]; rfl
  · unfold beforeScalar sameScalar
    rw [hlt, heq, isNan_cast, isNan_cast]
    exact ⟨Iff.rfl, Iff.rfl⟩

/-- Vectors, matrices, boxes, lines, rays, planes, segments, polygons and quaternions of `float` that are converted to `double` and back are
unchanged. -/
theorem C132_round_trip {F G : Fmt} (h : Contains F G) {R C : ℕ} (v : Vec (Flt F) S) (m : Mat (Flt F) R C) (b : BBox (Flt F) S) (l : Line (Flt F) S)
    (r : Ray (Flt F) S) (p : Plane (Flt F) S) (s : Segment (Flt F) S) (f : Polygon (Flt F) S) (q : Quat (Flt F)) :
    vconvert Flt.cast S (vconvert Flt.cast S v : Vec (Flt G) S) = v ∧ mconvert Flt.cast (mconvert Flt.cast m : Mat (Flt G) R C) = m ∧
    BBox.convert Flt.cast (BBox.convert Flt.cast b : BBox (Flt G) S) = b ∧ Line.convert Flt.cast (Line.convert Flt.cast l : Line (Flt G) S) = l ∧
    Ray.convert Flt.cast (Ray.convert Flt.cast r : Ray (Flt G) S) = r ∧ Plane.convert Flt.cast (Plane.convert Flt.cast p : Plane (Flt G) S) = p ∧
    Segment.convert Flt.cast (Segment.convert Flt.cast s : Segment (Flt G) S) = s ∧
    Polygon.convert Flt.cast (Polygon.convert Flt.cast f : Polygon (Flt G) S) = f ∧
    Quat.convert Flt.cast (Quat.convert Flt.cast q : Quat (Flt G)) = q := by
  have hc := cast_back h
  have hv : ∀ v : Vec (Flt F) S, (fun i => Flt.cast (Flt.cast (v i) : Flt G)) = v := fun v => funext fun i => hc (v i)
  refine ⟨?_, ?_, ?_, ?_, ?_, ?_, ?_, ?_, ?_⟩
  · funext i
    unfold vconvert
    rw [dif_pos i.isLt, dif_pos i.isLt]
    exact hc _
  · funext i j; exact hc _
  · show (⟨_, _⟩ : BBox (Flt F) S) = _
    rw [show (fun i => Flt.cast ((BBox.convert Flt.cast b : BBox (Flt G) S).min i)) = b.min from hv _,
      show (fun i => Flt.cast ((BBox.convert Flt.cast b : BBox (Flt G) S).max i)) = b.max from hv _]
  · show (⟨_, _⟩ : Line (Flt F) S) = _
    rw [show (fun i => Flt.cast ((Line.convert Flt.cast l : Line (Flt G) S).point i)) = l.point from hv _,
      show (fun i => Flt.cast ((Line.convert Flt.cast l : Line (Flt G) S).direction i)) = l.direction from hv _]
  · show (⟨_, _⟩ : Ray (Flt F) S) = _
    rw [show (fun i => Flt.cast ((Ray.convert Flt.cast r : Ray (Flt G) S).origin i)) = r.origin from hv _,
      show (fun i => Flt.cast ((Ray.convert Flt.cast r : Ray (Flt G) S).direction i)) = r.direction from hv _]
  · show (⟨_, _⟩ : Plane (Flt F) S) = _
    rw [show (fun i => Flt.cast ((Plane.convert Flt.cast p : Plane (Flt G) S).normal i)) = p.normal from hv _,
      show Flt.cast ((Plane.convert Flt.cast p : Plane (Flt G) S).distance) = p.distance from hc _]
  · show (⟨_, _⟩ : Segment (Flt F) S) = _
    rw [show (fun i => Flt.cast ((Segment.convert Flt.cast s : Segment (Flt G) S).start i)) = s.start from hv _,
      show (fun i => Flt.cast ((Segment.convert Flt.cast s : Segment (Flt G) S).end_ i)) = s.end_ from hv _]
  · apply Polygon.ext
    rw [convert_vertices, convert_vertices, List.map_map]
    exact (List.map_congr_left fun v _ => hv v).trans (List.map_id _)
  · show (⟨_, _⟩ : Quat (Flt F)) = _
    rw [show (fun i => Flt.cast ((Quat.convert Flt.cast q : Quat (Flt G)).v i)) = q.v from funext fun i => hc _,
      show Flt.cast ((Quat.convert Flt.cast q : Quat (Flt G)).r) = q.r from hc _]

/-- Conversion to any IEEE format, such as from `double` to `float`: NaN and infinities are kept; a number below the largest number of the format
plus half a unit in its last place becomes the nearest number of the format, with relative error at most 2^-p, or absolute error at most half the
smallest positive number; a larger one becomes the infinity of its sign. -/
theorem C132_narrow (P : BinPar) {F : Fmt} (x : Flt F) :
    (isNan (Flt.cast x : Flt P.fmt) = isNan x) ∧ (Flt.cast (.ninf : Flt F) : Flt P.fmt) = .ninf ∧ (Flt.cast (.pinf : Flt F) : Flt P.fmt) = .pinf ∧
    (x.isFinite → |x.val| < (2 ^ P.p - 1 / 2) * 2 ^ P.qmax →
      (Flt.cast x : Flt P.fmt).isFinite ∧ |(Flt.cast x : Flt P.fmt).val - x.val| ≤ 2 ^ (-(P.p : ℤ)) * |x.val| + 2 ^ (P.qmin - 1) ∧
      ∀ y : Flt P.fmt, |(Flt.cast x : Flt P.fmt).val - x.val| ≤ |y.val - x.val|) ∧
    (x.isFinite → (2 ^ P.p - 1 / 2) * 2 ^ P.qmax ≤ x.val → (Flt.cast x : Flt P.fmt) = .pinf) ∧
    (x.isFinite → x.val ≤ -((2 ^ P.p - 1 / 2) * 2 ^ P.qmax) → (Flt.cast x : Flt P.fmt) = .ninf) := by
  have hp := P.hp
  have hm := P.hmax
  have hq := P.hmin
  have e0 : P.bound = 2 ^ P.p * 2 ^ P.qmax := by unfold BinPar.bound; rw [zpow_add2, zpow_natCast]
  have g0 := two_zpow_pos P.qmax
  have p1 : (1 : ℚ) ≤ 2 ^ P.p := one_le_pow₀ (by norm_num)
  have p2 : (2 : ℤ) ^ P.p = 2 * 2 ^ (P.p - 1) := by rw [← pow_succ']; congr 1; omega
  have hbig : ∀ q : ℚ, (2 ^ P.p - 1 / 2) * 2 ^ P.qmax ≤ q → P.bound ≤ P.fl q := by
    intro q hq'
    have e : P.fl ((2 ^ P.p - 1 / 2) * 2 ^ P.qmax) = ((2 ^ P.p : ℤ) : ℚ) * 2 ^ P.qmax := by
      refine fl_eval_even P.qmax (2 ^ P.p) (by omega) ?_ ?_ ?_ (by rw [p2]; omega)
      · rw [abs_of_pos (mul_pos (by linarith) g0), show P.qmax + (P.p : ℤ) - 1 = ((P.p - 1 : ℕ) : ℤ) + P.qmax by omega, zpow_add2, zpow_natCast]
        refine mul_le_mul_of_nonneg_right ?_ g0.le
        have : (2 : ℚ) ^ P.p = 2 * 2 ^ (P.p - 1) := by exact_mod_cast p2
        have : (1 : ℚ) ≤ 2 ^ (P.p - 1) := one_le_pow₀ (by norm_num)
        linarith
      · rw [abs_of_pos (mul_pos (by linarith) g0), add_comm, zpow_add2, zpow_natCast]
        exact mul_lt_mul_of_pos_right (by linarith) g0
      · rw [mul_div_cancel_right₀ _ g0.ne']
        push_cast
        rw [show (2 : ℚ) ^ P.p - 1 / 2 - 2 ^ P.p = -(1 / 2) by ring]
        norm_num
    have := P.fl_mono hq'
    rw [e] at this
    rw [e0]
    push_cast at this
    exact this
  have hpos : (0 : ℚ) < P.bound := two_zpow_pos _
  have hmid : (0 : ℚ) < (2 ^ P.p - 1 / 2) * 2 ^ P.qmax := mul_pos (by linarith) g0
  refine ⟨isNan_cast x, rfl, rfl, fun hx hlt => ?_, fun hx hle => ?_, fun hx hle => ?_⟩
  · rw [cast_round_finite hx]
    have hM : P.Rep ((2 ^ P.p - 1) * 2 ^ P.qmax) := ⟨2 ^ P.p - 1, P.qmax, by push_cast; ring, by
      have : (1 : ℤ) ≤ 2 ^ P.p := one_le_pow₀ (by norm_num)
      rw [abs_of_nonneg (by linarith)]; linarith, by omega⟩
    have hf : (Flt.round x.val : Flt P.fmt).isFinite := by
      rw [Flt.round_finite]
      by_contra hc
      rw [not_lt] at hc
      have aux : ∀ q : ℚ, 0 ≤ q → q < (2 ^ P.p - 1 / 2) * 2 ^ P.qmax → ¬ P.bound ≤ P.fl q := by
        intro q h0 hq' hb
        have h1 := P.fl_nearest hM q
        have h2 := le_abs_self (P.fl q - q)
        rcases le_total q ((2 ^ P.p - 1) * 2 ^ P.qmax) with h3 | h3
        · rw [abs_of_nonneg (sub_nonneg.2 h3)] at h1
          rw [e0] at hb
          linarith
        · rw [abs_of_nonpos (sub_nonpos.2 h3)] at h1
          rw [e0] at hb
          linarith
      rcases le_total 0 x.val with h0 | h0
      · rw [abs_of_nonneg h0] at hlt
        rw [abs_of_nonneg (P.fl_nonneg h0)] at hc
        exact aux _ h0 hlt hc
      · have h0' : 0 ≤ -x.val := by linarith
        rw [abs_of_nonpos h0] at hlt
        rw [← abs_neg, ← P.fl_neg, abs_of_nonneg (P.fl_nonneg h0')] at hc
        exact aux _ h0' hlt hc
    refine ⟨hf, ?_, fun y => ?_⟩
    · rw [Flt.round_val hf]
      exact P.fl_err_u x.val
    · rw [Flt.round_val hf]
      exact P.fl_nearest (Flt.rep_val y).1 _
  · rw [cast_round_finite hx]
    have hb := hbig _ hle
    apply Flt.key_inj
    rw [Flt.key_round]
    show some (P.rnd x.val) = _
    unfold BinPar.rnd
    rw [if_neg (by rw [not_lt]; exact hb.trans (le_abs_self _)), if_pos (by linarith)]
    rfl
  · rw [cast_round_finite hx]
    have hb := hbig (-x.val) (by linarith)
    rw [P.fl_neg] at hb
    apply Flt.key_inj
    rw [Flt.key_round]
    show some (P.rnd x.val) = _
    unfold BinPar.rnd
    rw [if_neg (by rw [not_lt]; exact hb.trans (neg_le_abs _)), if_neg (by linarith)]
    rfl

/-- Every conversion between floating point types is monotone, so it commutes with minima, maxima and clamping, and with the absolute value. -/
theorem C132_order {F G : Fmt} (x y z : Flt F) (l : List (Flt F)) (v w : Vec (Flt F) S) (ws : List (Vec (Flt F) S)) :
    MonotoneCast (Flt.cast : Flt F → Flt G) ∧ (Flt.cast (-x) : Flt G) = -Flt.cast x ∧ (Flt.cast (abs x) : Flt G) = abs (Flt.cast x) ∧
    (Flt.cast (vmin x l) : Flt G) = vmin (Flt.cast x) (l.map Flt.cast) ∧ (Flt.cast (vmax x l) : Flt G) = vmax (Flt.cast x) (l.map Flt.cast) ∧
    (Flt.cast (clamp x y z) : Flt G) = clamp (Flt.cast x) (Flt.cast y) (Flt.cast z) ∧
    vcast G (vvmin v w ws) = vvmin (vcast G v) (vcast G w) (ws.map (vcast G)) ∧
    vcast G (vvmax v w ws) = vvmax (vcast G v) (vcast G w) (ws.map (vcast G)) := by
  refine ⟨monotone_cast, cast_neg x, ?_, cast_vmin x l, cast_vmax x l, ?_, funext fun i => ?_, funext fun i => ?_⟩
  · show (Flt.cast (if Cmp.lt x 0 = true then -x else x) : Flt G) = if Cmp.lt (Flt.cast x : Flt G) 0 = true then -Flt.cast x else Flt.cast x
    by_cases h : Cmp.lt (Flt.cast x : Flt G) 0 = true
    · rw [if_pos h]
      rw [← cast_zero (F := F)] at h
      rw [if_pos (monotone_cast _ _ h), cast_neg]
    · rw [if_neg h]
      by_cases h' : Cmp.lt x 0 = true
      · rw [if_pos h', cast_neg]
        have := cast_collapse (G := G) h' (by rw [cast_zero]; simpa using h)
        rw [this, cast_zero]
        exact Flt.key_inj (by show some (Ext.ofRat (-0)) = some (Ext.ofRat 0); rw [neg_zero])
      · rw [if_neg h']
  · unfold clamp
    rw [cast_max, cast_min]
  · show (Flt.cast (vmin (v i) (w i :: ws.map fun r => r i)) : Flt G) = vmin _ (_ :: (ws.map (vcast G)).map fun r => r i)
    rw [cast_vmin, List.map_cons, List.map_map, List.map_map]
    rfl
  · show (Flt.cast (vmax (v i) (w i :: ws.map fun r => r i)) : Flt G) = vmax _ (_ :: (ws.map (vcast G)).map fun r => r i)
    rw [cast_vmax, List.map_cons, List.map_map, List.map_map]
    rfl

/-- Boxes under every conversion between floating point types: validity is kept, a box that contains a point or another box or meets another box
still does so, and repairing, merging, constraining and, for boxes that meet, intersecting can be done before or after the conversion. -/
theorem C132_box {F G : Fmt} (a b : BBox (Flt F) S) (p : Vec (Flt F) S) (ps : List (Vec (Flt F) S)) :
    (a.isValid = true → (BBox.convert Flt.cast a : BBox (Flt G) S).isValid = true) ∧
    (a.contains p = true → (BBox.convert Flt.cast a : BBox (Flt G) S).contains (vcast G p) = true) ∧
    (a.containsBox b = true → (BBox.convert Flt.cast a : BBox (Flt G) S).containsBox (BBox.convert Flt.cast b) = true) ∧
    (a.intersects b = true → (BBox.convert Flt.cast a : BBox (Flt G) S).intersects (BBox.convert Flt.cast b) = true) ∧
    (BBox.convert Flt.cast a.repair : BBox (Flt G) S) = (BBox.convert Flt.cast a).repair ∧
    (BBox.convert Flt.cast (a.merge b) : BBox (Flt G) S) = (BBox.convert Flt.cast a).merge (BBox.convert Flt.cast b) ∧
    (BBox.convert Flt.cast (a.mergePoint p) : BBox (Flt G) S) = (BBox.convert Flt.cast a).mergePoint (vcast G p) ∧
    (BBox.convert Flt.cast (BBox.mergeAll p ps) : BBox (Flt G) S) = BBox.mergeAll (vcast G p) (ps.map (vcast G)) ∧
    vcast G (a.constrain p) = (BBox.convert Flt.cast a).constrain (vcast G p) ∧
    (a.isValid = true → b.isValid = true → a.intersects b = true →
      (BBox.convert Flt.cast (a.intersect b) : BBox (Flt G) S) = (BBox.convert Flt.cast a).intersect (BBox.convert Flt.cast b)) := by
  have box : ∀ x y : Vec (Flt F) S, (BBox.convert Flt.cast (⟨x, y⟩ : BBox (Flt F) S) : BBox (Flt G) S) = ⟨vcast G x, vcast G y⟩ := fun _ _ => rfl
  have mp : ∀ (a : BBox (Flt F) S) (p : Vec (Flt F) S),
      (BBox.convert Flt.cast (a.mergePoint p) : BBox (Flt G) S) = (BBox.convert Flt.cast a).mergePoint (vcast G p) := by
    intro a p
    unfold BBox.mergePoint
    rw [box, vcast_min, vcast_max]; rfl
  have valid : ∀ a : BBox (Flt F) S, a.isValid = true → (BBox.convert Flt.cast a : BBox (Flt G) S).isValid = true :=
    fun a => C80_bbox _ monotone_cast a
  have two : ∀ (f g h k : Fin S → Flt F), ((List.finRange S).all fun i => !(Cmp.lt (f i) (g i) || Cmp.lt (h i) (k i))) = true →
      ((List.finRange S).all fun i => !(Cmp.lt (Flt.cast (f i) : Flt G) (Flt.cast (g i)) || Cmp.lt (Flt.cast (h i) : Flt G) (Flt.cast (k i)))) = true := by
    intro f g h k hh
    rw [List.all_eq_true] at *
    intro i hi
    have := hh i hi
    simp only [Bool.not_eq_true', Bool.or_eq_false_iff] at this ⊢
    exact ⟨lt_false this.1, lt_false this.2⟩
  refine ⟨valid a, two _ _ _ _, two _ _ _ _, two _ _ _ _, ?_, ?_, mp a p, ?_, ?_, fun ha hb hab => ?_⟩
  · unfold BBox.repair
    rw [box, vcast_min, vcast_max]; rfl
  · unfold BBox.merge
    rw [box, vcast_min, vcast_max]; rfl
  · unfold BBox.mergeAll
    rw [List.foldl_map]
    have : ∀ (l : List (Vec (Flt F) S)) (a : BBox (Flt F) S), (BBox.convert Flt.cast (l.foldl BBox.mergePoint a) : BBox (Flt G) S) =
        l.foldl (fun x y => BBox.mergePoint x (vcast G y)) (BBox.convert Flt.cast a) := by
      intro l
      induction l with
      | nil => intro a; rfl
      | cons q l ih => intro a; rw [List.foldl_cons, List.foldl_cons, ih, mp]
    exact this ps _
  · unfold BBox.constrain
    rw [vcast_max, vcast_min]; rfl
  · have h1 := intersect_valid ha hb hab
    have h2 := valid ⟨vmax2 a.min b.min, vmin2 a.max b.max⟩ h1
    rw [box, vcast_max, vcast_min] at h2
    unfold BBox.intersect
    simp only [h1, if_true]
    rw [box, vcast_max, vcast_min]
    exact (if_pos h2).symm

/-- One operation in `double` on converted `float` operands, converted back to `float`, is the `float` operation: there is no double rounding, for
all operands including infinities, NaN and results that overflow or underflow.  `Wide` holds for `float` and `double` (`wide_32_64`). -/
theorem C132_operations {P Q : BinPar} (hW : Wide P Q) (x y : Flt P.fmt) :
    (Flt.cast ((Flt.cast x : Flt Q.fmt) + Flt.cast y) : Flt P.fmt) = x + y ∧ (Flt.cast ((Flt.cast x : Flt Q.fmt) - Flt.cast y) : Flt P.fmt) = x - y ∧
    (Flt.cast ((Flt.cast x : Flt Q.fmt) * Flt.cast y) : Flt P.fmt) = x * y ∧ (Flt.cast ((Flt.cast x : Flt Q.fmt) / Flt.cast y) : Flt P.fmt) = x / y :=
  ⟨wide_add hW x y, wide_sub hW x y, wide_mul hW x y, wide_div hW x y⟩

/-- The same for the operators of vectors, translation and size of boxes. -/
theorem C132_vectors {P Q : BinPar} (hW : Wide P Q) (v w : Vec (Flt P.fmt) S) (f : Flt P.fmt) (b : BBox (Flt P.fmt) S) :
    vcast P.fmt (vcast Q.fmt v + vcast Q.fmt w) = v + w ∧ vcast P.fmt (vcast Q.fmt v - vcast Q.fmt w) = v - w ∧
    vcast P.fmt (vcast Q.fmt v * vcast Q.fmt w) = v * w ∧ vcast P.fmt (vcast Q.fmt v / vcast Q.fmt w) = v / w ∧
    vcast P.fmt (vscale (vcast Q.fmt v) (Flt.cast f)) = vscale v f ∧ vcast P.fmt (vdivs (vcast Q.fmt v) (Flt.cast f)) = vdivs v f ∧
    (BBox.convert Flt.cast ((BBox.convert Flt.cast b : BBox (Flt Q.fmt) S).translate (vcast Q.fmt v)) : BBox (Flt P.fmt) S) = b.translate v ∧
    vcast P.fmt (BBox.convert Flt.cast b : BBox (Flt Q.fmt) S).size = b.size := by
  refine ⟨funext fun i => wide_add hW _ _, funext fun i => wide_sub hW _ _, funext fun i => wide_mul hW _ _, funext fun i => wide_div hW _ _,
    funext fun i => wide_mul hW _ _, funext fun i => wide_div hW _ _, ?_, funext fun i => wide_sub hW _ _⟩
  unfold BBox.translate
  rw [show b.min + v = vcast P.fmt (vcast Q.fmt b.min + vcast Q.fmt v) from (funext fun i => wide_add hW _ _).symm,
    show b.max + v = vcast P.fmt (vcast Q.fmt b.max + vcast Q.fmt v) from (funext fun i => wide_add hW _ _).symm]
  rfl

/-! ### What conversions lose -/

namespace FltCast

theorem eq_of_val {P : BinPar} {x y : Flt P.fmt} (hx : x.isFinite) (hy : y.isFinite) (h : x.val = y.val) : x = y := by
  obtain ⟨h1, e1⟩ := Flt.eq_fin hx
  obtain ⟨h2, e2⟩ := Flt.eq_fin hy
  apply Flt.key_inj
  rw [e1, e2]
  show some (Ext.ofRat x.val) = some (Ext.ofRat y.val)
  rw [h]

/-- A `double` slightly above 1 that becomes 1 as a `float`. -/
def nx : Flt binary64.fmt := Flt.round (1 + 1 / 2 ^ 30)

theorem nx64 : nx.isFinite ∧ nx.val = 1 + 1 / 2 ^ 30 :=
  is_round (by fl_num (-52) (2 ^ 52 + 2 ^ 22)) (lt_bound64 (by norm_num [abs_le]))

theorem fin1 {P : BinPar} : (1 : Flt P.fmt).isFinite := trivial
theorem fin0 {P : BinPar} : (0 : Flt P.fmt).isFinite := trivial
theorem one64 : (1 : Flt binary64.fmt).isFinite ∧ (1 : Flt binary64.fmt).val = 1 := ⟨trivial, rfl⟩
theorem zero64 : (0 : Flt binary64.fmt).isFinite ∧ (0 : Flt binary64.fmt).val = 0 := ⟨trivial, rfl⟩

theorem cast_nx : (Flt.cast nx : Flt binary32.fmt) = 1 := by
  have h : (Flt.round (1 + 1 / 2 ^ 30) : Flt binary32.fmt).isFinite ∧ (Flt.round (1 + 1 / 2 ^ 30) : Flt binary32.fmt).val = 1 :=
    is_round (by fl_num (-23) (2 ^ 23)) (lt_bound32 (by norm_num [abs_le]))
  rw [cast_round_finite nx64.1, nx64.2]
  exact eq_of_val h.1 trivial h.2

theorem cast_one : (Flt.cast (1 : Flt binary64.fmt) : Flt binary32.fmt) = 1 := Flt.round_of_rep binary32.fmt.rep_one

theorem lt_one_nx : Cmp.lt (1 : Flt binary64.fmt) nx = true := by
  rw [Flt.lt_val one64.1 nx64.1, one64.2, nx64.2]; norm_num

theorem lt_nx_one : Cmp.lt nx (1 : Flt binary64.fmt) = false := by
  rw [Flt.lt_val nx64.1 one64.1, one64.2, nx64.2]; norm_num

theorem lt_zero_one {P : BinPar} : Cmp.lt (0 : Flt P.fmt) 1 = true := by
  rw [Flt.lt_val fin0 fin1]
  show decide ((0 : ℚ) < 1) = true
  norm_num

theorem eq_one_one {P : BinPar} : Cmp.eq (1 : Flt P.fmt) 1 = true := by
  rw [eq_iff']
  exact ⟨_, rfl, rfl⟩

theorem before_wide (y z : Flt binary64.fmt) : vlt ![(1 : Flt binary64.fmt), y] ![nx, z] = true := by
  rw [C01_lt_is_lexicographic]
  exact ⟨0, fun j hj => absurd hj (by simp), Or.inr lt_one_nx⟩

theorem before_narrow : vlt ![(1 : Flt binary32.fmt), 0] ![1, 1] = true := by
  rw [C01_lt_is_lexicographic]
  refine ⟨1, fun j hj => ?_, Or.inr lt_zero_one⟩
  obtain rfl : j = 0 := Fin.ext (by have : j.val < 1 := hj; show j.val = 0; omega)
  exact Or.inr eq_one_one

theorem not_after {T : Type} [IEEE T] [Add T] [Sub T] [Zero T] [ZeroLaw T] {n : ℕ} {a b : Vec T n} (h : vlt a b = true) : vlt b a = false := by
  rw [← Bool.not_eq_true]
  rw [vlt_iff] at h ⊢
  exact not_lt.2 h.le

end FltCast

/-- Conversion from `double` to `float` does not keep the order of vectors: converting a segment can leave its start after its end, so that it differs
from the segment between the converted points, and converting a polygon can leave a vertex that is smaller than the first one. -/
theorem C132_segment_fails :
    let s : Segment (Flt binary64.fmt) 2 := Segment.mk' ![nx, 0] ![1, 1]
    let t : Segment (Flt binary32.fmt) 2 := Segment.convert Flt.cast s
    let p : Polygon (Flt binary64.fmt) 2 := ⟨[![1, 1], ![nx, 0], ![nx, 1]]⟩
    vle s.start s.end_ = true ∧ vlt t.end_ t.start = true ∧
    Segment.mk' (vcast binary32.fmt ![nx, 0]) (vcast binary32.fmt (![1, 1] : Vec (Flt binary64.fmt) 2)) = (⟨t.end_, t.start⟩ : Segment (Flt binary32.fmt) 2) ∧ t.start ≠ t.end_ ∧
    p.Canonical ∧ ¬ (Polygon.convert Flt.cast p : Polygon (Flt binary32.fmt) 2).Canonical := by
  have c1 : (fun i => Flt.cast ((![nx, 0] : Vec (Flt binary64.fmt) 2) i) : Vec (Flt binary32.fmt) 2) = ![1, 0] := by
    funext i
    fin_cases i
    · exact cast_nx
    · exact cast_zero
  have c2 : (fun i => Flt.cast ((![1, 1] : Vec (Flt binary64.fmt) 2) i) : Vec (Flt binary32.fmt) 2) = ![1, 1] := by
    funext i
    fin_cases i
    · exact cast_one
    · exact cast_one
  have es : (Segment.mk' ![nx, 0] ![1, 1] : Segment (Flt binary64.fmt) 2) = ⟨![1, 1], ![nx, 0]⟩ := by
    unfold Segment.mk'
    simp only [not_after (before_wide 1 0), Bool.false_eq_true, if_false]
  have ne : (![1, 1] : Vec (Flt binary32.fmt) 2) ≠ ![1, 0] := by
    intro h
    have := congrFun h 1
    have h2 : ((1 : Flt binary32.fmt)).val = (0 : Flt binary32.fmt).val := congrArg _ this
    exact absurd h2 (by show ¬ ((1 : ℚ) = 0); norm_num)
  rw [es]
  intro s t p
  have et : t = ⟨![1, 1], ![1, 0]⟩ := by
    show (⟨_, _⟩ : Segment (Flt binary32.fmt) 2) = _
    rw [c1, c2]
  rw [et]
  refine ⟨?_, before_narrow, ?_, ne, ?_, fun h => ?_⟩
  · rw [vle_iff]
    exact ((vlt_iff _ _).1 (before_wide 1 0)).le
  · show Segment.mk' (fun i => Flt.cast ((![nx, 0] : Vec (Flt binary64.fmt) 2) i)) (fun i => Flt.cast ((![1, 1] : Vec (Flt binary64.fmt) 2) i)) = _
    rw [c1, c2]
    unfold Segment.mk'
    simp only [before_narrow, if_true]
  · intro v vs e w hw
    obtain ⟨rfl, rfl⟩ := List.cons.inj e
    simp only [List.mem_cons, List.not_mem_nil, or_false] at hw
    rcases hw with rfl | rfl
    · exact not_after (before_wide 1 0)
    · exact not_after (before_wide 1 1)
  · have e := convert_vertices (Flt.cast : Flt binary64.fmt → Flt binary32.fmt) p
    have hh := h _ _ e ![1, 0] (by
      rw [List.mem_map]
      exact ⟨![nx, 0], by simp, c1⟩)
    have hh2 : vlt ![1, 0] (fun i => Flt.cast ((![1, 1] : Vec (Flt binary64.fmt) 2) i) : Vec (Flt binary32.fmt) 2) = false := hh
    rw [c2, before_narrow] at hh2
    exact absurd hh2 (by simp)

/-- Boxes that are disjoint in `double` can touch after conversion to `float`; then the intersection taken before the conversion, which is the zero box,
differs from the one taken after it. -/
theorem C132_disjoint_fails :
    let a : BBox (Flt binary64.fmt) 1 := ⟨![0], ![1]⟩
    let b : BBox (Flt binary64.fmt) 1 := ⟨![nx], ![nx]⟩
    a.isValid = true ∧ b.isValid = true ∧ a.intersects b = false ∧
    (BBox.convert Flt.cast a : BBox (Flt binary32.fmt) 1).intersects (BBox.convert Flt.cast b) = true ∧
    (BBox.convert Flt.cast (a.intersect b) : BBox (Flt binary32.fmt) 1) ≠ (BBox.convert Flt.cast a).intersect (BBox.convert Flt.cast b) := by
  have h01 : Cmp.lt (1 : Flt binary64.fmt) 0 = false := by
    rw [Flt.lt_val fin1 fin0]; show decide ((1 : ℚ) < 0) = false; norm_num
  have hnn : Cmp.lt nx nx = false := by rw [Flt.lt_val nx64.1 nx64.1]; simp
  have h0n : Cmp.lt nx 0 = false := by rw [Flt.lt_val nx64.1 fin0, nx64.2]; show decide ((1 + 1 / 2 ^ 30 : ℚ) < 0) = false; norm_num
  have s01 : Cmp.lt (1 : Flt binary32.fmt) 0 = false := by
    rw [Flt.lt_val fin1 fin0]; show decide ((1 : ℚ) < 0) = false; norm_num
  have s11 : Cmp.lt (1 : Flt binary32.fmt) 1 = false := by rw [Flt.lt_val fin1 fin1]; simp
  intro a b
  have ca : (BBox.convert Flt.cast a : BBox (Flt binary32.fmt) 1) = ⟨![0], ![1]⟩ := by
    show (⟨_, _⟩ : BBox (Flt binary32.fmt) 1) = _
    congr 1
    · funext i; fin_cases i; exact cast_zero
    · funext i; fin_cases i; exact cast_one
  have cb : (BBox.convert Flt.cast b : BBox (Flt binary32.fmt) 1) = ⟨![1], ![1]⟩ := by
    show (⟨_, _⟩ : BBox (Flt binary32.fmt) 1) = _
    congr 1
    · funext i; fin_cases i; exact cast_nx
    · funext i; fin_cases i; exact cast_nx
  have one : ∀ f : Fin 1 → Bool, (List.finRange 1).all f = f 0 := by
    intro f
    rw [show List.finRange 1 = [0] from rfl, List.all_cons, List.all_nil, Bool.and_true]
  have hi : a.intersects b = false := by
    unfold BBox.intersects
    rw [one]
    show (!(Cmp.lt nx 0 || Cmp.lt 1 nx)) = false
    rw [h0n, lt_one_nx]; rfl
  refine ⟨?_, ?_, hi, ?_, fun h => ?_⟩
  · unfold BBox.isValid BBox.isValidPair
    rw [one]
    show (!(Cmp.lt (1 : Flt binary64.fmt) 0)) = true
    rw [h01]; rfl
  · unfold BBox.isValid BBox.isValidPair
    rw [one]
    show (!(Cmp.lt nx nx)) = true
    rw [hnn]; rfl
  · rw [ca, cb]
    unfold BBox.intersects
    rw [one]
    show (!(Cmp.lt (1 : Flt binary32.fmt) 0 || Cmp.lt (1 : Flt binary32.fmt) 1)) = true
    rw [s01, s11]; rfl
  · rw [ca, cb] at h
    have e1 : (BBox.intersect a b).min 0 = 0 := by
      unfold BBox.intersect BBox.isValidPair
      simp only [one]
      have m1 : vmax2 a.min b.min 0 = nx := by
        show (if Cmp.lt nx 0 = true then (0 : Flt binary64.fmt) else nx) = nx
        rw [h0n]; rfl
      have m2 : vmin2 a.max b.max 0 = 1 := by
        show (if Cmp.lt 1 nx = true then (1 : Flt binary64.fmt) else nx) = 1
        rw [lt_one_nx]; rfl
      rw [m1, m2, lt_one_nx]
      rfl
    have e2 : (BBox.intersect ⟨![0], ![1]⟩ ⟨![1], ![1]⟩ : BBox (Flt binary32.fmt) 1).min 0 = 1 := by
      unfold BBox.intersect BBox.isValidPair
      simp only [one]
      have m1 : vmax2 (![0] : Vec (Flt binary32.fmt) 1) ![1] 0 = 1 := by
        show (if Cmp.lt (1 : Flt binary32.fmt) 0 = true then (0 : Flt binary32.fmt) else 1) = 1
        rw [s01]; rfl
      have m2 : vmin2 (![1] : Vec (Flt binary32.fmt) 1) ![1] 0 = 1 := by
        show (if Cmp.lt (1 : Flt binary32.fmt) 1 = true then (1 : Flt binary32.fmt) else 1) = 1
        rw [s11]; rfl
      rw [m1, m2, s11]
      exact m1
    have h0 := congrFun (congrArg BBox.min h) 0
    rw [e2] at h0
    have h1 : (Flt.cast ((BBox.intersect a b).min 0) : Flt binary32.fmt) = 1 := h0
    rw [e1, cast_zero] at h1
    have h2 : ((0 : Flt binary32.fmt)).val = (1 : Flt binary32.fmt).val := congrArg _ h1
    exact absurd h2 (by show ¬ ((0 : ℚ) = 1); norm_num)

/-- For more than one operation this is false: the dot product computed in `double` and converted differs from the `float` dot product, although the
operands are `float`. -/
theorem C132_dot_fails :
    ∃ v w : Vec (Flt binary32.fmt) 2, (∀ i, (v i).isFinite) ∧ (∀ i, (w i).isFinite) ∧ (dot v w).val = 1 / 2 ^ 11 ∧
      (Flt.cast (dot (vcast binary64.fmt v) (vcast binary64.fmt w)) : Flt binary32.fmt).val = 1 / 2 ^ 11 + 1 / 2 ^ 24 := by
  have hk : (Flt.round (1 + 1 / 2 ^ 12) : Flt binary32.fmt).isFinite ∧ (Flt.round (1 + 1 / 2 ^ 12) : Flt binary32.fmt).val = 1 + 1 / 2 ^ 12 :=
    is_round (by fl_num (-23) (2 ^ 23 + 2 ^ 11)) (lt_bound32 (by norm_num [abs_le]))
  set k : Flt binary32.fmt := Flt.round (1 + 1 / 2 ^ 12)
  have h1 : (1 : Flt binary32.fmt).isFinite ∧ (1 : Flt binary32.fmt).val = 1 := ⟨trivial, rfl⟩
  have h0 : (0 : Flt binary32.fmt).isFinite ∧ (0 : Flt binary32.fmt).val = 0 := ⟨trivial, rfl⟩
  have hm : (-1 : Flt binary32.fmt).isFinite ∧ (-1 : Flt binary32.fmt).val = -1 := ⟨trivial, rfl⟩
  have cw : ∀ {x : Flt binary32.fmt} {a : ℚ}, x.isFinite ∧ x.val = a →
      (Flt.cast x : Flt binary64.fmt).isFinite ∧ (Flt.cast x : Flt binary64.fmt).val = a := by
    intro x a h
    have := C132_widen contains_32_64 x x
    exact ⟨this.1.2 h.1, this.2.1.trans h.2⟩
  refine ⟨![k, 1], ![k, -1], ?_, ?_, ?_, ?_⟩
  · intro i; fin_cases i
    · exact hk.1
    · exact h1.1
  · intro i; fin_cases i
    · exact hk.1
    · exact hm.1
  · show (0 + k * k + 1 * -1 : Flt binary32.fmt).val = _
    have a1 := is_mul (c := 1 + 1 / 2 ^ 11) hk hk (by fl_tie (-23) (2 ^ 23 + 2 ^ 12)) (lt_bound32 (by norm_num [abs_le]))
    have a2 := is_add (c := 1 + 1 / 2 ^ 11) h0 a1 (by fl_num (-23) (2 ^ 23 + 2 ^ 12)) (lt_bound32 (by norm_num [abs_le]))
    have a3 := is_mul (c := -1) h1 hm (by fl_num (-23) (-2 ^ 23)) (lt_bound32 (by norm_num [abs_le]))
    have a4 := is_add (c := 1 / 2 ^ 11) a2 a3 (by fl_num (-34) (2 ^ 23)) (lt_bound32 (by norm_num [abs_le]))
    exact a4.2
  · show (Flt.cast (0 + Flt.cast k * Flt.cast k + Flt.cast 1 * Flt.cast (-1) : Flt binary64.fmt) : Flt binary32.fmt).val = _
    have a1 := is_mul (c := 1 + 1 / 2 ^ 11 + 1 / 2 ^ 24) (cw hk) (cw hk) (by fl_num (-52) (2 ^ 52 + 2 ^ 41 + 2 ^ 28)) (lt_bound64 (by norm_num [abs_le]))
    have a2 := is_add (c := 1 + 1 / 2 ^ 11 + 1 / 2 ^ 24) zero64 a1 (by fl_num (-52) (2 ^ 52 + 2 ^ 41 + 2 ^ 28)) (lt_bound64 (by norm_num [abs_le]))
    have a3 := is_mul (c := -1) (cw h1) (cw hm) (by fl_num (-52) (-2 ^ 52)) (lt_bound64 (by norm_num [abs_le]))
    have a4 := is_add (c := 1 / 2 ^ 11 + 1 / 2 ^ 24) a2 a3 (by fl_num (-63) (2 ^ 52 + 2 ^ 39)) (lt_bound64 (by norm_num [abs_le]))
    rw [cast_round_finite a4.1, a4.2]
    have a5 : (Flt.round (1 / 2 ^ 11 + 1 / 2 ^ 24) : Flt binary32.fmt).isFinite ∧ (Flt.round (1 / 2 ^ 11 + 1 / 2 ^ 24) : Flt binary32.fmt).val = _ :=
      is_round (c := 1 / 2 ^ 11 + 1 / 2 ^ 24) (by fl_num (-34) (2 ^ 23 + 2 ^ 10)) (lt_bound32 (by norm_num [abs_le]))
    exact a5.2

/-- The theorems apply to `float` and `double`; a double that is not a float lies in the range of the accuracy statement; the boxes [0, 1] and [1, nx] of
doubles are valid and meet. -/
example : Contains binary32.fmt binary64.fmt ∧ Wide binary32 binary64 ∧ (nx.isFinite ∧ |nx.val| < (2 ^ binary32.p - 1 / 2) * 2 ^ binary32.qmax ∧
    (Flt.cast nx : Flt binary32.fmt).val ≠ nx.val) ∧
    (BBox.intersects ⟨![0], ![1]⟩ ⟨![1], ![nx]⟩ : Bool) = true ∧ (⟨![1], ![nx]⟩ : BBox (Flt binary64.fmt) 1).isValid = true := by
  refine ⟨contains_32_64, wide_32_64, ⟨nx64.1, ?_, ?_⟩, ?_, ?_⟩
  · rw [nx64.2]; norm_num [binary32, abs_of_pos]
  · rw [cast_nx, nx64.2]; show (1 : ℚ) ≠ 1 + 1 / 2 ^ 30; norm_num
  · have h : Cmp.lt nx 0 = false := by rw [Flt.lt_val nx64.1 fin0, nx64.2]; show decide ((1 + 1 / 2 ^ 30 : ℚ) < 0) = false; norm_num
    have h' : Cmp.lt (1 : Flt binary64.fmt) 1 = false := by rw [Flt.lt_val fin1 fin1]; simp
    show ((!(Cmp.lt nx 0 || Cmp.lt (1 : Flt binary64.fmt) 1)) && true) = true
    rw [h, h']; rfl
  · show ((!(Cmp.lt nx 1)) && true) = true
    rw [lt_nx_one]; rfl

end vm
