import Verif.Props.FltBetween
import Verif.Props.FltMat

/-! C107: the compile time variants of functions that need a square root. -/

set_option linter.unusedSectionVars false
set_option linter.unusedSimpArgs false

namespace vm

variable {P : BinPar} {S : ℕ}

/-- Every argument, including infinities, NaN and negative numbers, has a value of `sqrt_c`. -/
theorem sqrtC_total (P : BinPar) (x : Flt P.fmt) : ∃ (r : Flt P.fmt) (fuel : ℕ),
    (∀ n, fuel ≤ n → sqrtC P.half Flt.pinf Flt.nan n x = some r) ∧
    (∀ q hq, x = Flt.fin (F := P.fmt) q hq → 0 ≤ q → ∃ q' hq', r = Flt.fin (F := P.fmt) q' hq' ∧ P.Faithful q q') ∧
    (x = Flt.pinf → r = Flt.pinf) ∧ (x = Flt.nan → r = Flt.nan) := by
  rcases x with _ | _ | _ | ⟨q, hq⟩
  · exact ⟨Flt.nan, 0, fun n _ => rfl, fun _ _ h => (nomatch h), fun h => (nomatch h), fun _ => rfl⟩
  · refine ⟨Flt.nan, 0, fun n _ => ?_, fun _ _ h => (nomatch h), fun h => (nomatch h), fun h => (nomatch h)⟩
    have h1 : isNan (Flt.ninf : Flt P.fmt) = false := by
      show (!decide ((⊥ : Ext) = ⊥)) = false
      rw [decide_eq_true rfl]; rfl
    have h2 : Cmp.eq (Flt.ninf : Flt P.fmt) Flt.pinf = false := decide_eq_false bot_ne_top
    have h3 : Cmp.le (0 : Flt P.fmt) Flt.ninf = false := decide_eq_false (Ext.not_le_bot 0)
    unfold sqrtC
    rw [h1, h2, h3]; rfl
  · refine ⟨Flt.pinf, 0, fun n _ => ?_, fun _ _ h => (nomatch h), fun _ => rfl, fun h => (nomatch h)⟩
    have h2 : Cmp.eq (Flt.pinf : Flt P.fmt) Flt.pinf = true := decide_eq_true rfl
    unfold sqrtC
    rw [h2, Bool.or_true, if_pos rfl]
  · rcases le_or_gt 0 q with h | h
    · obtain ⟨r, hr, fuel, h3, h4, h5, _⟩ := C83_sqrt_c P q hq h
      refine ⟨Flt.fin r hr, fuel, h3, fun q' hq' e _ => ⟨r, hr, rfl, ?_⟩, fun h => (nomatch h), fun h => (nomatch h)⟩
      have : q' = q := (Flt.fin.inj e).symm
      subst this; exact ⟨h4, h5⟩
    · refine ⟨Flt.nan, 0, fun n _ => ?_, fun q' hq' e h' => ?_, fun h => (nomatch h), fun h => (nomatch h)⟩
      · have h1 : isNan (Flt.fin q hq : Flt P.fmt) = false := by unfold isNan; rw [P.eq_fin]; simp
        have h2 : Cmp.eq (Flt.fin q hq : Flt P.fmt) Flt.pinf = false := decide_eq_false fun hc =>
          absurd (WithBot.coe_injective hc) WithTop.coe_ne_top
        have h3 : Cmp.le (0 : Flt P.fmt) (Flt.fin q hq) = false := by
          rw [Flt.lt_asymm_le Flt.zero_finite (b := Flt.fin q hq) trivial]
          exact decide_eq_false (not_le.2 h)
        unfold sqrtC
        rw [h1, h2, h3]; rfl
      · have : q' = q := (Flt.fin.inj e).symm
        subst this; linarith

/-- The values of `sqrt_c` for all arguments: a function with the properties that the theorems about `std::sqrt` need. -/
theorem exists_sqrtC (P : BinPar) : ∃ s : Flt P.fmt → Flt P.fmt, FaithfulSqrt P s ∧
    ∀ x, ∃ fuel, ∀ n, fuel ≤ n → sqrtC P.half Flt.pinf Flt.nan n x = some (s x) := by
  choose s fuel h1 h2 h3 h4 using sqrtC_total P
  exact ⟨s, ⟨fun x hx h0 => h2 _ x hx rfl h0, h3 _ rfl, h4 _ rfl⟩, fun x => ⟨fuel x, h1 x⟩⟩

/-- Evaluation terminates with the given value. -/
def Evaluates {α : Type*} (f : ℕ → Option α) (a : α) : Prop := ∃ fuel, ∀ n, fuel ≤ n → f n = some a

theorem Evaluates.map {α β : Type*} {f : ℕ → Option α} {a : α} (h : Evaluates f a) (g : α → β) :
    Evaluates (fun n => (f n).map g) (g a) := by
  obtain ⟨k, hk⟩ := h
  exact ⟨k, fun n hn => by show (f n).map g = _; rw [hk n hn]; rfl⟩

theorem Evaluates.bind {α β : Type*} {f : ℕ → Option α} {a : α} (h : Evaluates f a) {g : ℕ → α → Option β} {b : β}
    (hg : Evaluates (fun n => g n a) b) : Evaluates (fun n => (f n).bind (g n)) b := by
  obtain ⟨k, hk⟩ := h
  obtain ⟨l, hl⟩ := hg
  refine ⟨max k l, fun n hn => ?_⟩
  show (f n).bind (g n) = _
  rw [hk n (le_trans (le_max_left _ _) hn)]
  exact hl n (le_trans (le_max_right _ _) hn)

theorem Evaluates.unique {α : Type*} {f : ℕ → Option α} {a b : α} (h : Evaluates f a) (h' : Evaluates f b) : a = b := by
  obtain ⟨k, hk⟩ := h
  obtain ⟨l, hl⟩ := h'
  have h1 := hk (max k l) (le_max_left _ _)
  rw [hl _ (le_max_right _ _)] at h1
  exact (Option.some.inj h1).symm

/-- All compile time variants terminate for all arguments, and give the results that the run time functions give with a square
root that is faithful. -/
theorem C107_agree (P : BinPar) : ∃ s : Flt P.fmt → Flt P.fmt, FaithfulSqrt P s ∧ ∀ {S : ℕ},
    (∀ v : Vec (Flt P.fmt) S, Evaluates (fun n => lengthC P.half Flt.pinf Flt.nan n v) (lengthG s v)) ∧
    (∀ v : Vec (Flt P.fmt) S, Evaluates (fun n => normalizeC P.half Flt.pinf Flt.nan n v) (normalizeG s v)) ∧
    (∀ (v : Vec (Flt P.fmt) S) e, Evaluates (fun n => isUnitC P.half Flt.pinf Flt.nan n v e) (isUnitG s v e)) ∧
    (∀ a b : Vec (Flt P.fmt) S, Evaluates (fun n => distanceC P.half Flt.pinf Flt.nan n a b) (distanceG s a b)) ∧
    (∀ (a b : Vec (Flt P.fmt) S) e, Evaluates (fun n => isParallelC P.half Flt.pinf Flt.nan n a b e) (isParallelG s a b e)) ∧
    (∀ p a b : Vec (Flt P.fmt) S, Evaluates (fun n => isBetweenC P.half Flt.pinf Flt.nan n p a b) (isBetweenG s p a b)) ∧
    (∀ (l : Line (Flt P.fmt) S) m, Evaluates (fun n => l.transformC P.half Flt.pinf Flt.nan n m) (l.transformG s m)) ∧
    (∀ (r : Ray (Flt P.fmt) S) m, Evaluates (fun n => r.transformC P.half Flt.pinf Flt.nan n m) (r.transformG s m)) ∧
    (∀ (p : Plane (Flt P.fmt) S) m, Evaluates (fun n => p.transformC P.half Flt.pinf Flt.nan n m) (p.transformG s m)) ∧
    (∀ g : Segment (Flt P.fmt) S, Evaluates (fun n => g.lengthC P.half Flt.pinf Flt.nan n) (g.lengthG s)) := by
  obtain ⟨s, hs, h⟩ := exists_sqrtC P
  refine ⟨s, hs, fun {S} => ?_⟩
  have hL : ∀ v : Vec (Flt P.fmt) S, Evaluates (fun n => lengthC P.half Flt.pinf Flt.nan n v) (lengthG s v) :=
    fun v => h (squaredLength v)
  have hN : ∀ v : Vec (Flt P.fmt) S, Evaluates (fun n => normalizeC P.half Flt.pinf Flt.nan n v) (normalizeG s v) :=
    fun v => (hL v).map (vdivs v)
  refine ⟨hL, hN, fun v e => (hL v).map _, fun a b => hL (a - b), fun a b e => ?_, fun p a b => ?_, fun l m => ?_, fun r m => ?_,
    fun p m => ?_, fun g => hL _⟩
  · exact (hN a).bind ((hN b).map _)
  · unfold isBetweenC isBetweenG
    by_cases hv : (veq p a || veq p b) = true
    · simp only [hv, if_true]; exact ⟨0, fun _ _ => rfl⟩
    · simp only [hv, if_false, Bool.false_eq_true]; exact (hN (a - p)).map _
  · exact (hN (mmulPoint (stripTranslation m) l.direction)).map fun d => (⟨mmulPoint m l.point, d⟩ : Line (Flt P.fmt) S)
  · exact (hN (mmulPoint (stripTranslation m) r.direction)).map fun d => (⟨mmulPoint m r.origin, d⟩ : Ray (Flt P.fmt) S)
  · exact (hN (mmulPoint (stripTranslation m) p.normal)).map fun n => Plane.ofAnchor (mmulPoint m p.anchor) n

/-- `is_unit_c(normalize_c(v), epsilon)` for every tolerance of a few units of rounding. -/
theorem C107_normalize_is_unit (P : BinPar) {S : ℕ} (hS : 0 < S) (hε : P.lenErr S ≤ 1 / 50)
    (v : Vec (Flt P.fmt) S) (h : (squaredLength v).isFinite) (hX : NoUnderflow v)
    (e : Flt P.fmt) (he : e.isFinite) (hee : 11 / 5 * P.lenErr S + 3 * P.u ≤ e.val) :
    Evaluates (fun n => (normalizeC P.half Flt.pinf Flt.nan n v).bind fun w => isUnitC P.half Flt.pinf Flt.nan n w e) true := by
  obtain ⟨s, hs, hA⟩ := C107_agree P
  obtain ⟨-, hN, hU, -⟩ := hA (S := S)
  have := (hN v).bind (g := fun n w => isUnitC P.half Flt.pinf Flt.nan n w e) (hU _ e)
  rwa [C101_normalize_is_unit P hS hε hs v h hX e he hee] at this

/-- `is_parallel_c` recognises exactly parallel vectors. -/
theorem C107_is_parallel (P : BinPar) {S : ℕ} (hS : 0 < S) (hε : P.lenErr S ≤ 1 / 50)
    (v w : Vec (Flt P.fmt) S) (h : (squaredLength v).isFinite) (hX : NoUnderflow v)
    (h' : (squaredLength w).isFinite) (hX' : NoUnderflow w) (c : ℚ) (hc : c ≠ 0) (hw : ∀ i, (w i).val = c * (v i).val)
    (e : Flt P.fmt) (he : e.isFinite) (hee : 5 * P.lenErr S + 5 * P.u ≤ e.val) :
    Evaluates (fun n => isParallelC P.half Flt.pinf Flt.nan n v w e) true := by
  obtain ⟨s, hs, hA⟩ := C107_agree P
  have := (hA (S := S)).2.2.2.2.1 v w e
  rwa [C101_is_parallel P hS hε hs v w h hX h' hX' c hc hw e he hee] at this

/-- `distance_c` has the error bound of `distance`, and is exactly zero for equal points. -/
theorem C107_distance (P : BinPar) {S : ℕ} (hε : P.lenErr S ≤ 1 / 50) (a b : Vec (Flt P.fmt) S) :
    ((∀ i, (a i).isFinite) → Evaluates (fun n => distanceC P.half Flt.pinf Flt.nan n a a) 0) ∧
    ((squaredLength (a - b)).isFinite → NoUnderflow (a - b) →
      ∃ d : Flt P.fmt, Evaluates (fun n => distanceC P.half Flt.pinf Flt.nan n a b) d ∧ d.isFinite ∧
        |(d.val : ℝ) - Real.sqrt (∑ i, (((a i).val : ℝ) - (b i).val) ^ 2)| ≤
          (P.lenErr S + 2 * P.u) * Real.sqrt (∑ i, (((a i).val : ℝ) - (b i).val) ^ 2)) := by
  obtain ⟨s, hs, hA⟩ := C107_agree P
  obtain ⟨-, -, -, hD, -⟩ := hA (S := S)
  constructor
  · intro h
    have := hD a a
    rwa [(C102_distance_self P hs a h).2] at this
  · intro h hX
    exact ⟨_, hD a b, C101_distance_error P hε hs a b h hX⟩

/-- `is_between_c` accepts the points of the segment and rejects the other points of the line. -/
theorem C107_is_between (P : BinPar) {S : ℕ} (hε : P.lenErr S ≤ 1 / 50) (p a b : Vec (Flt P.fmt) S)
    (hp : ∀ i, (p i).isFinite) (ha : ∀ i, (a i).isFinite) (hb : ∀ i, (b i).isFinite) (hne : ∃ i, (a i).val ≠ (b i).val)
    (t : ℚ) (hl : ∀ i, (p i).val = (a i).val + t * ((b i).val - (a i).val)) :
    (t < 0 ∨ 1 < t → Evaluates (fun n => isBetweenC P.half Flt.pinf Flt.nan n p a b) false) ∧
    (t = 0 ∨ t = 1 → Evaluates (fun n => isBetweenC P.half Flt.pinf Flt.nan n p a b) true) ∧
    (0 < t → t < 1 → (squaredLength (a - p)).isFinite → NoUnderflow (a - p) → (∀ i, (b i - p i).isFinite) → NoUnderflow (b - p) →
      Evaluates (fun n => isBetweenC P.half Flt.pinf Flt.nan n p a b) true) := by
  obtain ⟨s, hs, hA⟩ := C107_agree P
  have h := (hA (S := S)).2.2.2.2.2.1 p a b
  refine ⟨fun ht => ?_, fun ht => ?_, fun h0 h1 h2 h3 h4 h5 => ?_⟩
  · rwa [C106_outside P hs p a b hp ha hb hne t ht hl] at h
  · have : p = a ∨ p = b := by
      rcases ht with rfl | rfl
      · exact Or.inl (funext fun i => Flt.ext (hp i) (ha i) (by rw [hl i]; ring))
      · exact Or.inr (funext fun i => Flt.ext (hp i) (hb i) (by rw [hl i]; ring))
    rcases this with rfl | rfl
    · rwa [(C106_endpoints P s p b).1] at h
    · rwa [(C106_endpoints P s a p).2] at h
  · rwa [C106_inside P hε hs p a b h2 h3 h4 h5 t h0 h1 hl] at h

/-- The direction of a transformed line or ray and the normal of a transformed plane have unit length, if the transformed
direction neither overflows nor underflows. -/
theorem C107_transform_unit (P : BinPar) {S : ℕ} (hS : 0 < S) (hε : P.lenErr S ≤ 1 / 50) {s : Flt P.fmt → Flt P.fmt}
    (hs : FaithfulSqrt P s) (m : Mat (Flt P.fmt) (S + 1) (S + 1)) (x d : Vec (Flt P.fmt) S) (k : Flt P.fmt)
    (h : (squaredLength (mmulPoint (stripTranslation m) d)).isFinite) (hX : NoUnderflow (mmulPoint (stripTranslation m) d))
    (e : Flt P.fmt) (he : e.isFinite) (hee : 11 / 5 * P.lenErr S + 3 * P.u ≤ e.val) :
    isUnitG s ((⟨x, d⟩ : Line (Flt P.fmt) S).transformG s m).direction e = true ∧
    isUnitG s ((⟨x, d⟩ : Ray (Flt P.fmt) S).transformG s m).direction e = true ∧
    isUnitG s ((⟨k, d⟩ : Plane (Flt P.fmt) S).transformG s m).normal e = true :=
  ⟨C101_normalize_is_unit P hS hε hs _ h hX e he hee, C101_normalize_is_unit P hS hε hs _ h hX e he hee,
    C101_normalize_is_unit P hS hε hs _ h hX e he hee⟩

/-- (1, -2, 2) and (-1, 2, -2) in single precision with the tolerances 0.001 and 0.00001. -/
example : 0 < 3 ∧ binary32.lenErr 3 ≤ 1 / 50 ∧ (squaredLength (sample binary32)).isFinite ∧ NoUnderflow (sample binary32) ∧
    (squaredLength (-sample binary32)).isFinite ∧ NoUnderflow (-sample binary32) ∧
    (∀ i, ((-sample binary32) i).val = (-1 : ℚ) * (sample binary32 i).val) ∧
    (Flt.round (1 / 1000) : Flt binary32.fmt).isFinite ∧
    11 / 5 * binary32.lenErr 3 + 3 * binary32.u ≤ (Flt.round (1 / 1000) : Flt binary32.fmt).val ∧
    (Flt.round (1 / 100000) : Flt binary32.fmt).isFinite ∧
    5 * binary32.lenErr 3 + 5 * binary32.u ≤ (Flt.round (1 / 100000) : Flt binary32.fmt).val := by
  have hu : binary32.u = 1 / 2 ^ 24 := by norm_num [BinPar.u, binary32]
  have hl : binary32.lenErr 3 = 5 / 2 ^ 24 := by unfold BinPar.lenErr; rw [hu]; norm_num
  have hr : ∀ n : ℕ, n ≤ 20 → binary32.fmt.rep (1 / 2 ^ n) := by
    intro n h1
    refine ⟨⟨1, -n, by simp, by norm_num [binary32], by show (-149 : ℤ) ≤ -n; omega⟩, ?_⟩
    rw [abs_of_pos (by positivity)]
    refine lt_of_le_of_lt ?_ binary32.one_lt_bound
    rw [div_le_one (by positivity)]; exact one_le_pow₀ (by norm_num)
  have r1 := Flt.round_between (q := 1 / 1000) (hr 10 (by norm_num)) binary32.fmt.rep_one (by norm_num) (by norm_num)
  have r2 := Flt.round_between (q := 1 / 100000) (hr 17 (by norm_num)) binary32.fmt.rep_one (by norm_num) (by norm_num)
  obtain ⟨h1, h2, h3⟩ := sample32
  have hn : ∀ i, ((-sample binary32) i).val = -(sample binary32 i).val := fun i => Flt.neg_val _
  have e : squaredLength (-sample binary32) = squaredLength (sample binary32) := by
    unfold squaredLength
    rw [(C102_dot_neg binary32.fmt _ _).1, (C102_dot_neg binary32.fmt _ _).2, Flt.neg_neg']
  refine ⟨by norm_num, h1, h2, h3, by rw [e]; exact h2, ?_, fun i => by rw [hn]; ring, r1.1, ?_, r2.1, ?_⟩
  · unfold NoUnderflow
    simp only [hn, neg_sq]
    exact h3
  · rw [r1.2.1, hl, hu]
    refine le_trans ?_ r1.2.2.1
    norm_num
  · rw [r2.2.1, hl, hu]
    refine le_trans ?_ r2.2.2.1
    norm_num

/-- The identity matrix and the direction (1, -2, 2). -/
example : (squaredLength (mmulPoint (stripTranslation (matId 4 4)) (sample binary32))).isFinite ∧
    NoUnderflow (mmulPoint (stripTranslation (matId 4 4)) (sample binary32)) := by
  have e : stripTranslation (matId 4 4 : Mat (Flt binary32.fmt) 4 4) = matId 4 4 := by
    funext c r
    fin_cases c <;> fin_cases r <;> rfl
  rw [e, ((C103_identity binary32.fmt (S := 3)).2.1 _ (sample_ok binary32).1).1]
  exact sample32.2

end vm
