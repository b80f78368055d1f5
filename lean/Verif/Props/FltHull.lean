import Verif.Props.FltGrid
import Verif.Props.ConvexHull

/-!
C116: the convex hull of points on a grid in IEEE arithmetic.
-/

set_option linter.unusedSectionVars false
set_option linter.unusedSimpArgs false

namespace vm
variable {P : BinPar} {g M : ℤ}

/-- The values of the components of a vector. -/
def vval {S : ℕ} (p : Vec (Flt P.fmt) S) : Vec ℚ S := fun i => (p i).val

/-- All components are on the grid. -/
def GridPt (g M : ℤ) (p : Vec (Flt P.fmt) 3) : Prop := ∀ i, OnGrid g M (p i)

namespace FltHull

theorem swizzle_val (p : Vec (Flt P.fmt) 3) (k : ℕ) : vval (swizzle p k) = swizzle (vval p) k := by
  funext i
  match k with
  | 0 => fin_cases i <;> rfl
  | 1 => fin_cases i <;> rfl
  | _ + 2 => rfl

theorem unswizzle_val (p : Vec (Flt P.fmt) 3) (k : ℕ) : vval (unswizzle p k) = unswizzle (vval p) k := by
  funext i
  match k with
  | 0 => fin_cases i <;> rfl
  | 1 => fin_cases i <;> rfl
  | _ + 2 => rfl

theorem swizzle_grid {p : Vec (Flt P.fmt) 3} (h : GridPt g M p) (k : ℕ) : GridPt g M (swizzle p k) := by
  intro i
  match k with
  | 0 => fin_cases i <;> exact h _
  | 1 => fin_cases i <;> exact h _
  | _ + 2 => exact h i

theorem unswizzle_grid {p : Vec (Flt P.fmt) 3} (h : GridPt g M p) (k : ℕ) : GridPt g M (unswizzle p k) := by
  intro i
  match k with
  | 0 => fin_cases i <;> exact h _
  | 1 => fin_cases i <;> exact h _
  | _ + 2 => exact h i

theorem gr_val {x : Flt P.fmt} {z B : ℤ} (h : Gr g x z B) : x.val = z * 2 ^ g := h.val

theorem eq_val {a b : Flt P.fmt} (ha : a.isFinite) (hb : b.isFinite) : Cmp.eq a b = decide (a.val = b.val) := by
  obtain ⟨h1, h2⟩ := Flt.eq_fin ha
  obtain ⟨h3, h4⟩ := Flt.eq_fin hb
  rw [h2, h4]
  show decide (Ext.ofRat _ = Ext.ofRat _) = _
  rw [decide_eq_decide]
  exact WithBot.coe_inj.trans WithTop.coe_inj

/-- What is assumed about the grid. -/
structure Fits (P : BinPar) (g M : ℤ) : Prop where
  ok : P.Ok (2 * g)
  pos : 0 ≤ M
  small : 8 * M ^ 2 < 2 ^ P.p

theorem Fits.ok1 (h : Fits P g M) : P.Ok g := by
  have := BinPar.Ok.mul (P := P) (n := 2) (k := 1) (g := g) (by exact_mod_cast h.ok) (by norm_num)
  simpa using this

theorem Fits.two (h : Fits P g M) : M + M < 2 ^ P.p := by
  have hp : (1 : ℤ) < 2 ^ P.p := one_lt_pow₀ (by norm_num) (by have := P.hp; omega)
  have := h.small
  rcases h.pos.eq_or_lt with h0 | h0
  · rw [← h0]; linarith
  · have h1 : 1 ≤ M := h0
    nlinarith

theorem diff (hF : Fits P g M) {x y : Flt P.fmt} (hx : OnGrid g M x) (hy : OnGrid g M y) :
    OnGrid g (2 * M) (x - y) ∧ (x - y).val = x.val - y.val := by
  obtain ⟨h1, z, h2, h3⟩ := hx
  obtain ⟨h4, w, h5, h6⟩ := hy
  have := ((⟨h1, h2, h3⟩ : Gr g x z M).sub (⟨h4, h5, h6⟩ : Gr g y w M) hF.ok1 hF.two).mono (by linarith : M + M ≤ 2 * M)
  exact ⟨this.onGrid, by rw [this.val, h2, h5]; push_cast; ring⟩

theorem abs_val {x : Flt P.fmt} (h : OnGrid g M x) : (vm.abs x).isFinite ∧ (vm.abs x).val = |x.val| := by
  obtain ⟨h1, z, h2, h3⟩ := h
  have := (⟨h1, h2, h3⟩ : Gr g x z M).abs
  refine ⟨this.fin, ?_⟩
  rw [this.val, h2, abs_mul, abs_of_pos (zpow_pos (by norm_num : (0 : ℚ) < 2) g)]
  push_cast
  ring

/-- The sign of the orientation is computed exactly. -/
theorem isLeft_val (hF : Fits P g M) {a b c : Vec (Flt P.fmt) 3} (ha : GridPt g M a) (hb : GridPt g M b) (hc : GridPt g M c) :
    isLeft a b c = isLeft (vval a) (vval b) (vval c) := by
  have d := fun (x y : Vec (Flt P.fmt) 3) (hx : GridPt g M x) (hy : GridPt g M y) i => diff hF (hx i) (hy i)
  obtain ⟨⟨f1, z1, v1, l1⟩, e1⟩ := d b a hb ha 0
  obtain ⟨⟨f2, z2, v2, l2⟩, e2⟩ := d c a hc ha 1
  obtain ⟨⟨f3, z3, v3, l3⟩, e3⟩ := d c a hc ha 0
  obtain ⟨⟨f4, z4, v4, l4⟩, e4⟩ := d b a hb ha 1
  have eg : g + g = 2 * g := by ring
  have eb : 2 * M * (2 * M) = 4 * M ^ 2 := by ring
  have h0 : 0 ≤ M ^ 2 := sq_nonneg M
  have hs := hF.small
  have h := ((⟨f1, v1, l1⟩ : Gr g _ z1 (2 * M)).mul (⟨f2, v2, l2⟩ : Gr g _ z2 (2 * M)) (by rw [eg]; exact hF.ok) (by rw [eb]; linarith)).sub
    ((⟨f3, v3, l3⟩ : Gr g _ z3 (2 * M)).mul (⟨f4, v4, l4⟩ : Gr g _ z4 (2 * M)) (by rw [eg]; exact hF.ok) (by rw [eb]; linarith))
    (by rw [eg]; exact hF.ok) (by rw [eb]; linarith)
  have hv : ((b 0 - a 0) * (c 1 - a 1) - (c 0 - a 0) * (b 1 - a 1)).val =
      ((b 0).val - (a 0).val) * ((c 1).val - (a 1).val) - ((c 0).val - (a 0).val) * ((b 1).val - (a 1).val) := by
    rw [h.val, ← e1, ← e2, ← e3, ← e4, v1, v2, v3, v4, zpow_add₀ (by norm_num)]
    push_cast
    ring
  unfold isLeft
  simp only [Flt.lt_val h.fin Flt.zero_finite, Flt.lt_val Flt.zero_finite h.fin, hv, Flt.zero_val]
  rfl

theorem less_val (hF : Fits P g M) {a b c : Vec (Flt P.fmt) 3} (ha : GridPt g M a) (hb : GridPt g M b) (hc : GridPt g M c) :
    lessThanByAngle a b c = lessThanByAngle (vval a) (vval b) (vval c) := by
  have d := fun (x y : Vec (Flt P.fmt) 3) (hx : GridPt g M x) (hy : GridPt g M y) i =>
    abs_val (diff hF (hx i) (hy i)).1
  have e := fun (x y : Vec (Flt P.fmt) 3) (hx : GridPt g M x) (hy : GridPt g M y) i =>
    (diff hF (hx i) (hy i)).2
  unfold lessThanByAngle
  rw [isLeft_val hF ha hb hc]
  simp only [eq_val (d b a hb ha 0).1 (d c a hc ha 0).1, Flt.lt_val (d c a hc ha 1).1 (d b a hb ha 1).1,
    Flt.lt_val (d c a hc ha 0).1 (d b a hb ha 0).1, (d b a hb ha 0).2, (d c a hc ha 0).2, (d b a hb ha 1).2, (d c a hc ha 1).2,
    e b a hb ha, e c a hc ha, exact_lt, exact_eq, abs_exact]
  rfl

theorem getD_val (points : List (Vec (Flt P.fmt) 3)) (i : ℕ) :
    (points.map vval).getD i (fun _ => 0) = vval (points.getD i fun _ => 0) := by
  have e : (fun _ => 0 : Vec ℚ 3) = vval (fun _ => 0 : Vec (Flt P.fmt) 3) := by
    funext j; exact Flt.zero_val.symm
  rw [e, List.getD_map]

theorem getD_grid {points : List (Vec (Flt P.fmt) 3)} (hM : 0 ≤ M) (h : ∀ p ∈ points, GridPt g M p) (i : ℕ) :
    GridPt g M (points.getD i fun _ => 0) := by
  rcases Nat.lt_or_ge i points.length with hi | hi
  · rw [List.getD_eq_getElem _ _ hi]; exact h _ (List.getElem_mem hi)
  · rw [List.getD_eq_default _ _ hi]
    exact fun _ => ((Gr.zero g).mono hM).onGrid

theorem findAnchorIndex_val {points : List (Vec (Flt P.fmt) 3)} (hM : 0 ≤ M) (h : ∀ p ∈ points, GridPt g M p) :
    findAnchorIndex (points.map vval) = findAnchorIndex points := by
  unfold findAnchorIndex
  rw [List.length_map]
  congr 1
  funext anchor i
  have h1 := getD_grid hM h i
  have h2 := getD_grid hM h anchor
  simp only [getD_val, Flt.lt_val (h1 1).1 (h2 1).1, eq_val (h1 1).1 (h2 1).1, Flt.lt_val (h2 0).1 (h1 0).1, exact_lt, exact_eq]
  rfl

theorem findAnchor_val {points : List (Vec (Flt P.fmt) 3)} (hM : 0 ≤ M) (h : ∀ p ∈ points, GridPt g M p) :
    findAnchor (points.map vval) = (findAnchor points).map vval := by
  unfold findAnchor
  simp only [findAnchorIndex_val hM h, getD_val]
  split_ifs
  · rw [List.map_set, List.map_set]
  · rfl

theorem findAnchor_grid {points : List (Vec (Flt P.fmt) 3)} (hM : 0 ≤ M) (h : ∀ p ∈ points, GridPt g M p) :
    ∀ p ∈ findAnchor points, GridPt g M p := by
  intro p hp
  unfold findAnchor at hp
  simp only at hp
  split_ifs at hp
  · rcases List.mem_or_eq_of_mem_set hp with hp | rfl
    · rcases List.mem_or_eq_of_mem_set hp with hp | rfl
      · exact h p hp
      · exact getD_grid hM h _
    · exact getD_grid hM h _
  · exact h p hp

theorem dedupe_subset (a : Vec (Flt P.fmt) 3) : ∀ (l : List (Vec (Flt P.fmt) 3)) (p1 : Vec (Flt P.fmt) 3), ∀ x ∈ dedupe a p1 l, x = p1 ∨ x ∈ l
  | [], p1, x, hx => by simpa [dedupe] using hx
  | p2 :: l, p1, x, hx => by
    unfold dedupe at hx
    split_ifs at hx
    · rcases dedupe_subset a l p1 x hx with h | h
      · exact Or.inl h
      · exact Or.inr (List.mem_cons_of_mem _ h)
    · rcases List.mem_cons.1 hx with h | h
      · exact Or.inl h
      · rcases dedupe_subset a l p2 x h with h | h
        · exact Or.inr (by simp [h])
        · exact Or.inr (List.mem_cons_of_mem _ h)

theorem dedupe_val (hF : Fits P g M) {a : Vec (Flt P.fmt) 3} (ha : GridPt g M a) : ∀ (l : List (Vec (Flt P.fmt) 3)) (p1 : Vec (Flt P.fmt) 3),
    GridPt g M p1 → (∀ p ∈ l, GridPt g M p) → dedupe (vval a) (vval p1) (l.map vval) = (dedupe a p1 l).map vval
  | [], p1, _, _ => rfl
  | p2 :: l, p1, h1, h => by
    have h2 := h p2 (by simp)
    have h3 : ∀ p ∈ l, GridPt g M p := fun p hp => h p (List.mem_cons_of_mem _ hp)
    rw [List.map_cons]
    unfold dedupe
    rw [← isLeft_val hF ha h1 h2]
    split_ifs
    · exact dedupe_val hF ha l p1 h1 h3
    · rw [List.map_cons, dedupe_val hF ha l p2 h2 h3]

theorem popStale_subset (p : Vec (Flt P.fmt) 3) : ∀ (st : List (Vec (Flt P.fmt) 3)), ∀ x ∈ popStalePoints p st, x ∈ st
  | [], x, hx => by simp [popStalePoints] at hx
  | [_], x, hx => by simpa [popStalePoints] using hx
  | t2 :: t1 :: st, x, hx => by
    unfold popStalePoints at hx
    split_ifs at hx
    · exact List.mem_cons_of_mem _ (popStale_subset p (t1 :: st) x hx)
    · exact hx

theorem popStale_val (hF : Fits P g M) {p : Vec (Flt P.fmt) 3} (hp : GridPt g M p) : ∀ (st : List (Vec (Flt P.fmt) 3)),
    (∀ q ∈ st, GridPt g M q) → popStalePoints (vval p) (st.map vval) = (popStalePoints p st).map vval
  | [], _ => rfl
  | [_], _ => rfl
  | t2 :: t1 :: st, h => by
    have h3 : ∀ q ∈ t1 :: st, GridPt g M q := fun q hq => h q (List.mem_cons_of_mem _ hq)
    have ih := popStale_val hF hp (t1 :: st) h3
    rw [List.map_cons, List.map_cons]
    unfold popStalePoints
    rw [← isLeft_val hF (h t1 (by simp)) (h t2 (by simp)) hp]
    split_ifs
    · exact ih
    · rfl

theorem scan_val (hF : Fits P g M) : ∀ (rest st : List (Vec (Flt P.fmt) 3)), (∀ q ∈ rest, GridPt g M q) → (∀ q ∈ st, GridPt g M q) →
    (rest.map vval).foldl (fun stack p => p :: popStalePoints p stack) (st.map vval) =
      (rest.foldl (fun stack p => p :: popStalePoints p stack) st).map vval ∧
    ∀ q ∈ rest.foldl (fun stack p => p :: popStalePoints p stack) st, q ∈ rest ∨ q ∈ st
  | [], st, _, _ => ⟨rfl, fun q hq => Or.inr hq⟩
  | p :: rest, st, h1, h2 => by
    have hp := h1 p (by simp)
    have hst : ∀ q ∈ p :: popStalePoints p st, GridPt g M q := by
      intro q hq
      rcases List.mem_cons.1 hq with rfl | hq
      · exact hp
      · exact h2 q (popStale_subset p st q hq)
    have ih := scan_val hF rest (p :: popStalePoints p st) (fun q hq => h1 q (List.mem_cons_of_mem _ hq)) hst
    rw [List.map_cons, List.foldl_cons, List.foldl_cons]
    constructor
    · rw [popStale_val hF hp st h2, ← List.map_cons]
      exact ih.1
    · intro q hq
      rcases ih.2 q hq with h | h
      · exact Or.inl (List.mem_cons_of_mem _ h)
      · rcases List.mem_cons.1 h with rfl | h
        · exact Or.inl (by simp)
        · exact Or.inr (popStale_subset p st q h)

theorem buildHull_val (hF : Fits P g M) (l : List (Vec (Flt P.fmt) 3)) (h : ∀ q ∈ l, GridPt g M q) :
    buildHull (l.map vval) = (buildHull l).map vval ∧ ∀ q ∈ buildHull l, q ∈ l := by
  match l, h with
  | [], _ => exact ⟨rfl, fun q hq => hq⟩
  | [_], _ => exact ⟨rfl, fun q hq => hq⟩
  | p0 :: p1 :: rest, h =>
    have := scan_val hF rest [p1, p0] (fun q hq => h q (List.mem_cons_of_mem _ (List.mem_cons_of_mem _ hq)))
      (fun q hq => h q (by simp at hq ⊢; tauto))
    constructor
    · show ((rest.map vval).foldl (fun stack p => p :: popStalePoints p stack) ([p1, p0].map vval)).reverse = _
      rw [this.1]
      exact List.map_reverse.symm
    · intro q hq
      have := this.2 q (List.mem_reverse.1 hq)
      simp at this ⊢
      tauto

/-- Every result of sorting in IEEE arithmetic is one of sorting the values. -/
theorem sortPoints_val (hF : Fits P g M) {sort : (Vec (Flt P.fmt) 3 → Vec (Flt P.fmt) 3 → Bool) → List (Vec (Flt P.fmt) 3) → List (Vec (Flt P.fmt) 3)}
    (hsort : StdSort sort) {points : List (Vec (Flt P.fmt) 3)} (h : ∀ p ∈ points, GridPt g M p) :
    ∃ sort' : (Vec ℚ 3 → Vec ℚ 3 → Bool) → List (Vec ℚ 3) → List (Vec ℚ 3), StdSort sort' ∧
      sortPoints sort' (findAnchor (points.map vval)) = (sortPoints sort (findAnchor points)).map vval ∧
      ∀ q ∈ sortPoints sort (findAnchor points), q ∈ findAnchor points := by
  classical
  rw [findAnchor_val hF.pos h]
  have hg := findAnchor_grid hF.pos h
  have hcmp := C73_comparator (points.map vval)
  rw [findAnchor_val hF.pos h] at hcmp
  rcases hl : findAnchor points with _ | ⟨a, tail⟩
  · exact ⟨refSort, refSort_spec, rfl, fun q hq => hq⟩
  rw [hl] at hg hcmp
  have ha := hg a (by simp)
  have ht : ∀ p ∈ tail, GridPt g M p := fun p hp => hg p (List.mem_cons_of_mem _ hp)
  have hsw := hcmp (tail.map vval) (vval a) rfl
  have hl2 : ∀ x ∈ tail, ∀ y ∈ tail, lessThanByAngle a x y = lessThanByAngle (vval a) (vval x) (vval y) :=
    fun x hx y hy => less_val hF ha (ht x hx) (ht y hy)
  have hsw' : StrictWeakOn (lessThanByAngle a) tail := by
    refine ⟨fun x hx => ?_, fun x hx y hy z hz => ?_, fun x hx y hy z hz => ?_⟩
    · rw [hl2 x hx x hx]; exact hsw.irrefl _ (List.mem_map_of_mem hx)
    · rw [hl2 x hx y hy, hl2 y hy z hz, hl2 x hx z hz]
      exact hsw.trans _ (List.mem_map_of_mem hx) _ (List.mem_map_of_mem hy) _ (List.mem_map_of_mem hz)
    · rw [hl2 x hx y hy, hl2 y hy z hz, hl2 x hx z hz, hl2 y hy x hx, hl2 z hz y hy, hl2 z hz x hx]
      exact hsw.equiv_trans _ (List.mem_map_of_mem hx) _ (List.mem_map_of_mem hy) _ (List.mem_map_of_mem hz)
  obtain ⟨hperm, hpw⟩ := hsort _ _ hsw'
  have hmem : ∀ q ∈ sort (lessThanByAngle a) tail, q ∈ tail := fun q hq => hperm.subset hq
  let sort' : (Vec ℚ 3 → Vec ℚ 3 → Bool) → List (Vec ℚ 3) → List (Vec ℚ 3) := fun cmp l =>
    if cmp = lessThanByAngle (vval a) ∧ l = tail.map vval then (sort (lessThanByAngle a) tail).map vval else refSort cmp l
  have hsort' : StdSort sort' := by
    intro lt l hlt
    by_cases hc : lt = lessThanByAngle (vval a) ∧ l = tail.map vval
    · have e : sort' lt l = (sort (lessThanByAngle a) tail).map vval := if_pos hc
      rw [e, hc.1, hc.2]
      refine ⟨hperm.map _, ?_⟩
      rw [List.pairwise_map]
      refine List.Pairwise.imp_of_mem ?_ hpw
      intro x y hx hy hxy
      rw [← hl2 y (hmem y hy) x (hmem x hx)]
      exact hxy
    · have e : sort' lt l = refSort lt l := if_neg hc
      rw [e]
      exact refSort_spec lt l hlt
  have es : sort' (lessThanByAngle (vval a)) (tail.map vval) = (sort (lessThanByAngle a) tail).map vval := if_pos ⟨rfl, rfl⟩
  refine ⟨sort', hsort', ?_, ?_⟩
  · rw [List.map_cons]
    unfold sortPoints
    simp only [es]
    rcases hs : sort (lessThanByAngle a) tail with _ | ⟨p1, t⟩
    · rfl
    · rw [hs] at hmem
      simp only [List.map_cons]
      rw [dedupe_val hF ha t p1 (ht p1 (hmem p1 (by simp))) (fun p hp => ht p (hmem p (List.mem_cons_of_mem _ hp)))]
  · intro q hq
    unfold sortPoints at hq
    simp only at hq
    rcases hs : sort (lessThanByAngle a) tail with _ | ⟨p1, t⟩
    · rw [hs] at hq
      simp at hq
      simp [hq]
    · rw [hs] at hq hmem
      simp only [List.mem_cons] at hq
      rcases hq with rfl | hq
      · simp
      · refine List.mem_cons_of_mem _ (hmem q ?_)
        rcases dedupe_subset a t p1 q hq with rfl | h
        · simp
        · exact List.mem_cons_of_mem _ h

/-- The axis along which is projected, for a third point that is not reported as colinear. -/
theorem axis (hF : Fits P g M) (hbig : P.p + 4 * g < P.qmax) (h12 : 12 * M ^ 2 < 2 ^ P.p) {e : Flt P.fmt} (he : e.isFinite) (he0 : 0 ≤ e.val)
    {p0 p1 third : Vec (Flt P.fmt) 3} (h0 : GridPt g M p0) (h1 : GridPt g M p1) (h3 : GridPt g M third)
    (hcol : isColinear p0 p1 third e = false) (junk : ℕ → Flt P.fmt × ℕ) :
    ∃ k : Fin 3, computeAxis p0 p1 third junk = k ∧
      orient2 (swizzle (vval p0) k) (swizzle (vval p1) k) (swizzle (vval third) k) ≠ 0 := by
  have hc : isColinear (vval p0) (vval p1) (vval third) 0 = false := by
    rw [← Bool.not_eq_true, C21_isColinear]
    intro hc
    have := C115_colinear_reported P g M p0 p1 third e h0 h1 h3 ⟨hF.ok.1, hbig⟩ (by push_cast; linarith) he he0 hc
    rw [hcol] at this
    exact (nomatch this)
  have hd1 := fun i => diff hF (h3 i) (h0 i)
  have hd2 := fun i => diff hF (h1 i) (h0 i)
  have hx := C115_cross P g g (2 * M) (2 * M) (third - p0) (p1 - p0) (fun i => (hd1 i).1) (fun i => (hd2 i).1)
    (by rw [← two_mul]; exact hF.ok) (by have := hF.small; nlinarith)
  have hz : ∀ i, OnGrid (2 * g) (8 * M ^ 2) (cross (third - p0) (p1 - p0) i) := by
    intro i
    obtain ⟨za, ha⟩ := OnGrid.steps (fun i => (hd1 i).1)
    obtain ⟨zb, hb⟩ := OnGrid.steps (fun i => (hd2 i).1)
    have := gr_cross (a := third - p0) (b := p1 - p0) ha hb (by rw [← two_mul]; exact hF.ok) (by have := hF.small; nlinarith) i
    exact ((this.cast (two_mul g).symm).mono (by nlinarith)).onGrid
  have hv : ∀ i, (cross (third - p0) (p1 - p0) i).val = cross (vval third - vval p0) (vval p1 - vval p0) i := by
    intro i
    rw [(hx i).2]
    congr 1
    · funext j; exact (hd1 j).2
    · funext j; exact (hd2 j).2
  obtain ⟨k, hk1, hk2, -⟩ := sortVector_rank (fun l r => Cmp.lt (vm.abs l.1) (vm.abs r.1)) (cross (third - p0) (p1 - p0)) junk
    (fun i => |(cross (third - p0) (p1 - p0) i).val|) (fun i j => by
      rw [Flt.lt_val (abs_val (hz i)).1 (abs_val (hz j)).1, (abs_val (hz i)).2, (abs_val (hz j)).2]) 0 (by norm_num)
  refine ⟨k, ?_, (hull_orient (vval p0) (vval p1) (vval third) le_rfl hc k ?_).2⟩
  · unfold computeAxis findAbsMaxComponent
    rw [hk1]
  · intro j
    rw [Nat.le_zero, Finset.card_eq_zero, Finset.filter_eq_empty_iff] at hk2
    have := not_lt.1 (hk2 (Finset.mem_univ j))
    rwa [hv, hv] at this

theorem foldl_cons_ne {α : Type} (f : α → List α → List α) : ∀ (l st : List α), st ≠ [] → l.foldl (fun stack p => p :: f p stack) st ≠ []
  | [], st, h => h
  | a :: l, st, h => foldl_cons_ne f l (a :: f a st) (by simp)

end FltHull

open FltHull

/-- The shape of the result in IEEE arithmetic. -/
theorem fltHull_cases (hF : Fits P g M) (hbig : P.p + 4 * g < P.qmax) (h12 : 12 * M ^ 2 < 2 ^ P.p)
    {sort : (Vec (Flt P.fmt) 3 → Vec (Flt P.fmt) 3 → Bool) → List (Vec (Flt P.fmt) 3) → List (Vec (Flt P.fmt) 3)} (hsort : StdSort sort)
    {e : Flt P.fmt} (he : e.isFinite) (he0 : 0 ≤ e.val) (junk : ℕ → Flt P.fmt × ℕ) (p0 p1 p2 : Vec (Flt P.fmt) 3) (rest : List (Vec (Flt P.fmt) 3))
    (hg : ∀ p ∈ p0 :: p1 :: p2 :: rest, GridPt g M p) :
    (convexHullPoints sort e junk (p0 :: p1 :: p2 :: rest) = [] ∧ ∀ p ∈ p2 :: rest, isColinear p0 p1 p e = true) ∨
    ∃ third ∈ p2 :: rest, isColinear p0 p1 third e = false ∧ convexHullPoints sort e junk (p0 :: p1 :: p2 :: rest) ≠ [] ∧
      (∀ q ∈ convexHullPoints sort e junk (p0 :: p1 :: p2 :: rest), q ∈ p0 :: p1 :: p2 :: rest) ∧
      ∃ (k : Fin 3) (sort' : (Vec ℚ 3 → Vec ℚ 3 → Bool) → List (Vec ℚ 3) → List (Vec ℚ 3)), StdSort sort' ∧
      orient2 (swizzle (vval p0) k) (swizzle (vval p1) k) (swizzle (vval third) k) ≠ 0 ∧
      (convexHullPoints sort e junk (p0 :: p1 :: p2 :: rest)).map vval =
        (buildHull (sortPoints sort' (findAnchor (((p0 :: p1 :: p2 :: rest).map vval).map fun p => swizzle p k)))).map fun p => unswizzle p k := by
  rcases hf : findLinearlyIndependentPoint e p0 p1 (p2 :: rest) with _ | third
  · left
    constructor
    · simp only [convexHullPoints, hf]
    · unfold findLinearlyIndependentPoint at hf
      rw [List.find?_eq_none] at hf
      intro p hp
      simpa using hf p hp
  right
  have hmem := List.mem_of_find?_eq_some hf
  have hcol : isColinear p0 p1 third e = false := by simpa using List.find?_some hf
  obtain ⟨k, hk, hor⟩ := axis hF hbig h12 he he0 (hg p0 (by simp)) (hg p1 (by simp))
    (hg third (List.mem_cons_of_mem _ (List.mem_cons_of_mem _ hmem))) hcol junk
  generalize hpts : p0 :: p1 :: p2 :: rest = points at *
  have hsw : ∀ p ∈ points.map fun p => swizzle p k, GridPt g M p := by
    intro p hp
    obtain ⟨q, hq, rfl⟩ := List.mem_map.1 hp
    exact swizzle_grid (hg q hq) k
  obtain ⟨sort', hsort', es, hsub⟩ := sortPoints_val hF hsort hsw
  have emap : (points.map fun p => swizzle p k).map vval = (points.map vval).map fun p => swizzle p k := by
    rw [List.map_map, List.map_map]
    exact List.map_congr_left fun p _ => swizzle_val p k
  rw [emap] at es
  have hfg := findAnchor_grid hF.pos hsw
  have hsg : ∀ q ∈ sortPoints sort (findAnchor (points.map fun p => swizzle p k)), GridPt g M q := fun q hq => hfg q (hsub q hq)
  obtain ⟨eb, hbsub⟩ := buildHull_val hF _ hsg
  have m0 : vval p0 ∈ points.map vval := List.mem_map_of_mem (by rw [← hpts]; simp)
  have m1 : vval p1 ∈ points.map vval := List.mem_map_of_mem (by rw [← hpts]; simp)
  have m3 : vval third ∈ points.map vval :=
    List.mem_map_of_mem (by rw [← hpts]; exact List.mem_cons_of_mem _ (List.mem_cons_of_mem _ hmem))
  obtain ⟨a, q1, q2, r, e', -⟩ := Hull.sortPoints_spec hsort' ((points.map vval).map fun p => swizzle p k)
    (swizzle (vval p0) k) (swizzle (vval p1) k) (swizzle (vval third) k) (List.mem_map_of_mem m0) (List.mem_map_of_mem m1)
    (List.mem_map_of_mem m3) hor
  have hlen : 3 ≤ (sortPoints sort (findAnchor (points.map fun p => swizzle p k))).length := by
    rw [← List.length_map (f := vval), ← es, e']; simp
  have heq : convexHullPoints sort e junk points =
      (buildHull (sortPoints sort (findAnchor (points.map fun p => swizzle p k)))).map fun p => unswizzle p k := by
    rw [← hpts] at hlen ⊢
    simp only [convexHullPoints, hf, hk]
    rw [if_neg (by omega)]
  have hmapeq : (convexHullPoints sort e junk points).map vval =
      (buildHull (sortPoints sort' (findAnchor ((points.map vval).map fun p => swizzle p k)))).map fun p => unswizzle p k := by
    rw [heq, es, eb, List.map_map, List.map_map]
    exact List.map_congr_left fun p _ => unswizzle_val p k
  have hanchor : ∀ q ∈ findAnchor (points.map fun p => swizzle p k), q ∈ points.map fun p => swizzle p k := by
    intro q hq
    have hq' : vval q ∈ findAnchor ((points.map fun p => swizzle p k).map vval) := by
      rw [findAnchor_val hF.pos hsw]; exact List.mem_map_of_mem hq
    obtain ⟨a, t, ea, hperm, -⟩ := Hull.findAnchor_spec ((points.map fun p => swizzle p k).map vval) (by rw [← hpts]; simp)
    rw [ea] at hq'
    obtain ⟨x, hx, hxq⟩ := List.mem_map.1 (hperm.subset hq')
    have : x = q := by
      funext i
      exact Flt.ext (hsw x hx i).1 (hfg q hq i).1 (congrFun hxq i)
    rw [← this]; exact hx
  refine ⟨third, hmem, hcol, ?_, ?_, k, sort', hsort', hor, hmapeq⟩
  · intro h0
    rw [heq] at h0
    have := List.map_eq_nil_iff.1 h0
    have h2 : buildHull (sortPoints sort' (findAnchor ((points.map vval).map fun p => swizzle p k))) = [] := by
      rw [es, eb, this]; rfl
    rw [e', buildHull, List.reverse_eq_nil_iff] at h2
    exact foldl_cons_ne (fun p st => popStalePoints p st) _ _ (by simp) h2
  · intro q hq
    rw [heq] at hq
    obtain ⟨x, hx, rfl⟩ := List.mem_map.1 hq
    obtain ⟨y, hy, rfl⟩ := List.mem_map.1 (hanchor x (hsub x (hbsub x hx)))
    have : unswizzle (swizzle y k) k = y := (C18_inverse y k).1
    rw [this]; exact hy

/-- In IEEE arithmetic the hull of points on a grid of a common plane, if it is not empty, is a hull of their exact coordinates: see `C73_hull`. -/
theorem C116_hull (P : BinPar) (g M : ℤ) (hg : P.qmin ≤ 2 * g ∧ P.p + 4 * g < P.qmax) (hM : 12 * M ^ 2 < 2 ^ P.p)
    {sort : (Vec (Flt P.fmt) 3 → Vec (Flt P.fmt) 3 → Bool) → List (Vec (Flt P.fmt) 3) → List (Vec (Flt P.fmt) 3)} (hsort : StdSort sort)
    (e : Flt P.fmt) (he : e.isFinite) (he0 : 0 ≤ e.val) (junk : ℕ → Flt P.fmt × ℕ) (points : List (Vec (Flt P.fmt) 3))
    (hpts : ∀ p ∈ points, ∀ i, OnGrid g M (p i)) (m : Vec ℚ 3) (d : ℚ) (hm : m ≠ 0) (hplane : ∀ p ∈ points, ∑ i, (p i).val * m i = d)
    (hne : convexHullPoints sort e junk points ≠ []) (h : List (Vec ℚ 3))
    (hh : h = (convexHullPoints sort e junk points).map fun p i => (p i).val) :
    (∀ q ∈ convexHullPoints sort e junk points, q ∈ points) ∧
    3 ≤ h.length ∧ h.Nodup ∧
    (∃ n : Vec ℚ 3, (n = m ∨ n = -m) ∧
      (∀ i j k (_ : i < j) (_ : j < k) (_ : k < h.length), (0:ℚ) ≤ dot (cross (h[j] - h[i]) (h[k] - h[i])) n) ∧
      (∀ j k (_ : 0 < j) (_ : j < k) (_ : k < h.length), (0:ℚ) < dot (cross (h[j] - h[0]) (h[k] - h[0])) n) ∧
      ∀ i (hi : i < h.length), ∀ p ∈ points,
        0 ≤ dot (cross (h[(i + 1) % h.length]'(Nat.mod_lt _ (by omega)) - h[i]) ((fun j => (p j).val) - h[i])) n) ∧
    convexHull ℚ {p : Fin 3 → ℚ | p ∈ h} = convexHull ℚ {p : Fin 3 → ℚ | ∃ q ∈ points, p = fun j => (q j).val} := by
  rcases points with _ | ⟨p0, _ | ⟨p1, _ | ⟨p2, rest⟩⟩⟩
  · exact absurd rfl hne
  · exact absurd rfl hne
  · exact absurd rfl hne
  have hM0 : 0 ≤ M := by
    obtain ⟨-, z, -, hz⟩ := hpts p0 (by simp) 0
    exact (abs_nonneg _).trans hz
  have hp := P.hp
  have hmax := P.hmax
  have hF : Fits P g M := ⟨⟨hg.1, by omega⟩, hM0, by nlinarith [sq_nonneg M]⟩
  rcases fltHull_cases hF hg.2 hM hsort he he0 junk p0 p1 p2 rest hpts with ⟨h1, -⟩ | ⟨third, hmem, -, -, hsub, k, sort', hsort', hor, heq⟩
  · exact absurd h1 hne
  generalize hpp : p0 :: p1 :: p2 :: rest = points at *
  have hC := hull_core hsort' (points.map vval) m d hm (fun p hp => by
    obtain ⟨q, hq, rfl⟩ := List.mem_map.1 hp
    rw [dot_eq_sum]; exact hplane q hq) k (vval p0) (vval p1) (vval third) (List.mem_map_of_mem (by rw [← hpp]; simp))
    (List.mem_map_of_mem (by rw [← hpp]; simp))
    (List.mem_map_of_mem (by rw [← hpp]; exact List.mem_cons_of_mem _ (List.mem_cons_of_mem _ hmem))) hor h (hh.trans heq)
  obtain ⟨c1, c2, -, ⟨n, hn, c3, c4, c5⟩, c6⟩ := hC
  refine ⟨hsub, c1, c2, ⟨n, hn, c3, c4, fun i hi p hp => c5 i hi (vval p) (List.mem_map_of_mem hp)⟩, ?_⟩
  rw [c6]
  congr 1
  ext p
  simp only [Set.mem_ofPred_eq, List.mem_map]
  exact ⟨fun ⟨q, hq, e⟩ => ⟨q, hq, e.symm⟩, fun ⟨q, hq, e⟩ => ⟨q, hq, e.symm⟩⟩

/-- When the hull of points on a grid is empty in IEEE arithmetic: as in exact arithmetic (`C73_empty`), for a smaller grid. -/
theorem C116_empty (P : BinPar) (g M : ℤ) (hg : P.qmin ≤ 4 * g ∧ P.p + 4 * g < P.qmax) (hM : 288 * M ^ 4 < 2 ^ P.p)
    {sort : (Vec (Flt P.fmt) 3 → Vec (Flt P.fmt) 3 → Bool) → List (Vec (Flt P.fmt) 3) → List (Vec (Flt P.fmt) 3)} (hsort : StdSort sort)
    (e : Flt P.fmt) (he : e.isFinite) (he0 : 0 ≤ e.val) (junk : ℕ → Flt P.fmt × ℕ) (points : List (Vec (Flt P.fmt) 3))
    (hpts : ∀ p ∈ points, ∀ i, OnGrid g M (p i)) :
    convexHullPoints sort e junk points = [] ↔ points.length < 3 ∨
      ∃ p0 p1 rest, points.map (fun p i => (p i).val) = p0 :: p1 :: rest ∧
        ∀ p ∈ rest, squaredLength (cross (p1 - p0) (p - p0)) ≤ e.val := by
  rcases points with _ | ⟨p0, _ | ⟨p1, _ | ⟨p2, rest⟩⟩⟩
  · simp [convexHullPoints]
  · simp [convexHullPoints]
  · simp [convexHullPoints]
  have hl : ¬ (p0 :: p1 :: p2 :: rest).length < 3 := by simp
  simp only [hl, false_or]
  have hM0 : 0 ≤ M := by
    obtain ⟨-, z, -, hz⟩ := hpts p0 (by simp) 0
    exact (abs_nonneg _).trans hz
  have hp := P.hp
  have hmax := P.hmax
  have hmin := P.hmin
  have h12 : 12 * M ^ 2 < 2 ^ P.p := by
    have h8 : (2 : ℤ) ^ 3 ≤ 2 ^ P.p := pow_le_pow_right₀ (by norm_num) (by omega)
    rcases hM0.eq_or_lt with h | h
    · rw [← h]; norm_num
    · have : 1 ≤ M ^ 2 := by nlinarith
      nlinarith
  have hF : Fits P g M := ⟨⟨by omega, by omega⟩, hM0, by nlinarith [sq_nonneg M]⟩
  have hcol : ∀ p ∈ p2 :: rest, (isColinear p0 p1 p e = true ↔ squaredLength (cross (vval p1 - vval p0) (vval p - vval p0)) ≤ e.val) := by
    intro p hp
    rw [C115_colinear P g M p0 p1 p e (hpts p0 (by simp)) (hpts p1 (by simp)) (hpts p (List.mem_cons_of_mem _ (List.mem_cons_of_mem _ hp)))
      ⟨hg.1, by omega⟩ (by push_cast; linarith) he he0]
    exact isColinear_cross (vval p0) (vval p1) (vval p) he0
  rcases fltHull_cases hF hg.2 h12 hsort he he0 junk p0 p1 p2 rest hpts with ⟨h1, h2⟩ | ⟨third, hmem, hc, hne, -⟩
  · refine ⟨fun _ => ⟨vval p0, vval p1, (p2 :: rest).map vval, rfl, fun p hp => ?_⟩, fun _ => h1⟩
    obtain ⟨q, hq, rfl⟩ := List.mem_map.1 hp
    exact (hcol q hq).1 (h2 q hq)
  · refine ⟨fun h => absurd h hne, fun ⟨q0, q1, r, hq, hall⟩ => ?_⟩
    change vval p0 :: vval p1 :: (p2 :: rest).map vval = q0 :: q1 :: r at hq
    cases hq
    rw [(hcol third hmem).2 (hall _ (List.mem_map_of_mem hmem))] at hc
    exact (nomatch hc)

/-- For larger grids the hull of three points that are not on a line may be empty, whatever the tolerance. -/
theorem C116_empty_fails : ∃ points : List (Vec (Flt binary64.fmt) 3), points.length = 3 ∧ (∀ p ∈ points, ∀ i, OnGrid 0 17711 (p i)) ∧
    ¬ Collinear ℚ {p : Fin 3 → ℚ | ∃ q ∈ points, p = fun i => (q i).val} ∧
    ∀ (sort : (Vec (Flt binary64.fmt) 3 → Vec (Flt binary64.fmt) 3 → Bool) → List (Vec (Flt binary64.fmt) 3) → List (Vec (Flt binary64.fmt) 3))
      (e : Flt binary64.fmt) (junk : ℕ → Flt binary64.fmt × ℕ), e.isFinite → 0 ≤ e.val → convexHullPoints sort e junk points = [] := by
  obtain ⟨a, b, c, hg, hn, hc⟩ := C115_colinear_fails
  refine ⟨[a, b, c], rfl, ?_, ?_, ?_⟩
  · intro p hp i
    simp only [List.mem_cons, List.not_mem_nil, or_false] at hp
    rcases hp with rfl | rfl | rfl
    exacts [(hg i).1, (hg i).2.1, (hg i).2.2]
  · intro h
    apply hn
    convert h using 1
    ext p
    simp
  · intro sort e junk he he0
    have : findLinearlyIndependentPoint e a b [c] = none := by
      unfold findLinearlyIndependentPoint
      rw [List.find?_eq_none]
      intro p hp
      rw [List.mem_singleton.1 hp]
      simp [hc e he he0]
    simp only [convexHullPoints, this]

/-- The hypotheses of `C116_hull` and `C116_empty` in doubles: a tilted square with its midpoint, with integer coordinates. -/
example : ∃ points : List (Vec (Flt binary64.fmt) 3), points.length = 5 ∧ (∀ p ∈ points, ∀ i, OnGrid 0 2 (p i)) ∧
    (∀ p ∈ points, ∑ i, (p i).val * (![1, 0, -1] : Vec ℚ 3) i = 0) ∧
    convexHullPoints refSort (0 : Flt binary64.fmt) (fun i => (0, i)) points ≠ [] := by
  have hi : ∀ z : Fin 3 → ℤ, (∀ i, |z i| ≤ 2) → ∀ i, Gr 0 ((intVec binary64 z : Vec (Flt binary64.fmt) 3) i) (z i) 2 :=
    fun z h => gr_int z h (by norm_num [binary64])
  have h1 := hi ![0, 0, 0] (by decide)
  have h2 := hi ![2, 0, 2] (by decide)
  have h3 := hi ![1, 1, 1] (by decide)
  have h4 := hi ![2, 2, 2] (by decide)
  have h5 := hi ![0, 2, 0] (by decide)
  have hall : ∀ p ∈ ([intVec binary64 ![0, 0, 0], intVec binary64 ![2, 0, 2], intVec binary64 ![1, 1, 1], intVec binary64 ![2, 2, 2], intVec binary64 ![0, 2, 0]] :
      List (Vec (Flt binary64.fmt) 3)), ∀ i, OnGrid 0 2 (p i) := by
    intro p hp
    simp only [List.mem_cons, List.not_mem_nil, or_false] at hp
    rcases hp with rfl | rfl | rfl | rfl | rfl
    exacts [fun i => (h1 i).onGrid, fun i => (h2 i).onGrid, fun i => (h3 i).onGrid, fun i => (h4 i).onGrid, fun i => (h5 i).onGrid]
  refine ⟨_, rfl, hall, ?_, ?_⟩
  · intro p hp
    simp only [List.mem_cons, List.not_mem_nil, or_false] at hp
    rcases hp with rfl | rfl | rfl | rfl | rfl <;>
      simp only [(h1 _).val, (h2 _).val, (h3 _).val, (h4 _).val, (h5 _).val] <;> norm_num [Fin.sum_univ_succ]
  · intro h
    rw [C116_empty binary64 0 2 (by norm_num [binary64]) (by norm_num [binary64]) refSort_spec 0 (by trivial) le_rfl _ _ hall] at h
    rcases h with h | ⟨p0, p1, rest, h, hr⟩
    · exact absurd h (by simp)
    · simp only [List.map_cons, List.map_nil, (h1 _).val, (h2 _).val, (h3 _).val, (h4 _).val, (h5 _).val] at h
      cases h
      have h0 : ¬ squaredLength (cross ((fun i => ((![2, 0, 2] : Fin 3 → ℤ) i : ℚ) * 2 ^ (0 : ℤ)) - fun i => ((![0, 0, 0] : Fin 3 → ℤ) i : ℚ) * 2 ^ (0 : ℤ))
          ((fun i => ((![0, 2, 0] : Fin 3 → ℤ) i : ℚ) * 2 ^ (0 : ℤ)) - fun i => ((![0, 0, 0] : Fin 3 → ℤ) i : ℚ) * 2 ^ (0 : ℤ))) ≤ 0 := by
        decide +kernel
      exact h0 (hr _ (by simp))

end vm
