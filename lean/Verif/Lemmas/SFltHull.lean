import Verif.Lemmas.SFlt
import Verif.Model.ConvexHull

set_option linter.unusedSectionVars false
set_option linter.unusedSimpArgs false

/-! Sorting and the convex hull commute with maps that preserve comparisons and arithmetic. -/

namespace vm

namespace SFltHull

theorem iterSwap_map {α β : Type*} (f : α → β) (a : ℕ → α) (i j : ℕ) : (fun k => f (iterSwap a i j k)) = iterSwap (fun k => f (a k)) i j := by
  funext k
  unfold iterSwap
  split
  · rfl
  · split <;> rfl

theorem partLoop_map {α β : Type*} (f : α → β) (c : α → α → Bool) (d : β → β → Bool) (h : ∀ x y, d (f x) (f y) = c x y) (left : ℕ) :
    ∀ (n i mid : ℕ) (a : ℕ → α), partLoop d left n i mid (fun k => f (a k)) =
      ((partLoop c left n i mid a).1, fun k => f ((partLoop c left n i mid a).2 k)) := by
  intro n
  induction n with
  | zero => intro i mid a; rfl
  | succ n ih =>
    intro i mid a
    unfold partLoop
    rw [h]
    cases c (a i) (a left)
    · exact ih _ _ _
    · show partLoop d left n (i + 1) (mid + 1) (iterSwap (fun k => f (a k)) (mid + 1) i) = _
      rw [← iterSwap_map]
      exact ih _ _ _

theorem sort_map {α β : Type*} (f : α → β) (c : α → α → Bool) (d : β → β → Bool) (h : ∀ x y, d (f x) (f y) = c x y) :
    ∀ (n left right : ℕ) (a : ℕ → α), right - left ≤ n → sort d left right (fun k => f (a k)) = fun k => f (sort c left right a k) := by
  intro n
  induction n with
  | zero =>
    intro left right a hn
    have e1 : sort d left right (fun k => f (a k)) = fun k => f (a k) := by rw [sort, dif_neg (by omega)]
    have e2 : sort c left right a = a := by rw [sort, dif_neg (by omega)]
    rw [e1, e2]
  | succ n ih =>
    intro left right a hn
    by_cases hlr : left < right
    · have hp := partLoop_mid c left (right - (left + 1)) (left + 1) left a
      have e1 : sort d left right (fun k => f (a k)) =
          sort d ((partLoop d left (right - (left + 1)) (left + 1) left fun k => f (a k)).1 + 1) right
            (sort d left (partLoop d left (right - (left + 1)) (left + 1) left fun k => f (a k)).1
              (iterSwap (partLoop d left (right - (left + 1)) (left + 1) left fun k => f (a k)).2 left
                (partLoop d left (right - (left + 1)) (left + 1) left fun k => f (a k)).1)) := by
        conv_lhs => rw [sort, dif_pos hlr]
      have e2 : sort c left right a =
          sort c ((partLoop c left (right - (left + 1)) (left + 1) left a).1 + 1) right
            (sort c left (partLoop c left (right - (left + 1)) (left + 1) left a).1
              (iterSwap (partLoop c left (right - (left + 1)) (left + 1) left a).2 left
                (partLoop c left (right - (left + 1)) (left + 1) left a).1)) := by
        conv_lhs => rw [sort, dif_pos hlr]
      rw [e1, e2, partLoop_map f c d h]
      dsimp only
      rw [← iterSwap_map, ih _ _ _ (by omega), ih _ _ _ (by omega)]
    · have e1 : sort d left right (fun k => f (a k)) = fun k => f (a k) := by rw [sort, dif_neg hlr]
      have e2 : sort c left right a = a := by rw [sort, dif_neg hlr]
      rw [e1, e2]

variable {A B : Type} [Cmp A] [Zero A] [One A] [Neg A] [Add A] [Sub A] [Mul A] [Div A]
    [Cmp B] [Zero B] [One B] [Neg B] [Add B] [Sub B] [Mul B] [Div B] {φ : A → B} {S : ℕ}

/-- The elements and indices after sorting. -/
theorem sortVector_map (c : A × ℕ → A × ℕ → Bool) (d : B × ℕ → B × ℕ → Bool) (h : ∀ x y, d (φ x.1, x.2) (φ y.1, y.2) = c x y) (v : Vec A S)
    (junk : ℕ → A × ℕ) (i : ℕ) : sortVector d (vmap φ v) (fun k => (φ (junk k).1, (junk k).2)) i =
      (φ (sortVector c v junk i).1, (sortVector c v junk i).2) := by
  unfold sortVector
  have := sort_map (fun x : A × ℕ => (φ x.1, x.2)) c d h S 0 S (fun i => if h : i < S then (v ⟨i, h⟩, i) else junk i) (by omega)
  have e : (fun i => if h : i < S then (vmap φ v ⟨i, h⟩, i) else (φ (junk i).1, (junk i).2)) =
      fun k => (fun x : A × ℕ => (φ x.1, x.2)) ((fun i => if h : i < S then (v ⟨i, h⟩, i) else junk i) k) := by
    funext k
    dsimp only
    split <;> rfl
  rw [e, this]

theorem findMaxComponent (h : Hom φ) (v : Vec A S) (k : ℕ) (junk : ℕ → A × ℕ) :
    vm.findMaxComponent (vmap φ v) k (fun k => (φ (junk k).1, (junk k).2)) = vm.findMaxComponent v k junk := by
  unfold vm.findMaxComponent
  rw [sortVector_map _ _ (fun x y => h.lt x.1 y.1)]

theorem findAbsMaxComponent (h : Hom φ) (v : Vec A S) (k : ℕ) (junk : ℕ → A × ℕ) :
    vm.findAbsMaxComponent (vmap φ v) k (fun k => (φ (junk k).1, (junk k).2)) = vm.findAbsMaxComponent v k junk := by
  unfold vm.findAbsMaxComponent
  rw [sortVector_map (fun l r => Cmp.lt (vm.abs l.1) (vm.abs r.1)) _ (fun x y => by rw [← h.abs, ← h.abs, h.lt])]

theorem isLeft (h : Hom φ) (a b c : Vec A 3) : vm.isLeft (vmap φ a) (vmap φ b) (vmap φ c) = vm.isLeft a b c := by
  unfold vm.isLeft vmap
  dsimp only
  simp only [← h.sub, ← h.mul, h.lt0, h.lt0']

theorem lessThanByAngle (h : Hom φ) (a b c : Vec A 3) : vm.lessThanByAngle (vmap φ a) (vmap φ b) (vmap φ c) = vm.lessThanByAngle a b c := by
  unfold vm.lessThanByAngle
  rw [isLeft h]
  unfold vmap
  simp only [← h.sub, ← h.abs, h.lt, h.eq]

theorem getD_map (h : Hom φ) (l : List (Vec A 3)) (i : ℕ) : (l.map (vmap φ)).getD i (fun _ => 0) = vmap φ (l.getD i fun _ => 0) := by
  have e : (fun _ => 0 : Vec B 3) = vmap φ (fun _ => 0 : Vec A 3) := funext fun _ => h.zero.symm
  rw [e, List.getD_eq_getElem?_getD, List.getD_eq_getElem?_getD, List.getElem?_map]
  cases l[i]? <;> rfl

theorem findAnchorIndex (h : Hom φ) (l : List (Vec A 3)) : vm.findAnchorIndex (l.map (vmap φ)) = vm.findAnchorIndex l := by
  unfold vm.findAnchorIndex
  rw [List.length_map]
  congr 1
  funext anchor i
  simp only [getD_map h]
  unfold vmap
  simp only [h.lt, h.eq]

theorem findAnchor (h : Hom φ) (l : List (Vec A 3)) : vm.findAnchor (l.map (vmap φ)) = (vm.findAnchor l).map (vmap φ) := by
  unfold vm.findAnchor
  simp only [findAnchorIndex h, getD_map h]
  split
  · rw [List.map_set, List.map_set]
  · rfl

theorem dedupe (h : Hom φ) (a : Vec A 3) (l : List (Vec A 3)) :
    ∀ p, vm.dedupe (vmap φ a) (vmap φ p) (l.map (vmap φ)) = (vm.dedupe a p l).map (vmap φ) := by
  induction l with
  | nil => intro p; rfl
  | cons q l ih =>
    intro p
    rw [List.map_cons, vm.dedupe, vm.dedupe, isLeft h]
    split
    · exact ih p
    · rw [ih q, List.map_cons]

theorem sortPoints (h : Hom φ) (sA : (Vec A 3 → Vec A 3 → Bool) → List (Vec A 3) → List (Vec A 3))
    (sB : (Vec B 3 → Vec B 3 → Bool) → List (Vec B 3) → List (Vec B 3))
    (hs : ∀ c l, sB c (l.map (vmap φ)) = (sA (fun x y => c (vmap φ x) (vmap φ y)) l).map (vmap φ)) (l : List (Vec A 3)) :
    vm.sortPoints sB (l.map (vmap φ)) = (vm.sortPoints sA l).map (vmap φ) := by
  rcases l with _ | ⟨a, l⟩
  · rfl
  · rw [List.map_cons]
    unfold vm.sortPoints
    dsimp only
    rw [hs]
    have e : (fun x y => vm.lessThanByAngle (vmap φ a) (vmap φ x) (vmap φ y)) = vm.lessThanByAngle a := by
      funext x y; exact lessThanByAngle h a x y
    rw [e]
    cases sA (vm.lessThanByAngle a) l with
    | nil => rfl
    | cons p t => simp only [List.map_cons, dedupe h]

theorem popStalePoints (h : Hom φ) (p : Vec A 3) (n : ℕ) :
    ∀ l : List (Vec A 3), l.length ≤ n → vm.popStalePoints (vmap φ p) (l.map (vmap φ)) = (vm.popStalePoints p l).map (vmap φ) := by
  induction n with
  | zero =>
    intro l hl
    rw [List.eq_nil_of_length_eq_zero (Nat.le_zero.1 hl)]
    simp [vm.popStalePoints]
  | succ n ih =>
    intro l hl
    rcases l with _ | ⟨a, _ | ⟨b, l⟩⟩
    · simp [vm.popStalePoints]
    · simp [vm.popStalePoints]
    · rw [List.map_cons, List.map_cons, vm.popStalePoints, vm.popStalePoints, isLeft h]
      split
      · exact ih (b :: l) (by simp only [List.length_cons] at hl ⊢; omega)
      · rfl

theorem foldl_pop (h : Hom φ) (l : List (Vec A 3)) : ∀ st : List (Vec A 3),
    (l.map (vmap φ)).foldl (fun stack p => p :: vm.popStalePoints p stack) (st.map (vmap φ)) =
      (l.foldl (fun stack p => p :: vm.popStalePoints p stack) st).map (vmap φ) := by
  induction l with
  | nil => intro st; rfl
  | cons p l ih =>
    intro st
    rw [List.map_cons, List.foldl_cons, List.foldl_cons, popStalePoints h p _ st le_rfl, ← List.map_cons, ih]

theorem buildHull (h : Hom φ) (l : List (Vec A 3)) : vm.buildHull (l.map (vmap φ)) = (vm.buildHull l).map (vmap φ) := by
  rcases l with _ | ⟨a, _ | ⟨b, l⟩⟩
  · rfl
  · rfl
  · show ((l.map (vmap φ)).foldl _ (([b, a] : List (Vec A 3)).map (vmap φ))).reverse = _
    rw [foldl_pop h, ← List.map_reverse]
    rfl

theorem swizzle_map (v : Vec A 3) (axis : ℕ) : vmap φ (swizzle v axis) = swizzle (vmap φ v) axis := by
  unfold swizzle
  split
  · funext i; fin_cases i <;> rfl
  · funext i; fin_cases i <;> rfl
  · rfl

theorem unswizzle_map (v : Vec A 3) (axis : ℕ) : vmap φ (unswizzle v axis) = unswizzle (vmap φ v) axis := by
  unfold unswizzle
  split
  · funext i; fin_cases i <;> rfl
  · funext i; fin_cases i <;> rfl
  · rfl

theorem findIndependent (h : Hom φ) (e : A) (a b : Vec A 3) (l : List (Vec A 3)) :
    findLinearlyIndependentPoint (φ e) (vmap φ a) (vmap φ b) (l.map (vmap φ)) = (findLinearlyIndependentPoint e a b l).map (vmap φ) := by
  unfold findLinearlyIndependentPoint
  induction l with
  | nil => rfl
  | cons p l ih =>
    rw [List.map_cons, List.find?_cons, List.find?_cons, h.isColinear]
    cases vm.isColinear a b p e
    · rfl
    · exact ih

theorem convexHullPoints (h : Hom φ) (sA : (Vec A 3 → Vec A 3 → Bool) → List (Vec A 3) → List (Vec A 3))
    (sB : (Vec B 3 → Vec B 3 → Bool) → List (Vec B 3) → List (Vec B 3))
    (hs : ∀ c l, sB c (l.map (vmap φ)) = (sA (fun x y => c (vmap φ x) (vmap φ y)) l).map (vmap φ)) (e : A) (junk : ℕ → A × ℕ)
    (l : List (Vec A 3)) : vm.convexHullPoints sB (φ e) (fun k => (φ (junk k).1, (junk k).2)) (l.map (vmap φ)) =
      (vm.convexHullPoints sA e junk l).map (vmap φ) := by
  rcases l with _ | ⟨a, _ | ⟨b, _ | ⟨c, l⟩⟩⟩
  · rfl
  · rfl
  · rfl
  · simp only [List.map_cons, vm.convexHullPoints]
    rw [← List.map_cons, findIndependent h]
    cases findLinearlyIndependentPoint e a b (c :: l) with
    | none => rfl
    | some t =>
      simp only [Option.map_some]
      have ax : computeAxis (vmap φ a) (vmap φ b) (vmap φ t) (fun k => (φ (junk k).1, (junk k).2)) = computeAxis a b t junk := by
        unfold computeAxis
        rw [← h.vsub, ← h.vsub, ← h.cross, findAbsMaxComponent h]
      rw [ax]
      generalize computeAxis a b t junk = ax
      have sw : (swizzle (vmap φ a) ax :: swizzle (vmap φ b) ax :: swizzle (vmap φ c) ax :: (List.map (vmap φ) l).map fun p => swizzle p ax) =
          List.map (vmap φ) (swizzle a ax :: swizzle b ax :: swizzle c ax :: l.map fun p => swizzle p ax) := by
        simp only [List.map_cons, List.map_map, swizzle_map]
        congr 3
        apply List.map_congr_left
        intro x _
        exact (swizzle_map x ax).symm
      rw [sw, findAnchor h, sortPoints h sA sB hs, List.length_map]
      split
      · rfl
      · rw [buildHull h, List.map_map, List.map_map]
        apply List.map_congr_left
        intro x _
        exact (unswizzle_map x ax).symm

end SFltHull
end vm
