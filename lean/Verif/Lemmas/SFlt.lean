import Verif.Model.SFlt
import Verif.Model.ConvexHull
import Verif.Model.Distance
import Verif.Model.Quat
import Verif.Lemmas.FltLup

set_option linter.unusedSectionVars false
set_option linter.unusedSimpArgs false

/-!
# Maps between component types that respect the operations

The functions of the model are defined for every component type.  If a map between two types respects the operations then it respects the
functions, as long as nothing is divided by zero.
-/

universe u v

namespace vm

/-- A map that respects the operations, except division by zero. -/
structure Hom {A : Type u} {B : Type v} [Cmp A] [Zero A] [One A] [Neg A] [Add A] [Sub A] [Mul A] [Div A]
    [Cmp B] [Zero B] [One B] [Neg B] [Add B] [Sub B] [Mul B] [Div B] (φ : A → B) : Prop where
  zero : φ 0 = 0
  one : φ 1 = 1
  neg : ∀ a, φ (-a) = -φ a
  add : ∀ a b, φ (a + b) = φ a + φ b
  sub : ∀ a b, φ (a - b) = φ a - φ b
  mul : ∀ a b, φ (a * b) = φ a * φ b
  div : ∀ a b, Cmp.eq b 0 = false → φ (a / b) = φ a / φ b
  lt : ∀ a b, Cmp.lt (φ a) (φ b) = Cmp.lt a b
  le : ∀ a b, Cmp.le (φ a) (φ b) = Cmp.le a b
  eq : ∀ a b, Cmp.eq (φ a) (φ b) = Cmp.eq a b

/-- A vector with the map applied to its components. -/
def vmap {A : Type u} {B : Type v} {S : ℕ} (φ : A → B) (v : Vec A S) : Vec B S := fun i => φ (v i)

/-- A matrix with the map applied to its components. -/
def mmap {A : Type u} {B : Type v} {R C : ℕ} (φ : A → B) (m : Mat A R C) : Mat B R C := fun c r => φ (m c r)

/-- A box with the map applied to its components. -/
def bmap {A : Type u} {B : Type v} {S : ℕ} (φ : A → B) (b : BBox A S) : BBox B S := ⟨vmap φ b.min, vmap φ b.max⟩

/-- A ray with the map applied to its components. -/
def rmap {A : Type u} {B : Type v} {S : ℕ} (φ : A → B) (r : Ray A S) : Ray B S := ⟨vmap φ r.origin, vmap φ r.direction⟩

/-- A line with the map applied to its components. -/
def lmap {A : Type u} {B : Type v} {S : ℕ} (φ : A → B) (l : Line A S) : Line B S := ⟨vmap φ l.point, vmap φ l.direction⟩

/-- A plane with the map applied to its components. -/
def pmap {A : Type u} {B : Type v} {S : ℕ} (φ : A → B) (p : Plane A S) : Plane B S := ⟨φ p.distance, vmap φ p.normal⟩

/-- A quaternion with the map applied to its components. -/
def qmap {A : Type u} {B : Type v} (φ : A → B) (q : Quat A) : Quat B := ⟨φ q.r, vmap φ q.v⟩

namespace Hom
variable {A : Type u} {B : Type v} [Cmp A] [Zero A] [One A] [Neg A] [Add A] [Sub A] [Mul A] [Div A]
    [Cmp B] [Zero B] [One B] [Neg B] [Add B] [Sub B] [Mul B] [Div B] {φ : A → B} {S : ℕ}

/-! ### Scalars -/

theorem lt0 (h : Hom φ) (a : A) : Cmp.lt (φ a) 0 = Cmp.lt a 0 := by rw [← h.zero, h.lt]
theorem lt0' (h : Hom φ) (a : A) : Cmp.lt 0 (φ a) = Cmp.lt 0 a := by rw [← h.zero, h.lt]
theorem eq0 (h : Hom φ) (a : A) : Cmp.eq (φ a) 0 = Cmp.eq a 0 := by rw [← h.zero, h.eq]

theorem abs (h : Hom φ) (a : A) : φ (vm.abs a) = vm.abs (φ a) := by
  unfold vm.abs
  rw [h.lt0]
  split <;> simp [h.neg]

theorem vmin (h : Hom φ) : ∀ (l : List A) (a : A), φ (vm.vmin a l) = vm.vmin (φ a) (l.map φ)
  | [], a => rfl
  | b :: l, a => by
    simp only [vm.vmin, List.map_cons, h.lt]
    split <;> exact vmin h l _

theorem vmax (h : Hom φ) : ∀ (l : List A) (a : A), φ (vm.vmax a l) = vm.vmax (φ a) (l.map φ)
  | [], a => rfl
  | b :: l, a => by
    simp only [vm.vmax, List.map_cons, h.lt]
    split <;> exact vmax h l _

theorem absMin (h : Hom φ) : ∀ (l : List A) (a : A), φ (vm.absMin a l) = vm.absMin (φ a) (l.map φ)
  | [], a => rfl
  | b :: l, a => by
    simp only [vm.absMin, List.map_cons, ← h.abs, h.lt]
    split <;> exact absMin h l _

theorem absMax (h : Hom φ) : ∀ (l : List A) (a : A), φ (vm.absMax a l) = vm.absMax (φ a) (l.map φ)
  | [], a => rfl
  | b :: l, a => by
    simp only [vm.absMax, List.map_cons, ← h.abs, h.lt]
    split <;> exact absMax h l _

theorem isNan (h : Hom φ) (a : A) : vm.isNan (φ a) = vm.isNan a := by unfold vm.isNan; rw [h.eq]

theorem safeMin (h : Hom φ) : ∀ (l : List A) (a : A), φ (vm.safeMin a l) = vm.safeMin (φ a) (l.map φ)
  | [], a => rfl
  | b :: l, a => by
    simp only [vm.safeMin, List.map_cons, h.isNan, h.lt]
    split_ifs <;> exact safeMin h l _

theorem safeMax (h : Hom φ) : ∀ (l : List A) (a : A), φ (vm.safeMax a l) = vm.safeMax (φ a) (l.map φ)
  | [], a => rfl
  | b :: l, a => by
    simp only [vm.safeMax, List.map_cons, h.isNan, h.lt]
    split_ifs <;> exact safeMax h l _

theorem clamp (h : Hom φ) (a b c : A) : φ (vm.clamp a b c) = vm.clamp (φ a) (φ b) (φ c) := by
  simp only [vm.clamp, min2, max2, h.vmax, h.vmin, List.map_cons, List.map_nil]

theorem sign (h : Hom φ) (a : A) : φ (vm.sign a) = vm.sign (φ a) := by
  unfold vm.sign
  rw [h.lt0, h.lt0']
  split_ifs <;> simp [h.neg, h.one, h.zero]

theorem isZero (h : Hom φ) (a e : A) : vm.isZero (φ a) (φ e) = vm.isZero a e := by
  unfold vm.isZero
  rw [h.eq0, ← h.abs, h.le]

theorem isEqual (h : Hom φ) (a b e : A) : vm.isEqual (φ a) (φ b) (φ e) = vm.isEqual a b e := by
  unfold vm.isEqual
  rw [← h.sub, ← h.abs, h.le]

theorem ne_zero (a e : A) (hz : vm.isZero a e = false) : Cmp.eq a 0 = false := by
  unfold vm.isZero at hz
  rw [Bool.or_eq_false_iff] at hz
  exact hz.1

/-! ### Vectors -/

theorem vadd (h : Hom φ) (a b : Vec A S) : vmap φ (a + b) = vmap φ a + vmap φ b := funext fun _ => h.add _ _
theorem vsub (h : Hom φ) (a b : Vec A S) : vmap φ (a - b) = vmap φ a - vmap φ b := funext fun _ => h.sub _ _
theorem vmul (h : Hom φ) (a b : Vec A S) : vmap φ (a * b) = vmap φ a * vmap φ b := funext fun _ => h.mul _ _
theorem vneg (h : Hom φ) (a : Vec A S) : vmap φ (-a) = -vmap φ a := funext fun _ => h.neg _
theorem vscale (h : Hom φ) (a : Vec A S) (s : A) : vmap φ (vm.vscale a s) = vm.vscale (vmap φ a) (φ s) := funext fun _ => h.mul _ _

theorem dot (h : Hom φ) (a b : Vec A S) : φ (vm.dot a b) = vm.dot (vmap φ a) (vmap φ b) := by
  unfold vm.dot
  rw [Fin.foldl_eq_finRange_foldl, Fin.foldl_eq_finRange_foldl, ← h.zero]
  generalize (0 : A) = z
  induction List.finRange S generalizing z with
  | nil => rfl
  | cons i l ih =>
    simp only [List.foldl_cons]
    rw [ih, h.add, h.mul]
    rfl

theorem cross (h : Hom φ) (a b : Vec A 3) : vmap φ (vm.cross a b) = vm.cross (vmap φ a) (vmap φ b) := by
  funext i
  fin_cases i <;> simp [vm.cross, vmap, h.sub, h.mul]

theorem squaredLength (h : Hom φ) (a : Vec A S) : φ (vm.squaredLength a) = vm.squaredLength (vmap φ a) := h.dot a a

theorem squaredDistance (h : Hom φ) (a b : Vec A S) : φ (vm.squaredDistance a b) = vm.squaredDistance (vmap φ a) (vmap φ b) := by
  unfold vm.squaredDistance
  rw [h.squaredLength, h.vsub]

theorem compareStep (h : Hom φ) (a b e : A) : vm.compareStep (φ a) (φ b) (φ e) = vm.compareStep a b e := by
  unfold vm.compareStep
  simp only [← h.add, ← h.sub, h.lt, h.le, h.eq, h.isNan]

theorem vcompare (h : Hom φ) (a b : Vec A S) (e : A) : vm.vcompare (vmap φ a) (vmap φ b) (φ e) = vm.vcompare a b e := by
  unfold vm.vcompare
  simp only [vmap, h.compareStep]

theorem visZero (h : Hom φ) (a : Vec A S) (e : A) : vm.visZero (vmap φ a) (φ e) = vm.visZero a e := by
  unfold vm.visZero
  simp only [vmap, h.isZero]

theorem visNan (h : Hom φ) (a : Vec A S) : vm.visNan (vmap φ a) = vm.visNan a := by
  unfold vm.visNan
  simp only [vmap, h.isNan]

theorem isColinear (h : Hom φ) (a b c : Vec A S) (e : A) : vm.isColinear (vmap φ a) (vmap φ b) (vmap φ c) (φ e) = vm.isColinear a b c e := by
  have key : ∀ (l : List (Fin S)) (x y z : A),
      l.foldl (fun (acc : B × B × B) i =>
        (acc.1 + (vmap φ a i - vmap φ c i) * (vmap φ b i - vmap φ a i), acc.2.1 + (vmap φ a i - vmap φ c i) * (vmap φ a i - vmap φ c i),
          acc.2.2 + (vmap φ b i - vmap φ a i) * (vmap φ b i - vmap φ a i))) (φ x, φ y, φ z) =
      (φ (l.foldl (fun (acc : A × A × A) i => (acc.1 + (a i - c i) * (b i - a i), acc.2.1 + (a i - c i) * (a i - c i),
          acc.2.2 + (b i - a i) * (b i - a i))) (x, y, z)).1,
       φ (l.foldl (fun (acc : A × A × A) i => (acc.1 + (a i - c i) * (b i - a i), acc.2.1 + (a i - c i) * (a i - c i),
          acc.2.2 + (b i - a i) * (b i - a i))) (x, y, z)).2.1,
       φ (l.foldl (fun (acc : A × A × A) i => (acc.1 + (a i - c i) * (b i - a i), acc.2.1 + (a i - c i) * (a i - c i),
          acc.2.2 + (b i - a i) * (b i - a i))) (x, y, z)).2.2) := by
    intro l
    induction l with
    | nil => intro x y z; rfl
    | cons i l ih =>
      intro x y z
      simp only [List.foldl_cons]
      rw [← ih]
      simp only [vmap, h.add, h.mul, h.sub]
  unfold vm.isColinear
  simp only [Fin.foldl_eq_finRange_foldl]
  have := key (List.finRange S) 0 0 0
  rw [h.zero] at this
  rw [this, ← h.isZero, h.sub, h.mul, h.mul]

/-! ### Matrices -/

theorem mmulVec (h : Hom φ) (m : Mat A S S) (w : Vec A S) : vmap φ (vm.mmulVec m w) = vm.mmulVec (mmap φ m) (vmap φ w) := by
  funext r
  exact h.dot (fun c => m c r) w

theorem vmulMat (h : Hom φ) (m : Mat A S S) (w : Vec A S) : vmap φ (vm.vmulMat w m) = vm.vmulMat (vmap φ w) (mmap φ m) := by
  funext r
  exact h.dot w (m r)

theorem mmul (h : Hom φ) {R1 R2 C2 : ℕ} (a : Mat A R1 R2) (b : Mat A R2 C2) : mmap φ (vm.mmul a b) = vm.mmul (mmap φ a) (mmap φ b) := by
  funext c r
  exact h.dot (fun i => a i r) (b c)

theorem foldl_add (h : Hom φ) {n : ℕ} (f : Fin n → A) (g : Fin n → B) (hfg : ∀ i, φ (f i) = g i) :
    φ (Fin.foldl n (fun acc i => acc + f i) 0) = Fin.foldl n (fun acc i => acc + g i) 0 := by
  rw [Fin.foldl_eq_finRange_foldl, Fin.foldl_eq_finRange_foldl, ← h.zero]
  generalize (0 : A) = z
  induction List.finRange n generalizing z with
  | nil => rfl
  | cons i l ih =>
    simp only [List.foldl_cons]
    rw [ih, h.add, hfg]

theorem extractMinor {R C : ℕ} (m : Mat A (R + 1) (C + 1)) (r : Fin (R + 1)) (c : Fin (C + 1)) :
    mmap φ (vm.extractMinor m r c) = vm.extractMinor (mmap φ m) r c := rfl

theorem computeDeterminant (h : Hom φ) : ∀ (n : ℕ) (m : Mat A (n + 1) (n + 1)),
    φ (vm.computeDeterminant n m) = vm.computeDeterminant n (mmap φ m)
  | 0, m => rfl
  | 1, m => by simp only [vm.computeDeterminant, mmap, h.sub, h.mul]
  | 2, m => by simp only [vm.computeDeterminant, mmap, h.sub, h.mul, h.add]
  | n + 3, m => by
    simp only [vm.computeDeterminant]
    refine h.foldl_add _ _ fun r => ?_
    rw [h.mul, h.mul, computeDeterminant h (n + 2), extractMinor]
    congr 2
    split <;> simp [h.one, h.neg]

theorem computeAdjugate (h : Hom φ) {n : ℕ} (m : Mat A (n + 2) (n + 2)) : mmap φ (vm.computeAdjugate m) = vm.computeAdjugate (mmap φ m) := by
  funext r c
  simp only [vm.computeAdjugate, mmap, h.mul]
  congr 1
  · split <;> simp [h.one, h.neg]
  · exact h.computeDeterminant n _

/-! ### Planes, lines and rays -/

theorem anchor (h : Hom φ) (p : Plane A S) : vmap φ p.anchor = (pmap φ p).anchor := h.vscale _ _

theorem pointDistance (h : Hom φ) (p : Plane A S) (x : Vec A S) : φ (p.pointDistance x) = (pmap φ p).pointDistance (vmap φ x) := by
  unfold Plane.pointDistance
  simp only [pmap, h.sub, h.dot]

theorem pointAtDistance (h : Hom φ) (o d : Vec A S) (t : A) :
    vmap φ (vm.pointAtDistance o d t) = vm.pointAtDistance (vmap φ o) (vmap φ d) (φ t) := by
  unfold vm.pointAtDistance
  rw [h.vadd, h.vscale]

theorem distanceToProjectedPoint (h : Hom φ) (o d x : Vec A S) :
    φ (vm.distanceToProjectedPoint o d x) = vm.distanceToProjectedPoint (vmap φ o) (vmap φ d) (vmap φ x) := by
  unfold vm.distanceToProjectedPoint
  rw [h.dot, h.vsub]

theorem projectPoint (h : Hom φ) (o d x : Vec A S) : vmap φ (vm.projectPoint o d x) = vm.projectPoint (vmap φ o) (vmap φ d) (vmap φ x) := by
  unfold vm.projectPoint
  rw [h.pointAtDistance, h.distanceToProjectedPoint]

theorem planeProject (h : Hom φ) (p : Plane A S) (x : Vec A S) : vmap φ (p.projectPoint x) = (pmap φ p).projectPoint (vmap φ x) := by
  unfold Plane.projectPoint
  simp only [pmap, h.vadd, h.vsub, h.vscale, h.dot]

/-! ### Intersections -/

theorem intersectRayPlane (h : Hom φ) (e : A) (r : Ray A S) (p : Plane A S) :
    (vm.intersectRayPlane e r p).map φ = vm.intersectRayPlane (φ e) (rmap φ r) (pmap φ p) := by
  unfold vm.intersectRayPlane
  have e1 : vm.dot (rmap φ r).direction (pmap φ p).normal = φ (vm.dot r.direction p.normal) := (h.dot _ _).symm
  have e2 : vm.dot ((pmap φ p).anchor - (rmap φ r).origin) (pmap φ p).normal = φ (vm.dot (p.anchor - r.origin) p.normal) := by
    rw [h.dot, h.vsub, h.anchor]; rfl
  simp only [e1, e2, h.isZero]
  cases hz : vm.isZero (vm.dot r.direction p.normal) e
  · rw [← h.div _ _ (ne_zero _ _ hz), ← h.neg, h.lt]
    simp only [Bool.false_eq_true, if_false]
    split <;> rfl
  · rfl

theorem intersectLinePlane (h : Hom φ) (e : A) (l : Line A S) (p : Plane A S) :
    (vm.intersectLinePlane e l p).map φ = vm.intersectLinePlane (φ e) (lmap φ l) (pmap φ p) := by
  unfold vm.intersectLinePlane
  have e1 : vm.dot (lmap φ l).direction (pmap φ p).normal = φ (vm.dot l.direction p.normal) := (h.dot _ _).symm
  have e2 : vm.dot (vm.vscale (pmap φ p).normal (pmap φ p).distance - (lmap φ l).point) (pmap φ p).normal =
      φ (vm.dot (vm.vscale p.normal p.distance - l.point) p.normal) := by
    rw [h.dot, h.vsub, h.vscale]; rfl
  simp only [e1, e2, h.isZero]
  cases hz : vm.isZero (vm.dot l.direction p.normal) e
  · rw [← h.div _ _ (ne_zero _ _ hz)]
    simp
  · rfl

theorem projectPointAlong (h : Hom φ) (e : A) (p : Plane A S) (x d : Vec A S) :
    (p.projectPointAlong e x d).map (vmap φ) = (pmap φ p).projectPointAlong (φ e) (vmap φ x) (vmap φ d) := by
  unfold Plane.projectPointAlong
  have e1 : vm.dot (vmap φ d) (pmap φ p).normal = φ (vm.dot d p.normal) := (h.dot _ _).symm
  have e2 : vm.dot (vm.vscale (pmap φ p).normal (pmap φ p).distance - vmap φ x) (pmap φ p).normal =
      φ (vm.dot (vm.vscale p.normal p.distance - x) p.normal) := by
    rw [h.dot, h.vsub, h.vscale]; rfl
  simp only [e1, e2, h.isZero]
  cases hz : vm.isZero (vm.dot d p.normal) e
  · rw [← h.div _ _ (ne_zero _ _ hz)]
    simp [h.vadd, h.vscale]
  · rfl

theorem intersectRayTriangle (h : Hom φ) (e : A) (r : Ray A 3) (p1 p2 p3 : Vec A 3) :
    (vm.intersectRayTriangle e r p1 p2 p3).map φ = vm.intersectRayTriangle (φ e) (rmap φ r) (vmap φ p1) (vmap φ p2) (vmap φ p3) := by
  unfold vm.intersectRayTriangle
  simp only [rmap, ← h.vsub, ← h.cross, ← h.dot, h.isZero]
  cases hz : vm.isZero (vm.dot (vm.cross r.direction (p3 - p1)) (p2 - p1)) e
  · simp only [← h.div _ _ (ne_zero _ _ hz), h.lt0, ← h.add, ← h.one, h.lt]
    simp only [Bool.false_eq_true, if_false]
    split_ifs <;> rfl
  · rfl

theorem bboxOrigin (h : Hom φ) (r : Ray A S) (b : BBox A S) (i : Fin S) :
    vm.bboxOrigin (rmap φ r) (bmap φ b) i = φ (vm.bboxOrigin r b i) := by
  simp only [vm.bboxOrigin, rmap, bmap, vmap, h.lt, h.lt0]
  split_ifs <;> rfl

theorem bboxInside (h : Hom φ) (r : Ray A S) (b : BBox A S) (i : Fin S) :
    vm.bboxInside (rmap φ r) (bmap φ b) i = vm.bboxInside r b i := by
  simp only [vm.bboxInside, rmap, bmap, vmap, h.lt]

theorem bboxDistance (h : Hom φ) (r : Ray A S) (b : BBox A S) (i : Fin S) :
    vm.bboxDistance (rmap φ r) (bmap φ b) i = φ (vm.bboxDistance r b i) := by
  unfold vm.bboxDistance
  rw [h.bboxOrigin]
  have : Cmp.eq ((rmap φ r).direction i) 0 = Cmp.eq (r.direction i) 0 := h.eq0 _
  rw [this]
  cases hz : Cmp.eq (r.direction i) 0
  · simp only [Bool.not_false, if_true]
    rw [h.div _ _ hz, h.sub]; rfl
  · simp [h.neg, h.one]

theorem bboxBestPlane (h : Hom φ) (r : Ray A (S + 1)) (b : BBox A (S + 1)) :
    vm.bboxBestPlane (rmap φ r) (bmap φ b) = vm.bboxBestPlane r b := by
  have e1 : vm.bboxInside (rmap φ r) (bmap φ b) = vm.bboxInside r b := funext fun i => h.bboxInside r b i
  simp only [vm.bboxBestPlane, e1, h.bboxDistance, h.lt]

theorem intersectRayBBox (h : Hom φ) (r : Ray A (S + 1)) (b : BBox A (S + 1)) :
    (vm.intersectRayBBox r b).map φ = vm.intersectRayBBox (rmap φ r) (bmap φ b) := by
  unfold vm.intersectRayBBox
  simp only [h.bboxBestPlane, h.bboxDistance, h.lt0]
  have : ∀ i, (rmap φ r).origin i + φ (vm.bboxDistance r b (vm.bboxBestPlane r b)) * (rmap φ r).direction i =
      φ (r.origin i + vm.bboxDistance r b (vm.bboxBestPlane r b) * r.direction i) := by
    intro i; rw [h.add, h.mul]; rfl
  simp only [this]
  simp only [bmap, vmap, h.lt]
  split_ifs <;> rfl

/-! ### Distances and quaternions -/

theorem squaredDistanceRayPoint (h : Hom φ) (r : Ray A S) (x : Vec A S) :
    vm.squaredDistanceRayPoint (rmap φ r) (vmap φ x) =
      ⟨φ (vm.squaredDistanceRayPoint r x).position, (vm.squaredDistanceRayPoint r x).distance.map φ⟩ := by
  have e1 : vm.vmax (vm.dot (vmap φ x - (rmap φ r).origin) (rmap φ r).direction) [0] = φ (vm.vmax (vm.dot (x - r.origin) r.direction) [0]) := by
    rw [h.vmax, h.dot, h.vsub, List.map_cons, h.zero]; rfl
  have e2 : vm.squaredLength (vmap φ x - (rmap φ r).origin) = φ (vm.squaredLength (x - r.origin)) := by rw [h.squaredLength, h.vsub]; rfl
  have e3 : ∀ t, vm.squaredLength (vm.pointAtDistance (rmap φ r).origin (rmap φ r).direction (φ t) - vmap φ x) =
      φ (vm.squaredLength (vm.pointAtDistance r.origin r.direction t - x)) := by
    intro t; rw [h.squaredLength, h.vsub, h.pointAtDistance]; rfl
  unfold vm.squaredDistanceRayPoint
  simp only [e1, e2, e3, h.eq0]
  split <;> rfl

theorem qmul (h : Hom φ) (p q : Quat A) : qmap φ (p.mul q) = (qmap φ p).mul (qmap φ q) := by
  unfold Quat.mul
  simp only [qmap, h.sub, h.mul, h.dot]
  congr 1
  funext i
  fin_cases i <;> simp [vmap, h.sub, h.mul, h.add]

theorem conjugate (h : Hom φ) (p : Quat A) : qmap φ p.conjugate = (qmap φ p).conjugate := by
  unfold Quat.conjugate
  simp only [qmap, h.vneg]

theorem rotate (h : Hom φ) (p : Quat A) (x : Vec A 3) : vmap φ (p.rotate x) = (qmap φ p).rotate (vmap φ x) := by
  unfold Quat.rotate
  rw [show vmap φ (Quat.mul _ _).v = (qmap φ _).v from rfl, h.qmul, h.qmul, h.conjugate]
  simp only [qmap, h.zero]

/-! ### Solving linear equations -/

theorem mset {R C : ℕ} (m : Mat A R C) (r : Fin R) (c : Fin C) (x : A) : mmap φ (vm.mset m r c x) = vm.mset (mmap φ m) r c (φ x) := by
  funext c' r'
  unfold vm.mset mmap
  by_cases hc : c' = c
  · subst hc
    by_cases hr : r' = r
    · subst hr; simp
    · simp [Function.update_of_ne hr]
  · simp [Function.update_of_ne hc]

theorem update (f : Fin S → A) (i : Fin S) (x : A) : vmap φ (Function.update f i x) = Function.update (vmap φ f) i (φ x) := by
  funext j
  by_cases hj : j = i
  · subst hj; simp [vmap]
  · simp [vmap, Function.update_of_ne hj]

theorem swapElems (f : Fin S → A) (i j : Fin S) : vmap φ (vm.swapElems f i j) = vm.swapElems (vmap φ f) i j := by
  unfold vm.swapElems
  rw [update, update]; rfl

theorem lupSwapRows (a : Mat A S S) (k k' : Fin S) : mmap φ (vm.lupSwapRows a k k') = vm.lupSwapRows (mmap φ a) k k' := by
  unfold vm.lupSwapRows
  induction List.finRange S generalizing a with
  | nil => rfl
  | cons i l ih =>
    simp only [List.foldl_cons]
    rw [ih]
    congr 1
    funext c r
    by_cases hc : c = i
    · subst hc
      simp only [mmap, Function.update_self]
      exact congrFun (swapElems (φ := φ) (a c) k k') r
    · simp [mmap, Function.update_of_ne hc]

theorem lupPivot (h : Hom φ) (a : Mat A S S) (k : Fin S) :
    vm.lupPivot (mmap φ a) k = (φ (vm.lupPivot a k).1, (vm.lupPivot a k).2) := by
  unfold vm.lupPivot
  rw [← h.zero]
  generalize (0 : A) = z
  generalize (⟨0, k.pos⟩ : Fin S) = i0
  induction (List.finRange S).filter (k ≤ ·) generalizing z i0 with
  | nil => rfl
  | cons i l ih =>
    simp only [List.foldl_cons]
    rw [show vm.abs (mmap φ a k i) = φ (vm.abs (a k i)) from (h.abs _).symm, h.lt]
    split <;> exact ih _ _

theorem foldl_row (h : Hom φ) (i k : Fin S) (l : List (Fin S)) (a : Mat A S S) :
    mmap φ (l.foldl (fun a j => vm.mset a i j (a j i - a k i * a j k)) a) =
      l.foldl (fun a j => vm.mset a i j (a j i - a k i * a j k)) (mmap φ a) ∧
    ∀ c r, r ≠ i → l.foldl (fun a j => vm.mset a i j (a j i - a k i * a j k)) a c r = a c r := by
  induction l generalizing a with
  | nil => exact ⟨rfl, fun _ _ _ => rfl⟩
  | cons j l ih =>
    simp only [List.foldl_cons]
    refine ⟨?_, fun c r hr => ?_⟩
    · rw [(ih _).1, mset, h.sub, h.mul]; rfl
    · rw [(ih _).2 c r hr]
      unfold vm.mset
      by_cases hc : c = j
      · subst hc; simp [Function.update_of_ne hr]
      · simp [Function.update_of_ne hc]

theorem lupEliminate (h : Hom φ) (a : Mat A S S) (k : Fin S) (hk : Cmp.eq (a k k) 0 = false) :
    mmap φ (vm.lupEliminate a k) = vm.lupEliminate (mmap φ a) k ∧ ∀ c r, r ≤ k → vm.lupEliminate a k c r = a c r := by
  unfold vm.lupEliminate
  have hl : ∀ i ∈ (List.finRange S).filter (k < ·), k < i := fun i hi => by simpa using (List.mem_filter.1 hi).2
  generalize hL : (List.finRange S).filter (k < ·) = L at hl ⊢
  have key : ∀ l : List (Fin S), (∀ i ∈ l, k < i) → ∀ a : Mat A S S, Cmp.eq (a k k) 0 = false →
      mmap φ (l.foldl (fun a i => L.foldl (fun a j => vm.mset a i j (a j i - a k i * a j k)) (vm.mset a i k (a k i / a k k))) a) =
        l.foldl (fun a i => L.foldl (fun a j => vm.mset a i j (a j i - a k i * a j k)) (vm.mset a i k (a k i / a k k))) (mmap φ a) ∧
      ∀ c r, r ≤ k →
        l.foldl (fun a i => L.foldl (fun a j => vm.mset a i j (a j i - a k i * a j k)) (vm.mset a i k (a k i / a k k))) a c r = a c r := by
    intro l
    induction l with
    | nil => intro _ a _; exact ⟨rfl, fun _ _ _ => rfl⟩
    | cons i l ih =>
      intro hl a hk
      have hi : k < i := hl i (by simp)
      have hrow := h.foldl_row i k L (vm.mset a i k (a k i / a k k))
      have hsame : ∀ c r, r ≤ k → L.foldl (fun a j => vm.mset a i j (a j i - a k i * a j k)) (vm.mset a i k (a k i / a k k)) c r = a c r := by
        intro c r hr
        have hne : r ≠ i := (hr.trans_lt hi).ne
        rw [hrow.2 c r hne]
        unfold vm.mset
        by_cases hc : c = k
        · subst hc; simp [Function.update_of_ne hne]
        · simp [Function.update_of_ne hc]
      have := ih (fun i hi => hl i (by simp [hi])) (L.foldl (fun a j => vm.mset a i j (a j i - a k i * a j k)) (vm.mset a i k (a k i / a k k)))
        (by rw [hsame k k le_rfl]; exact hk)
      simp only [List.foldl_cons]
      refine ⟨?_, fun c r hr => by rw [this.2 c r hr, hsame c r hr]⟩
      rw [this.1, hrow.1, mset, h.div _ _ hk]
      rfl
  exact key L hl a hk

theorem foldl_dot (h : Hom φ) (lu : Mat A S S) (i : Fin S) (y : Vec A S) (l : List (Fin S)) (z : A) :
    φ (l.foldl (fun sum j => sum + lu j i * y j) z) = l.foldl (fun sum j => sum + mmap φ lu j i * vmap φ y j) (φ z) := by
  induction l generalizing z with
  | nil => rfl
  | cons j l ih =>
    simp only [List.foldl_cons]
    rw [ih, h.add, h.mul]; rfl

theorem vzero (h : Hom φ) : vmap φ (0 : Vec A S) = 0 := funext fun _ => h.zero

theorem lupForward (h : Hom φ) (lu : Mat A S S) (pi : Fin S → Fin S) (b : Vec A S) :
    vmap φ (vm.lupForward lu pi b) = vm.lupForward (mmap φ lu) pi (vmap φ b) := by
  have key : ∀ (l : List (Fin S)) (y : Vec A S),
      vmap φ (l.foldl (fun y i => Function.update y i (b (pi i) - ((List.finRange S).filter (· < i)).foldl (fun sum j => sum + lu j i * y j) 0)) y) =
      l.foldl (fun y i => Function.update y i (vmap φ b (pi i) -
        ((List.finRange S).filter (· < i)).foldl (fun sum j => sum + mmap φ lu j i * y j) 0)) (vmap φ y) := by
    intro l
    induction l with
    | nil => intro y; rfl
    | cons i l ih =>
      intro y
      simp only [List.foldl_cons]
      rw [ih, update, h.sub, h.foldl_dot, h.zero]; rfl
  have := key (List.finRange S) 0
  rw [h.vzero] at this
  exact this

theorem lupBackward (h : Hom φ) (lu : Mat A S S) (y : Vec A S) (hd : ∀ i, Cmp.eq (lu i i) 0 = false) :
    vmap φ (vm.lupBackward lu y) = vm.lupBackward (mmap φ lu) (vmap φ y) := by
  have key : ∀ (l : List (Fin S)) (x : Vec A S),
      vmap φ (l.foldl (fun x i => Function.update x i ((y i - ((List.finRange S).filter (i < ·)).foldl (fun sum j => sum + lu j i * x j) 0) / lu i i)) x) =
      l.foldl (fun x i => Function.update x i ((vmap φ y i -
        ((List.finRange S).filter (i < ·)).foldl (fun sum j => sum + mmap φ lu j i * x j) 0) / mmap φ lu i i)) (vmap φ x) := by
    intro l
    induction l with
    | nil => intro x; rfl
    | cons i l ih =>
      intro x
      simp only [List.foldl_cons]
      rw [ih, update, h.div _ _ (hd i), h.sub, h.foldl_dot, h.zero]; rfl
  have := key (List.finRange S).reverse 0
  rw [h.vzero] at this
  exact this

/-! ### Boxes -/

theorem vmin2 (h : Hom φ) (a b : Vec A S) : vmap φ (vm.vmin2 a b) = vm.vmin2 (vmap φ a) (vmap φ b) := funext fun i => h.vmin [b i] (a i)
theorem vmax2 (h : Hom φ) (a b : Vec A S) : vmap φ (vm.vmax2 a b) = vm.vmax2 (vmap φ a) (vmap φ b) := funext fun i => h.vmax [b i] (a i)

theorem isValid (h : Hom φ) (b : BBox A S) : (bmap φ b).isValid = b.isValid := by
  unfold BBox.isValid BBox.isValidPair bmap vmap
  simp only [h.lt, h.le]

theorem isEmpty (h : Hom φ) (b : BBox A S) : (bmap φ b).isEmpty = b.isEmpty := by
  unfold BBox.isEmpty bmap vmap
  simp only [h.lt, h.le]

theorem contains (h : Hom φ) (b : BBox A S) (x : Vec A S) : (bmap φ b).contains (vmap φ x) = b.contains x := by
  unfold BBox.contains bmap vmap
  simp only [h.lt, h.le]

theorem containsBox (h : Hom φ) (a b : BBox A S) : (bmap φ a).containsBox (bmap φ b) = a.containsBox b := by
  unfold BBox.containsBox bmap vmap
  simp only [h.lt, h.le]

theorem encloses (h : Hom φ) (a b : BBox A S) : (bmap φ a).encloses (bmap φ b) = a.encloses b := by
  unfold BBox.encloses bmap vmap
  simp only [h.lt, h.le]

theorem intersects (h : Hom φ) (a b : BBox A S) : (bmap φ a).intersects (bmap φ b) = a.intersects b := by
  unfold BBox.intersects bmap vmap
  simp only [h.lt, h.le]

theorem constrain (h : Hom φ) (b : BBox A S) (x : Vec A S) : vmap φ (b.constrain x) = (bmap φ b).constrain (vmap φ x) := by
  unfold BBox.constrain
  rw [h.vmax2, h.vmin2]; rfl

theorem relativePosition (h : Hom φ) (b : BBox A S) (x : Vec A S) : (bmap φ b).relativePosition (vmap φ x) = b.relativePosition x := by
  unfold BBox.relativePosition bmap vmap
  simp only [h.lt, h.le]

theorem expand (h : Hom φ) (b : BBox A S) (f : A) : bmap φ (b.expand f) = (bmap φ b).expand (φ f) := by
  unfold BBox.expand bmap
  simp only [h.vsub, h.vadd]; rfl

theorem translate (h : Hom φ) (b : BBox A S) (d : Vec A S) : bmap φ (b.translate d) = (bmap φ b).translate (vmap φ d) := by
  unfold BBox.translate bmap
  simp only [h.vadd]

theorem size (h : Hom φ) (b : BBox A S) : vmap φ b.size = (bmap φ b).size := by
  unfold BBox.size bmap
  simp only [h.vsub]

theorem repair (h : Hom φ) (b : BBox A S) : bmap φ b.repair = (bmap φ b).repair := by
  unfold BBox.repair bmap
  simp only [h.vmin2, h.vmax2]

theorem merge (h : Hom φ) (a b : BBox A S) : bmap φ (a.merge b) = (bmap φ a).merge (bmap φ b) := by
  unfold BBox.merge bmap
  simp only [h.vmin2, h.vmax2]

theorem mergePoint (h : Hom φ) (a : BBox A S) (x : Vec A S) : bmap φ (a.mergePoint x) = (bmap φ a).mergePoint (vmap φ x) := by
  unfold BBox.mergePoint bmap
  simp only [h.vmin2, h.vmax2]

theorem mergeAll (h : Hom φ) (x : Vec A S) (l : List (Vec A S)) : bmap φ (BBox.mergeAll x l) = BBox.mergeAll (vmap φ x) (l.map (vmap φ)) := by
  unfold BBox.mergeAll
  rw [List.foldl_map]
  have key : ∀ (l : List (Vec A S)) (b : BBox A S), bmap φ (l.foldl BBox.mergePoint b) =
      l.foldl (fun b x => b.mergePoint (vmap φ x)) (bmap φ b) := by
    intro l
    induction l with
    | nil => intro b; rfl
    | cons y l ih => intro b; rw [List.foldl_cons, ih, h.mergePoint]; rfl
  exact key l _

theorem intersect (h : Hom φ) (a b : BBox A S) : bmap φ (a.intersect b) = (bmap φ a).intersect (bmap φ b) := by
  unfold BBox.intersect
  have e : BBox.isValidPair (vm.vmax2 (bmap φ a).min (bmap φ b).min) (vm.vmin2 (bmap φ a).max (bmap φ b).max) =
      BBox.isValidPair (vm.vmax2 a.min b.min) (vm.vmin2 a.max b.max) := by
    rw [show (bmap φ a).min = vmap φ a.min from rfl, show (bmap φ b).min = vmap φ b.min from rfl,
      show (bmap φ a).max = vmap φ a.max from rfl, show (bmap φ b).max = vmap φ b.max from rfl, ← h.vmax2, ← h.vmin2]
    exact h.isValid ⟨_, _⟩
  simp only [e]
  split
  · unfold bmap
    rw [h.vmax2, h.vmin2]
  · have : vmap φ (vfill S (0 : A)) = vfill S 0 := funext fun _ => h.zero
    unfold bmap
    rw [this]

/-! ### Rounding -/

section
variable [Int64Cast A] [Int64Cast B]

theorem truncG (hi : ∀ x : A, Int64Cast.toInt64 (φ x) = Int64Cast.toInt64 x) (ho : ∀ n, φ (Int64Cast.ofInt64 n) = Int64Cast.ofInt64 n) (x : A) :
    (vm.truncG x).map φ = vm.truncG (φ x) := by
  unfold vm.truncG
  rw [hi, Option.map_map]
  congr 1
  funext n; exact ho n

theorem floorG (h : Hom φ) (hi : ∀ x : A, Int64Cast.toInt64 (φ x) = Int64Cast.toInt64 x) (ho : ∀ n, φ (Int64Cast.ofInt64 n) = Int64Cast.ofInt64 n)
    (x : A) : (vm.floorG x).map φ = vm.floorG (φ x) := by
  unfold vm.floorG
  rw [← truncG hi ho]
  rcases vm.truncG x with _ | r
  · rfl
  · simp only [Option.map_some, ← h.zero, h.le, h.eq, ← h.one, ← h.sub, apply_ite φ]

theorem ceilG (h : Hom φ) (hi : ∀ x : A, Int64Cast.toInt64 (φ x) = Int64Cast.toInt64 x) (ho : ∀ n, φ (Int64Cast.ofInt64 n) = Int64Cast.ofInt64 n)
    (x : A) : (vm.ceilG x).map φ = vm.ceilG (φ x) := by
  unfold vm.ceilG
  rw [← truncG hi ho]
  rcases vm.truncG x with _ | r
  · rfl
  · simp only [Option.map_some, ← h.zero, h.lt, h.eq, ← h.one, ← h.add, apply_ite φ]

theorem fractG (h : Hom φ) (hi : ∀ x : A, Int64Cast.toInt64 (φ x) = Int64Cast.toInt64 x) (ho : ∀ n, φ (Int64Cast.ofInt64 n) = Int64Cast.ofInt64 n)
    (x : A) : (vm.fractG x).map φ = vm.fractG (φ x) := by
  unfold vm.fractG
  rw [← h.floorG hi ho, ← h.ceilG hi ho, h.lt0']
  cases Cmp.lt 0 x
  · rcases vm.ceilG x with _ | r
    · rfl
    · simp [h.sub]
  · rcases vm.floorG x with _ | r
    · rfl
    · simp [h.sub]

theorem roundG (h : Hom φ) (hi : ∀ x : A, Int64Cast.toInt64 (φ x) = Int64Cast.toInt64 x) (ho : ∀ n, φ (Int64Cast.ofInt64 n) = Int64Cast.ofInt64 n)
    (half x : A) : (vm.roundG half x).map φ = vm.roundG (φ half) (φ x) := by
  unfold vm.roundG
  rw [h.lt0', ← h.add, ← h.sub, ← h.floorG hi ho, ← h.ceilG hi ho]
  cases Cmp.lt 0 x <;> rfl

theorem roundUpG (h : Hom φ) (hi : ∀ x : A, Int64Cast.toInt64 (φ x) = Int64Cast.toInt64 x) (ho : ∀ n, φ (Int64Cast.ofInt64 n) = Int64Cast.ofInt64 n)
    (x : A) : (vm.roundUpG x).map φ = vm.roundUpG (φ x) := by
  unfold vm.roundUpG
  rw [h.lt0, ← h.floorG hi ho, ← h.ceilG hi ho]
  cases Cmp.lt x 0 <;> rfl

theorem roundDownG (h : Hom φ) (hi : ∀ x : A, Int64Cast.toInt64 (φ x) = Int64Cast.toInt64 x) (ho : ∀ n, φ (Int64Cast.ofInt64 n) = Int64Cast.ofInt64 n)
    (x : A) : (vm.roundDownG x).map φ = vm.roundDownG (φ x) := by
  unfold vm.roundDownG
  rw [h.lt0', ← h.floorG hi ho, ← h.ceilG hi ho]
  cases Cmp.lt 0 x <;> rfl

theorem snapG (h : Hom φ) (hi : ∀ x : A, Int64Cast.toInt64 (φ x) = Int64Cast.toInt64 x) (ho : ∀ n, φ (Int64Cast.ofInt64 n) = Int64Cast.ofInt64 n)
    (half x grid : A) : (vm.snapG half x grid).map φ = vm.snapG (φ half) (φ x) (φ grid) := by
  unfold vm.snapG
  rw [h.eq0]
  cases hg : Cmp.eq grid 0
  · rw [← h.div _ _ hg, ← h.roundG hi ho]
    rcases vm.roundG half (x / grid) with _ | r
    · rfl
    · simp [h.mul]
  · rfl

theorem snapUpG (h : Hom φ) (hi : ∀ x : A, Int64Cast.toInt64 (φ x) = Int64Cast.toInt64 x) (ho : ∀ n, φ (Int64Cast.ofInt64 n) = Int64Cast.ofInt64 n)
    (hlt : ∀ x : A, Cmp.lt 0 x = true → Cmp.eq x 0 = false)
    (x grid : A) : (vm.snapUpG x grid).map φ = vm.snapUpG (φ x) (φ grid) := by
  unfold vm.snapUpG
  rw [h.lt0']
  cases hg : Cmp.lt 0 grid
  · rfl
  · rw [← h.div _ _ (hlt _ hg), ← h.roundUpG hi ho]
    rcases vm.roundUpG (x / grid) with _ | r
    · rfl
    · simp [h.mul]

theorem snapDownG (h : Hom φ) (hi : ∀ x : A, Int64Cast.toInt64 (φ x) = Int64Cast.toInt64 x) (ho : ∀ n, φ (Int64Cast.ofInt64 n) = Int64Cast.ofInt64 n)
    (hlt : ∀ x : A, Cmp.lt 0 x = true → Cmp.eq x 0 = false)
    (x grid : A) : (vm.snapDownG x grid).map φ = vm.snapDownG (φ x) (φ grid) := by
  unfold vm.snapDownG
  rw [h.lt0']
  cases hg : Cmp.lt 0 grid
  · rfl
  · rw [← h.div _ _ (hlt _ hg), ← h.roundDownG hi ho]
    rcases vm.roundDownG (x / grid) with _ | r
    · rfl
    · simp [h.mul]
end

variable [LupSmall A] [LupSmall B]

theorem lupPivot_spec (a : Mat A S S) (k : Fin S) (h0 : LupSmall.small (0 : A) = true) (hp : LupSmall.small (vm.lupPivot a k).1 = false) :
    k ≤ (vm.lupPivot a k).2 ∧ (vm.lupPivot a k).1 = vm.abs (a k (vm.lupPivot a k).2) := by
  have key : ∀ (l : List (Fin S)), (∀ i ∈ l, k ≤ i) → ∀ acc : A × Fin S,
      (LupSmall.small acc.1 = true ∨ (k ≤ acc.2 ∧ acc.1 = vm.abs (a k acc.2))) →
      (LupSmall.small (l.foldl (fun acc i => if Cmp.lt acc.1 (vm.abs (a k i)) then (vm.abs (a k i), i) else acc) acc).1 = true ∨
        (k ≤ (l.foldl (fun acc i => if Cmp.lt acc.1 (vm.abs (a k i)) then (vm.abs (a k i), i) else acc) acc).2 ∧
          (l.foldl (fun acc i => if Cmp.lt acc.1 (vm.abs (a k i)) then (vm.abs (a k i), i) else acc) acc).1 =
            vm.abs (a k (l.foldl (fun acc i => if Cmp.lt acc.1 (vm.abs (a k i)) then (vm.abs (a k i), i) else acc) acc).2))) := by
    intro l
    induction l with
    | nil => intro _ acc h; exact h
    | cons i l ih =>
      intro hl acc h
      simp only [List.foldl_cons]
      refine ih (fun i hi => hl i (by simp [hi])) _ ?_
      split
      · exact Or.inr ⟨hl i (by simp), rfl⟩
      · exact h
  rcases key ((List.finRange S).filter (k ≤ ·)) (fun i hi => by simpa using (List.mem_filter.1 hi).2) (0, ⟨0, k.pos⟩) (Or.inl h0) with h | h
  · unfold vm.lupPivot at hp
    rw [h] at hp; exact (nomatch hp)
  · exact h

theorem lupRun (h : Hom φ) (h0 : LupSmall.small (0 : A) = true) (hs : ∀ x : A, LupSmall.small (φ x) = LupSmall.small x)
    (hne : ∀ x : A, LupSmall.small (vm.abs x) = false → Cmp.eq x 0 = false) (l : List (Fin S)) :
    ∀ (n : ℕ), l.map Fin.val = List.range' n l.length → ∀ (a : Mat A S S) (pi : Fin S → Fin S), (∀ i : Fin S, i.val < n → Cmp.eq (a i i) 0 = false) →
    (l.foldlM lupStep (mmap φ a, pi) = (l.foldlM lupStep (a, pi)).map fun s => (mmap φ s.1, s.2)) ∧
    ∀ s, l.foldlM lupStep (a, pi) = some s → ∀ i : Fin S, i.val < n + l.length → Cmp.eq (s.1 i i) 0 = false := by
  induction l with
  | nil =>
    intro n _ a pi hd
    refine ⟨rfl, fun s hs i hi => ?_⟩
    simp only [List.foldlM_nil, Option.pure_def, Option.some.injEq] at hs
    rw [← hs]; exact hd i (by simpa using hi)
  | cons k l ih =>
    intro n hl a pi hd
    rw [List.map_cons, List.length_cons, List.range'_succ, List.cons.injEq] at hl
    obtain ⟨hk, hl⟩ := hl
    simp only [List.foldlM_cons]
    have estep : lupStep (mmap φ a, pi) k = (lupStep (a, pi) k).map (fun s => (mmap φ s.1, s.2)) ∧
        ∀ s, lupStep (a, pi) k = some s → ∀ i : Fin S, i.val < n + 1 → Cmp.eq (s.1 i i) 0 = false := by
      unfold lupStep
      simp only [h.lupPivot, hs]
      cases hp : LupSmall.small (vm.lupPivot a k).1
      · obtain ⟨hle, hpe⟩ := lupPivot_spec a k h0 hp
        have hz : Cmp.eq (vm.lupSwapRows a k (vm.lupPivot a k).2 k k) 0 = false := by
          rw [vm.lupSwapRows_apply, Equiv.swap_apply_left]
          exact hne _ (by rw [← hpe]; exact hp)
        have he := h.lupEliminate (vm.lupSwapRows a k (vm.lupPivot a k).2) k hz
        refine ⟨?_, ?_⟩
        · simp only [Bool.false_eq_true, if_false, Option.map_some]
          rw [he.1, lupSwapRows]
        · intro s hs i hi
          simp only [Bool.false_eq_true, if_false, Option.some.injEq] at hs
          rw [← hs]
          show Cmp.eq (vm.lupEliminate _ k i i) 0 = false
          rw [he.2 i i (by rw [Fin.le_def]; omega)]
          rcases Nat.lt_succ_iff_lt_or_eq.1 hi with hi | hi
          · rw [vm.lupSwapRows_apply, Equiv.swap_apply_of_ne_of_ne]
            · exact hd i hi
            · intro e; rw [e] at hi; omega
            · intro e; rw [e] at hi; have := Fin.le_def.1 hle; omega
          · have : i = k := Fin.ext (by omega)
            rw [this]; exact hz
      · exact ⟨rfl, fun s hs => (nomatch hs)⟩
    rcases hst : lupStep (a, pi) k with _ | s
    · rw [estep.1, hst]
      exact ⟨rfl, fun s hs => (nomatch hs)⟩
    · rw [estep.1, hst]
      have := ih (n + 1) hl s.1 s.2 (estep.2 s hst)
      refine ⟨this.1, fun t ht i hi => this.2 t ht i (by simp only [List.length_cons] at hi; omega)⟩

theorem lupFindDecomposition (h : Hom φ) (h0 : LupSmall.small (0 : A) = true) (hs : ∀ x : A, LupSmall.small (φ x) = LupSmall.small x)
    (hne : ∀ x : A, LupSmall.small (vm.abs x) = false → Cmp.eq x 0 = false) (a : Mat A S S) :
    (vm.lupFindDecomposition (mmap φ a) = (vm.lupFindDecomposition a).map fun s => (mmap φ s.1, s.2)) ∧
    ∀ s, vm.lupFindDecomposition a = some s → ∀ i, Cmp.eq (s.1 i i) 0 = false := by
  have := h.lupRun h0 hs hne (List.finRange S) 0 (by rw [List.length_finRange, List.map_coe_finRange_eq_range, List.range_eq_range']) a (fun i => i) (by simp)
  refine ⟨this.1, fun s hs i => this.2 s hs i (by simp)⟩

theorem lupSolve (h : Hom φ) (h0 : LupSmall.small (0 : A) = true) (hs : ∀ x : A, LupSmall.small (φ x) = LupSmall.small x)
    (hne : ∀ x : A, LupSmall.small (vm.abs x) = false → Cmp.eq x 0 = false) (a : Mat A S S) (b : Vec A S) :
    vm.lupSolve (mmap φ a) (vmap φ b) = ((vm.lupSolve a b).1, vmap φ (vm.lupSolve a b).2) := by
  have := h.lupFindDecomposition h0 hs hne a
  unfold vm.lupSolve
  rw [this.1]
  rcases hd : vm.lupFindDecomposition a with _ | s
  · simp [h.vzero]
  · simp only [Option.map_some]
    unfold lupSolveInternal
    rw [h.lupBackward _ _ (this.2 s hd), h.lupForward]

theorem invert (h : Hom φ) (h0 : LupSmall.small (0 : A) = true) (hs : ∀ x : A, LupSmall.small (φ x) = LupSmall.small x)
    (hne : ∀ x : A, LupSmall.small (vm.abs x) = false → Cmp.eq x 0 = false) (a : Mat A S S) :
    vm.invert (mmap φ a) = ((vm.invert a).1, mmap φ (vm.invert a).2) := by
  have := h.lupFindDecomposition h0 hs hne a
  have hax : ∀ i : Fin S, vmap φ (vaxis S i : Vec A S) = vaxis S i := by
    intro i; funext j; unfold vmap vaxis; split <;> simp [h.one, h.zero]
  unfold vm.invert
  rw [this.1]
  rcases hd : vm.lupFindDecomposition a with _ | s
  · simp only [Option.map_none]
    congr 1
    funext c r
    unfold matId mmap
    split <;> simp [h.one, h.zero, *]
  · simp only [Option.map_some]
    congr 1
    funext i
    show _ = vmap φ (lupSolveInternal s.1 s.2 (vaxis S i))
    unfold lupSolveInternal
    rw [h.lupBackward _ _ (this.2 s hd), h.lupForward, hax]

end Hom

namespace SFlt
variable {F : Fmt}

theorem isZeroB_iff (x : Flt F) : x.isZeroB = true ↔ x = 0 := by
  rcases x with _ | _ | _ | ⟨q, hq⟩
  · simp [Flt.isZeroB]
  · simp [Flt.isZeroB]
  · simp [Flt.isZeroB]
  · simp only [Flt.isZeroB, decide_eq_true_eq]
    constructor
    · rintro rfl; rfl
    · intro e; exact (Flt.fin.injEq .. ▸ e : q = 0)

theorem toFlt_signed (s : Bool) (x : Flt F) : (signed s x).toFlt = x := by
  unfold signed
  split
  · next h =>
      rw [Bool.and_eq_true] at h
      exact ((isZeroB_iff x).1 h.1).symm
  · rfl

theorem toFlt_of (x : Flt F) : (of x).toFlt = x := rfl

theorem eq_zero_iff (x : SFlt F) : Cmp.eq x 0 = x.toFlt.isZeroB := by
  show Cmp.eq x.toFlt (0 : Flt F) = x.toFlt.isZeroB
  rcases x.toFlt with _ | _ | _ | ⟨q, hq⟩
  · rfl
  · rfl
  · rfl
  · show decide (((q : ℚ) : Ext) = ((0 : ℚ) : Ext)) = decide (q = 0)
    simp

/-- Forgetting the sign of zero respects the operations, except division by zero. -/
theorem hom : Hom (toFlt : SFlt F → Flt F) where
  zero := rfl
  one := rfl
  neg a := toFlt_signed _ _
  add a b := toFlt_signed _ _
  sub a b := by
    show (signed _ (a.toFlt + (-b).toFlt)).toFlt = _
    rw [toFlt_signed, show (-b).toFlt = -b.toFlt from toFlt_signed _ _]
    rfl
  mul a b := toFlt_signed _ _
  div a b h := by
    rw [eq_zero_iff] at h
    show (if b.toFlt.isZeroB then _ else signed _ (a.toFlt / b.toFlt) : SFlt F).toFlt = _
    rw [h]
    exact toFlt_signed _ _
  lt a b := rfl
  le a b := rfl
  eq a b := rfl

theorem div_of_ne_negZero (a b : SFlt F) (hb : b ≠ negZero) : (a / b).toFlt = a.toFlt / b.toFlt := by
  by_cases hz : b.toFlt.isZeroB = true
  · have e : b = of 0 := by
      rcases b with _ | x
      · exact absurd rfl hb
      · rw [(isZeroB_iff x).1 hz]
    subst e
    show (if (of (0 : Flt F)).toFlt.isZeroB then _ else signed _ (a.toFlt / (of (0 : Flt F)).toFlt) : SFlt F).toFlt = _
    rw [hz, if_pos rfl]
    have hs : (of (0 : Flt F)).signBit = false := rfl
    rcases a with _ | a
    · show (if (0 : ℚ) = 0 then of .nan else _ : SFlt F).toFlt = (if (0 : ℚ) = 0 then Flt.infTimes 0 else _ : Flt F)
      rw [if_pos rfl, if_pos rfl]
      rfl
    · rcases a with _ | _ | _ | ⟨q, hq⟩
      · rfl
      · rfl
      · rfl
      · show (if q = 0 then of .nan else if (decide (q < 0) != (of (0 : Flt F)).signBit) then of .ninf else of .pinf : SFlt F).toFlt =
          (if (0 : ℚ) = 0 then Flt.infTimes q else _ : Flt F)
        rw [if_pos rfl, hs]
        unfold Flt.infTimes
        rcases lt_trichotomy q 0 with h | h | h
        · rw [if_neg h.ne, if_neg h.ne, if_neg h.not_gt]
          simp [h, toFlt]
        · rw [if_pos h, if_pos h]; rfl
        · rw [if_neg h.ne', if_neg h.ne', if_pos h]
          simp [h.not_gt, toFlt]
  · exact hom.div a b (by rw [eq_zero_iff]; simpa using hz)

/-! ### Binary formats -/

variable {P : BinPar}

theorem add_isZeroB {x y : Flt P.fmt} (h : (x + y).isZeroB = true) : x.isFinite ∧ y.isFinite ∧ x.val + y.val = 0 := by
  rw [isZeroB_iff] at h
  have hf : (x + y).isFinite := by rw [h]; exact trivial
  have hv := Flt.add_val hf
  obtain ⟨hx, hy⟩ := Flt.add_finite hf
  refine ⟨hx, hy, ?_⟩
  rw [h] at hv
  obtain ⟨h1, -⟩ := Flt.eq_fin hx
  obtain ⟨h2, -⟩ := Flt.eq_fin hy
  have := BinPar.fl_sub_eq_zero (P := P) (a := x.val) (b := -y.val) h1.1 (P.fmt.rep_neg h2).1 (by rw [sub_neg_eq_add]; exact hv.symm)
  linarith

theorem signed_eq_negZero {s : Bool} {x : Flt F} (h : signed s x = negZero) : x.isZeroB = true ∧ s = true := by
  unfold signed at h
  split at h
  · next h' => exact Bool.and_eq_true _ _ ▸ h'
  · exact (nomatch h)

theorem add_negZero {a b : SFlt P.fmt} (h : a + b = negZero) : a = negZero ∧ b = negZero := by
  obtain ⟨h1, h2⟩ := signed_eq_negZero (F := P.fmt) h
  obtain ⟨-, -, h3⟩ := add_isZeroB h1
  split at h2
  · next hz =>
      rw [Bool.and_eq_true] at hz h2
      have key : ∀ x : SFlt P.fmt, x.toFlt.isZeroB = true → x.signBit = true → x = negZero := by
        intro x hx hs
        rcases x with _ | x
        · rfl
        · rw [show (of x).toFlt = x from rfl, isZeroB_iff] at hx
          rw [hx] at hs
          exact absurd hs (by show ¬ (decide ((0 : ℚ) < 0) = true); simp)
      exact ⟨key a hz.1 h2.1, key b hz.2 h2.2⟩
  · rw [h3] at h2
    exact absurd h2 (by simp)

theorem dot_ne_negZero {S : ℕ} (v w : Vec (SFlt P.fmt) S) : dot v w ≠ negZero := by
  have key : ∀ n, ∀ f : Fin n → SFlt P.fmt, Fin.foldl n (fun acc i => acc + f i) (0 : SFlt P.fmt) ≠ negZero := by
    intro n
    induction n with
    | zero => intro f; rw [Fin.foldl_zero]; exact fun h => (nomatch h)
    | succ n ih =>
      intro f
      rw [Fin.foldl_succ_last]
      intro h
      exact ih _ (add_negZero h).1
  exact key S _

/-- `std::sqrt`, which keeps the sign of zero (cf. vec.h:1135). -/
def sqrtS (sqrt : Flt F → Flt F) : SFlt F → SFlt F
  | negZero => negZero
  | of x => of (sqrt x)

theorem lengthG_toFlt (sqrt : Flt P.fmt → Flt P.fmt) {S : ℕ} (v : Vec (SFlt P.fmt) S) :
    lengthG (sqrtS sqrt) v ≠ negZero ∧ (lengthG (sqrtS sqrt) v).toFlt = lengthG sqrt (vmap toFlt v) := by
  unfold lengthG
  rw [← hom.squaredLength]
  rcases h : squaredLength v with _ | x
  · exact absurd h (dot_ne_negZero v v)
  · exact ⟨fun h => (nomatch h), rfl⟩

theorem normalizeG_toFlt (sqrt : Flt P.fmt → Flt P.fmt) {S : ℕ} (v : Vec (SFlt P.fmt) S) :
    vmap toFlt (normalizeG (sqrtS sqrt) v) = normalizeG sqrt (vmap toFlt v) := by
  obtain ⟨h1, h2⟩ := lengthG_toFlt sqrt v
  funext i
  unfold normalizeG vdivs
  rw [← h2]
  exact div_of_ne_negZero _ _ h1

theorem distanceG_toFlt (sqrt : Flt P.fmt → Flt P.fmt) {S : ℕ} (v w : Vec (SFlt P.fmt) S) :
    (distanceG (sqrtS sqrt) v w).toFlt = distanceG sqrt (vmap toFlt v) (vmap toFlt w) := by
  unfold distanceG
  rw [(lengthG_toFlt sqrt _).2, hom.vsub]

theorem sub_isZeroB {x y : Flt P.fmt} (h : (x - y).isZeroB = true) : x = y := by
  obtain ⟨h1, h2, h3⟩ := add_isZeroB (x := x) (y := -y) h
  rcases x with _ | _ | _ | ⟨x, hx⟩
  · exact h1.elim
  · exact h1.elim
  · exact h1.elim
  · rcases y with _ | _ | _ | ⟨y, hy⟩
    · exact h2.elim
    · exact h2.elim
    · exact h2.elim
    · have : x + -y = 0 := h3
      have : x = y := by linarith
      subst this; rfl

theorem handlePolygonEdge_toFlt (e : SFlt P.fmt) (v0 v1 : Vec (SFlt P.fmt) 3) :
    handlePolygonEdgeIntersection e.toFlt (vmap toFlt v0) (vmap toFlt v1) = handlePolygonEdgeIntersection e v0 v1 := by
  have hom := hom (F := P.fmt)
  unfold handlePolygonEdgeIntersection
  rw [hom.visZero, show vmap toFlt v0 1 = (v0 1).toFlt from rfl, show vmap toFlt v1 1 = (v1 1).toFlt from rfl,
    show vmap toFlt v0 0 = (v0 0).toFlt from rfl, show vmap toFlt v1 0 = (v1 0).toFlt from rfl]
  simp only [hom.isZero, hom.lt0, hom.lt0', hom.eq0]
  split
  · rfl
  split
  · rfl
  next hy =>
  split
  · rfl
  split
  · rfl
  have hz : Cmp.eq (v1 1 - v0 1) 0 = false := by
    by_contra hc
    rw [Bool.not_eq_false, eq_zero_iff, hom.sub] at hc
    have heq := sub_isZeroB hc
    have hfin := (add_isZeroB hc).1
    have el : Cmp.lt 0 (v1 1) = Cmp.lt 0 (v0 1) := by
      show Cmp.lt (0 : Flt P.fmt) (v1 1).toFlt = Cmp.lt 0 (v0 1).toFlt
      rw [heq]
    have eg : Cmp.lt (v1 1) 0 = Cmp.lt (v0 1) 0 := by
      show Cmp.lt (v1 1).toFlt (0 : Flt P.fmt) = Cmp.lt (v0 1).toFlt 0
      rw [heq]
    have ez : isZero (v1 1) e = isZero (v0 1) e := by
      rw [← hom.isZero, heq, hom.isZero]
    rw [el, eg, ez] at hy
    simp only [Bool.and_self, Bool.or_eq_true, not_or, Bool.not_eq_true] at hy
    obtain ⟨⟨h1, h2⟩, h3⟩ := hy
    have h0 : (v0 1).toFlt = 0 := by
      rw [heq] at hfin
      refine Flt.ext hfin trivial (le_antisymm (not_lt.1 fun h => ?_) (not_lt.1 fun h => ?_))
      · exact absurd h2 (by rw [Bool.not_eq_false]; exact (Flt.lt_val (a := (0 : Flt P.fmt)) trivial hfin).trans (decide_eq_true h))
      · exact absurd h3 (by rw [Bool.not_eq_false]; exact (Flt.lt_val (b := (0 : Flt P.fmt)) hfin trivial).trans (decide_eq_true h))
    rw [← hom.isZero, h0, ← hom.zero, hom.isZero] at h1
    have h4 : Cmp.eq (0 : SFlt P.fmt) 0 = true := by rw [eq_zero_iff]; rfl
    unfold isZero at h1
    rw [h4] at h1
    exact (nomatch h1)
  rw [← hom.neg, ← hom.sub, ← hom.sub, ← hom.mul, ← hom.div _ _ hz, ← hom.add]
  simp only [hom.isZero, hom.lt0']

theorem center_toFlt {S : ℕ} (b : BBox (SFlt P.fmt) S) : vmap toFlt b.center = (bmap toFlt b).center := by
  funext i
  show ((b.min i + b.max i) / (of 2)).toFlt = ((b.min i).toFlt + (b.max i).toFlt) / 2
  rw [div_of_ne_negZero _ (of 2) (by rintro ⟨⟩), hom.add]; rfl

theorem vadd_toFlt {S : ℕ} (a b : Vec (SFlt P.fmt) S) : vmap toFlt (a + b) = vmap toFlt a + vmap toFlt b := hom.vadd a b

theorem average_toFlt {S : ℕ} (x : Vec (SFlt P.fmt) S) (l : List (Vec (SFlt P.fmt) S)) :
    vmap toFlt (average x l) = average (vmap toFlt x) (l.map (vmap toFlt)) := by
  have key : ∀ (l : List (Vec (SFlt P.fmt) S)) (s : Vec (SFlt P.fmt) S) (n : SFlt P.fmt), n ≠ negZero →
      (l.foldl (fun (acc : Vec (SFlt P.fmt) S × SFlt P.fmt) p => (acc.1 + p, acc.2 + 1)) (s, n)).2 ≠ negZero ∧
      vmap toFlt (l.foldl (fun (acc : Vec (SFlt P.fmt) S × SFlt P.fmt) p => (acc.1 + p, acc.2 + 1)) (s, n)).1 =
        ((l.map (vmap toFlt)).foldl (fun (acc : Vec (Flt P.fmt) S × Flt P.fmt) p => (acc.1 + p, acc.2 + 1)) (vmap toFlt s, n.toFlt)).1 ∧
      (l.foldl (fun (acc : Vec (SFlt P.fmt) S × SFlt P.fmt) p => (acc.1 + p, acc.2 + 1)) (s, n)).2.toFlt =
        ((l.map (vmap toFlt)).foldl (fun (acc : Vec (Flt P.fmt) S × Flt P.fmt) p => (acc.1 + p, acc.2 + 1)) (vmap toFlt s, n.toFlt)).2 := by
    intro l
    induction l with
    | nil => intro s n hn; exact ⟨hn, rfl, rfl⟩
    | cons p l ih =>
      intro s n hn
      have := ih (s + p) (n + 1) (fun h => hn (add_negZero h).1)
      rw [vadd_toFlt, hom.add] at this
      exact this
  obtain ⟨h1, h2, h3⟩ := key l x 1 (fun h => (nomatch h))
  unfold average
  funext i
  show (_ / _ : SFlt P.fmt).toFlt = _ / _
  rw [div_of_ne_negZero _ _ h1, h3]
  congr 1
  exact congrFun h2 i

theorem vmap_swizzle {A : Type} {B : Type} (φ : A → B) (v : Vec A 3) (axis : ℕ) : vmap φ (swizzle v axis) = swizzle (vmap φ v) axis := by
  unfold swizzle
  split
  · funext i; fin_cases i <;> rfl
  · funext i; fin_cases i <;> rfl
  · rfl

theorem containsLoop_toFlt (e : SFlt P.fmt) (o : Vec (SFlt P.fmt) 3) (axis : ℕ) (fv : Vec (SFlt P.fmt) 3) (l : List (Vec (SFlt P.fmt) 3)) :
    ∀ pv d, containsLoop e.toFlt (vmap toFlt o) axis (vmap toFlt fv) (vmap toFlt pv) d (l.map (vmap toFlt)) = containsLoop e o axis fv pv d l := by
  induction l with
  | nil => intro pv d; simp only [List.map_nil, containsLoop, handlePolygonEdge_toFlt]
  | cons v l ih =>
    intro pv d
    simp only [List.map_cons, containsLoop]
    rw [← vmap_swizzle, ← hom.vsub, handlePolygonEdge_toFlt, ih]

theorem polygonContainsPoint_toFlt (e : SFlt P.fmt) (x : Vec (SFlt P.fmt) 3) (axis : ℕ) (l : List (Vec (SFlt P.fmt) 3)) :
    polygonContainsPoint e.toFlt (vmap toFlt x) axis (l.map (vmap toFlt)) = polygonContainsPoint e x axis l := by
  rcases l with _ | ⟨v, l⟩
  · rfl
  · simp only [List.map_cons, polygonContainsPoint]
    rw [← vmap_swizzle, ← vmap_swizzle, ← hom.vsub, containsLoop_toFlt]

/-- The result of a distance function, component by component. -/
def ldmap {A B : Type} (φ : A → B) (r : LineDistance A) : LineDistance B := ⟨r.parallel, φ r.position1, φ r.distance, r.position2.map φ⟩

theorem squaredDistanceRayLine_toFlt {S : ℕ} (z : SFlt P.fmt) (r : Ray (SFlt P.fmt) S) (l : Line (SFlt P.fmt) S) :
    ldmap toFlt (squaredDistanceRayLine z r l) = squaredDistanceRayLine z.toFlt (rmap toFlt r) (lmap toFlt l) := by
  have hom := hom (F := P.fmt)
  unfold squaredDistanceRayLine
  simp only [rmap, lmap, ← hom.vsub, ← hom.dot, ← hom.mul, ← hom.sub, hom.isZero]
  split
  · simp only [ldmap, Option.map_some, ← hom.projectPoint, ← hom.squaredDistance, ← hom.distanceToProjectedPoint, hom.zero]
  · next hz =>
      have hz := Hom.ne_zero _ _ (Bool.not_eq_true _ ▸ hz)
      have hm : ∀ x : SFlt P.fmt, vmax x.toFlt [(0 : Flt P.fmt)] = (vmax x [0]).toFlt := fun x => (hom.vmax [0] x).symm
      simp only [ldmap, Option.map_some, ← hom.div _ _ hz, hm, ← hom.vscale, ← hom.vadd, ← hom.vsub, ← hom.squaredLength]

theorem squaredDistanceRayRay_toFlt {S : ℕ} (z : SFlt P.fmt) (r s : Ray (SFlt P.fmt) S) :
    ldmap toFlt (squaredDistanceRayRay z r s) = squaredDistanceRayRay z.toFlt (rmap toFlt r) (rmap toFlt s) := by
  have hom := hom (F := P.fmt)
  have hm : ∀ x : SFlt P.fmt, vmax (0 : Flt P.fmt) [x.toFlt] = (vmax 0 [x]).toFlt := fun x => (hom.vmax [x] 0).symm
  have hm' : ∀ x : SFlt P.fmt, vmax x.toFlt [toFlt (0 : SFlt P.fmt)] = (vmax x [0]).toFlt := fun x => (hom.vmax [0] x).symm
  unfold squaredDistanceRayRay
  simp only [rmap, lmap, ← hom.vsub, ← hom.dot, ← hom.mul, ← hom.sub, hom.isZero, hom.lt0]
  split
  · simp only [ldmap, Option.map_some, ← hom.projectPoint, ← hom.squaredDistance, ← hom.distanceToProjectedPoint, hm]
  · next hz =>
      have hz := Hom.ne_zero _ _ (Bool.not_eq_true _ ▸ hz)
      have hd := fun x => div_of_ne_negZero x _ (dot_ne_negZero r.direction r.direction)
      have hi : isZero (0 : Flt P.fmt) z.toFlt = isZero (0 : SFlt P.fmt) z := hom.isZero 0 z
      cases Cmp.lt (dot s.direction r.direction * dot r.direction (s.origin - r.origin) -
        dot r.direction r.direction * dot s.direction (s.origin - r.origin)) 0
      · simp only [Bool.false_eq_true, if_false, hom.isZero, ← hom.div _ _ hz]
        split_ifs <;>
        simp only [ldmap, Option.map_some, hm', ← hom.zero, ← hom.vscale, ← hom.vadd, ← hom.vsub, ← hom.squaredLength]
      · simp only [if_true, hom.isZero, hi, ← hd, ← hom.div _ _ hz]
        split_ifs <;>
        simp only [ldmap, Option.map_some, hm', ← hom.zero, ← hom.div _ _ hz, ← hom.vscale, ← hom.vadd, ← hom.vsub, ← hom.squaredLength]

end SFlt
end vm
