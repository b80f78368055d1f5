import Verif.Model.BBox
import Verif.Lemmas.Mat
import Verif.Lemmas.Scalar
import Mathlib.Order.Interval.Set.Basic
import Mathlib.Order.Lattice

/-! Helper lemmas about bounding boxes. -/

universe u

set_option linter.unusedSectionVars false
set_option linter.unusedSimpArgs false

namespace vm

/-- Used only to evaluate examples. -/
instance vecDecidableLE {K : Type u} [LinearOrder K] {S : ℕ} (a b : Vec K S) : Decidable (a ≤ b) :=
  inferInstanceAs (Decidable (∀ i, a i ≤ b i))

namespace BBox

section order
variable {K : Type u} [LinearOrder K] {S : ℕ}

theorem isValidPair_iff (a b : Vec K S) : isValidPair a b = true ↔ a ≤ b := by
  simp [isValidPair, Pi.le_def]

theorem isValid_iff (b : BBox K S) : b.isValid = true ↔ b.min ≤ b.max := isValidPair_iff _ _

theorem contains_iff (b : BBox K S) (p : Vec K S) : b.contains p = true ↔ p ∈ Set.Icc b.min b.max := by
  simp [contains, Set.mem_Icc, Pi.le_def, forall_and]

theorem containsBox_iff (a b : BBox K S) :
    a.containsBox b = true ↔ a.min ≤ b.min ∧ b.max ≤ a.max := by
  simp [containsBox, Pi.le_def, forall_and]

theorem encloses_iff (a b : BBox K S) :
    a.encloses b = true ↔ ∀ i, a.min i < b.min i ∧ b.max i < a.max i := by
  simp [encloses]

theorem intersects_iff (a b : BBox K S) :
    a.intersects b = true ↔ a.min ≤ b.max ∧ b.min ≤ a.max := by
  simp [intersects, Pi.le_def, forall_and]

theorem merge_min (a b : BBox K S) : (a.merge b).min = a.min ⊓ b.min := by
  simp [merge]; rfl
theorem merge_max (a b : BBox K S) : (a.merge b).max = a.max ⊔ b.max := by
  simp [merge]; rfl

theorem mergePoint_eq (a : BBox K S) (p : Vec K S) : a.mergePoint p = a.merge ⟨p, p⟩ := rfl

theorem ext' {T : Type u} {a b : BBox T S} (h1 : a.min = b.min) (h2 : a.max = b.max) : a = b := by
  cases a; cases b; simp_all

/-- The box of an addition. -/
def Add'.bounds {T : Type u} : Add' T S → BBox T S
  | .point p => ⟨p, p⟩
  | .box b => b

theorem builderAdd_invalid (b : BBox K S) (h : b.isValid = false) (x : Add' K S) :
    builderAdd b x = x.bounds := by
  cases x <;> simp [builderAdd, builderInitialized, h, Add'.bounds]

theorem builderAdd_valid (b : BBox K S) (h : b.isValid = true) (x : Add' K S) :
    builderAdd b x = b.merge x.bounds := by
  cases x <;> simp [builderAdd, builderInitialized, h, Add'.bounds, mergePoint_eq]

theorem builder_fold (l : List (Add' K S)) (hv : ∀ x ∈ l, x.bounds.isValid = true) (b : BBox K S)
    (hb : b.isValid = true) :
    let r := l.foldl builderAdd b
    r.isValid = true ∧ (r.min ≤ b.min ∧ b.max ≤ r.max) ∧
    (∀ x ∈ l, r.min ≤ x.bounds.min ∧ x.bounds.max ≤ r.max) ∧
    ∀ lo hi, lo ≤ b.min → b.max ≤ hi → (∀ x ∈ l, lo ≤ x.bounds.min ∧ x.bounds.max ≤ hi) →
      lo ≤ r.min ∧ r.max ≤ hi := by
  induction l generalizing b with
  | nil => exact ⟨hb, ⟨le_rfl, le_rfl⟩, by simp, fun lo hi h1 h2 _ => ⟨h1, h2⟩⟩
  | cons x l ih =>
    simp only [List.foldl_cons]
    have hb' : (builderAdd b x).isValid = true := by
      rw [builderAdd_valid b hb, isValid_iff, merge_min, merge_max]
      exact inf_le_left.trans (((isValid_iff b).1 hb).trans le_sup_left)
    obtain ⟨h1, h2, h3, h4⟩ := ih (fun y hy => hv y (by simp [hy])) (builderAdd b x) hb'
    rw [builderAdd_valid b hb] at h1 h2 h3 h4 ⊢
    simp only [merge_min, merge_max] at h2 h4
    refine ⟨h1, ⟨h2.1.trans inf_le_left, le_sup_left.trans h2.2⟩, ?_, ?_⟩
    · intro y hy
      rcases List.mem_cons.1 hy with rfl | hy
      · exact ⟨h2.1.trans inf_le_right, le_sup_right.trans h2.2⟩
      · exact h3 y hy
    · intro lo hi hlo hhi hl
      have hx := hl x (by simp)
      exact h4 lo hi (le_inf hlo hx.1) (sup_le hhi hx.2) fun y hy => hl y (by simp [hy])

theorem init_invalid [Zero K] [One K] (h01 : (0 : K) < 1) (hS : 0 < S) :
    (builderInit : BBox K S).isValid = false := by
  rw [← Bool.not_eq_true, isValid_iff]
  intro h
  exact absurd (h ⟨0, hS⟩) (not_le.2 h01)

theorem builderRun_spec [Zero K] [One K] (h01 : (0 : K) < 1) (hS : 0 < S) (l : List (Add' K S)) (hl : l ≠ [])
    (hv : ∀ x ∈ l, x.bounds.isValid = true) :
    let r := builderRun l
    r.isValid = true ∧ (∀ x ∈ l, r.min ≤ x.bounds.min ∧ x.bounds.max ≤ r.max) ∧
    ∀ lo hi, (∀ x ∈ l, lo ≤ x.bounds.min ∧ x.bounds.max ≤ hi) → lo ≤ r.min ∧ r.max ≤ hi := by
  rcases l with _ | ⟨x, l⟩
  · exact absurd rfl hl
  · have hx := hv x (by simp)
    obtain ⟨h1, h2, h3, h4⟩ := builder_fold l (fun y hy => hv y (by simp [hy])) x.bounds hx
    simp only [builderRun, List.foldl_cons, builderAdd_invalid _ (init_invalid h01 hS)]
    refine ⟨h1, ?_, ?_⟩
    · intro y hy
      rcases List.mem_cons.1 hy with rfl | hy
      · exact h2
      · exact h3 y hy
    · intro lo hi hl
      have := hl x (by simp)
      exact h4 lo hi this.1 this.2 fun y hy => hl y (by simp [hy])

end order

/-! ### Maps that preserve the comparison operators -/
section hom
variable {A B : Type u} [Cmp A] [Cmp B] {S : ℕ}

/-- A function between scalar types that preserves the comparison operators. -/
structure CmpHom (f : A → B) : Prop where
  lt : ∀ a b, Cmp.lt (f a) (f b) = Cmp.lt a b
  le : ∀ a b, Cmp.le (f a) (f b) = Cmp.le a b

/-- Apply a function to all components. -/
def map (f : A → B) (b : BBox A S) : BBox B S := ⟨f ∘ b.min, f ∘ b.max⟩

/-- Apply a function to all components. -/
def Add'.map (f : A → B) : Add' A S → Add' B S
  | .point p => .point (f ∘ p)
  | .box b => .box (b.map f)

variable {f : A → B} (hf : CmpHom f)
include hf

theorem CmpHom.vmin2 (a b : Vec A S) : vmin2 (f ∘ a) (f ∘ b) = f ∘ vmin2 a b := by
  funext i
  simp only [vm.vmin2, vvmin, vmin, List.map_nil, Function.comp_apply, hf.lt]
  split_ifs <;> rfl

theorem CmpHom.vmax2 (a b : Vec A S) : vmax2 (f ∘ a) (f ∘ b) = f ∘ vmax2 a b := by
  funext i
  simp only [vm.vmax2, vvmax, vmax, List.map_nil, Function.comp_apply, hf.lt]
  split_ifs <;> rfl

theorem CmpHom.isValid (b : BBox A S) : (b.map f).isValid = b.isValid := by
  simp [BBox.isValid, isValidPair, map, hf.lt]

theorem CmpHom.contains (b : BBox A S) (p : Vec A S) : (b.map f).contains (f ∘ p) = b.contains p := by
  simp [BBox.contains, map, hf.lt]

theorem CmpHom.merge (a b : BBox A S) : (a.map f).merge (b.map f) = (a.merge b).map f := by
  simp [BBox.merge, map, hf.vmin2, hf.vmax2]

theorem CmpHom.mergePoint (a : BBox A S) (p : Vec A S) :
    (a.map f).mergePoint (f ∘ p) = (a.mergePoint p).map f := by
  simp [BBox.mergePoint, map, hf.vmin2, hf.vmax2]

theorem CmpHom.builderAdd (b : BBox A S) (x : Add' A S) :
    builderAdd (b.map f) (x.map f) = (builderAdd b x).map f := by
  cases x with
  | point p =>
    rcases h : b.isValid with _ | _
    · simp [BBox.builderAdd, Add'.map, builderInitialized, hf.isValid, h]; rfl
    · simp [BBox.builderAdd, Add'.map, builderInitialized, hf.isValid, hf.mergePoint, h]
  | box c =>
    rcases h : b.isValid with _ | _
    · simp [BBox.builderAdd, Add'.map, builderInitialized, hf.isValid, h]
    · simp [BBox.builderAdd, Add'.map, builderInitialized, hf.isValid, hf.merge, h]

theorem CmpHom.builderRun [Zero A] [One A] [Zero B] [One B] (h0 : f 0 = 0) (h1 : f 1 = 1)
    (l : List (Add' A S)) : builderRun (l.map (Add'.map f)) = (builderRun l).map f := by
  have gen : ∀ (l : List (Add' A S)) (b : BBox A S),
      (l.map (Add'.map f)).foldl BBox.builderAdd (b.map f) = (l.foldl BBox.builderAdd b).map f := by
    intro l
    induction l with
    | nil => intro b; rfl
    | cons x l ih =>
      intro b
      simp only [List.map_cons, List.foldl_cons, hf.builderAdd, ih]
  rw [BBox.builderRun, BBox.builderRun, ← gen]
  congr 1
  apply ext'
  · funext i; exact h1.symm
  · funext i; exact h0.symm

end hom
end BBox

/-! ### Floats other than NaN -/
section nn

/-- The floats other than NaN. -/
abbrev NN (F : Fmt) := {a : Flt F // a ≠ Flt.nan}

variable {F : Fmt}

/-- Numerical value. -/
def NN.val (a : NN F) : Ext := (Flt.key a.1).get (by
  rcases a with ⟨_ | _ | _ | _, h⟩
  · exact absurd rfl h
  · rfl
  · rfl
  · rfl)

theorem NN.key (a : NN F) : Flt.key a.1 = some a.val := by simp [NN.val]

theorem NN.val_inj {a b : NN F} (h : a.val = b.val) : a = b := by
  have : Flt.key a.1 = Flt.key b.1 := by rw [NN.key, NN.key, h]
  apply Subtype.ext
  rcases a with ⟨a, ha⟩
  rcases b with ⟨b, hb⟩
  simp only at this ⊢
  rcases a with _ | _ | _ | ⟨q, hq⟩ <;> rcases b with _ | _ | _ | ⟨r, hr⟩ <;>
    first
    | rfl
    | (exfalso; simp [Flt.key, Ext.ofRat] at this; done)
    | skip
  simp only [Flt.key, Ext.ofRat, Option.some.injEq] at this
  have h2 : q = r := WithTop.coe_inj.1 (WithBot.coe_inj.1 this)
  subst h2; rfl

noncomputable instance : LinearOrder (NN F) := LinearOrder.lift' NN.val fun _ _ h => NN.val_inj h

instance : Zero (NN F) := ⟨⟨0, by intro h; cases h⟩⟩
instance : One (NN F) := ⟨⟨1, by intro h; cases h⟩⟩

theorem NN.lt_iff (a b : NN F) : a < b ↔ a.val < b.val := Iff.rfl
theorem NN.le_iff (a b : NN F) : a ≤ b ↔ a.val ≤ b.val := Iff.rfl

theorem NN.zero_lt_one : (0 : NN F) < 1 := by
  rw [NN.lt_iff]
  show Ext.ofRat 0 < Ext.ofRat 1
  exact WithBot.coe_lt_coe.2 (WithTop.coe_lt_coe.2 (by norm_num))

theorem NN.cmpHom : BBox.CmpHom (Subtype.val : NN F → Flt F) where
  lt a b := by
    rw [lt_of_keys (a := a.1) (b := b.1) (NN.key a) (NN.key b), exact_lt]; rfl
  le a b := by
    rw [le_of_keys (a := a.1) (b := b.1) (NN.key a) (NN.key b), exact_le]; rfl

end nn

section point
variable {K : Type u} [Field K] {S : ℕ}

theorem mmulPoint_apply (m : Mat K (S + 1) (S + 1)) (p : Vec K S) (i : Fin S) :
    mmulPoint m p i = (∑ c : Fin S, m c.castSucc i.castSucc * p c + m (Fin.last S) i.castSucc) /
      (∑ c : Fin S, m c.castSucc (Fin.last S) * p c + m (Fin.last S) (Fin.last S)) := by
  simp only [mmulPoint, toCartesian, mmulVec_apply, Fin.sum_univ_castSucc, toHomogeneous, Fin.snoc_castSucc,
    Fin.snoc_last, mul_one]

end point
end vm
