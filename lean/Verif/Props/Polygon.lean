import Verif.Lemmas.Polygon
import Verif.Lemmas.Vec
import Verif.Props.Order

/-! # C61, C62, C63: polygons -/

universe u

set_option linter.unusedSectionVars false
set_option linter.unusedSimpArgs false

namespace vm

section ieee
variable {T : Type u} [IEEE T] [Add T] [Sub T] [Zero T] [ZeroLaw T] {S : ℕ}

/-! ### C61 -/

/-- Specification: the class invariant, no vertex is less than the first one. -/
def Polygon.Canonical (p : Polygon T S) : Prop :=
  ∀ v vs, p.vertices = v :: vs → ∀ w ∈ vs, vlt w v = false

/-- Specification: no two vertices are equal. -/
def DistinctVertices (l : List (Vec T S)) : Prop := l.Pairwise fun a b => veq a b = false

/-- Specification: the lists have equal vertices in the same order. -/
def SameVertices (l r : List (Vec T S)) : Prop := List.Forall₂ (fun a b => veq a b = true) l r

theorem sameVertices_iff (l r : List (Vec T S)) : SameVertices l r ↔ l.map keyVec = r.map keyVec := by
  unfold SameVertices
  simp only [veq_iff]
  rw [← List.forall₂_map_left_iff (f := keyVec) (R := fun a b => a = keyVec b),
    ← List.forall₂_map_right_iff (f := keyVec) (R := fun a b => a = b), List.forall₂_eq_eq_eq]

theorem distinct_iff (l : List (Vec T S)) : DistinctVertices l ↔ (l.map keyVec).Nodup := by
  unfold DistinctVertices List.Nodup
  rw [List.pairwise_map]
  simp only [← Bool.not_eq_true, veq_iff]

theorem polygon_beq_iff (p q : Polygon T S) :
    Polygon.beq p q = true ↔ p.vertices.map keyVec = q.vertices.map keyVec := by
  unfold Polygon.beq Polygon.compare
  rw [beq_iff_eq, rangeCompare_eq_zero]

theorem canonical_of_le {v : Vec T S} {vs : List (Vec T S)} (h : ∀ w ∈ vs, keyVec v ≤ keyVec w) :
    Polygon.Canonical ⟨v :: vs⟩ := by
  intro v' vs' e w hw
  cases e
  rw [← Bool.not_eq_true, vlt_iff, not_lt]; exact h w hw

theorem Polygon.Canonical.le {p : Polygon T S} (h : p.Canonical) {v : Vec T S} {vs : List (Vec T S)}
    (e : p.vertices = v :: vs) : ∀ w ∈ vs, keyVec v ≤ keyVec w := by
  intro w hw
  have := h v vs e w hw
  rw [← Bool.not_eq_true, vlt_iff, not_lt] at this
  exact this

theorem mk'_canonical (l : List (Vec T S)) : (Polygon.mk' l).Canonical := by
  obtain ⟨k, hk, hmin⟩ := rotateMin_spec l
  intro v vs e w hw
  rw [← Bool.not_eq_true, vlt_iff, not_lt]
  refine hmin v vs e w ?_
  have : w ∈ Polygon.rotateMinToFront l := by
    have e' : Polygon.rotateMinToFront l = v :: vs := e
    rw [e']; exact List.mem_cons_of_mem _ hw
  rw [hk, List.mem_rotate] at this
  exact this

/-- The constructor keeps the vertex sequence up to rotation and puts a least vertex first; for every vertex
list, including NaN components and repeated vertices. -/
theorem C61_rotation (l : List (Vec T S)) :
    (∃ k, (Polygon.mk' l).vertices = l.rotate k) ∧ (Polygon.mk' l).Canonical ∧
    (∀ v vs, (Polygon.mk' l).vertices = v :: vs → v ∈ l ∧ ∀ w ∈ l, vle v w = true) := by
  obtain ⟨k, hk, hmin⟩ := rotateMin_spec l
  refine ⟨⟨k, hk⟩, mk'_canonical l, fun v vs e => ⟨?_, fun w hw => ?_⟩⟩
  · have e' : Polygon.rotateMinToFront l = v :: vs := e
    rw [← List.mem_rotate (n := k), ← hk, e']; exact List.mem_cons_self
  · rw [vle_iff]; exact hmin v vs e w hw

theorem mk'_rotate_keys (l l' : List (Vec T S)) (hd : DistinctVertices l) (n : ℕ)
    (h : (l.map keyVec).rotate n = l'.map keyVec) :
    (Polygon.mk' l).vertices.map keyVec = (Polygon.mk' l').vertices.map keyVec := by
  rw [distinct_iff] at hd
  obtain ⟨k, hk, hmin⟩ := rotateMin_spec l
  obtain ⟨k', hk', hmin'⟩ := rotateMin_spec l'
  show (Polygon.rotateMinToFront l).map keyVec = (Polygon.rotateMinToFront l').map keyVec
  have e1 : (Polygon.rotateMinToFront l).map keyVec = (l.map keyVec).rotate k := by rw [hk, List.map_rotate]
  have e2 : (Polygon.rotateMinToFront l').map keyVec = (l.map keyVec).rotate (n + k') := by
    rw [hk', List.map_rotate, ← h, List.rotate_rotate]
  rcases h1 : Polygon.rotateMinToFront l with _ | ⟨v, vs⟩
  · rw [h1] at e1
    have : l.map keyVec = [] := List.length_eq_zero_iff.1 (by rw [← List.length_rotate _ k, ← e1]; rfl)
    rw [e2, this]; simp
  · rcases h2 : Polygon.rotateMinToFront l' with _ | ⟨v', vs'⟩
    · rw [h2] at e2
      have : l.map keyVec = [] := List.length_eq_zero_iff.1 (by rw [← List.length_rotate _ (n + k'), ← e2]; rfl)
      rw [h1, this] at e1; simp at e1
    · have hv : keyVec v = keyVec v' := by
        apply le_antisymm
        · have : keyVec v' ∈ l.map keyVec := by
            rw [← List.mem_rotate (n := n + k'), ← e2, h2]; exact List.mem_cons_self
          obtain ⟨w, hw, e⟩ := List.mem_map.1 this
          rw [← e]; exact hmin v vs h1 w hw
        · have : keyVec v ∈ l'.map keyVec := by
            rw [← h, List.mem_rotate, ← List.mem_rotate (n := k), ← e1, h1]; exact List.mem_cons_self
          obtain ⟨w, hw, e⟩ := List.mem_map.1 this
          rw [← e]; exact hmin' v' vs' h2 w hw
      rw [← h1, ← h2, e1, e2]
      refine rotate_eq_of_head hd (a := keyVec v) (xs := vs.map keyVec) (ys := vs'.map keyVec) ?_ ?_
      · rw [← e1, h1]; rfl
      · rw [← e2, h2, hv]; rfl

/-- Constructing a polygon from a list of distinct vertices or from any rotation of it gives equal polygons,
and polygons with distinct vertices are equal only then. -/
theorem C61_equality (l l' : List (Vec T S)) (hd : DistinctVertices l) :
    (∀ n, Polygon.beq (Polygon.mk' l) (Polygon.mk' (l.rotate n)) = true) ∧
    (Polygon.beq (Polygon.mk' l) (Polygon.mk' l') = true ↔ ∃ n, SameVertices (l.rotate n) l') := by
  refine ⟨fun n => ?_, ?_⟩
  · rw [polygon_beq_iff]
    exact mk'_rotate_keys l _ hd n (by rw [List.map_rotate])
  · rw [polygon_beq_iff]
    constructor
    · intro h
      obtain ⟨k, hk, -⟩ := rotateMin_spec l
      obtain ⟨k', hk', -⟩ := rotateMin_spec l'
      have h' : (l.map keyVec).rotate k = (l'.map keyVec).rotate k' := by
        rw [← List.map_rotate, ← List.map_rotate, ← hk, ← hk']; exact h
      have hr : (l.map keyVec) ~r (l'.map keyVec) := by
        refine List.IsRotated.trans ⟨k, h'⟩ ?_
        exact List.IsRotated.symm ⟨k', rfl⟩
      obtain ⟨n, hn⟩ := hr
      exact ⟨n, (sameVertices_iff _ _).2 (by rw [List.map_rotate]; exact hn)⟩
    · rintro ⟨n, hn⟩
      exact mk'_rotate_keys l l' hd n (by rw [← List.map_rotate]; exact (sameVertices_iff _ _).1 hn)

/-! ### C62 -/

theorem invert_vertices {p : Polygon T S} (h : p.Canonical) {v : Vec T S} {vs : List (Vec T S)}
    (e : p.vertices = v :: vs) : p.invert.vertices = v :: vs.reverse := by
  unfold Polygon.invert
  rw [e]
  simp only
  by_cases hl : 1 < (v :: vs).length
  · rw [if_pos hl]
    exact rotateMin_keep v _ fun w hw => h.le e w (List.mem_reverse.1 hw)
  · rw [if_neg hl]
    have : vs = [] := List.length_eq_zero_iff.1 (by simp at hl; simpa using hl)
    subst this
    exact rotateMin_keep v _ fun w hw => h.le e w hw

/-- `invert` keeps the first vertex, reverses the order of the others (so the orientation is reversed), keeps
the invariant and is an involution; polygons built from a list and from the reversed list are equal up to
`invert` if the vertices are distinct. -/
theorem C62_invert (p : Polygon T S) (h : p.Canonical) :
    p.invert.vertices.reverse ~r p.vertices ∧ List.Perm p.invert.vertices p.vertices ∧ p.invert.Canonical ∧
    p.invert.invert = p ∧ p.invert.vertices.head? = p.vertices.head? ∧
    (DistinctVertices p.vertices → Polygon.beq p.invert (Polygon.mk' p.vertices.reverse) = true) := by
  rcases e : p.vertices with _ | ⟨v, vs⟩
  · have hi : p.invert = ⟨[]⟩ := by unfold Polygon.invert; rw [e]; rfl
    have hp : p = ⟨[]⟩ := Polygon.ext e
    rw [hi]
    refine ⟨List.IsRotated.refl _, List.Perm.refl _, fun v vs h => (by cases h), ?_, rfl, fun _ => ?_⟩
    · rw [hp]; rfl
    · rw [polygon_beq_iff]; rfl
  · have hi := invert_vertices h e
    have hrot : (v :: vs.reverse).reverse ~r v :: vs := by
      simp only [List.reverse_cons, List.reverse_reverse]
      exact ⟨vs.length, by rw [List.rotate_append_length_eq]; rfl⟩
    have hperm : List.Perm (v :: vs.reverse) (v :: vs) := (List.reverse_perm vs).cons v
    have hc : p.invert.Canonical := by
      intro v' vs' e' w hw
      rw [hi] at e'; cases e'
      exact h v vs e w (List.mem_reverse.1 hw)
    refine ⟨by rw [hi]; exact hrot, by rw [hi]; exact hperm, hc, ?_, by rw [hi]; rfl, fun hd => ?_⟩
    · apply Polygon.ext
      rw [invert_vertices hc hi, List.reverse_reverse, e]
    · have hd' : DistinctVertices (v :: vs.reverse) := by
        rw [distinct_iff] at hd ⊢
        exact (hperm.map keyVec).nodup_iff.2 hd
      have hinv : p.invert = Polygon.mk' (v :: vs.reverse) := by
        apply Polygon.ext
        rw [hi]
        exact (rotateMin_keep v _ fun w hw => h.le e w (List.mem_reverse.1 hw)).symm
      rw [hinv, (C61_equality _ _ hd').2]
      obtain ⟨n, hn⟩ := hrot.reverse
      refine ⟨n, (sameVertices_iff _ _).2 ?_⟩
      rw [List.reverse_reverse] at hn
      rw [hn]

/-- The polygons that can be built with the constructors and operations of the class (the converting
constructor is the subject of C80). -/
inductive Polygon.Built [One T] [Mul T] [Div T] : Polygon T S → Prop
  | default : Polygon.Built Polygon.empty
  | vertices (l : List (Vec T S)) : Polygon.Built (Polygon.mk' l)
  | invert {p : Polygon T S} : Polygon.Built p → Polygon.Built p.invert
  | translate {p : Polygon T S} (d : Vec T S) : Polygon.Built p → Polygon.Built (p.translate d)
  | transform {p : Polygon T S} (m : Mat T (S + 1) (S + 1)) : Polygon.Built p → Polygon.Built (p.transform m)

/-- A least vertex comes first after every sequence of constructors and operations, whatever the arithmetic
does. -/
theorem C61_invariant [One T] [Mul T] [Div T] (p : Polygon T S) (h : Polygon.Built p) : p.Canonical := by
  cases h with
  | default => intro v vs e; cases e
  | vertices l => exact mk'_canonical l
  | @invert p hp =>
    unfold Polygon.invert
    rcases p.vertices with _ | ⟨v, vs⟩
    · exact mk'_canonical _
    · simp only; split_ifs <;> exact mk'_canonical _
  | translate d hp => exact mk'_canonical _
  | transform m hp => exact mk'_canonical _

/-- `translate` and `transform` map every vertex and keep the cyclic order of the vertices, whatever the
arithmetic does. -/
theorem C62_map [One T] [Mul T] [Div T] (p : Polygon T S) (d : Vec T S) (m : Mat T (S + 1) (S + 1)) :
    (p.translate d).vertices ~r p.vertices.map (· + d) ∧
    (p.transform m).vertices ~r p.vertices.map (mmulPoint m) := by
  constructor
  · obtain ⟨k, hk, -⟩ := rotateMin_spec (addList p.vertices d)
    have e : addList p.vertices d = p.vertices.map (· + d) := foldl_append_map _ _
    rw [e] at hk
    show Polygon.rotateMinToFront (addList p.vertices d) ~r _
    rw [e, hk]
    exact List.IsRotated.symm ⟨k, rfl⟩
  · obtain ⟨k, hk, -⟩ := rotateMin_spec (mmulPoints m p.vertices)
    have e : mmulPoints m p.vertices = p.vertices.map (mmulPoint m) := foldl_append_map _ _
    rw [e] at hk
    show Polygon.rotateMinToFront (mmulPoints m p.vertices) ~r _
    rw [e, hk]
    exact List.IsRotated.symm ⟨k, rfl⟩

/-- `hasVertex` is membership, with NaN components equal to each other. -/
theorem C62_has_vertex (p : Polygon T S) (v : Vec T S) :
    p.hasVertex v = true ↔ ∃ w ∈ p.vertices, ∀ i, sameScalar (w i) (v i) := by
  unfold Polygon.hasVertex
  rw [List.any_eq_true]
  simp only [C01_eq_is_componentwise]

/-- `get_vertices` lists the vertices of all polygons, in order. -/
theorem C62_get_vertices {α : Type u} (l : List (Polygon α S)) :
    Polygon.getVertices l = l.flatMap fun p => p.vertices := by
  have inner : ∀ (vs : List (Vec α S)) acc, vs.foldl (fun out v => out ++ [v]) acc = acc ++ vs := by
    intro vs
    induction vs with
    | nil => intro acc; simp
    | cons x l ih => intro acc; rw [List.foldl_cons, ih]; simp
  have gen : ∀ (l : List (Polygon α S)) acc,
      l.foldl (fun out p => p.vertices.foldl (fun out v => out ++ [v]) out) acc = acc ++ l.flatMap fun p => p.vertices := by
    intro l
    induction l with
    | nil => intro acc; simp
    | cons x l ih => intro acc; rw [List.foldl_cons, ih, inner]; simp
  simpa [Polygon.getVertices] using gen l []

/-! ### C63 -/

/-- `compare` on polygons returns only -1, 0 and 1, swapping the arguments negates it, it is transitive, and
`==` is a congruence for it: `<` is a strict weak order.  The relational operators are consistent with it. -/
theorem C63_compare :
    (∀ a b : Polygon T S, Polygon.compare a b 0 = -1 ∨ Polygon.compare a b 0 = 0 ∨ Polygon.compare a b 0 = 1) ∧
    (∀ a b : Polygon T S, Polygon.compare b a 0 = -Polygon.compare a b 0) ∧
    (∀ a b c : Polygon T S, Polygon.blt a b = true → Polygon.blt b c = true → Polygon.blt a c = true) ∧
    (∀ a b c : Polygon T S, Polygon.beq a b = true → Polygon.compare a c 0 = Polygon.compare b c 0) ∧
    (∀ a b : Polygon T S, Polygon.beq a b = true ↔ SameVertices a.vertices b.vertices) ∧
    (∀ a b : Polygon T S, Polygon.bne a b = !(Polygon.beq a b) ∧ Polygon.bgt a b = Polygon.blt b a ∧
      Polygon.bge a b = !(Polygon.blt a b) ∧ Polygon.ble a b = !(Polygon.blt b a) ∧
      Polygon.ble a b = (Polygon.blt a b || Polygon.beq a b)) := by
  let k : Polygon T S → List (KV T S) := fun p => p.vertices.map keyVec
  have hk : ∀ a b : Polygon T S, Polygon.compare a b 0 = if k a < k b then -1 else if k b < k a then 1 else 0 :=
    fun a b => rangeCompare_zero a.vertices b.vertices
  have tri : ∀ a b : Polygon T S, (k a < k b ∧ Polygon.compare a b 0 = -1 ∧ Polygon.compare b a 0 = 1) ∨
      (k a = k b ∧ Polygon.compare a b 0 = 0 ∧ Polygon.compare b a 0 = 0) ∨
      (k b < k a ∧ Polygon.compare a b 0 = 1 ∧ Polygon.compare b a 0 = -1) := by
    intro a b
    rw [hk, hk]
    rcases lt_trichotomy (k a) (k b) with h | h | h
    · exact Or.inl ⟨h, by simp [h], by simp [h, not_lt_of_gt h]⟩
    · exact Or.inr (Or.inl ⟨h, by simp [h], by simp [h]⟩)
    · exact Or.inr (Or.inr ⟨h, by simp [h, not_lt_of_gt h], by simp [h]⟩)
  have hlt : ∀ a b : Polygon T S, Polygon.blt a b = true ↔ k a < k b := by
    intro a b
    unfold Polygon.blt
    rcases tri a b with ⟨h, e, -⟩ | ⟨h, e, -⟩ | ⟨h, e, -⟩ <;> rw [e]
    · simp [h]
    · simp [h]
    · simp [not_lt_of_gt h]
  refine ⟨fun a b => ?_, fun a b => ?_, fun a b c h1 h2 => ?_, fun a b c h => ?_, fun a b => ?_, fun a b => ?_⟩
  · rcases tri a b with ⟨_, h, _⟩ | ⟨_, h, _⟩ | ⟨_, h, _⟩ <;> simp [h]
  · rcases tri a b with ⟨_, h, h'⟩ | ⟨_, h, h'⟩ | ⟨_, h, h'⟩ <;> rw [h, h'] <;> rfl
  · rw [hlt] at *; exact h1.trans h2
  · have e : k a = k b := (polygon_beq_iff a b).1 h
    rw [hk, hk, e]
  · rw [polygon_beq_iff, sameVertices_iff]
  · unfold Polygon.bne Polygon.beq Polygon.bgt Polygon.blt Polygon.bge Polygon.ble
    rcases tri a b with ⟨_, h, h'⟩ | ⟨_, h, h'⟩ | ⟨_, h, h'⟩ <;> rw [h, h'] <;> decide

/-- `<` is decided by the first pair of different vertices, and a proper prefix is less. -/
theorem C63_lexicographic (a b : Polygon T S) :
    Polygon.blt a b = true ↔
      (∃ l v w r r', a.vertices = l ++ v :: r ∧ (∃ l', SameVertices l l' ∧ b.vertices = l' ++ w :: r') ∧
        vlt v w = true) ∨
      (∃ l' w r', SameVertices a.vertices l' ∧ b.vertices = l' ++ w :: r') := by
  have hlt : Polygon.blt a b = true ↔ a.vertices.map keyVec < b.vertices.map keyVec := by
    unfold Polygon.blt Polygon.compare
    rw [rangeCompare_zero]
    rcases lt_trichotomy (a.vertices.map keyVec) (b.vertices.map keyVec) with h | h | h
    · simp [h]
    · simp [h]
    · simp [not_lt_of_gt h, h]
  rw [hlt]
  generalize a.vertices = x
  generalize b.vertices = y
  induction x generalizing y with
  | nil =>
    rcases y with _ | ⟨w, ws⟩
    · simp
    · simp only [List.map_nil, List.map_cons, List.nil_lt_cons, true_iff]
      exact Or.inr ⟨[], w, ws, List.Forall₂.nil, rfl⟩
  | cons v vs ih =>
    rcases y with _ | ⟨w, ws⟩
    · simp
    · simp only [List.map_cons, List.cons_lt_cons_iff]
      constructor
      · rintro (h | ⟨he, h⟩)
        · exact Or.inl ⟨[], v, w, vs, ws, rfl, ⟨[], List.Forall₂.nil, rfl⟩, (vlt_iff _ _).2 h⟩
        · have hv : veq v w = true := (veq_iff _ _).2 he
          rcases (ih ws).1 h with ⟨l, v', w', r, r', e1, ⟨l', hl', e2⟩, hlt'⟩ | ⟨l', w', r', h1, e2⟩
          · exact Or.inl ⟨v :: l, v', w', r, r', by rw [e1]; rfl,
              ⟨w :: l', List.Forall₂.cons hv hl', by rw [e2]; rfl⟩, hlt'⟩
          · exact Or.inr ⟨w :: l', w', r', List.Forall₂.cons hv h1, by rw [e2]; rfl⟩
      · rintro (⟨l, v', w', r, r', e1, ⟨l', hl', e2⟩, hlt'⟩ | ⟨l', w', r', h1, e2⟩)
        · cases hl' with
          | nil =>
            simp only [List.nil_append, List.cons.injEq] at e1 e2
            left; rw [e1.1, e2.1]; exact (vlt_iff _ _).1 hlt'
          | @cons a b l1 l2 hab htl =>
            simp only [List.cons_append, List.cons.injEq] at e1 e2
            right
            refine ⟨by rw [e1.1, e2.1]; exact (veq_iff _ _).1 hab, (ih ws).2 (Or.inl ?_)⟩
            exact ⟨l1, v', w', r, r', e1.2, ⟨l2, htl, e2.2⟩, hlt'⟩
        · cases h1 with
          | @cons a b l1 l2 hab htl =>
            simp only [List.cons_append, List.cons.injEq] at e2
            right
            refine ⟨by rw [e2.1]; exact (veq_iff _ _).1 hab, (ih ws).2 (Or.inr ?_)⟩
            exact ⟨l2, w', r', htl, e2.2⟩

/-- `compareUnoriented` returns 0 for polygons with distinct vertices that are equal or equal up to
orientation; it returns 0 only if the polygons are equal, equal up to orientation, or agree at all vertices
except the second.  It is antisymmetric.  Missing for the full claim: excluding the last case, which is
impossible (`C63_unoriented_fails`). -/
theorem C63_unoriented_partial (a b : Polygon T S) (hb : b.Canonical) :
    (DistinctVertices a.vertices → (Polygon.beq a b = true ∨ Polygon.beq a b.invert = true) →
      Polygon.compareUnoriented a b 0 = 0) ∧
    (Polygon.compareUnoriented a b 0 = 0 → Polygon.beq a b = true ∨ Polygon.beq a b.invert = true ∨
      ∃ l0 l1 r0 r1 ls rs, a.vertices = l0 :: l1 :: ls ∧ b.vertices = r0 :: r1 :: rs ∧ veq l0 r0 = true ∧
        veq l1 r1 = false ∧ SameVertices ls rs) ∧
    Polygon.compareUnoriented b a 0 = -Polygon.compareUnoriented a b 0 := by
  have anti : ∀ l r : List (Vec T S), rangeCompare 0 r l = -rangeCompare 0 l r :=
    fun l r => C63_compare.2.1 ⟨l⟩ ⟨r⟩
  have vanti : ∀ l r : Vec T S, vcompare r l 0 = -vcompare l r 0 := C01_compare_total_order.2.1
  rcases ea : a.vertices with _ | ⟨l0, ls⟩ <;> rcases eb : b.vertices with _ | ⟨r0, rs⟩
  · have : Polygon.compareUnoriented a b 0 = 0 := by unfold Polygon.compareUnoriented; rw [ea, eb]; rfl
    have h2 : Polygon.compareUnoriented b a 0 = 0 := by unfold Polygon.compareUnoriented; rw [ea, eb]; rfl
    refine ⟨fun _ _ => this, fun _ => Or.inl ?_, by rw [this, h2]; rfl⟩
    rw [polygon_beq_iff, ea, eb]
  · have h1 : Polygon.compareUnoriented a b 0 = -1 := by
      unfold Polygon.compareUnoriented; rw [ea, eb]; simp
    have h2 : Polygon.compareUnoriented b a 0 = 1 := by
      unfold Polygon.compareUnoriented; rw [ea, eb]; simp
    refine ⟨fun _ h => ?_, fun h => (by rw [h1] at h; cases h), by rw [h1, h2]; rfl⟩
    exfalso
    rcases h with h | h <;> rw [polygon_beq_iff, ea] at h
    · rw [eb] at h; simp at h
    · rw [invert_vertices hb eb] at h; simp at h
  · have h1 : Polygon.compareUnoriented a b 0 = 1 := by
      unfold Polygon.compareUnoriented; rw [ea, eb]; simp
    have h2 : Polygon.compareUnoriented b a 0 = -1 := by
      unfold Polygon.compareUnoriented; rw [ea, eb]; simp
    refine ⟨fun _ h => ?_, fun h => (by rw [h1] at h; cases h), by rw [h1, h2]⟩
    exfalso
    rcases h with h | h <;> rw [polygon_beq_iff, ea] at h
    · rw [eb] at h; simp at h
    · have hbi : b.invert.vertices = [] := by unfold Polygon.invert; rw [eb]; rfl
      rw [hbi] at h; simp at h
  · have hinv : b.invert.vertices = r0 :: rs.reverse := invert_vertices hb eb
    simp only [polygon_beq_iff, distinct_iff, ea, eb, hinv, List.map_cons, List.cons.injEq]
    by_cases hlen : ls.length = rs.length
    swap
    · have hne : (l0 :: ls).length ≠ (r0 :: rs).length := by simpa using hlen
      have hno : ls.map keyVec ≠ rs.map keyVec := fun h => hlen (by
        have := congrArg List.length h; simpa using this)
      have hno' : ls.map keyVec ≠ rs.reverse.map keyVec := fun h => hlen (by
        have := congrArg List.length h; simpa using this)
      refine ⟨fun _ h => ?_, fun h => ?_, ?_⟩
      · rcases h with h | h
        · exact absurd h.2 hno
        · exact absurd h.2 hno'
      · exfalso
        unfold Polygon.compareUnoriented at h
        rw [ea, eb] at h
        rcases lt_or_gt_of_ne hne with hlt | hlt
        · rw [if_pos hlt] at h; cases h
        · rw [if_neg (not_lt_of_gt hlt), if_pos hlt] at h; cases h
      · unfold Polygon.compareUnoriented
        rw [ea, eb]
        rcases lt_or_gt_of_ne hne with hlt | hlt
        · rw [if_pos hlt, if_neg (not_lt_of_gt hlt), if_pos hlt]; rfl
        · rw [if_pos hlt, if_neg (not_lt_of_gt hlt), if_pos hlt]
    -- equal numbers of vertices
    have cu : ∀ (x y : Polygon T S) l0 ls r0 rs, x.vertices = l0 :: ls → y.vertices = r0 :: rs →
        ls.length = rs.length → Polygon.compareUnoriented x y 0 =
        (if vcompare l0 r0 0 < 0 then -1 else if 0 < vcompare l0 r0 0 then 1 else
          match ls, rs with
          | l1 :: ls', r1 :: rs' =>
            if vcompare l1 r1 0 = 0 then rangeCompare 0 ls' rs'
            else if Polygon.backwardEqual 0 (l1 :: ls') (r1 :: rs').reverse then 0 else rangeCompare 0 ls' rs'
          | _, _ => 0) := by
      intro x y l0 ls r0 rs hx hy hl
      unfold Polygon.compareUnoriented
      rw [hx, hy]
      have hl' : (l0 :: ls).length = (r0 :: rs).length := by simpa using hl
      rw [if_neg (by omega), if_neg (by omega)]
      rfl
    rw [cu a b l0 ls r0 rs ea eb hlen, cu b a r0 rs l0 ls eb ea hlen.symm, vanti l0 r0]
    rcases lt_trichotomy (vcompare l0 r0 0) 0 with h0 | h0 | h0
    · have hk : keyVec l0 ≠ keyVec r0 := fun e => by
        rw [(vcompare_eq_zero l0 r0).2 e] at h0; exact lt_irrefl _ h0
      refine ⟨fun _ h => ?_, fun h => ?_, ?_⟩
      · rcases h with h | h <;> exact absurd h.1 hk
      · rw [if_pos h0] at h; cases h
      · rw [if_pos h0, if_neg (by omega), if_pos (by omega)]; rfl
    · have hk : keyVec l0 = keyVec r0 := (vcompare_eq_zero l0 r0).1 h0
      simp only [h0, lt_irrefl, if_false, neg_zero, hk, true_and]
      rcases ls with _ | ⟨l1, ls⟩ <;> rcases rs with _ | ⟨r1, rs⟩
      · refine ⟨fun _ _ => rfl, fun _ => Or.inl rfl, rfl⟩
      · simp at hlen
      · simp at hlen
      · have hlen' : ls.length = rs.length := by simpa using hlen
        have hback : Polygon.backwardEqual 0 (l1 :: ls) (r1 :: rs).reverse = true ↔
            (l1 :: ls).map keyVec = (r1 :: rs).reverse.map keyVec :=
          backwardEqual_iff _ _ (by simpa using hlen')
        have hback' : Polygon.backwardEqual 0 (r1 :: rs) (l1 :: ls).reverse = true ↔
            (l1 :: ls).map keyVec = (r1 :: rs).reverse.map keyVec := by
          rw [backwardEqual_iff _ _ (by simpa using hlen'.symm)]
          rw [List.map_reverse, List.map_reverse]
          constructor
          · intro h; rw [h, List.reverse_reverse]
          · intro h; rw [h, List.reverse_reverse]
        simp only
        by_cases h1 : vcompare l1 r1 0 = 0
        · have hk1 : keyVec l1 = keyVec r1 := (vcompare_eq_zero l1 r1).1 h1
          have h1' : vcompare r1 l1 0 = 0 := by rw [vanti l1 r1, h1]; rfl
          rw [if_pos h1, if_pos h1']
          refine ⟨fun hd h => ?_, fun h => Or.inl ?_, anti _ _⟩
          · rw [rangeCompare_eq_zero]
            rcases h with h | h
            · simp only [List.map_cons, List.cons.injEq] at h; exact h.2
            · -- the second and the last vertex are equal, so there is no third one
              rcases hrs : rs.reverse with _ | ⟨x, xs⟩
              · have : rs = [] := by simpa using hrs
                subst this
                have : ls = [] := List.length_eq_zero_iff.1 (by simpa using hlen')
                subst this; rfl
              · exfalso
                have e : (r1 :: rs).reverse = x :: (xs ++ [r1]) := by rw [List.reverse_cons, hrs]; rfl
                rw [e] at h
                simp only [List.map_cons, List.map_append, List.map_nil, List.cons.injEq] at h
                have hmem : keyVec l1 ∈ ls.map keyVec := by
                  rw [h.2, hk1]; simp
                have hnd := (List.nodup_cons.1 hd).2
                rw [List.map_cons, List.nodup_cons] at hnd
                exact hnd.1 hmem
          · rw [rangeCompare_eq_zero] at h
            simp [hk1, h]
        · have hk1 : keyVec l1 ≠ keyVec r1 := fun e => h1 ((vcompare_eq_zero l1 r1).2 e)
          have h1' : ¬ vcompare r1 l1 0 = 0 := fun e => hk1 ((vcompare_eq_zero r1 l1).1 e).symm
          rw [if_neg h1, if_neg h1']
          by_cases hbk : (l1 :: ls).map keyVec = (r1 :: rs).reverse.map keyVec
          · rw [if_pos (hback.2 hbk), if_pos (hback'.2 hbk)]
            exact ⟨fun _ _ => rfl, fun _ => Or.inr (Or.inl hbk), rfl⟩
          · rw [if_neg (fun h => hbk (hback.1 h)), if_neg (fun h => hbk (hback'.1 h))]
            refine ⟨fun _ h => ?_, fun h => Or.inr (Or.inr ?_), anti _ _⟩
            · rcases h with h | h
              · simp only [List.map_cons, List.cons.injEq] at h; exact absurd h.1 hk1
              · exact absurd h hbk
            · refine ⟨l0, l1, r0, r1, ls, rs, ⟨rfl, rfl⟩, ⟨rfl, rfl⟩, (veq_iff _ _).2 hk, ?_, ?_⟩
              · rw [← Bool.not_eq_true, veq_iff]; exact hk1
              · rw [sameVertices_iff]; exact (rangeCompare_eq_zero _ _).1 h
    · have hk : keyVec l0 ≠ keyVec r0 := fun e => by
        rw [(vcompare_eq_zero l0 r0).2 e] at h0; exact lt_irrefl _ h0
      refine ⟨fun _ h => ?_, fun h => ?_, ?_⟩
      · rcases h with h | h <;> exact absurd h.1 hk
      · rw [if_neg (not_lt_of_gt h0), if_pos h0] at h; cases h
      · rw [if_neg (not_lt_of_gt h0), if_pos h0, if_pos (by omega)]

end ieee

section exact
variable {K : Type u} [Field K] [LinearOrder K] [IsStrictOrderedRing K] {S : ℕ}

theorem toLex_add_lt (a b d : Vec K S) : toLex (a + d) < toLex (b + d) ↔ toLex a < toLex b := by
  show (∃ i, (∀ j < i, (a + d) j = (b + d) j) ∧ (a + d) i < (b + d) i) ↔
    (∃ i, (∀ j < i, a j = b j) ∧ a i < b i)
  simp

/-- In exact arithmetic `translate` maps the vertex sequence element by element and is undone by the opposite
translation; in exact arithmetic polygons with the same cyclic vertex sequence are identical objects. -/
theorem C62_translate (p : Polygon K S) (h : p.Canonical) (d : Vec K S) :
    (p.translate d).vertices = p.vertices.map (· + d) ∧ (p.translate d).translate (-d) = p := by
  have key : ∀ (p : Polygon K S) (d : Vec K S), p.Canonical → (p.translate d).vertices = p.vertices.map (· + d) := by
    intro p d h
    have e : addList p.vertices d = p.vertices.map (· + d) := foldl_append_map _ _
    show Polygon.rotateMinToFront (addList p.vertices d) = _
    rw [e]
    rcases ep : p.vertices with _ | ⟨v, vs⟩
    · rfl
    · rw [List.map_cons]
      refine rotateMin_keep _ _ fun w hw => ?_
      obtain ⟨x, hx, rfl⟩ := List.mem_map.1 hw
      have := h v vs ep x hx
      rw [← Bool.not_eq_true, vlt_exact] at this
      rw [← not_lt, ← vlt_iff, vlt_exact, toLex_add_lt]
      exact this
  have h1 := key p d h
  refine ⟨h1, ?_⟩
  have hc : (p.translate d).Canonical := mk'_canonical _
  apply Polygon.ext
  rw [key _ _ hc, h1, List.map_map]
  conv_rhs => rw [← List.map_id p.vertices]
  congr 1
  funext v
  simp

/-- `center` is the arithmetic mean of the vertices; it is NaN exactly for the polygon without vertices. -/
theorem C62_center (p : Polygon K S) :
    (p.vertices ≠ [] → ∃ c, p.center = some c ∧ (p.vertexCount : K) • c = p.vertices.sum) ∧
    (p.vertices = [] → p.center = none) := by
  have gen : ∀ (l : List (Vec K S)) acc, l.foldl (fun r v => r + v) acc = acc + l.sum := by
    intro l
    induction l with
    | nil => intro acc; simp
    | cons x l ih => intro acc; rw [List.foldl_cons, ih, List.sum_cons]; abel
  refine ⟨fun h => ?_, fun h => ?_⟩
  · have hn : p.vertexCount ≠ 0 := fun h0 => h (List.length_eq_zero_iff.1 h0)
    have hn' : (p.vertexCount : K) ≠ 0 := Nat.cast_ne_zero.2 hn
    unfold Polygon.center
    rw [if_neg hn]
    refine ⟨_, rfl, ?_⟩
    rw [vdivs_eq_smul, smul_smul, mul_inv_cancel₀ hn', one_smul, gen]
    have : (vfill S 0 : Vec K S) = 0 := rfl
    rw [this, zero_add]
  · unfold Polygon.center Polygon.vertexCount
    rw [h]; rfl

end exact

/-- Two triangles that differ only in their second vertex are not equal up to orientation, but
`compareUnoriented` returns 0. -/
theorem C63_unoriented_fails :
    let a : Polygon ℚ 2 := Polygon.mk' [![0, 0], ![1, 0], ![2, 2]]
    let b : Polygon ℚ 2 := Polygon.mk' [![0, 0], ![1, 1], ![2, 2]]
    Polygon.compareUnoriented a b 0 = 0 ∧ Polygon.beq a b = false ∧ Polygon.beq a b.invert = false ∧
    DistinctVertices a.vertices ∧ DistinctVertices b.vertices := by
  refine ⟨by decide +kernel, by decide +kernel, by decide +kernel, ?_, ?_⟩ <;>
    (show List.Pairwise _ _; decide +kernel)

/-- `compareUnoriented == 0` is not transitive, so it does not define a strict weak order. -/
theorem C63_unoriented_not_transitive :
    let a : Polygon ℚ 2 := Polygon.mk' [![0, 0], ![1, 0], ![2, 2]]
    let b : Polygon ℚ 2 := Polygon.mk' [![0, 0], ![1, 1], ![2, 2]]
    let c : Polygon ℚ 2 := Polygon.mk' [![0, 0], ![2, 2], ![1, 1]]
    Polygon.compareUnoriented a b 0 = 0 ∧ Polygon.compareUnoriented b c 0 = 0 ∧
    Polygon.compareUnoriented a c 0 ≠ 0 := by
  decide +kernel

/-- `compare` is lexicographic: contrary to the documentation, a polygon with fewer vertices need not be
less. -/
theorem C63_fewer_vertices :
    Polygon.blt (Polygon.mk' [![0, 0], ![1, 0], ![2, 2], ![0, 3]] : Polygon ℚ 2)
      (Polygon.mk' [![0, 0], ![1, 1], ![2, 2]]) = true := by
  decide +kernel

example : DistinctVertices ([![0, 0], ![1, 0], ![2, 2]] : List (Vec ℚ 2)) := by
  show List.Pairwise _ _; decide +kernel

example : (Polygon.mk' [![3, 3], ![1, 5], ![2, 0]] : Polygon ℚ 2).vertices = [![1, 5], ![2, 0], ![3, 3]] ∧
    (Polygon.mk' [![3, 3], ![1, 5], ![2, 0]] : Polygon ℚ 2).invert.vertices = [![1, 5], ![3, 3], ![2, 0]] := by
  decide +kernel

end vm
