import Verif.Model.Polygon
import Verif.Lemmas.Order
import Verif.Props.Affine
import Mathlib.Data.List.Lex
import Mathlib.Data.List.Rotate
import Mathlib.Data.List.Nodup

/-! Helper lemmas about polygons. -/

universe u

set_option linter.unusedSectionVars false
set_option linter.unusedSimpArgs false

namespace vm

/-- `std::min_element` returns the position of the first least element. -/
theorem minElement_spec {α : Type u} {β : Type*} [LinearOrder β] (f : α → β) (lt : α → α → Bool)
    (hlt : ∀ a b, lt a b = true ↔ f a < f b) (l : List α) :
    ∀ (vs : List α) (smallest : α) (si i : ℕ), l.drop i = vs → i ≤ l.length → si < i → l[si]? = some smallest →
      (∀ j a, j < i → l[j]? = some a → f smallest ≤ f a) →
      ∃ a, l[minElement lt smallest si i vs]? = some a ∧ ∀ b ∈ l, f a ≤ f b := by
  intro vs
  induction vs with
  | nil =>
    intro smallest si i hd hil hsi hs hmin
    have hlen : l.length ≤ i := List.drop_eq_nil_iff.1 hd
    refine ⟨smallest, hs, fun b hb => ?_⟩
    obtain ⟨j, hj, rfl⟩ := List.getElem_of_mem hb
    exact hmin j _ (lt_of_lt_of_le hj hlen) (List.getElem?_eq_getElem hj)
  | cons v vs ih =>
    intro smallest si i hd hil hsi hs hmin
    have hi : i < l.length := by
      by_contra hc
      rw [List.drop_eq_nil_iff.2 (not_lt.1 hc)] at hd
      cases hd
    have hvi : l[i]? = some v := by
      rw [List.getElem?_eq_getElem hi]
      have := List.drop_eq_getElem_cons hi
      rw [hd] at this
      exact congrArg some (List.cons.inj this).1.symm
    have hd' : l.drop (i + 1) = vs := by
      have := List.drop_eq_getElem_cons hi
      rw [hd] at this
      exact (List.cons.inj this).2.symm
    unfold minElement
    by_cases h : lt v smallest = true
    · rw [if_pos h]
      refine ih v i (i + 1) hd' hi (Nat.lt_succ_self i) hvi fun j a hj ha => ?_
      rcases Nat.lt_succ_iff_lt_or_eq.1 hj with hj | rfl
      · exact ((hlt _ _).1 h).le.trans (hmin j a hj ha)
      · rw [hvi] at ha; cases ha; exact le_refl _
    · rw [if_neg h]
      refine ih smallest si (i + 1) hd' hi (Nat.lt_succ_of_lt hsi) hs fun j a hj ha => ?_
      rcases Nat.lt_succ_iff_lt_or_eq.1 hj with hj | rfl
      · exact hmin j a hj ha
      · rw [hvi] at ha; cases ha
        exact not_lt.1 fun hc => h ((hlt _ _).2 hc)

theorem minElement_keep {α : Type u} (lt : α → α → Bool) :
    ∀ (vs : List α) (v : α) (si i : ℕ), (∀ w ∈ vs, lt w v = false) → minElement lt v si i vs = si := by
  intro vs
  induction vs with
  | nil => intros; rfl
  | cons w vs ih =>
    intro v si i h
    unfold minElement
    rw [if_neg (by rw [h w (List.mem_cons_self)]; exact Bool.false_ne_true)]
    exact ih v si (i + 1) fun x hx => h x (List.mem_cons_of_mem _ hx)

section ieee
variable {T : Type u} [IEEE T] [Add T] [Sub T] [Zero T] [ZeroLaw T] {S : ℕ}

/-- `rotate_min_to_front` rotates the list so that a least vertex comes first. -/
theorem rotateMin_spec (l : List (Vec T S)) :
    ∃ k, Polygon.rotateMinToFront l = l.rotate k ∧
      ∀ v vs, Polygon.rotateMinToFront l = v :: vs → ∀ w ∈ l, keyVec v ≤ keyVec w := by
  rcases l with _ | ⟨a, as⟩
  · exact ⟨0, rfl, fun v vs h => by cases h⟩
  · obtain ⟨m, hm, hmin⟩ := minElement_spec keyVec vlt vlt_iff (a :: as) as a 0 1 rfl
      (Nat.succ_le_succ (Nat.zero_le _)) Nat.zero_lt_one rfl (by
        intro j b hj hb
        have : j = 0 := by omega
        subst this
        cases hb; exact le_refl _)
    have hk : minElement vlt a 0 1 as < (a :: as).length := by
      by_contra hc
      rw [List.getElem?_eq_none (not_lt.1 hc)] at hm; cases hm
    have hrot : Polygon.rotateMinToFront (a :: as) = (a :: as).rotate (minElement vlt a 0 1 as) :=
      (List.rotate_eq_drop_append_take hk.le).symm
    refine ⟨_, hrot, fun v vs h w hw => ?_⟩
    have : v = m := by
      have e : (Polygon.rotateMinToFront (a :: as))[0]? = some v := by rw [h]; rfl
      have e2 : (Polygon.rotateMinToFront (a :: as))[0]? = some m := by
        show ((a :: as).drop (minElement vlt a 0 1 as) ++ (a :: as).take (minElement vlt a 0 1 as))[0]? = some m
        rw [List.getElem?_append_left (by rw [List.length_drop]; omega), List.getElem?_drop, Nat.add_zero]
        exact hm
      rw [e] at e2; exact Option.some.inj e2
    rw [this]; exact hmin w hw

theorem rotateMin_keep (v : Vec T S) (vs : List (Vec T S)) (h : ∀ w ∈ vs, keyVec v ≤ keyVec w) :
    Polygon.rotateMinToFront (v :: vs) = v :: vs := by
  have : minElement vlt v 0 1 vs = 0 := minElement_keep _ _ _ _ _ fun w hw => by
    rw [← Bool.not_eq_true, vlt_iff]; exact not_lt.2 (h w hw)
  unfold Polygon.rotateMinToFront
  simp [this]

theorem rangeCompare_zero : ∀ l r : List (Vec T S), rangeCompare 0 l r =
    if l.map keyVec < r.map keyVec then -1 else if r.map keyVec < l.map keyVec then 1 else 0 := by
  intro l
  induction l with
  | nil => intro r; rcases r with _ | ⟨b, r⟩ <;> simp [rangeCompare]
  | cons a l ih =>
    intro r
    rcases r with _ | ⟨b, r⟩
    · simp [rangeCompare]
    · unfold rangeCompare
      rw [vcompare_zero, ih]
      simp only [List.map_cons, List.cons_lt_cons_iff]
      rcases lt_trichotomy (keyVec a) (keyVec b) with h | h | h
      · simp [h]
      · simp [h]
      · simp [h, not_lt_of_gt h, h.ne']

theorem rangeCompare_eq_zero (l r : List (Vec T S)) : rangeCompare 0 l r = 0 ↔ l.map keyVec = r.map keyVec := by
  rw [rangeCompare_zero]
  rcases lt_trichotomy (l.map keyVec) (r.map keyVec) with h | h | h
  · simp [h, h.ne]
  · simp [h]
  · simp [h, not_lt_of_gt h, h.ne']

theorem vcompare_eq_zero (a b : Vec T S) : vcompare a b 0 = 0 ↔ keyVec a = keyVec b := by
  rw [← veq_iff]; simp [veq]

theorem backwardEqual_iff : ∀ l r : List (Vec T S), l.length = r.length →
    (Polygon.backwardEqual 0 l r = true ↔ l.map keyVec = r.map keyVec) := by
  intro l
  induction l with
  | nil => intro r h; rcases r with _ | ⟨b, r⟩ <;> simp_all [Polygon.backwardEqual]
  | cons a l ih =>
    intro r h
    rcases r with _ | ⟨b, r⟩
    · simp at h
    · unfold Polygon.backwardEqual
      have hl : l.length = r.length := by simpa using h
      by_cases hc : vcompare a b 0 = 0
      · simp [hc, ih r hl, (vcompare_eq_zero a b).1 hc]
      · have : keyVec a ≠ keyVec b := fun e => hc ((vcompare_eq_zero a b).2 e)
        simp [hc, this]

end ieee

/-- Two rotations of a list without repetitions that start with the same element are equal. -/
theorem rotate_eq_of_head {α : Type*} {l : List α} (hl : l.Nodup) {m n : ℕ} {a : α} {xs ys : List α}
    (h1 : l.rotate m = a :: xs) (h2 : l.rotate n = a :: ys) : l.rotate m = l.rotate n := by
  have hlen : 0 < l.length := by
    rw [← List.length_rotate l m, h1]; exact Nat.succ_pos _
  have hm : m % l.length < l.length := Nat.mod_lt _ hlen
  have hn : n % l.length < l.length := Nat.mod_lt _ hlen
  have e1 : l[m % l.length] = a := by
    have : (l.rotate m)[0]? = some a := by rw [h1]; rfl
    rw [List.getElem?_rotate hlen, Nat.zero_add, List.getElem?_eq_getElem hm] at this
    exact Option.some.inj this
  have e2 : l[n % l.length] = a := by
    have : (l.rotate n)[0]? = some a := by rw [h2]; rfl
    rw [List.getElem?_rotate hlen, Nat.zero_add, List.getElem?_eq_getElem hn] at this
    exact Option.some.inj this
  have e3 : m % l.length = n % l.length := (hl.getElem_inj_iff).1 (e1.trans e2.symm)
  rw [← List.rotate_mod, e3, List.rotate_mod]

end vm
