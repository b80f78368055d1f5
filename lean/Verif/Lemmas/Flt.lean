import Verif.Lemmas.Scalar
import Mathlib.Tactic.Ring

/-! Helper lemmas: laws that survive rounding. -/

namespace vm
variable {F : Fmt}

theorem Flt.neg_neg' (a : Flt F) : - -a = a := by
  rcases a with _ | _ | _ | ⟨q, h⟩
  · rfl
  · rfl
  · rfl
  · show Flt.fin (- -q) _ = Flt.fin q _
    congr 1; exact neg_neg q

theorem Flt.key_neg (a : Flt F) : Flt.key (-a) = (Flt.key a).map Ext.neg := by
  rcases a with _ | _ | _ | ⟨q, h⟩ <;> rfl

theorem Flt.key_inj {a b : Flt F} (h : Flt.key a = Flt.key b) : a = b := by
  rcases a with _ | _ | _ | ⟨q, hq⟩ <;> rcases b with _ | _ | _ | ⟨r, hr⟩ <;>
    first
    | rfl
    | (exfalso; simp [Flt.key, Ext.ofRat] at h; done)
    | skip
  simp only [Flt.key, Ext.ofRat, Option.some.injEq] at h
  have h2 : q = r := WithTop.coe_inj.1 (WithBot.coe_inj.1 h)
  subst h2; rfl

theorem Flt.round_neg (x : ℚ) : (Flt.round (-x) : Flt F) = -Flt.round x := by
  apply Flt.key_inj
  rw [Flt.key_neg, Flt.key_round, Flt.key_round, F.rnd_neg]; rfl

theorem Flt.add_comm' (a b : Flt F) : a + b = b + a := by
  rcases a with _ | _ | _ | ⟨q, hq⟩ <;> rcases b with _ | _ | _ | ⟨r, hr⟩ <;> try rfl
  show Flt.round (q + r) = Flt.round (r + q)
  rw [add_comm]

theorem Flt.mul_comm' (a b : Flt F) : a * b = b * a := by
  rcases a with _ | _ | _ | ⟨q, hq⟩ <;> rcases b with _ | _ | _ | ⟨r, hr⟩ <;> try rfl
  show Flt.round (q * r) = Flt.round (r * q)
  rw [mul_comm]

theorem Flt.neg_add' (a b : Flt F) : -(a + b) = -a + -b := by
  rcases a with _ | _ | _ | ⟨q, hq⟩ <;> rcases b with _ | _ | _ | ⟨r, hr⟩ <;> try rfl
  show -Flt.round (q + r) = Flt.round (-q + -r)
  rw [← Flt.round_neg]; congr 1; ring

theorem Flt.neg_sub' (a b : Flt F) : -(a - b) = b - a := by
  show -(a + -b) = b + -a
  rw [Flt.neg_add', Flt.neg_neg', Flt.add_comm']


theorem Flt.lt_false_iff {a b : Flt F} :
    Cmp.lt a b = false ↔ ∀ x y, Flt.key a = some x → Flt.key b = some y → y ≤ x := by
  show (match Flt.key a, Flt.key b with
    | some x, some y => decide (x < y)
    | _, _ => false) = false ↔ _
  rcases ha : Flt.key a with _ | x <;> rcases hb : Flt.key b with _ | y <;> simp

theorem Ext.top_not_le (q : ℚ) : ¬ (((⊤ : WithTop ℚ) : WithBot (WithTop ℚ)) ≤ Ext.ofRat q) := by
  rw [Ext.ofRat, WithBot.coe_le_coe]; simp

theorem Ext.not_le_bot (q : ℚ) : ¬ (Ext.ofRat q ≤ (⊥ : Ext)) := by
  simp [Ext.ofRat]

theorem Ext.le_top' (x : Ext) : x ≤ ((⊤ : WithTop ℚ) : WithBot (WithTop ℚ)) := le_top

/-- Adding the same float never reverses an order (a NaN never compares as less). -/
theorem Flt.add_mono {a b c : Flt F} (h : Cmp.lt b a = false) : Cmp.lt (b + c) (a + c) = false := by
  rw [Flt.lt_false_iff] at h ⊢
  rcases a with _ | _ | _ | ⟨a, ha⟩ <;> rcases b with _ | _ | _ | ⟨b, hb⟩ <;>
    rcases c with _ | _ | _ | ⟨c, hc⟩ <;> intro x y hx hy <;>
    first
    | (cases hx; done)
    | (cases hy; done)
    | (cases hx; exact Ext.le_top' _)
    | (cases hy; exact bot_le)
    | exact absurd (h _ _ rfl rfl) (Ext.top_not_le _)
    | exact absurd (h _ _ rfl rfl) (Ext.not_le_bot _)
    | skip
  · exact absurd (h _ _ rfl rfl) (by simp)
  · have h1 := h _ _ rfl rfl
    have h2 : a ≤ b := WithTop.coe_le_coe.1 (WithBot.coe_le_coe.1 h1)
    change Flt.key (Flt.round (b + c)) = some x at hx
    change Flt.key (Flt.round (a + c)) = some y at hy
    rw [Flt.key_round] at hx hy
    cases hx; cases hy
    exact F.rnd_mono (by linarith)

theorem Flt.neg_anti {a b : Flt F} (h : Cmp.lt b a = false) : Cmp.lt (-a) (-b) = false := by
  rw [Flt.lt_false_iff] at h ⊢
  rcases a with _ | _ | _ | ⟨a, ha⟩ <;> rcases b with _ | _ | _ | ⟨b, hb⟩ <;> intro x y hx hy <;>
    first
    | (cases hx; done)
    | (cases hy; done)
    | (cases hx; exact Ext.le_top' _)
    | (cases hy; exact bot_le)
    | exact absurd (h _ _ rfl rfl) (Ext.top_not_le _)
    | exact absurd (h _ _ rfl rfl) (Ext.not_le_bot _)
    | skip
  · exact absurd (h _ _ rfl rfl) (by simp)
  · have h1 := h _ _ rfl rfl
    have h2 : a ≤ b := WithTop.coe_le_coe.1 (WithBot.coe_le_coe.1 h1)
    cases hx; cases hy
    exact WithBot.coe_le_coe.2 (WithTop.coe_le_coe.2 (neg_le_neg h2))

/-- `min - f ≤ max + f` for `min ≤ max` and `0 ≤ f` (unless one of them is NaN). -/
theorem Flt.expand_mono {a b f : Flt F} (h : Cmp.lt b a = false) (hf : Cmp.le 0 f = true) :
    Cmp.lt (b + f) (a - f) = false := by
  obtain ⟨x, y, hx, hy, hxy⟩ := (IEEE.le_iff _ _).1 hf
  rw [Flt.lt_false_iff] at h ⊢
  show ∀ x y, Flt.key (b + f) = some x → Flt.key (a + -f) = some y → y ≤ x
  rcases a with _ | _ | _ | ⟨a, ha⟩ <;> rcases b with _ | _ | _ | ⟨b, hb⟩ <;>
    rcases f with _ | _ | _ | ⟨c, hc⟩ <;> intro x' y' hx' hy' <;>
    first
    | (cases hx'; done)
    | (cases hy'; done)
    | (cases hx'; exact Ext.le_top' _)
    | (cases hy'; exact bot_le)
    | exact absurd (h _ _ rfl rfl) (Ext.top_not_le _)
    | exact absurd (h _ _ rfl rfl) (Ext.not_le_bot _)
    | (exfalso; cases hx; cases hy; exact absurd hxy (Ext.not_le_bot _))
    | skip
  · exact absurd (h _ _ rfl rfl) (by simp)
  · have h1 := h _ _ rfl rfl
    have h2 : a ≤ b := WithTop.coe_le_coe.1 (WithBot.coe_le_coe.1 h1)
    cases hx; cases hy
    have h3 : (0:ℚ) ≤ c := WithTop.coe_le_coe.1 (WithBot.coe_le_coe.1 hxy)
    change Flt.key (Flt.round (b + c)) = some x' at hx'
    change Flt.key (Flt.round (a + -c)) = some y' at hy'
    rw [Flt.key_round] at hx' hy'
    cases hx'; cases hy'
    exact F.rnd_mono (by linarith)

end vm
