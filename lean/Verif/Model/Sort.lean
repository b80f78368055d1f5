import Verif.Model.Vec

/-!
# Model of constexpr_util.h and of the sorting based functions of vec.h

Memory is a function from addresses to values, so iterators are natural numbers and statements such as
"nothing outside the range is written" can be expressed.
-/

universe u

namespace vm

/-- constexpr_util.h:35-39 `swap` and constexpr_util.h:48-50 `iter_swap`. -/
def iterSwap {α : Type u} (a : ℕ → α) (i j : ℕ) : ℕ → α :=
  fun k => if k = i then a j else if k = j then a i else a k

/-- The partition loop constexpr_util.h:66-70 with `n` iterations left (`n = right - i`). -/
def partLoop {α : Type u} (cmp : α → α → Bool) (left : ℕ) :
    (n i mid : ℕ) → (ℕ → α) → ℕ × (ℕ → α)
  | 0, _, mid, a => (mid, a)
  | n + 1, i, mid, a =>
    if cmp (a i) (a left) then partLoop cmp left n (i + 1) (mid + 1) (iterSwap a (mid + 1) i)
    else partLoop cmp left n (i + 1) mid a

theorem partLoop_mid {α : Type u} (cmp : α → α → Bool) (left n i mid : ℕ) (a : ℕ → α) :
    mid ≤ (partLoop cmp left n i mid a).1 ∧ (partLoop cmp left n i mid a).1 ≤ mid + n := by
  induction n generalizing i mid a with
  | zero => simp [partLoop]
  | succ n ih =>
    unfold partLoop
    split_ifs
    · have := ih (i + 1) (mid + 1) (iterSwap a (mid + 1) i); omega
    · have := ih (i + 1) mid a; omega

/-- constexpr_util.h:62-76 `sort`. -/
def sort {α : Type u} (cmp : α → α → Bool) (left right : ℕ) (a : ℕ → α) : ℕ → α :=
  if _h : left < right then
    let p := partLoop cmp left (right - (left + 1)) (left + 1) left a
    let mid := p.1
    let a1 := iterSwap p.2 left mid
    let a2 := sort cmp left mid a1
    sort cmp (mid + 1) right a2
  else a
termination_by right - left
decreasing_by
  · have := partLoop_mid cmp left (right - (left + 1)) (left + 1) left a; omega
  · have := partLoop_mid cmp left (right - (left + 1)) (left + 1) left a; omega

variable {T : Type u} {S : ℕ}

/-- vec.h:597-623 `sort_vector`: the array of pairs of element and index, sorted; `junk` is the memory
outside of the array. -/
def sortVector (cmp : T × ℕ → T × ℕ → Bool) (v : Vec T S) (junk : ℕ → T × ℕ) : ℕ → T × ℕ :=
  sort cmp 0 S fun i => if h : i < S then (v ⟨i, h⟩, i) else junk i

/-- vec.h:636-647 `find_max_component` (`assert(k < S)` is a hypothesis of theorems). -/
def findMaxComponent [Cmp T] (v : Vec T S) (k : ℕ) (junk : ℕ → T × ℕ) : ℕ :=
  (sortVector (fun l r => Cmp.lt l.1 r.1) v junk (S - k - 1)).2

/-- vec.h:659-670 `find_abs_max_component`. -/
def findAbsMaxComponent [Cmp T] [Zero T] [Neg T] (v : Vec T S) (k : ℕ) (junk : ℕ → T × ℕ) : ℕ :=
  (sortVector (fun l r => Cmp.lt (abs l.1) (abs r.1)) v junk (S - k - 1)).2

/-- vec.h:685-690 `get_abs_max_component_axis`; `none` if the index is out of range. -/
def getAbsMaxComponentAxis [Cmp T] [Zero T] [One T] [Neg T] (v : Vec T S) (k : ℕ)
    (junk : ℕ → T × ℕ) : Option (Vec T S) :=
  let index := findAbsMaxComponent v k junk
  if h : index < S then
    let result := vaxis S ⟨index, h⟩
    some (if Cmp.lt (v ⟨index, h⟩) 0 then -result else result)
  else none

/-- vec.h:701-711 `get_max_component`; `junk` is the memory outside of the array. -/
def getMaxComponent [Cmp T] (v : Vec T S) (k : ℕ) (junk : ℕ → T) : T :=
  sort (fun l r => Cmp.lt l r) 0 S (fun i => if h : i < S then v ⟨i, h⟩ else junk i) (S - k - 1)

/-- vec.h:723-731 `get_abs_max_component`. -/
def getAbsMaxComponent [Cmp T] [Zero T] [Neg T] (v : Vec T S) (k : ℕ) (junk : ℕ → T) : T :=
  sort (fun l r => Cmp.lt (abs l) (abs r)) 0 S (fun i => if h : i < S then v ⟨i, h⟩ else junk i)
    (S - k - 1)

end vm
