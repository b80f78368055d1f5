import Verif.Model.Io
import Mathlib.Data.List.Basic
import Mathlib.Data.List.TakeWhile
import Mathlib.Data.List.Forall2
import Mathlib.Data.List.FinRange

/-!
# Lemmas about the text functions
-/

universe u

set_option linter.unusedSectionVars false
set_option linter.unusedSimpArgs false

namespace vm
variable {T : Type u}

/-- Specification: the tokens of a text are its maximal parts without blanks and parentheses. -/
def tokens (s : List Char) : List (List Char) := (s.splitOnP fun c => blank.contains c).filter fun t => !t.isEmpty

/-- The characters after which a number ends: blanks, parentheses, comma, semicolon and the NUL character. -/
def stops : List Char := [' ', '\t', '\n', '\r', '(', ')', ',', ';', Char.ofNat 0]

/-- The text ends or continues with a character after which a number ends. -/
def Stops (rest : List Char) : Prop := rest = [] ∨ ∃ c cs, rest = c :: cs ∧ c ∈ stops

/-- `atof` reads the number `x` from the text `tok`, whatever follows after the end of the number. -/
def Reads (atof : List Char → T) (tok : List Char) (x : T) : Prop := ∀ rest, Stops rest → atof (tok ++ rest) = x

theorem blank_stops {c : Char} (h : c ∈ blank) : c ∈ stops := by
  simp only [blank, stops, List.mem_cons, List.not_mem_nil, or_false] at *
  tauto

theorem tokens_nil : tokens [] = [] := by simp [tokens]

theorem tokens_blank {c : Char} (h : c ∈ blank) (s : List Char) : tokens (c :: s) = tokens s := by
  unfold tokens
  rw [List.splitOnP_cons_eq_if_modifyHead, if_pos (by simpa using h)]
  simp

theorem tokens_blanks {q : List Char} (h : ∀ c ∈ q, c ∈ blank) (s : List Char) : tokens (q ++ s) = tokens s := by
  induction q with
  | nil => rfl
  | cons c q ih =>
    rw [List.cons_append, tokens_blank (h c List.mem_cons_self), ih fun d hd => h d (List.mem_cons_of_mem _ hd)]

theorem tokens_single {t : List Char} (h : ∀ c ∈ t, c ∉ blank) (hne : t ≠ []) : tokens t = [t] := by
  unfold tokens
  rw [List.splitOnP_eq_singleton (by intro c hc; simpa using h c hc)]
  rw [List.filter_cons_of_pos (by simpa using hne)]
  rfl

theorem tokens_cons {t : List Char} (h : ∀ c ∈ t, c ∉ blank) (hne : t ≠ []) {c : Char} (hc : c ∈ blank) (s : List Char) :
    tokens (t ++ c :: s) = t :: tokens s := by
  unfold tokens
  rw [List.splitOnP_append_cons_of_forall_mem (by intro d hd; simpa using h d hd) _ (by simpa using hc)]
  rw [List.filter_cons_of_pos (by simpa using hne)]

/-- The tokens from a position on. -/
def tokensAt : Option (List Char) → List (List Char)
  | none => []
  | some s => tokens s

theorem findFirstNotOf_cases (chars s : List Char) :
    (findFirstNotOf chars (some s) = none ∧ ∀ c ∈ s, c ∈ chars) ∨
    ∃ q c cs, s = q ++ c :: cs ∧ (∀ d ∈ q, d ∈ chars) ∧ c ∉ chars ∧ findFirstNotOf chars (some s) = some (c :: cs) := by
  have hsplit := List.takeWhile_append_dropWhile (p := fun c => chars.contains c) (l := s)
  have ht : ∀ d ∈ s.takeWhile (fun c => chars.contains c), d ∈ chars := fun d hd => by
    simpa using List.mem_takeWhile_imp hd
  simp only [findFirstNotOf]
  rcases h : s.dropWhile (fun c => chars.contains c) with _ | ⟨c, cs⟩
  · left
    refine ⟨rfl, fun c hc => ?_⟩
    rw [h, List.append_nil] at hsplit
    rw [← hsplit] at hc; exact ht c hc
  · right
    refine ⟨_, c, cs, by rw [← h]; exact hsplit.symm, ht, ?_, rfl⟩
    have := List.head_dropWhile_not (fun c => chars.contains c) (l := s) (by rw [h]; simp)
    simp only [h, List.head_cons] at this
    simpa using this

theorem findFirstOf_cases (chars s : List Char) :
    (findFirstOf chars (some s) = none ∧ ∀ c ∈ s, c ∉ chars) ∨
    ∃ q c cs, s = q ++ c :: cs ∧ (∀ d ∈ q, d ∉ chars) ∧ c ∈ chars ∧ findFirstOf chars (some s) = some (c :: cs) := by
  have hsplit := List.takeWhile_append_dropWhile (p := fun c => !(chars.contains c)) (l := s)
  have ht : ∀ d ∈ s.takeWhile (fun c => !(chars.contains c)), d ∉ chars := fun d hd => by
    simpa using List.mem_takeWhile_imp hd
  simp only [findFirstOf]
  rcases h : s.dropWhile (fun c => !(chars.contains c)) with _ | ⟨c, cs⟩
  · left
    refine ⟨rfl, fun c hc => ?_⟩
    rw [h, List.append_nil] at hsplit
    rw [← hsplit] at hc; exact ht c hc
  · right
    refine ⟨_, c, cs, by rw [← h]; exact hsplit.symm, ht, ?_, rfl⟩
    have := List.head_dropWhile_not (fun c => !(chars.contains c)) (l := s) (by rw [h]; simp)
    simp only [h, List.head_cons] at this
    simpa using this

theorem findFirstNotOf_append {chars q : List Char} (h : ∀ c ∈ q, c ∈ chars) (s : List Char) :
    findFirstNotOf chars (some (q ++ s)) = findFirstNotOf chars (some s) := by
  unfold findFirstNotOf
  simp only
  rw [List.dropWhile_append_of_pos (by intro c hc; simpa using h c hc)]

theorem findFirstOf_append {chars q : List Char} (h : ∀ c ∈ q, c ∉ chars) (s : List Char) :
    findFirstOf chars (some (q ++ s)) = findFirstOf chars (some s) := by
  unfold findFirstOf
  simp only
  rw [List.dropWhile_append_of_pos (by intro c hc; simpa using h c hc)]

theorem findFirstNotOf_cons {chars : List Char} {c : Char} (h : c ∉ chars) (s : List Char) :
    findFirstNotOf chars (some (c :: s)) = some (c :: s) := by
  unfold findFirstNotOf
  simp only
  rw [List.dropWhile_cons_of_neg (by simpa using h)]

theorem findFirstOf_cons {chars : List Char} {c : Char} (h : c ∈ chars) (s : List Char) :
    findFirstOf chars (some (c :: s)) = some (c :: s) := by
  unfold findFirstOf
  simp only
  rw [List.dropWhile_cons_of_neg (by simpa using h)]

theorem findFirstNotOf_all {chars q : List Char} (h : ∀ c ∈ q, c ∈ chars) : findFirstNotOf chars (some q) = none := by
  rcases findFirstNotOf_cases chars q with ⟨h1, -⟩ | ⟨q', c, cs, rfl, -, hc, -⟩
  · exact h1
  · exact absurd (h c (by simp)) hc

theorem findFirstOf_all {chars q : List Char} (h : ∀ c ∈ q, c ∉ chars) : findFirstOf chars (some q) = none := by
  rcases findFirstOf_cases chars q with ⟨h1, -⟩ | ⟨q', c, cs, rfl, -, hc, -⟩
  · exact h1
  · exact absurd hc (h c (by simp))

variable (atof : List Char → T) (after : List Char)

/-- `doParse` succeeds exactly if there are enough tokens, and reads the tokens in order. -/
theorem doParse_spec (n : ℕ) : ∀ pos,
    ((doParse atof after n pos).1 = none ↔ (tokensAt pos).length < n) ∧
    ∀ l, (doParse atof after n pos).1 = some l →
      List.Forall₂ (fun tok x => ∃ rest, (rest = [] ∨ ∃ c cs, rest = c :: cs ∧ c ∈ blank) ∧
        x = atof (tok ++ rest ++ after)) ((tokensAt pos).take n) l := by
  induction n with
  | zero =>
    intro pos
    refine ⟨by simp [doParse], fun l hl => ?_⟩
    simp only [doParse, Option.some.injEq] at hl
    subst hl; simp
  | succ n ih =>
    intro pos
    rcases pos with _ | s
    · simp [doParse, findFirstNotOf, tokensAt]
    · rcases findFirstNotOf_cases blank s with ⟨h1, h2⟩ | ⟨q, c, cs, hs, hq, hc, h1⟩
      · have : tokens s = [] := by rw [← List.append_nil s, tokens_blanks h2, tokens_nil]
        simp only [doParse, h1, tokensAt, this]
        simp
      · have ht : tokens s = tokens (c :: cs) := by rw [hs, tokens_blanks hq]
        simp only [doParse, h1, tokensAt, ht]
        rcases findFirstOf_cases blank (c :: cs) with ⟨h2, h3⟩ | ⟨t, d, ds, hcs, htk, hd, h2⟩
        · have ht' : tokens (c :: cs) = [c :: cs] := tokens_single h3 (by simp)
          rw [h2, ht']
          rcases n with _ | n
          · simp only [Option.isNone_none, Nat.lt_irrefl, decide_false, Bool.and_false, Bool.false_eq_true, if_false, doParse,
              Option.map_some, reduceCtorEq, List.length_singleton, zero_add, false_iff, not_lt, le_refl, true_and,
              Option.some.injEq]
            rintro l rfl
            simp only [List.take_succ_cons, List.take_zero, List.forall₂_cons, List.Forall₂.nil, and_true]
            exact ⟨[], Or.inl rfl, by simp⟩
          · simp
        · have htne : t ≠ [] := by
            rintro rfl
            simp only [List.nil_append, List.cons.injEq] at hcs
            rw [hcs.1] at hc; exact hc hd
          have ht' : tokens (c :: cs) = t :: tokens (d :: ds) := by
            rw [hcs, tokens_cons htk htne hd, tokens_blank hd]
          rw [h2, ht']
          obtain ⟨i1, i2⟩ := ih (some (d :: ds))
          simp only [Option.isNone_some, Bool.false_and, Bool.false_eq_true, if_false, Option.map_eq_none_iff, i1, tokensAt,
            List.length_cons, Nat.add_lt_add_iff_right, true_and, Option.map_eq_some_iff]
          rintro l ⟨l', hl', rfl⟩
          simp only [List.take_succ_cons, List.forall₂_cons]
          refine ⟨⟨d :: ds, Or.inr ⟨d, ds, rfl, hd⟩, by rw [hcs]⟩, i2 l' hl'⟩

end vm
