import Verif.Lemmas.Io
import Mathlib.Data.List.OfFn
import Mathlib.Tactic.Linarith

/-!
# C26, C27, C77: text representation of vectors and matrices

The number reader and printer are parameters.  What is needed of them is a hypothesis about the numbers in question: `Reads atof tok x`
says that `atof` reads `x` from the characters `tok`, provided that the text ends there or continues with a blank, a parenthesis, a
comma, a semicolon or the NUL character.
-/

universe u

set_option linter.unusedSectionVars false
set_option linter.unusedSimpArgs false

namespace vm
variable {T : Type u} [Zero T] (atof : List Char → T) (after : List Char) {S R C : ℕ}

/-- A text that can be a number: not empty, and without the characters that separate numbers. -/
def NumberText (t : List Char) : Prop := t ≠ [] ∧ ∀ c ∈ t, c ∉ stops

theorem NumberText.not_blank {t : List Char} (h : NumberText t) : ∀ c ∈ t, c ∉ blank :=
  fun c hc hb => h.2 c hc (blank_stops hb)

theorem Stops.append {rest after : List Char} (h : rest = [] ∨ ∃ c cs, rest = c :: cs ∧ c ∈ blank) (ha : Stops after) :
    Stops (rest ++ after) := by
  rcases h with rfl | ⟨c, cs, rfl, hc⟩
  · exact ha
  · exact Or.inr ⟨c, cs ++ after, rfl, blank_stops hc⟩

/-- `parse` fails exactly if the text has fewer tokens (parts between blanks and parentheses) than the vector has components. -/
theorem C26_none_iff (str : List Char) : parseVec atof after S str = none ↔ (tokens str).length < S := by
  rw [parseVec, Option.map_eq_none_iff]
  exact (doParse_spec atof after S (some str)).1

/-- The components are the numbers read from the first tokens, in order. -/
theorem C26_some (str : List Char) (hafter : Stops after) (v : Vec T S) (h : parseVec atof after S str = some v) (i : Fin S) :
    ∃ tok, (tokens str)[(i : ℕ)]? = some tok ∧ ∀ x, Reads atof tok x → v i = x := by
  rw [parseVec, Option.map_eq_some_iff] at h
  obtain ⟨l, hl, rfl⟩ := h
  obtain ⟨h1, h2⟩ := doParse_spec atof after S (some str)
  have hf := h2 l hl
  have hlen : S ≤ (tokens str).length := by
    by_contra hc
    have := h1.2 (not_le.1 hc)
    rw [hl] at this; cases this
  rw [List.forall₂_iff_get] at hf
  simp only [tokensAt, List.length_take, Nat.min_eq_left hlen] at hf
  obtain ⟨hS, hf⟩ := hf
  have hi : (i : ℕ) < l.length := by rw [← hS]; exact i.2
  obtain ⟨rest, hrest, hx⟩ := hf i i.2 hi
  refine ⟨(tokens str)[(i : ℕ)], List.getElem?_eq_getElem _, fun x hr => ?_⟩
  have e : vecOfList S l i = l[(i : ℕ)] := by
    unfold vecOfList; rw [List.getD_eq_getElem?_getD, List.getElem?_eq_getElem hi]; rfl
  rw [e]
  have e2 : l[(i : ℕ)] = l.get ⟨i, hi⟩ := rfl
  rw [e2, hx, List.append_assoc]
  have := hr (rest ++ after) (Stops.append hrest hafter)
  rw [← this]
  congr 2
  simp [List.get_eq_getElem]

theorem foldl_append_flatMap {α β : Type*} (f : α → List β) (l : List α) (s : List β) :
    l.foldl (fun s i => s ++ f i) s = s ++ l.flatMap f := by
  induction l generalizing s with
  | nil => simp
  | cons a l ih => rw [List.foldl_cons, ih, List.flatMap_cons, List.append_assoc]

/-- The tokens of texts that are separated by single blanks. -/
theorem tokens_join {α : Type*} (tk : α → List (List Char)) (f : α → List Char)
    (hf : ∀ i post, (post = [] ∨ ∃ c cs, post = c :: cs ∧ c ∈ blank) → tokens (f i ++ post) = tk i ++ tokens post)
    (l : List α) : ∀ i post, (post = [] ∨ ∃ c cs, post = c :: cs ∧ c ∈ blank) →
    tokens (f i ++ l.flatMap (fun j => ' ' :: f j) ++ post) = tk i ++ l.flatMap tk ++ tokens post := by
  induction l with
  | nil => intro i post h; simpa using hf i post h
  | cons j l ih =>
    intro i post h
    have e : f i ++ (j :: l).flatMap (fun j => ' ' :: f j) ++ post =
        f i ++ (' ' :: (f j ++ l.flatMap (fun j => ' ' :: f j) ++ post)) := by
      simp [List.append_assoc]
    rw [e, hf i _ (Or.inr ⟨' ', _, rfl, by decide⟩), tokens_blank (by decide), ih j post h]
    simp [List.append_assoc]

theorem tokens_number {t : List Char} (h : NumberText t) (post : List Char)
    (hp : post = [] ∨ ∃ c cs, post = c :: cs ∧ c ∈ blank) : tokens (t ++ post) = [t] ++ tokens post := by
  rcases hp with rfl | ⟨c, cs, rfl, hc⟩
  · rw [List.append_nil, tokens_single h.not_blank h.1, tokens_nil]; rfl
  · rw [tokens_cons h.not_blank h.1 hc, tokens_blank hc]; rfl

theorem tokens_printVec (print : T → List Char) (v : Vec T S) (hS : 0 < S) (hp : ∀ i, NumberText (print (v i)))
    (post : List Char) (hpost : post = [] ∨ ∃ c cs, post = c :: cs ∧ c ∈ blank) :
    tokens (printVec print v ++ post) = List.ofFn (fun i => print (v i)) ++ tokens post := by
  obtain ⟨S, rfl⟩ := Nat.exists_eq_succ_of_ne_zero hS.ne'
  have e : printVec print v = print (v 0) ++ (List.finRange S).flatMap fun i => ' ' :: print (v i.succ) := by
    unfold printVec
    simp only []
    rw [foldl_append_flatMap]
    rfl
  have key := tokens_join (fun i : Fin (S + 1) => [print (v i)]) (fun i => print (v i))
    (fun i post h => tokens_number (hp i) post h) ((List.finRange S).map Fin.succ) 0 post hpost
  rw [List.flatMap_map, List.flatMap_map] at key
  rw [e, key, List.ofFn_succ, List.ofFn_eq_map]
  simp [List.flatMap_singleton']
  induction (List.finRange S) with
  | nil => rfl
  | cons a l ih => simp [ih]

/-- Printing and parsing yields the vector again, also if blanks or parentheses come before the text and if something follows that is
separated from it by a blank or a parenthesis. -/
theorem C26_round_trip (print : T → List Char) (v : Vec T S) (hp : ∀ i, NumberText (print (v i)))
    (hr : ∀ i, Reads atof (print (v i)) (v i)) (hafter : Stops after) (pre post : List Char) (hpre : ∀ c ∈ pre, c ∈ [' ', '\t', '\n', '\r', '(', ')'])
    (hpost : post = [] ∨ ∃ c cs, post = c :: cs ∧ c ∈ [' ', '\t', '\n', '\r', '(', ')']) :
    parseVec atof after S (pre ++ printVec print v ++ post) = some v := by
  rcases Nat.eq_zero_or_pos S with h0 | hS
  · subst h0
    unfold parseVec
    simp only [doParse, Option.map_some, Option.some.injEq]
    funext i; exact i.elim0
  have ht : tokens (pre ++ printVec print v ++ post) = List.ofFn (fun i => print (v i)) ++ tokens post := by
    rw [List.append_assoc, tokens_blanks hpre, tokens_printVec print v hS hp post hpost]
  rcases h : parseVec atof after S (pre ++ printVec print v ++ post) with _ | w
  · rw [C26_none_iff, ht] at h
    simp at h
  · congr 1
    funext i
    obtain ⟨tok, h1, h2⟩ := C26_some atof after _ hafter w h i
    apply h2
    rw [ht, List.getElem?_append_left (by simp), List.getElem?_ofFn, dif_pos i.2, Option.some.injEq] at h1
    rw [← h1]
    exact hr i

/-- If the memory behind a `string_view` is not one of the terminating characters, `parse` may read digits that are not part of the
text.  (A sub-string of a longer string is such a view.) -/
theorem C26_view_fails : ∃ (atof : List Char → ℕ) (str after : List Char) (v w : Vec ℕ 2), Reads atof ['1'] 1 ∧
    Reads atof ['2'] 2 ∧ str = "1 2".toList ∧ parseVec atof [] 2 str = some v ∧ v = ![1, 2] ∧
    parseVec atof after 2 str = some w ∧ w = ![1, 25] := by
  refine ⟨fun s => (s.takeWhile Char.isDigit).foldl (fun n c => 10 * n + (c.toNat - 48)) 0, "1 2".toList, ['5'], ![1, 2], ![1, 25],
    ?_, ?_, rfl, ?_, rfl, ?_, rfl⟩
  · rintro rest (rfl | ⟨c, cs, rfl, hc⟩)
    · rfl
    · have : Char.isDigit c = false := by
        simp only [stops, List.mem_cons, List.not_mem_nil, or_false] at hc
        rcases hc with rfl | rfl | rfl | rfl | rfl | rfl | rfl | rfl | rfl <;> rfl
      have h1 : Char.isDigit '1' = true := rfl
      simp [List.takeWhile_cons, this, h1]
  · rintro rest (rfl | ⟨c, cs, rfl, hc⟩)
    · rfl
    · have : Char.isDigit c = false := by
        simp only [stops, List.mem_cons, List.not_mem_nil, or_false] at hc
        rcases hc with rfl | rfl | rfl | rfl | rfl | rfl | rfl | rfl | rfl <;> rfl
      have h1 : Char.isDigit '2' = true := rfl
      simp [List.takeWhile_cons, this, h1]
  · decide +kernel
  · decide +kernel

/-! ### Matrices -/

theorem flatMap_sep {α : Type*} (n : ℕ) : ∀ (f : Fin (n + 1) → List α) (x : α),
    (List.finRange (n + 1)).flatMap (fun i => f i ++ if (i : ℕ) < n then [x] else []) =
      f 0 ++ (List.finRange n).flatMap fun i => x :: f i.succ := by
  induction n with
  | zero => intro f x; simp [List.finRange_succ]
  | succ n ih =>
    intro f x
    rw [List.finRange_succ, List.flatMap_cons, List.flatMap_map]
    have h1 : ((0 : Fin (n + 2)) : ℕ) < n + 1 := by simp
    have h2 : ∀ i : Fin (n + 1), ((i.succ : ℕ) < n + 1) ↔ (i : ℕ) < n := by intro i; simp
    simp only [h1, h2, if_true]
    rw [ih (fun i => f i.succ) x]
    conv_rhs => rw [List.finRange_succ, List.flatMap_cons, List.flatMap_map]
    simp [List.append_assoc]

theorem printMat_eq (print : T → List Char) (m : Mat T (R + 1) (C + 1)) :
    printMat print m = printVec print (fun c => m c 0) ++
      (List.finRange R).flatMap fun r => ' ' :: printVec print (fun c => m c r.succ) := by
  have inner : ∀ (r : Fin (R + 1)) (s : List Char), (List.finRange (C + 1)).foldl (fun s c =>
      let s := s ++ print (m c r)
      if (c : ℕ) < C + 1 - 1 then s ++ [' '] else s) s = s ++ printVec print (fun c => m c r) := by
    intro r s
    have e1 : (fun (s : List Char) (c : Fin (C + 1)) =>
        let s := s ++ print (m c r)
        if (c : ℕ) < C + 1 - 1 then s ++ [' '] else s) =
        fun s c => s ++ (print (m c r) ++ if (c : ℕ) < C then [' '] else []) := by
      funext s c
      simp only [Nat.add_sub_cancel]
      split_ifs <;> simp
    rw [e1, foldl_append_flatMap, flatMap_sep C (fun c => print (m c r)) ' ']
    unfold printVec
    simp only []
    rw [foldl_append_flatMap]
    rfl
  unfold printMat
  simp only [inner]
  have e2 : (fun (s : List Char) (r : Fin (R + 1)) => if (r : ℕ) < R + 1 - 1 then s ++ printVec print (fun c => m c r) ++ [' ']
      else s ++ printVec print (fun c => m c r)) =
      fun s r => s ++ (printVec print (fun c => m c r) ++ if (r : ℕ) < R then [' '] else []) := by
    funext s r
    simp only [Nat.add_sub_cancel]
    split_ifs <;> simp
  rw [e2, foldl_append_flatMap, flatMap_sep R (fun r => printVec print (fun c => m c r)) ' ', List.nil_append]

theorem rowMajor_mod (r c n : ℕ) (h : c < n) : (r * n + c) % n = c := by
  rw [Nat.add_comm, Nat.add_mul_mod_self_right, Nat.mod_eq_of_lt h]

theorem rowMajor_div (r c n : ℕ) (h : c < n) : (r * n + c) / n = r := by
  rw [Nat.add_comm, Nat.add_mul_div_right _ _ (by omega), Nat.div_eq_of_lt h, Nat.zero_add]

/-- Printing and parsing yields the matrix again; the elements are written row by row. -/
theorem C77_round_trip (print : T → List Char) (m : Mat T R C) (hp : ∀ c r, NumberText (print (m c r)))
    (hr : ∀ c r, Reads atof (print (m c r)) (m c r)) (hafter : Stops after) (pre post : List Char)
    (hpre : ∀ c ∈ pre, c ∈ [' ', '\t', '\n', '\r', '(', ')']) (hpost : post = [] ∨ ∃ c cs, post = c :: cs ∧ c ∈ [' ', '\t', '\n', '\r', '(', ')']) :
    parseMat atof after R C (pre ++ printMat print m ++ post) = some m := by
  unfold parseMat
  rcases R with _ | R
  · rw [Nat.zero_mul, doParse]
    simp only [Option.map_some, Option.some.injEq]
    funext c r; exact r.elim0
  rcases C with _ | C
  · rw [Nat.mul_zero, doParse]
    simp only [Option.map_some, Option.some.injEq]
    funext c; exact c.elim0
  -- the tokens
  have hrow := tokens_join (fun r : Fin (R + 1) => List.ofFn fun c => print (m c r)) (fun r => printVec print fun c => m c r)
    (fun r post h => tokens_printVec print (fun c => m c r) (Nat.succ_pos _) (fun c => hp c r) post h)
    ((List.finRange R).map Fin.succ) 0 post hpost
  rw [List.flatMap_map, List.flatMap_map, ← printMat_eq] at hrow
  have hL : (List.ofFn fun c => print (m c 0)) ++ (List.finRange R).flatMap (fun r => List.ofFn fun c => print (m c r.succ)) =
      List.ofFn fun k : Fin ((R + 1) * (C + 1)) => print (m ⟨k % (C + 1), Nat.mod_lt _ (Nat.succ_pos _)⟩
        ⟨k / (C + 1), (Nat.div_lt_iff_lt_mul (Nat.succ_pos _)).2 k.2⟩) := by
    rw [List.ofFn_mul]
    conv_rhs => rw [List.ofFn_succ, List.flatten_cons]
    congr 1
    · congr 1; funext c
      have h1 : ((0 : Fin (R + 1)) : ℕ) * (C + 1) + c = c := by simp
      congr 2
      · apply Fin.ext; simp [Nat.mod_eq_of_lt c.2]
      · apply Fin.ext; simp [Nat.div_eq_of_lt c.2]
    · rw [List.ofFn_eq_map, List.flatMap_def]
      congr 1
      apply List.map_congr_left
      intro r _
      congr 1; funext c
      congr 2
      · apply Fin.ext
        show (c : ℕ) = ((r.succ : ℕ) * (C + 1) + c) % (C + 1)
        exact (rowMajor_mod _ _ _ c.2).symm
      · apply Fin.ext
        show (r.succ : ℕ) = ((r.succ : ℕ) * (C + 1) + c) / (C + 1)
        exact (rowMajor_div _ _ _ c.2).symm
  have ht : tokens (pre ++ printMat print m ++ post) =
      (List.ofFn fun k : Fin ((R + 1) * (C + 1)) => print (m ⟨k % (C + 1), Nat.mod_lt _ (Nat.succ_pos _)⟩
        ⟨k / (C + 1), (Nat.div_lt_iff_lt_mul (Nat.succ_pos _)).2 k.2⟩)) ++ tokens post := by
    rw [List.append_assoc, tokens_blanks hpre, hrow, hL]
  obtain ⟨h1, h2⟩ := doParse_spec atof after ((R + 1) * (C + 1)) (some (pre ++ printMat print m ++ post))
  rcases hd : (doParse atof after ((R + 1) * (C + 1)) (some (pre ++ printMat print m ++ post))).1 with _ | l
  · exfalso
    have := h1.1 hd
    simp only [tokensAt, ht, List.length_append, List.length_ofFn] at this
    omega
  · have hf := h2 l hd
    simp only [tokensAt, ht] at hf
    rw [List.take_left' List.length_ofFn] at hf
    rw [Option.map_some, Option.some.injEq]
    rw [List.forall₂_iff_get] at hf
    obtain ⟨hlen, hf⟩ := hf
    rw [List.length_ofFn] at hlen
    funext c r
    have hk : (r : ℕ) * (C + 1) + c < (R + 1) * (C + 1) := by
      have h1 := r.2
      have h2 := c.2
      calc (r : ℕ) * (C + 1) + c < r * (C + 1) + (C + 1) := by omega
        _ = (r + 1) * (C + 1) := by ring
        _ ≤ (R + 1) * (C + 1) := Nat.mul_le_mul_right _ h1
    have hk' : (r : ℕ) * (C + 1) + c < l.length := by rw [← hlen]; exact hk
    obtain ⟨rest, hrest, hx⟩ := hf _ (by rw [List.length_ofFn]; exact hk) hk'
    rw [List.getD_eq_getElem?_getD, List.getElem?_eq_getElem hk', Option.getD_some]
    have e2 : l[(r : ℕ) * (C + 1) + c] = l.get ⟨_, hk'⟩ := rfl
    have c1 : ((r : ℕ) * (C + 1) + c) % (C + 1) = c := by
      rw [Nat.add_comm, Nat.add_mul_mod_self_right, Nat.mod_eq_of_lt c.2]
    have c2 : ((r : ℕ) * (C + 1) + c) / (C + 1) = r := by
      rw [Nat.add_comm, Nat.add_mul_div_right _ _ (Nat.succ_pos C), Nat.div_eq_of_lt c.2, Nat.zero_add]
    rw [e2, hx, List.append_assoc]
    have e3 : (List.ofFn fun k : Fin ((R + 1) * (C + 1)) => print (m ⟨k % (C + 1), Nat.mod_lt _ (Nat.succ_pos _)⟩
        ⟨k / (C + 1), (Nat.div_lt_iff_lt_mul (Nat.succ_pos _)).2 k.2⟩)).get ⟨(r : ℕ) * (C + 1) + c, by rw [List.length_ofFn]; exact hk⟩ =
        print (m c r) := by
      rw [List.get_eq_getElem, List.getElem_ofFn]
      congr 2
      · exact Fin.ext c1
      · exact Fin.ext c2
    rw [e3]
    exact hr c r _ (Stops.append hrest hafter)

/-- The element in row `r` and column `c` is read from the token with the number `r * C + c`: the text lists the rows. -/
theorem C77_some (str : List Char) (hafter : Stops after) (m : Mat T R C) (h : parseMat atof after R C str = some m) (c : Fin C)
    (r : Fin R) : ∃ tok, (tokens str)[(r : ℕ) * C + c]? = some tok ∧ ∀ x, Reads atof tok x → m c r = x := by
  rw [parseMat, Option.map_eq_some_iff] at h
  obtain ⟨l, hl, rfl⟩ := h
  have hk : (r : ℕ) * C + c < R * C := by
    calc (r : ℕ) * C + c < r * C + C := by have := c.2; omega
      _ = (r + 1) * C := by ring
      _ ≤ R * C := Nat.mul_le_mul_right _ r.2
  have hv : parseVec atof after (R * C) str = some (vecOfList (R * C) l) := by rw [parseVec, hl]; rfl
  exact C26_some atof after str hafter _ hv ⟨_, hk⟩

/-- The text that is printed lists the rows. -/
theorem C77_row_major (print : T → List Char) (m : Mat T R C) (hp : ∀ c r, NumberText (print (m c r))) (c : Fin C) (r : Fin R) :
    (tokens (printMat print m))[(r : ℕ) * C + c]? = some (print (m c r)) := by
  rcases R with _ | R
  · exact r.elim0
  rcases C with _ | C
  · exact c.elim0
  have hrow := tokens_join (fun r : Fin (R + 1) => List.ofFn fun c => print (m c r)) (fun r => printVec print fun c => m c r)
    (fun r post h => tokens_printVec print (fun c => m c r) (Nat.succ_pos _) (fun c => hp c r) post h)
    ((List.finRange R).map Fin.succ) 0 [] (Or.inl rfl)
  rw [List.flatMap_map, List.flatMap_map, ← printMat_eq, List.append_nil, tokens_nil, List.append_nil] at hrow
  have hflat : ∀ (n : ℕ) (f : Fin (n + 1) → List (List Char)), f 0 ++ (List.finRange n).flatMap (fun i => f i.succ) =
      (List.finRange (n + 1)).flatMap f := by
    intro n f; rw [List.finRange_succ, List.flatMap_cons, List.flatMap_map]
  have hget : ∀ (n : ℕ) (f : Fin n → List (List Char)) (w : ℕ), (∀ i, (f i).length = w) → ∀ (i : Fin n) (j : ℕ), j < w →
      ((List.finRange n).flatMap f)[(i : ℕ) * w + j]? = (f i)[j]? := by
    intro n
    induction n with
    | zero => intro f w _ i; exact i.elim0
    | succ n ih =>
      intro f w hw i j hj
      rw [List.finRange_succ, List.flatMap_cons, List.flatMap_map]
      refine Fin.cases ?_ (fun i => ?_) i
      · rw [List.getElem?_append_left (by rw [hw]; simpa using hj)]
        simp
      · have e : ((i.succ : Fin (n + 1)) : ℕ) * w + j = w + ((i : ℕ) * w + j) := by
          rw [Fin.val_succ]; ring
        rw [e, List.getElem?_append_right (by rw [hw]; omega), hw, Nat.add_sub_cancel_left]
        exact ih (fun i => f i.succ) w (fun i => hw _) i j hj
  rw [hrow, hflat R (fun r => List.ofFn fun c => print (m c r)), hget _ _ (C + 1) (fun _ => List.length_ofFn) r c c.2,
    List.getElem?_ofFn, dif_pos c.2]

/-- Parsing a matrix fails exactly if there are too few tokens. -/
theorem C77_none_iff (str : List Char) : parseMat atof after R C str = none ↔ (tokens str).length < R * C := by
  rw [parseMat, Option.map_eq_none_iff]
  exact (doParse_spec atof after (R * C) (some str)).1

/-! ### Lists of vectors -/

theorem findFirstOf_suffix {chars s t : List Char} (h : findFirstOf chars (some s) = some t) :
    t <:+ s ∧ ∃ c cs, t = c :: cs ∧ c ∈ chars := by
  rcases findFirstOf_cases chars s with ⟨h1, -⟩ | ⟨q, c, cs, rfl, -, hc, h1⟩
  · rw [h1] at h; cases h
  · rw [h1, Option.some.injEq] at h
    subst h
    exact ⟨List.suffix_append _ _, c, cs, rfl, hc⟩

theorem findFirstNotOf_suffix {chars s t : List Char} (h : findFirstNotOf chars (some s) = some t) :
    t <:+ s ∧ ∃ c cs, t = c :: cs ∧ c ∉ chars := by
  rcases findFirstNotOf_cases chars s with ⟨h1, -⟩ | ⟨q, c, cs, rfl, -, hc, h1⟩
  · rw [h1] at h; cases h
  · rw [h1, Option.some.injEq] at h
    subst h
    exact ⟨List.suffix_append _ _, c, cs, rfl, hc⟩

theorem doParse_suffix (n : ℕ) : ∀ s t, (doParse atof after n (some s)).2 = some t → t <:+ s := by
  induction n with
  | zero => intro s t h; simp only [doParse, Option.some.injEq] at h; subst h; exact List.suffix_refl _
  | succ n ih =>
    intro s t h
    rw [doParse] at h
    rcases h1 : findFirstNotOf blank (some s) with _ | s1
    · rw [h1] at h; cases h
    · rw [h1] at h
      simp only at h
      rcases h2 : findFirstOf blank (some s1) with _ | s2
      · rw [h2] at h
        by_cases hn : 0 < n
        · simp [hn] at h
        · have hn0 : n = 0 := by omega
          subst hn0
          simp [doParse] at h
      · rw [h2] at h
        simp only [Option.isNone_some, Bool.false_and, Bool.false_eq_true, if_false] at h
        exact ((ih s2 t h).trans (findFirstOf_suffix h2).1).trans (findFirstNotOf_suffix h1).1

/-- The position at the beginning of the next iteration is strictly further to the right. -/
theorem parseAll_step (s t : List Char)
    (h : findFirstNotOf blankAll (findFirstOf blankAll (doParse atof after S (some s)).2) = some t) : t.length < s.length := by
  rcases h1 : (doParse atof after S (some s)).2 with _ | s1
  · rw [h1] at h; cases h
  · rw [h1] at h
    rcases h2 : findFirstOf blankAll (some s1) with _ | s2
    · rw [h2] at h; cases h
    · rw [h2] at h
      obtain ⟨hs2, c, cs, rfl, hc⟩ := findFirstOf_suffix h2
      obtain ⟨ht, d, ds, rfl, hd⟩ := findFirstNotOf_suffix h
      have l1 := (doParse_suffix atof after S s s1 h1).length_le
      have l2 := hs2.length_le
      rcases List.suffix_cons_iff.1 ht with h3 | h3
      · rw [List.cons.injEq] at h3
        rw [h3.1] at hd
        exact absurd hc hd
      · have l3 := h3.length_le
        simp only [List.length_cons] at *
        omega

/-- `parse_all` terminates on every string: the number of iterations is at most one more than the number of characters, and the
result does not depend on the limit that is put on the number of iterations. -/
theorem C27_terminates (str : List Char) : ∃ L, parseAll atof after S str = some L ∧
    ∀ fuel, str.length < fuel → parseAllLoop atof after S fuel (some str) = some L := by
  have key : ∀ n, ∀ s : List Char, s.length < n → ∃ L, ∀ fuel, s.length < fuel → parseAllLoop atof after S fuel (some s) = some L := by
    intro n
    induction n with
    | zero => intro s h; omega
    | succ n ih =>
      intro s hs
      rcases h1 : findFirstNotOf blankAll (findFirstOf blankAll (doParse atof after S (some s)).2) with _ | t
      · refine ⟨((doParse atof after S (some s)).1.map (vecOfList S)).toList ++ [], fun fuel hf => ?_⟩
        obtain ⟨fuel, rfl⟩ := Nat.exists_eq_succ_of_ne_zero (show fuel ≠ 0 by omega)
        rw [parseAllLoop]
        simp only [h1]
        cases fuel <;> rfl
      · have hlt := parseAll_step atof after s t h1
        obtain ⟨L, hL⟩ := ih t (by omega)
        refine ⟨((doParse atof after S (some s)).1.map (vecOfList S)).toList ++ L, fun fuel hf => ?_⟩
        obtain ⟨fuel, rfl⟩ := Nat.exists_eq_succ_of_ne_zero (show fuel ≠ 0 by omega)
        rw [parseAllLoop]
        simp only [h1]
        rw [hL fuel (by omega)]
        rfl
  obtain ⟨L, hL⟩ := key (str.length + 1) str (Nat.lt_succ_self _)
  exact ⟨L, hL _ (Nat.lt_succ_self _), hL⟩

/-- The text of a tuple: texts of numbers that are separated by blanks or parentheses. -/
inductive TupleText (atof : List Char → T) : List T → List Char → Prop
  | one {t : List Char} {x : T} (ht : NumberText t) (hx : Reads atof t x) : TupleText atof [x] t
  | cons {t g s : List Char} {x : T} {xs : List T} (ht : NumberText t) (hx : Reads atof t x) (hg : g ≠ [])
      (hb : ∀ c ∈ g, c ∈ [' ', '\t', '\n', '\r', '(', ')']) (hs : TupleText atof xs s) : TupleText atof (x :: xs) (t ++ (g ++ s))

/-- What may stand between two tuples: commas and semicolons that directly follow the last number, then parentheses, then at least one
of the separators blank, comma and semicolon, then blanks and parentheses that belong to the next tuple.  If there are no parentheses,
the separators must start with a blank. -/
def TupleSep (g : List Char) : Prop := ∃ A P W Q, g = A ++ (P ++ (W ++ Q)) ∧ (∀ c ∈ A, c ∈ [',', ';']) ∧ (∀ c ∈ P, c ∈ ['(', ')']) ∧
  (∀ c ∈ W, c ∈ [' ', '\t', '\n', '\r', ',', ';']) ∧ (∀ c ∈ Q, c ∈ [' ', '\t', '\n', '\r', '(', ')']) ∧ W ≠ [] ∧ (P ≠ [] ∨ ∃ c cs, W = c :: cs ∧ c ∉ [',', ';'])

/-- What may stand after the last tuple. -/
def TrailSep (g : List Char) : Prop := ∃ A P W Q, g = A ++ (P ++ (W ++ Q)) ∧ (∀ c ∈ A, c ∈ [',', ';']) ∧ (∀ c ∈ P, c ∈ ['(', ')']) ∧
  (∀ c ∈ W, c ∈ [' ', '\t', '\n', '\r', ',', ';']) ∧ (∀ c ∈ Q, c ∈ [' ', '\t', '\n', '\r', '(', ')'])

/-- The text of a list of vectors. -/
inductive ListText (atof : List Char → T) : List (Vec T S) → List Char → Prop
  | last {v : Vec T S} {t g : List Char} (ht : TupleText atof (List.ofFn v) t) (hg : TrailSep g) : ListText atof [v] (t ++ g)
  | cons {v : Vec T S} {l : List (Vec T S)} {t g s : List Char} (ht : TupleText atof (List.ofFn v) t) (hg : TupleSep g)
      (hs : ListText atof l s) : ListText atof (v :: l) (t ++ (g ++ s))

theorem TupleText.head {xs : List T} {s : List Char} (h : TupleText atof xs s) : ∃ c cs, s = c :: cs ∧ c ∉ stops := by
  have : ∀ t : List Char, NumberText t → ∃ c cs, t = c :: cs ∧ c ∉ stops := by
    intro t ht
    rcases t with _ | ⟨c, cs⟩
    · exact absurd rfl ht.1
    · exact ⟨c, cs, rfl, ht.2 c (by simp)⟩
  cases h with
  | one ht _ => exact this _ ht
  | cons ht _ _ _ _ =>
    obtain ⟨c, cs, rfl, hc⟩ := this _ ht
    exact ⟨c, _, rfl, hc⟩

theorem ListText.head {l : List (Vec T S)} {s : List Char} (h : ListText atof l s) : ∃ c cs, s = c :: cs ∧ c ∉ stops := by
  cases h with
  | last ht _ => obtain ⟨c, cs, rfl, hc⟩ := ht.head; exact ⟨c, _, rfl, hc⟩
  | cons ht _ _ => obtain ⟨c, cs, rfl, hc⟩ := ht.head; exact ⟨c, _, rfl, hc⟩

theorem doParse_tuple {xs : List T} {txt : List Char} (h : TupleText atof xs txt) :
    ∀ pre rest, (∀ c ∈ pre, c ∈ blank) → Stops (rest ++ after) →
    doParse atof after xs.length (some (pre ++ (txt ++ rest))) = (some xs, findFirstOf blank (some rest)) := by
  induction h with
  | one ht hx =>
    rename_i t x
    intro pre rest hpre hrest
    obtain ⟨c, cs, e⟩ := List.exists_cons_of_ne_nil ht.1
    have hc : c ∉ blank := ht.not_blank c (by rw [e]; simp)
    have e1 : findFirstNotOf blank (some (pre ++ (t ++ rest))) = some (t ++ rest) := by
      rw [findFirstNotOf_append hpre, e, List.cons_append, findFirstNotOf_cons hc]
    rw [List.length_singleton, doParse, e1]
    simp only [doParse, Nat.lt_irrefl, decide_false, Bool.and_false, Bool.false_eq_true, if_false, Option.map_some,
      findFirstOf_append ht.not_blank]
    rw [List.append_assoc, hx _ hrest]
  | cons ht hx hg hb hs ih =>
    rename_i t g s x xs
    intro pre rest hpre hrest
    obtain ⟨c, cs, e⟩ := List.exists_cons_of_ne_nil ht.1
    obtain ⟨d, ds, eg⟩ := List.exists_cons_of_ne_nil hg
    have hc : c ∉ blank := ht.not_blank c (by rw [e]; simp)
    have hd : d ∈ blank := hb d (by rw [eg]; simp)
    have e1 : findFirstNotOf blank (some (pre ++ (t ++ (g ++ s) ++ rest))) = some (t ++ (g ++ (s ++ rest))) := by
      rw [findFirstNotOf_append hpre, List.append_assoc, List.append_assoc, e, List.cons_append, findFirstNotOf_cons hc]
    have e2 : findFirstOf blank (some (t ++ (g ++ (s ++ rest)))) = some (g ++ (s ++ rest)) := by
      rw [findFirstOf_append ht.not_blank, eg, List.cons_append, findFirstOf_cons hd]
    have e3 : atof (t ++ (g ++ (s ++ rest)) ++ after) = x := by
      rw [List.append_assoc]
      apply hx
      exact Or.inr ⟨d, _, by rw [eg]; rfl, blank_stops hd⟩
    rw [List.length_cons, doParse, e1]
    simp only [e2, Option.isNone_some, Bool.false_and, Bool.false_eq_true, if_false, e3]
    rw [ih g rest hb hrest]
    rfl

theorem comma_not_blank {c : Char} (h : c ∈ [',', ';']) : c ∉ blank := by
  simp only [List.mem_cons, List.not_mem_nil, or_false] at h
  rcases h with rfl | rfl <;> decide

theorem paren_blank {c : Char} (h : c ∈ ['(', ')']) : c ∈ blank := by
  simp only [List.mem_cons, List.not_mem_nil, or_false] at h
  rcases h with rfl | rfl <;> decide

theorem paren_not_blankAll {c : Char} (h : c ∈ ['(', ')']) : c ∉ blankAll := by
  simp only [List.mem_cons, List.not_mem_nil, or_false] at h
  rcases h with rfl | rfl <;> decide

theorem blankAll_stops {c : Char} (h : c ∈ blankAll) : c ∈ stops := by
  simp only [blankAll, stops, List.mem_cons, List.not_mem_nil, or_false] at *
  tauto

theorem comma_stops {c : Char} (h : c ∈ [',', ';']) : c ∈ stops := by
  simp only [stops, List.mem_cons, List.not_mem_nil, or_false] at *
  tauto

theorem sep_stops {A P W Q : List Char} (hA : ∀ c ∈ A, c ∈ [',', ';']) (hP : ∀ c ∈ P, c ∈ ['(', ')']) (hW : ∀ c ∈ W, c ∈ blankAll)
    (hQ : ∀ c ∈ Q, c ∈ blank) : ∀ c ∈ A ++ (P ++ (W ++ Q)), c ∈ stops := by
  intro c hc
  simp only [List.mem_append] at hc
  rcases hc with h | h | h | h
  · exact comma_stops (hA c h)
  · exact blank_stops (paren_blank (hP c h))
  · exact blankAll_stops (hW c h)
  · exact blank_stops (hQ c h)

theorem Stops.of_all {g after : List Char} (h : ∀ c ∈ g, c ∈ stops) (ha : Stops after) : Stops (g ++ after) := by
  rcases g with _ | ⟨c, cs⟩
  · exact ha
  · exact Or.inr ⟨c, cs ++ after, rfl, h c (by simp)⟩

/-- The shape of what remains after the last tuple. -/
def Trail (s : List Char) : Prop := ∃ P W Q, s = P ++ (W ++ Q) ∧ (∀ c ∈ P, c ∈ ['(', ')']) ∧ (∀ c ∈ W, c ∈ blankAll) ∧
  (∀ c ∈ Q, c ∈ blank)

theorem Trail.suffix {s t : List Char} (h : Trail s) (ht : t <:+ s) : Trail t := by
  induction s with
  | nil => rw [List.suffix_nil] at ht; subst ht; exact h
  | cons c s ih =>
    rcases List.suffix_cons_iff.1 ht with rfl | h1
    · exact h
    · refine ih ?_ h1
      obtain ⟨P, W, Q, e, hP, hW, hQ⟩ := h
      rcases P with _ | ⟨p, P⟩
      · rcases W with _ | ⟨w, W⟩
        · rcases Q with _ | ⟨q, Q⟩
          · cases e
          · rw [List.nil_append, List.nil_append, List.cons.injEq] at e
            exact ⟨[], [], Q, e.2, by simp, by simp, fun c hc => hQ c (by simp [hc])⟩
        · rw [List.nil_append, List.cons_append, List.cons.injEq] at e
          exact ⟨[], W, Q, e.2, by simp, fun c hc => hW c (by simp [hc]), hQ⟩
      · rw [List.cons_append, List.cons.injEq] at e
        exact ⟨P, W, Q, e.2, fun c hc => hP c (by simp [hc]), hW, hQ⟩

theorem Trail.next {s t : List Char} (h : Trail s) (ht : findFirstNotOf blankAll (findFirstOf blankAll (some s)) = some t) :
    ∀ c ∈ t, c ∈ blank := by
  rcases h1 : findFirstOf blankAll (some s) with _ | u
  · rw [h1] at ht; cases ht
  · rw [h1] at ht
    obtain ⟨hu, c, cs, e, hc⟩ := findFirstOf_suffix h1
    obtain ⟨P, W, Q, rfl, hP, hW, hQ⟩ := h.suffix hu
    have hPn : P = [] := by
      rcases P with _ | ⟨p, P⟩
      · rfl
      · exfalso
        rw [List.cons_append, List.cons.injEq] at e
        exact paren_not_blankAll (hP p (by simp)) (e.1 ▸ hc)
    rw [hPn, List.nil_append, findFirstNotOf_append hW] at ht
    intro d hd
    exact hQ d ((findFirstNotOf_suffix ht).1.subset hd)

theorem vecOfList_ofFn (v : Vec T S) : vecOfList S (List.ofFn v) = v := by
  funext i
  rw [vecOfList, List.getD_eq_getElem?_getD, List.getElem?_ofFn, dif_pos i.2]
  rfl

theorem parseAllLoop_blank (hS : 0 < S) (fuel : ℕ) (s : List Char) (hf : s.length < fuel) (h : ∀ c ∈ s, c ∈ blank) :
    parseAllLoop atof after S fuel (some s) = some [] := by
  obtain ⟨S, rfl⟩ := Nat.exists_eq_succ_of_ne_zero hS.ne'
  obtain ⟨fuel, rfl⟩ := Nat.exists_eq_succ_of_ne_zero (show fuel ≠ 0 by omega)
  have : doParse atof after (S + 1) (some s) = (none, none) := by
    rw [doParse, findFirstNotOf_all h]
  rw [parseAllLoop]
  simp only [Nat.succ_eq_add_one, this, findFirstOf, findFirstNotOf]
  cases fuel <;> rfl

/-- `parse_all` returns all vectors in order if the separators are well formed.  The full claim would allow any mix of blanks,
parentheses, commas and semicolons between two tuples; this is false, see `C27_comma_fails`, `C27_parentheses_fails` and
`C27_space_comma_fails`. -/
theorem C27_list_partial (l : List (Vec T S)) (txt pre : List Char) (h : ListText atof l txt) (hpre : ∀ c ∈ pre, c ∈ [' ', '\t', '\n', '\r', '(', ')'])
    (hafter : Stops after) : parseAll atof after S (pre ++ txt) = some l := by
  have key : ∀ (l : List (Vec T S)) (txt : List Char), ListText atof l txt → ∀ pre, (∀ c ∈ pre, c ∈ blank) → ∀ fuel,
      (pre ++ txt).length < fuel → parseAllLoop atof after S fuel (some (pre ++ txt)) = some l := by
    intro l txt h
    induction h with
    | last ht hg =>
      rename_i v t g
      intro pre hpre fuel hf
      obtain ⟨A, P, W, Q, rfl, hA, hP, hW, hQ⟩ := hg
      have hd := doParse_tuple atof after ht pre (A ++ (P ++ (W ++ Q))) hpre (Stops.of_all (sep_stops hA hP hW hQ) hafter)
      rw [List.length_ofFn, findFirstOf_append (fun c hc => comma_not_blank (hA c hc))] at hd
      obtain ⟨fuel, rfl⟩ := Nat.exists_eq_succ_of_ne_zero (show fuel ≠ 0 by omega)
      have hstep := parseAll_step (S := S) atof after (pre ++ (t ++ (A ++ (P ++ (W ++ Q)))))
      rw [parseAllLoop]
      simp only [hd, Option.map_some, vecOfList_ofFn, Option.toList_some] at hstep ⊢
      have hS : 0 < S := by
        rcases Nat.eq_zero_or_pos S with h0 | h0
        · subst h0; rw [List.ofFn_zero] at ht; cases ht
        · exact h0
      have e : parseAllLoop atof after S fuel
          (findFirstNotOf blankAll (findFirstOf blankAll (findFirstOf blank (some (P ++ (W ++ Q)))))) = some [] := by
        rcases h1 : findFirstNotOf blankAll (findFirstOf blankAll (findFirstOf blank (some (P ++ (W ++ Q))))) with _ | s
        · cases fuel <;> rfl
        · have hlt := hstep s h1
          apply parseAllLoop_blank atof after hS fuel s (by omega)
          rcases h2 : findFirstOf blank (some (P ++ (W ++ Q))) with _ | u
          · rw [h2] at h1; cases h1
          · rw [h2] at h1
            exact Trail.next (Trail.suffix ⟨P, W, Q, rfl, hP, hW, hQ⟩ (findFirstOf_suffix h2).1) h1
      rw [e]
      rfl
    | cons ht hg hs ih =>
      rename_i v l t g s
      intro pre hpre fuel hf
      obtain ⟨A, P, W, Q, rfl, hA, hP, hW, hQ, hW0, hPW⟩ := hg
      have hne : A ++ (P ++ (W ++ Q)) ≠ [] := by
        intro h0
        simp only [List.append_eq_nil_iff] at h0
        exact hW0 h0.2.2.1
      have hstops : Stops (A ++ (P ++ (W ++ Q)) ++ s ++ after) := by
        obtain ⟨c, cs, e⟩ := List.exists_cons_of_ne_nil hne
        exact Or.inr ⟨c, cs ++ s ++ after, by rw [e]; rfl, sep_stops hA hP hW hQ c (by rw [e]; simp)⟩
      have hd := doParse_tuple atof after ht pre (A ++ (P ++ (W ++ Q)) ++ s) hpre hstops
      have e1 : findFirstOf blank (some (A ++ (P ++ (W ++ Q)) ++ s)) = some (P ++ (W ++ (Q ++ s))) := by
        simp only [List.append_assoc]
        rw [findFirstOf_append (fun c hc => comma_not_blank (hA c hc))]
        rcases P with _ | ⟨p, P⟩
        · rcases hPW with h0 | ⟨c, cs, rfl, hc⟩
          · exact absurd rfl h0
          · rw [List.nil_append, List.cons_append]
            apply findFirstOf_cons
            have := hW c (by simp)
            simp only [blankAll, blank, List.mem_cons, List.not_mem_nil, or_false] at *
            tauto
        · rw [List.cons_append]
          exact findFirstOf_cons (paren_blank (hP p (by simp))) _
      have e2 : findFirstOf blankAll (some (P ++ (W ++ (Q ++ s)))) = some (W ++ (Q ++ s)) := by
        rw [findFirstOf_append (fun c hc => paren_not_blankAll (hP c hc))]
        rcases W with _ | ⟨w, W⟩
        · exact absurd rfl hW0
        · rw [List.cons_append]
          exact findFirstOf_cons (hW w (by simp)) _
      have e3 : ∃ Q', (∀ c ∈ Q', c ∈ blank) ∧ findFirstNotOf blankAll (some (W ++ (Q ++ s))) = some (Q' ++ s) := by
        rw [findFirstNotOf_append (chars := blankAll) hW]
        clear e1 e2 hd hstops hne hf hPW ih hP hA
        induction Q with
        | nil =>
          obtain ⟨c, cs, e, hc⟩ := hs.head
          refine ⟨[], by simp, ?_⟩
          rw [List.nil_append, e, findFirstNotOf_cons (fun h => hc (blankAll_stops h))]
        | cons q Q ihQ =>
          by_cases hq : q ∈ blankAll
          · obtain ⟨Q', h1, h2⟩ := ihQ (fun c hc => hQ c (by simp [hc]))
            refine ⟨Q', h1, ?_⟩
            have := findFirstNotOf_append (chars := blankAll) (q := [q]) (by simpa using hq) (Q ++ s)
            rw [List.cons_append] at this ⊢
            exact this.trans h2
          · exact ⟨q :: Q, hQ, by rw [List.cons_append]; exact findFirstNotOf_cons hq _⟩
      obtain ⟨Q', hQ', e3⟩ := e3
      rw [List.length_ofFn, e1] at hd
      obtain ⟨fuel, rfl⟩ := Nat.exists_eq_succ_of_ne_zero (show fuel ≠ 0 by omega)
      have hlt := parseAll_step (S := S) atof after (pre ++ (t ++ (A ++ (P ++ (W ++ Q)) ++ s))) (Q' ++ s) (by rw [hd]; simp only [e2, e3])
      rw [parseAllLoop]
      simp only [hd, Option.map_some, vecOfList_ofFn, Option.toList_some, e2, e3]
      rw [ih Q' hQ' fuel (by omega)]
      rfl
  exact key l txt h pre hpre _ (Nat.lt_succ_self _)

/-- A reader of natural numbers in decimal notation, for the examples. -/
def readNat (s : List Char) : ℕ := (s.takeWhile Char.isDigit).foldl (fun n c => 10 * n + (c.toNat - 48)) 0

theorem readNat_digits (t : List Char) (h : ∀ c ∈ t, Char.isDigit c = true) :
    Reads readNat t (t.foldl (fun n c => 10 * n + (c.toNat - 48)) 0) := by
  have hs : ∀ c ∈ stops, Char.isDigit c = false := by decide +kernel
  rintro rest (rfl | ⟨c, cs, rfl, hc⟩)
  · rw [readNat, List.append_nil, List.takeWhile_eq_self_iff.2 h]
  · rw [readNat, List.takeWhile_append_of_pos h, List.takeWhile_cons_of_neg (by rw [hs c hc]; simp), List.append_nil]

/-- A comma directly between two tuples is a separator according to the documentation, but the second tuple is lost. -/
theorem C27_comma_fails : parseAll readNat [] 3 "1 2 3,4 5 6".toList = some [![1, 2, 3]] := by decide +kernel

/-- Without a separator after the closing parenthesis, the second tuple is lost. -/
theorem C27_parentheses_fails : parseAll readNat [] 3 "(1 2 3)(4 5 6)".toList = some [![1, 2, 3]] := by decide +kernel

/-- If the closing parenthesis is followed by a blank, it is read as the beginning of the next tuple, and a comma after it becomes a
component: the result has a tuple that is not in the text. -/
theorem C27_space_comma_fails : parseAll readNat [] 3 "( 1 2 3 ) , ( 4 5 6 )".toList = some [![1, 2, 3], ![0, 4, 5]] := by
  decide +kernel

/-- Texts that the theorem covers. -/
example : parseAll readNat [] 2 "(10 2), (3 4); (5 6)".toList = some [![10, 2], ![3, 4], ![5, 6]] := by
  have tup : ∀ a b : List Char, NumberText a → NumberText b → (∀ c ∈ a, c.isDigit = true) → (∀ c ∈ b, c.isDigit = true) →
      TupleText readNat (List.ofFn ![a.foldl (fun n c => 10 * n + (c.toNat - 48)) 0, b.foldl (fun n c => 10 * n + (c.toNat - 48)) 0])
        (a ++ ([' '] ++ b)) := by
    intro a b ha hb hda hdb
    exact .cons ha (readNat_digits a hda) (by simp) (by decide) (.one hb (readNat_digits b hdb))
  have n1 : ∀ a ∈ [['1', '0'], ['2'], ['3'], ['4'], ['5'], ['6']], NumberText a := by
    intro a ha
    refine ⟨?_, ?_⟩
    · rintro rfl; simp at ha
    · revert a ha; decide
  have n2 : ∀ a ∈ [['1', '0'], ['2'], ['3'], ['4'], ['5'], ['6']], ∀ c ∈ a, c.isDigit = true := by decide +kernel
  have h : ListText readNat [![10, 2], ![3, 4], ![5, 6]] "10 2), (3 4); (5 6)".toList := by
    refine .cons (t := "10 2".toList) (g := "), (".toList) (s := "3 4); (5 6)".toList) ?_ ?_ (.cons (t := "3 4".toList)
      (g := "); (".toList) (s := "5 6)".toList) ?_ ?_ (.last (t := "5 6".toList) (g := ")".toList) ?_ ?_))
    · exact tup ['1', '0'] ['2'] (n1 _ (by simp)) (n1 _ (by simp)) (n2 _ (by simp)) (n2 _ (by simp))
    · exact ⟨[], [')'], [',', ' '], ['('], rfl, by decide, by decide, by decide, by decide, by decide, Or.inl (by decide)⟩
    · exact tup ['3'] ['4'] (n1 _ (by simp)) (n1 _ (by simp)) (n2 _ (by simp)) (n2 _ (by simp))
    · exact ⟨[], [')'], [';', ' '], ['('], rfl, by decide, by decide, by decide, by decide, by decide, Or.inl (by decide)⟩
    · exact tup ['5'] ['6'] (n1 _ (by simp)) (n1 _ (by simp)) (n2 _ (by simp)) (n2 _ (by simp))
    · exact ⟨[], [')'], [], [], rfl, by decide, by decide, by decide, by decide⟩
  exact C27_list_partial readNat [] _ _ ['('] h (by decide) (Or.inl rfl)

/-- The decimal printer and reader satisfy the hypotheses of the round trip theorems for digits. -/
example : parseVec readNat [] 2 (['('] ++ printVec (fun n => [Char.ofNat (48 + n)]) ![7, 3] ++ [')']) = some ![7, 3] := by
  refine C26_round_trip readNat [] (fun n => [Char.ofNat (48 + n)]) ![7, 3] ?_ ?_ (Or.inl rfl) ['('] [')'] (by decide)
    (Or.inr ⟨')', [], rfl, by decide⟩)
  · intro i; fin_cases i
    · exact ⟨by simp, by decide +kernel⟩
    · exact ⟨by simp, by decide +kernel⟩
  · intro i; fin_cases i
    · exact readNat_digits ['7'] (by decide +kernel)
    · exact readNat_digits ['3'] (by decide +kernel)

example : parseMat readNat [] 2 2 (printMat (fun n => [Char.ofNat (48 + n)]) (fun c r => ![![7, 3], ![2, 9]] c r : Mat ℕ 2 2)) =
    some fun c r => ![![7, 3], ![2, 9]] c r := by
  have := C77_round_trip readNat [] (fun n => [Char.ofNat (48 + n)]) (fun c r => ![![7, 3], ![2, 9]] c r : Mat ℕ 2 2) ?_ ?_ (Or.inl rfl)
    [] [] (by decide) (Or.inl rfl)
  · simpa using this
  · intro c r; fin_cases c <;> fin_cases r <;> exact ⟨by simp, by decide +kernel⟩
  · intro c r; fin_cases c <;> fin_cases r
    · exact readNat_digits ['7'] (by decide +kernel)
    · exact readNat_digits ['3'] (by decide +kernel)
    · exact readNat_digits ['2'] (by decide +kernel)
    · exact readNat_digits ['9'] (by decide +kernel)

/-- The matrix with columns (7, 3) and (2, 9) is printed row by row. -/
example : printMat (fun n => [Char.ofNat (48 + n)]) (fun c r => ![![7, 3], ![2, 9]] c r : Mat ℕ 2 2) = "7 2 3 9".toList := by
  decide +kernel

end vm
