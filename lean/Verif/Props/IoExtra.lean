import Verif.Props.Io

/-!
# C93: the text of boxes, lines, rays and planes
-/

set_option linter.unusedSectionVars false
set_option linter.unusedSimpArgs false

universe u

namespace vm
variable {T : Type u} [Zero T] {S : ℕ}

/-- The words of a text with two labelled vectors. -/
theorem tokens_two (print : T → List Char) (v w : Vec T S) (hS : 0 < S) (hv : ∀ i, NumberText (print (v i)))
    (hw : ∀ i, NumberText (print (w i))) (A B : List Char) (hA : NumberText A) (hB : NumberText B) :
    tokens ((['{', ' '] ++ A ++ [' ', '(']) ++ printVec print v ++ ([')', ',', ' '] ++ B ++ [' ', '(']) ++ printVec print w ++
      [')', ' ', '}']) =
      ['{'] :: A :: (List.ofFn (fun i => print (v i)) ++ ([','] :: B :: (List.ofFn (fun i => print (w i)) ++ [['}']]))) := by
  have e : (['{', ' '] ++ A ++ [' ', '(']) ++ printVec print v ++ ([')', ',', ' '] ++ B ++ [' ', '(']) ++ printVec print w ++
      [')', ' ', '}'] =
      ['{'] ++ ' ' :: (A ++ ' ' :: ('(' :: (printVec print v ++ (')' :: ([','] ++ ' ' :: (B ++ ' ' :: ('(' :: (printVec print w ++
        (')' :: ' ' :: ['}']))))))))) := by
    simp
  have hA' := hA.not_blank
  have hB' := hB.not_blank
  rw [e, tokens_cons (by decide) (by decide) (by decide), tokens_cons hA' hA.1 (by decide), tokens_blank (by decide),
    tokens_printVec print v hS hv _ (Or.inr ⟨_, _, rfl, by decide⟩), tokens_blank (by decide),
    tokens_cons (by decide) (by decide) (by decide), tokens_cons hB' hB.1 (by decide), tokens_blank (by decide),
    tokens_printVec print w hS hw _ (Or.inr ⟨_, _, rfl, by decide⟩), tokens_blank (by decide), tokens_blank (by decide),
    tokens_single (by decide) (by decide)]

/-- The words of the text of a box are the braces, the labels and the numbers of the two corners in order. -/
theorem C93_bbox (print : T → List Char) (b : BBox T S) (hS : 0 < S) (h1 : ∀ i, NumberText (print (b.min i)))
    (h2 : ∀ i, NumberText (print (b.max i))) :
    tokens (printBBox print b) = "{".toList :: "min:".toList :: (List.ofFn (fun i => print (b.min i)) ++
      (",".toList :: "max:".toList :: (List.ofFn (fun i => print (b.max i)) ++ ["}".toList]))) :=
  tokens_two print b.min b.max hS h1 h2 "min:".toList "max:".toList ⟨by decide, by decide⟩ ⟨by decide, by decide⟩

/-- The same for a line, ... -/
theorem C93_line (print : T → List Char) (l : Line T S) (hS : 0 < S) (h1 : ∀ i, NumberText (print (l.point i)))
    (h2 : ∀ i, NumberText (print (l.direction i))) :
    tokens (printLine print l) = "{".toList :: "point:".toList :: (List.ofFn (fun i => print (l.point i)) ++
      (",".toList :: "direction:".toList :: (List.ofFn (fun i => print (l.direction i)) ++ ["}".toList]))) :=
  tokens_two print l.point l.direction hS h1 h2 "point:".toList "direction:".toList ⟨by decide, by decide⟩
    ⟨by decide, by decide⟩

/-- ... a ray, ... -/
theorem C93_ray (print : T → List Char) (r : Ray T S) (hS : 0 < S) (h1 : ∀ i, NumberText (print (r.origin i)))
    (h2 : ∀ i, NumberText (print (r.direction i))) :
    tokens (printRay print r) = "{".toList :: "origin:".toList :: (List.ofFn (fun i => print (r.origin i)) ++
      (",".toList :: "direction:".toList :: (List.ofFn (fun i => print (r.direction i)) ++ ["}".toList]))) :=
  tokens_two print r.origin r.direction hS h1 h2 "origin:".toList "direction:".toList ⟨by decide, by decide⟩
    ⟨by decide, by decide⟩

/-- The words of a text with a labelled vector and a labelled number. -/
theorem tokens_vec_num (print : T → List Char) (v : Vec T S) (d : T) (hS : 0 < S) (hv : ∀ i, NumberText (print (v i)))
    (hd : NumberText (print d)) (A B : List Char) (hA : NumberText A) (hB : NumberText B) :
    tokens ((['{', ' '] ++ A ++ [' ', '(']) ++ printVec print v ++ ([')', ',', ' '] ++ B ++ [' ']) ++ print d ++ [' ', '}']) =
      ['{'] :: A :: (List.ofFn (fun i => print (v i)) ++ [[','], B, print d, ['}']]) := by
  have e : (['{', ' '] ++ A ++ [' ', '(']) ++ printVec print v ++ ([')', ',', ' '] ++ B ++ [' ']) ++ print d ++ [' ', '}'] =
      ['{'] ++ ' ' :: (A ++ ' ' :: ('(' :: (printVec print v ++ (')' :: ([','] ++ ' ' :: (B ++ ' ' :: (print d ++
        ' ' :: ['}']))))))) := by
    simp
  rw [e, tokens_cons (by decide) (by decide) (by decide), tokens_cons hA.not_blank hA.1 (by decide), tokens_blank (by decide),
    tokens_printVec print v hS hv _ (Or.inr ⟨_, _, rfl, by decide⟩), tokens_blank (by decide),
    tokens_cons (by decide) (by decide) (by decide), tokens_cons hB.not_blank hB.1 (by decide),
    tokens_cons hd.not_blank hd.1 (by decide), tokens_single (by decide) (by decide)]

/-- ... and a plane. -/
theorem C93_plane (print : T → List Char) (p : Plane T S) (hS : 0 < S) (h1 : ∀ i, NumberText (print (p.normal i)))
    (h2 : NumberText (print p.distance)) :
    tokens (printPlane print p) = "{".toList :: "normal:".toList :: (List.ofFn (fun i => print (p.normal i)) ++
      [",".toList, "distance:".toList, print p.distance, "}".toList]) :=
  tokens_vec_num print p.normal p.distance hS h1 h2 "normal:".toList "distance:".toList ⟨by decide, by decide⟩
    ⟨by decide, by decide⟩

theorem two_inj {print : T → List Char} (hinj : Function.Injective print) {A B E : List (List Char)} {v w v' w' : Vec T S}
    (h : A ++ (List.ofFn (fun i => print (v i)) ++ (B ++ (List.ofFn (fun i => print (w i)) ++ E))) =
      A ++ (List.ofFn (fun i => print (v' i)) ++ (B ++ (List.ofFn (fun i => print (w' i)) ++ E)))) : v = v' ∧ w = w' := by
  rw [List.append_right_inj] at h
  obtain ⟨h1, h2⟩ := List.append_inj h (by simp)
  rw [List.append_right_inj] at h2
  have h3 := (List.append_inj h2 (by simp)).1
  rw [List.ofFn_inj] at h1 h3
  exact ⟨funext fun i => hinj (congrFun h1 i), funext fun i => hinj (congrFun h3 i)⟩

/-- If different numbers are printed differently then different boxes, lines, rays and planes are printed differently. -/
theorem C93_unambiguous (print : T → List Char) (hp : ∀ x, NumberText (print x)) (hinj : Function.Injective print) (hS : 0 < S) :
    Function.Injective (printBBox (S := S) print) ∧ Function.Injective (printLine (S := S) print) ∧
    Function.Injective (printRay (S := S) print) ∧ Function.Injective (printPlane (S := S) print) := by
  refine ⟨fun a b h => ?_, fun a b h => ?_, fun a b h => ?_, fun a b h => ?_⟩
  · have := congrArg tokens h
    rw [C93_bbox print a hS (fun _ => hp _) (fun _ => hp _), C93_bbox print b hS (fun _ => hp _) (fun _ => hp _)] at this
    obtain ⟨h1, h2⟩ := two_inj (A := ["{".toList, "min:".toList]) (B := [",".toList, "max:".toList]) hinj this
    cases a; cases b; simp_all
  · have := congrArg tokens h
    rw [C93_line print a hS (fun _ => hp _) (fun _ => hp _), C93_line print b hS (fun _ => hp _) (fun _ => hp _)] at this
    obtain ⟨h1, h2⟩ := two_inj (A := ["{".toList, "point:".toList]) (B := [",".toList, "direction:".toList]) hinj this
    cases a; cases b; simp_all
  · have := congrArg tokens h
    rw [C93_ray print a hS (fun _ => hp _) (fun _ => hp _), C93_ray print b hS (fun _ => hp _) (fun _ => hp _)] at this
    obtain ⟨h1, h2⟩ := two_inj (A := ["{".toList, "origin:".toList]) (B := [",".toList, "direction:".toList]) hinj this
    cases a; cases b; simp_all
  · have := congrArg tokens h
    rw [C93_plane print a hS (fun _ => hp _) (hp _), C93_plane print b hS (fun _ => hp _) (hp _)] at this
    simp only [List.cons.injEq, true_and] at this
    obtain ⟨h1, h2⟩ := List.append_inj this (by simp)
    rw [List.ofFn_inj] at h1
    have h3 : a.normal = b.normal := funext fun i => hinj (congrFun h1 i)
    have h4 : a.distance = b.distance := by
      apply hinj
      simpa using h2
    cases a; cases b; simp_all

/-- The hypotheses are met, for example, by the unary notation of natural numbers. -/
example : (∀ x : ℕ, NumberText (List.replicate (x + 1) 'I')) ∧ Function.Injective (fun x : ℕ => List.replicate (x + 1) 'I') ∧
    String.ofList (printBBox (fun x : ℕ => List.replicate (x + 1) 'I') (⟨![0, 1], ![2, 1]⟩ : BBox ℕ 2)) =
      "{ min: (I II), max: (III II) }" := by
  refine ⟨fun x => ⟨by simp, fun c hc => ?_⟩, fun x y h => ?_, by decide +kernel⟩
  · obtain ⟨-, rfl⟩ := List.mem_replicate.1 hc
    decide
  · have := congrArg List.length h
    simpa using this

end vm
