import Verif.Props.SvmCases
import Verif.Props.SoftTrain
import Verif.Props.FeatureSelection

/-! # C81, C121, C129: the bounds on the number of rounds make no difference

Loops and recursions without a bound in the code are modelled with a number of rounds; what happens when it is
used up is a separate outcome.  Every other outcome is the same for all larger numbers of rounds. -/

set_option linter.unusedSectionVars false
set_option linter.unusedVariables false

namespace Verif
open Dbl

/-- `a` ran out of rounds (`e`), or it is `b` -/
def Within {α : Type} (e : Err) (a b : Res α) : Prop := a = .error e ∨ a = b

theorem Within.refl {α : Type} {e : Err} (a : Res α) : Within e a a := Or.inr rfl

theorem Within.bind {α β : Type} {e : Err} {a b : Res α} {f g : α → Res β} (h : Within e a b)
    (hf : ∀ x, Within e (f x) (g x)) : Within e (a >>= f) (b >>= g) := by
  rcases h with rfl | rfl
  · exact Or.inl rfl
  · cases a with
    | error er => exact Or.inr rfl
    | ok x => exact hf x

theorem Within.foldlM {α β : Type} {e : Err} {f g : β → α → Res β} (hf : ∀ b x, Within e (f b x) (g b x)) (l : List α) (b : β) :
    Within e (l.foldlM f b) (l.foldlM g b) := by
  induction l generalizing b with
  | nil => exact Within.refl _
  | cons x l ih =>
    simp only [List.foldlM_cons]
    exact (hf b x).bind (fun y => ih y)

section
variable {F : Type} [Dbl F]

theorem run_within {n m : Nat} (h : n ≤ m) (s : Smo F) :
    (∃ s', Smo.run n s = .ok (s', false)) ∨ Smo.run n s = Smo.run m s := by
  induction n generalizing m s with
  | zero => exact Or.inl ⟨s, rfl⟩
  | succ n ih =>
    obtain ⟨m, rfl⟩ : ∃ k, m = k + 1 := ⟨m - 1, by omega⟩
    simp only [Smo.run]
    cases e : s.iterate with
    | error er => exact Or.inr rfl
    | ok r =>
      simp only [res_bind_ok]
      cases r.2 with
      | true => exact Or.inr rfl
      | false => exact ih (by omega) r.1

theorem boundedSolver_within {n m : Nat} (h : n ≤ m) (p : SvmParam F) (x : List (NodeL F)) (y b : List F) :
    Within (.ub "rounds") (Svm.boundedSolver n p x y b) (Svm.boundedSolver m p x y b) := by
  unfold Svm.boundedSolver Smo.solve
  cases e : Smo.start y.length x y b p with
  | error er => exact Or.inr rfl
  | ok s =>
    simp only [res_bind_ok]
    rcases run_within h s with ⟨s', e'⟩ | e'
    · rw [e']; exact Or.inl rfl
    · rw [e']; exact Or.inr rfl

theorem solveSingle_within {f g : List (NodeL F) → List F → List F → Res (F × List F)} {e : Err}
    (h : ∀ x y b, Within e (f x y b) (g x y b)) (x : List (NodeL F)) (y : List F) :
    Within e (Svm.solveSingle f x y) (Svm.solveSingle g x y) := by
  unfold Svm.solveSingle
  exact (h _ _ _).bind (fun r => Within.refl _)

theorem trainPair_within {f g : List (NodeL F) → List F → List F → Res (F × List F)} {e : Err}
    (h : ∀ x y b, Within e (f x y b) (g x y b)) (d : DD) (x : List (NodeL F)) (start : List Nat) (acc : Svm.PairAcc F)
    (p : Nat × Nat) : Within e (Svm.trainPair f d x start acc p) (Svm.trainPair g d x start acc p) := by
  unfold Svm.trainPair
  refine (Within.refl _).bind (fun _ => (Within.refl _).bind (fun _ => (Within.refl _).bind (fun _ => (Within.refl _).bind (fun _ =>
    (Within.refl _).bind (fun _ => (Within.refl _).bind (fun _ => ?_))))))
  exact (solveSingle_within h _ _).bind (fun _ => Within.refl _)

/-- **C129, bounds**: train with the library's own solver, in any arithmetic and on any data. If training with at
most `n` rounds of the solver has any outcome other than using up the rounds, it has the same outcome with
every larger number of rounds. -/
theorem C129_bound (old : Svm F) (l : IList F) (p : SvmParam F) (n m : Nat) (h : n ≤ m) :
    Svm.train (Svm.boundedSolver n p) old l p = .error (.ub "rounds") ∨
      Svm.train (Svm.boundedSolver n p) old l p = Svm.train (Svm.boundedSolver m p) old l p := by
  have hw := boundedSolver_within h p
  show Within _ _ _
  unfold Svm.train
  refine (Within.refl _).bind (fun x => ?_)
  split
  · refine Within.bind ?_ (fun _ => Within.refl _)
    unfold Svm.trainSorted
    refine (Within.refl _).bind (fun _ => (Within.refl _).bind (fun _ => ?_))
    exact (Within.foldlM (fun b q => trainPair_within (fun x y b => hw x y b) _ _ _ b q) _ _).bind (fun _ => Within.refl _)
  · exact Within.refl _

theorem softGrow_within (labels : List String) (param : SoftParam F) (cv : IList F) : ∀ (n m : Nat) (path : List Bool) (s : SoftState F),
    n ≤ m → Within (.ub "infinite recursion") (softGrow labels param cv n path s) (softGrow labels param cv m path s) := by
  intro n
  induction n with
  | zero => intro m path s _; exact Or.inl rfl
  | succ n ih =>
    intro m path s h
    obtain ⟨m, rfl⟩ : ∃ k, m = k + 1 := ⟨m - 1, by omega⟩
    simp only [softGrow]
    refine (Within.refl _).bind (fun r => ?_)
    split
    · exact (ih m _ _ (by omega)).bind (fun s1 => ih m _ _ (by omega))
    · exact Within.refl _

/-- **C121, bounds**: the same for the depth of a soft decision tree -/
theorem C121_bound (param : SoftParam F) (trainSet : IList F) (n m : Nat) (h : n ≤ m) :
    softTrain param n trainSet = .error (.ub "infinite recursion") ∨
      softTrain param n trainSet = softTrain param m trainSet := by
  show Within _ _ _
  unfold softTrain
  refine (Within.refl _).bind (fun _ => (Within.refl _).bind (fun _ => (Within.refl _).bind (fun _ => (Within.refl _).bind (fun _ => ?_))))
  exact (softGrow_within _ _ _ n m _ _ h).bind (fun _ => Within.refl _)

/-- **C81, bounds**: the same for the rounds of a subset selection (`none` is the outcome of using them up) -/
theorem C81_bound (op : FeatSel.Op) (initial : List Nat) (k : Nat) (run : FeatSel.Runner F) (n m : Nat) (h : n ≤ m) :
    FeatSel.execute op initial k run n = none ∨ FeatSel.execute op initial k run n = FeatSel.execute op initial k run m := by
  have hloop : ∀ (n m : Nat) (st : FeatSel.St F), n ≤ m →
      FeatSel.loop op k run n st = none ∨ FeatSel.loop op k run n st = FeatSel.loop op k run m st := by
    intro n
    induction n with
    | zero => intro m st _; exact Or.inl rfl
    | succ n ih =>
      intro m st h
      obtain ⟨m, rfl⟩ : ∃ k, m = k + 1 := ⟨m - 1, by omega⟩
      simp only [FeatSel.loop]
      split
      · cases FeatSel.round op k run st with
        | error er => exact Or.inr rfl
        | ok st' => exact ih m st' (by omega)
      · exact Or.inr rfl
  unfold FeatSel.execute
  cases FeatSel.start run initial with
  | error er => exact Or.inr rfl
  | ok st => exact hloop n m st h

end

/-- two points: one round is not enough for the solver, two rounds are -/
example : (match Svm.train (Svm.boundedSolver 1 lineParam) (emptySvm XR)
      [⟨"a", [.continuous (XR.fin 1)], none⟩, ⟨"b", [.continuous (.fin (-1))], none⟩] lineParam,
    Svm.train (Svm.boundedSolver 2 lineParam) (emptySvm XR)
      [⟨"a", [.continuous (XR.fin 1)], none⟩, ⟨"b", [.continuous (.fin (-1))], none⟩] lineParam with
    | .error (.ub "rounds"), .ok m => m.1.svCounts == [1, 1]
    | _, _ => false) = true := by decide +kernel

end Verif
