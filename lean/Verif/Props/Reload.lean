import Verif.Props.ModelFiles
import Verif.Props.Retrain
import Verif.Props.Order
import Verif.Props.SoftTree
import Verif.Spec.Reload

/-! # C147: loading into an object that was used before -/

set_option linter.unusedSectionVars false

namespace Verif
open Dbl

variable {F : Type} [Dbl F]

theorem SameRun.refl {α : Type} (a : Res (α × In)) : SameRun Eq a a := by
  cases a <;> simp [SameRun]

theorem SameRun.bind {α β γ δ : Type} {R : α → β → Prop} {Q : γ → δ → Prop} {m : Rd α} {n : Rd β}
    {f : α → Rd γ} {g : β → Rd δ} {i : In} (h : SameRun R (m i) (n i))
    (hf : ∀ a b j, R a b → SameRun Q (f a j) (g b j)) : SameRun Q ((m >>= f) i) ((n >>= g) i) := by
  rw [rd_bind, rd_bind]
  revert h
  generalize m i = x
  generalize n i = y
  intro h
  cases x with
  | error e => cases y with
    | error e' => exact h
    | ok q => cases h
  | ok p => cases y with
    | error e' => cases h
    | ok q =>
      obtain ⟨h1, h2⟩ := h
      obtain ⟨a, i1⟩ := p
      obtain ⟨b, i2⟩ := q
      cases h2
      exact hf a b i1 h1

/-- the same reader first -/
theorem SameRun.bind_same {α γ δ : Type} {Q : γ → δ → Prop} {m : Rd α} {f : α → Rd γ} {g : α → Rd δ}
    {i : In} (hf : ∀ a j, SameRun Q (f a j) (g a j)) : SameRun Q ((m >>= f) i) ((m >>= g) i) :=
  SameRun.bind (SameRun.refl _) (fun a _ j h => h ▸ hf a j)

theorem SameRun.pure {α β : Type} {R : α → β → Prop} {a : α} {b : β} {i : In} (h : R a b) :
    SameRun R ((Pure.pure a : Rd α) i) ((Pure.pure b : Rd β) i) := ⟨h, rfl⟩

theorem SameRun.loop {σ τ : Type} {R : σ → τ → Prop} {f : σ → Rd σ} {g : τ → Rd τ}
    (h : ∀ s t i, R s t → SameRun R (f s i) (g t i)) (n : Nat) :
    ∀ s t i, R s t → SameRun R (rdLoop f n s i) (rdLoop g n t i) := by
  induction n with
  | zero => intro s t i hst; exact SameRun.pure hst
  | succ n ih =>
    intro s t i hst
    rw [rdLoop, rdLoop]
    exact SameRun.bind (h s t i hst) (fun a b j hab => ih a b j hab)

theorem KeepsOld.nil {V : Type} (old : OMap V) : KeepsOld old old [] := by
  intro c
  cases OMap.find? old c <;> rfl

theorem KeepsOld.emplace {V : Type} {old m f : OMap V} (h : KeepsOld old m f) (k : String) (v : V) :
    KeepsOld old (m.emplace k v) (f.emplace k v) := by
  intro c
  rw [find?_emplace, find?_emplace]
  by_cases hc : c = k
  · subst hc
    rw [if_pos rfl, if_pos rfl, h c]
    cases OMap.find? old c <;> rfl
  · rw [if_neg hc, if_neg hc]
    exact h c

theorem vecMap_same (L : MathLib F) (n : Nat) (c : String) {old m f : OMap (List F)}
    (h : KeepsOld old m f) (i : In) :
    SameRun (fun s t => s.1 = t.1 ∧ KeepsOld old s.2 t.2) (rdLoop (readVecStep L) n (c, m) i)
      (rdLoop (readVecStep L) n (c, f) i) :=
  SameRun.loop (fun s t i hst => by
    unfold readVecStep
    rw [hst.1]
    refine SameRun.bind_same (fun w j => ?_)
    refine SameRun.bind_same (fun v j => ?_)
    exact SameRun.pure ⟨rfl, hst.2.emplace w v⟩) n _ _ i ⟨rfl, h⟩

/-- **C147 (what happens)**: a naive Bayes model loaded into an object fails or not as into a new
object; the object then has the new class distribution, and keeps all means and deviations it
had. -/
theorem C147_naive_bayes (L : MathLib F) (old : NaiveBayes F) (i : In) :
    SameRun (fun (m f : NaiveBayes F) => m.prior = f.prior ∧
        KeepsOld old.classMeans m.classMeans f.classMeans ∧
        KeepsOld old.classDeviations m.classDeviations f.classDeviations ∧
        m.classAttributeDistributions = old.classAttributeDistributions)
      (NaiveBayes.read L old i) (NaiveBayes.read L NaiveBayes.new i) := by
  unfold NaiveBayes.read
  refine SameRun.bind_same (fun d j => ?_)
  refine SameRun.bind (vecMap_same L d.size "" (KeepsOld.nil old.classMeans) j) (fun r s j h1 => ?_)
  rw [h1.1]
  refine SameRun.bind (vecMap_same L d.size _ (KeepsOld.nil old.classDeviations) j)
    (fun r' s' j h2 => ?_)
  exact SameRun.pure ⟨rfl, h1.2, h2.2, rfl⟩

/-- **C147 (what happens)**: the same for a linear discriminant and its weights. -/
theorem C147_lda (T : Txt F) (L : MathLib F) (old : Lda F) (i : In) :
    SameRun (fun (m f : Lda F) => m.prior = f.prior ∧ KeepsOld old.w0 m.w0 f.w0 ∧
        KeepsOld old.w m.w f.w)
      (Lda.read T L old i) (Lda.read T L Lda.new i) := by
  unfold Lda.read
  refine SameRun.bind_same (fun d j => ?_)
  refine SameRun.bind (R := fun s t => s.1 = t.1 ∧ KeepsOld old.w0 s.2 t.2)
    (SameRun.loop (fun s t i hst => by
      unfold Lda.readWeightStep
      rw [hst.1]
      refine SameRun.bind_same (fun w j => ?_)
      refine SameRun.bind_same (fun v j => ?_)
      refine SameRun.bind_same (fun v' j => ?_)
      exact SameRun.pure ⟨rfl, hst.2.emplace w v'⟩) d.size _ _ j ⟨rfl, KeepsOld.nil old.w0⟩)
    (fun r s j h1 => ?_)
  rw [h1.1]
  refine SameRun.bind (vecMap_same L d.size _ (KeepsOld.nil old.w) j) (fun r' s' j h2 => ?_)
  exact SameRun.pure ⟨rfl, h1.2, h2.2⟩

/-- **C147 (what happens)**: the same for a quadratic discriminant. -/
theorem C147_qda (T : Txt F) (L : MathLib F) (K : MatLib F (Mat F)) (old : Qda F) (i : In) :
    SameRun (fun (m f : Qda F) => m.prior = f.prior ∧ KeepsOld old.w0 m.w0 f.w0 ∧
        KeepsOld old.w m.w f.w ∧ KeepsOld old.W m.W f.W)
      (Qda.read T L K old i) (Qda.read T L K Qda.new i) := by
  unfold Qda.read
  refine SameRun.bind (C147_lda T L ⟨old.prior, old.w0, old.w⟩ i) (fun m f j h => ?_)
  rw [h.1]
  refine SameRun.bind (R := fun s t => s.1 = t.1 ∧ KeepsOld old.W s.2 t.2)
    (SameRun.loop (fun s t i hst => by
      unfold Qda.readMatStep
      rw [hst.1]
      refine SameRun.bind_same (fun w j => ?_)
      refine SameRun.bind_same (fun v j => ?_)
      exact SameRun.pure ⟨rfl, hst.2.emplace w v⟩) f.prior.size _ _ j ⟨rfl, KeepsOld.nil old.W⟩)
    (fun r s j h1 => ?_)
  exact SameRun.pure ⟨rfl, h.2.1, h.2.2, h1.2⟩

/-- **C147 (what happens)**: the trees of a file are added to those of the forest. -/
theorem C147_forest (T : Txt F) (L : MathLib F) (old : List (Node F)) (i : In) :
    SameRun (fun m f => m = old ++ f) (ensembleRead T L old i) (ensembleRead T L [] i) := by
  unfold ensembleRead
  refine SameRun.bind_same (fun s j => ?_)
  refine SameRun.bind_same (fun n j => ?_)
  exact SameRun.loop (fun s t i hst => by
    unfold ensembleReadStep
    refine SameRun.bind_same (fun u j => ?_)
    exact SameRun.pure (by rw [hst, List.append_assoc])) _ _ _ j (by simp)

theorem labels_same (old : List String) (n : Nat) (c : String) (i : In) :
    SameRun (fun (s t : String × List String) => s.1 = t.1 ∧ s.2 = old ++ t.2)
      (rdLoop readLabelStep n (c, old) i) (rdLoop readLabelStep n (c, []) i) :=
  SameRun.loop (fun s t i hst => by
    unfold readLabelStep
    rw [hst.1]
    refine SameRun.bind_same (fun u j => ?_)
    exact SameRun.pure ⟨rfl, by rw [hst.2, List.append_assoc]⟩) n _ _ i ⟨rfl, by simp⟩

/-- **C147 (what happens)**: the classes of a file are added to those of a random classifier. -/
theorem C147_random (old : List String) (i : In) :
    SameRun (fun m f => m = old ++ f) (randomRead old i) (randomRead [] i) := by
  unfold randomRead
  refine SameRun.bind_same (fun s j => ?_)
  refine SameRun.bind_same (fun n j => ?_)
  refine SameRun.bind_same (fun n j => ?_)
  refine SameRun.bind (labels_same old _ "" j) (fun r s j h => ?_)
  exact SameRun.pure h.2

theorem net_same (old : List String) (i : In) :
    SameRun (fun (m f : List String × Int) => m.1 = old ++ f.1 ∧ m.2 = f.2) (netRead old i)
      (netRead [] i) := by
  unfold netRead
  refine SameRun.bind_same (fun s j => ?_)
  refine SameRun.bind_same (fun n j => ?_)
  refine SameRun.bind_same (fun n j => ?_)
  refine SameRun.bind (labels_same old _ "" j) (fun r s j h => ?_)
  refine SameRun.bind_same (fun n j => ?_)
  exact SameRun.pure ⟨h.2, rfl⟩

theorem perc_same (K : MatLib F (Mat F)) (old : List String) (i : In) :
    SameRun (fun (m f : Net (Mat F)) => m.labels = old ++ f.labels ∧ m.d = f.d ∧
      m.weights = f.weights) (percRead K old i) (percRead K [] i) := by
  unfold percRead
  refine SameRun.bind (net_same old i) (fun r s j h => ?_)
  refine SameRun.bind_same (fun n j => ?_)
  exact SameRun.pure ⟨h.1, by rw [h.2], rfl⟩

/-- **C147 (what happens)**: a perceptron or multi-layer perceptron loaded into an object gets
the new weights; the class labels are added behind the old ones. A deep network also adds the
weights behind the old ones. -/
theorem C147_networks (K : MatLib F (Mat F)) (old : Net (List (Mat F))) (i : In) :
    SameRun (fun (m f : Net (Mat F)) => m.labels = old.labels ++ f.labels ∧ m.d = f.d ∧
      m.weights = f.weights) (percRead K old.labels i) (percRead K [] i) ∧
    SameRun (fun (m f : Net (Two F) × Activation) => m.1.labels = old.labels ++ f.1.labels ∧
      m.1.d = f.1.d ∧ m.1.weights = f.1.weights ∧ m.2 = f.2) (mlpRead K old.labels i)
      (mlpRead K [] i) ∧
    SameRun (fun (m f : Net (List (Mat F)) × Activation) => m.1.labels = old.labels ++ f.1.labels ∧
      m.1.d = f.1.d ∧ m.1.weights = old.weights ++ f.1.weights ∧ m.2 = f.2) (deepRead K old i)
      (deepRead K ⟨[], 0, []⟩ i) := by
  refine ⟨perc_same K old.labels i, ?_, ?_⟩
  · unfold mlpRead
    refine SameRun.bind (perc_same K old.labels i) (fun r s j h => ?_)
    refine SameRun.bind_same (fun V j => ?_)
    refine SameRun.bind_same (fun a j => ?_)
    exact SameRun.pure ⟨h.1, h.2.1, by rw [h.2.2], rfl⟩
  · unfold deepRead
    refine SameRun.bind (net_same old.labels i) (fun r s j h => ?_)
    refine SameRun.bind_same (fun _ j => ?_)
    refine SameRun.bind_same (fun n j => ?_)
    refine SameRun.bind (R := fun s t => s = old.weights ++ t) (SameRun.loop (fun s t i hst => by
      unfold deepReadStep
      refine SameRun.bind_same (fun u j => ?_)
      exact SameRun.pure (by rw [hst, List.append_assoc])) _ _ _ j (by simp)) (fun ws vs j h2 => ?_)
    refine SameRun.bind_same (fun a j => ?_)
    exact SameRun.pure ⟨h.1, by rw [h.2], h2, rfl⟩

/-! ## consequences -/

theorem SameRun.left {α β : Type} {R : α → β → Prop} {b : Res (β × In)} {m : α} {j : In}
    (h : SameRun R (.ok (m, j)) b) : ∃ f, b = .ok (f, j) ∧ R m f := by
  cases b with
  | error e => cases h
  | ok q =>
    obtain ⟨f, j'⟩ := q
    obtain ⟨h1, h2⟩ := h
    cases h2
    exact ⟨f, rfl, h1⟩

/-- **C147 fails of the code** (discriminants): whatever file is loaded into a linear
discriminant that knows its classes, the predictions are those of the old weights. -/
theorem C147_lda_refuted (T : Txt F) (L : MathLib F) (old m : Lda F) (i j : In)
    (h : Lda.read T L old i = .ok (m, j))
    (hk : ∀ c, m.prior.containsItem c = true →
      (OMap.find? old.w c).isSome = true ∧ (OMap.find? old.w0 c).isSome = true) (x : Inst F) :
    m.predict x = Lda.predict { old with prior := m.prior } x := by
  have hs := C147_lda T L old i
  rw [h] at hs
  obtain ⟨f, _, _, h0, hw⟩ := hs.left
  unfold Lda.predict
  refine gaussPredict_congr (fun c hc => ?_)
  obtain ⟨h1, h2⟩ := hk c hc
  obtain ⟨w, hw1⟩ := Option.isSome_iff_exists.1 h1
  obtain ⟨w0, hw2⟩ := Option.isSome_iff_exists.1 h2
  have e1 := hw c
  rw [hw1] at e1
  have e2 := h0 c
  rw [hw2] at e2
  unfold Lda.metric findR
  simp only [e1, e2, hw1, hw2]

theorem KeepsOld.other {V : Type} {old m f : OMap V} (h : KeepsOld old m f) {c : String}
    (hc : OMap.find? old c = none) : OMap.find? m c = OMap.find? f c := by
  have := h c
  rwa [hc] at this

/-- **C147 (partial)**: loading a discriminant into an object that knows none of the classes of
the file gives the predictions of loading into a new object. -/
theorem C147_unknown_classes_partial (T : Txt F) (L : MathLib F) (K : MatLib F (Mat F))
    (old m : Qda F) (i j : In) (h : Qda.read T L K old i = .ok (m, j))
    (hk : ∀ c, m.prior.containsItem c = true → OMap.find? old.w c = none ∧
      OMap.find? old.w0 c = none ∧ OMap.find? old.W c = none) :
    ∃ f, Qda.read T L K Qda.new i = .ok (f, j) ∧
      (∀ x, Lda.predict ⟨m.prior, m.w0, m.w⟩ x = Lda.predict ⟨f.prior, f.w0, f.w⟩ x) ∧
      ∀ x, m.predict x = f.predict x := by
  have hs := C147_qda T L K old i
  rw [h] at hs
  obtain ⟨f, hf, hp, h0, hw, hW⟩ := hs.left
  refine ⟨f, hf, fun x => ?_, fun x => ?_⟩
  · unfold Lda.predict
    rw [← hp]
    refine gaussPredict_congr (fun c hc => ?_)
    obtain ⟨h1, h2, h3⟩ := hk c hc
    unfold Lda.metric findR
    simp only [h0.other h2, hw.other h1]
  · unfold Qda.predict
    rw [← hp]
    refine gaussPredict_congr (fun c hc => ?_)
    obtain ⟨h1, h2, h3⟩ := hk c hc
    unfold Qda.metric findR
    simp only [h0.other h2, hw.other h1, hW.other h3]

/-- **C147 fails of the code** (networks): a perceptron loaded into an object with at least as
many classes answers with the old class labels only: for every plain instance it says what the
loaded weights would say under the old labels. -/
theorem C147_perceptron_refuted (K : MatLib F (Mat F)) (old : List String) (i j : In)
    (n : Net (Mat F)) (h : percRead K old i = .ok (n, j)) (hrows : n.weights.rows ≤ old.length)
    (x : Inst F) (hx : x.isComposite = false) :
    netPredict n.labels (percOutput n.weights) x = netPredict old (percOutput n.weights) x := by
  have hs := perc_same K old i
  rw [h] at hs
  obtain ⟨f, _, hl, _, _⟩ := hs.left
  unfold netPredict
  congr 1
  funext v
  cases hy : percOutput n.weights v with
  | error e => rfl
  | ok y =>
    simp only [res_bind_ok, hx, Bool.false_eq_true, if_false]
    cases hm : maxIndex y with
    | error e => rfl
    | ok k =>
      simp only [res_bind_ok]
      have hlen : y.length = n.weights.rows := by
        unfold percOutput Mat.mulRightR at hy
        cases hr : n.weights.mulRight v with
        | none => rw [hr] at hy; cases hy
        | some r =>
          rw [hr] at hy
          cases hy
          unfold Mat.mulRight at hr
          split at hr
          · cases hr
            simp
          · cases hr
      have hk : k < y.length := by
        cases y with
        | nil => cases hm
        | cons a y' =>
          obtain ⟨k', hk', hlt⟩ := maxIndex_lt (y := a :: y') (by simp)
          rw [hm] at hk'
          cases hk'
          exact hlt
      unfold atR
      rw [hl, List.getElem?_append_left (by omega)]

/-- **C147 fails of the code** (forests): the trees of the file only add votes to those of the
old trees. -/
theorem C147_forest_refuted (T : Txt F) (L : MathLib F) (old m : List (Node F)) (i j : In)
    (h : ensembleRead T L old i = .ok (m, j)) (x : Inst F) :
    ensemblePredict m x = (do
      let d ← ensembleVotes old x
      let d ← (m.drop old.length).foldlM (fun d t => do
        let p ← treePredict t x
        pure (d.addItem p)) d
      pure d.getMaxItem) := by
  have hs := C147_forest T L old i
  rw [h] at hs
  obtain ⟨f, _, hm⟩ := hs.left
  unfold ensemblePredict ensembleVotes
  rw [hm, List.drop_left, List.foldlM_append]
  simp only [bind_assoc]

/-! ## concrete cases -/

/-- the linear discriminant of C148, written and loaded into a fresh object -/
example : ∃ i, Lda.read intTxt (plainLib intTxt) Lda.new (In.ofText (ldaFile intTxt (plainLib intTxt)
    ⟨⟨[("a", 1), ("b", 2)], 3⟩, [("a", .fin 4), ("b", .fin (-2))],
      [("a", [.fin 1, .fin 0]), ("b", [.fin 5, .fin 7])]⟩)) =
    .ok (⟨⟨[("a", 1), ("b", 2)], 3⟩, [("a", .fin 4), ("b", .fin (-2))],
      [("a", [.fin 1, .fin 0]), ("b", [.fin 5, .fin 7])]⟩, i) :=
  C148_lda intTxt (plainLib intTxt) (plainLib_ok _) _ exLda_writable

/-- loaded into an object that knew both classes, it keeps the old weights -/
example : ∃ m i, Lda.read intTxt (plainLib intTxt)
    ⟨⟨[("a", 5)], 5⟩, [("a", .fin 0), ("b", .fin 0)], [("a", [.fin 3]), ("b", [.fin 4])]⟩
    (In.ofText (ldaFile intTxt (plainLib intTxt)
    ⟨⟨[("a", 1), ("b", 2)], 3⟩, [("a", .fin 4), ("b", .fin (-2))],
      [("a", [.fin 1, .fin 0]), ("b", [.fin 5, .fin 7])]⟩)) = .ok (m, i) ∧
    ∀ c, m.prior.containsItem c = true →
      (OMap.find? [("a", [(.fin 3 : XR)]), ("b", [.fin 4])] c).isSome = true ∧
      (OMap.find? [("a", (.fin 0 : XR)), ("b", .fin 0)] c).isSome = true := by
  obtain ⟨i, e⟩ := C148_lda intTxt (plainLib intTxt) (plainLib_ok _) _ exLda_writable
  have hs := C147_lda intTxt (plainLib intTxt)
    ⟨⟨[("a", 5)], 5⟩, [("a", .fin 0), ("b", .fin 0)], [("a", [.fin 3]), ("b", [.fin 4])]⟩
    (In.ofText (ldaFile intTxt (plainLib intTxt)
    ⟨⟨[("a", 1), ("b", 2)], 3⟩, [("a", .fin 4), ("b", .fin (-2))],
      [("a", [.fin 1, .fin 0]), ("b", [.fin 5, .fin 7])]⟩))
  rw [e] at hs
  revert hs
  generalize Lda.read intTxt (plainLib intTxt) _ _ = r
  intro hs
  cases r with
  | error e => cases hs
  | ok p =>
    obtain ⟨m, j⟩ := p
    obtain ⟨⟨hp, _⟩, _⟩ := hs
    refine ⟨m, j, rfl, fun c hc => ?_⟩
    rw [hp] at hc
    simp only [DD.containsItem, OMap.contains, OMap.find?] at hc ⊢
    by_cases h1 : c = "a"
    · subst h1; decide
    · by_cases h2 : c = "b"
      · subst h2; decide
      · simp [h1, h2] at hc

end Verif
