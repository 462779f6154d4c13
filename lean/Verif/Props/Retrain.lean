import Verif.Props.Discriminant

/-! # Property C55: retraining -/

set_option linter.unusedSectionVars false

namespace Verif
open Dbl

section
variable {F : Type} [Dbl F]

/-- **C55 (partial).** k-NN and k-means: after any history, training gives exactly what a fresh
object learns. (Missing: the classifiers of the `C55_…_refuted` theorems.) -/
theorem C55_knn_kmeans_partial (old fresh : Knn F) (old' fresh' : KMeans F) (l : IList F) (k : Int)
    (dist : Inst F → Inst F → Res F) :
    Knn.train old l k dist = Knn.train fresh l k dist ∧
    KMeans.train old' l dist = KMeans.train fresh' l dist := ⟨rfl, rfl⟩

theorem emplace_keeps {V : Type} (m : OMap V) (k k' : String) (v w : V)
    (h : OMap.find? m k = some w) : OMap.find? (OMap.emplace m k' v) k = some w := by
  rw [find?_emplace]
  by_cases hk : k = k'
  · subst hk; simp [h]
  · simp [hk, h]

/-- **C55: what goes wrong in LDA.** Whatever list it is trained on next, an LDA object keeps
the weights it once learned for a class. -/
theorem C55_lda_weights_never_change (inverse : Mat F → Mat F) (old m : Lda F) (l : IList F)
    (c : String) (w : List F) (w0 : F) (hw : OMap.find? old.w c = some w)
    (hw0 : OMap.find? old.w0 c = some w0) (h : Lda.train inverse old l = .ok m) :
    OMap.find? m.w c = some w ∧ OMap.find? m.w0 c = some w0 := by
  unfold Lda.train at h
  cases h1 : atR l 0 with
  | error e => rw [h1] at h; cases h
  | ok x0 =>
    rw [h1] at h
    simp only [res_bind_ok] at h
    by_cases hd : discreteCheck x0 = false
    · rw [if_pos hd] at h; cases h
    · rw [if_neg hd] at h
      cases h2 : Parts.byClass l with
      | error e => rw [h2] at h; cases h
      | ok ps =>
        rw [h2] at h
        simp only [res_bind_ok] at h
        cases h3 : Lda.pooledCovariance x0.continuousAttributeSize.toNat ps l.length with
        | error e => rw [h3] at h; cases h
        | ok S =>
          rw [h3] at h
          simp only [res_bind_ok] at h
          refine foldlM_keeps (P := fun m : Lda F => OMap.find? m.w c = some w ∧
            OMap.find? m.w0 c = some w0) ?_ _ _ _ h ⟨hw, hw0⟩
          intro b a b' ⟨hb, hb0⟩ hs
          unfold Lda.classWeights at hs
          cases h4 : a.2.continuousAttributeAverage with
          | error e => rw [h4] at hs; cases hs
          | ok avg =>
            rw [h4] at hs
            simp only [res_bind_ok] at hs
            cases h5 : (inverse S).mulRight avg with
            | none => rw [h5] at hs; cases hs; exact ⟨hb, hb0⟩
            | some wi =>
              rw [h5] at hs
              simp only at hs
              cases h6 : dotChecked wi avg with
              | none => rw [h6] at hs; cases hs; exact ⟨emplace_keeps _ _ _ _ _ hb, hb0⟩
              | some d =>
                rw [h6] at hs; cases hs
                exact ⟨emplace_keeps _ _ _ _ _ hb, emplace_keeps _ _ _ _ _ hb0⟩

/-- **C55: what goes wrong in QDA.** -/
theorem C55_qda_weights_never_change (inverse : Mat F → Mat F) (det : Mat F → F) (old m : Qda F)
    (l : IList F) (c : String) (w : List F) (w0 : F) (W : Mat F)
    (hw : OMap.find? old.w c = some w) (hw0 : OMap.find? old.w0 c = some w0)
    (hW : OMap.find? old.W c = some W) (h : Qda.train inverse det old l = .ok m) :
    OMap.find? m.w c = some w ∧ OMap.find? m.w0 c = some w0 ∧ OMap.find? m.W c = some W := by
  unfold Qda.train at h
  cases h1 : atR l 0 with
  | error e => rw [h1] at h; cases h
  | ok x0 =>
    rw [h1] at h
    simp only [res_bind_ok] at h
    by_cases hd : discreteCheck x0 = false
    · rw [if_pos hd] at h; cases h
    · rw [if_neg hd] at h
      cases h2 : Parts.byClass l with
      | error e => rw [h2] at h; cases h
      | ok ps =>
        rw [h2] at h
        simp only [res_bind_ok] at h
        refine foldlM_keeps (P := fun m : Qda F => OMap.find? m.w c = some w ∧
          OMap.find? m.w0 c = some w0 ∧ OMap.find? m.W c = some W) ?_ _ _ _ h ⟨hw, hw0, hW⟩
        intro b a b' ⟨hb, hb0, hbW⟩ hs
        unfold Qda.classWeights at hs
        cases h4 : a.2.continuousAttributeAverage with
        | error e => rw [h4] at hs; cases hs
        | ok avg =>
          rw [h4] at hs
          simp only [res_bind_ok] at hs
          cases h3 : a.2.covariance avg with
          | error e => rw [h3] at hs; cases hs
          | ok cv =>
            rw [h3] at hs
            simp only [res_bind_ok] at hs
            cases h5 : (inverse ⟨cv.1, cv.1, cv.2⟩).mulLeft avg with
            | none =>
              rw [h5] at hs; cases hs
              exact ⟨hb, hb0, emplace_keeps _ _ _ _ _ hbW⟩
            | some wi =>
              rw [h5] at hs
              simp only at hs
              cases h6 : dotChecked wi avg with
              | none =>
                rw [h6] at hs; cases hs
                exact ⟨emplace_keeps _ _ _ _ _ hb, hb0, emplace_keeps _ _ _ _ _ hbW⟩
              | some d =>
                rw [h6] at hs; cases hs
                exact ⟨emplace_keeps _ _ _ _ _ hb, emplace_keeps _ _ _ _ _ hb0,
                  emplace_keeps _ _ _ _ _ hbW⟩

/-- **C55: what goes wrong in naive Bayes.** Statistics once learned for a class are kept, and
once it has been trained on discrete data it goes on classifying as for discrete data. -/
theorem C55_nb_statistics_never_change (old m : NaiveBayes F) (l : IList F) (c : String)
    (h : NaiveBayes.train old l = .ok m) :
    (∀ μ, OMap.find? old.classMeans c = some μ → OMap.find? m.classMeans c = some μ) ∧
    (∀ s, OMap.find? old.classDeviations c = some s → OMap.find? m.classDeviations c = some s) ∧
    (∀ d, OMap.find? old.classAttributeDistributions c = some d →
      OMap.find? m.classAttributeDistributions c = some d) := by
  unfold NaiveBayes.train at h
  cases h1 : Parts.byClass l with
  | error e => rw [h1] at h; cases h
  | ok ps =>
    rw [h1] at h
    simp only [res_bind_ok] at h
    cases h2 : atR ps 0 with
    | error e => rw [h2] at h; cases h
    | ok p0 =>
      rw [h2] at h
      simp only [res_bind_ok] at h
      cases h3 : atR p0 0 with
      | error e => rw [h3] at h; cases h
      | ok x0 =>
        rw [h3] at h
        simp only [res_bind_ok] at h
        cases h4 : x0.getAttribute 0 with
        | error e => rw [h4] at h; cases h
        | ok a0 =>
          rw [h4] at h
          simp only [res_bind_ok] at h
          have hP : ∀ (f : NaiveBayes F → String × IList F → Res (NaiveBayes F)),
              (∀ b a b', f b a = .ok b' →
                (∀ μ, OMap.find? b.classMeans c = some μ → OMap.find? b'.classMeans c = some μ) ∧
                (∀ s, OMap.find? b.classDeviations c = some s → OMap.find? b'.classDeviations c = some s) ∧
                (∀ d, OMap.find? b.classAttributeDistributions c = some d →
                  OMap.find? b'.classAttributeDistributions c = some d)) →
              (l.getDistinctClassLabels.zip ps).foldlM f { old with prior := l.classDistribution } = .ok m →
              (∀ μ, OMap.find? old.classMeans c = some μ → OMap.find? m.classMeans c = some μ) ∧
              (∀ s, OMap.find? old.classDeviations c = some s → OMap.find? m.classDeviations c = some s) ∧
              (∀ d, OMap.find? old.classAttributeDistributions c = some d →
                OMap.find? m.classAttributeDistributions c = some d) := by
            intro f hf hm
            refine foldlM_keeps (P := fun m : NaiveBayes F =>
              (∀ μ, OMap.find? old.classMeans c = some μ → OMap.find? m.classMeans c = some μ) ∧
              (∀ s, OMap.find? old.classDeviations c = some s → OMap.find? m.classDeviations c = some s) ∧
              (∀ d, OMap.find? old.classAttributeDistributions c = some d →
                OMap.find? m.classAttributeDistributions c = some d)) ?_ _ _ _ hm
              ⟨fun _ h => h, fun _ h => h, fun _ h => h⟩
            intro b a b' ⟨h1, h2, h3⟩ hs
            obtain ⟨g1, g2, g3⟩ := hf b a b' hs
            exact ⟨fun μ h => g1 μ (h1 μ h), fun s h => g2 s (h2 s h), fun d h => g3 d (h3 d h)⟩
          by_cases ha : a0.isDiscrete = true
          · rw [if_pos ha] at h
            refine hP _ ?_ h
            intro b a b' hs
            unfold NaiveBayes.discClass at hs
            cases h5 : a.2.allAttributesDistribution with
            | error e => rw [h5] at hs; cases hs
            | ok ds =>
              rw [h5] at hs; cases hs
              exact ⟨fun _ h => h, fun _ h => h, fun d h => emplace_keeps _ _ _ _ _ h⟩
          · rw [if_neg ha] at h
            refine hP _ ?_ h
            intro b a b' hs
            unfold NaiveBayes.contClass at hs
            cases h5 : a.2.average with
            | error e => rw [h5] at hs; cases hs
            | ok avg =>
              rw [h5] at hs
              simp only [res_bind_ok] at hs
              cases h6 : NaiveBayes.meanVector avg with
              | error e => rw [h6] at hs; cases hs
              | ok mv =>
                rw [h6] at hs
                simp only [res_bind_ok] at hs
                cases h7 : a.2.standardDeviation with
                | error e => rw [h7] at hs; cases hs
                | ok sd =>
                  rw [h7] at hs
                  simp only [res_bind_ok] at hs
                  cases h8 : NaiveBayes.meanVector sd with
                  | error e => rw [h8] at hs; cases hs
                  | ok sv =>
                    rw [h8] at hs; cases hs
                    exact ⟨fun μ h => emplace_keeps _ _ _ _ _ h,
                      fun s h => emplace_keeps _ _ _ _ _ h, fun _ h => h⟩

end

/-- inversion and determinant of 1×1 matrices -/
def inv1 (S : Mat XR) : Mat XR := ⟨1, 1, fun i j => (XR.fin 1 : XR) /. S.e i j⟩

/-- two training lists with the two classes in swapped places -/
def swapA : IList XR := [⟨"a", [.continuous (.fin 0)], none⟩, ⟨"a", [.continuous (.fin 1)], none⟩,
  ⟨"b", [.continuous (.fin 10)], none⟩, ⟨"b", [.continuous (.fin 11)], none⟩]
def swapB : IList XR := [⟨"b", [.continuous (.fin 0)], none⟩, ⟨"b", [.continuous (.fin 1)], none⟩,
  ⟨"a", [.continuous (.fin 10)], none⟩, ⟨"a", [.continuous (.fin 11)], none⟩]
/-- an instance near the first group -/
def swapX : Inst XR := ⟨"?", [.continuous (.fin 0)], none⟩

/-- **C55 is refuted for LDA**: trained on `swapA` and then on `swapB` it answers `a` where a
fresh object trained on `swapB` answers `b`. -/
theorem C55_lda_refuted :
    (Lda.train inv1 Lda.new swapA >>= fun m => Lda.train inv1 m swapB >>= fun m => m.predict swapX) = .ok "a" ∧
    (Lda.train inv1 Lda.new swapB >>= fun m => m.predict swapX) = .ok "b" := by
  constructor <;> decide +kernel

/-- **C55 is refuted for QDA.** -/
theorem C55_qda_refuted :
    (Qda.train inv1 (fun S => S.e 0 0) Qda.new swapA >>= fun m =>
      Qda.train inv1 (fun S => S.e 0 0) m swapB >>= fun m => m.predict swapX) = .ok "a" ∧
    (Qda.train inv1 (fun S => S.e 0 0) Qda.new swapB >>= fun m => m.predict swapX) = .ok "b" := by
  constructor <;> decide +kernel

def swapDiscA : IList XR := [⟨"a", [.discrete "u"], none⟩, ⟨"b", [.discrete "v"], none⟩]
def swapDiscB : IList XR := [⟨"b", [.discrete "u"], none⟩, ⟨"a", [.discrete "v"], none⟩]

/-- what object-level naive Bayes remembers about class `a` and value `u` -/
def seenIn (m : NaiveBayes XR) (c v : String) : Nat :=
  match OMap.find? m.classAttributeDistributions c with
  | some (d :: _) => d.getCount v
  | _ => 0

/-- **C55 is refuted for naive Bayes**: after retraining on a list in which class `a` never has
the value `u`, the object still counts one such instance; a fresh object counts none. -/
theorem C55_nb_refuted :
    (NaiveBayes.train NaiveBayes.new swapDiscA >>= fun m => NaiveBayes.train m swapDiscB).map
      (fun m => seenIn m "a" "u") = .ok 1 ∧
    (NaiveBayes.train NaiveBayes.new swapDiscB).map (fun m => seenIn m "a" "u") = .ok 0 := by
  constructor <;> decide +kernel

end Verif
