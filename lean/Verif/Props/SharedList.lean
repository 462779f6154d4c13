import Verif.Model.Shared
import Verif.Props.TreeOrder
import Verif.Props.Order
import Verif.Props.SvmStop

/-! # C211: what training and splitting leave of the caller's list -/

namespace Verif
open Dbl

section
variable {F : Type} [Dbl F]

/-- sorting a sorted list changes nothing -/
theorem sort_class_twice (l : IList F) : IList.sortByClass l.sortByClass = l.sortByClass := by
  have h := C14_sort_by_class l
  rw [(C14_blocks l.sortByClass).1, sort_distribution, (C14_blocks l).1]
  congr 1
  refine List.map_congr_left (fun c _ => ?_)
  rw [← (C14_blocks l).1]
  refine h.stable _ (fun a _ b _ ha hb => ?_)
  simp only [beq_iff_eq] at ha hb
  rw [ha, hb]

theorem svm_leaves {rounds : Nat} {old m : Svm F} {p : SvmParam F} {l l' : IList F}
    (h : Svm.train (Svm.boundedSolver rounds p) old l p = .ok (m, l')) : l' = l.sortByClass := by
  unfold Svm.train at h
  simp only [bind_ok_iff] at h
  obtain ⟨x, _, h⟩ := h
  split at h
  · simp only [bind_ok_iff] at h
    obtain ⟨_, _, h⟩ := h
    cases h; rfl
  · cases h

theorem split_leaves {l l' : IList F} {ratio : F} {σ : List Nat} {ps : Parts F} (h : Parts.byRatio l ratio σ = .ok (ps, l')) :
    l' = l.shuffle σ := by
  unfold Parts.byRatio at h
  simp only [bind_ok_iff] at h
  obtain ⟨_, _, h⟩ := h
  cases h; rfl

/-- the orders of the random splits are orders of the list -/
def OrdersFit (l : IList F) (us : List (ListUse F)) : Prop :=
  ∀ u ∈ us, ∀ ratio σ, u = .shuffledSplit ratio σ → IsPermutation σ l.length

/-- **C211** Whatever is done with a list by training, testing and splitting, it contains the same instances afterwards. -/
theorem C211_same_instances {l l' : IList F} {us : List (ListUse F)} (hfit : OrdersFit l us) (h : listAfter l us = .ok l') :
    l'.Perm l := by
  unfold listAfter at h
  induction us generalizing l with
  | nil => cases h; exact List.Perm.refl _
  | cons u us ih =>
    rw [List.foldlM_cons, bind_ok_iff] at h
    obtain ⟨l1, h1, h2⟩ := h
    have hp : l1.Perm l := by
      cases u with
      | svm rounds old p =>
        simp only [ListUse.leaves, bind_ok_iff] at h1
        obtain ⟨⟨m, q⟩, hr, h1⟩ := h1
        cases h1
        rw [svm_leaves hr]
        exact (C14_sort_by_class l).perm
      | shuffledSplit ratio σ =>
        simp only [ListUse.leaves, bind_ok_iff] at h1
        obtain ⟨⟨m, q⟩, hr, h1⟩ := h1
        cases h1
        rw [split_leaves hr]
        exact C15_shuffle_perm l σ (hfit _ (by simp) ratio σ rfl)
      | stratifiedSplit ratio σ =>
        simp only [ListUse.leaves, bind_ok_iff] at h1
        obtain ⟨_, _, h1⟩ := h1
        cases h1; exact List.Perm.refl _
      | reads run =>
        simp only [ListUse.leaves, bind_ok_iff] at h1
        obtain ⟨_, _, h1⟩ := h1
        cases h1; exact List.Perm.refl _
    exact (ih (fun v hv r σ e => by rw [hp.length_eq]; exact hfit v (by simp [hv]) r σ e) h2).trans hp

/-- **C211** Only support vector machines and splits without stratification change it at all. -/
theorem C211_unchanged_partial {l l' : IList F} {us : List (ListUse F)} (h : listAfter l us = .ok l')
    (hsvm : ∀ rounds old p, .svm rounds old p ∉ us) (hsplit : ∀ ratio σ, .shuffledSplit ratio σ ∉ us) : l' = l := by
  unfold listAfter at h
  induction us generalizing l with
  | nil => cases h; rfl
  | cons u us ih =>
    rw [List.foldlM_cons, bind_ok_iff] at h
    obtain ⟨l1, h1, h2⟩ := h
    have := ih h2 (fun r o p hm => hsvm r o p (by simp [hm])) (fun r σ hm => hsplit r σ (by simp [hm]))
    subst this
    cases u with
    | svm rounds old p => exact absurd (by simp) (hsvm rounds old p)
    | shuffledSplit ratio σ => exact absurd (by simp) (hsplit ratio σ)
    | stratifiedSplit ratio σ =>
      simp only [ListUse.leaves, bind_ok_iff] at h1
      obtain ⟨_, _, h1⟩ := h1
      cases h1; rfl
    | reads run =>
      simp only [ListUse.leaves, bind_ok_iff] at h1
      obtain ⟨_, _, h1⟩ := h1
      cases h1; rfl

/-- **C211, what a support vector machine leaves**: the list sorted by class, instances of one class in the order they had. Training
another one on it gives what training it on the original list gives, and leaves the list as it is. -/
theorem C211_svm {rounds : Nat} {old : Svm F} {p : SvmParam F} {l l' : IList F}
    (h : (ListUse.svm rounds old p).leaves l = .ok l') (hsame : ∀ x ∈ l, ∀ y ∈ l, discreteCheck x = discreteCheck y) :
    IsStableSort (· ≤ ·) Inst.label l l' ∧
      ∀ solve (old' : Svm F) p', Svm.train solve old' l' p' = Svm.train solve old' l p' := by
  simp only [ListUse.leaves, bind_ok_iff] at h
  obtain ⟨⟨m, q⟩, hr, h⟩ := h
  cases h
  have e := svm_leaves hr
  subst e
  refine ⟨C14_sort_by_class l, fun solve old' p' => ?_⟩
  unfold Svm.train at hr ⊢
  rw [sort_class_twice]
  simp only [bind_ok_iff] at hr
  obtain ⟨x, hx, _⟩ := hr
  have hp := (C14_sort_by_class l).perm
  obtain ⟨y, hy⟩ : ∃ y, l.sortByClass.get 0 = .ok y := by
    cases hl : l.sortByClass with
    | nil =>
      rw [hl] at hp
      rw [hp.symm.eq_nil] at hx
      cases hx
    | cons y t => exact ⟨y, rfl⟩
  have hmem : ∀ {k : IList F} {z : Inst F}, k.get 0 = .ok z → z ∈ k := by
    intro k z hz
    cases k with
    | nil => cases hz
    | cons a t => cases hz; simp
  rw [hy, hx, res_bind_ok, res_bind_ok, hsame y (hp.mem_iff.1 (hmem hy)) x (hmem hx)]

/-- **C211, classifiers trained afterwards.** The dummy classifier is the one of the original list. -/
theorem C211_dummy_after {l l' : IList F} {us : List (ListUse F)} (hfit : OrdersFit l us) (h : listAfter l us = .ok l') (x : Inst F) :
    dummyPredict l'.classDistribution x = dummyPredict l.classDistribution x ∧
      (dummyProbability l'.classDistribution : OMap F) = dummyProbability l.classDistribution :=
  C140_dummy (C211_same_instances hfit h) x

end

/-- **C211, classifiers trained afterwards**, in exact arithmetic: decision trees without pruning and stumps -/
theorem C211_trees_after {ts : List AttrType} {l l' : IList ℝ} {us : List (ListUse ℝ)} (hfit : OrdersFit l us)
    (h : listAfter l us = .ok l') (hne : l ≠ []) (hts : ∀ x ∈ l, typesOf x = ts) (hsv : SameValueCounts l) :
    (∃ n n', treeTrain l none = .ok n ∧ treeTrain l' none = .ok n' ∧ ∀ x : Inst ℝ, typesOf x = ts →
      treePredict n x = treePredict n' x ∧ n.predictProbability x = n'.predictProbability x) ∧
    (∃ n n', stumpTrain l = .ok n ∧ stumpTrain l' = .ok n' ∧ ∀ x : Inst ℝ, typesOf x = ts →
      treePredict n x = treePredict n' x ∧ n.predictProbability x = n'.predictProbability x) :=
  C139_train_order hne hts hsv (C211_same_instances hfit h).symm

/-- **C211, classifiers trained afterwards**, in exact arithmetic: nearest mean, LDA and QDA -/
theorem C211_parametric_after {l l' : IList ℝ} {us : List (ListUse ℝ)} (hfit : OrdersFit l us) (h : listAfter l us = .ok l')
    (hne : l ≠ []) (v : Inst ℝ → List ℝ) (n : Nat) (hv : ∀ x ∈ l, x.attrs = (v x).map Attr.continuous ∧ (v x).length = n)
    (h2 : ∀ c ∈ l.map Inst.label, 2 ≤ classSize l c) (inverse : Mat ℝ → Mat ℝ) (det : Mat ℝ → ℝ)
    (hinv : ∀ S, IsSymm n S → IsSymm n (inverse S))
    (hext : ∀ S S', SameMatrix n S S' → SameMatrix n (inverse S) (inverse S'))
    (hdet : ∀ S S', SameMatrix n S S' → det S = det S') (old old' : KMeans ℝ) (dist : Inst ℝ → Inst ℝ → Res ℝ) :
    (∃ m m', KMeans.train old l dist = .ok m ∧ KMeans.train old' l' dist = .ok m' ∧ ∀ x : Inst ℝ, m.predict x = m'.predict x) ∧
    (∃ m m', Lda.train inverse Lda.new l = .ok m ∧ Lda.train inverse Lda.new l' = .ok m' ∧
      ∀ (x : Inst ℝ) (u : List ℝ), x.attrs = u.map Attr.continuous → u.length = n → m.predict x = m'.predict x) ∧
    (∃ m m', Qda.train inverse det Qda.new l = .ok m ∧ Qda.train inverse det Qda.new l' = .ok m' ∧
      ∀ (x : Inst ℝ) (u : List ℝ), x.attrs = u.map Attr.continuous → u.length = n → m.predict x = m'.predict x) := by
  have hp := (C211_same_instances hfit h).symm
  exact ⟨C140_kmeans hp old old' dist n v hv, C140_lda hp hne v n hv h2 inverse hinv hext,
    C140_qda hp hne v n hv h2 inverse det hinv hext hdet⟩

/-! ## the claim fails -/

/-- two instances, the class that comes first in the alphabet last -/
def unsortedPair : IList XR := [⟨"b", [.continuous (.fin 2)], none⟩, ⟨"a", [.continuous (.fin 0)], none⟩]

/-- **C211 is false of support vector machines**: the machine reverses this list, and a nearest-neighbour classifier trained on the
list afterwards answers `a` where one trained before answers `b`. -/
theorem C211_svm_refuted : ∃ l' : IList XR,
    (ListUse.svm 5 (emptySvm XR) ⟨.linear, 1, .fin 0, .fin 0, .fin 2, true⟩).leaves unsortedPair = .ok l' ∧ l' ≠ unsortedPair ∧
    (Knn.train ⟨[], 0, euclidean⟩ unsortedPair 1 euclidean).predict ⟨"?", [.continuous (.fin 1)], none⟩ = .ok "b" ∧
    (Knn.train ⟨[], 0, euclidean⟩ l' 1 euclidean).predict ⟨"?", [.continuous (.fin 1)], none⟩ = .ok "a" :=
  ⟨unsortedPair.reverse, by decide +kernel, by decide +kernel, by decide +kernel, by decide +kernel⟩

/-- **C211 is false of splits without stratification**: the list is shuffled -/
theorem C211_split_refuted : (ListUse.shuffledSplit (.fin (1 / 2)) [1, 0]).leaves unsortedPair = .ok unsortedPair.reverse ∧
    unsortedPair.reverse ≠ unsortedPair := by
  constructor <;> decide +kernel

/-! ## the hypotheses are met -/

/-- a machine, both kinds of split and a test -/
def severalUses : List (ListUse XR) :=
  [.svm 5 (emptySvm XR) ⟨.linear, 1, .fin 0, .fin 0, .fin 2, true⟩, .stratifiedSplit (.fin (1 / 2)) [0, 1],
   .shuffledSplit (.fin (1 / 2)) [1, 0], .reads (fun l => (treeTrain l none).map (fun _ => ()))]

example : OrdersFit unsortedPair severalUses ∧ listAfter unsortedPair severalUses = .ok unsortedPair := by
  refine ⟨?_, by decide +kernel⟩
  intro u hu ratio σ e
  subst e
  simp only [severalUses, List.mem_cons, List.not_mem_nil, or_false, reduceCtorEq, false_or, ListUse.shuffledSplit.injEq] at hu
  rw [hu.2]
  unfold IsPermutation unsortedPair
  decide

/-- a list of mixed attributes that was split -/
example : ∃ l', listAfter (exOrder ℝ) [.shuffledSplit (1 / 2) [2, 0, 1]] = .ok l' ∧
    OrdersFit (exOrder ℝ) [.shuffledSplit (1 / 2) [2, 0, 1]] := by
  have hσ : IsPermutation [2, 0, 1] (exOrder ℝ).length := by unfold IsPermutation exOrder; decide
  obtain ⟨p0, p1, l', h, _⟩ := C24_random_split (exOrder ℝ) (1 / 2) [2, 0, 1] hσ
  refine ⟨l', ?_, ?_⟩
  · simp only [listAfter, List.foldlM_cons, List.foldlM_nil, ListUse.leaves, h, res_bind_ok]
    rfl
  · intro u hu ratio σ e
    subst e
    simp only [List.mem_cons, List.not_mem_nil, or_false, ListUse.shuffledSplit.injEq] at hu
    rw [hu.2]; exact hσ

end Verif
