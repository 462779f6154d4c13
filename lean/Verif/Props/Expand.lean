import Verif.Spec.Expand
import Verif.Props.BinaryIgnored
import Verif.Props.OneHotStats

/-! # Property C202: an indexed attribute is as good as its columns of zeros and ones -/

set_option linter.unusedSectionVars false

namespace Verif
open Dbl

variable {F : Type} [Dbl F]

theorem expandAttr_encode (a : Attr F) : ((expandAttr a).map encodeAttr).flatten = encodeAttr a := by
  cases a with
  | indexed v k m =>
    simp only [expandAttr, encodeAttr, List.map_map]
    generalize List.range m.toNat = r
    induction r with
    | nil => rfl
    | cons j r ih => simpa [encodeAttr] using ih
  | _ => simp [expandAttr]

theorem expandAttr_nonneg (a : Attr F) (h : NonNegMax a) : ∀ b ∈ expandAttr a, NonNegMax b := by
  cases a with
  | indexed v k m =>
    intro b hb
    obtain ⟨j, _, rfl⟩ := List.mem_map.1 hb
    trivial
  | _ => intro b hb; rw [List.mem_singleton.1 hb]; exact h

theorem expand_encode (as : List (Attr F)) :
    ((as.flatMap expandAttr).map encodeAttr).flatten = (as.map encodeAttr).flatten := by
  induction as with
  | nil => rfl
  | cons a as ih => simp only [List.flatMap_cons, List.map_append, List.flatten_append, expandAttr_encode, ih, List.map_cons, List.flatten_cons]

theorem expand_inputs (x : Inst F) (h : ∀ a ∈ x.attrs, NonNegMax a) : SameInputs x (expand x) := by
  have h' : ∀ a ∈ (expand x).attrs, NonNegMax a := by
    intro b hb
    obtain ⟨a, ha, hb⟩ := List.mem_flatMap.1 hb
    exact expandAttr_nonneg a (h a ha) b hb
  obtain ⟨_, h2, h3⟩ := C02_continuous_view x h
  obtain ⟨_, h2', h3'⟩ := C02_continuous_view (expand x) h'
  have e : ((expand x).attrs.map encodeAttr).flatten = (x.attrs.map encodeAttr).flatten := expand_encode _
  refine ⟨rfl, rfl, by rw [h3, h3', e], by rw [h2, h2', e], ?_⟩
  unfold discreteCheck expand
  simp only
  generalize x.attrs = as
  induction as with
  | nil => rfl
  | cons a as ih =>
    rw [List.flatMap_cons, List.all_append, ih, List.all_cons]
    congr 1
    cases a with
    | indexed v k m =>
      simp [expandAttr, Attr.isDiscrete, Attr.isDiscreteIndexed]
    | _ => simp [expandAttr]

open Classical in
/-- as `expand`, where that makes sense -/
noncomputable def expandOk (x : Inst F) : Inst F := if ∀ a ∈ x.attrs, NonNegMax a then expand x else x

theorem expandOk_inputs (x : Inst F) : SameInputs x (expandOk x) := by
  unfold expandOk
  split
  · rename_i h; exact expand_inputs x h
  · exact ⟨rfl, rfl, rfl, rfl, rfl⟩

theorem expandOk_eq {x : Inst F} (h : ∀ a ∈ x.attrs, NonNegMax a) : expandOk x = expand x := if_pos h

theorem expandOk_map {l : IList F} (h : ∀ x ∈ l, ∀ a ∈ x.attrs, NonNegMax a) : l.map expandOk = l.map expand :=
  List.map_congr_left (fun x hx => expandOk_eq (h x hx))

section
variable {g : Inst F → Inst F} (hg : ∀ x, SameInputs x (g x))
include hg

theorem in_classLabels (l : IList F) : IList.getClassLabels (l.map g) = IList.getClassLabels l := by
  unfold IList.getClassLabels
  rw [List.foldl_map]
  simp only [(hg _).label]

theorem in_nearest {dist : Inst F → Inst F → Res F} (hd : ∀ y x, dist (g y) (g x) = dist y x) (T : IList F) (k : Int)
    (x : Inst F) : (⟨T.map g, k, dist⟩ : Knn F).nearestNeighbors (g x) =
      ((⟨T, k, dist⟩ : Knn F).nearestNeighbors x).map (List.map g) := by
  unfold Knn.nearestNeighbors
  simp only
  rw [map_bind_res]
  have h := foldlM_equiv g (List.map (Prod.map g id) : List (Inst F × F) → List (Inst F × F))
    (fun (r : List (Inst F × F)) y => if Knn.eligible x y then do
      let d ← dist y x
      pure (r ++ [(y, d)]) else pure r)
    (fun (r : List (Inst F × F)) y => if Knn.eligible (g x) y then do
      let d ← dist y (g x)
      pure (r ++ [(y, d)]) else pure r) T [] (by
      intro y _ r
      have he : Knn.eligible (g x) (g y) = Knn.eligible x y := by
        unfold Knn.eligible
        rw [in_composite hg, in_possible hg, (hg y).label]
      rw [he, hd, map_ite_res, map_bind_res]
      congr 1
      congr 1
      funext d
      rw [map_pure_res, List.map_append]
      rfl)
  rw [List.map_nil] at h
  rw [h, bind_map_res]
  congr 1
  funext is
  rw [stableSort_map (Prod.map g id) (fun (a b : Inst F × F) => a.2 <. b.2) (fun (a b : Inst F × F) => a.2 <. b.2) is
    (fun _ _ _ _ => rfl), map_pure_res, ← List.map_take, List.map_map, List.map_map]
  rfl

theorem in_knn {dist : Inst F → Inst F → Res F} (hd : ∀ y x, dist (g y) (g x) = dist y x) (T : IList F) (k : Int)
    (x : Inst F) : (⟨T.map g, k, dist⟩ : Knn F).predict (g x) = (⟨T, k, dist⟩ : Knn F).predict x ∧
      (⟨T.map g, k, dist⟩ : Knn F).predictProbability (g x) = (⟨T, k, dist⟩ : Knn F).predictProbability x := by
  unfold Knn.predict Knn.predictProbability
  rw [in_nearest hg hd, bind_map_res, bind_map_res]
  constructor
  · refine bind_congr_res (fun ns _ => ?_)
    rw [List.length_map, in_composite hg, in_possible hg, in_classLabels hg]
  · refine bind_congr_res (fun ns _ => ?_)
    rw [in_classDist hg]

theorem in_ldaTrain {T : IList F}
    (havg : ∀ p : IList F, (∀ x ∈ p, x ∈ T) → IList.continuousAttributeAverage (p.map g) = IList.continuousAttributeAverage p)
    (inverse : Mat F → Mat F) (old : Lda F) : old.train inverse (T.map g) = old.train inverse T := by
  unfold Lda.train
  rw [keeps_atR, bind_map_res, in_byClass hg, in_classDist hg, in_distinct hg, List.length_map]
  refine bind_congr_res (fun x0 _ => ?_)
  rw [(hg x0).accepted, (hg x0).size, bind_map_res]
  congr 1
  refine bind_congr_res (fun ps hps => ?_)
  have ht : ∀ p ∈ ps, ∀ x ∈ p, x ∈ T := fun p hp x hx => byClass_mem hps p hp x hx
  have hcov : ∀ p ∈ ps, Lda.classCovariance (p.map g) = Lda.classCovariance p := by
    intro p hp
    unfold Lda.classCovariance
    rw [havg p (ht p hp)]
    simp only [in_covariance hg, List.length_map]
  have hpool : ∀ n m, Lda.pooledCovariance n (ps.map (List.map g)) m = Lda.pooledCovariance n ps m := by
    intro n m
    unfold Lda.pooledCovariance
    rw [List.foldlM_map, List.length_map]
    congr 1
    exact foldlM_same_steps _ _ (fun p hp c => by rw [hcov p hp])
  rw [hpool]
  refine bind_congr_res (fun cov _ => ?_)
  exact zip_parts _ ps (Lda.classWeights (inverse cov)) _ (fun p hp c s => by
    unfold Lda.classWeights
    simp only
    rw [havg p (ht p hp)])

theorem in_qdaTrain {T : IList F}
    (havg : ∀ p : IList F, (∀ x ∈ p, x ∈ T) → IList.continuousAttributeAverage (p.map g) = IList.continuousAttributeAverage p)
    (inverse : Mat F → Mat F) (det : Mat F → F) (old : Qda F) :
    old.train inverse det (T.map g) = old.train inverse det T := by
  unfold Qda.train
  rw [keeps_atR, bind_map_res, in_byClass hg, in_classDist hg, in_distinct hg]
  refine bind_congr_res (fun x0 _ => ?_)
  rw [(hg x0).accepted, bind_map_res]
  congr 1
  refine bind_congr_res (fun ps hps => ?_)
  have ht : ∀ p ∈ ps, ∀ x ∈ p, x ∈ T := fun p hp x hx => byClass_mem hps p hp x hx
  exact zip_parts _ ps (Qda.classWeights inverse det) _ (fun p hp c s => by
    unfold Qda.classWeights
    simp only
    rw [havg p (ht p hp)]
    simp only [in_covariance hg])

theorem in_lda (m : Lda F) (x : Inst F) : m.predict (g x) = m.predict x := by
  unfold Lda.predict
  refine gauss_same (hg x).possible (hg x).label (fun c => ?_)
  unfold Lda.metric
  rw [(hg x).inputs]

theorem in_qda (m : Qda F) (x : Inst F) : m.predict (g x) = m.predict x := by
  unfold Qda.predict
  refine gauss_same (hg x).possible (hg x).label (fun c => ?_)
  unfold Qda.metric
  rw [(hg x).inputs]

end

/-! ## column means -/

/-- how many numbers a column gives -/
def columnWidth : Option Nat → Nat
  | none => 1
  | some m => m

/-- entry `j` of the numbers of an attribute -/
noncomputable def attrEntry (a : Option (Attr ℝ)) (j : Nat) : ℝ := (a.elim [] encodeAttr).getD j 0

theorem fits_length {c : Option Nat} {a : Attr ℝ} (h : FitsColumn c a) : (encodeAttr a).length = columnWidth c := by
  cases c <;> cases a <;> simp_all [FitsColumn, encodeAttr, columnWidth]

/-- column by column = number by number -/
theorem means_flat {α : Type} (l : List α) : ∀ (S : List (Option Nat)) (A : α → List (Attr ℝ)),
    (∀ x ∈ l, List.Forall₂ FitsColumn S (A x)) →
    (List.range S.length).flatMap (fun i => (List.range (columnWidth (S.getD i none))).map
      (fun j => mean (l.map (fun x => attrEntry (A x)[i]? j)))) =
    (List.range (S.map columnWidth).sum).map (fun j => mean (l.map (fun x => ((A x).map encodeAttr).flatten.getD j 0))) := by
  intro S
  induction S with
  | nil => intro A _; simp
  | cons c S ih =>
    intro A h
    rw [List.length_cons, List.range_succ_eq_map, List.flatMap_cons, List.flatMap_map, List.map_cons, List.sum_cons, List.range_add,
      List.map_append, List.map_map]
    have hsplit : ∀ x ∈ l, ∃ a as, A x = a :: as ∧ FitsColumn c a ∧ List.Forall₂ FitsColumn S as := by
      intro x hx
      have := h x hx
      generalize A x = as at this
      cases this with
      | cons h1 h2 => exact ⟨_, _, rfl, h1, h2⟩
    congr 1
    · refine List.map_congr_left (fun j hj => ?_)
      congr 1
      refine List.map_congr_left (fun x hx => ?_)
      obtain ⟨a, as, e, h1, h2⟩ := hsplit x hx
      rw [e]
      have hj : j < (encodeAttr a).length := by rw [fits_length h1]; simpa using hj
      simp [attrEntry, List.getElem?_append_left hj]
    · have e1 := ih (fun x => (A x).tail) (fun x hx => by
        obtain ⟨a, as, e, _, h2⟩ := hsplit x hx
        rw [e]; exact h2)
      have e2 : ∀ i : Nat, (fun j => mean (l.map (fun x => attrEntry (A x)[i + 1]? j))) =
          fun j => mean (l.map (fun x => attrEntry (A x).tail[i]? j)) := by
        intro i
        funext j
        congr 1
        refine List.map_congr_left (fun x hx => ?_)
        obtain ⟨a, as, e, _, _⟩ := hsplit x hx
        rw [e]; rfl
      simp only [e2, List.getD_cons_succ, Nat.succ_eq_add_one] at e1 ⊢
      rw [e1]
      refine List.map_congr_left (fun j _ => ?_)
      simp only [Function.comp]
      congr 1
      refine List.map_congr_left (fun x hx => ?_)
      obtain ⟨a, as, e, h1, _⟩ := hsplit x hx
      rw [e, ← fits_length h1]
      simp [List.getElem?_append_right]

/-- the averages of coded columns are the means of the numbers -/
theorem average_coded {S : List (Option Nat)} {l : IList ℝ} (hne : l ≠ []) (h : ∀ x ∈ l, Coded S x) :
    l.continuousAttributeAverage = .ok ((List.range (S.map columnWidth).sum).map
      (fun j => mean (l.map (fun x => (x.attrs.map encodeAttr).flatten.getD j 0)))) := by
  rw [← means_flat l S Inst.attrs h]
  obtain ⟨x0, l', rfl⟩ := List.exists_cons_of_ne_nil hne
  have h0 : atR (x0 :: l') 0 = .ok x0 := rfl
  have hat : ∀ x ∈ x0 :: l', ∀ i (hi : i < S.length), ∃ a, x.attrs[i]? = some a ∧ FitsColumn S[i] a := by
    intro x hx i hi
    have hf := h x hx
    unfold Coded at hf
    rw [List.forall₂_iff_get] at hf
    have hi' : i < x.attrs.length := by omega
    exact ⟨x.attrs[i], by simp [hi'], hf.2 i hi hi'⟩
  have hlen : x0.attrs.length = S.length := (h x0 (by simp)).length_eq.symm
  have ha : ∀ i < x0.attrs.length, IList.continuousAttributeAverageAt (x0 :: l') i =
      .ok ((List.range (columnWidth (S.getD i none))).map
        (fun j => mean ((x0 :: l').map (fun x => attrEntry x.attrs[i]? j)))) := by
    intro i hi
    have hi : i < S.length := by omega
    have hS : S.getD i none = S[i] := by simp [hi]
    rw [hS]
    cases hc : S[i] with
    | none =>
      have hv : ∀ x ∈ x0 :: l', ContAt x i (attrEntry x.attrs[i]? 0) := by
        intro x hx
        obtain ⟨a, e, hf⟩ := hat x hx i hi
        rw [hc] at hf
        cases a <;> simp only [FitsColumn] at hf
        unfold ContAt
        rw [e]; rfl
      unfold IList.continuousAttributeAverageAt
      rw [h0]
      simp only [res_bind_ok]
      rw [getAttribute_cont (hv x0 (by simp))]
      simp only [res_bind_ok, Attr.isDiscreteIndexed, Attr.isContinuous, Bool.false_eq_true, if_false, if_true]
      rw [sumLoop_ok hv]
      simp [mean, columnWidth]
    | some m =>
      rw [C112_mean (x0 :: l') (by simp) i m (fun x => match x.attrs[i]? with
        | some (.indexed _ k _) => k
        | _ => 0) (fun x hx => by
          obtain ⟨a, e, hf⟩ := hat x hx i hi
          rw [hc] at hf
          cases a <;> simp only [FitsColumn] at hf
          rw [e, hf.1]
          exact ⟨⟨_, rfl⟩, hf.2.1, hf.2.2⟩)]
      congr 1
      refine List.map_congr_left (fun j hj => ?_)
      congr 1
      refine List.map_congr_left (fun x hx => ?_)
      obtain ⟨a, e, hf⟩ := hat x hx i hi
      rw [hc] at hf
      cases a <;> simp only [FitsColumn] at hf
      rename_i v k m'
      have hj : j < m := by simpa [columnWidth] using hj
      rw [e]
      simp [attrEntry, encodeAttr, hf.1, hj, eq_comm, Dbl.one, Dbl.zero]
      rw [e]
      simp [eq_comm]
  unfold IList.continuousAttributeAverage
  rw [h0]
  have := concat_loop _ _ x0.attrs.length ha x0.attrs.length (le_refl _) []
  rw [hlen] at this
  simpa [Inst.attributeSize, hlen] using this

/-- the columns of the expanded instance -/
def expandShape : Option Nat → List (Option Nat)
  | none => [none]
  | some m => List.replicate m none

theorem expandShape_width (S : List (Option Nat)) : ((S.flatMap expandShape).map columnWidth).sum = (S.map columnWidth).sum := by
  induction S with
  | nil => rfl
  | cons c S ih =>
    rw [List.flatMap_cons, List.map_append, List.sum_append, ih, List.map_cons, List.sum_cons]
    congr 1
    cases c <;> simp [expandShape, columnWidth]

theorem expand_coded {S : List (Option Nat)} {x : Inst ℝ} (h : Coded S x) : Coded (S.flatMap expandShape) (expand x) := by
  unfold Coded expand at *
  simp only
  generalize x.attrs = as at h
  induction h with
  | nil => exact .nil
  | @cons c a S as hf _ ih =>
    rw [List.flatMap_cons, List.flatMap_cons]
    refine List.rel_append ?_ ih
    cases c <;> cases a <;> simp only [FitsColumn] at hf
    · exact .cons trivial .nil
    · rename_i m v k m'
      simp only [expandShape, expandAttr, hf.1, Int.toNat_natCast]
      rw [List.forall₂_iff_get]
      refine ⟨by simp, fun i h1 h2 => ?_⟩
      simp [FitsColumn]

theorem coded_nonneg {S : List (Option Nat)} {x : Inst F} (h : Coded S x) : ∀ a ∈ x.attrs, NonNegMax a := by
  unfold Coded at h
  generalize x.attrs = as at h
  induction h with
  | nil => intro a ha; cases ha
  | @cons c a S as hf _ ih =>
    intro b hb
    rcases List.mem_cons.1 hb with rfl | hb
    · cases c <;> cases b <;> simp_all [FitsColumn, NonNegMax]
    · exact ih b hb

theorem average_expand {S : List (Option Nat)} {l : IList ℝ} (h : ∀ x ∈ l, Coded S x) :
    IList.continuousAttributeAverage (l.map expand) = IList.continuousAttributeAverage l := by
  by_cases hne : l = []
  · subst hne; rfl
  · rw [average_coded hne h, average_coded (S := S.flatMap expandShape) (by simpa using hne) (by
      intro y hy
      obtain ⟨x, hx, rfl⟩ := List.mem_map.1 hy
      exact expand_coded (h x hx)), expandShape_width]
    simp only [List.map_map]
    congr 1
    refine List.map_congr_left (fun j _ => ?_)
    congr 1
    refine List.map_congr_left (fun x _ => ?_)
    simp only [Function.comp, expand]
    rw [expand_encode]

/-! ## the theorems -/

section
variable {T : IList F} (hT : ∀ y ∈ T, ∀ a ∈ y.attrs, NonNegMax a) {x : Inst F} (hx : ∀ a ∈ x.attrs, NonNegMax a)
include hT hx

/-- **C202**: nearest neighbours with the Mahalanobis distance -/
theorem C202_mahalanobis_partial (old : Knn F) (k : Int) (S : Mat F) :
    (old.train (T.map expand) k (mahalanobis S)).predict (expand x) = (old.train T k (mahalanobis S)).predict x ∧
    (old.train (T.map expand) k (mahalanobis S)).predictProbability (expand x) =
      (old.train T k (mahalanobis S)).predictProbability x := by
  rw [← expandOk_map hT, ← expandOk_eq hx]
  refine in_knn expandOk_inputs (fun y z => ?_) T k x
  unfold mahalanobis
  rw [(expandOk_inputs y).inputs, (expandOk_inputs z).inputs]

/-- **C202**: the networks: the trained networks are equal, and so are the answers and the class probabilities -/
theorem C202_network_partial (param : NetParam F) (H : Nat) (act : Activation) (hidden : List Nat) (oldP : Net (Mat F))
    (oldM : Net (Two F)) (oldD : Net (List (Mat F))) :
    (percTrain param oldP (T.map expand) = percTrain param oldP T ∧
      mlpTrain param H act oldM (T.map expand) = mlpTrain param H act oldM T ∧
      deepTrain param hidden act oldD (T.map expand) = deepTrain param hidden act oldD T ∧
      autoTrain param H oldM (T.map expand) = autoTrain param H oldM T) ∧
    (∀ labels output, netPredict labels output (expand x) = netPredict labels output x ∧
      netProbability labels output (expand x) = netProbability labels output x) ∧
    ∀ w, autoPredictInput w (expand x) = autoPredictInput w x := by
  rw [← expandOk_map hT, ← expandOk_eq hx]
  exact ⟨⟨in_percTrain expandOk_inputs param oldP T, in_mlpTrain expandOk_inputs param H act oldM T,
    in_deepTrain expandOk_inputs param hidden act oldD T, in_autoTrain expandOk_inputs param H oldM T⟩,
    fun labels output => ⟨in_netPredict expandOk_inputs labels output x, in_netProbability expandOk_inputs labels output x⟩,
    fun w => in_autoPredictInput expandOk_inputs w x⟩

/-- **C202**: support vector machines, whatever the solver answers -/
theorem C202_svm_partial (solve : List (NodeL F) → List F → List F → Res (F × List F)) (old : Svm F) (p : SvmParam F) :
    (Svm.train solve old (T.map expand) p).map Prod.fst = (Svm.train solve old T p).map Prod.fst ∧
    ∀ m : Svm F, m.predict (expand x) = m.predict x := by
  rw [← expandOk_map hT, ← expandOk_eq hx]
  refine ⟨?_, fun m => in_svmPredict expandOk_inputs m x⟩
  have h := congrArg (Except.map Prod.fst) (in_svmTrain (g := expandOk) expandOk_inputs solve old T p)
  rw [map_map_res] at h
  exact h

end

/-- **C202**: linear and quadratic discriminant analysis, in exact arithmetic, for data of numbers and indexed values -/
theorem C202_discriminant_partial {S : List (Option Nat)} {T : IList ℝ} (hT : ∀ y ∈ T, Coded S y) {x : Inst ℝ}
    (hx : ∀ a ∈ x.attrs, NonNegMax a) (inverse : Mat ℝ → Mat ℝ) (det : Mat ℝ → ℝ) (oldL : Lda ℝ) (oldQ : Qda ℝ) :
    (oldL.train inverse (T.map expand) = oldL.train inverse T ∧ oldQ.train inverse det (T.map expand) = oldQ.train inverse det T) ∧
    (∀ m : Lda ℝ, m.predict (expand x) = m.predict x) ∧ ∀ m : Qda ℝ, m.predict (expand x) = m.predict x := by
  have hn : ∀ y ∈ T, ∀ a ∈ y.attrs, NonNegMax a := fun y hy => coded_nonneg (hT y hy)
  have havg : ∀ p : IList ℝ, (∀ y ∈ p, y ∈ T) →
      IList.continuousAttributeAverage (p.map expandOk) = IList.continuousAttributeAverage p := by
    intro p hp
    rw [expandOk_map (fun y hy => hn y (hp y hy))]
    exact average_expand (fun y hy => hT y (hp y hy))
  rw [← expandOk_map hn, ← expandOk_eq hx]
  exact ⟨⟨in_ldaTrain expandOk_inputs havg inverse oldL, in_qdaTrain expandOk_inputs havg inverse det oldQ⟩,
    fun m => in_lda expandOk_inputs m x, fun m => in_qda expandOk_inputs m x⟩

/-! ## where it fails -/

/-- two classes, told apart by an indexed attribute -/
def twoKinds : IList XR := [⟨"a", [.indexed "u" 0 2], none⟩, ⟨"b", [.indexed "v" 1 2], none⟩]

/-- **C202** (refuted for the Euclidean distance) the Euclidean distance overlooks indexed attributes -/
theorem C202_euclidean_refuted :
    ((Knn.train ⟨[], 0, euclidean⟩ twoKinds 1 euclidean).predict ⟨"", [.indexed "v" 1 2], none⟩ = .ok "a") ∧
    (Knn.train ⟨[], 0, euclidean⟩ (twoKinds.map expand) 1 euclidean).predict (expand ⟨"", [.indexed "v" 1 2], none⟩) =
      .ok "b" := by decide +kernel

/-- **C202** (refuted for nearest mean) `average` has no value for an indexed attribute: a null pointer is dereferenced -/
theorem C202_nearest_mean_refuted :
    (KMeans.train ⟨DD.empty, [], euclidean⟩ twoKinds euclidean >>= fun m => m.predict ⟨"", [.indexed "v" 1 2], none⟩) =
      .error (.ub "null attribute") ∧
    (KMeans.train ⟨DD.empty, [], euclidean⟩ (twoKinds.map expand) euclidean >>= fun m =>
      m.predict (expand ⟨"", [.indexed "v" 1 2], none⟩)) = .ok "b" := by decide +kernel

/-- **C202** (refuted for naive Bayes) the same null pointer, in training, if the first attribute is indexed -/
theorem C202_naive_bayes_refuted :
    (NaiveBayes.train NaiveBayes.new twoKinds >>= fun m => m.predict ⟨"", [.indexed "v" 1 2], none⟩) =
      .error (.ub "null attribute") ∧
    ∃ c, (NaiveBayes.train NaiveBayes.new (twoKinds.map expand) >>= fun m =>
      m.predict (expand ⟨"", [.indexed "v" 1 2], none⟩)) = .ok c := by
  refine ⟨by decide +kernel, "a", by decide +kernel⟩

/-- parameters of a soft decision tree -/
def plainSoft : SoftParam XR := ⟨.fin 0, [0, 1], fun _ => [0, 1], 1, .fin 1, .fin 0, fun _ => .fin 0⟩

/-- **C202** (refuted for soft decision trees) the weights are counted by attributes and not by numbers, the first multiplication
throws -/
theorem C202_soft_tree_refuted :
    softTrain plainSoft 5 twoKinds = .error (.throw "VectorSizeMismatch") ∧
    ∃ t, softTrain plainSoft 5 (twoKinds.map expand) = .ok t := by
  constructor
  · have h : (softTrain plainSoft 5 twoKinds).map SoftTree.labels = .error (.throw "VectorSizeMismatch") := by decide +kernel
    cases hs : softTrain plainSoft 5 twoKinds with
    | ok t => rw [hs] at h; cases h
    | error e => rw [hs] at h; cases h; rfl
  cases h : softTrain plainSoft 5 (twoKinds.map expand) with
  | ok t => exact ⟨t, rfl⟩
  | error e =>
    have : (softTrain plainSoft 5 (twoKinds.map expand)).toBool = true := by decide +kernel
    rw [h] at this
    cases this

/-- the hypotheses of the theorems of C202 hold for a list of instances with a number and an indexed attribute -/
example : (∀ y ∈ ([⟨"a", [.continuous 2, .indexed "u" 0 3], none⟩, ⟨"b", [.continuous 5, .indexed "w" 2 3], none⟩] : IList ℝ),
      Coded [none, some 3] y) ∧
    (expand ⟨"b", [.continuous 5, .indexed "w" 2 3], none⟩ : Inst ℝ).attrs =
      [.continuous 5, .continuous 0, .continuous 0, .continuous 1] := by
  constructor
  · intro y hy
    simp only [List.mem_cons, List.not_mem_nil, or_false] at hy
    rcases hy with rfl | rfl <;>
      exact .cons trivial (.cons ⟨by norm_num, by norm_num, by norm_num⟩ .nil)
  · simp [expand, expandAttr, List.range_succ, Dbl.one, Dbl.zero]

end Verif
