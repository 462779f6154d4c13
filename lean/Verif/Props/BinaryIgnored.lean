import Verif.Props.BinaryTrees
import Verif.Props.SoftTree
import Verif.Props.NaiveBayes

/-! # Property C197: no classifier uses a binary attribute -/

set_option linter.unusedSectionVars false

namespace Verif
open Dbl

variable {F : Type} [Dbl F]

/-! ## nearest neighbours -/

theorem euclid_blank_left (x y : Inst F) : euclidean (blank x) y = euclidean x y := by
  unfold euclidean
  have : (blank x).attrs.zipIdx = x.attrs.zipIdx.map (Prod.map blankAttr id) := by
    unfold blank
    rw [List.zipIdx_map]
  rw [this, List.foldlM_map]
  congr 1
  funext r p
  simp only [Prod.map, id]
  congr 1
  funext b
  obtain ⟨a, i⟩ := p
  cases a <;> cases b <;> rfl

theorem blank_getAttribute (x : Inst F) (i : Nat) : (blank x).getAttribute i = (x.getAttribute i).map blankAttr := by
  unfold Inst.getAttribute blank
  exact keeps_atR _ _ _

theorem euclid_blank_right (x y : Inst F) : euclidean x (blank y) = euclidean x y := by
  unfold euclidean
  congr 1
  funext r p
  rw [blank_getAttribute]
  cases y.getAttribute p.2 with
  | error e => rfl
  | ok b =>
    obtain ⟨a, i⟩ := p
    cases a <;> cases b <;> rfl

theorem blank_nearest {dist : Inst F → Inst F → Res F} (hd : ∀ y x, dist (blank y) (blank x) = dist y x) (T : IList F) (k : Int)
    (x : Inst F) : (⟨T.map blank, k, dist⟩ : Knn F).nearestNeighbors (blank x) =
      ((⟨T, k, dist⟩ : Knn F).nearestNeighbors x).map (List.map blank) := by
  unfold Knn.nearestNeighbors
  simp only
  rw [map_bind_res]
  have h := foldlM_equiv (blank (F := F)) (List.map (Prod.map blank id) : List (Inst F × F) → List (Inst F × F))
    (fun (r : List (Inst F × F)) y => if Knn.eligible x y then do
      let d ← dist y x
      pure (r ++ [(y, d)]) else pure r)
    (fun (r : List (Inst F × F)) y => if Knn.eligible (blank x) y then do
      let d ← dist y (blank x)
      pure (r ++ [(y, d)]) else pure r) T [] (by
      intro y _ r
      have he : Knn.eligible (blank x) (blank y) = Knn.eligible x y := rfl
      rw [he, hd, map_ite_res, map_bind_res]
      congr 1
      congr 1
      funext d
      rw [map_pure_res, List.map_append]
      rfl)
  rw [List.map_nil] at h
  rw [h, bind_map_res]
  congr 1
  funext is
  rw [stableSort_map (Prod.map blank id) (fun (a b : Inst F × F) => a.2 <. b.2) (fun (a b : Inst F × F) => a.2 <. b.2) is
    (fun _ _ _ _ => rfl), map_pure_res, ← List.map_take, List.map_map, List.map_map]
  rfl

theorem blank_knn {dist : Inst F → Inst F → Res F} (hd : ∀ y x, dist (blank y) (blank x) = dist y x) (T : IList F) (k : Int)
    (x : Inst F) : (⟨T.map blank, k, dist⟩ : Knn F).predict (blank x) = (⟨T, k, dist⟩ : Knn F).predict x ∧
      (⟨T.map blank, k, dist⟩ : Knn F).predictProbability (blank x) = (⟨T, k, dist⟩ : Knn F).predictProbability x := by
  unfold Knn.predict Knn.predictProbability
  rw [blank_nearest hd, bind_map_res, bind_map_res]
  constructor
  · refine bind_congr_res (fun ns _ => ?_)
    rw [List.length_map, show (blank x).isComposite = x.isComposite from rfl,
      show (blank x).possibleLabels = x.possibleLabels from rfl,
      keeps_classLabels (g := blank) ⟨fun _ => rfl, fun x => by simp [blank, Inst.attributeSize]⟩]
  · refine bind_congr_res (fun ns _ => ?_)
    rw [in_classDist blank_inputs]

/-! ## statistics -/

theorem in_byClass {g : Inst F → Inst F} (hg : ∀ x, SameInputs x (g x)) (l : IList F) :
    Parts.byClass (l.map g) = (Parts.byClass l).map (List.map (List.map g)) := by
  unfold Parts.byClass
  simp only [in_distinct hg]
  have := foldlM_equiv g (List.map (List.map g) : Parts F → Parts F)
    (fun ps x => Parts.addTo ps (l.getDistinctClassLabels.idxOf x.label) x)
    (fun ps x => Parts.addTo ps (l.getDistinctClassLabels.idxOf x.label) x) l
    (l.getDistinctClassLabels.map (fun _ => ([] : IList F)))
    (fun x _ ps => by rw [(hg x).label, in_addTo hg])
  rw [← this]
  congr 1
  rw [List.map_map]
  rfl

theorem byClass_mem {l : IList F} {ps : Parts F} (h : Parts.byClass l = .ok ps) : ∀ p ∈ ps, ∀ y ∈ p, y ∈ l := by
  have key : ∀ (l' : IList F) (ps0 : Parts F), (∀ x ∈ l', x ∈ l) → (∀ p ∈ ps0, ∀ y ∈ p, y ∈ l) →
      l'.foldlM (fun ps x => Parts.addTo ps (l.getDistinctClassLabels.idxOf x.label) x) ps0 = .ok ps →
      ∀ p ∈ ps, ∀ y ∈ p, y ∈ l := by
    intro l'
    induction l' with
    | nil => intro ps0 _ h0 h; cases h; exact h0
    | cons x l' ih =>
      intro ps0 hl h0 h
      rw [List.foldlM_cons, bind_ok_iff] at h
      obtain ⟨ps1, h1, h⟩ := h
      refine ih ps1 (fun y hy => hl y (by simp [hy])) ?_ h
      intro p hp y hy
      rcases addTo_only h1 p hp y hy with rfl | ⟨q, hq, hy⟩
      · exact hl _ (by simp)
      · exact h0 q hq y hy
  refine key l _ (fun _ hx => hx) ?_ h
  intro p hp y hy
  obtain ⟨_, _, rfl⟩ := List.mem_map.1 hp
  cases hy

section
variable {ts : List AttrType} {p : IList F} (hts : ∀ x ∈ p, typesOf x = ts)
include hts

theorem blind_attributeAverage (i : Nat) : IList.attributeAverage (p.map blank) i = IList.attributeAverage p i := by
  rw [← hide_blank_list hts]
  unfold IList.attributeAverage
  rw [keeps_atR]
  cases h0 : atR p 0 with
  | error e => rfl
  | ok x0 =>
    simp only [Except.map, res_bind_ok]
    by_cases hi : i ∈ seen ts
    · rw [hide_at hi x0]
      simp only [List.foldlM_map, (hide_at hi).contAt, (hide_at hi).discAt, List.length_map]
    · rw [hide_not hi]
      cases ha : x0.getAttribute i with
      | error e => rfl
      | ok a =>
        obtain ⟨v, rfl⟩ := unseen_binary (hts x0 (List.mem_of_getElem? (by simpa using h0))) hi ha
        rfl

theorem blind_attributeStandardDeviation (i : Nat) :
    IList.attributeStandardDeviation (p.map blank) i = IList.attributeStandardDeviation p i := by
  rw [← hide_blank_list hts]
  unfold IList.attributeStandardDeviation IList.contStdDev
  rw [keeps_atR]
  cases h0 : atR p 0 with
  | error e => rfl
  | ok x0 =>
    simp only [Except.map, res_bind_ok]
    by_cases hi : i ∈ seen ts
    · rw [hide_at hi x0]
      simp only [List.foldlM_map, (hide_at hi).contAt, List.length_map]
    · rw [hide_not hi]
      cases ha : x0.getAttribute i with
      | error e => rfl
      | ok a =>
        obtain ⟨v, rfl⟩ := unseen_binary (hts x0 (List.mem_of_getElem? (by simpa using h0))) hi ha
        rfl

theorem blind_attributeDistribution (i : Nat) :
    IList.attributeDistribution (p.map blank) i = IList.attributeDistribution p i := by
  rw [← hide_blank_list hts]
  unfold IList.attributeDistribution
  rw [keeps_atR]
  cases h0 : atR p 0 with
  | error e => rfl
  | ok x0 =>
    simp only [Except.map, res_bind_ok]
    by_cases hi : i ∈ seen ts
    · rw [hide_at hi x0]
      simp only [List.foldlM_map, (hide_at hi).discAt]
    · rw [hide_not hi]
      cases ha : x0.getAttribute i with
      | error e => rfl
      | ok a =>
        obtain ⟨v, rfl⟩ := unseen_binary (hts x0 (List.mem_of_getElem? (by simpa using h0))) hi ha
        rfl

theorem blind_continuousAverageAt (i : Nat) :
    IList.continuousAttributeAverageAt (p.map blank) i = IList.continuousAttributeAverageAt p i := by
  rw [← hide_blank_list hts]
  unfold IList.continuousAttributeAverageAt IList.indexedFrequencies
  rw [keeps_atR]
  cases h0 : atR p 0 with
  | error e => rfl
  | ok x0 =>
    simp only [Except.map, res_bind_ok]
    by_cases hi : i ∈ seen ts
    · rw [hide_at hi x0]
      simp only [List.foldlM_map, (hide_at hi).contAt, (hide_at hi).indexAt, List.length_map]
    · rw [hide_not hi]
      cases ha : x0.getAttribute i with
      | error e => rfl
      | ok a =>
        obtain ⟨v, rfl⟩ := unseen_binary (hts x0 (List.mem_of_getElem? (by simpa using h0))) hi ha
        rfl

theorem blind_average : IList.average (p.map blank) = IList.average p := by
  unfold IList.average
  simp only [keeps_atR, bind_map_res, blind_attributeAverage hts]
  refine bind_congr_res (fun x0 _ => ?_)
  rw [show (blank x0).attributeSize = x0.attributeSize by simp [blank, Inst.attributeSize]]
  rfl

theorem blind_standardDeviation : IList.standardDeviation (p.map blank) = IList.standardDeviation p := by
  unfold IList.standardDeviation
  simp only [keeps_atR, bind_map_res, blind_attributeStandardDeviation hts]
  refine bind_congr_res (fun x0 _ => ?_)
  rw [show (blank x0).attributeSize = x0.attributeSize by simp [blank, Inst.attributeSize]]
  rfl

theorem blind_allAttributesDistribution : IList.allAttributesDistribution (p.map blank) = IList.allAttributesDistribution p := by
  unfold IList.allAttributesDistribution
  simp only [keeps_atR, bind_map_res, blind_attributeDistribution hts]
  refine bind_congr_res (fun x0 _ => ?_)
  rw [show (blank x0).attributeSize = x0.attributeSize by simp [blank, Inst.attributeSize]]

theorem blind_continuousAverage : IList.continuousAttributeAverage (p.map blank) = IList.continuousAttributeAverage p := by
  unfold IList.continuousAttributeAverage
  simp only [keeps_atR, bind_map_res, blind_continuousAverageAt hts]
  refine bind_congr_res (fun x0 _ => ?_)
  rw [show (blank x0).attributeSize = x0.attributeSize by simp [blank, Inst.attributeSize]]

end

theorem in_covariance {g : Inst F → Inst F} (hg : ∀ x, SameInputs x (g x)) (p : IList F) (avg : List F) :
    IList.covariance (p.map g) avg = IList.covariance p avg := by
  have hc : ∀ x, (g x).continuousAttributes = x.continuousAttributes := fun x => (hg x).inputs
  unfold IList.covariance
  simp only [keeps_atR, bind_map_res, List.foldlM_map, List.length_map, (hg _).size, hc]

/-- a loop over the classes with their instances -/
theorem zip_parts {σ : Type} {g : Inst F → Inst F} (ls : List String) (ps : Parts F) (f : σ → String × IList F → Res σ) (s : σ)
    (h : ∀ p ∈ ps, ∀ c s, f s (c, p.map g) = f s (c, p)) :
    (ls.zip (ps.map (List.map g))).foldlM f s = (ls.zip ps).foldlM f s := by
  have : ls.zip (ps.map (List.map g)) = (ls.zip ps).map (Prod.map id (List.map g)) := by
    rw [List.zip_map_right]
  rw [this, List.foldlM_map]
  refine foldlM_same_steps _ _ (fun q hq s => ?_)
  obtain ⟨c, p⟩ := q
  exact h p (List.of_mem_zip hq).2 c s

/-! ## the parametric classifiers -/

section
variable {ts : List AttrType} {T : IList F} (hts : ∀ x ∈ T, typesOf x = ts)
include hts

theorem blind_kMeansTrain (old : KMeans F) (dist : Inst F → Inst F → Res F) :
    old.train (T.map blank) dist = old.train T dist := by
  unfold KMeans.train
  rw [in_byClass blank_inputs, bind_map_res, in_classDist blank_inputs]
  refine bind_congr_res (fun ps hps => ?_)
  have : (ps.map (List.map blank)).mapM (fun p => IList.average p) = ps.mapM (fun p : IList F => p.average) := by
    have key : ∀ qs : Parts F, (∀ q ∈ qs, q ∈ ps) →
        (qs.map (List.map blank)).mapM (fun p => IList.average p) = qs.mapM (fun p : IList F => p.average) := by
      intro qs
      induction qs with
      | nil => intro _; rfl
      | cons q qs ih =>
        intro h
        rw [List.map_cons, List.mapM_cons, List.mapM_cons, ih (fun r hr => h r (by simp [hr])),
          blind_average (fun x hx => hts x (byClass_mem hps q (h q (by simp)) x hx))]
    exact key ps (fun _ h => h)
  rw [this]

theorem blind_naiveBayesTrain (old : NaiveBayes F) : old.train (T.map blank) = old.train T := by
  unfold NaiveBayes.train
  rw [in_byClass blank_inputs, bind_map_res, in_classDist blank_inputs, in_distinct blank_inputs]
  refine bind_congr_res (fun ps hps => ?_)
  simp only [keeps_atR, bind_map_res, blank_getAttribute]
  refine bind_congr_res (fun p0 _ => bind_congr_res (fun x0 _ => bind_congr_res (fun a0 _ => ?_)))
  rw [show (blankAttr a0).isDiscrete = a0.isDiscrete by cases a0 <;> rfl]
  have ht : ∀ p ∈ ps, ∀ x ∈ p, typesOf x = ts := fun p hp x hx => hts x (byClass_mem hps p hp x hx)
  rw [zip_parts _ ps NaiveBayes.discClass _ (fun p hp c s => by
      unfold NaiveBayes.discClass
      simp only
      rw [blind_allAttributesDistribution (ht p hp)]),
    zip_parts _ ps NaiveBayes.contClass _ (fun p hp c s => by
      unfold NaiveBayes.contClass
      simp only
      rw [blind_average (ht p hp), blind_standardDeviation (ht p hp)])]

theorem blind_ldaTrain (inverse : Mat F → Mat F) (old : Lda F) : old.train inverse (T.map blank) = old.train inverse T := by
  unfold Lda.train
  rw [keeps_atR, bind_map_res, in_byClass blank_inputs, in_classDist blank_inputs, in_distinct blank_inputs, List.length_map]
  refine bind_congr_res (fun x0 _ => ?_)
  rw [(blank_inputs x0).accepted, (blank_inputs x0).size, bind_map_res]
  congr 1
  refine bind_congr_res (fun ps hps => ?_)
  have ht : ∀ p ∈ ps, ∀ x ∈ p, typesOf x = ts := fun p hp x hx => hts x (byClass_mem hps p hp x hx)
  have hcov : ∀ p ∈ ps, Lda.classCovariance (p.map blank) = Lda.classCovariance p := by
    intro p hp
    unfold Lda.classCovariance
    rw [blind_continuousAverage (ht p hp)]
    simp only [in_covariance blank_inputs, List.length_map]
  have hpool : ∀ n m, Lda.pooledCovariance n (ps.map (List.map blank)) m = Lda.pooledCovariance n ps m := by
    intro n m
    unfold Lda.pooledCovariance
    rw [List.foldlM_map, List.length_map]
    congr 1
    exact foldlM_same_steps _ _ (fun p hp c => by rw [hcov p hp])
  rw [hpool]
  refine bind_congr_res (fun cov _ => ?_)
  exact zip_parts _ ps (Lda.classWeights (inverse cov)) _ (fun p hp c s => by
    unfold Lda.classWeights
    simp only
    rw [blind_continuousAverage (ht p hp)])

theorem blind_qdaTrain (inverse : Mat F → Mat F) (det : Mat F → F) (old : Qda F) :
    old.train inverse det (T.map blank) = old.train inverse det T := by
  unfold Qda.train
  rw [keeps_atR, bind_map_res, in_byClass blank_inputs, in_classDist blank_inputs, in_distinct blank_inputs]
  refine bind_congr_res (fun x0 _ => ?_)
  rw [(blank_inputs x0).accepted, bind_map_res]
  congr 1
  refine bind_congr_res (fun ps hps => ?_)
  have ht : ∀ p ∈ ps, ∀ x ∈ p, typesOf x = ts := fun p hp x hx => hts x (byClass_mem hps p hp x hx)
  exact zip_parts _ ps (Qda.classWeights inverse det) _ (fun p hp c s => by
    unfold Qda.classWeights
    simp only
    rw [blind_continuousAverage (ht p hp)]
    simp only [in_covariance blank_inputs])

end

theorem gauss_same {prior : DD} {metric : Inst F → String → Res F} {x y : Inst F} (hp : x.possible = y.possible)
    (hl : x.label = y.label) (h : ∀ c, metric x c = metric y c) : gaussPredict prior metric x = gaussPredict prior metric y := by
  have hc : x.isComposite = y.isComposite := by unfold Inst.isComposite; rw [hp]
  have hpl : x.possibleLabels = y.possibleLabels := by unfold Inst.possibleLabels; rw [hp, hl]
  unfold gaussPredict gaussInit
  rw [hc, hpl, show metric x = metric y from funext h]

theorem blank_kMeans {dist : Inst F → Inst F → Res F} (hd : ∀ x y, dist (blank x) y = dist x y) {m : KMeans F}
    (hm : m.dist = dist) (x : Inst F) : m.predict (blank x) = m.predict x := by
  unfold KMeans.predict
  refine gauss_same rfl rfl (fun c => ?_)
  unfold KMeans.metric
  rw [hm]
  simp only [hd]

theorem blank_lda (m : Lda F) (x : Inst F) : m.predict (blank x) = m.predict x := by
  unfold Lda.predict
  refine gauss_same rfl rfl (fun c => ?_)
  unfold Lda.metric
  rw [(blank_inputs x).inputs]

theorem blank_qda (m : Qda F) (x : Inst F) : m.predict (blank x) = m.predict x := by
  unfold Qda.predict
  refine gauss_same rfl rfl (fun c => ?_)
  unfold Qda.metric
  rw [(blank_inputs x).inputs]

/-- the counts kept for binary columns are empty -/
def BinaryEmpty (ts : List AttrType) (m : NaiveBayes F) : Prop :=
  ∀ c ds, OMap.find? m.classAttributeDistributions c = some ds → ∀ i, i ∉ seen ts → ∀ d, ds[i]? = some d → d = DD.empty

omit [Dbl F] in
theorem collected {α β : Type} {f : α → Res β} : ∀ (l : List α) (r0 r : List β),
    l.foldlM (fun (r : List β) i => do
      let a ← f i
      pure (r ++ [a])) r0 = (.ok r : Res (List β)) →
    r.length = r0.length + l.length ∧ (∀ k, k < r0.length → r[k]? = r0[k]?) ∧
      ∀ (k : Nat) (a : α), l[k]? = some a → ∀ b, r[r0.length + k]? = some b → f a = .ok b := by
  intro l
  induction l with
  | nil => intro r0 r h; cases h; exact ⟨by simp, fun _ _ => rfl, by simp⟩
  | cons x l ih =>
    intro r0 r h
    rw [List.foldlM_cons, bind_ok_iff] at h
    obtain ⟨r1, h1, h⟩ := h
    rw [bind_ok_iff] at h1
    obtain ⟨b, hb, h1⟩ := h1
    cases h1
    obtain ⟨g1, g2, g3⟩ := ih _ _ h
    rw [List.length_append, List.length_singleton] at g1 g3
    refine ⟨by rw [List.length_cons]; omega, fun k hk => ?_, ?_⟩
    · rw [g2 k (by rw [List.length_append]; omega), List.getElem?_append_left hk]
    · intro k a hk c hc
      cases k with
      | zero =>
        rw [List.getElem?_cons_zero] at hk
        cases hk
        rw [Nat.add_zero, g2 _ (by rw [List.length_append, List.length_singleton]; omega), List.getElem?_append_right le_rfl,
          Nat.sub_self] at hc
        cases hc
        exact hb
      | succ k =>
        rw [List.getElem?_cons_succ] at hk
        exact g3 k a hk c (by rw [← hc]; congr 1; omega)

theorem distribution_binary {ts : List AttrType} {p : IList F} (hts : ∀ x ∈ p, typesOf x = ts) {ds : List DD}
    (h : p.allAttributesDistribution = .ok ds) : ∀ i, i ∉ seen ts → ∀ d, ds[i]? = some d → d = DD.empty := by
  intro i hi d hd
  unfold IList.allAttributesDistribution at h
  rw [bind_ok_iff] at h
  obtain ⟨x0, h0, h⟩ := h
  obtain ⟨g1, _, g3⟩ := collected (f := fun i => p.attributeDistribution i) _ _ _ h
  have hil : i < x0.attributeSize := by
    have := (List.getElem?_eq_some_iff.1 hd).1
    rw [g1, List.length_range, List.length_nil] at this
    omega
  have := g3 i i (by rw [List.getElem?_range hil]) d (by simpa using hd)
  unfold IList.attributeDistribution at this
  rw [h0, res_bind_ok, bind_ok_iff] at this
  obtain ⟨a, ha, this⟩ := this
  obtain ⟨v, rfl⟩ := unseen_binary (hts x0 (List.mem_of_getElem? (by simpa using h0))) hi ha
  cases this
  rfl

theorem naiveBayes_binaryEmpty {ts : List AttrType} {T : IList F} (hts : ∀ x ∈ T, typesOf x = ts) {m : NaiveBayes F}
    (h : NaiveBayes.new.train T = .ok m) : BinaryEmpty ts m := by
  unfold NaiveBayes.train at h
  simp only [bind_ok_iff] at h
  obtain ⟨ps, hps, p0, _, x0, _, a0, _, h⟩ := h
  have ht : ∀ p ∈ ps, ∀ x ∈ p, typesOf x = ts := fun p hp x hx => hts x (byClass_mem hps p hp x hx)
  have hq : ∀ q ∈ T.getDistinctClassLabels.zip ps, ∀ x ∈ q.2, typesOf x = ts := fun q hq =>
    ht q.2 (List.of_mem_zip (a := q.1) (b := q.2) hq).2
  have h0 : BinaryEmpty ts ({ (NaiveBayes.new : NaiveBayes F) with prior := T.classDistribution }) := by
    intro c ds hf; cases hf
  generalize T.getDistinctClassLabels.zip ps = qs at h hq
  generalize ({ (NaiveBayes.new : NaiveBayes F) with prior := T.classDistribution }) = m0 at h h0
  split at h
  · induction qs generalizing m0 with
    | nil => cases h; exact h0
    | cons q qs ih =>
      rw [List.foldlM_cons, bind_ok_iff] at h
      obtain ⟨m1, h1, h⟩ := h
      refine ih (fun r hr => hq r (by simp [hr])) m1 ?_ h
      unfold NaiveBayes.discClass at h1
      rw [bind_ok_iff] at h1
      obtain ⟨ds, hds, h1⟩ := h1
      cases h1
      intro c es hf
      rw [find?_emplace] at hf
      split at hf
      · cases ho : OMap.find? m0.classAttributeDistributions q.1 with
        | some o =>
          rw [ho] at hf
          cases hf
          exact h0 q.1 _ ho
        | none =>
          rw [ho] at hf
          cases hf
          exact distribution_binary (hq q (by simp)) hds
      · exact h0 c es hf
  · induction qs generalizing m0 with
    | nil => cases h; exact h0
    | cons q qs ih =>
      rw [List.foldlM_cons, bind_ok_iff] at h
      obtain ⟨m1, h1, h⟩ := h
      refine ih (fun r hr => hq r (by simp [hr])) m1 ?_ h
      unfold NaiveBayes.contClass at h1
      simp only [bind_ok_iff] at h1
      obtain ⟨_, _, _, _, _, _, _, _, h1⟩ := h1
      cases h1
      exact h0

theorem blank_naiveBayes {ts : List AttrType} {m : NaiveBayes F} (hm : BinaryEmpty ts m) {x : Inst F} (hx : typesOf x = ts) :
    m.predict (blank x) = m.predict x := by
  unfold NaiveBayes.predict
  refine gauss_same rfl rfl (fun c => ?_)
  unfold NaiveBayes.metric
  have hz : (blank x).attrs.zipIdx = x.attrs.zipIdx.map (Prod.map blankAttr id) := by
    unfold blank
    rw [List.zipIdx_map]
  split
  · unfold NaiveBayes.logLikelihoodContinuous NaiveBayes.lookupFor
    rw [hz, show (blank x).attrs.length = x.attrs.length by simp [blank]]
    simp only [List.foldlM_map]
    have : ∀ ms ds : List F, (fun (s : F) (p : Attr F × Nat) => NaiveBayes.contStep ms ds s (Prod.map blankAttr id p)) =
        NaiveBayes.contStep ms ds := by
      intro ms ds
      funext s p
      obtain ⟨a, i⟩ := p
      cases a <;> rfl
    simp only [this]
  · unfold NaiveBayes.logLikelihoodDiscrete
    rw [hz]
    refine bind_congr_res (fun ds hds => ?_)
    rw [List.foldlM_map]
    refine foldlM_same_steps _ _ (fun q hq s => ?_)
    obtain ⟨a, i⟩ := q
    have ha : x.attrs[i]? = some a := by
      have := List.mk_mem_zipIdx_iff_getElem?.1 hq
      exact this
    cases a with
    | binary v =>
      have hi : i ∉ seen ts := by
        rw [mem_seen]
        rintro ⟨_, h⟩
        exact h (by rw [← hx, typesOf, List.getElem?_map, ha]; rfl)
      unfold NaiveBayes.discStep
      simp only [Prod.map, id, blankAttr, Attr.discVal, res_bind_ok]
      refine bind_congr_res (fun d hd => ?_)
      have : d = DD.empty := by
        refine hm c ds ?_ i hi d (by simpa using hd)
        unfold findR at hds
        split at hds
        · rename_i e; cases hds; exact e
        · cases hds
      subst this
      rfl
    | continuous v => rfl
    | discrete v => rfl
    | indexed v j k => rfl

/-! ## soft decision trees -/

theorem blank_attrs_length (x : Inst F) : (blank x).attrs.length = x.attrs.length := by simp [blank]

theorem blank_get (l : IList F) (i : Nat) : IList.get (l.map blank) i = (IList.get l i).map blank := keeps_atR _ _ _

theorem blank_contAt (x : Inst F) (i : Nat) : (blank x).contAt i = x.contAt i := by
  unfold Inst.contAt
  rw [blank_getAttribute]
  cases x.getAttribute i with
  | error e => rfl
  | ok a => cases a <;> rfl

theorem blank_shuffle (l : IList F) (σ : List Nat) : IList.shuffle (l.map blank) σ = (IList.shuffle l σ).map blank := by
  unfold IList.shuffle
  rw [List.map_filterMap]
  congr 1
  funext i
  rw [List.getElem?_map]

theorem blank_calcOutput (x : Inst F) : ∀ n : SoftNode F, calcOutput (blank x) n = calcOutput x n
  | .leaf d => by rw [calcOutput, calcOutput]
  | .split d l r => by rw [calcOutput, calcOutput, blank_calcOutput x l, blank_calcOutput x r, (blank_inputs x).inputs]

theorem blank_softErrors (labels : List String) (l : IList F) (n : SoftNode F) :
    softErrors labels (l.map blank) n = softErrors labels l n := by
  unfold softErrors
  rw [List.foldlM_map]
  congr 1
  funext s x
  unfold softErrorStep
  rw [(blank_inputs x).label, blank_calcOutput]

theorem blank_softPresent (labels : List String) (alpha eta : F) (path : List Bool) (s : SoftNode F × SoftPrev F) (x : Inst F) :
    softPresent labels alpha eta path s (blank x) = softPresent labels alpha eta path s x := by
  unfold softPresent
  rw [(blank_inputs x).label, blank_calcOutput]
  refine bind_congr_res (fun o _ => bind_congr_res (fun r _ => bind_congr_res (fun n _ => ?_)))
  have : ∀ m out, softUpdate labels alpha m r out (blank x) s.2 n.1 = softUpdate labels alpha m r out x s.2 n.1 := by
    intro m out
    cases n.1 with
    | leaf d => rfl
    | split d l rt =>
      have hs : splitUpdate m labels.length r out (blank x) l.data rt.data = splitUpdate m labels.length r out x l.data rt.data := by
        funext t
        unfold splitUpdate softFeature
        rw [blank_contAt]
      simp only [softUpdate, blank_attrs_length, hs]
  simp only [this]

/-- a state of the descent without the values of binary attributes -/
def SoftDescent.blank (s : SoftDescent F) : SoftDescent F := { s with data := s.data.map Verif.blank }

theorem blank_softDescend (labels : List String) (param : SoftParam F) (path : List Bool) (eta : F) (root : SoftNode F)
    (l : IList F) : softDescend labels param path eta root (l.map blank) =
      (softDescend labels param path eta root l).map (fun p => (p.1, p.2.map blank)) := by
  unfold softDescend
  rw [blank_get, bind_map_res, map_bind_res]
  refine bind_congr_res (fun x0 _ => ?_)
  simp only [blank_attrs_length, map_bind_res]
  rw [show ∀ (pr : SoftPrev F), (⟨root, pr, eta, l.map blank⟩ : SoftDescent F) =
    SoftDescent.blank ⟨root, pr, eta, l⟩ from fun _ => rfl]
  rw [foldlM_equiv' SoftDescent.blank
    (fun (s : SoftDescent F) _ => softEpoch labels param path s), bind_map_res]
  · rfl
  · intro _ _ s
    unfold softEpoch
    rw [show s.blank.data = s.data.map blank from rfl]
    simp only [List.length_map, blank_shuffle, List.foldlM_map, blank_softPresent, map_bind_res, map_pure_res]
    rfl

/-- an attempt without the values of binary attributes -/
def SoftTry.blank (s : SoftTry F) : SoftTry F := { s with data := s.data.map Verif.blank }

/-- a state without the values of binary attributes -/
def SoftState.blank (s : SoftState F) : SoftState F := { s with data := s.data.map Verif.blank }

theorem blank_softTry (labels : List String) (param : SoftParam F) (cv : IList F) (path : List Bool) (start : SoftCopy F)
    (s : SoftTry F) (i : Nat) :
    softTry labels param (cv.map blank) path start s.blank i =
      (softTry labels param cv path start s i).map SoftTry.blank := by
  unfold softTry
  rw [show s.blank.data = s.data.map blank from rfl, show s.blank.root = s.root from rfl, blank_softDescend,
    bind_map_res, map_bind_res]
  simp only [blank_softErrors, map_bind_res, map_pure_res]
  rfl

theorem blank_softSplit (labels : List String) (param : SoftParam F) (cv : IList F) (path : List Bool) (s : SoftState F) :
    softSplit labels param (cv.map blank) path s.blank =
      (softSplit labels param cv path s).map (fun p => (p.1, p.2.blank)) := by
  unfold softSplit
  rw [show s.blank.data = s.data.map blank from rfl, show s.blank.root = s.root from rfl,
    show s.blank.pos = s.pos from rfl]
  simp only [blank_softErrors, map_bind_res, blank_get, bind_map_res, in_distinct blank_inputs, blank_attrs_length]
  refine bind_congr_res (fun b _ => bind_congr_res (fun n _ => bind_congr_res (fun x0 _ => bind_congr_res (fun st _ => ?_))))
  rw [show ∀ r b c, (⟨r, s.data.map blank, b, c⟩ : SoftTry F) = SoftTry.blank ⟨r, s.data, b, c⟩ from fun _ _ _ => rfl,
    foldlM_equiv' SoftTry.blank (softTry labels param cv path st) _ _ _
      (fun i _ s => blank_softTry labels param cv path st s i), bind_map_res]
  refine bind_congr_res (fun t _ => ?_)
  rw [show t.blank.root = t.root from rfl]
  refine bind_congr_res (fun m _ => ?_)
  simp only [map_ite_res, map_bind_res, map_pure_res]
  rfl

theorem blank_softGrow (labels : List String) (param : SoftParam F) (cv : IList F) : ∀ (n : Nat) (path : List Bool)
    (s : SoftState F), softGrow labels param (cv.map blank) n path s.blank =
      (softGrow labels param cv n path s).map SoftState.blank := by
  intro n
  induction n with
  | zero => intro path s; rfl
  | succ n ih =>
    intro path s
    unfold softGrow
    rw [blank_softSplit, bind_map_res, map_bind_res]
    simp only [map_ite_res, ih, bind_map_res, map_bind_res, map_pure_res]

theorem blank_softTrain (param : SoftParam F) (fuel : Nat) (l : IList F) :
    softTrain param fuel (l.map blank) = softTrain param fuel l := by
  unfold softTrain
  simp only [in_distinct blank_inputs, blank_get, bind_map_res, in_byRatioStratified blank_inputs, blank_attrs_length]
  refine bind_congr_res (fun x0 _ => bind_congr_res (fun ps _ => ?_))
  simp only [keeps_atR, bind_map_res]
  refine bind_congr_res (fun cv _ => bind_congr_res (fun data _ => ?_))
  rw [show ∀ r p, (⟨r, data.map blank, p⟩ : SoftState F) = SoftState.blank ⟨r, data, p⟩ from fun _ _ => rfl,
    blank_softGrow, bind_map_res]
  rfl

theorem blank_softPredict (t : SoftTree F) (x : Inst F) : softPredict t (blank x) = softPredict t x := by
  unfold softPredict
  rw [blank_calcOutput]

/-! ## the theorems -/

section
variable {T T' : IList F} (hT : List.Forall₂ AlikeButBinary T T') {x x' : Inst F} (hx : AlikeButBinary x x')
include hT hx

/-- **C197** (refuted for nearest neighbours) two training lists that differ in the values of binary attributes only, and two
instances that differ in the values of binary attributes only, get the same answers and class probabilities, with the Euclidean and with
the Mahalanobis distance, whatever the number of neighbours. -/
theorem C197_knn_refuted (old : Knn F) (k : Int) (S : Mat F) :
    ((old.train T k euclidean).predict x = (old.train T' k euclidean).predict x' ∧
      (old.train T k euclidean).predictProbability x = (old.train T' k euclidean).predictProbability x') ∧
    ((old.train T k (mahalanobis S)).predict x = (old.train T' k (mahalanobis S)).predict x' ∧
      (old.train T k (mahalanobis S)).predictProbability x = (old.train T' k (mahalanobis S)).predictProbability x') := by
  have key : ∀ dist : Inst F → Inst F → Res F, (∀ y z, dist (blank y) (blank z) = dist y z) →
      (old.train T k dist).predict x = (old.train T' k dist).predict x' ∧
      (old.train T k dist).predictProbability x = (old.train T' k dist).predictProbability x' := by
    intro dist hd
    have h := blank_knn hd T k x
    have h' := blank_knn hd T' k x'
    rw [blank_list hT, hx.blank] at h
    exact ⟨h.1.symm.trans h'.1, h.2.symm.trans h'.2⟩
  refine ⟨key _ (fun y z => ?_), key _ (fun y z => ?_)⟩
  · rw [euclid_blank_left, euclid_blank_right]
  · unfold mahalanobis
    rw [(blank_inputs y).inputs, (blank_inputs z).inputs]

/-- **C197** (refuted for the networks) the same for linear perceptrons, multilayer perceptrons, deep networks: the trained
networks are equal, and so are the answers and the class probabilities. -/
theorem C197_network_refuted (param : NetParam F) (H : Nat) (act : Activation) (hidden : List Nat) (oldP : Net (Mat F))
    (oldM : Net (Two F)) (oldD : Net (List (Mat F))) :
    (percTrain param oldP T = percTrain param oldP T' ∧ mlpTrain param H act oldM T = mlpTrain param H act oldM T' ∧
      deepTrain param hidden act oldD T = deepTrain param hidden act oldD T' ∧
      autoTrain param H oldM T = autoTrain param H oldM T') ∧
    (∀ labels output, netPredict labels output x = netPredict labels output x' ∧
      netProbability labels output x = netProbability labels output x') ∧
    ∀ w, autoPredictInput w x = autoPredictInput w x' := by
  refine ⟨⟨?_, ?_, ?_, ?_⟩, fun labels output => ⟨?_, ?_⟩, fun w => ?_⟩
  · rw [← in_percTrain blank_inputs, blank_list hT, in_percTrain blank_inputs]
  · rw [← in_mlpTrain blank_inputs, blank_list hT, in_mlpTrain blank_inputs]
  · rw [← in_deepTrain blank_inputs, blank_list hT, in_deepTrain blank_inputs]
  · rw [← in_autoTrain blank_inputs, blank_list hT, in_autoTrain blank_inputs]
  · rw [← in_netPredict blank_inputs, hx.blank, in_netPredict blank_inputs]
  · rw [← in_netProbability blank_inputs, hx.blank, in_netProbability blank_inputs]
  · rw [← in_autoPredictInput blank_inputs, hx.blank, in_autoPredictInput blank_inputs]

/-- **C197** (refuted for support vector machines and soft decision trees) the same, whatever the solver of the support vector
machine answers. -/
theorem C197_svm_soft_tree_refuted (solve : List (NodeL F) → List F → List F → Res (F × List F)) (old : Svm F) (p : SvmParam F)
    (param : SoftParam F) (fuel : Nat) :
    (Svm.train solve old T p).map Prod.fst = (Svm.train solve old T' p).map Prod.fst ∧
    (∀ m : Svm F, m.predict x = m.predict x') ∧
    softTrain param fuel T = softTrain param fuel T' ∧
    ∀ t : SoftTree F, softPredict t x = softPredict t x' := by
  refine ⟨?_, fun m => ?_, ?_, fun t => ?_⟩
  · have h1 := congrArg (Except.map Prod.fst) (in_svmTrain (g := blank) blank_inputs solve old T p)
    have h2 := congrArg (Except.map Prod.fst) (in_svmTrain (g := blank) blank_inputs solve old T' p)
    rw [map_map_res] at h1 h2
    rw [blank_list hT] at h1
    exact h1.symm.trans h2
  · rw [← in_svmPredict blank_inputs, hx.blank, in_svmPredict blank_inputs]
  · rw [← blank_softTrain, blank_list hT, blank_softTrain]
  · rw [← blank_softPredict, hx.blank, blank_softPredict]

variable {ts : List AttrType} (hts : ∀ y ∈ T, typesOf y = ts) (hxs : typesOf x = ts)
include hts hxs

/-- **C197** (refuted for trees) the same for decision trees with and without pruning, decision stumps, bagging and random
forests, for data in which all instances have the same attribute types. -/
theorem C197_tree_refuted (pruning : Option (F × List Nat)) (param : Node.SubsetParam) (draws : Nat → List Nat) (B : Int) :
    (treeTrain T pruning = treeTrain T' pruning ∧
      (treeTrain T pruning >>= fun t => treePredict t x) = (treeTrain T' pruning >>= fun t => treePredict t x')) ∧
    (stumpTrain T = stumpTrain T' ∧
      (stumpTrain T >>= fun t => treePredict t x) = (stumpTrain T' >>= fun t => treePredict t x')) ∧
    (ensembleTrain param draws [] T B = ensembleTrain param draws [] T' B ∧
      (ensembleTrain param draws [] T B >>= fun f => ensemblePredict f x) =
        (ensembleTrain param draws [] T' B >>= fun f => ensemblePredict f x')) := by
  have hts' := alike_types_list hT hts
  have hq := alike_query hxs hx
  have e1 : treeTrain T pruning = treeTrain T' pruning := by
    rw [← blind_treeTrain hts, blank_list hT, blind_treeTrain hts']
  have e2 : stumpTrain T = stumpTrain T' := by
    unfold stumpTrain
    rw [← blind_grow _ _ _ hts, hide_blank_list hts, blank_list hT, ← hide_blank_list hts', blind_grow _ _ _ hts', hT.length_eq]
  have e3 : ensembleTrain param draws [] T B = ensembleTrain param draws [] T' B := by
    rw [← blind_ensembleTrain hts, blank_list hT, blind_ensembleTrain hts']
  refine ⟨⟨e1, ?_⟩, ⟨e2, ?_⟩, ⟨e3, ?_⟩⟩
  · rw [← e1]
    exact bind_congr_res (fun t ht => treePredict_same hq (treeTrain_asksOnly hts ht))
  · rw [← e2]
    exact bind_congr_res (fun t ht => treePredict_same hq (blind_asksOnly _ _ _ _ hts ht))
  · rw [← e3]
    refine bind_congr_res (fun f hf => ?_)
    unfold ensemblePredict
    rw [votes_same hq (ensembleTrain_asksOnly hts hf)]

/-- **C197** (refuted for the parametric classifiers) the same for nearest mean classifiers, naive Bayes (whether it counts or
uses normal densities), linear and quadratic discriminant analysis. Where one of them fails, it fails in the same way. -/
theorem C197_parametric_refuted (inverse : Mat F → Mat F) (det : Mat F → F) (oldK : KMeans F) (oldL : Lda F) (oldQ : Qda F) :
    (oldK.train T euclidean = oldK.train T' euclidean ∧
      (oldK.train T euclidean >>= fun m => m.predict x) = (oldK.train T' euclidean >>= fun m => m.predict x')) ∧
    (NaiveBayes.new.train T = NaiveBayes.new.train T' ∧
      (NaiveBayes.new.train T >>= fun m => m.predict x) = (NaiveBayes.new.train T' >>= fun m => m.predict x')) ∧
    (oldL.train inverse T = oldL.train inverse T' ∧
      (oldL.train inverse T >>= fun m => m.predict x) = (oldL.train inverse T' >>= fun m => m.predict x')) ∧
    (oldQ.train inverse det T = oldQ.train inverse det T' ∧
      (oldQ.train inverse det T >>= fun m => m.predict x) = (oldQ.train inverse det T' >>= fun m => m.predict x')) := by
  have hts' := alike_types_list hT hts
  have hxs' : typesOf x' = ts := (alike_types hx).symm.trans hxs
  have e1 : oldK.train T euclidean = oldK.train T' euclidean := by
    rw [← blind_kMeansTrain hts, blank_list hT, blind_kMeansTrain hts']
  have e2 : NaiveBayes.new.train T = (NaiveBayes.new.train T' : Res (NaiveBayes F)) := by
    rw [← blind_naiveBayesTrain hts, blank_list hT, blind_naiveBayesTrain hts']
  have e3 : oldL.train inverse T = oldL.train inverse T' := by
    rw [← blind_ldaTrain hts, blank_list hT, blind_ldaTrain hts']
  have e4 : oldQ.train inverse det T = oldQ.train inverse det T' := by
    rw [← blind_qdaTrain hts, blank_list hT, blind_qdaTrain hts']
  refine ⟨⟨e1, ?_⟩, ⟨e2, ?_⟩, ⟨e3, ?_⟩, ⟨e4, ?_⟩⟩
  · rw [← e1]
    refine bind_congr_res (fun m hm => ?_)
    have hd : m.dist = euclidean := by
      unfold KMeans.train at hm
      simp only [bind_ok_iff] at hm
      obtain ⟨_, _, _, _, hm⟩ := hm
      cases hm
      rfl
    rw [← blank_kMeans euclid_blank_left hd, hx.blank, blank_kMeans euclid_blank_left hd]
  · rw [← e2]
    refine bind_congr_res (fun m hm => ?_)
    have hb := naiveBayes_binaryEmpty hts hm
    rw [← blank_naiveBayes hb hxs, hx.blank, blank_naiveBayes hb hxs']
  · rw [← e3]
    exact bind_congr_res (fun m _ => by rw [← blank_lda, hx.blank, blank_lda])
  · rw [← e4]
    exact bind_congr_res (fun m _ => by rw [← blank_qda, hx.blank, blank_qda])

end

/-! ## examples -/

section
open XR

/-- four instances with a name for the colour -/
def exColour : Heap XR :=
  [⟨"a", [.discrete "red"], none⟩, ⟨"a", [.discrete "red"], none⟩, ⟨"b", [.discrete "blue"], none⟩,
   ⟨"b", [.discrete "blue"], none⟩]

/-- the same instances as a data set -/
def exColourSet : RefSet := ⟨[0, 1, 2, 3], ⟨[.discrete], []⟩⟩

/-- a data set with a binary attribute that tells the two classes apart, and a continuous one -/
def exFlag (u v : String) : IList XR :=
  [⟨"a", [.binary u, .continuous (.fin 1)], none⟩, ⟨"a", [.binary u, .continuous (.fin 1)], none⟩,
   ⟨"b", [.binary v, .continuous (.fin 4)], none⟩, ⟨"b", [.binary v, .continuous (.fin 4)], none⟩]

/-- **C197** (refuted) what `LaryToBinary` does to a data set in which one discrete attribute determines the class: before, the
decision tree answers the class of every instance; after, the tree is a leaf and answers the same class for all. -/
theorem C197_lary_to_binary_refuted :
    (treeTrain exColour none >>= fun t => exColour.mapM (treePredict t)) = .ok ["a", "a", "b", "b"] ∧
    ∃ h : Heap XR, laryToBinary (fun _ => "") exColour exColourSet = .ok (h, exColourSet) ∧
      h.map Inst.attrs = [[.binary "false", .binary "true"], [.binary "false", .binary "true"],
        [.binary "true", .binary "false"], [.binary "true", .binary "false"]] ∧
      (treeTrain h none >>= fun t => h.mapM (treePredict t)) = .ok ["a", "a", "a", "a"] := by
  refine ⟨by decide +kernel, _, rfl, by decide +kernel, by decide +kernel⟩

/-- the hypotheses of the theorems of C197 hold with different training sets and different queries -/
example : List.Forall₂ AlikeButBinary (exFlag "true" "false") (exFlag "false" "false") ∧
    AlikeButBinary (⟨"?", [.binary "true", .continuous (.fin 3)], none⟩ : Inst XR) ⟨"?", [.binary "false", .continuous (.fin 3)], none⟩ ∧
    (∀ y ∈ exFlag "true" "false", typesOf y = [.binary, .continuous]) := by
  refine ⟨?_, ⟨rfl, rfl, .cons (.binary _ _) (.cons (.same _) .nil)⟩, by decide⟩
  refine .cons ⟨rfl, rfl, .cons (.binary _ _) (.cons (.same _) .nil)⟩ (.cons ⟨rfl, rfl, .cons (.binary _ _) (.cons (.same _) .nil)⟩
    (.cons ⟨rfl, rfl, .cons (.same _) (.cons (.same _) .nil)⟩ (.cons ⟨rfl, rfl, .cons (.same _) (.cons (.same _) .nil)⟩ .nil)))

/-- and the classifiers do answer: here a tree, neighbours and a nearest mean -/
example : (treeTrain (exFlag "true" "false") none >>= fun t => treePredict t ⟨"?", [.binary "true", .continuous (.fin 3)], none⟩) = .ok "b" ∧
    ((⟨[], 0, euclidean⟩ : Knn XR).train (exFlag "true" "false") 1 euclidean).predict ⟨"?", [.binary "true", .continuous (.fin 3)], none⟩
      = .ok "b" ∧
    ((treeTrain (exFlag "true" "false") none >>= fun t => treePredict t ⟨"?", [.binary "true", .continuous (.fin 1)], none⟩) =
     (treeTrain (exFlag "false" "false") none >>= fun t => treePredict t ⟨"?", [.binary "false", .continuous (.fin 1)], none⟩)) := by
  refine ⟨by decide +kernel, by decide +kernel, by decide +kernel⟩

end

end Verif
