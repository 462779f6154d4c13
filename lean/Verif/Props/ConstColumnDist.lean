import Verif.Props.ConstColumn

/-! # Property C189 for nearest neighbours, nearest means and naive Bayes -/

set_option linter.unusedSectionVars false

namespace Verif
open Dbl

/-! ## distances -/

section
variable {p n : Nat}

theorem zipWith_insert_sum {α β : Type} (f : α → β → ℝ) {l : List α} {m : List β} (h : l.length = m.length) (a : α) (b : β) :
    (List.zipWith f (l.take p ++ a :: l.drop p) (m.take p ++ b :: m.drop p)).sum = (List.zipWith f l m).sum + f a b := by
  conv_rhs => rw [← List.take_append_drop p l, ← List.take_append_drop p m]
  rw [List.zipWith_append (by simp [h]), List.zipWith_append (by simp [h]), List.sum_append, List.sum_append,
    List.zipWith_cons_cons, List.sum_cons]
  ring

theorem euclidean_insert (x y : Inst ℝ) (hx : x.attrs.length = n) (hy : y.attrs.length = n) (a b : Attr ℝ) :
    ∃ d, euclidean x y = .ok d ∧ euclidean (insertColumn p a x) (insertColumn p b y) = .ok (d + sqDiff a b) := by
  refine ⟨_, C51_sum x y (by omega), ?_⟩
  rw [C51_sum _ _ (by rw [insertColumn_length, insertColumn_length]; omega)]
  exact congrArg Except.ok (zipWith_insert_sum sqDiff (by omega) a b)

/-- **C189** (part) Nearest neighbours with the Euclidean distance: the extra column adds the same amount to all distances,
so it changes neither the neighbours nor the prediction nor the class probabilities, whatever value `b` the instance has. -/
theorem C189_knn_partial (data : IList ℝ) (k : Int) (hl : ∀ y ∈ data, y.attrs.length = n) (a b : Attr ℝ)
    (x : Inst ℝ) (hx : x.attrs.length = n) :
    ∃ ns, Knn.nearestNeighbors ⟨data, k, euclidean⟩ x = .ok ns ∧
      Knn.nearestNeighbors ⟨data.map (insertColumn p a), k, euclidean⟩ (insertColumn p b x) =
        .ok (ns.map (insertColumn p a)) ∧
      Knn.predict ⟨data.map (insertColumn p a), k, euclidean⟩ (insertColumn p b x) = Knn.predict ⟨data, k, euclidean⟩ x ∧
      Knn.predictProbability ⟨data.map (insertColumn p a), k, euclidean⟩ (insertColumn p b x) =
        Knn.predictProbability ⟨data, k, euclidean⟩ x := by
  have hcsub : ∀ y ∈ candidates data x, y ∈ data := by
    intro y hy; rw [candidates_eq] at hy; exact (List.mem_filter.1 hy).1
  let d : Inst ℝ → ℝ := fun y => match euclidean y x with | .ok d => d | .error _ => 0
  let d' : Inst ℝ → ℝ := fun y => match euclidean y (insertColumn p b x) with | .ok d => d | .error _ => 0
  have hdd : ∀ y ∈ data, euclidean y x = .ok (d y) ∧
      euclidean (insertColumn p a y) (insertColumn p b x) = .ok (d' (insertColumn p a y)) ∧
      d' (insertColumn p a y) = d y + sqDiff a b := by
    intro y hy
    obtain ⟨e, h1, h2⟩ := euclidean_insert (p := p) y x (hl y hy) hx a b
    simp only [d, d', h1, h2, and_self]
  have hcand : candidates (data.map (insertColumn p a)) (insertColumn p b x) = (candidates data x).map (insertColumn p a) := by
    rw [candidates_eq, candidates_eq, List.filter_map]; rfl
  have h1 := nearest_eq (⟨data, k, euclidean⟩ : Knn ℝ) x d (fun y hy => (hdd y (hcsub y hy)).1)
  have h2 := nearest_eq (⟨data.map (insertColumn p a), k, euclidean⟩ : Knn ℝ) (insertColumn p b x) d' (by
    intro y hy
    simp only [hcand] at hy
    obtain ⟨z, hz, rfl⟩ := List.mem_map.1 hy
    exact (hdd z (hcsub z hz)).2.1)
  simp only [hcand] at h2
  rw [stableSort_map (insertColumn p a) (fun a b => d a <. d b) (fun a b => d' a <. d' b) (candidates data x) (by
    intro y hy z hz
    rw [(hdd y (hcsub y hy)).2.2, (hdd z (hcsub z hz)).2.2, lt_real, lt_real]
    exact decide_eq_decide.2 (add_lt_add_iff_right _)), ← List.map_take] at h2
  refine ⟨_, h1, h2, ?_, ?_⟩
  · unfold Knn.predict
    rw [h1, h2]
    simp only [res_bind_ok, List.length_map]
    have : IList.getClassLabels (List.map (insertColumn p a)
        (List.take k.toNat (stableSort (fun a b => d a <. d b) (candidates data x)))) =
      IList.getClassLabels (List.take k.toNat (stableSort (fun a b => d a <. d b) (candidates data x))) := by
      rw [getClassLabels_eq, getClassLabels_eq, labels_insert]
    rw [this]; rfl
  · unfold Knn.predictProbability
    rw [h1, h2]
    simp only [res_bind_ok, dist_insert]

/-! ## nearest mean -/

/-- scores that differ by one amount for all the trained classes, and that a double can hold, give equal predictions -/
theorem gaussPredict_shift (l : IList ℝ) {f g : Inst ℝ → String → Res ℝ} {x y : Inst ℝ} (hxy : y.possible = x.possible)
    (hlb : y.label = x.label) (s : String → ℝ) (k : ℝ) (hk : 0 ≤ k)
    (h : ∀ c ∈ l.map Inst.label, f x c = .ok (s c) ∧ g y c = .ok (s c - k) ∧ -(2 ^ 1024 : ℝ) < s c - k) :
    gaussPredict l.classDistribution g y = gaussPredict l.classDistribution f x := by
  have hm : (Dbl.neg (Dbl.maxVal : ℝ)) = -(2 ^ 1024 : ℝ) := by rw [← maxVal_real]; simp
  -- the best so far: the same class, with scores that differ by `k`, or none yet
  have step : ∀ (cs : List String) (b b' : String × ℝ), b'.1 = b.1 →
      (b'.2 = b.2 - k ∨ (b.2 = -(2 ^ 1024 : ℝ) ∧ b'.2 = -(2 ^ 1024 : ℝ))) →
      (cs.foldlM (gaussStep l.classDistribution (g y)) b').map Prod.fst =
        (cs.foldlM (gaussStep l.classDistribution (f x)) b).map Prod.fst := by
    intro cs
    induction cs with
    | nil => intro b b' h1 _; exact congrArg Except.ok h1
    | cons c cs ih =>
      intro b b' h1 h2
      simp only [List.foldlM_cons]
      by_cases hcc : l.classDistribution.containsItem c = true
      · obtain ⟨e1, e2, e3⟩ := h c ((containsItem_iff l c).1 hcc)
        simp only [gaussStep, if_pos hcc, e1, e2, res_bind_ok, res_pure]
        rcases h2 with h2 | ⟨h2, h3⟩
        · rw [h2]
          by_cases hlt : b.2 < s c
          · have q1 : (b.2 <. s c) = true := by simpa using hlt
            have q2 : (b.2 - k <. s c - k) = true := by rw [lt_real]; exact decide_eq_true (by linarith)
            rw [q1, q2, if_pos rfl, if_pos rfl]
            exact ih _ _ rfl (.inl rfl)
          · have q1 : (b.2 <. s c) = false := by simpa using hlt
            have q2 : (b.2 - k <. s c - k) = false := by rw [lt_real]; exact decide_eq_false (by linarith)
            rw [q1, q2]
            exact ih _ _ h1 (.inl h2)
        · have q1 : (-(2 ^ 1024 : ℝ) <. s c - k) = true := by rw [lt_real]; exact decide_eq_true e3
          have q2 : (-(2 ^ 1024 : ℝ) <. s c) = true := by
            rw [lt_real]
            refine decide_eq_true ?_
            generalize (2 : ℝ) ^ 1024 = M at e3 ⊢
            linarith
          rw [h2, h3, q1, q2, if_pos rfl, if_pos rfl]
          exact ih _ _ rfl (.inl rfl)
      · simp only [gaussStep, if_neg hcc, res_bind_ok, res_pure]
        exact ih _ _ h1 h2
  have fin : ∀ (r : Res (String × ℝ)), (r >>= fun best => (pure best.1 : Res String)) = r.map Prod.fst := by
    intro r; cases r <;> rfl
  unfold gaussPredict
  have hi : gaussInit l.classDistribution y = gaussInit l.classDistribution x := by
    unfold gaussInit Inst.isComposite Inst.possibleLabels; rw [hxy, hlb]
  have hl : (if y.isComposite then y.possibleLabels else l.classDistribution.getItems) =
      if x.isComposite then x.possibleLabels else l.classDistribution.getItems := by
    unfold Inst.isComposite Inst.possibleLabels; rw [hxy, hlb]
  rw [hi, hl]
  refine congrArg (fun f => gaussInit l.classDistribution x >>= f) (funext fun init => ?_)
  rw [fin, fin]
  exact step _ _ _ rfl (.inr ⟨hm, hm⟩)

theorem numeric_insert {x : Inst ℝ} (h : Numeric n x) (a : ℝ) : Numeric (n + 1) (insertColumn p (.continuous a) x) := by
  obtain ⟨u, h1, h2⟩ := h
  refine ⟨u.take p ++ a :: u.drop p, by simp [insertColumn, h1], ?_⟩
  have := congrArg List.length (List.take_append_drop p u)
  simp only [List.length_append, List.length_cons] at this ⊢
  omega

theorem contValues_insert (x : Inst ℝ) (a : ℝ) :
    contValues (insertColumn p (.continuous a) x) = (contValues x).take p ++ a :: (contValues x).drop p := by
  simp [contValues, insertColumn, contOf]

theorem mean_const {l : List ℝ} (hne : l ≠ []) {a : ℝ} (h : ∀ v ∈ l, v = a) : mean l = a := by
  have hl : l = List.replicate l.length a := List.eq_replicate_of_mem h
  have h0 : (l.length : ℝ) ≠ 0 := by simpa using hne
  unfold mean
  have hs : l.sum = l.length * a := by
    conv_lhs => rw [hl]
    rw [List.sum_replicate, nsmul_eq_mul]
  rw [hs]; field_simp

theorem classMean_insert (hp : p ≤ n) {l : IList ℝ} (hl : ∀ x ∈ l, Numeric n x) (a : ℝ) {c : String} (hc : c ∈ l.map Inst.label) :
    classMean (l.map (insertColumn p (.continuous a))) contValues (n + 1) c =
      (classMean l contValues n c).take p ++ a :: (classMean l contValues n c).drop p := by
  have hlen : (classMean l contValues n c).length = n := by simp [classMean]
  have hfil : (l.map (insertColumn p (.continuous a))).filter (fun x => x.label == c) =
      (l.filter (fun x => x.label == c)).map (insertColumn p (.continuous a)) := by
    rw [List.filter_map]; rfl
  have hne : l.filter (fun x => x.label == c) ≠ [] := by
    obtain ⟨y, hy, rfl⟩ := List.mem_map.1 hc
    exact List.ne_nil_of_mem (List.mem_filter.2 ⟨hy, by simp⟩)
  apply List.ext_getElem?
  intro j
  by_cases hj : j = p
  · subst hj
    rw [insert_get_at (by omega)]
    simp only [classMean, List.getElem?_map, List.getElem?_range (show j < n + 1 by omega), Option.map_some, hfil, List.map_map]
    refine congrArg some (mean_const (by simpa using hne) (fun v hv => ?_))
    obtain ⟨x, hx, rfl⟩ := List.mem_map.1 hv
    have := numeric_values (hl x (List.mem_filter.1 hx).1)
    rw [Function.comp_apply, contValues_insert, List.getD_eq_getElem?_getD, insert_get_at (by omega)]
    rfl
  · obtain ⟨i, rfl⟩ := exists_up hj
    rw [insert_get_up (by omega)]
    by_cases hi : i < n
    · simp only [classMean, List.getElem?_map, List.getElem?_range ((up_lt hp).2 hi), List.getElem?_range hi, Option.map_some,
        hfil, List.map_map]
      refine congrArg (fun l => some (mean l)) (List.map_congr_left (fun x hx => ?_))
      have := numeric_values (hl x (List.mem_filter.1 hx).1)
      rw [Function.comp_apply, contValues_insert, List.getD_eq_getElem?_getD, insert_get_up (by omega),
        List.getD_eq_getElem?_getD]
    · rw [List.getElem?_eq_none_iff.2 (by simp only [classMean, List.length_map, List.length_range]; unfold up; split <;> omega),
        List.getElem?_eq_none_iff.2 (by omega)]

/-- **C189** (part) Nearest means of numeric data: the extra column changes no prediction, whatever value `b` the instance
has there, as long as the squared distances to the means fit in a double. -/
theorem C189_nearest_mean_partial (hp : p ≤ n) {l : IList ℝ} (hl : ∀ x ∈ l, Numeric n x) (a : ℝ) (old old' : KMeans ℝ) :
    ∃ m m', KMeans.train old l euclidean = .ok m ∧
      KMeans.train old' (l.map (insertColumn p (.continuous a))) euclidean = .ok m' ∧
      ∀ (x : Inst ℝ) (b : ℝ), Numeric n x →
        (∀ c ∈ l.map Inst.label, sqDist (contValues x) (classMean l contValues n c) + (b - a) ^ 2 < 2 ^ 1024) →
        m'.predict (insertColumn p (.continuous b) x) = m.predict x := by
  have hl' : ∀ x ∈ l.map (insertColumn p (.continuous a)), Numeric (n + 1) x := by
    intro x hx
    obtain ⟨y, hy, rfl⟩ := List.mem_map.1 hx
    exact numeric_insert (hl y hy) a
  have e := kmeans_continuous old l euclidean n contValues (fun x hx => numeric_values (hl x hx))
  have e' := kmeans_continuous old' (l.map (insertColumn p (.continuous a))) euclidean (n + 1) contValues
    (fun x hx => numeric_values (hl' x hx))
  refine ⟨_, _, e, e', fun x b hx hb => ?_⟩
  unfold KMeans.predict
  simp only [dist_insert]
  refine gaussPredict_shift l (x := x) (y := insertColumn p (.continuous b) x) rfl rfl
    (fun c => - sqDist (contValues x) (classMean l contValues n c)) ((b - a) ^ 2) (sq_nonneg _) (fun c hc => ?_)
  have hd : euclidean x ⟨c, (classMean l contValues n c).map Attr.continuous, none⟩ =
      .ok (sqDist (contValues x) (classMean l contValues n c)) := by
    rw [C51_sum _ _ (by simp [classMean, numeric_length hx])]
    conv_lhs => rw [(numeric_values hx).1]
    rw [List.zipWith_map]; rfl
  obtain ⟨d, h1, h2⟩ := euclidean_insert (p := p) x ⟨c, (classMean l contValues n c).map Attr.continuous, none⟩
    (numeric_length hx) (by simp [classMean]) (.continuous b) (.continuous a)
  rw [hd] at h1
  cases h1
  refine ⟨?_, ?_, ?_⟩
  · unfold KMeans.metric
    simp only
    rw [kmeans_find _ _ c (((C07_distinct_class_labels l).mem_iff c).2 hc)]
    simp only [nonNull_some, res_bind_ok, hd, res_pure, neg_real]
  · unfold KMeans.metric
    simp only
    rw [kmeans_find _ _ c (((C07_distinct_class_labels (l.map (insertColumn p (.continuous a)))).mem_iff c).2
      (by rw [labels_insert]; exact hc))]
    simp only [nonNull_some, res_bind_ok, classMean_insert hp hl a hc]
    have hins : (⟨c, ((classMean l contValues n c).take p ++ a :: (classMean l contValues n c).drop p).map Attr.continuous, none⟩ :
        Inst ℝ) = insertColumn p (.continuous a) ⟨c, (classMean l contValues n c).map Attr.continuous, none⟩ := by
      simp [insertColumn]
    rw [hins, h2]
    simp only [res_bind_ok, res_pure, neg_real, sqDiff]
    congr 1; ring
  · have := hb c hc
    generalize (2 : ℝ) ^ 1024 = M at this ⊢
    linarith

end

/-! ## naive Bayes -/

/-- four instances, three of class A with the value w, one of class B with the value x -/
def fourInstances : IList ℝ :=
  ⟨"B", [.discrete "x"], none⟩ :: List.replicate 3 ⟨"A", [.discrete "w"], none⟩

theorem nb_two_columns {l : IList ℝ} (hne : l ≠ []) (hv : ∀ x ∈ l, x.attrs = (discVals x).map Attr.discrete ∧ (discVals x).length = 2)
    (hA : "A" ∈ l.map Inst.label) (hB : "B" ∈ l.map Inst.label) (hi : l.classDistribution.getItems = ["A", "B"]) {a b : ℝ}
    (ha : (classSize l "A" / l.length : ℝ) * (smoothed l discVals "A" 0 "x" * smoothed l discVals "A" 1 "k") = a)
    (hb : (classSize l "B" / l.length : ℝ) * (smoothed l discVals "B" 0 "x" * smoothed l discVals "B" 1 "k") = b)
    (hal : 1 / 100 ≤ a) (hbl : 1 / 100 ≤ b) :
    ∃ m, NaiveBayes.train NaiveBayes.new l = .ok m ∧
      m.predict ⟨"", [.discrete "x", .discrete "k"], none⟩ = .ok (if a < b then "B" else "A") := by
  obtain ⟨m, e, hp, hs⟩ := C54_score l hne discVals 2 (by omega) hv
  refine ⟨m, e, ?_⟩
  have key : ∀ c ∈ l.map Inst.label, ∀ r,
      (classSize l c / l.length : ℝ) * (smoothed l discVals c 0 "x" * smoothed l discVals c 1 "k") = r → 1 / 100 ≤ r →
      m.metric ⟨"", [.discrete "x", .discrete "k"], none⟩ c = .ok (Real.log r) := by
    intro c hc r hr hl
    obtain ⟨h1, h2⟩ := hs ⟨"", [.discrete "x", .discrete "k"], none⟩ ["x", "k"] rfl rfl c hc
    rw [h1]
    have h3 := (h2 0).1
    have h4 := (h2 1).1
    simp only [List.getD_cons_zero, List.getD_cons_succ] at h3 h4
    simp only [show List.range 2 = [0, 1] from rfl, List.map_cons, List.map_nil, List.sum_cons, List.sum_nil, add_zero,
      List.getD_cons_zero, List.getD_cons_succ]
    rw [← Real.log_mul h3.ne' h4.ne', ← Real.log_mul ?_ (mul_pos h3 h4).ne', hr]
    intro h0
    rw [h0, zero_mul] at hr
    rw [← hr] at hl; norm_num at hl
  unfold NaiveBayes.predict
  rw [hp]
  rw [gaussPredict_two hi rfl (key "A" hA a ha hal) (key "B" hB b hb hbl) (log_bound hal)]
  have : Real.log a < Real.log b ↔ a < b := Real.log_lt_log_iff (by linarith) (by linarith)
  simp only [this]

/-- **C189 is false of naive Bayes on nominal data**: the counts of a class are smoothed by adding one, so a value that all
instances have is given a higher probability in the larger class. Four instances, three of class A: an instance with the
value seen only in class B is classified B, but A when all of them and the instance asked about have one more column with
the value k. -/
theorem C189_naive_bayes_nominal_refuted : ∃ (l : IList ℝ) (x : Inst ℝ) (a : Attr ℝ) (m m' : NaiveBayes ℝ),
    NaiveBayes.train NaiveBayes.new l = .ok m ∧ NaiveBayes.train NaiveBayes.new (l.map (insertColumn 1 a)) = .ok m' ∧
    m.predict x = .ok "B" ∧ m'.predict (insertColumn 1 a x) = .ok "A" := by
  obtain ⟨m, e, hp⟩ := nb_six (l := fourInstances) (a := 3 / 20) (b := 1 / 6) (by simp [fourInstances])
    (by intro x hx; simp [fourInstances] at hx; rcases hx with rfl | rfl <;> simp [discVals])
    (by simp [fourInstances]) (by simp [fourInstances]) (by decide +kernel)
    (by simp [classSize, smoothed, classColumn, fourInstances, discVals, List.replicate]; norm_num)
    (by simp [classSize, smoothed, classColumn, fourInstances, discVals, List.replicate]; norm_num) (by norm_num) (by norm_num)
  obtain ⟨m', e', hp'⟩ := nb_two_columns (l := fourInstances.map (insertColumn 1 (.discrete "k"))) (a := 3 / 25) (b := 1 / 9)
    (by simp [fourInstances])
    (by
      intro x hx
      obtain ⟨y, hy, rfl⟩ := List.mem_map.1 hx
      simp [fourInstances] at hy; rcases hy with rfl | rfl <;> simp [discVals, insertColumn])
    (by simp [fourInstances, insertColumn]) (by simp [fourInstances, insertColumn]) (by decide +kernel)
    (by simp [classSize, smoothed, classColumn, fourInstances, insertColumn, discVals, List.replicate]; norm_num)
    (by simp [classSize, smoothed, classColumn, fourInstances, insertColumn, discVals, List.replicate]; norm_num)
    (by norm_num) (by norm_num)
  refine ⟨fourInstances, ⟨"", [.discrete "x"], none⟩, .discrete "k", m, m', e, e', ?_, ?_⟩
  · rw [hp, if_pos (by norm_num)]
  · refine Eq.trans ?_ (hp'.trans ?_)
    · rfl
    · rw [if_neg (by norm_num)]

/-- two classes around 0 and 10 -/
def sixNumbers : IList XR :=
  [⟨"a", [.continuous (.fin (-1))], none⟩, ⟨"a", [.continuous (.fin 0)], none⟩, ⟨"a", [.continuous (.fin 1)], none⟩,
   ⟨"b", [.continuous (.fin 9)], none⟩, ⟨"b", [.continuous (.fin 10)], none⟩, ⟨"b", [.continuous (.fin 11)], none⟩]

/-- the prediction of naive Bayes trained on `l` -/
def nbAnswer (l : IList XR) (x : Inst XR) : Res String :=
  NaiveBayes.train NaiveBayes.new l >>= fun m => m.predict x

/-- **C189 is false of naive Bayes on numbers**: the deviation of the constant column is 0, so all scores are NaN and the
most frequent class is predicted for every instance that has the value of the column. -/
theorem C189_naive_bayes_refuted : ∃ (l : IList XR) (x : Inst XR) (a : Attr XR),
    nbAnswer l x = .ok "b" ∧ nbAnswer (l.map (insertColumn 1 a)) (insertColumn 1 a x) = .ok "a" :=
  ⟨sixNumbers, ⟨"?", [.continuous (.fin 10)], none⟩, .continuous (.fin 5), by decide +kernel, by decide +kernel⟩

/-! ## the hypotheses are met -/

/-- a fourth, constant column of a tree's training data -/
example : ∃ t t', treeTrain treeWitness none = .ok t ∧
    treeTrain (treeWitness.map (insertColumn 1 (.discrete "k"))) none = .ok t' ∧
    ∀ (x : Inst ℝ) (b : Attr ℝ), typesOf x = treeWitnessTypes → typeOf b = .discrete →
      treePredict t' (insertColumn 1 b x) = treePredict t x ∧
      t'.predictProbability (insertColumn 1 b x) = t.predictProbability x :=
  C189_tree_partial (by decide) (by simp [treeWitness]) treeWitness_types treeWitness_bounded (.discrete "k")
    (by intro _ _ _ h; cases h)

/-- the same with half of each class held out for pruning -/
example : ∃ t t', treeTrain treeWitness (some (1 / 2, [2, 0, 3, 1])) = .ok t ∧
    treeTrain (treeWitness.map (insertColumn 1 (.discrete "k"))) (some (1 / 2, [2, 0, 3, 1])) = .ok t' ∧
    ∀ (x : Inst ℝ) (b : Attr ℝ), typesOf x = treeWitnessTypes → typeOf b = .discrete →
      treePredict t' (insertColumn 1 b x) = treePredict t x ∧
      t'.predictProbability (insertColumn 1 b x) = t.predictProbability x := by
  have hc : (treeWitness.map Inst.label).count "a" = 2 := by
    simp only [treeWitness, List.map_cons, List.map_nil]; decide
  exact C189_pruned_tree_partial (by decide) treeWitness_types treeWitness_bounded
    (by intro x hx; simp only [treeWitness, List.mem_cons, List.not_mem_nil, or_false] at hx
        rcases hx with rfl | rfl | rfl | rfl <;> simp [Inst.isComposite])
    (.discrete "k") (by intro _ _ _ h; cases h) (by norm_num) (by norm_num)
    (by unfold IsPermutation treeWitness; decide) (c := "a") (by rw [hc]; norm_num)

example : ∃ t t', stumpTrain treeWitness = .ok t ∧
    stumpTrain (treeWitness.map (insertColumn 1 (.discrete "k"))) = .ok t' ∧
    ∀ (x : Inst ℝ) (b : Attr ℝ), typesOf x = treeWitnessTypes → typeOf b = .discrete →
      treePredict t' (insertColumn 1 b x) = treePredict t x ∧
      t'.predictProbability (insertColumn 1 b x) = t.predictProbability x :=
  C189_stump_partial (by decide) (by simp [treeWitness]) treeWitness_types treeWitness_bounded (.discrete "k")
    (by intro _ _ _ h; cases h)

example : ∃ f f', ensembleTrain none (fun i => if i = 0 then [1, 0] else [1, 1, 3]) [] treeWitness 2 = .ok f ∧
    ensembleTrain none (fun i => if i = 0 then [1, 0] else [1, 1, 3]) [] (treeWitness.map (insertColumn 1 (.discrete "k"))) 2 = .ok f' ∧
    ∀ (x : Inst ℝ) (b : Attr ℝ), typesOf x = treeWitnessTypes → typeOf b = .discrete →
      ensemblePredict f' (insertColumn 1 b x) = ensemblePredict f x ∧
      ensembleProbability f' (insertColumn 1 b x) = ensembleProbability f x :=
  C189_bagging_partial (by decide) treeWitness_types treeWitness_bounded (.discrete "k")
    (by intro _ _ _ h; cases h) (by intro i; split <;> simp [treeWitness]) 2

/-- the constant column in the middle of points of the plane -/
example (b : Attr ℝ) : Knn.predict ⟨planePoints.map (insertColumn 1 (.continuous 7)), 3, euclidean⟩
      (insertColumn 1 b ⟨"?", [.continuous 1, .continuous 5], none⟩) =
    Knn.predict ⟨planePoints, 3, euclidean⟩ ⟨"?", [.continuous 1, .continuous 5], none⟩ := by
  obtain ⟨_, _, _, h, _⟩ := C189_knn_partial (p := 1) planePoints 3
    (fun y hy => numeric_length (planePoints_gauss.numeric y hy)) (.continuous 7) b ⟨"?", [.continuous 1, .continuous 5], none⟩ rfl
  exact h

example : ∃ m m', KMeans.train (⟨DD.empty, [], euclidean⟩ : KMeans ℝ) lineTwo euclidean = .ok m ∧
    KMeans.train (⟨DD.empty, [], euclidean⟩ : KMeans ℝ) (lineTwo.map (insertColumn 0 (.continuous 7))) euclidean = .ok m' ∧
    m'.predict (insertColumn 0 (.continuous 8) ⟨"?", [.continuous 3], none⟩) = m.predict ⟨"?", [.continuous 3], none⟩ := by
  obtain ⟨m, m', e, e', h⟩ := C189_nearest_mean_partial (p := 0) (n := 1) (by omega) (l := lineTwo) (by
    intro x hx
    simp [lineTwo] at hx
    rcases hx with rfl | rfl | rfl
    exacts [⟨[0], rfl, rfl⟩, ⟨[4], rfl, rfl⟩, ⟨[1], rfl, rfl⟩]) 7 ⟨DD.empty, [], euclidean⟩ ⟨DD.empty, [], euclidean⟩
  refine ⟨m, m', e, e', h _ 8 ⟨[3], rfl, rfl⟩ (fun c hc => ?_)⟩
  have hM : (2 : ℝ) ^ 8 ≤ 2 ^ 1024 := pow_le_pow_right₀ (by norm_num) (by norm_num)
  refine lt_of_lt_of_le ?_ hM
  simp [lineTwo] at hc
  rcases hc with rfl | rfl | rfl <;> simp [lineTwo, classMean, sqDist, contValues, contOf, mean] <;> norm_num

end Verif
