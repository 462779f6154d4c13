import Verif.Props.UnitsGauss
import Verif.Props.Inner
import Verif.Props.Regions

/-! # Property C228: only the order of the distances counts -/

set_option linter.unusedSectionVars false

namespace Verif
open Dbl

section
variable {F : Type} [Dbl F]

theorem classDistribution_of_labels {a b : IList F} (h : a.map Inst.label = b.map Inst.label) :
    IList.classDistribution a = IList.classDistribution b := by
  rw [classDistribution_eq, classDistribution_eq, h]

/-- **C228.** Of the distances from the query, nearest neighbours see only which of two training instances is nearer: replace the training instances
(each by one of the same class), the query (by one with the same possible classes) and the distance function; if the first of two instances was
nearer to the query than the second exactly when this is so afterwards, the neighbours are the instances that replace the neighbours, and class and
probabilities are the same. Any arithmetic. -/
theorem C228_knn (l : IList F) (g : Inst F → Inst F) (hg : ∀ y ∈ l, (g y).label = y.label) (x x' : Inst F) (hx : x'.possible = x.possible) (k : Int)
    (dist dist' : Inst F → Inst F → Res F) (d d' : Inst F → F) (hd : ∀ y ∈ l, dist y x = .ok (d y))
    (hd' : ∀ y ∈ l, dist' (g y) x' = .ok (d' (g y))) (hord : ∀ y ∈ l, ∀ z ∈ l, (d' (g y) <. d' (g z)) = (d y <. d z)) (old old' : Knn F) :
    ∃ ns, (old.train l k dist).nearestNeighbors x = .ok ns ∧ (old'.train (l.map g) k dist').nearestNeighbors x' = .ok (ns.map g) ∧
      (old'.train (l.map g) k dist').predict x' = (old.train l k dist).predict x ∧
      ((old'.train (l.map g) k dist').predictProbability x' : Res (OMap F)) = (old.train l k dist).predictProbability x := by
  have hcsub : ∀ y ∈ candidates l x, y ∈ l := by
    intro y hy; rw [candidates_eq] at hy; exact (List.mem_filter.1 hy).1
  have ec : x'.isComposite = x.isComposite := by unfold Inst.isComposite; rw [hx]
  have ep : x.isComposite = true → x'.possibleLabels = x.possibleLabels := by
    intro h
    unfold Inst.isComposite at h
    unfold Inst.possibleLabels
    rw [hx]
    cases hp : x.possible with
    | none => rw [hp] at h; cases h
    | some ls => rfl
  have hcand : candidates (l.map g) x' = (candidates l x).map g := by
    rw [candidates_eq, candidates_eq, List.filter_map]
    congr 1
    refine List.filter_congr (fun y hy => ?_)
    simp only [Function.comp_apply, Knn.eligible, ec, hg y hy]
    cases hc : x.isComposite with
    | false => simp
    | true => rw [ep hc]
  have h1 := nearest_eq (old.train l k dist) x d (fun y hy => hd y (hcsub y hy))
  have h2 := nearest_eq (old'.train (l.map g) k dist') x' d' (by
    intro y hy
    change y ∈ candidates (l.map g) x' at hy
    rw [hcand] at hy
    obtain ⟨z, hz, rfl⟩ := List.mem_map.1 hy
    exact hd' z (hcsub z hz))
  change _ = Except.ok ((stableSort _ (candidates l x)).take k.toNat) at h1
  change _ = Except.ok ((stableSort _ (candidates (l.map g) x')).take k.toNat) at h2
  rw [hcand, stableSort_map g (fun a b => d a <. d b) (fun a b => d' a <. d' b) (candidates l x)
    (fun y hy z hz => hord y (hcsub y hy) z (hcsub z hz)), ← List.map_take] at h2
  generalize hns : (stableSort (fun a b => d a <. d b) (candidates l x)).take k.toNat = ns at h1 h2
  have hsub : ∀ y ∈ ns, y ∈ l := by
    intro y hy
    rw [← hns] at hy
    exact hcsub y ((stableSort_perm _ _).mem_iff.1 (List.mem_of_mem_take hy))
  have hlab : (ns.map g).map Inst.label = ns.map Inst.label := by
    rw [List.map_map]
    exact List.map_congr_left (fun y hy => hg y (hsub y hy))
  refine ⟨ns, h1, h2, ?_, ?_⟩
  · unfold Knn.predict
    rw [h1, h2]
    simp only [res_bind_ok, List.length_map, getClassLabels_eq, hlab, ec]
    cases hc : x.isComposite with
    | false => simp
    | true => rw [ep hc]
  · unfold Knn.predictProbability
    rw [h1, h2]
    simp only [res_bind_ok, classDistribution_of_labels hlab]

end

/-- **C228** for one training list and two distance functions that order the instances alike, such as the sum of squares and its root. -/
theorem C228_knn_same_order (l : IList ℝ) (x : Inst ℝ) (k : Int) (dist : Inst ℝ → Inst ℝ → Res ℝ) (φ : ℝ → ℝ)
    (hd : ∀ y ∈ l, ∃ a, dist y x = .ok a ∧ 0 ≤ a) (hφ : StrictMonoOn φ (Set.Ici 0)) (old old' : Knn ℝ) :
    (old'.train l k (fun y z => (dist y z).map φ)).nearestNeighbors x = (old.train l k dist).nearestNeighbors x ∧
    (old'.train l k (fun y z => (dist y z).map φ)).predict x = (old.train l k dist).predict x ∧
    ((old'.train l k (fun y z => (dist y z).map φ)).predictProbability x : Res (OMap ℝ)) = (old.train l k dist).predictProbability x := by
  have hv : ∀ y ∈ l, ∃ a, dist y x = .ok a ∧ 0 ≤ a := hd
  choose! d h1 h2 using hv
  obtain ⟨ns, e1, e2, e3, e4⟩ := C228_knn l id (fun _ _ => rfl) x x rfl k dist (fun y z => (dist y z).map φ) d (fun y => φ (d y)) h1
    (fun y hy => by show (dist y x).map φ = _; rw [h1 y hy]; rfl)
    (fun y hy z hz => by
      simp only [lt_real, decide_eq_decide, id]
      exact hφ.lt_iff_lt (h2 y hy) (h2 z hz)) old old'
  rw [List.map_id] at e2 e3 e4
  rw [List.map_id] at e2
  exact ⟨by rw [e1, e2], e3, e4⟩

theorem sqDist_dense : ∀ (u w : List ℝ), u.length = w.length → sqDist u w = denseSqDist u w := by
  intro u w h
  unfold denseSqDist
  rw [h, max_self]
  unfold sqDist
  induction u generalizing w with
  | nil =>
    cases w with
    | nil => simp
    | cons b w => simp at h
  | cons a u ih =>
    cases w with
    | nil => simp at h
    | cons b w =>
      rw [List.zipWith_cons_cons, List.sum_cons, List.length_cons, Finset.sum_range_succ', ih w (by simpa using h), add_comm]
      rfl

section
variable {n n' : Nat} {g : Inst ℝ → Inst ℝ} {xs : List (Inst ℝ)}

theorem euclidean_dense {x y : Inst ℝ} (hx : Numeric n x) (hy : Numeric n y) :
    euclidean x y = .ok (denseSqDist (numbersOf x) (numbersOf y)) := by
  have e : (numbersOf x).length = (numbersOf y).length := by rw [numbersOf_size hx, numbersOf_size hy]
  rw [euclidean_numbers x y _ _ (numeric_attrs hx) (numeric_attrs hy) e, sqDist_dense _ _ e]

theorem InnerKept.distance (h : InnerKept n n' g xs) {x y : Inst ℝ} (hx : x ∈ xs) (hy : y ∈ xs) :
    denseSqDist (numbersOf (g x)) (numbersOf (g y)) = denseSqDist (numbersOf x) (numbersOf y) := by
  rw [← sqDist_expand, ← sqDist_expand, h.inner x hx x hx, h.inner y hy y hy, h.inner x hx y hy]

/-- **C228.** In particular with the Euclidean distance: data with the same inner products (data turned about the origin, say) have the same
neighbours. -/
theorem C228_knn_inner (l : IList ℝ) (x : Inst ℝ) (hk : InnerKept n n' g (x :: l)) (k : Int) (old old' : Knn ℝ) :
    ∃ ns, (old.train l k euclidean).nearestNeighbors x = .ok ns ∧ (old'.train (l.map g) k euclidean).nearestNeighbors (g x) = .ok (ns.map g) ∧
      (old'.train (l.map g) k euclidean).predict (g x) = (old.train l k euclidean).predict x ∧
      ((old'.train (l.map g) k euclidean).predictProbability (g x) : Res (OMap ℝ)) = (old.train l k euclidean).predictProbability x := by
  have hx : x ∈ x :: l := List.mem_cons_self ..
  have hl : ∀ y ∈ l, y ∈ x :: l := fun y hy => List.mem_cons_of_mem _ hy
  refine C228_knn l g (fun y _ => (hk.classes y).1) x (g x) (hk.classes x).2 k euclidean euclidean
    (fun y => denseSqDist (numbersOf y) (numbersOf x)) (fun y => denseSqDist (numbersOf y) (numbersOf (g x)))
    (fun y hy => euclidean_dense (hk.before y (hl y hy)) (hk.before x hx))
    (fun y hy => euclidean_dense (hk.after y (hl y hy)) (hk.after x hx)) (fun y hy z hz => ?_) old old'
  rw [hk.distance (hl y hy) hx, hk.distance (hl z hz) hx]

/-! ## class means -/

theorem sum_of_columns (a : Nat → ℝ) (f : Inst ℝ → Nat → ℝ) (m : Nat) (C : IList ℝ) :
    ∑ j ∈ Finset.range m, a j * (C.map (fun y => f y j)).sum = (C.map (fun y => ∑ j ∈ Finset.range m, a j * f y j)).sum := by
  induction C with
  | nil => simp
  | cons y C ih =>
    simp only [List.map_cons, List.sum_cons, mul_add, Finset.sum_add_distrib, ih]

/-- the squared distance from the mean of some instances, by inner products -/
theorem mean_distance {m : Nat} (u : List ℝ) (hu : u.length = m) (C : IList ℝ) (hC : ∀ y ∈ C, (numbersOf y).length = m) (w : List ℝ)
    (hw : w = (List.range m).map (fun j => mean (C.map (fun y => (numbersOf y).getD j 0)))) :
    sqDist u w = denseDot u u - 2 * ((C.map (fun y => denseDot u (numbersOf y))).sum / C.length) +
      (C.map (fun y => (C.map (fun z => denseDot (numbersOf y) (numbersOf z))).sum)).sum / C.length ^ 2 := by
  have dot : ∀ p q : List ℝ, p.length = m → q.length = m → denseDot p q = ∑ j ∈ Finset.range m, p.getD j 0 * q.getD j 0 := by
    intro p q hp hq
    unfold denseDot
    rw [hp, hq, max_self]
  have hlw : w.length = m := by rw [hw]; simp
  rw [sqDist_dense u w (by rw [hu, hlw])]
  unfold denseSqDist
  rw [hu, hlw, max_self]
  have e1 : (C.map (fun y => denseDot u (numbersOf y))).sum =
      ∑ j ∈ Finset.range m, u.getD j 0 * (C.map (fun y => (numbersOf y).getD j 0)).sum := by
    rw [sum_of_columns (fun j => u.getD j 0) (fun y j => (numbersOf y).getD j 0)]
    exact congrArg List.sum (List.map_congr_left (fun y hy => dot u _ hu (hC y hy)))
  have e2 : (C.map (fun y => (C.map (fun z => denseDot (numbersOf y) (numbersOf z))).sum)).sum =
      ∑ j ∈ Finset.range m, (C.map (fun y => (numbersOf y).getD j 0)).sum * (C.map (fun y => (numbersOf y).getD j 0)).sum := by
    rw [sum_of_columns (fun j => (C.map (fun y => (numbersOf y).getD j 0)).sum) (fun y j => (numbersOf y).getD j 0)]
    refine congrArg List.sum (List.map_congr_left (fun y hy => ?_))
    rw [show (∑ j ∈ Finset.range m, (C.map (fun y => (numbersOf y).getD j 0)).sum * (numbersOf y).getD j 0) =
      ∑ j ∈ Finset.range m, (numbersOf y).getD j 0 * (C.map (fun y => (numbersOf y).getD j 0)).sum from
        Finset.sum_congr rfl (fun j _ => mul_comm _ _), sum_of_columns (fun j => (numbersOf y).getD j 0) (fun y j => (numbersOf y).getD j 0)]
    exact congrArg List.sum (List.map_congr_left (fun z hz => dot _ _ (hC y hy) (hC z hz)))
  rw [e1, e2, dot u u hu hu, Finset.sum_div, Finset.sum_div, Finset.mul_sum, ← Finset.sum_sub_distrib, ← Finset.sum_add_distrib]
  refine Finset.sum_congr rfl (fun j hj => ?_)
  have ew : w.getD j 0 = (C.map (fun y => (numbersOf y).getD j 0)).sum / C.length := by
    rw [hw, List.getD_eq_getElem?_getD, List.getElem?_map, List.getElem?_range (Finset.mem_range.1 hj)]
    simp [mean]
  rw [ew]
  ring

/-- **C228** for the nearest-mean classifier with the Euclidean distance: data with the same inner products get the same answers. -/
theorem C228_nearest_mean_inner (l : IList ℝ) (x : Inst ℝ) (hk : InnerKept n n' g (x :: l)) (old old' : KMeans ℝ) :
    ∃ m m', KMeans.train old l euclidean = .ok m ∧ KMeans.train old' (l.map g) euclidean = .ok m' ∧ m'.predict (g x) = m.predict x := by
  have hx : x ∈ x :: l := List.mem_cons_self ..
  have hl : ∀ y ∈ l, y ∈ x :: l := fun y hy => List.mem_cons_of_mem _ hy
  have hn : ∀ y ∈ l, Numeric n y := fun y hy => hk.before y (hl y hy)
  have hn' : ∀ y ∈ l.map g, Numeric n' y := by
    intro y hy
    obtain ⟨z, hz, rfl⟩ := List.mem_map.1 hy
    exact hk.after z (hl z hz)
  have hlab : (l.map g).map Inst.label = l.map Inst.label := by
    rw [List.map_map]
    exact List.map_congr_left (fun y _ => (hk.classes y).1)
  have hdd : IList.classDistribution (l.map g) = IList.classDistribution l := classDistribution_of_labels hlab
  have e := kmeans_continuous old l euclidean n contValues (fun x hx => numeric_values (hn x hx))
  have e' := kmeans_continuous old' (l.map g) euclidean n' contValues (fun x hx => numeric_values (hn' x hx))
  refine ⟨_, _, e, e', ?_⟩
  have ec : (g x).isComposite = x.isComposite := by unfold Inst.isComposite; rw [(hk.classes x).2]
  have ep : (g x).possibleLabels = x.possibleLabels := by unfold Inst.possibleLabels; rw [(hk.classes x).2, (hk.classes x).1]
  have met : ∀ (m : Nat) (T : IList ℝ) (q : Inst ℝ), (∀ y ∈ T, Numeric m y) → Numeric m q → ∀ c ∈ T.map Inst.label,
      KMeans.metric ⟨T.classDistribution, T.getDistinctClassLabels.map (fun c => (c, ((classMean T contValues m c).map Attr.continuous).map some)), euclidean⟩ q c
        = .ok (-(sqDist (numbersOf q) (classMean T contValues m c))) := by
    intro m T q hT hq c hc
    unfold KMeans.metric
    simp only
    rw [kmeans_find _ _ c (((C07_distinct_class_labels T).mem_iff c).2 hc)]
    simp only [nonNull_some, res_bind_ok]
    rw [euclidean_numbers q _ (numbersOf q) (classMean T contValues m c) (numeric_attrs hq) rfl (by simp [classMean, numbersOf_size hq])]
    rfl
  have same : ∀ c ∈ l.map Inst.label, sqDist (numbersOf (g x)) (classMean (l.map g) contValues n' c) =
      sqDist (numbersOf x) (classMean l contValues n c) := by
    intro c _
    have hC : ∀ y ∈ l.filter (fun x => x.label == c), y ∈ l := fun y hy => (List.mem_filter.1 hy).1
    have hf : (l.map g).filter (fun x => x.label == c) = (l.filter (fun x => x.label == c)).map g := by
      rw [List.filter_map]
      congr 1
      refine List.filter_congr (fun y _ => ?_)
      simp only [Function.comp_apply, (hk.classes y).1]
    have m1 := mean_distance (numbersOf x) (numbersOf_size (hk.before x hx)) (l.filter (fun x => x.label == c))
      (fun y hy => numbersOf_size (hn y (hC y hy))) (classMean l contValues n c) (List.map_congr_left (fun j _ =>
        congrArg mean (List.map_congr_left (fun y hy => by rw [numbersOf_values (hn y (hC y hy))]))))
    have m2 := mean_distance (numbersOf (g x)) (numbersOf_size (hk.after x hx)) ((l.map g).filter (fun x => x.label == c))
      (fun y hy => numbersOf_size (hn' y (List.mem_filter.1 hy).1)) (classMean (l.map g) contValues n' c) (List.map_congr_left (fun j _ =>
        congrArg mean (List.map_congr_left (fun y hy => by rw [numbersOf_values (hn' y (List.mem_filter.1 hy).1)]))))
    rw [m1, m2]
    rw [hf, List.length_map, List.map_map, List.map_map, hk.inner x hx x hx]
    have s1 : ((l.filter (fun x => x.label == c)).map ((fun y => denseDot (numbersOf (g x)) (numbersOf y)) ∘ g)).sum =
        ((l.filter (fun x => x.label == c)).map (fun y => denseDot (numbersOf x) (numbersOf y))).sum :=
      congrArg List.sum (List.map_congr_left (fun y hy => hk.inner x hx y (hl y (hC y hy))))
    have s2 : ((l.filter (fun x => x.label == c)).map ((fun y => (((l.filter (fun x => x.label == c)).map g).map
          (fun z => denseDot (numbersOf y) (numbersOf z))).sum) ∘ g)).sum =
        ((l.filter (fun x => x.label == c)).map (fun y => ((l.filter (fun x => x.label == c)).map
          (fun z => denseDot (numbersOf y) (numbersOf z))).sum)).sum := by
      refine congrArg List.sum (List.map_congr_left (fun y hy => ?_))
      simp only [Function.comp_apply, List.map_map]
      exact congrArg List.sum (List.map_congr_left (fun z hz => hk.inner y (hl y (hC y hy)) z (hl z (hC z hz))))
    rw [s1, s2]
  unfold KMeans.predict gaussPredict
  simp only [hdd, ec, ep]
  have ei : gaussInit (IList.classDistribution l) (g x) = gaussInit (IList.classDistribution l) x := by
    unfold gaussInit
    simp only [ec, ep]
  rw [ei]
  refine bind_congr_res (fun init _ => ?_)
  congr 1
  refine foldlM_congr_on _ _ (fun b c _ => ?_)
  have hm : c ∈ l.map Inst.label → KMeans.metric ⟨IList.classDistribution l, (IList.getDistinctClassLabels (l.map g)).map
        (fun c => (c, ((classMean (l.map g) contValues n' c).map Attr.continuous).map some)), euclidean⟩ (g x) c =
      KMeans.metric ⟨IList.classDistribution l, (IList.getDistinctClassLabels l).map
        (fun c => (c, ((classMean l contValues n c).map Attr.continuous).map some)), euclidean⟩ x c := by
    intro hc
    rw [met n l x hn (hk.before x hx) c hc, ← same c hc, ← met n' (l.map g) (g x) hn' (hk.after x hx) c (by rw [hlab]; exact hc), hdd]
  unfold gaussStep
  by_cases hc : (IList.classDistribution l).containsItem c = true
  · rw [if_pos hc, if_pos hc, hm ((containsItem_iff l c).1 hc)]
  · rw [if_neg hc, if_neg hc]

end

/-! ## the hypotheses are met -/

/-- the root is increasing, and the Euclidean distances of two training instances from a question are numbers -/
example : StrictMonoOn Real.sqrt (Set.Ici 0) ∧ ∀ y ∈ turnedData.tail, ∃ a, euclidean y (turnedData.headD ⟨"", [], none⟩) = .ok a ∧ 0 ≤ a := by
  refine ⟨fun a ha b _ h => Real.sqrt_lt_sqrt ha h, ?_⟩
  intro y hy
  have hn : ∀ z ∈ turnedData, Numeric 2 z := by
    intro z hz
    simp only [turnedData, List.mem_cons, List.not_mem_nil, or_false] at hz
    rcases hz with rfl | rfl | rfl <;> exact ⟨[_, _], rfl, rfl⟩
  exact ⟨_, euclidean_dense (hn y (List.mem_of_mem_tail hy)) (hn _ (by simp [turnedData])),
    Finset.sum_nonneg (fun _ _ => sq_nonneg _)⟩

/-- the turned plane: the inner products are kept, and the numbers are not -/
example : ∃ (l : IList ℝ) (x : Inst ℝ), x :: l = turnedData ∧ InnerKept 2 2 turn (x :: l) ∧ numbersOf (turn x) ≠ numbersOf x := by
  refine ⟨turnedData.tail, turnedData.headD ⟨"", [], none⟩, rfl, ?_, ?_⟩
  · refine ⟨fun _ => ⟨rfl, rfl⟩, ?_, ?_, ?_⟩
    · intro x hx
      simp only [turnedData, List.tail, List.headD, List.mem_cons, List.not_mem_nil, or_false] at hx
      rcases hx with rfl | rfl | rfl <;> exact ⟨[_, _], rfl, rfl⟩
    · intro x _
      exact ⟨[_, _], rfl, rfl⟩
    · intro x hx y hy
      simp only [turnedData, List.tail, List.headD, List.mem_cons, List.not_mem_nil, or_false] at hx hy
      rcases hx with rfl | rfl | rfl <;> rcases hy with rfl | rfl | rfl <;>
        simp [denseDot, numbersOf, turn, Finset.sum_range_succ] <;> norm_num
  · simp [turnedData, turn, numbersOf]
    norm_num

/-- two instances on a line whose places are exchanged for others in the same order -/
example : (∀ y ∈ ([⟨"a", [.continuous (.fin 1)], none⟩, ⟨"b", [.continuous (.fin 5)], none⟩] : IList XR),
    ∀ z ∈ ([⟨"a", [.continuous (.fin 1)], none⟩, ⟨"b", [.continuous (.fin 5)], none⟩] : IList XR),
      ((if y.label = "a" then (.fin 3 : XR) else .fin 4) <. (if z.label = "a" then .fin 3 else .fin 4)) =
      ((if y.label = "a" then (.fin 1 : XR) else .fin 25) <. (if z.label = "a" then .fin 1 else .fin 25))) := by
  decide

end Verif
