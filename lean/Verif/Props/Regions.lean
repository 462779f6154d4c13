import Verif.Spec.Between
import Verif.Props.UnitsGauss
import Verif.Props.NeuralNetwork
import Verif.Props.NetTrain
import Verif.Props.Duplicates

/-! # C207: linear classifiers answer between two instances what they answer at both -/

namespace Verif
open Dbl

set_option linter.unusedSectionVars false

/-! ## scores -/

/-- the first greatest score stays the first greatest one when all differences of scores are
mixed -/
theorem argmax_between {cs : List String} {μ ν ρ : String → ℝ} {t : ℝ} (h0 : 0 ≤ t) (h1 : t ≤ 1)
    (hmix : ∀ c ∈ cs, ∀ d ∈ cs, ρ c - ρ d = (1 - t) * (μ c - μ d) + t * (ν c - ν d)) {r : String}
    (hμ : IsArgmax μ cs r) (hν : IsArgmax ν cs r) : IsArgmax ρ cs r := by
  have hmixed : ∀ a b a' b' : ℝ, 0 ≤ a → 0 ≤ b → 0 ≤ (1 - t) * a + t * b := by
    intro a b _ _ ha hb
    have := mul_nonneg (sub_nonneg.2 h1) ha
    have := mul_nonneg h0 hb
    linarith
  obtain ⟨l1, l2, e, hl⟩ := hμ.split
  have hr : r ∈ cs := by rw [e]; simp
  obtain ⟨k1, k2, e', hk⟩ := hν.split
  refine ⟨?_, ?_⟩
  · -- the shorter of the two prefixes
    have hprefix : ∃ j1 j2, cs = j1 ++ r :: j2 ∧ (∀ s ∈ j1, s ∈ l1) ∧ ∀ s ∈ j1, s ∈ k1 := by
      rw [e] at e'
      rcases List.append_eq_append_iff.1 e' with ⟨q, h2, h3⟩ | ⟨q, h2, h3⟩
      · exact ⟨l1, l2, e, fun s hs => hs, fun s hs => by rw [h2]; simp [hs]⟩
      · exact ⟨k1, k2, by rw [e, e'], fun s hs => by rw [h2]; simp [hs], fun s hs => hs⟩
    obtain ⟨j1, j2, ej, hj, hj'⟩ := hprefix
    refine ⟨j1, j2, ej, fun s hs _ => ?_⟩
    have a1 := hl s (hj s hs) (ord_real _)
    have a2 := hk s (hj' s hs) (ord_real _)
    rw [lt_real, decide_eq_true_eq] at a1 a2 ⊢
    have := hmix r hr s (by rw [ej]; simp [hs])
    rcases eq_or_lt_of_le h0 with h | h
    · rw [← h] at this; linarith
    · have b1 : 0 ≤ (1 - t) * (μ r - μ s) := mul_nonneg (sub_nonneg.2 h1) (by linarith)
      have b2 : 0 < t * (ν r - ν s) := mul_pos h (by linarith)
      linarith
  · intro s hs
    have a1 := hμ.max s hs
    have a2 := hν.max s hs
    rw [lt_real, decide_eq_false_iff_not] at a1 a2 ⊢
    have := hmix r hr s hs
    have := hmixed (μ r - μ s) (ν r - ν s) 0 0 (by linarith) (by linarith)
    linarith

/-- an answer needs the scores of all candidates -/
theorem gaussPredict_scores {F : Type} [Dbl F] {prior : DD} {f : Inst F → String → Res F} {x : Inst F} {r : String}
    (h : gaussPredict prior f x = .ok r) : ∀ c ∈ discCandidates prior x, ∃ v, f x c = .ok v := by
  unfold gaussPredict at h
  obtain ⟨i, -, h⟩ := bind_ok_iff.1 h
  obtain ⟨b, h, -⟩ := bind_ok_iff.1 h
  rw [← discCandidates_eq]
  generalize (if x.isComposite then x.possibleLabels else prior.getItems) = cs at h
  generalize (i, Dbl.neg (Dbl.maxVal : F)) = s at h
  induction cs generalizing s with
  | nil => intro c hc; simp at hc
  | cons d cs ih =>
    rw [List.foldlM_cons] at h
    obtain ⟨s', h1, h2⟩ := bind_ok_iff.1 h
    intro c hc
    rw [List.filter_cons] at hc
    by_cases hd : prior.containsItem d = true
    · rw [if_pos hd] at hc
      rcases List.mem_cons.1 hc with rfl | hc
      · unfold gaussStep at h1
        rw [if_pos hd] at h1
        obtain ⟨v, hv, -⟩ := bind_ok_iff.1 h1
        exact ⟨v, hv⟩
      · exact ih _ h2 c hc
    · rw [if_neg hd] at hc
      exact ih _ h2 c hc

/-- between two instances, when the differences of the scores are mixed -/
theorem gaussPredict_between {prior : DD} {f : Inst ℝ → String → Res ℝ} {x y z : Inst ℝ} {t : ℝ} (h0 : 0 ≤ t) (h1 : t ≤ 1)
    (hxy : y.possible = x.possible) (hxz : z.possible = x.possible) {μ ν ρ : String → ℝ}
    (hμ : ∀ c ∈ discCandidates prior x, f x c = .ok (μ c)) (hν : ∀ c ∈ discCandidates prior x, f y c = .ok (ν c))
    (hρ : ∀ c ∈ discCandidates prior x, f z c = .ok (ρ c))
    (hmix : ∀ c ∈ discCandidates prior x, ∀ d ∈ discCandidates prior x,
      ρ c - ρ d = (1 - t) * (μ c - μ d) + t * (ν c - ν d))
    (hge : ∀ c ∈ discCandidates prior x, (1 - t) * μ c + t * ν c ≤ ρ c)
    (hbx : ∃ c ∈ discCandidates prior x, -(2 : ℝ) ^ 1024 < μ c)
    (hby : ∃ c ∈ discCandidates prior x, -(2 : ℝ) ^ 1024 < ν c) {r : String}
    (hx : gaussPredict prior f x = .ok r) (hy : gaussPredict prior f y = .ok r) :
    gaussPredict prior f z = .ok r := by
  have ey : discCandidates prior y = discCandidates prior x := by unfold discCandidates; rw [hxy]
  have ez : discCandidates prior z = discCandidates prior x := by unfold discCandidates; rw [hxz]
  obtain ⟨r1, e1, a1⟩ := C52_argmax prior f x μ hμ (by
    obtain ⟨c, hc, h⟩ := hbx; exact ⟨c, hc, by simpa [maxVal_real] using h⟩)
  obtain ⟨r2, e2, a2⟩ := C52_argmax prior f y ν (by rw [ey]; exact hν) (by
    obtain ⟨c, hc, h⟩ := hby; exact ⟨c, by rw [ey]; exact hc, by simpa [maxVal_real] using h⟩)
  rw [hx] at e1; cases e1
  rw [hy] at e2; cases e2
  rw [ey] at a2
  have hr : r ∈ discCandidates prior x := by
    obtain ⟨l1, l2, e, -⟩ := a1.split
    rw [e]; simp
  have b1 : -(2 : ℝ) ^ 1024 < μ r := by
    obtain ⟨c, hc, h⟩ := hbx
    have := a1.max c hc
    rw [lt_real, decide_eq_false_iff_not] at this
    exact lt_of_lt_of_le h (not_lt.1 this)
  have b2 : -(2 : ℝ) ^ 1024 < ν r := by
    obtain ⟨c, hc, h⟩ := hby
    have := a2.max c hc
    rw [lt_real, decide_eq_false_iff_not] at this
    exact lt_of_lt_of_le h (not_lt.1 this)
  have b3 : -(2 : ℝ) ^ 1024 < ρ r := by
    refine lt_of_lt_of_le ?_ (hge r hr)
    generalize -(2 : ℝ) ^ 1024 = M at b1 b2 ⊢
    rcases eq_or_lt_of_le h0 with h | h
    · rw [← h]; linarith
    · have c1 := mul_le_mul_of_nonneg_left b1.le (sub_nonneg.2 h1)
      have c2 := mul_lt_mul_of_pos_left b2 h
      linarith
  obtain ⟨r3, e3, a3⟩ := C52_argmax prior f z ρ (by rw [ez]; exact hρ)
    ⟨r, by rw [ez]; exact hr, by simpa [maxVal_real] using b3⟩
  rw [ez] at a3
  rw [e3, a3.unique (argmax_between h0 h1 hmix a1 a2)]

/-! ## linear discriminant analysis -/

theorem dotV_between (t : ℝ) (w u v : List ℝ) (hu : w.length = u.length) (hv : u.length = v.length) :
    dotV w (List.zipWith (fun a b => (1 - t) * a + t * b) u v) = (1 - t) * dotV w u + t * dotV w v := by
  unfold dotV
  have key : ∀ (w u v : List ℝ) (a b : ℝ), w.length = u.length → u.length = v.length →
      (w.zip (List.zipWith (fun a b => (1 - t) * a + t * b) u v)).foldl (fun s p => s +. (p.1 *. p.2))
        ((1 - t) * a + t * b) =
      (1 - t) * (w.zip u).foldl (fun s p => s +. (p.1 *. p.2)) a +
        t * (w.zip v).foldl (fun s p => s +. (p.1 *. p.2)) b := by
    intro w
    induction w with
    | nil => intro u v a b h1 h2; simp
    | cons w0 w ih =>
      intro u v a b h1 h2
      cases u with
      | nil => simp at h1
      | cons u0 u =>
        cases v with
        | nil => simp at h2
        | cons v0 v =>
          simp only [List.zipWith_cons_cons, List.zip_cons_cons, List.foldl_cons]
          rw [← ih u v _ _ (by simpa using h1) (by simpa using h2)]
          congr 1
          simp only [add_real, mul_real]
          ring
  have := key w u v 0 0 hu hv
  simpa using this

/-- **C207.** Linear discriminant analysis, any object whatever it has learned: if two numeric
instances get the same answer, so does every instance between them. At both instances some class
has a score above `-DBL_MAX`. -/
theorem C207_lda (m : Lda ℝ) {t : ℝ} (h0 : 0 ≤ t) (h1 : t ≤ 1) {x y z : Inst ℝ} (hz : Between t x y z) {r : String}
    (hx : m.predict x = .ok r) (hy : m.predict y = .ok r)
    (hbx : ∃ c ∈ discCandidates m.prior x, ∃ s, m.metric x c = .ok s ∧ -(2 : ℝ) ^ 1024 < s)
    (hby : ∃ c ∈ discCandidates m.prior x, ∃ s, m.metric y c = .ok s ∧ -(2 : ℝ) ^ 1024 < s) :
    m.predict z = .ok r := by
  obtain ⟨u, v, huv, hxa, hya, hza, hxy, hxz⟩ := hz
  have key : ∀ c ∈ discCandidates m.prior x, ∃ a b : ℝ, m.metric x c = .ok a ∧ m.metric y c = .ok b ∧
      m.metric z c = .ok ((1 - t) * a + t * b) := by
    intro c hc
    obtain ⟨s, hs⟩ := gaussPredict_scores hx c hc
    unfold Lda.metric at hs ⊢
    rw [toVector_ok x u hxa] at hs ⊢
    rw [toVector_ok y v hya, toVector_ok z _ hza]
    simp only [res_bind_ok] at hs ⊢
    obtain ⟨wi, hw, hs⟩ := bind_ok_iff.1 hs
    obtain ⟨w0, hw0, -⟩ := bind_ok_iff.1 hs
    rw [hw, hw0]
    simp only [res_bind_ok]
    unfold dotChecked
    rw [List.length_zipWith, ← huv, min_self]
    by_cases hlen : wi.length = u.length
    · rw [if_pos hlen, if_pos hlen, if_pos hlen]
      refine ⟨_, _, rfl, rfl, ?_⟩
      rw [dotV_between t wi u v hlen huv]
      simp only [res_pure, add_real]
      congr 1; ring
    · rw [if_neg hlen, if_neg hlen, if_neg hlen]
      refine ⟨_, _, rfl, rfl, ?_⟩
      simp only [res_pure]
      congr 1; ring
  choose! μ ν hμ hν hρ using key
  refine gaussPredict_between h0 h1 hxy hxz hμ hν hρ ?_ (fun c _ => le_refl _) ?_ ?_ hx hy
  · intro c _ d _; ring
  · obtain ⟨c, hc, s, h2, h3⟩ := hbx
    rw [hμ c hc] at h2; cases h2
    exact ⟨c, hc, h3⟩
  · obtain ⟨c, hc, s, h2, h3⟩ := hby
    rw [hν c hc] at h2; cases h2
    exact ⟨c, hc, h3⟩

/-! ## nearest means -/

theorem sqDist_nonneg (u w : List ℝ) : 0 ≤ sqDist u w := by
  unfold sqDist
  refine List.sum_nonneg (fun a ha => ?_)
  obtain ⟨i, hi, rfl⟩ := List.mem_iff_getElem.1 ha
  rw [List.getElem_zipWith]
  positivity

theorem sqDist_between (t : ℝ) : ∀ u v w : List ℝ, u.length = v.length → w.length = u.length →
    sqDist (List.zipWith (fun a b => (1 - t) * a + t * b) u v) w =
      (1 - t) * sqDist u w + t * sqDist v w - t * (1 - t) * sqDist u v := by
  unfold sqDist
  intro u
  induction u with
  | nil =>
    intro v w h1 h2
    have hv : v = [] := List.length_eq_zero_iff.1 h1.symm
    subst hv; simp
  | cons a u ih =>
    intro v w h1 h2
    cases v with
    | nil => simp at h1
    | cons b v =>
      cases w with
      | nil => simp at h2
      | cons c w =>
        simp only [List.zipWith_cons_cons, List.sum_cons]
        rw [ih v w (by simpa using h1) (by simpa using h2)]
        ring

theorem euclidean_numbers (x y : Inst ℝ) (u w : List ℝ) (hx : x.attrs = u.map Attr.continuous)
    (hy : y.attrs = w.map Attr.continuous) (h : u.length = w.length) :
    euclidean x y = .ok (sqDist u w) := by
  rw [C51_sum x y (by rw [hx, hy]; simp [h]), hx, hy]
  congr 1
  unfold sqDist
  rw [List.zipWith_map]
  rfl

/-- **C207.** The nearest-mean classifier with the Euclidean distance, trained on numeric data: if
two numeric instances get the same answer, so does every instance between them. From both
instances some class mean is nearer than `DBL_MAX`. -/
theorem C207_nearest_mean (l : IList ℝ) (n : Nat) (hl : ∀ x ∈ l, Numeric n x) (old m : KMeans ℝ)
    (hm : KMeans.train old l euclidean = .ok m) {t : ℝ} (h0 : 0 ≤ t) (h1 : t ≤ 1) {x y z : Inst ℝ}
    (hn : Numeric n x) (hz : Between t x y z) {r : String}
    (hx : m.predict x = .ok r) (hy : m.predict y = .ok r)
    (hbx : ∃ c ∈ discCandidates m.prior x, ∃ s, m.metric x c = .ok s ∧ -(2 : ℝ) ^ 1024 < s)
    (hby : ∃ c ∈ discCandidates m.prior x, ∃ s, m.metric y c = .ok s ∧ -(2 : ℝ) ^ 1024 < s) :
    m.predict z = .ok r := by
  obtain ⟨u, v, huv, hxa, hya, hza, hxy, hxz⟩ := hz
  have hun : u.length = n := by
    obtain ⟨u', h, h'⟩ := hn
    rw [hxa] at h
    have := congrArg List.length h
    simp at this; omega
  have e := kmeans_continuous old l euclidean n contValues (fun x hx => numeric_values (hl x hx))
  rw [hm] at e
  cases e
  have hcand : ∀ c, c ∈ discCandidates l.classDistribution x → c ∈ l.map Inst.label := by
    intro c hc
    rw [← (C10_class_distribution l).mem_items]
    unfold discCandidates at hc
    cases hp : x.possible with
    | none => rw [hp] at hc; exact hc
    | some ls =>
      rw [hp] at hc
      have := (List.mem_filter.1 hc).2
      simpa using this
  have key : ∀ (q : Inst ℝ) (w : List ℝ), q.attrs = w.map Attr.continuous → w.length = n →
      ∀ c ∈ discCandidates l.classDistribution x,
      KMeans.metric ⟨l.classDistribution, l.getDistinctClassLabels.map (fun c => (c, ((classMean l contValues n c).map Attr.continuous).map some)), euclidean⟩ q c
        = .ok (-(sqDist w (classMean l contValues n c))) := by
    intro q w hq hw c hc
    unfold KMeans.metric
    simp only
    rw [kmeans_find _ _ c (((C07_distinct_class_labels l).mem_iff c).2 (hcand c hc))]
    simp only [nonNull_some, res_bind_ok]
    rw [euclidean_numbers q _ w (classMean l contValues n c) hq rfl (by simp [classMean, hw])]
    rfl
  have kx := key x u hxa hun
  have ky := key y v hya (by omega)
  have kz := key z _ hza (by rw [List.length_zipWith]; omega)
  have hmix : ∀ c : String, -(sqDist (List.zipWith (fun a b => (1 - t) * a + t * b) u v) (classMean l contValues n c)) =
      (1 - t) * -(sqDist u (classMean l contValues n c)) + t * -(sqDist v (classMean l contValues n c))
        + t * (1 - t) * sqDist u v := by
    intro c
    rw [sqDist_between t u v _ huv (by simp [classMean, hun])]
    ring
  refine gaussPredict_between h0 h1 hxy hxz kx ky kz ?_ ?_ ?_ ?_ hx hy
  · intro c _ d _
    rw [hmix c, hmix d]; ring
  · intro c _
    rw [hmix c]
    have := mul_nonneg (mul_nonneg h0 (sub_nonneg.2 h1)) (sqDist_nonneg u v)
    linarith
  · obtain ⟨c, hc, s, h2, h3⟩ := hbx
    rw [kx c hc] at h2; cases h2
    exact ⟨c, hc, h3⟩
  · obtain ⟨c, hc, s, h2, h3⟩ := hby
    rw [ky c hc] at h2; cases h2
    exact ⟨c, hc, h3⟩

/-! ## linear perceptrons -/

theorem score_between (W : Mat ℝ) (t : ℝ) (u v : List ℝ) (huv : u.length = v.length) (k : Nat) :
    score W (fun j => (1 :: List.zipWith (fun a b => (1 - t) * a + t * b) u v).getD j 0) k =
      (1 - t) * score W (fun j => (1 :: u).getD j 0) k + t * score W (fun j => (1 :: v).getD j 0) k := by
  unfold score
  rw [Finset.mul_sum, Finset.mul_sum, ← Finset.sum_add_distrib]
  refine Finset.sum_congr rfl (fun j _ => ?_)
  cases j with
  | zero => simp only [List.getD_cons_zero]; ring
  | succ j =>
    simp only [List.getD_cons_succ]
    have : (List.zipWith (fun a b => (1 - t) * a + t * b) u v).getD j 0 =
        (1 - t) * u.getD j 0 + t * v.getD j 0 := by
      simp only [List.getD_eq_getElem?_getD, List.getElem?_zipWith]
      by_cases hj : j < u.length
      · rw [List.getElem?_eq_getElem hj, List.getElem?_eq_getElem (by omega)]; rfl
      · rw [List.getElem?_eq_none_iff.2 (by omega : u.length ≤ j),
          List.getElem?_eq_none_iff.2 (by omega : v.length ≤ j)]; simp
    rw [this]; ring

/-- **C207.** A linear perceptron with any weights: if two plain numeric instances get the same
answer, so does every instance between them. -/
theorem C207_perceptron (W : Mat ℝ) (labels : List String) (hnd : labels.Nodup) (hrows : W.rows = labels.length)
    {t : ℝ} (h0 : 0 ≤ t) (h1 : t ≤ 1) {x y z : Inst ℝ} (hz : Between t x y z) (hp : x.possible = none)
    (hcols : W.cols = x.attrs.length + 1) {r : String}
    (hx : netPredict labels (percOutput W) x = .ok r) (hy : netPredict labels (percOutput W) y = .ok r) :
    netPredict labels (percOutput W) z = .ok r := by
  obtain ⟨u, v, huv, hxa, hya, hza, hxy, hxz⟩ := hz
  rw [hxa, List.length_map] at hcols
  have hne : labels ≠ [] := by
    rintro rfl
    unfold netPredict at hx
    obtain ⟨w, -, hx⟩ := bind_ok_iff.1 hx
    obtain ⟨o, -, hx⟩ := bind_ok_iff.1 hx
    rw [if_neg (by simp [Inst.isComposite, hp])] at hx
    obtain ⟨i, -, hx⟩ := bind_ok_iff.1 hx
    cases hx
  have key : ∀ (q : Inst ℝ) (w : List ℝ), q.attrs = w.map Attr.continuous → w.length = u.length → q.possible = none →
      ∃ k c, netPredict labels (percOutput W) q = .ok c ∧ labels[k]? = some c ∧
        (∀ i, i < labels.length → score W (fun j => (1 :: w).getD j 0) i ≤ score W (fun j => (1 :: w).getD j 0) k) ∧
        ∀ i, i < k → score W (fun j => (1 :: w).getD j 0) i < score W (fun j => (1 :: w).getD j 0) k := by
    intro q w hq hw hqp
    have hv : inputVector q = .ok (1 :: w) := by
      unfold inputVector
      rw [toVector_ok q w hq]
      simp only [res_bind_ok, res_pure, one_real]
    have ho : percOutput W (1 :: w) = .ok ((List.range W.rows).map (score W (fun j => (1 :: w).getD j 0))) :=
      C118_perceptron W (1 :: w) (by simp [hcols, hw])
    obtain ⟨k, c, s, e1, e2, e3, e4, e5⟩ := C76_plain labels (percOutput W) q _ _ (by simp [Inst.isComposite, hqp])
      hv ho (by simp [hrows]) hne (fun a _ => ord_real a)
    have hk : k < labels.length := by
      by_contra h
      rw [List.getElem?_eq_none_iff.2 (by omega)] at e2; cases e2
    rw [List.getElem?_map, List.getElem?_range (by omega)] at e3
    simp only [Option.map_some, Option.some.injEq] at e3
    subst e3
    refine ⟨k, c, e1, e2, fun i hi => ?_, fun i hi => ?_⟩
    · have := e4 (score W (fun j => (1 :: w).getD j 0) i) (List.mem_map.2 ⟨i, List.mem_range.2 (by omega), rfl⟩)
      simpa [le_real] using this
    · have := e5 i (score W (fun j => (1 :: w).getD j 0) i) hi (by
        rw [List.getElem?_map, List.getElem?_range (by omega)]; rfl)
      simpa [lt_real] using this
  obtain ⟨k, c, e1, e2, e3, e4⟩ := key x u hxa rfl hp
  obtain ⟨k', c', f1, f2, f3, f4⟩ := key y v hya huv.symm (by rw [hxy, hp])
  obtain ⟨i, d, g1, g2, g3, g4⟩ := key z _ hza (by rw [List.length_zipWith]; omega) (by rw [hxz, hp])
  rw [hx] at e1; cases e1
  rw [hy] at f1; cases f1
  have lt_of : ∀ (i : Nat) (s : String), labels[i]? = some s → i < labels.length := by
    intro i s h
    by_contra hc
    rw [List.getElem?_eq_none_iff.2 (by omega)] at h; cases h
  have hk := lt_of _ _ e2
  have hi := lt_of _ _ g2
  have hkk : k = k' := (List.getElem?_inj hk hnd).1 (e2.trans f2.symm)
  subst hkk
  have hik : i = k := by
    rcases lt_trichotomy i k with h | h | h
    · have a1 := e4 i h
      have a2 := f4 i h
      have a3 := g3 k hk
      rw [score_between W t u v huv, score_between W t u v huv] at a3
      exfalso
      rcases eq_or_lt_of_le h0 with ht | ht
      · rw [← ht] at a3; linarith
      · have b1 := mul_le_mul_of_nonneg_left a1.le (sub_nonneg.2 h1)
        have b2 := mul_lt_mul_of_pos_left a2 ht
        linarith
    · exact h
    · have a1 := e3 i hi
      have a2 := f3 i hi
      have a3 := g4 k h
      rw [score_between W t u v huv, score_between W t u v huv] at a3
      exfalso
      have b1 := mul_le_mul_of_nonneg_left a1 (sub_nonneg.2 h1)
      have b2 := mul_le_mul_of_nonneg_left a2 h0
      linarith
  subst hik
  rw [g2] at e2
  cases e2
  exact g1

/-! ## Concrete cases -/

section

/-- the numbers 1, 2, 3 as instances -/
def exNumber (v : ℝ) : Inst ℝ := ⟨"", [.continuous v], none⟩

theorem exBetween : Between (1 / 2) (exNumber 1) (exNumber 3) (exNumber 2) :=
  ⟨[1], [3], rfl, rfl, rfl, by simp [exNumber]; norm_num, rfl, rfl⟩

theorem exBound : -(2 : ℝ) ^ 1024 < -16 := by
  have h3 : (2 : ℝ) ^ 8 ≤ 2 ^ 1024 := pow_le_pow_right₀ (by norm_num) (by norm_num)
  have h4 : (2 : ℝ) ^ 8 = 256 := by norm_num
  rw [h4] at h3
  generalize (2 : ℝ) ^ 1024 = M at h3 ⊢
  linarith

/-- class A left of 0, class B right of 0 -/
def exLda : Lda ℝ := ⟨⟨[("A", 1), ("B", 1)], 2⟩, [("A", 0), ("B", 0)], [("A", [-1]), ("B", [1])]⟩

theorem exLda_metric (v : ℝ) : exLda.metric (exNumber v) "A" = .ok (-v) ∧ exLda.metric (exNumber v) "B" = .ok v := by
  unfold Lda.metric
  rw [toVector_ok (exNumber v) [v] rfl]
  have h1 : findR exLda.w "A" = .ok [-1] := by
    unfold findR; rw [show OMap.find? exLda.w "A" = some [-1] from rfl]
  have h2 : findR exLda.w0 "A" = .ok 0 := by
    unfold findR; rw [show OMap.find? exLda.w0 "A" = some 0 from rfl]
  have h3 : findR exLda.w "B" = .ok [1] := by
    unfold findR; rw [show OMap.find? exLda.w "B" = some [1] from rfl]
  have h4 : findR exLda.w0 "B" = .ok 0 := by
    unfold findR; rw [show OMap.find? exLda.w0 "B" = some 0 from rfl]
  simp [h1, h2, h3, h4, dotChecked, dotV, res_bind_ok, res_pure]

example : exLda.predict (exNumber 2) = .ok "B" := by
  have hp : ∀ v : ℝ, 0 < v → v < 16 → exLda.predict (exNumber v) = .ok "B" := by
    intro v hv hv'
    unfold Lda.predict
    rw [gaussPredict_two (by decide +kernel) rfl (exLda_metric v).1 (exLda_metric v).2
      (lt_trans exBound (by linarith)), if_pos (by linarith)]
  have hc : "B" ∈ discCandidates exLda.prior (exNumber 1) := by decide +kernel
  exact C207_lda exLda (t := 1 / 2) (by norm_num) (by norm_num) exBetween (hp 1 (by norm_num) (by norm_num))
    (hp 3 (by norm_num) (by norm_num))
    ⟨"B", hc, 1, (exLda_metric 1).2, lt_trans exBound (by norm_num)⟩
    ⟨"B", hc, 3, (exLda_metric 3).2, lt_trans exBound (by norm_num)⟩

/-- one instance of class A at -1 and one of class B at 1 -/
def exTwoMeans : IList ℝ := [⟨"A", [.continuous (-1)], none⟩, ⟨"B", [.continuous 1], none⟩]

example (old : KMeans ℝ) : ∃ m, KMeans.train old exTwoMeans euclidean = .ok m ∧ m.predict (exNumber 2) = .ok "B" := by
  have hl : ∀ x ∈ exTwoMeans, Numeric 1 x := by
    intro x hx
    simp only [exTwoMeans, List.mem_cons, List.not_mem_nil, or_false] at hx
    rcases hx with rfl | rfl
    · exact ⟨[-1], rfl, rfl⟩
    · exact ⟨[1], rfl, rfl⟩
  have e := kmeans_continuous old exTwoMeans euclidean 1 contValues (fun x hx => numeric_values (hl x hx))
  refine ⟨_, e, ?_⟩
  have mA : classMean exTwoMeans contValues 1 "A" = [-1] := by
    simp [classMean, exTwoMeans, contValues, contOf, mean]
  have mB : classMean exTwoMeans contValues 1 "B" = [1] := by
    simp [classMean, exTwoMeans, contValues, contOf, mean]
  have hd : exTwoMeans.getDistinctClassLabels = ["A", "B"] := by decide +kernel
  have key : ∀ v : ℝ,
      KMeans.metric ⟨exTwoMeans.classDistribution, exTwoMeans.getDistinctClassLabels.map (fun c => (c, ((classMean exTwoMeans contValues 1 c).map Attr.continuous).map some)), euclidean⟩ (exNumber v) "A" = .ok (-(v + 1) ^ 2) ∧
      KMeans.metric ⟨exTwoMeans.classDistribution, exTwoMeans.getDistinctClassLabels.map (fun c => (c, ((classMean exTwoMeans contValues 1 c).map Attr.continuous).map some)), euclidean⟩ (exNumber v) "B" = .ok (-(v - 1) ^ 2) := by
    intro v
    unfold KMeans.metric
    simp only
    rw [kmeans_find _ _ "A" (by rw [hd]; simp), kmeans_find _ _ "B" (by rw [hd]; simp)]
    simp only [nonNull_some, res_bind_ok]
    rw [mA, mB, euclidean_numbers (exNumber v) _ [v] [-1] rfl rfl rfl, euclidean_numbers (exNumber v) _ [v] [1] rfl rfl rfl]
    simp [sqDist, res_bind_ok, res_pure]
  have hp : ∀ v : ℝ, 0 < v → v ≤ 3 → KMeans.predict ⟨exTwoMeans.classDistribution, exTwoMeans.getDistinctClassLabels.map (fun c => (c, ((classMean exTwoMeans contValues 1 c).map Attr.continuous).map some)), euclidean⟩ (exNumber v) = .ok "B" := by
    intro v hv hv'
    unfold KMeans.predict
    rw [gaussPredict_two (by decide +kernel) rfl (key v).1 (key v).2 (lt_of_lt_of_le exBound (by nlinarith)),
      if_pos (by nlinarith)]
  have hc : "B" ∈ discCandidates exTwoMeans.classDistribution (exNumber 1) := by decide +kernel
  exact C207_nearest_mean exTwoMeans 1 hl old _ e (t := 1 / 2) (by norm_num) (by norm_num) ⟨[1], rfl, rfl⟩ exBetween
    (hp 1 (by norm_num) (by norm_num)) (hp 3 (by norm_num) (by norm_num))
    ⟨"B", hc, _, (key 1).2, lt_trans exBound (by norm_num)⟩ ⟨"B", hc, _, (key 3).2, lt_trans exBound (by norm_num)⟩

/-- a perceptron that answers B for positive numbers -/
def exPerc : Mat ℝ := ⟨2, 2, fun i j => if i = 1 ∧ j = 1 then 1 else 0⟩

example : netPredict ["A", "B"] (percOutput exPerc) (exNumber 2) = .ok "B" := by
  have hp : ∀ v : ℝ, 0 < v → netPredict ["A", "B"] (percOutput exPerc) (exNumber v) = .ok "B" := by
    intro v hv
    have hi : inputVector (exNumber v) = .ok [1, v] := by
      unfold inputVector
      rw [toVector_ok (exNumber v) [v] rfl]
      simp only [res_bind_ok, res_pure, one_real]
    have ho : percOutput exPerc [1, v] = .ok [0, v] := by
      rw [C118_perceptron exPerc [1, v] rfl]
      simp [netScores, score, exPerc, List.range_succ]
    obtain ⟨k, c, s, e1, e2, e3, e4, e5⟩ := C76_plain ["A", "B"] (percOutput exPerc) (exNumber v) _ _ rfl hi ho rfl
      (by simp) (fun a _ => ord_real a)
    match k with
    | 0 =>
      have := e4 v (by simp)
      simp only [List.getElem?_cons_zero, Option.some.injEq] at e3
      rw [← e3] at this
      simp at this
      linarith
    | 1 =>
      cases e2; exact e1
    | k + 2 => cases e2
  exact C207_perceptron exPerc ["A", "B"] (by decide) rfl (t := 1 / 2) (by norm_num) (by norm_num) exBetween rfl rfl
    (hp 1 (by norm_num)) (hp 3 (by norm_num))

end

end Verif
