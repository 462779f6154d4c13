import Verif.Props.SvmTrain

/-! # C125: the trained SVM computes the decision functions of its two-class problems -/

set_option linter.unusedSectionVars false
set_option linter.unusedVariables false

namespace Verif
open Dbl

theorem addTerms_ok (coef kernel : List ℝ) (s c : Nat) (f g : Nat → ℝ) (z : ℝ)
    (h1 : ∀ k, k < c → coef[s + k]? = some (f k)) (h2 : ∀ k, k < c → kernel[s + k]? = some (g k)) :
    (List.range c).foldlM (Svm.addTerm coef kernel s) z = .ok (z + ∑ k ∈ Finset.range c, f k * g k) := by
  induction c with
  | zero => simp [res_pure]
  | succ c ih =>
    rw [List.range_succ, List.foldlM_append, ih (fun k hk => h1 k (by omega)) (fun k hk => h2 k (by omega)), res_bind_ok]
    simp only [List.foldlM_cons, List.foldlM_nil, Svm.addTerm]
    have e1 : idxR coef (s + c) = .ok (f c) := by rw [idxR_eq_ok]; exact h1 c (by omega)
    have e2 : idxR kernel (s + c) = .ok (g c) := by rw [idxR_eq_ok]; exact h2 c (by omega)
    rw [e1, res_bind_ok, e2, res_bind_ok, res_pure, res_bind_ok]
    simp only [add_real, mul_real]
    rw [Finset.sum_range_succ, add_assoc]; rfl

/-- omitting terms that are zero -/
theorem sum_kept (L : List Nat) (M : Nat) (p : Nat → Bool) (h : Nat → ℝ) (hL : L = (List.range M).filter p)
    (hz : ∀ k, k < M → p k = false → h k = 0) :
    ∑ t ∈ Finset.range L.length, h (L.getD t 0) = ∑ k ∈ Finset.range M, h k := by
  have h1 : ∑ t ∈ Finset.range L.length, h (L.getD t 0) = (L.map h).sum := by
    rw [sum_range_list]
    congr 1
    have := map_getD_range L 0
    conv_rhs => rw [← this]
    rw [List.map_map]; rfl
  have h2 : ∀ M, (∀ k, k < M → p k = false → h k = 0) →
      (((List.range M).filter p).map h).sum = ∑ k ∈ Finset.range M, h k := by
    intro M
    induction M with
    | zero => intro _; simp
    | succ M ih =>
      intro hz
      rw [List.range_succ, List.filter_append, List.map_append, List.sum_append, ih (fun k hk => hz k (by omega)),
        Finset.sum_range_succ]
      congr 1
      cases hp : p M with
      | true => simp [hp]
      | false => simp [hp, hz M (by omega) hp]
  rw [h1, hL, h2 M hz]

/-- `decisionValue` over the stored form of the vectors -/
noncomputable def sparseDecision (p : SvmParam ℝ) (q : NodeL ℝ) (xs : List (NodeL ℝ)) (w : List ℝ) (ρ : ℝ) : ℝ :=
  ∑ k ∈ Finset.range xs.length, w.getD k 0 * kernelValue p q (xs.getD k []) - ρ

theorem sparseDecision_eq (p : SvmParam ℝ) (q : List ℝ) (xs : List (List ℝ)) (w : List ℝ) (ρ : ℝ) :
    sparseDecision p (nodeList q) (xs.map nodeList) w ρ = decisionValue p q xs w ρ := by
  unfold sparseDecision decisionValue
  rw [List.length_map]
  congr 1
  apply Finset.sum_congr rfl
  intro k hk
  have hk' : k < xs.length := Finset.mem_range.mp hk
  have : (xs.map nodeList).getD k [] = nodeList (xs.getD k []) := by simp [hk']
  rw [this, C67_predict_kernel]

section
variable {solve : List (NodeL ℝ) → List ℝ → List ℝ → Res (ℝ × List ℝ)} {d : DD} {Xs : List (List (NodeL ℝ))}
  {W : Nat → Nat → ℝ × List ℝ}

/-- what training leaves in a fresh model -/
structure Trained (d : DD) (Xs : List (List (NodeL ℝ))) (W : Nat → Nat → ℝ × List ℝ) (p : SvmParam ℝ) (nz : List Bool)
    (m : Svm ℝ) : Prop where
  dist : m.dist = d
  rho : m.rho = (classPairs d.size).map (fun q => (W q.1 q.2).1)
  counts : m.svCounts = (List.range d.size).map (fun i => (blk (svBlocks Xs nz) i).length)
  vectors : m.supportVectors = (svBlocks Xs nz).flatten
  filled : ∀ i j, i < j → j < d.size → Filled Xs W nz m.coefs i j
  shape : Shape (d.size - 1) (svBlocks Xs nz).flatten.length m.coefs
  param : m.param = some p
  classes : m.classes = d.size
  problems : m.problems = d.size * (d.size - 1) / 2
  covers : ∀ i j, i < j → j < d.size → Covers Xs W nz i j
  marks : nz.length = Xs.flatten.length

theorem resizeTo_length {α : Type} (n : Nat) (a : α) (l : List α) : (Svm.resizeTo n a l).length = n := by
  unfold Svm.resizeTo
  simp only [List.length_append, List.length_take, List.length_replicate]
  omega

theorem trainSorted_ok (old : Svm ℝ) (sorted : IList ℝ) (p : SvmParam ℝ) (nodes : Inst ℝ → NodeL ℝ)
    (hn : ∀ x ∈ sorted, x.toNodeList = .ok (nodes x)) (hX : sorted.map nodes = Xs.flatten)
    (hd : sorted.classDistribution = d) (h : Solved solve d Xs W)
    (h1 : old.rho = []) (h2 : old.svCounts = []) (h3 : old.supportVectors = []) :
    ∃ m nz, Svm.trainSorted solve old sorted p = .ok m ∧ Trained d Xs W p nz m := by
  have hpairs := classPairs_isPairs d.size
  have hlt : ∀ q ∈ classPairs d.size, q.1 < q.2 ∧ q.2 < d.size := fun q hq => (hpairs.mem q.1 q.2).mp hq
  obtain ⟨nz, e1, l1, _, c1⟩ := trainPairs_ok h (classPairs d.size) ⟨[], List.replicate Xs.flatten.length false⟩ (by simp) hlt
  have hstart : Svm.groupClasses d d.size = .ok ((List.range Xs.length).map (offset Xs)) := by
    unfold Svm.groupClasses
    have := startsOf_ok (Svm.classCount d) Xs (by rw [h.size]; exact h.pos) (fun i hi => h.count i (by rw [← h.size]; exact hi))
    rwa [h.size] at this ⊢
  have ecount : (List.range d.size).mapM (Svm.countMarked d ((List.range Xs.length).map (offset Xs)) nz) =
      .ok ((List.range d.size).map (fun i => (blk (svBlocks Xs nz) i).length)) := by
    apply mapM_ok
    intro i hi
    exact countMarked_ok h nz l1 i (List.mem_range.mp hi)
  have hsl := svBlocks_length Xs nz
  have enz : startsOf (idxR ((List.range d.size).map (fun i => (blk (svBlocks Xs nz) i).length))) d.size =
      .ok ((List.range (svBlocks Xs nz).length).map (offset (svBlocks Xs nz))) := by
    have := startsOf_ok (idxR ((List.range d.size).map (fun i => (blk (svBlocks Xs nz) i).length))) (svBlocks Xs nz)
      (by rw [hsl, h.size]; exact h.pos) (fun i hi => by
        rw [hsl, h.size] at hi
        rw [idxR_eq_ok]; simp [hi])
    rwa [hsl, h.size] at this ⊢
  have hsum : ((List.range d.size).map (fun i => (blk (svBlocks Xs nz) i).length)).sum = (svBlocks Xs nz).flatten.length := by
    rw [List.length_flatten]
    congr 1
    have : d.size = (svBlocks Xs nz).length := by rw [hsl, h.size]
    rw [this]
    have := map_getD_range (svBlocks Xs nz) []
    conv_rhs => rw [← this]
    rw [List.map_map]; rfl
  obtain ⟨coefs, e2, s2, f2⟩ := fillPairs_ok h nz l1 (classPairs d.size) []
    ((Svm.resizeTo (d.size - 1) [] old.coefs).map (Svm.resizeTo (svBlocks Xs nz).flatten.length Dbl.zero))
    (by simpa using hpairs.nodup) (by simpa using hlt)
    ⟨by rw [List.length_map, resizeTo_length], by
      intro row hr
      rw [List.mem_map] at hr
      obtain ⟨r, _, rfl⟩ := hr
      rw [resizeTo_length]⟩ (by simp)
  simp only [List.nil_append, List.length_nil] at e2 f2
  refine ⟨{ dist := d
            rho := (classPairs d.size).map (fun q => (W q.1 q.2).1)
            svCounts := (List.range d.size).map (fun i => (blk (svBlocks Xs nz) i).length)
            supportVectors := (svBlocks Xs nz).flatten
            coefs := coefs
            param := some p
            classes := d.size
            problems := d.size * (d.size - 1) / 2 }, nz, ?_, ?_⟩
  · unfold Svm.trainSorted
    have ex : sorted.mapM Inst.toNodeList = .ok Xs.flatten := by
      rw [mapM_ok (g := nodes) hn, hX]
    rw [ex, res_bind_ok, hd]
    simp only
    rw [hstart, res_bind_ok, e1, res_bind_ok]
    simp only [List.nil_append]
    rw [ecount, res_bind_ok, enz, res_bind_ok, hsum, e2, res_bind_ok]
    rw [h1, h2, h3, marked_flatten Xs nz l1]
    simp only [List.nil_append, List.map_map]
    rfl
  · exact ⟨rfl, rfl, rfl, rfl, fun i j hij hj => f2 (i, j) ((hpairs.mem i j).mpr ⟨hij, hj⟩), s2, rfl, rfl, rfl,
      fun i j hij hj => c1 (i, j) ((hpairs.mem i j).mpr ⟨hij, hj⟩), l1⟩

/-- one half of a decision value -/
theorem half_ok {nz : List Bool} {m : Svm ℝ} (kern : NodeL ℝ → ℝ) (i r : Nat) (w : Nat → ℝ) (row : List ℝ)
    (hi : i < Xs.length) (hrow : m.coefs[r]? = some row)
    (hf : ∀ (t : Nat) k, (kept Xs nz i)[t]? = some k → cell m.coefs r (offset (svBlocks Xs nz) i + t) = some (w k))
    (hz : ∀ k, k < (blk Xs i).length → nz.getD (offset Xs i + k) false = false → w k = 0) (z : ℝ) :
    (List.range (blk (svBlocks Xs nz) i).length).foldlM
        (Svm.addTerm row ((svBlocks Xs nz).flatten.map kern) (offset (svBlocks Xs nz) i)) z =
      .ok (z + ∑ k ∈ Finset.range (blk Xs i).length, w k * kern ((blk Xs i).getD k [])) := by
  have hkl := kept_length Xs nz i hi
  have hget : ∀ t, t < (kept Xs nz i).length → (kept Xs nz i)[t]? = some ((kept Xs nz i).getD t 0) := by
    intro t ht; simp [ht]
  rw [addTerms_ok row _ _ _ (fun t => w ((kept Xs nz i).getD t 0))
    (fun t => kern ((blk Xs i).getD ((kept Xs nz i).getD t 0) [])) z]
  · have := sum_kept (kept Xs nz i) (blk Xs i).length (fun k => nz.getD (offset Xs i + k) false)
      (fun k => w k * kern ((blk Xs i).getD k [])) rfl (fun k hk hf => by rw [hz k hk hf, zero_mul])
    rw [← hkl, this]
  · intro t ht
    rw [← hkl] at ht
    have := hf t _ (hget t ht)
    unfold cell at this
    rw [hrow] at this
    exact this
  · intro t ht
    rw [List.getElem?_map, flatten_get _ _ _ ht, blk_svBlocks Xs nz i hi, List.getElem?_map]
    rw [← hkl] at ht
    rw [hget t ht]; rfl

theorem sparseDecision_append (p : SvmParam ℝ) (q : NodeL ℝ) (xs ys : List (NodeL ℝ)) (w : List ℝ) (ρ : ℝ) :
    sparseDecision p q (xs ++ ys) w ρ =
      ∑ k ∈ Finset.range xs.length, w.getD k 0 * kernelValue p q (xs.getD k []) +
      ∑ k ∈ Finset.range ys.length, w.getD (xs.length + k) 0 * kernelValue p q (ys.getD k []) - ρ := by
  unfold sparseDecision
  rw [List.length_append, Finset.sum_range_add]
  congr 2
  · apply Finset.sum_congr rfl
    intro k hk
    have : k < xs.length := Finset.mem_range.mp hk
    simp [List.getElem?_append, this]
  · apply Finset.sum_congr rfl
    intro k hk
    simp [List.getElem?_append]

theorem predictValues_ok {nz : List Bool} {m : Svm ℝ} {p : SvmParam ℝ} (h : Solved solve d Xs W) (ht : Trained d Xs W p nz m)
    (q : NodeL ℝ) :
    m.predictValues q = .ok ((classPairs d.size).map (fun e =>
      sparseDecision p q (blk Xs e.1 ++ blk Xs e.2) (W e.1 e.2).2 (W e.1 e.2).1)) := by
  have hsl := svBlocks_length Xs nz
  have hlt : ∀ e ∈ classPairs d.size, e.1 < e.2 ∧ e.2 < d.size :=
    fun e he => ((classPairs_isPairs d.size).mem e.1 e.2).mp he
  unfold Svm.predictValues
  have ek : (m.supportVectors.mapM (fun v => do
      let p ← m.getParam
      pure (kernelValue p q v))) = .ok ((svBlocks Xs nz).flatten.map (kernelValue p q)) := by
    rw [ht.vectors]
    apply mapM_ok
    intro v _
    unfold Svm.getParam
    rw [ht.param]; rfl
  have es : startsOf (idxR m.svCounts) m.classes = .ok ((List.range (svBlocks Xs nz).length).map (offset (svBlocks Xs nz))) := by
    have := startsOf_ok (idxR m.svCounts) (svBlocks Xs nz)
      (by rw [hsl, h.size]; exact h.pos) (fun i hi => by
        rw [hsl, h.size] at hi
        rw [ht.counts, idxR_eq_ok]; simp [hi])
    rw [ht.classes, ← h.size, ← hsl]; exact this
  rw [ek, res_bind_ok, es, res_bind_ok, ht.classes]
  have key : ∀ (rest done : List (Nat × Nat)), done ++ rest = classPairs d.size →
      rest.foldlM (Svm.pairValue m ((List.range (svBlocks Xs nz).length).map (offset (svBlocks Xs nz)))
        ((svBlocks Xs nz).flatten.map (kernelValue p q)))
        (done.map (fun e => sparseDecision p q (blk Xs e.1 ++ blk Xs e.2) (W e.1 e.2).2 (W e.1 e.2).1)) =
      .ok ((done ++ rest).map (fun e => sparseDecision p q (blk Xs e.1 ++ blk Xs e.2) (W e.1 e.2).2 (W e.1 e.2).1)) := by
    intro rest
    induction rest with
    | nil => intro done _; simp [res_pure]
    | cons e rest ih =>
      intro done hdone
      obtain ⟨i, j⟩ := e
      have hij := hlt (i, j) (by rw [← hdone]; simp)
      simp only at hij
      have hi' : i < Xs.length := by rw [h.size]; omega
      have hj' : j < Xs.length := by rw [h.size]; exact hij.2
      have hfil := ht.filled i j hij.1 hij.2
      have hcov := ht.covers i j hij.1 hij.2
      have hr1 : j - 1 < m.coefs.length := by rw [ht.shape.rows]; omega
      have hr2 : i < m.coefs.length := by rw [ht.shape.rows]; omega
      have ec1 : idxR m.coefs (j - 1) = .ok m.coefs[j - 1] := by rw [idxR_eq_ok]; simp
      have ec2 : idxR m.coefs i = .ok m.coefs[i] := by rw [idxR_eq_ok]; simp
      have en1 : idxR m.svCounts i = .ok (blk (svBlocks Xs nz) i).length := by
        rw [ht.counts, idxR_eq_ok]
        have : i < d.size := by omega
        simp [this]
      have en2 : idxR m.svCounts j = .ok (blk (svBlocks Xs nz) j).length := by
        rw [ht.counts, idxR_eq_ok]; simp [hij.2]
      have erho : idxR m.rho done.length = .ok (W i j).1 := by
        rw [ht.rho, idxR_eq_ok, ← hdone]; simp
      have step : Svm.pairValue m ((List.range (svBlocks Xs nz).length).map (offset (svBlocks Xs nz)))
          ((svBlocks Xs nz).flatten.map (kernelValue p q))
          (done.map (fun e => sparseDecision p q (blk Xs e.1 ++ blk Xs e.2) (W e.1 e.2).2 (W e.1 e.2).1)) (i, j) =
          .ok ((done ++ [(i, j)]).map (fun e => sparseDecision p q (blk Xs e.1 ++ blk Xs e.2) (W e.1 e.2).2 (W e.1 e.2).1)) := by
        unfold Svm.pairValue
        simp only
        rw [starts_get _ i (by rw [hsl]; exact hi'), res_bind_ok, starts_get _ j (by rw [hsl]; exact hj'), res_bind_ok,
          en1, res_bind_ok, en2, res_bind_ok, ec1, res_bind_ok, ec2, res_bind_ok,
          half_ok (kernelValue p q) i (j - 1) (fun k => (W i j).2.getD k 0) m.coefs[j - 1] hi' (by simp) hfil.1 hcov.1,
          res_bind_ok,
          half_ok (kernelValue p q) j i (fun k => (W i j).2.getD ((blk Xs i).length + k) 0) m.coefs[i] hj' (by simp) hfil.2 hcov.2,
          res_bind_ok, List.length_map, erho, res_bind_ok, res_pure, List.map_append, List.map_singleton,
          sparseDecision_append, sub_real, zero_real, zero_add]
      rw [List.foldlM_cons, step, res_bind_ok, ih (done ++ [(i, j)]) (by simpa using hdone)]
      simp
  have := key (classPairs d.size) [] (by simp)
  simpa using this

end

/-- **C125**: if the first instance has only numeric attributes and all two-class problems are solved,
training succeeds and leaves the list sorted by class; the trained machine computes for every query and
every pair of classes the decision value of the two-class solution, a sum over all instances of both classes
although only the support vectors are stored; it answers with the first of the classes with the most votes. -/
theorem C125_decision_values (solve : List (NodeL ℝ) → List ℝ → List ℝ → Res (ℝ × List ℝ)) (old : Svm ℝ) (l : IList ℝ)
    (p : SvmParam ℝ) (vec : Inst ℝ → List ℝ) (W : String → String → ℝ × List ℝ) (ps : List (Nat × Nat))
    (fresh : old.rho = [] ∧ old.svCounts = [] ∧ old.supportVectors = [])
    (hne : ∀ x, l[0]? = some x → discreteCheck x = true) (hl : l ≠ [])
    (hn : ∀ x ∈ l, x.continuousAttributes = .ok (vec x))
    (hsolve : ∀ a b, a < b → a ∈ l.map Inst.label → b ∈ l.map Inst.label →
      Svm.solveSingle solve ((twoClass p l vec a b).vectors.map nodeList) (twoClass p l vec a b).labels = .ok (W a b))
    (hps : IsPairs l.classDistribution.size ps) :
    ∃ m, Svm.train solve old l p = .ok (m, l.sortByClass) ∧
      ∀ x q, x.continuousAttributes = .ok q →
        ∃ values, m.predictValues (nodeList q) = .ok values ∧
          values = ps.map (fun e =>
            let a := l.classDistribution.getItems.getD e.1 ""
            let b := l.classDistribution.getItems.getD e.2 ""
            decisionValue p q (classVectors l vec a ++ classVectors l vec b) (W a b).2 (W a b).1) ∧
          ∃ (c : Nat) (label : String), m.predict x = .ok label ∧ l.classDistribution.getItems[c]? = some label ∧
            ∀ c', c' < l.classDistribution.size → votesFor ps values c' ≤ votesFor ps values c ∧
              (c' < c → votesFor ps values c' < votesFor ps values c) := by
  obtain ⟨d, hd⟩ : ∃ d, d = l.classDistribution := ⟨_, rfl⟩
  have hc := C10_class_distribution l
  rw [← hd] at hc hps ⊢
  obtain ⟨Xs, hXs⟩ : ∃ Xs, Xs = d.getItems.map (fun c => (classVectors l vec c).map nodeList) := ⟨_, rfl⟩
  have hXl : Xs.length = d.size := by rw [hXs, List.length_map, items_length]
  have hblk : ∀ i, i < d.size → blk Xs i = (classVectors l vec (d.getItems.getD i "")).map nodeList := by
    intro i hi
    have hi' : i < d.getItems.length := by rw [items_length]; exact hi
    rw [hXs]
    unfold blk
    simp [hi']
  have hget : ∀ i, i < d.size → d.getItems.getD i "" ∈ l.map Inst.label := by
    intro i hi
    have hi' : i < d.getItems.length := by rw [items_length]; exact hi
    rw [← hc.mem_items]
    have : d.getItems.getD i "" = d.getItems[i] := by simp [hi']
    rw [this]; exact List.getElem_mem hi'
  have hlt : ∀ i j, i < j → j < d.size → d.getItems.getD i "" < d.getItems.getD j "" := by
    intro i j hij hj
    have hj' : j < d.getItems.length := by rw [items_length]; exact hj
    have hi' : i < d.getItems.length := by omega
    have e1 : d.getItems.getD i "" = d.getItems[i] := by simp [hi']
    have e2 : d.getItems.getD j "" = d.getItems[j] := by simp [hj']
    rw [e1, e2]
    exact List.pairwise_iff_getElem.mp hc.sorted i j hi' hj' hij
  have hsv : ∀ i j, i < j → j < d.size → Svm.solveSingle solve (blk Xs i ++ blk Xs j)
      (pairLabels (blk Xs i).length (blk Xs j).length) = .ok (W (d.getItems.getD i "") (d.getItems.getD j "")) := by
    intro i j hij hj
    rw [hblk i (by omega), hblk j hj]
    have := hsolve _ _ (hlt i j hij hj) (hget i (by omega)) (hget j hj)
    simp only [twoClass, List.map_append] at this
    simp only [pairLabels, List.length_map, ofInt_real]
    push_cast
    exact this
  have hs : Solved solve d Xs (fun i j => W (d.getItems.getD i "") (d.getItems.getD j "")) := by
    refine ⟨hXl, by rw [hd]; exact distribution_size_pos l hl, ?_, hsv, ?_⟩
    · intro i hi
      unfold Svm.classCount
      have hi' : i < d.getItems.length := by rw [items_length]; exact hi
      have e : idxR d.getItems i = .ok (d.getItems.getD i "") := by rw [idxR_eq_ok]; simp [hi']
      rw [e, res_bind_ok, hblk i hi]
      unfold classVectors
      rw [List.length_map, List.length_map, (C14_blocks l).2, ← hd]; rfl
    · intro i j hij hj
      have := hsv i j hij hj
      unfold Svm.solveSingle at this
      rw [bind_ok_iff] at this
      obtain ⟨r, _, h2⟩ := this
      rw [bind_ok_iff] at h2
      obtain ⟨a, h3, h4⟩ := h2
      have := (mapM_ok_inv h3).length_eq
      have h5 := Except.ok.inj h4
      rw [← h5, ← this]
      simp [pairLabels]
  have hX : l.sortByClass.map (fun x => nodeList (vec x)) = Xs.flatten := by
    rw [sort_flatten, List.map_flatten, hXs]
    unfold classBlocks classVectors
    rw [List.map_map, ← hd]
    simp only [List.map_map]; rfl
  have hn' : ∀ x ∈ l.sortByClass, x.toNodeList = .ok (nodeList (vec x)) := by
    intro x hx
    unfold Inst.toNodeList
    rw [hn x ((stableSort_perm _ _).mem_iff.mp hx)]; rfl
  obtain ⟨m, nz, e, ht⟩ := trainSorted_ok old l.sortByClass p _ hn' hX (by rw [sort_distribution, hd]) hs fresh.1 fresh.2.1
    fresh.2.2
  refine ⟨m, ?_, ?_⟩
  · unfold Svm.train IList.get
    obtain ⟨x, t, rfl⟩ := List.exists_cons_of_ne_nil hl
    have e0 : atR (x :: t) 0 = .ok x := by rw [atR_eq_ok]; rfl
    rw [e0, res_bind_ok, hne x rfl]
    simp only [if_true]
    rw [e, res_bind_ok]; rfl
  · intro x q hq
    obtain ⟨values, hval⟩ : ∃ values, values = ps.map (fun e =>
            let a := d.getItems.getD e.1 ""
            let b := d.getItems.getD e.2 ""
            decisionValue p q (classVectors l vec a ++ classVectors l vec b) (W a b).2 (W a b).1) := ⟨_, rfl⟩
    have hpv : m.predictValues (nodeList q) = .ok values := by
      rw [predictValues_ok hs ht (nodeList q), hval, hps.unique]
      congr 1
      apply List.map_congr_left
      rintro ⟨i, j⟩ he
      have hij := ((classPairs_isPairs d.size).mem i j).mp he
      simp only
      rw [hblk i (by omega), hblk j hij.2, ← List.map_append, sparseDecision_eq]
    refine ⟨values, hpv, hval, ?_⟩
    have hlen : values.length = d.size * (d.size - 1) / 2 := by
      rw [hval, List.length_map, hps.unique, classPairs_length]
    obtain ⟨votes, label, ev, _, _, _, b, hb, hbl, hmax⟩ := C72_voting d values ps hs.pos hps hlen
    refine ⟨b, label, ?_, hbl, hmax⟩
    unfold Svm.predict Inst.toNodeList
    rw [hq, res_bind_ok, res_pure, res_bind_ok, hpv, res_bind_ok, ht.dist, ht.classes, ev, res_bind_ok]; rfl

end Verif
