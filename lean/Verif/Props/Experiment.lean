import Verif.Model.DblReal
import Verif.Model.DblXR
import Verif.Spec.Experiment
import Verif.Props.Partition

/-! # Properties C84-C87, C108, C109: experiments -/

set_option linter.unusedSectionVars false

namespace Verif
open Dbl Exper

section
variable {M F : Type} [Dbl F]

/-! ## folds -/

theorem slicesOut_aux (lo hi : Nat) (h : lo ≤ hi) (l : List (Inst F)) : ∀ s : Nat,
    ((l.zipIdx s).filter (fun p => decide (p.2 < lo) || decide (hi ≤ p.2))).map Prod.fst =
      l.take (lo - s) ++ l.drop (hi - s) := by
  induction l with
  | nil => simp
  | cons x l ih =>
    intro s
    rw [List.zipIdx_cons, List.filter_cons]
    by_cases h1 : s < lo
    · have e1 : lo - s = (lo - (s + 1)) + 1 := by omega
      have e2 : hi - s = (hi - (s + 1)) + 1 := by omega
      simp only [h1, decide_true, Bool.true_or, if_true, List.map_cons, ih, e1, e2, List.take_succ_cons,
        List.drop_succ_cons, List.cons_append]
    · have e1 : lo - s = 0 := by omega
      have e1' : lo - (s + 1) = 0 := by omega
      by_cases h2 : hi ≤ s
      · have e2 : hi - s = 0 := by omega
        have e2' : hi - (s + 1) = 0 := by omega
        simp [h1, h2, ih, e1, e2, e1', e2']
      · have e2 : hi - s = (hi - (s + 1)) + 1 := by omega
        simp [h1, h2, ih, e1, e1', e2]

theorem div_mono_step (K N k : Nat) : k * N / K ≤ (k + 1) * N / K :=
  Nat.div_le_div_right (Nat.mul_le_mul_right N (Nat.le_succ k))

theorem div_le_total {K N k : Nat} (hk : k ≤ K) : k * N / K ≤ N := by
  apply Nat.div_le_of_le_mul
  exact Nat.mul_le_mul_right N hk

theorem slicesOut_eq (l : IList F) (K k : Nat) :
    slicesOut l K k = l.take (k * l.length / K) ++ l.drop ((k + 1) * l.length / K) := by
  have := slicesOut_aux _ _ (div_mono_step K l.length k) l 0
  simpa [slicesOut] using this

theorem range'_filterMap (l : List (Inst F)) : ∀ (n lo : Nat),
    (List.range' lo n).filterMap (fun i => l[i]?) = (l.drop lo).take n := by
  intro n
  induction n with
  | zero => simp
  | succ n ih =>
    intro lo
    rw [List.range'_succ]
    by_cases h : lo < l.length
    · rw [List.filterMap_cons, List.getElem?_eq_getElem h]
      simp only [ih]
      rw [List.drop_eq_getElem_cons h]
      rfl
    · rw [List.filterMap_cons, List.getElem?_eq_none (by omega)]
      simp only [ih]
      rw [List.drop_eq_nil_of_le (by omega), List.drop_eq_nil_of_le (by omega)]
      simp

theorem slice_eq (l : IList F) (K k : Nat) :
    slice l K k = (l.drop (k * l.length / K)).take ((k + 1) * l.length / K - k * l.length / K) :=
  range'_filterMap l _ _

theorem take_slice (l : IList F) (K k : Nat) :
    l.take (k * l.length / K) ++ slice l K k = l.take ((k + 1) * l.length / K) := by
  have h := div_mono_step K l.length k
  rw [slice_eq, ← List.take_add]
  congr 1
  omega

theorem slice_length (l : IList F) {K k : Nat} (hk : k < K) :
    (slice l K k).length = (k + 1) * l.length / K - k * l.length / K := by
  have h := div_le_total (N := l.length) (k := k + 1) (K := K) hk
  rw [slice_eq, List.length_take, List.length_drop]
  omega

theorem fold_complementary (l : IList F) (K k : Nat) : (slicesOut l K k ++ slice l K k).Perm l := by
  have h := take_slice l K k
  rw [slicesOut_eq]
  have : (l.take (k * l.length / K) ++ slice l K k) ++ l.drop ((k + 1) * l.length / K) = l := by
    rw [h, List.take_append_drop]
  conv_rhs => rw [← this]
  rw [List.append_assoc, List.append_assoc]
  exact List.Perm.append_left _ List.perm_append_comm

theorem slices_flatten (l : IList F) {K : Nat} (hK : 0 < K) :
    ((List.range K).map (slice l K)).flatten = l := by
  have h : ∀ j, ((List.range j).map (slice l K)).flatten = l.take (j * l.length / K) := by
    intro j
    induction j with
    | zero => simp
    | succ j ih => rw [List.range_succ, List.map_append, List.flatten_append, ih]; simp [take_slice]
  rw [h K, Nat.mul_div_cancel_left _ hK, List.take_length]

theorem shuffle_perm' (l : IList F) {σ : List Nat} (hσ : IsPermutation σ l.length) : (l.shuffle σ).Perm l :=
  C15_shuffle_perm l σ hσ

/-- the (training set, test set) pairs of a cross validation -/
def CrossVal.pairs (cv : CrossVal F) (K : Nat) : List (IList F × IList F) :=
  (List.range K).map (fun i => (cv.trainFold i, cv.testFold i))

theorem kfold_valid (order : Nat → List Nat) (l : IList F) {K : Nat} (hK : 0 < K)
    (ho : IsPermutation (order l.length) l.length) :
    IsCrossValidation K l (CrossVal.pairs (CrossVal.kfold order l K) K) := by
  have hp := shuffle_perm' l ho
  refine ⟨by simp [CrossVal.pairs], ?_, ?_⟩
  · intro f hf
    obtain ⟨i, _, rfl⟩ := List.mem_map.1 hf
    exact (fold_complementary _ K i).trans hp
  · have e : (CrossVal.pairs (CrossVal.kfold order l K) K).map Prod.snd =
        (List.range K).map (slice (l.shuffle (order l.length)) K) := by
      simp [CrossVal.pairs, CrossVal.kfold, List.map_map, Function.comp_def]
    rw [e, slices_flatten _ hK]
    exact hp

theorem shuffledLists_perm (order : Nat → Nat → List Nat) (ho : ∀ c n, IsPermutation (order c n) n)
    (ps : List (IList F)) : (shuffledLists order ps).flatten.Perm ps.flatten := by
  unfold shuffledLists
  have : ∀ s, ((ps.zipIdx s).map (fun p => p.1.shuffle (order p.2 p.1.length))).flatten.Perm ps.flatten := by
    induction ps with
    | nil => intro s; exact List.Perm.refl _
    | cons p ps ih =>
      intro s
      rw [List.zipIdx_cons, List.map_cons, List.flatten_cons, List.flatten_cons]
      exact (shuffle_perm' p (ho s p.length)).append (ih (s + 1))
  exact this 0

theorem flatMap_complementary (ls : List (IList F)) (K k : Nat) :
    (ls.flatMap (fun l => slicesOut l K k) ++ ls.flatMap (fun l => slice l K k)).Perm ls.flatten := by
  refine (List.flatMap_append_perm ls _ _).trans ?_
  induction ls with
  | nil => exact List.Perm.refl _
  | cons l ls ih =>
    rw [List.flatMap_cons, List.flatten_cons]
    exact (fold_complementary l K k).append ih

theorem flatMap_swap_perm {α β γ : Type} (f : α → β → List γ) (xs : List α) (ys : List β) :
    (xs.flatMap (fun x => ys.flatMap (f x))).Perm (ys.flatMap (fun y => xs.flatMap (fun x => f x y))) := by
  induction xs with
  | nil => simp
  | cons x xs ih =>
    simp only [List.flatMap_cons]
    exact (List.Perm.append_left _ ih).trans (List.flatMap_append_perm ys _ _)

theorem stratified_valid (order : Nat → Nat → List Nat) (ho : ∀ c n, IsPermutation (order c n) n)
    (ps : List (IList F)) {K : Nat} (hK : 0 < K) :
    IsCrossValidation K ps.flatten (CrossVal.pairs (CrossVal.stratified order ps K) K) := by
  have hp := shuffledLists_perm order ho ps
  refine ⟨by simp [CrossVal.pairs], ?_, ?_⟩
  · intro f hf
    obtain ⟨i, _, rfl⟩ := List.mem_map.1 hf
    exact (flatMap_complementary _ K i).trans hp
  · refine List.Perm.trans ?_ hp
    generalize hls : shuffledLists order ps = ls
    have e : ((CrossVal.pairs (CrossVal.stratified order ps K) K).map Prod.snd).flatten =
        (List.range K).flatMap (fun k => ls.flatMap (fun l => slice l K k)) := by
      simp [CrossVal.pairs, CrossVal.stratified, List.map_map, Function.comp_def, List.flatMap, hls]
    rw [e]
    refine (flatMap_swap_perm (fun k l => slice l K k) _ ls).trans ?_
    have : ls.flatMap (fun l => (List.range K).flatMap (fun k => slice l K k)) = ls.flatten := by
      rw [List.flatMap]
      congr 1
      conv_rhs => rw [← List.map_id ls]
      apply List.map_congr_left
      intro l _
      exact slices_flatten l hK
    rw [this]

theorem IsCrossValidation.perm {α : Type} {K : Nat} {d d' : List α} {fs : List (List α × List α)}
    (h : IsCrossValidation K d fs) (hp : d.Perm d') : IsCrossValidation K d' fs :=
  ⟨h.number, fun f hf => (h.complementary f hf).trans hp, h.tested_once.trans hp⟩

/-! ## running -/

theorem Session.append {L : Learner M F} {m m1 m2 : M} {a b : List (IList F × IList F)} {ps qs : List (Perf F)}
    (h1 : Session L m a ps m1) (h2 : Session L m1 b qs m2) : Session L m (a ++ b) (ps ++ qs) m2 := by
  induction h1 with
  | nil => exact h2
  | cons ht hte _ ih => exact .cons ht hte (ih h2)

theorem Session.length {L : Learner M F} {m m' : M} {a : List (IList F × IList F)} {ps : List (Perf F)}
    (h : Session L m a ps m') : ps.length = a.length := by
  induction h with
  | nil => rfl
  | cons _ _ _ ih => simp [ih]

/-- a loop of `trainAndTest` is a session -/
theorem loop_session (L : Learner M F) (pairs : List (IList F × IList F)) : ∀ (m : M) (e : ExpPerf F)
    (m' : M) (e' : ExpPerf F),
    pairs.foldlM (fun st p => trainAndTest L st p.1 p.2) (m, e) = .ok (m', e') →
    ∃ ps, e'.results = e.results ++ ps ∧ Session L m pairs ps m' := by
  induction pairs with
  | nil => intro m e m' e' h; cases h; exact ⟨[], by simp, .nil m⟩
  | cons p pairs ih =>
    intro m e m' e' h
    rw [List.foldlM_cons, bind_ok_iff] at h
    obtain ⟨⟨m1, e1⟩, h1, h⟩ := h
    unfold trainAndTest at h1
    simp only [bind_ok_iff, res_pure] at h1
    obtain ⟨mt, ht, q, hq, h1⟩ := h1
    cases h1
    obtain ⟨ps, hps, hs⟩ := ih _ _ _ _ h
    exact ⟨q :: ps, by simp [hps, ExpPerf.add], .cons ht hq hs⟩

/-- and when training and testing never fail, the loop succeeds -/
theorem loop_total (L : Learner M F) (ht : ∀ m d, ∃ m', L.train m d = .ok m') (hte : ∀ m d, ∃ p, L.test m d = .ok p)
    (pairs : List (IList F × IList F)) : ∀ (st : M × ExpPerf F),
    ∃ st', pairs.foldlM (fun st p => trainAndTest L st p.1 p.2) st = .ok st' := by
  induction pairs with
  | nil => intro st; exact ⟨st, rfl⟩
  | cons p pairs ih =>
    intro st
    obtain ⟨m1, h1⟩ := ht st.1 p.1
    obtain ⟨q, hq⟩ := hte m1 p.2
    obtain ⟨st', h'⟩ := ih (m1, st.2.add q)
    refine ⟨st', ?_⟩
    rw [List.foldlM_cons]
    simp only [trainAndTest, h1, hq, res_bind_ok, res_pure]
    exact h'

theorem runFolds_eq (L : Learner M F) (K : Nat) (cv : CrossVal F) (st : M × ExpPerf F) :
    runFolds L K cv st = (CrossVal.pairs cv K).foldlM (fun st p => trainAndTest L st p.1 p.2) st := by
  unfold runFolds CrossVal.pairs
  rw [List.foldlM_map]

/-- the pairs of a cross validation whose results are measured on a separate test set -/
def CrossVal.pairsSeparate (cv : CrossVal F) (K : Nat) (testSet : IList F) : List (IList F × IList F) :=
  (List.range K).map (fun i => (cv.trainFold i, testSet))

theorem runFoldsSeparate_eq (L : Learner M F) (K : Nat) (cv : CrossVal F) (te : IList F) (st : M × ExpPerf F) :
    runFoldsSeparate L K cv te st =
      (CrossVal.pairsSeparate cv K te).foldlM (fun st p => trainAndTest L st p.1 p.2) st := by
  unfold runFoldsSeparate CrossVal.pairsSeparate
  rw [List.foldlM_map]

/-- **C84.** A K-fold run makes exactly `K` trainings and tests, in fold order, on a K-fold cross
validation of the data; its results are those of the tests. -/
theorem C84_kfold (L : Learner M F) {rng : Rng} (hr : Rng.Valid rng) {K : Nat} (hK : 0 < K) (seed : Int)
    (m m' : M) (data : IList F) (e : ExpPerf F) (h : kFoldRun L rng K seed m data = .ok (m', e)) :
    ∃ folds, IsCrossValidation K data folds ∧ Session L m folds e.results m' ∧ e.results.length = K := by
  unfold kFoldRun at h
  rw [runFolds_eq] at h
  obtain ⟨ps, hps, hs⟩ := loop_session L _ _ _ _ _ h
  have hcv := kfold_valid (rng.foldOrder seed 0) data hK (hr.fold seed 0 data.length)
  have he : e.results = ps := by simpa [ExpPerf.new] using hps
  exact ⟨_, hcv, by rw [he]; exact hs, by rw [he, hs.length, hcv.number]⟩

/-- **C84.** The same for the stratified run. -/
theorem C84_stratified (L : Learner M F) {rng : Rng} (hr : Rng.Valid rng) {K : Nat} (hK : 0 < K) (seed : Int)
    (m m' : M) (data : IList F) (e : ExpPerf F) (h : stratifiedKFoldRun L rng K seed m data = .ok (m', e)) :
    ∃ folds, IsCrossValidation K data folds ∧ Session L m folds e.results m' ∧ e.results.length = K := by
  obtain ⟨cs, ps, _, hps, _, _, hperm⟩ := C20_partition_by_class data
  unfold stratifiedKFoldRun at h
  rw [hps] at h
  simp only [res_bind_ok] at h
  rw [runFolds_eq] at h
  obtain ⟨rs, hrs, hs⟩ := loop_session L _ _ _ _ _ h
  have hcv := (stratified_valid (rng.foldOrder seed) (hr.fold seed) ps.getLists hK).perm hperm
  have he : e.results = rs := by simpa [ExpPerf.new] using hrs
  exact ⟨_, hcv, by rw [he]; exact hs, by rw [he, hs.length, hcv.number]⟩

/-- **C84.** Whenever training and testing never fail, neither do the two runs. -/
theorem C84_succeeds (L : Learner M F) (ht : ∀ m d, ∃ m', L.train m d = .ok m')
    (hte : ∀ m d, ∃ p, L.test m d = .ok p) (rng : Rng) (K : Nat) (seed : Int) (m : M) (data : IList F) :
    (∃ r, kFoldRun L rng K seed m data = .ok r) ∧ (∃ r, stratifiedKFoldRun L rng K seed m data = .ok r) := by
  refine ⟨?_, ?_⟩
  · unfold kFoldRun; rw [runFolds_eq]; exact loop_total L ht hte _ _
  · obtain ⟨cs, ps, _, hps, _⟩ := C20_partition_by_class data
    unfold stratifiedKFoldRun
    rw [hps]
    simp only [res_bind_ok]
    rw [runFolds_eq]; exact loop_total L ht hte _ _

/-- **C84.** In a cross validation of data without repetitions no instance of a test set is in the
training set of the same fold. -/
theorem C84_disjoint {α : Type} {K : Nat} {data : List α} {folds : List (List α × List α)}
    (h : IsCrossValidation K data folds) (hnd : data.Nodup) : ∀ f ∈ folds, ∀ x ∈ f.2, x ∉ f.1 := by
  intro f hf x hx hx1
  have := ((h.complementary f hf).nodup_iff).2 hnd
  exact (List.nodup_append.1 this).2.2 x hx1 x hx rfl

/-! ## C109: fold sizes -/

/-- the size of slice `k` is `n/K` rounded down or up -/
theorem C109_sizes {K k n : Nat} (hk : k < K) :
    n / K ≤ (k + 1) * n / K - k * n / K ∧ (k + 1) * n / K - k * n / K ≤ (n + K - 1) / K := by
  have hK : 0 < K := by omega
  have e : (k + 1) * n = k * n + n := by ring
  rw [e]
  refine ⟨?_, ?_⟩
  · have : k * n / K + n / K ≤ (k * n + n) / K := Nat.div_add_div_le_add_div
    omega
  · have h : (k * n + n) / K ≤ k * n / K + (n + K - 1) / K := by
      rw [Nat.div_le_iff_le_mul_add_pred hK]
      have h1 := Nat.div_add_mod (k * n) K
      have h2 := Nat.div_add_mod (n + K - 1) K
      have h3 := Nat.mod_lt (k * n) hK
      have h4 := Nat.mod_lt (n + K - 1) hK
      rw [Nat.mul_add]
      omega
    exact Nat.sub_le_iff_le_add'.2 h

/-- **C109.** Test folds of the plain run hold `⌊n/K⌋` or `⌈n/K⌉` instances. -/
theorem C109_fold_size {rng : Rng} (hr : Rng.Valid rng) {K k : Nat} (hk : k < K) (seed : Int) (data : IList F) :
    data.length / K ≤ ((CrossVal.kfold (rng.foldOrder seed 0) data K).testFold k).length ∧
    ((CrossVal.kfold (rng.foldOrder seed 0) data K).testFold k).length ≤ (data.length + K - 1) / K := by
  have hl := (shuffle_perm' data (hr.fold seed 0 data.length)).length_eq
  show _ ≤ (slice _ K k).length ∧ (slice _ K k).length ≤ _
  rw [slice_length _ hk, hl]
  exact C109_sizes hk

/-- **C109.** In the stratified run every test fold holds, of every class `c` with `n_c`
instances, `⌊n_c/K⌋` or `⌈n_c/K⌉` instances. -/
theorem C109_class_sizes {rng : Rng} (hr : Rng.Valid rng) {K k : Nat} (hk : k < K) (seed : Int)
    (data : IList F) (ps : Parts F) (hps : Parts.byClass data = .ok ps) (c : String) :
    let n := (data.map Inst.label).count c
    let t := (((CrossVal.stratified (rng.foldOrder seed) ps K).testFold k).map Inst.label).count c
    n / K ≤ t ∧ t ≤ (n + K - 1) / K := by
  intro n t
  obtain ⟨cs, ps', hcs, hps', he, _, _⟩ := C20_partition_by_class data
  rw [hps] at hps'
  cases hps'
  suffices h : t = (k + 1) * n / K - k * n / K by rw [h]; exact C109_sizes hk
  -- general statement about the class lists
  have key : ∀ (cs : List String), cs.Nodup → ∀ s,
      (((((cs.map (fun c => data.filter (fun x => x.label == c))).zipIdx s).map
        (fun (p : IList F × Nat) => p.1.shuffle (rng.foldOrder seed p.2 p.1.length))).flatMap (fun l => slice l K k)).map Inst.label).count c =
      if c ∈ cs then (k + 1) * n / K - k * n / K else 0 := by
    intro cs
    induction cs with
    | nil => intro _ s; simp
    | cons d cs ih =>
      intro hnd s
      rw [List.nodup_cons] at hnd
      rw [List.map_cons, List.zipIdx_cons, List.map_cons, List.flatMap_cons, List.map_append, List.count_append,
        ih hnd.2 (s + 1)]
      have hp := shuffle_perm' (data.filter (fun x => x.label == d))
        (hr.fold seed s (data.filter (fun x => x.label == d)).length)
      have hlab : ∀ x ∈ slice (IList.shuffle (data.filter (fun x => x.label == d))
          (rng.foldOrder seed s (data.filter (fun x => x.label == d)).length)) K k, x.label = d := by
        intro x hx
        rw [slice_eq] at hx
        have := hp.mem_iff.1 (List.mem_of_mem_drop (List.mem_of_mem_take hx))
        simpa using (List.mem_filter.1 this).2
      have hcount : ((slice (IList.shuffle (data.filter (fun x => x.label == d))
          (rng.foldOrder seed s (data.filter (fun x => x.label == d)).length)) K k).map Inst.label).count c =
          if c = d then (k + 1) * n / K - k * n / K else 0 := by
        have hrep := List.eq_replicate_of_mem (a := d) (l := (slice (IList.shuffle (data.filter (fun x => x.label == d))
          (rng.foldOrder seed s (data.filter (fun x => x.label == d)).length)) K k).map Inst.label)
          (by intro b hb; obtain ⟨x, hx, rfl⟩ := List.mem_map.1 hb; exact hlab x hx)
        rw [hrep, List.count_replicate, List.length_map, slice_length _ hk, hp.length_eq]
        by_cases hcd : c = d
        · subst hcd
          have hn : (data.filter (fun x => x.label == c)).length = n := by
            show _ = (data.map Inst.label).count c
            rw [List.count, List.countP_map, List.countP_eq_length_filter]; rfl
          simp [hn]
        · have : ¬ (d == c) = true := by simpa using fun h => hcd h.symm
          rw [if_neg this, if_neg hcd]
      rw [hcount]
      by_cases hcd : c = d
      · subst hcd; simp [hnd.1]
      · simp [hcd]
  have ht : t = if c ∈ cs then (k + 1) * n / K - k * n / K else 0 := by
    have := key cs hcs.nodup 0
    rw [← he] at this
    exact this
  rw [ht]
  by_cases hc : c ∈ cs
  · simp [hc]
  · rw [if_neg hc]
    have hn0 : n = 0 := by
      apply List.count_eq_zero_of_not_mem
      rwa [← hcs.mem_iff]
    simp [hn0]

/-! ## C86: repetitions -/

theorem repeat_loop {α : Type} (L : Learner M F) (pairs : List (IList F × IList F)) (xs : List α)
    (f : M × ExpPerf F → Res (M × ExpPerf F))
    (hf : ∀ st, f st = pairs.foldlM (fun st p => trainAndTest L st p.1 p.2) st) : ∀ (st : M × ExpPerf F),
    xs.foldlM (fun st _ => f st) st =
      (List.replicate xs.length pairs).flatten.foldlM (fun st p => trainAndTest L st p.1 p.2) st := by
  induction xs with
  | nil => intro st; rfl
  | cons x xs ih =>
    intro st
    rw [List.foldlM_cons, List.length_cons, List.replicate_succ, List.flatten_cons, foldlM_append', hf]
    congr 1
    funext s
    exact ih s

theorem mx_session (L : Learner M F) {K R : Nat} {pairs : List (IList F × IList F)} (hn : pairs.length = K)
    {f : M × ExpPerf F → Res (M × ExpPerf F)}
    (hf : ∀ st, f st = pairs.foldlM (fun st p => trainAndTest L st p.1 p.2) st) {m m' : M} {e : ExpPerf F}
    (h : (List.range R).foldlM (fun st _ => f st) (m, ExpPerf.new) = .ok (m', e)) :
    Session L m (List.replicate R pairs).flatten e.results m' ∧ e.results.length = R * K := by
  rw [repeat_loop L pairs _ f hf, List.length_range] at h
  obtain ⟨ps, hps, hs⟩ := loop_session L _ _ _ _ _ h
  have he : e.results = ps := by simpa [ExpPerf.new] using hps
  refine ⟨by rw [he]; exact hs, ?_⟩
  rw [he, hs.length]
  simp [hn]

/-- **C86 (what holds).** An MxK run yields exactly `M·K` results; all repetitions go through one
and the same K-fold cross validation of the data. The full property also asks for different
foldings, which the code does not provide, see `C86_refuted`. -/
theorem C86_partial (L : Learner M F) {rng : Rng} (hr : Rng.Valid rng) {R K : Nat} (hK : 0 < K) (seed : Int)
    (m m' : M) (data : IList F) (e : ExpPerf F)
    (h : mxKFoldRun L rng R K seed m data = .ok (m', e) ∨ stratifiedMxKFoldRun L rng R K seed m data = .ok (m', e)) :
    ∃ folds, IsCrossValidation K data folds ∧ Session L m (List.replicate R folds).flatten e.results m' ∧
      e.results.length = R * K := by
  rcases h with h | h
  · unfold mxKFoldRun at h
    have hcv := kfold_valid (rng.foldOrder seed 0) data hK (hr.fold seed 0 data.length)
    obtain ⟨h1, h2⟩ := mx_session L hcv.number (fun st => runFolds_eq L K _ st) h
    exact ⟨_, hcv, h1, h2⟩
  · obtain ⟨cs, ps, _, hps, _, _, hperm⟩ := C20_partition_by_class data
    unfold stratifiedMxKFoldRun at h
    simp only [hps, res_bind_ok] at h
    have hcv := (stratified_valid (rng.foldOrder seed) (hr.fold seed) ps.getLists hK).perm hperm
    obtain ⟨h1, h2⟩ := mx_session L hcv.number (fun st => runFolds_eq L K _ st) h
    exact ⟨_, hcv, h1, h2⟩

/-! ## C87: bootstrap -/

/-- **C87.** The i-th result is measured on the whole data set after training on the sample drawn
with seed `i + seed`. -/
theorem C87_bootstrap (L : Learner M F) (rng : Rng) (B : Nat) (seed : Int) (m m' : M) (data : IList F)
    (e : ExpPerf F) (h : bootstrapRun L rng B seed m data = .ok (m', e)) :
    Session L m ((List.range B).map (fun (i : Nat) => (data.bootstrap (rng.draws ((i : Int) + seed) data.length), data)))
      e.results m' ∧ e.results.length = B := by
  unfold bootstrapRun at h
  rw [← List.foldlM_map (g := fun st (p : IList F × IList F) => trainAndTest L st p.1 p.2)
    (f := fun (i : Nat) => (data.bootstrap (rng.draws ((i : Int) + seed) data.length), data))] at h
  obtain ⟨ps, hps, hs⟩ := loop_session L _ _ _ _ _ h
  have he : e.results = ps := by simpa [ExpPerf.new] using hps
  exact ⟨by rw [he]; exact hs, by rw [he, hs.length]; simp⟩

/-- **C87.** Every sample has as many instances as the data set, all of them from it. -/
theorem C87_sample {rng : Rng} (hr : Rng.Valid rng) (seed : Int) (data : IList F) :
    (data.bootstrap (rng.draws seed data.length)).length = data.length ∧
    ∀ x ∈ data.bootstrap (rng.draws seed data.length), x ∈ data := by
  obtain ⟨hl, hd⟩ := hr.draws seed data.length
  refine ⟨?_, ?_⟩
  · unfold IList.bootstrap
    have : ∀ (ds : List Nat), (∀ i ∈ ds, i < data.length) → (ds.filterMap (fun i => data[i]?)).length = ds.length := by
      intro ds
      induction ds with
      | nil => simp
      | cons i ds ih =>
        intro h
        rw [List.filterMap_cons, List.getElem?_eq_getElem (h i (by simp))]
        simp [ih (fun j hj => h j (by simp [hj]))]
    rw [this _ hd, hl]
  · intro x hx
    unfold IList.bootstrap at hx
    obtain ⟨i, _, hi⟩ := List.mem_filterMap.1 hx
    exact List.mem_of_getElem? hi

/-! ## C108: single runs -/

/-- **C108.** A single run with `K` trains once and tests once; the two sets are complementary
parts of the data, and the test set holds `⌊n/K⌋` instances. -/
theorem C108_single_run (L : Learner M F) {rng : Rng} (hr : Rng.Valid rng) {K : Nat} (hK : 0 < K) (seed : Int)
    (m m' : M) (data : IList F) (p : Perf F) (h : singleRunWithK L rng K seed m data = .ok (m', p)) :
    ∃ tr te, (tr ++ te).Perm data ∧ te.length = data.length / K ∧ L.train m tr = .ok m' ∧ L.test m' te = .ok p := by
  unfold singleRunWithK at h
  simp only [bind_ok_iff, res_pure] at h
  obtain ⟨m1, h1, q, hq, h⟩ := h
  cases h
  have hp := shuffle_perm' data (hr.fold seed 0 data.length)
  refine ⟨_, _, (fold_complementary _ K 0).trans hp, ?_, h1, hq⟩
  rw [slice_length _ hK, hp.length_eq]; simp

/-- **C108.** The stratified single run. -/
theorem C108_stratified_single_run (L : Learner M F) {rng : Rng} (hr : Rng.Valid rng) {K : Nat} (hK : 0 < K)
    (seed : Int) (m m' : M) (data : IList F) (p : Perf F)
    (h : stratifiedSingleRunWithK L rng K seed m data = .ok (m', p)) :
    ∃ tr te, (tr ++ te).Perm data ∧ L.train m tr = .ok m' ∧ L.test m' te = .ok p ∧
      ∀ c, (data.map Inst.label).count c / K ≤ (te.map Inst.label).count c ∧
        (te.map Inst.label).count c ≤ ((data.map Inst.label).count c + K - 1) / K := by
  obtain ⟨cs, ps, _, hps, _, _, hperm⟩ := C20_partition_by_class data
  unfold stratifiedSingleRunWithK at h
  rw [hps] at h
  simp only [res_bind_ok, bind_ok_iff, res_pure] at h
  obtain ⟨m1, h1, q, hq, h⟩ := h
  cases h
  refine ⟨_, _, ?_, h1, hq, ?_⟩
  · exact ((flatMap_complementary _ K 0).trans (shuffledLists_perm _ (hr.fold seed) _)).trans hperm
  · intro c
    exact C109_class_sizes hr hK seed data ps hps c

end

/-! ## C85: separate test sets -/

section
variable {M : Type}

theorem quarter_real : (Dbl.lit (1 / 4) : ℝ) = 1 / 4 := by
  rw [lit_real]; norm_num

/-- The sessions of the separate-test runs: `R` times the same `K` training sets, all results on one
test set. `te` and `rest` are complementary, each training set is `rest` without the test part of
its fold. -/
structure IsSeparateTest (L : Learner M ℝ) (R K : Nat) (m m' : M) (data te : IList ℝ) (results : List (Perf ℝ)) : Prop where
  exists_folds : ∃ rest folds, (te ++ rest).Perm data ∧ IsCrossValidation K rest folds ∧
    Session L m (List.replicate R (folds.map (fun f => (f.1, te)))).flatten results m'
  number : results.length = R * K

theorem pairsSeparate_map {F : Type} (cv : CrossVal F) (K : Nat) (te : IList F) :
    CrossVal.pairsSeparate cv K te = (CrossVal.pairs cv K).map (fun f => (f.1, te)) := by
  simp [CrossVal.pairs, CrossVal.pairsSeparate, List.map_map, Function.comp_def]

/-- **C85.** Plain separate-test runs (exact arithmetic): one test set of `⌈n/4⌉` instances, never
trained on. -/
theorem C85_separate (L : Learner M ℝ) {rng : Rng} (hr : Rng.Valid rng) {R K : Nat} (hK : 0 < K) (seed : Int)
    (m m' : M) (data : IList ℝ) (e : ExpPerf ℝ)
    (h : mxKFoldRunSeparateTest L rng R K seed m data = .ok (m', e)) :
    ∃ te, IsSeparateTest L R K m m' data te e.results ∧ te.length = ⌈(data.length : ℝ) / 4⌉₊ := by
  obtain ⟨p0, p1, l', hsplit, hperm, happ, _, hlen⟩ :=
    C24_random_split data (1 / 4) (rng.splitOrder seed data.length) (hr.split seed data.length)
  unfold mxKFoldRunSeparateTest at h
  rw [quarter_real, hsplit] at h
  simp only [res_bind_ok, atR, List.getElem?_cons_zero, List.getElem?_cons_succ] at h
  have hcv := kfold_valid (rng.foldOrder seed 0) p1 hK (hr.fold seed 0 p1.length)
  obtain ⟨h1, h2⟩ := mx_session L (pairs := CrossVal.pairsSeparate (CrossVal.kfold (rng.foldOrder seed 0) p1 K) K p0)
    (K := K) (by simp [CrossVal.pairsSeparate]) (fun st => runFoldsSeparate_eq L K _ p0 st) h
  refine ⟨p0, ⟨⟨p1, _, ?_, hcv, ?_⟩, h2⟩, ?_⟩
  · rw [happ]; exact hperm
  · rw [← pairsSeparate_map]; exact h1
  · rw [(hlen (by norm_num) (by norm_num)).1]
    congr 1; ring

/-- **C85.** Stratified separate-test runs: one test set with `⌈n_c/4⌉` instances of every class. -/
theorem C85_separate_stratified (L : Learner M ℝ) {rng : Rng} (hr : Rng.Valid rng) {R K : Nat} (hK : 0 < K)
    (seed : Int) (m m' : M) (data : IList ℝ) (e : ExpPerf ℝ)
    (h : stratifiedMxKFoldRunSeparateTest L rng R K seed m data = .ok (m', e)) :
    ∃ te, IsSeparateTest L R K m m' data te e.results ∧
      ∀ c, (te.map Inst.label).count c = ⌈((data.map Inst.label).count c : ℝ) / 4⌉₊ := by
  obtain ⟨p0, p1, hsplit, hperm, _⟩ :=
    C25_stratified_split data (1 / 4) (rng.splitOrder seed data.length) (hr.split seed data.length)
  unfold stratifiedMxKFoldRunSeparateTest at h
  rw [quarter_real, hsplit] at h
  obtain ⟨cs, ps, _, hps, _, _, hperm2⟩ := C20_partition_by_class p1
  simp only [res_bind_ok, atR, List.getElem?_cons_zero, List.getElem?_cons_succ, hps] at h
  have hcv := (stratified_valid (rng.foldOrder seed) (hr.fold seed) ps.getLists hK).perm hperm2
  obtain ⟨h1, h2⟩ := mx_session L
    (pairs := CrossVal.pairsSeparate (CrossVal.stratified (rng.foldOrder seed) ps.getLists K) K p0)
    (K := K) (by simp [CrossVal.pairsSeparate]) (fun st => runFoldsSeparate_eq L K _ p0 st) h
  refine ⟨p0, ⟨⟨p1, _, hperm, hcv, ?_⟩, h2⟩, ?_⟩
  · rw [← pairsSeparate_map]; exact h1
  · intro c
    obtain ⟨q0, q1, hq, hc, _⟩ := C25_class_counts data (1 / 4) _ (hr.split seed data.length) (by norm_num)
      (by norm_num) _ hsplit c
    cases hq
    rw [hc]
    congr 1; ring

/-- **C85.** The versions without repetition are the ones with a single repetition. -/
theorem C85_single_repetition {F : Type} [Dbl F] (L : Learner M F) (rng : Rng) (K : Nat) (seed : Int) (m : M)
    (data : IList F) :
    kFoldRunSeparateTest L rng K seed m data = mxKFoldRunSeparateTest L rng 1 K seed m data ∧
    stratifiedKFoldRunSeparateTest L rng K seed m data = stratifiedMxKFoldRunSeparateTest L rng 1 K seed m data := by
  have hb : ∀ {α : Type} (r : Res α), (r >>= fun x => pure x) = r := by
    intro α r; cases r <;> rfl
  refine ⟨?_, ?_⟩
  · simp only [kFoldRunSeparateTest, mxKFoldRunSeparateTest, List.range_one, List.foldlM_cons, List.foldlM_nil, hb]
  · simp only [stratifiedKFoldRunSeparateTest, stratifiedMxKFoldRunSeparateTest, List.range_one, List.foldlM_cons,
      List.foldlM_nil, hb]

end

/-! ## witnesses -/

/-- a model that remembers the training sets it was given and always predicts `"a"` -/
def tracer (F : Type) [Dbl F] : Learner (List (IList F)) F :=
  ⟨fun m d => .ok (m ++ [d]), fun _ d => modelTest (fun _ => .ok "a") d⟩

theorem tracer_session {F : Type} [Dbl F] {m m' : List (IList F)} {pairs : List (IList F × IList F)}
    {ps : List (Perf F)} (h : Session (tracer F) m pairs ps m') : m' = m ++ pairs.map Prod.fst := by
  induction h with
  | nil => simp
  | cons ht _ _ ih => cases ht; simp [ih]

/-- **C86 fails.** Whatever the random source, the data and the seed: the training sets of the
second repetition are those of the first, in the same order. (Observed with a model that remembers
its training sets.) -/
theorem C86_refuted {F : Type} [Dbl F] {rng : Rng} (hr : Rng.Valid rng) {K : Nat} (hK : 0 < K) (seed : Int)
    (data : IList F) (m' : List (IList F)) (e : ExpPerf F)
    (h : mxKFoldRun (tracer F) rng 2 K seed [] data = .ok (m', e) ∨
      stratifiedMxKFoldRun (tracer F) rng 2 K seed [] data = .ok (m', e)) :
    m'.length = 2 * K ∧ m'.drop K = m'.take K := by
  obtain ⟨folds, hcv, hs, _⟩ := C86_partial (tracer F) hr hK seed [] m' data e h
  have := tracer_session hs
  simp only [List.replicate, List.flatten_cons, List.flatten_nil, List.append_nil, List.nil_append,
    List.map_append] at this
  have hl : (folds.map Prod.fst).length = K := by rw [List.length_map]; exact hcv.number
  rw [this]
  refine ⟨by rw [List.length_append, hl]; omega, ?_⟩
  rw [List.drop_left' hl, List.take_left' hl]

/-- orders that reverse, draws that repeat the first instance -/
def exRng : Rng := ⟨fun _ _ n => (List.range n).reverse, fun _ n => List.range n, fun _ n => List.replicate n 0⟩

theorem exRng_valid : Rng.Valid exRng :=
  ⟨fun _ _ n => List.reverse_perm _, fun _ n => List.Perm.refl _,
   fun _ n => ⟨by simp [exRng], by intro i hi; simp [exRng] at hi; omega⟩⟩

def exExp : IList XR := ["a", "b", "a", "a", "b"].map (fun c => ⟨c, [], none⟩)

/-- labels of the recorded training sets, number of results -/
def exShow (r : Res (List (IList XR) × ExpPerf XR)) : Option (List (List String) × Nat) :=
  r.toOption.map (fun r => (r.1.map (fun l => l.map Inst.label), r.2.results.length))

/-- a plain 2-fold run on five instances in reversed order: test folds `b a` and `a b a` -/
example : exShow (kFoldRun (tracer XR) exRng 2 0 [] exExp) = some ([["a", "b", "a"], ["b", "a"]], 2) := by
  decide +kernel

/-- a stratified 2-fold run -/
example : exShow (stratifiedKFoldRun (tracer XR) exRng 2 0 [] exExp) =
    some ([["a", "a", "b"], ["a", "b"]], 2) := by
  decide +kernel

/-- two repetitions -/
example : exShow (mxKFoldRun (tracer XR) exRng 2 2 0 [] exExp) =
    some ([["a", "b", "a"], ["b", "a"], ["a", "b", "a"], ["b", "a"]], 4) := by
  decide +kernel

/-- a separate-test run with two repetitions: the first two instances are the test set -/
example : exShow (mxKFoldRunSeparateTest (tracer XR) exRng 2 2 0 [] exExp) =
    some ([["a", "a"], ["b"], ["a", "a"], ["b"]], 4) := by
  decide +kernel

/-- the stratified one -/
example : exShow (stratifiedMxKFoldRunSeparateTest (tracer XR) exRng 1 2 0 [] exExp) =
    some ([["a", "b"], ["a"]], 2) := by
  decide +kernel

/-- bootstrap -/
example : exShow (bootstrapRun (tracer XR) exRng 2 0 [] exExp) =
    some ([["a", "a", "a", "a", "a"], ["a", "a", "a", "a", "a"]], 2) := by
  decide +kernel

/-- the single run -/
example : ((singleRunWithK (tracer XR) exRng 2 0 [] exExp).toOption.map (fun r => r.1.map (fun l => l.map Inst.label))) =
    some [["a", "b", "a"]] := by
  decide +kernel

end Verif
