import Verif.Props.Gaussian
import Mathlib.Data.List.Dedup
import Mathlib.Analysis.Complex.ExponentialBounds

/-! # Properties C54 and C106: naive Bayes scores -/

set_option linter.unusedSectionVars false

namespace Verif
open Dbl

section general
variable {F : Type} [Dbl F]

theorem find?_emplace {V : Type} (m : OMap V) (k : String) (v : V) (k' : String) :
    OMap.find? (OMap.emplace m k v) k' =
      if k' = k then some ((OMap.find? m k).getD v) else OMap.find? m k' := by
  unfold OMap.emplace
  cases h : OMap.find? m k with
  | some w =>
    by_cases hk : k' = k
    · subst hk; simp [h]
    · simp [hk]
  | none =>
    simp only [OMap.find?_insert, Option.getD_none]

/-- emplacing a value for every key of a list: the first value per key counts, keys already
present keep theirs -/
theorem find?_emplace_fold {V : Type} (v : String → V) (cs : List String) : ∀ (m : OMap V) (k : String),
    OMap.find? (cs.foldl (fun m c => OMap.emplace m c (v c)) m) k =
      if k ∈ cs then some ((OMap.find? m k).getD (v k)) else OMap.find? m k := by
  induction cs with
  | nil => intro m k; simp
  | cons c cs ih =>
    intro m k
    rw [List.foldl_cons, ih, find?_emplace]
    by_cases h1 : k ∈ cs <;> by_cases h2 : k = c
    · subst h2; simp
    · simp [h1, h2]
    · subst h2; simp [h1]
    · simp [h1, h2]

/-- the classes of a list with their labels, as the training loops see them -/
theorem labelled_classes (l : IList F) :
    ∃ ps, Parts.byClass l = .ok ps ∧ ps.length = l.getDistinctClassLabels.length ∧
      l.getDistinctClassLabels.zip ps =
        l.getDistinctClassLabels.map (fun c => (c, l.filter (fun x => x.label == c))) ∧
      ps = l.getDistinctClassLabels.map (fun c => l.filter (fun x => x.label == c)) := by
  have hfo := C07_distinct_class_labels l
  obtain ⟨cs, ps, hfo', e, hps, _, _⟩ := C20_partition_by_class l
  have hcs : cs = l.getDistinctClassLabels := hfo'.unique hfo
  subst hcs
  refine ⟨ps, e, by simp [hps], ?_, hps⟩
  rw [hps]
  rw [List.zip_map_right, List.zip_eq_zipWith, List.zipWith_self, List.map_map]
  rfl

theorem class_ne_nil (l : IList F) (c : String) (hc : c ∈ l.map Inst.label) :
    l.filter (fun x => x.label == c) ≠ [] := by
  obtain ⟨y, hy, rfl⟩ := List.mem_map.1 hc
  intro h
  have : y ∈ l.filter (fun x => x.label == y.label) := by simp [hy]
  rw [h] at this; simp at this

theorem attributeDistribution_ok (p : IList F) (hne : p ≠ []) (i : Nat) (v : Inst F → String)
    (h : ∀ x ∈ p, x.attrs[i]? = some (.discrete (v x))) :
    p.attributeDistribution i = .ok (DD.ofList (p.map v)) := by
  obtain ⟨x, hx, h0⟩ := first_of_ne hne
  unfold IList.attributeDistribution
  rw [h0]
  have hg : x.getAttribute i = .ok (.discrete (v x)) := by simp [Inst.getAttribute, atR, h x hx]
  simp only [res_bind_ok, hg, Attr.isDiscrete, if_true]
  rw [foldlM_ok (g := fun d x => d.addItem (v x))]
  · unfold DD.ofList; rw [List.foldl_map]
  · intro y hy s
    rw [discAt_ok (.inl (h y hy))]; rfl

theorem size_ofList (vs : List String) : (DD.ofList vs).m.length = vs.dedup.length := by
  have hc := DD.counts_ofList vs
  have hp : ((DD.ofList vs).getItems).Perm vs.dedup := by
    rw [List.perm_ext_iff_of_nodup (hc.sorted.imp (fun h => ne_of_lt h)) (List.nodup_dedup _)]
    intro a; rw [hc.mem_items, List.mem_dedup]
  have := hp.length_eq
  simpa [DD.getItems, OMap.keys] using this

end general

theorem laplace_real (vs : List String) (k : String) :
    ((DD.ofList vs).getProbabilityLaplace k : ℝ) =
      ((vs.count k : ℝ) + 1) / (vs.length + vs.dedup.length + 1) := by
  have hc := DD.counts_ofList vs
  have hsum := hc.sum
  unfold DD.getProbabilityLaplace
  rw [size_ofList]
  simp only [DD.getSum] at hsum
  rw [hsum]
  have hcount := hc.count k
  unfold DD.getCount Counter.count at hcount
  cases h : OMap.find? (DD.ofList vs).m k with
  | some c =>
    rw [h] at hcount
    simp only [Option.getD_some] at hcount
    simp [hcount]
  | none =>
    rw [h] at hcount
    simp only [Option.getD_none] at hcount
    simp [← hcount]

theorem prior_real (l : IList ℝ) (c : String) :
    (l.classDistribution.getProbability c : ℝ) = ((l.map Inst.label).count c : ℝ) / l.length := by
  have hc := C10_class_distribution l
  have hsum := hc.sum
  simp only [DD.getSum, List.length_map] at hsum
  have hcount := hc.count c
  unfold DD.getCount Counter.count at hcount
  unfold DD.getProbability
  cases h : OMap.find? l.classDistribution.m c with
  | some k =>
    rw [h] at hcount
    simp only [Option.getD_some] at hcount
    simp [hcount, hsum]
  | none =>
    rw [h] at hcount
    simp only [Option.getD_none] at hcount
    simp [← hcount]

/-- number of training instances of class `c` -/
def classSize {F : Type} (l : IList F) (c : String) : Nat := (l.map Inst.label).count c

/-- values of attribute `i` in class `c`; `v x` are the attribute values of instance `x` -/
def classColumn {F α : Type} [Inhabited α] (l : IList F) (v : Inst F → List α) (c : String) (i : Nat) :
    List α :=
  (l.filter (fun x => x.label == c)).map (fun x => (v x).getD i default)

theorem classColumn_length {F α : Type} [Inhabited α] (l : IList F) (v : Inst F → List α)
    (c : String) (i : Nat) : (classColumn l v c i).length = classSize l c := by
  unfold classColumn classSize
  rw [List.length_map, List.count_eq_countP, List.countP_map, List.countP_eq_length_filter]
  rfl

/-- Laplace-smoothed relative frequency of value `u` of attribute `i` in class `c` -/
noncomputable def smoothed (l : IList ℝ) (v : Inst ℝ → List String) (c : String) (i : Nat)
    (u : String) : ℝ :=
  (((classColumn l v c i).count u : ℝ) + 1) /
    (classSize l c + (classColumn l v c i).dedup.length + 1)

theorem all_discrete {l : IList ℝ} {v : Inst ℝ → List String} {n : Nat}
    (hv : ∀ x ∈ l, x.attrs = (v x).map Attr.discrete ∧ (v x).length = n) (i : Nat) (hi : i < n) :
    ∀ x ∈ l, x.attrs[i]? = some (.discrete ((v x).getD i default)) := by
  intro x hx
  obtain ⟨h1, h2⟩ := hv x hx
  rw [h1, List.getElem?_map, List.getElem?_eq_getElem (by omega)]
  simp [List.getD_eq_getElem?_getD, List.getElem?_eq_getElem (show i < (v x).length by omega)]

theorem allAttributesDistribution_ok (p : IList ℝ) (hne : p ≠ []) (v : Inst ℝ → List String) (n : Nat)
    (hv : ∀ x ∈ p, x.attrs = (v x).map Attr.discrete ∧ (v x).length = n) :
    p.allAttributesDistribution = .ok ((List.range n).map (fun (i : Nat) =>
      DD.ofList (p.map (fun x => (v x).getD i default)))) := by
  obtain ⟨x, hx, h0⟩ := first_of_ne hne
  unfold IList.allAttributesDistribution
  rw [h0]
  have hlen : x.attributeSize = n := by
    rw [Inst.attributeSize, (hv x hx).1, List.length_map, (hv x hx).2]
  simp only [res_bind_ok, hlen]
  have := rangeLoop_ok (fun i => p.attributeDistribution i)
    (fun (i : Nat) => DD.ofList (p.map (fun x => (v x).getD i default))) n (by
      intro i hi
      exact attributeDistribution_ok p hne i _ (all_discrete hv i hi)) []
  rw [this]; rfl

/-- the value distributions of the attributes within a class -/
def classDists (l : IList ℝ) (v : Inst ℝ → List String) (n : Nat) (c : String) : List DD :=
  (List.range n).map (fun (i : Nat) => DD.ofList (classColumn l v c i))

theorem nb_train_discrete (l : IList ℝ) (hne : l ≠ []) (v : Inst ℝ → List String) (n : Nat)
    (hn : 0 < n) (hv : ∀ x ∈ l, x.attrs = (v x).map Attr.discrete ∧ (v x).length = n)
    (old : NaiveBayes ℝ) :
    NaiveBayes.train old l = .ok { old with
      prior := l.classDistribution,
      classAttributeDistributions := l.getDistinctClassLabels.foldl (fun m c => OMap.emplace m c (classDists l v n c)) old.classAttributeDistributions } := by
  obtain ⟨ps, e, hlen, hz, hps⟩ := labelled_classes l
  have hfo := C07_distinct_class_labels l
  unfold NaiveBayes.train
  rw [e]
  simp only [res_bind_ok]
  -- the first attribute of the first instance of the first class
  obtain ⟨c0, cs, hcs⟩ : ∃ c0 cs, l.getDistinctClassLabels = c0 :: cs := by
    cases h : l.getDistinctClassLabels with
    | nil =>
      exfalso
      cases l with
      | nil => exact hne rfl
      | cons y l =>
        have := (hfo.mem_iff y.label).2 (by simp)
        rw [h] at this; simp at this
    | cons a b => exact ⟨a, b, rfl⟩
  have hc0 : c0 ∈ l.map Inst.label := by rw [← hfo.mem_iff, hcs]; simp
  have hp0 : atR ps 0 = .ok (l.filter (fun x => x.label == c0)) := by rw [hps, hcs]; rfl
  rw [hp0]
  obtain ⟨y, hy, h0⟩ := first_of_ne (class_ne_nil l c0 hc0)
  have hyl : y ∈ l := (List.mem_filter.1 hy).1
  have ha := all_discrete hv 0 hn y hyl
  have hg : y.getAttribute 0 = .ok (.discrete ((v y).getD 0 default)) := by
    simp [Inst.getAttribute, atR, ha]
  simp only [res_bind_ok, h0, hg, Attr.isDiscrete, if_true]
  rw [hz]
  -- the loop
  have hloop : ∀ (cs : List String), (∀ c ∈ cs, c ∈ l.map Inst.label) → ∀ m : NaiveBayes ℝ,
      (cs.map (fun c => (c, l.filter (fun x => x.label == c)))).foldlM NaiveBayes.discClass m =
      .ok { m with classAttributeDistributions := cs.foldl (fun m c => OMap.emplace m c (classDists l v n c)) m.classAttributeDistributions } := by
    intro cs
    induction cs with
    | nil => intro _ m; rfl
    | cons c cs ih =>
      intro hc m
      rw [List.map_cons, List.foldlM_cons]
      have : NaiveBayes.discClass m (c, l.filter (fun x => x.label == c)) =
          .ok { m with classAttributeDistributions := OMap.emplace m.classAttributeDistributions c (classDists l v n c) } := by
        unfold NaiveBayes.discClass
        rw [allAttributesDistribution_ok _ (class_ne_nil l c (hc c (by simp))) v n
          (fun x hx => hv x (List.mem_filter.1 hx).1)]
        rfl
      rw [this]
      exact ih (fun c hc' => hc c (by simp [hc'])) _
  rw [hloop _ (fun c hc => (hfo.mem_iff c).1 hc)]

theorem zipIdx_sum (f : ℝ → Attr ℝ × Nat → Res ℝ) (g : Attr ℝ → Nat → ℝ) (as : List (Attr ℝ)) :
    ∀ (k : Nat) (s : ℝ), (∀ j (hj : j < as.length) s, f s (as[j], k + j) = .ok (s + g as[j] (k + j))) →
    (as.zipIdx k).foldlM f s = .ok (s + ((as.zipIdx k).map (fun p => g p.1 p.2)).sum) := by
  induction as with
  | nil => intro k s _; simp
  | cons a as ih =>
    intro k s h
    rw [List.zipIdx_cons, List.foldlM_cons]
    have := h 0 (by simp) s
    simp only [List.getElem_cons_zero, Nat.add_zero] at this
    rw [this]
    simp only [res_bind_ok]
    rw [ih (k + 1) (s + g a k) (by
      intro j hj s
      have := h (j + 1) (by simpa using hj) s
      simpa [Nat.add_assoc, Nat.add_comm 1 j] using this)]
    simp [add_assoc]

theorem zipIdx_map_sum {α : Type} (as : List α) (n : Nat) (h : as.length = n) (g : α → Nat → ℝ) (d : α) :
    ((as.zipIdx 0).map (fun p => g p.1 p.2)).sum =
      ((List.range n).map (fun (i : Nat) => g (as.getD i d) i)).sum := by
  congr 1
  apply List.ext_getElem
  · simp [h]
  · intro i h1 h2
    have hi : i < as.length := by simpa using h1
    simp [List.getElem?_eq_getElem hi]

/-- the value of a discrete attribute -/
def discOf (a : Attr ℝ) : String :=
  match a with
  | .discrete s => s
  | _ => ""

/-- the value of a continuous attribute -/
noncomputable def contOf (a : Attr ℝ) : ℝ :=
  match a with
  | .continuous s => s
  | _ => 0

/-- **C54.** The score of class `c` is the log of its relative frequency plus the logs of the
Laplace-smoothed relative frequencies of the attribute values within the class; every factor
lies strictly between 0 and 1, also for values never seen. -/
theorem C54_score (l : IList ℝ) (hne : l ≠ []) (v : Inst ℝ → List String) (n : Nat) (hn : 0 < n)
    (hv : ∀ x ∈ l, x.attrs = (v x).map Attr.discrete ∧ (v x).length = n) :
    ∃ m, NaiveBayes.train NaiveBayes.new l = .ok m ∧ m.prior = l.classDistribution ∧
      ∀ (x : Inst ℝ) (u : List String), x.attrs = u.map Attr.discrete → u.length = n →
      ∀ c ∈ l.map Inst.label,
        m.metric x c = .ok (Real.log (classSize l c / l.length) +
          ((List.range n).map (fun (i : Nat) => Real.log (smoothed l v c i (u.getD i "")))).sum) ∧
        ∀ i, 0 < smoothed l v c i (u.getD i "") ∧ smoothed l v c i (u.getD i "") < 1 := by
  refine ⟨_, nb_train_discrete l hne v n hn hv NaiveBayes.new, rfl, ?_⟩
  intro x u hx hu c hc
  have hfo := C07_distinct_class_labels l
  set m : NaiveBayes ℝ := { NaiveBayes.new with
      prior := l.classDistribution,
      classAttributeDistributions := l.getDistinctClassLabels.foldl (fun m c => OMap.emplace m c (classDists l v n c)) [] } with hm
  have hfind : OMap.find? m.classAttributeDistributions c =
      some (classDists l v n c) := by
    rw [hm]
    simp only
    rw [find?_emplace_fold (fun c => classDists l v n c)]
    simp [(hfo.mem_iff c).2 hc]
  have hne' : m.classAttributeDistributions.isEmpty = false := by
    cases h : m.classAttributeDistributions with
    | nil => rw [h] at hfind; simp at hfind
    | cons a b => rfl
  constructor
  · show m.metric x c = _
    unfold NaiveBayes.metric
    rw [hne']
    simp only [Bool.false_eq_true, if_false]
    unfold NaiveBayes.logLikelihoodDiscrete findR
    rw [hfind]
    simp only [res_bind_ok]
    have hprior : (m.prior.getProbability c : ℝ) = (classSize l c : ℝ) / l.length := prior_real l c
    rw [hprior]
    have hlen : x.attrs.length = n := by rw [hx, List.length_map, hu]
    rw [zipIdx_sum _ (fun a i => Real.log (smoothed l v c i (discOf a)))]
    · rw [zipIdx_map_sum _ n hlen (fun a i => Real.log (smoothed l v c i (discOf a))) (.discrete "")]
      simp only [log_real]
      congr 3
      apply List.map_congr_left
      intro i hi
      rw [List.mem_range] at hi
      have : x.attrs.getD i (.discrete "") = .discrete (u.getD i "") := by
        rw [hx, List.getD_eq_getElem?_getD, List.getElem?_map, List.getD_eq_getElem?_getD]
        cases u[i]? <;> rfl
      rw [this]; rfl
    · intro j hj s
      have hju : j < u.length := by rw [hlen] at hj; omega
      have haj : x.attrs[j] = .discrete (u[j]) := by simp [hx]
      rw [haj]
      unfold NaiveBayes.discStep
      simp only [Attr.discVal, res_bind_ok, Nat.zero_add]
      rw [atR_ok_of_lt (by simp [classDists]; omega)]
      simp only [res_bind_ok, classDists, List.getElem_map, List.getElem_range, res_pure, add_real, log_real]
      rw [laplace_real, classColumn_length]
      rfl
  · intro i
    unfold smoothed
    have h1 : (classColumn l v c i).count (u.getD i "") ≤ (classColumn l v c i).length :=
      List.count_le_length
    rw [classColumn_length] at h1
    have h3 : 0 < classSize l c := by
      unfold classSize; exact List.count_pos_iff.2 hc
    have h4 : 0 < (classColumn l v c i).dedup.length := by
      rw [List.length_pos_iff]
      intro h
      have : classColumn l v c i = [] := by
        rw [List.eq_nil_iff_forall_not_mem]
        intro a ha
        rw [← List.mem_dedup, h] at ha; simp at ha
      have := congrArg List.length this
      rw [classColumn_length] at this; simp at this; omega
    have h1' : ((classColumn l v c i).count (u.getD i "") : ℝ) ≤ classSize l c := by exact_mod_cast h1
    have h4' : (0 : ℝ) < (classColumn l v c i).dedup.length := by exact_mod_cast h4
    constructor
    · positivity
    · rw [div_lt_one (by positivity)]
      linarith

/-- a training list meeting the hypotheses -/
example : ∀ x ∈ ([⟨"a", [.discrete "u", .discrete "v"], none⟩, ⟨"b", [.discrete "u", .discrete "w"], none⟩] : IList ℝ),
    x.attrs = ((fun (x : Inst ℝ) => x.attrs.map (fun a => match a with | .discrete s => s | _ => "")) x).map Attr.discrete ∧
    ((fun (x : Inst ℝ) => x.attrs.map (fun a => match a with | .discrete s => s | _ => "")) x).length = 2 := by
  intro x hx; simp at hx; rcases hx with rfl | rfl <;> simp

example : (NaiveBayes.train NaiveBayes.new ([⟨"a", [.discrete "u"], none⟩, ⟨"b", [.discrete "w"], none⟩,
    ⟨"b", [.discrete "w"], none⟩] : IList XR) >>= fun m => m.predict ⟨"?", [.discrete "u"], none⟩) =
    .ok "a" := by decide +kernel

/-! ## C106: continuous naive Bayes -/

theorem all_continuous {l : IList ℝ} {v : Inst ℝ → List ℝ} {n : Nat}
    (hv : ∀ x ∈ l, x.attrs = (v x).map Attr.continuous ∧ (v x).length = n) (i : Nat) (hi : i < n) :
    ∀ x ∈ l, ContAt x i ((v x).getD i 0) := by
  intro x hx
  obtain ⟨h1, h2⟩ := hv x hx
  unfold ContAt
  rw [h1, List.getElem?_map, List.getElem?_eq_getElem (by omega)]
  simp [List.getD_eq_getElem?_getD, List.getElem?_eq_getElem (show i < (v x).length by omega)]

/-- `standardDeviation()` of a class of continuous instances -/
theorem sd_continuous (c : String) (p : IList ℝ) (h2 : 2 ≤ p.length) (n : Nat)
    (hl : ∀ x ∈ p, x.label = c) (v : Inst ℝ → List ℝ)
    (hv : ∀ x ∈ p, x.attrs = (v x).map Attr.continuous ∧ (v x).length = n) :
    IList.standardDeviation p = .ok (c, ((List.range n).map (fun (i : Nat) =>
      (.continuous (sampleSD (p.map (fun x => (v x).getD i 0))) : Attr ℝ))).map some) := by
  have hne : p ≠ [] := by rintro rfl; simp at h2
  obtain ⟨x, hx, h0⟩ := first_of_ne hne
  unfold IList.standardDeviation
  rw [h0]
  simp only [res_bind_ok, Inst.attributeSize]
  have hlen : x.attrs.length = n := by rw [(hv x hx).1, List.length_map, (hv x hx).2]
  rw [hlen, rangeLoop_ok (fun i => p.attributeStandardDeviation i)
    (fun (i : Nat) => some (.continuous (sampleSD (p.map (fun x => (v x).getD i 0))))) n (by
      intro i hi
      exact C17_sample_sd p h2 i _ (all_continuous hv i hi)) []]
  simp [hl x hx, Function.comp_def]

theorem meanVector_ok (c : String) (vs : List ℝ) :
    NaiveBayes.meanVector (c, (vs.map (Attr.continuous)).map some) = .ok vs := by
  unfold NaiveBayes.meanVector
  rw [nonNull_some]
  simp only [res_bind_ok]
  unfold Inst.toVector
  have : ∀ (vs r : List ℝ), (vs.map (Attr.continuous)).foldlM (fun r a => do
      let inserted ← a.continuousAttributes
      (pure (r ++ inserted) : Res (List ℝ))) r = .ok (r ++ vs) := by
    intro vs
    induction vs with
    | nil => intro r; simp
    | cons a vs ih =>
      intro r
      rw [List.map_cons, List.foldlM_cons]
      have := ih (r ++ [a])
      simp only [Attr.continuousAttributes, res_bind_ok, res_pure] at this ⊢
      rw [this]; simp
  have := this vs []
  simpa using this

/-- standard deviations of the columns of a class -/
noncomputable def classSD (l : IList ℝ) (v : Inst ℝ → List ℝ) (n : Nat) (c : String) : List ℝ :=
  (List.range n).map (fun (i : Nat) =>
    sampleSD ((l.filter (fun x => x.label == c)).map (fun x => (v x).getD i 0)))

theorem nb_train_continuous (l : IList ℝ) (hne : l ≠ []) (v : Inst ℝ → List ℝ) (n : Nat)
    (hn : 0 < n) (hv : ∀ x ∈ l, x.attrs = (v x).map Attr.continuous ∧ (v x).length = n)
    (h2 : ∀ c ∈ l.map Inst.label, 2 ≤ classSize l c) (old : NaiveBayes ℝ) :
    NaiveBayes.train old l = .ok { old with
      prior := l.classDistribution,
      classMeans := l.getDistinctClassLabels.foldl (fun m c => OMap.emplace m c (classMean l v n c))
        old.classMeans,
      classDeviations := l.getDistinctClassLabels.foldl (fun m c => OMap.emplace m c (classSD l v n c))
        old.classDeviations } := by
  obtain ⟨ps, e, hlen, hz, hps⟩ := labelled_classes l
  have hfo := C07_distinct_class_labels l
  unfold NaiveBayes.train
  rw [e]
  simp only [res_bind_ok]
  obtain ⟨c0, cs, hcs⟩ : ∃ c0 cs, l.getDistinctClassLabels = c0 :: cs := by
    cases h : l.getDistinctClassLabels with
    | nil =>
      exfalso
      cases l with
      | nil => exact hne rfl
      | cons y l =>
        have := (hfo.mem_iff y.label).2 (by simp)
        rw [h] at this; simp at this
    | cons a b => exact ⟨a, b, rfl⟩
  have hc0 : c0 ∈ l.map Inst.label := by rw [← hfo.mem_iff, hcs]; simp
  have hp0 : atR ps 0 = .ok (l.filter (fun x => x.label == c0)) := by rw [hps, hcs]; rfl
  rw [hp0]
  obtain ⟨y, hy, h0⟩ := first_of_ne (class_ne_nil l c0 hc0)
  have hyl : y ∈ l := (List.mem_filter.1 hy).1
  have ha := all_continuous hv 0 hn y hyl
  have hg := getAttribute_cont ha
  simp only [res_bind_ok, h0, hg, Attr.isDiscrete, Bool.false_eq_true, if_false]
  rw [hz]
  have hloop : ∀ (cs : List String), (∀ c ∈ cs, c ∈ l.map Inst.label) → ∀ m : NaiveBayes ℝ,
      (cs.map (fun c => (c, l.filter (fun x => x.label == c)))).foldlM NaiveBayes.contClass m =
      .ok { m with
        classMeans := cs.foldl (fun m c => OMap.emplace m c (classMean l v n c)) m.classMeans,
        classDeviations := cs.foldl (fun m c => OMap.emplace m c (classSD l v n c)) m.classDeviations } := by
    intro cs
    induction cs with
    | nil => intro _ m; rfl
    | cons c cs ih =>
      intro hc m
      rw [List.map_cons, List.foldlM_cons]
      have hcl := hc c (by simp)
      have hlab : ∀ x ∈ l.filter (fun x => x.label == c), x.label = c := by
        intro y hy; simpa using (List.mem_filter.1 hy).2
      have hv' : ∀ x ∈ l.filter (fun x => x.label == c),
          x.attrs = (v x).map Attr.continuous ∧ (v x).length = n :=
        fun x hx => hv x (List.mem_filter.1 hx).1
      have hsz : 2 ≤ (l.filter (fun x => x.label == c)).length := by
        have := h2 c hcl
        have e := classColumn_length l v c 0
        unfold classColumn at e
        rw [List.length_map] at e
        omega
      have : NaiveBayes.contClass m (c, l.filter (fun x => x.label == c)) =
          .ok { m with classMeans := OMap.emplace m.classMeans c (classMean l v n c),
                       classDeviations := OMap.emplace m.classDeviations c (classSD l v n c) } := by
        unfold NaiveBayes.contClass
        simp only
        rw [average_continuous c _ (class_ne_nil l c hcl) n hlab v hv', sd_continuous c _ hsz n hlab v hv']
        simp only [res_bind_ok]
        have e1 := meanVector_ok c (classMean l v n c)
        have e2 := meanVector_ok c (classSD l v n c)
        simp only [classMean, classSD, List.map_map, Function.comp_def] at e1 e2 ⊢
        rw [e1, e2]
        rfl
      rw [this]
      exact ih (fun c hc' => hc c (by simp [hc'])) _
  rw [hloop _ (fun c hc => (hfo.mem_iff c).1 hc)]

/-- **C106 (partial).** On continuous data the score of class `c` is the log of its relative
frequency minus half the sum of the squared standardised deviations from the class means.
(The Gaussian log-posterior has the further term `- Σ log sd`; it is missing in the code, see
`C106_refuted`.) -/
theorem C106_partial (l : IList ℝ) (hne : l ≠ []) (v : Inst ℝ → List ℝ) (n : Nat) (hn : 0 < n)
    (hv : ∀ x ∈ l, x.attrs = (v x).map Attr.continuous ∧ (v x).length = n)
    (h2 : ∀ c ∈ l.map Inst.label, 2 ≤ classSize l c) :
    ∃ m, NaiveBayes.train NaiveBayes.new l = .ok m ∧ m.prior = l.classDistribution ∧
      ∀ (x : Inst ℝ) (u : List ℝ), x.attrs = u.map Attr.continuous → u.length = n →
      ∀ c ∈ l.map Inst.label,
        m.metric x c = .ok (Real.log (classSize l c / l.length) -
          ((List.range n).map (fun (i : Nat) =>
            ((u.getD i 0 - (classMean l v n c).getD i 0) / (classSD l v n c).getD i 0) ^ 2)).sum / 2) := by
  refine ⟨_, nb_train_continuous l hne v n hn hv h2 NaiveBayes.new, rfl, ?_⟩
  intro x u hx hu c hc
  have hfo := C07_distinct_class_labels l
  unfold NaiveBayes.metric
  simp only [NaiveBayes.new, List.isEmpty_nil, if_true]
  unfold NaiveBayes.logLikelihoodContinuous NaiveBayes.lookupFor
  have hlen : x.attrs.length = n := by rw [hx, List.length_map, hu]
  have hne0 : ¬ x.attrs.length = 0 := by omega
  simp only [hne0, if_false]
  unfold findR
  rw [find?_emplace_fold (fun c => classMean l v n c), find?_emplace_fold (fun c => classSD l v n c)]
  simp only [(hfo.mem_iff c).2 hc, if_true, OMap.find?_nil, Option.getD_none, res_bind_ok]
  rw [prior_real l c]
  rw [zipIdx_sum _ (fun a i => - ((contOf a - (classMean l v n c).getD i 0) / (classSD l v n c).getD i 0) ^ 2 / 2)]
  · rw [zipIdx_map_sum _ n hlen (fun a i => - ((contOf a - (classMean l v n c).getD i 0) / (classSD l v n c).getD i 0) ^ 2 / 2) (.continuous 0)]
    simp only [log_real]
    congr 1
    rw [sub_eq_add_neg]
    congr 1
    have : ∀ (is : List Nat) (f g : Nat → ℝ), (∀ i ∈ is, f i = - (g i) / 2) →
        (is.map f).sum = - ((is.map g).sum / 2) := by
      intro is f g h
      induction is with
      | nil => simp
      | cons i is ih =>
        rw [List.map_cons, List.sum_cons, List.map_cons, List.sum_cons,
          ih (fun j hj => h j (by simp [hj])), h i (by simp)]
        ring
    apply this
    intro i _
    have : x.attrs.getD i (.continuous 0) = .continuous (u.getD i 0) := by
      rw [hx, List.getD_eq_getElem?_getD, List.getElem?_map, List.getD_eq_getElem?_getD]
      cases u[i]? <;> rfl
    rw [this]; simp only [contOf]
  · intro j hj s
    have hjn : j < n := by omega
    have hju : j < u.length := by omega
    have haj : x.attrs[j] = .continuous (u[j]) := by simp [hx]
    rw [haj]
    unfold NaiveBayes.contStep
    have l1 : j < (classMean l v n c).length := by simpa [classMean] using hjn
    have l2 : j < (classSD l v n c).length := by simpa [classSD] using hjn
    simp only [Attr.contVal, res_bind_ok, Nat.zero_add]
    rw [idxR_ok_of_lt l1, idxR_ok_of_lt l2]
    simp only [res_bind_ok, res_pure, add_real, mul_real, lit_real, pow_real, sub_real, div_real,
      zpow_ofNat, Except.ok.injEq, List.getD_eq_getElem?_getD, List.getElem?_eq_getElem l1,
      List.getElem?_eq_getElem l2, Option.getD_some]
    push_cast
    simp only [contOf]
    ring

/-- Gaussian log-posterior of class `c` with independent attributes, up to the terms that are
the same for all classes -/
noncomputable def gaussianLogPosterior (l : IList ℝ) (v : Inst ℝ → List ℝ) (n : Nat) (u : List ℝ)
    (c : String) : ℝ :=
  Real.log (classSize l c / l.length) -
    ((List.range n).map (fun (i : Nat) =>
      ((u.getD i 0 - (classMean l v n c).getD i 0) / (classSD l v n c).getD i 0) ^ 2)).sum / 2 -
    ((List.range n).map (fun (i : Nat) => Real.log ((classSD l v n c).getD i 0))).sum

/-- **C106 (partial).** When the classes have the same standard deviations, the scores order the
classes as the Gaussian log-posteriors do. -/
theorem C106_equal_deviations_partial (l : IList ℝ) (hne : l ≠ []) (v : Inst ℝ → List ℝ) (n : Nat)
    (hn : 0 < n) (hv : ∀ x ∈ l, x.attrs = (v x).map Attr.continuous ∧ (v x).length = n)
    (h2 : ∀ c ∈ l.map Inst.label, 2 ≤ classSize l c)
    (hsd : ∀ c ∈ l.map Inst.label, ∀ c' ∈ l.map Inst.label, classSD l v n c = classSD l v n c') :
    ∃ m, NaiveBayes.train NaiveBayes.new l = .ok m ∧
      ∀ (x : Inst ℝ) (u : List ℝ), x.attrs = u.map Attr.continuous → u.length = n →
      ∀ c ∈ l.map Inst.label, ∀ c' ∈ l.map Inst.label, ∃ s s',
        m.metric x c = .ok s ∧ m.metric x c' = .ok s' ∧
        (s ≤ s' ↔ gaussianLogPosterior l v n u c ≤ gaussianLogPosterior l v n u c') := by
  obtain ⟨m, e, _, h⟩ := C106_partial l hne v n hn hv h2
  refine ⟨m, e, ?_⟩
  intro x u hx hu c hc c' hc'
  refine ⟨_, _, h x u hx hu c hc, h x u hx hu c' hc', ?_⟩
  unfold gaussianLogPosterior
  rw [hsd c hc c' hc']
  constructor <;> intro h <;> linarith

/-- the values of the witness below -/
noncomputable def contValues (x : Inst ℝ) : List ℝ := x.attrs.map contOf

/-- the training list of the witness below: class `a` at -1, 1 and class `b` at -9, 11 -/
noncomputable def nbWitness : IList ℝ :=
  [⟨"a", [.continuous (-1)], none⟩, ⟨"a", [.continuous 1], none⟩,
   ⟨"b", [.continuous (-9)], none⟩, ⟨"b", [.continuous 11], none⟩]

/-- **C106 is refuted**: at the point 2 class `b` gets the higher score although class `a` has
the higher Gaussian posterior, because the score leaves out the logarithms of the deviations. -/
theorem C106_refuted : ∃ m s s', NaiveBayes.train NaiveBayes.new nbWitness = .ok m ∧
    m.metric ⟨"?", [.continuous 2], none⟩ "a" = .ok s ∧
    m.metric ⟨"?", [.continuous 2], none⟩ "b" = .ok s' ∧ s < s' ∧
    gaussianLogPosterior nbWitness contValues 1 [2] "b" <
      gaussianLogPosterior nbWitness contValues 1 [2] "a" := by
  have hv : ∀ x ∈ nbWitness, x.attrs = (contValues x).map Attr.continuous ∧
      (contValues x).length = 1 := by
    intro x hx
    simp only [nbWitness, List.mem_cons, List.not_mem_nil, or_false] at hx
    rcases hx with rfl | rfl | rfl | rfl <;> simp [contValues, contOf]
  have h2 : ∀ c ∈ nbWitness.map Inst.label, 2 ≤ classSize nbWitness c := by
    intro c hc
    simp only [nbWitness, List.map_cons, List.map_nil, List.mem_cons, List.not_mem_nil, or_false] at hc
    rcases hc with rfl | rfl | rfl | rfl <;> simp [classSize, nbWitness]
  obtain ⟨m, e, _, h⟩ := C106_partial nbWitness (by simp [nbWitness]) contValues 1 (by simp) hv h2
  have ha := h ⟨"?", [.continuous 2], none⟩ [2] rfl rfl "a" (by simp [nbWitness])
  have hb := h ⟨"?", [.continuous 2], none⟩ [2] rfl rfl "b" (by simp [nbWitness])
  have ma : classMean nbWitness contValues 1 "a" = [0] := by
    simp [classMean, nbWitness, contValues, contOf, mean]
  have mb : classMean nbWitness contValues 1 "b" = [1] := by
    simp [classMean, nbWitness, contValues, contOf, mean]; norm_num
  have sa : classSD nbWitness contValues 1 "a" = [Real.sqrt 2] := by
    simp [classSD, nbWitness, contValues, contOf, sampleSD, sampleVar, mean]; norm_num
  have sb : classSD nbWitness contValues 1 "b" = [Real.sqrt 200] := by
    simp [classSD, nbWitness, contValues, contOf, sampleSD, sampleVar, mean]; norm_num
  have ca : classSize nbWitness "a" = 2 := by simp [classSize, nbWitness]
  have cb : classSize nbWitness "b" = 2 := by simp [classSize, nbWitness]
  refine ⟨m, _, _, e, ha, hb, ?_, ?_⟩
  · rw [ma, mb, sa, sb, ca, cb]
    simp only [List.range_one, List.map_cons, List.map_nil, List.getD_cons_zero, List.sum_cons,
      List.sum_nil, div_pow, Real.sq_sqrt (show (0:ℝ) ≤ 2 by norm_num),
      Real.sq_sqrt (show (0:ℝ) ≤ 200 by norm_num)]
    norm_num
  · unfold gaussianLogPosterior
    rw [ma, mb, sa, sb, ca, cb]
    simp only [List.range_one, List.map_cons, List.map_nil, List.getD_cons_zero, List.sum_cons,
      List.sum_nil, div_pow, Real.sq_sqrt (show (0:ℝ) ≤ 2 by norm_num),
      Real.sq_sqrt (show (0:ℝ) ≤ 200 by norm_num)]
    rw [Real.log_sqrt (by norm_num), Real.log_sqrt (by norm_num)]
    have h200 : Real.log 200 = Real.log 2 + Real.log 100 := by
      rw [← Real.log_mul (by norm_num) (by norm_num)]; norm_num
    have h100 : (2 : ℝ) < Real.log 100 := by
      rw [Real.lt_log_iff_exp_lt (by norm_num)]
      have h1 := Real.exp_one_lt_three
      have h0 := Real.exp_pos 1
      have : Real.exp 2 = Real.exp 1 * Real.exp 1 := by rw [← Real.exp_add]; norm_num
      rw [this]; nlinarith
    rw [h200]
    norm_num
    linarith

end Verif
