import Verif.Spec.DerivedColumn
import Verif.Props.ConstColumn
import Verif.Props.ConstColumnDist
import Verif.Props.Refine
import Verif.Props.ExpandTree

/-! # Property C220: a column computed from an earlier column adds nothing to a tree -/

set_option linter.unusedSectionVars false

namespace Verif
open Dbl

section
variable {p j : Nat} {ts : List AttrType}

theorem with_at (hp : p ≤ ts.length) {x : Inst ℝ} (hx : typesOf x = ts) (g : Inst ℝ → Attr ℝ) :
    (withColumn p g x).attrs[p]? = some (g x) := insert_get_at (by rw [typed_length hx]; exact hp) (g x)

/-- a question about the new column, if its answer can be computed from a value of the instances, leaves at least the entropy
that the value leaves -/
theorem merge_le {κ μ : Type} [DecidableEq κ] [DecidableEq μ] (q : IList ℝ) (g : Inst ℝ → Attr ℝ) (key : Inst ℝ → κ) (key' : Inst ℝ → μ)
    (f : κ → μ) (h : ∀ x ∈ q, key' (withColumn p g x) = f (key x)) :
    condEntropy q key ≤ condEntropy (q.map (withColumn p g)) key' := by
  have : condEntropy (q.map (withColumn p g)) key' = condEntropy q (fun x => f (key x)) :=
    condEntropy_map (withColumn p g) (fun _ => rfl) h
  rw [this]
  exact condEntropy_merge q key f

/-- between the instances that answer yes and those that answer no there is a threshold, if all of the former have
smaller values -/
theorem threshold_between {q : IList ℝ} {i : Nat} (hi : ts[i]? = some .continuous) (B : Inst ℝ → Bool)
    {x y : Inst ℝ} (hx : x ∈ q) (hxB : B x = true) (hy : y ∈ q) (hyB : B y = false)
    (hlt : ∀ z ∈ q, ∀ z' ∈ q, B z = true → B z' = false → contValAt z i < contValAt z' i) :
    ∃ t, (Split.threshold i t).Candidate ts q ∧ ∀ z ∈ q, (contValAt z i ≤ t ↔ B z = true) := by
  classical
  obtain ⟨u, hu, humax⟩ := Finset.exists_max_image ((q.filter B).map (fun z => contValAt z i)).toFinset id
    ⟨contValAt x i, by simp only [List.mem_toFinset, List.mem_map, List.mem_filter]; exact ⟨x, ⟨hx, hxB⟩, rfl⟩⟩
  obtain ⟨w, hw, hwmin⟩ := Finset.exists_min_image ((q.filter (fun z => !B z)).map (fun z => contValAt z i)).toFinset id
    ⟨contValAt y i, by simp only [List.mem_toFinset, List.mem_map, List.mem_filter]; exact ⟨y, ⟨hy, by simp [hyB]⟩, rfl⟩⟩
  simp only [List.mem_toFinset, List.mem_map, List.mem_filter, id_eq, forall_exists_index, and_imp, Bool.not_eq_true'] at hu humax hw hwmin
  obtain ⟨a, ⟨ha, haB⟩, rfl⟩ := hu
  obtain ⟨b, ⟨hb, hbB⟩, rfl⟩ := hw
  have hab := hlt a ha b hb haB hbB
  have hle : ∀ z ∈ q, B z = true → contValAt z i ≤ contValAt a i := fun z hz hzB => humax _ z hz hzB rfl
  have hge : ∀ z ∈ q, B z = false → contValAt b i ≤ contValAt z i := fun z hz hzB => hwmin _ z hz hzB rfl
  refine ⟨(contValAt a i + contValAt b i) / 2, ⟨hi, a, ha, b, hb, hab, fun z hz => ?_, rfl⟩, fun z hz => ?_⟩
  · cases hz' : B z
    · exact .inr (hge z hz hz')
    · exact .inl (hle z hz hz')
  · cases hz' : B z
    · have := hge z hz hz'
      simp only [Bool.false_eq_true, iff_false, not_le]; linarith
    · have := hle z hz hz'
      simp only [iff_true]; linarith

theorem idle_computed (hp : p ≤ ts.length) (hj : j < p) {g : Inst ℝ → Attr ℝ} {τ : AttrType} {data : IList ℝ}
    (hts : ∀ x ∈ data, typesOf x = ts) (hg : ∀ x ∈ data, typeOf (g x) = τ) (hc : ComputedFrom j g data) :
    Idle p ts g τ data := by
  intro q hq hne T hT hcand
  refine .inr ?_
  obtain ⟨x0, hx0⟩ := List.exists_mem_of_ne_nil _ hne
  have hjr : j ∈ List.range ts.length := List.mem_range.2 (by omega)
  have htype : ∀ {a : Attr ℝ}, x0.attrs[j]? = some a → ts[j]? = some (typeOf a) := by
    intro a ha
    rw [← hts x0 (hq x0 hx0), typesOf, List.getElem?_map, ha]; rfl
  have hpt : (insertType p τ ts)[p]? = some τ := insert_get_at hp τ
  rcases hc with ⟨f, hf⟩ | ⟨f, hmono, hf⟩ | ⟨f, hinj, hneg, hf⟩
  · -- nominal
    obtain ⟨v0, hv0, _⟩ := hf x0 (hq x0 hx0)
    refine ⟨.discrete j, ⟨htype hv0, hjr⟩, hj, ?_⟩
    have hval : ∀ x ∈ q, g x = f (discValAt x j) ∧ (withColumn p g x).attrs[p]? = some (f (discValAt x j)) := by
      intro x hx
      obtain ⟨v, hv, hgx⟩ := hf x (hq x hx)
      have : discValAt x j = v := by unfold discValAt; rw [hv]
      rw [this, with_at hp (hts x (hq x hx)) g, hgx]
      exact ⟨rfl, rfl⟩
    cases T with
    | discrete i =>
      have hT : i = p := hT
      subst hT
      refine merge_le q g (fun x => discValAt x j) _ (fun v => match f v with | .discrete w => w | _ => "") (fun x hx => ?_)
      have h := (hval x hx).2
      generalize f (discValAt x j) = w at h ⊢
      unfold discValAt
      rw [h]
      cases w <;> rfl
    | indexed i k =>
      have hT : i = p := hT
      subst hT
      refine merge_le q g (fun x => discValAt x j) _
        (fun v => decide ((match f v with | .indexed _ k _ => k | _ => (0 : Int)) = k)) (fun x hx => ?_)
      unfold idxValAt
      rw [(hval x hx).2]
      cases f (discValAt x j) <;> rfl
    | threshold i t =>
      have hT : i = p := hT
      subst hT
      refine merge_le q g (fun x => discValAt x j) _
        (fun v => decide ((match f v with | .continuous k => k | _ => (Dbl.zero : ℝ)) ≤ t)) (fun x hx => ?_)
      unfold contValAt
      rw [(hval x hx).2]
      cases f (discValAt x j) <;> rfl
  · -- numbers
    obtain ⟨v0, hv0, hg0⟩ := hf x0 (hq x0 hx0)
    have hτ : τ = .continuous := by rw [← hg x0 (hq x0 hx0), hg0]; rfl
    subst hτ
    have hval : ∀ x ∈ q, contValAt (withColumn p g x) p = f (contValAt x j) := by
      intro x hx
      obtain ⟨v, hv, hgx⟩ := hf x (hq x hx)
      have h1 : contValAt x j = v := by unfold contValAt; rw [hv]
      unfold contValAt at h1 ⊢
      rw [with_at hp (hts x (hq x hx)) g, hgx, h1]
    cases T with
    | discrete i =>
      have hT : i = p := hT
      subst hT
      have h : _ = some AttrType.discrete := hcand
      rw [hpt] at h; cases h
    | indexed i k =>
      have hT : i = p := hT
      subst hT
      have h := hcand.1
      rw [hpt] at h; cases h
    | threshold i t =>
      have hT : i = p := hT
      subst hT
      obtain ⟨_, x, hx, y, hy, hxy, hall, rfl⟩ := hcand
      obtain ⟨x, hxq, rfl⟩ := List.mem_map.1 hx
      obtain ⟨y, hyq, rfl⟩ := List.mem_map.1 hy
      rw [hval x hxq, hval y hyq] at hxy ⊢
      set t := (f (contValAt x j) + f (contValAt y j)) / 2 with ht
      have key : Split.entropy (q.map (withColumn i g)) (.threshold i t) =
          condEntropy q (fun z => decide (f (contValAt z j) ≤ t)) :=
        condEntropy_map (withColumn i g) (fun _ => rfl) (fun z hz => by rw [hval z hz])
      rw [key]
      rcases hmono with hm | hm
      · obtain ⟨s, hs, hsame⟩ := threshold_between (htype hv0) (fun z => decide (f (contValAt z j) ≤ t)) hxq
          (by simp only [decide_eq_true_eq]; linarith) hyq (by simp only [decide_eq_false_iff_not, not_le]; linarith)
          (by
            intro z _ z' _ h1 h2
            simp only [decide_eq_true_eq, decide_eq_false_iff_not, not_le] at h1 h2
            exact hm.reflect_lt (lt_of_le_of_lt h1 h2))
        refine ⟨.threshold j s, ⟨hs, hjr⟩, hj, le_of_eq ?_⟩
        unfold Split.entropy
        refine (condEntropy_map (data := q) id (fun _ => rfl) (fun z hz => ?_)).symm.trans (by rw [List.map_id])
        have := hsame z hz
        simp only [decide_eq_true_eq] at this
        simp only [id_eq]
        rw [decide_eq_decide]; exact this.symm
      · obtain ⟨s, hs, hsame⟩ := threshold_between (htype hv0) (fun z => !decide (f (contValAt z j) ≤ t)) hyq
          (by simp only [Bool.not_eq_true', decide_eq_false_iff_not, not_le]; linarith) hxq
          (by simp only [Bool.not_eq_false', decide_eq_true_eq]; linarith)
          (by
            intro z _ z' _ h1 h2
            simp only [Bool.not_eq_true', Bool.not_eq_false', decide_eq_true_eq, decide_eq_false_iff_not, not_le] at h1 h2
            exact hm.reflect_lt (lt_of_le_of_lt h2 h1))
        refine ⟨.threshold j s, ⟨hs, hjr⟩, hj, le_of_eq ?_⟩
        unfold Split.entropy
        rw [← condEntropy_injective q (fun z => decide (f (contValAt z j) ≤ t)) not (fun a b h => by cases a <;> cases b <;> simp_all)]
        refine (condEntropy_map (data := q) id (fun _ => rfl) (fun z hz => ?_)).symm.trans (by rw [List.map_id])
        have := hsame z hz
        simp only [Bool.not_eq_true', decide_eq_false_iff_not] at this
        simp only [id_eq]
        rw [← decide_not, decide_eq_decide]; exact this.symm
  · -- indices
    obtain ⟨s0, k0, m0, s0', m0', hv0, hg0⟩ := hf x0 (hq x0 hx0)
    have hτ : τ = .discreteIndexed := by rw [← hg x0 (hq x0 hx0), hg0]; rfl
    subst hτ
    have hval : ∀ x ∈ q, idxValAt (withColumn p g x) p = f (idxValAt x j) := by
      intro x hx
      obtain ⟨s, k, m, s', m', hv, hgx⟩ := hf x (hq x hx)
      have h1 : idxValAt x j = k := by unfold idxValAt; rw [hv]
      unfold idxValAt at h1 ⊢
      rw [with_at hp (hts x (hq x hx)) g, hgx, h1]
    cases T with
    | discrete i =>
      have hT : i = p := hT
      subst hT
      have h : _ = some AttrType.discrete := hcand
      rw [hpt] at h; cases h
    | threshold i t =>
      have hT : i = p := hT
      subst hT
      have h := hcand.1
      rw [hpt] at h; cases h
    | indexed i k =>
      have hT : i = p := hT
      subst hT
      obtain ⟨_, hk, x, hx, hxk⟩ := hcand
      obtain ⟨x, hxq, rfl⟩ := List.mem_map.1 hx
      rw [hval x hxq] at hxk
      refine ⟨.indexed j (idxValAt x j), ⟨⟨htype hv0, hneg _ (by omega), x, hxq, rfl⟩, hjr⟩, hj, le_of_eq ?_⟩
      unfold Split.entropy
      refine (condEntropy_map (withColumn i g) (fun _ => rfl) (fun z hz => ?_)).symm
      rw [hval z hz, ← hxk, decide_eq_decide]
      exact hinj.eq_iff

/-- **C220** Decision trees grown without pruning, in exact arithmetic: a column `p` computed from an earlier column `j` of
the training instances changes nothing. Training succeeds with and without it, and every instance is answered alike,
whatever value `b` of the column's type it has there. -/
theorem C220_tree (hp : p ≤ ts.length) (hj : j < p) {data : IList ℝ} (hne : data ≠ []) (hts : ∀ x ∈ data, typesOf x = ts)
    (hbd : IndexBounded data) {g : Inst ℝ → Attr ℝ} {τ : AttrType} (hg : ∀ x ∈ data, typeOf (g x) = τ)
    (hbd' : IndexBounded (data.map (withColumn p g))) (hc : ComputedFrom j g data) :
    ∃ t t', treeTrain data none = .ok t ∧ treeTrain (data.map (withColumn p g)) none = .ok t' ∧
      ∀ (x : Inst ℝ) (b : Attr ℝ), typesOf x = ts → typeOf b = τ →
        treePredict t' (insertColumn p b x) = treePredict t x ∧
        t'.predictProbability (insertColumn p b x) = t.predictProbability x := by
  obtain ⟨t, t', h1, h2, _, _, h⟩ := grow_with hp hne hts hbd hg hbd' (idle_computed hp hj hts hg hc)
  exact ⟨t, t', h1, h2, fun x b hx hb =>
    ⟨h.treePredict inserted_keeps ⟨hx, b, hb, rfl⟩, (h.answers inserted_keeps ⟨hx, b, hb, rfl⟩).2.2⟩⟩

theorem computed_mono {g : Inst ℝ → Attr ℝ} {data q : IList ℝ} (h : ComputedFrom j g data) (hq : ∀ x ∈ q, x ∈ data) :
    ComputedFrom j g q := by
  rcases h with ⟨f, hf⟩ | ⟨f, hm, hf⟩ | ⟨f, h1, h2, hf⟩
  · exact .inl ⟨f, fun x hx => hf x (hq x hx)⟩
  · exact .inr (.inl ⟨f, hm, fun x hx => hf x (hq x hx)⟩)
  · exact .inr (.inr ⟨f, h1, h2, fun x hx => hf x (hq x hx)⟩)

theorem grow_part (hp : p ≤ ts.length) (hj : j < p) {data : IList ℝ} (hts : ∀ x ∈ data, typesOf x = ts)
    (hbd : IndexBounded data) {g : Inst ℝ → Attr ℝ} {τ : AttrType} (hg : ∀ x ∈ data, typeOf (g x) = τ)
    (hbd' : IndexBounded (data.map (withColumn p g))) (hc : ComputedFrom j g data) (q : IList ℝ) (hq : q ≠ [])
    (hqd : ∀ x ∈ q, x ∈ data) :
    ∃ t t', Node.grow none false (q.length + 1) q Cond.root = .ok t ∧
      Node.grow none false ((q.map (withColumn p g)).length + 1) (q.map (withColumn p g)) Cond.root = .ok t' ∧
      DefOn ts t ∧ DefOn (insertType p τ ts) t' ∧ Alike (Inserted p ts τ) t t' := by
  refine grow_with hp hq (fun x hx => hts x (hqd x hx)) (fun x hx y hy => hbd x (hqd x hx) y (hqd y hy))
    (fun x hx => hg x (hqd x hx)) ?_ (idle_computed hp hj (fun x hx => hts x (hqd x hx)) (fun x hx => hg x (hqd x hx))
      (computed_mono hc hqd))
  have hsub : ∀ x ∈ q.map (withColumn p g), x ∈ data.map (withColumn p g) := by
    intro x hx
    obtain ⟨y, hy, rfl⟩ := List.mem_map.1 hx
    exact List.mem_map_of_mem (hqd y hy)
  exact fun x hx y hy => hbd' x (hsub x hx) y (hsub y hy)

/-- **C220** Decision trees with pruning, the instances having been drawn in the same order. Some class must have instances
left for growing (C136). -/
theorem C220_pruned_tree (hp : p ≤ ts.length) (hj : j < p) {data : IList ℝ} (hts : ∀ x ∈ data, typesOf x = ts)
    (hbd : IndexBounded data) (hpos : ∀ x ∈ data, x.isComposite = true → x.possibleLabels ≠ [])
    {g : Inst ℝ → Attr ℝ} {τ : AttrType} (hg : ∀ x ∈ data, typeOf (g x) = τ)
    (hbd' : IndexBounded (data.map (withColumn p g))) (hc : ComputedFrom j g data) {r : ℝ} (h0 : 0 < r) (h1 : r ≤ 1)
    {σ : List Nat} (hσ : IsPermutation σ data.length) {c : String}
    (hcl : ⌈r * (data.map Inst.label).count c⌉₊ < (data.map Inst.label).count c) :
    ∃ t t', treeTrain data (some (r, σ)) = .ok t ∧ treeTrain (data.map (withColumn p g)) (some (r, σ)) = .ok t' ∧
      ∀ (x : Inst ℝ) (b : Attr ℝ), typesOf x = ts → typeOf b = τ →
        treePredict t' (insertColumn p b x) = treePredict t x ∧
        t'.predictProbability (insertColumn p b x) = t.predictProbability x := by
  obtain ⟨t, t', e1, e2, h⟩ := pruned_alike (inserted_keeps (p := p) (ts := ts) (τ := τ)) (g := withColumn p g) (fun _ => rfl) hts
    (fun x hx => by rw [← hg x hx]; exact typesOf_insert (hts x hx) (g x)) (fun x hx => ⟨hts x hx, g x, hg x hx, rfl⟩) hpos
    (fun q hq hqd => grow_part hp hj hts hbd hg hbd' hc q hq hqd) h0 h1 hσ hcl
  exact ⟨t, t', e1, e2, fun x b hx hb =>
    ⟨h.treePredict inserted_keeps ⟨hx, b, hb, rfl⟩, (h.answers inserted_keeps ⟨hx, b, hb, rfl⟩).2.2⟩⟩

/-- **C220** Decision stumps -/
theorem C220_stump (hp : p ≤ ts.length) (hj : j < p) {data : IList ℝ} (hne : data ≠ []) (hts : ∀ x ∈ data, typesOf x = ts)
    (hbd : IndexBounded data) {g : Inst ℝ → Attr ℝ} {τ : AttrType} (hg : ∀ x ∈ data, typeOf (g x) = τ)
    (hbd' : IndexBounded (data.map (withColumn p g))) (hc : ComputedFrom j g data) :
    ∃ t t', stumpTrain data = .ok t ∧ stumpTrain (data.map (withColumn p g)) = .ok t' ∧
      ∀ (x : Inst ℝ) (b : Attr ℝ), typesOf x = ts → typeOf b = τ →
        treePredict t' (insertColumn p b x) = treePredict t x ∧
        t'.predictProbability (insertColumn p b x) = t.predictProbability x := by
  obtain ⟨t, t', h1, h2, _, _, h⟩ := grow_with hp hne hts hbd hg hbd' (idle_computed hp hj hts hg hc)
  exact ⟨t.top, t'.top, C159_stump_is_top h1, C159_stump_is_top h2, fun x b hx hb =>
    ⟨h.top.treePredict inserted_keeps ⟨hx, b, hb, rfl⟩, (h.top.answers inserted_keeps ⟨hx, b, hb, rfl⟩).2.2⟩⟩

/-- **C220** Bagged trees, the same positions having been drawn -/
theorem C220_bagging (hp : p ≤ ts.length) (hj : j < p) {data : IList ℝ} (hts : ∀ x ∈ data, typesOf x = ts)
    (hbd : IndexBounded data) {g : Inst ℝ → Attr ℝ} {τ : AttrType} (hg : ∀ x ∈ data, typeOf (g x) = τ)
    (hbd' : IndexBounded (data.map (withColumn p g))) (hc : ComputedFrom j g data) {draws : Nat → List Nat}
    (hd : ∀ i, draws i ≠ [] ∧ ∀ k ∈ draws i, k < data.length) (B : Int) :
    ∃ f f', ensembleTrain none draws [] data B = .ok f ∧
      ensembleTrain none draws [] (data.map (withColumn p g)) B = .ok f' ∧
      ∀ (x : Inst ℝ) (b : Attr ℝ), typesOf x = ts → typeOf b = τ →
        ensemblePredict f' (insertColumn p b x) = ensemblePredict f x ∧
        ensembleProbability f' (insertColumn p b x) = ensembleProbability f x := by
  obtain ⟨f, f', h1, h2, h3⟩ := bagged_alike (R := Inserted p ts τ) (g := withColumn p g) (data := data)
    (fun q hq hqd => by
      obtain ⟨t, t', e1, e2, _, _, e3⟩ := grow_part hp hj hts hbd hg hbd' hc q hq hqd
      exact ⟨t, t', e1, e2, e3⟩) hd B
  exact ⟨f, f', h1, h2, fun x b hx hb => votes_alike inserted_keeps h3 ⟨hx, b, hb, rfl⟩⟩

end

/-! ## classifiers that count the evidence twice -/

/-- two instances, one nearer in the first column, the other in the second -/
def nearInOne : IList XR :=
  [⟨"a", [.continuous (.fin 0), .continuous (.fin 3)], none⟩, ⟨"b", [.continuous (.fin 2), .continuous (.fin 2)], none⟩]

/-- **C220, other classifiers: k nearest neighbours**: a copy of a column counts twice in the distance. -/
theorem C220_knn_counts_twice : ∃ (l : IList XR) (x : Inst XR) (g : Inst XR → Attr XR),
    (∀ y ∈ x :: l, y.attrs[0]? = some (g y)) ∧
    Knn.predict ⟨l, 1, euclidean⟩ x = .ok "b" ∧
    Knn.predict ⟨l.map (withColumn 2 g), 1, euclidean⟩ (withColumn 2 g x) = .ok "a" := by
  refine ⟨nearInOne, ⟨"?", [.continuous (.fin 0), .continuous (.fin 0)], none⟩, fun y => y.attrs.headD (.discrete ""), ?_, ?_, ?_⟩
  · intro y hy
    simp only [nearInOne, List.mem_cons, List.not_mem_nil, or_false] at hy
    rcases hy with rfl | rfl | rfl <;> rfl
  · decide +kernel
  · decide +kernel

/-- four instances of class A, one of them with the value x, and one of class B with the value x -/
def mostlyW : IList ℝ :=
  ⟨"A", [.discrete "x"], none⟩ :: ⟨"B", [.discrete "x"], none⟩ :: List.replicate 3 ⟨"A", [.discrete "w"], none⟩

/-- k for x, and w for everything else -/
def kForX (x : Inst ℝ) : Attr ℝ := .discrete (if discVals x = ["x"] then "k" else "w")

/-- **C220, other classifiers: naive Bayes**: a column computed from another is taken as evidence of its own. One value x speaks for
class B, but not enough against the more frequent class A; counted twice it does. -/
theorem C220_naive_bayes_counts_twice : ∃ (l : IList ℝ) (x : Inst ℝ) (g : Inst ℝ → Attr ℝ) (m m' : NaiveBayes ℝ),
    ComputedFrom 0 g (x :: l) ∧
    NaiveBayes.train NaiveBayes.new l = .ok m ∧ NaiveBayes.train NaiveBayes.new (l.map (withColumn 1 g)) = .ok m' ∧
    m.predict x = .ok "A" ∧ m'.predict (withColumn 1 g x) = .ok "B" := by
  obtain ⟨m, e, hp⟩ := nb_six (l := mostlyW) (a := 8 / 35) (b := 2 / 15) (by simp [mostlyW])
    (by intro x hx; simp [mostlyW] at hx; rcases hx with rfl | rfl | rfl <;> simp [discVals])
    (by simp [mostlyW]) (by simp [mostlyW]) (by decide +kernel)
    (by simp [classSize, smoothed, classColumn, mostlyW, discVals, List.replicate]; norm_num)
    (by simp [classSize, smoothed, classColumn, mostlyW, discVals, List.replicate]; norm_num) (by norm_num) (by norm_num)
  obtain ⟨m', e', hp'⟩ := nb_two_columns (l := mostlyW.map (withColumn 1 kForX)) (a := 16 / 245) (b := 4 / 45)
    (by simp [mostlyW])
    (by
      intro x hx
      obtain ⟨y, hy, rfl⟩ := List.mem_map.1 hx
      simp [mostlyW] at hy; rcases hy with rfl | rfl | rfl <;> simp [discVals, withColumn, insertColumn, kForX])
    (by simp [mostlyW, withColumn, insertColumn]) (by simp [mostlyW, withColumn, insertColumn])
    (by rw [classDistribution_eq, labels_with]; decide +kernel)
    (by simp [classSize, smoothed, classColumn, mostlyW, withColumn, insertColumn, kForX, discVals, List.replicate]; norm_num)
    (by simp [classSize, smoothed, classColumn, mostlyW, withColumn, insertColumn, kForX, discVals, List.replicate]; norm_num)
    (by norm_num) (by norm_num)
  refine ⟨mostlyW, ⟨"", [.discrete "x"], none⟩, kForX, m, m', ?_, e, e', ?_, ?_⟩
  · refine .inl ⟨fun v => .discrete (if v = "x" then "k" else "w"), fun x hx => ?_⟩
    simp [mostlyW] at hx
    rcases hx with rfl | rfl | rfl | rfl <;> simp [kForX, discVals]
  · rw [hp, if_neg (by norm_num)]
  · refine Eq.trans ?_ (hp'.trans ?_)
    · simp [withColumn, insertColumn, kForX, discVals]
    · rw [if_pos (by norm_num)]

/-! ## the hypotheses are met -/

theorem bounded_with {p : Nat} {ts : List AttrType} (hp : p ≤ ts.length) {data : IList ℝ} (hts : ∀ x ∈ data, typesOf x = ts)
    (hbd : IndexBounded data) {g : Inst ℝ → Attr ℝ}
    (h : ∀ x ∈ data, ∀ y ∈ data, ∀ v k m v' k' m', g x = .indexed v k m → g y = .indexed v' k' m' → k < m') :
    IndexBounded (data.map (withColumn p g)) := by
  intro x hx y hy i v k m v' k' m' h1 h2
  obtain ⟨x, hxm, rfl⟩ := List.mem_map.1 hx
  obtain ⟨y, hym, rfl⟩ := List.mem_map.1 hy
  have hpx : p ≤ x.attrs.length := by rw [typed_length (hts x hxm)]; exact hp
  have hpy : p ≤ y.attrs.length := by rw [typed_length (hts y hym)]; exact hp
  by_cases hi : i = p
  · subst hi
    rw [with_at hp (hts x hxm)] at h1
    rw [with_at hp (hts y hym)] at h2
    exact h x hxm y hym _ _ _ _ _ _ (Option.some.inj h1) (Option.some.inj h2)
  · obtain ⟨j, rfl⟩ := exists_up hi
    have e1 : (withColumn p g x).attrs[up p j]? = x.attrs[j]? := insert_get_up hpx (g x) j
    have e2 : (withColumn p g y).attrs[up p j]? = y.attrs[j]? := insert_get_up hpy (g y) j
    rw [e1] at h1
    rw [e2] at h2
    exact hbd x hxm y hym j _ _ _ _ _ _ h1 h2

/-- numbers: the first column in another unit and with the other sign -/
example : ∃ t t', treeTrain treeWitness none = .ok t ∧
    treeTrain (treeWitness.map (withColumn 2 (fun x => .continuous (1 - 2 * contValAt x 0)))) none = .ok t' ∧
    ∀ (x : Inst ℝ) (b : Attr ℝ), typesOf x = treeWitnessTypes → typeOf b = .continuous →
      treePredict t' (insertColumn 2 b x) = treePredict t x ∧
      t'.predictProbability (insertColumn 2 b x) = t.predictProbability x := by
  refine C220_tree (j := 0) (by decide) (by omega) (by simp [treeWitness]) treeWitness_types treeWitness_bounded (fun _ _ => rfl)
    (bounded_with (by decide) treeWitness_types treeWitness_bounded (fun _ _ _ _ _ _ _ _ _ _ h => by cases h))
    (.inr (.inl ⟨fun v => 1 - 2 * v, .inr (fun a b h => by simp only; linarith), fun x hx => ?_⟩))
  simp only [treeWitness, List.mem_cons, List.not_mem_nil, or_false] at hx
  rcases hx with rfl | rfl | rfl | rfl <;> exact ⟨_, rfl, rfl⟩

/-- an index for two groups of names -/
noncomputable def groupOf (v : String) : Attr ℝ := if v = "u" then .indexed "u" 0 2 else .indexed "other" 1 2

theorem groupOf_type (v : String) : typeOf (groupOf v) = .discreteIndexed := by unfold groupOf; split <;> rfl

/-- names: an index for two groups of the values of the second column, for a pruned tree -/
example : ∃ t t', treeTrain treeWitness (some (1 / 2, [2, 0, 3, 1])) = .ok t ∧
    treeTrain (treeWitness.map (withColumn 4 (fun x => groupOf (discValAt x 1)))) (some (1 / 2, [2, 0, 3, 1])) = .ok t' ∧
    ∀ (x : Inst ℝ) (b : Attr ℝ), typesOf x = treeWitnessTypes → typeOf b = .discreteIndexed →
      treePredict t' (insertColumn 4 b x) = treePredict t x ∧
      t'.predictProbability (insertColumn 4 b x) = t.predictProbability x := by
  have hc : (treeWitness.map Inst.label).count "a" = 2 := by
    simp only [treeWitness, List.map_cons, List.map_nil]; decide
  have hb : IndexBounded (treeWitness.map (withColumn 4 (fun x => groupOf (discValAt x 1)))) := by
    refine bounded_with (ts := treeWitnessTypes) (by decide) treeWitness_types treeWitness_bounded ?_
    intro x _ y _ v k m v' k' m' h1 h2
    unfold groupOf at h1 h2
    split at h1 <;> split at h2 <;> cases h1 <;> cases h2 <;> omega
  have hcf : ComputedFrom 1 (fun x => groupOf (discValAt x 1)) treeWitness := by
    refine .inl ⟨groupOf, fun x hx => ?_⟩
    simp only [treeWitness, List.mem_cons, List.not_mem_nil, or_false] at hx
    rcases hx with rfl | rfl | rfl | rfl <;> exact ⟨_, rfl, rfl⟩
  have hpos : ∀ x ∈ treeWitness, x.isComposite = true → x.possibleLabels ≠ [] := by
    intro x hx; simp only [treeWitness, List.mem_cons, List.not_mem_nil, or_false] at hx
    rcases hx with rfl | rfl | rfl | rfl <;> simp [Inst.isComposite]
  exact C220_pruned_tree (j := 1) (ts := treeWitnessTypes) (p := 4) (by decide) (by omega) treeWitness_types treeWitness_bounded
    hpos (fun x _ => groupOf_type _) hb hcf (by norm_num) (by norm_num)
    (by unfold IsPermutation treeWitness; decide) (c := "a") (by rw [hc]; norm_num)

/-- indices: the third column with its indices tripled, for bagged trees -/
example (B : Int) : ∃ f f', ensembleTrain none (fun i => [i % 4, 1, 3]) [] treeWitness B = .ok f ∧
    ensembleTrain none (fun i => [i % 4, 1, 3]) [] (treeWitness.map (withColumn 3 (fun x => .indexed "" (3 * idxValAt x 2) 9))) B =
      .ok f' ∧
    ∀ (x : Inst ℝ) (b : Attr ℝ), typesOf x = treeWitnessTypes → typeOf b = .discreteIndexed →
      ensemblePredict f' (insertColumn 3 b x) = ensemblePredict f x ∧
      ensembleProbability f' (insertColumn 3 b x) = ensembleProbability f x := by
  have hb : IndexBounded (treeWitness.map (withColumn 3 (fun x => .indexed "" (3 * idxValAt x 2) 9))) := by
    refine bounded_with (ts := treeWitnessTypes) (by decide) treeWitness_types treeWitness_bounded ?_
    intro x hx y _ v k m v' k' m' h1 h2
    cases h1
    cases h2
    simp only [treeWitness, List.mem_cons, List.not_mem_nil, or_false] at hx
    rcases hx with rfl | rfl | rfl | rfl <;> simp [idxValAt]
  have hcf : ComputedFrom 2 (fun x => .indexed "" (3 * idxValAt x 2) 9) treeWitness := by
    refine .inr (.inr ⟨fun k => 3 * k, fun a b h => by simp only at h; omega, fun k h => by simp only at h; omega, fun x hx => ?_⟩)
    simp only [treeWitness, List.mem_cons, List.not_mem_nil, or_false] at hx
    rcases hx with rfl | rfl | rfl | rfl <;> exact ⟨_, _, _, _, _, rfl, rfl⟩
  refine C220_bagging (j := 2) (ts := treeWitnessTypes) (p := 3) (g := fun x => .indexed "" (3 * idxValAt x 2) 9)
    (τ := .discreteIndexed) (draws := fun i => [i % 4, 1, 3]) (by decide) (by omega) treeWitness_types treeWitness_bounded
    (fun _ _ => rfl) hb hcf (fun i => ⟨by simp, fun k hk => ?_⟩) B
  have hl : treeWitness.length = 4 := rfl
  simp only [List.mem_cons, List.not_mem_nil, or_false] at hk
  omega

/-- a stump with a copy of its first column -/
example : ∃ t t', stumpTrain treeWitness = .ok t ∧
    stumpTrain (treeWitness.map (withColumn 4 (fun x => .continuous (contValAt x 0)))) = .ok t' ∧
    ∀ (x : Inst ℝ) (b : Attr ℝ), typesOf x = treeWitnessTypes → typeOf b = .continuous →
      treePredict t' (insertColumn 4 b x) = treePredict t x ∧
      t'.predictProbability (insertColumn 4 b x) = t.predictProbability x := by
  refine C220_stump (j := 0) (by decide) (by omega) (by simp [treeWitness]) treeWitness_types treeWitness_bounded (fun _ _ => rfl)
    (bounded_with (by decide) treeWitness_types treeWitness_bounded (fun _ _ _ _ _ _ _ _ _ _ h => by cases h))
    (.inr (.inl ⟨fun v => v, .inl monotone_id, fun x hx => ?_⟩))
  simp only [treeWitness, List.mem_cons, List.not_mem_nil, or_false] at hx
  rcases hx with rfl | rfl | rfl | rfl <;> exact ⟨_, rfl, rfl⟩

end Verif
