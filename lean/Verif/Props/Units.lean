import Verif.Spec.Units
import Verif.Props.Normalize
import Verif.Props.Order

/-! # Properties C152-C155: units of measurement -/

set_option linter.unusedSectionVars false

namespace Verif
open Dbl

/-! ## statistics of a column in other units -/

theorem mean_affine (a b : ℝ) {vs : List ℝ} (hne : vs ≠ []) :
    mean (vs.map (fun v => a * v + b)) = a * mean vs + b := by
  have hn : (vs.length : ℝ) ≠ 0 := by simpa using hne
  have hs : ∀ vs : List ℝ, (vs.map (fun v => a * v + b)).sum = a * vs.sum + vs.length * b := by
    intro vs
    induction vs with
    | nil => simp
    | cons v vs ih => simp only [List.map_cons, List.sum_cons, ih, List.length_cons]; push_cast; ring
  unfold mean
  rw [hs, List.length_map]
  field_simp

theorem sampleSD_affine (a b : ℝ) (vs : List ℝ) :
    sampleSD (vs.map (fun v => a * v + b)) = |a| * sampleSD vs := by
  by_cases hne : vs = []
  · subst hne; simp [sampleSD, sampleVar]
  have hv : sampleVar (vs.map (fun v => a * v + b)) = a ^ 2 * sampleVar vs := by
    unfold sampleVar
    rw [mean_affine a b hne, List.length_map, List.map_map, ← mul_div_assoc]
    congr 1
    generalize mean vs = m
    clear hne
    induction vs with
    | nil => simp
    | cons v vs ih => simp only [List.map_cons, List.sum_cons, ih, Function.comp_apply]; ring
  unfold sampleSD
  rw [hv, Real.sqrt_mul (by positivity), Real.sqrt_sq_eq_abs]

/-! ## instances in other units -/

theorem inUnits_label (a b : Nat → ℝ) (x : Inst ℝ) : (inUnits a b x).label = x.label := rfl
theorem inUnits_possible (a b : Nat → ℝ) (x : Inst ℝ) : (inUnits a b x).possible = x.possible := rfl

theorem inUnits_get (a b : Nat → ℝ) (x : Inst ℝ) (i : Nat) :
    (inUnits a b x).attrs[i]? = (x.attrs[i]?).map (Attr.inUnits (a i) (b i)) := by
  simp [inUnits, List.getElem?_mapIdx]

theorem inUnits_mapped (a b : Nat → ℝ) (x : Inst ℝ) :
    NumbersMapped (fun i v => a i * v + b i) x (inUnits a b x) := by
  refine ⟨rfl, rfl, by simp [inUnits], fun i v h => ?_, fun i t h ht => ?_⟩
  · rw [inUnits_get, h]; rfl
  · rw [inUnits_get, h]
    cases t <;> first | rfl | exact absurd rfl ht

theorem inUnits_types (a b : Nat → ℝ) (x : Inst ℝ) : typesOf (inUnits a b x) = typesOf x := by
  unfold typesOf
  apply List.ext_getElem?
  intro i
  rw [List.getElem?_map, List.getElem?_map, inUnits_get]
  cases x.attrs[i]? with
  | none => rfl
  | some t => cases t <;> rfl

theorem NumbersMapped.unique {f : Nat → ℝ → ℝ} {x y z : Inst ℝ} (h : NumbersMapped f x y)
    (h' : NumbersMapped f x z) : y = z := by
  have : y.attrs = z.attrs := by
    apply List.ext_getElem?
    intro i
    cases hx : x.attrs[i]? with
    | none =>
      have e := List.getElem?_eq_none_iff.1 hx
      rw [List.getElem?_eq_none_iff.2 (by rw [h.width]; exact e),
        List.getElem?_eq_none_iff.2 (by rw [h'.width]; exact e)]
    | some t =>
      by_cases ht : typeOf t = .continuous
      · obtain ⟨v, rfl⟩ := continuous_of_type ht
        rw [h.number i v hx, h'.number i v hx]
      · rw [h.other i t hx ht, h'.other i t hx ht]
  cases y; cases z
  have h1 := h.label; have h2 := h.possible; have h3 := h'.label; have h4 := h'.possible
  simp only at h1 h2 h3 h4 this
  simp [h1, h2, h3, h4, this]

theorem PointTo.unique {F : Type} {h : Heap F} {refs : List Nat} {l l' : IList F} (hp : PointTo h refs l)
    (hp' : PointTo h refs l') : l = l' := by
  unfold PointTo at hp hp'
  induction hp generalizing l' with
  | nil => cases hp'; rfl
  | cons h1 _ ih =>
    cases hp' with
    | cons h2 h3 => rw [h1] at h2; cases h2; rw [ih h3]

theorem forall₂_same_images {α β γ : Type} {R : α → β → Prop} {S : α → γ → Prop} {T : β → γ → Prop}
    {l : List α} {r : List β} {q : List γ} (h : List.Forall₂ R l r) (h' : List.Forall₂ S l q)
    (hT : ∀ x y z, x ∈ l → R x y → S x z → T y z) : List.Forall₂ T r q := by
  induction h generalizing q with
  | nil => cases h'; exact .nil
  | cons h1 _ ih =>
    cases h' with
    | cons h3 h4 => exact .cons (hT _ _ _ (by simp) h1 h3) (ih h4 (fun x y z hx => hT x y z (by simp [hx])))

/-! ## C152 -/

/-- **C152.** Normalising removes the units: if the numbers of every column `i` are given in
another unit (`a i * v + b i`, `a i > 0`), `Normalize(ds).convert()` gives the same instances.
(`h` and `h'` are the two memories, exact arithmetic.) -/
theorem C152_normalize_units (h h' : Heap ℝ) (ds ds' : RefSet) (l : IList ℝ) (a b : Nat → ℝ)
    (ha : ∀ i, 0 < a i) (hp : PointTo h ds.refs l) (hp' : PointTo h' ds'.refs (l.map (inUnits a b)))
    (hnd : ds.refs.Nodup) (hnd' : ds'.refs.Nodup) (h2 : 2 ≤ l.length)
    (hc : ∀ x ∈ l, typesOf x = ds.definition.types) (hdef : ds'.definition.types = ds.definition.types) :
    ∃ k k' r, normalize h ds = .ok (k, ds) ∧ normalize h' ds' = .ok (k', ds') ∧
      PointTo k ds.refs r ∧ PointTo k' ds'.refs r := by
  obtain ⟨k, r, e, hr, hch, _⟩ := C98_normalize h ds l hp hnd h2 hc
  obtain ⟨k', r', e', hr', hch', _⟩ := C98_normalize h' ds' (l.map (inUnits a b)) hp' hnd' (by simpa using h2) (by
    intro x hx
    obtain ⟨y, hy, rfl⟩ := List.mem_map.1 hx
    rw [inUnits_types, hc y hy, hdef])
  refine ⟨k, k', r, e, e', hr, ?_⟩
  obtain ⟨r1, hr1, hm⟩ := hch.points hp
  obtain ⟨r2, hr2, hm'⟩ := hch'.points hp'
  rw [hr.unique hr1] at *
  rw [hr'.unique hr2] at *
  have hcol : ∀ i, numbersAt (l.map (inUnits a b)) i = (numbersAt l i).map (fun v => a i * v + b i) := by
    intro i
    refine numbersAt_mapped (f := fun i v => a i * v + b i) ?_ i
    rw [List.forall₂_map_right_iff]
    exact List.forall₂_same.2 (fun x _ => inUnits_mapped a b x)
  have key : ∀ x y z, x ∈ l → NumbersMapped (fun i v => (v - mean (numbersAt l i)) / sampleSD (numbersAt l i)) x y →
      NumbersMapped (fun i v => (v - mean (numbersAt (l.map (inUnits a b)) i)) /
        sampleSD (numbersAt (l.map (inUnits a b)) i)) (inUnits a b x) z → y = z := by
    intro x y z hx hy hz
    refine hy.unique ⟨hz.label, hz.possible, ?_, ?_, ?_⟩
    · rw [hz.width]; simp [inUnits]
    · intro i v hv
      rw [hz.number i (a i * v + b i) (by rw [inUnits_get, hv]; rfl)]
      have hne : numbersAt l i ≠ [] := by
        intro h0
        have : v ∈ numbersAt l i := by
          unfold numbersAt
          rw [List.mem_filterMap]
          exact ⟨x, hx, by rw [hv]⟩
        rw [h0] at this; cases this
      rw [hcol, mean_affine _ _ hne, sampleSD_affine, abs_of_pos (ha i)]
      congr 2
      have := (ha i).ne'
      rw [show a i * v + b i - (a i * mean (numbersAt l i) + b i) = a i * (v - mean (numbersAt l i)) by ring,
        mul_div_mul_left _ _ this]
    · intro i t ht htc
      rw [hz.other i t (by rw [inUnits_get, ht]; cases t <;> first | rfl | exact absurd rfl htc) htc]
  have hrr : r1 = r2 := by
    rw [List.forall₂_map_left_iff] at hm'
    exact List.forall₂_eq_eq_eq ▸ forall₂_same_images hm hm' key
  rw [hrr]; exact hr2

/-! ## C153: naive Bayes -/

theorem numeric_values {n : Nat} {x : Inst ℝ} (h : Numeric n x) :
    x.attrs = (contValues x).map Attr.continuous ∧ (contValues x).length = n := by
  obtain ⟨u, h1, h2⟩ := h
  have : contValues x = u := by
    unfold contValues
    rw [h1, List.map_map]
    conv_rhs => rw [← List.map_id u]
    exact List.map_congr_left (fun v _ => rfl)
  rw [this]; exact ⟨h1, h2⟩

theorem numeric_inUnits {n : Nat} {x : Inst ℝ} (a b : Nat → ℝ) (h : Numeric n x) : Numeric n (inUnits a b x) := by
  obtain ⟨u, h1, h2⟩ := h
  refine ⟨u.mapIdx (fun i v => a i * v + b i), ?_, by simpa using h2⟩
  simp only [inUnits, h1]
  apply List.ext_getElem?
  intro i
  simp only [List.getElem?_mapIdx, List.getElem?_map]
  cases u[i]? <;> rfl

theorem contValues_inUnits {n : Nat} {x : Inst ℝ} (a b : Nat → ℝ) (h : Numeric n x) {i : Nat} (hi : i < n) :
    (contValues (inUnits a b x)).getD i 0 = a i * (contValues x).getD i 0 + b i := by
  obtain ⟨h1, h2⟩ := numeric_values h
  have hget : x.attrs[i]? = some (.continuous ((contValues x).getD i 0)) := by
    conv_lhs => rw [h1]
    rw [List.getElem?_map, List.getD_eq_getElem?_getD, List.getElem?_eq_getElem (by omega)]; rfl
  have h3 : (contValues (inUnits a b x))[i]? = some (a i * (contValues x).getD i 0 + b i) := by
    unfold contValues at hget ⊢
    rw [List.getElem?_map, inUnits_get, hget]; rfl
  rw [List.getD_eq_getElem?_getD (l := contValues (inUnits a b x)), h3]; rfl

theorem classSize_inUnits (a b : Nat → ℝ) (l : IList ℝ) (c : String) :
    classSize (l.map (inUnits a b)) c = classSize l c := by
  unfold classSize
  rw [List.map_map]; rfl

theorem labels_inUnits (a b : Nat → ℝ) (l : IList ℝ) : (l.map (inUnits a b)).map Inst.label = l.map Inst.label := by
  rw [List.map_map]; rfl

theorem dist_inUnits (a b : Nat → ℝ) (l : IList ℝ) : IList.classDistribution (l.map (inUnits a b)) = l.classDistribution := by
  rw [classDistribution_eq, classDistribution_eq, labels_inUnits]

/-- the numbers of class `c` in column `i` -/
theorem classCol_inUnits {n : Nat} {l : IList ℝ} (a b : Nat → ℝ) (hl : ∀ x ∈ l, Numeric n x) (c : String) {i : Nat} (hi : i < n) :
    ((l.map (inUnits a b)).filter (fun x => x.label == c)).map (fun x => (contValues x).getD i 0) =
      ((l.filter (fun x => x.label == c)).map (fun x => (contValues x).getD i 0)).map (fun v => a i * v + b i) := by
  rw [List.filter_map, List.map_map, List.map_map]
  refine List.map_congr_left (fun x hx => ?_)
  exact contValues_inUnits a b (hl x (List.mem_filter.1 hx).1) hi

theorem classMean_inUnits {n : Nat} {l : IList ℝ} (a b : Nat → ℝ) (hl : ∀ x ∈ l, Numeric n x) {c : String}
    (hc : c ∈ l.map Inst.label) {i : Nat} (hi : i < n) :
    (classMean (l.map (inUnits a b)) contValues n c).getD i 0 = a i * (classMean l contValues n c).getD i 0 + b i := by
  have hne : (l.filter (fun x => x.label == c)).map (fun x => (contValues x).getD i 0) ≠ [] := by
    simpa using class_ne_nil l c hc
  simp only [classMean, List.getD_eq_getElem?_getD, List.getElem?_map, List.getElem?_range hi, Option.map_some,
    Option.getD_some]
  have := classCol_inUnits a b hl c hi
  simp only [List.getD_eq_getElem?_getD] at this hne
  rw [this, mean_affine _ _ hne]

theorem classSD_inUnits {n : Nat} {l : IList ℝ} (a b : Nat → ℝ) (hl : ∀ x ∈ l, Numeric n x) (c : String)
    {i : Nat} (hi : i < n) :
    (classSD (l.map (inUnits a b)) contValues n c).getD i 0 = |a i| * (classSD l contValues n c).getD i 0 := by
  simp only [classSD, List.getD_eq_getElem?_getD, List.getElem?_map, List.getElem?_range hi, Option.map_some,
    Option.getD_some]
  have := classCol_inUnits a b hl c hi
  simp only [List.getD_eq_getElem?_getD] at this
  rw [this, sampleSD_affine]

/-- **C153.** Naive Bayes on numbers: training and asking in other units (`a i * v + b i`,
`a i ≠ 0`) gives the same predictions, for training data with at least two instances of every
class (exact arithmetic). -/
theorem C153_naive_bayes_units (l : IList ℝ) (hne : l ≠ []) (n : Nat) (hn : 0 < n) (hl : ∀ x ∈ l, Numeric n x)
    (h2 : ∀ c ∈ l.map Inst.label, 2 ≤ classSize l c) (a b : Nat → ℝ) (ha : ∀ i, a i ≠ 0) :
    ∃ m m', NaiveBayes.train NaiveBayes.new l = .ok m ∧ NaiveBayes.train NaiveBayes.new (l.map (inUnits a b)) = .ok m' ∧
      ∀ x, Numeric n x → m'.predict (inUnits a b x) = m.predict x := by
  have hl' : ∀ x ∈ l.map (inUnits a b), Numeric n x := by
    intro x hx
    obtain ⟨y, hy, rfl⟩ := List.mem_map.1 hx
    exact numeric_inUnits a b (hl y hy)
  obtain ⟨m, e, hp, hs⟩ := C106_partial l hne contValues n hn (fun x hx => numeric_values (hl x hx)) h2
  obtain ⟨m', e', hp', hs'⟩ := C106_partial (l.map (inUnits a b)) (by simpa using hne) contValues n hn
    (fun x hx => numeric_values (hl' x hx)) (fun c hc => by
      rw [classSize_inUnits]; rw [labels_inUnits] at hc; exact h2 c hc)
  refine ⟨m, m', e, e', fun x hx => ?_⟩
  have hx' := numeric_inUnits a b hx
  have key : ∀ c ∈ l.map Inst.label, m'.metric (inUnits a b x) c = m.metric x c := by
    intro c hc
    rw [hs x _ (numeric_values hx).1 (numeric_values hx).2 c hc,
      hs' _ _ (numeric_values hx').1 (numeric_values hx').2 c (by rw [labels_inUnits]; exact hc),
      classSize_inUnits, List.length_map]
    congr 4
    refine List.map_congr_left (fun i hi => ?_)
    have hi := List.mem_range.1 hi
    rw [contValues_inUnits a b hx hi, classMean_inUnits a b hl hc hi, classSD_inUnits a b hl c hi]
    rw [show a i * (contValues x).getD i 0 + b i - (a i * (classMean l contValues n c).getD i 0 + b i) =
      a i * ((contValues x).getD i 0 - (classMean l contValues n c).getD i 0) by ring]
    rw [div_pow, div_pow, mul_pow, mul_pow, sq_abs, mul_div_mul_left _ _ (pow_ne_zero 2 (ha i))]
  unfold NaiveBayes.predict
  rw [hp, hp', dist_inUnits]
  unfold gaussPredict
  have hg : ∀ p c, c ∈ l.map Inst.label ∨ l.classDistribution.containsItem c = false →
      gaussStep l.classDistribution (m'.metric (inUnits a b x)) p c = gaussStep l.classDistribution (m.metric x) p c := by
    intro p c hc
    unfold gaussStep
    by_cases hcc : l.classDistribution.containsItem c = true
    · rw [if_pos hcc, if_pos hcc, key c ((containsItem_iff l c).1 hcc)]
    · rw [if_neg hcc, if_neg hcc]
  have hgs : gaussStep l.classDistribution (m'.metric (inUnits a b x)) = gaussStep l.classDistribution (m.metric x) := by
    funext p c
    refine hg p c ?_
    by_cases hcc : l.classDistribution.containsItem c = true
    · exact .inl ((containsItem_iff l c).1 hcc)
    · exact .inr (by simpa using hcc)
  rw [hgs]
  rfl

/-! ## the hypotheses are met -/

theorem nbWitness_numeric : ∀ x ∈ nbWitness, Numeric 1 x := by
  intro x hx
  simp only [nbWitness, List.mem_cons, List.not_mem_nil, or_false] at hx
  rcases hx with rfl | rfl | rfl | rfl
  · exact ⟨[-1], rfl, rfl⟩
  · exact ⟨[1], rfl, rfl⟩
  · exact ⟨[-9], rfl, rfl⟩
  · exact ⟨[11], rfl, rfl⟩

theorem nbWitness_two : ∀ c ∈ nbWitness.map Inst.label, 2 ≤ classSize nbWitness c := by
  intro c hc
  simp only [nbWitness, List.map_cons, List.map_nil, List.mem_cons, List.not_mem_nil, or_false] at hc
  rcases hc with rfl | rfl | rfl | rfl <;> simp [classSize, nbWitness]

/-- temperatures in Fahrenheit instead of Celsius -/
example : ∃ m m', NaiveBayes.train NaiveBayes.new nbWitness = .ok m ∧
    NaiveBayes.train NaiveBayes.new (nbWitness.map (inUnits (fun _ => 9 / 5) (fun _ => 32))) = .ok m' ∧
    m'.predict (inUnits (fun _ => 9 / 5) (fun _ => 32) ⟨"?", [.continuous 2], none⟩) =
      m.predict ⟨"?", [.continuous 2], none⟩ := by
  obtain ⟨m, m', e, e', h⟩ := C153_naive_bayes_units nbWitness (by simp [nbWitness]) 1 (by simp) nbWitness_numeric
    nbWitness_two (fun _ => 9 / 5) (fun _ => 32) (fun _ => by norm_num)
  exact ⟨m, m', e, e', h _ ⟨[2], rfl, rfl⟩⟩

example : ∃ k k' r, normalize exNormHeap ⟨[0, 1], ⟨[.discrete, .continuous], []⟩⟩ = .ok (k, ⟨[0, 1], ⟨[.discrete, .continuous], []⟩⟩) ∧
    normalize (exNormHeap.map (inUnits (fun _ => 9 / 5) (fun _ => 32))) ⟨[0, 1], ⟨[.discrete, .continuous], []⟩⟩ =
      .ok (k', ⟨[0, 1], ⟨[.discrete, .continuous], []⟩⟩) ∧ PointTo k [0, 1] r ∧ PointTo k' [0, 1] r := by
  refine C152_normalize_units exNormHeap _ ⟨[0, 1], ⟨[.discrete, .continuous], []⟩⟩ ⟨[0, 1], ⟨[.discrete, .continuous], []⟩⟩
    exNormHeap _ _ (fun _ => by norm_num)
    (List.Forall₂.cons (R := fun r x => exNormHeap[r]? = some x) rfl
      (List.Forall₂.cons (R := fun r x => exNormHeap[r]? = some x) rfl List.Forall₂.nil))
    (List.Forall₂.cons (R := fun r x => (exNormHeap.map (inUnits (fun _ => 9 / 5) (fun _ => 32)))[r]? = some x) rfl
      (List.Forall₂.cons (R := fun r x => (exNormHeap.map (inUnits (fun _ => 9 / 5) (fun _ => 32)))[r]? = some x) rfl List.Forall₂.nil))
    (by decide) (by decide) (by simp [exNormHeap]) ?_ rfl
  intro x hx
  simp only [exNormHeap, List.mem_cons, List.not_mem_nil, or_false] at hx
  rcases hx with rfl | rfl <;> rfl

end Verif
