import Verif.Props.NewClass
import Verif.Props.NaiveBayes
import Verif.Props.SimpleModels

/-! # Property C190: an instance of a new class, for the classifiers that count -/

set_option linter.unusedSectionVars false

namespace Verif
open Dbl

variable {F : Type} [Dbl F]

theorem newClass_counts {F : Type} {a b : IList F} {y : Inst F} {c : String} (hc : c ≠ y.label) :
    ((a ++ y :: b).map Inst.label).count c = ((a ++ b).map Inst.label).count c := by
  simp only [List.map_append, List.map_cons, List.count_append]
  rw [List.count_cons_of_ne (fun e => hc e.symm)]

theorem newClass_mem {F : Type} {a b : IList F} {y : Inst F} (c : String) :
    c ∈ (a ++ y :: b).map Inst.label ↔ c = y.label ∨ c ∈ (a ++ b).map Inst.label := by
  simp only [List.map_append, List.map_cons, List.mem_append, List.mem_cons]
  tauto

theorem newClass_filter {F : Type} {a b : IList F} {y : Inst F} {c : String} (hc : c ≠ y.label) :
    (a ++ y :: b).filter (fun x => x.label == c) = (a ++ b).filter (fun x => x.label == c) := by
  simp only [List.filter_append]
  rw [List.filter_cons_of_neg (by simpa using fun e => hc e.symm)]

/-- the candidates before are those afterwards, without the new class -/
theorem newClass_candidates {a b : IList F} {y : Inst F} (hy : y.label ∉ (a ++ b).map Inst.label) (x : Inst F) :
    discCandidates (IList.classDistribution (a ++ b)) x =
      (discCandidates (IList.classDistribution (a ++ y :: b)) x).filter (fun c => c ≠ y.label) := by
  have hcd := C10_class_distribution (a ++ b)
  have hcd' := C10_class_distribution (a ++ y :: b)
  unfold discCandidates
  cases x.possible with
  | none =>
    simp only
    have s1 : ((IList.classDistribution (a ++ b)).getItems).Pairwise (· < ·) := hcd.sorted
    have s2 : (((IList.classDistribution (a ++ y :: b)).getItems).filter (fun c => c ≠ y.label)).Pairwise (· < ·) := hcd'.sorted.filter _
    refine List.Perm.eq_of_pairwise (le := (· < ·)) (fun a b _ _ h1 h2 => absurd (lt_trans h1 h2) (lt_irrefl a)) s1 s2 ?_
    refine (List.perm_ext_iff_of_nodup (s1.imp (fun h => ne_of_lt h)) (s2.imp (fun h => ne_of_lt h))).2 ?_
    intro c
    rw [hcd.mem_items, List.mem_filter, hcd'.mem_items, newClass_mem]
    constructor
    · intro hc
      exact ⟨.inr hc, by
        have : c ≠ y.label := fun e => hy (e ▸ hc)
        simpa using this⟩
    · rintro ⟨h1, h2⟩
      rcases h1 with h1 | h1
      · simp [h1] at h2
      · exact h1
  | some ls =>
    simp only [List.filter_filter]
    refine List.filter_congr (fun c _ => ?_)
    rw [Bool.eq_iff_iff]
    simp only [List.contains_iff_mem, Bool.and_eq_true, decide_eq_true_eq, hcd.mem_items, hcd'.mem_items, newClass_mem]
    constructor
    · intro hc
      exact ⟨fun e => hy (e ▸ hc), .inr hc⟩
    · rintro ⟨h1, h2⟩
      exact h2.resolve_left h1

/-- **C190 (partial).** The dummy classifier: one more training instance, of a class that is not in the training data, changes no answer except to the
new class. -/
theorem C190_dummy_partial (a b : IList F) (y : Inst F) (hy : y.label ∉ (a ++ b).map Inst.label) (hab : a ++ b ≠ []) (x : Inst F)
    (hp : x.possibleLabels ≠ []) :
    dummyPredict (IList.classDistribution (a ++ y :: b)) x = dummyPredict (IList.classDistribution (a ++ b)) x ∨
    dummyPredict (IList.classDistribution (a ++ y :: b)) x = y.label := by
  by_cases hr : dummyPredict (IList.classDistribution (a ++ y :: b)) x = y.label
  · exact .inr hr
  left
  cases hx : x.isComposite with
  | false =>
    have m1 := C46_plain (a ++ b) x hab hx
    have m2 := C46_plain (a ++ y :: b) x (by simp) hx
    generalize dummyPredict (IList.classDistribution (a ++ y :: b)) x = r' at *
    refine IsMajority.unique (l := (a ++ b).map Inst.label) ⟨?_, ?_, ?_⟩ m1
    · exact ((newClass_mem r').1 m2.mem).resolve_left hr
    · intro s
      by_cases hs : s = y.label
      · rw [hs, List.count_eq_zero_of_not_mem hy]; omega
      · rw [← newClass_counts hs, ← newClass_counts hr]; exact m2.max s
    · intro s hs he
      have hsy : s ≠ y.label := fun e => hy (e ▸ hs)
      rw [← newClass_counts hsy, ← newClass_counts hr] at he
      exact m2.tie s ((newClass_mem s).2 (.inr hs)) he
  | true =>
    have m1 := C46_composite (a ++ b) x hx hp
    have m2 := C46_composite (a ++ y :: b) x hx hp
    generalize dummyPredict (IList.classDistribution (a ++ y :: b)) x = r' at *
    refine IsFirstMax.unique (l := x.possibleLabels) ?_ m1
    obtain ⟨l1, l2, e, h1, h2⟩ := m2.split
    have w : ∀ s, ((a ++ b).map Inst.label).count s ≤ ((a ++ y :: b).map Inst.label).count s := by
      intro s
      by_cases hs : s = y.label
      · rw [hs, List.count_eq_zero_of_not_mem hy]; omega
      · rw [newClass_counts hs]
    have w' := newClass_counts (a := a) (b := b) hr
    refine ⟨l1, l2, e, fun s hs => ?_, fun s hs => ?_⟩
    · have := h1 s hs
      have := w s
      omega
    · have := h2 s hs
      have := w s
      omega

/-- **C190 (partial).** Naive Bayes on discrete attributes, in exact arithmetic: one more training instance, of a class that is not in the training data,
changes no answer except to the new class. Some known class has a score above `-DBL_MAX` before and afterwards. -/
theorem C190_naive_bayes_discrete_partial (a b : IList ℝ) (y : Inst ℝ) (hy : y.label ∉ (a ++ b).map Inst.label) (hab : a ++ b ≠ [])
    (v : Inst ℝ → List String) (n : Nat) (hn : 0 < n) (hv : ∀ x ∈ a ++ y :: b, x.attrs = (v x).map Attr.discrete ∧ (v x).length = n) :
    ∃ m m', NaiveBayes.train NaiveBayes.new (a ++ b) = .ok m ∧ NaiveBayes.train NaiveBayes.new (a ++ y :: b) = .ok m' ∧
      ∀ (x : Inst ℝ) (u : List String), x.attrs = u.map Attr.discrete → u.length = n →
        (∃ c ∈ discCandidates m.prior x, ∃ s, m.metric x c = .ok s ∧ -(2 : ℝ) ^ 1024 < s) →
        (∃ c ∈ discCandidates m.prior x, ∃ s, m'.metric x c = .ok s ∧ -(2 : ℝ) ^ 1024 < s) →
        ∃ r r', m.predict x = .ok r ∧ m'.predict x = .ok r' ∧ (r' = r ∨ r' = y.label) := by
  have hv0 : ∀ x ∈ a ++ b, x.attrs = (v x).map Attr.discrete ∧ (v x).length = n := by
    intro x hx
    refine hv x ?_
    rw [List.mem_append] at hx ⊢
    rcases hx with hx | hx
    · exact .inl hx
    · exact .inr (List.mem_cons_of_mem _ hx)
  obtain ⟨m, e, hp, hs⟩ := C54_score (a ++ b) hab v n hn hv0
  obtain ⟨m', e', hp', hs'⟩ := C54_score (a ++ y :: b) (by simp) v n hn hv
  refine ⟨m, m', e, e', ?_⟩
  intro x u hx hu h1 h2
  rw [hp] at h1 h2
  set P : String → ℝ := fun c => ((List.range n).map (fun (i : Nat) => Real.log (smoothed (a ++ b) v c i (u.getD i "")))).sum with hP
  set P' : String → ℝ := fun c => ((List.range n).map (fun (i : Nat) => Real.log (smoothed (a ++ y :: b) v c i (u.getD i "")))).sum with hP'
  set μ : String → ℝ := fun c => Real.log (classSize (a ++ b) c / ((a ++ b).length : ℝ)) + P c with hμd
  set μ' : String → ℝ := fun c => Real.log (classSize (a ++ y :: b) c / ((a ++ y :: b).length : ℝ)) + P' c with hμd'
  have hmem : ∀ (l : IList ℝ) (c : String), c ∈ discCandidates l.classDistribution x → c ∈ l.map Inst.label := by
    intro l c hc
    rw [← discCandidates_eq, List.mem_filter] at hc
    have := hc.2
    rw [containsItem_eq] at this
    exact ((C10_class_distribution l).mem_items c).1 (by simpa using this)
  have hcand := newClass_candidates (a := a) (b := b) hy x
  have hsub : ∀ c ∈ discCandidates (IList.classDistribution (a ++ b)) x, c ∈ discCandidates (IList.classDistribution (a ++ y :: b)) x ∧ c ≠ y.label := by
    intro c hc
    rw [hcand] at hc
    exact ⟨(List.mem_filter.1 hc).1, by simpa using (List.mem_filter.1 hc).2⟩
  have hμ : ∀ c ∈ discCandidates m.prior x, m.metric x c = .ok (μ c) := by
    intro c hc
    rw [hp] at hc
    exact (hs x u hx hu c (hmem _ c hc)).1
  have hμ' : ∀ c ∈ discCandidates m'.prior x, m'.metric x c = .ok (μ' c) := by
    intro c hc
    rw [hp'] at hc
    exact (hs' x u hx hu c (hmem _ c hc)).1
  -- all known classes gain or lose the same
  have hshift : ∀ c ∈ discCandidates (IList.classDistribution (a ++ b)) x,
      μ' c = μ c + (Real.log ((a ++ b).length : ℝ) - Real.log ((a ++ y :: b).length : ℝ)) := by
    intro c hc
    have hcy := (hsub c hc).2
    have hcl := hmem _ c hc
    have e1 : classSize (a ++ y :: b) c = classSize (a ++ b) c := newClass_counts hcy
    have e2 : P' c = P c := by
      rw [hP, hP']
      simp only [smoothed, classColumn, e1, newClass_filter hcy]
    have c0 : (classSize (a ++ b) c : ℝ) ≠ 0 := by
      have : 0 < classSize (a ++ b) c := List.count_pos_iff.2 hcl
      positivity
    have l0 : ((a ++ b).length : ℝ) ≠ 0 := by
      have : 0 < (a ++ b).length := List.length_pos_iff.2 hab
      exact_mod_cast this.ne'
    have l1 : ((a ++ y :: b).length : ℝ) ≠ 0 := by
      have : 0 < (a ++ y :: b).length := by simp
      exact_mod_cast this.ne'
    simp only [hμd, hμd', e1, e2]
    rw [Real.log_div c0 l1, Real.log_div c0 l0]
    ring
  have hmax : (Dbl.neg (Dbl.maxVal : ℝ)) = -(2 ^ 1024 : ℝ) := by rw [← maxVal_real]; simp
  obtain ⟨r, hr, ar⟩ := C52_argmax m.prior m.metric x μ hμ (by
    obtain ⟨c, hc, s, h3, h4⟩ := h1
    rw [hp]
    refine ⟨c, hc, ?_⟩
    rw [hμ c (by rw [hp]; exact hc)] at h3
    cases h3
    rw [hmax]
    simpa using h4)
  obtain ⟨r', hr', ar'⟩ := C52_argmax m'.prior m'.metric x μ' hμ' (by
    obtain ⟨c, hc, s, h3, h4⟩ := h2
    rw [hp']
    refine ⟨c, (hsub c hc).1, ?_⟩
    rw [hμ' c (by rw [hp']; exact (hsub c hc).1)] at h3
    cases h3
    rw [hmax]
    simpa using h4)
  refine ⟨r, r', hr, hr', ?_⟩
  by_cases hry : r' = y.label
  · exact .inr hry
  left
  rw [hp] at ar
  rw [hp'] at ar'
  obtain ⟨q1, q2, c1, f1⟩ := ar.split
  obtain ⟨p1, p2, c2, f2⟩ := ar'.split
  have rin : r ∈ discCandidates (IList.classDistribution (a ++ b)) x := by rw [c1]; simp
  have rin' : r' ∈ discCandidates (IList.classDistribution (a ++ b)) x := by
    rw [hcand, List.mem_filter, c2]
    exact ⟨by simp, by simpa using hry⟩
  have key : μ r' ≤ μ r := by
    have := ar.max r' rin'
    simpa using this
  have key' : μ r ≤ μ r' := by
    have := ar'.max r (hsub r rin).1
    rw [hshift r rin, hshift r' rin'] at this
    simpa using this
  have c2' : discCandidates (IList.classDistribution (a ++ b)) x =
      p1.filter (fun c => c ≠ y.label) ++ r' :: p2.filter (fun c => c ≠ y.label) := by
    rw [hcand, c2, List.filter_append, List.filter_cons_of_pos (by simpa using hry)]
  rw [c1] at c2'
  rcases List.append_eq_append_iff.1 c2' with ⟨z, e1, e2⟩ | ⟨z, e1, e2⟩
  · cases z with
    | nil => simp only [List.nil_append, List.cons.injEq] at e2; exact e2.1.symm
    | cons w z =>
      simp only [List.cons_append, List.cons.injEq] at e2
      have hrp : r ∈ p1 := by
        have : r ∈ p1.filter (fun c => c ≠ y.label) := by rw [e1, e2.1]; simp
        exact (List.mem_filter.1 this).1
      have a1 := f2 r hrp (ord_real _)
      rw [hshift r rin, hshift r' rin'] at a1
      have : μ r < μ r' := by simpa using a1
      exact absurd this (not_lt.2 key)
  · cases z with
    | nil => simp only [List.nil_append, List.cons.injEq] at e2; exact e2.1
    | cons w z =>
      simp only [List.cons_append, List.cons.injEq] at e2
      have hrq : r' ∈ q1 := by rw [e1, e2.1]; simp
      have a1 := f1 r' hrq (ord_real _)
      have : μ r' < μ r := by simpa using a1
      exact absurd this (not_lt.2 key')

/-! ## the hypotheses are met -/

/-- training instances before the place of the new one -/
def twoBefore : IList ℝ := [⟨"a", [.discrete "u"], none⟩, ⟨"a", [.discrete "v"], none⟩]

/-- the values of discrete attributes -/
def valuesOf (x : Inst ℝ) : List String := x.attrs.map (fun a => match a with | .discrete s => s | _ => "")

/-- two instances of "a" and one of "b"; one of the new class "c" is put between them -/
example : "c" ∉ (twoBefore ++ [(⟨"b", [.discrete "v"], none⟩ : Inst ℝ)]).map Inst.label ∧
    (∀ x ∈ twoBefore ++ ⟨"c", [.discrete "w"], none⟩ :: [⟨"b", [.discrete "v"], none⟩],
      x.attrs = (valuesOf x).map Attr.discrete ∧ (valuesOf x).length = 1) := by
  constructor
  · simp [twoBefore]
  · intro x hx
    simp only [twoBefore, List.cons_append, List.nil_append, List.mem_cons, List.not_mem_nil, or_false] at hx
    rcases hx with rfl | rfl | rfl | rfl <;> exact ⟨rfl, rfl⟩

/-- both scores of "a" for the value "u" are far above `-DBL_MAX` -/
example : -(2 : ℝ) ^ 1024 < Real.log ((2 : ℝ) / 3) + Real.log (2 / 5) ∧ -(2 : ℝ) ^ 1024 < Real.log ((2 : ℝ) / 4) + Real.log (2 / 5) ∧
    smoothed (twoBefore ++ [⟨"b", [.discrete "v"], none⟩]) valuesOf "a" 0 "u" = 2 / 5 := by
  have k : ∀ x : ℝ, 0 < x → 1 - x⁻¹ ≤ Real.log x := fun x hx => Real.one_sub_inv_le_log_of_pos hx
  have big : (100 : ℝ) < 2 ^ 1024 := lt_of_lt_of_le (by norm_num : (100 : ℝ) < 2 ^ 7) (pow_le_pow_right₀ (by norm_num) (by norm_num))
  have h1 := k (2 / 3) (by norm_num)
  have h2 := k (2 / 5) (by norm_num)
  have h3 := k (2 / 4) (by norm_num)
  refine ⟨?_, ?_, ?_⟩
  · have : (1 : ℝ) - (2 / 3)⁻¹ + (1 - (2 / 5)⁻¹) = -2 := by norm_num
    generalize (2 : ℝ) ^ 1024 = B at *
    generalize Real.log (2 / 3) = x at *
    generalize Real.log (2 / 5) = y at *
    linarith only [h1, h2, this, big]
  · have : (1 : ℝ) - (2 / 4)⁻¹ + (1 - (2 / 5)⁻¹) = -(5 / 2) := by norm_num
    generalize (2 : ℝ) ^ 1024 = B at *
    generalize Real.log (2 / 4) = x at *
    generalize Real.log (2 / 5) = y at *
    linarith only [h3, h2, this, big]
  · have e1 : classColumn (twoBefore ++ [⟨"b", [.discrete "v"], none⟩]) valuesOf "a" 0 = ["u", "v"] := by
      simp [classColumn, twoBefore, valuesOf]
    have e2 : classSize (twoBefore ++ [(⟨"b", [.discrete "v"], none⟩ : Inst ℝ)]) "a" = 2 := by
      simp [classSize, twoBefore]
    unfold smoothed
    rw [e1, e2, show (["u", "v"] : List String).dedup = ["u", "v"] from by decide, show (["u", "v"] : List String).count "u" = 1 from by decide]
    norm_num

/-- of the two possible answers of `C190_dummy_partial` both occur: two instances of "b" outweigh the new class "a", and one does not, as "a" comes
first in the alphabet -/
example : dummyPredict (IList.classDistribution ([⟨"b", [], none⟩, ⟨"a", [], none⟩, ⟨"b", [], none⟩] : IList XR)) (⟨"?", [], none⟩ : Inst XR) = "b" ∧
    dummyPredict (IList.classDistribution ([⟨"b", [], none⟩, ⟨"a", [], none⟩] : IList XR)) (⟨"?", [], none⟩ : Inst XR) = "a" := by decide +kernel

end Verif
