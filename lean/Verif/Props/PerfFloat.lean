import Verif.Props.ExpPerf
import Verif.Lemmas.Float53

/-! # Property C170: the performance measures in double precision -/

set_option linter.unusedSectionVars false

namespace Verif
open Dbl
variable {F : Type} [Dbl F] {L : CMath}

/-- sums of counts are exact up to `2^53` -/
theorem foldl_is_nat {α : Type} (f : α → Nat) : ∀ (l : List α) (s : D53 L) (n : ℕ), D53.Is s n →
    n + (l.map f).sum ≤ 2 ^ 53 →
    D53.Is (l.foldl (fun (s : D53 L) x => s +. Dbl.ofNat (f x)) s) ((n + (l.map f).sum : ℕ) : ℚ) := by
  intro l
  induction l with
  | nil => intro s n hs _; simpa using hs
  | cons a l ih =>
    intro s n hs hb
    rw [List.map_cons, List.sum_cons] at hb ⊢
    rw [List.foldl_cons, ← Nat.add_assoc]
    refine ih _ (n + f a) ?_ (by omega)
    have := hs.add (D53.is_nat (L := L) (n := f a) (by omega))
    rw [← Nat.cast_add, D53.rnd_nat (by omega)] at this
    exact this

theorem foldl_is_nat_if {α : Type} (f : α → Nat) (c : α → Bool) (hc : ∀ x, c x = false → f x = 0)
    (l : List α) (s : D53 L) (n : ℕ) (hs : D53.Is s n) (hb : n + (l.map f).sum ≤ 2 ^ 53) :
    D53.Is (l.foldl (fun (s : D53 L) x => if c x then s +. Dbl.ofNat (f x) else s) s)
      ((n + (l.map f).sum : ℕ) : ℚ) := by
  induction l generalizing s n with
  | nil => simpa using hs
  | cons a l ih =>
    rw [List.map_cons, List.sum_cons] at hb ⊢
    rw [List.foldl_cons, ← Nat.add_assoc]
    refine ih _ (n + f a) ?_ (by omega)
    cases h : c a with
    | true =>
      have := hs.add (D53.is_nat (L := L) (n := f a) (by omega))
      rw [← Nat.cast_add, D53.rnd_nat (by omega)] at this
      simpa using this
    | false => simpa [hc a h] using hs

/-- the counts of a confusion matrix in double precision are exact -/
theorem sums_double (ls : List String) (h : List (String × String)) (hn : h.length ≤ 2 ^ 53) :
    D53.Is ((afterHistory ls h).sumOfElements : D53 L) h.length ∧
    D53.Is ((afterHistory ls h).trace : D53 L) (nCorrect h) ∧
    ∀ p, D53.Is ((afterHistory ls h).columnSum p : D53 L) (nPredicted h p) := by
  have hm := afterHistory_isMatrix ls h
  have e0 : D53.Is (Dbl.zero : D53 L) ((0 : ℕ) : ℚ) := by simpa using D53.is_zero (L := L)
  have s1 : (((afterHistory ls h).matrix).map (fun it : String × Counter => Counter.sumOfCounts it.2)).sum = h.length := by
    rw [sum_entries hm (fun it => Counter.sumOfCounts it.2) (fun _ => true)]
    · simp
    · intro a
      simp only [Counter.sumOfCounts_ofList, predsOf, List.length_map, Bool.and_true]
      rw [List.countP_eq_length_filter]
  have s2 : (((afterHistory ls h).matrix).map (fun it : String × Counter => Counter.count it.2 it.1)).sum = nCorrect h := by
    rw [sum_entries hm (fun it => Counter.count it.2 it.1) (fun x => x.1 == x.2)]
    · rfl
    · intro a
      simp only [Counter.count_ofList, count_predsOf, countP_pair]
      apply List.countP_congr
      rintro ⟨x, y⟩ _
      simp only [Bool.and_eq_true, beq_iff_eq]
      constructor
      · rintro ⟨rfl, rfl⟩; exact ⟨rfl, rfl⟩
      · rintro ⟨rfl, rfl⟩; exact ⟨rfl, rfl⟩
  have s3 : ∀ p, (((afterHistory ls h).matrix).map (fun it : String × Counter => Counter.count it.2 p)).sum = nPredicted h p := by
    intro p
    rw [sum_entries hm (fun it => Counter.count it.2 p) (fun x => x.2 == p)]
    · rfl
    · intro a
      simp only [Counter.count_ofList, count_predsOf, countP_pair]
  have hle : nCorrect h ≤ h.length := List.countP_le_length
  refine ⟨?_, ?_, fun p => ?_⟩
  · have := foldl_is_nat (L := L) (fun it : String × Counter => Counter.sumOfCounts it.2) (afterHistory ls h).matrix _ 0 e0
      (by rw [s1]; omega)
    rw [s1, Nat.zero_add] at this
    exact this
  · have := foldl_is_nat_if (L := L) (fun it : String × Counter => Counter.count it.2 it.1)
      (fun it => OMap.contains it.2 it.1) (fun it h => count_eq_zero_of_not_contains _ _ h) (afterHistory ls h).matrix _ 0 e0
      (by rw [s2]; omega)
    rw [s2, Nat.zero_add] at this
    exact this
  · have hle3 : nPredicted h p ≤ h.length := List.countP_le_length
    have := foldl_is_nat_if (L := L) (fun it : String × Counter => Counter.count it.2 p)
      (fun it => OMap.contains it.2 p) (fun it h => count_eq_zero_of_not_contains _ _ h) (afterHistory ls h).matrix _ 0 e0
      (by rw [s3]; omega)
    rw [s3, Nat.zero_add] at this
    exact this

/-- a fraction of counts, rounded: in the unit interval, 1 only for all, 0 only for none -/
theorem rnd_fraction {k n : ℕ} (hn : 0 < n) (hb : n ≤ 2 ^ 53) (hk : k ≤ n) :
    0 ≤ D53.rnd ((k : ℚ) / n) ∧ D53.rnd ((k : ℚ) / n) ≤ 1 ∧ (D53.rnd ((k : ℚ) / n) = 1 ↔ k = n) ∧
    (D53.rnd ((k : ℚ) / n) = 0 ↔ k = 0) := by
  have hnq : (0 : ℚ) < n := by exact_mod_cast hn
  have hkq : (k : ℚ) ≤ n := by exact_mod_cast hk
  have h0 : (0 : ℚ) ≤ (k : ℚ) / n := by positivity
  have h1 : (k : ℚ) / n ≤ 1 := by rw [div_le_one hnq]; exact hkq
  refine ⟨D53.rnd_nonneg h0, D53.rnd_le_of_le D53.rep_one h1, ?_, ?_⟩
  · constructor
    · intro he
      by_contra hne
      have hkn : (k : ℚ) + 1 ≤ n := by exact_mod_cast (by omega : k + 1 ≤ n)
      have hbq : (n : ℚ) ≤ 2 ^ 53 := by exact_mod_cast hb
      have hrep : D53.Rep (1 - 1 / 2 ^ 53) := ⟨2 ^ 53 - 1, -53, by norm_num, by norm_num⟩
      have hle : (k : ℚ) / n ≤ 1 - 1 / 2 ^ 53 := by
        rw [div_le_iff₀ hnq]
        have : (n : ℚ) / 2 ^ 53 ≤ 1 := by rw [div_le_one (by positivity)]; exact hbq
        linarith [show (1 - 1 / 2 ^ 53) * (n : ℚ) = n - n / 2 ^ 53 by ring]
      have := D53.rnd_le_of_le hrep hle
      rw [he] at this
      norm_num at this
    · rintro rfl
      rw [div_self hnq.ne', D53.rnd_one]
  · rw [D53.rnd_eq_zero, div_eq_zero_iff]
    constructor
    · rintro (h | h)
      · exact_mod_cast h
      · exact absurd h hnq.ne'
    · intro h; left; exact_mod_cast h

/-- `a + fl(1 - a)` is rounded to 1 -/
theorem error_complement {a : ℚ} (h0 : 0 ≤ a) (h1 : a ≤ 1) :
    D53.rnd (a + D53.rnd (1 - a)) = 1 := by
  apply D53.rnd_near_one
  have := D53.rnd_err_unit (q := 1 - a) (by linarith) (by linarith)
  rwa [show a + D53.rnd (1 - a) - 1 = D53.rnd (1 - a) - (1 - a) by ring]

/-- what a performance object with accuracy `a` and error rate `e` computed from `k` correct of
`n` satisfies: accuracy the `double` nearest to `k/n`, error rate the one nearest to `1 - a`,
both between 0 and 1, exactly 0 and 1 only when all or none are correct, and adding up to 1 -/
structure MeasuredFrom (a e : D53 L) (k n : ℕ) : Prop where
  accuracy : a.val = .fin (D53.rnd ((k : ℚ) / n))
  range : (Dbl.zero <=. a) = true ∧ (a <=. Dbl.one) = true ∧ (Dbl.zero <=. e) = true ∧ (e <=. Dbl.one) = true
  all_correct : a = Dbl.one ↔ k = n
  none_correct : a = Dbl.zero ↔ k = 0
  error_zero : e = Dbl.zero ↔ k = n
  sum_one : a +. e = Dbl.one

theorem measuredFrom_div {a : D53 L} {k n : ℕ} (hn : 0 < n) (hb : n ≤ 2 ^ 53) (hk : k ≤ n)
    (ha : D53.Is a (D53.rnd ((k : ℚ) / n))) : MeasuredFrom a (Dbl.ofInt 1 -. a) k n := by
  obtain ⟨r0, r1, r2, r3⟩ := rnd_fraction hn hb hk
  have he : D53.Is (Dbl.ofInt 1 -. a) (D53.rnd (1 - D53.rnd ((k : ℚ) / n))) := (D53.is_one (L := L)).sub ha
  have i0 := D53.is_zero (L := L)
  have i1 := D53.is_one (L := L)
  have e0 : 0 ≤ D53.rnd (1 - D53.rnd ((k : ℚ) / n)) := D53.rnd_nonneg (by linarith)
  have e1 : D53.rnd (1 - D53.rnd ((k : ℚ) / n)) ≤ 1 := D53.rnd_le_of_le D53.rep_one (by linarith)
  refine ⟨ha, ⟨?_, ?_, ?_, ?_⟩, ?_, ?_, ?_, ?_⟩
  · rw [i0.le ha]; simpa using r0
  · rw [ha.le i1]; simpa using r1
  · rw [i0.le he]; simpa using e0
  · rw [he.le i1]; simpa using e1
  · rw [← r2]
    exact ⟨fun h => ha.unique (h ▸ i1), fun h => (h ▸ ha).ext i1⟩
  · rw [← r3]
    exact ⟨fun h => ha.unique (h ▸ i0), fun h => (h ▸ ha).ext i0⟩
  · rw [← r2]
    constructor
    · intro h
      have := he.unique (h ▸ i0)
      rw [D53.rnd_eq_zero] at this
      linarith
    · intro h
      refine D53.Is.ext (p := 0) ?_ i0
      rw [h, sub_self, D53.rnd_zero] at he
      exact he
  · have := ha.add he
    rw [error_complement r0 r1] at this
    exact this.ext i1

/-- **C170.** The performance object made from a confusion matrix in double precision, for 1 to
`2^53` calls: accuracy and error rate are as `MeasuredFrom` says. -/
theorem C170_accuracy (ls : List String) (h : List (String × String)) (hne : h ≠ []) (hn : h.length ≤ 2 ^ 53) :
    ∃ a e : D53 L, Perf.ofConfusion (afterHistory ls h) = .detailed a e (afterHistory ls h) ∧
      MeasuredFrom a e (nCorrect h) h.length := by
  obtain ⟨s1, s2, _⟩ := sums_double (L := L) ls h hn
  have hl : 0 < h.length := List.length_pos_iff.2 hne
  have hlq : ((h.length : ℕ) : ℚ) ≠ 0 := by positivity
  exact ⟨_, _, rfl, measuredFrom_div hl hn List.countP_le_length (s2.div s1 hlq)⟩

/-- **C170.** The same for `Model::test`, whose result is measured from the number of instances
predicted correctly. -/
theorem C170_test (predict : Inst (D53 L) → String) (t : IList (D53 L)) (hne : t ≠ []) (hn : t.length ≤ 2 ^ 53) :
    ∃ a e c, modelTest (fun x => .ok (predict x)) t = .ok (.detailed a e c) ∧
      MeasuredFrom a e (t.countP (fun x => x.label == predict x)) t.length := by
  set h := t.map (fun x => (x.label, predict x)) with hh
  obtain ⟨a, e, h1, h2⟩ := C170_accuracy (L := L) t.getUnionOfPossibleClassLabels h (by simpa [hh] using hne)
    (by simpa [hh] using hn)
  refine ⟨a, e, afterHistory t.getUnionOfPossibleClassLabels h, ?_, ?_⟩
  · rw [← h1]
    unfold modelTest
    rw [foldlM_ok (g := fun c x => ConfMat.classify c x.label (predict x)) (by intro x _ s; rfl)]
    simp only [res_bind_ok]
    have : t.foldl (fun c x => ConfMat.classify c x.label (predict x)) (ConfMat.new t.getUnionOfPossibleClassLabels) =
        afterHistory t.getUnionOfPossibleClassLabels h := by
      unfold afterHistory
      rw [hh, List.foldl_map]
    rw [this]; rfl
  · have e1 : nCorrect h = t.countP (fun x => x.label == predict x) := by
      rw [hh]; unfold nCorrect; rw [List.countP_map]; rfl
    have e2 : h.length = t.length := by simp [hh]
    rw [← e1, ← e2]; exact h2

/-- **C170.** Two classifiers tested on the same number of instances (fewer than `2^53`): the one
with more correct predictions has the larger accuracy, and equal numbers of correct
predictions give equal accuracies; for different numbers of instances the order is that of the
exact fractions as long as the product of the two numbers is less than `2^53`. -/
theorem C170_order (ls ls' : List String) (h h' : List (String × String)) (hne : h ≠ []) (hne' : h' ≠ [])
    (hb : h.length < 2 ^ 53) (hb' : h'.length < 2 ^ 53)
    (hs : h.length = h'.length ∨ h.length * h'.length < 2 ^ 53) :
    ((((afterHistory ls h).getAccuracy : D53 L) <. (afterHistory ls' h').getAccuracy) = true ↔
      (nCorrect h : ℚ) / h.length < nCorrect h' / h'.length) ∧
    (((afterHistory ls h).getAccuracy : D53 L) = (afterHistory ls' h').getAccuracy ↔
      (nCorrect h : ℚ) / h.length = nCorrect h' / h'.length) := by
  have key : ∀ {k n k' n' : ℕ}, 0 < n → 0 < n' → k ≤ n → k' ≤ n' → n < 2 ^ 53 → (n = n' ∨ n * n' < 2 ^ 53) →
      (k : ℚ) / n < k' / n' → D53.rnd ((k : ℚ) / n) < D53.rnd ((k' : ℚ) / n') := by
    intro k n k' n' hn hn' hk hk' hb hs hlt
    have q1 : (0 : ℚ) < n := by exact_mod_cast hn
    have q2 : (0 : ℚ) < n' := by exact_mod_cast hn'
    refine D53.rnd_lt_unit (by positivity) ?_ ?_
    · rw [div_le_one q2]; exact_mod_cast hk'
    · rcases hs with rfl | hs
      · have h1 : k < k' := by
          rw [div_lt_div_iff_of_pos_right q1] at hlt; exact_mod_cast hlt
        have h2 : (k : ℚ) + 1 ≤ k' := by exact_mod_cast h1
        have h3 : (k' : ℚ) / n - k / n = (k' - k) / n := by ring
        rw [h3, div_lt_div_iff₀ (by positivity) q1]
        have : (n : ℚ) < 2 ^ 53 := by exact_mod_cast hb
        nlinarith
      · have h1 : k * n' < k' * n := by
          rw [div_lt_div_iff₀ q1 q2] at hlt; exact_mod_cast hlt
        have h2 : (k : ℚ) * n' + 1 ≤ k' * n := by exact_mod_cast h1
        have h3 : (k' : ℚ) / n' - k / n = (k' * n - k * n') / (n * n') := by field_simp
        rw [h3, div_lt_div_iff₀ (by positivity) (by positivity)]
        have : (n : ℚ) * n' < 2 ^ 53 := by exact_mod_cast hs
        nlinarith
  obtain ⟨s1, s2, _⟩ := sums_double (L := L) ls h hb.le
  obtain ⟨t1, t2, _⟩ := sums_double (L := L) ls' h' hb'.le
  have hl : 0 < h.length := List.length_pos_iff.2 hne
  have hl' : 0 < h'.length := List.length_pos_iff.2 hne'
  have c1 : nCorrect h ≤ h.length := List.countP_le_length
  have c2 : nCorrect h' ≤ h'.length := List.countP_le_length
  have ha : D53.Is ((afterHistory ls h).getAccuracy : D53 L) _ := s2.div s1 (by positivity)
  have ha' : D53.Is ((afterHistory ls' h').getAccuracy : D53 L) _ := t2.div t1 (by positivity)
  have hs' : h'.length = h.length ∨ h'.length * h.length < 2 ^ 53 := by
    rcases hs with e | e
    · exact .inl e.symm
    · right; rwa [Nat.mul_comm]
  constructor
  · rw [ha.lt ha', decide_eq_true_iff]
    constructor
    · intro hlt
      by_contra hc
      push Not at hc
      exact absurd (D53.rnd_mono hc) (not_le.2 hlt)
    · exact key hl hl' c1 c2 hb hs
  · constructor
    · intro he
      have he' := ha.unique (he ▸ ha')
      rcases lt_trichotomy ((nCorrect h : ℚ) / h.length) (nCorrect h' / h'.length) with hc | hc | hc
      · exact absurd he' (key hl hl' c1 c2 hb hs hc).ne
      · exact hc
      · exact absurd he' (key hl' hl c2 c1 hb' hs' hc).ne'
    · intro he
      rw [he] at ha
      exact ha.ext ha'

/-! ## precision, recall, F-measure -/

/-- **C170.** Recall of a class that occurs and precision of one that occurs and has been predicted
are the `double`s nearest to the exact fractions; they lie between 0 and 1, and are 1 (0) only
if the exact fraction is. -/
theorem C170_precision_recall (ls : List String) (h : List (String × String)) (hn : h.length ≤ 2 ^ 53)
    (i : Nat) (c : String) (hi : ls[i]? = some c) (hc : 0 < nActual h c) :
    ∃ p r : D53 L, (afterHistory ls h).precision[i]? = some (some p) ∧
      (afterHistory ls h).recall[i]? = some (some r) ∧
      (0 < nPredicted h c → ∃ P : ℚ, p.val = .fin P ∧ P = D53.rnd (nCell h c c / nPredicted h c) ∧ 0 ≤ P ∧ P ≤ 1 ∧
        (P = 1 ↔ nCell h c c = nPredicted h c) ∧ (P = 0 ↔ nCell h c c = 0)) ∧
      ∃ R : ℚ, r.val = .fin R ∧ R = D53.rnd (nCell h c c / nActual h c) ∧ 0 ≤ R ∧ R ≤ 1 ∧
        (R = 1 ↔ nCell h c c = nActual h c) ∧ (R = 0 ↔ nCell h c c = 0) := by
  have hm := afterHistory_isMatrix ls h
  have hlab := afterHistory_labels ls h
  have hf := (find_row hm c).1 hc
  obtain ⟨s1, s2, s3⟩ := sums_double (L := L) ls h hn
  obtain ⟨l1, l2⟩ := nCell_le h c
  have b1 : nActual h c ≤ h.length := List.countP_le_length
  have b2 : nPredicted h c ≤ h.length := List.countP_le_length
  have ic : D53.Is (Dbl.ofNat (nCell h c c) : D53 L) (nCell h c c) := D53.is_nat (by omega)
  have ia : D53.Is (Dbl.ofNat (nActual h c) : D53 L) (nActual h c) := D53.is_nat (by omega)
  refine ⟨Dbl.ofNat (nCell h c c) /. (afterHistory ls h).columnSum c,
    (Dbl.ofNat (nCell h c c) +. Dbl.zero) /. Dbl.ofNat (nActual h c), ?_, ?_, ?_, ?_⟩
  · unfold ConfMat.precision
    rw [hlab, List.getElem?_map, hi]
    simp only [Option.map_some, hf]
    rw [Counter.count_ofList, count_predsOf]
    simp [nCell]
  · unfold ConfMat.recall
    rw [hlab, List.getElem?_map, hi]
    simp only [Option.map_some, hf]
    rw [Counter.count_ofList, count_predsOf, Counter.sumOfCounts_ofList]
    simp [nCell, predsOf, nActual, List.countP_eq_length_filter]
  · intro hp
    have hq : (nPredicted h c : ℚ) ≠ 0 := by positivity
    obtain ⟨r0, r1, r2, r3⟩ := rnd_fraction hp (by omega) l2
    exact ⟨_, ic.div (s3 c) hq, rfl, r0, r1, r2, r3⟩
  · have hq : (nActual h c : ℚ) ≠ 0 := by positivity
    obtain ⟨r0, r1, r2, r3⟩ := rnd_fraction hc (by omega) l1
    have h0 := ic.add (D53.is_zero (L := L))
    rw [add_zero, D53.rnd_nat (by omega)] at h0
    exact ⟨_, h0.div ia hq, rfl, r0, r1, r2, r3⟩

/-- precision and recall of a class, as computed -/
def precisionOf (h : List (String × String)) (ls : List String) (c : String) : F :=
  (Dbl.ofNat (nCell h c c) : F) /. (afterHistory ls h).columnSum c
def recallOf (h : List (String × String)) (c : String) : F :=
  ((Dbl.ofNat (nCell h c c) : F) +. Dbl.zero) /. Dbl.ofNat (nActual h c)
def fOf (h : List (String × String)) (ls : List String) (c : String) : F :=
  (Dbl.ofInt 2 : F) /. ((Dbl.ofInt 1 /. precisionOf h ls c) +. (Dbl.ofInt 1 /. recallOf h c))

/-- the F-measures and the weighted F-measure, in any arithmetic -/
theorem fMeasures_eq (ls : List String) (h : List (String × String)) (hall : ∀ c ∈ ls, 0 < nActual h c) :
    ((afterHistory ls h).fMeasure : Res (List F)) = .ok (ls.map (fOf h ls)) ∧
    ((afterHistory ls h).weightedFMeasure : Res F) =
      .ok ((ls.foldl (fun (s : F) c => s +. (fOf h ls c *. Dbl.ofNat (nActual h c))) Dbl.zero) /.
        (afterHistory ls h).sumOfElements) := by
  have hm := afterHistory_isMatrix ls h
  have hlab := afterHistory_labels ls h
  have hcnt : ∀ c, Counter.sumOfCounts (Counter.ofList (predsOf h c)) = nActual h c := by
    intro c
    rw [Counter.sumOfCounts_ofList]; simp [predsOf, nActual, List.countP_eq_length_filter]
  have h1 : ((afterHistory ls h).fMeasure : Res (List F)) = .ok (ls.map (fOf h ls)) := by
    have := fMeasure_ok (F := F) (afterHistory ls h) (fun i => precisionOf h ls (ls[i]?.getD ""))
      (fun i => recallOf h (ls[i]?.getD "")) (by
      intro i hi
      rw [hlab] at hi
      have hf := (find_row hm ls[i]).1 (hall _ (List.getElem_mem hi))
      constructor
      · unfold ConfMat.slot ConfMat.precision
        simp only [hlab, idxR, List.getElem?_map, List.getElem?_eq_getElem hi, Option.map_some, hf, Option.getD_some]
        rw [Counter.count_ofList, count_predsOf]
        rfl
      · unfold ConfMat.slot ConfMat.recall
        simp only [hlab, idxR, List.getElem?_map, List.getElem?_eq_getElem hi, Option.map_some, hf, Option.getD_some]
        rw [Counter.count_ofList, count_predsOf, hcnt]
        rfl)
    rw [this, hlab]
    congr 1
    apply List.ext_getElem
    · simp
    · intro i g1 g2
      have hi : i < ls.length := by simpa using g1
      simp [fOf, hi]
  refine ⟨h1, ?_⟩
  unfold ConfMat.weightedFMeasure
  rw [h1]
  simp only [res_bind_ok]
  have hstep : ∀ (i : Nat) (hi : i < ls.length) (s : F), (afterHistory ls h).weightedStep (ls.map (fOf h ls)) s i =
      .ok (s +. (fOf h ls ls[i] *. Dbl.ofNat (nActual h ls[i]))) := by
    intro i hi s
    unfold ConfMat.weightedStep
    simp only [hlab]
    rw [atR_ok_of_lt hi, idxR_ok_of_lt (by simpa using hi : i < (ls.map (fOf h ls)).length)]
    simp only [res_bind_ok]
    rw [(find_row hm ls[i]).1 (hall _ (List.getElem_mem hi))]
    simp only [List.getElem_map, hcnt]
    rfl
  have hloop : ∀ n, n ≤ ls.length → ∀ s : F,
      (List.range n).foldlM ((afterHistory ls h).weightedStep (ls.map (fOf h ls))) s =
      .ok ((ls.take n).foldl (fun (s : F) c => s +. (fOf h ls c *. Dbl.ofNat (nActual h c))) s) := by
    intro n
    induction n with
    | zero => intro _ s; rfl
    | succ n ih =>
      intro hn s
      rw [List.range_succ, List.foldlM_append, ih (by omega) s, List.take_add_one,
        List.getElem?_eq_getElem (by omega : n < ls.length), List.foldl_append]
      simp only [Option.toList_some, List.foldl_cons, List.foldl_nil]
      simp only [res_bind_ok]
      rw [List.foldlM_cons, hstep n (by omega)]
      rfl
  rw [hlab, hloop ls.length le_rfl, List.take_length]
  rfl

/-- **C36.** The weighted F-measure is the sum of the F-measures of the classes, each weighted with
the number of calls with that actual class, divided by the number of calls. -/
theorem C36_weighted_fmeasure (ls : List String) (h : List (String × String))
    (hall : ∀ c ∈ ls, 0 < nCell h c c) :
    (afterHistory ls h).weightedFMeasure = .ok ((ls.map (fun c =>
      2 * ((nCell h c c : ℝ) / nPredicted h c) * (nCell h c c / nActual h c) /
        (nCell h c c / nPredicted h c + nCell h c c / nActual h c) * nActual h c)).sum / h.length) := by
  have hall' : ∀ c ∈ ls, 0 < nActual h c := fun c hc => by
    have := (nCell_le h c).1; have := hall c hc; omega
  rw [(fMeasures_eq ls h hall').2, (C33_sums ls h).1]
  congr 2
  have hf : ∀ c ∈ ls, (fOf h ls c : ℝ) = 2 * ((nCell h c c : ℝ) / nPredicted h c) * (nCell h c c / nActual h c) /
        (nCell h c c / nPredicted h c + nCell h c c / nActual h c) := by
    intro c hc
    unfold fOf precisionOf recallOf
    rw [(C33_sums ls h).2.2]
    simp only [div_real, add_real, ofInt_real, ofNat_real, zero_real]
    obtain ⟨l1, l2⟩ := nCell_le h c
    have hp := hall c hc
    have p1 : (0 : ℝ) < nCell h c c := by exact_mod_cast hp
    have p2 : (0 : ℝ) < nActual h c := by exact_mod_cast (by omega : 0 < nActual h c)
    have p3 : (0 : ℝ) < nPredicted h c := by exact_mod_cast (by omega : 0 < nPredicted h c)
    generalize (nCell h c c : ℝ) = x at *
    generalize (nActual h c : ℝ) = y at *
    generalize (nPredicted h c : ℝ) = z at *
    push_cast
    have h1 : z + y ≠ 0 := by positivity
    have h2 : 1 / (x / z) + 1 / ((x + 0) / y) = (z + y) / x := by field_simp; ring
    have h3 : x / z + x / y = x * (z + y) / (z * y) := by field_simp; ring
    rw [h2, h3]
    field_simp
  have : ∀ (xs : List String), (∀ c ∈ xs, c ∈ ls) → ∀ s : ℝ,
      xs.foldl (fun (s : ℝ) c => s +. (fOf h ls c *. Dbl.ofNat (nActual h c))) s = s + (xs.map (fun c =>
      2 * ((nCell h c c : ℝ) / nPredicted h c) * (nCell h c c / nActual h c) /
        (nCell h c c / nPredicted h c + nCell h c c / nActual h c) * nActual h c)).sum := by
    intro xs
    induction xs with
    | nil => intro _ s; simp
    | cons c xs ih =>
      intro hx s
      rw [List.foldl_cons, ih (fun d hd => hx d (by simp [hd])), List.map_cons, List.sum_cons, hf c (hx c (by simp))]
      simp only [add_real, mul_real, ofNat_real]
      ring
  rw [this ls (fun _ h => h)]
  simp

example : ∀ c ∈ ["a", "b"], 0 < nCell exHistory c c := by decide

/-- the F-measure of a class that occurs and has been predicted, in double precision -/
theorem fOf_range (ls : List String) (h : List (String × String)) (hn : h.length ≤ 2 ^ 53) (c : String)
    (ha : 0 < nActual h c) (hp : 0 < nPredicted h c) :
    ∃ q : ℚ, D53.Is (fOf h ls c : D53 L) q ∧ 0 ≤ q ∧ q ≤ 1 ∧ (q = 0 ↔ nCell h c c = 0) ∧
      (nCell h c c = nActual h c → nCell h c c = nPredicted h c → q = 1) := by
  obtain ⟨s1, s2, s3⟩ := sums_double (L := L) ls h hn
  obtain ⟨l1, l2⟩ := nCell_le h c
  have b1 : nActual h c ≤ h.length := List.countP_le_length
  have b2 : nPredicted h c ≤ h.length := List.countP_le_length
  have ic : D53.Is (Dbl.ofNat (nCell h c c) : D53 L) (nCell h c c) := D53.is_nat (by omega)
  have ia : D53.Is (Dbl.ofNat (nActual h c) : D53 L) (nActual h c) := D53.is_nat (by omega)
  have hpq : (nPredicted h c : ℚ) ≠ 0 := by positivity
  have haq : (nActual h c : ℚ) ≠ 0 := by positivity
  have h0 := ic.add (D53.is_zero (L := L))
  rw [add_zero, D53.rnd_nat (by omega)] at h0
  have iP : D53.Is (precisionOf h ls c : D53 L) _ := ic.div (s3 c) hpq
  have iR : D53.Is (recallOf h c : D53 L) _ := h0.div ia haq
  obtain ⟨p0, p1, p2, p3⟩ := rnd_fraction hp (by omega) l2
  obtain ⟨r0, r1, r2, r3⟩ := rnd_fraction ha (by omega) l1
  rcases Nat.eq_zero_or_pos (nCell h c c) with hz | hz
  · refine ⟨0, ?_, le_rfl, zero_le_one, by simp [hz], fun h5 => by omega⟩
    rw [p3.2 hz] at iP
    rw [r3.2 hz] at iR
    unfold fOf D53.Is
    have k1 : (Dbl.ofInt 1 /. (precisionOf h ls c : D53 L)).val = .pinf := by
      rw [D53.val_div, iP, D53.val_int]
      decide +kernel
    have k2 : (Dbl.ofInt 1 /. (recallOf h c : D53 L)).val = .pinf := by
      rw [D53.val_div, iR, D53.val_int]
      decide +kernel
    rw [D53.val_div, D53.val_add, k1, k2, D53.val_int]
    decide +kernel
  · have i1 := D53.is_one (L := L)
    have i2 : D53.Is (Dbl.ofInt 2 : D53 L) 2 := by
      have := D53.is_int (L := L) (n := 2) (by norm_num); simpa using this
    have rep2 : D53.Rep 2 := i2.rep
    generalize hP : D53.rnd ((nCell h c c : ℚ) / nPredicted h c) = P at *
    generalize hR : D53.rnd ((nCell h c c : ℚ) / nActual h c) = R at *
    have P0 : 0 < P := lt_of_le_of_ne p0 (fun e => by have := p3.1 e.symm; omega)
    have R0 : 0 < R := lt_of_le_of_ne r0 (fun e => by have := r3.1 e.symm; omega)
    have j1 : 1 ≤ D53.rnd (1 / P) := D53.le_rnd_of_le D53.rep_one (by rw [le_div_iff₀ P0]; linarith)
    have j2 : 1 ≤ D53.rnd (1 / R) := D53.le_rnd_of_le D53.rep_one (by rw [le_div_iff₀ R0]; linarith)
    have j3 : 2 ≤ D53.rnd (D53.rnd (1 / P) + D53.rnd (1 / R)) := D53.le_rnd_of_le rep2 (by linarith)
    have key : D53.Is (fOf h ls c : D53 L) _ :=
      i2.div ((i1.div iP P0.ne').add (i1.div iR R0.ne')) (by linarith)
    refine ⟨_, key, ?_, ?_, ?_, ?_⟩
    · exact D53.rnd_nonneg (by positivity)
    · refine D53.rnd_le_of_le D53.rep_one ?_
      rw [div_le_one (by linarith)]; exact j3
    · rw [D53.rnd_eq_zero]
      have : (0 : ℚ) < 2 / D53.rnd (D53.rnd (1 / P) + D53.rnd (1 / R)) := by positivity
      constructor
      · intro h5; linarith
      · intro h5; omega
    · intro e1 e2
      rw [p2.2 e2, r2.2 e1]
      decide +kernel

theorem sum_classes_le : ∀ (h : List (String × String)) (ls : List String), ls.Nodup →
    (ls.map (nActual h)).sum ≤ h.length := by
  intro h
  induction h with
  | nil =>
    intro ls _
    have : nActual [] = fun _ => 0 := by funext c; simp [nActual]
    rw [this]; simp
  | cons x h ih =>
    intro ls hl
    have h2 : ∀ ks : List String, ks.Nodup →
        (ks.map (nActual (x :: h))).sum = (ks.map (nActual h)).sum + (if x.1 ∈ ks then 1 else 0) := by
      intro ks
      induction ks with
      | nil => intro _; simp
      | cons k ks ih2 =>
        intro hn
        have hn' := List.nodup_cons.1 hn
        simp only [List.map_cons, List.sum_cons]
        rw [ih2 hn'.2]
        have : nActual (x :: h) k = nActual h k + if x.1 = k then 1 else 0 := by
          simp [nActual, List.countP_cons]
        rw [this]
        by_cases hx : x.1 = k
        · subst hx
          rw [if_neg hn'.1]; simp; omega
        · have h3 : x.1 ∈ k :: ks ↔ x.1 ∈ ks := by simp [hx]
          simp [hx]; omega
    have := ih ls hl
    rw [h2 ls hl, List.length_cons]
    split_ifs <;> omega

/-- **C170.** When every label the matrix was created with occurs and has been predicted, the
F-measures lie between 0 and 1, are 0 exactly for the classes without a correct call and 1 for
those with precision and recall 1; and the weighted F-measure lies between 0 and 1. -/
theorem C170_fmeasure (ls : List String) (hls : ls.Nodup) (h : List (String × String)) (hne : h ≠ [])
    (hn : h.length ≤ 2 ^ 53)
    (hall : ∀ c ∈ ls, 0 < nActual h c ∧ 0 < nPredicted h c) :
    ∃ (f : List (D53 L)) (w : D53 L), (afterHistory ls h).fMeasure = .ok f ∧
      (afterHistory ls h).weightedFMeasure = .ok w ∧ f.length = ls.length ∧
      (∀ (i : Nat) (c : String), ls[i]? = some c → ∃ q : ℚ, (f[i]?.map D53.val) = some (.fin q) ∧
        0 ≤ q ∧ q ≤ 1 ∧ (q = 0 ↔ nCell h c c = 0) ∧
        (nCell h c c = nActual h c → nCell h c c = nPredicted h c → q = 1)) ∧
      ∃ q : ℚ, w.val = .fin q ∧ 0 ≤ q ∧ q ≤ 1 := by
  obtain ⟨e1, e2⟩ := fMeasures_eq (F := D53 L) ls h (fun c hc => (hall c hc).1)
  refine ⟨_, _, e1, e2, by simp, ?_, ?_⟩
  · intro i c hi
    have hc : c ∈ ls := List.mem_of_getElem? hi
    obtain ⟨q, g1, g2⟩ := fOf_range (L := L) ls h hn c (hall c hc).1 (hall c hc).2
    refine ⟨q, ?_, g2⟩
    rw [List.getElem?_map, hi]
    simp only [Option.map_some, Option.some.injEq]
    exact g1
  · have hsum := sum_classes_le h ls hls
    have hloop : ∀ (xs : List String), (∀ c ∈ xs, c ∈ ls) → ∀ (s : D53 L) (n : ℕ) (q : ℚ), D53.Is s q → 0 ≤ q → q ≤ n →
        n + (xs.map (nActual h)).sum ≤ 2 ^ 53 →
        ∃ q', D53.Is (xs.foldl (fun (s : D53 L) c => s +. (fOf h ls c *. Dbl.ofNat (nActual h c))) s) q' ∧ 0 ≤ q' ∧
          q' ≤ ((n + (xs.map (nActual h)).sum : ℕ) : ℚ) := by
      intro xs
      induction xs with
      | nil => intro _ s n q hs h0 h1 _; exact ⟨q, hs, h0, by simpa using h1⟩
      | cons c xs ih =>
        intro hx s n q hs h0 h1 hb
        rw [List.map_cons, List.sum_cons] at hb ⊢
        obtain ⟨qf, g1, g2, g3, _⟩ := fOf_range (L := L) ls h hn c (hall c (hx c (by simp))).1 (hall c (hx c (by simp))).2
        have ia : D53.Is (Dbl.ofNat (nActual h c) : D53 L) (nActual h c) := D53.is_nat (by omega)
        have ha0 : (0 : ℚ) ≤ nActual h c := by positivity
        have m0 : 0 ≤ D53.rnd (qf * nActual h c) := D53.rnd_nonneg (by positivity)
        have m1 : D53.rnd (qf * nActual h c) ≤ nActual h c :=
          D53.rnd_le_of_le (D53.rep_nat (by omega)) (by nlinarith)
        have hs' := hs.add (g1.mul ia)
        rw [List.foldl_cons, ← Nat.add_assoc]
        refine ih (fun d hd => hx d (by simp [hd])) _ (n + nActual h c) _ hs' (D53.rnd_nonneg (by linarith)) ?_ (by omega)
        refine D53.rnd_le_of_le (D53.rep_nat (by omega)) ?_
        push_cast; linarith
    obtain ⟨q', g1, g2, g3⟩ := hloop ls (fun _ h => h) _ 0 0 (D53.is_zero (L := L)) le_rfl (by simp) (by omega)
    obtain ⟨s1, _, _⟩ := sums_double (L := L) ls h hn
    have hl : 0 < h.length := List.length_pos_iff.2 hne
    have hlq : (0 : ℚ) < h.length := by exact_mod_cast hl
    refine ⟨_, g1.div s1 hlq.ne', D53.rnd_nonneg (by positivity), D53.rnd_le_of_le D53.rep_one ?_⟩
    rw [div_le_one hlq]
    refine g3.trans ?_
    exact_mod_cast (by omega : 0 + (ls.map (nActual h)).sum ≤ h.length)

/-! ## means -/

/-- **C170.** If the accuracies of all runs lie between 0 and 1, so do accuracy and error rate of
the mean classification performance, and the two add up to 1; the mean accuracy is 0 exactly
if all accuracies are, and 1 if all are 1. -/
theorem C170_mean (e : ExpPerf (D53 L)) (hne : e.results ≠ []) (hc : e.classification = true)
    (hn : e.results.length ≤ 2 ^ 53)
    (hr : ∀ p ∈ e.results, ∃ (a : D53 L) (q : ℚ), p.getAccuracy = .ok a ∧ a.val = .fin q ∧ 0 ≤ q ∧ q ≤ 1) :
    ∃ (m f : D53 L) (q g : ℚ), e.meanClassificationPerformance = .ok (some (.classification m f)) ∧
      m.val = .fin q ∧ f.val = .fin g ∧ 0 ≤ q ∧ q ≤ 1 ∧ 0 ≤ g ∧ g ≤ 1 ∧ m +. f = Dbl.one ∧
      (m = Dbl.zero ↔ ∀ p ∈ e.results, p.getAccuracy = .ok Dbl.zero) ∧
      ((∀ p ∈ e.results, p.getAccuracy = .ok Dbl.one) → m = Dbl.one) := by
  have hloop : ∀ (ps : List (Perf (D53 L))), (∀ p ∈ ps, p ∈ e.results) → ∀ (s : D53 L) (n : ℕ) (q : ℚ),
      D53.Is s q → 0 ≤ q → q ≤ n → n + ps.length ≤ 2 ^ 53 →
      ∃ s' q', ps.foldlM (fun (s : D53 L) p => do
          let a ← p.getAccuracy
          (pure (s +. a) : Res (D53 L))) s = .ok s' ∧ D53.Is s' q' ∧ 0 ≤ q' ∧ q' ≤ ((n + ps.length : ℕ) : ℚ) ∧
        (q' = 0 ↔ q = 0 ∧ ∀ p ∈ ps, p.getAccuracy = .ok Dbl.zero) ∧
        (q = n → (∀ p ∈ ps, p.getAccuracy = .ok Dbl.one) → q' = ((n + ps.length : ℕ) : ℚ)) := by
    intro ps
    induction ps with
    | nil => intro _ s n q hs h0 h1 _; exact ⟨s, q, rfl, hs, h0, by simpa using h1, by simp, by simp⟩
    | cons p ps ih =>
      intro hp s n q hs h0 h1 hb
      rw [List.length_cons] at hb ⊢
      obtain ⟨a, x, ea, ha, x0, x1⟩ := hr p (hp p (by simp))
      have hs' := hs.add ha
      have u : D53.rnd (q + x) ≤ ((n + 1 : ℕ) : ℚ) :=
        D53.rnd_le_of_le (D53.rep_nat (by omega)) (by push_cast; linarith)
      obtain ⟨s', q', k1, k2, k3, k4, k5, k6⟩ := ih (fun r hr => hp r (by simp [hr])) _ (n + 1) _ hs'
        (D53.rnd_nonneg (by linarith)) u (by omega)
      refine ⟨s', q', ?_, k2, k3, ?_, ?_, ?_⟩
      · rw [List.foldlM_cons, ea]; exact k1
      · rw [show n + (ps.length + 1) = n + 1 + ps.length by omega]; exact k4
      · rw [k5, D53.rnd_eq_zero]
        have i0 := D53.is_zero (L := L)
        constructor
        · rintro ⟨g1, g2⟩
          have hx : x = 0 := by linarith
          refine ⟨by linarith, ?_⟩
          intro r hr'
          rcases List.mem_cons.1 hr' with rfl | hr'
          · rw [ea]; exact congrArg _ (D53.Is.ext (p := 0) (hx ▸ ha) i0)
          · exact g2 r hr'
        · rintro ⟨g1, g2⟩
          have := g2 p (by simp)
          rw [ea] at this
          have haz : a = Dbl.zero := by simpa using this
          have hx : x = 0 := D53.Is.unique ha (haz ▸ i0)
          exact ⟨by rw [g1, hx]; norm_num, fun r hr' => g2 r (by simp [hr'])⟩
      · intro g1 g2
        have := g2 p (by simp)
        rw [ea] at this
        have haz : a = Dbl.one := by simpa using this
        have hx : x = 1 := D53.Is.unique ha (haz ▸ D53.is_one)
        rw [show n + (ps.length + 1) = n + 1 + ps.length by omega]
        refine k6 ?_ (fun r hr' => g2 r (by simp [hr']))
        rw [g1, hx, ← Nat.cast_one (R := ℚ), ← Nat.cast_add, D53.rnd_nat (by omega)]
  obtain ⟨s, q, k1, k2, k3, k4, k5, k6⟩ := hloop e.results (fun _ h => h) _ 0 0 (D53.is_zero (L := L)) le_rfl (by simp) (by omega)
  have hl : 0 < e.results.length := List.length_pos_iff.2 hne
  have hlq : (0 : ℚ) < e.results.length := by exact_mod_cast hl
  have iN : D53.Is (Dbl.ofNat e.results.length : D53 L) e.results.length := D53.is_nat hn
  have iM := k2.div iN hlq.ne'
  rw [Nat.zero_add] at k4 k6
  have m0 : 0 ≤ D53.rnd (q / e.results.length) := D53.rnd_nonneg (by positivity)
  have m1 : D53.rnd (q / e.results.length) ≤ 1 :=
    D53.rnd_le_of_le D53.rep_one (by rw [div_le_one hlq]; exact k4)
  have i1 := D53.is_one (L := L)
  have i0 := D53.is_zero (L := L)
  have iE : D53.Is (Dbl.ofInt 1 -. (s /. Dbl.ofNat e.results.length)) _ := i1.sub iM
  refine ⟨s /. Dbl.ofNat e.results.length, Dbl.ofInt 1 -. (s /. Dbl.ofNat e.results.length), _, _, ?_, iM, iE, m0, m1, ?_, ?_, ?_, ?_, ?_⟩
  · unfold ExpPerf.meanClassificationPerformance
    rw [if_neg (by simp [hne, hc])]
    unfold ExpPerf.sumAccuracy
    erw [k1]
    rfl
  · exact D53.rnd_nonneg (by linarith)
  · exact D53.rnd_le_of_le D53.rep_one (by linarith)
  · have := iM.add iE
    rw [error_complement m0 m1] at this
    exact this.ext i1
  · constructor
    · intro h
      have := iM.unique (h ▸ i0)
      rw [D53.rnd_eq_zero, div_eq_zero_iff] at this
      exact (k5.1 (this.resolve_right hlq.ne')).2
    · intro h
      have hq : q = 0 := k5.2 ⟨rfl, h⟩
      rw [hq, zero_div, D53.rnd_zero] at iM
      exact iM.ext i0
  · intro h
    have hq := k6 (by simp) h
    rw [hq, div_self hlq.ne', D53.rnd_one] at iM
    exact iM.ext i1

/-- the calls of the sample history satisfy the hypotheses -/
example : exHistory ≠ [] ∧ exHistory.length < 2 ^ 53 ∧ 0 < nActual exHistory "a" ∧ 0 < nPredicted exHistory "a" := by
  decide

/-- and so do two runs with accuracies one half and one -/
example (L : CMath) : ∀ p ∈ [(Perf.ofAccuracy (Dbl.lit (1 / 2)) : Perf (D53 L)), Perf.ofAccuracy Dbl.one],
    ∃ (a : D53 L) (q : ℚ), p.getAccuracy = .ok a ∧ a.val = .fin q ∧ 0 ≤ q ∧ q ≤ 1 := by
  intro p hp
  simp only [List.mem_cons, List.not_mem_nil, or_false] at hp
  rcases hp with rfl | rfl
  · exact ⟨_, D53.rnd (1 / 2), rfl, rfl, by decide +kernel, by decide +kernel⟩
  · exact ⟨_, 1, rfl, D53.is_one, by norm_num, le_rfl⟩

end Verif
