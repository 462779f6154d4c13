import Verif.Props.ExpPerf
import Verif.Props.InstanceList

/-! # Testing: the order of the test instances, testing in parts

C196. `predict` stands for the trained classifier. -/

namespace Verif
open Dbl

variable {F : Type} [Dbl F]

omit [Dbl F] in
theorem predicts_all {predict : Inst F → Res String} {S : Type} {step : S → Inst F → String → S} {t : IList F} {s r : S}
    (h : t.foldlM (fun s x => do let p ← predict x; pure (step s x p)) s = .ok r) :
    ∃ p : Inst F → String, ∀ x ∈ t, predict x = .ok (p x) := by
  refine ⟨fun x => (predict x).toOption.getD "", ?_⟩
  induction t generalizing s with
  | nil => simp
  | cons y t ih =>
    rw [List.foldlM_cons, bind_ok_iff] at h
    obtain ⟨s', h1, h2⟩ := h
    rw [bind_ok_iff] at h1
    obtain ⟨q, hq, _⟩ := h1
    intro x hx
    rcases List.mem_cons.1 hx with rfl | hx
    · simp [hq, Except.toOption]
    · exact ih h2 x hx

theorem modelTest_ok {predict : Inst F → Res String} (p : Inst F → String) {t : IList F}
    (hp : ∀ x ∈ t, predict x = .ok (p x)) :
    modelTest predict t = .ok (Perf.ofConfusion
      (afterHistory t.getUnionOfPossibleClassLabels (t.map (fun x => (x.label, p x))))) := by
  unfold modelTest
  rw [foldlM_ok (g := fun (c : ConfMat) x => c.classify x.label (p x))]
  · simp only [res_bind_ok, res_pure, afterHistory, List.foldl_map]
  · intro x hx c
    rw [hp x hx]; rfl

theorem counter_perm {l l' : List String} (h : l.Perm l') : Counter.ofList l = Counter.ofList l' :=
  Counter.ext (Counter.wf_ofList l) (Counter.wf_ofList l') (fun k => by
    rw [Counter.count_ofList, Counter.count_ofList, h.count_eq])

theorem IsMatrixOf.perm {m n : OMap Counter} {h k : List (String × String)} (hm : IsMatrixOf m h) (hn : IsMatrixOf n k)
    (hp : h.Perm k) : m = n := by
  have hq : ∀ a, (predsOf h a).Perm (predsOf k a) := fun a => (hp.filter _).map _
  apply OMap.ext hm.sorted hn.sorted
  intro a
  rw [hm.rows, hn.rows, counter_perm (hq a)]
  by_cases h0 : predsOf h a = []
  · rw [if_pos h0, if_pos (by have := hq a; rw [h0] at this; exact this.symm.eq_nil)]
  · rw [if_neg h0, if_neg (by intro e; have := hq a; rw [e] at this; exact h0 this.eq_nil)]

theorem union_perm {t t' : IList F} (h : t.Perm t') :
    t.getUnionOfPossibleClassLabels.Perm t'.getUnionOfPossibleClassLabels := by
  have h1 := C08_union_of_possible t
  have h2 := C08_union_of_possible t'
  rw [List.perm_ext_iff_of_nodup h1.nodup h2.nodup]
  intro a
  rw [h1.mem_iff, h2.mem_iff]
  exact (h.map _).flatten.mem_iff

/-- **C196**, `test`: with the test instances in another order there is a result if there was one before, with exactly the same
accuracy and error rate, the same confusion matrix, and the same class labels, possibly in another order -/
theorem C196_test {predict : Inst F → Res String} {t t' : IList F} (h : t.Perm t') {r : Perf F}
    (hr : modelTest predict t = .ok r) :
    ∃ a e c c', r = .detailed a e c ∧ modelTest predict t' = .ok (.detailed a e c') ∧ c'.matrix = c.matrix ∧
      c'.labels.Perm c.labels := by
  have hr0 := hr
  unfold modelTest at hr
  rw [bind_ok_iff] at hr
  obtain ⟨c0, hc0, _⟩ := hr
  obtain ⟨p, hp⟩ := predicts_all (step := fun (c : ConfMat) x q => c.classify x.label q) hc0
  rw [modelTest_ok p hp] at hr0
  have hp' : ∀ x ∈ t', predict x = .ok (p x) := fun x hx => hp x (h.mem_iff.2 hx)
  have hm : (afterHistory t'.getUnionOfPossibleClassLabels (t'.map (fun x => (x.label, p x)))).matrix =
      (afterHistory t.getUnionOfPossibleClassLabels (t.map (fun x => (x.label, p x)))).matrix :=
    (afterHistory_isMatrix _ _).perm (afterHistory_isMatrix _ _) (h.symm.map _)
  refine ⟨_, _, _, afterHistory t'.getUnionOfPossibleClassLabels (t'.map (fun x => (x.label, p x))),
    (Except.ok.inj hr0).symm, ?_, hm, ?_⟩
  · rw [modelTest_ok p hp']
    unfold Perf.ofConfusion ConfMat.getAccuracy ConfMat.trace ConfMat.sumOfElements
    rw [hm]
  · rw [afterHistory_labels, afterHistory_labels]; exact (union_perm h).symm

/-- **C196**, `testClassifier`: the same result for any order of the instances -/
theorem C196_testClassifier {predict : Inst F → Res String} {t t' : IList F} (h : t.Perm t') {r : Perf F}
    (hr : testClassifier predict t = .ok r) : testClassifier predict t' = .ok r := by
  have key : ∀ (p : Inst F → String) (l : IList F), (∀ x ∈ l, predict x = .ok (p x)) →
      testClassifier predict l = .ok (Perf.ofAccuracy
        ((Dbl.ofNat (l.countP (fun x => x.label == p x)) : F) /. Dbl.ofNat l.length)) := by
    intro p l hp
    unfold testClassifier
    rw [foldlM_ok (g := fun (n : Nat) x => if x.label = p x then n + 1 else n)]
    · have : ∀ (l : IList F) (n : Nat), l.foldl (fun (n : Nat) x => if x.label = p x then n + 1 else n) n =
          n + l.countP (fun x => x.label == p x) := by
        intro l
        induction l with
        | nil => simp
        | cons y l ih =>
          intro n
          rw [List.foldl_cons, ih, List.countP_cons]
          by_cases hy : y.label = p y
          · simp [hy]; omega
          · simp [hy]
      rw [this]; simp
    · intro x hx n
      rw [hp x hx]; rfl
  have hr0 := hr
  unfold testClassifier at hr
  rw [bind_ok_iff] at hr
  obtain ⟨c0, hc0, _⟩ := hr
  obtain ⟨p, hp⟩ := predicts_all (step := fun (n : Nat) x q => if x.label = q then n + 1 else n) hc0
  rw [key p t' (fun x hx => hp x (h.mem_iff.2 hx)), ← hr0, key p t hp, h.countP_eq, h.length_eq]

/-! ### the measures per class -/

theorem ConfMat.columnSum_matrix {c c' : ConfMat} (h : c'.matrix = c.matrix) (a : String) :
    (c'.columnSum a : F) = c.columnSum a := by
  unfold ConfMat.columnSum; rw [h]

/-- **C196**: precision and recall of each class are the same; only their places in the arrays follow the order of the labels -/
theorem C196_per_class {c c' : ConfMat} (hm : c'.matrix = c.matrix) (hl : c'.labels.Perm c.labels) :
    (c'.labels.zip (c'.precision : List (Option F))).Perm (c.labels.zip (c.precision : List (Option F))) ∧
    (c'.labels.zip (c'.recall : List (Option F))).Perm (c.labels.zip (c.recall : List (Option F))) := by
  have key : ∀ (l l' : List String) (g : String → Option F), l'.Perm l →
      (l'.zip (l'.map g)).Perm (l.zip (l.map g)) := by
    intro l l' g h
    have : ∀ k : List String, k.zip (k.map g) = k.map (fun a => (a, g a)) := by
      intro k
      induction k with
      | nil => rfl
      | cons a k ih => simp [ih]
    rw [this, this]; exact h.map _
  constructor
  · unfold ConfMat.precision
    rw [hm]
    simp only [ConfMat.columnSum_matrix hm]
    exact key _ _ _ hl
  · unfold ConfMat.recall
    rw [hm]
    exact key _ _ _ hl

/-- the F-measure of one class -/
def classF (c : ConfMat) (a : String) : Option F :=
  match OMap.find? c.matrix a with
  | some row => some ((Dbl.ofInt 2 : F) /.
      ((Dbl.ofInt 1 /. ((Dbl.ofNat (Counter.count row a) : F) /. c.columnSum a)) +.
       (Dbl.ofInt 1 /. (((Dbl.ofNat (Counter.count row a) : F) +. Dbl.zero) /. Dbl.ofNat (Counter.sumOfCounts row)))))
  | none => none

theorem fMeasure_eq (c : ConfMat) (f : List F) (h : c.fMeasure = .ok f) :
    f.map some = c.labels.map (classF c) := by
  have key : ∀ n ≤ c.labels.length, ∀ g : List F,
      (List.range n).foldlM (fun (r : List F) i => (do
        let p ← ConfMat.slot (c.precision : List (Option F)) i
        let q ← ConfMat.slot (c.recall : List (Option F)) i
        pure (r ++ [(Dbl.ofInt 2 : F) /. ((Dbl.ofInt 1 /. p) +. (Dbl.ofInt 1 /. q))]) : Res (List F))) [] = .ok g →
      g.map some = (c.labels.take n).map (classF c) := by
    intro n
    induction n with
    | zero => intro _ g hg; cases hg; simp
    | succ n ih =>
      intro hn g hg
      rw [List.range_succ, List.foldlM_append, bind_ok_iff] at hg
      obtain ⟨g0, h0, h1⟩ := hg
      have h1' := ih (by omega) g0 h0
      rw [List.foldlM_cons, bind_ok_iff] at h1
      obtain ⟨g1, h2, h3⟩ := h1
      cases h3
      rw [bind_ok_iff] at h2
      obtain ⟨p, hp, h2⟩ := h2
      rw [bind_ok_iff] at h2
      obtain ⟨q, hq, h2⟩ := h2
      cases h2
      have hlt : n < c.labels.length := by omega
      rw [List.map_append, h1', ← List.take_append_getElem hlt, List.map_append]
      congr 1
      unfold ConfMat.slot idxR ConfMat.precision at hp
      unfold ConfMat.slot idxR ConfMat.recall at hq
      rw [List.getElem?_map, List.getElem?_eq_getElem hlt] at hp hq
      simp only [List.map_cons, List.map_nil, classF]
      cases hrow : OMap.find? c.matrix c.labels[n] with
      | none => simp only [Option.map_some, hrow, res_bind_ok] at hp; cases hp
      | some row =>
        simp only [Option.map_some, hrow, res_bind_ok, res_pure, Except.ok.injEq] at hp hq
        rw [← hp, ← hq]
  have := key c.labels.length le_rfl f h
  rwa [List.take_length] at this

/-- **C196**: the F-measure of each class is the same -/
theorem C196_f_measure {c c' : ConfMat} (hm : c'.matrix = c.matrix) (hl : c'.labels.Perm c.labels) {f f' : List F}
    (h : c.fMeasure = .ok f) (h' : c'.fMeasure = .ok f') : (c'.labels.zip f').Perm (c.labels.zip f) := by
  have e := fMeasure_eq c f h
  have e' := fMeasure_eq c' f' h'
  have hcf : (classF c' : String → Option F) = classF c := by
    funext a
    unfold classF
    rw [hm]
    simp only [ConfMat.columnSum_matrix hm]
  rw [hcf] at e'
  have key : ∀ (l : List String) (g : List F), g.map some = l.map (classF c) →
      (l.zip g).map (fun p => (p.1, some p.2)) = l.map (fun a => (a, classF c a)) := by
    intro l
    induction l with
    | nil => simp
    | cons a l ih =>
      intro g hg
      cases g with
      | nil => simp at hg
      | cons y g =>
        simp only [List.map_cons, List.cons.injEq] at hg
        simp [hg.1, ih g hg.2]
  have h1 : ((c'.labels.zip f').map (fun p : String × F => (p.1, some p.2))).Perm
      ((c.labels.zip f).map (fun p => (p.1, some p.2))) := by
    rw [key _ _ e', key _ _ e]; exact hl.map _
  have h2 := h1.map (fun p : String × Option F => (p.1, p.2.getD (Dbl.zero : F)))
  simpa [List.map_map, Function.comp_def] using h2

/-- **C196**: the weighted F-measure, in exact arithmetic, is the same -/
theorem C196_weighted {c c' : ConfMat} (hm : c'.matrix = c.matrix) (hl : c'.labels.Perm c.labels) {v v' : ℝ}
    (h : c.weightedFMeasure = .ok v) (h' : c'.weightedFMeasure = .ok v') : v' = v := by
  have key : ∀ (c : ConfMat) (f : List ℝ), f.length = c.labels.length → ∀ n ≤ c.labels.length, ∀ s : ℝ,
      (List.range n).foldlM (c.weightedStep f) (Dbl.zero : ℝ) = .ok s →
      s = (((c.labels.zip f).take n).map (fun p => p.2 *
        (((OMap.find? c.matrix p.1).map (fun row => (Counter.sumOfCounts row : ℝ))).getD 0))).sum := by
    intro c f hf n
    induction n with
    | zero => intro _ s hs; cases hs; simp [zero_real]
    | succ n ih =>
      intro hn s hs
      rw [List.range_succ, List.foldlM_append, bind_ok_iff] at hs
      obtain ⟨s0, h0, h1⟩ := hs
      have hlt : n < c.labels.length := by omega
      have hlt' : n < f.length := by omega
      have hz : n < (c.labels.zip f).length := by rw [List.length_zip]; omega
      rw [List.foldlM_cons, bind_ok_iff] at h1
      obtain ⟨s1, h2, h3⟩ := h1
      cases h3
      unfold ConfMat.weightedStep atR idxR at h2
      rw [List.getElem?_eq_getElem hlt, List.getElem?_eq_getElem hlt'] at h2
      simp only [res_bind_ok] at h2
      rw [← List.take_append_getElem hz, List.map_append, List.sum_append, ← ih (by omega) s0 h0, List.getElem_zip]
      cases hrow : OMap.find? c.matrix c.labels[n] with
      | none => rw [hrow] at h2; cases h2
      | some row =>
        rw [hrow] at h2
        have := Except.ok.inj h2
        rw [← this]
        simp [hrow]
  have full : ∀ (c : ConfMat) (v : ℝ), c.weightedFMeasure = .ok v → ∃ f : List ℝ, c.fMeasure = .ok f ∧
      v = ((c.labels.zip f).map (fun p => p.2 *
        (((OMap.find? c.matrix p.1).map (fun row => (Counter.sumOfCounts row : ℝ))).getD 0))).sum / (c.sumOfElements : ℝ) := by
    intro c v hv
    unfold ConfMat.weightedFMeasure at hv
    rw [bind_ok_iff] at hv
    obtain ⟨f, hf, hv⟩ := hv
    rw [bind_ok_iff] at hv
    obtain ⟨s, hs, hv⟩ := hv
    have hlen : f.length = c.labels.length := by
      have := congrArg List.length (fMeasure_eq c f hf)
      simpa using this
    have := key c f hlen c.labels.length le_rfl s hs
    rw [List.take_of_length_le (by rw [List.length_zip]; omega)] at this
    refine ⟨f, hf, ?_⟩
    rw [← this]
    exact (Except.ok.inj hv).symm
  obtain ⟨f, hf, rfl⟩ := full c v h
  obtain ⟨f', hf', rfl⟩ := full c' v' h'
  have hs : (c'.sumOfElements : ℝ) = c.sumOfElements := by unfold ConfMat.sumOfElements; rw [hm]
  rw [hs, hm, ((C196_f_measure hm hl hf hf').map _).sum_eq]

/-! ### testing in parts -/

/-- **C34** for tests: the confusion matrix of a test on all instances is the one obtained by merging the matrices of tests on
two parts -/
theorem C34_tested_in_parts {predict : Inst F → Res String} {t t' : IList F} {a e a' e' : F} {c c' : ConfMat}
    (h : modelTest predict t = .ok (.detailed a e c)) (h' : modelTest predict t' = .ok (.detailed a' e' c')) :
    ∃ c'', modelTest predict (t ++ t') = .ok (.detailed c''.getAccuracy (Dbl.ofInt 1 -. c''.getAccuracy) c'') ∧
      c''.matrix = (c.addConfusionMatrix c').matrix := by
  have h0 := h
  have h0' := h'
  unfold modelTest at h h'
  rw [bind_ok_iff] at h h'
  obtain ⟨c0, hc0, _⟩ := h
  obtain ⟨c1, hc1, _⟩ := h'
  obtain ⟨p, hp⟩ := predicts_all (step := fun (c : ConfMat) x q => c.classify x.label q) hc0
  obtain ⟨p', hp'⟩ := predicts_all (step := fun (c : ConfMat) x q => c.classify x.label q) hc1
  have hpp : ∀ x ∈ t', predict x = .ok ((predict x).toOption.getD "") := by
    intro x hx; rw [hp' x hx]; rfl
  have hp1 : ∀ x ∈ t, predict x = .ok ((predict x).toOption.getD "") := by
    intro x hx; rw [hp x hx]; rfl
  have hall : ∀ x ∈ t ++ t', predict x = .ok ((predict x).toOption.getD "") := by
    intro x hx
    rcases List.mem_append.1 hx with hx | hx
    · exact hp1 x hx
    · exact hpp x hx
  rw [modelTest_ok _ hp1] at h0
  rw [modelTest_ok _ hpp] at h0'
  have ec := congrArg (fun r : Res (Perf F) => match r with | .ok (.detailed _ _ c) => c.matrix | _ => []) h0
  have ec' := congrArg (fun r : Res (Perf F) => match r with | .ok (.detailed _ _ c) => c.matrix | _ => []) h0'
  simp only [Perf.ofConfusion] at ec ec'
  refine ⟨_, by rw [modelTest_ok _ hall]; rfl, ?_⟩
  have hm1 : IsMatrixOf c.matrix (t.map fun x => (x.label, (predict x).toOption.getD "")) := by
    rw [← ec]; exact afterHistory_isMatrix _ _
  have hm2 : IsMatrixOf c'.matrix (t'.map fun x => (x.label, (predict x).toOption.getD "")) := by
    rw [← ec']; exact afterHistory_isMatrix _ _
  have := merge_isMatrix hm1 hm2
  rw [← List.map_append] at this
  exact (afterHistory_isMatrix _ _).unique this

/-! ### the hypotheses can be met -/

/-- two classes, three test instances -/
example : let p : Inst XR → Res String := fun x => .ok (if x.attrs.length = 1 then "a" else "b")
    let t : IList XR := [⟨"a", [.continuous (.fin 0)], none⟩, ⟨"b", [], none⟩, ⟨"b", [.continuous (.fin 0)], none⟩]
    (modelTest p t >>= fun r => r.getAccuracy) = .ok (.fin (2 / 3)) ∧
    (modelTest p t.reverse >>= fun r => r.getAccuracy) = .ok (.fin (2 / 3)) ∧
    (modelTest p t >>= fun r => r.getConfusionMatrix >>= fun c => pure c.labels) = .ok ["a", "b"] ∧
    (modelTest p t.reverse >>= fun r => r.getConfusionMatrix >>= fun c => pure c.labels) = .ok ["b", "a"] := by
  decide +kernel

end Verif
