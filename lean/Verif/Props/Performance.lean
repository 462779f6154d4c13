import Verif.Spec.Performance
import Verif.Spec.Stats
import Verif.Props.InstanceList
import Verif.Model.DblReal
import Verif.Model.DblXR

/-! # Properties C33–C43: confusion matrices, performances, experiments, testing -/

set_option linter.unusedSectionVars false

namespace Verif
open Dbl

/-! ## The matrix of a history -/

/-- predictions made for the instances of class `a` -/
def predsOf (h : List (String × String)) (a : String) : List String :=
  (h.filter (fun q => q.1 == a)).map Prod.snd

theorem predsOf_cons (q : String × String) (h : List (String × String)) (a : String) :
    predsOf (q :: h) a = if q.1 = a then q.2 :: predsOf h a else predsOf h a := by
  unfold predsOf
  by_cases hq : q.1 = a
  · simp [hq]
  · simp [hq]

theorem predsOf_append (h k : List (String × String)) (a : String) :
    predsOf (h ++ k) a = predsOf h a ++ predsOf k a := by
  simp [predsOf]

theorem predsOf_eq_nil {h : List (String × String)} {a : String} :
    predsOf h a = [] ↔ a ∉ h.map Prod.fst := by
  simp only [predsOf, List.map_eq_nil_iff, List.filter_eq_nil_iff, beq_iff_eq, List.mem_map, not_exists,
    not_and]

/-- what a history leaves behind -/
structure IsMatrixOf (m : OMap Counter) (h : List (String × String)) : Prop where
  sorted : OMap.Sorted m
  rows : ∀ a, OMap.find? m a = if predsOf h a = [] then none else some (Counter.ofList (predsOf h a))

theorem Counter.ofList_append_singleton (l : List String) (p : String) :
    Counter.ofList (l ++ [p]) = Counter.put (Counter.ofList l) p := by
  simp [Counter.ofList]

theorem classify_isMatrix {c : ConfMat} {h : List (String × String)} (hm : IsMatrixOf c.matrix h)
    (a p : String) : IsMatrixOf (c.classify a p).matrix (h ++ [(a, p)]) := by
  unfold ConfMat.classify
  refine ⟨OMap.sorted_insert hm.sorted _ _, ?_⟩
  intro b
  simp only
  rw [OMap.find?_insert, predsOf_append]
  by_cases hb : b = a
  · subst hb
    have h1 : predsOf [(b, p)] b = [p] := by simp [predsOf]
    rw [if_pos rfl, h1, if_neg (by simp), Counter.ofList_append_singleton, hm.rows b]
    by_cases hn : predsOf h b = []
    · rw [if_pos hn, hn]; rfl
    · rw [if_neg hn]
  · have h1 : predsOf [(a, p)] b = [] := by simpa [predsOf] using fun e : a = b => hb e.symm
    rw [if_neg hb, h1, List.append_nil]
    exact hm.rows b

theorem afterHistory_aux : ∀ (h : List (String × String)) (c : ConfMat) (h0 : List (String × String)),
    IsMatrixOf c.matrix h0 →
    IsMatrixOf (h.foldl (fun c q => c.classify q.1 q.2) c).matrix (h0 ++ h) ∧
    (h.foldl (fun c q => c.classify q.1 q.2) c).labels = c.labels := by
  intro h
  induction h with
  | nil => intro c h0 hm; simpa using hm
  | cons q h ih =>
    intro c h0 hm
    have := ih (c.classify q.1 q.2) (h0 ++ [q]) (classify_isMatrix hm q.1 q.2)
    simpa [ConfMat.classify] using this

theorem afterHistory_isMatrix (ls : List String) (h : List (String × String)) :
    IsMatrixOf (afterHistory ls h).matrix h := by
  have := (afterHistory_aux h (ConfMat.new ls) [] ⟨OMap.sorted_nil, by intro a; rfl⟩).1
  rw [List.nil_append] at this
  exact this

theorem afterHistory_labels (ls : List String) (h : List (String × String)) :
    (afterHistory ls h).labels = ls :=
  (afterHistory_aux h (ConfMat.new ls) [] ⟨OMap.sorted_nil, by intro a; rfl⟩).2

theorem IsMatrixOf.unique {m n : OMap Counter} {h : List (String × String)} (hm : IsMatrixOf m h)
    (hn : IsMatrixOf n h) : m = n :=
  OMap.ext hm.sorted hn.sorted (fun a => by rw [hm.rows, hn.rows])

theorem count_predsOf (h : List (String × String)) (a p : String) :
    (predsOf h a).count p = h.count (a, p) := by
  induction h with
  | nil => rfl
  | cons q h ih =>
    rw [predsOf_cons, List.count_cons]
    obtain ⟨x, y⟩ := q
    by_cases hx : x = a
    · subst hx
      by_cases hy : y = p
      · subst hy; simp [ih]
      · simp [ih, hy]
    · simp [ih, hx]

theorem IsMatrixOf.entries {m : OMap Counter} {h : List (String × String)} (hm : IsMatrixOf m h) :
    m = (OMap.keys m).map (fun a => (a, Counter.ofList (predsOf h a))) := by
  have key : ∀ q ∈ m, q = (q.1, Counter.ofList (predsOf h q.1)) := by
    rintro ⟨a, row⟩ hq
    have h1 := OMap.find?_of_mem hm.sorted hq
    rw [hm.rows] at h1
    by_cases hn : predsOf h a = []
    · rw [if_pos hn] at h1; cases h1
    · rw [if_neg hn] at h1; cases h1; rfl
  unfold OMap.keys
  rw [List.map_map]
  have : m.map id = m.map ((fun a => (a, Counter.ofList (predsOf h a))) ∘ Prod.fst) :=
    List.map_congr_left key
  simpa using this

theorem IsMatrixOf.mem_keys {m : OMap Counter} {h : List (String × String)} (hm : IsMatrixOf m h)
    (a : String) : a ∈ OMap.keys m ↔ a ∈ h.map Prod.fst := by
  rw [← OMap.find?_isSome_iff, hm.rows]
  by_cases hn : predsOf h a = []
  · rw [if_pos hn]; simp [predsOf_eq_nil.1 hn]
  · rw [if_neg hn]
    simp only [Option.isSome_some, true_iff]
    by_contra hc
    exact hn (predsOf_eq_nil.2 hc)

theorem OMap.keys_nodup {V : Type} {m : OMap V} (h : OMap.Sorted m) : (OMap.keys m).Nodup :=
  List.Pairwise.imp (fun h => ne_of_lt h) h

/-- summing over the actual classes is summing over the history -/
theorem sum_over_classes (q : String × String → Bool) : ∀ (h : List (String × String)) (ks : List String),
    ks.Nodup → (∀ x ∈ h, x.1 ∈ ks) →
    (ks.map (fun a => h.countP (fun x => x.1 == a && q x))).sum = h.countP q := by
  intro h
  induction h with
  | nil => intro ks _ _; simp
  | cons x h ih =>
    intro ks hk hmem
    have h1 := ih ks hk (fun y hy => hmem y (by simp [hy]))
    rw [List.countP_cons, ← h1]
    have h2 : ∀ (ks : List String), ks.Nodup →
        (ks.map (fun a => (x :: h).countP (fun x => x.1 == a && q x))).sum =
        (ks.map (fun a => h.countP (fun x => x.1 == a && q x))).sum +
          (if x.1 ∈ ks then (if q x = true then 1 else 0) else 0) := by
      intro ks
      induction ks with
      | nil => intro _; simp
      | cons k ks ih2 =>
        intro hn
        have hn' := List.nodup_cons.1 hn
        simp only [List.map_cons, List.sum_cons]
        rw [ih2 hn'.2, List.countP_cons]
        by_cases hx : x.1 = k
        · subst hx
          rw [if_neg hn'.1]
          simp; omega
        · have h3 : x.1 ∈ k :: ks ↔ x.1 ∈ ks := by simp [hx]
          by_cases h4 : x.1 ∈ ks
          · rw [if_pos h4, if_pos (h3.2 h4)]; simp [hx]; omega
          · rw [if_neg h4, if_neg (fun h => h4 (h3.1 h))]; simp [hx]
    rw [h2 ks hk, if_pos (hmem x (by simp))]

theorem foldl_real_nat {α : Type} (f : α → Nat) : ∀ (l : List α) (s : ℝ),
    l.foldl (fun (s : ℝ) x => s +. Dbl.ofNat (f x)) s = s + ((l.map f).sum : ℕ) := by
  intro l
  induction l with
  | nil => intro s; simp
  | cons a l ih => intro s; rw [List.foldl_cons, ih]; simp; ring

theorem foldl_real_nat_if {α : Type} (f : α → Nat) (c : α → Bool) (hc : ∀ x, c x = false → f x = 0) :
    ∀ (l : List α) (s : ℝ),
    l.foldl (fun (s : ℝ) x => if c x then s +. Dbl.ofNat (f x) else s) s = s + ((l.map f).sum : ℕ) := by
  intro l
  induction l with
  | nil => intro s; simp
  | cons a l ih =>
    intro s
    rw [List.foldl_cons, ih]
    cases h : c a with
    | true => simp; ring
    | false => simp [hc a h]

theorem count_eq_zero_of_not_contains (m : Counter) (k : String) (h : OMap.contains m k = false) :
    Counter.count m k = 0 := by
  unfold OMap.contains at h
  unfold Counter.count
  cases hf : OMap.find? m k with
  | none => rfl
  | some v => rw [hf] at h; cases h

theorem sum_entries {m : OMap Counter} {h : List (String × String)} (hm : IsMatrixOf m h)
    (f : String × Counter → Nat) (q : String × String → Bool)
    (hf : ∀ a, f (a, Counter.ofList (predsOf h a)) = h.countP (fun x => x.1 == a && q x)) :
    (m.map f).sum = h.countP q := by
  rw [hm.entries, List.map_map]
  have : (OMap.keys m).map (f ∘ fun a => (a, Counter.ofList (predsOf h a))) =
      (OMap.keys m).map (fun a => h.countP (fun x => x.1 == a && q x)) :=
    List.map_congr_left (fun a _ => hf a)
  rw [this]
  apply sum_over_classes q h _ (OMap.keys_nodup hm.sorted)
  intro x hx
  rw [hm.mem_keys]
  exact List.mem_map_of_mem hx

theorem countP_pair (h : List (String × String)) (a p : String) :
    h.count (a, p) = h.countP (fun x => x.1 == a && x.2 == p) := by
  unfold List.count
  apply List.countP_congr
  rintro ⟨x, y⟩ _
  simp [Prod.ext_iff]

theorem sumOfElements_real {c : ConfMat} {h : List (String × String)} (hm : IsMatrixOf c.matrix h) :
    (c.sumOfElements : ℝ) = h.length := by
  unfold ConfMat.sumOfElements
  rw [foldl_real_nat (fun it : String × Counter => Counter.sumOfCounts it.2)]
  rw [sum_entries hm (fun it => Counter.sumOfCounts it.2) (fun _ => true)]
  · simp
  · intro a
    simp only [Counter.sumOfCounts_ofList, predsOf, List.length_map, Bool.and_true]
    rw [List.countP_eq_length_filter]

theorem trace_real {c : ConfMat} {h : List (String × String)} (hm : IsMatrixOf c.matrix h) :
    (c.trace : ℝ) = nCorrect h := by
  unfold ConfMat.trace
  rw [foldl_real_nat_if (fun it : String × Counter => Counter.count it.2 it.1)
    (fun it => OMap.contains it.2 it.1) (fun it h => count_eq_zero_of_not_contains _ _ h)]
  rw [sum_entries hm (fun it => Counter.count it.2 it.1) (fun x => x.1 == x.2)]
  · simp [nCorrect]
  · intro a
    simp only [Counter.count_ofList, count_predsOf, countP_pair]
    apply List.countP_congr
    rintro ⟨x, y⟩ _
    simp only [Bool.and_eq_true, beq_iff_eq]
    constructor
    · rintro ⟨rfl, rfl⟩; exact ⟨rfl, rfl⟩
    · rintro ⟨rfl, rfl⟩; exact ⟨rfl, rfl⟩

theorem columnSum_real {c : ConfMat} {h : List (String × String)} (hm : IsMatrixOf c.matrix h)
    (p : String) : (c.columnSum p : ℝ) = nPredicted h p := by
  unfold ConfMat.columnSum
  rw [foldl_real_nat_if (fun it : String × Counter => Counter.count it.2 p)
    (fun it => OMap.contains it.2 p) (fun it h => count_eq_zero_of_not_contains _ _ h)]
  rw [sum_entries hm (fun it => Counter.count it.2 p) (fun x => x.2 == p)]
  · simp [nPredicted]
  · intro a
    simp only [Counter.count_ofList, count_predsOf, countP_pair]

theorem cell_of_isMatrix {c : ConfMat} {h : List (String × String)} (hm : IsMatrixOf c.matrix h)
    (a p : String) : c.cell a p = nCell h a p := by
  unfold ConfMat.cell nCell
  have := hm.rows a
  unfold OMap.find? at this
  rw [this, ← count_predsOf]
  by_cases hn : predsOf h a = []
  · rw [if_pos hn, hn]; rfl
  · rw [if_neg hn]
    exact Counter.count_ofList _ _

/-! ## C33 -/

/-- **C33.** Cells count the calls. -/
theorem C33_cells (ls : List String) (h : List (String × String)) (a p : String) :
    (afterHistory ls h).cell a p = nCell h a p :=
  cell_of_isMatrix (afterHistory_isMatrix ls h) a p

/-- **C33.** The sum of all elements is the number of calls, the trace the number of correct
calls, and a column sum the number of calls predicting that class. -/
theorem C33_sums (ls : List String) (h : List (String × String)) :
    ((afterHistory ls h).sumOfElements : ℝ) = h.length ∧
    ((afterHistory ls h).trace : ℝ) = nCorrect h ∧
    ∀ p, ((afterHistory ls h).columnSum p : ℝ) = nPredicted h p :=
  ⟨sumOfElements_real (afterHistory_isMatrix ls h), trace_real (afterHistory_isMatrix ls h),
    columnSum_real (afterHistory_isMatrix ls h)⟩

/-- sample history -/
def exHistory : List (String × String) := [("a", "a"), ("a", "b"), ("b", "b"), ("a", "a")]

example : (afterHistory ["a", "b"] exHistory).cell "a" "a" = 2 ∧
    ((afterHistory ["a", "b"] exHistory).trace : XR) = .fin 3 := by decide +kernel

/-! ## C34 -/

theorem Counter.addAll_spec : ∀ (n m : Counter), Counter.WF m → Counter.WF n →
    Counter.WF (Counter.addAll m n) ∧
    ∀ k, Counter.count (Counter.addAll m n) k = Counter.count m k + Counter.count n k := by
  intro n
  induction n with
  | nil => intro m hm _; exact ⟨hm, fun k => by simp [Counter.addAll]⟩
  | cons p n ih =>
    intro m hm hn
    obtain ⟨a, v⟩ := p
    have hs := hn.sorted
    unfold OMap.Sorted OMap.keys at hs
    have hpos : 0 < v := hn.pos a v (by simp [OMap.find?_cons])
    have hfind : OMap.find? n a = none := by
      rw [OMap.find?_eq_none_iff]
      intro hk
      exact absurd ((List.pairwise_cons.1 hs).1 a hk) (lt_irrefl _)
    have hn' : Counter.WF n := by
      refine ⟨(List.pairwise_cons.1 hs).2, ?_⟩
      intro k w hk
      by_cases hka : k = a
      · subst hka; rw [hfind] at hk; cases hk
      · exact hn.pos k w (by rw [OMap.find?_cons]; simp [hka, hk])
    obtain ⟨h1, h2⟩ := ih (Counter.putN m a v) (Counter.wf_putN hm a hpos) hn'
    refine ⟨h1, ?_⟩
    intro k
    have : Counter.addAll m ((a, v) :: n) = Counter.addAll (Counter.putN m a v) n := rfl
    rw [this, h2 k, Counter.count_putN]
    by_cases hka : k = a
    · subst hka
      simp [Counter.count, OMap.find?_cons, hfind]
    · simp [Counter.count, OMap.find?_cons, hka]

theorem merge_isMatrix {c : ConfMat} {d : ConfMat} {h k : List (String × String)}
    (hc : IsMatrixOf c.matrix h) (hd : IsMatrixOf d.matrix k) :
    IsMatrixOf (c.addConfusionMatrix d).matrix (h ++ k) := by
  -- merge the rows of a suffix of the other matrix one after the other
  have key : ∀ (rows : OMap Counter) (m : OMap Counter) (done : List String),
      OMap.Sorted m → (rows.map Prod.fst).Nodup →
      (∀ a ∈ rows.map Prod.fst, a ∉ done) →
      (∀ q ∈ rows, q.2 = Counter.ofList (predsOf k q.1) ∧ predsOf k q.1 ≠ []) →
      (∀ a, OMap.find? m a =
        if a ∈ done then
          (if predsOf (h ++ k) a = [] then none else some (Counter.ofList (predsOf (h ++ k) a)))
        else (if predsOf h a = [] then none else some (Counter.ofList (predsOf h a)))) →
      OMap.Sorted (rows.foldl ConfMat.mergeRow m) ∧
      ∀ a, OMap.find? (rows.foldl ConfMat.mergeRow m) a =
        if a ∈ done ++ rows.map Prod.fst then
          (if predsOf (h ++ k) a = [] then none else some (Counter.ofList (predsOf (h ++ k) a)))
        else (if predsOf h a = [] then none else some (Counter.ofList (predsOf h a))) := by
    intro rows
    induction rows with
    | nil => intro m done hs _ _ _ hf; exact ⟨hs, by simpa using hf⟩
    | cons q rows ih =>
      intro m done hs hnd hdis hrow hf
      obtain ⟨b, row⟩ := q
      obtain ⟨hr1, hr2⟩ := hrow (b, row) (by simp)
      simp only at hr1 hr2
      have hb : b ∉ done := hdis b (by simp)
      have hfb := hf b
      rw [if_neg hb] at hfb
      have hne : predsOf (h ++ k) b ≠ [] := by
        rw [predsOf_append]; intro e; exact hr2 (List.append_eq_nil_iff.1 e).2
      have hstep : ConfMat.mergeRow m (b, row) =
          OMap.insert m b (Counter.ofList (predsOf (h ++ k) b)) := by
        simp only [ConfMat.mergeRow]
        rw [hfb]
        by_cases hn : predsOf h b = []
        · rw [if_pos hn] at hfb ⊢
          simp only [OMap.emplace, hfb]
          rw [predsOf_append, hn, List.nil_append, hr1]
        · rw [if_neg hn]
          simp only
          congr 1
          have hw := Counter.addAll_spec row (Counter.ofList (predsOf h b)) (Counter.wf_ofList _)
            (by rw [hr1]; exact Counter.wf_ofList _)
          apply Counter.ext hw.1 (Counter.wf_ofList _)
          intro x
          rw [hw.2 x, hr1, Counter.count_ofList, Counter.count_ofList, Counter.count_ofList,
            predsOf_append, List.count_append]
      simp only [List.foldl_cons]
      rw [hstep]
      have hnd' := List.nodup_cons.1 hnd
      obtain ⟨r1, r2⟩ := ih (OMap.insert m b (Counter.ofList (predsOf (h ++ k) b))) (done ++ [b])
        (OMap.sorted_insert hs _ _) hnd'.2
        (by
          intro a ha
          simp only [List.mem_append, List.mem_singleton, not_or]
          refine ⟨hdis a (by simp only [List.map_cons, List.mem_cons]; right; exact ha), ?_⟩
          rintro rfl; exact hnd'.1 ha)
        (fun q hq => hrow q (by simp [hq]))
        (by
          intro a
          rw [OMap.find?_insert]
          by_cases hab : a = b
          · subst hab; rw [if_pos rfl, if_pos (by simp), if_neg hne]
          · rw [if_neg hab, hf a]
            have : a ∈ done ++ [b] ↔ a ∈ done := by simp [hab]
            by_cases had : a ∈ done
            · rw [if_pos had, if_pos (this.2 had)]
            · rw [if_neg had, if_neg (fun h => had (this.1 h))])
      refine ⟨r1, ?_⟩
      intro a
      rw [r2 a]
      simp only [List.append_assoc, List.singleton_append, List.map_cons]
  have hdm := hd.entries
  obtain ⟨r1, r2⟩ := key d.matrix c.matrix [] hc.sorted (OMap.keys_nodup hd.sorted) (by simp)
    (by
      rintro ⟨a, row⟩ hq
      have h1 := OMap.find?_of_mem hd.sorted hq
      rw [hd.rows] at h1
      by_cases hn : predsOf k a = []
      · rw [if_pos hn] at h1; cases h1
      · rw [if_neg hn] at h1; cases h1; exact ⟨rfl, hn⟩)
    (by intro a; simpa using hc.rows a)
  refine ⟨r1, ?_⟩
  intro a
  have := r2 a
  simp only [List.nil_append] at this
  unfold ConfMat.addConfusionMatrix
  simp only
  rw [this]
  by_cases ha : a ∈ d.matrix.map Prod.fst
  · rw [if_pos ha]
  · rw [if_neg ha]
    have hk : predsOf k a = [] := by
      rw [predsOf_eq_nil]
      intro h'
      exact ha ((hd.mem_keys a).2 h')
    rw [predsOf_append, hk, List.append_nil]

/-- **C34.** Merging the matrices of two histories gives exactly the matrix of the
concatenated history (cells, and with them every measure derived from them). -/
theorem C34_pooling (ls ls' : List String) (h k : List (String × String)) :
    (afterHistory ls h).addConfusionMatrix (afterHistory ls' k) = afterHistory ls (h ++ k) := by
  have h1 := (merge_isMatrix (afterHistory_isMatrix ls h) (afterHistory_isMatrix ls' k)).unique
    (afterHistory_isMatrix ls (h ++ k))
  have h2 : ((afterHistory ls h).addConfusionMatrix (afterHistory ls' k)).labels =
      (afterHistory ls (h ++ k)).labels := by
    rw [afterHistory_labels]; exact afterHistory_labels ls h
  cases hx : (afterHistory ls h).addConfusionMatrix (afterHistory ls' k)
  cases hy : afterHistory ls (h ++ k)
  rw [hx, hy] at h1 h2
  simp only at h1 h2
  rw [h1, h2]

/-- **C34.** Cell by cell the merge is the sum, and the accuracy is the pooled accuracy. -/
theorem C34_cells_and_accuracy (ls ls' : List String) (h k : List (String × String)) (a p : String) :
    ((afterHistory ls h).addConfusionMatrix (afterHistory ls' k)).cell a p =
      (afterHistory ls h).cell a p + (afterHistory ls' k).cell a p ∧
    (((afterHistory ls h).addConfusionMatrix (afterHistory ls' k)).getAccuracy : ℝ) =
      (nCorrect h + nCorrect k) / (h.length + k.length) := by
  rw [C34_pooling]
  refine ⟨?_, ?_⟩
  · rw [C33_cells, C33_cells, C33_cells]; simp [nCell]
  · unfold ConfMat.getAccuracy
    obtain ⟨s1, s2, _⟩ := C33_sums ls (h ++ k)
    simp only [div_real]
    rw [s1, s2]
    simp [nCorrect]

example : ((afterHistory ["a", "b"] exHistory).addConfusionMatrix (afterHistory ["c"] [("c", "a")])).cell
    "c" "a" = 1 := by decide +kernel

/-! ## C35 -/

/-- **C35.** Accuracy is the fraction of correct calls. -/
theorem C35_accuracy (ls : List String) (h : List (String × String)) :
    ((afterHistory ls h).getAccuracy : ℝ) = nCorrect h / h.length := by
  unfold ConfMat.getAccuracy
  obtain ⟨s1, s2, _⟩ := C33_sums ls h
  simp only [div_real]
  rw [s1, s2]

/-- **C35.** It lies in `[0, 1]`, is 1 exactly when all calls are correct and 0 exactly when
none is. -/
theorem C35_range (ls : List String) (h : List (String × String)) (hne : h ≠ []) :
    0 ≤ ((afterHistory ls h).getAccuracy : ℝ) ∧ ((afterHistory ls h).getAccuracy : ℝ) ≤ 1 ∧
    (((afterHistory ls h).getAccuracy : ℝ) = 1 ↔ ∀ q ∈ h, q.1 = q.2) ∧
    (((afterHistory ls h).getAccuracy : ℝ) = 0 ↔ ∀ q ∈ h, q.1 ≠ q.2) := by
  rw [C35_accuracy]
  have hl : 0 < h.length := List.length_pos_iff.2 hne
  have hl' : (0 : ℝ) < h.length := by exact_mod_cast hl
  have hle : nCorrect h ≤ h.length := List.countP_le_length
  refine ⟨by positivity, ?_, ?_, ?_⟩
  · rw [div_le_one hl']; exact_mod_cast hle
  · rw [div_eq_one_iff_eq (ne_of_gt hl')]
    rw [Nat.cast_inj, nCorrect, List.countP_eq_length]
    simp
  · rw [div_eq_zero_iff]
    simp only [Nat.cast_eq_zero]
    constructor
    · rintro (h0 | h0)
      · unfold nCorrect at h0
        rw [List.countP_eq_zero] at h0
        simpa using h0
      · omega
    · intro h0
      left
      unfold nCorrect
      rw [List.countP_eq_zero]
      simpa using h0

/-- **C35.** With no classification the code computes `0/0`. -/
theorem C35_empty {F : Type} [Dbl F] (ls : List String) :
    ((afterHistory ls []).getAccuracy : F) = Dbl.zero /. Dbl.zero := rfl

example : ((afterHistory ["a"] []).getAccuracy : XR) = .nan ∧
    ((afterHistory ["a", "b"] exHistory).getAccuracy : XR) = .fin (3 / 4) := by decide +kernel

/-! ## C36, C37 -/

theorem find_row {c : ConfMat} {h : List (String × String)} (hm : IsMatrixOf c.matrix h) (a : String) :
    (0 < nActual h a → OMap.find? c.matrix a = some (Counter.ofList (predsOf h a))) ∧
    (nActual h a = 0 → OMap.find? c.matrix a = none) := by
  have hlen : (predsOf h a).length = nActual h a := by
    simp [predsOf, nActual, List.countP_eq_length_filter]
  constructor
  · intro hpos
    rw [hm.rows, if_neg]
    intro e; rw [e] at hlen; simp at hlen; omega
  · intro h0
    rw [hm.rows, if_pos]
    exact List.length_eq_zero_iff.1 (by omega)

/-- **C36.** Precision and recall of a class that occurs as actual class. -/
theorem C36_precision_recall (ls : List String) (h : List (String × String)) (i : Nat) (c : String)
    (hi : ls[i]? = some c) (hc : 0 < nActual h c) :
    ∃ p r : ℝ, (afterHistory ls h).precision[i]? = some (some p) ∧
      (afterHistory ls h).recall[i]? = some (some r) ∧
      p = nCell h c c / nPredicted h c ∧ r = nCell h c c / nActual h c := by
  have hm := afterHistory_isMatrix ls h
  have hlab := afterHistory_labels ls h
  have hf := (find_row hm c).1 hc
  refine ⟨_, _, ?_, ?_, rfl, rfl⟩
  · unfold ConfMat.precision
    rw [hlab, List.getElem?_map, hi]
    simp only [Option.map_some, hf]
    rw [Counter.count_ofList, count_predsOf, columnSum_real hm]
    simp [nCell]
  · unfold ConfMat.recall
    rw [hlab, List.getElem?_map, hi]
    simp only [Option.map_some, hf]
    rw [Counter.count_ofList, count_predsOf, Counter.sumOfCounts_ofList]
    simp [nCell, predsOf, nActual, List.countP_eq_length_filter]

theorem nCell_le (h : List (String × String)) (c : String) :
    nCell h c c ≤ nActual h c ∧ nCell h c c ≤ nPredicted h c := by
  unfold nCell nActual nPredicted
  rw [countP_pair]
  constructor
  · apply List.countP_mono_left
    intro x _ hx
    simp only [Bool.and_eq_true] at hx; exact hx.1
  · apply List.countP_mono_left
    intro x _ hx
    simp only [Bool.and_eq_true] at hx; exact hx.2

theorem ratio_range (a b : Nat) (h : a ≤ b) (hb : 0 < b) : 0 ≤ (a / b : ℝ) ∧ (a / b : ℝ) ≤ 1 := by
  have hb' : (0 : ℝ) < b := by exact_mod_cast hb
  refine ⟨by positivity, ?_⟩
  rw [div_le_one hb']; exact_mod_cast h

/-- **C36.** The recall reported for a class that occurs as actual class lies in `[0, 1]`, and so
does the precision reported for it when it has been predicted. -/
theorem C36_range (ls : List String) (h : List (String × String)) (i : Nat) (c : String) (hi : ls[i]? = some c)
    (hc : 0 < nActual h c) :
    (∀ r : ℝ, (afterHistory ls h).recall[i]? = some (some r) → 0 ≤ r ∧ r ≤ 1) ∧
    (0 < nPredicted h c → ∀ p : ℝ, (afterHistory ls h).precision[i]? = some (some p) → 0 ≤ p ∧ p ≤ 1) := by
  obtain ⟨h1, h2⟩ := nCell_le h c
  obtain ⟨p, r, hp, hr, ep, er⟩ := C36_precision_recall ls h i c hi hc
  refine ⟨fun r' hr' => ?_, fun hpred p' hp' => ?_⟩
  · rw [hr] at hr'
    cases hr'
    exact er ▸ ratio_range _ _ h1 hc
  · rw [hp] at hp'
    cases hp'
    exact ep ▸ ratio_range _ _ h2 hpred

theorem rangeLoop_ok {α : Type} (f : Nat → Res α) (g : Nat → α) : ∀ (n : Nat),
    (∀ i < n, f i = .ok (g i)) → ∀ r0 : List α,
    (List.range n).foldlM (fun r i => do
      let a ← f i
      (pure (r ++ [a]) : Res (List α))) r0 = .ok (r0 ++ (List.range n).map g) := by
  intro n
  induction n with
  | zero => intro _ r0; simp
  | succ n ih =>
    intro h r0
    rw [List.range_succ, List.foldlM_append, ih (fun i hi => h i (by omega)) r0]
    simp [h n (by omega)]

theorem fMeasure_ok {F : Type} [Dbl F] (c : ConfMat) (p q : Nat → F)
    (h : ∀ i < c.labels.length, ConfMat.slot c.precision i = .ok (p i) ∧ ConfMat.slot c.recall i = .ok (q i)) :
    c.fMeasure = .ok ((List.range c.labels.length).map
      (fun i => (Dbl.ofInt 2 : F) /. ((Dbl.ofInt 1 /. p i) +. (Dbl.ofInt 1 /. q i)))) := by
  unfold ConfMat.fMeasure
  rw [foldlM_ok (g := fun r i => r ++ [(Dbl.ofInt 2 : F) /. ((Dbl.ofInt 1 /. p i) +. (Dbl.ofInt 1 /. q i))])]
  · congr 1
    have : ∀ (is : List Nat) (r : List F), is.foldl (fun r i => r ++
        [(Dbl.ofInt 2 : F) /. ((Dbl.ofInt 1 /. p i) +. (Dbl.ofInt 1 /. q i))]) r = r ++ is.map
        (fun i => (Dbl.ofInt 2 : F) /. ((Dbl.ofInt 1 /. p i) +. (Dbl.ofInt 1 /. q i))) := by
      intro is
      induction is with
      | nil => simp
      | cons i is ih => intro r; simp [ih]
    simpa using this (List.range c.labels.length) []
  · intro i hi s
    obtain ⟨h1, h2⟩ := h i (List.mem_range.1 hi)
    rw [h1, h2]; rfl

/-- **C36.** When every listed class occurs as actual class, the F-measure is `2/(1/P + 1/R)`;
for a class with at least one correct classification this is the harmonic mean
`2PR/(P+R)`. -/
theorem C36_fmeasure (ls : List String) (h : List (String × String))
    (hall : ∀ c ∈ ls, 0 < nActual h c) :
    ∃ f : List ℝ, (afterHistory ls h).fMeasure = .ok f ∧ f.length = ls.length ∧
      ∀ (i : Nat) (c : String), ls[i]? = some c → 0 < nCell h c c →
        ∃ P R : ℝ, P = nCell h c c / nPredicted h c ∧ R = nCell h c c / nActual h c ∧
          f[i]? = some (2 * P * R / (P + R)) := by
  have hlab := afterHistory_labels ls h
  have hpr : ∀ i : Nat, ∃ p r : ℝ, i < ls.length → ConfMat.slot (afterHistory ls h).precision i = .ok p ∧
      ConfMat.slot (afterHistory ls h).recall i = .ok r ∧
      ∀ c, ls[i]? = some c → p = nCell h c c / nPredicted h c ∧ r = nCell h c c / nActual h c := by
    intro i
    by_cases hi : i < ls.length
    · obtain ⟨p, r, h1, h2, h3, h4⟩ := C36_precision_recall ls h i ls[i] (List.getElem?_eq_getElem hi)
        (hall _ (List.getElem_mem hi))
      refine ⟨p, r, fun _ => ⟨?_, ?_, ?_⟩⟩
      · simp [ConfMat.slot, idxR, h1]
      · simp [ConfMat.slot, idxR, h2]
      · intro c hc
        rw [List.getElem?_eq_getElem hi] at hc
        cases hc
        exact ⟨h3, h4⟩
    · exact ⟨0, 0, fun h => absurd h hi⟩
  choose p r hpr using hpr
  refine ⟨_, fMeasure_ok (afterHistory ls h) p r (by
    intro i hi; rw [hlab] at hi; exact ⟨(hpr i hi).1, (hpr i hi).2.1⟩), by simp [hlab], ?_⟩
  intro i c hic hpos
  refine ⟨_, _, rfl, rfl, ?_⟩
  have hi : i < ls.length := (List.getElem?_eq_some_iff.1 hic).1
  obtain ⟨e1, e2⟩ := (hpr i hi).2.2 c hic
  rw [List.getElem?_map, List.getElem?_range (by rw [hlab]; exact hi)]
  simp only [Option.map_some, div_real, add_real, ofInt_real]
  rw [e1, e2]
  obtain ⟨l1, l2⟩ := nCell_le h c
  have p1 : (0 : ℝ) < nCell h c c := by exact_mod_cast hpos
  have p2 : (0 : ℝ) < nActual h c := by exact_mod_cast (by omega : 0 < nActual h c)
  have p3 : (0 : ℝ) < nPredicted h c := by exact_mod_cast (by omega : 0 < nPredicted h c)
  generalize (nCell h c c : ℝ) = x at *
  generalize (nActual h c : ℝ) = y at *
  generalize (nPredicted h c : ℝ) = z at *
  have e3 : ((2 : ℤ) : ℝ) = 2 := by norm_num
  have e4 : ((1 : ℤ) : ℝ) = 1 := by norm_num
  rw [e3, e4]
  have h1 : z + y ≠ 0 := by positivity
  congr 1
  have h2 : 1 / (x / z) + 1 / (x / y) = (z + y) / x := by field_simp
  have h3 : x / z + x / y = x * (z + y) / (z * y) := by field_simp; ring
  rw [h2, h3]
  field_simp

example : 0 < nActual exHistory "a" ∧ 0 < nActual exHistory "b" ∧ nCell exHistory "a" "a" = 2 ∧
    ((afterHistory ["a", "b"] exHistory).fMeasure : Res (List XR)) = .ok [.fin (4 / 5), .fin (2 / 3)] := by
  decide +kernel

/-- **C37 refuted.** For a class label the matrix was created with but that never occurs as
actual class, precision and recall are uninitialised and the two F-measures undefined
behaviour. -/
theorem C37_refuted : ¬ ∀ (ls : List String) (h : List (String × String)),
    (∀ v ∈ ((afterHistory ls h).precision : List (Option XR)), v ≠ none) ∧
    ∃ f : XR, (afterHistory ls h).weightedFMeasure = .ok f := by
  intro hh
  have h1 := (hh ["a", "b"] [("a", "a")]).1 none (by decide)
  exact h1 rfl

/-- **C37.** The same happens through `Model::test` on composite instances: the matrix is
created with the union of the possible labels. -/
theorem C37_reachable : ∃ (predict : Inst XR → Res String) (t : IList XR) (c : ConfMat) (a e : XR),
    modelTest predict t = .ok (.detailed a e c) ∧ (c.weightedFMeasure : Res XR) =
      .error (.ub "uninitialised") :=
  ⟨fun _ => .ok "a", [⟨"a", [], some ["a", "b"]⟩],
    ⟨[("a", [("a", 1)])], ["a", "b"]⟩, .fin 1, .fin 0, by decide +kernel, by decide +kernel⟩

/-- **C37 (partial).** The per-class measures are defined exactly when every label occurs as
actual class. -/
theorem C37_partial {F : Type} [Dbl F] (ls : List String) (h : List (String × String)) :
    ((∀ v ∈ ((afterHistory ls h).precision : List (Option F)), v ≠ none) ↔
      ∀ c ∈ ls, 0 < nActual h c) ∧
    ((∀ v ∈ ((afterHistory ls h).recall : List (Option F)), v ≠ none) ↔
      ∀ c ∈ ls, 0 < nActual h c) ∧
    ((∃ f : List F, (afterHistory ls h).fMeasure = .ok f) ↔ ∀ c ∈ ls, 0 < nActual h c) ∧
    ((∃ f : F, (afterHistory ls h).weightedFMeasure = .ok f) ↔ ∀ c ∈ ls, 0 < nActual h c) := by
  have hm := afterHistory_isMatrix ls h
  have hlab := afterHistory_labels ls h
  have slots : ∀ i : Nat, ∀ c, ls[i]? = some c →
      (0 < nActual h c → ∃ p q : F, ConfMat.slot (afterHistory ls h).precision i = .ok p ∧
        ConfMat.slot (afterHistory ls h).recall i = .ok q) ∧
      (nActual h c = 0 → ConfMat.slot ((afterHistory ls h).precision : List (Option F)) i =
        .error (.ub "uninitialised")) := by
    intro i c hic
    constructor
    · intro hp
      have hf := (find_row hm c).1 hp
      refine ⟨(Dbl.ofNat (Counter.count (Counter.ofList (predsOf h c)) c) : F) /.
          (afterHistory ls h).columnSum c,
        ((Dbl.ofNat (Counter.count (Counter.ofList (predsOf h c)) c) : F) +. Dbl.zero) /.
          Dbl.ofNat (Counter.sumOfCounts (Counter.ofList (predsOf h c))), ?_, ?_⟩
      · unfold ConfMat.slot ConfMat.precision
        simp only [hlab, idxR, List.getElem?_map, hic, Option.map_some, hf]
        rfl
      · unfold ConfMat.slot ConfMat.recall
        simp only [hlab, idxR, List.getElem?_map, hic, Option.map_some, hf]
        rfl
    · intro h0
      have hf := (find_row hm c).2 h0
      unfold ConfMat.slot ConfMat.precision
      simp only [hlab, idxR, List.getElem?_map, hic, Option.map_some, hf]
      rfl
  have hfm : (∃ f : List F, (afterHistory ls h).fMeasure = .ok f) ↔ ∀ c ∈ ls, 0 < nActual h c := by
    constructor
    · rintro ⟨f, hf⟩ c hc
      by_contra hneg
      have h0 : nActual h c = 0 := by omega
      obtain ⟨i, hi, rfl⟩ := List.getElem_of_mem hc
      have hbad := (slots i ls[i] (List.getElem?_eq_getElem hi)).2 h0
      have : ∀ (is : List Nat) (r : List F), i ∈ is → ∀ f, is.foldlM (fun r i => do
          let p ← ConfMat.slot (afterHistory ls h).precision i
          let q ← ConfMat.slot (afterHistory ls h).recall i
          (pure (r ++ [(Dbl.ofInt 2 : F) /. ((Dbl.ofInt 1 /. p) +. (Dbl.ofInt 1 /. q))]) : Res (List F))) r
          ≠ .ok f := by
        intro is
        induction is with
        | nil => intro r hi; simp at hi
        | cons j is ih =>
          intro r hj f hf
          rw [List.foldlM_cons] at hf
          by_cases hji : j = i
          · subst hji; rw [hbad] at hf; cases hf
          · have hj' : i ∈ is := by
              rcases List.mem_cons.1 hj with h | h
              · exact absurd h.symm hji
              · exact h
            cases h1 : ConfMat.slot ((afterHistory ls h).precision : List (Option F)) j with
            | error e => rw [h1] at hf; cases hf
            | ok p =>
              cases h2 : ConfMat.slot ((afterHistory ls h).recall : List (Option F)) j with
              | error e => rw [h1, h2] at hf; cases hf
              | ok q =>
                rw [h1, h2] at hf
                exact ih _ hj' f hf
      exact this _ [] (List.mem_range.2 (by rw [hlab]; exact hi)) f hf
    · intro hall
      have hpr : ∀ i : Nat, ∃ p q : F, i < ls.length →
          ConfMat.slot (afterHistory ls h).precision i = .ok p ∧
          ConfMat.slot (afterHistory ls h).recall i = .ok q := by
        intro i
        by_cases hi : i < ls.length
        · obtain ⟨p, q, h1, h2⟩ := (slots i ls[i] (List.getElem?_eq_getElem hi)).1
            (hall _ (List.getElem_mem hi))
          exact ⟨p, q, fun _ => ⟨h1, h2⟩⟩
        · exact ⟨Dbl.zero, Dbl.zero, fun h => absurd h hi⟩
      choose p q hpq using hpr
      exact ⟨_, fMeasure_ok (afterHistory ls h) p q (by intro i hi; rw [hlab] at hi; exact hpq i hi)⟩
  refine ⟨?_, ?_, hfm, ?_⟩
  · constructor
    · intro hv c hc
      by_contra hneg
      have hf := (find_row hm c).2 (by omega)
      refine hv none ?_ rfl
      unfold ConfMat.precision
      rw [hlab, List.mem_map]
      exact ⟨c, hc, by simp [hf]⟩
    · intro hall v hv
      unfold ConfMat.precision at hv
      rw [hlab, List.mem_map] at hv
      obtain ⟨c, hc, rfl⟩ := hv
      have hf := (find_row hm c).1 (hall c hc)
      simp [hf]
  · constructor
    · intro hv c hc
      by_contra hneg
      have hf := (find_row hm c).2 (by omega)
      refine hv none ?_ rfl
      unfold ConfMat.recall
      rw [hlab, List.mem_map]
      exact ⟨c, hc, by simp [hf]⟩
    · intro hall v hv
      unfold ConfMat.recall at hv
      rw [hlab, List.mem_map] at hv
      obtain ⟨c, hc, rfl⟩ := hv
      have hf := (find_row hm c).1 (hall c hc)
      simp [hf]
  · constructor
    · rintro ⟨f, hf⟩
      apply hfm.1
      unfold ConfMat.weightedFMeasure at hf
      cases h1 : ((afterHistory ls h).fMeasure : Res (List F)) with
      | error e => rw [h1] at hf; cases hf
      | ok r => exact ⟨r, rfl⟩
    · intro hall
      obtain ⟨f, hf⟩ := hfm.2 hall
      have hlen : f.length = ls.length := by
        unfold ConfMat.fMeasure at hf
        have : ∀ (is : List Nat) (r f : List F), is.foldlM (fun r i => do
            let p ← ConfMat.slot (afterHistory ls h).precision i
            let q ← ConfMat.slot (afterHistory ls h).recall i
            (pure (r ++ [(Dbl.ofInt 2 : F) /. ((Dbl.ofInt 1 /. p) +. (Dbl.ofInt 1 /. q))]) : Res (List F))) r
            = .ok f → f.length = r.length + is.length := by
          intro is
          induction is with
          | nil => intro r f hf; cases hf; simp
          | cons j is ih =>
            intro r f hf
            rw [List.foldlM_cons] at hf
            cases h1 : ConfMat.slot ((afterHistory ls h).precision : List (Option F)) j with
            | error e => rw [h1] at hf; cases hf
            | ok p =>
              cases h2 : ConfMat.slot ((afterHistory ls h).recall : List (Option F)) j with
              | error e => rw [h1, h2] at hf; cases hf
              | ok q =>
                rw [h1, h2] at hf
                have := ih _ f hf
                simp only [List.length_append, List.length_cons, List.length_nil] at this ⊢
                omega
        have := this _ _ f hf
        simpa [hlab] using this
      unfold ConfMat.weightedFMeasure
      rw [hf]
      simp only [res_bind_ok]
      have : ∀ (is : List Nat) (s : F), (∀ i ∈ is, i < ls.length) →
          ∃ t : F, is.foldlM ((afterHistory ls h).weightedStep f) s = .ok t := by
        intro is
        induction is with
        | nil => intro s _; exact ⟨s, rfl⟩
        | cons j is ih =>
          intro s hs
          have hj := hs j (by simp)
          have hstep : (afterHistory ls h).weightedStep f s j = .ok (s +. (f[j]'(by omega) *.
              Dbl.ofNat (Counter.sumOfCounts (Counter.ofList (predsOf h ls[j]))))) := by
            unfold ConfMat.weightedStep
            simp only [hlab]
            rw [atR_ok_of_lt hj, idxR_ok_of_lt (by omega : j < f.length)]
            simp only [res_bind_ok]
            rw [(find_row hm ls[j]).1 (hall _ (List.getElem_mem hj))]
            rfl
          rw [List.foldlM_cons, hstep]
          exact ih _ (fun i hi => hs i (by simp [hi]))
      obtain ⟨t, ht⟩ := this (List.range (afterHistory ls h).labels.length) Dbl.zero (by
        intro i hi; rw [List.mem_range, hlab] at hi; exact hi)
      rw [ht]
      exact ⟨_, rfl⟩

end Verif
