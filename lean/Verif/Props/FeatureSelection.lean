import Verif.Model.FeatureSelection
import Verif.Model.DblXR
import Verif.Spec.FeatureSelection
import Verif.Lemmas.Basic
import Mathlib.Data.List.Sublists
import Mathlib.Data.List.Permutation

/-! # Properties C80-C83: feature selection -/

set_option linter.unusedSectionVars false

namespace Verif
open Dbl FeatSel

section
variable {F : Type} [Dbl F]

/-! ## C80: candidates -/

theorem forward_eq (acc : List (List Nat)) (s : List Nat) (n : Nat) :
    forward acc s n = acc ++ ((List.range n).filter (fun i => i ∉ s)).map (fun i => s ++ [i]) := by
  unfold forward
  generalize List.range n = l
  induction l generalizing acc with
  | nil => simp
  | cons i l ih =>
    rw [List.foldl_cons, ih]
    by_cases h : i ∈ s
    · simp [h]
    · simp [h]

theorem backward_eq (acc : List (List Nat)) (s : List Nat) :
    backward acc s = acc ++ (List.range s.length).map (fun i => s.eraseIdx i) := by
  unfold backward
  generalize List.range s.length = l
  induction l generalizing acc with
  | nil => simp
  | cons i l ih => rw [List.foldl_cons, ih]; simp

theorem mem_forward (s t : List Nat) (n : Nat) : t ∈ forward [] s n ↔ ExtendsByOne n s t := by
  rw [forward_eq]
  simp only [List.nil_append, List.mem_map, List.mem_filter, List.mem_range, decide_eq_true_eq]
  constructor
  · rintro ⟨i, ⟨h1, h2⟩, rfl⟩; exact ⟨i, h1, h2, rfl⟩
  · rintro ⟨i, h1, h2, rfl⟩; exact ⟨i, ⟨h1, h2⟩, rfl⟩

theorem mem_backward (s t : List Nat) : t ∈ backward [] s ↔ LacksOne s t := by
  rw [backward_eq]
  simp only [List.nil_append, List.mem_map, List.mem_range]
  constructor
  · rintro ⟨i, hi, rfl⟩
    refine ⟨s.take i, s[i], s.drop (i + 1), ?_, ?_⟩
    · rw [List.getElem_cons_drop, List.take_append_drop]
    · rw [List.eraseIdx_eq_take_drop_succ]
  · rintro ⟨l, i, r, rfl, rfl⟩
    exact ⟨l.length, by simp, by simp [List.eraseIdx_append_of_length_le]⟩

/-- **C80.** The forward operator proposes exactly the extensions by one missing feature, the
backward operator exactly the subsets lacking one position, the floating operator both. -/
theorem C80_candidates (s t : List Nat) (n : Nat) :
    (t ∈ Op.fwd.candidates s n ↔ ExtendsByOne n s t) ∧ (t ∈ Op.bwd.candidates s n ↔ LacksOne s t) ∧
    (t ∈ Op.flt.candidates s n ↔ ExtendsByOne n s t ∨ LacksOne s t) := by
  refine ⟨mem_forward s t n, mem_backward s t, ?_⟩
  show t ∈ backward (forward [] s n) s ↔ _
  rw [← mem_forward, ← mem_backward, backward_eq, backward_eq]
  simp

/-- **C80.** How many candidates there are; none is listed twice by the forward operator. -/
theorem C80_number {s : List Nat} {n : Nat} (h : IsFeatureList n s) :
    (Op.fwd.candidates s n).length = n - s.length ∧ (Op.bwd.candidates s n).length = s.length ∧
    (Op.fwd.candidates s n).Nodup := by
  refine ⟨?_, ?_, ?_⟩
  · show (forward [] s n).length = _
    rw [forward_eq, List.nil_append, List.length_map]
    have h1 : (List.range n).length = ((List.range n).filter (fun i => i ∈ s)).length +
        ((List.range n).filter (fun i => ¬ i ∈ s)).length := by
      have := List.length_eq_length_filter_add (l := List.range n) (fun i => decide (i ∈ s))
      simpa using this
    have h2 : ((List.range n).filter (fun i => i ∈ s)).length = s.length := by
      apply List.Perm.length_eq
      rw [List.perm_ext_iff_of_nodup (List.nodup_range.filter _) h.1]
      intro i
      simp only [List.mem_filter, List.mem_range, decide_eq_true_eq]
      exact ⟨fun hi => hi.2, fun hi => ⟨h.2 i hi, hi⟩⟩
    rw [List.length_range] at h1
    simp only [decide_not] at h1 ⊢
    omega
  · show (backward [] s).length = _
    rw [backward_eq]; simp
  · show (forward [] s n).Nodup
    rw [forward_eq, List.nil_append]
    exact (List.nodup_range.filter _).map (by intro a b hab; simpa using hab)

/-- **C80.** Candidates of a duplicate-free list of features below `n` are such lists again. -/
theorem C80_valid {op : Op} {s t : List Nat} {n : Nat} (hs : IsFeatureList n s)
    (ht : t ∈ op.candidates s n) : IsFeatureList n t := by
  have h1 : ExtendsByOne n s t → IsFeatureList n t := by
    rintro ⟨i, hi, his, rfl⟩
    refine ⟨?_, ?_⟩
    · rw [List.nodup_append]
      refine ⟨hs.1, by simp, ?_⟩
      intro a ha b hb
      rw [List.mem_singleton] at hb
      subst hb; rintro rfl; exact his ha
    · intro j hj
      rw [List.mem_append, List.mem_singleton] at hj
      rcases hj with hj | rfl
      · exact hs.2 j hj
      · exact hi
  have h2 : LacksOne s t → IsFeatureList n t := by
    rintro ⟨l, i, r, rfl, rfl⟩
    have hsub : (l ++ r).Sublist (l ++ i :: r) := List.Sublist.append_left (List.sublist_cons_self i r) l
    exact ⟨hs.1.sublist hsub, fun j hj => hs.2 j (hsub.subset hj)⟩
  obtain ⟨c1, c2, c3⟩ := C80_candidates s t n
  cases op with
  | fwd => exact h1 (c1.1 ht)
  | bwd => exact h2 (c2.1 ht)
  | flt => exact (c3.1 ht).elim h1 h2

theorem full_eq (n : Nat) : full n = List.range n := by
  unfold full
  generalize List.range n = l
  have : ∀ (acc : List Nat), l.foldl (fun l i => l ++ [i]) acc = acc ++ l := by
    induction l with
    | nil => simp
    | cons a l ih => intro acc; rw [List.foldl_cons, ih]; simp
  simpa using this []

/-- **C80.** The initial subsets are valid: nothing, or all features in order. -/
theorem C80_initial (op : Op) (n : Nat) : IsFeatureList n (op.initial n) ∧
    (op.initial n = [] ∨ op.initial n = List.range n) := by
  cases op with
  | fwd => exact ⟨⟨List.nodup_nil, by simp [Op.initial]⟩, .inl rfl⟩
  | flt => exact ⟨⟨List.nodup_nil, by simp [Op.initial]⟩, .inl rfl⟩
  | bwd =>
    rw [Op.initial, full_eq]
    exact ⟨⟨List.nodup_range, by simp⟩, .inr rfl⟩

example : Op.flt.candidates [2, 0] 4 = [[2, 0, 1], [2, 0, 3], [0], [2]] := by decide

/-! ## the search -/

/-- what every state of the search satisfies -/
structure SelInv (n : Nat) (initial : List Nat) (st : St F) : Prop where
  nodup : st.processed.Nodup
  valid : ∀ c ∈ st.processed, IsFeatureList n c
  evaluated : st.evaluated = st.processed.filter (fun c => c ≠ [])
  best_mem : st.best ∈ st.processed
  best_from : st.best = initial ∨ st.best ∈ st.evaluated
  initial_mem : initial ∈ st.processed

theorem measure_spec {run : Runner F} {st st' : St F} {c : List Nat} (h : FeatSel.measure run st c = .ok st') :
    ∃ p b, run st.evaluated c = .ok p ∧ improves p st.bestPerf = .ok b ∧
      st'.processed = st.processed ∧ st'.evaluated = st.evaluated ++ [c] ∧
      (b = true → st'.best = c ∧ st'.bestPerf = some p ∧ st'.betterFound = true) ∧
      (b = false → st'.best = st.best ∧ st'.bestPerf = st.bestPerf ∧ st'.betterFound = st.betterFound) := by
  unfold FeatSel.measure at h
  simp only [bind_ok_iff, res_pure] at h
  obtain ⟨p, hp, b, hb, h⟩ := h
  refine ⟨p, b, hp, hb, ?_⟩
  cases h
  cases b <;> simp

theorem candidateStep_inv {n : Nat} {initial : List Nat} {run : Runner F} {st st' : St F} {c : List Nat}
    (hc : IsFeatureList n c) (hi : SelInv n initial st) (h : candidateStep run st c = .ok st') :
    SelInv n initial st' ∧ st.processed <+: st'.processed ∧ c ∈ st'.processed ∧
    (st'.betterFound = true → st.betterFound = true ∨ st.processed.length < st'.processed.length) ∧
    (st'.betterFound = false → st'.best = st.best ∧ st.betterFound = false) := by
  unfold candidateStep at h
  by_cases hmem : c ∈ st.processed
  · rw [if_pos hmem] at h
    cases h
    exact ⟨hi, List.prefix_refl _, hmem, fun h => .inl h, fun h => ⟨rfl, h⟩⟩
  · rw [if_neg hmem, bind_ok_iff] at h
    obtain ⟨s1, h1, h⟩ := h
    cases h
    unfold measureNonEmpty at h1
    have hnd : (st.processed ++ [c]).Nodup := by
      rw [List.nodup_append]
      refine ⟨hi.nodup, by simp, ?_⟩
      intro a ha b hb
      rw [List.mem_singleton] at hb
      subst hb; rintro rfl; exact hmem ha
    have hval : ∀ x ∈ st.processed ++ [c], IsFeatureList n x := by
      intro x hx
      rw [List.mem_append, List.mem_singleton] at hx
      rcases hx with hx | rfl
      · exact hi.valid x hx
      · exact hc
    by_cases hl : 0 < c.length
    · rw [if_pos hl] at h1
      obtain ⟨p, b, _, _, hp, he, ht, hf⟩ := measure_spec h1
      have hcne : c ≠ [] := by rintro rfl; simp at hl
      refine ⟨⟨?_, ?_, ?_, ?_, ?_, by simp [hp, hi.initial_mem]⟩, ?_, ?_, ?_, ?_⟩
      · simpa [hp] using hnd
      · simpa [hp] using hval
      · simp only [hp, he, hi.evaluated, List.filter_append]
        simp [hcne]
      · simp only [hp]
        cases b with
        | true => rw [(ht rfl).1]; simp
        | false => rw [(hf rfl).1]; simp [hi.best_mem]
      · simp only [he]
        cases b with
        | true => rw [(ht rfl).1]; simp
        | false => rw [(hf rfl).1]; rcases hi.best_from with h | h <;> simp [h]
      · simp [hp]
      · simp [hp]
      · intro _; right; simp [hp]
      · intro hb
        cases b with
        | true => rw [show ({ s1 with processed := s1.processed ++ [c] } : St F).betterFound = s1.betterFound from rfl, (ht rfl).2.2] at hb; cases hb
        | false =>
          obtain ⟨e1, _, e3⟩ := hf rfl
          exact ⟨e1, by rw [← e3]; exact hb⟩
    · rw [if_neg hl] at h1
      cases h1
      have hcn : c = [] := by simpa using hl
      refine ⟨⟨hnd, hval, ?_, ?_, ?_, by simp [hi.initial_mem]⟩, ?_, ?_, ?_, ?_⟩
      · simp only [hi.evaluated, List.filter_append, hcn]; simp
      · simp [hi.best_mem]
      · exact hi.best_from
      · simp
      · simp
      · intro hb; exact .inl hb
      · intro hb; exact ⟨rfl, hb⟩

theorem candidates_inv {n : Nat} {initial : List Nat} {run : Runner F} (cs : List (List Nat))
    (hcs : ∀ c ∈ cs, IsFeatureList n c) : ∀ {st st' : St F}, SelInv n initial st →
    cs.foldlM (candidateStep run) st = .ok st' →
    SelInv n initial st' ∧ st.processed <+: st'.processed ∧ (∀ c ∈ cs, c ∈ st'.processed) ∧
    (st'.betterFound = true → st.betterFound = true ∨ st.processed.length < st'.processed.length) ∧
    (st'.betterFound = false → st'.best = st.best ∧ st.betterFound = false) := by
  induction cs with
  | nil =>
    intro st st' hi h
    cases h
    exact ⟨hi, List.prefix_refl _, by simp, fun h => .inl h, fun h => ⟨rfl, h⟩⟩
  | cons c cs ih =>
    intro st st' hi h
    rw [List.foldlM_cons, bind_ok_iff] at h
    obtain ⟨s1, h1, h⟩ := h
    obtain ⟨i1, p1, m1, t1, f1⟩ := candidateStep_inv (hcs c (by simp)) hi h1
    obtain ⟨i2, p2, m2, t2, f2⟩ := ih (fun c hc => hcs c (by simp [hc])) i1 h
    refine ⟨i2, p1.trans p2, ?_, ?_, ?_⟩
    · intro x hx
      rcases List.mem_cons.1 hx with rfl | hx
      · exact p2.subset m1
      · exact m2 x hx
    · intro hb
      rcases t2 hb with h' | h'
      · rcases t1 h' with h'' | h''
        · exact .inl h''
        · exact .inr (lt_of_lt_of_le h'' p2.length_le)
      · exact .inr (lt_of_le_of_lt p1.length_le h')
    · intro hb
      obtain ⟨e1, e2⟩ := f2 hb
      obtain ⟨e3, e4⟩ := f1 e2
      exact ⟨e1.trans e3, e4⟩

theorem round_inv {op : Op} {n : Nat} {initial : List Nat} {run : Runner F} {st st' : St F}
    (hi : SelInv n initial st) (h : FeatSel.round op n run st = .ok st') :
    SelInv n initial st' ∧ (∀ c ∈ op.candidates st.best n, c ∈ st'.processed) ∧
    (st'.betterFound = true → st.processed.length < st'.processed.length) ∧
    (st'.betterFound = false → st'.best = st.best) := by
  unfold FeatSel.round at h
  have hi' : SelInv n initial { st with betterFound := false } := ⟨hi.1, hi.2, hi.3, hi.4, hi.5, hi.6⟩
  obtain ⟨i2, p2, m2, t2, f2⟩ := candidates_inv _ (fun c hc => C80_valid (hi.valid _ hi.best_mem) hc) hi' h
  refine ⟨i2, m2, ?_, fun hb => (f2 hb).1⟩
  intro hb
  rcases t2 hb with h' | h'
  · cases h'
  · exact h'

theorem start_inv {n : Nat} {initial : List Nat} (hinit : IsFeatureList n initial) {run : Runner F}
    {st : St F} (h : start run initial = .ok st) :
    SelInv n initial st ∧ st.betterFound = true ∧ st.best = initial := by
  unfold start at h
  split at h
  · rename_i hl
    have hne : initial ≠ [] := by rintro rfl; simp at hl
    rw [bind_ok_iff] at h
    obtain ⟨p, _, h⟩ := h
    cases h
    exact ⟨⟨by simp, by simpa using hinit, by simp [hne], by simp, by simp, by simp⟩, rfl, rfl⟩
  · rename_i hl
    have hne : initial = [] := by simpa using hl
    cases h
    exact ⟨⟨by simp, by simpa using hinit, by simp [hne], by simp, .inl rfl, by simp⟩, rfl, rfl⟩

/-- all duplicate-free lists of features below `n` -/
def allSubsets (n : Nat) : List (List Nat) := (List.range n).sublists.flatMap List.permutations

theorem mem_allSubsets {n : Nat} {s : List Nat} (h : IsFeatureList n s) : s ∈ allSubsets n := by
  unfold allSubsets
  rw [List.mem_flatMap]
  refine ⟨(List.range n).filter (fun i => i ∈ s), List.mem_sublists.2 List.filter_sublist, ?_⟩
  rw [List.mem_permutations, List.perm_ext_iff_of_nodup h.1 (List.nodup_range.filter _)]
  intro i
  simp only [List.mem_filter, List.mem_range, decide_eq_true_eq]
  exact ⟨fun hi => ⟨h.2 i hi, hi⟩, fun hi => hi.2⟩

theorem processed_length_le {n : Nat} {initial : List Nat} {st : St F} (hi : SelInv n initial st) :
    st.processed.length ≤ (allSubsets n).length :=
  (List.subperm_of_subset hi.nodup (fun c hc => mem_allSubsets (hi.valid c hc))).length_le

theorem loop_terminates {op : Op} {n : Nat} {initial : List Nat} {run : Runner F} :
    ∀ (k fuel : Nat) (st : St F), SelInv n initial st → (allSubsets n).length - st.processed.length ≤ k →
    k + 2 ≤ fuel → loop op n run fuel st ≠ none := by
  intro k
  induction k with
  | zero =>
    intro fuel st hi hk hf
    obtain ⟨fuel, rfl⟩ : ∃ m, fuel = m + 2 := ⟨fuel - 2, by omega⟩
    rw [loop]
    split
    · split
      · rename_i st' hr
        obtain ⟨hi', _, ht, _⟩ := round_inv hi hr
        have hle := processed_length_le hi'
        have hbf : st'.betterFound = false := by
          cases hb : st'.betterFound with
          | false => rfl
          | true => have := ht hb; omega
        rw [loop]; simp [hbf]
      · simp
    · simp
  | succ k ih =>
    intro fuel st hi hk hf
    obtain ⟨fuel, rfl⟩ : ∃ m, fuel = m + 1 := ⟨fuel - 1, by omega⟩
    rw [loop]
    split
    · split
      · rename_i st' hr
        obtain ⟨hi', _, ht, _⟩ := round_inv hi hr
        cases hb : st'.betterFound with
        | false =>
          obtain ⟨fuel, rfl⟩ : ∃ m, fuel = m + 1 := ⟨fuel - 1, by omega⟩
          rw [loop]; simp [hb]
        | true =>
          have := ht hb
          exact ih fuel st' hi' (by omega) (by omega)
      · simp
    · simp

/-- **C81.** Whatever the measurements return (also when they differ from call to call, or throw),
the search ends: some number of rounds is always enough. -/
theorem C81_terminates (op : Op) {n : Nat} {initial : List Nat} (hinit : IsFeatureList n initial) :
    ∃ bound, ∀ (run : Runner F) (fuel : Nat), bound ≤ fuel → execute op initial n run fuel ≠ none := by
  refine ⟨(allSubsets n).length + 2, ?_⟩
  intro run fuel hf
  unfold execute
  split
  · rename_i st hs
    exact loop_terminates (allSubsets n).length fuel st (start_inv hinit hs).1 (by omega) hf
  · simp

theorem loop_inv {op : Op} {n : Nat} {initial : List Nat} {run : Runner F} :
    ∀ (fuel : Nat) (st st' : St F), SelInv n initial st →
    (st.betterFound = true ∨ ∀ c ∈ op.candidates st.best n, c ∈ st.processed) →
    loop op n run fuel st = some (.ok st') →
    SelInv n initial st' ∧ st'.betterFound = false ∧ ∀ c ∈ op.candidates st'.best n, c ∈ st'.processed := by
  intro fuel
  induction fuel with
  | zero => intro st st' _ _ h; rw [loop] at h; cases h
  | succ fuel ih =>
    intro st st' hi hbf h
    rw [loop] at h
    cases hb : st.betterFound with
    | false =>
      rw [hb] at h
      simp only [Bool.false_eq_true, if_false, Option.some.injEq, Except.ok.injEq] at h
      subst h
      rcases hbf with h' | h'
      · rw [hb] at h'; cases h'
      · exact ⟨hi, hb, h'⟩
    | true =>
      rw [hb] at h
      simp only [if_true] at h
      cases hr : FeatSel.round op n run st with
      | error e => rw [hr] at h; simp at h
      | ok s1 =>
        rw [hr] at h
        obtain ⟨i1, m1, _, f1⟩ := round_inv hi hr
        refine ih s1 st' i1 ?_ h
        cases hb1 : s1.betterFound with
        | true => exact .inl rfl
        | false => right; rw [f1 hb1]; exact m1

/-- **C83.** No subset is measured twice, and the empty one never is; every candidate of the
result has been processed. -/
theorem C83_no_repetition {op : Op} {n : Nat} {initial : List Nat} (hinit : IsFeatureList n initial)
    {run : Runner F} {fuel : Nat} {st : St F} (h : execute op initial n run fuel = some (.ok st)) :
    st.evaluated.Nodup ∧ [] ∉ st.evaluated ∧ (∀ c ∈ st.evaluated, IsFeatureList n c) ∧
    (∀ c ∈ op.candidates st.best n, c ≠ [] → c ∈ st.evaluated) := by
  unfold execute at h
  cases hs : start run initial with
  | error e => rw [hs] at h; simp at h
  | ok s0 =>
    rw [hs] at h
    obtain ⟨i0, b0, _⟩ := start_inv hinit hs
    obtain ⟨hi, _, hc⟩ := loop_inv fuel s0 st i0 (.inl b0) h
    refine ⟨?_, ?_, ?_, ?_⟩
    · rw [hi.evaluated]; exact hi.nodup.filter _
    · rw [hi.evaluated]; simp
    · rw [hi.evaluated]; intro c hc; exact hi.valid c (List.mem_of_mem_filter hc)
    · intro c hmem hne
      rw [hi.evaluated, List.mem_filter]
      exact ⟨hc c hmem, by simpa using hne⟩

end

/-! ## C82: local optimality -/

section
variable {F : Type} [Dbl F] [LawfulOrd F]

theorem hasAccuracy_isBetter {p q : ExpPerf F} {a b : F} (hp : HasAccuracy p a) (hq : HasAccuracy q b) :
    p.isBetter q = .ok (b <. a) := by
  obtain ⟨x, hx, hxa⟩ := hp
  obtain ⟨y, hy, hyb⟩ := hq
  unfold ExpPerf.isBetter
  rw [hx]
  simp only [res_bind_ok, hxa, hy, hyb, res_pure]

/-- what holds of the best subset so far when the measurement is a function `acc` of the subset -/
structure SelBestInv (acc : List Nat → F) (st : St F) : Prop where
  none : st.bestPerf = none → ∀ c ∈ st.processed, c = []
  some : ∀ q, st.bestPerf = some q → HasAccuracy q (acc st.best) ∧
    ∀ c ∈ st.processed, c ≠ [] → (acc c <=. acc st.best) = true

theorem SelInv.history {n : Nat} {initial : List Nat} {st : St F} (hi : SelInv n initial st) :
    ∀ c ∈ st.evaluated, c ≠ [] ∧ IsFeatureList n c := by
  intro c hc
  rw [hi.evaluated, List.mem_filter] at hc
  exact ⟨by simpa using hc.2, hi.valid c hc.1⟩

theorem candidateStep_best {n : Nat} {initial : List Nat} {acc : List Nat → F} (hord : ∀ s, Dbl.Ord (acc s)) {run : Runner F}
    (hrun : ∀ h s, (∀ c ∈ h, c ≠ [] ∧ IsFeatureList n c) → s ≠ [] → IsFeatureList n s →
      ∃ e, run h s = .ok e ∧ HasAccuracy e (acc s)) {st : St F} (c : List Nat)
    (hc : IsFeatureList n c) (hv : SelInv n initial st) (hi : SelBestInv acc st) : ∃ st', candidateStep run st c = .ok st' ∧ SelBestInv acc st' := by
  unfold candidateStep
  by_cases hmem : c ∈ st.processed
  · rw [if_pos hmem]; exact ⟨st, rfl, hi⟩
  · rw [if_neg hmem, measureNonEmpty]
    by_cases hl : 0 < c.length
    · have hcne : c ≠ [] := by rintro rfl; simp at hl
      obtain ⟨e, he, hacc⟩ := hrun st.evaluated c hv.history hcne hc
      rw [if_pos hl]
      unfold FeatSel.measure
      rw [he]
      simp only [res_bind_ok]
      cases hb : st.bestPerf with
      | none =>
        refine ⟨_, rfl, ⟨by (intro h; cases h), ?_⟩⟩
        intro q hq
        cases hq
        refine ⟨hacc, ?_⟩
        intro x hx hxne
        simp only [List.mem_append, List.mem_singleton] at hx
        rcases hx with hx | rfl
        · exact absurd (hi.none hb x hx) hxne
        · exact hord x
      | some q =>
        obtain ⟨hqa, hall⟩ := hi.some q hb
        simp only [improves, hasAccuracy_isBetter hacc hqa, res_bind_ok, res_pure]
        refine ⟨_, rfl, ?_⟩
        by_cases hlt : (acc st.best <. acc c) = true
        · simp only [hlt, if_true]
          refine ⟨by (intro h; cases h), ?_⟩
          intro q' hq'
          cases hq'
          refine ⟨hacc, ?_⟩
          intro x hx hxne
          simp only [List.mem_append, List.mem_singleton] at hx
          rcases hx with hx | rfl
          · exact LawfulOrd.le_trans _ _ _ (hall x hx hxne) ((LawfulOrd.lt_iff _ _).1 hlt).1
          · exact hord x
        · rw [Bool.not_eq_true] at hlt
          simp only [hlt, Bool.false_eq_true, if_false]
          refine ⟨by (intro h; cases h), ?_⟩
          intro q' hq'
          cases hq'
          refine ⟨hqa, ?_⟩
          intro x hx hxne
          simp only [List.mem_append, List.mem_singleton] at hx
          rcases hx with hx | rfl
          · exact hall x hx hxne
          · exact (not_lt_iff_le (hord x) (hord st.best)).1 hlt
    · have hcn : c = [] := by simpa using hl
      rw [if_neg hl]
      refine ⟨_, rfl, ⟨?_, ?_⟩⟩
      · intro hb x hx
        simp only [List.mem_append, List.mem_singleton] at hx
        rcases hx with hx | rfl
        · exact hi.none hb x hx
        · exact hcn
      · intro q hq
        obtain ⟨h1, h2⟩ := hi.some q hq
        refine ⟨h1, ?_⟩
        intro x hx hxne
        simp only [List.mem_append, List.mem_singleton] at hx
        rcases hx with hx | rfl
        · exact h2 x hx hxne
        · exact absurd hcn hxne

theorem round_best {op : Op} {n : Nat} {initial : List Nat} {acc : List Nat → F} (hord : ∀ s, Dbl.Ord (acc s)) {run : Runner F}
    (hrun : ∀ h s, (∀ c ∈ h, c ≠ [] ∧ IsFeatureList n c) → s ≠ [] → IsFeatureList n s →
      ∃ e, run h s = .ok e ∧ HasAccuracy e (acc s)) {st : St F}
    (hv : SelInv n initial st) (hi : SelBestInv acc st) : ∃ st', FeatSel.round op n run st = .ok st' ∧ SelBestInv acc st' := by
  unfold FeatSel.round
  have hi' : SelBestInv acc { st with betterFound := false } := ⟨hi.1, hi.2⟩
  have hv' : SelInv n initial { st with betterFound := false } := ⟨hv.1, hv.2, hv.3, hv.4, hv.5, hv.6⟩
  have hcs : ∀ c ∈ op.candidates st.best n, IsFeatureList n c := fun c hc => C80_valid (hv.valid _ hv.best_mem) hc
  revert hi' hv' hcs
  generalize ({ st with betterFound := false } : St F) = s0
  generalize op.candidates st.best n = cs
  intro hi' hv' hcs
  induction cs generalizing s0 with
  | nil => exact ⟨s0, rfl, hi'⟩
  | cons c cs ih =>
    obtain ⟨s1, h1, i1⟩ := candidateStep_best hord hrun c (hcs c (by simp)) hv' hi'
    obtain ⟨s2, h2, i2⟩ := ih s1 i1 (candidateStep_inv (hcs c (by simp)) hv' h1).1 (fun c hc => hcs c (by simp [hc]))
    exact ⟨s2, by rw [List.foldlM_cons, h1]; exact h2, i2⟩

theorem loop_best {op : Op} {n : Nat} {initial : List Nat} {acc : List Nat → F} (hord : ∀ s, Dbl.Ord (acc s)) {run : Runner F}
    (hrun : ∀ h s, (∀ c ∈ h, c ≠ [] ∧ IsFeatureList n c) → s ≠ [] → IsFeatureList n s →
      ∃ e, run h s = .ok e ∧ HasAccuracy e (acc s)) :
    ∀ (fuel : Nat) (st : St F) (r : Res (St F)), SelInv n initial st → SelBestInv acc st → loop op n run fuel st = some r →
    ∃ st', r = .ok st' ∧ SelBestInv acc st' := by
  intro fuel
  induction fuel with
  | zero => intro st r _ _ h; rw [loop] at h; cases h
  | succ fuel ih =>
    intro st r hv hi h
    rw [loop] at h
    split at h
    · obtain ⟨s1, h1, i1⟩ := round_best (op := op) (n := n) hord hrun hv hi
      rw [h1] at h
      exact ih s1 r (round_inv hv h1).1 i1 h
    · cases h
      exact ⟨st, rfl, hi⟩

/-- **C82.** When measuring a non-empty duplicate-free list of features succeeds after other
such measurements, and the accuracy depends on the subset only, the search succeeds; the result is the initial subset or one that was measured, is at least as accurate as
the initial one (if not empty) and every subset measured, and none of its (non-empty) single-step candidates is more accurate. -/
theorem C82_local_optimum (op : Op) {n : Nat} {initial : List Nat} (hinit : IsFeatureList n initial)
    {acc : List Nat → F} (hord : ∀ s, Dbl.Ord (acc s)) {run : Runner F}
    (hrun : ∀ h s, (∀ c ∈ h, c ≠ [] ∧ IsFeatureList n c) → s ≠ [] → IsFeatureList n s →
      ∃ e, run h s = .ok e ∧ HasAccuracy e (acc s)) :
    ∃ fuel st, execute op initial n run fuel = some (.ok st) ∧
      (st.best = initial ∨ st.best ∈ st.evaluated) ∧
      (initial ≠ [] → (acc initial <=. acc st.best) = true) ∧
      (∀ c ∈ st.evaluated, (acc c <=. acc st.best) = true) ∧
      (∀ c ∈ op.candidates st.best n, c ≠ [] → (acc c <=. acc st.best) = true) := by
  obtain ⟨bound, hb⟩ := C81_terminates (F := F) op hinit
  have hne := hb run bound (le_refl _)
  have hstart : ∃ s0, start run initial = .ok s0 ∧ SelBestInv acc s0 := by
    unfold start
    by_cases hl : 0 < initial.length
    · have hine : initial ≠ [] := by rintro rfl; simp at hl
      obtain ⟨e, he, hacc⟩ := hrun [] initial (by simp) hine hinit
      rw [if_pos hl, he]
      refine ⟨_, rfl, ⟨by (intro h; cases h), ?_⟩⟩
      intro q hq
      cases hq
      refine ⟨hacc, ?_⟩
      intro c hc _
      rw [List.mem_singleton.1 hc]; exact hord _
    · have hin : initial = [] := by simpa using hl
      rw [if_neg hl]
      exact ⟨_, rfl, ⟨by (intro _ c hc; rw [List.mem_singleton.1 hc]; exact hin), by (intro q hq; cases hq)⟩⟩
  obtain ⟨s0, hs0, hb0⟩ := hstart
  obtain ⟨i0, bf0, _⟩ := start_inv hinit hs0
  have hex : execute op initial n run bound = loop op n run bound s0 := by unfold execute; rw [hs0]
  rw [hex] at hne
  obtain ⟨r, hr⟩ := Option.ne_none_iff_exists'.1 hne
  obtain ⟨st, rfl, hbest⟩ := loop_best hord hrun bound s0 r i0 hb0 hr
  obtain ⟨hi, _, hc⟩ := loop_inv bound s0 st i0 (.inl bf0) hr
  have key : ∀ c ∈ st.processed, c ≠ [] → (acc c <=. acc st.best) = true := by
    intro c hc hcne
    cases hp : st.bestPerf with
    | none => exact absurd (hbest.none hp c hc) hcne
    | some q => exact (hbest.some q hp).2 c hc hcne
  refine ⟨bound, st, by rw [hex]; exact hr, hi.best_from, key _ hi.initial_mem, ?_, ?_⟩
  · intro c hcm
    rw [hi.evaluated, List.mem_filter] at hcm
    exact key c hcm.1 (by simpa using hcm.2)
  · intro c hcm hcne
    exact key c (hc c hcm) hcne

end

/-- a measurement: accuracy 1/(1 + distance of the subset size from 2) over the extended rationals -/
def sizeRunner : Runner XR := fun _ s =>
  .ok ⟨[.classification (.fin (if s.length = 2 then 1 else 1 / 2)) (.fin 0)], false, true⟩

/-- forward selection finds a subset of size 2 after measuring all singletons -/
example : (execute .fwd [] 3 sizeRunner 10).map (fun r => (r.toOption.map (fun st => (st.best, st.evaluated)))) =
    some (some ([0, 1], [[0], [1], [2], [0, 1], [0, 2], [0, 1, 2]])) := by decide +kernel

/-- and it satisfies the hypothesis of C82 -/
example : ∀ h s, s ≠ [] → ∃ e, sizeRunner h s = .ok e ∧
    HasAccuracy e (XR.fin ((0 + if s.length = 2 then 1 else 1 / 2) / 1)) := by
  intro h s _
  refine ⟨_, rfl, _, rfl, ?_⟩
  split <;> decide +kernel

end Verif
