import Verif.Lemmas.Basic
import Verif.Props.Performance
import Verif.Spec.Entropy

/-! # Removing from and adding to distributions; entropy of a distribution -/

namespace Verif
open Dbl

namespace DD

theorem sum_of_counts {d : DD} {l : List String} (hm : Counter.WF d.m)
    (hc : ∀ k, d.getCount k = l.count k) (hs : d.sum = l.length) : d = ofList l := by
  have hmeq : d.m = (ofList l).m :=
    Counter.ext hm (wf_ofList l).m (fun k => by
      have := hc k; have h2 := getCount_ofList l k
      unfold getCount at this h2; rw [this, h2])
  have : d.sum = (ofList l).sum := by rw [hs, sum_ofList]
  cases d; cases h : ofList l; simp_all

theorem wf_erase {m : Counter} (h : Counter.WF m) (k : String) : Counter.WF (OMap.erase m k) := by
  refine ⟨OMap.sorted_erase h.sorted k, ?_⟩
  intro k' v hv
  rw [OMap.find?_erase] at hv
  by_cases hk : k' = k
  · simp [hk] at hv
  · simp [hk] at hv; exact h.pos k' v hv

theorem count_erase (m : Counter) (k k' : String) :
    Counter.count (OMap.erase m k) k' = if k' = k then 0 else Counter.count m k' := by
  unfold Counter.count
  rw [OMap.find?_erase]
  by_cases hk : k' = k <;> simp [hk]

theorem wf_insert {m : Counter} (h : Counter.WF m) (k : String) {n : Nat} (hn : 0 < n) :
    Counter.WF (OMap.insert m k n) := by
  refine ⟨OMap.sorted_insert h.sorted _ _, ?_⟩
  intro k' v hv
  rw [OMap.find?_insert] at hv
  by_cases hk : k' = k
  · simp [hk] at hv; omega
  · simp [hk] at hv; exact h.pos k' v hv

theorem count_insert (m : Counter) (k : String) (n : Nat) (k' : String) :
    Counter.count (OMap.insert m k n) k' = if k' = k then n else Counter.count m k' := by
  unfold Counter.count
  rw [OMap.find?_insert]
  by_cases hk : k' = k <;> simp [hk]

theorem removeItem_ofList {l l' : List String} {a : String} (h : l.Perm (a :: l')) :
    (ofList l).removeItem a = ofList l' := by
  have hlen := h.length_eq
  simp only [List.length_cons] at hlen
  have hca : Counter.count (ofList l).m a = l'.count a + 1 := by
    have := getCount_ofList l a
    unfold getCount at this
    rw [this, h.count_eq]; simp
  unfold removeItem
  simp only
  split
  · apply sum_of_counts
    · exact wf_erase (wf_ofList l).m a
    · intro k
      simp only [getCount, count_erase]
      have h1 := getCount_ofList l k
      unfold getCount at h1
      rw [h1, h.count_eq]
      by_cases hk : k = a
      · subst hk; simp; omega
      · rw [List.count_cons_of_ne (fun e => hk e.symm)]; simp [hk]
    · simp [sum_ofList, hlen]
  · apply sum_of_counts
    · exact wf_insert (wf_ofList l).m a (by omega)
    · intro k
      simp only [getCount, count_insert]
      have h1 := getCount_ofList l k
      unfold getCount at h1
      rw [h1, h.count_eq]
      by_cases hk : k = a
      · subst hk; simp [hca]
      · rw [List.count_cons_of_ne (fun e => hk e.symm)]; simp [hk]
    · simp [sum_ofList, hlen]

theorem removeAll_spec : ∀ (e : Counter), OMap.Sorted e → ∀ m : Counter, Counter.WF m →
    let r := e.foldl (fun m p =>
      if Counter.count m p.1 - p.2 ≠ 0 then OMap.insert m p.1 (Counter.count m p.1 - p.2)
      else OMap.erase m p.1) m
    Counter.WF r ∧ ∀ k, Counter.count r k = Counter.count m k - Counter.count e k := by
  intro e
  induction e with
  | nil => intro _ m hm; exact ⟨hm, fun k => by simp⟩
  | cons p e ih =>
    intro hs m hm
    obtain ⟨a, v⟩ := p
    have hs' : OMap.Sorted e := by
      unfold OMap.Sorted OMap.keys at hs ⊢
      simp only [List.map_cons] at hs
      exact hs.of_cons
    have hae : Counter.count e a = 0 := by
      have : OMap.find? e a = none := by
        rw [OMap.find?_eq_none_iff]
        intro hmem
        unfold OMap.Sorted OMap.keys at hs
        simp only [List.map_cons, List.pairwise_cons] at hs
        exact absurd (hs.1 a hmem) (lt_irrefl a)
      simp [Counter.count, this]
    simp only [List.foldl_cons]
    have hw : Counter.WF (if Counter.count m a - v ≠ 0 then OMap.insert m a (Counter.count m a - v)
        else OMap.erase m a) := by
      split
      · exact wf_insert hm a (by omega)
      · exact wf_erase hm a
    obtain ⟨h1, h2⟩ := ih hs' _ hw
    refine ⟨h1, fun k => ?_⟩
    rw [h2 k]
    have hck : Counter.count ((a, v) :: e) k = if k = a then v else Counter.count e k := by
      unfold Counter.count
      rw [OMap.find?_cons]
      by_cases hk : k = a
      · subst hk; simp
      · simp [hk]
    rw [hck]
    by_cases hk : k = a
    · subst hk
      simp only [hae, if_true]
      split
      · rw [count_insert]; simp
      · rw [count_erase]; simp; omega
    · simp only [hk, if_false]
      split
      · rw [count_insert]; simp [hk]
      · rw [count_erase]; simp [hk]

theorem removeDistribution_ofList {l s r : List String} (h : l.Perm (s ++ r)) :
    (ofList l).removeDistribution (ofList s) = ofList r := by
  obtain ⟨h1, h2⟩ := removeAll_spec (ofList s).m (wf_ofList s).m.sorted (ofList l).m (wf_ofList l).m
  apply sum_of_counts
  · exact h1
  · intro k
    unfold getCount removeDistribution
    simp only
    rw [h2 k]
    have e1 := getCount_ofList l k
    have e2 := getCount_ofList s k
    unfold getCount at e1 e2
    rw [e1, e2, h.count_eq, List.count_append]; omega
  · have := h.length_eq
    simp only [List.length_append] at this
    simp [removeDistribution, sum_ofList, this]

theorem addDistribution_ofList {l s r : List String} (h : l.Perm (s ++ r)) :
    (ofList r).addDistribution (ofList s) = ofList l := by
  obtain ⟨h1, h2⟩ := Counter.addAll_spec (ofList s).m (ofList r).m (wf_ofList r).m (wf_ofList s).m
  apply sum_of_counts
  · exact h1
  · intro k
    unfold getCount addDistribution
    simp only
    rw [h2 k]
    have e1 := getCount_ofList r k
    have e2 := getCount_ofList s k
    unfold getCount at e1 e2
    rw [e1, e2, h.count_eq, List.count_append]; omega
  · have := h.length_eq
    simp only [List.length_append] at this
    simp [addDistribution, sum_ofList, this]; omega

theorem addItem_ofList {l l' : List String} {a : String} (h : l'.Perm (a :: l)) :
    (ofList l).addItem a = ofList l' := by
  rw [ofList_perm (h.trans (List.perm_append_singleton a l).symm)]
  simp [ofList]

/-- the entropy of a distribution is the Shannon entropy of the counted labels -/
theorem entropy_ofList (l : List String) : ((ofList l).entropy : ℝ) = shannon l := by
  have hsum : ∀ (m : List (String × Nat)) (n : ℝ) (s : ℝ),
      m.foldl (fun (s : ℝ) p =>
        let pr : ℝ := (Dbl.ofNat p.2 : ℝ) /. n
        s -. (pr *. Dbl.log pr) /. Dbl.log (Dbl.ofInt 2 : ℝ)) s =
      s + (m.map (fun p => -((p.2 : ℝ) / n * Real.logb 2 ((p.2 : ℝ) / n)))).sum := by
    intro m n
    induction m with
    | nil => intro s; simp
    | cons p m ih =>
      intro s
      simp only [List.foldl_cons, List.map_cons, List.sum_cons]
      rw [ih]
      simp only [sub_real, mul_real, div_real, log_real, ofInt_real, ofNat_real, Real.logb]
      push_cast
      ring
  unfold entropy
  rw [hsum]
  simp only [zero_real, zero_add, sum_ofList, ofNat_real]
  unfold shannon
  have hkeys : (OMap.keys (ofList l).m).toFinset = l.toFinset := by
    ext k
    have := (counts_ofList l).mem_items k
    simpa [getItems] using this
  have hnd : (OMap.keys (ofList l).m).Nodup :=
    List.Pairwise.imp (fun h => ne_of_lt h) (wf_ofList l).m.sorted
  rw [← hkeys, List.sum_toFinset _ hnd]
  unfold OMap.keys
  rw [List.map_map]
  congr 1
  apply List.map_congr_left
  intro p hp
  have hf := OMap.find?_of_mem (wf_ofList l).m.sorted (k := p.1) (v := p.2) hp
  have h1 := getCount_ofList l p.1
  unfold getCount Counter.count at h1
  rw [hf] at h1
  simp only [Option.getD_some] at h1
  simp [h1]

end DD
end Verif
