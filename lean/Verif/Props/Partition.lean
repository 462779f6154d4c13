import Verif.Props.InstanceList
import Verif.Model.Partition
import Verif.Model.DblReal
import Mathlib.Algebra.Order.Floor.Semiring

/-! # Properties C20–C25: partitions -/

set_option linter.unusedSectionVars false

namespace Verif
open Dbl
variable {F : Type} [Dbl F]

/-! ## helper facts -/

theorem parts_loop {vs : List String} (hnd : vs.Nodup) (key : Inst F → String) (l : IList F) :
    (∀ x ∈ l, key x ∈ vs) → ∀ (l0 : IList F),
    l.foldlM (fun (ps : Parts F) x => Parts.addTo ps (vs.idxOf (key x)) x)
      (vs.map (fun a => l0.filter (fun x => key x == a))) =
    .ok (vs.map (fun a => (l0 ++ l).filter (fun x => key x == a))) := by
  induction l with
  | nil => intro _ l0; simp
  | cons x l ih =>
    intro hv l0
    have hx := hv x (by simp)
    have hk : vs.idxOf (key x) < vs.length := List.idxOf_lt_length_of_mem hx
    rw [List.foldlM_cons]
    have hset : Parts.addTo (vs.map (fun a => l0.filter (fun x => key x == a)))
        (vs.idxOf (key x)) x =
        .ok (vs.map (fun a => (l0 ++ [x]).filter (fun x => key x == a))) := by
      unfold Parts.addTo
      rw [atR_ok_of_lt (by simpa using hk)]
      simp only [res_bind_ok, res_pure, Except.ok.injEq]
      apply List.ext_getElem
      · simp
      · intro j h1 h2
        simp only [List.length_set, List.length_map] at h1 h2
        rw [List.getElem_set]
        by_cases hj : vs.idxOf (key x) = j
        · rw [if_pos hj]
          simp only [List.getElem_map]
          have e1 : vs[vs.idxOf (key x)] = key x := List.getElem_idxOf hk
          have e2 : vs[j] = key x := by subst hj; exact e1
          rw [e1, e2]
          simp [IList.add]
        · rw [if_neg hj]
          simp only [List.getElem_map]
          have hne : ¬ key x = vs[j] := by
            intro he
            apply hj
            rw [he, hnd.idxOf_getElem]
          simp [List.filter_append, hne]
    rw [hset]
    simp only [res_bind_ok]
    rw [ih (fun y hy => hv y (by simp [hy])) (l0 ++ [x])]
    simp

theorem two_loop (b : Inst F → Bool) (l : IList F) : ∀ p q : IList F,
    l.foldlM (fun (ps : Parts F) x => if b x then Parts.addTo ps 0 x else Parts.addTo ps 1 x) [p, q] =
    .ok [p ++ l.filter b, q ++ l.filter (fun x => !b x)] := by
  induction l with
  | nil => intro p q; simp
  | cons x l ih =>
    intro p q
    rw [List.foldlM_cons]
    by_cases hb : b x
    · rw [if_pos hb]
      have : Parts.addTo [p, q] 0 x = .ok [p ++ [x], q] := rfl
      rw [this]; simp only [res_bind_ok]
      rw [ih]; simp [hb]
    · rw [if_neg hb]
      have : Parts.addTo [p, q] 1 x = .ok [p, q ++ [x]] := rfl
      rw [this]; simp only [res_bind_ok]
      rw [ih]; simp [hb]

theorem classes_perm {α : Type} (key : α → String) : ∀ (vs : List String), vs.Nodup →
    ∀ l : List α, (∀ x ∈ l, key x ∈ vs) →
    ((vs.map (fun a => l.filter (fun x => key x == a))).flatten).Perm l := by
  intro vs
  induction vs with
  | nil =>
    intro _ l h
    cases l with
    | nil => exact .refl _
    | cons x l => exact absurd (h x (by simp)) (by simp)
  | cons c vs ih =>
    intro hnd l h
    rw [List.nodup_cons] at hnd
    rw [List.map_cons, List.flatten_cons]
    have heq : vs.map (fun a => l.filter (fun x => key x == a)) =
        vs.map (fun a => (l.filter (fun x => !(key x == c))).filter (fun x => key x == a)) := by
      apply List.map_congr_left
      intro d hd
      rw [List.filter_filter]
      apply List.filter_congr
      intro x _
      have hne : d ≠ c := fun he => hnd.1 (he ▸ hd)
      by_cases hxd : key x = d
      · simp [hxd, hne]
      · simp [hxd]
    rw [heq]
    have := ih hnd.2 (l.filter (fun x => !(key x == c))) (by
      intro x hx
      rw [List.mem_filter] at hx
      rcases List.mem_cons.1 (h x hx.1) with he | he
      · simp [he] at hx
      · exact he)
    exact (List.Perm.append_left _ this).trans (List.filter_append_perm _ l)

/-! ## C20, C21 -/

/-- **C20.** Partition by class: one part per distinct label in first-occurrence order, holding
exactly the instances of that class in original order; none is empty; together they are a
rearrangement of the list. -/
theorem C20_partition_by_class (l : IList F) :
    ∃ cs ps, IsFirstOccurrences (l.map Inst.label) cs ∧ Parts.byClass l = .ok ps ∧
      ps = cs.map (fun c => l.filter (fun x => x.label == c)) ∧
      (∀ p ∈ ps, p ≠ []) ∧ ps.flatten.Perm l := by
  have hfo := C07_distinct_class_labels l
  have hmem : ∀ x ∈ l, x.label ∈ l.getDistinctClassLabels := fun x hx => by
    rw [hfo.mem_iff]; exact List.mem_map_of_mem hx
  refine ⟨_, _, hfo, ?_, rfl, ?_, classes_perm Inst.label _ hfo.nodup l hmem⟩
  · have := parts_loop hfo.nodup Inst.label l hmem []
    simp only [List.filter_nil, List.nil_append] at this
    exact this
  · intro p hp
    obtain ⟨c, hc, rfl⟩ := List.mem_map.1 hp
    rw [hfo.mem_iff] at hc
    obtain ⟨x, hx, hxc⟩ := List.mem_map.1 hc
    intro hnil
    rw [List.filter_eq_nil_iff] at hnil
    exact hnil x hx (by simp [hxc])

/-- **C21.** Partition by a discrete-valued attribute. -/
theorem C21_partition_by_discrete (l : IList F) (i : Nat) (v : Inst F → String)
    (h : ∀ x ∈ l, DiscAt x i (v x)) :
    ∃ vs ps, IsFirstOccurrences (l.map v) vs ∧ Parts.byDiscrete l i = .ok ps ∧
      ps = vs.map (fun a => l.filter (fun x => v x == a)) ∧
      (∀ p ∈ ps, p ≠ []) ∧ ps.flatten.Perm l := by
  have hfo := dedup_first (l.map v)
  have hmem : ∀ x ∈ l, v x ∈ (l.map v).foldl pushNew [] := fun x hx => by
    rw [hfo.mem_iff]; exact List.mem_map_of_mem hx
  refine ⟨_, _, hfo, ?_, rfl, ?_, classes_perm v _ hfo.nodup l hmem⟩
  · unfold Parts.byDiscrete
    rw [valueList_ok h]
    simp only [res_bind_ok]
    have := parts_loop hfo.nodup v l hmem []
    simp only [List.filter_nil, List.nil_append] at this
    rw [← this]
    have hcong : ∀ (l' : IList F), (∀ x ∈ l', DiscAt x i (v x)) → ∀ s : Parts F,
        l'.foldlM (fun ps x => do
          let w ← x.discAt i
          Parts.addTo ps (((l.map v).foldl pushNew []).idxOf w) x) s =
        l'.foldlM (fun ps x => Parts.addTo ps (((l.map v).foldl pushNew []).idxOf (v x)) x) s := by
      intro l'
      induction l' with
      | nil => intro _ s; rfl
      | cons x l' ih =>
        intro hx s
        rw [List.foldlM_cons, List.foldlM_cons, discAt_ok (hx x (by simp))]
        simp only [res_bind_ok]
        congr 1
        funext s'
        exact ih (fun y hy => hx y (by simp [hy])) s'
    exact hcong l h _
  · intro p hp
    obtain ⟨c, hc, rfl⟩ := List.mem_map.1 hp
    rw [hfo.mem_iff] at hc
    obtain ⟨x, hx, hxc⟩ := List.mem_map.1 hc
    intro hnil
    rw [List.filter_eq_nil_iff] at hnil
    exact hnil x hx (by simp [hxc])

/-- sample data for the hypotheses below -/
def exPart : IList XR :=
  [⟨"p", [.discrete "x", .indexed "u" 0 2, .continuous (.fin 1)], none⟩,
   ⟨"q", [.discrete "y", .indexed "w" 1 2, .continuous .nan], none⟩,
   ⟨"p", [.discrete "x", .indexed "w" 1 2, .continuous (.fin 3)], none⟩]

example : (Parts.byClass exPart).map (List.map List.length) = .ok [2, 1] := by decide +kernel
example : (Parts.byDiscrete exPart 0).map (List.map List.length) = .ok [2, 1] := by decide +kernel
example : ∃ v : Inst XR → String, ∀ x ∈ exPart, DiscAt x 0 (v x) :=
  ⟨fun x => (x.discAt 0).toOption.getD "", fun x hx => by
    simp only [exPart, List.mem_cons, List.not_mem_nil, or_false] at hx
    rcases hx with rfl | rfl | rfl <;> exact Or.inl rfl⟩

/-! ## C22, C23 -/

/-- **C22.** Partition by an indexed value. -/
theorem C22_partition_by_indexed (l : IList F) (i : Nat) (k : Int) (v : Inst F → Int)
    (h : ∀ x ∈ l, IndexAt x i (v x)) :
    ∃ p0 p1, Parts.byIndexed l i k = .ok [p0, p1] ∧
      p0 = l.filter (fun x => decide (v x = k)) ∧ p1 = l.filter (fun x => decide (v x ≠ k)) ∧
      (p0 ++ p1).Perm l := by
  refine ⟨_, _, ?_, rfl, rfl, ?_⟩
  · have := two_loop (fun x => decide (v x = k)) l [] []
    simp only [List.nil_append] at this
    rw [show (fun x => decide (v x ≠ k)) = fun x => !decide (v x = k) from by funext x; simp, ← this]
    unfold Parts.byIndexed
    have hcong : ∀ (l' : IList F), (∀ x ∈ l', IndexAt x i (v x)) → ∀ s : Parts F,
        l'.foldlM (fun ps x => do
          let v ← x.indexAt i
          if v = k then Parts.addTo ps 0 x else Parts.addTo ps 1 x) s =
        l'.foldlM (fun (ps : Parts F) x => if decide (v x = k) then Parts.addTo ps 0 x
          else Parts.addTo ps 1 x) s := by
      intro l'
      induction l' with
      | nil => intro _ s; rfl
      | cons x l' ih =>
        intro hx s
        rw [List.foldlM_cons, List.foldlM_cons, indexAt_ok (hx x (by simp))]
        simp only [res_bind_ok, decide_eq_true_eq]
        congr 1
        funext s'
        simpa using ih (fun y hy => hx y (by simp [hy])) s'
    exact hcong l h _
  · have := List.filter_append_perm (fun x => decide (v x = k)) l
    simpa using this

/-- **C23.** Partition by a threshold, in any arithmetic (NaN compares false with `<=` and goes
to the second part). -/
theorem C23_partition_by_threshold (l : IList F) (i : Nat) (t : F) (v : Inst F → F)
    (h : ∀ x ∈ l, ContAt x i (v x)) :
    ∃ p0 p1, Parts.byThreshold l i t = .ok [p0, p1] ∧
      p0 = l.filter (fun x => v x <=. t) ∧ p1 = l.filter (fun x => !(v x <=. t)) ∧
      (p0 ++ p1).Perm l := by
  refine ⟨_, _, ?_, rfl, rfl, List.filter_append_perm _ l⟩
  have := two_loop (fun x => v x <=. t) l [] []
  simp only [List.nil_append] at this
  rw [← this]
  unfold Parts.byThreshold
  have hcong : ∀ (l' : IList F), (∀ x ∈ l', ContAt x i (v x)) → ∀ s : Parts F,
      l'.foldlM (fun ps x => do
        let v ← x.contAt i
        if v <=. t then Parts.addTo ps 0 x else Parts.addTo ps 1 x) s =
      l'.foldlM (fun (ps : Parts F) x => if v x <=. t then Parts.addTo ps 0 x
        else Parts.addTo ps 1 x) s := by
    intro l'
    induction l' with
    | nil => intro _ s; rfl
    | cons x l' ih =>
      intro hx s
      rw [List.foldlM_cons, List.foldlM_cons, contAt_ok (hx x (by simp))]
      simp only [res_bind_ok]
      congr 1
      funext s'
      exact ih (fun y hy => hx y (by simp [hy])) s'
  exact hcong l h _

example : (Parts.byIndexed exPart 1 1).map (List.map List.length) = .ok [2, 1] := by decide +kernel
example : (Parts.byThreshold exPart 2 (.fin 1)).map (List.map List.length) = .ok [1, 2] := by
  decide +kernel
example : ∀ x ∈ exPart, ∃ v, ContAt x 2 v := by
  intro x hx
  simp only [exPart, List.mem_cons, List.not_mem_nil, or_false] at hx
  rcases hx with rfl | rfl | rfl <;> exact ⟨_, rfl⟩

/-! ## C24 -/

theorem ratio_loop (k : Nat) (l : IList F) : ∀ (s : Nat) (p q : IList F),
    (l.zipIdx s).foldlM (fun (ps : Parts F) t =>
      if t.2 < k then Parts.addTo ps 0 t.1 else Parts.addTo ps 1 t.1) [p, q] =
    .ok [p ++ l.take (k - s), q ++ l.drop (k - s)] := by
  induction l with
  | nil => intro s p q; simp
  | cons x l ih =>
    intro s p q
    rw [List.zipIdx_cons, List.foldlM_cons]
    by_cases hs : s < k
    · rw [if_pos (by simpa using hs)]
      have : Parts.addTo [p, q] 0 x = .ok [p ++ [x], q] := rfl
      simp only [this, res_bind_ok]
      rw [ih]
      have : k - s = (k - (s + 1)) + 1 := by omega
      rw [this]; simp
    · rw [if_neg (by simpa using hs)]
      have : Parts.addTo [p, q] 1 x = .ok [p, q ++ [x]] := rfl
      simp only [this, res_bind_ok]
      rw [ih]
      have h1 : k - s = 0 := by omega
      have h2 : k - (s + 1) = 0 := by omega
      rw [h1, h2]; simp

/-- **C24.** Random split (exact arithmetic): the shuffled list is cut after `⌈r·n⌉` instances
(all of them when `r ≥ 1`); the parts together are a rearrangement of the list; for
`0 ≤ r ≤ 1` the first part has exactly `⌈r·n⌉` instances. The caller's list is left
shuffled. -/
theorem C24_random_split (l : IList ℝ) (r : ℝ) (σ : List Nat) (hσ : IsPermutation σ l.length) :
    ∃ p0 p1 l', Parts.byRatio l r σ = .ok ([p0, p1], l') ∧ l'.Perm l ∧ p0 ++ p1 = l' ∧
      p0 = l'.take ⌈r * l.length⌉₊ ∧
      (0 ≤ r → r ≤ 1 → p0.length = ⌈r * l.length⌉₊ ∧
        p1.length = l.length - ⌈r * l.length⌉₊) := by
  have hp := C15_shuffle_perm l σ hσ
  set l' := l.shuffle σ with hl'
  refine ⟨l'.take ⌈r * l.length⌉₊, l'.drop ⌈r * l.length⌉₊, l', ?_, hp, List.take_append_drop _ _,
    rfl, ?_⟩
  · unfold Parts.byRatio
    have := ratio_loop ⌈r * l.length⌉₊ l' 0 [] []
    simp only [List.nil_append, Nat.sub_zero] at this
    simp only [← hl']
    have hcong : (fun (ps : Parts ℝ) (p : Inst ℝ × ℕ) =>
        if (Dbl.ofNat p.2 : ℝ) <. Dbl.ofNat l'.length *. r then Parts.addTo ps 0 p.1
        else Parts.addTo ps 1 p.1) =
        (fun (ps : Parts ℝ) (p : Inst ℝ × ℕ) =>
        if p.2 < ⌈r * l.length⌉₊ then Parts.addTo ps 0 p.1 else Parts.addTo ps 1 p.1) := by
      funext ps p
      have : ((Dbl.ofNat p.2 : ℝ) <. Dbl.ofNat l'.length *. r) = decide (p.2 < ⌈r * l.length⌉₊) := by
        simp only [ofNat_real, mul_real, lt_real, decide_eq_decide]
        rw [Nat.lt_ceil, hp.length_eq, mul_comm]
      rw [this]; simp
    rw [hcong, this]
    rfl
  · intro h0 h1
    have hle : ⌈r * l.length⌉₊ ≤ l.length := by
      rw [Nat.ceil_le]
      have : (0 : ℝ) ≤ l.length := Nat.cast_nonneg _
      nlinarith
    constructor
    · rw [List.length_take, hp.length_eq]; omega
    · rw [List.length_drop, hp.length_eq]

/-! ## C25 -/

theorem foldlM_append' {α β : Type} (f : β → α → Res β) (l1 l2 : List α) (s : β) :
    (l1 ++ l2).foldlM f s = (l1.foldlM f s) >>= fun s' => l2.foldlM f s' := by
  rw [List.foldlM_append]

/-- the stratified loop with the comparison replaced by a per-class quota `q c` -/
theorem strat_loop (q : String → Nat) (xs : IList F) :
    ∃ p0 p1, xs.foldlM (fun (st : Counter × Parts F) x => do
        let ps ← if Counter.count st.1 x.label < q x.label then Parts.addTo st.2 0 x
          else Parts.addTo st.2 1 x
        (pure (Counter.put st.1 x.label, ps) : Res (Counter × Parts F))) ([], [[], []]) =
      .ok (Counter.ofList (xs.map Inst.label), [p0, p1]) ∧
      (p0 ++ p1).Perm xs ∧
      (∀ c, p0.filter (fun x => x.label == c) = (xs.filter (fun x => x.label == c)).take (q c)) ∧
      (∀ c, p1.filter (fun x => x.label == c) = (xs.filter (fun x => x.label == c)).drop (q c)) := by
  induction xs using List.reverseRec with
  | nil => exact ⟨[], [], rfl, .refl _, by simp, by simp⟩
  | append_singleton xs x ih =>
    obtain ⟨p0, p1, h1, h2, h3, h4⟩ := ih
    rw [foldlM_append', h1]
    simp only [res_bind_ok, List.foldlM_cons, List.foldlM_nil, Counter.count_ofList]
    have hcnt : ∀ c, (xs.map Inst.label).count c = (xs.filter (fun x => x.label == c)).length := by
      intro c
      rw [List.count, List.countP_map, List.countP_eq_length_filter]; rfl
    have hput : Counter.put (Counter.ofList (xs.map Inst.label)) x.label =
        Counter.ofList ((xs ++ [x]).map Inst.label) := by
      simp [Counter.ofList, List.foldl_append]
    rw [hput]
    by_cases hq : (xs.map Inst.label).count x.label < q x.label
    · refine ⟨p0 ++ [x], p1, ?_, ?_, ?_, ?_⟩
      · rw [if_pos hq]; rfl
      · rw [List.append_assoc]
        exact (List.Perm.append_left p0 (List.perm_append_comm)).trans
          (by rw [← List.append_assoc]; exact h2.append_right [x])
      · intro c
        rw [List.filter_append, h3, List.filter_append]
        by_cases hc : x.label = c
        · subst hc
          rw [hcnt] at hq
          simp only [List.filter_cons, beq_self_eq_true, if_true, List.filter_nil]
          rw [List.take_of_length_le (by omega), List.take_of_length_le (by simp; omega)]
        · simp [hc]
      · intro c
        rw [h4, List.filter_append]
        by_cases hc : x.label = c
        · subst hc
          rw [hcnt] at hq
          simp only [List.filter_cons, beq_self_eq_true, if_true, List.filter_nil]
          rw [List.drop_eq_nil_of_le (by omega), List.drop_eq_nil_of_le (by simp; omega)]
        · simp [hc]
    · refine ⟨p0, p1 ++ [x], ?_, ?_, ?_, ?_⟩
      · rw [if_neg hq]; rfl
      · rw [← List.append_assoc]; exact h2.append_right [x]
      · intro c
        rw [h3, List.filter_append]
        by_cases hc : x.label = c
        · subst hc
          rw [hcnt] at hq
          rw [List.take_append_of_le_length (by omega)]
        · simp [hc]
      · intro c
        rw [List.filter_append, h4, List.filter_append]
        by_cases hc : x.label = c
        · subst hc
          rw [hcnt] at hq
          rw [List.drop_append_of_le_length (by omega)]
        · simp [hc]

/-- the index loop of the stratified branch visits the instances in the order of the random
permutation -/
theorem index_loop {S : Type} (l : IList F) (σ : List Nat) (hσ : ∀ i ∈ σ, i < l.length)
    (f : S → Inst F → Res S) :
    ∀ (n : Nat) (s : S), n ≤ σ.length →
    (List.range n).foldlM (fun s i => do
      let r ← atR σ i
      let x ← l.get r
      f s x) s = ((σ.take n).filterMap (fun i => l[i]?)).foldlM f s := by
  intro n
  induction n with
  | zero => intro s _; rfl
  | succ n ih =>
    intro s hn
    rw [List.range_succ, foldlM_append', ih s (by omega), List.take_add_one]
    have hn' : n < σ.length := by omega
    rw [List.getElem?_eq_getElem hn', List.filterMap_append, foldlM_append']
    congr 1
    funext s'
    have hr := hσ σ[n] (List.getElem_mem hn')
    simp [IList.get, atR, hn', List.getElem?_eq_getElem hr, List.foldlM_cons, List.foldlM_nil]

/-- **C25.** Stratified split (exact arithmetic): for every class `c`, the first part holds the
first `⌈r·n_c⌉` instances of `c` in the random order and the second part the remaining ones;
together the parts are a rearrangement of the list. -/
theorem C25_stratified_split (l : IList ℝ) (r : ℝ) (σ : List Nat)
    (hσ : IsPermutation σ l.length) :
    ∃ p0 p1, Parts.byRatioStratified l r σ = .ok [p0, p1] ∧ (p0 ++ p1).Perm l ∧
      ∀ c, p0.filter (fun x => x.label == c) =
          ((l.shuffle σ).filter (fun x => x.label == c)).take ⌈r * (l.map Inst.label).count c⌉₊ ∧
        p1.filter (fun x => x.label == c) =
          ((l.shuffle σ).filter (fun x => x.label == c)).drop ⌈r * (l.map Inst.label).count c⌉₊ := by
  have hp := C15_shuffle_perm l σ hσ
  obtain ⟨p0, p1, h1, h2, h3, h4⟩ :=
    strat_loop (fun c => ⌈r * (l.map Inst.label).count c⌉₊) (l.shuffle σ)
  refine ⟨p0, p1, ?_, h2.trans hp, fun c => ⟨h3 c, h4 c⟩⟩
  unfold Parts.byRatioStratified
  have hlen : σ.length = l.length := by simpa using hσ.length_eq
  have hidx := index_loop l σ (fun i hi => by
      have := hσ.mem_iff.1 hi; simpa using this)
    (fun (st : Counter × Parts ℝ) x => do
      let ps ←
        if Dbl.ofNat (Counter.count st.1 x.label) <.
            (Dbl.ofNat l.length *. r *. (l.classDistribution.getProbability x.label : ℝ))
        then Parts.addTo st.2 0 x
        else Parts.addTo st.2 1 x
      pure (Counter.put st.1 x.label, ps)) l.length ([], [[], []]) (by omega)
  rw [← hlen, List.take_length, hlen] at hidx
  simp only at hidx ⊢
  rw [hidx]
  have hcong : ∀ (xs : IList ℝ), (∀ x ∈ xs, x ∈ l) → ∀ s,
      xs.foldlM (fun (st : Counter × Parts ℝ) x => do
        let ps ←
          if Dbl.ofNat (Counter.count st.1 x.label) <.
              (Dbl.ofNat l.length *. r *. (l.classDistribution.getProbability x.label : ℝ))
          then Parts.addTo st.2 0 x
          else Parts.addTo st.2 1 x
        (pure (Counter.put st.1 x.label, ps) : Res (Counter × Parts ℝ))) s =
      xs.foldlM (fun (st : Counter × Parts ℝ) x => do
        let ps ← if Counter.count st.1 x.label < ⌈r * (l.map Inst.label).count x.label⌉₊
          then Parts.addTo st.2 0 x else Parts.addTo st.2 1 x
        (pure (Counter.put st.1 x.label, ps) : Res (Counter × Parts ℝ))) s := by
    intro xs
    induction xs with
    | nil => intro _ s; rfl
    | cons x xs ih =>
      intro hm s
      rw [List.foldlM_cons, List.foldlM_cons]
      have hxl : x ∈ l := hm x (by simp)
      have hpos : 0 < (l.map Inst.label).count x.label :=
        List.count_pos_iff.2 (List.mem_map_of_mem hxl)
      have hl0 : (l.length : ℝ) ≠ 0 := by
        have : 0 < l.length := List.length_pos_of_mem hxl
        positivity
      have hc := C10_class_distribution l
      have hprob : (l.classDistribution.getProbability x.label : ℝ) =
          ((l.map Inst.label).count x.label : ℝ) / l.length := by
        unfold DD.getProbability
        have h5 := hc.count x.label
        unfold DD.getCount Counter.count at h5
        cases hf : OMap.find? l.classDistribution.m x.label with
        | none => rw [hf] at h5; simp at h5; omega
        | some k =>
          rw [hf] at h5
          have h6 : l.classDistribution.sum = l.length := by simpa [DD.getSum] using hc.sum
          simp only [Option.getD_some] at h5
          simp [h5, h6]
      have hcond : ((Dbl.ofNat (Counter.count s.1 x.label) : ℝ) <.
            (Dbl.ofNat l.length *. r *. (l.classDistribution.getProbability x.label : ℝ))) =
          decide (Counter.count s.1 x.label < ⌈r * (l.map Inst.label).count x.label⌉₊) := by
        simp only [ofNat_real, mul_real, lt_real, decide_eq_decide, hprob]
        rw [Nat.lt_ceil]
        have : (l.length : ℝ) * r * (((l.map Inst.label).count x.label : ℝ) / l.length) =
            r * (l.map Inst.label).count x.label := by field_simp
        rw [this]
      rw [hcond]
      simp only [decide_eq_true_eq]
      congr 1
      funext s'
      exact ih (fun y hy => hm y (by simp [hy])) s'
  have hsh : l.shuffle σ = σ.filterMap (fun i => l[i]?) := rfl
  rw [← hsh, hcong (l.shuffle σ) (fun x hx => hp.mem_iff.1 hx), h1]
  rfl

/-- **C25.** For `0 ≤ r ≤ 1` the class counts of the first part are exactly `⌈r·n_c⌉`. -/
theorem C25_class_counts (l : IList ℝ) (r : ℝ) (σ : List Nat)
    (hσ : IsPermutation σ l.length) (_h0 : 0 ≤ r) (h1 : r ≤ 1) (ps : Parts ℝ)
    (hps : Parts.byRatioStratified l r σ = .ok ps) (c : String) :
    ∃ p0 p1, ps = [p0, p1] ∧
      (p0.map Inst.label).count c = ⌈r * (l.map Inst.label).count c⌉₊ ∧
      (p1.map Inst.label).count c =
        (l.map Inst.label).count c - ⌈r * (l.map Inst.label).count c⌉₊ := by
  obtain ⟨p0, p1, e, hperm, h2⟩ := C25_stratified_split l r σ hσ
  rw [e] at hps
  cases hps
  have hcnt : ∀ (xs : IList ℝ), (xs.map Inst.label).count c =
      (xs.filter (fun x => x.label == c)).length := by
    intro xs
    rw [List.count, List.countP_map, List.countP_eq_length_filter]; rfl
  have hsh : ((l.shuffle σ).filter (fun x => x.label == c)).length = (l.map Inst.label).count c := by
    rw [← hcnt]; exact ((C15_shuffle_perm l σ hσ).map _).count_eq c
  have hle : ⌈r * (l.map Inst.label).count c⌉₊ ≤ (l.map Inst.label).count c := by
    rw [Nat.ceil_le]
    have : (0 : ℝ) ≤ ((l.map Inst.label).count c : ℝ) := Nat.cast_nonneg _
    nlinarith
  refine ⟨p0, p1, rfl, ?_, ?_⟩
  · rw [hcnt p0, (h2 c).1, List.length_take, hsh]; omega
  · rw [hcnt p1, (h2 c).2, List.length_drop, hsh]

example : IsPermutation [1, 0, 3, 2] ([⟨"a", [], none⟩, ⟨"b", [], none⟩, ⟨"a", [], none⟩,
    ⟨"a", [], none⟩] : IList ℝ).length := by unfold IsPermutation; decide
example : (Parts.byRatioStratified exPart (.fin (1 / 2)) [2, 0, 1]).map
    (List.map (List.map Inst.label)) = .ok [["p", "q"], ["p"]] := by decide +kernel
example : ((Parts.byRatio exPart (.fin (1 / 2)) [2, 0, 1]).map
    (fun r => r.1.map (List.map Inst.label))) = .ok [["p", "p"], ["q"]] := by decide +kernel

end Verif
